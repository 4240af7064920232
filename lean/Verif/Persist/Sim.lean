import Verif.Persist.WorldInv
/-
Helper lemmas: every call refines the list specification.
-/
namespace Verif.Persist
variable {α : Type} [Inhabited α]
set_option linter.unusedSectionVars false

/-- The elements a slice shows. -/
def contents (h : Heap α) (s : Slice) : List α := (List.range s.len).map (ev h s)

theorem contents_length (h : Heap α) (s : Slice) : (contents h s).length = s.len := by simp [contents]

theorem contents_get (h : Heap α) (s : Slice) (i : Nat) :
    (contents h s)[i]? = if i < s.len then some (ev h s i) else none := by
  unfold contents
  rw [List.getElem?_map]
  by_cases hi : i < s.len
  · rw [List.getElem?_eq_getElem (by simpa using hi)]
    simp [hi]
  · rw [List.getElem?_eq_none (by simpa using hi)]
    simp [hi]

theorem contents_ext {h : Heap α} {s : Slice} {l : List α} (h1 : l.length = s.len)
    (h2 : ∀ i, i < s.len → l[i]? = some (ev h s i)) : contents h s = l := by
  apply List.ext_getElem?
  intro i
  rw [contents_get]
  by_cases hi : i < s.len
  · rw [if_pos hi, h2 i hi]
  · rw [if_neg hi, List.getElem?_eq_none (by omega)]

theorem reads_contents {h : Heap α} {s : Slice} (r : Readable h s) : Reads h s (contents h s) := by
  refine ⟨(contents_length h s).symm, fun i => ?_⟩
  rw [at_spec r]
  by_cases h0 : 0 ≤ i
  · rw [if_pos h0, contents_get]
    by_cases h1 : i < s.len
    · rw [if_pos ⟨h0, h1⟩, if_pos (by omega)]
    · rw [if_neg (by omega), if_neg (by omega)]
  · rw [if_neg (by omega), if_neg h0]

theorem reads_unique {h : Heap α} {s : Slice} {l l' : List α} (a : Reads h s l) (b : Reads h s l') : l = l' := by
  apply List.ext_getElem?
  intro i
  have h1 := a.2 i
  have h2 := b.2 i
  rw [if_pos (by omega)] at h1 h2
  have e : (i : Int).toNat = i := rfl
  rw [e] at h1 h2
  rw [← h1, ← h2]

theorem untouched_contents {st st' : St α} {s : Slice} (U : Untouched st st' s) : contents st'.h s = contents st.h s := by
  apply contents_ext (contents_length _ _)
  intro i hi
  rw [contents_get, if_pos hi, U.ev i hi]

/-- The abstraction of a program state. -/
def abs (w : World α) : Spec.World α :=
  ⟨w.slices.map (contents w.h), w.trans.map (fun t => contents w.h t.s)⟩

theorem shows_abs {w : World α} (I : WI w) : Shows w (abs w) := by
  refine ⟨by simp [abs], by simp [abs], fun k s l hs hl => ?_, fun k t l ht hl => ?_⟩
  · simp only [abs, List.getElem?_map, hs, Option.map_some, Option.some.injEq] at hl
    subst hl
    exact reads_contents (I.slice s (List.mem_of_getElem? hs)).1
  · simp only [abs, List.getElem?_map, ht, Option.map_some, Option.some.injEq] at hl
    subst hl
    have F := I.tr k t ht
    have := reads_contents F.readable
    refine ⟨?_, this.2⟩
    have h1 := this.1
    have h2 := F.tl
    simp only [Trans.len, Slice.len] at *
    omega

theorem shows_unique {w : World α} (I : WI w) {a : Spec.World α} (S : Shows w a) : a = abs w := by
  have A := shows_abs I
  obtain ⟨as, at'⟩ := a
  have h1 : as = (abs w).slices := by
    apply List.ext_getElem?
    intro k
    by_cases hk : k < w.slices.length
    · have e0 : w.slices[k]? = some w.slices[k] := List.getElem?_eq_getElem hk
      have hk1 : k < as.length := by rw [← S.nslices]; exact hk
      have hk2 : k < (abs w).slices.length := by rw [← A.nslices]; exact hk
      have e1 : as[k]? = some as[k] := List.getElem?_eq_getElem hk1
      have e2 : (abs w).slices[k]? = some (abs w).slices[k] := List.getElem?_eq_getElem hk2
      rw [e1, e2, reads_unique (S.slices k _ _ e0 e1) (A.slices k _ _ e0 e2)]
    · rw [List.getElem?_eq_none (by have := S.nslices; simp only at this; omega),
        List.getElem?_eq_none (by have := A.nslices; omega)]
  have h2 : at' = (abs w).trans := by
    apply List.ext_getElem?
    intro k
    by_cases hk : k < w.trans.length
    · have e0 : w.trans[k]? = some w.trans[k] := List.getElem?_eq_getElem hk
      have hk1 : k < at'.length := by rw [← S.ntrans]; exact hk
      have hk2 : k < (abs w).trans.length := by rw [← A.ntrans]; exact hk
      have e1 : at'[k]? = some at'[k] := List.getElem?_eq_getElem hk1
      have e2 : (abs w).trans[k]? = some (abs w).trans[k] := List.getElem?_eq_getElem hk2
      have r1 := S.trans k _ _ e0 e1
      have r2 := A.trans k _ _ e0 e2
      have r1' : Reads w.h w.trans[k].s at'[k] := ⟨by
        have := r1.1; have h3 := (I.tr k _ e0).tl; simp only [Trans.len, Slice.len] at *; omega, r1.2⟩
      have r2' : Reads w.h w.trans[k].s (abs w).trans[k] := ⟨by
        have := r2.1; have h3 := (I.tr k _ e0).tl; simp only [Trans.len, Slice.len] at *; omega, r2.2⟩
      rw [e1, e2, reads_unique r1' r2']
    · rw [List.getElem?_eq_none (by have := S.ntrans; simp only at this; omega),
        List.getElem?_eq_none (by have := A.ntrans; omega)]
  rw [h1, h2]

theorem full_zero {h : Heap α} (HI : HeapInv h) (ha : 0 < h.nextArr) : Full ⟨h, Trans.zero⟩ :=
  ⟨⟨HI, Nat.zero_le _, .inl rfl, fun hh => absurd rfl hh, ha, fun hh => Bool.noConfusion hh, Nat.le_refl _, rfl,
    Nat.zero_le _⟩, ⟨rfl, rfl, fun hh => absurd rfl hh⟩⟩

theorem wi_init : WI (World.init (α := α)) := by
  have HI : HeapInv (World.init (α := α)).h :=
    ⟨fun _ _ h => (nomatch h), fun _ _ h => (nomatch h), fun _ _ h => (nomatch h)⟩
  refine ⟨HI, Nat.zero_lt_one, ?_, ?_, ?_, ?_, ?_, ?_⟩ <;> intros <;> simp [World.init] at *

theorem treeInv_zero {h : Heap α} (HI : HeapInv h) {root : Ptr} {top : Nat} (wf : WF h root top) :
    TreeInv h 0 (fun _ => (0, 0)) root top :=
  ⟨wf, fun i hi k hk a nd _ hn hid => by have := HI.idpos _ _ hn; omega⟩

theorem full_transient {h : Heap α} (HI : HeapInv h) {s : Slice} (r : Readable h s) (hb : s.tail.base < h.nextArr)
    (hc : s.tail.len ≤ s.tail.cap) : Full ⟨h, s.transient⟩ := by
  refine ⟨⟨HI, Nat.zero_le _, ?_, fun hh => ⟨_, treeInv_zero HI (r.wf hh)⟩, hb, fun hh => Bool.noConfusion hh, hc, rfl, r.len⟩,
    r.shape⟩
  have := r.shape.height
  show s.height = 0 ∨ 2 ≤ s.height
  by_cases h0 : s.tlen = 0
  · left; rw [this, h0]; rfl
  · right; rw [this]; exact height_pos h0

theorem getElem?_append_one {β : Type} {l : List β} {x y : β} {k : Nat} (h : (l ++ [x])[k]? = some y) :
    l[k]? = some y ∨ (k = l.length ∧ y = x) := by
  rw [List.getElem?_append] at h
  split at h
  · exact .inl h
  · rename_i hk
    by_cases h0 : k - l.length = 0
    · rw [h0] at h
      right
      refine ⟨by omega, ?_⟩
      simpa using h.symm
    · rw [List.getElem?_eq_none (by simp; omega)] at h
      cases h

/-- Adding a transient that owns nothing. -/
theorem addTrans_inv {w : World α} (I : WI w) {t : Trans} (F : Full ⟨w.h, t⟩) (h0 : t.aid = 0) (hw : t.wtail = false)
    (hav : ∀ (k : Nat) u, w.trans[k]? = some u → u.aid ≠ 0 → AvoidS w.h u.aid t.s)
    (htl : ∀ (k : Nat) u, w.trans[k]? = some u → u.wtail = true → t.s.tail.base ≠ u.s.tail.base) :
    WI { w with trans := w.trans ++ [t] } := by
  have hl : ∀ (j : Nat) u, w.trans[j]? = some u → j ≠ w.trans.length := by
    intro j u hu e
    rw [e, List.getElem?_eq_none (Nat.le_refl _)] at hu
    cases hu
  refine ⟨I.heap, I.arr0, I.slice, ?_, ?_, ?_, ?_, ?_⟩
  · intro k u hu
    rcases getElem?_append_one hu with hu | ⟨_, rfl⟩
    · exact I.tr k u hu
    · exact F
  · intro k u hu hne s hs
    rcases getElem?_append_one hu with hu | ⟨_, rfl⟩
    · exact I.iso1 k u hu hne s hs
    · exact absurd h0 hne
  · intro i j u v hij hu hv hne
    rcases getElem?_append_one hu with hu2 | ⟨_, rfl⟩
    · rcases getElem?_append_one hv with hv2 | ⟨_, rfl⟩
      · exact I.iso2 i j u v hij hu2 hv2 hne
      · exact ⟨hav i u hu2 hne, by rw [h0]; exact fun e => hne e.symm⟩
    · exact absurd h0 hne
  · intro k u hu hw' s hs
    rcases getElem?_append_one hu with hu | ⟨_, rfl⟩
    · exact I.tail1 k u hu hw' s hs
    · rw [hw] at hw'; cases hw'
  · intro i j u v hij hu hv hw'
    rcases getElem?_append_one hu with hu2 | ⟨_, rfl⟩
    · rcases getElem?_append_one hv with hv2 | ⟨_, rfl⟩
      · exact I.tail2 i j u v hij hu2 hv2 hw'
      · exact htl i u hu2 hw'
    · rw [hw] at hw'; cases hw'

/-- Adding a slice. -/
theorem addSlice_inv {w : World α} (I : WI w) {s : Slice} (r : Readable w.h s) (hb : s.tail.base < w.h.nextArr)
    (hc : s.tail.len ≤ s.tail.cap) (hav : ∀ (k : Nat) u, w.trans[k]? = some u → u.aid ≠ 0 → AvoidS w.h u.aid s)
    (htl : ∀ (k : Nat) u, w.trans[k]? = some u → u.wtail = true → s.tail.base ≠ u.s.tail.base) :
    WI { w with slices := w.slices ++ [s] } := by
  refine ⟨I.heap, I.arr0, ?_, I.tr, ?_, I.iso2, ?_, I.tail2⟩
  · intro s' hs
    rcases List.mem_append.1 hs with hs | hs
    · exact I.slice s' hs
    · rw [List.mem_singleton.1 hs]
      exact ⟨r, hb, hc⟩
  · intro k u hu hne s' hs
    rcases List.mem_append.1 hs with hs | hs
    · exact I.iso1 k u hu hne s' hs
    · rw [List.mem_singleton.1 hs]
      exact hav k u hu hne
  · intro k u hu hw s' hs
    rcases List.mem_append.1 hs with hs | hs
    · exact I.tail1 k u hu hw s' hs
    · rw [List.mem_singleton.1 hs]
      exact htl k u hu hw

theorem readable_node {h h' : Heap α} (e : h'.node = h.node) {s s' : Slice} (r : Readable h s) (e1 : s'.tree = s.tree)
    (e2 : s'.height = s.height) (e3 : s'.tlen = s.tlen) (e4 : s'.tail.len = s.tail.len) : Readable h' s' := by
  refine ⟨r.shape.node e e1 e2 e3, fun hh i hi k hk => ?_, by rw [e4]; exact r.len⟩
  rw [e2] at hh hi hk ⊢
  rw [e1, pp_node e]
  have := r.wf hh i hi k hk
  unfold okAt at this ⊢
  rw [e]
  exact this

/-- Forgetting ownership of transient `k` (slice.go:256). -/
theorem dropAid_inv {w : World α} (I : WI w) {k : Nat} {t : Trans} (hk : w.trans[k]? = some t) :
    WI { w with trans := w.trans.set k { t with aid := 0 } } := by
  have hget : ∀ (j : Nat) u, (w.trans.set k { t with aid := 0 })[j]? = some u →
      (j = k ∧ u = { t with aid := 0 }) ∨ (j ≠ k ∧ w.trans[j]? = some u) := by
    intro j u hu
    rw [List.getElem?_set] at hu
    split at hu
    · rename_i e
      split at hu
      · cases hu
        exact .inl ⟨e.symm, rfl⟩
      · cases hu
    · rename_i e
      exact .inr ⟨fun h => e h.symm, hu⟩
  refine ⟨I.heap, I.arr0, I.slice, ?_, ?_, ?_, ?_, ?_⟩
  · intro j u hu
    rcases hget j u hu with ⟨_, rfl⟩ | ⟨_, hu⟩
    · have F := I.tr k t hk
      exact ⟨⟨F.heap, Nat.zero_le _, F.h2, fun hh => ⟨_, treeInv_zero I.heap (F.readable.wf hh)⟩, F.base, F.wt, F.cap,
        F.tl, F.len⟩, F.shape⟩
    · exact I.tr j u hu
  · intro j u hu hne s hs
    rcases hget j u hu with ⟨_, rfl⟩ | ⟨_, hu⟩
    · exact absurd rfl hne
    · exact I.iso1 j u hu hne s hs
  · intro i j u v hij hu hv hne
    rcases hget i u hu with ⟨_, rfl⟩ | ⟨_, hu2⟩
    · exact absurd rfl hne
    · rcases hget j v hv with ⟨rfl, rfl⟩ | ⟨_, hv2⟩
      · exact ⟨(I.iso2 i j u t hij hu2 hk hne).1, fun e => hne e.symm⟩
      · exact I.iso2 i j u v hij hu2 hv2 hne
  · intro j u hu hw s hs
    rcases hget j u hu with ⟨_, rfl⟩ | ⟨_, hu⟩
    · exact I.tail1 k t hk hw s hs
    · exact I.tail1 j u hu hw s hs
  · intro i j u v hij hu hv hw
    rcases hget i u hu with ⟨rfl, rfl⟩ | ⟨_, hu2⟩
    · rcases hget j v hv with ⟨rfl, rfl⟩ | ⟨_, hv2⟩
      · exact absurd rfl hij
      · exact I.tail2 i j t v hij hk hv2 hw
    · rcases hget j v hv with ⟨rfl, rfl⟩ | ⟨_, hv2⟩
      · exact I.tail2 i j u t hij hu2 hk hw
      · exact I.tail2 i j u v hij hu2 hv2 hw

/-- Allocating an array that nobody uses yet. -/
def Heap.addArr (h : Heap α) (v : Nat → α) : Heap α :=
  { h with arr := fun c => if c = h.nextArr then v else h.arr c, nextArr := h.nextArr + 1 }

theorem addArr_inv {w : World α} (I : WI w) (v : Nat → α) : WI { w with h := w.h.addArr v } := by
  have e : (w.h.addArr v).node = w.h.node := rfl
  refine ⟨⟨I.heap.lt, I.heap.idpos, I.heap.idle⟩, Nat.succ_pos _, ?_, ?_, ?_, ?_, I.tail1, I.tail2⟩
  · intro s hs
    obtain ⟨h1, h2, h3⟩ := I.slice s hs
    exact ⟨readable_node e h1 rfl rfl rfl rfl, Nat.lt_succ_of_lt h2, h3⟩
  · intro k t ht
    have F := I.tr k t ht
    refine ⟨⟨⟨I.heap.lt, I.heap.idpos, I.heap.idle⟩, F.aid, F.h2, fun hh => ?_, Nat.lt_succ_of_lt F.base, F.wt, F.cap,
        F.tl, F.len⟩, F.shape.node e rfl rfl rfl⟩
    exact treeInv_node e (F.tree hh)
  · intro k t ht hne s hs
    exact avoidS_node e rfl rfl (I.iso1 k t ht hne s hs)
  · intro i j t u hij ht hu hne
    exact ⟨avoidS_node e rfl rfl (I.iso2 i j t u hij ht hu hne).1, (I.iso2 i j t u hij ht hu hne).2⟩

theorem addArr_ev {h : Heap α} (v : Nat → α) {s : Slice} (hb : s.tail.base < h.nextArr) (i : Nat) :
    ev (h.addArr v) s i = ev h s i := by
  unfold ev
  rw [tv_node (h := h) (by rfl)]
  have : (h.addArr v).arr s.tail.base = h.arr s.tail.base := by
    show (if s.tail.base = h.nextArr then v else h.arr s.tail.base) = _
    rw [if_neg (by omega)]
  rw [this]

theorem addArr_contents {h : Heap α} (v : Nat → α) {s : Slice} (hb : s.tail.base < h.nextArr) :
    contents (h.addArr v) s = contents h s := by
  unfold contents
  apply List.map_congr_left
  intro i _
  exact addArr_ev v hb i

theorem abs_set_h {w : World α} {k : Nat} {t : Trans} (hk : w.trans[k]? = some t) {st' : St α}
    (U1 : ∀ s, s ∈ w.slices → Untouched ⟨w.h, t⟩ st' s)
    (U2 : ∀ (j : Nat) u, j ≠ k → w.trans[j]? = some u → Untouched ⟨w.h, t⟩ st' u.s) :
    abs { w with h := st'.h, trans := w.trans.set k st'.t } =
      { abs w with trans := (abs w).trans.set k (contents st'.h st'.t.s) } := by
  unfold abs
  simp only [Spec.World.mk.injEq]
  refine ⟨?_, ?_⟩
  · apply List.map_congr_left
    intro s hs
    exact untouched_contents (U1 s hs)
  · apply List.ext_getElem?
    intro j
    rw [List.getElem?_map, List.getElem?_set, List.getElem?_set]
    by_cases hj : k = j
    · subst hj
      simp only [if_true, List.length_map]
      split <;> rfl
    · simp only [hj, if_false, List.getElem?_map]
      cases hu : w.trans[j]? with
      | none => rfl
      | some u =>
        have := untouched_contents (U2 j u (fun e => hj e.symm) hu)
        simp only [Option.map_some, Option.some.injEq]
        exact this

/-- **One call refines one list step.** -/
theorem step_sim {w : World α} (I : WI w) (op : Op α) (hl : Spec.Legal (abs w) op) :
    ∃ w', w.step op = some w' ∧ WI w' ∧ Spec.Step (abs w) op (abs w') := by
  cases op with
  | newSlice =>
    refine ⟨_, rfl, ?_, ?_⟩
    · apply addSlice_inv I ⟨⟨rfl, rfl, fun hh => absurd rfl hh⟩, fun hh => absurd rfl hh, Nat.zero_le _⟩ I.arr0 (Nat.le_refl _)
        (fun _ _ _ _ hh => absurd rfl hh)
      intro k u hu hw
      have := ((I.tr k u hu).wt hw).2
      show 0 ≠ u.s.tail.base
      simp only at this
      omega
    · have : abs { w with slices := w.slices ++ [Slice.zero] } = { abs w with slices := (abs w).slices ++ [[]] } := by
        simp only [abs, List.map_append, List.map_cons, List.map_nil, Spec.World.mk.injEq, and_true]
        rfl
      rw [this]
      exact .newSlice
  | newTrans =>
    refine ⟨_, rfl, ?_, ?_⟩
    · apply addTrans_inv I (full_zero I.heap I.arr0) rfl rfl (fun _ _ _ _ hh => absurd rfl hh)
      intro k u hu hw
      have := ((I.tr k u hu).wt hw).2
      show 0 ≠ u.s.tail.base
      simp only at this
      omega
    · have : abs { w with trans := w.trans ++ [Trans.zero] } = { abs w with trans := (abs w).trans ++ [[]] } := by
        simp only [abs, List.map_append, List.map_cons, List.map_nil, Spec.World.mk.injEq, true_and]
        rfl
      rw [this]
      exact .newTrans
  | transient k =>
    have hk : k < w.slices.length := by simpa [Spec.Legal, abs] using hl
    have hs : w.slices[k]? = some w.slices[k] := List.getElem?_eq_getElem hk
    have hm : w.slices[k] ∈ w.slices := List.getElem_mem hk
    obtain ⟨r, hb, hc⟩ := I.slice _ hm
    refine ⟨{ w with trans := w.trans ++ [w.slices[k].transient] }, ?_, ?_, ?_⟩
    · simp [World.step, hs]
    · exact addTrans_inv I (full_transient I.heap r hb hc) rfl rfl (fun j u hu hne => I.iso1 j u hu hne _ hm)
        (fun j u hu hw => I.tail1 j u hu hw _ hm)
    · have : abs { w with trans := w.trans ++ [w.slices[k].transient] } =
          { abs w with trans := (abs w).trans ++ [contents w.h w.slices[k]] } := by
        simp only [abs, List.map_append, List.map_cons, List.map_nil, Spec.World.mk.injEq, true_and]
        rfl
      rw [this]
      exact .transient (by simp [abs, hs])
  | persist k =>
    have hk : k < w.trans.length := by simpa [Spec.Legal, abs] using hl
    have ht : w.trans[k]? = some w.trans[k] := List.getElem?_eq_getElem hk
    obtain ⟨t, ht⟩ : ∃ t, w.trans[k]? = some t := ⟨_, ht⟩
    have F := I.tr k t ht
    have I1 := dropAid_inv I ht
    have hget : ∀ (j : Nat) u, (w.trans.set k { t with aid := 0 })[j]? = some u →
        (j = k ∧ u = { t with aid := 0 }) ∨ (j ≠ k ∧ w.trans[j]? = some u) := by
      intro j u hu
      rw [List.getElem?_set] at hu
      split at hu
      · rename_i e
        cases hu
        exact .inl ⟨e.symm, rfl⟩
      · rename_i e
        exact .inr ⟨fun h => e h.symm, hu⟩
    have hmap : (w.trans.set k { t with aid := 0 }).map (fun t => contents w.h t.s) =
        w.trans.map (fun t => contents w.h t.s) := by
      apply List.ext_getElem?
      intro j
      rw [List.getElem?_map, List.getElem?_map, List.getElem?_set]
      by_cases hj : k = j
      · subst hj
        rw [if_pos rfl, if_pos hk, ht]
        rfl
      · simp [hj]
    have hspec : (abs w).trans[k]? = some (contents w.h t.s) := by simp [abs, ht]
    by_cases hw : t.wtail = true
    · have I2 := addArr_inv I1 (w.h.arr t.s.tail.base)
      have r : Readable (w.h.addArr (w.h.arr t.s.tail.base)) { t.s with tail := ⟨w.h.nextArr, t.s.tail.len, t.s.tail.len⟩ } :=
        readable_node (h := w.h) (by rfl) F.readable (by rfl) (by rfl) (by rfl) (by rfl)
      have I3 := addSlice_inv I2 r (Nat.lt_succ_self _) (Nat.le_refl _) (fun j u hu hne => by
          rcases hget j u hu with ⟨_, rfl⟩ | ⟨hj, hu⟩
          · exact absurd rfl hne
          · exact avoidS_node (h := w.h) (s := t.s) (by rfl) (by rfl) (by rfl) (I.iso2 j k u t hj hu ht hne).1)
        (fun j u hu hw => by
          have hb : u.s.tail.base < w.h.nextArr := (I1.tr j u hu).base
          show w.h.nextArr ≠ _
          omega)
      refine ⟨_, ?_, I3, ?_⟩
      · simp only [World.step, ht, Option.bind_eq_bind, Option.bind_some, St.persist, hw, if_true]
        rfl
      · have : abs { h := w.h.addArr (w.h.arr t.s.tail.base),
                     slices := w.slices ++ [{ t.s with tail := ⟨w.h.nextArr, t.s.tail.len, t.s.tail.len⟩ }],
                     trans := w.trans.set k { t with aid := 0 } } =
            { abs w with slices := (abs w).slices ++ [contents w.h t.s] } := by
          simp only [abs, List.map_append, List.map_cons, List.map_nil, Spec.World.mk.injEq]
          refine ⟨?_, ?_⟩
          · congr 1
            · apply List.map_congr_left
              intro s hs
              exact addArr_contents _ (I.slice s hs).2.1
            · congr 1
              apply contents_ext (by rw [contents_length]; rfl)
              intro i hi
              have hi' : i < t.s.len := hi
              rw [contents_get, if_pos hi']
              congr 1
              unfold ev
              rw [← tv_node (h := w.h) (h' := w.h.addArr (w.h.arr t.s.tail.base)) (by rfl)]
              have : (w.h.addArr (w.h.arr t.s.tail.base)).arr w.h.nextArr = w.h.arr t.s.tail.base := if_pos rfl
              simp only [this]
          · rw [← hmap]
            apply List.map_congr_left
            intro u hu
            obtain ⟨j, hj⟩ := List.getElem?_of_mem hu
            exact addArr_contents _ (I1.tr j u hj).base
        rw [this]
        exact .persist hspec
    · have hw' : t.wtail = false := by cases h : t.wtail <;> simp_all
      have I3 := addSlice_inv I1 F.readable F.base F.cap (fun j u hu hne => by
          rcases hget j u hu with ⟨_, rfl⟩ | ⟨hj, hu⟩
          · exact absurd rfl hne
          · exact (I.iso2 j k u t hj hu ht hne).1)
        (fun j u hu hwu => by
          rcases hget j u hu with ⟨_, rfl⟩ | ⟨hj, hu⟩
          · exact absurd hwu hw
          · exact I.tail2 j k u t hj hu ht hwu)
      refine ⟨_, ?_, I3, ?_⟩
      · simp only [World.step, ht, Option.bind_eq_bind, Option.bind_some, St.persist, hw', Bool.false_eq_true, if_false]
      · have : abs { w with slices := w.slices ++ [t.s], trans := w.trans.set k { t with aid := 0 } } =
            { abs w with slices := (abs w).slices ++ [contents w.h t.s] } := by
          simp only [abs, List.map_append, List.map_cons, List.map_nil, Spec.World.mk.injEq, true_and]
          exact hmap
        rw [this]
        exact .persist hspec
  | set k i x =>
    obtain ⟨l, hl, h0, h1⟩ := hl
    cases ht : w.trans[k]? with
    | none => simp [abs, ht] at hl
    | some t =>
      simp only [abs, List.getElem?_map, ht, Option.map_some, Option.some.injEq] at hl
      subst hl
      have F := I.tr k t ht
      have htl : t.len = t.s.len := by
        have h2 := F.tl
        simp only [Trans.len, Slice.len] at *
        omega
      rw [contents_length] at h1
      obtain ⟨n, rfl⟩ : ∃ n : Nat, i = n := ⟨i.toNat, by omega⟩
      obtain ⟨st', e, F', Fr, hlen, hv⟩ := set_spec F (i := n) (by show n < t.len; omega) x
      obtain ⟨I', U1, U2⟩ := onTrans_inv I ht F' Fr
      refine ⟨_, ?_, I', ?_⟩
      · simp only [World.step, World.onTrans, ht, Option.bind_eq_bind, Option.bind_some, e]
      · rw [abs_set_h ht U1 U2]
        have hlen' : st'.t.s.len = t.s.len := by
          have h2 := F'.tl
          simp only [Trans.len, Slice.len] at *
          omega
        have : contents st'.h st'.t.s = (contents w.h t.s).set n x := by
          apply contents_ext (by rw [List.length_set, contents_length, hlen'])
          intro j hj
          rw [hlen'] at hj
          rw [hv j (by show j < t.len; omega), List.getElem?_set, contents_length, contents_get]
          by_cases hjn : n = j
          · subst hjn
            simp [hj]
          · simp [hjn, Ne.symm hjn, hj]
        rw [this]
        exact .set (by simp [abs, ht]) (by rw [contents_length]; omega)
  | append k xs =>
    have hk : k < w.trans.length := by simpa [Spec.Legal, abs] using hl
    have ht : w.trans[k]? = some w.trans[k] := List.getElem?_eq_getElem hk
    obtain ⟨t, ht⟩ : ∃ t, w.trans[k]? = some t := ⟨_, ht⟩
    have F := I.tr k t ht
    have htl : t.len = t.s.len := by
      have h2 := F.tl
      simp only [Trans.len, Slice.len] at *
      omega
    obtain ⟨st', e, F', Fr, hlen, hv⟩ := append_spec F xs
    obtain ⟨I', U1, U2⟩ := onTrans_inv I ht F' Fr
    refine ⟨_, ?_, I', ?_⟩
    · simp only [World.step, World.onTrans, ht, Option.bind_eq_bind, Option.bind_some, e]
    · rw [abs_set_h ht U1 U2]
      have hlen' : st'.t.s.len = t.s.len + xs.length := by
        have h2 := F'.tl
        simp only [Trans.len, Slice.len] at *
        omega
      have : contents st'.h st'.t.s = contents w.h t.s ++ xs := by
        apply contents_ext (by rw [List.length_append, contents_length, hlen'])
        intro j hj
        rw [hlen'] at hj
        rw [hv j (by show j < t.len + xs.length; omega), List.getElem?_append, contents_length, contents_get]
        show _ = some (if j < t.len then _ else _)
        rw [htl]
        by_cases hjn : j < t.s.len
        · simp [hjn]
        · simp only [hjn, if_false]
          rw [List.getElem?_eq_getElem (by omega)]
          rfl
      rw [this]
      exact .append (by simp [abs, ht])
  | resize k n =>
    have hk : k < w.trans.length := by simpa [Spec.Legal, abs] using hl
    have ht : w.trans[k]? = some w.trans[k] := List.getElem?_eq_getElem hk
    obtain ⟨t, ht⟩ : ∃ t, w.trans[k]? = some t := ⟨_, ht⟩
    have F := I.tr k t ht
    have htl : t.len = t.s.len := by
      have h2 := F.tl
      simp only [Trans.len, Slice.len] at *
      omega
    obtain ⟨st', e, F', Fr, hlen, hv⟩ := resize_spec F n
    obtain ⟨I', U1, U2⟩ := onTrans_inv I ht F' Fr
    refine ⟨_, ?_, I', ?_⟩
    · simp only [World.step, World.onTrans, ht, Option.bind_eq_bind, Option.bind_some, e]
    · rw [abs_set_h ht U1 U2]
      have hlen' : st'.t.s.len = n := by
        have h2 := F'.tl
        simp only [Trans.len, Slice.len] at *
        omega
      refine .resize (l := contents w.h t.s) (by simp [abs, ht]) (by rw [contents_length, hlen']) (fun i h1 h2 => ?_)
      rw [contents_length] at h2
      rw [contents_get, contents_get, hlen', if_pos h1, if_pos h2, hv i h1 (by show i < t.len; omega)]

/-- A call that is not legal panics and nothing is changed. -/
theorem step_refuse {w : World α} (I : WI w) (op : Op α) (hl : ¬ Spec.Legal (abs w) op) : w.step op = none := by
  have none_of : ∀ k, ¬ k < w.trans.length → w.trans[k]? = none := fun k h => List.getElem?_eq_none (by omega)
  cases op with
  | newSlice => exact absurd trivial hl
  | newTrans => exact absurd trivial hl
  | transient k =>
    have : w.slices[k]? = none := List.getElem?_eq_none (by simpa [Spec.Legal, abs] using hl)
    simp [World.step, this]
  | persist k =>
    have := none_of k (by simpa [Spec.Legal, abs] using hl)
    simp [World.step, this]
  | append k xs =>
    have := none_of k (by simpa [Spec.Legal, abs] using hl)
    simp [World.step, World.onTrans, this]
  | resize k n =>
    have := none_of k (by simpa [Spec.Legal, abs] using hl)
    simp [World.step, World.onTrans, this]
  | set k i x =>
    cases ht : w.trans[k]? with
    | none => simp [World.step, World.onTrans, ht]
    | some t =>
      have F := I.tr k t ht
      have : i < 0 ∨ i ≥ t.len := by
        refine Classical.byContradiction fun hc => hl ⟨contents w.h t.s, by simp [abs, ht], by omega, ?_⟩
        rw [contents_length]
        have h2 := F.tl
        simp only [Trans.len, Slice.len] at *
        omega
      simp only [World.step, World.onTrans, ht, Option.bind_eq_bind, Option.bind_some]
      rw [set_none F this]
      rfl

theorem run_sim (ops : List (Op α)) : ∀ {w : World α}, WI w → WI (w.run ops) ∧ Spec.Run (abs w) ops (abs (w.run ops)) := by
  induction ops with
  | nil => intro w I; exact ⟨I, .nil⟩
  | cons op ops ih =>
    intro w I
    by_cases hl : Spec.Legal (abs w) op
    · obtain ⟨w', e, I', s⟩ := step_sim I op hl
      obtain ⟨h1, h2⟩ := ih I'
      have : w.run (op :: ops) = w'.run ops := by simp [World.run, e]
      rw [this]
      exact ⟨h1, .step s h2⟩
    · have e := step_refuse I op hl
      obtain ⟨h1, h2⟩ := ih I
      have : w.run (op :: ops) = w.run ops := by simp [World.run, e]
      rw [this]
      exact ⟨h1, .refuse hl h2⟩

end Verif.Persist
