import Verif.Shape.Spec

/-!
# Shapes: lemmas
-/

namespace Verif.Shape

/-- The slice lies inside an array. -/
def Ok (m : Mem) (s : Slice) : Prop := s.arr < m.length ∧ s.off + s.len ≤ (m.arr s.arr).length

/-- The first `n` arrays are as they were. -/
def Ext (n : Nat) (m m' : Mem) : Prop := m.length ≤ m'.length ∧ ∀ a, a < n → m'.arr a = m.arr a

theorem Ext.refl (n : Nat) (m : Mem) : Ext n m m := ⟨Nat.le_refl _, fun _ _ => rfl⟩

theorem Ext.trans {n : Nat} {a b c : Mem} (h : Ext n a b) (k : Ext n b c) : Ext n a c :=
  ⟨Nat.le_trans h.1 k.1, fun x hx => by rw [k.2 x hx, h.2 x hx]⟩

theorem Ext.mono {n k : Nat} {a b : Mem} (h : Ext n a b) (hk : k ≤ n) : Ext k a b :=
  ⟨h.1, fun x hx => h.2 x (by omega)⟩

theorem Ext.ok {n : Nat} {m m' : Mem} {s : Slice} (h : Ext n m m') (hs : Ok m s) (hn : s.arr < n) : Ok m' s :=
  ⟨Nat.lt_of_lt_of_le hs.1 h.1, by rw [h.2 _ hn]; exact hs.2⟩

theorem Ext.read {n : Nat} {m m' : Mem} {s : Slice} (h : Ext n m m') (hn : s.arr < n) : read m' s = read m s := by
  unfold Shape.read; rw [h.2 _ hn]

theorem Ext.cap {n : Nat} {m m' : Mem} {s : Slice} (h : Ext n m m') (hn : s.arr < n) : cap m' s = cap m s := by
  unfold Shape.cap; rw [h.2 _ hn]

theorem read_length {m : Mem} {s : Slice} (h : Ok m s) : (read m s).length = s.len := by
  unfold read
  simp only [List.length_take, List.length_drop]
  have := h.2; omega

theorem arr_append_lt (m x : Mem) (a : Nat) (h : a < m.length) : (m ++ x : Mem).arr a = m.arr a := by
  simp [Mem.arr, List.getD, List.getElem?_append, h]

theorem arr_append_eq (m : Mem) (l : List Nat) : (m ++ [l] : Mem).arr m.length = l := by
  simp [Mem.arr, List.getD]

/-- What making a slice of its own gives: the first `n` arrays are as they were, and it holds `l`. -/
structure Made (n : Nat) (m : Mem) (p : Slice × Mem) (l : List Nat) : Prop where
  ext : Ext n m p.2
  ok : Ok p.2 p.1
  own : n ≤ p.1.arr
  val : read p.2 p.1 = l

theorem alloc_made (m : Mem) (l : List Nat) (extra : Nat) : Made m.length m (alloc m l extra) l := by
  refine ⟨⟨?_, ?_⟩, ⟨?_, ?_⟩, Nat.le_refl _, ?_⟩
  · simp [alloc]
  · intro a ha; exact arr_append_lt _ _ _ ha
  · simp [alloc]
  · simp only [alloc, arr_append_eq]; simp
  · simp only [alloc, read, arr_append_eq]; simp

theorem Made.weaken {n k : Nat} {m : Mem} {p : Slice × Mem} {l : List Nat} (h : Made n m p l) (hk : k ≤ n) :
    Made k m p l := ⟨h.ext.mono hk, h.ok, Nat.le_trans hk h.own, h.val⟩

theorem arr_set (m : Mem) (s : Slice) (i v a : Nat) :
    (set m s i v).arr a = if a = s.arr ∧ a < m.length then (m.arr s.arr).set (s.off + i) v else m.arr a := by
  unfold set Mem.arr
  simp only [List.getD, List.getElem?_set]
  by_cases h : s.arr = a
  · subst h
    by_cases h2 : s.arr < m.length
    · simp [h2]
    · simp [h2]
  · have : ¬(a = s.arr) := fun e => h e.symm
    simp [h, this]

theorem set_length (m : Mem) (s : Slice) (i v : Nat) : (set m s i v).length = m.length := by simp [set]

theorem set_ext {n : Nat} {m : Mem} {s : Slice} (h : n ≤ s.arr) (i v : Nat) : Ext n m (set m s i v) := by
  refine ⟨by rw [set_length]; exact Nat.le_refl _, ?_⟩
  intro a ha
  rw [arr_set, if_neg (by omega)]

theorem set_ok {m : Mem} {s t : Slice} (h : Ok m t) (i v : Nat) : Ok (set m s i v) t := by
  refine ⟨by rw [set_length]; exact h.1, ?_⟩
  rw [arr_set]
  split
  · rename_i hc
    rw [List.length_set, ← hc.1]; exact h.2
  · exact h.2

/-- A store inside the slice. -/
theorem set_read {m : Mem} {s : Slice} (h : Ok m s) (i v : Nat) (hi : i < s.len) :
    read (set m s i v) s = (read m s).set i v := by
  unfold read
  rw [arr_set, if_pos ⟨rfl, h.1⟩]
  apply List.ext_getElem?
  intro k
  simp only [List.getElem?_take, List.getElem?_drop, List.getElem?_set, List.length_take, List.length_drop]
  have := h.2
  by_cases hk : k < s.len
  · by_cases e : i = k
    · subst e
      simp [hk]
      have : s.off + i < (m.arr s.arr).length := by omega
      simp [this]
      omega
    · simp [hk, e]
  · simp [hk, show ¬(i = k) by omega]

theorem setEach_made {n : Nat} {m0 : Mem} {s : Slice} : ∀ (ps : List (Nat × Nat)) (m : Mem) (l : List Nat),
    Made n m0 (s, m) l → Made n m0 (s, setEach m s ps) (storesTo l ps)
  | [], _, _, h => h
  | (i, v) :: ps, m, l, h => by
    unfold setEach storesTo
    refine setEach_made ps _ _ ?_
    have hl : l.length = s.len := by rw [← h.val]; exact read_length h.ok
    split
    · rename_i hi
      refine ⟨h.ext.trans (set_ext h.own i v), set_ok h.ok i v, h.own, ?_⟩
      rw [set_read h.ok i v hi]
      have := h.val
      dsimp only at this
      rw [this]
    · rw [List.set_eq_of_length_le (by omega)]
      exact h

theorem writeAll_ext {n : Nat} {s : Slice} (h : n ≤ s.arr) : ∀ (vs : List Nat) (m : Mem) (i : Nat),
    Ext n m (writeAll m s i vs)
  | [], m, _ => Ext.refl n m
  | v :: vs, m, i => (set_ext h i v).trans (writeAll_ext h vs _ _)

theorem writeAll_ok {s t : Slice} : ∀ (vs : List Nat) (m : Mem) (i : Nat), Ok m t → Ok (writeAll m s i vs) t
  | [], _, _, h => h
  | v :: vs, _, i, h => writeAll_ok vs _ _ (set_ok h i v)

/-- Writing `vs` from place `i` on, inside the slice. -/
theorem writeAll_read {s : Slice} : ∀ (vs : List Nat) (m : Mem) (i : Nat), Ok m s → i + vs.length ≤ s.len →
    read (writeAll m s i vs) s = (read m s).take i ++ vs ++ (read m s).drop (i + vs.length)
  | [], m, i, _, _ => by simp [writeAll]
  | v :: vs, m, i, h, hi => by
    simp only [List.length_cons] at hi
    unfold writeAll
    rw [writeAll_read vs _ _ (set_ok h i v) (by omega), set_read h i v (by omega)]
    have hl := read_length h
    have h1 : ((read m s).set i v).take (i + 1) = (read m s).take i ++ [v] := by
      apply List.ext_getElem?
      intro k
      simp only [List.getElem?_take, List.getElem?_set, List.getElem?_append, List.length_take]
      rcases Nat.lt_trichotomy k i with hk | hk | hk
      · simp [show k < i + 1 by omega, show ¬(i = k) by omega, show k < min i (read m s).length by omega, hk]
      · subst hk
        simp [hl, show k < s.len by omega, show ¬(k < min k s.len) by omega, show k - min k s.len = 0 by omega]
      · simp [show ¬(k < i + 1) by omega, show ¬(k < min i (read m s).length) by omega,
          show k - min i (read m s).length ≠ 0 by omega]
    have h2 : ((read m s).set i v).drop (i + 1 + vs.length) = (read m s).drop (i + (vs.length + 1)) := by
      rw [show i + 1 + vs.length = i + (vs.length + 1) by omega, List.drop_set_of_lt (by omega)]
    rw [h1, h2]
    simp

/-- `append` to a slice of one's own. -/
theorem append_made {n : Nat} {m0 m : Mem} {s : Slice} {l : List Nat} (h : Made n m0 (s, m) l) (hn : n ≤ m.length)
    (vs : List Nat) (extra : Nat) : Made n m0 (append m s vs extra) (l ++ vs) := by
  unfold append
  have hv := h.val
  dsimp only at hv
  have hok := h.ok
  dsimp only at hok
  split
  · rename_i hc
    have hs : Ok m { s with len := s.len + vs.length } := by
      refine ⟨hok.1, ?_⟩
      unfold cap at hc
      have := hok.2
      dsimp only
      by_cases he : s.len + vs.length = 0
      · omega
      · omega
    have e : writeAll m s s.len vs = writeAll m { s with len := s.len + vs.length } s.len vs := by
      have : ∀ (vs : List Nat) (m : Mem) (i k : Nat), writeAll m s i vs = writeAll m { s with len := k } i vs := by
        intro vs
        induction vs with
        | nil => intro m i k; rfl
        | cons v vs ih => intro m i k; unfold writeAll; rw [ih _ _ k]; rfl
      exact this vs m s.len _
    refine ⟨h.ext.trans (writeAll_ext h.own vs m s.len), ?_, h.own, ?_⟩
    · exact writeAll_ok vs m s.len hs
    · dsimp only
      rw [e, writeAll_read vs m s.len hs (Nat.le_refl _)]
      have h3 : (read m { s with len := s.len + vs.length }).take s.len = read m s := by
        unfold read
        simp [List.take_take]
      have h4 : (read m { s with len := s.len + vs.length }).drop (s.len + vs.length) = [] := by
        apply List.drop_eq_nil_of_le
        rw [read_length hs]
        exact Nat.le_refl _
      rw [h3, h4, hv]
      simp
  · have g := alloc_made m (read m s ++ vs) extra
    refine ⟨h.ext.trans (g.ext.mono hn), g.ok, Nat.le_trans hn g.own, ?_⟩
    rw [g.val, hv]

theorem appendEach_made {n : Nat} {m0 : Mem} (extra : Nat → Nat) : ∀ (vs : List Nat) (m : Mem) (s : Slice) (l : List Nat),
    Made n m0 (s, m) l → n ≤ m0.length → Made n m0 (appendEach m s extra vs) (l ++ vs)
  | [], m, s, l, h, _ => by unfold appendEach; rw [List.append_nil]; exact h
  | v :: vs, m, s, l, h, hn => by
    unfold appendEach
    have h1 := append_made h (Nat.le_trans hn h.ext.1) [v] (extra vs.length)
    have h2 := appendEach_made extra vs _ _ _ h1 hn
    rw [List.append_assoc] at h2
    exact h2

/-- `append` to a slice without room, whoever else has it. -/
theorem append_full {m : Mem} {s : Slice} (hs : Ok m s) (hf : s.len = cap m s) (vs : List Nat) (extra : Nat) :
    Ext m.length m (append m s vs extra).2 ∧ Ok (append m s vs extra).2 (append m s vs extra).1 ∧
      read (append m s vs extra).2 (append m s vs extra).1 = read m s ++ vs := by
  unfold append
  split
  · have : vs = [] := by
      cases vs with
      | nil => rfl
      | cons v vs => simp only [List.length_cons] at *; omega
    subst this
    exact ⟨Ext.refl _ _, hs, by simp [writeAll]⟩
  · have g := alloc_made m (read m s ++ vs) extra
    exact ⟨g.ext, g.ok, g.val⟩

theorem reverse_made {n : Nat} {m0 m : Mem} {s : Slice} {l : List Nat} (h : Made n m0 (s, m) l) :
    Made n m0 (s, writeAll m s 0 (read m s).reverse) l.reverse := by
  have hv := h.val
  have hok := h.ok
  dsimp only at hv hok
  have hl := read_length hok
  refine ⟨h.ext.trans (writeAll_ext h.own _ _ _), writeAll_ok _ _ _ hok, h.own, ?_⟩
  dsimp only
  rw [writeAll_read _ _ _ hok (by rw [List.length_reverse, hl]; omega)]
  rw [List.drop_eq_nil_of_le (by rw [List.length_reverse]; omega), hv]
  simp

theorem sub_ok {m : Mem} {s : Slice} (h : Ok m s) {lo hi : Nat} (h1 : lo ≤ hi) (h2 : hi ≤ s.len) : Ok m (sub s lo hi) := by
  refine ⟨h.1, ?_⟩
  have := h.2
  simp only [sub]
  omega

theorem sub_read {m : Mem} {s : Slice} {lo hi : Nat} (h2 : hi ≤ s.len) :
    read m (sub s lo hi) = ((read m s).take hi).drop lo := by
  unfold read sub
  dsimp only
  rw [List.take_take, Nat.min_eq_left h2, List.drop_take, List.drop_drop]

/-! ## Histories -/

theorem vals_shapes {m : Mem} {vals : List Slice} {vs : List (List Nat)} (h : vals.map (read m) = vs) (i : Nat) :
    vs[i]? = (vals[i]?).map (read m) := by
  rw [← h, List.getElem?_map]

theorem pieceDims_ideal {m : Mem} {vals : List Slice} {vs : List (List Nat)} (h : vals.map (read m) = vs) (p : Piece) :
    pieceDims m vals p = idealPiece vs p := by
  cases p with
  | matrix i =>
    have e := vals_shapes h i
    show (match vals[i]? with | some s => (read m s).reverse | none => []) = (vs.getD i []).reverse
    rw [List.getD_eq_getElem?_getD, e]
    cases vals[i]? <;> rfl
  | _ => rfl

theorem nil_made (m : Mem) : Made m.length m ((alloc m [] 0).1, (alloc m [] 0).2) [] := alloc_made m [] 0

theorem makeClone_made (m : Mem) (s : Slice) (stores : List (Nat × Nat)) (extra : Nat) :
    Made m.length m (makeClone m s stores extra) (storesTo (read m s) stores) := by
  have a := append_made (nil_made m) (nil_made m).ext.1 (read m s) extra
  rw [List.nil_append] at a
  exact setEach_made stores _ _ a

theorem makeEach_made (m : Mem) (s t : Slice) (k l extra extra' : Nat) (ht : Ok m t) (hk : k ≤ s.len) (hl : l ≤ t.len) :
    Made m.length m (makeEach m s t k l extra extra') ((read m s).take k ++ (read m t).take l) := by
  have a := append_made (nil_made m) (nil_made m).ext.1 (read m (sub s 0 k)) extra
  rw [List.nil_append, sub_read hk] at a
  unfold makeEach
  dsimp only
  rw [sub_read hk]
  revert a
  generalize append (alloc m [] 0).2 (alloc m [] 0).1 (((read m s).take k).drop 0) extra = p
  intro a
  have b := append_made (m := p.2) (s := p.1) a a.ext.1 (read p.2 (sub t 0 l)) extra'
  have e := a.ext.read (show (sub t 0 l).arr < m.length from ht.1)
  rw [e, sub_read hl] at b
  rw [e, sub_read hl]
  exact b

theorem makeIndex_made (m : Mem) (ds : List Nat) (stores : List (Nat × Nat)) (t : Slice) (n : Nat) (extra : Nat → Nat)
    (extra' : Nat) (ht : Ok m t) :
    Made m.length m (makeIndex m ds stores t n extra extra') (storesTo ds.reverse stores ++ (read m t).drop n) := by
  have a := appendEach_made extra ds _ _ _ (nil_made m) (Nat.le_refl _)
  rw [List.nil_append] at a
  unfold makeIndex
  dsimp only
  revert a
  generalize appendEach (alloc m [] 0).2 (alloc m [] 0).1 extra ds = p
  intro a
  have b := setEach_made stores _ _ (reverse_made (m := p.2) (s := p.1) a)
  revert b
  generalize setEach (writeAll p.2 p.1 0 (read p.2 p.1).reverse) p.1 stores = m2
  intro b
  have c := append_made b b.ext.1 (read m2 (sub t n t.len)) extra'
  have e := b.ext.read (show (sub t n t.len).arr < m.length from ht.1)
  dsimp only at e
  have g : read m (sub t n t.len) = (read m t).drop n := by
    rw [sub_read (Nat.le_refl _), List.take_of_length_le (Nat.le_of_eq (read_length ht))]
  rw [e, g] at c
  rw [e, g]
  exact c

/-- An operation on shapes of which none is written over. -/
theorem make_spec {m : Mem} {vals : List Slice} {vs : List (List Nat)} (hok : ∀ s ∈ vals, Ok m s)
    (hv : vals.map (read m) = vs) (op : Op)
    (hr : op.appends = true → ∀ s, vals[op.left]? = some s → s.len = cap m s) :
    (make m vals op = none ∧ ideal vs op = none) ∨
    ∃ p l, make m vals op = some p ∧ ideal vs op = some l ∧ Ext m.length m p.2 ∧ Ok p.2 p.1 ∧ read p.2 p.1 = l := by
  have get : ∀ i : Nat, (vals[i]? = none ∧ vs[i]? = none) ∨
      ∃ s, vals[i]? = some s ∧ vs[i]? = some (read m s) ∧ Ok m s := by
    intro i
    have e := vals_shapes hv i
    rcases h : vals[i]? with _ | s
    · left; rw [h] at e; exact ⟨rfl, e⟩
    · right; rw [h] at e; exact ⟨s, rfl, e, hok s (List.mem_of_getElem? h)⟩
  have made : ∀ {p : Slice × Mem} {l}, Made m.length m p l → Ext m.length m p.2 ∧ Ok p.2 p.1 ∧ read p.2 p.1 = l :=
    fun h => ⟨h.ext, h.ok, h.val⟩
  cases op with
  | fresh l => exact .inr ⟨_, _, rfl, rfl, made (alloc_made m l 0)⟩
  | share i =>
    rcases get i with ⟨h1, h2⟩ | ⟨s, h1, h2, hs⟩
    · left; simp only [make, ideal, h1, h2]; exact ⟨trivial, trivial⟩
    · right; exact ⟨_, _, by simp only [make, h1]; rfl, h2, Ext.refl _ _, hs, rfl⟩
  | «prefix» i k =>
    rcases get i with ⟨h1, h2⟩ | ⟨s, h1, h2, hs⟩
    · left; simp only [make, ideal, h1, h2]; exact ⟨trivial, trivial⟩
    · have hl := read_length hs
      by_cases hk : k ≤ s.len
      · right
        refine ⟨(sub s 0 k, m), (read m s).take k, ?_, ?_, Ext.refl _ _, sub_ok hs (Nat.zero_le _) hk, ?_⟩
        · simp only [make, h1, if_pos hk]
        · simp only [ideal, h2, hl, if_pos hk]
        · dsimp only; rw [sub_read hk]; rfl
      · left; simp only [make, ideal, h1, h2, hl, if_neg hk]; exact ⟨trivial, trivial⟩
  | suffix i k =>
    rcases get i with ⟨h1, h2⟩ | ⟨s, h1, h2, hs⟩
    · left; simp only [make, ideal, h1, h2]; exact ⟨trivial, trivial⟩
    · have hl := read_length hs
      by_cases hk : k ≤ s.len
      · right
        refine ⟨(sub s k s.len, m), (read m s).drop k, ?_, ?_, Ext.refl _ _, sub_ok hs hk (Nat.le_refl _), ?_⟩
        · simp only [make, h1, if_pos hk]
        · simp only [ideal, h2, hl, if_pos hk]
        · dsimp only; rw [sub_read (Nat.le_refl _), List.take_of_length_le (by omega)]
      · left; simp only [make, ideal, h1, h2, hl, if_neg hk]; exact ⟨trivial, trivial⟩
  | clone i stores extra =>
    rcases get i with ⟨h1, h2⟩ | ⟨s, h1, h2, hs⟩
    · left; simp only [make, ideal, h1, h2]; exact ⟨trivial, trivial⟩
    · right
      exact ⟨makeClone m s stores extra, storesTo (read m s) stores, by simp only [make, h1], by simp only [ideal, h2],
        made (makeClone_made m s stores extra)⟩
  | encode n i extra =>
    rcases get i with ⟨h1, h2⟩ | ⟨s, h1, h2, hs⟩
    · left; simp only [make, ideal, h1, h2]; exact ⟨trivial, trivial⟩
    · right
      have g : Made m.length m ((alloc m [n] 0).1, (alloc m [n] 0).2) [n] := alloc_made m [n] 0
      have a := append_made g g.ext.1 (read m s) extra
      exact ⟨append (alloc m [n] 0).2 (alloc m [n] 0).1 (read m s) extra, n :: read m s, by simp only [make, h1],
        by simp only [ideal, h2], made a⟩
  | each i k j l extra extra' =>
    rcases get i with ⟨h1, h2⟩ | ⟨s, h1, h2, hs⟩
    · left; simp only [make, ideal, h1, h2]; exact ⟨trivial, trivial⟩
    · rcases get j with ⟨h3, h4⟩ | ⟨t, h3, h4, ht⟩
      · left; simp only [make, ideal, h1, h2, h3, h4]; exact ⟨trivial, trivial⟩
      · have hls := read_length hs
        have hlt := read_length ht
        by_cases hk : k ≤ s.len ∧ l ≤ t.len
        · right
          exact ⟨makeEach m s t k l extra extra', (read m s).take k ++ (read m t).take l,
            by simp only [make, h1, h3, if_pos hk], by simp only [ideal, h2, h4, hls, hlt, if_pos hk],
            made (makeEach_made m s t k l extra extra' ht hk.1 hk.2)⟩
        · left; simp only [make, ideal, h1, h2, h3, h4, hls, hlt, if_neg hk]; exact ⟨trivial, trivial⟩
  | index ps stores j n extra extra' =>
    rcases get j with ⟨h3, h4⟩ | ⟨t, h3, h4, ht⟩
    · left; simp only [make, ideal, h3, h4]; exact ⟨trivial, trivial⟩
    · have hlt := read_length ht
      by_cases hk : n ≤ t.len
      · right
        have hp : ps.flatMap (pieceDims m vals) = ps.flatMap (idealPiece vs) := by
          rw [show pieceDims m vals = idealPiece vs from funext (pieceDims_ideal hv)]
        exact ⟨makeIndex m (ps.flatMap (idealPiece vs)) stores t n extra extra',
          storesTo (ps.flatMap (idealPiece vs)).reverse stores ++ (read m t).drop n,
          by simp only [make, h3, if_pos hk, hp], by simp only [ideal, h4, hlt, if_pos hk],
          made (makeIndex_made m _ stores t n extra extra' ht)⟩
      · left; simp only [make, ideal, h3, h4, hlt, if_neg hk]; exact ⟨trivial, trivial⟩
  | outer i j extra =>
    rcases get i with ⟨h1, h2⟩ | ⟨s, h1, h2, hs⟩
    · left; simp only [make, ideal, h1, h2]; exact ⟨trivial, trivial⟩
    · rcases get j with ⟨h3, h4⟩ | ⟨t, h3, h4, ht⟩
      · left; simp only [make, ideal, h1, h2, h3, h4]; exact ⟨trivial, trivial⟩
      · right
        exact ⟨append m s (read m t) extra, read m s ++ read m t, by simp only [make, h1, h3], by simp only [ideal, h2, h4],
          append_full hs (hr rfl s h1) (read m t) extra⟩
  | mix i l extra =>
    rcases get i with ⟨h1, h2⟩ | ⟨s, h1, h2, hs⟩
    · left; simp only [make, ideal, h1, h2]; exact ⟨trivial, trivial⟩
    · right
      exact ⟨append m s l extra, read m s ++ l, by simp only [make, h1], by simp only [ideal, h2],
        append_full hs (hr rfl s h1) l extra⟩

/-- All slices lie inside arrays and hold the shapes they should. -/
def Inv (w : St) (vs : List (List Nat)) : Prop := (∀ s ∈ w.vals, Ok w.mem s) ∧ w.shapes = vs

theorem step_inv {w : St} {vs : List (List Nat)} (h : Inv w vs) (op : Op) (hr : op.appends = true → w.full op.left) :
    Inv (step w op) (idealStep vs op) := by
  rcases make_spec h.1 h.2 op hr with ⟨h1, h2⟩ | ⟨p, l, h1, h2, he, hk, hv⟩
  · unfold step idealStep
    rw [h1, h2]
    exact h
  · unfold step idealStep
    rw [h1, h2]
    refine ⟨?_, ?_⟩
    · intro s hs
      rcases List.mem_append.1 hs with hs | hs
      · exact he.ok (h.1 s hs) (h.1 s hs).1
      · rw [List.mem_singleton.1 hs]; exact hk
    · show (w.vals ++ [p.1]).map (read p.2) = vs ++ [l]
      rw [List.map_append, List.map_singleton, hv]
      congr 1
      rw [← h.2]
      exact List.map_congr_left fun s hs => he.read (h.1 s hs).1

theorem run_inv : ∀ (ops : List Op) (w : St) (vs : List (List Nat)), Inv w vs → Roomless w ops →
    Inv (run w ops) (idealRun vs ops)
  | [], _, _, h, _ => h
  | op :: ops, w, vs, h, hr => by
    have := run_inv ops (step w op) (idealStep vs op) (step_inv h op hr.1) hr.2
    exact this

theorem writeAll_length {s : Slice} : ∀ (vs : List Nat) (m : Mem) (i : Nat), (writeAll m s i vs).length = m.length
  | [], _, _ => rfl
  | v :: vs, m, i => by unfold writeAll; rw [writeAll_length vs, set_length]

/-- Writing at places from the end of `s` on leaves alone what does not reach there. -/
theorem writeAll_other {s t : Slice} (h : ¬ Behind s t) : ∀ (vs : List Nat) (m : Mem) (i : Nat), s.len ≤ i →
    read (writeAll m s i vs) t = read m t
  | [], _, _, _ => rfl
  | v :: vs, m, i, hi => by
    unfold writeAll
    rw [writeAll_other h vs _ _ (by omega)]
    unfold read
    rw [arr_set]
    split
    · rename_i hc
      unfold Behind at h
      have : t.off + t.len ≤ s.off + i := by
        by_cases hb : s.off + s.len < t.off + t.len
        · exact absurd ⟨hc.1, hb⟩ h
        · omega
      rw [hc.1]
      apply List.ext_getElem?
      intro k
      simp only [List.getElem?_take, List.getElem?_drop, List.getElem?_set]
      by_cases hk : k < t.len
      · simp only [hk, if_true]
        rw [if_neg (by omega)]
      · simp only [hk, if_false]
    · rfl

/-- `append` to any slice. -/
theorem append_any {m : Mem} {s : Slice} (hs : Ok m s) (vs : List Nat) (extra : Nat) :
    Ok (append m s vs extra).2 (append m s vs extra).1 ∧
      read (append m s vs extra).2 (append m s vs extra).1 = read m s ++ vs ∧
      ∀ t, Ok m t → Ok (append m s vs extra).2 t ∧ (¬ Behind s t → read (append m s vs extra).2 t = read m t) := by
  have a : Made s.arr m (s, m) (read m s) := ⟨Ext.refl _ _, hs, Nat.le_refl _, rfl⟩
  have b := append_made a (Nat.le_of_lt hs.1) vs extra
  refine ⟨b.ok, b.val, ?_⟩
  intro t ht
  unfold append
  split
  · exact ⟨writeAll_ok vs m s.len ht, fun hb => writeAll_other hb vs m s.len (Nat.le_refl _)⟩
  · have g := (alloc_made m (read m s ++ vs) extra).ext
    exact ⟨g.ok ht ht.1, fun _ => g.read ht.1⟩

/-- An operation on any shapes. -/
theorem make_any {m : Mem} {vals : List Slice} (hok : ∀ s ∈ vals, Ok m s) (op : Op) :
    (make m vals op = none ∧ ideal (vals.map (read m)) op = none) ∨
    ∃ p l, make m vals op = some p ∧ ideal (vals.map (read m)) op = some l ∧ Ok p.2 p.1 ∧ read p.2 p.1 = l ∧
      ∀ t, Ok m t → Ok p.2 t ∧
        ((op.appends = true → ∀ s, vals[op.left]? = some s → ¬ Behind s t) → read p.2 t = read m t) := by
  by_cases hr : op.appends = true
  · have get : ∀ i : Nat, (vals[i]? = none ∧ (vals.map (read m))[i]? = none) ∨
        ∃ s, vals[i]? = some s ∧ (vals.map (read m))[i]? = some (read m s) ∧ Ok m s := by
      intro i
      have e := vals_shapes (m := m) (vals := vals) rfl i
      rcases h : vals[i]? with _ | s
      · left; rw [h] at e; exact ⟨rfl, e⟩
      · right; rw [h] at e; exact ⟨s, rfl, e, hok s (List.mem_of_getElem? h)⟩
    cases op with
    | outer i j extra =>
      rcases get i with ⟨h1, h2⟩ | ⟨s, h1, h2, hs⟩
      · left; simp only [make, ideal, h1, h2]; exact ⟨trivial, trivial⟩
      · rcases get j with ⟨h3, h4⟩ | ⟨t, h3, h4, ht⟩
        · left; simp only [make, ideal, h1, h2, h3, h4]; exact ⟨trivial, trivial⟩
        · right
          have g := append_any hs (read m t) extra
          exact ⟨append m s (read m t) extra, read m s ++ read m t, by simp only [make, h1, h3],
            by simp only [ideal, h2, h4], g.1, g.2.1,
            fun u hu => ⟨(g.2.2 u hu).1, fun hb => (g.2.2 u hu).2 (hb rfl s h1)⟩⟩
    | mix i l extra =>
      rcases get i with ⟨h1, h2⟩ | ⟨s, h1, h2, hs⟩
      · left; simp only [make, ideal, h1, h2]; exact ⟨trivial, trivial⟩
      · right
        have g := append_any hs l extra
        exact ⟨append m s l extra, read m s ++ l, by simp only [make, h1],
          by simp only [ideal, h2], g.1, g.2.1,
          fun u hu => ⟨(g.2.2 u hu).1, fun hb => (g.2.2 u hu).2 (hb rfl s h1)⟩⟩
    | _ => cases hr
  · rcases make_spec hok rfl op (fun h => absurd h hr) with h | ⟨p, l, h1, h2, he, hk, hv⟩
    · exact Or.inl h
    · exact Or.inr ⟨p, l, h1, h2, hk, hv, fun t ht => ⟨he.ok ht ht.1, fun _ => he.read ht.1⟩⟩

/-- In every state all slices lie inside arrays. -/
theorem step_ok {w : St} (h : ∀ s ∈ w.vals, Ok w.mem s) (op : Op) : ∀ s ∈ (step w op).vals, Ok (step w op).mem s := by
  unfold step
  rcases make_any h op with ⟨h1, _⟩ | ⟨p, l, h1, _, hk, _, ho⟩
  · rw [h1]; exact h
  · rw [h1]
    intro s hs
    rcases List.mem_append.1 hs with hs | hs
    · exact (ho s (h s hs)).1
    · rw [List.mem_singleton.1 hs]; exact hk

theorem run_ok : ∀ (ops : List Op) {w : St}, (∀ s ∈ w.vals, Ok w.mem s) → ∀ s ∈ (run w ops).vals, Ok (run w ops).mem s
  | [], _, h => h
  | op :: ops, _, h => run_ok ops (step_ok h op)

theorem start_ok : ∀ s ∈ start.vals, Ok start.mem s := by intro s hs; cases hs

/-- Whether a slice has no room, seen from what made it. -/
def Exact (w : St) (n : List Bool) : Prop :=
  n.length = w.vals.length ∧ ∀ i s, w.vals[i]? = some s → n.getD i true = true → s.len = cap w.mem s

theorem make_exact {w : St} {n : List Bool} (hn : Exact w n) {op : Op} {p : Slice × Mem}
    (h : make w.mem w.vals op = some p) (he : exactly n op = true) (hok : ∀ s ∈ w.vals, Ok w.mem s) :
    p.1.len = cap p.2 p.1 := by
  cases op with
  | fresh l =>
    simp only [make, Option.some.injEq] at h
    subst h
    simp [cap, alloc, arr_append_eq]
  | share i =>
    simp only [make] at h
    rcases hi : w.vals[i]? with _ | s
    · rw [hi] at h; cases h
    · rw [hi] at h
      simp only [Option.some.injEq] at h
      subst h
      exact hn.2 i s hi he
  | suffix i k =>
    simp only [make] at h
    rcases hi : w.vals[i]? with _ | s
    · rw [hi] at h; cases h
    · rw [hi] at h
      dsimp only at h
      by_cases hk : k ≤ s.len
      · rw [if_pos hk] at h
        simp only [Option.some.injEq] at h
        subst h
        have a := hn.2 i s hi he
        have b := (hok s (List.mem_of_getElem? hi)).2
        unfold cap at *
        simp only [sub]
        omega
      · rw [if_neg hk] at h; cases h
  | _ => simp [exactly] at he

theorem exact_step {w : St} {vs : List (List Nat)} {n : List Bool} (h : Inv w vs) (hn : Exact w n) (op : Op)
    (hr : op.appends = true → w.full op.left) :
    Exact (step w op) (if (ideal vs op).isSome then n ++ [exactly n op] else n) := by
  rcases make_spec h.1 h.2 op hr with ⟨h1, h2⟩ | ⟨p, l, h1, h2, he, hk, hv⟩
  · unfold step
    rw [h1, h2]
    exact hn
  · unfold step
    rw [h1, h2]
    refine ⟨by simp [hn.1], ?_⟩
    intro i s hs hb
    dsimp only at hs ⊢
    rw [Option.isSome_some, if_pos rfl] at hb
    rw [List.getElem?_append] at hs
    by_cases hi : i < w.vals.length
    · rw [if_pos hi] at hs
      have hb' : n.getD i true = true := by
        rw [List.getD_eq_getElem?_getD] at hb ⊢
        rwa [List.getElem?_append_left (by rw [hn.1]; exact hi)] at hb
      rw [he.cap (h.1 s (List.mem_of_getElem? hs)).1]
      exact hn.2 i s hs hb'
    · rw [if_neg hi] at hs
      have hi' : i = w.vals.length := by
        rcases Nat.lt_or_ge w.vals.length i with hl | hl
        · rw [show i - w.vals.length = (i - w.vals.length - 1) + 1 by omega] at hs
          simp at hs
        · omega
      subst hi'
      simp only [Nat.sub_self, List.getElem?_cons_zero, Option.some.injEq] at hs
      subst hs
      have hb' : exactly n op = true := by
        rw [List.getD_eq_getElem?_getD, List.getElem?_append_right (by rw [hn.1]; exact Nat.le_refl _), hn.1] at hb
        simpa using hb
      exact make_exact hn h1 hb' h.1

/-- Left operands without room by the way they were made. -/
theorem leftExact_roomless : ∀ (ops : List Op) {w : St} {vs : List (List Nat)} {n : List Bool}, Inv w vs → Exact w n →
    LeftExact vs n ops → Roomless w ops
  | [], _, _, _, _, _, _ => trivial
  | op :: ops, w, vs, n, h, hn, hl => by
    have hr : op.appends = true → w.full op.left := fun ha s hs => hn.2 op.left s hs (hl.1 ha)
    exact ⟨hr, leftExact_roomless ops (step_inv h op hr) (exact_step h hn op hr) hl.2⟩

theorem idealRun_append (ops ops' : List Op) (vs : List (List Nat)) :
    idealRun vs (ops ++ ops') = idealRun (idealRun vs ops) ops' := List.foldl_append

theorem idealRun_prefix : ∀ (ops : List Op) (vs : List (List Nat)), vs <+: idealRun vs ops
  | [], vs => List.prefix_refl vs
  | op :: ops, vs => by
    refine List.IsPrefix.trans ?_ (idealRun_prefix ops (idealStep vs op))
    unfold idealStep
    split
    · exact List.prefix_append _ _
    · exact List.prefix_refl vs

end Verif.Shape
