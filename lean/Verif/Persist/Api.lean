import Verif.Persist.Ops
/-
Helper lemmas: the effect of the public operations of a transient, and of reading a slice.
-/
namespace Verif.Persist
variable {α : Type} [Inhabited α]

/-- The element at index `i`. -/
def ev (h : Heap α) (s : Slice) (i : Nat) : α :=
  if i < s.tlen then tv h s.tree (s.height - 1) i else h.arr s.tail.base (i - s.tlen)

theorem Shape.node {h h' : Heap α} {s s' : Slice} (S : Shape h s) (e : h'.node = h.node) (e1 : s'.tree = s.tree)
    (e2 : s'.height = s.height) (e3 : s'.tlen = s.tlen) : Shape h' s' := by
  refine ⟨by rw [e2, e3]; exact S.height, by rw [e3]; exact S.mod, fun hh => ?_⟩
  rw [e1, e2]
  exact left_node e (S.left (e2 ▸ hh))

/-- Every pointer on every path has the right kind. -/
def WF (h : Heap α) (root : Ptr) (top : Nat) : Prop :=
  ∀ i, i < 16 ^ (top + 1) → ∀ k, k ≤ top → okAt h (top - k) k (pp h root top i k)

/-- Invariant of a readable slice. -/
structure Readable (h : Heap α) (s : Slice) : Prop where
  shape : Shape h s
  wf : s.height ≠ 0 → WF h s.tree (s.height - 1)
  len : s.tail.len ≤ 16

theorem Full.readable {st : St α} (F : Full st) : Readable st.h st.t.s :=
  ⟨F.shape, fun hh => by obtain ⟨_, T⟩ := F.tree hh; exact T.wf, F.len⟩

theorem Readable.fits {h : Heap α} {s : Slice} (r : Readable h s) {i : Nat} (hi : i < s.tlen) :
    2 ≤ s.height ∧ i < 16 ^ (s.height - 1 + 1) := by
  have h1 := height_pos (n := s.tlen) (by omega)
  have h2 := le_pow_height s.tlen
  rw [← r.shape.height] at h1 h2
  have : s.height - 1 + 1 = s.height := by omega
  rw [this]
  omega

theorem pp_nil_down {h : Heap α} {root : Ptr} {top i k : Nat} (hp : pp h root top i k = .nil) (n : Nat) :
    pp h root top i (k + n) = .nil := by
  induction n with
  | zero => exact hp
  | succ n ih => rw [← Nat.add_assoc, pp, ih]; rfl

theorem atLoop_spec {h : Heap α} {root : Ptr} {top i : Nat} (wf : WF h root top) (hi : i < 16 ^ (top + 1))
    (hr : ∃ r, root = .ref r) : ∀ level, level ≤ top →
      atLoop h i level (pp h root top i (top - level)) = some (pp h root top i top) := by
  intro level
  induction level with
  | zero => intro _; rfl
  | succ level ih =>
    intro hl
    have ih := ih (by omega)
    have ek : top - level = top - (level + 1) + 1 := by omega
    have ed : top - (top - (level + 1)) = level + 1 := by omega
    rw [ek, pp, ed] at ih
    rcases wf i hi (top - (level + 1)) (by omega) with w | ⟨w, h0⟩ | ⟨a, nd, w, hn, hld⟩
    · rw [w]
      have := pp_nil_down w (level + 1)
      rw [show top - (level + 1) + (level + 1) = top by omega] at this
      rw [this]; rfl
    · obtain ⟨r, hr⟩ := hr
      rw [h0] at w
      simp [pp, hr] at w
    · rw [w] at ih ⊢
      cases nd with
      | leaf => simp [Node.isLeaf] at hld; omega
      | inode id ptr =>
        simp only [childOf, hn] at ih
        simp only [atLoop, hn]
        exact ih

theorem resizeLeaf_spec {h : Heap α} {root : Ptr} {top i : Nat} (wf : WF h root top) (hi : i < 16 ^ (top + 1))
    (hr : ∃ r, root = .ref r) : ∀ level, level ≤ top →
      resizeLeaf h i level (pp h root top i (top - level)) = pp h root top i top := by
  intro level
  induction level with
  | zero => intro _; rfl
  | succ level ih =>
    intro hl
    have ih := ih (by omega)
    have ek : top - level = top - (level + 1) + 1 := by omega
    have ed : top - (top - (level + 1)) = level + 1 := by omega
    rw [ek, pp, ed] at ih
    rcases wf i hi (top - (level + 1)) (by omega) with w | ⟨w, h0⟩ | ⟨a, nd, w, hn, hld⟩
    · rw [w]
      have := pp_nil_down w (level + 1)
      rw [show top - (level + 1) + (level + 1) = top by omega] at this
      rw [this]; rfl
    · obtain ⟨r, hr⟩ := hr
      rw [h0] at w
      simp [pp, hr] at w
    · rw [w] at ih ⊢
      cases nd with
      | leaf => simp [Node.isLeaf] at hld; omega
      | inode id ptr =>
        simp only [childOf, hn] at ih
        simp only [resizeLeaf, hn]
        exact ih

theorem Readable.root {h : Heap α} {s : Slice} (r : Readable h s) (hh : s.height ≠ 0) : ∃ a, s.tree = .ref a := by
  obtain ⟨a, ha⟩ := r.shape.left hh 0 (by omega)
  exact ⟨a, ha⟩

/-- `At` reads the element, and never crashes in range. -/
theorem at_spec {h : Heap α} {s : Slice} (r : Readable h s) {i : Int} :
    s.at h i = if 0 ≤ i ∧ i < s.len then some (ev h s i.toNat) else none := by
  unfold Slice.at
  by_cases hb : i < 0 ∨ i ≥ s.len
  · rw [if_pos hb, if_neg (by omega)]
  · have hok : 0 ≤ i ∧ i < s.len := by omega
    rw [if_neg hb, if_pos hok]
    have hlen : i.toNat < s.tlen + s.tail.len := by unfold Slice.len at hb; omega
    simp only
    generalize i.toNat = j at hlen
    unfold ev
    have hmod := r.shape.mod
    have hl16 := r.len
    by_cases hj : j ≥ s.tlen
    · have h2 : ¬ j < s.tlen := by omega
      rw [if_pos hj, show j % 16 = j - s.tlen by omega, if_pos (by omega), if_neg h2]
    · rw [if_neg hj, if_pos (by omega)]
      obtain ⟨h2, hfit⟩ := r.fits (i := j) (by omega)
      have wf := r.wf (by omega)
      have hr := r.root (by omega)
      have := atLoop_spec wf hfit hr (s.height - 1) (Nat.le_refl _)
      rw [Nat.sub_self] at this
      simp only [pp] at this
      rw [this]
      unfold tv
      rcases wf j hfit (s.height - 1) (Nat.le_refl _) with w | ⟨w, h0⟩ | ⟨a, nd, w, hn, hld⟩
      · rw [w]; rfl
      · omega
      · rw [w]
        cases nd with
        | inode => simp [Node.isLeaf] at hld
        | leaf => simp only [hn, leafVal]

/-! ### Set -/

theorem set_spec {st : St α} (F : Full st) {i : Nat} (hi : i < st.t.len) (x : α) :
    ∃ st', st.set i x = some st' ∧ Full st' ∧ Frame st st' ∧ st'.t.len = st.t.len ∧
      ∀ j, j < st.t.len → ev st'.h st'.t.s j = if j = i then x else ev st.h st.t.s j := by
  have htl := F.tl
  have hmod := F.shape.mod
  have h16 := F.len
  unfold Trans.len at *
  unfold St.set
  rw [if_neg (by simp only [Trans.len]; omega)]
  simp only [Int.toNat_natCast]
  by_cases ht : i ≥ st.t.s.tlen
  · rw [if_pos ht]
    obtain ⟨C1, F1, w1, a1, n1, x1, l1, t1, hh1, tl1, len1, arr1⟩ := writeTail_spec F.toCore
    obtain ⟨C2, F2⟩ := tailWrite_spec C1 w1 (fun v k => if k = i % 16 then x else v k)
    rw [if_pos (by rw [len1]; omega)]
    refine ⟨_, rfl, ⟨C2, F.shape.node n1 t1 hh1 tl1⟩, F1.trans F2, ?_, ?_⟩
    · change st.writeTail.t.s.tlen + st.writeTail.t.tailLen = _
      rw [tl1, C1.tl, len1, htl]
    · intro j hj
      unfold ev
      have e1 : (st.writeTail.tailWrite (fun v k => if k = i % 16 then x else v k)).t.s = st.writeTail.t.s := rfl
      rw [e1, tl1, t1, hh1]
      by_cases hjt : j < st.t.s.tlen
      · rw [if_pos hjt, if_pos hjt, if_neg (by omega)]
        exact tv_node (by exact n1) ..
      · rw [if_neg hjt, if_neg hjt]
        simp only [St.tailWrite, if_true]
        by_cases hji : j = i
        · rw [if_pos hji, if_pos (by omega)]
        · rw [if_neg hji, if_neg (by omega)]
          exact arr1 _ (by omega)
  · rw [if_neg ht]
    obtain ⟨h2, hfit⟩ := F.readable.fits (i := i) (by omega)
    obtain ⟨C1, F1, haid, hap, hs, hw, htl1, hnode, harr, hna⟩ := withId_spec F.toCore
    have hcw : ∀ level, (level = st.t.s.height - 1) → St.setLoop i x level st .root =
        St.setLoop i x level st.withId .root := by
      intro level hl
      cases level with
      | zero => omega
      | succ level => simp only [St.setLoop, wnode_withId st]
    have T := C1.tree (by rw [hs]; omega)
    rw [hs] at T
    obtain ⟨st', e, r, t⟩ := setLoop_spec x (by omega : 0 < st.t.s.height - 1) hfit (st.t.s.height - 1) (Nat.le_refl _)
      st.withId .root C1.heap (by rw [hs]; exact T) hap (by rw [Nat.sub_self]; exact .root)
    obtain ⟨C2, F2⟩ := R.core C1 hap.1 (by rw [hs]; omega) (by rw [hs]; exact r)
    have f1 : st'.t.s.height = st.t.s.height := by rw [r.t_eq]; simp only; rw [hs]
    have f2 : st'.t.s.tlen = st.t.s.tlen := by rw [r.t_eq]; simp only; rw [hs]
    have f3 : st'.t.s.tail = st.t.s.tail := by rw [r.t_eq]; simp only; rw [hs]
    have f4 : st'.t.tailLen = st.t.tailLen := by rw [r.t_eq]; simp only; rw [htl1]
    refine ⟨st', by rw [hcw _ rfl]; exact e, ⟨C2, ⟨by rw [f1, f2]; exact F.shape.height, by rw [f2]; exact hmod, ?_⟩⟩,
      F1.trans F2, by rw [f2, f4], ?_⟩
    · intro _ k hk
      rw [f1] at hk ⊢
      refine r.nonnil 0 (pow16_pos _) k hk ?_
      rw [pp_node hnode, hs]
      exact F.shape.left (by omega) k hk
    · intro j hj
      unfold ev
      rw [f1, f2, f3]
      by_cases hjt : j < st.t.s.tlen
      · rw [if_pos hjt, if_pos hjt, t j (F.readable.fits hjt).2, tv_node hnode, hs]
      · rw [if_neg hjt, if_neg hjt, if_neg (by omega), r.arr, harr]

theorem set_none {st : St α} (_F : Full st) {i : Int} (hi : i < 0 ∨ i ≥ st.t.len) (x : α) : st.set i x = none := by
  unfold St.set
  rw [if_pos hi]

/-! ### Append -/

/-- Filling a private tail. -/
theorem tailAppend_spec {st : St α} (C : Core st) (S : Shape st.h st.t.s) (hw : st.t.wtail = true) (src : List α) :
    let n := min (16 - st.t.s.tail.len) src.length
    Core (st.tailAppend src) ∧ Frame st (st.tailAppend src) ∧ Shape (st.tailAppend src).h (st.tailAppend src).t.s ∧
      (st.tailAppend src).t.wtail = true ∧
      (st.tailAppend src).t.s.tail.len = st.t.s.tail.len + n ∧ (st.tailAppend src).t.s.tail.cap = 16 ∧
      (st.tailAppend src).t.s.tlen = st.t.s.tlen ∧ (st.tailAppend src).t.s.tree = st.t.s.tree ∧
      (st.tailAppend src).t.s.height = st.t.s.height ∧ (st.tailAppend src).h.node = st.h.node ∧
      ∀ k, k < st.t.s.tail.len + n → (st.tailAppend src).h.arr (st.tailAppend src).t.s.tail.base k =
        if k < st.t.s.tail.len then st.h.arr st.t.s.tail.base k
        else (src[k - st.t.s.tail.len]?).getD default := by
  intro n
  have hcap := (C.wt hw).1
  have hlen := C.len
  obtain ⟨C1, F1⟩ := tailWrite_spec C hw (fun v k => if st.t.s.tail.len ≤ k ∧ k < st.t.s.tail.len +
    min (st.t.s.tail.cap - st.t.s.tail.len) src.length then (src[k - st.t.s.tail.len]?).getD default else v k)
  have hc1 : st.t.s.tail.len + min (st.t.s.tail.cap - st.t.s.tail.len) src.length ≤ 16 := by rw [hcap]; omega
  obtain ⟨C2, F2⟩ := setLen_spec C1 (n := st.t.s.tail.len + min (st.t.s.tail.cap - st.t.s.tail.len) src.length)
    (by change _ ≤ st.t.s.tail.cap; rw [hcap]; rw [hcap] at hc1; exact hc1) hc1
  refine ⟨C2, F1.trans F2, S.node rfl rfl rfl rfl, hw, ?_, hcap, rfl, rfl, rfl, rfl, ?_⟩
  · change st.t.s.tail.len + min (st.t.s.tail.cap - st.t.s.tail.len) src.length = _
    rw [hcap]
  · intro k hk
    simp only [St.tailAppend, St.tailWrite, Trans.setTail, if_true]
    rw [hcap]
    by_cases hk2 : k < st.t.s.tail.len
    · rw [if_neg (by omega), if_pos hk2]
    · rw [if_pos (by omega), if_neg hk2]

theorem appendFrag_spec {st : St α} (F : Full st) {src : List α} (hlen : st.t.s.tail.len + src.length ≤ 16) :
    ∃ st', st.appendFrag src = some st' ∧ Full st' ∧ Frame st st' ∧ st'.t.len = st.t.len + src.length ∧
      ∀ j, j < st.t.len + src.length → ev st'.h st'.t.s j =
        if j < st.t.len then ev st.h st.t.s j else (src[j - st.t.len]?).getD default := by
  obtain ⟨C1, F1, w1, a1, n1, x1, l1, t1, hh1, tl1, len1, arr1⟩ := writeTail_spec F.toCore
  have S1 := F.shape.node n1 t1 hh1 tl1
  obtain ⟨C2, F2, S2, w2, len2, cap2, tl2, t2, hh2, n2, arr2⟩ := tailAppend_spec C1 S1 w1 src
  have hcap := (C1.wt w1).1
  have htl := F.tl
  have hmin : min (16 - st.t.s.tail.len) src.length = src.length := by omega
  rw [len1, hmin] at len2 arr2
  refine ⟨st.writeTail.tailAppend src, ?_, ⟨C2, S2⟩, F1.trans F2, ?_, ?_⟩
  · unfold St.appendFrag
    simp only
    rw [if_neg (by rw [hcap, len1]; omega)]
  · unfold Trans.len
    rw [C2.tl, tl2, len2, tl1, htl]
    omega
  · intro j hj
    unfold Trans.len at hj ⊢
    rw [htl] at hj ⊢
    unfold ev
    rw [tl2, t2, hh2, tl1, t1, hh1]
    by_cases hjt : j < st.t.s.tlen
    · rw [if_pos hjt, if_pos (by omega), if_pos hjt]
      exact tv_node (n2.trans n1) ..
    · rw [if_neg hjt, if_neg hjt, arr2 _ (by omega)]
      by_cases hj2 : j < st.t.s.tlen + st.t.s.tail.len
      · rw [if_pos (by omega), if_pos hj2, arr1 _ (by omega)]
      · rw [if_neg (by omega), if_neg hj2]
        congr 2
        omega

theorem appendRest_spec {st : St α} (F : Full st) {src : List α} (hlen : st.t.s.tail.len = 0) :
    ∃ st', st.appendRest src = some st' ∧ Full st' ∧ Frame st st' ∧ st'.t.len = st.t.len + src.length ∧
      ∀ j, j < st.t.len + src.length → ev st'.h st'.t.s j =
        if j < st.t.len then ev st.h st.t.s j else (src[j - st.t.len]?).getD default := by
  have htl := F.tl
  unfold St.appendRest
  by_cases hc : src.length ≥ 16
  · rw [if_pos hc]
    obtain ⟨st1, e1, C1, F1, S1, tl1, tail1, w1, arr1, na1, ev1⟩ := appendTree_spec F.toCore F.shape
      (src := src) (total := src.length / 16 * 16) (by omega) (by omega) (by omega)
    have Full1 : Full st1 := ⟨C1, S1⟩
    have hl1 : st1.t.len = st.t.len + src.length / 16 * 16 := by
      unfold Trans.len
      rw [tl1, C1.tl, tail1, htl]; omega
    have hev1 : ∀ j, j < st1.t.len → ev st1.h st1.t.s j =
        if j < st.t.len then ev st.h st.t.s j else (src[j - st.t.len]?).getD default := by
      intro j hj
      unfold Trans.len at *
      rw [htl, hlen] at *
      unfold ev
      rw [tl1, if_pos (by omega), ev1 j (by omega)]
      simp only [Nat.add_zero]
      by_cases hjt : j < st.t.s.tlen
      · rw [if_pos hjt, if_pos hjt, if_pos hjt]
      · rw [if_neg hjt, if_neg hjt]
    simp only [e1, Option.bind_eq_bind, Option.bind_some]
    by_cases hd : (src.drop (src.length / 16 * 16)).length = 0
    · rw [if_pos hd]
      rw [List.length_drop] at hd
      refine ⟨st1, rfl, Full1, F1, by omega, fun j hj => hev1 j (by omega)⟩
    · rw [if_neg hd]
      rw [List.length_drop] at hd
      obtain ⟨st2, e2, Full2, F2, l2, ev2⟩ := appendFrag_spec Full1 (src := src.drop (src.length / 16 * 16))
        (by rw [tail1, hlen, List.length_drop]; omega)
      rw [List.length_drop] at l2 ev2
      refine ⟨st2, e2, Full2, F1.trans F2, by omega, fun j hj => ?_⟩
      rw [ev2 j (by omega)]
      by_cases h1 : j < st1.t.len
      · rw [if_pos h1, hev1 j h1]
      · rw [if_neg h1, if_neg (by omega), List.getElem?_drop]
        congr 2
        omega
  · rw [if_neg hc]
    exact appendFrag_spec F (by omega)

theorem append_spec {st : St α} (F : Full st) (src : List α) :
    ∃ st', st.append src = some st' ∧ Full st' ∧ Frame st st' ∧ st'.t.len = st.t.len + src.length ∧
      ∀ j, j < st.t.len + src.length → ev st'.h st'.t.s j =
        if j < st.t.len then ev st.h st.t.s j else (src[j - st.t.len]?).getD default := by
  have htl := F.tl
  unfold St.append
  by_cases h0 : src.length = 0
  · rw [if_pos h0]
    exact ⟨st, rfl, F, Frame.refl _, by omega, fun j hj => by rw [if_pos (by omega)]⟩
  · rw [if_neg h0]
    by_cases ht : st.t.s.tail.len > 0
    · rw [if_pos ht]
      obtain ⟨C1, F1, w1, a1, n1, x1, l1, t1, hh1, tl1, len1, arr1⟩ := writeTail_spec F.toCore
      have S1 := F.shape.node n1 t1 hh1 tl1
      obtain ⟨C2, F2, S2, w2, len2, cap2, tl2, t2, hh2, n2, arr2⟩ := tailAppend_spec C1 S1 w1 src
      have hcap := (C1.wt w1).1
      have h16 := F.len
      simp only [hcap, len1]
      rw [len1] at len2 arr2
      generalize hn : min (16 - st.t.s.tail.len) src.length = n at *
      generalize hst2 : st.writeTail.tailAppend src = st2 at *
      have Full2 : Full st2 := ⟨C2, S2⟩
      have hl2 : st2.t.len = st.t.len + n := by
        unfold Trans.len
        rw [C2.tl, tl2, len2, tl1, htl]; omega
      have hev2 : ∀ j, j < st.t.len + n → ev st2.h st2.t.s j =
          if j < st.t.len then ev st.h st.t.s j else (src[j - st.t.len]?).getD default := by
        intro j hj
        unfold Trans.len at hj ⊢
        rw [htl] at hj ⊢
        unfold ev
        rw [tl2, t2, hh2, tl1, t1, hh1]
        by_cases hjt : j < st.t.s.tlen
        · rw [if_pos hjt, if_pos (by omega), if_pos hjt]
          exact tv_node (n2.trans n1) ..
        · rw [if_neg hjt, if_neg hjt, arr2 _ (by omega)]
          by_cases hj2 : j < st.t.s.tlen + st.t.s.tail.len
          · rw [if_pos (by omega), if_pos hj2, arr1 _ (by omega)]
          · rw [if_neg (by omega), if_neg hj2]
            congr 2
            omega
      by_cases hd : (src.drop n).length = 0
      · rw [if_pos hd]
        rw [List.length_drop] at hd
        have : n = src.length := by omega
        rw [this] at hl2 hev2
        exact ⟨st2, rfl, Full2, F1.trans F2, hl2, hev2⟩
      · rw [if_neg hd]
        rw [List.length_drop] at hd
        have hfull : st2.t.s.tail.len = 16 := by omega
        rw [hfull]
        obtain ⟨st3, e3, C3, F3, S3, tl3, tail3, w3, arr3, na3, ev3⟩ := appendTree_spec C2 S2
          (src := st2.tailList 16) (total := 16) (by omega) (by omega) (by simp [St.tailList])
        obtain ⟨C4, F4⟩ := setLen_spec C3 (n := 0) (Nat.zero_le _) (by omega)
        let st4 : St α := { st3 with t := st3.t.setTail { st3.t.s.tail with len := 0 } }
        have Full4 : Full st4 := ⟨C4, S3.node rfl rfl rfl rfl⟩
        have hl4 : st4.t.len = st2.t.len := by
          change st3.t.s.tlen + 0 = _
          unfold Trans.len
          rw [tl3, C2.tl, hfull]
        have hev4 : ∀ j, j < st2.t.len → ev st4.h st4.t.s j = ev st2.h st2.t.s j := by
          intro j hj
          unfold Trans.len at hj
          rw [C2.tl, hfull] at hj
          have e : st4.t.s.tlen = st2.t.s.tlen + 16 := tl3
          unfold ev
          rw [e, if_pos hj]
          change tv st3.h st3.t.s.tree (st3.t.s.height - 1) j = _
          rw [ev3 j hj]
          by_cases hjt : j < st2.t.s.tlen
          · rw [if_pos hjt, if_pos hjt]
          · rw [if_neg hjt, if_neg hjt]
            simp only [St.tailList, List.getElem?_map]
            rw [List.getElem?_range (by omega)]
            rfl
        obtain ⟨st5, e5, Full5, F5, l5, ev5⟩ := appendRest_spec Full4 (src := src.drop n) rfl
        rw [List.length_drop] at l5 ev5
        refine ⟨st5, ?_, Full5, (((F1.trans F2).trans F3).trans F4).trans F5, by omega, fun j hj => ?_⟩
        · simp only [e3, Option.bind_eq_bind, Option.bind_some]
          exact e5
        · rw [ev5 j (by omega)]
          by_cases h1 : j < st4.t.len
          · rw [if_pos h1, hev4 j (by omega), hev2 j (by omega)]
          · rw [if_neg h1, if_neg (by omega), List.getElem?_drop]
            congr 2
            omega
    · rw [if_neg ht]
      exact appendRest_spec F (by omega)

/-! ### Resize -/

theorem cutTail_spec {st : St α} (F : Full st) {n : Nat} (hn : n ≤ st.t.s.tail.cap) (hn16 : n ≤ 16) :
    ∃ st', st.cutTail n = some st' ∧ Full st' ∧ Frame st st' ∧ st'.t.len = st.t.s.tlen + n ∧
      ∀ j, ev st'.h st'.t.s j = ev st.h st.t.s j := by
  obtain ⟨C, Fr⟩ := setLen_spec F.toCore hn hn16
  refine ⟨_, by unfold St.cutTail; rw [if_pos hn], ⟨C, F.shape.node rfl rfl rfl rfl⟩, Fr, rfl, fun j => rfl⟩

theorem resizeGrow_spec {st : St α} (F : Full st) {n : Nat} (hn : st.t.len < n) :
    ∃ st', st.resizeGrow n = some st' ∧ Full st' ∧ Frame st st' ∧ st'.t.len = n ∧
      ∀ j, j < st.t.len → ev st'.h st'.t.s j = ev st.h st.t.s j := by
  have htl := F.tl
  have hmod := F.shape.mod
  have h16 := F.len
  unfold Trans.len at *
  rw [htl] at hn
  try rw [htl]
  obtain ⟨C1, F1, w1, a1, n1, x1, l1, t1, hh1, tl1, len1, arr1⟩ := writeTail_spec F.toCore
  have S1 := F.shape.node n1 t1 hh1 tl1
  have hcap := (C1.wt w1).1
  have hev1 : ∀ j, j < st.t.s.tlen + st.t.s.tail.len → ev st.writeTail.h st.writeTail.t.s j = ev st.h st.t.s j := by
    intro j hj
    unfold ev
    rw [tl1, t1, hh1]
    by_cases hjt : j < st.t.s.tlen
    · rw [if_pos hjt, if_pos hjt]; exact tv_node n1 ..
    · rw [if_neg hjt, if_neg hjt]; exact arr1 _ (by omega)
  unfold St.resizeGrow
  simp only
  by_cases ht : n / 16 * 16 ≠ st.writeTail.t.s.tlen
  · rw [if_pos ht, if_neg (by rw [hcap]; exact Nat.lt_irrefl 16)]
    rw [tl1] at ht
    obtain ⟨st3, e3, C3, F3, S3, tl3, tail3, w3, arr3, na3, ev3⟩ := appendTree_spec C1 S1
      (src := st.writeTail.tailList 16) (total := 16) (by omega) (by omega) (by simp [St.tailList])
    rw [tl1] at tl3 ev3
    obtain ⟨st4, e4, C4, F4, l4, h4, t4, w4, a4, n4, k4⟩ := growTree_spec C3 S3 (tlen := n / 16 * 16) (by omega)
    have hsh3 : st3.t.s.height ≠ 0 := by
      rw [S3.height]; have := height_pos (n := st3.t.s.tlen) (by omega); omega
    obtain ⟨L4, v4⟩ := k4 hsh3
    have Full4 : Full st4 := ⟨C4, ⟨by rw [h4, l4], by rw [l4]; omega, fun _ => L4⟩⟩
    have hcap4 : st4.t.s.tail.cap = 16 := by rw [t4, tail3, hcap]
    obtain ⟨st5, e5, Full5, F5, l5, ev5⟩ := cutTail_spec Full4 (n := n % 16) (by rw [hcap4]; omega) (by omega)
    refine ⟨st5, ?_, Full5, ((F1.trans F3).trans F4).trans F5, ?_, ?_⟩
    · simp only [e3, e4, Option.bind_eq_bind, Option.bind_some]
      exact e5
    · have := Full5.tl
      unfold Trans.len at l5
      rw [l4] at l5
      omega
    · intro j hj
      rw [ev5, ← hev1 j hj]
      have hle3 := le_pow_height st3.t.s.tlen
      rw [← S3.height] at hle3
      unfold ev
      rw [l4, if_pos (by omega), v4 j (by omega), ev3 j (by omega), tl1]
      by_cases hjt : j < st.t.s.tlen
      · rw [if_pos hjt, if_pos hjt]
      · rw [if_neg hjt, if_neg hjt]
        simp only [St.tailList, List.getElem?_map]
        rw [List.getElem?_range (by omega)]
        rfl
  · rw [if_neg ht]
    have ht : n / 16 * 16 = st.t.s.tlen := by rw [tl1] at ht; omega
    obtain ⟨st5, e5, Full5, F5, l5, ev5⟩ := cutTail_spec (⟨C1, S1⟩ : Full st.writeTail) (n := n % 16)
      (by rw [hcap]; omega) (by omega)
    refine ⟨st5, e5, Full5, F1.trans F5, ?_, fun j hj => by rw [ev5, hev1 j hj]⟩
    unfold Trans.len at l5
    rw [tl1] at l5
    omega

theorem resizeShrink_spec {st : St α} (F : Full st) {n : Nat} (hn : n < st.t.len) :
    ∃ st', st.resizeShrink n = some st' ∧ Full st' ∧ Frame st st' ∧ st'.t.len = n ∧
      ∀ j, j < n → ev st'.h st'.t.s j = ev st.h st.t.s j := by
  have htl := F.tl
  have hmod := F.shape.mod
  have h16 := F.len
  unfold Trans.len at *
  rw [htl] at hn
  try rw [htl]
  unfold St.resizeShrink
  simp only
  by_cases ht : n / 16 * 16 ≠ st.t.s.tlen
  · rw [if_pos ht]
    have hlt : n / 16 * 16 < st.t.s.tlen := by omega
    obtain ⟨C1, F1, w1, a1, n1, x1, l1, t1, hh1, tl1, len1, arr1⟩ := writeTail_spec F.toCore
    have S1 := F.shape.node n1 t1 hh1 tl1
    have hcap := (C1.wt w1).1
    rw [if_neg (by rw [hcap]; omega)]
    have R1 : Readable st.writeTail.h st.writeTail.t.s := (⟨C1, S1⟩ : Full st.writeTail).readable
    obtain ⟨h2, hfit⟩ := R1.fits (i := n / 16 * 16) (by rw [tl1]; exact hlt)
    have wf := R1.wf (by omega)
    have hr := R1.root (by omega)
    have hrl := resizeLeaf_spec wf hfit hr (st.writeTail.t.s.height - 1) (Nat.le_refl _)
    rw [Nat.sub_self] at hrl
    simp only [pp] at hrl
    rw [hrl]
    -- the tail is filled with the leaf's values
    have hfill : ∀ j, n / 16 * 16 ≤ j → j < n → ∀ v,
        leafFill st.writeTail.h (pp st.writeTail.h st.writeTail.t.s.tree (st.writeTail.t.s.height - 1) (n / 16 * 16)
          (st.writeTail.t.s.height - 1)) (n % 16) v (j - n / 16 * 16) =
          tv st.writeTail.h st.writeTail.t.s.tree (st.writeTail.t.s.height - 1) j := by
      have hsame : ∀ j, n / 16 * 16 ≤ j → j < n →
          tv st.writeTail.h st.writeTail.t.s.tree (st.writeTail.t.s.height - 1) j =
          leafVal st.writeTail.h (pp st.writeTail.h st.writeTail.t.s.tree (st.writeTail.t.s.height - 1) (n / 16 * 16)
            (st.writeTail.t.s.height - 1)) (j - n / 16 * 16) := by
        intro j hj1 hj2
        unfold tv
        rw [pp_pfx (n := 1) (i := n / 16 * 16) (Nat.le_refl _) (by omega) (by simp only [Nat.pow_one]; omega)]
        congr 1
        omega
      rcases wf _ hfit (st.writeTail.t.s.height - 1) (Nat.le_refl _) with w | ⟨w, h0⟩ | ⟨a, nd, w, hn', hld⟩
      · intro j hj1 hj2 v
        rw [hsame j hj1 hj2, w]
        simp only [leafVal, leafFill]
        rw [if_pos (by omega)]
      · omega
      · intro j hj1 hj2 v
        rw [hsame j hj1 hj2, w]
        cases nd with
        | inode => simp [Node.isLeaf] at hld
        | leaf id val =>
          simp only [leafVal, leafFill, hn']
          rw [if_pos (by omega)]
    generalize leafFill st.writeTail.h (pp st.writeTail.h st.writeTail.t.s.tree (st.writeTail.t.s.height - 1)
      (n / 16 * 16) (st.writeTail.t.s.height - 1)) (n % 16) = f at hfill ⊢
    obtain ⟨C2, F2⟩ := tailWrite_spec C1 w1 f
    have S2 : Shape (st.writeTail.tailWrite f).h (st.writeTail.tailWrite f).t.s := S1.node rfl rfl rfl rfl
    obtain ⟨C3, F3, S3, tl3, tail3, w3, h3, v3⟩ := shrinkTree_spec C2 S2 (tlen := n / 16 * 16)
      (by change _ ≤ st.writeTail.t.s.tlen; rw [tl1]; omega) (by omega)
    obtain ⟨st5, e5, Full5, F5, l5, ev5⟩ := cutTail_spec (⟨C3, S3⟩ : Full _) (n := n % 16)
      (by rw [tail3]; change _ ≤ st.writeTail.t.s.tail.cap; rw [hcap]; omega) (by omega)
    refine ⟨st5, e5, Full5, ((F1.trans F2).trans F3).trans F5, ?_, ?_⟩
    · unfold Trans.len at l5
      rw [tl3] at l5
      omega
    · intro j hj
      rw [ev5]
      unfold ev
      rw [tl3, tail3, h3]
      by_cases hjt : j < n / 16 * 16
      · rw [if_pos hjt, if_pos (by omega), v3 j hjt]
        change tv _ st.writeTail.t.s.tree (st.writeTail.t.s.height - 1) j = _
        rw [t1, hh1]
        exact tv_node (by exact n1) ..
      · rw [if_neg hjt, if_pos (by omega)]
        have := hfill j (by omega) hj (st.writeTail.h.arr st.writeTail.t.s.tail.base)
        rw [t1, hh1, tv_node n1] at this
        rw [← this]
        simp only [St.tailWrite, if_true]
  · rw [if_neg ht]
    have ht : n / 16 * 16 = st.t.s.tlen := by omega
    obtain ⟨st5, e5, Full5, F5, l5, ev5⟩ := cutTail_spec F (n := n % 16) (by have := F.cap; omega) (by omega)
    refine ⟨st5, e5, Full5, F5, ?_, fun j hj => by rw [ev5]⟩
    unfold Trans.len at l5
    omega

theorem resize_spec {st : St α} (F : Full st) (n : Nat) :
    ∃ st', st.resize n = some st' ∧ Full st' ∧ Frame st st' ∧ st'.t.len = n ∧
      ∀ j, j < n → j < st.t.len → ev st'.h st'.t.s j = ev st.h st.t.s j := by
  unfold St.resize
  by_cases h1 : n > st.t.len
  · obtain ⟨st', e, F', Fr, l, v⟩ := resizeGrow_spec F h1
    refine ⟨st', ?_, F', Fr, l, fun j _ h => v j h⟩
    rw [if_pos h1, e]
    simp only [Option.bind_eq_bind, Option.bind_some]
    rw [if_neg (by omega)]
  · by_cases h2 : n < st.t.len
    · obtain ⟨st', e, F', Fr, l, v⟩ := resizeShrink_spec F h2
      refine ⟨st', ?_, F', Fr, l, fun j h _ => v j h⟩
      rw [if_neg h1, if_pos h2, e]
      simp only [Option.bind_eq_bind, Option.bind_some]
      rw [if_neg (by omega)]
    · refine ⟨st, ?_, F, Frame.refl _, by omega, fun j _ _ => rfl⟩
      rw [if_neg h1, if_neg h2]
      simp only [Option.bind_eq_bind, Option.bind_some]
      rw [if_neg (by omega)]

end Verif.Persist
