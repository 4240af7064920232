import Verif.Persist.Write
/-
Helper lemmas: the effect of each transient operation on its own contents (`Full`, `ev`) and on
everything else (`Frame`).
-/
namespace Verif.Persist
variable {α : Type} [Inhabited α]

/-- The leftmost path exists all the way down. -/
def Left (h : Heap α) (root : Ptr) (top : Nat) : Prop := ∀ k, k ≤ top → ∃ a, pp h root top 0 k = .ref a

/-- No node of the tree belongs to `tid`. -/
def Avoid (h : Heap α) (tid : Nat) (root : Ptr) (top : Nat) : Prop :=
  ∀ i, i < 16 ^ (top + 1) → ∀ k, k ≤ top → ∀ a nd, pp h root top i k = .ref a → h.node a = some nd → nd.id ≠ tid

/-- No node of the slice belongs to `tid`. -/
def AvoidS (h : Heap α) (tid : Nat) (s : Slice) : Prop := s.height ≠ 0 → Avoid h tid s.tree (s.height - 1)

/-- The id under which an operation starting in `st` writes. -/
def tidOf (st : St α) : Nat := if st.t.aid = 0 then st.h.lastId + 1 else st.t.aid

/-- Invariant that holds even in the middle of an operation. -/
structure Core (st : St α) : Prop where
  heap : HeapInv st.h
  aid : st.t.aid ≤ st.h.lastId
  h2 : st.t.s.height = 0 ∨ 2 ≤ st.t.s.height
  tree : st.t.s.height ≠ 0 → ∃ pos, TreeInv st.h st.t.aid pos st.t.s.tree (st.t.s.height - 1)
  base : st.t.s.tail.base < st.h.nextArr
  wt : st.t.wtail = true → st.t.s.tail.cap = 16 ∧ 0 < st.t.s.tail.base
  cap : st.t.s.tail.len ≤ st.t.s.tail.cap
  tl : st.t.tailLen = st.t.s.tail.len
  len : st.t.s.tail.len ≤ 16

/-- The height fits the length and the tree is populated. -/
structure Shape (h : Heap α) (s : Slice) : Prop where
  height : s.height = height s.tlen
  mod : s.tlen % 16 = 0
  left : s.height ≠ 0 → Left h s.tree (s.height - 1)

/-- Invariant between operations. -/
structure Full (st : St α) : Prop extends Core st where
  shape : Shape st.h st.t.s

/-- What an operation may do outside its own transient. -/
structure Frame (st st' : St α) : Prop where
  ext : Ext (tidOf st) st.h st'.h
  aid : st'.t.aid = tidOf st ∨ (st'.t.aid = 0 ∧ st.t.aid = 0 ∧ st'.h.lastId = st.h.lastId)
  arr : ∀ c, c < st.h.nextArr → (st.t.wtail = true → c ≠ st.t.s.tail.base) → st'.h.arr c = st.h.arr c
  nextArr : st.h.nextArr ≤ st'.h.nextArr
  base : (st'.t.s.tail.base = st.t.s.tail.base ∧ st'.t.wtail = st.t.wtail) ∨
    (st.h.nextArr ≤ st'.t.s.tail.base)
  wtail : st.t.wtail = true → st'.t.wtail = true
  avoid : ∀ tid, tid ≠ tidOf st → AvoidS st.h tid st.t.s → AvoidS st'.h tid st'.t.s

theorem Frame.refl (st : St α) : Frame st st where
  ext := Ext.refl _ _
  aid := by
    unfold tidOf
    split
    · right; simp [*]
    · left; rfl
  arr _ _ _ := rfl
  nextArr := Nat.le_refl _
  base := .inl ⟨rfl, rfl⟩
  wtail h := h
  avoid _ _ h := h

theorem Frame.tidOf_eq {a b : St α} (x : Frame a b) (ha : tidOf a ≠ 0) : tidOf b = tidOf a := by
  rcases x.aid with h | ⟨h1, h2, h3⟩
  · conv => lhs; unfold tidOf
    rw [h, if_neg ha]
  · unfold tidOf
    simp [h1, h2, h3]

theorem tidOf_ne (st : St α) : tidOf st ≠ 0 := by
  unfold tidOf
  split <;> omega

theorem Frame.trans {a b c : St α} (x : Frame a b) (y : Frame b c) : Frame a c := by
  have e := x.tidOf_eq (tidOf_ne a)
  refine ⟨x.ext.trans (e ▸ y.ext), ?_, ?_, Nat.le_trans x.nextArr y.nextArr, ?_, fun h => y.wtail (x.wtail h), ?_⟩
  · rcases y.aid with h | ⟨h1, h2, h3⟩
    · exact .inl (h.trans e)
    · rcases x.aid with g | ⟨g1, g2, g3⟩
      · exact absurd (g.symm.trans h2) (tidOf_ne a)
      · exact .inr ⟨h1, g2, h3.trans g3⟩
  · intro c hc hw
    rw [y.arr c (Nat.lt_of_lt_of_le hc x.nextArr), x.arr c hc hw]
    intro hw2
    rcases x.base with ⟨hb, hwt⟩ | hb
    · rw [hb]; exact hw (hwt ▸ hw2)
    · omega
  · rcases y.base with ⟨hb, hw⟩ | hb
    · rw [hb, hw]; exact x.base
    · exact .inr (Nat.le_trans x.nextArr hb)
  · intro tid ht h
    exact y.avoid tid (e ▸ ht) (x.avoid tid ht h)

/-! ### Only the node memory matters for trees -/

theorem pp_node {h h' : Heap α} (e : h'.node = h.node) (root : Ptr) (top i k : Nat) :
    pp h' root top i k = pp h root top i k := by
  induction k with
  | zero => rfl
  | succ k ih => simp only [pp, ih, childOf, e]

theorem tv_node {h h' : Heap α} (e : h'.node = h.node) (root : Ptr) (top i : Nat) :
    tv h' root top i = tv h root top i := by
  simp only [tv, pp_node e, leafVal, e]

theorem treeInv_node {h h' : Heap α} (e : h'.node = h.node) {tid : Nat} {root : Ptr} {top : Nat}
    (T : ∃ pos, TreeInv h tid pos root top) : ∃ pos, TreeInv h' tid pos root top := by
  obtain ⟨pos, T⟩ := T
  refine ⟨pos, fun i hi k hk => ?_, fun i hi k hk a nd hp hn hid => ?_⟩
  · have := T.wf i hi k hk
    unfold okAt at *
    rw [pp_node e, e]; exact this
  · rw [pp_node e] at hp
    exact T.pos i hi k hk a nd hp (e ▸ hn) hid

theorem avoid_node {h h' : Heap α} (e : h'.node = h.node) {tid : Nat} {root : Ptr} {top : Nat}
    (A : Avoid h tid root top) : Avoid h' tid root top := by
  intro i hi k hk a nd hp hn
  rw [pp_node e] at hp
  exact A i hi k hk a nd hp (e ▸ hn)

theorem avoidS_node {h h' : Heap α} {s s' : Slice} (e : h'.node = h.node) (e1 : s'.tree = s.tree)
    (e2 : s'.height = s.height) {tid : Nat} (A : AvoidS h tid s) : AvoidS h' tid s' := by
  intro hh
  rw [e1, e2]
  exact avoid_node e (A (e2 ▸ hh))

theorem left_node {h h' : Heap α} (e : h'.node = h.node) {root : Ptr} {top : Nat}
    (A : Left h root top) : Left h' root top := by
  intro k hk
  rw [pp_node e]
  exact A k hk

/-! ### Primitive steps -/

theorem withId_spec {st : St α} (C : Core st) : Core st.withId ∧ Frame st st.withId ∧
    st.withId.t.aid = tidOf st ∧ (0 < st.withId.t.aid ∧ st.withId.t.aid ≤ st.withId.h.lastId) ∧
    st.withId.t.s = st.t.s ∧ st.withId.t.wtail = st.t.wtail ∧ st.withId.t.tailLen = st.t.tailLen ∧
    st.withId.h.node = st.h.node ∧ st.withId.h.arr = st.h.arr ∧ st.withId.h.nextArr = st.h.nextArr := by
  have F := Frame.refl st
  unfold St.withId
  split
  · rename_i h0
    have hpp : ∀ root top i k, pp { st.h with lastId := st.h.lastId + 1 } root top i k = pp st.h root top i k := by
      intro root top i k
      induction k with
      | zero => rfl
      | succ k ih => simp only [pp, ih]; rfl
    refine ⟨⟨⟨C.heap.lt, C.heap.idpos, fun a nd h => ?_⟩, Nat.le_refl _, C.h2, ?_, C.base, C.wt, C.cap, C.tl, C.len⟩,
      ⟨⟨fun _ _ h _ => h, fun _ nd h => ⟨nd, h, rfl, rfl⟩, Nat.le_refl _, Nat.le_succ _⟩, ?_, fun _ _ _ => rfl,
        Nat.le_refl _, .inl ⟨rfl, rfl⟩, fun h => h, ?_⟩, ?_, ?_, rfl, rfl, rfl, rfl, rfl, rfl⟩
    · exact Nat.le_succ_of_le (C.heap.idle a nd h)
    · intro hh
      obtain ⟨pos, T⟩ := C.tree hh
      refine ⟨fun _ => (0, 0), ?_, ?_⟩
      · intro i hi k hk
        rw [hpp]
        exact T.wf i hi k hk
      · intro i hi k hk a nd hp hn hid
        have := C.heap.idle a nd hn
        simp only at hid
        omega
    · left; unfold tidOf; rw [if_pos h0]
    · intro tid _ hav hh i hi k hk a nd hp hn
      rw [hpp] at hp
      exact hav hh i hi k hk a nd hp hn
    · unfold tidOf; rw [if_pos h0]
    · simp
  · rename_i h0
    exact ⟨C, F, by unfold tidOf; rw [if_neg h0], ⟨by omega, C.aid⟩, rfl, rfl, rfl, rfl, rfl, rfl⟩

/-- Anything satisfying `R` is a frame-respecting step that keeps `Core`. -/
theorem R.core {st st' : St α} (C : Core st) (haid : 0 < st.t.aid) (hh : st.t.s.height ≠ 0)
    (r : R (st.t.s.height - 1) st st') : Core st' ∧ Frame st st' := by
  have ht := r.t_eq
  have e1 : st'.t.s.height = st.t.s.height := by rw [ht]
  have e2 : st'.t.s.tail = st.t.s.tail := by rw [ht]
  have e3 : st'.t.wtail = st.t.wtail := by rw [ht]
  have e4 : st'.t.tailLen = st.t.tailLen := by rw [ht]
  have etid : tidOf st = st.t.aid := by unfold tidOf; rw [if_neg (by omega)]
  refine ⟨⟨r.heap, by rw [r.aid, r.lastId]; exact C.aid, by rw [e1]; exact C.h2, ?_, by rw [e2, r.nextArr]; exact C.base,
    by rw [e2, e3]; exact C.wt, by rw [e2]; exact C.cap, by rw [e2, e4]; exact C.tl, by rw [e2]; exact C.len⟩,
    ⟨by rw [etid]; exact r.ext, .inl (by rw [r.aid, etid]), fun c _ _ => by rw [r.arr], by rw [r.nextArr]; exact Nat.le_refl _,
      .inl ⟨by rw [e2], e3⟩, by rw [e3]; exact id, ?_⟩⟩
  · intro _
    rw [r.aid, e1]; exact r.tree
  · intro tid htid hav _
    rw [e1]
    intro i hi k hk a nd hp hn he
    rcases r.sub i hi k hk a nd hp hn with h | h
    · rw [etid] at htid
      exact htid (he.symm.trans h)
    · obtain ⟨pos, T⟩ := C.tree hh
      rcases T.wf i hi k hk with w | ⟨w, _⟩ | ⟨q, nq, w, hq, _⟩
      · rw [w] at h; cases h
      · rw [w] at h; cases h
      · rw [w] at h
        cases h
        obtain ⟨n3, e3, i3, _⟩ := r.ext.same _ _ hq
        rw [hn] at e3
        cases e3
        exact hav hh i hi k hk _ nq w hq (i3 ▸ he)

/-- `writeTail`: the tail becomes private, its contents and everything else stay. -/
theorem writeTail_spec {st : St α} (C : Core st) : Core st.writeTail ∧ Frame st st.writeTail ∧
    st.writeTail.t.wtail = true ∧ st.writeTail.t.aid = st.t.aid ∧
    st.writeTail.h.node = st.h.node ∧ st.writeTail.h.next = st.h.next ∧ st.writeTail.h.lastId = st.h.lastId ∧
    st.writeTail.t.s.tree = st.t.s.tree ∧ st.writeTail.t.s.height = st.t.s.height ∧
    st.writeTail.t.s.tlen = st.t.s.tlen ∧ st.writeTail.t.s.tail.len = st.t.s.tail.len ∧
    (∀ k, k < st.t.s.tail.len → st.writeTail.h.arr st.writeTail.t.s.tail.base k = st.h.arr st.t.s.tail.base k) := by
  have F := Frame.refl st
  unfold St.writeTail
  split
  · rename_i hw
    exact ⟨C, F, hw, rfl, rfl, rfl, rfl, rfl, rfl, rfl, rfl, fun _ _ => rfl⟩
  · rename_i hw
    refine ⟨⟨⟨C.heap.lt, C.heap.idpos, C.heap.idle⟩, C.aid, C.h2, ?_, Nat.lt_succ_self _, ?_, C.len, rfl, C.len⟩,
      ⟨⟨fun _ _ h _ => h, fun _ nd h => ⟨nd, h, rfl, rfl⟩, Nat.le_refl _, Nat.le_refl _⟩, ?_, ?_, Nat.le_succ _,
        .inr (Nat.le_refl _), fun _ => rfl, ?_⟩, rfl, rfl, rfl, rfl, rfl, rfl, rfl, rfl, rfl, ?_⟩
    · intro hh
      exact treeInv_node (h := st.h) (by rfl) (C.tree hh)
    · intro _
      exact ⟨rfl, Nat.lt_of_le_of_lt (Nat.zero_le _) C.base⟩
    · exact F.aid
    · intro c hc _
      simp only
      rw [if_neg (Nat.ne_of_lt hc)]
    · intro tid _ hav
      exact avoidS_node (h := st.h) (s := st.t.s) (by rfl) (by rfl) (by rfl) hav
    · intro k hk
      simp [Trans.setTail, hk]

/-- Storing into a private tail. -/
theorem tailWrite_spec {st : St α} (C : Core st) (hw : st.t.wtail = true) (f : (Nat → α) → Nat → α) :
    Core (st.tailWrite f) ∧ Frame st (st.tailWrite f) := by
  refine ⟨⟨⟨C.heap.lt, C.heap.idpos, C.heap.idle⟩, C.aid, C.h2, ?_, C.base, C.wt, C.cap, C.tl, C.len⟩,
    ⟨⟨fun _ _ h _ => h, fun _ nd h => ⟨nd, h, rfl, rfl⟩, Nat.le_refl _, Nat.le_refl _⟩, (Frame.refl st).aid, ?_,
      Nat.le_refl _, .inl ⟨rfl, rfl⟩, fun h => h, ?_⟩⟩
  · intro hh
    exact treeInv_node (h := st.h) (by rfl) (C.tree hh)
  · intro c _ hc
    simp only [St.tailWrite]
    rw [if_neg (hc hw)]
  · intro tid _ hav
    exact avoidS_node (h := st.h) (s := st.t.s) (by rfl) (by rfl) (by rfl) hav

/-- Changing only the length of the tail. -/
theorem setLen_spec {st : St α} (C : Core st) {n : Nat} (hn : n ≤ st.t.s.tail.cap) (hn16 : n ≤ 16) :
    let st' : St α := { st with t := st.t.setTail { st.t.s.tail with len := n } }
    Core st' ∧ Frame st st' :=
  ⟨⟨C.heap, C.aid, C.h2, C.tree, C.base, C.wt, hn, rfl, hn16⟩,
    ⟨Ext.refl _ _, (Frame.refl st).aid, fun _ _ _ => rfl, Nat.le_refl _, .inl ⟨rfl, rfl⟩, fun h => h,
      fun _ _ h => h⟩⟩

/-! ### Growing and shrinking the tree -/

theorem digit_top_zero {top i : Nat} (hi : i < 16 ^ top) : digit top i = 0 := by
  unfold digit
  rw [Nat.div_eq_of_lt hi]

theorem digit_top_ne {top i : Nat} (h1 : 16 ^ top ≤ i) (h2 : i < 16 ^ (top + 1)) : digit top i ≠ 0 := by
  unfold digit
  have hp := pow16_pos top
  have h3 : 0 < i / 16 ^ top := Nat.div_pos h1 hp
  have h4 : i / 16 ^ top < 16 := by
    rw [Nat.div_lt_iff_lt_mul hp, Nat.mul_comm, ← Nat.pow_succ]; exact h2
  omega

/-- Adding one level on top. -/
theorem grow1 {h : Heap α} {tid : Nat} {rt : Ptr} {top r : Nat} (HI : HeapInv h)
    (TI : ∃ pos, TreeInv h tid pos rt top) (htid : 0 < tid ∧ tid ≤ h.lastId) (hr : rt = .ref r) :
    let h' := h.alloc (.inode tid (fun k => if k = 0 then rt else .nil))
    HeapInv h' ∧ (∃ pos, TreeInv h' tid pos (.ref h.next) (top + 1)) ∧ Ext tid h h' ∧
      (∀ i, i < 16 ^ (top + 1) → tv h' (.ref h.next) (top + 1) i = tv h rt top i) ∧
      (Left h rt top → Left h' (.ref h.next) (top + 1)) ∧
      (∀ tid2, tid2 ≠ tid → Avoid h tid2 rt top → Avoid h' tid2 (.ref h.next) (top + 1)) := by
  intro h'
  obtain ⟨pos, TI⟩ := TI
  have hold : ∀ a nd, h.node a = some nd → h'.node a = some nd := by
    intro a nd hn
    have := HI.lt _ _ hn
    simp only [h', Heap.alloc]
    rw [if_neg (by omega)]; exact hn
  have hnew : h'.node h.next = some (.inode tid (fun k => if k = 0 then rt else .nil)) := if_pos rfl
  have hback : ∀ a nd, h'.node a = some nd → a = h.next ∨ h.node a = some nd := by
    intro a nd hn
    simp only [h', Heap.alloc] at hn
    split at hn
    · left; assumption
    · right; exact hn
  have hext0 : Ext 0 h h' :=
    ⟨fun a nd hn _ => hold a nd hn, fun a nd hn => ⟨nd, hold a nd hn, rfl, rfl⟩, Nat.le_succ _, Nat.le_refl _⟩
  have hppo : ∀ i, i < 16 ^ (top + 1) → ∀ k, k ≤ top → pp h' rt top i k = pp h rt top i k := by
    intro i hi k hk
    exact pp_ext hext0 (fun k hk => TI.wf i hi k hk)
      (fun k _ a nd _ hn => by have := HI.idpos _ _ hn; omega) k hk
  have hpp : ∀ i, i < 16 ^ (top + 2) → ∀ k, k ≤ top → pp h' (.ref h.next) (top + 1) i (k + 1) =
      if i < 16 ^ (top + 1) then pp h rt top i k else .nil := by
    intro i hi k hk
    split
    · rename_i hlt
      rw [← hppo i hlt k hk]
      clear hk
      induction k with
      | zero =>
        simp only [pp, childOf, hnew, Nat.sub_zero]
        rw [if_pos (digit_top_zero hlt)]
      | succ k ih =>
        rw [pp, ih, pp]
        have : top + 1 - (k + 1) = top - k := by omega
        rw [this]
    · rename_i hlt
      clear hk
      induction k with
      | zero =>
        simp only [pp, childOf, hnew, Nat.sub_zero]
        rw [if_neg (digit_top_ne (by omega) hi)]
      | succ k ih => rw [pp, ih]; rfl
  have hHI : HeapInv h' := by
    refine ⟨fun a nd hn => ?_, fun a nd hn => ?_, fun a nd hn => ?_⟩ <;> rcases hback a nd hn with rfl | ho
    · exact Nat.lt_succ_self _
    · exact Nat.lt_succ_of_lt (HI.lt _ _ ho)
    · rw [hnew] at hn; cases hn; exact htid.1
    · exact HI.idpos _ _ ho
    · rw [hnew] at hn; cases hn; exact htid.2
    · exact HI.idle _ _ ho
  refine ⟨hHI, ?_, ⟨fun a nd hn _ => hold a nd hn, fun a nd hn => ⟨nd, hold a nd hn, rfl, rfl⟩, Nat.le_succ _,
    Nat.le_refl _⟩, ?_, ?_, ?_⟩
  · refine ⟨fun a => if a = h.next then (top + 1, 0) else pos a, ?_, ?_⟩
    · intro i hi k hk
      cases k with
      | zero => exact .inr (.inr ⟨h.next, _, rfl, hnew, by simp [Node.isLeaf]⟩)
      | succ k =>
        rw [hpp i hi k (by omega)]
        split
        · rename_i hlt
          have : top + 1 - (k + 1) = top - k := by omega
          rw [this]
          rcases TI.wf i hlt k (by omega) with w | ⟨w, hk0⟩ | ⟨a, nd, w, hn, hl⟩
          · exact .inl w
          · subst hk0
            simp [pp, hr] at w
          · exact .inr (.inr ⟨a, nd, w, hold a nd hn, hl⟩)
        · exact .inl rfl
    · intro i hi k hk a nd hp hn hid
      cases k with
      | zero =>
        simp only [pp, Ptr.ref.injEq] at hp
        subst hp
        simp [Nat.div_eq_of_lt hi]
      | succ k =>
        rw [hpp i hi k (by omega)] at hp
        split at hp
        · rename_i hlt
          rcases TI.wf i hlt k (by omega) with w | ⟨w, _⟩ | ⟨b, nb, w, hb, _⟩
          · rw [w] at hp; cases hp
          · rw [w] at hp; cases hp
          · rw [w] at hp
            cases hp
            have hlt2 := HI.lt _ _ hb
            rw [if_neg (by omega)]
            have := hold _ _ hb
            rw [hn] at this
            cases this
            have e : top + 1 - (k + 1) = top - k := by omega
            rw [e]
            exact TI.pos i hlt k (by omega) _ _ w hb hid
        · cases hp
  · intro i hi
    unfold tv
    rw [hpp i (Nat.lt_of_lt_of_le hi (Nat.pow_le_pow_right (by decide) (by omega))) top (Nat.le_refl _), if_pos hi]
    rcases TI.wf i hi top (Nat.le_refl _) with w | ⟨w, _⟩ | ⟨b, nb, w, hb, _⟩
    · rw [w]; rfl
    · rw [w]; rfl
    · rw [w]; simp only [leafVal, hb, hold _ _ hb]
  · intro hL k hk
    cases k with
    | zero => exact ⟨_, rfl⟩
    | succ k =>
      rw [hpp 0 (pow16_pos _) k (by omega), if_pos (pow16_pos _)]
      exact hL k (by omega)
  · intro tid2 hne hav i hi k hk a nd hp hn
    cases k with
    | zero =>
      simp only [pp, Ptr.ref.injEq] at hp
      subst hp
      rw [hnew] at hn
      cases hn
      exact fun h => hne h.symm
    | succ k =>
      rw [hpp i hi k (by omega)] at hp
      split at hp
      · rename_i hlt
        rcases TI.wf i hlt k (by omega) with w | ⟨w, _⟩ | ⟨b, nb, w, hb, _⟩
        · rw [w] at hp; cases hp
        · rw [w] at hp; cases hp
        · rw [w] at hp
          cases hp
          have := hold _ _ hb
          rw [hn] at this
          cases this
          exact hav i hlt k (by omega) _ _ w hb
      · cases hp

theorem growLoop_spec : ∀ (n : Nat) (st : St α) (rt : Ptr) (top r : Nat), HeapInv st.h →
    (∃ pos, TreeInv st.h st.t.aid pos rt top) → (0 < st.t.aid ∧ st.t.aid ≤ st.h.lastId) → rt = .ref r →
    let o := st.growLoop rt n
    o.1.t = { st.t with s := { st.t.s with height := st.t.s.height + n } } ∧ HeapInv o.1.h ∧
      (∃ pos, TreeInv o.1.h st.t.aid pos o.2 (top + n)) ∧ Ext st.t.aid st.h o.1.h ∧
      o.1.h.arr = st.h.arr ∧ o.1.h.nextArr = st.h.nextArr ∧ o.1.h.lastId = st.h.lastId ∧
      (∀ i, i < 16 ^ (top + 1) → tv o.1.h o.2 (top + n) i = tv st.h rt top i) ∧
      (Left st.h rt top → Left o.1.h o.2 (top + n)) ∧
      (∀ tid2, tid2 ≠ st.t.aid → Avoid st.h tid2 rt top → Avoid o.1.h tid2 o.2 (top + n)) := by
  intro n
  induction n with
  | zero =>
    intro st rt top r HI TI haid hr
    exact ⟨rfl, HI, TI, Ext.refl _ _, rfl, rfl, rfl, fun _ _ => rfl, fun h => h, fun _ _ h => h⟩
  | succ n ih =>
    intro st rt top r HI TI haid hr
    obtain ⟨g1, g2, g3, g4, g5, g6⟩ := grow1 HI TI haid hr
    have := ih { h := st.h.alloc (.inode st.t.aid (fun k => if k = 0 then rt else .nil)),
                 t := { st.t with s := { st.t.s with height := st.t.s.height + 1 } } } (.ref st.h.next) (top + 1)
              st.h.next g1 g2 haid rfl
    obtain ⟨i1, i2, i3, i4, i5, i6, i7, i8, i9, i10⟩ := this
    have e : top + 1 + n = top + (n + 1) := by omega
    rw [e] at i3 i8 i9 i10
    simp only [St.growLoop]
    refine ⟨?_, i2, i3, g3.trans i4, i5, i6, i7, ?_, fun h => i9 (g5 h), fun t2 h2 h => i10 t2 h2 (g6 t2 h2 h)⟩
    · rw [i1]
      simp only
      have : st.t.s.height + 1 + n = st.t.s.height + (n + 1) := by omega
      rw [this]
    · intro i hi
      rw [i8 i (Nat.lt_of_lt_of_le hi (Nat.pow_le_pow_right (by decide) (by omega))), g4 i hi]

theorem asInode_root {st : St α} (C : Core st) (S : Shape st.h st.t.s) (hh : st.t.s.height ≠ 0) :
    asInode st.h st.t.s.tree = st.t.s.tree ∧ ∃ r, st.t.s.tree = .ref r := by
  obtain ⟨r, hr⟩ := S.left hh 0 (by omega)
  obtain ⟨pos, T⟩ := C.tree hh
  have h2 := C.h2
  simp only [pp] at hr
  refine ⟨?_, r, hr⟩
  rcases T.wf 0 (pow16_pos _) 0 (by omega) with w | ⟨w, _⟩ | ⟨a, nd, w, hn, hl⟩
  · simp only [pp, hr] at w; cases w
  · simp only [pp, hr] at w; cases w
  · simp only [pp, hr] at w
    cases w
    rw [hr]
    cases nd with
    | leaf => simp [Node.isLeaf] at hl; omega
    | inode => simp only [asInode, hn]

theorem growTree_spec {st : St α} (C : Core st) (S : Shape st.h st.t.s) {tlen : Nat} (hle : st.t.s.tlen ≤ tlen) :
    ∃ st', st.growTree tlen = some st' ∧ Core st' ∧ Frame st st' ∧ st'.t.s.tlen = tlen ∧
      st'.t.s.height = height tlen ∧ st'.t.s.tail = st.t.s.tail ∧ st'.t.wtail = st.t.wtail ∧
      st'.h.arr = st.h.arr ∧ st'.h.nextArr = st.h.nextArr ∧
      (st.t.s.height ≠ 0 → Left st'.h st'.t.s.tree (st'.t.s.height - 1) ∧
        ∀ i, i < 16 ^ st.t.s.height → tv st'.h st'.t.s.tree (st'.t.s.height - 1) i =
          tv st.h st.t.s.tree (st.t.s.height - 1) i) := by
  have hhm := height_mono hle
  have hSh := S.height
  unfold St.growTree
  rw [if_neg (by omega)]
  simp only
  by_cases h1 : height tlen = st.t.s.height
  · rw [if_pos h1]
    refine ⟨_, rfl, ⟨C.heap, C.aid, C.h2, C.tree, C.base, C.wt, C.cap, C.tl, C.len⟩,
      ⟨Ext.refl _ _, (Frame.refl st).aid, fun _ _ _ => rfl, Nat.le_refl _, .inl ⟨rfl, rfl⟩, fun h => h,
        fun _ _ h => h⟩, rfl, h1.symm, rfl, rfl, rfl, rfl, fun hh => ⟨S.left hh, fun _ _ => rfl⟩⟩
  · rw [if_neg h1]
    have hne : tlen ≠ 0 := by
      rintro rfl
      have : st.t.s.tlen = 0 := by omega
      rw [this] at hSh
      exact h1 hSh.symm
    have hh2 := height_pos hne
    by_cases h0 : st.t.s.height = 0
    · rw [if_pos h0]
      have hp0 : ∀ top i k, pp st.h .tnil top i (k + 1) = .nil := by
        intro top i k
        induction k with
        | zero => rfl
        | succ k ih => rw [pp, ih]; rfl
      refine ⟨_, rfl, ⟨C.heap, C.aid, .inr hh2, ?_, C.base, C.wt, C.cap, C.tl, C.len⟩,
        ⟨Ext.refl _ _, (Frame.refl st).aid, fun _ _ _ => rfl, Nat.le_refl _, .inl ⟨rfl, rfl⟩, fun h => h,
          ?_⟩, rfl, rfl, rfl, rfl, rfl, rfl, fun hh => absurd h0 hh⟩
      · intro _
        refine ⟨fun _ => (0, 0), ?_, ?_⟩
        · intro i _ k _
          cases k with
          | zero => exact .inr (.inl ⟨rfl, rfl⟩)
          | succ k => exact .inl (hp0 _ i k)
        · intro i _ k _ a nd hp
          cases k with
          | zero => simp [pp] at hp
          | succ k => simp [hp0] at hp
      · intro tid _ _ _ i _ k _ a nd hp
        cases k with
        | zero => simp [pp] at hp
        | succ k => simp [hp0] at hp
    · rw [if_neg h0]
      obtain ⟨ha, r, hr⟩ := asInode_root C S h0
      let st0 : St α := { st with t := { st.t with s := { st.t.s with tlen := tlen } } }
      have C0 : Core st0 := ⟨C.heap, C.aid, C.h2, C.tree, C.base, C.wt, C.cap, C.tl, C.len⟩
      have F0 : Frame st st0 :=
        ⟨Ext.refl _ _, (Frame.refl st).aid, fun _ _ _ => rfl, Nat.le_refl _, .inl ⟨rfl, rfl⟩, fun h => h, fun _ _ h => h⟩
      obtain ⟨C1, F1, haid, hpos, hs, hw, htl, hnode, harr, hna⟩ := withId_spec C0
      have hh1 : st0.withId.t.s.height = st.t.s.height := by rw [hs]
      have T1 := C1.tree (by rw [hh1]; exact h0)
      rw [hs] at T1
      obtain ⟨g1, g2, g3, g4, g5, g6, g7, g8, g9, g10⟩ := growLoop_spec (height tlen - st0.withId.t.s.height)
        st0.withId st.t.s.tree (st.t.s.height - 1) r C1.heap T1 hpos hr
      have etop : st.t.s.height - 1 + (height tlen - st0.withId.t.s.height) = height tlen - 1 := by
        rw [hh1]; omega
      rw [etop] at g3 g8 g9 g10
      rw [ha]
      change ∃ st', some (St.mk (st0.withId.growLoop st.t.s.tree (height tlen - st0.withId.t.s.height)).1.h _) = some st' ∧ _
      refine ⟨_, rfl, ?_⟩
      generalize st0.withId.growLoop st.t.s.tree (height tlen - st0.withId.t.s.height) = o at *
      obtain ⟨o1, o2⟩ := o
      simp only at g1 g2 g3 g4 g5 g6 g7 g8 g9 g10 ⊢
      have eh : o1.t.s.height = height tlen := by rw [g1]; simp only; rw [hh1]; omega
      have etail : o1.t.s.tail = st.t.s.tail := by rw [g1]; simp only; rw [hs]
      have ewt : o1.t.wtail = st.t.wtail := by rw [g1]; simp only; rw [hw]
      have eaid : o1.t.aid = st0.withId.t.aid := by rw [g1]
      have etl : o1.t.tailLen = st.t.tailLen := by rw [g1]; simp only; rw [htl]
      have etlen : o1.t.s.tlen = tlen := by rw [g1]; simp only; rw [hs]
      have etid : tidOf st0.withId = st0.withId.t.aid := by unfold tidOf; rw [if_neg (by omega)]
      refine ⟨⟨g2, by rw [eaid, g7]; exact hpos.2, by rw [eh]; exact .inr hh2, ?_, ?_, ?_, ?_, ?_, ?_⟩, ?_, etlen, eh, etail, ewt,
        ?_, ?_, ?_⟩
      · intro _
        rw [eh, eaid]; exact g3
      · rw [etail, g6, hna]; exact C.base
      · rw [etail, ewt]; exact C.wt
      · rw [etail]; exact C.cap
      · rw [etail, etl]; exact C.tl
      · rw [etail]; exact C.len
      · refine (F0.trans F1).trans ⟨by rw [etid]; exact g4, .inl (by rw [etid]; exact eaid), fun c _ _ => by rw [g5],
          by rw [g6]; exact Nat.le_refl _, .inl ⟨by rw [etail, hs], by rw [ewt, hw]⟩, by rw [ewt, hw]; exact id, ?_⟩
        intro tid htid hav _
        rw [eh]
        refine g10 tid (etid ▸ htid) ?_
        have := hav (by rw [hh1]; exact h0)
        rw [hs] at this
        exact this
      · rw [g5, harr]
      · rw [g6, hna]
      · intro _
        rw [eh]
        refine ⟨g9 (left_node hnode (S.left h0)), fun i hi => ?_⟩
        have : st.t.s.height - 1 + 1 = st.t.s.height := by omega
        rw [g8 i (by rw [this]; exact hi), tv_node hnode]

/-- `appendTree` adds whole chunks at the end of the tree. -/
theorem appendTree_spec {st : St α} (C : Core st) (S : Shape st.h st.t.s) {src : List α} {total : Nat}
    (htot : total % 16 = 0) (hpos : 0 < total) (hlen : total ≤ src.length) :
    ∃ st', st.appendTree src total = some st' ∧ Core st' ∧ Frame st st' ∧ Shape st'.h st'.t.s ∧
      st'.t.s.tlen = st.t.s.tlen + total ∧ st'.t.s.tail = st.t.s.tail ∧ st'.t.wtail = st.t.wtail ∧
      st'.h.arr = st.h.arr ∧ st'.h.nextArr = st.h.nextArr ∧
      ∀ i, i < st.t.s.tlen + total → tv st'.h st'.t.s.tree (st'.t.s.height - 1) i =
        if i < st.t.s.tlen then tv st.h st.t.s.tree (st.t.s.height - 1) i
        else (src[i - st.t.s.tlen]?).getD default := by
  obtain ⟨st1, e1, C1, F1, l1, h1, t1, w1, a1, n1, k1⟩ := growTree_spec C S (tlen := st.t.s.tlen + total) (by omega)
  have hne : st.t.s.tlen + total ≠ 0 := by omega
  have hh2 := height_pos hne
  have hle := le_pow_height (st.t.s.tlen + total)
  rw [← h1] at hh2 hle
  obtain ⟨C2, F2, haid, hap, hs, hw, htl, hnode, harr, hna⟩ := withId_spec C1
  have hcw : ∀ level, (level = st1.t.s.height - 1) → St.copy level st1 .root st.t.s.tlen src total =
      St.copy level st1.withId .root st.t.s.tlen src total := by
    intro level hl
    cases level with
    | zero => omega
    | succ level => simp only [St.copy, wnode_withId st1]
  have hh3 : st1.withId.t.s.height = st1.t.s.height := by rw [hs]
  have T2 := C2.tree (by omega)
  rw [hh3] at T2
  have etop : st1.t.s.height - 1 + 1 = st1.t.s.height := by omega
  obtain ⟨st3, e3, r3, t3, p3⟩ := copy_spec (by omega : 0 < st1.t.s.height - 1) (st1.t.s.height - 1) (Nat.le_refl _)
    st1.withId .root st.t.s.tlen src total C2.heap T2 hap (by rw [Nat.sub_self]; exact .root) S.mod htot hpos
    (by rw [etop]; exact Nat.le_trans (Nat.add_le_add_right (Nat.mod_le _ _) _) hle) (by rw [etop]; exact hle) hlen
  obtain ⟨C3, F3⟩ := R.core C2 hap.1 (by omega) (by rw [hh3]; exact r3)
  have f1 : st3.t.s.height = st1.t.s.height := by rw [r3.t_eq]; exact hh3
  have f2 : st3.t.s.tlen = st.t.s.tlen + total := by rw [r3.t_eq]; simp only; rw [hs, l1]
  have f3 : st3.t.s.tail = st.t.s.tail := by rw [r3.t_eq]; simp only; rw [hs, t1]
  have f4 : st3.t.wtail = st.t.wtail := by rw [r3.t_eq]; simp only; rw [hw, w1]
  refine ⟨st3, ?_, C3, (F1.trans F2).trans F3, ⟨by rw [f1, f2, h1], by rw [f2]; have := S.mod; omega, ?_⟩, f2, f3, f4,
    by rw [r3.arr, harr, a1], by rw [r3.nextArr, hna, n1], ?_⟩
  · unfold St.appendTree
    rw [if_neg (by omega)]
    simp only [e1, Option.bind_eq_bind, Option.bind_some]
    rw [hcw _ rfl]
    exact e3
  · intro _
    rw [f1]
    by_cases h0 : st.t.s.tlen = 0
    · intro k hk
      have := p3 k (by omega) hk
      rw [h0] at this
      exact this
    · have hsh : st.t.s.height ≠ 0 := by rw [S.height]; have := height_pos h0; omega
      obtain ⟨kl, _⟩ := k1 hsh
      intro k hk
      refine r3.nonnil 0 (pow16_pos _) k hk ?_
      obtain ⟨a, ha⟩ := kl k hk
      exact ⟨a, by rw [pp_node hnode, hs]; exact ha⟩
  · intro i hi
    rw [f1, t3 i (by rw [etop]; omega)]
    by_cases hlt : i < st.t.s.tlen
    · rw [if_neg (by omega), if_pos hlt, tv_node hnode, hs]
      have hsh : st.t.s.height ≠ 0 := by
        rw [S.height]; have := height_pos (n := st.t.s.tlen) (by omega); omega
      have hle0 := le_pow_height st.t.s.tlen
      rw [← S.height] at hle0
      exact (k1 hsh).2 i (by omega)
    · rw [if_pos (by omega), if_neg hlt]

/-- Dropping levels. -/
theorem shrinkLoop_spec {h : Heap α} {tid top : Nat} (htop : 1 ≤ top) : ∀ (n : Nat) (rt : Ptr),
    (∃ pos, TreeInv h tid pos rt (top + n)) → Left h rt (top + n) →
    (∃ pos, TreeInv h tid pos (shrinkLoop h rt n) top) ∧ Left h (shrinkLoop h rt n) top ∧
      (∀ i, i < 16 ^ (top + 1) → ∀ k, pp h (shrinkLoop h rt n) top i k = pp h rt (top + n) i (k + n)) := by
  intro n
  induction n with
  | zero => intro rt T L; exact ⟨T, L, fun _ _ _ => rfl⟩
  | succ n ih =>
    intro rt T L
    obtain ⟨pos, T⟩ := T
    obtain ⟨a, ha⟩ := L 0 (by omega)
    obtain ⟨b, hb⟩ := L 1 (by omega)
    simp only [pp] at ha
    subst ha
    -- the root is an inode whose child 0 is an inode
    have hroot : ∃ id ptr, h.node a = some (.inode id ptr) := by
      rcases T.wf 0 (pow16_pos _) 0 (by omega) with w | ⟨w, _⟩ | ⟨a', nd, w, hn, hl⟩
      · simp [pp] at w
      · simp [pp] at w
      · simp only [pp, Ptr.ref.injEq] at w
        subst w
        cases nd with
        | leaf => simp [Node.isLeaf] at hl
        | inode id ptr => exact ⟨id, ptr, hn⟩
    obtain ⟨id, ptr, hroot⟩ := hroot
    have hb' : ptr 0 = .ref b := by
      simp only [pp, childOf, hroot] at hb
      rw [digit_top_zero (pow16_pos _)] at hb
      exact hb
    have hbn : asInode h (ptr 0) = .ref b := by
      rw [hb']
      rcases T.wf 0 (pow16_pos _) 1 (by omega) with w | ⟨w, hk⟩ | ⟨a', nd, w, hn, hl⟩
      · rw [hb] at w; cases w
      · cases hk
      · rw [hb] at w
        cases w
        cases nd with
        | leaf => simp [Node.isLeaf] at hl; omega
        | inode => simp only [asInode, hn]
    have hpp : ∀ i, i < 16 ^ (top + n + 1) → ∀ k, pp h (.ref b) (top + n) i k = pp h (.ref a) (top + (n + 1)) i (k + 1) := by
      intro i hi k
      induction k with
      | zero =>
        simp only [pp, childOf, hroot, Nat.sub_zero]
        have hz : digit (top + (n + 1)) i = 0 := digit_top_zero hi
        rw [hz, hb']
      | succ k ihk =>
        rw [pp, ihk, pp]
        have : top + (n + 1) - (k + 1) = top + n - k := by omega
        rw [← this]
        rfl
    have hlt : ∀ {i}, i < 16 ^ (top + n + 1) → i < 16 ^ (top + (n + 1) + 1) := by
      intro i hi
      exact Nat.lt_of_lt_of_le hi (Nat.pow_le_pow_right (by decide) (by omega))
    have T' : ∃ pos, TreeInv h tid pos (.ref b) (top + n) := by
      refine ⟨pos, fun i hi k hk => ?_, fun i hi k hk x nd hp hn hid => ?_⟩
      · rw [hpp i hi]
        have := T.wf i (hlt hi) (k + 1) (by omega)
        have e : top + (n + 1) - (k + 1) = top + n - k := by omega
        rw [e] at this
        rcases this with w | ⟨_, w⟩ | w
        · exact .inl w
        · cases w
        · exact .inr (.inr w)
      · rw [hpp i hi] at hp
        have := T.pos i (hlt hi) (k + 1) (by omega) x nd hp hn hid
        have e : top + (n + 1) - (k + 1) = top + n - k := by omega
        rw [e] at this
        exact this
    have L' : Left h (.ref b) (top + n) := by
      intro k hk
      rw [hpp 0 (pow16_pos _)]
      exact L (k + 1) (by omega)
    obtain ⟨i1, i2, i3⟩ := ih (.ref b) T' L'
    simp only [shrinkLoop, hroot, hbn]
    refine ⟨i1, i2, fun i hi k => ?_⟩
    rw [i3 i hi, hpp i (Nat.lt_of_lt_of_le hi (Nat.pow_le_pow_right (by decide) (by omega)))]
    rfl

theorem shrinkTree_spec {st : St α} (C : Core st) (S : Shape st.h st.t.s) {tlen : Nat} (hle : tlen ≤ st.t.s.tlen)
    (hmod : tlen % 16 = 0) :
    Core (st.shrinkTree tlen) ∧ Frame st (st.shrinkTree tlen) ∧ Shape (st.shrinkTree tlen).h (st.shrinkTree tlen).t.s ∧
      (st.shrinkTree tlen).t.s.tlen = tlen ∧ (st.shrinkTree tlen).t.s.tail = st.t.s.tail ∧
      (st.shrinkTree tlen).t.wtail = st.t.wtail ∧ (st.shrinkTree tlen).h = st.h ∧
      (∀ i, i < tlen → tv st.h (st.shrinkTree tlen).t.s.tree ((st.shrinkTree tlen).t.s.height - 1) i =
          tv st.h st.t.s.tree (st.t.s.height - 1) i) := by
  have hhm := height_mono hle
  have hSh := S.height
  unfold St.shrinkTree
  simp only
  by_cases h1 : height tlen = st.t.s.height
  · rw [if_pos h1]
    exact ⟨⟨C.heap, C.aid, C.h2, C.tree, C.base, C.wt, C.cap, C.tl, C.len⟩,
      ⟨Ext.refl _ _, (Frame.refl st).aid, fun _ _ _ => rfl, Nat.le_refl _, .inl ⟨rfl, rfl⟩, fun h => h,
        fun _ _ h => h⟩, ⟨h1.symm, hmod, S.left⟩, rfl, rfl, rfl, rfl, fun _ _ => rfl⟩
  · rw [if_neg h1]
    by_cases h0 : height tlen = 0
    · rw [if_pos h0]
      have ht0 : tlen = 0 := by
        by_cases h : tlen = 0
        · exact h
        · have := height_pos h; omega
      subst ht0
      exact ⟨⟨C.heap, C.aid, .inl rfl, fun h => absurd rfl h, C.base, C.wt, C.cap, C.tl, C.len⟩,
        ⟨Ext.refl _ _, (Frame.refl st).aid, fun _ _ _ => rfl, Nat.le_refl _, .inl ⟨rfl, rfl⟩, fun h => h,
          fun _ _ _ h => absurd rfl h⟩, ⟨rfl, rfl, fun h => absurd rfl h⟩, rfl, rfl, rfl, rfl,
          fun i hi => absurd hi (Nat.not_lt_zero _)⟩
    · rw [if_neg h0]
      have hne : tlen ≠ 0 := by rintro rfl; exact h0 rfl
      have hh2 := height_pos hne
      have hsne : st.t.s.height ≠ 0 := by omega
      obtain ⟨ha, r, hr⟩ := asInode_root C S hsne
      rw [ha]
      have e : height tlen - 1 + (st.t.s.height - height tlen) = st.t.s.height - 1 := by omega
      have T := C.tree hsne
      have L := S.left hsne
      rw [← e] at T L
      obtain ⟨i1, i2, i3⟩ := shrinkLoop_spec (h := st.h) (by omega : 1 ≤ height tlen - 1) (st.t.s.height - height tlen)
        st.t.s.tree T L
      have hmin : min st.t.s.height (height tlen) = height tlen := by omega
      simp only [hmin]
      refine ⟨⟨C.heap, C.aid, .inr hh2, fun _ => i1, C.base, C.wt, C.cap, C.tl, C.len⟩,
        ⟨Ext.refl _ _, (Frame.refl st).aid, fun _ _ _ => rfl, Nat.le_refl _, .inl ⟨rfl, rfl⟩, fun h => h,
          ?_⟩, ⟨rfl, hmod, fun _ => i2⟩, trivial, trivial, trivial, trivial, ?_⟩
      · intro tid _ hav _ i hi k hk a nd hp hn
        have hi' : i < 16 ^ (height tlen - 1 + 1) := hi
        rw [i3 i hi] at hp
        have := hav hsne
        rw [← e] at this
        exact this i (Nat.lt_of_lt_of_le hi' (Nat.pow_le_pow_right (by decide) (by omega)))
          (k + (st.t.s.height - height tlen)) (Nat.add_le_add_right hk _) a nd hp hn
      · intro i hi
        have hle0 := le_pow_height tlen
        have e1 : height tlen - 1 + 1 = height tlen := by omega
        unfold tv
        rw [i3 i (by rw [e1]; omega), e]

end Verif.Persist
