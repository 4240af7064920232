import Verif.Persist.Model
/-
Helper lemmas about the tree part of the persistent slice: the path to an index, the ownership invariant,
and the effect of installing a writable copy of a node in a slot.
-/
namespace Verif.Persist
variable {α : Type}

/-! ### Arithmetic of base-16 digits -/

theorem pfx_step {m i j : Nat} (h1 : i / 16 ^ (m + 1) = j / 16 ^ (m + 1)) (h2 : digit m i = digit m j) :
    i / 16 ^ m = j / 16 ^ m := by
  unfold digit at h2
  rw [Nat.pow_succ, ← Nat.div_div_eq_div_mul, ← Nat.div_div_eq_div_mul] at h1
  omega

theorem pfx_up {m i j : Nat} (h : i / 16 ^ m = j / 16 ^ m) : i / 16 ^ (m + 1) = j / 16 ^ (m + 1) := by
  rw [Nat.pow_succ, ← Nat.div_div_eq_div_mul, ← Nat.div_div_eq_div_mul, h]

theorem pfx_mono {m n i j : Nat} (hmn : m ≤ n) (h : i / 16 ^ m = j / 16 ^ m) : i / 16 ^ n = j / 16 ^ n := by
  induction hmn with
  | refl => exact h
  | step _ ih => exact pfx_up ih

theorem pfx_digit {m i j : Nat} (h : i / 16 ^ m = j / 16 ^ m) : digit m i = digit m j := by
  simp [digit, h]

theorem pfx_top {n i : Nat} (h : i < 16 ^ n) : i / 16 ^ n = 0 := Nat.div_eq_of_lt h

theorem digit_lt (level i : Nat) : digit level i < 16 := Nat.mod_lt _ (by decide)

theorem pow16_pos (n : Nat) : 0 < 16 ^ n := Nat.pow_pos (by decide)

/-! ### Paths -/

/-- The `j`-th child of the inode `p` points to; nil when there is none. -/
def childOf (h : Heap α) (p : Ptr) (j : Nat) : Ptr :=
  match p with
  | .ref a =>
    match h.node a with
    | some (.inode _ ptr) => ptr j
    | _ => .nil
  | _ => .nil

/-- The `j`-th child stored in a node. -/
def Node.child (n : Node α) (j : Nat) : Ptr :=
  match n with
  | .inode _ ptr => ptr j
  | .leaf .. => .nil

/-- The `j`-th element stored in a node. -/
def Node.elem [Inhabited α] (n : Node α) (j : Nat) : α :=
  match n with
  | .inode .. => default
  | .leaf _ v => v j

/-- The pointer at depth `k` (root is depth 0, leaves are depth `top`) on the path to index `i`. -/
def pp (h : Heap α) (root : Ptr) (top i : Nat) : Nat → Ptr
  | 0 => root
  | k + 1 => childOf h (pp h root top i k) (digit (top - k) i)

/-- The values of the leaf `p` points to. -/
def leafVal [Inhabited α] (h : Heap α) (p : Ptr) (j : Nat) : α :=
  match p with
  | .ref a =>
    match h.node a with
    | some (.leaf _ val) => val j
    | _ => default
  | _ => default

/-- The element the tree holds at index `i`. -/
def tv [Inhabited α] (h : Heap α) (root : Ptr) (top i : Nat) : α := leafVal h (pp h root top i top) (i % 16)

/-- A pointer of the right kind for a node at level `lvl` (0 is the leaf level). -/
def okAt (h : Heap α) (lvl k : Nat) (p : Ptr) : Prop :=
  p = .nil ∨ (p = .tnil ∧ k = 0) ∨
    ∃ a nd, p = .ref a ∧ h.node a = some nd ∧ nd.isLeaf = decide (lvl = 0)

/-- Allocation discipline of the node memory. -/
structure HeapInv (h : Heap α) : Prop where
  lt : ∀ a nd, h.node a = some nd → a < h.next
  idpos : ∀ a nd, h.node a = some nd → 0 < nd.id
  idle : ∀ a nd, h.node a = some nd → nd.id ≤ h.lastId

/-- Every pointer on every path has the right kind, and a node owned by `tid` sits at only one place of
the tree (`pos` records it: level and index prefix). -/
structure TreeInv (h : Heap α) (tid : Nat) (pos : Nat → Nat × Nat) (root : Ptr) (top : Nat) : Prop where
  wf : ∀ i, i < 16 ^ (top + 1) → ∀ k, k ≤ top → okAt h (top - k) k (pp h root top i k)
  pos : ∀ i, i < 16 ^ (top + 1) → ∀ k, k ≤ top → ∀ a nd, pp h root top i k = .ref a →
    h.node a = some nd → nd.id = tid → pos a = (top - k, i / 16 ^ (top - k + 1))

/-- What an operation of the transient with id `tid` may do to the nodes: it never touches a node with
another id, and never changes the id or the kind of an existing node. -/
structure Ext (tid : Nat) (h h' : Heap α) : Prop where
  keep : ∀ a nd, h.node a = some nd → nd.id ≠ tid → h'.node a = some nd
  same : ∀ a nd, h.node a = some nd → ∃ nd', h'.node a = some nd' ∧ nd'.id = nd.id ∧ nd'.isLeaf = nd.isLeaf
  next : h.next ≤ h'.next
  lastId : h.lastId ≤ h'.lastId

theorem Ext.refl (tid : Nat) (h : Heap α) : Ext tid h h :=
  ⟨fun _ _ h _ => h, fun _ nd h => ⟨nd, h, rfl, rfl⟩, Nat.le_refl _, Nat.le_refl _⟩

theorem Ext.trans {tid : Nat} {h1 h2 h3 : Heap α} (a : Ext tid h1 h2) (b : Ext tid h2 h3) : Ext tid h1 h3 where
  keep x nd hx hn := b.keep x nd (a.keep x nd hx hn) hn
  same x nd hx := by
    obtain ⟨n2, e2, i2, l2⟩ := a.same x nd hx
    obtain ⟨n3, e3, i3, l3⟩ := b.same x n2 e2
    exact ⟨n3, e3, i3.trans i2, l3.trans l2⟩
  next := Nat.le_trans a.next b.next
  lastId := Nat.le_trans a.lastId b.lastId

/-- A tree that avoids `tid` looks the same after an operation of `tid`. -/
theorem pp_ext {tid : Nat} {h h' : Heap α} (e : Ext tid h h') {root : Ptr} {top : Nat} {i : Nat}
    (wf : ∀ k, k ≤ top → okAt h (top - k) k (pp h root top i k))
    (av : ∀ k, k ≤ top → ∀ a nd, pp h root top i k = .ref a → h.node a = some nd → nd.id ≠ tid) :
    ∀ k, k ≤ top → pp h' root top i k = pp h root top i k := by
  intro k
  induction k with
  | zero => intro _; rfl
  | succ k ih =>
    intro hk
    have ihk := ih (by omega)
    simp only [pp]
    rw [ihk]
    have w := wf k (by omega)
    rcases w with w | ⟨w, _⟩ | ⟨a, nd, w, hn, _⟩
    · rw [w]; rfl
    · rw [w]; rfl
    · have := e.keep a nd hn (av k (by omega) a nd w hn)
      rw [w]; simp only [childOf, hn, this]

theorem tv_ext [Inhabited α] {tid : Nat} {h h' : Heap α} (e : Ext tid h h') {root : Ptr} {top : Nat} {i : Nat}
    (wf : ∀ k, k ≤ top → okAt h (top - k) k (pp h root top i k))
    (av : ∀ k, k ≤ top → ∀ a nd, pp h root top i k = .ref a → h.node a = some nd → nd.id ≠ tid) :
    tv h' root top i = tv h root top i := by
  unfold tv
  rw [pp_ext e wf av top (Nat.le_refl _)]
  rcases wf top (Nat.le_refl _) with w | ⟨w, _⟩ | ⟨a, nd, w, hn, _⟩
  · rw [w]; rfl
  · rw [w]; rfl
  · have := e.keep a nd hn (av top (Nat.le_refl _) a nd w hn)
    rw [w]; simp only [leafVal, hn, this]

theorem okAt_ext {tid : Nat} {h h' : Heap α} (e : Ext tid h h') {lvl k : Nat} {p : Ptr} (o : okAt h lvl k p) :
    okAt h' lvl k p := by
  rcases o with o | o | ⟨a, nd, o, hn, hl⟩
  · exact .inl o
  · exact .inr (.inl o)
  · obtain ⟨nd', hn', _, hl'⟩ := e.same a nd hn
    exact .inr (.inr ⟨a, nd', o, hn', hl'.trans hl⟩)

/-! ### Slots on a path -/

/-- `sl` is the place that holds the depth-`k` pointer on the path to `i`, and it may be written:
it is the root field of the transient or lies in an inode the transient owns. -/
inductive SlotAt (st : St α) (top i : Nat) : Nat → Slot → Prop where
  | root : SlotAt st top i 0 .root
  | child {k a : Nat} {ptr : Nat → Ptr} (hp : pp st.h st.t.s.tree top i k = .ref a)
      (hn : st.h.node a = some (.inode st.t.aid ptr)) :
      SlotAt st top i (k + 1) (.child a (digit (top - k) i))

theorem SlotAt.load_eq {st : St α} {top i k : Nat} {sl : Slot} (s : SlotAt st top i k sl) :
    st.load sl = some (pp st.h st.t.s.tree top i k) := by
  cases s with
  | root => rfl
  | child hp hn => simp only [St.load, hn, pp, hp, childOf]

/-- The state after allocating node `n` and storing its address in slot `sl`. -/
def St.install (st : St α) (sl : Slot) (n : Node α) : Option (St α) :=
  St.store { st with h := st.h.alloc n } sl (.ref st.h.next)

theorem SlotAt.install_eq {st : St α} {top i k : Nat} {sl : Slot} (HI : HeapInv st.h)
    (s : SlotAt st top i k sl) (n : Node α) : ∃ st', st.install sl n = some st' ∧
      st'.t = { st.t with s := { st.t.s with tree := st'.t.s.tree } } ∧
      st'.h.next = st.h.next + 1 ∧ st'.h.lastId = st.h.lastId ∧ st'.h.arr = st.h.arr ∧
      st'.h.nextArr = st.h.nextArr := by
  cases s with
  | root => exact ⟨_, rfl, rfl, rfl, rfl, rfl, rfl⟩
  | @child k a ptr hp hn =>
    have ha := HI.lt _ _ hn
    simp only [St.install, St.store, Heap.alloc, Nat.ne_of_lt ha, if_false, hn]
    exact ⟨_, rfl, rfl, rfl, rfl, rfl, rfl⟩

/-- Indexes with a common prefix share the path. -/
theorem pp_pfx {h : Heap α} {root : Ptr} {top i i' k n : Nat} (hk : k ≤ top) (hn : n ≤ top - k + 1)
    (hpf : i' / 16 ^ n = i / 16 ^ n) : pp h root top i' k = pp h root top i k := by
  induction k with
  | zero => rfl
  | succ k ih =>
    simp only [pp, ih (by omega) (by omega)]
    rw [pfx_digit (pfx_mono (m := n) (n := top - k) (by omega) hpf)]

/-- Effect of `install` on the path pointers. -/
theorem pp_install {st st' : St α} {tid top i k : Nat} {sl : Slot} {pos : Nat → Nat × Nat}
    (HI : HeapInv st.h) (TI : TreeInv st.h tid pos st.t.s.tree top) (htid : st.t.aid = tid)
    (hi : i < 16 ^ (top + 1)) (hk : k ≤ top) (s : SlotAt st top i k sl) (n : Node α)
    (hch : ∀ j, j < 16 → childOf st.h (pp st.h st.t.s.tree top i k) j =
      n.child j)
    (hst : st.install sl n = some st') :
    ∀ i', i' < 16 ^ (top + 1) → ∀ k', k' ≤ top →
      pp st'.h st'.t.s.tree top i' k' =
        if k' = k ∧ i' / 16 ^ (top - k + 1) = i / 16 ^ (top - k + 1) then .ref st.h.next
        else pp st.h st.t.s.tree top i' k' := by
  intro i' hi' k'
  induction k' with
  | zero =>
    intro _
    cases s with
    | root =>
      simp only [St.install, St.store, Option.some.injEq] at hst
      subst hst
      simp [pp, pfx_top hi, pfx_top hi']
    | @child k a ptr hp hn =>
      have ha := HI.lt _ _ hn
      simp only [St.install, St.store, Heap.alloc, Nat.ne_of_lt ha, if_false, hn, Option.some.injEq] at hst
      subst hst
      simp [pp]
  | succ k' ih =>
    intro hk'
    have ih := ih (by omega)
    simp only [pp]
    rw [ih]
    -- how children read in the new heap
    have hnew : ∀ j, j < 16 → childOf st'.h (.ref st.h.next) j =
        childOf st.h (pp st.h st.t.s.tree top i k) j := by
      intro j hj
      rw [hch j hj]
      cases s with
      | root =>
        simp only [St.install, St.store, Option.some.injEq] at hst
        subst hst
        simp only [childOf, Heap.alloc, if_true]
        cases n <;> rfl
      | @child k a ptr hp hn =>
        have ha := HI.lt _ _ hn
        simp only [St.install, St.store, Heap.alloc, Nat.ne_of_lt ha, if_false, hn, Option.some.injEq] at hst
        subst hst
        simp only [childOf, Heap.setNode, Nat.ne_of_gt ha, if_false, if_true]
        cases n <;> rfl
    split
    · -- the path goes through the new node
      rename_i hc
      obtain ⟨rfl, hpf⟩ := hc
      rw [hnew _ (digit_lt _ _), if_neg (by omega), pp_pfx (by omega) (Nat.le_refl _) hpf]
    · rename_i hc
      -- an old pointer; if it is not an inode the slot is not in it
      have hno : (∀ a, pp st.h st.t.s.tree top i' k' ≠ .ref a) →
          ¬ (k' + 1 = k ∧ i' / 16 ^ (top - k + 1) = i / 16 ^ (top - k + 1)) := by
        rintro w ⟨rfl, hpf⟩
        cases s with
        | @child k a ptr hp hn =>
          exact w a ((pp_pfx (by omega) (by omega) hpf).trans hp)
      have wf := TI.wf i' hi' k' (by omega)
      rcases wf with w | ⟨w, _⟩ | ⟨b, nd, w, hb, _⟩
      · rw [if_neg (hno (by simp [w])), w]; rfl
      · rw [if_neg (hno (by simp [w])), w]; rfl
      · rw [w]
        have hbn := HI.lt _ _ hb
        cases s with
        | root =>
          simp only [St.install, St.store, Option.some.injEq] at hst
          subst hst
          simp only [childOf, Heap.alloc, Nat.ne_of_lt hbn, if_false]
          rw [if_neg (by omega)]
        | @child k a ptr hp hn =>
          have ha := HI.lt _ _ hn
          simp only [St.install, St.store, Heap.alloc, Nat.ne_of_lt ha, if_false, hn, Option.some.injEq] at hst
          subst hst
          simp only [childOf, Heap.setNode, Nat.ne_of_lt hbn, if_false]
          by_cases hba : b = a
          · subst hba
            rw [hn] at hb
            cases hb
            have p1 := TI.pos i hi k (by omega) b _ hp hn htid
            have p2 := TI.pos i' hi' k' (by omega) b _ w hn htid
            rw [p1] at p2
            have e1 : k = k' := by
              have := congrArg Prod.fst p2
              simp only at this
              omega
            subst e1
            have e2 := congrArg Prod.snd p2
            simp only at e2
            have e3 : top - (k + 1) + 1 = top - k := by omega
            simp only [if_true, hn, e3, true_and]
            by_cases hd : digit (top - k) i' = digit (top - k) i
            · rw [if_pos hd, if_pos (pfx_step e2.symm hd)]
            · rw [if_neg hd, if_neg (fun hpf => hd (pfx_digit hpf))]
          · rw [if_neg hba, if_neg]
            rintro ⟨hkk, hpf⟩
            have hkk : k' = k := by omega
            subst hkk
            have := (pp_pfx (h := st.h) (root := st.t.s.tree) (k := k') (by omega) (by omega) hpf).symm.trans w
            rw [hp] at this
            cases this
            exact hba rfl

/-- What the writing primitives guarantee, apart from the contents. -/
structure R (top : Nat) (st st' : St α) : Prop where
  t_eq : st'.t = { st.t with s := { st.t.s with tree := st'.t.s.tree } }
  ext : Ext st.t.aid st.h st'.h
  arr : st'.h.arr = st.h.arr
  nextArr : st'.h.nextArr = st.h.nextArr
  lastId : st'.h.lastId = st.h.lastId
  heap : HeapInv st'.h
  tree : ∃ pos, TreeInv st'.h st.t.aid pos st'.t.s.tree top
  own : ∀ i, i < 16 ^ (top + 1) → ∀ k, k ≤ top → ∀ a nd, pp st.h st.t.s.tree top i k = .ref a →
    st.h.node a = some nd → nd.id = st.t.aid → pp st'.h st'.t.s.tree top i k = .ref a
  nonnil : ∀ i, i < 16 ^ (top + 1) → ∀ k, k ≤ top → (∃ a, pp st.h st.t.s.tree top i k = .ref a) →
    ∃ a, pp st'.h st'.t.s.tree top i k = .ref a
  sub : ∀ i, i < 16 ^ (top + 1) → ∀ k, k ≤ top → ∀ a nd, pp st'.h st'.t.s.tree top i k = .ref a →
    st'.h.node a = some nd → nd.id = st.t.aid ∨ pp st.h st.t.s.tree top i k = .ref a

theorem R.aid {top : Nat} {st st' : St α} (r : R top st st') : st'.t.aid = st.t.aid := by rw [r.t_eq]

theorem R.refl {top : Nat} {st : St α} (HI : HeapInv st.h)
    (TI : ∃ pos, TreeInv st.h st.t.aid pos st.t.s.tree top) : R top st st :=
  ⟨rfl, Ext.refl _ _, rfl, rfl, rfl, HI, TI, fun _ _ _ _ _ _ h _ _ => h, fun _ _ _ _ h => h,
    fun _ _ _ _ _ _ h _ => .inr h⟩

theorem R.trans {top : Nat} {a b c : St α} (x : R top a b) (y : R top b c) : R top a c where
  t_eq := by rw [y.t_eq, x.t_eq]
  ext := x.ext.trans (x.aid ▸ y.ext)
  arr := y.arr.trans x.arr
  nextArr := y.nextArr.trans x.nextArr
  lastId := y.lastId.trans x.lastId
  heap := y.heap
  tree := x.aid ▸ y.tree
  own i hi k hk p nd hp hn hid := by
    have h1 := x.own i hi k hk p nd hp hn hid
    obtain ⟨nd', hn', hid', _⟩ := x.ext.same p nd hn
    exact y.own i hi k hk p nd' h1 hn' (by rw [hid', hid, x.aid])
  nonnil i hi k hk h := y.nonnil i hi k hk (x.nonnil i hi k hk h)
  sub i hi k hk p nd hp hn := by
    rcases y.sub i hi k hk p nd hp hn with h | h
    · exact .inl (h.trans x.aid)
    · obtain ⟨pos, T⟩ := x.tree
      rcases T.wf i hi k hk with w | ⟨w, _⟩ | ⟨q, nq, w, hq, _⟩
      · rw [w] at h; cases h
      · rw [w] at h; cases h
      · rw [w] at h
        cases h
        obtain ⟨n3, e3, i3, _⟩ := y.ext.same _ _ hq
        rw [hn] at e3
        cases e3
        rcases x.sub i hi k hk _ _ w hq with h2 | h2
        · exact .inl (i3.trans h2)
        · exact .inr h2

/-- Installing a faithful, owned copy in a slot keeps everything and changes no element. -/
theorem install_R [Inhabited α] {st : St α} {top i k : Nat} {sl : Slot}
    (HI : HeapInv st.h) (TI : ∃ pos, TreeInv st.h st.t.aid pos st.t.s.tree top)
    (haid : 0 < st.t.aid ∧ st.t.aid ≤ st.h.lastId)
    (hi : i < 16 ^ (top + 1)) (hk : k ≤ top) (s : SlotAt st top i k sl) (n : Node α)
    (hid : n.id = st.t.aid) (hleaf : n.isLeaf = decide (top - k = 0))
    (hch : ∀ j, j < 16 → childOf st.h (pp st.h st.t.s.tree top i k) j =
      n.child j)
    (hval : ∀ j, j < 16 → leafVal st.h (pp st.h st.t.s.tree top i k) j =
      n.elem j)
    (hold : ∀ a nd, pp st.h st.t.s.tree top i k = .ref a → st.h.node a = some nd → nd.id ≠ st.t.aid) :
    ∃ st', st.install sl n = some st' ∧ R top st st' ∧
      (∀ i', i' < 16 ^ (top + 1) → tv st'.h st'.t.s.tree top i' = tv st.h st.t.s.tree top i') ∧
      pp st'.h st'.t.s.tree top i k = .ref st.h.next ∧ st'.h.node st.h.next = some n := by
  obtain ⟨pos, TI⟩ := TI
  obtain ⟨st', hst, ht, hnx, hl, harr, hna⟩ := s.install_eq HI n
  have hpp := pp_install HI TI rfl hi hk s n hch hst
  -- the node memory afterwards
  have hnewn : st'.h.node st.h.next = some n := by
    cases s with
    | root =>
      simp only [St.install, St.store, Option.some.injEq] at hst
      subst hst
      simp [Heap.alloc]
    | @child k a ptr hp hn =>
      have ha := HI.lt _ _ hn
      simp only [St.install, St.store, Heap.alloc, Nat.ne_of_lt ha, if_false, hn, Option.some.injEq] at hst
      subst hst
      simp [Heap.setNode, Nat.ne_of_gt ha]
  have hother : ∀ b nd, st.h.node b = some nd → st'.h.node b = some nd ∨
      (nd.id = st.t.aid ∧ ∃ nd', st'.h.node b = some nd' ∧ nd'.id = nd.id ∧ nd'.isLeaf = false ∧ nd.isLeaf = false) := by
    intro b nd hb
    have hbn := HI.lt _ _ hb
    cases s with
    | root =>
      simp only [St.install, St.store, Option.some.injEq] at hst
      subst hst
      left
      simp [Heap.alloc, Nat.ne_of_lt hbn, hb]
    | @child k a ptr hp hn =>
      have ha := HI.lt _ _ hn
      simp only [St.install, St.store, Heap.alloc, Nat.ne_of_lt ha, if_false, hn, Option.some.injEq] at hst
      subst hst
      by_cases hba : b = a
      · subst hba
        rw [hn] at hb
        cases hb
        right
        exact ⟨rfl, _, if_pos rfl, rfl, rfl, rfl⟩
      · left
        simp [Heap.setNode, hba, Nat.ne_of_lt hbn, hb]
  have hback : ∀ b nd', st'.h.node b = some nd' → b = st.h.next ∨ ∃ nd, st.h.node b = some nd := by
    intro b nd' hb
    cases s with
    | root =>
      simp only [St.install, St.store, Option.some.injEq] at hst
      subst hst
      simp only [Heap.alloc] at hb
      split at hb
      · left; assumption
      · right; exact ⟨_, hb⟩
    | @child k a ptr hp hn =>
      have ha := HI.lt _ _ hn
      simp only [St.install, St.store, Heap.alloc, Nat.ne_of_lt ha, if_false, hn, Option.some.injEq] at hst
      subst hst
      simp only [Heap.setNode] at hb
      split at hb
      · right; rename_i hb'; exact ⟨_, hb' ▸ hn⟩
      · split at hb
        · left; assumption
        · right; exact ⟨_, hb⟩
  have hext : Ext st.t.aid st.h st'.h := by
    refine ⟨?_, ?_, by omega, by omega⟩
    · intro b nd hb hne
      rcases hother b nd hb with h | ⟨h, _⟩
      · exact h
      · exact absurd h hne
    · intro b nd hb
      rcases hother b nd hb with h | ⟨_, nd', h1, h2, h3, h4⟩
      · exact ⟨nd, h, rfl, rfl⟩
      · exact ⟨nd', h1, h2, h3.trans h4.symm⟩
  have hHI : HeapInv st'.h := by
    have key : ∀ b nd', st'.h.node b = some nd' → b < st'.h.next ∧ 0 < nd'.id ∧ nd'.id ≤ st'.h.lastId := by
      intro b nd' hb
      rcases hback b nd' hb with rfl | ⟨nd, hb0⟩
      · rw [hnewn] at hb
        cases hb
        rw [hid, hnx, hl]
        omega
      · have l1 := HI.lt _ _ hb0
        have l2 := HI.idpos _ _ hb0
        have l3 := HI.idle _ _ hb0
        obtain ⟨nd2, e, hi2, _⟩ := hext.same b nd hb0
        rw [hb] at e
        cases e
        rw [hi2, hnx, hl]
        omega
    exact ⟨fun b nd hb => (key b nd hb).1, fun b nd hb => (key b nd hb).2.1, fun b nd hb => (key b nd hb).2.2⟩
  have hnon : ∀ i', i' < 16 ^ (top + 1) → ∀ k', k' ≤ top → (∃ a, pp st.h st.t.s.tree top i' k' = .ref a) →
      ∃ a, pp st'.h st'.t.s.tree top i' k' = .ref a := by
    intro i' hi' k' hk' h
    rw [hpp i' hi' k' hk']
    split
    · exact ⟨_, rfl⟩
    · exact h
  have hown : ∀ i', i' < 16 ^ (top + 1) → ∀ k', k' ≤ top → ∀ a nd, pp st.h st.t.s.tree top i' k' = .ref a →
      st.h.node a = some nd → nd.id = st.t.aid → pp st'.h st'.t.s.tree top i' k' = .ref a := by
    intro i' hi' k' hk' a nd hp hn he
    rw [hpp i' hi' k' hk']
    split
    · rename_i hc
      obtain ⟨rfl, hpf⟩ := hc
      rw [pp_pfx hk' (Nat.le_refl _) hpf] at hp
      exact absurd he (hold a nd hp hn)
    · exact hp
  refine ⟨st', hst, ⟨ht, hext, harr, hna, hl, hHI, ?_, hown, hnon, ?_⟩, ?_, ?_, hnewn⟩
  · -- the tree invariant
    refine ⟨fun b => if b = st.h.next then (top - k, i / 16 ^ (top - k + 1)) else pos b, ?_, ?_⟩
    · intro i' hi' k' hk'
      rw [hpp i' hi' k' hk']
      split
      · rename_i hc
        obtain ⟨rfl, _⟩ := hc
        exact .inr (.inr ⟨_, n, rfl, hnewn, hleaf⟩)
      · exact okAt_ext hext (TI.wf i' hi' k' hk')
    · intro i' hi' k' hk' a nd hp hn he
      rw [hpp i' hi' k' hk'] at hp
      split at hp
      · rename_i hc
        obtain ⟨rfl, hpf⟩ := hc
        cases hp
        simp [hpf]
      · have wf := TI.wf i' hi' k' hk'
        rcases wf with w | ⟨w, _⟩ | ⟨b, nd0, w, hb, _⟩
        · rw [w] at hp; cases hp
        · rw [w] at hp; cases hp
        · rw [w] at hp
          cases hp
          have := HI.lt _ _ hb
          rw [if_neg (by omega)]
          obtain ⟨nd2, e, hi2, _⟩ := hext.same _ nd0 hb
          rw [hn] at e
          cases e
          exact TI.pos i' hi' k' hk' _ nd0 w hb (by rw [← hi2]; exact he)
  · intro i' hi' k' hk' a nd hp hn
    rw [hpp i' hi' k' hk'] at hp
    split at hp
    · cases hp
      rw [hnewn] at hn
      cases hn
      exact .inl hid
    · exact .inr hp
  · -- the elements
    intro i' hi'
    unfold tv
    rw [hpp i' hi' top (Nat.le_refl _)]
    split
    · rename_i hc
      obtain ⟨rfl, hpf⟩ := hc
      rw [pp_pfx hk (Nat.le_refl _) hpf, hval _ (Nat.mod_lt _ (by decide))]
      simp only [leafVal, hnewn]
      cases n <;> rfl
    · rcases TI.wf i' hi' top (Nat.le_refl _) with w | ⟨w, _⟩ | ⟨b, nd, w, hb, hbl⟩
      · rw [w]; rfl
      · rw [w]; rfl
      · rw [w]
        rcases hother b nd hb with h | ⟨_, nd', h1, h2, h3, h4⟩
        · simp only [leafVal, hb, h]
        · simp [h4] at hbl
  · rw [hpp i hi k hk]
    simp

/-- A slot stays usable across other writes of the same transient. -/
theorem SlotAt.mono {top i k : Nat} {sl : Slot} {st st' : St α} (hi : i < 16 ^ (top + 1)) (hk : k ≤ top)
    (s : SlotAt st top i k sl) (r : R top st st') : SlotAt st' top i k sl := by
  cases s with
  | root => exact .root
  | @child k a ptr hp hn =>
    obtain ⟨nd', hn', hid', hl'⟩ := r.ext.same a _ hn
    cases nd' with
    | leaf => simp [Node.isLeaf] at hl'
    | inode id ptr' =>
      have : id = st.t.aid := hid'
      subst this
      refine SlotAt.child (ptr := ptr') (r.own i hi k (by omega) a _ hp hn rfl) ?_
      rw [hn', r.aid]

theorem withId_idem (st : St α) : st.withId.withId = st.withId := by
  unfold St.withId
  split
  · simp
  · simp [*]

theorem load_withId (st : St α) (sl : Slot) : st.withId.load sl = st.load sl := by
  unfold St.withId
  split
  · cases sl <;> rfl
  · rfl

theorem wnode_withId (st : St α) (sl : Slot) : st.wnode sl = st.withId.wnode sl := by
  unfold St.wnode
  rw [load_withId, withId_idem]

theorem wleaf_withId [Inhabited α] (st : St α) (sl : Slot) : st.wleaf sl = st.withId.wleaf sl := by
  unfold St.wleaf
  rw [load_withId, withId_idem]

theorem withId_of_pos {st : St α} (h : 0 < st.t.aid) : st.withId = st := by
  unfold St.withId
  rw [if_neg (by omega)]

/-- `wnode` succeeds on a slot above the leaves and yields an owned inode. -/
theorem wnode_spec [Inhabited α] {st : St α} {top i k : Nat} {sl : Slot}
    (HI : HeapInv st.h) (TI : ∃ pos, TreeInv st.h st.t.aid pos st.t.s.tree top)
    (haid : 0 < st.t.aid ∧ st.t.aid ≤ st.h.lastId)
    (hi : i < 16 ^ (top + 1)) (hk : k < top) (s : SlotAt st top i k sl) :
    ∃ st' a ptr, st.wnode sl = some (st', a) ∧ R top st st' ∧
      (∀ i', i' < 16 ^ (top + 1) → tv st'.h st'.t.s.tree top i' = tv st.h st.t.s.tree top i') ∧
      pp st'.h st'.t.s.tree top i k = .ref a ∧ st'.h.node a = some (.inode st'.t.aid ptr) := by
  have hload := s.load_eq
  obtain ⟨pos, TI'⟩ := id TI
  have wf := TI'.wf i hi k (by omega)
  have hd : decide (top - k = 0) = false := by simp; omega
  have fresh : ∀ ptr : Nat → Ptr,
      (∀ j, childOf st.h (pp st.h st.t.s.tree top i k) j = ptr j) →
      (∀ j, leafVal st.h (pp st.h st.t.s.tree top i k) j = default) →
      (∀ a nd, pp st.h st.t.s.tree top i k = .ref a → st.h.node a = some nd → nd.id ≠ st.t.aid) →
      ∃ st' a ptr', (do
          let st'' ← St.store { st with h := st.h.alloc (.inode st.t.aid ptr) } sl (.ref st.h.next)
          some (st'', st.h.next)) = some (st', a) ∧ R top st st' ∧
        (∀ i', i' < 16 ^ (top + 1) → tv st'.h st'.t.s.tree top i' = tv st.h st.t.s.tree top i') ∧
        pp st'.h st'.t.s.tree top i k = .ref a ∧ st'.h.node a = some (.inode st'.t.aid ptr') := by
    intro ptr h1 h2 h3
    obtain ⟨st', e, r, t, p, q⟩ := install_R HI TI haid hi (by omega) s (.inode st.t.aid ptr) rfl
      (by simp [Node.isLeaf, hd]) (fun j _ => h1 j) (fun j _ => h2 j) h3
    refine ⟨st', st.h.next, ptr, ?_, r, t, p, ?_⟩
    · unfold St.install at e
      rw [e]; rfl
    · rw [q, r.aid]
  unfold St.wnode
  rw [hload, withId_of_pos haid.1]
  simp only [Option.bind_eq_bind, Option.bind_some]
  rcases wf with w | ⟨w, _⟩ | ⟨a, nd, w, hn, hl⟩
  · rw [w]
    exact fresh (fun _ => .nil) (by simp [w, childOf]) (by simp [w, leafVal]) (by simp [w])
  · rw [w]
    exact fresh (fun _ => .nil) (by simp [w, childOf]) (by simp [w, leafVal]) (by simp [w])
  · rw [w]
    cases nd with
    | leaf => simp [Node.isLeaf, hd] at hl
    | inode id ptr =>
      simp only [hn]
      by_cases hid : id = st.t.aid
      · rw [if_pos hid]
        exact ⟨st, a, ptr, rfl, R.refl HI TI, fun _ _ => rfl, w, by rw [hn, hid]⟩
      · rw [if_neg hid]
        refine fresh ptr (by simp [w, childOf, hn]) (by simp [w, leafVal, hn]) ?_
        intro b nd hb hnb
        rw [w] at hb
        cases hb
        rw [hn] at hnb
        cases hnb
        exact hid

/-- `wleaf` succeeds on a slot at the leaf level and yields an owned leaf with the current contents. -/
theorem wleaf_spec [Inhabited α] {st : St α} {top i : Nat} {sl : Slot}
    (HI : HeapInv st.h) (TI : ∃ pos, TreeInv st.h st.t.aid pos st.t.s.tree top)
    (haid : 0 < st.t.aid ∧ st.t.aid ≤ st.h.lastId) (htop : 0 < top)
    (hi : i < 16 ^ (top + 1)) (s : SlotAt st top i top sl) :
    ∃ st' a val, st.wleaf sl = some (st', a) ∧ R top st st' ∧
      (∀ i', i' < 16 ^ (top + 1) → tv st'.h st'.t.s.tree top i' = tv st.h st.t.s.tree top i') ∧
      pp st'.h st'.t.s.tree top i top = .ref a ∧ st'.h.node a = some (.leaf st'.t.aid val) := by
  have hload := s.load_eq
  obtain ⟨pos, TI'⟩ := id TI
  have wf := TI'.wf i hi top (by omega)
  have hd : decide (top - top = 0) = true := by simp
  have fresh : ∀ val : Nat → α,
      (∀ j, childOf st.h (pp st.h st.t.s.tree top i top) j = .nil) →
      (∀ j, leafVal st.h (pp st.h st.t.s.tree top i top) j = val j) →
      (∀ a nd, pp st.h st.t.s.tree top i top = .ref a → st.h.node a = some nd → nd.id ≠ st.t.aid) →
      ∃ st' a val', (do
          let st'' ← St.store { st with h := st.h.alloc (.leaf st.t.aid val) } sl (.ref st.h.next)
          some (st'', st.h.next)) = some (st', a) ∧ R top st st' ∧
        (∀ i', i' < 16 ^ (top + 1) → tv st'.h st'.t.s.tree top i' = tv st.h st.t.s.tree top i') ∧
        pp st'.h st'.t.s.tree top i top = .ref a ∧ st'.h.node a = some (.leaf st'.t.aid val') := by
    intro val h1 h2 h3
    obtain ⟨st', e, r, t, p, q⟩ := install_R HI TI haid hi (by omega) s (.leaf st.t.aid val) rfl
      (by simp [Node.isLeaf]) (fun j _ => h1 j) (fun j _ => h2 j) h3
    refine ⟨st', st.h.next, val, ?_, r, t, p, ?_⟩
    · unfold St.install at e
      rw [e]; rfl
    · rw [q, r.aid]
  unfold St.wleaf
  rw [hload, withId_of_pos haid.1]
  simp only [Option.bind_eq_bind, Option.bind_some]
  rcases wf with w | ⟨_, h0⟩ | ⟨a, nd, w, hn, hl⟩
  · rw [w]
    exact fresh (fun _ => default) (by simp [w, childOf]) (by simp [w, leafVal]) (by simp [w])
  · omega
  · rw [w]
    cases nd with
    | inode => simp [Node.isLeaf] at hl
    | leaf id val =>
      simp only [hn]
      by_cases hid : id = st.t.aid
      · rw [if_pos hid]
        exact ⟨st, a, val, rfl, R.refl HI TI, fun _ _ => rfl, w, by rw [hn, hid]⟩
      · rw [if_neg hid]
        refine fresh val (by simp [w, childOf, hn]) (by simp [w, leafVal, hn]) ?_
        intro b nd hb hnb
        rw [w] at hb
        cases hb
        rw [hn] at hnb
        cases hnb
        exact hid

/-- Writing an owned leaf changes only the elements of that leaf. -/
theorem leafWrite_spec [Inhabited α] {st : St α} {top i a : Nat} {val : Nat → α}
    (HI : HeapInv st.h) (TI : ∃ pos, TreeInv st.h st.t.aid pos st.t.s.tree top)
    (hi : i < 16 ^ (top + 1)) (hp : pp st.h st.t.s.tree top i top = .ref a)
    (hn : st.h.node a = some (.leaf st.t.aid val)) (f : (Nat → α) → Nat → α) :
    ∃ st', st.leafWrite a f = some st' ∧ R top st st' ∧
      ∀ i', i' < 16 ^ (top + 1) → tv st'.h st'.t.s.tree top i' =
        if i' / 16 = i / 16 then f val (i' % 16) else tv st.h st.t.s.tree top i' := by
  obtain ⟨pos, TI⟩ := TI
  let st' : St α := { st with h := st.h.setNode a (.leaf st.t.aid (f val)) }
  have hst : st.leafWrite a f = some st' := by simp only [St.leafWrite, hn, st']
  have hch : ∀ p j, childOf st'.h p j = childOf st.h p j := by
    intro p j
    cases p with
    | nil => rfl
    | tnil => rfl
    | ref b =>
      simp only [childOf, st', Heap.setNode]
      by_cases hb : b = a
      · subst hb; simp [hn]
      · simp [hb]
  have hpp : ∀ i' k, pp st'.h st'.t.s.tree top i' k = pp st.h st.t.s.tree top i' k := by
    intro i' k
    induction k with
    | zero => rfl
    | succ k ih => simp only [pp, ih, hch]
  have hext : Ext st.t.aid st.h st'.h := by
    refine ⟨?_, ?_, Nat.le_refl _, Nat.le_refl _⟩
    · intro b nd hb hne
      by_cases hba : b = a
      · subst hba; rw [hn] at hb; cases hb; exact absurd rfl hne
      · simp [st', Heap.setNode, hba, hb]
    · intro b nd hb
      by_cases hba : b = a
      · subst hba; rw [hn] at hb; cases hb
        exact ⟨_, if_pos rfl, rfl, rfl⟩
      · exact ⟨nd, by simp [st', Heap.setNode, hba, hb], rfl, rfl⟩
  have hback : ∀ b nd', st'.h.node b = some nd' → ∃ nd, st.h.node b = some nd ∧ nd'.id = nd.id := by
    intro b nd' hb
    by_cases hba : b = a
    · subst hba
      simp only [st', Heap.setNode, if_true, Option.some.injEq] at hb
      subst hb
      exact ⟨_, hn, rfl⟩
    · simp only [st', Heap.setNode, hba, if_false] at hb
      exact ⟨nd', hb, rfl⟩
  refine ⟨st', hst, ⟨rfl, hext, rfl, rfl, rfl, ?_, ⟨pos, ?_, ?_⟩, ?_, ?_, ?_⟩, ?_⟩
  · refine ⟨fun b nd hb => ?_, fun b nd hb => ?_, fun b nd hb => ?_⟩ <;>
      obtain ⟨nd0, h0, e⟩ := hback b nd hb
    · exact HI.lt _ _ h0
    · rw [e]; exact HI.idpos _ _ h0
    · rw [e]; exact HI.idle _ _ h0
  · intro i' hi' k hk
    rw [hpp]
    exact okAt_ext hext (TI.wf i' hi' k hk)
  · intro i' hi' k hk b nd hb hnb he
    rw [hpp] at hb
    obtain ⟨nd0, h0, e⟩ := hback b nd hnb
    exact TI.pos i' hi' k hk b nd0 hb h0 (e.symm.trans he)
  · intro i' hi' k hk b nd hb _ _
    rw [hpp]; exact hb
  · intro i' hi' k hk h
    rw [hpp]; exact h
  · intro i' hi' k hk b nd hb _
    rw [hpp] at hb
    exact .inr hb
  · intro i' hi'
    unfold tv
    rw [hpp]
    have p1 := TI.pos i hi top (Nat.le_refl _) a _ hp hn rfl
    rw [Nat.sub_self, Nat.zero_add, Nat.pow_one] at p1
    by_cases hq : pp st.h st.t.s.tree top i' top = .ref a
    · have p2 := TI.pos i' hi' top (Nat.le_refl _) a _ hq hn rfl
      rw [Nat.sub_self, Nat.zero_add, Nat.pow_one, p1] at p2
      have e := congrArg Prod.snd p2
      simp only at e
      rw [if_pos e.symm, hq]
      simp [leafVal, st', Heap.setNode]
    · have : ¬ i' / 16 = i / 16 := by
        intro e
        apply hq
        rw [← hp]
        exact pp_pfx (n := 1) (Nat.le_refl _) (by omega) (by simpa using e)
      rw [if_neg this]
      cases hr : pp st.h st.t.s.tree top i' top with
      | nil => rfl
      | tnil => rfl
      | ref b =>
        have : b ≠ a := by rintro rfl; exact hq hr
        simp [leafVal, st', Heap.setNode, this]

end Verif.Persist
