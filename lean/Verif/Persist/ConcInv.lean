import Verif.Persist.Conc
import Verif.Persist.Sim
/-
Helper lemmas: invariants of concurrent `Set` calls.
-/
namespace Verif.Persist
variable {α : Type} [Inhabited α]
set_option linter.unusedSectionVars false

/-- What holds of the shared state at every moment, `st0` being the state when the goroutines start. -/
structure SI (st0 st : St α) : Prop where
  full : Full st
  tlen : st.t.s.tlen = st0.t.s.tlen
  height : st.t.s.height = st0.t.s.height
  tail_len : st.t.s.tail.len = st0.t.s.tail.len
  aid : st.t.aid = st0.t.aid ∨ (st0.t.aid = 0 ∧ st0.h.lastId < st.t.aid)
  aid0 : st.t.aid = 0 → st.h.node = st0.h.node
  ext : Ext st0.t.aid st0.h st.h
  arr : ∀ c, c < st0.h.nextArr → (st0.t.wtail = true → c ≠ st0.t.s.tail.base) → st.h.arr c = st0.h.arr c
  nextArr : st0.h.nextArr ≤ st.h.nextArr
  base : (st.t.s.tail = st0.t.s.tail ∧ st.t.wtail = st0.t.wtail) ∨
    (st0.h.nextArr ≤ st.t.s.tail.base ∧ st0.t.wtail = false)
  wtail : st0.t.wtail = true → st.t.wtail = true
  avoid : ∀ tid, tid ≤ st0.h.lastId → tid ≠ st0.t.aid → AvoidS st0.h tid st0.t.s → AvoidS st.h tid st.t.s

theorem SI.refl {st : St α} (F : Full st) : SI st st :=
  ⟨F, rfl, rfl, rfl, .inl rfl, fun _ => rfl, Ext.refl _ _, fun _ _ _ => rfl, Nat.le_refl _, .inl ⟨rfl, rfl⟩, fun h => h,
    fun _ _ _ h => h⟩

/-- Same nodes, same tree: everything about the tree carries over. -/
theorem Full.congr {st st' : St α} (F : Full st) (en : st'.h.node = st.h.node) (ex : st.h.next ≤ st'.h.next)
    (el : st.h.lastId ≤ st'.h.lastId) (et : st'.t.s.tree = st.t.s.tree) (eh : st'.t.s.height = st.t.s.height)
    (etl : st'.t.s.tlen = st.t.s.tlen) (ea : st'.t.aid = st.t.aid)
    (hb : st'.t.s.tail.base < st'.h.nextArr) (hw : st'.t.wtail = true → st'.t.s.tail.cap = 16 ∧ 0 < st'.t.s.tail.base)
    (hc : st'.t.s.tail.len ≤ st'.t.s.tail.cap) (htl : st'.t.tailLen = st'.t.s.tail.len) (hl : st'.t.s.tail.len ≤ 16) :
    Full st' := by
  refine ⟨⟨⟨?_, ?_, ?_⟩, by rw [ea]; exact Nat.le_trans F.aid el, by rw [eh]; exact F.h2, ?_, hb, hw, hc, htl, hl⟩,
    F.shape.node en et eh etl⟩
  · intro a nd h; rw [en] at h; exact Nat.lt_of_lt_of_le (F.heap.lt a nd h) ex
  · intro a nd h; rw [en] at h; exact F.heap.idpos a nd h
  · intro a nd h; rw [en] at h; exact Nat.le_trans (F.heap.idle a nd h) el
  · intro hh
    rw [eh] at hh ⊢
    rw [et, ea]
    exact treeInv_node en (F.tree hh)

theorem SI.addId {st0 st : St α} (S : SI st0 st) : SI st0 { st with h := { st.h with lastId := st.h.lastId + 1 } } := by
  refine ⟨S.full.congr rfl (Nat.le_refl _) (Nat.le_succ _) rfl rfl rfl rfl S.full.base S.full.wt S.full.cap S.full.tl S.full.len,
    S.tlen, S.height, S.tail_len, S.aid, S.aid0, ?_, S.arr, S.nextArr, S.base, S.wtail, ?_⟩
  · exact ⟨S.ext.keep, S.ext.same, S.ext.next, Nat.le_succ_of_le S.ext.lastId⟩
  · intro tid h1 h2 h3
    exact avoidS_node (h := st.h) (s := st.t.s) (by rfl) (by rfl) (by rfl) (S.avoid tid h1 h2 h3)

theorem SI.setAid {st0 st : St α} (F0 : Full st0) (S : SI st0 st) (h0 : st.t.aid = 0) {id : Nat} (h1 : st0.h.lastId < id)
    (h2 : id ≤ st.h.lastId) : SI st0 { st with t := { st.t with aid := id } } := by
  have ha0 : st0.t.aid = 0 := by
    rcases S.aid with h | ⟨h, _⟩
    · rw [← h, h0]
    · exact h
  refine ⟨⟨⟨S.full.heap, h2, S.full.h2, ?_, S.full.base, S.full.wt, S.full.cap, S.full.tl, S.full.len⟩, S.full.shape⟩,
    S.tlen, S.height, S.tail_len, .inr ⟨ha0, h1⟩, ?_, S.ext, S.arr, S.nextArr, S.base, S.wtail, S.avoid⟩
  · intro hh
    obtain ⟨pos, T⟩ := S.full.tree hh
    refine ⟨pos, T.wf, fun i hi k hk a nd hp hn hid => ?_⟩
    exfalso
    rw [show st.h.node = st0.h.node from S.aid0 h0] at hn
    have := F0.heap.idle a nd hn
    have hid' : nd.id = id := hid
    omega
  · intro h
    have h' : id = 0 := h
    omega

theorem SI.r {st0 st st' : St α} (F0 : Full st0) (S : SI st0 st) (ha : 0 < st.t.aid) (hh : st.t.s.height ≠ 0)
    (r : R (st.t.s.height - 1) st st') : SI st0 st' := by
  obtain ⟨C, Fr⟩ := R.core S.full.toCore ha hh r
  have ht := r.t_eq
  have e1 : st'.t.s.height = st.t.s.height := by rw [ht]
  have e2 : st'.t.s.tail = st.t.s.tail := by rw [ht]
  have e3 : st'.t.wtail = st.t.wtail := by rw [ht]
  have e4 : st'.t.s.tlen = st.t.s.tlen := by rw [ht]
  have etid : tidOf st = st.t.aid := by unfold tidOf; rw [if_neg (by omega)]
  have sh : Shape st'.h st'.t.s := by
    refine ⟨by rw [e1, e4]; exact S.full.shape.height, by rw [e4]; exact S.full.shape.mod, fun _ k hk => ?_⟩
    rw [e1] at hk ⊢
    exact r.nonnil 0 (pow16_pos _) k hk (S.full.shape.left hh k hk)
  refine ⟨⟨C, sh⟩, by rw [e4]; exact S.tlen, by rw [e1]; exact S.height, by rw [e2]; exact S.tail_len, by rw [r.aid]; exact S.aid,
    fun h => by rw [r.aid] at h; omega, ?_, fun c h1 h2 => by rw [r.arr]; exact S.arr c h1 h2, by rw [r.nextArr]; exact S.nextArr,
    by rw [e2, e3]; exact S.base, by rw [e3]; exact S.wtail, ?_⟩
  · refine ⟨fun a nd hn hid => ?_, fun a nd hn => ?_, Nat.le_trans S.ext.next r.ext.next, Nat.le_trans S.ext.lastId r.ext.lastId⟩
    · have k1 := S.ext.keep a nd hn hid
      refine r.ext.keep a nd k1 ?_
      rcases S.aid with h | ⟨_, h⟩
      · rw [h]; exact hid
      · have := F0.heap.idle a nd hn
        omega
    · obtain ⟨n2, h2, i2, l2⟩ := S.ext.same a nd hn
      obtain ⟨n3, h3, i3, l3⟩ := r.ext.same a n2 h2
      exact ⟨n3, h3, i3.trans i2, l3.trans l2⟩
  · intro tid h1 h2 h3
    refine Fr.avoid tid ?_ (S.avoid tid h1 h2 h3)
    rw [etid]
    rcases S.aid with h | ⟨_, h⟩
    · rw [h]; exact h2
    · omega

/-- `t.setTail(tail)` inside `writeTail`. -/
theorem SI.newTail {st0 st : St α} (S : SI st0 st) (hw : st.t.wtail = false) (new : Nat → α) :
    SI st0 { h := { st.h with arr := fun c => if c = st.h.nextArr then new else st.h.arr c, nextArr := st.h.nextArr + 1 },
             t := st.t.setTail ⟨st.h.nextArr, st.t.s.tail.len, chunk⟩ } := by
  have hw0 : st0.t.wtail = false := by
    cases h : st0.t.wtail with
    | false => rfl
    | true => rw [S.wtail h] at hw; cases hw
  refine ⟨S.full.congr rfl (Nat.le_refl _) (Nat.le_refl _) rfl rfl rfl rfl (Nat.lt_succ_self _) ?_ S.full.len rfl S.full.len,
    S.tlen, S.height, S.tail_len, S.aid, S.aid0, ⟨S.ext.keep, S.ext.same, S.ext.next, S.ext.lastId⟩, ?_,
    Nat.le_succ_of_le S.nextArr, .inr ⟨S.nextArr, hw0⟩, ?_, ?_⟩
  · intro _
    exact ⟨rfl, Nat.lt_of_le_of_lt (Nat.zero_le _) S.full.base⟩
  · intro c h1 h2
    have := S.nextArr
    show (if c = st.h.nextArr then new else st.h.arr c) = _
    rw [if_neg (by omega)]
    exact S.arr c h1 h2
  · intro h
    rw [hw0] at h
    cases h
  · intro tid h1 h2 h3
    exact avoidS_node (h := st.h) (s := st.t.s) (by rfl) (by rfl) (by rfl) (S.avoid tid h1 h2 h3)

theorem SI.flag {st0 st : St α} (S : SI st0 st) (hc : st.t.s.tail.cap = 16) (hb : st0.h.nextArr ≤ st.t.s.tail.base)
    (h0 : 0 < st0.h.nextArr) (hw : st.t.wtail = false) : SI st0 { st with t := { st.t with wtail := true } } := by
  have hw0 : st0.t.wtail = false := by
    cases h : st0.t.wtail with
    | false => rfl
    | true => rw [S.wtail h] at hw; cases hw
  refine ⟨S.full.congr rfl (Nat.le_refl _) (Nat.le_refl _) rfl rfl rfl rfl S.full.base
      (fun _ => ⟨hc, by show 0 < st.t.s.tail.base; omega⟩) S.full.cap S.full.tl S.full.len,
    S.tlen, S.height, S.tail_len, S.aid, S.aid0, S.ext, S.arr, S.nextArr, .inr ⟨hb, hw0⟩, fun _ => rfl, S.avoid⟩

theorem SI.tailWrite {st0 st : St α} (S : SI st0 st) (hw : st.t.wtail = true) (f : (Nat → α) → Nat → α) :
    SI st0 (st.tailWrite f) := by
  refine ⟨S.full.congr rfl (Nat.le_refl _) (Nat.le_refl _) rfl rfl rfl rfl S.full.base S.full.wt S.full.cap S.full.tl S.full.len,
    S.tlen, S.height, S.tail_len, S.aid, S.aid0, ⟨S.ext.keep, S.ext.same, S.ext.next, S.ext.lastId⟩, ?_,
    S.nextArr, S.base, S.wtail, ?_⟩
  · intro c h1 h2
    show (if c = st.t.s.tail.base then f (st.h.arr st.t.s.tail.base) else st.h.arr c) = _
    rw [if_neg, S.arr c h1 h2]
    rcases S.base with ⟨h3, h4⟩ | ⟨h3, h4⟩
    · rw [h3]; exact h2 (by rw [← h4]; exact hw)
    · omega
  · intro tid h1 h2 h3
    exact avoidS_node (h := st.h) (s := st.t.s) (by rfl) (by rfl) (by rfl) (S.avoid tid h1 h2 h3)

/-! ### Goroutines -/

/-- The node at depth `k` towards `i` belongs to the transient. -/
def OwnedAt (st : St α) (top i k : Nat) : Prop :=
  0 < st.t.aid ∧ ∃ a nd, pp st.h st.t.s.tree top i k = .ref a ∧ st.h.node a = some nd ∧ nd.id = st.t.aid

/-- A pointer loaded earlier from slot `sl`: still there, or replaced by an owned node. -/
structure Seen (st : St α) (top i level : Nat) (sl : Slot) (pl : Ptr) : Prop where
  le : level ≤ top
  slot : SlotAt st top i (top - level) sl
  ok : okAt st.h level (top - level) pl
  cur : pp st.h st.t.s.tree top i (top - level) = pl ∨ OwnedAt st top i (top - level)
  own : ∀ a nd, pl = .ref a → st.h.node a = some nd → nd.id = st.t.aid → pp st.h st.t.s.tree top i (top - level) = pl

/-- What a goroutine inside `Set(i, ·)` knows. -/
def PcOK (st0 st : St α) (i : Nat) : Pc α → Prop
  | .idle => True
  | .load level sl => i < st.t.s.tlen ∧ level ≤ st.t.s.height - 1 ∧
      SlotAt st (st.t.s.height - 1) i (st.t.s.height - 1 - level) sl
  | .aidLoad level sl pl => i < st.t.s.tlen ∧ Seen st (st.t.s.height - 1) i level sl pl
  | .aidAdd level sl pl => i < st.t.s.tlen ∧ Seen st (st.t.s.height - 1) i level sl pl
  | .aidCas level sl pl id => i < st.t.s.tlen ∧ Seen st (st.t.s.height - 1) i level sl pl ∧
      st0.h.lastId < id ∧ id ≤ st.h.lastId
  | .check level sl pl tid => i < st.t.s.tlen ∧ Seen st (st.t.s.height - 1) i level sl pl ∧ tid = st.t.aid ∧ 0 < st.t.aid
  | .copy level sl a j new => i < st.t.s.tlen ∧ Seen st (st.t.s.height - 1) i level sl (.ref a) ∧ 0 < st.t.aid ∧ j ≤ 16 ∧
      new.id = st.t.aid ∧ new.isLeaf = decide (level = 0) ∧
      ∃ nd, st.h.node a = some nd ∧ nd.id ≠ st.t.aid ∧ nd.isLeaf = decide (level = 0) ∧
        ∀ k, k < j → new.child k = nd.child k ∧ new.elem k = nd.elem k
  | .cas level sl pl new => i < st.t.s.tlen ∧ Seen st (st.t.s.height - 1) i level sl pl ∧ 0 < st.t.aid ∧
      new.id = st.t.aid ∧ new.isLeaf = decide (level = 0) ∧
      (∀ k, k < 16 → childOf st.h pl k = new.child k ∧ leafVal st.h pl k = new.elem k) ∧
      (∀ a nd, pl = .ref a → st.h.node a = some nd → nd.id ≠ st.t.aid)
  | .leafStore a => i < st.t.s.tlen ∧ 0 < st.t.aid ∧ pp st.h st.t.s.tree (st.t.s.height - 1) i (st.t.s.height - 1) = .ref a ∧
      ∃ val, st.h.node a = some (.leaf st.t.aid val)
  | .tailLoad => st.t.s.tlen ≤ i
  | .tailLock => st.t.s.tlen ≤ i
  | .tailCheck => st.t.s.tlen ≤ i
  | .tailCopy j new => st.t.s.tlen ≤ i ∧ st.t.wtail = false ∧ j ≤ st.t.s.tail.len ∧
      ∀ k, k < j → new k = st.h.arr st.t.s.tail.base k
  | .tailFlag => st.t.s.tlen ≤ i ∧ st.t.wtail = false ∧ st.t.s.tail.cap = 16 ∧ st0.h.nextArr ≤ st.t.s.tail.base
  | .tailUnlock => st.t.s.tlen ≤ i ∧ st.t.wtail = true
  | .tailStore => st.t.s.tlen ≤ i ∧ st.t.wtail = true

/-- The goroutine holds `tailMu`. -/
def Pc.holds : Pc α → Bool
  | .tailCheck => true
  | .tailCopy .. => true
  | .tailFlag => true
  | .tailUnlock => true
  | _ => false

/-- A step that leaves the tree alone. -/
structure SameTree (st st' : St α) : Prop where
  node : st'.h.node = st.h.node
  lastId : st.h.lastId ≤ st'.h.lastId
  tree : st'.t.s.tree = st.t.s.tree
  height : st'.t.s.height = st.t.s.height
  tlen : st'.t.s.tlen = st.t.s.tlen
  aid : st'.t.aid = st.t.aid

theorem SameTree.slotAt {st st' : St α} (e : SameTree st st') {top i k : Nat} {sl : Slot} (s : SlotAt st top i k sl) :
    SlotAt st' top i k sl := by
  cases s with
  | root => exact .root
  | @child k a ptr hp hn =>
    refine .child (ptr := ptr) ?_ ?_
    · rw [pp_node e.node, e.tree]; exact hp
    · rw [e.node, e.aid]; exact hn

theorem SameTree.seen {st st' : St α} (e : SameTree st st') {top i level : Nat} {sl : Slot} {pl : Ptr}
    (s : Seen st top i level sl pl) : Seen st' top i level sl pl := by
  refine ⟨s.le, e.slotAt s.slot, ?_, ?_, ?_⟩
  · have := s.ok
    unfold okAt at *
    rw [e.node]; exact this
  · unfold OwnedAt
    rw [pp_node e.node, e.tree, e.node, e.aid]
    exact s.cur
  · rw [pp_node e.node, e.tree, e.node, e.aid]
    exact s.own

/-- Tree positions carry over when the tree is untouched. -/
theorem PcOK.sameTree {st0 st st' : St α} (e : SameTree st st') {i : Nat} {pc : Pc α} (h : PcOK st0 st i pc)
    (ht : (∃ j new, pc = .tailCopy j new) ∨ pc = .tailFlag ∨ pc = .tailUnlock ∨ pc = .tailStore → PcOK st0 st' i pc) :
    PcOK st0 st' i pc := by
  cases pc with
  | idle => trivial
  | load level sl =>
    obtain ⟨h1, h2, h3⟩ := h
    unfold PcOK
    rw [e.height, e.tlen]
    exact ⟨h1, h2, e.slotAt h3⟩
  | aidLoad level sl pl =>
    unfold PcOK at *
    rw [e.height, e.tlen]
    exact ⟨h.1, e.seen h.2⟩
  | aidAdd level sl pl =>
    unfold PcOK at *
    rw [e.height, e.tlen]
    exact ⟨h.1, e.seen h.2⟩
  | aidCas level sl pl id =>
    unfold PcOK at *
    rw [e.height, e.tlen]
    exact ⟨h.1, e.seen h.2.1, h.2.2.1, Nat.le_trans h.2.2.2 e.lastId⟩
  | check level sl pl tid =>
    unfold PcOK at *
    rw [e.height, e.tlen, e.aid]
    exact ⟨h.1, e.seen h.2.1, h.2.2⟩
  | copy level sl a j new =>
    unfold PcOK at *
    rw [e.height, e.tlen, e.aid, e.node]
    exact ⟨h.1, e.seen h.2.1, h.2.2⟩
  | cas level sl pl new =>
    unfold PcOK at *
    rw [e.height, e.tlen, e.aid, e.node]
    obtain ⟨h1, h2, h3, h4, h5, h6, h7⟩ := h
    refine ⟨h1, e.seen h2, h3, h4, h5, fun k hk => ?_, h7⟩
    have := h6 k hk
    unfold childOf leafVal at *
    rw [e.node]
    exact this
  | leafStore a =>
    unfold PcOK at *
    rw [e.height, e.tlen, e.aid, e.node, pp_node e.node, e.tree]
    exact h
  | tailLoad => unfold PcOK at *; rw [e.tlen]; exact h
  | tailLock => unfold PcOK at *; rw [e.tlen]; exact h
  | tailCheck => unfold PcOK at *; rw [e.tlen]; exact h
  | tailCopy j new => exact ht (.inl ⟨j, new, rfl⟩)
  | tailFlag => exact ht (.inr (.inl rfl))
  | tailUnlock => exact ht (.inr (.inr (.inl rfl)))
  | tailStore => exact ht (.inr (.inr (.inr rfl)))

/-- Taking an id does not disturb anyone. -/
theorem PcOK.setAid {st0 st : St α} (F0 : Full st0) (S : SI st0 st) (h0 : st.t.aid = 0) {id : Nat} (h1 : st0.h.lastId < id) {i : Nat} {pc : Pc α}
    (h : PcOK st0 st i pc) : PcOK st0 { st with t := { st.t with aid := id } } i pc := by
  have slot : ∀ {top i k : Nat} {sl : Slot}, SlotAt st top i k sl → SlotAt { st with t := { st.t with aid := id } } top i k sl := by
    intro top i k sl s
    cases s with
    | root => exact .root
    | @child k a ptr hp hn =>
      exfalso
      have := S.full.heap.idpos _ _ hn
      simp only [Node.id] at this
      omega
  have seen : ∀ {top i level : Nat} {sl : Slot} {pl : Ptr}, Seen st top i level sl pl →
      Seen { st with t := { st.t with aid := id } } top i level sl pl := by
    intro top i level sl pl s
    refine ⟨s.le, slot s.slot, s.ok, ?_, fun a nd _ hn hid => ?_⟩
    · rcases s.cur with h | h
      · exact .inl h
      · have := h.1
        omega
    · exfalso
      rw [show st.h.node = st0.h.node from S.aid0 h0] at hn
      have := F0.heap.idle a nd hn
      have hid' : nd.id = id := hid
      omega
  cases pc with
  | idle => trivial
  | load level sl => exact ⟨h.1, h.2.1, slot h.2.2⟩
  | aidLoad level sl pl => exact ⟨h.1, seen h.2⟩
  | aidAdd level sl pl => exact ⟨h.1, seen h.2⟩
  | aidCas level sl pl id => exact ⟨h.1, seen h.2.1, h.2.2⟩
  | check level sl pl tid => have := h.2.2.2; omega
  | copy level sl a j new => have := h.2.2.1; omega
  | cas level sl pl new => have := h.2.2.1; omega
  | leafStore a => have := h.2.1; omega
  | tailLoad => exact h
  | tailLock => exact h
  | tailCheck => exact h
  | tailCopy j new => exact h
  | tailFlag => exact h
  | tailUnlock => exact h
  | tailStore => exact h

/-- A write of the transient does not disturb the other goroutines. -/
theorem PcOK.r {st0 st st' : St α} (S : SI st0 st) (hh : st.t.s.height ≠ 0)
    (r : R (st.t.s.height - 1) st st') {i : Nat} {pc : Pc α}
    (h : PcOK st0 st i pc) : PcOK st0 st' i pc := by
  have ht := r.t_eq
  have e1 : st'.t.s.height = st.t.s.height := by rw [ht]
  have e2 : st'.t.s.tail = st.t.s.tail := by rw [ht]
  have e3 : st'.t.wtail = st.t.wtail := by rw [ht]
  have e4 : st'.t.s.tlen = st.t.s.tlen := by rw [ht]
  have fits : i < st.t.s.tlen → i < 16 ^ (st.t.s.height - 1 + 1) := fun h => (S.full.readable.fits h).2
  have seen : ∀ {level : Nat} {sl : Slot} {pl : Ptr}, i < st.t.s.tlen → Seen st (st.t.s.height - 1) i level sl pl →
      Seen st' (st.t.s.height - 1) i level sl pl := by
    intro level sl pl hi s
    refine ⟨s.le, s.slot.mono (fits hi) (Nat.sub_le _ _) r, okAt_ext r.ext s.ok, ?_, ?_⟩
    rotate_left
    · intro a nd hp hn hid
      rcases s.ok with w | ⟨w, _⟩ | ⟨b, nd0, w, hb, _⟩
      · rw [w] at hp; cases hp
      · rw [w] at hp; cases hp
      · rw [w] at hp
        have hab : b = a := Ptr.ref.inj hp
        subst hab
        obtain ⟨nd', x1, x2, _⟩ := r.ext.same b nd0 hb
        rw [x1] at hn
        cases hn
        have hid0 : nd0.id = st.t.aid := by rw [← x2, hid, r.aid]
        have := s.own b nd0 w hb hid0
        rw [w] at this ⊢
        exact r.own i (fits hi) _ (Nat.sub_le _ _) b nd0 this hb hid0
    have owned : OwnedAt st (st.t.s.height - 1) i (st.t.s.height - 1 - level) →
        OwnedAt st' (st.t.s.height - 1) i (st.t.s.height - 1 - level) := by
      rintro ⟨ha, a, nd, hp, hn, hid⟩
      obtain ⟨nd', h1, h2, _⟩ := r.ext.same a nd hn
      exact ⟨by rw [r.aid]; exact ha, a, nd', r.own i (fits hi) _ (Nat.sub_le _ _) a nd hp hn hid, h1, by rw [h2, hid, r.aid]⟩
    by_cases hnew : OwnedAt st' (st.t.s.height - 1) i (st.t.s.height - 1 - level)
    · exact .inr hnew
    · left
      rcases s.cur with h | h
      · -- the pointer is not replaced
        obtain ⟨pos, T'⟩ := r.tree
        rcases T'.wf i (fits hi) (st.t.s.height - 1 - level) (Nat.sub_le _ _) with w | ⟨w, w0⟩ | ⟨a, nd, w, hn, _⟩
        · rw [w]
          obtain ⟨pos, T⟩ := S.full.tree hh
          rcases T.wf i (fits hi) (st.t.s.height - 1 - level) (Nat.sub_le _ _) with v | ⟨v, v0⟩ | ⟨b, _, v, _⟩
          · rw [← h, v]
          · exfalso
            obtain ⟨b, hb⟩ := S.full.shape.left hh 0 (Nat.zero_le _)
            rw [v0] at v
            simp only [pp] at v hb
            rw [v] at hb
            cases hb
          · exfalso
            obtain ⟨c, hc⟩ := r.nonnil i (fits hi) _ (Nat.sub_le _ _) ⟨b, v⟩
            rw [w] at hc
            cases hc
        · exfalso
          obtain ⟨b, hb⟩ := S.full.shape.left hh 0 (Nat.zero_le _)
          have hb' : pp st.h st.t.s.tree (st.t.s.height - 1) i 0 = .ref b := hb
          obtain ⟨c, hc⟩ := r.nonnil i (fits hi) 0 (Nat.zero_le _) ⟨b, hb'⟩
          rw [w0] at w
          rw [w] at hc
          cases hc
        · rcases r.sub i (fits hi) _ (Nat.sub_le _ _) a nd w hn with h2 | h2
          · exfalso
            have hpos : 0 < nd.id := r.heap.idpos a nd hn
            exact hnew ⟨by rw [r.aid]; omega, a, nd, w, hn, by rw [r.aid]; exact h2⟩
          · rw [w, ← h, h2]
      · exact absurd (owned h) hnew
  cases pc with
  | idle => trivial
  | load level sl =>
    unfold PcOK at *
    rw [e1, e4]
    exact ⟨h.1, h.2.1, h.2.2.mono (fits h.1) (Nat.sub_le _ _) r⟩
  | aidLoad level sl pl =>
    unfold PcOK at *
    rw [e1, e4]
    exact ⟨h.1, seen h.1 h.2⟩
  | aidAdd level sl pl =>
    unfold PcOK at *
    rw [e1, e4]
    exact ⟨h.1, seen h.1 h.2⟩
  | aidCas level sl pl id =>
    unfold PcOK at *
    rw [e1, e4, r.lastId]
    exact ⟨h.1, seen h.1 h.2.1, h.2.2⟩
  | check level sl pl tid =>
    unfold PcOK at *
    rw [e1, e4, r.aid]
    exact ⟨h.1, seen h.1 h.2.1, h.2.2⟩
  | copy level sl a j new =>
    unfold PcOK at *
    rw [e1, e4, r.aid]
    obtain ⟨h1, h2, h3, h4, h5, h6, nd, h7, h8, h9⟩ := h
    exact ⟨h1, seen h1 h2, h3, h4, h5, h6, nd, r.ext.keep a nd h7 h8, h8, h9⟩
  | cas level sl pl new =>
    unfold PcOK at *
    rw [e1, e4, r.aid]
    obtain ⟨h1, h2, h3, h4, h5, h6, h7⟩ := h
    have hn : ∀ a, pl = .ref a → ∃ nd, st.h.node a = some nd ∧ st'.h.node a = some nd := by
      intro a ha
      rcases h2.ok with w | ⟨w, _⟩ | ⟨b, nd, w, hb, _⟩
      · rw [w] at ha; cases ha
      · rw [w] at ha; cases ha
      · rw [w] at ha
        cases ha
        exact ⟨nd, hb, r.ext.keep _ nd hb (h7 _ nd w hb)⟩
    refine ⟨h1, seen h1 h2, h3, h4, h5, fun k hk => ?_, fun a nd ha hna => ?_⟩
    · rw [← (h6 k hk).1, ← (h6 k hk).2]
      cases pl with
      | nil => exact ⟨rfl, rfl⟩
      | tnil => exact ⟨rfl, rfl⟩
      | ref a =>
        obtain ⟨nd, x1, x2⟩ := hn a rfl
        simp only [childOf, leafVal, x1, x2, and_self]
    · obtain ⟨nd', x1, x2⟩ := hn a ha
      rw [x2] at hna
      cases hna
      exact h7 a nd ha x1
  | leafStore a =>
    unfold PcOK at *
    rw [e1, e4, r.aid]
    obtain ⟨h1, h2, h3, val, h4⟩ := h
    refine ⟨h1, h2, r.own i (fits h1) _ (Nat.le_refl _) a _ h3 h4 rfl, ?_⟩
    obtain ⟨nd', x1, x2, x3⟩ := r.ext.same a _ h4
    cases nd' with
    | inode => simp [Node.isLeaf] at x3
    | leaf id' v' =>
      simp only [Node.id] at x2
      subst x2
      exact ⟨v', x1⟩
  | tailLoad => unfold PcOK at *; rw [e4]; exact h
  | tailLock => unfold PcOK at *; rw [e4]; exact h
  | tailCheck => unfold PcOK at *; rw [e4]; exact h
  | tailCopy j new =>
    unfold PcOK at *
    rw [e4, e3, e2, r.arr]; exact h
  | tailFlag => unfold PcOK at *; rw [e4, e3, e2]; exact h
  | tailUnlock => unfold PcOK at *; rw [e4, e3]; exact h
  | tailStore => unfold PcOK at *; rw [e4, e3]; exact h

end Verif.Persist
