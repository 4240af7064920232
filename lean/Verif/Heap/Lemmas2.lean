import Verif.Heap.Lemmas
/-
Assignments and programs: the invariant that every pointer lies in the heap, what a step does to the variables.
-/
namespace Verif.Heap
open Verif.Num

/-- Every variable points into the heap. -/
def Inv (st : State) : Prop := ∀ k, (st.vars k).Ok st.heap

theorem unary_spec (op : Op1) (h : Heap) (u : HNum) : Agree h (unary op h u) (op.impl.eval (u.deref h)) := agree_store h _

/-- A right side that is gentle only adds cells and gives the value it should. -/
theorem rhs_spec {st : State} (hi : Inv st) {e : Rhs} (hg : Gentle st.value e) :
    Agree st.heap (e.eval st) (e.valueOf st.value) := by
  cases e with
  | const r => exact .ok (store_spec _ _)
  | var s => exact .ok (same_spec (hi s))
  | un op s => exact unary_spec _ _ _
  | bin s op t =>
    by_cases hop : op = .mod
    · subst hop
      have := mod_spec (hi s) (v := st.vars t) (fun p hp => hg (st.heap.get p) (by
        rcases hp with hp | hp
        · left; unfold State.value; rw [hp]; rfl
        · right; unfold State.value; rw [hp]; rfl))
      exact this
    · exact binary_spec hop (hi s) (hi t)

theorem assign_inv {st : State} (hi : Inv st) {d : Nat} {r : HNum × Heap} (hlen : st.heap.length ≤ r.2.length)
    (hr : r.1.Ok r.2) : Inv (st.assign d r) := by
  intro k
  show HNum.Ok r.2 (if k = d then r.1 else st.vars k)
  split
  · exact hr
  · have := hi k
    revert this
    cases st.vars k with
    | rat p => intro h; exact Nat.lt_of_lt_of_le h hlen
    | _ => intro _; trivial

theorem extends_len {h h' : Heap} (he : Extends h h') : h.length ≤ h'.length := by
  obtain ⟨l, rfl⟩ := he; simp

/-- `mod`, whatever its operands: a result that lies in the new heap, and a heap that is the old one with some
operands made positive, and new cells. -/
theorem opMod_shape {h : Heap} {u v : HNum} (hu : u.Ok h) {r : HNum × Heap} (e : opMod h u v = .ok r) :
    r.1.Ok r.2 ∧ (Extends h r.2 ∨ Extends (negateInPlace (negateInPlace h u) v) r.2) := by
  unfold opMod at e
  split at e
  · split at e
    · cases e
    · split at e
      · cases e
        unfold sameOperand
        cases u with
        | rat p => exact ⟨hu, Or.inl ⟨[], by simp⟩⟩
        | int i => exact ⟨(store_spec h _).2.1, Or.inl (store_spec h _).1⟩
        | bigInt i => exact ⟨(store_spec h _).2.1, Or.inl (store_spec h _).1⟩
        | char i => exact ⟨(store_spec h _).2.1, Or.inl (store_spec h _).1⟩
      · cases e
        have := store_spec (quoRemRat h u v).2 (shrinkRat (quoRemRat h u v).1.2)
        exact ⟨this.2.1, Or.inr this.1⟩
  · cases he : Num.opMod.eval (u.deref h) (v.deref h) with
    | ok n => rw [he] at e; cases e; exact ⟨(store_spec h n).2.1, Or.inl (store_spec h n).1⟩
    | err => rw [he] at e; cases e
    | crash => rw [he] at e; cases e
    | float => rw [he] at e; cases e

theorem step_eq_ok {st : State} {d : Nat} {e : Rhs} {r} (h : e.eval st = .ok r) : step st d e = st.assign d r := by
  unfold step; rw [h]

theorem step_cases (st : State) (d : Nat) (e : Rhs) :
    step st d e = st ∨ ∃ r, e.eval st = .ok r ∧ step st d e = st.assign d r := by
  cases h : e.eval st with
  | ok r => exact Or.inr ⟨r, rfl, step_eq_ok h⟩
  | err => left; unfold step; rw [h]
  | crash => left; unfold step; rw [h]
  | float => left; unfold step; rw [h]

theorem good_of_agree {h : Heap} {x y} (ha : Agree h x y) {r} (e : x = .ok r) : ∃ n, y = .ok n ∧ Good h r n := by
  cases ha with
  | ok hg => cases e; exact ⟨_, rfl, hg⟩
  | err => cases e
  | crash => cases e
  | float => cases e

/-- Only `mod` is not gentle. -/
theorem gentle_or_mod (vals : Nat → Num) (e : Rhs) : Gentle vals e ∨ ∃ s t, e = .bin s .mod t := by
  cases e with
  | bin s op t =>
    by_cases h : op = .mod
    · subst h; exact Or.inr ⟨s, t, rfl⟩
    · left; cases op <;> first | trivial | exact absurd rfl h
  | _ => exact Or.inl trivial

theorem step_inv {st : State} (hi : Inv st) (d : Nat) (e : Rhs) : Inv (step st d e) := by
  rcases step_cases st d e with h | ⟨r, hr, h⟩
  · rw [h]; exact hi
  · rw [h]
    rcases gentle_or_mod st.value e with hg | ⟨s, t, rfl⟩
    · obtain ⟨n, _, hx, ho, _⟩ := good_of_agree (rhs_spec hi hg) hr
      exact assign_inv hi (extends_len hx) ho
    · obtain ⟨ho, hx⟩ := opMod_shape (hi s) (show opMod st.heap (st.vars s) (st.vars t) = .ok r from hr)
      refine assign_inv hi ?_ ho
      rcases hx with hx | hx
      · exact extends_len hx
      · have := extends_len hx; rw [negate_len, negate_len] at this; exact this

theorem run_inv {st : State} (hi : Inv st) (prog : List (Nat × Rhs)) : Inv (run st prog) := by
  induction prog generalizing st with
  | nil => exact hi
  | cons x xs ih => exact ih (step_inv hi _ _)

theorem reachable_inv {st : State} (h : Reachable st) : Inv st := by
  obtain ⟨prog, rfl⟩ := h; exact run_inv (st := .init) (fun _ => trivial) prog

theorem value_assign_self (st : State) (d : Nat) (r : HNum × Heap) : (st.assign d r).value d = r.1.deref r.2 := by
  unfold State.value State.assign; simp

theorem value_assign_other {st : State} {d k : Nat} (hk : k ≠ d) (r : HNum × Heap) :
    (st.assign d r).value k = (st.vars k).deref r.2 := by
  unfold State.value State.assign; simp [hk]

theorem deref_extends {h h' : Heap} (he : Extends h h') {u : HNum} (hu : u.Ok h) : u.deref h' = u.deref h := by
  obtain ⟨l, rfl⟩ := he; exact deref_append hu l

theorem step_gentle {st : State} (hi : Inv st) {d : Nat} {e : Rhs} (hg : Gentle st.value e) :
    (step st d e).value = stepV st.value d e := by
  have ha := rhs_spec hi hg
  rcases step_cases st d e with h | ⟨r, hr, h⟩
  · unfold stepV
    cases hv : e.valueOf st.value with
    | ok n =>
      rw [hv] at ha
      generalize hx : e.eval st = x at ha
      cases ha with
      | ok hgd =>
        rename_i r
        rw [step_eq_ok hx]
        funext k
        by_cases hk : k = d
        · subst hk; rw [value_assign_self, hgd.2.2]; simp
        · rw [value_assign_other hk, deref_extends hgd.1 (hi k)]; simp [hk]; rfl
    | err => rw [h]
    | crash => rw [h]
    | float => rw [h]
  · obtain ⟨n, hn, hx, ho, hd⟩ := good_of_agree ha hr
    rw [h]; unfold stepV; rw [hn]
    funext k
    by_cases hk : k = d
    · subst hk; rw [value_assign_self, hd]; simp
    · rw [value_assign_other hk, deref_extends hx (hi k)]; simp [hk]; rfl

theorem run_gentle {st : State} (hi : Inv st) {prog : List (Nat × Rhs)} (hg : AllGentle st.value prog) :
    (run st prog).value = runV st.value prog := by
  induction prog generalizing st with
  | nil => rfl
  | cons x xs ih =>
    obtain ⟨d, e⟩ := x
    have := step_gentle (d := d) hi hg.1
    show (run (step st d e) xs).value = runV (stepV st.value d e) xs
    rw [← this]
    exact ih (step_inv hi d e) (by rw [this]; exact hg.2)

/-- A cell after the operands have been made positive. -/
theorem negate_get {h : Heap} {w : HNum} {p : Nat} (hp : p < h.length) :
    Heap.get (negateInPlace h w) p = if w = .rat p then |h.get p| else h.get p := by
  by_cases e : w = .rat p
  · subst e; rw [if_pos rfl, negate_self hp]
  · rw [if_neg e, negate_other e]

theorem negate_get2 {h : Heap} {u v : HNum} {p : Nat} (hp : p < h.length) :
    Heap.get (negateInPlace (negateInPlace h u) v) p = if u = .rat p ∨ v = .rat p then |h.get p| else h.get p := by
  rw [negate_get (by rw [negate_len]; exact hp), negate_get hp]
  by_cases hu : u = .rat p <;> by_cases hv : v = .rat p <;> simp [hu, hv]

theorem step_extent {st : State} (hi : Inv st) {d k : Nat} (e : Rhs) (hk : k ≠ d) :
    (step st d e).value k = st.value k ∨
      ∃ s t r, e = .bin s .mod t ∧ (st.vars k = st.vars s ∨ st.vars k = st.vars t) ∧
        st.value k = .bigRat r ∧ r < 0 ∧ (step st d e).value k = .bigRat |r| := by
  rcases step_cases st d e with h | ⟨r, hr, h⟩
  · left; rw [h]
  · rw [h, value_assign_other hk]
    rcases gentle_or_mod st.value e with hg | ⟨s, t, rfl⟩
    · obtain ⟨n, _, hx, ho, _⟩ := good_of_agree (rhs_spec hi hg) hr
      left; exact deref_extends hx (hi k)
    · obtain ⟨_, hx⟩ := opMod_shape (hi s) (show opMod st.heap (st.vars s) (st.vars t) = .ok r from hr)
      rcases hx with hx | hx
      · left; exact deref_extends hx (hi k)
      · have hok : (st.vars k).Ok (negateInPlace (negateInPlace st.heap (st.vars s)) (st.vars t)) := by
          have := hi k; revert this
          cases st.vars k with
          | rat p => intro h; show p < _; rw [negate_len, negate_len]; exact h
          | _ => intro _; trivial
        rw [deref_extends hx hok]
        have hik := hi k
        unfold State.value
        generalize hvk : st.vars k = w at *
        cases w with
        | rat p =>
          have hp : p < st.heap.length := hik
          simp only [HNum.deref]
          rw [negate_get2 hp]
          split
          · rename_i hor
            by_cases hn : st.heap.get p < 0
            · right
              refine ⟨s, t, st.heap.get p, rfl, ?_, rfl, hn, rfl⟩
              rcases hor with e | e
              · left; exact e.symm
              · right; exact e.symm
            · left; rw [abs_of_nonneg (not_lt.1 hn)]
          · left; rfl
        | _ => left; rfl

theorem step_damage {st : State} (hi : Inv st) {d k s t : Nat} {r : Rat} (hk : k ≠ d)
    (hs : st.value s = .bigRat r) (hneg : r < 0) (ht : (st.value t).isNum) (ht0 : (st.value t).val ≠ 0)
    (hsame : st.vars k = st.vars s) : (step st d (.bin s .mod t)).value k = .bigRat |r| := by
  have his := hi s
  unfold State.value at hs ht ht0
  generalize hvs : st.vars s = u at *
  generalize hvt : st.vars t = v at *
  cases u with
  | rat p =>
    have hp : p < st.heap.length := his
    cases hs
    have cv : v.isChar = false := by cases v <;> first | rfl | exact ht.elim
    have hm : opMod st.heap (.rat p) v = .ok (store (quoRemRat st.heap (.rat p) v).2
        (shrinkRat (quoRemRat st.heap (.rat p) v).1.2)) := by
      unfold opMod
      rw [if_pos (by simp [HNum.isRat]), if_neg (by simp [HNum.isChar]; exact cv), if_neg (by rw [ratOf_val cv]; exact ht0)]
    have he : Rhs.eval st (.bin s .mod t) = .ok (store (quoRemRat st.heap (.rat p) v).2
        (shrinkRat (quoRemRat st.heap (.rat p) v).1.2)) := by
      rw [← hm, ← hvs, ← hvt]; rfl
    rw [step_eq_ok he, value_assign_other hk, hsame]
    have hsp := store_spec (quoRemRat st.heap (.rat p) v).2 (shrinkRat (quoRemRat st.heap (.rat p) v).1.2)
    rw [deref_extends hsp.1 (by
      rw [quoRemRat_heap]; show p < _; rw [negate_len, negate_len]; exact hp)]
    rw [quoRemRat_heap]
    show Num.bigRat (Heap.get _ p) = _
    rw [negate_get2 hp, if_pos (Or.inl rfl)]
  | int i => cases hs
  | char i => cases hs
  | bigInt i => cases hs

end Verif.Heap
