import Verif.Heap.Spec
import Verif.Num.Lemmas5
namespace Verif.Heap
open Verif.Num

/-- The cell of a value exists. -/
def HNum.Ok (h : Heap) : HNum → Prop
  | .rat p => p < h.length
  | _ => True

theorem get_append {h : Heap} {p : Nat} (hp : p < h.length) (l : List Rat) : Heap.get (h ++ l) p = h.get p := by
  unfold Heap.get; rw [List.getElem?_append_left hp]

theorem get_last (h : Heap) (r : Rat) : Heap.get (h ++ [r]) h.length = r := by
  unfold Heap.get; simp

theorem deref_append {h : Heap} {u : HNum} (hu : u.Ok h) (l : List Rat) : u.deref (h ++ l) = u.deref h := by
  cases u with
  | rat p => exact congrArg Num.bigRat (get_append hu l)
  | _ => rfl

theorem ok_append {h : Heap} {u : HNum} (hu : u.Ok h) (l : List Rat) : u.Ok (h ++ l) := by
  cases u with
  | rat p => show p < (h ++ l).length; rw [List.length_append]; exact Nat.lt_of_lt_of_le hu (by omega)
  | _ => trivial

/-- The heap after an operator extends the heap before it. -/
def Extends (h h' : Heap) : Prop := ∃ l, h' = h ++ l

/-- The result is a value with the given number, and the operator has only added cells. -/
def Good (h : Heap) (r : HNum × Heap) (n : Num) : Prop := Extends h r.2 ∧ r.1.Ok r.2 ∧ r.1.deref r.2 = n

theorem store_spec (h : Heap) (n : Num) : Good h (store h n) n := by
  cases n with
  | bigRat r =>
    refine ⟨⟨[r], rfl⟩, ?_, ?_⟩
    · show h.length < (h ++ [r]).length; simp
    · show Num.bigRat (Heap.get (h ++ [r]) h.length) = _; rw [get_last]
  | int i => exact ⟨⟨[], by simp [store]⟩, trivial, rfl⟩
  | char i => exact ⟨⟨[], by simp [store]⟩, trivial, rfl⟩
  | bigInt i => exact ⟨⟨[], by simp [store]⟩, trivial, rfl⟩

theorem same_spec {h : Heap} {u : HNum} (hu : u.Ok h) : Good h (u, h) (u.deref h) := ⟨⟨[], by simp⟩, hu, rfl⟩

theorem shrinkRat_int (i : Int) : shrinkRat (i : Rat) = shrinkBig i := by
  unfold shrinkRat; rw [if_pos (by simp)]; simp

theorem shrinkOperand_spec {h : Heap} {u : HNum} (hu : u.Ok h) (hc : u.isChar = false) :
    Good h (shrinkOperand h u) (shrinkRat (ratOf h u)) := by
  cases u with
  | int i => have := store_spec h (shrinkBig i); rw [show ratOf h (.int i) = i from rfl, shrinkRat_int]; exact this
  | char c => cases hc
  | bigInt i => have := store_spec h (shrinkBig i); rw [show ratOf h (.bigInt i) = i from rfl, shrinkRat_int]; exact this
  | rat p =>
    show Good h (if (h.get p).den = 1 then store h (shrinkBig (h.get p).num) else (.rat p, h)) (shrinkRat (h.get p))
    unfold shrinkRat
    by_cases hd : (h.get p).den = 1
    · rw [if_pos hd, if_pos hd]; exact store_spec h _
    · rw [if_neg hd, if_neg hd]; exact same_spec hu

theorem isNum_of {h : Heap} {u : HNum} (hc : u.isChar = false) : (u.deref h).isNum := by
  cases u <;> first | trivial | cases hc

theorem ratOf_val {h : Heap} {u : HNum} (hc : u.isChar = false) : ratOf h u = (u.deref h).val := by
  cases u <;> first | rfl | cases hc

/-- With a rational among the operands an operator that promotes with binaryArithType works on rationals. -/
theorem eval_rat {op : BinOp} (hw : op.whichType = arithType) {h : Heap} {u v : HNum} (hr : (u.isRat || v.isRat) = true)
    (cu : u.isChar = false) (cv : v.isChar = false) :
    op.eval (u.deref h) (v.deref h) = app2 (op.fn .bigRat) (.bigRat (ratOf h u)) (.bigRat (ratOf h v)) := by
  unfold BinOp.eval
  rw [hw]
  cases u <;> cases v <;> first | rfl | (cases hr; done) | (cases cu; done) | (cases cv; done)

theorem eval_char {op : BinOp} (hw : op.whichType = arithType) {h : Heap} {u v : HNum} (hr : (u.isRat || v.isRat) = true)
    (hc : (u.isChar || v.isChar) = true) : op.eval (u.deref h) (v.deref h) = .err := by
  unfold BinOp.eval
  rw [hw]
  cases u <;> cases v <;> first | rfl | (cases hr; done) | (cases hc; done)

theorem negate_rat (h : Heap) (q : Nat) :
    negateInPlace h (.rat q) = if h.get q < 0 then h.set q (-(h.get q)) else h := rfl

/-- A negation in place does not matter to other cells. -/
theorem negate_other {h : Heap} {u : HNum} {p : Nat} (hp : u ≠ .rat p) : Heap.get (negateInPlace h u) p = h.get p := by
  cases u with
  | rat q =>
    rw [negate_rat]
    split
    · have : q ≠ p := fun e => hp (by rw [e])
      unfold Heap.get; rw [List.getElem?_set_ne this]
    · rfl
  | _ => rfl

theorem negate_len (h : Heap) (u : HNum) : (negateInPlace h u).length = h.length := by
  cases u with
  | rat q => rw [negate_rat]; split <;> simp
  | _ => rfl

theorem negate_nonneg {h : Heap} {u : HNum} (hu : ∀ p, u = .rat p → 0 ≤ h.get p) : negateInPlace h u = h := by
  cases u with
  | rat q => rw [negate_rat, if_neg (not_lt.2 (hu q rfl))]
  | _ => rfl

theorem negate_self {h : Heap} {p : Nat} (hp : p < h.length) : Heap.get (negateInPlace h (.rat p)) p = |h.get p| := by
  rw [negate_rat]
  split
  · rename_i hn
    rw [abs_of_neg hn]
    unfold Heap.get; rw [List.getElem?_set_self hp]; rfl
  · rename_i hn
    rw [abs_of_nonneg (not_lt.1 hn)]

/-- The heap after QuoRem. -/
theorem quoRemRat_heap (h : Heap) (u v : HNum) : (quoRemRat h u v).2 = negateInPlace (negateInPlace h u) v := rfl

theorem ratOf_negate {h : Heap} {u v : HNum} (hne : ∀ p, u = .rat p → v ≠ .rat p) : ratOf (negateInPlace h u) v = ratOf h v := by
  cases v with
  | rat q => exact negate_other fun e => hne q e rfl
  | _ => rfl

/-- Unless both operands are the same negative cell, QuoRem computes quotient and remainder of the values. -/
theorem quoRemRat_value {h : Heap} {u v : HNum} (hne : ∀ p, u = .rat p → v = .rat p → 0 ≤ h.get p) :
    (quoRemRat h u v).1 = Num.quoRemRat (ratOf h u) (ratOf h v) := by
  have : ratOf (negateInPlace h u) v = ratOf h v := by
    by_cases hs : ∃ p, u = .rat p ∧ v = .rat p
    · obtain ⟨p, rfl, rfl⟩ := hs
      rw [negate_nonneg fun q e => by cases e; exact hne _ rfl rfl]
    · exact ratOf_negate fun p h1 h2 => hs ⟨p, h1, h2⟩
  unfold quoRemRat Num.quoRemRat
  simp only [this]

/-- The outcome over cells agrees with the outcome over values. -/
inductive Agree (h : Heap) : Res (HNum × Heap) → Res Num → Prop
  | ok {r : HNum × Heap} {n : Num} : Good h r n → Agree h (.ok r) (.ok n)
  | err : Agree h .err .err
  | crash : Agree h .crash .crash
  | float : Agree h .float .float

theorem agree_store (h : Heap) (r : Res Num) : Agree h (r.bind fun n => .ok (store h n)) r := by
  cases r with
  | ok n => exact .ok (store_spec h n)
  | err => exact .err
  | crash => exact .crash
  | float => exact .float

/-- No operator but `mod` changes a cell; each gives the value it should. -/
theorem binary_spec {op : Op2} (hop : op ≠ .mod) {h : Heap} {u v : HNum} (hu : u.Ok h) (hv : v.Ok h) :
    Agree h (binary op h u v) ((op.impl 0).eval (u.deref h) (v.deref h)) := by
  unfold binary
  rw [if_neg hop]
  by_cases hm : (op = .min ∨ op = .max) ∧ (u.isRat || v.isRat) = true
  · have hw : (op.impl 0).whichType = arithType := by rcases hm.1 with rfl | rfl <;> rfl
    simp only [if_pos hm]
    by_cases hc : (u.isChar || v.isChar) = true
    · rw [eval_char hw hm.2 hc]; exact .err
    · rw [Bool.or_eq_true, not_or] at hc
      have cu : u.isChar = false := by simpa using hc.1
      have cv : v.isChar = false := by simpa using hc.2
      rw [eval_rat hw hm.2 cu cv]
      rcases hm.1 with rfl | rfl
      · refine .ok ?_
        rw [if_pos rfl]
        unfold pick
        by_cases hlt : ratOf h u < ratOf h v
        · rw [decide_eq_true hlt, if_pos hlt, if_pos rfl]; exact shrinkOperand_spec hu cu
        · rw [decide_eq_false hlt, if_neg hlt, if_neg Bool.false_ne_true]; exact shrinkOperand_spec hv cv
      · refine .ok ?_
        rw [if_neg (by decide)]
        unfold pick
        by_cases hlt : ratOf h u > ratOf h v
        · rw [decide_eq_true hlt, if_pos hlt, if_pos rfl]; exact shrinkOperand_spec hu cu
        · rw [decide_eq_false hlt, if_neg hlt, if_neg Bool.false_ne_true]; exact shrinkOperand_spec hv cv
  · simp only [if_neg hm]
    exact agree_store h _

/-- `mod` of rationals that are not negative changes no cell either. -/
theorem mod_spec {h : Heap} {u v : HNum} (hu : u.Ok h) (hg : ∀ p, u = .rat p ∨ v = .rat p → 0 ≤ h.get p) :
    Agree h (opMod h u v) (Num.opMod.eval (u.deref h) (v.deref h)) := by
  unfold opMod
  by_cases hr : (u.isRat || v.isRat) = true
  · rw [if_pos hr]
    by_cases hc : (u.isChar || v.isChar) = true
    · rw [if_pos hc, eval_char rfl hr hc]; exact .err
    · rw [if_neg hc]
      rw [Bool.or_eq_true, not_or] at hc
      have cu : u.isChar = false := by simpa using hc.1
      have cv : v.isChar = false := by simpa using hc.2
      rw [eval_rat rfl hr cu cv]
      show Agree h _ (modFn _ _)
      unfold modFn Num.quoRem
      have hz : (Num.bigRat (ratOf h v)).shrink = .int 0 ↔ ratOf h v = 0 := shrink_eq_zero (n := .bigRat (ratOf h v)) trivial
      by_cases h0 : ratOf h v = 0
      · rw [if_pos h0, if_pos (hz.2 h0)]
        refine .ok ?_
        cases u with
        | rat p => exact same_spec hu
        | int i => exact store_spec h _
        | bigInt i => exact store_spec h _
        | char c => cases cu
      · rw [if_neg h0, if_neg (fun e => h0 (hz.1 e))]
        have hh : (quoRemRat h u v).2 = h := by
          rw [quoRemRat_heap, negate_nonneg fun p e => hg p (Or.inl e), negate_nonneg fun p e => hg p (Or.inr e)]
        have hval := quoRemRat_value (h := h) (u := u) (v := v) (fun p e _ => hg p (Or.inl e))
        simp only [hh, hval]
        exact .ok (store_spec h _)
  · rw [if_neg hr]
    exact agree_store h _

end Verif.Heap
