import Verif.Num.Model
/-
Model of the numbers of Ivy with the cells that hold their rationals made explicit: a BigRat is a pointer to a
`big.Rat` (value/bigrat.go:17-19), assigning a variable copies the pointer, and QuoRem (value/eval.go:917-1013)
negates negative operands in place. Everything else computes as in Verif/Num/Model.lean.

Simplified: BigInt values are held directly, because no operator writes to an operand's `big.Int`; temporaries made
by toType are not allocated, because nothing can reach them afterwards. BigFloat is not modelled; its case in QuoRem
(value/eval.go:983-1008) makes the same in-place change.
-/
namespace Verif.Heap
open Verif.Num

/-- The cells of all `big.Rat` objects, by address; value/bigrat.go:17-19. -/
abbrev Heap := List Rat

/-- A scalar value as a variable holds it; value/int.go:18, value/char.go:15, value/bigint.go:15-17,
value/bigrat.go:17-19. -/
inductive HNum where
  | int (i : Int)
  | char (c : Int)
  | bigInt (i : Int)
  | rat (p : Nat)
deriving DecidableEq

/-- The contents of a cell. An address outside the heap does not occur (`HNum.Ok`, `Verif/Heap/Lemmas.lean`). -/
def Heap.get (h : Heap) (p : Nat) : Rat := (h[p]?).getD 0

/-- The number a value stands for at present; value/bigrat.go:17-19. -/
def HNum.deref (h : Heap) : HNum → Num
  | .int i => .int i
  | .char c => .char c
  | .bigInt i => .bigInt i
  | .rat p => .bigRat (h.get p)

/-- A result that the operator built in a new `big.Rat` (`z := bigRatInt64(0)`, value/binary.go:101,
value/unary.go:35; `big.NewRat`, value/eval.go:969-975, value/bigrat.go:172). -/
def store (h : Heap) : Num → HNum × Heap
  | .int i => (.int i, h)
  | .char c => (.char c, h)
  | .bigInt i => (.bigInt i, h)
  | .bigRat r => (.rat h.length, h ++ [r])

/-- shrink of an operand promoted to a rational: the same cell if it is a rational that stays one;
value/bigrat.go:184-208, value/int.go:155-174, value/bigint.go:151-170. -/
def shrinkOperand (h : Heap) (u : HNum) : HNum × Heap :=
  match u with
  | .int i => store h (shrinkBig i)
  | .char c => (.char c, h)
  | .bigInt i => store h (shrinkBig i)
  | .rat p => if (h.get p).den = 1 then store h (shrinkBig (h.get p).num) else (.rat p, h)

/-- Unary operators: the result is an operand-independent new cell; value/unary.go:19-41, 287-603,
value/bigrat.go:167-174. -/
def unary (op : Op1) (h : Heap) (u : HNum) : Res (HNum × Heap) :=
  (op.impl.eval (u.deref h)).bind fun r => .ok (store h r)

/-- `x.Set(x); x.Neg(x)` when the operand is negative; value/eval.go:959-968. An operand that toType has converted
is a temporary. -/
def negateInPlace (h : Heap) : HNum → Heap
  | .rat p => if h.get p < 0 then h.set p (-(h.get p)) else h
  | _ => h

/-- The value of an operand as a rational; toType(bigRatType) at value/eval.go:957-958. -/
def ratOf (h : Heap) (u : HNum) : Rat :=
  match u with
  | .int i => i
  | .char _ => 0
  | .bigInt i => i
  | .rat p => h.get p

/-- QuoRem in the rational case, with its writes; value/eval.go:956-982. `y` is read after `x` has been negated, so
if both are the same cell `y` is seen positive. -/
def quoRemRat (h : Heap) (u v : HNum) : (Int × Rat) × Heap :=
  let x := ratOf h u
  let negX := decide (x < 0)
  let x := if negX then -x else x
  let h := negateInPlace h u
  let y := ratOf h v
  let negY := decide (y < 0)
  let y := if negY then -y else y
  let h := negateInPlace h v
  let quo := x / y
  let iquo := quo.num.tdiv quo.den
  let rem := (quo - iquo) * y
  let (iquo, rem) := if negX && decide (rem ≠ 0) then (iquo + 1, y - rem) else (iquo, rem)
  ((if negX ≠ negY then -iquo else iquo, rem), h)

/-- Whether a value is a rational, whether it is a character; value/eval.go:86-107. -/
def HNum.isRat : HNum → Bool
  | .rat _ => true
  | _ => false
@[inherit_doc HNum.isRat] def HNum.isChar : HNum → Bool
  | .char _ => true
  | _ => false

/-- The operand that QuoRem returns when the divisor is zero: itself, not a copy; value/eval.go:918-920. -/
def sameOperand (h : Heap) : HNum → HNum × Heap
  | .rat p => (.rat p, h)
  | u => store h (.bigRat (ratOf h u))

/-- `mod`; value/eval.go:109-130, value/binary.go:420-430, value/eval.go:903-906, 917-1013. toType returns a BigRat
itself, so QuoRem works on the operand's own cell. -/
def opMod (h : Heap) (u v : HNum) : Res (HNum × Heap) :=
  if u.isRat || v.isRat then
    if u.isChar || v.isChar then .err
    else if ratOf h v = 0 then .ok (sameOperand h u)
    else
      let r := quoRemRat h u v
      .ok (store r.2 (shrinkRat r.1.2))
  else (Num.opMod.eval (u.deref h) (v.deref h)).bind fun r => .ok (store h r)

/-- `min` and `max` on numbers of which one is a rational return the cell of the operand they choose;
value/binary.go:1224-1230, 1265-1271. -/
def pick (left : Bool) (h : Heap) (u v : HNum) : HNum × Heap := if left then shrinkOperand h u else shrinkOperand h v

/-- Binary operators; value/binary.go. `mod`, `min` and `max` may share or change cells; the others build their
result in a new cell. -/
def binary (op : Op2) (h : Heap) (u v : HNum) : Res (HNum × Heap) :=
  if op = .mod then opMod h u v
  else
    ((op.impl 0).eval (u.deref h) (v.deref h)).bind fun r =>
      if (op = .min ∨ op = .max) ∧ (u.isRat || v.isRat) then
        .ok (pick (if op = .min then ratOf h u < ratOf h v else ratOf h u > ratOf h v) h u v)
      else .ok (store h r)

/-! ## Programs -/

/-- An assignment `d = rhs` to the variable number `d`: a constant, another variable, or an operator applied to
variables; value/assign.go, value/expr.go. -/
inductive Rhs where
  | const (r : Rat)
  | var (s : Nat)
  | un (op : Op1) (s : Nat)
  | bin (s : Nat) (op : Op2) (t : Nat)

/-- The state of a session: cells and variables. A variable that has not been assigned holds 0 here, so that
programs need no declarations. -/
structure State where
  heap : Heap
  vars : Nat → HNum

/-- The initial state. -/
def State.init : State := ⟨[], fun _ => .int 0⟩

/-- Assign: the variable holds the value from now on; exec/context.go (Assign), value/assign.go. -/
def State.assign (st : State) (d : Nat) (r : HNum × Heap) : State :=
  ⟨r.2, fun k => if k = d then r.1 else st.vars k⟩

/-- Evaluate a right side; value/expr.go:33-60. -/
def Rhs.eval (st : State) : Rhs → Res (HNum × Heap)
  | .const r => .ok (store st.heap (litNum r))
  | .var s => .ok (st.vars s, st.heap)
  | .un op s => unary op st.heap (st.vars s)
  | .bin s op t => binary op st.heap (st.vars s) (st.vars t)

/-- One assignment. If the right side is refused nothing is assigned. -/
def step (st : State) (d : Nat) (e : Rhs) : State :=
  match e.eval st with
  | .ok r => st.assign d r
  | _ => st

/-- A program: a list of assignments. -/
def run (st : State) : List (Nat × Rhs) → State
  | [] => st
  | (d, e) :: rest => run (step st d e) rest

end Verif.Heap
