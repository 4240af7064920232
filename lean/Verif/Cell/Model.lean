import Verif.Flt.Model

/-!
# Floats and complex numbers as objects

`value/sin.go`, `value/sinh.go`, `value/power.go`, `value/sqrt.go`, `value/log.go`, `value/complex.go` on scalars: floats are objects in memory (`*big.Float`),
complex numbers have two of them, variables, complex numbers and package-level constants can have the same object, and some functions change the
object they are given. A heap of floats models this: a value refers to cells of the heap.

Functions that only create new objects are modelled in two steps: the contents of the operands, a function of the contents, and new cells for its result.

Simplified: integers and rational numbers are exact numbers `q` without a limit on their size (`mustFit`); infinities are not modelled (`quo`); what an
operation that fails has already changed is not modelled; vectors and matrices are left out (their elements are such scalars, `elementwise`).
-/

namespace Verif.Cell
open Verif.Arr (R)
open Verif.Flt

/-! ## Contents -/

/-- The contents of a real scalar: `Int`, `BigInt` and `BigRat` are exact, `BigFloat` (`value/bigfloat.go:14-16`) is not. -/
inductive PS where
  | exact (q : Rat)
  | flt (x : Fl)
deriving DecidableEq, Repr

/-- The contents of a scalar: a real one or a `Complex` (`value/complex.go:13-16`). -/
inductive PV where
  | real (s : PS)
  | cplx (re im : PS)
deriving DecidableEq, Repr

/-- The number. -/
def PS.val : PS → Rat
  | .exact q => q
  | .flt x => x.val

/-- `value/bigfloat.go:167-174`: `shrink` of a float. -/
def shrinkF (x : Fl) : PS := if expo x.val ≤ 100 ∧ x.val.den = 1 then .exact x.val else .flt x

/-- `shrink` of a real scalar; exact numbers have been shrunk before. -/
def PS.shrink : PS → PS
  | .exact q => .exact q
  | .flt x => shrinkF x

/-- `value/unary.go:102-116`: `floatSelf`. -/
def PS.float (c : Ctx) : PS → Fl
  | .exact q => floatOf c q
  | .flt x => x

/-- `value/complex.go:91-100`: `shrink` of a complex number. -/
def shrinkC (re im : PS) : PV := if im.shrink.val = 0 then .real re.shrink else .cplx re.shrink im.shrink

/-- `value/binary.go:105-110`, `217-309`: `+`, `-` and `*` of real scalars. -/
def arith (c : Ctx) (f : Rat → Rat → Rat) : PS → PS → PS
  | .exact a, .exact b => .exact (f a b)
  | u, v => shrinkF ⟨c.p, rnd c.p (f (u.float c).val (v.float c).val)⟩

/-- `value/binary.go:311-324`: `/` of real scalars. Floats divided by zero leave the model. -/
def divide (c : Ctx) : PS → PS → R PS
  | .exact a, .exact b => if b = 0 then .err "division by zero" else .ok (.exact (a / b))
  | u, v => (quo c.p (u.float c).val (v.float c).val).bind fun q => .ok (shrinkF ⟨c.p, q⟩)

/-- `value/unary.go:41-46`, `288-302`: `-` of a real scalar. -/
def negS (c : Ctx) : PS → PS
  | .exact q => .exact (-q)
  | .flt x => shrinkF ⟨c.p, rnd c.p (-x.val)⟩

/-- `value/unary.go:464-482`: `abs` of a real scalar. -/
def absS (c : Ctx) : PS → PS
  | .exact q => .exact (absOf q)
  | .flt x => shrinkF ⟨c.p, rnd c.p (absOf x.val)⟩

/-- `value/complex.go:154-156`: `add`. -/
def cAdd (c : Ctx) (a b : PS × PS) : PS × PS := (arith c (· + ·) a.1 b.1, arith c (· + ·) a.2 b.2)

/-- `value/complex.go:158-160`: `sub`. -/
def cSub (c : Ctx) (a b : PS × PS) : PS × PS := (arith c (· - ·) a.1 b.1, arith c (· - ·) a.2 b.2)

/-- `value/complex.go:162-166`: `mul`. -/
def cMul (c : Ctx) (a b : PS × PS) : PS × PS :=
  (arith c (· - ·) (arith c (· * ·) a.1 b.1) (arith c (· * ·) a.2 b.2), arith c (· + ·) (arith c (· * ·) b.2 a.1) (arith c (· * ·) b.1 a.2))

/-- `value/complex.go:112`, `119`, `180`: the square of the absolute value. -/
def norm (c : Ctx) (a : PS × PS) : PS := arith c (· + ·) (arith c (· * ·) a.1 a.1) (arith c (· * ·) a.2 a.2)

/-- `value/complex.go:168-186`: `div`. -/
def cDiv (c : Ctx) (a b : PS × PS) : R (PS × PS) :=
  if b.1.val = 0 ∧ b.2.val = 0 then .err "complex division by zero" else
    if b.2.val = 0 then
      let denom := arith c (· * ·) b.1 b.1
      (divide c (arith c (· * ·) a.1 b.1) denom).bind fun r => (divide c (arith c (· * ·) a.2 b.1) denom).bind fun i => .ok (r, i)
    else
      let denom := norm c b
      (divide c (arith c (· + ·) (arith c (· * ·) a.1 b.1) (arith c (· * ·) a.2 b.2)) denom).bind fun r =>
        (divide c (arith c (· - ·) (arith c (· * ·) a.2 b.1) (arith c (· * ·) a.1 b.2)) denom).bind fun i => .ok (r, i)

/-- `value/complex.go:104-106`: `neg`. -/
def cNeg (c : Ctx) (a : PS × PS) : PS × PS := (negS c a.1, negS c a.2)

/-- The two parts; a real number has been converted to a complex one (`value/bigfloat.go:155-156` and the like). -/
def PV.parts : PV → PS × PS
  | .real s => (s, .exact 0)
  | .cplx a b => (a, b)

/-- Two real scalars, or two complex numbers. -/
def binaryP (f : PS → PS → R PS) (g : PS × PS → PS × PS → R (PS × PS)) : PV → PV → R PV
  | .real u, .real v => (f u v).bind fun r => .ok (.real r)
  | u, v => (g u.parts v.parts).bind fun r => .ok (shrinkC r.1 r.2)

/-- The binary operators `+`, `-`, `*` and `/`. -/
inductive Bin where
  | add | sub | mul | div
deriving DecidableEq, Repr

/-- `value/binary.go:216-329`. -/
def binary (c : Ctx) : Bin → PV → PV → R PV
  | .add => binaryP (fun u v => .ok (arith c (· + ·) u v)) (fun a b => .ok (cAdd c a b))
  | .sub => binaryP (fun u v => .ok (arith c (· - ·) u v)) (fun a b => .ok (cSub c a b))
  | .mul => binaryP (fun u v => .ok (arith c (· * ·) u v)) (fun a b => .ok (cMul c a b))
  | .div => binaryP (divide c) (cDiv c)

/-- `value/sqrt.go:46-48`: `evalFloatFunc` of a function that does not change its operand. -/
def evalFloat (c : Ctx) (f : Fl → R Fl) (s : PS) : R PS := (f (s.float c)).bind fun r => .ok (shrinkF r)

/-- `value/sqrt.go:25-44`: `complexSqrt`. -/
def complexSqrt (c : Ctx) (fuel : Nat) (re im : PS) : R (PS × PS) :=
  let a := re.float c
  let b := im.float c
  (floatSqrt c fuel ⟨c.p, add c.p (mul c.p a.val a.val) (mul c.p b.val b.val)⟩).bind fun mag =>
    (quo c.p (add c.p mag.val a.val) (rnd c.p 2)).bind fun r => (floatSqrt c fuel ⟨c.p, r⟩).bind fun r =>
      (quo c.p (sub c.p mag.val a.val) (rnd c.p 2)).bind fun i => (floatSqrt c fuel ⟨c.p, i⟩).bind fun i =>
        let i : Fl := if b.val < 0 then ⟨i.prec, -i.val⟩ else i
        .ok (shrinkF r, shrinkF i)

/-- `value/sqrt.go:11-22`: `sqrt`. -/
def sqrtV (c : Ctx) (fuel : Nat) (v : PV) : R PV :=
  if v.parts.2.val ≠ 0 then (complexSqrt c fuel v.parts.1 v.parts.2).bind fun r => .ok (.cplx r.1 r.2) else
    let s := v.parts.1
    if s.val < 0 then (evalFloat c (floatSqrt c fuel) (negS c s)).bind fun r => .ok (.cplx (.exact 0) r) else
      (evalFloat c (floatSqrt c fuel) s).bind fun r => .ok (.real r)

/-- `value/complex.go:118-121`: `abs`; the sum of squares is not negative. -/
def cAbs (c : Ctx) (fuel : Nat) (a : PS × PS) : R PS := evalFloat c (floatSqrt c fuel) (norm c a)

/-- A function of the value of a float, with a result of the precision of the context. -/
def onVal (c : Ctx) (f : Rat → R Rat) (x : Fl) : R Fl := (f x.val).bind fun r => .ok ⟨c.p, r⟩

/-- `value/unary.go:77-82`: `realPhase`. -/
def realPhase (c : Ctx) (s : PS) : PS := if s.val < 0 then .flt ⟨c.p, rnd c.p c.pi⟩ else .exact 0

/-- `value/complex.go:139-151`: the phase of a number whose parts are not zero. -/
def quadrant (c : Ctx) (fuel : Nat) (re im : PS) : R PS :=
  (divide c im re).bind fun q => (evalFloat c (onVal c (floatAtan c fuel)) q).bind fun a =>
    let pi : PS := .flt ⟨c.p, rnd c.p c.pi⟩
    if 0 ≤ re.val then .ok a else if im.val < 0 then .ok (arith c (· - ·) a pi) else .ok (arith c (· + ·) a pi)

/-- `value/log.go:26`: the logarithm of a real number that is not negative. -/
def realLog (c : Ctx) (fuel : Nat) (s : PS) : R PS := evalFloat c (onVal c (floatLog c fuel)) s

/-! ## The heap -/

/-- The floats in memory. -/
abbrev Heap := List Fl

/-- A real scalar: an exact number, or a `BigFloat` with the address of its `*big.Float`. -/
inductive Sc where
  | exact (q : Rat)
  | cell (a : Nat)
deriving DecidableEq, Repr

/-- A scalar. -/
inductive Val where
  | real (s : Sc)
  | cplx (re im : Sc)
deriving DecidableEq, Repr

/-- Computations with the heap. -/
abbrev M (α : Type) := Heap → R (α × Heap)

/-- One computation after the other. -/
def M.bind {α β : Type} (m : M α) (f : α → M β) : M β := fun h => (m h).bind fun r => f r.1 r.2

/-- A value. -/
def M.pure {α : Type} (a : α) : M α := fun h => .ok (a, h)

/-- A computation without the heap. -/
def lift {α : Type} (r : R α) : M α := fun h => r.bind fun a => .ok (a, h)

/-- The object at an address. -/
def get (a : Nat) : M Fl := fun h => match h[a]? with
  | some x => .ok (x, h)
  | none => .crash

/-- Changing an object. -/
def put (a : Nat) (x : Fl) : M Unit := fun h => .ok ((), h.set a x)

/-- A new object. -/
def alloc (x : Fl) : M Nat := fun h => .ok (h.length, h ++ [x])

/-- The contents of a real scalar. -/
def readS : Sc → M PS
  | .exact q => M.pure (.exact q)
  | .cell a => (get a).bind fun x => M.pure (.flt x)

/-- The contents of a scalar. -/
def read : Val → M PV
  | .real s => (readS s).bind fun x => M.pure (.real x)
  | .cplx a b => (readS a).bind fun x => (readS b).bind fun y => M.pure (.cplx x y)

/-- A real scalar with a new object. -/
def newS : PS → M Sc
  | .exact q => M.pure (.exact q)
  | .flt x => (alloc x).bind fun a => M.pure (.cell a)

/-- A scalar with new objects. -/
def new : PV → M Val
  | .real s => (newS s).bind fun x => M.pure (.real x)
  | .cplx a b => (newS a).bind fun x => (newS b).bind fun y => M.pure (.cplx x y)

/-- A function that creates new objects only. -/
def fresh1 (f : PV → R PV) (v : Val) : M Val := (read v).bind fun x => (lift (f x)).bind new

/-- A function of two operands that creates new objects only. -/
def fresh2 (f : PV → PV → R PV) (u v : Val) : M Val := (read u).bind fun x => (read v).bind fun y => (lift (f x y)).bind new

/-- `value/unary.go:102-116`: `floatSelf`: the object of a float, a new one for other numbers. -/
def floatSelf (c : Ctx) : Sc → M Nat
  | .exact q => alloc (floatOf c q)
  | .cell a => M.pure a

/-- `value/bigfloat.go:167-174`: `shrink`; the same object, or an integer. -/
def shrinkS (s : Sc) : M Sc := (readS s).bind fun x => match x.shrink with
  | .exact q => M.pure (.exact q)
  | .flt _ => M.pure s

/-- `value/complex.go:91-100`: `shrink` of a complex number. -/
def shrinkV (re im : Sc) : M Val := (shrinkS re).bind fun r => (shrinkS im).bind fun i => (readS i).bind fun x =>
  if x.val = 0 then M.pure (.real r) else M.pure (.cplx r i)

/-! ## Functions that change their operand -/

/-- `value/sin.go:60-83`: `floatSin` of an object. -/
def sinAt (c : Ctx) (fuel a : Nat) : M Rat := (get a).bind fun x => (lift (floatSin c fuel x)).bind fun r => (put a r.2).bind fun _ => M.pure r.1

/-- `value/sin.go:85-97`: `floatCos` of an object. -/
def cosAt (c : Ctx) (fuel a : Nat) : M Rat := (get a).bind fun x => (lift (floatCos c fuel x)).bind fun r => (put a r.2).bind fun _ => M.pure r.1

/-- `value/sin.go:38-57`: the tangent of an object. -/
def tanAt (c : Ctx) (fuel a : Nat) : M Rat := (get a).bind fun x => (lift (floatTan c fuel x)).bind fun r => (put a r.2).bind fun _ => M.pure r.1

/-- `value/sinh.go:47-78`, `80-105`, `value/power.go:102-126`: functions that read the object they are given. -/
def readAt (f : Rat → R Rat) (a : Nat) : M Rat := (get a).bind fun x => lift (f x.val)

/-- `x.Mul(x, floatTwo)` (`value/sin.go:194-195`, `value/sinh.go:153-154`). -/
def double (c : Ctx) (a : Nat) : M Unit := (get a).bind fun x => put a ⟨x.prec, mul x.prec x.val (rnd c.p 2)⟩

/-- `NewComplex(BigFloat{…}, BigFloat{…}).shrink()` with new objects. -/
def result (c : Ctx) (re im : Rat) : M Val := new (shrinkC (.flt ⟨c.p, re⟩) (.flt ⟨c.p, im⟩))

/-- `value/sin.go:159-170`: `complexSin`. -/
def complexSin (c : Ctx) (fuel : Nat) (re im : Sc) : M Val :=
  (floatSelf c re).bind fun x => (floatSelf c im).bind fun y =>
    (sinAt c fuel x).bind fun sinX => (readAt (floatCosh c fuel) y).bind fun coshY => (cosAt c fuel x).bind fun cosX =>
      (readAt (floatSinh c fuel) y).bind fun sinhY => result c (mul c.p sinX coshY) (mul c.p cosX sinhY)

/-- `value/sin.go:172-183`: `complexCos`. -/
def complexCos (c : Ctx) (fuel : Nat) (re im : Sc) : M Val :=
  (floatSelf c re).bind fun x => (floatSelf c im).bind fun y =>
    (cosAt c fuel x).bind fun cosX => (readAt (floatCosh c fuel) y).bind fun coshY => (sinAt c fuel x).bind fun sinX =>
      (readAt (floatSinh c fuel) y).bind fun sinhY => result c (mul c.p cosX coshY) (-mul c.p sinX sinhY)

/-- `value/sin.go:185-201`: `complexTan`. -/
def complexTan (c : Ctx) (fuel : Nat) (re im : Sc) : M Val :=
  (floatSelf c re).bind fun x => (floatSelf c im).bind fun y =>
    (double c x).bind fun _ => (double c y).bind fun _ =>
      (sinAt c fuel x).bind fun sin2X => (readAt (floatSinh c fuel) y).bind fun sinh2Y => (cosAt c fuel x).bind fun cos2X =>
        (readAt (floatCosh c fuel) y).bind fun cosh2Y =>
          let den := add c.p cos2X cosh2Y
          if den = 0 then lift (.err "tangent is infinite") else
            (lift (quo c.p sin2X den)).bind fun r => (lift (quo c.p sinh2Y den)).bind fun i => result c r i

/-- `value/sinh.go:118-130`: `complexSinh`. -/
def complexSinh (c : Ctx) (fuel : Nat) (re im : Sc) : M Val :=
  (floatSelf c re).bind fun x => (floatSelf c im).bind fun y =>
    (readAt (floatSinh c fuel) x).bind fun sinhX => (cosAt c fuel y).bind fun cosY => (readAt (floatCosh c fuel) x).bind fun coshX =>
      (sinAt c fuel y).bind fun sinY => result c (mul c.p sinhX cosY) (mul c.p coshX sinY)

/-- `value/sinh.go:132-144`: `complexCosh`. -/
def complexCosh (c : Ctx) (fuel : Nat) (re im : Sc) : M Val :=
  (floatSelf c re).bind fun x => (floatSelf c im).bind fun y =>
    (readAt (floatCosh c fuel) x).bind fun coshX => (cosAt c fuel y).bind fun cosY => (readAt (floatSinh c fuel) x).bind fun sinhX =>
      (sinAt c fuel y).bind fun sinY => result c (mul c.p coshX cosY) (mul c.p sinhX sinY)

/-- `value/sinh.go:146-163`: `complexTanh`. -/
def complexTanh (c : Ctx) (fuel : Nat) (re im : Sc) : M Val :=
  (floatSelf c re).bind fun x => (floatSelf c im).bind fun y =>
    (double c x).bind fun _ => (double c y).bind fun _ =>
      (readAt (floatSinh c fuel) x).bind fun sinh2X => (sinAt c fuel y).bind fun sin2Y => (readAt (floatCosh c fuel) x).bind fun cosh2X =>
        (cosAt c fuel y).bind fun cos2Y =>
          let den := add c.p cosh2X cos2Y
          if den = 0 then lift (.err "tangent is infinite") else
            (lift (quo c.p sinh2X den)).bind fun r => (lift (quo c.p sin2Y den)).bind fun i => result c r i

/-- `value/power.go:37-47`: `expComplex`; the result is not shrunk. -/
def expComplex (c : Ctx) (fuel : Nat) (re im : Sc) : M Val :=
  (floatSelf c re).bind fun x => (floatSelf c im).bind fun y =>
    (readAt (exponential c fuel) x).bind fun eToX => (cosAt c fuel y).bind fun cosY => (sinAt c fuel y).bind fun sinY =>
      new (.cplx (.flt ⟨c.p, mul c.p cosY eToX⟩) (.flt ⟨c.p, mul c.p sinY eToX⟩))

/-- `value/sin.go:11-45`, `value/sinh.go:11-45`, `value/power.go:25-34`: the complex function if the imaginary part is not zero, the real one with
`evalFloatFunc` (`value/sqrt.go:46-48`) otherwise. -/
def trig (c : Ctx) (real : Nat → M Rat) (complex : Sc → Sc → M Val) (v : Val) : M Val :=
  let onReal (s : Sc) : M Val := (floatSelf c s).bind fun a => (real a).bind fun r => new (.real (shrinkF ⟨c.p, r⟩))
  match v with
  | .real s => onReal s
  | .cplx re im => (readS im).bind fun i => if i.val ≠ 0 then complex re im else onReal re

/-! ## Functions that return their operand, a part of it or a constant -/

/-- `value/const.go:107-112`: the addresses of `floatPiBy2` and `floatMinusPiBy2`. -/
def piBy2 : Nat := 0
/-- `value/const.go:112`: see `piBy2`. -/
def minusPiBy2 : Nat := 1

/-- `value/complex.go:124-152`: `phase` of a complex number. -/
def phaseC (c : Ctx) (fuel : Nat) (re im : Sc) : M Sc :=
  (readS re).bind fun r => (readS im).bind fun i =>
    if i.val = 0 then newS (realPhase c r) else
      if r.val = 0 then M.pure (.cell (if i.val < 0 then minusPiBy2 else piBy2)) else
        (lift (quadrant c fuel r i)).bind newS

/-- `value/unary.go:518-528`: `phase`. -/
def phase (c : Ctx) (fuel : Nat) : Val → M Val
  | .real s => (readS s).bind fun x => (newS (realPhase c x)).bind fun r => M.pure (.real r)
  | .cplx re im => (phaseC c fuel re im).bind fun s => (shrinkS s).bind fun s => M.pure (.real s)

/-- `value/log.go:171-175`: `complexLog`. -/
def complexLog (c : Ctx) (fuel : Nat) (re im : Sc) : M (Sc × Sc) :=
  (readS re).bind fun r => (readS im).bind fun i => (lift (cAbs c fuel (r, i))).bind fun abs => (phaseC c fuel re im).bind fun ph =>
    (lift (realLog c fuel abs)).bind fun l => (newS l).bind fun l => M.pure (l, ph)

/-- `value/log.go:11-27`: `logn`. -/
def logn (c : Ctx) (fuel : Nat) (v : Val) : M Val :=
  let re := match v with | .real s => s | .cplx a _ => a
  let im := match v with | .real _ => .exact 0 | .cplx _ b => b
  (readS re).bind fun r => (readS im).bind fun i =>
    if i.val ≠ 0 ∨ r.val < 0 then (complexLog c fuel re im).bind fun l => shrinkV l.1 l.2 else
      (lift (realLog c fuel r)).bind fun l => new (.real l)

/-- `value/unary.go:489-501`: `real`. -/
def realPart : Val → M Val
  | .real s => M.pure (.real s)
  | .cplx a _ => M.pure (.real a)

/-- `value/unary.go:503-515`: `imag`. -/
def imagPart : Val → M Val
  | .real _ => M.pure (.real (.exact 0))
  | .cplx _ b => M.pure (.real b)

/-- `value/unary.go:1212-1224`: `float`. -/
def float (c : Ctx) : Val → M Val
  | .real s => (floatSelf c s).bind fun a => M.pure (.real (.cell a))
  | .cplx s t => (floatSelf c s).bind fun a => (floatSelf c t).bind fun b => M.pure (.cplx (.cell a) (.cell b))

/-- `value/binary.go:196-213`: binary `j`; if one operand is a float, so is the other (`binaryArithType`, the conversion keeps the object of a float). -/
def joinJ (c : Ctx) : Val → Val → M Val
  | .real (.exact a), .real (.exact b) => shrinkV (.exact a) (.exact b)
  | .real s, .real t => (floatSelf c s).bind fun a => (floatSelf c t).bind fun b => shrinkV (.cell a) (.cell b)
  | _, _ => lift (.err "binary j not implemented on type complex")

/-! ## Expressions -/

/-- Unary operators. -/
inductive Un where
  | plus | minus | abs | sqrt | real | imag | float | phase | log | sin | cos | tan | sinh | cosh | tanh | exp
deriving DecidableEq, Repr

/-- Expressions of literals (of numbers that are not floats: `value/bigfloat.go:138-141`), variables and operators. -/
inductive Ex where
  | num (re im : Rat)
  | var (x : String)
  | un (op : Un) (e : Ex)
  | bin (op : Bin) (l r : Ex)
  | j (l r : Ex)
deriving DecidableEq, Repr

/-- `abs` of the contents (`value/unary.go:464-486`). -/
def absV (c : Ctx) (fuel : Nat) : PV → R PV
  | .real s => .ok (.real (absS c s))
  | .cplx a b => (cAbs c fuel (a, b)).bind fun r => .ok (.real r)

/-- `-` of the contents (`value/unary.go:288-306`). -/
def negV (c : Ctx) : PV → R PV
  | .real s => .ok (.real (negS c s))
  | .cplx a b => .ok (shrinkC (cNeg c (a, b)).1 (cNeg c (a, b)).2)

/-- The unary operators (`value/unary.go:274-306`, `464-528`, `985-1164`, `1212-1224`). -/
def unary (c : Ctx) (fuel : Nat) : Un → Val → M Val
  | .plus => M.pure
  | .minus => fresh1 (negV c)
  | .abs => fresh1 (absV c fuel)
  | .sqrt => fresh1 (sqrtV c fuel)
  | .real => realPart
  | .imag => imagPart
  | .float => float c
  | .phase => phase c fuel
  | .log => logn c fuel
  | .sin => trig c (sinAt c fuel) (complexSin c fuel)
  | .cos => trig c (cosAt c fuel) (complexCos c fuel)
  | .tan => trig c (tanAt c fuel) (complexTan c fuel)
  | .sinh => trig c (readAt (floatSinh c fuel)) (complexSinh c fuel)
  | .cosh => trig c (readAt (floatCosh c fuel)) (complexCosh c fuel)
  | .tanh => trig c (readAt (floatTanh c fuel)) (complexTanh c fuel)
  | .exp => trig c (readAt (exponential c fuel)) (expComplex c fuel)

/-- The variables. -/
abbrev Env := List (String × Val)

/-- `value/expr.go:53-60`, `196-213`: evaluating an expression; the right operand first. -/
def eval (c : Ctx) (fuel : Nat) (env : Env) : Ex → M Val
  | .num re im => M.pure (if im = 0 then .real (.exact re) else .cplx (.exact re) (.exact im))
  | .var x => match env.lookup x with
    | some v => M.pure v
    | none => lift (.err "undefined variable")
  | .un op e => (eval c fuel env e).bind (unary c fuel op)
  | .bin op l r => (eval c fuel env r).bind fun v => (eval c fuel env l).bind fun u => fresh2 (binary c op) u v
  | .j l r => (eval c fuel env r).bind fun v => (eval c fuel env l).bind fun u => joinJ c u v

/-- A line of a session: an assignment or an expression whose value is printed. -/
inductive Line where
  | assign (x : String) (e : Ex)
  | show (e : Ex)
deriving DecidableEq, Repr

/-- `value/assign.go:19-36`, `value/context.go:67-70`: lines one after the other; assigning copies nothing. The values printed. -/
def session (c : Ctx) (fuel : Nat) : List Line → Env → Heap → R (List PV)
  | [], _, _ => .ok []
  | .assign x e :: ls, env, h => (eval c fuel env e h).bind fun r => session c fuel ls ((x, r.1) :: env) r.2
  | .show e :: ls, env, h => (eval c fuel env e h).bind fun r => (read r.1 r.2).bind fun s => (session c fuel ls env s.2).bind fun vs => .ok (s.1 :: vs)

/-- `value/const.go:88-122`, `exec/context.go:58-64`: the constants; `e` and `pi` are copies. The value of `e` does not matter here. -/
def constants (c : Ctx) (e : Rat) : Heap := [⟨c.p, rnd c.p (c.pi / 2)⟩, ⟨c.p, -rnd c.p (c.pi / 2)⟩, ⟨c.p, e⟩, ⟨c.p, c.pi⟩]

/-- `exec/context.go:58-64`: the variables of a new session. -/
def initial : Env := [("e", .real (.cell 2)), ("pi", .real (.cell 3))]

end Verif.Cell
