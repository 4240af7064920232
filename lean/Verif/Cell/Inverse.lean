import Verif.Cell.Model

/-!
# The inverse tangents of complex numbers

`value/asin.go:41-49`, `204-210`, `value/asinh.go:34-45`, `102-111`. Simplified as in `Verif/Cell/Model.lean`. The results are not shrunk: an imaginary part that comes out as zero stays
(`value/eval.go:74`).
-/

namespace Verif.Cell
open Verif.Arr (R)
open Verif.Flt

/-- `complexLog(c, q).mul(c, k)` (`value/asin.go:208-209`, `value/asinh.go:110`), `q` and `k` being new. -/
def logTimes (c : Ctx) (fuel : Nat) (q k : PS × PS) : M Val :=
  (newS q.1).bind fun s => (newS q.2).bind fun t => (complexLog c fuel s t).bind fun l => (readS l.1).bind fun lr => (readS l.2).bind fun li =>
    let m := cMul c (lr, li) k
    new (.cplx m.1 m.2)

/-- `value/const.go:125-135`: `minusOneOverTwoI`. -/
def minusOneOverTwoI : PS × PS := (.exact 0, .exact (mkRat (-1) 2))

/-- `value/asin.go:204-210`: `complexAtan`. -/
def complexAtan (c : Ctx) (fuel : Nat) (re im : Sc) : M Val :=
  (readS re).bind fun r => (readS im).bind fun i =>
    (lift (cDiv c (cSub c (.exact 0, .exact 1) (r, i)) (cAdd c (.exact 0, .exact 1) (r, i)))).bind fun q => logTimes c fuel q minusOneOverTwoI

/-- `value/asin.go:41-49`: `atan`. -/
def atan (c : Ctx) (fuel : Nat) : Val → M Val := trig c (readAt (floatAtan c fuel)) (complexAtan c fuel)

/-- `value/asinh.go:102-111`: `complexAtanh`; `complexHalf`: `value/const.go:55`. -/
def complexAtanh (c : Ctx) (fuel : Nat) (re im : Sc) : M Val :=
  (readS re).bind fun r => (readS im).bind fun i =>
    let num := cAdd c (.exact 1, .exact 0) (r, i)
    let den := cSub c (.exact 1, .exact 0) (r, i)
    if (num.1.val = 0 ∧ num.2.val = 0) ∨ (den.1.val = 0 ∧ den.2.val = 0) then lift (.err "atanh is infinite") else
      (lift (cDiv c num den)).bind fun q => logTimes c fuel q (.exact (mkRat 1 2), .exact 0)

/-- `value/asinh.go:34-45`: `atanh`. The comparisons with `-1` and `1` (`value/eval.go:825-849`) are exact: the sign of a rounded difference is right. -/
def atanh (c : Ctx) (fuel : Nat) (v : Val) : M Val :=
  let onReal (s : Sc) : M Val := (readS s).bind fun x =>
    if x.val ≤ -1 ∨ 1 ≤ x.val then complexAtanh c fuel s (.exact 0) else
      (floatSelf c s).bind fun a => (readAt (floatAtanh c fuel) a).bind fun r => new (.real (shrinkF ⟨c.p, r⟩))
  match v with
  | .real s => onReal s
  | .cplx re im => (readS im).bind fun i => if i.val ≠ 0 then complexAtanh c fuel re im else onReal re

/-- `complexLog(c, q)` (`value/asin.go:194`, `value/asinh.go:91`, `99`), `q` being new. -/
def logOf (c : Ctx) (fuel : Nat) (q : PS × PS) : M (PS × PS) :=
  (newS q.1).bind fun s => (newS q.2).bind fun t => (complexLog c fuel s t).bind fun l => (readS l.1).bind fun lr => (readS l.2).bind fun li => M.pure (lr, li)

/-- `value/asin.go:188-196`: `complexAsin`. -/
def complexAsin (c : Ctx) (fuel : Nat) (v : PS × PS) : M (PS × PS) :=
  let x := cSub c (.exact 1, .exact 0) (cMul c v v)
  (lift (complexSqrt c fuel x.1 x.2)).bind fun x => (logOf c fuel (cAdd c x (cMul c (.exact 0, .exact 1) v))).bind fun x => M.pure (cMul c (.exact 0, .exact (-1)) x)

/-- `value/asin.go:198-202`: `complexAcos`. `floatPiBy2` is read from its object; `floatZero` has no other use here. -/
def complexAcos (c : Ctx) (fuel : Nat) (v : PS × PS) : M (PS × PS) :=
  (get piBy2).bind fun h => (complexAsin c fuel v).bind fun x => M.pure (cSub c (.flt ⟨c.p, rnd c.p h.val⟩, .flt ⟨c.p, 0⟩) x)

/-- `value/asinh.go:85-92`: `complexAsinh`. -/
def complexAsinh (c : Ctx) (fuel : Nat) (v : PS × PS) : M (PS × PS) :=
  let z := cAdd c (cMul c v v) (.exact 1, .exact 0)
  (lift (complexSqrt c fuel z.1 z.2)).bind fun z => logOf c fuel (cAdd c z v)

/-- `value/asinh.go:94-101`: `complexAcosh`. -/
def complexAcosh (c : Ctx) (fuel : Nat) (v : PS × PS) : M (PS × PS) :=
  let z := cSub c (cMul c v v) (.exact 1, .exact 0)
  (lift (complexSqrt c fuel z.1 z.2)).bind fun z => logOf c fuel (cAdd c z v)

/-- `value/asin.go:11-39`, `value/asinh.go:11-32`: the real function (with `evalFloatFunc`) in the domain of the real function, the complex one elsewhere. -/
def arc (c : Ctx) (domain : Rat → Bool) (real : Rat → R Rat) (complex : PS × PS → M (PS × PS)) (v : Val) : M Val :=
  (read v).bind fun w =>
    if w.parts.2.val = 0 ∧ domain w.parts.1.val then
      (floatSelf c (match v with | .real s => s | .cplx s _ => s)).bind fun a => (readAt real a).bind fun r => new (.real (shrinkF ⟨c.p, r⟩))
    else (complex w.parts).bind fun r => new (.cplx r.1 r.2)

/-- `value/asin.go:11-21`: `asin`; `inArcRealDomain`: `value/asin.go:35-39`. -/
def asin (c : Ctx) (fuel : Nat) : Val → M Val := arc c (fun x => decide (-1 ≤ x ∧ x ≤ 1)) (floatAsin c fuel) (complexAsin c fuel)

/-- `value/asin.go:23-33`: `acos`. -/
def acos (c : Ctx) (fuel : Nat) : Val → M Val := arc c (fun x => decide (-1 ≤ x ∧ x ≤ 1)) (floatAcos c fuel) (complexAcos c fuel)

/-- `value/asinh.go:11-19`: `asinh`. -/
def asinh (c : Ctx) (fuel : Nat) : Val → M Val := arc c (fun _ => true) (floatAsinh c fuel) (complexAsinh c fuel)

/-- `value/asinh.go:21-32`: `acosh`. -/
def acosh (c : Ctx) (fuel : Nat) : Val → M Val := arc c (fun x => decide (1 ≤ x)) (floatAcosh c fuel) (complexAcosh c fuel)

end Verif.Cell
