import Verif.Cell.Model

/-!
# Powers of complex numbers and of negative floats

`value/power.go:13-24`, `144-180`. Simplified as in `Verif/Cell/Model.lean`. Real operands that are both exact are not handled by `power` but by the entries of `**` for integers and
rational numbers (`value/binary.go:437-488`, `Verif/Num`); the rational one calls `power` with floats if the exponent is not whole.
-/

namespace Verif.Cell
open Verif.Arr (R)
open Verif.Flt

/-- `value/power.go:147-157`: the loop of `complexIntegerPower`. Every turn halves the exponent, so that the exponent itself is fuel enough. -/
def cPowLoop (c : Ctx) : Nat → Nat → PS × PS → PS × PS → PS × PS
  | 0, _, _, z => z
  | fuel + 1, exp, y, z =>
    if exp = 0 then z else cPowLoop c fuel (exp / 2) (cMul c y y) (if exp % 2 = 1 then cMul c z y else z)

/-- `value/power.go:144-158`: `complexIntegerPower`. -/
def cIntPower (c : Ctx) (v : PS × PS) (exp : Nat) : PS × PS := cPowLoop c (exp + 1) exp v (.exact 1, .exact 0)

/-- `value/complex.go:108-116`: `inverse`. -/
def cInverse (c : Ctx) (a : PS × PS) : R (PS × PS) :=
  if a.1.val = 0 ∧ a.2.val = 0 then .err "complex inverse of zero" else
    (divide c a.1 (norm c a)).bind fun r => (divide c a.2 (norm c a)).bind fun i => .ok (r, negS c i)

/-- `value/power.go:179`: `expComplex(c, complexLog(c, v).mul(c, exp))`, then `shrink` (`value/power.go:17`, `20`). -/
def powerExpLog (c : Ctx) (fuel : Nat) (v e : Sc × Sc) : M Val :=
  (complexLog c fuel v.1 v.2).bind fun l => (readS l.1).bind fun lr => (readS l.2).bind fun li => (readS e.1).bind fun er => (readS e.2).bind fun ei =>
    let m := cMul c (lr, li) (er, ei)
    (newS m.1).bind fun s => (newS m.2).bind fun t => (expComplex c fuel s t).bind fun r =>
      match r with
      | .real s => (shrinkS s).bind fun s => M.pure (.real s)
      | .cplx s t => shrinkV s t

/-- `value/power.go:161-180`: `complexPower`, then `shrink`. An `Int` is a whole number of 32 bits with sign (`value/int.go:13-19`; that a few operators leave larger ones, see C09, is left out).
The power with exponent one has the objects of the base. -/
def complexPower (c : Ctx) (fuel : Nat) (v e : Sc × Sc) : M Val :=
  (readS e.1).bind fun er => (readS e.2).bind fun ei => (readS v.1).bind fun a => (readS v.2).bind fun b =>
    if ei.val = 0 then
      match er with
      | .exact n =>
        if n.den = 1 ∧ -2 ^ 31 ≤ n.num ∧ n.num < 2 ^ 31 then
          if n.num = 0 then M.pure (.real (.exact 1)) else
            if n.num = 1 then shrinkV v.1 v.2 else
              if n.num < 0 then (lift (cInverse c (cIntPower c (a, b) (-n.num).toNat))).bind fun r => new (shrinkC r.1 r.2) else
                let r := cIntPower c (a, b) n.num.toNat
                new (shrinkC r.1 r.2)
        else powerExpLog c fuel v e
      | .flt f => if f.val = mkRat 1 2 then (lift (complexSqrt c fuel a b)).bind fun r => new (shrinkC r.1 r.2) else powerExpLog c fuel v e
    else powerExpLog c fuel v e

/-- The two parts. -/
def Val.parts : Val → Sc × Sc
  | .real s => (s, .exact 0)
  | .cplx a b => (a, b)

/-- `value/power.go:13-24`: `power`. Two real operands have been converted to floats, otherwise both to complex numbers (`value/binary.go:489-490`). -/
def power (c : Ctx) (fuel : Nat) : Val → Val → M Val
  | .real s, .real t => (floatSelf c s).bind fun a => (floatSelf c t).bind fun b => (get a).bind fun x => (get b).bind fun y =>
    if x.val < 0 then complexPower c fuel (.cell a, .exact 0) (.cell b, .exact 0) else
      (lift (floatPower c fuel x y)).bind fun r => new (.real (shrinkF r))
  | u, v => complexPower c fuel u.parts v.parts

end Verif.Cell
