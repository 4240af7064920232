import Verif.Flt.Model

/-!
# Model: logarithms to a base that is a whole number (`value/log.go:29-106`)

The splitting of the number into a power of the base and a rest is `Verif.Flt.logBaseU`; here the quotient of the logarithms is added.
-/

namespace Verif.LogB
open Verif.Flt
open Verif.Arr (R)

/-- `value/log.go:46`: `logn(c, v)` divided by `logn(c, u)`. The logarithms are those of the numbers as floats (`evalFloatFunc`, `value/sqrt.go:46-48`). Simplification:
should a logarithm or the quotient be a whole number by rounding, Go makes it one (`shrink`); the model goes on with the float, which has the same value. -/
def quotient (c : Ctx) (fuel : Nat) (v u : Int) : R Rat :=
  (floatLog c fuel (rnd c.p v)).bind fun lv => (floatLog c fuel (rnd c.p u)).bind fun lu => quo c.p lv lu

/-- `value/log.go:29-49`: `logBaseU` of two whole numbers, both of type `Int` or not. -/
def logBase (c : Ctx) (fuel : Nat) (int : Bool) (u v : Int) : R Rat :=
  match logBaseU int (quotient c fuel) u v with
  | (i, none) => .ok (i : Rat)
  | (i, some f) => f.bind fun f => if i = 0 then .ok f else .ok (add c.p f (rnd c.p i))

end Verif.LogB
