import Verif.Shown.Text
import Verif.Flt.Consts
/-
The text of huge and tiny floats: `BigFloat.Sprint` (`value/bigfloat.go`) for numbers whose binary exponent is beyond 10000, and of big integers that are too long to be printed as they are
(`value/bigint.go`).
-/
namespace Verif.Shown
open Verif.Lit (formatInt)
open Verif.Arr (R)
open Verif.Flt (Fl rnd mul sub quo expo pow2 floatLog2 floatLog10 ctxOf exponential)

/-- The loop that moves the point behind the first digit (`value/bigfloat.go:108-116`), with the precision of the mantissa and that of the format; `positive` tells the sign of the exponent. -/
def rescale (pm prec : Nat) (positive : Bool) : Nat → Rat → Int → R (Rat × Int)
  | 0, _, _ => .hang
  | fuel + 1, m, e =>
    if (text 'g' prec m).head? = some '0' then rescale pm prec positive fuel (mul pm m 10) (if positive then e - 1 else e + 1) else .ok (m, e)

/-- The power of ten (`value/bigfloat.go:66-79`): `exp * log 2 / log 10` is split into its integer, and ten to the power of the rest. -/
def tenPower (p fuel : Nat) (exp : Nat) : R (Int × Rat) :=
  (quo p (mul p (rnd p exp) (floatLog2 p)) (floatLog10 p)).bind fun fexp =>
  let iexp := fexp.floor
  let fraction := mul p (sub p fexp (rnd p iexp)) (floatLog10 p)
  (exponential (ctxOf p) fuel fraction).bind fun scale => .ok (iexp, scale)

/-- `BigFloat.Sprint` beyond the exponent 10000 (`value/bigfloat.go:37-42`, `:59-118`).  `p` is the precision of the configuration, `f.prec` that of the number.
The lines 89-99, for powers of ten up to 11, cannot be reached (`C89_partial` shows it); they are an error here. -/
def hugeText (p fuel : Nat) (verb : Char) (prec : Nat) (f : Fl) : R (List Char) :=
  let e := expo f.val
  let positive := decide (0 ≤ e)
  (tenPower p fuel e.natAbs).bind fun (iexp, scale) =>
  let mant := f.val * pow2 (-e)
  (if positive then R.ok (mul f.prec mant scale) else quo f.prec mant scale).bind fun mant =>
  if -4 ≤ iexp ∧ iexp ≤ 11 then .err "not reached"
  else
    (rescale f.prec prec positive fuel (if mant < 0 then -mant else mant) iexp).bind fun (m, iexp) =>
    .ok ((if mant < 0 then ['-'] else []) ++ text 'g' prec m ++ (if verb = 'E' ∨ verb = 'G' then 'E' else 'e') :: (if positive then '+' else '-') :: formatInt 10 iexp)

/-- `BigFloat.Sprint` (`value/bigfloat.go:36-121`). -/
def sprintBigFloat (p fuel : Nat) (format : List Char) (f : Fl) : R (List Char) :=
  if 10000 < (expo f.val).natAbs then
    match floatFormat format with
    | some (v, prec) => hugeText p fuel v prec f
    | none => hugeText p fuel 'g' 12 f
  else .ok (sprintFloat format f.val)

/-- `BigInt.Sprint` of an integer with more than `)maxdigits` digits (`value/bigint.go:44-51`). -/
def sprintLong (p fuel : Nat) (format : List Char) (i : Int) : R (List Char) := sprintBigFloat p fuel format ⟨p, rnd p i⟩

end Verif.Shown
