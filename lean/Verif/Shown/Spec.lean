import Verif.Shown.Model
import Verif.Lit.Spec
/-
What a decimal number is, and what it means to print a number rounded.
-/
namespace Verif.Shown
open Verif.Lit (Sign Numeral Exponent withSign)

/-- The text is a sign, `k` digits, and if `d` is not zero a point and `d` digits; then follows the text of an exponent, `ex`, which stands for `x`.
The whole stands for `q`. -/
def Decimal (s : List Char) (k d : Nat) (ex : List Char) (x : Int) (q : Rat) : Prop :=
  ∃ sg i f neg n, s = sg ++ i ++ (if f = [] then [] else '.' :: f) ++ ex ∧ i.length = k ∧ f.length = d ∧ i ≠ [] ∧ Sign sg neg ∧ Numeral 10 (i ++ f) n ∧
    Exponent ex x ∧ q = withSign neg (n * (10 : Rat) ^ (x - d))

/-- The power of ten of the first digit of `q`. -/
def Magnitude (q : Rat) (E : Int) : Prop := (10 : Rat) ^ E ≤ |q| ∧ |q| < (10 : Rat) ^ (E + 1)

/-- The place of the last digit a format asks for: after `prec` decimals for `%f`, after `prec` digits behind the first one for `%e`, and after `prec`
digits in all, at least one, for `%g`. -/
def unit (verb : Char) (prec : Nat) (E : Int) : Rat :=
  if verb = 'f' ∨ verb = 'F' then (10 : Rat) ^ (-(prec : Int)) else if verb = 'e' ∨ verb = 'E' then (10 : Rat) ^ (E - prec) else (10 : Rat) ^ (E + 1 - max prec 1)

/-- The verbs of floating-point formats. -/
def FloatVerb (verb : Char) : Prop := verb = 'f' ∨ verb = 'F' ∨ verb = 'e' ∨ verb = 'E' ∨ verb = 'g' ∨ verb = 'G'

/-- `v` is what the format should show for `q`: no digit of the same places is nearer. -/
def Rounded (verb : Char) (prec : Nat) (q v : Rat) : Prop :=
  (q = 0 → v = 0) ∧ ∀ E, Magnitude q E → |v - q| ≤ unit verb prec E / 2

/-- `v` differs from `q` by less than one in the last place the format asks for. -/
def Near (verb : Char) (prec : Nat) (q v : Rat) : Prop :=
  (q = 0 → v = 0) ∧ ∀ E, Magnitude q E → |v - q| < unit verb prec E

/-- The number is not too long to be printed as it is (`)maxdigits`; zero is no limit). -/
def Short (maxDigits : Nat) (x : Num.Num) : Prop := ∀ i, x = .bigInt i → maxDigits = 0 ∨ Num.bitLen i ≤ maxDigits * 33222 / 10000

/-- The fraction is not of those `%e` goes wrong with: those that round to the next power of ten, and the powers of a billion below one. -/
structure Regular (prec : Nat) (r : Rat) : Prop where
  frac : r.den ≠ 1
  billion : ∀ k : Nat, 1 ≤ k → |r| ≠ (10 : Rat) ^ (-(9 * k : Nat) : Int)
  carry : ∀ E, Magnitude r E → |r| + (10 : Rat) ^ (E - prec - 1) / 2 < (10 : Rat) ^ (E + 1)

/-- The value of a binary floating-point number. -/
def Binary (q : Rat) : Prop := ∃ k, q.den = 2 ^ k

end Verif.Shown
