import Verif.Lit.Model
import Verif.Num.Spec
import Verif.Save.Spec
import Mathlib.Data.Nat.Digits.Defs
/-
What the text of a number stands for.
-/
namespace Verif.Lit

/-- The character stands for the digit `d`: the digits from ten on are letters, capital or not. -/
def Digit (c : Char) (d : Nat) : Prop :=
  (d < 10 ∧ c.toNat = '0'.toNat + d) ∨ (10 ≤ d ∧ d < 36 ∧ (c.toNat = 'a'.toNat + (d - 10) ∨ c.toNat = 'A'.toNat + (d - 10)))

/-- The text is digits of base `b`, at least one, and stands for `n`: the last has weight 1, the one before it `b`, and so on. -/
def Numeral (b : Nat) (s : List Char) (n : Nat) : Prop :=
  s ≠ [] ∧ ∃ ds, List.Forall₂ (fun c d => Digit c d ∧ d < b) s ds ∧ n = Nat.ofDigits b ds.reverse

/-- The text of a sign. -/
def Sign (sg : List Char) (neg : Bool) : Prop := (sg = [] ∧ neg = false) ∨ (sg = ['+'] ∧ neg = false) ∨ (sg = ['-'] ∧ neg = true)

/-- The number with the sign. -/
def withSign (neg : Bool) (q : Rat) : Rat := if neg then -q else q

/-- Underscores stand between digits only, one at a time. -/
def Spaced : List Char → Prop
  | [] => True
  | [c] => c ≠ '_'
  | c :: d :: s => (c ≠ '_' ∨ d ≠ '_') ∧ Spaced (d :: s)

/-- The text in front of a numeral that tells its base, when the input base is 0. -/
def Prefix (p : List Char) (b : Nat) : Prop :=
  (p = ['0'] ∧ b = 8) ∨ (p = "0o".toList ∧ b = 8) ∨ (p = "0O".toList ∧ b = 8) ∨ (p = "0x".toList ∧ b = 16) ∨ (p = "0X".toList ∧ b = 16) ∨
  (p = "0b".toList ∧ b = 2) ∨ (p = "0B".toList ∧ b = 2)

/-- The text is an exponent: `e` or `E`, a sign, and decimal digits; or nothing. -/
def Exponent (s : List Char) (x : Int) : Prop :=
  (s = [] ∧ x = 0) ∨ ∃ c sg ds neg n, s = c :: sg ++ ds ∧ (c = 'e' ∨ c = 'E') ∧ Sign sg neg ∧ Numeral 10 ds n ∧ x = if neg then -(n : Int) else n

/-- The text is read as the number `q`. -/
def ReadsAs (base : Nat) (s : List Char) (q : Rat) : Prop := ∃ x, parse base s = some (.num x) ∧ x.isNum ∧ x.val = q

/-- No operator has a name that might be a number of the base: a digit of the base, then digits and letters `j`. -/
def NoDigitOps (C : Scan.Ctx) : Prop :=
  ∀ c w, (∃ d, Digit c d ∧ d < (if C.base = 0 then 10 else C.base)) → (∀ c ∈ w, c = 'j' ∨ ∃ d, Digit c d ∧ d < (if C.base = 0 then 10 else C.base)) →
    Scan.defined C (c :: w) = false

/-- An input and output base that can be set. -/
def BaseOk (b : Nat) : Prop := b = 0 ∨ (2 ≤ b ∧ b ≤ 16)

end Verif.Lit
