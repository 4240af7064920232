import Verif.Num.Model
import Mathlib.Algebra.Order.Field.Rat
/-
What the numeric operators should compute, stated over the rationals without reference to representations.
-/
set_option linter.dupNamespace false
namespace Verif.Num

/-- The number a value denotes. Characters denote no number; they get their code. -/
def Num.val : Num → Rat
  | .int i => i
  | .char c => c
  | .bigInt i => i
  | .bigRat r => r

/-- Not a character. -/
def Num.isNum : Num → Prop
  | .char _ => False
  | _ => True

/-- An integer in one of the two integer representations. -/
def Num.isInt : Num → Prop
  | .int _ => True
  | .bigInt _ => True
  | _ => False

/-- A number whose machine integer is small (at most 2^31 in absolute value) and whose rational is not an
integer. -/
def Num.Small : Num → Prop
  | .int i => -(2 ^ 31) ≤ i ∧ i ≤ 2 ^ 31
  | .char _ => False
  | .bigInt _ => True
  | .bigRat r => r.den ≠ 1

/-- A big integer is at least 2^31 in absolute value. -/
def Num.BigEnough : Num → Prop
  | .bigInt i => i ≤ -(2 ^ 31) ∨ 2 ^ 31 ≤ i
  | .int _ => True
  | .char _ => True
  | .bigRat _ => True

/-- The representation the interpreter should keep, with both representations allowed at ±2^31: small machine
integers, big integers only where needed, rationals only if not integral. -/
def Num.Canon (n : Num) : Prop := n.Small ∧ n.BigEnough

/-- Truncated division: `q` and `r` are quotient and remainder of `x` by `y`. -/
def Truncated (x y q r : Int) : Prop := x = q * y + r ∧ |r| < |y| ∧ (r < 0 → x < 0) ∧ (0 < r → 0 < x)

/-- Euclidean division: `q` and `r` are quotient and remainder of `x` by `y`. -/
def Euclidean (x y : Rat) (q : Int) (r : Rat) : Prop := x = q * y + r ∧ 0 ≤ r ∧ r < |y|

/-- Bit `k` of an integer in two's complement of unlimited width. -/
def bit (z : Int) (k : Nat) : Bool := z / 2 ^ k % 2 == 1

/-- 1 for true, 0 for false. -/
def truth (p : Prop) [Decidable p] : Rat := if p then 1 else 0

/-- `c` is the integer power `a ** n`. -/
def IsPow (a : Rat) (n : Int) (c : Rat) : Prop :=
  if 0 ≤ n then c = a ^ n.toNat else a ≠ 0 ∧ c * a ^ (-n).toNat = 1

/-- The number `a op b` should be `c`. -/
def Op2.Spec : Op2 → Rat → Rat → Rat → Prop
  | .add, a, b, c => c = a + b
  | .sub, a, b, c => c = a - b
  | .mul, a, b, c => c = a * b
  | .quo, a, b, c => b ≠ 0 ∧ c * b = a
  | .idiv, a, b, c => ∃ x y q r : Int, a = x ∧ b = y ∧ c = q ∧ Truncated x y q r
  | .imod, a, b, c => ∃ x y q r : Int, a = x ∧ b = y ∧ c = r ∧ Truncated x y q r
  | .div, a, b, c => ∃ (x y q : Int) (r : Rat), a = x ∧ b = y ∧ c = q ∧ Euclidean a b q r
  | .mod, a, b, c => if b = 0 then c = a else ∃ q : Int, Euclidean a b q c
  | .pow, a, b, c => ∃ n : Int, b = n ∧ IsPow a n c
  | .choose, a, b, c => ∃ n k : Nat, a = n ∧ b = k ∧ if k < n then c = 0
      else c * ((List.range' 1 n).prod * (List.range' 1 (k - n)).prod : Nat) = ((List.range' 1 k).prod : Nat)
  | .band, a, b, c => ∃ x y z : Int, a = x ∧ b = y ∧ c = z ∧ ∀ k, bit z k = (bit x k && bit y k)
  | .bor, a, b, c => ∃ x y z : Int, a = x ∧ b = y ∧ c = z ∧ ∀ k, bit z k = (bit x k || bit y k)
  | .bxor, a, b, c => ∃ x y z : Int, a = x ∧ b = y ∧ c = z ∧ ∀ k, bit z k = (bit x k ^^ bit y k)
  | .shl, a, b, c => ∃ (x : Int) (n : Nat), a = x ∧ b = n ∧ c = a * 2 ^ n
  | .shr, a, b, c => ∃ (x z : Int) (n : Nat), a = x ∧ b = n ∧ c = z ∧ c * 2 ^ n ≤ a ∧ a < (c + 1) * 2 ^ n
  | .eq, a, b, c => c = truth (a = b)
  | .ne, a, b, c => c = truth (a ≠ b)
  | .lt, a, b, c => c = truth (a < b)
  | .le, a, b, c => c = truth (a ≤ b)
  | .gt, a, b, c => c = truth (b < a)
  | .ge, a, b, c => c = truth (b ≤ a)
  | .and, a, b, c => c = truth (a ≠ 0 ∧ b ≠ 0)
  | .or, a, b, c => c = truth (a ≠ 0 ∨ b ≠ 0)
  | .xor, a, b, c => c = truth ((a ≠ 0) ≠ (b ≠ 0))
  | .nand, a, b, c => c = truth (¬ (a ≠ 0 ∧ b ≠ 0))
  | .nor, a, b, c => c = truth (a = 0 ∧ b = 0)
  | .min, a, b, c => (c = a ∨ c = b) ∧ c ≤ a ∧ c ≤ b
  | .max, a, b, c => (c = a ∨ c = b) ∧ a ≤ c ∧ b ≤ c

/-- The number `op a` should be `c`. -/
def Op1.Spec : Op1 → Rat → Rat → Prop
  | .neg, a, c => c = -a
  | .recip, a, c => c * a = 1
  | .abs, a, c => c = if a < 0 then -a else a
  | .sgn, a, c => c = if a < 0 then -1 else if a = 0 then 0 else 1
  | .floor, a, c => ∃ z : Int, c = z ∧ c ≤ a ∧ a < c + 1
  | .ceil, a, c => ∃ z : Int, c = z ∧ a ≤ c ∧ c < a + 1
  | .not, a, c => c = truth (a = 0)
  | .fac, a, c => ∃ n : Nat, a = n ∧ c = ((List.range' 1 n).prod : Nat)
  | .compl, a, c => ∃ x z : Int, a = x ∧ c = z ∧ ∀ k, bit z k = !bit x k

/-- The expression `e` denotes the number `r`. -/
inductive Means : Expr → Rat → Prop
  | lit (r : Rat) : Means (.lit r) r
  | un {op : Op1} {e : Expr} {a c : Rat} : Means e a → op.Spec a c → Means (.un op e) c
  | bin {op : Op2} {e₁ e₂ : Expr} {a b c : Rat} : Means e₁ a → Means e₂ b → op.Spec a b c → Means (.bin e₁ op e₂) c

end Verif.Num
