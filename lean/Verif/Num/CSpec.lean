import Verif.Num.CModel
import Verif.Num.Spec
import Mathlib.Data.Complex.Basic
import Mathlib.Data.Real.Archimedean
/-
What the operators should compute on complex numbers, stated over Mathlib's complex numbers.
-/
set_option linter.dupNamespace false
namespace Verif.Num

/-- The complex number a pair of components denotes. -/
noncomputable def Cx.val (c : Cx) : ℂ := ⟨c.re.val, c.im.val⟩

/-- The complex number a scalar denotes. -/
noncomputable def CNum.val : CNum → ℂ
  | .num n => ⟨n.val, 0⟩
  | .cx c => c.val

/-- A number as the interpreter should keep it: complex only if it is not real, the components as `Small` has
it. Characters are not numbers. -/
def CNum.Good : CNum → Prop
  | .num n => n.Small
  | .cx c => c.re.Small ∧ c.im.Small ∧ c.im.val ≠ 0

/-- 1 for true, 0 for false. -/
noncomputable def truthC (p : Prop) [Decidable p] : ℂ := if p then 1 else 0

open Classical in
/-- The number `a op b` should be `c`. -/
def COp2.Spec : COp2 → ℂ → ℂ → ℂ → Prop
  | .add, a, b, c => c = a + b
  | .sub, a, b, c => c = a - b
  | .mul, a, b, c => c = a * b
  | .quo, a, b, c => b ≠ 0 ∧ c = a / b
  | .eq, a, b, c => c = truthC (a = b)
  | .ne, a, b, c => c = truthC (a ≠ b)
  | .j, a, b, c => a.im = 0 ∧ b.im = 0 ∧ c = a + b * Complex.I

open Classical in
/-- The number `op a` should be `c`. -/
def COp1.Spec : COp1 → ℂ → ℂ → Prop
  | .neg, a, c => c = -a
  | .recip, a, c => a ≠ 0 ∧ c = 1 / a
  | .conj, a, c => c = starRingEnd ℂ a
  | .turn, a, c => c = Complex.I * a
  | .real, a, c => c = (a.re : ℂ)
  | .imag, a, c => c = (a.im : ℂ)
  | .not, a, c => c = truthC (a = 0)

/-- The operands for which `a op b` is defined. -/
def COp2.Def : COp2 → ℂ → ℂ → Prop
  | .quo, _, b => b ≠ 0
  | .j, a, b => a.im = 0 ∧ b.im = 0
  | _, _, _ => True

/-- The operands for which `op a` is defined. -/
def COp1.Def : COp1 → ℂ → Prop
  | .recip, a => a ≠ 0
  | _, _ => True

/-- The expression `e` denotes the complex number `z`. -/
inductive CMeans : CExpr → ℂ → Prop
  | lit (r : Rat) : CMeans (.lit r) (r : ℂ)
  | un {op : COp1} {e : CExpr} {a c : ℂ} : CMeans e a → op.Spec a c → CMeans (.un op e) c
  | bin {op : COp2} {e₁ e₂ : CExpr} {a b c : ℂ} : CMeans e₁ a → CMeans e₂ b → op.Spec a b c → CMeans (.bin e₁ op e₂) c

/-- A number whose real and imaginary parts are integers. -/
def GaussInt (w : ℂ) : Prop := ∃ m n : ℤ, w = ⟨m, n⟩

/-- McDonnell's complex floor: of the corners of the unit square around `z`, the lower left one if the
fractional parts add up to less than 1, else the lower right one if the real fraction is at least the imaginary
one, else the upper left one. -/
def IsFloor (z w : ℂ) : Prop :=
  w = if Int.fract z.re + Int.fract z.im < 1 then ⟨⌊z.re⌋, ⌊z.im⌋⟩
      else if Int.fract z.im ≤ Int.fract z.re then ⟨⌊z.re⌋ + 1, ⌊z.im⌋⟩
      else ⟨⌊z.re⌋, ⌊z.im⌋ + 1⟩

end Verif.Num
