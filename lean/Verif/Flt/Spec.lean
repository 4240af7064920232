import Mathlib.Algebra.Order.Field.Power
import Mathlib.Algebra.Order.Ring.Abs
import Mathlib.Data.Rat.Cast.Order
import Verif.Arr.Basic

/-!
# Floating-point numbers, independently of the code

Not used by the model.
-/

namespace Verif.Flt.Spec
open Verif.Arr (R)

/-- The numbers with `p` bits of mantissa. -/
def IsFloat (p : ℕ) (q : ℚ) : Prop := ∃ m e : ℤ, |m| < 2 ^ p ∧ q = m * (2 : ℚ) ^ e

/-- The nearest numbers with `p` bits. -/
def Nearest (p : ℕ) (q r : ℚ) : Prop := IsFloat p r ∧ ∀ f, IsFloat p f → |q - r| ≤ |q - f|

/-- A computation that comes to an end: a value, or an error that is reported. -/
def Ends {α : Type} : R α → Prop
  | .ok _ => True
  | .err _ => True
  | .crash => False
  | .hang => False

/-- A computation that comes to an end however many steps it is allowed, if only enough. -/
def Terminates {α : Type} (f : ℕ → R α) : Prop := ∃ n, ∀ fuel, n ≤ fuel → Ends (f fuel)

end Verif.Flt.Spec
