import Verif.Flt.Lemmas14
import Verif.Flt.Props

/-!
# C71, C72: how good the values of functions are

The theorems compare the results of the functions modelled in `Verif/Flt/Model.lean` with the functions of the real numbers as Mathlib defines them
(`Real.exp`, `Real.sinh`, `Real.cosh`, `Real.tanh`, `Real.sin`, `Real.cos`, `Real.pi`). They hold for every precision `p` of 16 bits and more, every
argument and every run that ends with a value; that it does is a theorem of its own, for arguments that are not too large.
-/

namespace Verif.Flt
open Spec
open Verif.Arr (R)

/-- A precision of 64 bits. -/
def ctx64 : Ctx := ⟨64, rnd 64 piDigits, rnd 64 (mkRat 69314718055994530941723212145817656807550013436025525412068000949339362196969471560586332699641868754200148102 (10 ^ 110))⟩

/-- A precision of 24 bits, that of single precision. -/
def ctx24 : Ctx := ⟨24, rnd 24 piDigits, rnd 24 (mkRat 693147 1000000)⟩

/-- A computation ends with a value that passes a test. -/
def passes {α : Type} (test : α → Bool) : R α → Bool
  | .ok z => test z
  | _ => false

theorem of_passes {α : Type} {P : α → Prop} [DecidablePred P] {r : R α} (h : passes (fun z => decide (P z)) r = true) : ∃ z, r = .ok z ∧ P z := by
  cases r with
  | ok z => exact ⟨z, rfl, of_decide_eq_true h⟩
  | err m => cases h
  | crash => cases h
  | hang => cases h

theorem of_passes_pair {α β : Type} {P : α → Prop} [DecidablePred P] {r : R (α × β)} (h : passes (fun z => decide (P z.1)) r = true) :
    ∃ z y, r = .ok (z, y) ∧ P z := by
  cases r with
  | ok z => exact ⟨z.1, z.2, rfl, of_decide_eq_true h⟩
  | err m => cases h
  | crash => cases h
  | hang => cases h

/-! ## C71: exponential and hyperbolic functions

Full statement: the value is the one of the real function up to a relative error of some thousand units in the last place, in all arguments (the number
of units may grow with the precision). It holds for `sinh`, `cosh`, `tanh` and, if the argument is not negative, for the exponential function. For negative
arguments the terms of the series cancel and the error grows with the square of `exp |x|`: with the default of 256 bits, `**-92` is negative
(`C71_violated`). -/

theorem C71_exp_partial (c : Ctx) (hp : 16 ≤ c.p) (x : ℚ) (hx : IsFloat c.p x) (fuel : ℕ) (z : ℚ) (h : exponential c fuel x = .ok z) :
    |(z : ℝ) - Real.exp x| ≤ 160 * (c.p + 1) * (2 : ℝ) ^ (-(c.p : ℤ)) * Real.exp |(x : ℝ)| :=
  exponential_error hp hx h

/-- Arguments that are not negative. -/
theorem C71_exp_nonneg (c : Ctx) (hp : 16 ≤ c.p) (x : ℚ) (hx : IsFloat c.p x) (h0 : 0 ≤ x) (fuel : ℕ) (z : ℚ) (h : exponential c fuel x = .ok z) :
    |(z : ℝ) - Real.exp x| ≤ 160 * (c.p + 1) * (2 : ℝ) ^ (-(c.p : ℤ)) * Real.exp x := by
  have := exponential_error hp hx h
  rwa [abs_of_nonneg (by exact_mod_cast h0 : (0 : ℝ) ≤ x)] at this

/-- There is a value, for positive arguments up to twice the number of bits, and for negative arguments as long as the result can have a correct bit. -/
theorem C71_exp_value_partial (c : Ctx) (hp : 16 ≤ c.p) (x : ℚ) (hx : IsFloat c.p x)
    (h : 0 ≤ x ∧ x ≤ 2 * c.p ∨ x ≤ 0 ∧ 440 * ((c.p : ℝ) + 1) * (2 : ℝ) ^ (-(c.p : ℤ)) * Real.exp (2 * |(x : ℝ)|) ≤ 1) :
    ∃ n, ∀ fuel, n ≤ fuel → ∃ z, exponential c fuel x = .ok z := by
  refine ⟨10 + 10 * c.p, fun fuel hfu => ?_⟩
  rcases h with ⟨h0, h1⟩ | ⟨h0, h1⟩
  · exact exponential_ok hp hx h0 h1 hfu
  · exact exponential_ok_neg hp hx h0 h1 hfu

theorem C71_hyperbolic (c : Ctx) (hp : 16 ≤ c.p) (x : ℚ) (hx : IsFloat c.p x) (fuel : ℕ) (z : ℚ) :
    (floatSinh c fuel x = .ok z → |(z : ℝ) - Real.sinh x| ≤ 250 * (c.p + 1) * (2 : ℝ) ^ (-(c.p : ℤ)) * |Real.sinh x|) ∧
    (floatCosh c fuel x = .ok z → |(z : ℝ) - Real.cosh x| ≤ 250 * (c.p + 1) * (2 : ℝ) ^ (-(c.p : ℤ)) * |Real.cosh x|) ∧
    (floatTanh c fuel x = .ok z → |(z : ℝ) - Real.tanh x| ≤ 600 * (c.p + 1) * (2 : ℝ) ^ (-(c.p : ℤ)) * |Real.tanh x|) := by
  refine ⟨fun h => floatSinh_error hp hx h, fun h => ?_, fun h => floatTanh_error hp hx h⟩
  rw [abs_of_pos (Real.cosh_pos _)]
  exact floatCosh_error hp hx h

theorem C71_hyperbolic_value_partial (c : Ctx) (hp : 16 ≤ c.p) (x : ℚ) (hx : IsFloat c.p x) (h4 : |x| ≤ 4 * c.p) :
    ∃ n, ∀ fuel, n ≤ fuel → (∃ z, floatSinh c fuel x = .ok z) ∧ (∃ z, floatCosh c fuel x = .ok z) ∧ (∃ z, floatTanh c fuel x = .ok z) :=
  ⟨10 + 10 * c.p, fun _ hfu => ⟨floatSinh_ok hp hx h4 hfu, floatCosh_ok hp hx h4 hfu, floatTanh_ok hp hx h4 hfu⟩⟩

/-- `** 2` with 24 bits is `e²` up to three units. -/
example : IsFloat ctx24.p 2 ∧ (16 ≤ ctx24.p) ∧ exponential ctx24 250 2 = .ok (mkRat 15495975 2097152) := by
  refine ⟨⟨2, 0, by decide, by norm_num⟩, by decide, by decide +kernel⟩

example : IsFloat ctx24.p 1 ∧ floatSinh ctx24 250 1 = .ok (mkRat 9858301 8388608) := by
  refine ⟨⟨1, 0, by decide, by norm_num⟩, by decide +kernel⟩

theorem exp92 : passes (fun z => decide (z < 0)) (exponential ctx256 2600 (-92)) = true := by decide +kernel
theorem exp16 : passes (fun z => decide (z < -(1 / 10))) (exponential ctx24 250 (-16)) = true := by decide +kernel

/-- The exponential function of -92 is negative in 256 bits, that of -16 in 24 bits. -/
theorem C71_violated : (∃ z, exponential ctx256 2600 (-92) = .ok z ∧ z < 0) ∧ (∃ z, exponential ctx24 250 (-16) = .ok z ∧ z < -(1 / 10)) :=
  ⟨of_passes exp92, of_passes exp16⟩

/-! ## C72: sine and cosine

Full statement: the value is within some thousand times `p` units of `2 ^ -p`, plus an error growing with the size of the argument like the distance of
neighbouring floating-point numbers. It holds for the sine of every argument and for the cosine of arguments from -7 on. For smaller arguments the code
does not reduce the argument of the cosine, and the values are anything: with 256 bits, `cos -200` is below -300000000 (`C72_violated`).
What is missing for a proof that there is a value: arguments whose sine (cosine) is smaller than the error. -/

theorem C72_sin (c : Ctx) (hp : 16 ≤ c.p) (hpi : |(c.pi : ℝ) - Real.pi| ≤ 4 * (2 : ℝ) ^ (-(c.p : ℤ))) (x : Fl) (hx : x.prec = c.p) (hf : IsFloat c.p x.val)
    (fuel : ℕ) (z : ℚ) (y : Fl) (h : floatSin c fuel x = .ok (z, y)) :
    |(z : ℝ) - Real.sin x.val| ≤ (31000 * (c.p + 3) + 240 * |(x.val : ℝ)|) * (2 : ℝ) ^ (-(c.p : ℤ)) :=
  floatSin_error hp hpi hx hf h

/-- The sine of small arguments has a small relative error. -/
theorem C72_sin_small (c : Ctx) (hp : 16 ≤ c.p) (hpi : |(c.pi : ℝ) - Real.pi| ≤ 4 * (2 : ℝ) ^ (-(c.p : ℤ))) (x : Fl) (hx : x.prec = c.p) (hf : IsFloat c.p x.val)
    (h1 : |x.val| ≤ 1) : ∃ n, ∀ fuel, n ≤ fuel → ∃ z y, floatSin c fuel x = .ok (z, y) ∧
      |(z : ℝ) - Real.sin x.val| ≤ 120 * (c.p + 3) * (2 : ℝ) ^ (-(c.p : ℤ)) * |(x.val : ℝ)| := by
  refine ⟨10 + 4 * c.p, fun fuel hfu => ?_⟩
  obtain ⟨⟨z, y⟩, h, h2⟩ := floatSin_small hp (pi_ge hp hpi).1 hx hf h1 hfu
  exact ⟨z, y, h, h2⟩

theorem C72_cos_partial (c : Ctx) (hp : 16 ≤ c.p) (hpi : |(c.pi : ℝ) - Real.pi| ≤ 4 * (2 : ℝ) ^ (-(c.p : ℤ))) (x : Fl) (hx : x.prec = c.p) (h7 : -7 ≤ x.val)
    (fuel : ℕ) (z : ℚ) (y : Fl) (h : floatCos c fuel x = .ok (z, y)) :
    |(z : ℝ) - Real.cos x.val| ≤ (56000 * (c.p + 3) + 240 * |(x.val : ℝ)|) * (2 : ℝ) ^ (-(c.p : ℤ)) :=
  floatCos_error hp hpi hx h7 h

theorem C72_value_partial (c : Ctx) (hp : 16 ≤ c.p) (hpi : |(c.pi : ℝ) - Real.pi| ≤ 4 * (2 : ℝ) ^ (-(c.p : ℤ))) (x : Fl) (hx : x.prec = c.p) (hf : IsFloat c.p x.val) :
    ((62000 * (c.p + 3) + 240 * |(x.val : ℝ)|) * (2 : ℝ) ^ (-(c.p : ℤ)) ≤ |Real.sin x.val| → ∃ n, ∀ fuel, n ≤ fuel → ∃ r, floatSin c fuel x = .ok r) ∧
    (-7 ≤ x.val → (112000 * (c.p + 3) + 240 * |(x.val : ℝ)|) * (2 : ℝ) ^ (-(c.p : ℤ)) ≤ |Real.cos x.val| → ∃ n, ∀ fuel, n ≤ fuel → ∃ r, floatCos c fuel x = .ok r) :=
  ⟨fun h => floatSin_ok hp hpi hx hf h, fun h7 h => floatCos_ok hp hpi hx hf h7 h⟩

/-- The constant is as good as needed in 64 bits. -/
theorem pi64 : |(ctx64.pi : ℝ) - Real.pi| ≤ 4 * (2 : ℝ) ^ (-(ctx64.p : ℤ)) := by
  have h : ctx64.pi = 14488038916154245685 / 4611686018427387904 := by decide +kernel
  have h1 := Real.pi_gt_d20
  have h2 := Real.pi_lt_d20
  rw [h, abs_le]
  show -(4 * (2 : ℝ) ^ (-((64 : ℕ) : ℤ))) ≤ _ ∧ _ ≤ 4 * (2 : ℝ) ^ (-((64 : ℕ) : ℤ))
  rw [zpow_neg, zpow_natCast]
  push_cast
  constructor
  · have : (14488038916154245685 / 4611686018427387904 : ℝ) - 3.14159265358979323847 ≥ -(4 * ((2 : ℝ) ^ 64)⁻¹) := by norm_num
    linarith
  · have : (14488038916154245685 / 4611686018427387904 : ℝ) - 3.14159265358979323846 ≤ 4 * ((2 : ℝ) ^ 64)⁻¹ := by norm_num
    linarith

/-- The theorems apply to the sine of a million. -/
example : 16 ≤ ctx64.p ∧ |(ctx64.pi : ℝ) - Real.pi| ≤ 4 * (2 : ℝ) ^ (-(ctx64.p : ℤ)) ∧ IsFloat ctx64.p 1000000 ∧
    passes (fun r => decide (-(mkRat 34999351 100000000) < r.1 ∧ r.1 < -(mkRat 34999349 100000000))) (floatSin ctx64 300 ⟨64, 1000000⟩) = true :=
  ⟨by decide, pi64, ⟨1000000, 0, by decide, by norm_num⟩, by decide +kernel⟩

theorem cos200 : passes (fun z => decide (z.1 < -300000000)) (floatCos ctx256 1100 ⟨256, -200⟩) = true := by decide +kernel
theorem cos19 : passes (fun z => decide (1 < z.1)) (floatCos ctx24 106 ⟨24, -19⟩) = true := by decide +kernel

/-- The cosine of a negative number is not in the range of the cosine: `cos -200` in 256 bits, `cos -19` in 24 bits. -/
theorem C72_violated : (∃ z y, floatCos ctx256 1100 ⟨256, -200⟩ = .ok (z, y) ∧ z < -300000000) ∧ (∃ z y, floatCos ctx24 106 ⟨24, -19⟩ = .ok (z, y) ∧ 1 < z) :=
  ⟨of_passes_pair cos200, of_passes_pair cos19⟩

end Verif.Flt
