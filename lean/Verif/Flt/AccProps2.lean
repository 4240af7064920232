import Verif.Flt.Lemmas18
import Verif.Flt.AccProps
import Verif.Flt.ConstLemmas

/-!
# C73 - C77: logarithms, powers, inverse functions, constants

As in `Verif/Flt/AccProps.lean`, the results are compared with the functions of the real numbers as Mathlib defines them (`Real.log`, `x ^ y` on the reals,
`Real.arctan`, `Real.arcsin`, `Real.arccos`, `Real.arsinh`, `Real.arcosh`, `Real.artanh`). The theorems are about the precisions from 16 bits up to the
10000 bits the constants are made for, with the constants of the source.
-/

namespace Verif.Flt
open Spec
open Verif.Arr (R)

/-! ## C77: the constants -/

/-- The 3010 decimals in the source are those of the four numbers, the last one up to a unit. -/
theorem C77_digits :
    |((mkRat digitsPi (10 ^ 3010) : ℚ) : ℝ) - Real.pi| < 1 / 10 ^ 3010 ∧ |((mkRat digitsE (10 ^ 3010) : ℚ) : ℝ) - Real.exp 1| < 1 / 10 ^ 3010 ∧
    |((mkRat digitsLog2 (10 ^ 3010) : ℚ) : ℝ) - Real.log 2| < 1 / 10 ^ 3010 ∧ |((mkRat digitsLog10 (10 ^ 3010) : ℚ) : ℝ) - Real.log 10| < 1 / 10 ^ 3010 := by
  have hA : (0 : ℝ) < 10 ^ 3010 := by positivity
  rw [decimal_cast, decimal_cast, decimal_cast, decimal_cast]
  have h1 := decimal_pi
  have h2 := decimal_e
  have h3 := decimal_log2
  have h4 := decimal_log10
  generalize (10 : ℝ) ^ 3010 = A at *
  refine ⟨lt_of_le_of_lt h1 ?_, lt_of_le_of_lt h2 ?_, lt_of_le_of_lt h3 ?_, lt_of_le_of_lt h4 ?_⟩ <;> exact div_lt_div_of_pos_right (by norm_num) hA

/-- In every precision there are digits for, the constants are off by no more than twice the least error a number of that precision can have. -/
theorem C77_constants (p : ℕ) (hp : p ≤ constPrecisionInBits) :
    |(floatPi p : ℝ) - Real.pi| ≤ 4 * (2 : ℝ) ^ (-(p : ℤ)) ∧ |(floatE p : ℝ) - Real.exp 1| ≤ 4 * (2 : ℝ) ^ (-(p : ℤ)) ∧
    |(floatLog2 p : ℝ) - Real.log 2| ≤ 4 * (2 : ℝ) ^ (-(p : ℤ)) ∧ |(floatLog10 p : ℝ) - Real.log 10| ≤ 4 * (2 : ℝ) ^ (-(p : ℤ)) := by
  have he := eps_real p
  refine ⟨floatPi_near hp, floatE_near hp, le_trans (floatLog2_near hp) ?_, floatLog10_near hp⟩
  show 3 * eps p ≤ 4 * eps p
  linarith

/-- The constants are numbers of the precision, and that of π is not what a shorter one would be. -/
example : (256 ≤ constPrecisionInBits) ∧ IsFloat 256 (floatPi 256) ∧ floatPi 256 = ctx256.pi ∧ floatLog2 256 = ctx256.log2 ∧ floatPi 256 ≠ floatPi 250 :=
  ⟨by decide, rnd_isFloat (by norm_num) _, by decide +kernel, by decide +kernel, by decide +kernel⟩

theorem piOk {p : ℕ} (hp : p ≤ constPrecisionInBits) : PiOk (ctxOf p) := (C77_constants p hp).1
theorem logOk {p : ℕ} (hp : p ≤ constPrecisionInBits) : LogOk (ctxOf p) := (C77_constants p hp).2.2.1

/-- The hypothesis of the theorems on sine and cosine (`C72_sin`, `C72_cos_partial`) holds. -/
theorem C77_sin (p : ℕ) (hp : 16 ≤ p) (hp' : p ≤ constPrecisionInBits) (x : ℚ) (hf : IsFloat p x) (fuel : ℕ) (z : ℚ) (y : Fl)
    (h : floatSin (ctxOf p) fuel ⟨p, x⟩ = .ok (z, y)) :
    |(z : ℝ) - Real.sin x| ≤ (31000 * (p + 3) + 240 * |(x : ℝ)|) * (2 : ℝ) ^ (-(p : ℤ)) :=
  C72_sin (ctxOf p) hp (piOk hp') ⟨p, x⟩ rfl hf fuel z y h

/-! ## C73: the logarithm -/

theorem C73_log (p : ℕ) (hp : 16 ≤ p) (hp' : p ≤ constPrecisionInBits) (x : ℚ) (hf : IsFloat p x) (h0 : 0 < x) :
    ∃ n, ∀ fuel, n ≤ fuel → ∃ z, floatLog (ctxOf p) fuel x = .ok z ∧ |(z : ℝ) - Real.log x| ≤ (300 * (p + 1) + 12 * |Real.log x|) * (2 : ℝ) ^ (-(p : ℤ)) := by
  refine ⟨10 + 40 * p, fun fuel hfu => ?_⟩
  obtain ⟨z, hz⟩ := floatLog_ok (c := ctxOf p) hp h0 hf hfu
  exact ⟨z, hz, floatLog_error (c := ctxOf p) hp (logOk hp') hf hz⟩

/-- Numbers that are not positive have no logarithm among the floats (`logn` takes the complex function before). -/
theorem C73_error (c : Ctx) (fuel : ℕ) (x : ℚ) (h0 : x ≤ 0) : floatLog c fuel x = .err "log of non-positive value" := by
  unfold floatLog
  rw [if_pos h0]

/-- The logarithm of ten with 24 bits. -/
example : IsFloat 24 10 ∧ floatLog (ctxOf 24) 970 10 = .ok (mkRat 4828871 2097152) :=
  ⟨⟨10, 0, by decide, by norm_num⟩, by decide +kernel⟩

/-! ## C74: powers

Full statement: for floats `x > 0` and `e`, `x ** e` has a value, and its relative error is some thousand times `p` units of `2 ^ -p`, plus a multiple of
`|e|` and of `|log x|`. Proved with a factor `x ^ -2` for `x < 1`, as long as the error is less than one. What is missing is not true: for small `x` the
exponential function of the negative number `e log x` is anything (`C74_violated`). -/

theorem C74_power_partial (p : ℕ) (hp : 16 ≤ p) (hp' : p ≤ constPrecisionInBits) (x e : ℚ) (hf : IsFloat p x) (hef : IsFloat p e) (h0 : 0 < x) (h63 : |e| < 2 ^ 63)
    (hok : (1300 * (p + 1) * max 1 ((x : ℝ) ^ (-2 : ℤ)) + 60 * |Real.log x| + 2 * |(e : ℝ)|) * (2 : ℝ) ^ (-(p : ℤ)) ≤ 1) (hbig : Real.log x ≤ 2 * p - 1) :
    ∃ n, ∀ fuel, n ≤ fuel → ∃ r : Fl, floatPower (ctxOf p) fuel ⟨p, x⟩ ⟨p, e⟩ = .ok r ∧
      |(r.val : ℝ) - (x : ℝ) ^ (e : ℝ)| ≤ 2 * ((1000 * (p + 1) * max 1 ((x : ℝ) ^ (-2 : ℤ)) + 14 * |Real.log x| + 2 * |(e : ℝ)|) * (2 : ℝ) ^ (-(p : ℤ))) * (x : ℝ) ^ (e : ℝ) := by
  refine ⟨10 + 40 * p, fun fuel hfu => ?_⟩
  obtain ⟨r, hr⟩ := floatPower_ok (c := ctxOf p) (x := ⟨p, x⟩) (e := ⟨p, e⟩) hp (logOk hp') h0 rfl hf hef h63 hok hbig hfu
  exact ⟨r, hr, floatPower_error (c := ctxOf p) (x := ⟨p, x⟩) (e := ⟨p, e⟩) hp (logOk hp') h0 rfl hf hef h63 hok (by show 10 + p ≤ fuel; omega) hr⟩

/-- Bases from one on, exponents up to a million and at least 32 bits: no further hypothesis. -/
theorem C74_power_large (p : ℕ) (hp : 32 ≤ p) (hp' : p ≤ constPrecisionInBits) (x e : ℚ) (hf : IsFloat p x) (hef : IsFloat p e) (h1 : 1 ≤ x) (he : |e| ≤ 1000000)
    (hbig : Real.log x ≤ 2 * p - 1) :
    ∃ n, ∀ fuel, n ≤ fuel → ∃ r : Fl, floatPower (ctxOf p) fuel ⟨p, x⟩ ⟨p, e⟩ = .ok r ∧
      |(r.val : ℝ) - (x : ℝ) ^ (e : ℝ)| ≤ (2000 * (p + 1) + 28 * Real.log x + 4 * |(e : ℝ)|) * (2 : ℝ) ^ (-(p : ℤ)) * (x : ℝ) ^ (e : ℝ) := by
  have h1' : (1 : ℝ) ≤ x := by exact_mod_cast h1
  have he' : |(e : ℝ)| ≤ 1000000 := by exact_mod_cast he
  have hl0 : 0 ≤ Real.log x := Real.log_nonneg h1'
  have hM : max 1 ((x : ℝ) ^ (-2 : ℤ)) = 1 := by
    apply max_eq_left
    rw [zpow_neg]
    exact inv_le_one_of_one_le₀ (one_le_zpow₀ h1' (by norm_num))
  have h0 : (0 : ℝ) < (2 : ℝ) ^ (-(p : ℤ)) := by positivity
  have hsmall : ((p : ℝ) + 1) * (2 : ℝ) ^ (-(p : ℤ)) ≤ 33 / 4294967296 := by
    clear hbig hp' hf hef
    induction p, hp using Nat.le_induction with
    | base => norm_num
    | succ n hn ih =>
      have h2 : ((2 : ℝ) ^ (-((n + 1 : ℕ) : ℤ))) = 2 ^ (-(n : ℤ)) / 2 := by
        rw [show (-((n + 1 : ℕ) : ℤ)) = -(n : ℤ) - 1 by push_cast; ring, zpow_sub_one₀ (by norm_num)]; ring
      have h4 : (0 : ℝ) < 2 ^ (-(n : ℤ)) := by positivity
      have ih := ih h4
      rw [h2]
      push_cast
      have h3 : (0 : ℝ) ≤ n := Nat.cast_nonneg n
      nlinarith
  have hp32 : (32 : ℝ) ≤ p := by exact_mod_cast hp
  have hok : (1300 * ((p : ℝ) + 1) * max 1 ((x : ℝ) ^ (-2 : ℤ)) + 60 * |Real.log x| + 2 * |(e : ℝ)|) * (2 : ℝ) ^ (-(p : ℤ)) ≤ 1 := by
    rw [hM, abs_of_nonneg hl0]
    have a1 : 33 * (2 : ℝ) ^ (-(p : ℤ)) ≤ 33 / 4294967296 := le_trans (mul_le_mul_of_nonneg_right (by linarith) h0.le) hsmall
    have a2 : Real.log x * (2 : ℝ) ^ (-(p : ℤ)) ≤ (2 * p - 1) * (2 : ℝ) ^ (-(p : ℤ)) := mul_le_mul_of_nonneg_right hbig h0.le
    have a3 : |(e : ℝ)| * (2 : ℝ) ^ (-(p : ℤ)) ≤ 1000000 * (2 : ℝ) ^ (-(p : ℤ)) := mul_le_mul_of_nonneg_right he' h0.le
    nlinarith
  obtain ⟨n, hn⟩ := C74_power_partial p (by omega) hp' x e hf hef (by linarith) (lt_of_le_of_lt he (by norm_num)) hok hbig
  refine ⟨n, fun fuel hfu => ?_⟩
  obtain ⟨r, hr, herr⟩ := hn fuel hfu
  refine ⟨r, hr, le_trans herr (le_of_eq ?_)⟩
  rw [hM, abs_of_nonneg hl0]
  ring

/-- `2 ** 1/3` (as floats) and `10 ** -1.5` with 24 bits. -/
example : IsFloat 24 2 ∧ IsFloat 24 (mkRat (-3) 2) ∧ passes (fun r => decide (mkRat 1259920 1000000 < r.val ∧ r.val < mkRat 1259922 1000000)) (floatPower (ctxOf 24) 970 ⟨24, 2⟩ ⟨24, rnd 24 (mkRat 1 3)⟩) = true ∧
    passes (fun r => decide (mkRat 3162276 100000000 < r.val ∧ r.val < mkRat 3162279 100000000)) (floatPower (ctxOf 24) 970 ⟨24, 10⟩ ⟨24, mkRat (-3) 2⟩) = true :=
  ⟨⟨2, 0, by decide, by norm_num⟩, ⟨-3, -1, by decide, by rw [Rat.mkRat_eq_div]; norm_num⟩, by decide +kernel, by decide +kernel⟩

theorem pow100 : passes (fun r => decide (r.val < 0)) (floatPower (ctxOf 256) 11000 ⟨256, rnd 256 (mkRat 1 (10 ^ 100))⟩ ⟨256, rnd 256 (mkRat 4 10)⟩) = true := by decide +kernel
theorem pow24 : passes (fun r => decide (r.val < -(1 / 100))) (floatPower (ctxOf 24) 1000 ⟨24, mkRat 1 (2 ^ 24)⟩ ⟨24, rnd 24 (mkRat 96 100)⟩) = true := by decide +kernel

/-- `1e-100 ** .4` is negative in 256 bits, and so is `2 ** -24` to the power of `.96` in 24 bits. -/
theorem C74_violated : (∃ r, floatPower (ctxOf 256) 11000 ⟨256, rnd 256 (mkRat 1 (10 ^ 100))⟩ ⟨256, rnd 256 (mkRat 4 10)⟩ = .ok r ∧ r.val < 0) ∧
    (∃ r, floatPower (ctxOf 24) 1000 ⟨24, mkRat 1 (2 ^ 24)⟩ ⟨24, rnd 24 (mkRat 96 100)⟩ = .ok r ∧ r.val < -(1 / 100)) :=
  ⟨of_passes pow100, of_passes pow24⟩

/-! ## C75: inverse trigonometric functions

The error of arc sine and arc cosine near ±1 contains the factor `1/√(1 - x²)` that a rounding error of `x` is multiplied with. -/

theorem C75_atan (p : ℕ) (hp : 16 ≤ p) (hp' : p ≤ constPrecisionInBits) (x : ℚ) (hf : IsFloat p x) :
    ∃ n, ∀ fuel, n ≤ fuel → ∃ z, floatAtan (ctxOf p) fuel x = .ok z ∧ |(z : ℝ) - Real.arctan x| ≤ 250 * (p + 1) * (2 : ℝ) ^ (-(p : ℤ)) :=
  ⟨12 + 4 * p, fun _ hfu => floatAtan_ok (c := ctxOf p) hp (piOk hp') hf hfu⟩

/-- Small arguments have a small relative error. -/
theorem C75_atan_small (p : ℕ) (hp : 16 ≤ p) (x : ℚ) (hf : IsFloat p x) (hx : |x| ≤ 1 / 2) :
    ∃ n, ∀ fuel, n ≤ fuel → ∃ z, floatAtan (ctxOf p) fuel x = .ok z ∧ |(z : ℝ) - Real.arctan x| ≤ 120 * (p + 1) * (2 : ℝ) ^ (-(p : ℤ)) * |(x : ℝ)| :=
  ⟨10 + 4 * p, fun _ hfu => floatAtan_small (c := ctxOf p) hp hf hx hfu⟩

theorem C75_asin (p : ℕ) (hp : 16 ≤ p) (hp' : p ≤ constPrecisionInBits) (x : ℚ) (hf : IsFloat p x) (hx : |x| ≤ 1) :
    ∃ n, ∀ fuel, n ≤ fuel → ∃ z, floatAsin (ctxOf p) fuel x = .ok z ∧ |(z : ℝ) - Real.arcsin x| ≤ (251 * (p + 1) + 5 / √(1 - (x : ℝ) ^ 2)) * (2 : ℝ) ^ (-(p : ℤ)) := by
  refine ⟨12 + 4 * p, fun fuel hfu => ?_⟩
  rcases eq_or_lt_of_le hx with h | h
  · obtain ⟨z, hz, herr⟩ := floatAsin_ends_ok (c := ctxOf p) hp (piOk hp') h fuel
    refine ⟨z, hz, le_trans herr (mul_le_mul_of_nonneg_right ?_ (eps_real p).le)⟩
    have h1 : 0 ≤ 5 / √(1 - (x : ℝ) ^ 2) := by positivity
    have h2 : (16 : ℝ) ≤ p := by exact_mod_cast hp
    linarith
  · exact floatAsin_ok (c := ctxOf p) hp (piOk hp') hf h hfu

theorem C75_acos (p : ℕ) (hp : 16 ≤ p) (hp' : p ≤ constPrecisionInBits) (x : ℚ) (hf : IsFloat p x) (hx : |x| ≤ 1) :
    ∃ n, ∀ fuel, n ≤ fuel → ∃ z, floatAcos (ctxOf p) fuel x = .ok z ∧ |(z : ℝ) - Real.arccos x| ≤ (252 * (p + 1) + 5 / √(1 - (x : ℝ) ^ 2)) * (2 : ℝ) ^ (-(p : ℤ)) := by
  obtain ⟨n, hn⟩ := C75_asin p hp hp' x hf hx
  refine ⟨n, fun fuel hfu => ?_⟩
  obtain ⟨z, hz, herr⟩ := hn fuel hfu
  have h2 : (16 : ℝ) ≤ p := by exact_mod_cast hp
  obtain ⟨w, hw, werr⟩ := acos_of_asin (c := ctxOf p) hp (piOk hp') (asin_bound hp hf hx) hz herr
  refine ⟨w, hw, le_trans werr (mul_le_mul_of_nonneg_right ?_ (eps_real p).le)⟩
  linarith

/-- The arc tangent of ten, the arc sine of a half and the arc cosine of minus one. -/
example : IsFloat 24 (mkRat 1 2) ∧ floatAtan (ctxOf 24) 108 10 = .ok (mkRat 12340713 8388608) ∧ floatAsin (ctxOf 24) 108 (mkRat 1 2) = .ok (mkRat 4392265 8388608) ∧
    floatAcos (ctxOf 24) 108 (-1) = .ok (floatPi 24) :=
  ⟨⟨1, -1, by decide, by rw [Rat.mkRat_eq_div]; norm_num⟩, by decide +kernel, by decide +kernel, by decide +kernel⟩

/-! ## C76: inverse hyperbolic functions

Full statement: each of the three functions has a value wherever the real function has one, up to an error of some thousand times `p` units of `2 ^ -p`, of a
multiple of the value itself and of what a rounding error of the argument causes. It holds for `atanh`, for `acosh` and for `asinh` of numbers that are not
negative. For negative `x` the code adds `x` and `√(x² + 1)`, which cancel: an error, or wrong digits (`C76_violated`). -/

theorem C76_atanh (p : ℕ) (hp : 16 ≤ p) (hp' : p ≤ constPrecisionInBits) (x : ℚ) (hx : |x| < 1) :
    ∃ n, ∀ fuel, n ≤ fuel → ∃ z, floatAtanh (ctxOf p) fuel x = .ok z ∧ |(z : ℝ) - Real.artanh x| ≤ (151 * (p + 1) + 14 * |Real.artanh x|) * (2 : ℝ) ^ (-(p : ℤ)) :=
  ⟨10 + 40 * p, fun _ hfu => floatAtanh_ok (c := ctxOf p) hp (logOk hp') hx hfu⟩

theorem C76_acosh (p : ℕ) (hp : 16 ≤ p) (hp' : p ≤ constPrecisionInBits) (x : ℚ) (hf : IsFloat p x) (hx : 1 ≤ x) :
    ∃ n, ∀ fuel, n ≤ fuel → ∃ z, floatAcosh (ctxOf p) fuel x = .ok z ∧
      |(z : ℝ) - Real.arcosh x| ≤ (301 * (p + 1) + 12 * |Real.arcosh x| + 14 * (x / √((x : ℝ) ^ 2 - 1))) * (2 : ℝ) ^ (-(p : ℤ)) :=
  ⟨10 + 40 * p, fun _ hfu => floatAcosh_ok (c := ctxOf p) hp (logOk hp') hf hx hfu⟩

theorem C76_asinh_nonneg (p : ℕ) (hp : 16 ≤ p) (hp' : p ≤ constPrecisionInBits) (x : ℚ) (hf : IsFloat p x) (hx : 0 ≤ x) :
    ∃ n, ∀ fuel, n ≤ fuel → ∃ z, floatAsinh (ctxOf p) fuel x = .ok z ∧ |(z : ℝ) - Real.arsinh x| ≤ (301 * (p + 1) + 12 * |Real.arsinh x|) * (2 : ℝ) ^ (-(p : ℤ)) :=
  ⟨10 + 40 * p, fun _ hfu => floatAsinh_pos (c := ctxOf p) hp (logOk hp') hf hx hfu⟩

theorem C76_asinh_neg_partial (p : ℕ) (hp : 16 ≤ p) (hp' : p ≤ constPrecisionInBits) (x : ℚ) (hf : IsFloat p x) (hx : x < 0) (hs : 20 * (1 + (x : ℝ) ^ 2) * (2 : ℝ) ^ (-(p : ℤ)) ≤ 1) :
    ∃ n, ∀ fuel, n ≤ fuel → ∃ z, floatAsinh (ctxOf p) fuel x = .ok z ∧
      |(z : ℝ) - Real.arsinh x| ≤ (301 * (p + 1) + 12 * |Real.arsinh x| + 20 * (1 + (x : ℝ) ^ 2)) * (2 : ℝ) ^ (-(p : ℤ)) :=
  ⟨10 + 40 * p, fun _ hfu => floatAsinh_neg (c := ctxOf p) hp (logOk hp') hf hx hs hfu⟩

/-- Outside, there is an error. -/
theorem C76_range (c : Ctx) (fuel : ℕ) (x : ℚ) : (x < 1 → ∃ m, floatAcosh c fuel x = .err m) ∧ (1 ≤ |x| → ∃ m, floatAtanh c fuel x = .err m) := by
  refine ⟨fun h => ⟨"real acosh out of range [1, +∞ )", ?_⟩, fun h => ⟨"real atanh out of range (-1, 1)", ?_⟩⟩
  · unfold floatAcosh; rw [if_pos h]
  · unfold floatAtanh
    rw [if_pos]
    rcases le_abs.1 h with h | h
    · exact Or.inr h
    · exact Or.inl (by linarith)

/-- `asinh 1`, `asinh -1`, `acosh 2`, `atanh 1/2` with 24 bits. -/
example : floatAsinh (ctxOf 24) 970 1 = .ok (mkRat 3696749 4194304) ∧ floatAsinh (ctxOf 24) 970 (-1) = .ok (-(mkRat 3696749 4194304)) ∧
    floatAcosh (ctxOf 24) 970 2 = .ok (mkRat 2761861 2097152) ∧ floatAtanh (ctxOf 24) 970 (mkRat 1 2) = .ok (mkRat 2303957 4194304) :=
  ⟨by decide +kernel, by decide +kernel, by decide +kernel, by decide +kernel⟩

/-- `asinh -1e50` is an error in 256 bits, `asinh -10000` in 24 bits; `asinh -1000` in 24 bits is wrong in the third digit, whereas `asinh 1000` is not. -/
theorem C76_violated : floatAsinh (ctxOf 256) 10250 (-(10 ^ 50)) = .err "log of non-positive value" ∧ floatAsinh (ctxOf 24) 970 (-10000) = .err "log of non-positive value" ∧
    passes (fun z => decide (z < -(mkRat 762 100))) (floatAsinh (ctxOf 24) 970 (-1000)) = true ∧
    passes (fun z => decide (mkRat 7600 1000 < z ∧ z < mkRat 7601 1000)) (floatAsinh (ctxOf 24) 970 1000) = true :=
  ⟨by decide +kernel, by decide +kernel, by decide +kernel, by decide +kernel⟩

end Verif.Flt
