import Verif.Shown.HugeProps
/-
C89 for integers that are too long to be printed as they are.
-/
namespace Verif.Shown
open Verif.Flt Verif.Flt.Spec Verif.Arr

/-- **C89, long integers.** Integers of more digits than `)maxdigits` are printed, without a format and in 96 bits or more, as decimal numbers that are right to eleven digits. -/
theorem C89_long (p : ℕ) (format : List Char) (i : ℤ) (hp : 96 ≤ p) (hp' : p ≤ constPrecisionInBits) (h0 : i ≠ 0) (hn' : (expo (rnd p i)).natAbs ≤ 2 ^ 31) (hu : floatFormat format = none) :
    ∃ n, ∀ fuel, n ≤ fuel → ∃ t k d ex x v, sprintLong p fuel format i = .ok t ∧ Decimal t k d ex x v ∧ |(v : ℝ) - i| ≤ 502 / 1000 / 10 ^ 11 * |(i : ℝ)| := by
  have hp1 : 1 ≤ p := by omega
  have hi0 : ((i : ℤ) : ℚ) ≠ 0 := by exact_mod_cast h0
  have hq := rnd_isFloat hp1 ((i : ℤ) : ℚ)
  have hq0 := rnd_ne_zero hp1 hi0
  have he := rnd_err_real p ((i : ℤ) : ℚ)
  obtain ⟨q, hqd⟩ : ∃ q, rnd p ((i : ℤ) : ℚ) = q := ⟨_, rfl⟩
  unfold sprintLong
  rw [hqd] at hq hq0 he hn' ⊢
  have hi : (0 : ℝ) < |(i : ℝ)| := abs_pos.2 (by exact_mod_cast h0)
  have heps : eps p ≤ 1 / 10 ^ 20 := by
    have h1 : eps p ≤ 1 / 2 ^ 96 := by
      unfold eps
      rw [zpow_neg, zpow_natCast, ← one_div]
      exact one_div_le_one_div_of_le (by positivity) (pow_le_pow_right₀ (by norm_num) hp)
    exact le_trans h1 (by norm_num)
  have he' : |(q : ℝ) - i| ≤ 1 / 10 ^ 20 * |(i : ℝ)| := by
    push_cast at he
    exact le_trans he (mul_le_mul_of_nonneg_right heps hi.le)
  have hqi : |(q : ℝ)| ≤ (1 + 1 / 10 ^ 20) * |(i : ℝ)| := by
    have := abs_add_le ((q : ℝ) - i) i
    rw [sub_add_cancel] at this
    linarith
  have fin : ∀ v : ℚ, |(v : ℝ) - q| ≤ 501 / 1000 / 10 ^ 11 * |(q : ℝ)| → |(v : ℝ) - i| ≤ 502 / 1000 / 10 ^ 11 * |(i : ℝ)| := by
    intro v hv
    have := abs_add_le ((v : ℝ) - q) (q - i)
    rw [sub_add_sub_cancel] at this
    have h1 : (501 : ℝ) / 1000 / 10 ^ 11 * |(q : ℝ)| ≤ 501 / 1000 / 10 ^ 11 * ((1 + 1 / 10 ^ 20) * |(i : ℝ)|) := mul_le_mul_of_nonneg_left hqi (by norm_num)
    have h2 : (501 : ℝ) / 1000 / 10 ^ 11 * ((1 + 1 / 10 ^ 20) * |(i : ℝ)|) + 1 / 10 ^ 20 * |(i : ℝ)| = (501 / 1000 / 10 ^ 11 * (1 + 1 / 10 ^ 20) + 1 / 10 ^ 20) * |(i : ℝ)| := by ring
    have h3 : (501 / 1000 / 10 ^ 11 * (1 + 1 / 10 ^ 20) + 1 / 10 ^ 20) * |(i : ℝ)| ≤ 502 / 1000 / 10 ^ 11 * |(i : ℝ)| := mul_le_mul_of_nonneg_right (by norm_num) hi.le
    linarith
  by_cases hn : 10000 < (expo q).natAbs
  · obtain ⟨n, h⟩ := C89_default p format q hp hp' hq hn hn' hu
    refine ⟨n, fun fuel hf => ?_⟩
    obtain ⟨t, k, d, ex, x, v, h1, h2, h3⟩ := h fuel hf
    exact ⟨t, k, d, ex, x, v, h1, h2, fin v h3⟩
  · refine ⟨0, fun fuel _ => ?_⟩
    obtain ⟨k, d, ex, x, v, h1, h2⟩ := C86_partial.2 format q hu (float_binary hq)
    refine ⟨_, k, d, ex, x, v, by unfold sprintBigFloat; rw [if_neg hn], h1, fin v ?_⟩
    have hm := exp_magnitude (float_binary hq) hq0
    have h3 := h2.2 _ hm
    have h4 : unit 'g' 12 ((decOf q).exp - 1) ≤ |q| * (1 / 10 ^ 11) := by
      unfold unit
      rw [if_neg (by decide), if_neg (by decide)]
      have h5 := mul_le_mul_of_nonneg_right hm.1 (show (0 : ℚ) ≤ (10 : ℚ) ^ (-11 : ℤ) from zpow_nonneg (by norm_num) _)
      rw [← zpow_add₀ (by norm_num)] at h5
      refine le_trans (le_of_eq ?_) (le_trans h5 (le_of_eq ?_))
      · congr 1; push_cast; norm_num; ring
      · congr 1; norm_num
    have h6 : ((|v - q| : ℚ) : ℝ) ≤ ((|q| * (1 / 10 ^ 11) / 2 : ℚ) : ℝ) := by exact_mod_cast le_trans h3 (by linarith)
    push_cast at h6
    have h7 : |(q : ℝ)| * (1 / 10 ^ 11) / 2 = 1 / 2 / 10 ^ 11 * |(q : ℝ)| := by ring
    have h8 : (1 : ℝ) / 2 / 10 ^ 11 * |(q : ℝ)| ≤ 501 / 1000 / 10 ^ 11 * |(q : ℝ)| := mul_le_mul_of_nonneg_right (by norm_num) (abs_nonneg _)
    linarith

example : sprintLong 256 2600 [] (3 ^ 100) = .ok "5.15377520732e+47".toList ∧ sprintLong 256 2600 [] (-(2 ^ 20000)) = .ok "-3.98027684034e+6020".toList := by decide +kernel

end Verif.Shown
