import Verif.Flt.Lemmas10
import Verif.Flt.Lemmas13

/-! # Hyperbolic tangent -/

namespace Verif.Flt
open Spec
open Verif.Arr (R)

/-- The error of a quotient. -/
theorem quotient_err {a b a' b' δ : ℝ} (hδ : δ ≤ 1 / 8) (hb : 0 < b) (ha : |a' - a| ≤ δ * |a|) (hb' : |b' - b| ≤ δ * b) :
    0 < b' ∧ |a' / b' - a / b| ≤ 16 / 7 * δ * |a / b| := by
  have h1 := abs_le.1 hb'
  have hδ0 : 0 ≤ δ := by
    have h2 : 0 ≤ δ * b := le_trans (abs_nonneg _) hb'
    exact nonneg_of_mul_nonneg_left h2 hb
  have h2 : 7 / 8 * b ≤ b' := by
    have : δ * b ≤ 1 / 8 * b := mul_le_mul_of_nonneg_right hδ hb.le
    linarith [h1.1]
  have hb0 : 0 < b' := by linarith
  refine ⟨hb0, ?_⟩
  have h3 : a' / b' - a / b = ((a' - a) * b - a * (b' - b)) / (b' * b) := by field_simp; ring
  rw [h3, abs_div, abs_of_pos (by positivity : 0 < b' * b), div_le_iff₀ (by positivity)]
  have h4 : |(a' - a) * b - a * (b' - b)| ≤ 2 * δ * |a| * b := by
    have h5 := abs_sub ((a' - a) * b) (a * (b' - b))
    rw [abs_mul, abs_mul, abs_of_pos hb] at h5
    have h6 := mul_le_mul_of_nonneg_right ha hb.le
    have h7 := mul_le_mul_of_nonneg_left hb' (abs_nonneg a)
    linarith
  refine le_trans h4 ?_
  rw [abs_div, abs_of_pos hb]
  have h5 : 16 / 7 * δ * (|a| / b) * (b' * b) = 16 / 7 * δ * |a| * b' := by field_simp
  rw [h5]
  have h6 : 0 ≤ δ * |a| := mul_nonneg hδ0 (abs_nonneg _)
  have h7 := mul_le_mul_of_nonneg_left h2 h6
  linarith

theorem floatTanh_error {c : Ctx} {x : ℚ} (hp : 16 ≤ c.p) (hx : IsFloat c.p x) {fuel : ℕ} {z : ℚ} (h : floatTanh c fuel x = .ok z) :
    |(z : ℝ) - Real.tanh x| ≤ 600 * (c.p + 1) * eps c.p * |Real.tanh x| := by
  unfold floatTanh at h
  obtain ⟨d, hd, h⟩ := bind_eq_ok h
  split at h
  · cases h
  · rename_i hd0
    obtain ⟨n, hn, h⟩ := bind_eq_ok h
    rw [quo_ok hd0] at h
    injection h with h
    have he := eps_real c.p
    have hb := bits_eps hp
    have h1 := floatSinh_error hp hx hn
    have h2 := floatCosh_error hp hx hd
    obtain ⟨h3, h4⟩ := quotient_err (δ := 250 * (c.p + 1) * eps c.p) (by nlinarith) (Real.cosh_pos x) h1 h2
    rw [← Real.tanh_eq_sinh_div_cosh] at h4
    have h5 := rnd_err c.p (n / d)
    have h6 : |((rnd c.p (n / d) : ℚ) : ℝ) - n / d| ≤ |(n : ℝ) / d| * eps c.p := by
      rw [← eps_cast]
      exact_mod_cast h5
    rw [h] at h6
    have h7 : |(n : ℝ) / d| ≤ 2 * |Real.tanh x| := by
      have h8 := abs_sub_abs_le_abs_sub ((n : ℝ) / d) (Real.tanh x)
      have h9 : 16 / 7 * (250 * ((c.p : ℝ) + 1) * eps c.p) * |Real.tanh x| ≤ 1 * |Real.tanh x| := mul_le_mul_of_nonneg_right (by nlinarith) (abs_nonneg _)
      linarith
    have h8 := abs_add_le ((z : ℝ) - n / d) ((n : ℝ) / d - Real.tanh x)
    rw [show (z : ℝ) - n / d + (n / d - Real.tanh x) = z - Real.tanh x by ring] at h8
    have h9 : |(n : ℝ) / d| * eps c.p ≤ 2 * |Real.tanh x| * eps c.p := mul_le_mul_of_nonneg_right h7 he.le
    have h10 : 0 ≤ |Real.tanh x| * eps c.p := mul_nonneg (abs_nonneg _) he.le
    have h11 : 0 ≤ (c.p : ℝ) * (|Real.tanh x| * eps c.p) := mul_nonneg (by positivity) h10
    linarith

theorem floatTanh_ok {c : Ctx} {x : ℚ} (hp : 16 ≤ c.p) (hx : IsFloat c.p x) (h4 : |x| ≤ 4 * c.p) {fuel : ℕ} (hfu : 10 + 10 * c.p ≤ fuel) :
    ∃ z, floatTanh c fuel x = .ok z := by
  obtain ⟨d, hd⟩ := floatCosh_ok hp hx h4 hfu
  obtain ⟨n, hn⟩ := floatSinh_ok hp hx h4 hfu
  have he := eps_real c.p
  have hb := bits_eps hp
  have h2 := abs_le.1 (floatCosh_error hp hx hd)
  have hc := Real.cosh_pos (x : ℝ)
  have hd0 : d ≠ 0 := by
    have h5 : 250 * ((c.p : ℝ) + 1) * eps c.p * Real.cosh x ≤ 1 / 8 * Real.cosh x := mul_le_mul_of_nonneg_right (by nlinarith) hc.le
    have : (0 : ℝ) < d := by linarith [h2.1]
    have : (0 : ℚ) < d := by exact_mod_cast this
    exact this.ne'
  unfold floatTanh
  rw [hd, bindOk, if_neg hd0, hn, bindOk, quo_ok hd0]
  exact ⟨_, rfl⟩

end Verif.Flt
