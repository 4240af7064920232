import Mathlib.Analysis.SpecialFunctions.Arsinh
import Mathlib.Analysis.SpecialFunctions.Arcosh
import Mathlib.Analysis.SpecialFunctions.Artanh
import Verif.Flt.Lemmas17

/-! # Lemmas: the error of the functions made of square roots, arc tangents and logarithms -/

namespace Verif.Flt
open Spec
open Verif.Arr (R)

/-! ## Arc sine -/

theorem arctan_diff {a b : ℝ} (h : 0 ≤ a * b) : |Real.arctan a - Real.arctan b| ≤ |a - b| / (1 + a * b) := by
  have h1 := Real.arctan_add (x := a) (y := -b) (by linarith)
  rw [Real.arctan_neg, show a + -b = a - b by ring, show 1 - a * -b = 1 + a * b by ring] at h1
  rw [show Real.arctan a - Real.arctan b = Real.arctan a + -Real.arctan b by ring, h1]
  have h2 := arctan_lip ((a - b) / (1 + a * b)) 0
  rw [Real.arctan_zero, sub_zero, sub_zero] at h2
  rwa [abs_div, abs_of_pos (show 0 < 1 + a * b by linarith)] at h2

/-- A relative error of the argument of the arc tangent. -/
theorem arctan_rel {q a δ : ℝ} (hδ0 : 0 ≤ δ) (hδ : δ ≤ 1 / 2) (h : |q - a| ≤ δ * |a|) : |Real.arctan q - Real.arctan a| ≤ δ := by
  have h2 : a * a / 2 ≤ q * a := by
    have h3 : |(q - a) * a| ≤ 1 / 2 * (a * a) := by
      rw [abs_mul]
      calc |q - a| * |a| ≤ δ * |a| * |a| := mul_le_mul_of_nonneg_right h (abs_nonneg _)
        _ = δ * (a * a) := by rw [mul_assoc, abs_mul_abs_self]
        _ ≤ 1 / 2 * (a * a) := mul_le_mul_of_nonneg_right hδ (mul_self_nonneg a)
    have := (abs_le.1 h3).1
    linarith
  have h0 : 0 ≤ q * a := le_trans (by linarith [mul_self_nonneg a]) h2
  refine le_trans (arctan_diff h0) ?_
  rw [div_le_iff₀ (by linarith)]
  refine le_trans h (mul_le_mul_of_nonneg_left ?_ hδ0)
  have h4 : |a| * |a| = a * a := abs_mul_abs_self a
  nlinarith [sq_nonneg (|a| - 1)]

/-- The root of a number, relative to a number nearby. -/
theorem root_near {u v W V e : ℝ} (hu : 0 ≤ u) (hv : 0 < v) (hW : u * u = W) (hV : v * v = V) (h : |W - V| ≤ e) : |u - v| ≤ e / v := by
  rw [le_div_iff₀ hv]
  have h1 : |u - v| * (u + v) ≤ e := by
    rw [← abs_of_nonneg (show 0 ≤ u + v by linarith), ← abs_mul, show (u - v) * (u + v) = W - V by rw [← hW, ← hV]; ring]
    exact h
  have := abs_nonneg (u - v)
  nlinarith

/-- A root as it is computed. -/
theorem root_err {c : Ctx} (hp : 16 ≤ c.p) {W : ℚ} (hW : 0 < W) (hf : IsFloat c.p W) {fuel : ℕ} (hfu : 10 + c.p ≤ fuel) :
    ∃ r, floatSqrt c fuel ⟨c.p, W⟩ = .ok ⟨c.p, r⟩ ∧ 0 < r ∧ |(r : ℝ) - √(W : ℝ)| ≤ 2 * eps c.p * √(W : ℝ) := by
  have he := eps_real c.p
  have hes := eps_small (show 12 ≤ c.p by omega)
  have hW' : (0 : ℝ) < W := by exact_mod_cast hW
  obtain ⟨r, r0, rf, rerr, rall⟩ := floatSqrt_ok (c := c) (by omega) hf hW (Real.sqrt_pos.2 hW') (Real.mul_self_sqrt hW'.le).symm
  refine ⟨r, rall fuel hfu, r0, ?_⟩
  have hu := ulp_le (p := c.p) r0
  have r0' : (0 : ℝ) < r := by exact_mod_cast r0
  have hs := Real.sqrt_pos.2 hW'
  have h1 : (r : ℝ) ≤ 1.001 * √(W : ℝ) := by
    have := (abs_le.1 rerr).2
    nlinarith
  nlinarith

theorem asin_steps {c : Ctx} (hp : 16 ≤ c.p) {x : ℚ} (hf : IsFloat c.p x) (hx : |x| < 1) :
    0 < sub c.p 1 (mul c.p x x) ∧ |((sub c.p 1 (mul c.p x x) : ℚ) : ℝ) - (1 - (x : ℝ) * x)| ≤ 2.1 * eps c.p := by
  have he := eps_real c.p
  have hes := eps_small (show 12 ≤ c.p by omega)
  have h3 := square_lt_one (by omega : 1 ≤ c.p) (x := |x|) (by
    rcases abs_cases x with ⟨e, _⟩ | ⟨e, _⟩ <;> rw [e]
    · exact hf
    · exact isFloat_neg hf) (abs_nonneg _) hx
  rw [abs_mul_abs_self] at h3
  have hx' : |(x : ℝ)| < 1 := by exact_mod_cast hx
  have hxx : (x : ℝ) * x ≤ 1 := by rw [← abs_mul_abs_self]; nlinarith [abs_nonneg (x : ℝ)]
  have hxx0 : 0 ≤ (x : ℝ) * x := mul_self_nonneg _
  refine ⟨rnd_pos (by omega) (by unfold mul; linarith), ?_⟩
  have h1 := rnd_err_real c.p (x * x)
  have h2 := rnd_err_real c.p (1 - mul c.p x x)
  change |((mul c.p x x : ℚ) : ℝ) - _| ≤ _ at h1
  change |((sub c.p 1 (mul c.p x x) : ℚ) : ℝ) - _| ≤ _ at h2
  push_cast at h1 h2
  set m := ((mul c.p x x : ℚ) : ℝ) with hm
  set W := ((sub c.p 1 (mul c.p x x) : ℚ) : ℝ) with hW
  rw [abs_of_nonneg hxx0] at h1
  have h1' := abs_le.1 h1
  have h4 : |1 - m| ≤ 1.01 := abs_le.2 ⟨by nlinarith [h1'.2], by nlinarith [h1'.1]⟩
  have h5 := abs_add_le (W - (1 - m)) (-(m - x * x))
  rw [abs_neg, show W - (1 - m) + -(m - x * x) = W - (1 - (x : ℝ) * x) by ring] at h5
  nlinarith

theorem asin_real {x u v e : ℝ} (hx : |x| < 1) (hu : 0 < u) (hv : 0 < v) (hvx : v * v = 1 - x * x) (he : e ≤ 0.01) (h : |u - v| ≤ e / v) :
    |Real.arctan (x / u) - Real.arctan (x / v)| ≤ 2 * e / v := by
  have h0 : 0 ≤ x / u * (x / v) := by
    rw [div_mul_div_comm]
    exact div_nonneg (mul_self_nonneg x) (by positivity)
  refine le_trans (arctan_diff h0) ?_
  have h1 : x / u - x / v = x * (v - u) / (u * v) := by field_simp
  have h2 : 1 + x / u * (x / v) = (u * v + x * x) / (u * v) := by field_simp
  have huv : 0 < u * v := by positivity
  have hd : 0 < u * v + x * x := by nlinarith [mul_self_nonneg x]
  rw [h1, h2, abs_div, abs_of_pos huv, div_div_div_cancel_right₀ huv.ne', div_le_iff₀ hd, abs_mul, abs_sub_comm v u]
  have key : |x| ≤ 2 * (u * v + x * x) := by
    by_cases hh : 1 / 2 ≤ |x|
    · have : |x| * |x| = x * x := abs_mul_abs_self x
      nlinarith
    · have hh := not_le.1 hh
      have h4 : x * x ≤ 1 / 4 := by rw [← abs_mul_abs_self]; nlinarith [abs_nonneg x]
      have h5 : 0.86 ≤ v := by nlinarith
      have h6 : |u - v| ≤ 0.02 := by
        refine le_trans h ?_
        rw [div_le_iff₀ hv]
        nlinarith
      have h7 := (abs_le.1 h6).1
      nlinarith [mul_self_nonneg x]
  calc |x| * |u - v| ≤ 2 * (u * v + x * x) * (e / v) := mul_le_mul key h (abs_nonneg _) (by positivity)
    _ = 2 * e / v * (u * v + x * x) := by ring

theorem floatAsin_ok {c : Ctx} (hp : 16 ≤ c.p) (hpi : PiOk c) {x : ℚ} (hf : IsFloat c.p x) (hx : |x| < 1) {fuel : ℕ} (hfu : 12 + 4 * c.p ≤ fuel) :
    ∃ z, floatAsin c fuel x = .ok z ∧ |(z : ℝ) - Real.arcsin x| ≤ (251 * (c.p + 1) + 5 / √(1 - (x : ℝ) ^ 2)) * eps c.p := by
  have he := eps_real c.p
  have hes := eps_small (show 12 ≤ c.p by omega)
  have hx' : |(x : ℝ)| < 1 := by exact_mod_cast hx
  obtain ⟨W0, Werr⟩ := asin_steps hp hf hx
  have hxl := abs_lt.1 hx
  have hxl' := abs_lt.1 hx'
  obtain ⟨r, hr, r0, rerr⟩ := root_err hp W0 (rnd_isFloat (by omega) _) (fuel := fuel) (by omega)
  have hW' : (0 : ℝ) < (sub c.p 1 (mul c.p x x) : ℚ) := by exact_mod_cast W0
  have hxx : (x : ℝ) * x < 1 := by rw [← abs_mul_abs_self]; nlinarith [abs_nonneg (x : ℝ)]
  have hv0 : 0 < √(1 - (x : ℝ) ^ 2) := Real.sqrt_pos.2 (by rw [sq]; linarith)
  have hvv : √(1 - (x : ℝ) ^ 2) * √(1 - (x : ℝ) ^ 2) = 1 - x * x := by rw [Real.mul_self_sqrt (by rw [sq]; linarith), sq]
  have huu : √((sub c.p 1 (mul c.p x x) : ℚ) : ℝ) * √((sub c.p 1 (mul c.p x x) : ℚ) : ℝ) = ((sub c.p 1 (mul c.p x x) : ℚ) : ℝ) := Real.mul_self_sqrt hW'.le
  have hu0 := Real.sqrt_pos.2 hW'
  have hnear := root_near hu0.le hv0 huu hvv Werr
  have hA := asin_real hx' hu0 hv0 hvv (by linarith) hnear
  rw [← Real.arcsin_eq_arctan ⟨hxl'.1, hxl'.2⟩] at hA
  set u := √((sub c.p 1 (mul c.p x x) : ℚ) : ℝ) with hu
  set v := √(1 - (x : ℝ) ^ 2) with hv
  obtain ⟨z, hz, zerr⟩ := floatAtan_ok hp hpi (x := rnd c.p (x / r)) (rnd_isFloat (by omega) _) hfu
  refine ⟨z, ?_, ?_⟩
  · unfold floatAsin
    rw [if_neg (by intro h; rw [h] at hxl; linarith [hxl.2]), if_neg (by intro h; rw [h] at hxl; linarith [hxl.1]), hr, bindOk, quo_ok r0.ne', bindOk]
    exact hz
  · have r0' : (0 : ℝ) < r := by exact_mod_cast r0
    have q1 := rnd_err_real c.p (x / r)
    push_cast at q1
    set q := ((rnd c.p (x / r) : ℚ) : ℝ) with hq
    have q2 : |q - x / u| ≤ 4 * eps c.p * |x / u| := by
      have h1 : |(x : ℝ) / r - x / u| ≤ 2.1 * eps c.p * |x / u| := by
        have h2 : (x : ℝ) / r - x / u = x / u * ((u - r) / r) := by field_simp
        rw [h2, abs_mul, mul_comm]
        apply mul_le_mul_of_nonneg_right _ (abs_nonneg _)
        rw [abs_div, abs_of_pos r0', div_le_iff₀ r0', abs_sub_comm]
        have h3 := (abs_le.1 rerr).1
        have h4 : 0.999 * u ≤ r := by nlinarith
        have h5 := mul_le_mul_of_nonneg_left h4 he.le
        nlinarith [mul_pos he hu0]
      have h2 := abs_add_le (q - x / r) ((x : ℝ) / r - x / u)
      rw [show q - x / r + ((x : ℝ) / r - x / u) = q - x / u by ring] at h2
      have h3 := abs_sub_abs_le_abs_sub ((x : ℝ) / r) (x / u)
      have h4 := abs_nonneg ((x : ℝ) / u)
      have h5 : |(x : ℝ) / r| ≤ 1.01 * |(x : ℝ) / u| := by nlinarith
      have h6 := mul_le_mul_of_nonneg_left h5 he.le
      nlinarith [mul_nonneg he.le h4]
    have q3 := arctan_rel (δ := 4 * eps c.p) (by linarith) (by linarith) q2
    have h1 := abs_add_le ((z : ℝ) - Real.arctan q) (Real.arctan q - Real.arctan (x / u))
    have h2 := abs_add_le ((z : ℝ) - Real.arctan q + (Real.arctan q - Real.arctan (x / u))) (Real.arctan (x / u) - Real.arcsin x)
    rw [show (z : ℝ) - Real.arctan q + (Real.arctan q - Real.arctan (x / u)) + (Real.arctan (x / u) - Real.arcsin x) = z - Real.arcsin x by ring] at h2
    have h3 : 2 * (2.1 * eps c.p) / v ≤ 5 / v * eps c.p := by
      rw [div_mul_eq_mul_div]
      exact div_le_div_of_nonneg_right (by linarith) hv0.le
    have h4 : 16 * eps c.p ≤ c.p * eps c.p := mul_le_mul_of_nonneg_right (by exact_mod_cast hp) he.le
    linarith

theorem half_pi_ok {c : Ctx} (hp : 16 ≤ c.p) (hpi : PiOk c) : ∃ z, quo c.p (rnd c.p c.pi) (rnd c.p 2) = .ok z ∧ |(z : ℝ) - Real.pi / 2| ≤ 6 * eps c.p := by
  have h2 : rnd c.p 2 = 2 ^ 1 := by rw [rnd_two (by omega)]; norm_num
  obtain ⟨z0, hz0⟩ : ∃ z, quo c.p (rnd c.p c.pi) (rnd c.p 2) = .ok z := by rw [h2, quo_ok (by norm_num)]; exact ⟨_, rfl⟩
  obtain ⟨hzf, hzp⟩ := pi_part hp hpi 1 h2 hz0
  rw [pow_one] at hzp
  exact ⟨z0, hz0, by linarith⟩

theorem floatAsin_ends_ok {c : Ctx} (hp : 16 ≤ c.p) (hpi : PiOk c) {x : ℚ} (hx : |x| = 1) (fuel : ℕ) :
    ∃ z, floatAsin c fuel x = .ok z ∧ |(z : ℝ) - Real.arcsin x| ≤ 6 * eps c.p := by
  obtain ⟨z, hz, herr⟩ := half_pi_ok hp hpi
  unfold floatAsin
  rcases (abs_eq (by norm_num : (0 : ℚ) ≤ 1)).1 hx with h | h
  · rw [if_pos h, h]
    exact ⟨z, hz, by simpa [Real.arcsin_one] using herr⟩
  · rw [if_neg (by rw [h]; norm_num), if_pos h, h, hz]
    refine ⟨-z, rfl, ?_⟩
    push_cast
    rw [Real.arcsin_neg, Real.arcsin_one, show -(z : ℝ) - -(Real.pi / 2) = -(z - Real.pi / 2) by ring, abs_neg]
    exact herr

theorem acos_of_asin {c : Ctx} (hp : 16 ≤ c.p) (hpi : PiOk c) {x z : ℚ} {fuel : ℕ} {E : ℝ} (hE : E * eps c.p ≤ 1) (hz : floatAsin c fuel x = .ok z) (herr : |(z : ℝ) - Real.arcsin x| ≤ E * eps c.p) :
    ∃ w, floatAcos c fuel x = .ok w ∧ |(w : ℝ) - Real.arccos x| ≤ (E + 11) * eps c.p := by
  have he := eps_real c.p
  have hes := eps_small (show 12 ≤ c.p by omega)
  obtain ⟨h, hh, hherr⟩ := half_pi_ok hp hpi
  refine ⟨sub c.p h z, by unfold floatAcos; rw [hh, bindOk, hz, bindOk], ?_⟩
  have s1 := rnd_err_real c.p (h - z)
  change |((sub c.p h z : ℚ) : ℝ) - _| ≤ _ at s1
  push_cast at s1
  unfold Real.arccos
  have t1 := abs_add_le ((h : ℝ) - Real.pi / 2) (-((z : ℝ) - Real.arcsin x))
  rw [abs_neg, show (h : ℝ) - Real.pi / 2 + -((z : ℝ) - Real.arcsin x) = h - z - (Real.pi / 2 - Real.arcsin x) by ring] at t1
  have t2 : |Real.pi / 2 - Real.arcsin x| ≤ 3.2 := by
    have v1 := Real.arcsin_le_pi_div_two x
    have v2 := Real.neg_pi_div_two_le_arcsin x
    have v3 := Real.pi_lt_d2
    exact abs_le.2 ⟨by linarith, by linarith⟩
  have t3 : |(h : ℝ) - z| ≤ 5 := by
    have := abs_sub_abs_le_abs_sub ((h : ℝ) - z) (Real.pi / 2 - Real.arcsin x)
    linarith
  have t4 : eps c.p * |(h : ℝ) - z| ≤ eps c.p * 5 := mul_le_mul_of_nonneg_left t3 he.le
  have t5 := abs_add_le (((sub c.p h z : ℚ) : ℝ) - (h - z)) ((h : ℝ) - z - (Real.pi / 2 - Real.arcsin x))
  rw [show ((sub c.p h z : ℚ) : ℝ) - (h - z) + ((h : ℝ) - z - (Real.pi / 2 - Real.arcsin x)) = ((sub c.p h z : ℚ) : ℝ) - (Real.pi / 2 - Real.arcsin x) by ring] at t5
  linarith

theorem p_eps {p : ℕ} (hp : 16 ≤ p) : ((p : ℝ) + 1) * eps p ≤ 17 / 65536 := by
  unfold eps
  induction p, hp using Nat.le_induction with
  | base => norm_num
  | succ n hn ih =>
    have h1 : ((2 : ℝ) ^ (-((n + 1 : ℕ) : ℤ))) = 2 ^ (-(n : ℤ)) / 2 := by
      rw [show (-((n + 1 : ℕ) : ℤ)) = -(n : ℤ) - 1 by push_cast; ring, zpow_sub_one₀ (by norm_num)]; ring
    rw [h1]
    push_cast
    have h2 : (0 : ℝ) < 2 ^ (-(n : ℤ)) := by positivity
    have h3 : (0 : ℝ) ≤ n := Nat.cast_nonneg n
    nlinarith

/-- The distance of a number below one from one. -/
theorem below_one {p : ℕ} (hp : 1 ≤ p) {x : ℚ} (hf : IsFloat p x) (h0 : 0 ≤ x) (h1 : x < 1) : (x : ℝ) ≤ 1 - eps p := by
  have he := eps_real p
  by_cases hh : 1 / 2 ≤ x
  · obtain ⟨k, hk⟩ := isFloat_mult hf (e := 0) (by rw [abs_of_nonneg h0]; norm_num; linarith)
    rw [zero_sub] at hk
    have hk' : (x : ℝ) = k * eps p := by
      unfold eps
      have h7 : ((x : ℚ) : ℝ) = ((k * (2 : ℚ) ^ (-(p : ℤ)) : ℚ) : ℝ) := by rw [← hk]
      rwa [Rat.cast_mul, Rat.cast_intCast, Rat.cast_zpow, Rat.cast_ofNat] at h7
    have hone : (2 : ℝ) ^ p * eps p = 1 := by
      unfold eps
      rw [zpow_neg, zpow_natCast, mul_inv_cancel₀ (by positivity)]
    have h1' : (x : ℝ) < 1 := by exact_mod_cast h1
    have hk1 : (k : ℝ) < 2 ^ p := by
      rw [hk', ← hone] at h1'
      exact lt_of_mul_lt_mul_right h1' he.le
    have hk2 : k < 2 ^ p := by exact_mod_cast hk1
    have hk3 : (k : ℝ) + 1 ≤ 2 ^ p := by exact_mod_cast hk2
    have := mul_le_mul_of_nonneg_right hk3 he.le
    rw [hk']
    linarith
  · have hx : (x : ℝ) < 1 / 2 := by
      have := not_le.1 hh
      have h7 : ((x : ℚ) : ℝ) < ((1 / 2 : ℚ) : ℝ) := Rat.cast_lt.2 this
      norm_num at h7
      linarith
    have h2 : eps p ≤ 1 / 2 := by
      unfold eps
      refine le_trans (zpow_le_zpow_right₀ (by norm_num) (show -(p : ℤ) ≤ -1 by omega)) (by norm_num)
    linarith

/-- What the arc sine may be off is less than one. -/
theorem asin_bound {p : ℕ} (hp : 16 ≤ p) {x : ℚ} (hf : IsFloat p x) (hx : |x| ≤ 1) : (251 * ((p : ℝ) + 1) + 5 / √(1 - (x : ℝ) ^ 2)) * eps p ≤ 1 := by
  have he := eps_real p
  have hpe := p_eps hp
  have hes : eps p ≤ 1 / 65536 := by
    unfold eps
    refine le_trans (zpow_le_zpow_right₀ (by norm_num) (show -(p : ℤ) ≤ -16 by omega)) (by norm_num)
  have h5 : 5 / √(1 - (x : ℝ) ^ 2) * eps p ≤ 1 / 50 := by
    rcases eq_or_lt_of_le hx with h | h
    · have h1 : (x : ℝ) ^ 2 = 1 := by
        have : (|x| : ℚ) ^ 2 = 1 := by rw [h]; norm_num
        rw [sq_abs] at this
        exact_mod_cast this
      rw [h1, sub_self, Real.sqrt_zero, div_zero, zero_mul]
      norm_num
    · have hb := below_one (p := p) (by omega) (x := |x|) (by
        rcases abs_cases x with ⟨e, _⟩ | ⟨e, _⟩ <;> rw [e]
        · exact hf
        · exact isFloat_neg hf) (abs_nonneg _) h
      rw [Rat.cast_abs] at hb
      have h0 := abs_nonneg (x : ℝ)
      have h1 : eps p ≤ 1 - (x : ℝ) ^ 2 := by
        rw [← sq_abs]
        nlinarith
      have h2 : √(eps p) ≤ √(1 - (x : ℝ) ^ 2) := Real.sqrt_le_sqrt h1
      have h3 : 0 < √(eps p) := Real.sqrt_pos.2 he
      have h4 : √(eps p) * √(eps p) = eps p := Real.mul_self_sqrt he.le
      have h6 : √(eps p) ≤ 1 / 256 := by
        rw [show (1 : ℝ) / 256 = √(1 / 65536) by rw [show (1 : ℝ) / 65536 = (1 / 256) ^ 2 by norm_num, Real.sqrt_sq (by norm_num)]]
        exact Real.sqrt_le_sqrt hes
      rw [div_mul_eq_mul_div, div_le_iff₀ (lt_of_lt_of_le h3 h2)]
      nlinarith
  rw [add_mul]
  nlinarith

/-! ## Inverse hyperbolic functions -/

/-- The logarithm of a rounded number that is close to another. -/
theorem log_near {c : Ctx} (hp : 16 ≤ c.p) (hl : LogOk c) {q : ℚ} {A δ : ℝ} (hA : 0 < A) (hδ0 : 0 ≤ δ) (hδ : δ ≤ 1 / 2) (h : |(q : ℝ) - A| ≤ δ * A) {fuel : ℕ} (hfu : 10 + 40 * c.p ≤ fuel) :
    ∃ z, floatLog c fuel (rnd c.p q) = .ok z ∧ |(z : ℝ) - Real.log A| ≤ (300 * (c.p + 1) + 12 * |Real.log A| + 3) * eps c.p + 2.1 * δ := by
  have he := eps_real c.p
  have hes := eps_small (show 12 ≤ c.p by omega)
  obtain ⟨q0, q1⟩ := log_rel hA hδ h
  have q0' : 0 < q := by exact_mod_cast q0
  obtain ⟨r0, r1⟩ := log_rnd (show 12 ≤ c.p by omega) q0'
  obtain ⟨z, hz⟩ := floatLog_ok (c := c) (x := rnd c.p q) (fuel := fuel) hp r0 (rnd_isFloat (by omega) _) hfu
  refine ⟨z, hz, ?_⟩
  have z1 := floatLog_error hp hl (rnd_isFloat (by omega) _) hz
  have h1 := abs_add_le (Real.log ((rnd c.p q : ℚ) : ℝ) - Real.log q) (Real.log q - Real.log A)
  rw [show Real.log ((rnd c.p q : ℚ) : ℝ) - Real.log q + (Real.log q - Real.log A) = Real.log ((rnd c.p q : ℚ) : ℝ) - Real.log A by ring] at h1
  have h2 := abs_sub_abs_le_abs_sub (Real.log ((rnd c.p q : ℚ) : ℝ)) (Real.log A)
  have h3 := abs_add_le ((z : ℝ) - Real.log ((rnd c.p q : ℚ) : ℝ)) (Real.log ((rnd c.p q : ℚ) : ℝ) - Real.log A)
  rw [show (z : ℝ) - Real.log ((rnd c.p q : ℚ) : ℝ) + (Real.log ((rnd c.p q : ℚ) : ℝ) - Real.log A) = z - Real.log A by ring] at h3
  have h4 : |Real.log ((rnd c.p q : ℚ) : ℝ)| ≤ |Real.log A| + (2 * δ + 2 * eps c.p) := by linarith
  have h5 := mul_le_mul_of_nonneg_right h4 he.le
  nlinarith

theorem floatAtanh_ok {c : Ctx} (hp : 16 ≤ c.p) (hl : LogOk c) {x : ℚ} (hx : |x| < 1) {fuel : ℕ} (hfu : 10 + 40 * c.p ≤ fuel) :
    ∃ w, floatAtanh c fuel x = .ok w ∧ |(w : ℝ) - Real.artanh x| ≤ (151 * (c.p + 1) + 14 * |Real.artanh x|) * eps c.p := by
  have he := eps_real c.p
  have hes := eps_small (show 12 ≤ c.p by omega)
  have hxl := abs_lt.1 hx
  have hx' : |(x : ℝ)| < 1 := by exact_mod_cast hx
  have hxl' := abs_lt.1 hx'
  have n1 := rnd_err_real c.p (1 + x)
  have d1 := rnd_err_real c.p (1 - x)
  have d0 : 0 < sub c.p 1 x := rnd_pos (by omega) (by linarith)
  have d0' : (0 : ℝ) < (sub c.p 1 x : ℚ) := by exact_mod_cast d0
  change |((add c.p 1 x : ℚ) : ℝ) - _| ≤ _ at n1
  change |((sub c.p 1 x : ℚ) : ℝ) - _| ≤ _ at d1
  push_cast at n1 d1
  have hn : (0 : ℝ) < 1 + x := by linarith
  have hd : (0 : ℝ) < 1 - x := by linarith
  rw [abs_of_pos hn] at n1
  rw [abs_of_pos hd] at d1
  have hA : 0 < (1 + (x : ℝ)) / (1 - x) := div_pos hn hd
  have hq : |((add c.p 1 x / sub c.p 1 x : ℚ) : ℝ) - (1 + x) / (1 - x)| ≤ 2.1 * eps c.p * ((1 + x) / (1 - x)) := by
    push_cast
    set n := ((add c.p 1 x : ℚ) : ℝ)
    set d := ((sub c.p 1 x : ℚ) : ℝ)
    have h1 : n / d - (1 + x) / (1 - x) = ((n - (1 + x)) * (1 - x) - (1 + x) * (d - (1 - x))) / (d * (1 - x)) := by field_simp; ring
    rw [h1, abs_div, abs_of_pos (mul_pos d0' hd), div_le_iff₀ (mul_pos d0' hd)]
    have h2 := abs_sub ((n - (1 + x)) * (1 - x)) ((1 + x) * (d - (1 - x)))
    rw [abs_mul, abs_mul, abs_of_pos hn, abs_of_pos hd] at h2
    have h3 := mul_le_mul_of_nonneg_right n1 hd.le
    have h4 := mul_le_mul_of_nonneg_left d1 hn.le
    have h5 : 2.1 * eps c.p * ((1 + (x : ℝ)) / (1 - x)) * (d * (1 - x)) = 2.1 * eps c.p * (1 + x) * d := by field_simp
    rw [h5]
    have h6 : 0.999 * (1 - (x : ℝ)) ≤ d := by nlinarith [(abs_le.1 d1).1]
    have h7 := mul_le_mul_of_nonneg_left h6 (mul_pos he hn).le
    nlinarith [mul_pos (mul_pos he hn) hd]
  obtain ⟨z, hz, zerr⟩ := log_near hp hl hA (by positivity) (by linarith) hq hfu
  have h2 : rnd c.p 2 = 2 := rnd_two (by omega)
  refine ⟨rnd c.p (z / 2), ?_, ?_⟩
  · unfold floatAtanh
    rw [if_neg (by push Not; exact ⟨hxl.1, hxl.2⟩), quo_ok d0.ne', bindOk, hz, bindOk, h2, quo_ok (by norm_num)]
  · have hart := Real.artanh_eq_half_log (x := (x : ℝ)) ⟨hxl'.1.le, hxl'.2.le⟩
    have w1 := rnd_err_real c.p (z / 2)
    push_cast at w1
    set L := Real.log ((1 + (x : ℝ)) / (1 - x)) with hL
    set w := ((rnd c.p (z / 2) : ℚ) : ℝ)
    have hpe := p_eps hp
    have hp' : (16 : ℝ) * eps c.p ≤ c.p * eps c.p := mul_le_mul_of_nonneg_right (by exact_mod_cast hp) he.le
    have hLa : |Real.artanh x| = 1 / 2 * |L| := by rw [hart, abs_mul, abs_of_pos (by norm_num : (0 : ℝ) < 1 / 2)]
    rw [hLa, hart]
    have hL0 := abs_nonneg L
    have e1 : |(z : ℝ)| ≤ 1.01 * |L| + 0.2 := by
      have := abs_sub_abs_le_abs_sub (z : ℝ) L
      nlinarith
    have e2 : |(z : ℝ) / 2| = |(z : ℝ)| / 2 := by rw [abs_div, abs_of_pos (by norm_num : (0 : ℝ) < 2)]
    rw [e2] at w1
    have e3 := mul_le_mul_of_nonneg_left e1 he.le
    have e4 := abs_add_le (w - z / 2) (((z : ℝ) - L) / 2)
    rw [show w - z / 2 + ((z : ℝ) - L) / 2 = w - 1 / 2 * L by ring] at e4
    have e5 : |((z : ℝ) - L) / 2| = |(z : ℝ) - L| / 2 := by rw [abs_div, abs_of_pos (by norm_num : (0 : ℝ) < 2)]
    rw [e5] at e4
    nlinarith [mul_nonneg he.le hL0]

/-- The steps of the inverse hyperbolic sine up to the logarithm. -/
theorem asinh_steps {c : Ctx} (hp : 16 ≤ c.p) {x : ℚ} (hf : IsFloat c.p x) {fuel : ℕ} (hfu : 10 + c.p ≤ fuel) :
    ∃ r, floatSqrt c fuel ⟨c.p, add c.p (mul c.p (rnd c.p x) x) 1⟩ = .ok ⟨c.p, r⟩ ∧ |(r : ℝ) - √(1 + (x : ℝ) ^ 2)| ≤ 4.3 * eps c.p * √(1 + (x : ℝ) ^ 2) := by
  have he := eps_real c.p
  have hes := eps_small (show 12 ≤ c.p by omega)
  rw [rnd_self (by omega) hf]
  have hxx : 0 ≤ x * x := mul_self_nonneg x
  have hm0 : 0 ≤ mul c.p x x := rnd_nonneg (by omega) hxx
  have s0 : 0 < add c.p (mul c.p x x) 1 := rnd_pos (by omega) (by linarith)
  obtain ⟨r, hr, r0, rerr⟩ := root_err hp s0 (rnd_isFloat (by omega) _) (fuel := fuel) hfu
  refine ⟨r, hr, ?_⟩
  have s0' : (0 : ℝ) < (add c.p (mul c.p x x) 1 : ℚ) := by exact_mod_cast s0
  have hm0' : (0 : ℝ) ≤ (mul c.p x x : ℚ) := by exact_mod_cast hm0
  have h1 := rnd_err_real c.p (x * x)
  have h2 := rnd_err_real c.p (mul c.p x x + 1)
  change |((mul c.p x x : ℚ) : ℝ) - _| ≤ _ at h1
  change |((add c.p (mul c.p x x) 1 : ℚ) : ℝ) - _| ≤ _ at h2
  push_cast at h1 h2
  have hxx' : 0 ≤ (x : ℝ) * x := mul_self_nonneg _
  rw [abs_of_nonneg hxx'] at h1
  have huu := Real.mul_self_sqrt s0'.le
  have hv0 : 0 < √(1 + (x : ℝ) ^ 2) := Real.sqrt_pos.2 (by positivity)
  have hvv : √(1 + (x : ℝ) ^ 2) * √(1 + (x : ℝ) ^ 2) = 1 + x * x := by rw [Real.mul_self_sqrt (by positivity), sq]
  set m := ((mul c.p x x : ℚ) : ℝ)
  set s := ((add c.p (mul c.p x x) 1 : ℚ) : ℝ)
  rw [abs_of_pos (by linarith : 0 < m + 1)] at h2
  have hW : |s - (1 + x * x)| ≤ 2.1 * eps c.p * (1 + x * x) := by
    have h3 := abs_add_le (s - (m + 1)) (m - x * x)
    rw [show s - (m + 1) + (m - x * x) = s - (1 + (x : ℝ) * x) by ring] at h3
    have h4 : m + 1 ≤ 1.01 * (1 + x * x) := by nlinarith [(abs_le.1 h1).2]
    nlinarith
  have hnear := root_near (Real.sqrt_nonneg _) hv0 huu hvv hW
  have hu0 := Real.sqrt_nonneg s
  set u := √s
  set v := √(1 + (x : ℝ) ^ 2)
  have h5 : 2.1 * eps c.p * (1 + x * x) / v = 2.1 * eps c.p * v := by rw [← hvv]; field_simp
  rw [h5] at hnear
  have h6 : u ≤ 1.01 * v := by nlinarith [(abs_le.1 hnear).2]
  have h7 := mul_le_mul_of_nonneg_left h6 he.le
  have h8 := abs_add_le ((r : ℝ) - u) (u - v)
  rw [show (r : ℝ) - u + (u - v) = r - v by ring] at h8
  nlinarith [mul_pos he hv0]

theorem floatAsinh_pos {c : Ctx} (hp : 16 ≤ c.p) (hl : LogOk c) {x : ℚ} (hf : IsFloat c.p x) (hx : 0 ≤ x) {fuel : ℕ} (hfu : 10 + 40 * c.p ≤ fuel) :
    ∃ z, floatAsinh c fuel x = .ok z ∧ |(z : ℝ) - Real.arsinh x| ≤ (301 * (c.p + 1) + 12 * |Real.arsinh x|) * eps c.p := by
  have he := eps_real c.p
  have hes := eps_small (show 12 ≤ c.p by omega)
  obtain ⟨r, hr, rerr⟩ := asinh_steps hp hf (fuel := fuel) (by omega)
  have hx' : (0 : ℝ) ≤ x := by exact_mod_cast hx
  have hv0 : 0 < √(1 + (x : ℝ) ^ 2) := Real.sqrt_pos.2 (by positivity)
  have hq : |((r + x : ℚ) : ℝ) - (x + √(1 + (x : ℝ) ^ 2))| ≤ 4.3 * eps c.p * (x + √(1 + (x : ℝ) ^ 2)) := by
    push_cast
    rw [show (r : ℝ) + x - (x + √(1 + (x : ℝ) ^ 2)) = r - √(1 + (x : ℝ) ^ 2) by ring]
    exact le_trans rerr (mul_le_mul_of_nonneg_left (by linarith) (by positivity))
  obtain ⟨z, hz, zerr⟩ := log_near hp hl (by positivity) (by positivity) (by linarith) hq hfu
  refine ⟨z, by unfold floatAsinh; rw [hr, bindOk]; exact hz, ?_⟩
  unfold Real.arsinh
  have hp' : (16 : ℝ) * eps c.p ≤ c.p * eps c.p := mul_le_mul_of_nonneg_right (by exact_mod_cast hp) he.le
  linarith

theorem floatAsinh_neg {c : Ctx} (hp : 16 ≤ c.p) (hl : LogOk c) {x : ℚ} (hf : IsFloat c.p x) (hx : x < 0) (hs : 20 * (1 + (x : ℝ) ^ 2) * eps c.p ≤ 1) {fuel : ℕ} (hfu : 10 + 40 * c.p ≤ fuel) :
    ∃ z, floatAsinh c fuel x = .ok z ∧ |(z : ℝ) - Real.arsinh x| ≤ (301 * (c.p + 1) + 12 * |Real.arsinh x| + 20 * (1 + (x : ℝ) ^ 2)) * eps c.p := by
  have he := eps_real c.p
  have hes := eps_small (show 12 ≤ c.p by omega)
  obtain ⟨r, hr, rerr⟩ := asinh_steps hp hf (fuel := fuel) (by omega)
  have hx' : (x : ℝ) < 0 := by exact_mod_cast hx
  have hv0 : 0 < √(1 + (x : ℝ) ^ 2) := Real.sqrt_pos.2 (by positivity)
  have hvv : √(1 + (x : ℝ) ^ 2) * √(1 + (x : ℝ) ^ 2) = 1 + x ^ 2 := Real.mul_self_sqrt (by positivity)
  set v := √(1 + (x : ℝ) ^ 2) with hv
  have hprod : (x + v) * (v - x) = 1 := by nlinarith
  have hvx : 0 < v - x := by linarith
  have hA : 0 < x + v := by
    by_contra hc
    nlinarith
  have hv2 : v - x ≤ 2 * v := by nlinarith
  have hq : |((r + x : ℚ) : ℝ) - (x + v)| ≤ 8.6 * eps c.p * (1 + (x : ℝ) ^ 2) * (x + v) := by
    push_cast
    rw [show (r : ℝ) + x - (x + v) = r - v by ring]
    refine le_trans rerr ?_
    have h1 : 4.3 * eps c.p * v = 4.3 * eps c.p * (v * (v - x)) * (x + v) := by
      rw [mul_assoc (4.3 * eps c.p), mul_assoc v, mul_comm (v - x), hprod, mul_one]
    rw [h1]
    apply mul_le_mul_of_nonneg_right _ hA.le
    rw [← hvv]
    have h2 := mul_le_mul_of_nonneg_left hv2 hv0.le
    nlinarith [mul_le_mul_of_nonneg_left h2 he.le]
  obtain ⟨z, hz, zerr⟩ := log_near hp hl hA (by positivity) (by nlinarith) hq hfu
  refine ⟨z, by unfold floatAsinh; rw [hr, bindOk]; exact hz, ?_⟩
  unfold Real.arsinh
  have hp' : (16 : ℝ) * eps c.p ≤ c.p * eps c.p := mul_le_mul_of_nonneg_right (by exact_mod_cast hp) he.le
  have : 0 ≤ eps c.p * (1 + (x : ℝ) ^ 2) := by positivity
  rw [← hv]
  nlinarith

/-- The distance of a number above one from one. -/
theorem above_one {p : ℕ} (hp : 1 ≤ p) {x : ℚ} (hf : IsFloat p x) (h : 1 < x) : 1 + 2 * eps p ≤ (x : ℝ) := by
  obtain ⟨k, hk⟩ := isFloat_mult hf (e := 1) (by rw [abs_of_pos (by linarith)]; norm_num; linarith)
  have h1 : (2 : ℚ) ^ (1 - (p : ℤ)) * 2 ^ (p - 1) = 1 := by
    rw [← zpow_natCast, ← zpow_add₀ (by norm_num), show (1 - (p : ℤ)) + ((p - 1 : ℕ) : ℤ) = 0 by omega, zpow_zero]
  have hu : (0 : ℚ) < 2 ^ (1 - (p : ℤ)) := by positivity
  have h2 : (2 ^ (p - 1) : ℤ) < k := by
    by_contra hc
    have hc : (k : ℚ) ≤ 2 ^ (p - 1) := by exact_mod_cast not_lt.1 hc
    nlinarith
  have h3 : (2 ^ (p - 1) : ℚ) + 1 ≤ k := by exact_mod_cast h2
  have h4 : 1 + (2 : ℚ) ^ (1 - (p : ℤ)) ≤ x := by
    rw [hk]
    nlinarith
  have h5 : 1 + (2 : ℝ) ^ (1 - (p : ℤ)) ≤ x := by
    have h7 : ((1 + (2 : ℚ) ^ (1 - (p : ℤ)) : ℚ) : ℝ) ≤ x := Rat.cast_le.2 h4
    rwa [Rat.cast_add, Rat.cast_one, Rat.cast_zpow, Rat.cast_ofNat] at h7
  have h6 : (2 : ℝ) ^ (1 - (p : ℤ)) = 2 * eps p := by
    unfold eps
    rw [sub_eq_add_neg, zpow_add₀ (by norm_num), zpow_one]
  linarith

theorem acosh_small {e x v : ℝ} (he : 0 < e) (hes : e ≤ 1 / 4096) (hv0 : 0 < v) (hfar : e * (x * x) ≤ v * v / 2) : 6.2 * (e * (x / v)) ≤ 1 / 2 := by
  have h10 : e * (x / v) * (x / v) ≤ 1 / 2 := by
    rw [show e * (x / v) * (x / v) = e * (x * x) / (v * v) by field_simp, div_le_iff₀ (by positivity)]
    linarith
  have h11 : (e * (x / v)) * (e * (x / v)) ≤ 1 / 8192 := by
    rw [show (e * (x / v)) * (e * (x / v)) = e * (e * (x / v) * (x / v)) by ring]
    nlinarith
  have h12 := abs_le_of_sq_le_sq (a := e * (x / v)) (b := 1 / 64) (by rw [sq]; linarith) (by norm_num)
  linarith [(abs_le.1 h12).2]

set_option maxHeartbeats 1000000 in
theorem floatAcosh_ok {c : Ctx} (hp : 16 ≤ c.p) (hl : LogOk c) {x : ℚ} (hf : IsFloat c.p x) (hx : 1 ≤ x) {fuel : ℕ} (hfu : 10 + 40 * c.p ≤ fuel) :
    ∃ z, floatAcosh c fuel x = .ok z ∧ |(z : ℝ) - Real.arcosh x| ≤ (301 * (c.p + 1) + 12 * |Real.arcosh x| + 14 * (x / √((x : ℝ) ^ 2 - 1))) * eps c.p := by
  have he := eps_real c.p
  have hes := eps_small (show 12 ≤ c.p by omega)
  have hp' : (16 : ℝ) * eps c.p ≤ c.p * eps c.p := mul_le_mul_of_nonneg_right (by exact_mod_cast hp) he.le
  unfold floatAcosh
  rw [if_neg (not_lt.2 hx), rnd_self (by omega) hf]
  have hxr : rnd c.p x = x := rnd_self (by omega) hf
  rcases eq_or_lt_of_le hx with h1 | h1
  · have hone : rnd c.p 1 = 1 := by rw [h1]; exact hxr
    have hs : sub c.p (mul c.p x x) 1 = 0 := by
      unfold sub mul
      rw [← h1, one_mul, hone, sub_self, rnd_zero]
    have hr : floatSqrt c fuel ⟨c.p, sub c.p (mul c.p x x) 1⟩ = .ok ⟨c.p, 0⟩ := by
      rw [hs]; unfold floatSqrt; rw [if_neg (lt_irrefl _), if_pos rfl]
    have ha : add c.p 0 x = rnd c.p 1 := by unfold add; rw [zero_add, ← h1]
    obtain ⟨z, hz, zerr⟩ := log_near hp hl (q := 1) (A := 1) (δ := 0) one_pos le_rfl (by norm_num) (by simp) hfu
    refine ⟨z, by rw [hr, bindOk]; dsimp only; rw [ha]; exact hz, ?_⟩
    rw [← h1]
    push_cast
    rw [Real.arcosh_zero, show ((1 : ℝ) / √(1 ^ 2 - 1)) = 0 by norm_num]
    rw [Real.log_one, abs_zero] at zerr
    rw [abs_zero]
    linarith
  · have hm1 : x ≤ mul c.p x x := le_trans hxr.ge (rnd_mono (by omega) (by nlinarith))
    have s0 : 0 < sub c.p (mul c.p x x) 1 := rnd_pos (by omega) (by linarith)
    obtain ⟨r, hr, r0, rerr⟩ := root_err hp s0 (rnd_isFloat (by omega) _) (fuel := fuel) (by omega)
    have s0' : (0 : ℝ) < (sub c.p (mul c.p x x) 1 : ℚ) := by exact_mod_cast s0
    have hx' : (1 : ℝ) < x := by exact_mod_cast h1
    have hm1' : (x : ℝ) ≤ (mul c.p x x : ℚ) := by exact_mod_cast hm1
    have hgap := above_one (by omega) hf h1
    have e1 := rnd_err_real c.p (x * x)
    have e2 := rnd_err_real c.p (mul c.p x x - 1)
    change |((mul c.p x x : ℚ) : ℝ) - _| ≤ _ at e1
    change |((sub c.p (mul c.p x x) 1 : ℚ) : ℝ) - _| ≤ _ at e2
    push_cast at e1 e2
    have hxx : 0 < (x : ℝ) * x := by positivity
    rw [abs_of_pos hxx] at e1
    have hpos : 0 < (x : ℝ) ^ 2 - 1 := by nlinarith
    have huu := Real.mul_self_sqrt s0'.le
    have hv0 : 0 < √((x : ℝ) ^ 2 - 1) := Real.sqrt_pos.2 hpos
    have hvv : √((x : ℝ) ^ 2 - 1) * √((x : ℝ) ^ 2 - 1) = x * x - 1 := by rw [Real.mul_self_sqrt hpos.le, sq]
    unfold Real.arcosh
    set m := ((mul c.p x x : ℚ) : ℝ)
    set s := ((sub c.p (mul c.p x x) 1 : ℚ) : ℝ)
    rw [abs_of_pos (by linarith : 0 < m - 1)] at e2
    have hW : |s - (x * x - 1)| ≤ 2.1 * eps c.p * (x * x) := by
      have h3 := abs_add_le (s - (m - 1)) (m - x * x)
      rw [show s - (m - 1) + (m - x * x) = s - ((x : ℝ) * x - 1) by ring] at h3
      have h4 : m - 1 ≤ 1.01 * (x * x) := by nlinarith [(abs_le.1 e1).2]
      nlinarith
    have hnear := root_near (Real.sqrt_nonneg _) hv0 huu hvv hW
    have hu0 := Real.sqrt_nonneg s
    set u := √s
    set v := √((x : ℝ) ^ 2 - 1)
    have hvx : v ≤ x := by nlinarith
    have hfar : eps c.p * (x * x) ≤ v * v / 2 := by
      rw [hvv]
      by_cases h2 : (x : ℝ) * x ≤ 2
      · nlinarith
      · nlinarith
    have hfar' : eps c.p * (x * x) / v ≤ v / 2 := by
      rw [div_le_iff₀ hv0]; linarith
    have hE : 2.1 * eps c.p * (x * x) / v = 2.1 * (eps c.p * (x * x) / v) := by ring
    rw [hE] at hnear
    set D := eps c.p * ((x : ℝ) * x) / v with hD
    have hD0 : 0 ≤ D := by positivity
    have hvD : eps c.p * v ≤ D := by
      rw [hD, le_div_iff₀ hv0, mul_assoc]
      exact mul_le_mul_of_nonneg_left (by nlinarith) he.le
    have h6 : u ≤ 2.05 * v := by nlinarith [(abs_le.1 hnear).2]
    have h7 := mul_le_mul_of_nonneg_left h6 he.le
    have h8 := abs_add_le ((r : ℝ) - u) (u - v)
    rw [show (r : ℝ) - u + (u - v) = r - v by ring] at h8
    have h9 : |(r : ℝ) - v| ≤ 6.2 * D := by nlinarith
    have hxv : 0 < (x : ℝ) / v := by positivity
    have hDx : D = eps c.p * (x / v) * x := by rw [hD]; ring
    have hq : |((r + x : ℚ) : ℝ) - (x + v)| ≤ 6.2 * (eps c.p * (x / v)) * (x + v) := by
      push_cast
      rw [show (r : ℝ) + x - (x + v) = r - v by ring]
      refine le_trans h9 ?_
      rw [hDx]
      nlinarith [mul_pos (mul_pos he hxv) hv0]
    have hsm := acosh_small he hes hv0 hfar
    obtain ⟨z, hz, zerr⟩ := log_near hp hl (by positivity) (by positivity) hsm hq hfu
    refine ⟨z, by rw [hr, bindOk]; exact hz, ?_⟩
    rw [show (301 * ((c.p : ℝ) + 1) + 12 * |Real.log (x + v)| + 14 * (x / v)) * eps c.p = (300 * ((c.p : ℝ) + 1) + 12 * |Real.log (x + v)| + 3) * eps c.p + 14 * (eps c.p * (x / v)) + (c.p * eps c.p - 2 * eps c.p) by ring]
    have h13 := mul_pos he hxv
    linarith

end Verif.Flt
