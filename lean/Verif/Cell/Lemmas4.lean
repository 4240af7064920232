import Verif.Cell.Lemmas3
import Verif.Flt.AccProps2
import Mathlib.Analysis.Complex.Trigonometric

/-!
# Errors of the functions of complex numbers: sine and cosine of the same argument, products, quotients
-/

namespace Verif.Cell
open Verif.Arr (R)
open Verif.Flt
open Verif.Flt.Spec (IsFloat)

/-- The error of a sine or cosine of `x`. -/
noncomputable def eta (p : ℕ) (x : ℝ) : ℝ := (60000 * (p + 3) + 300 * |x|) * eps p

theorem eta_ge (p : ℕ) (x : ℝ) : 60000 * ((p : ℝ) + 3) * eps p ≤ eta p x := by
  unfold eta
  have h1 := eps_real p
  have : 0 ≤ 300 * |x| * eps p := by positivity
  linarith

theorem eta_nonneg (p : ℕ) (x : ℝ) : 0 ≤ eta p x := by
  have h1 := eps_real p
  exact le_trans (by positivity) (eta_ge p x)

theorem eta_sum {p : ℕ} {x a b : ℝ} (ha : a ≤ 60000) (hb : b ≤ 300) : (a * (p + 3) + b * |x|) * eps p ≤ eta p x := by
  unfold eta
  apply mul_le_mul_of_nonneg_right _ (eps_real p).le
  have h1 : a * ((p : ℝ) + 3) ≤ 60000 * (p + 3) := mul_le_mul_of_nonneg_right ha (by positivity)
  have h2 : b * |x| ≤ 300 * |x| := mul_le_mul_of_nonneg_right hb (abs_nonneg _)
  linarith

/-- The sine first, then the cosine of what is left. -/
theorem sin_then_cos {c : Ctx} (hp : 16 ≤ c.p) (hpi : PiOk c) {x : Fl} (hx : x.prec = c.p) (hf : IsFloat c.p x.val) {fuel : ℕ} {s t : ℚ × Fl}
    (hs : floatSin c fuel x = .ok s) (ht : floatCos c fuel s.2 = .ok t) :
    |(s.1 : ℝ) - Real.sin x.val| ≤ eta c.p x.val ∧ |(t.1 : ℝ) - Real.cos x.val| ≤ eta c.p x.val := by
  have he := eps_real c.p
  refine ⟨(floatSin_error hp hpi hx hf hs).trans (eta_sum (by norm_num) (by norm_num)), ?_⟩
  obtain ⟨z, hy, -, -⟩ := floatSin_split hs
  obtain ⟨y0, y6, yx, j, hj⟩ := reduce_real hp hpi (by rw [absFl_prec, hx]) (by rw [absFl_val]; exact abs_nonneg _) hy
  obtain ⟨yp, yf⟩ := reduce_float (by rw [absFl_prec, hx]; omega) (absFl_float (by rw [hx]; exact hf)) hy
  have hy0 : (0 : ℝ) ≤ s.2.val := by exact_mod_cast y0
  have h5 : (((absFl x).val : ℚ) : ℝ) = |(x.val : ℝ)| := by rw [absFl_val]; push_cast; rfl
  have h4 := Real.abs_cos_sub_cos_le (s.2.val : ℝ) ((absFl x).val - j * (2 * Real.pi))
  rw [Real.cos_sub_nat_mul_two_pi] at h4
  rw [h5] at h4 hj
  rw [Real.cos_abs] at h4
  have h6 := floatCos_error hp hpi (x := s.2) (by rw [yp, absFl_prec, hx]) (by linarith) ht
  rw [abs_of_nonneg hy0] at h6
  have h7 := abs_add_le ((t.1 : ℝ) - Real.cos s.2.val) (Real.cos s.2.val - Real.cos x.val)
  rw [show (t.1 : ℝ) - Real.cos s.2.val + (Real.cos s.2.val - Real.cos x.val) = t.1 - Real.cos x.val by ring] at h7
  have h8 : (s.2.val : ℝ) * eps c.p ≤ 32 / 5 * eps c.p := mul_le_mul_of_nonneg_right y6 he.le
  have h9 : 0 ≤ (c.p : ℝ) * eps c.p := by positivity
  refine le_trans ?_ (eta_sum (a := 57000) (b := 240) (by norm_num) (by norm_num))
  have h10 : 0 ≤ eps c.p * |(x.val : ℝ)| := mul_nonneg he.le (abs_nonneg _)
  linarith

/-- The cosine first, then the sine of what is left. -/
theorem cos_then_sin {c : Ctx} (hp : 16 ≤ c.p) (hpi : PiOk c) {x : Fl} (hx : x.prec = c.p) (hf : IsFloat c.p x.val) (h7 : -7 ≤ x.val) {fuel : ℕ} {s t : ℚ × Fl}
    (ht : floatCos c fuel x = .ok t) (hs : floatSin c fuel t.2 = .ok s) :
    |(s.1 : ℝ) - Real.sin x.val| ≤ eta c.p x.val ∧ |(t.1 : ℝ) - Real.cos x.val| ≤ eta c.p x.val := by
  have he := eps_real c.p
  refine ⟨?_, (floatCos_error hp hpi hx h7 ht).trans (eta_sum (by norm_num) (by norm_num))⟩
  obtain ⟨hy, -⟩ := floatCos_split ht
  obtain ⟨yp, yf⟩ := reduce_float (by rw [hx]; omega) (by rw [hx]; exact hf) hy
  have h1 := floatSin_error hp hpi (x := t.2) (by rw [yp, hx]) (by rw [hx] at yf; exact yf) hs
  have h2 : |(t.2.val : ℝ)| ≤ 7 ∧ |Real.sin t.2.val - Real.sin x.val| ≤ 233 * eps c.p * |(x.val : ℝ)| := by
    by_cases h0 : 0 ≤ x.val
    · obtain ⟨y0, y6, yx, j, hj⟩ := reduce_real hp hpi hx h0 hy
      have hy0 : (0 : ℝ) ≤ t.2.val := by exact_mod_cast y0
      have hx0 : (0 : ℝ) ≤ x.val := by exact_mod_cast h0
      refine ⟨by rw [abs_of_nonneg hy0]; linarith, ?_⟩
      have h4 := Real.abs_sin_sub_sin_le (t.2.val : ℝ) (x.val - j * (2 * Real.pi))
      rw [Real.sin_sub_nat_mul_two_pi] at h4
      rw [abs_of_nonneg hx0]
      linarith
    · have h0 := not_le.1 h0
      rw [reduce_id hp (pi_ge hp hpi).1 (ok_fuel hy) (by linarith)] at hy
      injection hy with hy
      rw [← hy]
      have h0' : (x.val : ℝ) < 0 := by exact_mod_cast h0
      have h7' : (-7 : ℝ) ≤ x.val := by exact_mod_cast h7
      refine ⟨by rw [abs_of_neg h0']; linarith, ?_⟩
      rw [sub_self, abs_zero]
      have : 0 ≤ eps c.p * |(x.val : ℝ)| := mul_nonneg he.le (abs_nonneg _)
      linarith
  have h3 := abs_add_le ((s.1 : ℝ) - Real.sin t.2.val) (Real.sin t.2.val - Real.sin x.val)
  rw [show (s.1 : ℝ) - Real.sin t.2.val + (Real.sin t.2.val - Real.sin x.val) = s.1 - Real.sin x.val by ring] at h3
  have h8 : |(t.2.val : ℝ)| * eps c.p ≤ 7 * eps c.p := mul_le_mul_of_nonneg_right h2.1 he.le
  have h9 : 0 ≤ (c.p : ℝ) * eps c.p := by positivity
  refine le_trans ?_ (eta_sum (a := 32000) (b := 240) (by norm_num) (by norm_num))
  have h10 : 0 ≤ eps c.p * |(x.val : ℝ)| := mul_nonneg he.le (abs_nonneg _)
  linarith [h2.2]

/-- The error of a rounded product of a number of size at most one and another one. -/
theorem product_err {p : ℕ} {s h : ℚ} {S H M η κ : ℝ} (hη : 2 * κ + 4 * eps p ≤ η) (hκ : κ ≤ 1 / 8) (hκ0 : 0 ≤ κ) (he : eps p ≤ 1 / 1000) (hs : |(s : ℝ) - S| ≤ η) (hS : |S| ≤ 1)
    (hH : |H| ≤ M) (hh : |(h : ℝ) - H| ≤ κ * M) : |((Flt.mul p s h : ℚ) : ℝ) - S * H| ≤ 2 * η * M := by
  have he0 := eps_real p
  have h1 := rnd_err_real p (s * h)
  have hM : 0 ≤ M := le_trans (abs_nonneg _) hH
  have hη0 : 0 ≤ η := le_trans (abs_nonneg _) hs
  have hs' : |(s : ℝ)| ≤ 1 + η := by
    have := abs_add_le S ((s : ℝ) - S)
    rw [add_sub_cancel] at this
    linarith
  have hh' : |(h : ℝ)| ≤ 9 / 8 * M := by
    have := abs_add_le H ((h : ℝ) - H)
    rw [add_sub_cancel] at this
    have : κ * M ≤ 1 / 8 * M := mul_le_mul_of_nonneg_right hκ hM
    linarith
  have h2 : |(s : ℝ) * h| ≤ (1 + η) * (9 / 8 * M) := by rw [abs_mul]; exact mul_le_mul hs' hh' (abs_nonneg _) (by linarith)
  have h3 : |(s : ℝ) * h - S * H| ≤ η * (9 / 8 * M) + 1 * (κ * M) := by
    have e : (s : ℝ) * h - S * H = (s - S) * h + S * (h - H) := by ring
    rw [e]
    refine (abs_add_le _ _).trans ?_
    rw [abs_mul, abs_mul]
    exact add_le_add (mul_le_mul hs hh' (abs_nonneg _) hη0) (mul_le_mul hS hh (abs_nonneg _) zero_le_one)
  have h4 := abs_add_le (((rnd p (s * h) : ℚ) : ℝ) - (s : ℝ) * h) ((s : ℝ) * h - S * H)
  rw [sub_add_sub_cancel] at h4
  unfold Flt.mul
  push_cast at h1
  have h5 : eps p * |(s : ℝ) * h| ≤ eps p * ((1 + η) * (9 / 8 * M)) := mul_le_mul_of_nonneg_left h2 he0.le
  have h6 : eps p * (η * M) ≤ 1 / 1000 * (η * M) := mul_le_mul_of_nonneg_right he (by positivity)
  have h7 : (2 * κ + 4 * eps p) * M ≤ η * M := mul_le_mul_of_nonneg_right hη hM
  have h8 : 0 ≤ η * M := by positivity
  have h9 : 0 ≤ eps p * M := by positivity
  linarith

theorem consts_small {p : ℕ} (hp : 16 ≤ p) (x : ℝ) {k : ℝ} (hk0 : 0 ≤ k) (hk : k ≤ 250) : 2 * (k * ((p : ℝ) + 1) * eps p) + 4 * eps p ≤ eta p x ∧ k * ((p : ℝ) + 1) * eps p ≤ 1 / 8 ∧
    0 ≤ k * ((p : ℝ) + 1) * eps p ∧ eps p ≤ 1 / 1000 := by
  have h1 := p_eps hp
  have he := eps_real p
  have h2 : k * (((p : ℝ) + 1) * eps p) ≤ 250 * (((p : ℝ) + 1) * eps p) := mul_le_mul_of_nonneg_right hk (by positivity)
  have h3 := eta_ge p x
  have h4 : 0 ≤ (p : ℝ) * eps p := by positivity
  refine ⟨by linarith, by linarith, by positivity, ?_⟩
  have h5 : eps p * 17 ≤ ((p : ℝ) + 1) * eps p := by
    have : (17 : ℝ) ≤ (p : ℝ) + 1 := by have : (16 : ℝ) ≤ p := by exact_mod_cast hp
                                        linarith
    nlinarith
  linarith

theorem sin_abs_le (x : ℝ) : |Real.sin x| ≤ 1 := Real.abs_sin_le_one x

theorem sinh_times {c : Ctx} (hp : 16 ≤ c.p) {s : ℚ} {S x : ℝ} (hs : |(s : ℝ) - S| ≤ eta c.p x) (hS : |S| ≤ 1) {y : ℚ} (hy : IsFloat c.p y) {fuel : ℕ} {h : ℚ}
    (hh : floatSinh c fuel y = .ok h) : |((Flt.mul c.p s h : ℚ) : ℝ) - S * Real.sinh y| ≤ 2 * eta c.p x * |Real.sinh y| := by
  obtain ⟨a, b, d, e⟩ := consts_small hp x (k := 250) (by norm_num) le_rfl
  exact product_err a b d e hs hS le_rfl (floatSinh_error hp hy hh)

theorem cosh_times {c : Ctx} (hp : 16 ≤ c.p) {s : ℚ} {S x : ℝ} (hs : |(s : ℝ) - S| ≤ eta c.p x) (hS : |S| ≤ 1) {y : ℚ} (hy : IsFloat c.p y) {fuel : ℕ} {h : ℚ}
    (hh : floatCosh c fuel y = .ok h) : |((Flt.mul c.p s h : ℚ) : ℝ) - S * Real.cosh y| ≤ 2 * eta c.p x * Real.cosh y := by
  obtain ⟨a, b, d, e⟩ := consts_small hp x (k := 250) (by norm_num) le_rfl
  exact product_err a b d e hs hS (abs_of_pos (Real.cosh_pos _)).le (floatCosh_error hp hy hh)

theorem exp_times {c : Ctx} (hp : 16 ≤ c.p) {s : ℚ} {S x : ℝ} (hs : |(s : ℝ) - S| ≤ eta c.p x) (hS : |S| ≤ 1) {y : ℚ} (hy : IsFloat c.p y) {fuel : ℕ} {h : ℚ}
    (hh : exponential c fuel y = .ok h) : |((Flt.mul c.p s h : ℚ) : ℝ) - S * Real.exp y| ≤ 2 * eta c.p x * Real.exp |(y : ℝ)| := by
  obtain ⟨a, b, d, e⟩ := consts_small hp x (k := 160) (by norm_num) (by norm_num)
  exact product_err a b d e hs hS (by rw [abs_of_pos (Real.exp_pos _)]; exact Real.exp_le_exp.2 (le_abs_self _)) (exponential_error hp hy hh)

/-- The error of the denominator of a tangent. -/
theorem denominator_err {p : ℕ} {s h : ℚ} {S H η κ : ℝ} (hη : 2 * κ + 4 * eps p ≤ η) (hκ : κ ≤ 1 / 8) (hκ0 : 0 ≤ κ) (he : eps p ≤ 1 / 1000) (hs : |(s : ℝ) - S| ≤ η) (hS : |S| ≤ 1)
    (hH : 1 ≤ H) (hh : |(h : ℝ) - H| ≤ κ * H) : |((rnd p (s + h) : ℚ) : ℝ) - (S + H)| ≤ 2 * η * H := by
  have he0 := eps_real p
  have h1 := rnd_err_real p (s + h)
  have hη0 : 0 ≤ η := le_trans (abs_nonneg _) hs
  have h2 : |(s : ℝ) + h - (S + H)| ≤ η + κ * H := by
    rw [show (s : ℝ) + h - (S + H) = (s - S) + (h - H) by ring]
    exact (abs_add_le _ _).trans (add_le_add hs hh)
  have h3 : |(s : ℝ) + h| ≤ 1 + η + 9 / 8 * H := by
    have e1 := abs_add_le (S + H) ((s : ℝ) + h - (S + H))
    rw [add_sub_cancel] at e1
    have e2 := abs_add_le S H
    rw [abs_of_nonneg (by linarith : (0 : ℝ) ≤ H)] at e2
    have : κ * H ≤ 1 / 8 * H := mul_le_mul_of_nonneg_right hκ (by linarith)
    linarith
  have h4 := abs_add_le (((rnd p (s + h) : ℚ) : ℝ) - ((s : ℝ) + h)) ((s : ℝ) + h - (S + H))
  rw [sub_add_sub_cancel] at h4
  push_cast at h1
  have h5 : eps p * |(s : ℝ) + h| ≤ eps p * (1 + η + 9 / 8 * H) := mul_le_mul_of_nonneg_left h3 he0.le
  have h6 : eps p * η ≤ 1 / 1000 * η := mul_le_mul_of_nonneg_right he hη0
  have h7 : (2 * κ + 4 * eps p) * H ≤ η * H := mul_le_mul_of_nonneg_right hη (by linarith)
  have h8 : η * 1 ≤ η * H := mul_le_mul_of_nonneg_left hH hη0
  have h9 : eps p * 1 ≤ eps p * H := mul_le_mul_of_nonneg_left hH he0.le
  have h10 : 0 ≤ κ * H := mul_nonneg hκ0 (by linarith)
  linarith

/-- The error of a quotient of a tangent: `n / d` with `|n - N| ≤ η H`, `|N| ≤ H`, `|d - D| ≤ 2 η H`, for a denominator `D` far enough from zero. -/
theorem quotient_tan {p : ℕ} {n d : ℚ} {N D H η : ℝ} (he : eps p ≤ 1 / 1000) (heη : 4 * eps p ≤ η) (hn : |(n : ℝ) - N| ≤ η * H) (hN : |N| ≤ H) (hd : |(d : ℝ) - D| ≤ 2 * η * H) (hD : 4 * η * H ≤ D) (hD0 : 0 < D)
    (hDH : D ≤ 2 * H) : d ≠ 0 ∧ |((rnd p (n / d) : ℚ) : ℝ) - N / D| ≤ 10 * η * (H / D) ^ 2 := by
  have he0 := eps_real p
  have hH : 0 < H := by linarith
  have hη0 : 0 ≤ η := by linarith
  have hd2 : D / 2 ≤ (d : ℝ) := by have := (abs_le.1 hd).1; linarith
  have hd0 : (0 : ℝ) < d := by linarith
  refine ⟨by intro h; rw [h] at hd0; simp at hd0, ?_⟩
  set T := H / D with hT
  have hT2 : 1 / 2 ≤ T := by rw [hT, le_div_iff₀ hD0]; linarith
  have hTpos : 0 < T := by linarith
  have hND : |N / D| ≤ T := by rw [abs_div, abs_of_pos hD0, hT]; exact div_le_div_of_nonneg_right hN hD0.le
  have h1 : |(n : ℝ) / d - N / D| ≤ 2 * (η * T + 2 * η * T * T) := by
    have e : (n : ℝ) / d - N / D = ((n - N) - N / D * (d - D)) / d := by field_simp; ring
    rw [e, abs_div, abs_of_pos hd0, div_le_iff₀ hd0]
    have e1 : |(n : ℝ) - N - N / D * (d - D)| ≤ η * H + T * (2 * η * H) := by
      refine (abs_sub _ _).trans ?_
      rw [abs_mul]
      exact add_le_add hn (mul_le_mul hND hd (abs_nonneg _) hTpos.le)
    have e2 : H = T * D := by rw [hT]; field_simp
    have e3 : 2 * (η * T + 2 * η * T * T) * (D / 2) ≤ 2 * (η * T + 2 * η * T * T) * d := mul_le_mul_of_nonneg_left hd2 (by positivity)
    have e4 : η * H + T * (2 * η * H) = 2 * (η * T + 2 * η * T * T) * (D / 2) := by rw [e2]; ring
    linarith
  have h2 := rnd_err_real p (n / d)
  push_cast at h2
  have h3 : |(n : ℝ) / d| ≤ T + 2 * (η * T + 2 * η * T * T) := by
    have := abs_add_le (N / D) ((n : ℝ) / d - N / D)
    rw [add_sub_cancel] at this
    linarith
  have h4 := abs_add_le (((rnd p (n / d) : ℚ) : ℝ) - (n : ℝ) / d) ((n : ℝ) / d - N / D)
  rw [sub_add_sub_cancel] at h4
  have h5 : eps p * |(n : ℝ) / d| ≤ eps p * (T + 2 * (η * T + 2 * η * T * T)) := mul_le_mul_of_nonneg_left h3 he0.le
  have h6 : η * T ≤ 2 * (η * T * T) := by nlinarith [mul_nonneg hη0 hTpos.le]
  have h7 : eps p * (η * T * T) ≤ 1 / 1000 * (η * T * T) := mul_le_mul_of_nonneg_right he (by positivity)
  have h8 : eps p * (η * T) ≤ 1 / 1000 * (η * T) := mul_le_mul_of_nonneg_right he (by positivity)
  have h9 : 4 * eps p * T ≤ η * T := mul_le_mul_of_nonneg_right heη hTpos.le
  have h10 : 0 ≤ η * T * T := by positivity
  have h11 : 10 * η * T ^ 2 = 10 * (η * T * T) := by ring
  rw [h11]
  linarith

end Verif.Cell
