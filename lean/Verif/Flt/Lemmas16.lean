import Mathlib.Analysis.SpecialFunctions.Pow.Real
import Verif.Flt.Lemmas15
import Verif.Flt.Lemmas6
import Verif.Flt.Lemmas7

/-!
# Lemmas: the error of powers

Relative errors are differences of logarithms, so that they add up.
-/

namespace Verif.Flt
open Spec
open Verif.Arr (R)

/-- A relative error is an error of the logarithm. -/
theorem log_rel {z a δ : ℝ} (ha : 0 < a) (hδ : δ ≤ 1 / 2) (h : |z - a| ≤ δ * a) : 0 < z ∧ |Real.log z - Real.log a| ≤ 2 * δ := by
  have h1 := abs_le.1 h
  have hz : 0 < z := by nlinarith [h1.1]
  refine ⟨hz, ?_⟩
  have hδ0 : 0 ≤ δ := by
    by_contra hc
    have := abs_nonneg (z - a)
    nlinarith
  rw [← Real.log_div hz.ne' ha.ne']
  have hq : 0 < z / a := by positivity
  have hlo : 1 - δ ≤ z / a := by rw [le_div_iff₀ ha]; linarith [h1.1]
  have hhi : z / a ≤ 1 + δ := by rw [div_le_iff₀ ha]; linarith [h1.2]
  rw [abs_le]
  constructor
  · have := Real.one_sub_inv_le_log_of_pos hq
    have h7 : (z / a)⁻¹ ≤ 1 + 2 * δ := by
      rw [inv_le_iff_one_le_mul₀ hq]
      nlinarith
    linarith
  · have := Real.log_le_sub_one_of_pos hq
    linarith

theorem log_rnd {p : ℕ} (hp : 12 ≤ p) {q : ℚ} (h : 0 < q) : 0 < rnd p q ∧ |Real.log (rnd p q : ℚ) - Real.log q| ≤ 2 * eps p := by
  refine ⟨rnd_pos (by omega) h, ?_⟩
  have h' : (0 : ℝ) < q := by exact_mod_cast h
  have := rnd_err_real p q
  rw [abs_of_pos h'] at this
  exact (log_rel h' (by have := eps_small hp; linarith) this).2

theorem integerPower_log {c : Ctx} (hp : 12 ≤ c.p) {x : ℚ} (hx : 0 < x) (hf : IsFloat c.p x) (n : ℕ) :
    0 < integerPower c x n ∧ |Real.log (integerPower c x n : ℚ) - n * Real.log x| ≤ 2 * n * eps c.p := by
  have hes := eps_small hp
  have he := eps_real c.p
  obtain ⟨d, h1, h2, h3⟩ := power_error (x := x) (p := c.p) (by omega) (n + 1) n 0 0 1 1 (by omega) (by simp) (by simp) (by simp) (by simp)
  have h1 : integerPower c x n = x ^ n * d := by
    unfold integerPower
    rw [rnd_self (by omega) hf, rnd_one (by omega)]
    simpa using h1
  rw [show (0 + 1) * n + 0 = n by ring] at h2 h3
  have hl : (0 : ℚ) < 1 - 2 ^ (-(c.p : ℤ)) := by have := eps_4096 hp; linarith
  have hd : 0 < d := lt_of_lt_of_le (pow_pos hl n) h2
  refine ⟨by rw [h1]; positivity, ?_⟩
  have hx' : (0 : ℝ) < x := by exact_mod_cast hx
  have hd' : (0 : ℝ) < d := by exact_mod_cast hd
  rw [h1]
  push_cast
  rw [Real.log_mul (by positivity) (by positivity), Real.log_pow, add_sub_cancel_left]
  have h2' : (1 - eps c.p) ^ n ≤ (d : ℝ) := by
    have : (((1 - 2 ^ (-(c.p : ℤ))) ^ n : ℚ) : ℝ) ≤ d := by exact_mod_cast h2
    push_cast at this
    exact this
  have h3' : (d : ℝ) ≤ (1 + eps c.p) ^ n := by
    have : (d : ℝ) ≤ (((1 + 2 ^ (-(c.p : ℤ))) ^ n : ℚ) : ℝ) := by exact_mod_cast h3
    push_cast at this
    exact this
  have hn : (0 : ℝ) ≤ n := by positivity
  rw [abs_le]
  constructor
  · have h4 := Real.log_le_log (pow_pos (by linarith) n) h2'
    rw [Real.log_pow] at h4
    have h5 := Real.one_sub_inv_le_log_of_pos (show 0 < 1 - eps c.p by linarith)
    have h6 : (1 - eps c.p)⁻¹ ≤ 1 + 2 * eps c.p := by
      rw [inv_le_iff_one_le_mul₀ (by linarith)]
      nlinarith
    have h7 : (n : ℝ) * (-(2 * eps c.p)) ≤ n * Real.log (1 - eps c.p) := mul_le_mul_of_nonneg_left (by linarith) hn
    linarith
  · have h4 := Real.log_le_log hd' h3'
    rw [Real.log_pow] at h4
    have h5 := Real.log_le_sub_one_of_pos (show 0 < 1 + eps c.p by linarith)
    have h7 : (n : ℝ) * Real.log (1 + eps c.p) ≤ n * eps c.p := mul_le_mul_of_nonneg_left (by linarith) hn
    have h8 : 0 ≤ (n : ℝ) * eps c.p := by positivity
    linarith

/-- The fraction of the exponent is computed without an error. -/
theorem frac_exact {p : ℕ} (hp : 1 ≤ p) {e : ℚ} (h0 : 0 ≤ e) (hf : IsFloat p e) (h63 : e < 2 ^ 63) :
    ((int64Of e : ℕ) : ℚ) ≤ e ∧ e < (int64Of e : ℕ) + 1 ∧ sub p e (rnd p (int64Of e : ℕ)) = e - (int64Of e : ℕ) := by
  have hfl : 0 ≤ e.floor := by rw [floor_eq]; exact Int.floor_nonneg.2 h0
  have hn : ((int64Of e : ℕ) : ℚ) = (e.floor : ℤ) := by
    have h1 : e.floor < 2 ^ 63 := by rw [floor_eq, Int.floor_lt]; exact_mod_cast h63
    have h2 : int64Of e = e.floor.toNat := by unfold int64Of; omega
    rw [h2, ← Int.cast_natCast, Int.toNat_of_nonneg hfl]
  have h1 : ((int64Of e : ℕ) : ℚ) ≤ e := by rw [hn, floor_eq]; exact Int.floor_le e
  have h2 : e < (int64Of e : ℕ) + 1 := by rw [hn, floor_eq]; exact Int.lt_floor_add_one e
  refine ⟨h1, h2, ?_⟩
  set n := int64Of e with hnd
  have key : IsFloat p (n : ℚ) ∧ IsFloat p (e - n) := by
    by_cases hz : n = 0
    · rw [hz]; simpa using ⟨isFloat_zero p, hf⟩
    have hn1 : (1 : ℚ) ≤ n := by exact_mod_cast Nat.one_le_iff_ne_zero.2 hz
    have he1 : 0 < e := by linarith
    have hsp := expo_spec e he1.ne'
    rw [abs_of_pos he1] at hsp
    obtain ⟨k, hk⟩ := isFloat_mult hf (e := expo e) (by rw [abs_of_pos he1]; exact hsp.1)
    have hE : 1 ≤ expo e := by
      by_contra hc
      have : (2 : ℚ) ^ (expo e) ≤ 2 ^ (0 : ℤ) := zpow_le_zpow_right₀ (by norm_num) (by omega)
      rw [zpow_zero] at this
      linarith
    have hu : (0 : ℚ) < 2 ^ (expo e - (p : ℤ)) := two_zpow_pos _
    by_cases hpE : expo e ≤ p
    · obtain ⟨j, hj⟩ : ∃ j : ℕ, (j : ℤ) = p - expo e := ⟨(p - expo e).toNat, by omega⟩
      have hnk : (n : ℚ) = ((n * 2 ^ j : ℤ) : ℚ) * 2 ^ (expo e - (p : ℤ)) := by
        push_cast
        rw [show expo e - (p : ℤ) = -(j : ℤ) by omega, zpow_neg, zpow_natCast, mul_assoc, mul_inv_cancel₀ (by positivity), mul_one]
      have hkn : (n * 2 ^ j : ℤ) ≤ k := by
        have h3 : ((n * 2 ^ j : ℤ) : ℚ) * 2 ^ (expo e - (p : ℤ)) ≤ k * 2 ^ (expo e - (p : ℤ)) := by rw [← hnk, ← hk]; exact h1
        exact_mod_cast le_of_mul_le_mul_right h3 hu
      have hkp : k < 2 ^ p := by
        have h3 : (k : ℚ) * 2 ^ (expo e - (p : ℤ)) < 2 ^ p * 2 ^ (expo e - (p : ℤ)) := by
          rw [← hk, ← zpow_natCast, ← zpow_add₀ (by norm_num), show (p : ℤ) + (expo e - p) = expo e by ring]
          exact hsp.2
        exact_mod_cast lt_of_mul_lt_mul_right h3 hu.le
      have hpos : (0 : ℤ) ≤ n * 2 ^ j := by positivity
      refine ⟨⟨n * 2 ^ j, expo e - p, by rw [abs_of_nonneg hpos]; omega, hnk⟩, ⟨k - n * 2 ^ j, expo e - p, by rw [abs_of_nonneg (by omega)]; omega, ?_⟩⟩
      rw [Int.cast_sub, sub_mul, ← hnk, ← hk]
    · -- the number is whole
      obtain ⟨j, hj⟩ : ∃ j : ℕ, (j : ℤ) = expo e - p := ⟨(expo e - p).toNat, by omega⟩
      have hint : e = ((k * 2 ^ j : ℤ) : ℚ) := by
        rw [hk, ← hj]; push_cast; rw [zpow_natCast]
      have hen : e = n := by
        rw [hn, floor_eq]
        conv_rhs => rw [hint, Int.floor_intCast]
        exact hint
      rw [← hen, sub_self]
      exact ⟨hf, isFloat_zero p⟩
  unfold sub
  rw [rnd_self hp key.1, rnd_self hp key.2]

/-- The argument of the exponential function in a power. -/
theorem arg_err {p : ℕ} {x f l : ℚ} {L : ℝ} (hL : L ≤ 1 / 4) (hf0 : 0 ≤ f) (hf1 : f < 1) (hl : |(l : ℝ) - Real.log x| ≤ L) :
    |((mul p f l : ℚ) : ℝ) - f * Real.log x| ≤ L + eps p * (|Real.log x| + 1) := by
  have he := eps_real p
  have h := rnd_err_real p (f * l)
  unfold mul
  push_cast at h
  have hf0' : (0 : ℝ) ≤ f := by exact_mod_cast hf0
  have hf1' : (f : ℝ) ≤ 1 := by exact_mod_cast hf1.le
  have h1 := abs_add_le (((rnd p (f * l) : ℚ) : ℝ) - f * l) (f * (l - Real.log x))
  rw [show ((rnd p (f * l) : ℚ) : ℝ) - f * l + f * (l - Real.log x) = ((rnd p (f * l) : ℚ) : ℝ) - f * Real.log x by ring] at h1
  have h2 : |(f : ℝ) * (l - Real.log x)| ≤ L := by
    rw [abs_mul, abs_of_nonneg hf0']
    have := abs_nonneg ((l : ℝ) - Real.log x)
    nlinarith
  have h3 : |(f : ℝ) * l| ≤ |Real.log x| + 1 := by
    rw [abs_mul, abs_of_nonneg hf0']
    have h4 := abs_sub_abs_le_abs_sub (l : ℝ) (Real.log x)
    have h5 := abs_nonneg (l : ℝ)
    nlinarith
  have h4 : eps p * |(f : ℝ) * l| ≤ eps p * (|Real.log x| + 1) := mul_le_mul_of_nonneg_left h3 he.le
  linarith

/-- The cancellation in the series of the exponential function. -/
theorem exp_cancel {y a X : ℝ} (hX : 0 < X) (ha : 0 ≤ a ∧ a < 1) (h : |y - a * Real.log X| ≤ 1 / 4) :
    Real.exp |y| ≤ 2 * max 1 (X ^ (-2 : ℤ)) * Real.exp y ∧ (y ≤ 0 → Real.exp (2 * |y|) ≤ 2 * max 1 (X ^ (-2 : ℤ))) := by
  have hM : 1 ≤ max 1 (X ^ (-2 : ℤ)) := le_max_left _ _
  have key : y ≤ 0 → Real.exp (2 * |y|) ≤ 2 * max 1 (X ^ (-2 : ℤ)) := by
    intro hy
    rw [abs_of_nonpos hy]
    have h1 := (abs_le.1 h).1
    have hhalf : Real.exp (1 / 2) ≤ 2 := by
      have := Real.add_one_le_exp (-(1 / 2 : ℝ))
      rw [Real.exp_neg] at this
      have h2 := Real.exp_pos (1 / 2 : ℝ)
      rw [le_inv_comm₀ (by norm_num) h2] at this
      norm_num at this ⊢
      linarith
    by_cases h1X : 1 ≤ X
    · have : 0 ≤ a * Real.log X := mul_nonneg ha.1 (Real.log_nonneg h1X)
      calc Real.exp (2 * -y) ≤ Real.exp (1 / 2) := Real.exp_le_exp.2 (by linarith)
        _ ≤ 2 * max 1 (X ^ (-2 : ℤ)) := by linarith
    · have hlog : Real.log X ≤ 0 := Real.log_nonpos hX.le (by linarith)
      have h2 : a * Real.log X ≥ Real.log X := by nlinarith [ha.2]
      calc Real.exp (2 * -y) ≤ Real.exp (1 / 2 + -2 * Real.log X) := Real.exp_le_exp.2 (by linarith)
        _ = Real.exp (1 / 2) * X ^ (-2 : ℤ) := by
            rw [Real.exp_add]
            congr 1
            rw [← Real.exp_log (zpow_pos hX (-2 : ℤ)), Real.log_zpow]
            push_cast; ring_nf
        _ ≤ 2 * max 1 (X ^ (-2 : ℤ)) := mul_le_mul hhalf (le_max_right _ _) (by positivity) (by norm_num)
  refine ⟨?_, key⟩
  rcases le_total 0 y with hy | hy
  · rw [abs_of_nonneg hy]
    have := Real.exp_pos y
    nlinarith
  · have h1 := key hy
    rw [abs_of_nonpos hy] at h1 ⊢
    calc Real.exp (-y) = Real.exp (2 * -y) * Real.exp y := by rw [← Real.exp_add]; congr 1; ring
      _ ≤ _ := mul_le_mul_of_nonneg_right h1 (Real.exp_pos y).le

/-- The factor by which the errors grow for bases less than one. -/
noncomputable def growth (x : ℝ) : ℝ := max 1 (x ^ (-2 : ℤ))

/-- What a power may be off. -/
noncomputable def powerErr (p : ℕ) (x e : ℝ) : ℝ := (1000 * (p + 1) * growth x + 14 * |Real.log x| + 2 * |e|) * eps p

/-- The errors are small enough for the result to have a correct bit. -/
def PowerOk (p : ℕ) (x e : ℝ) : Prop := (1300 * (p + 1) * growth x + 60 * |Real.log x| + 2 * |e|) * eps p ≤ 1

theorem fraction_err {c : Ctx} (hp : 16 ≤ c.p) (hl : LogOk c) {x f l : ℚ} (hf : IsFloat c.p x) (hf0 : 0 ≤ f) (hf1 : f < 1) {fuel : ℕ}
    (hok : PowerOk c.p x 0) (hlog : floatLog c fuel x = .ok l) :
    |((mul c.p f l : ℚ) : ℝ) - f * Real.log x| ≤ (300 * (c.p + 1) + 1 + 13 * |Real.log x|) * eps c.p ∧ |((mul c.p f l : ℚ) : ℝ) - f * Real.log x| ≤ 1 / 4 := by
  have he := eps_real c.p
  have hM : (1 : ℝ) ≤ growth x := le_max_left _ _
  have h1 := floatLog_error hp hl hf hlog
  unfold PowerOk at hok
  rw [abs_zero] at hok
  have hp0 : (0 : ℝ) ≤ c.p := by positivity
  have ha := abs_nonneg (Real.log x)
  have hp1 : (16 : ℝ) ≤ c.p := by exact_mod_cast hp
  have h2 : (c.p + 1 : ℝ) * eps c.p ≤ (c.p + 1) * growth x * eps c.p := by
    have : (c.p + 1 : ℝ) ≤ (c.p + 1) * growth x := by nlinarith
    exact mul_le_mul_of_nonneg_right this he.le
  have h3 : 0 ≤ |Real.log x| * eps c.p := by positivity
  have h4 : (300 * ((c.p : ℝ) + 1) + 12 * |Real.log x|) * eps c.p ≤ 1 / 4 := by nlinarith
  have h5 := arg_err (p := c.p) h4 hf0 hf1 h1
  refine ⟨by linarith, ?_⟩
  have h6 : eps c.p ≤ (c.p + 1) * eps c.p := by nlinarith
  nlinarith

theorem fraction_log {c : Ctx} (hp : 16 ≤ c.p) (hl : LogOk c) {x f l r : ℚ} (hx : 0 < x) (hf : IsFloat c.p x) (hf0 : 0 ≤ f) (hf1 : f < 1) {fuel : ℕ}
    (hok : PowerOk c.p x 0) (hlog : floatLog c fuel x = .ok l) (hexp : exponential c fuel (mul c.p f l) = .ok r) :
    0 < r ∧ |Real.log r - f * Real.log x| ≤ (640 * (c.p + 1) * growth x + 300 * (c.p + 1) + 1 + 13 * |Real.log x|) * eps c.p := by
  have he := eps_real c.p
  have hx' : (0 : ℝ) < x := by exact_mod_cast hx
  obtain ⟨h1, h2⟩ := fraction_err hp hl hf hf0 hf1 hok hlog
  obtain ⟨h3, -⟩ := exp_cancel hx' ⟨by exact_mod_cast hf0, by exact_mod_cast hf1⟩ h2
  have h4 := exponential_error hp (rnd_isFloat (by omega) _) hexp
  change Real.exp _ ≤ 2 * growth x * _ at h3
  unfold PowerOk at hok
  rw [abs_zero] at hok
  have h3' : 0 ≤ |Real.log x| * eps c.p := by positivity
  have h5 : |(r : ℝ) - Real.exp (mul c.p f l : ℚ)| ≤ (320 * (c.p + 1) * growth x * eps c.p) * Real.exp (mul c.p f l : ℚ) := by
    refine le_trans h4 ?_
    calc 160 * ((c.p : ℝ) + 1) * eps c.p * Real.exp |((mul c.p f l : ℚ) : ℝ)| ≤ 160 * ((c.p : ℝ) + 1) * eps c.p * (2 * growth x * Real.exp (mul c.p f l : ℚ)) :=
          mul_le_mul_of_nonneg_left h3 (by positivity)
      _ = _ := by ring
  have hg0 : 0 ≤ ((c.p : ℝ) + 1) * growth x * eps c.p := by
    have : (0 : ℝ) ≤ growth x := le_trans zero_le_one (le_max_left _ _)
    positivity
  obtain ⟨h6, h7⟩ := log_rel (Real.exp_pos _) (by nlinarith) h5
  refine ⟨by exact_mod_cast h6, ?_⟩
  rw [Real.log_exp] at h7
  have h8 := abs_add_le (Real.log r - (mul c.p f l : ℚ)) (((mul c.p f l : ℚ) : ℝ) - f * Real.log x)
  rw [show Real.log r - (mul c.p f l : ℚ) + (((mul c.p f l : ℚ) : ℝ) - f * Real.log x) = Real.log r - f * Real.log x by ring] at h8
  linarith

theorem absOf_eq (q : ℚ) : absOf q = |q| := by
  unfold absOf
  split
  · rename_i h; rw [abs_of_neg h]
  · rename_i h; rw [abs_of_nonneg (not_lt.1 h)]

/-- The reciprocal for negative exponents. -/
theorem recip_log {p : ℕ} (hp : 12 ≤ p) {z r : ℚ} (hz : 0 < z) (h : quo p 1 z = .ok r) : 0 < r ∧ |Real.log r - -Real.log z| ≤ 2 * eps p := by
  rw [quo_ok hz.ne'] at h
  injection h with h
  subst h
  obtain ⟨h1, h2⟩ := log_rnd hp (show 0 < 1 / z by positivity)
  refine ⟨h1, ?_⟩
  push_cast at h2
  rwa [one_div (z : ℝ), Real.log_inv] at h2

theorem powerOk_zero {p : ℕ} {x e : ℝ} (h : PowerOk p x e) : PowerOk p x 0 := by
  unfold PowerOk at *
  have he := eps_real p
  have := abs_nonneg e
  rw [abs_zero]
  nlinarith

theorem floatPower_log {c : Ctx} (hp : 16 ≤ c.p) (hl : LogOk c) {x e r : Fl} (hx : 0 < x.val) (hxp : x.prec = c.p) (hf : IsFloat c.p x.val) (hef : IsFloat c.p e.val)
    (h63 : |e.val| < 2 ^ 63) (hok : PowerOk c.p x.val e.val) {fuel : ℕ} (hfu : 10 + c.p ≤ fuel) (h : floatPower c fuel x e = .ok r) :
    0 < r.val ∧ |Real.log r.val - e.val * Real.log x.val| ≤ powerErr c.p x.val e.val := by
  have hp1 : 1 ≤ c.p := by omega
  have he := eps_real c.p
  have hes := eps_small (show 12 ≤ c.p by omega)
  have hM : (1 : ℝ) ≤ growth x.val := le_max_left _ _
  have hx' : (0 : ℝ) < x.val := by exact_mod_cast hx
  have hp0 : (16 : ℝ) ≤ c.p := by exact_mod_cast hp
  have hpe : ∀ k : ℝ, k ≤ 1000 * (c.p + 1) * growth x.val + 14 * |Real.log x.val| + 2 * |(e.val : ℝ)| → k * eps c.p ≤ powerErr c.p x.val e.val :=
    fun k hk => mul_le_mul_of_nonneg_right hk he.le
  have ha := abs_nonneg (Real.log x.val)
  have hae := abs_nonneg (e.val : ℝ)
  have hpg : (17000 : ℝ) ≤ 1000 * (c.p + 1) * growth x.val := by nlinarith
  have hpg2 : (c.p + 1 : ℝ) ≤ (c.p + 1) * growth x.val := by nlinarith
  unfold floatPower at h
  rw [rnd_self hp1 hef] at h
  split at h
  · rename_i h0
    injection h with h
    subst h
    show (0 : ℚ) < rnd c.p 1 ∧ |Real.log (rnd c.p 1 : ℚ) - _| ≤ _
    rw [rnd_one hp1, h0]
    simp
    have := hpe 0 (by linarith)
    rw [h0] at this
    simpa using this
  rename_i h0
  split at h
  · cases h
  dsimp only at h
  rw [absOf_eq] at h
  split at h
  · rename_i h1
    injection h with h
    subst h
    rcases h1 with h1 | h1
    · refine ⟨hx, ?_⟩
      rw [h1]; simp
      have := hpe 0 (by linarith)
      rw [h1] at this
      simpa using this
    · linarith
  -- the sign of the exponent
  have sign : ∀ (z : ℚ) (K : ℝ), 0 < z → K + 2 ≤ 1000 * (c.p + 1) * growth x.val + 14 * |Real.log x.val| + 2 * |(e.val : ℝ)| →
      |Real.log z - |(e.val : ℝ)| * Real.log x.val| ≤ K * eps c.p →
      (if decide (0 ≤ e.val) = true then .ok ⟨c.p, z⟩ else (quo c.p 1 z).bind fun r => .ok ⟨c.p, r⟩ : R Fl) = .ok r →
      0 < r.val ∧ |Real.log r.val - e.val * Real.log x.val| ≤ powerErr c.p x.val e.val := by
    intro z K hz hK hzl hr
    split at hr
    · rename_i hpos
      injection hr with hr
      subst hr
      have hpos : (0 : ℝ) ≤ e.val := by exact_mod_cast of_decide_eq_true hpos
      rw [abs_of_nonneg hpos] at hzl
      exact ⟨hz, le_trans hzl (hpe K (by linarith))⟩
    · rename_i hpos
      obtain ⟨w, hw, hr⟩ := bind_eq_ok hr
      injection hr with hr
      subst hr
      have hneg : (e.val : ℝ) < 0 := by
        have : ¬ 0 ≤ e.val := fun hc => hpos (decide_eq_true hc)
        exact_mod_cast not_le.1 this
      rw [abs_of_neg hneg] at hzl
      obtain ⟨h1, h2⟩ := recip_log (by omega) hz hw
      refine ⟨h1, ?_⟩
      refine le_trans ?_ (hpe (K + 2) hK)
      have h3 := abs_add_le (Real.log w - -Real.log z) (-(Real.log z - -(e.val : ℝ) * Real.log x.val))
      rw [abs_neg, show Real.log w - -Real.log z + -(Real.log z - -(e.val : ℝ) * Real.log x.val) = Real.log w - e.val * Real.log x.val by ring] at h3
      show |Real.log w - e.val * Real.log x.val| ≤ _
      linarith
  have hcast : ((|e.val| : ℚ) : ℝ) = |(e.val : ℝ)| := by push_cast; rfl
  split at h
  · -- the square root
    rename_i hhalf
    rw [half_eq] at hhalf
    have hhalf' : |(e.val : ℝ)| = 1 / 2 := by rw [← hcast, hhalf]; push_cast; rfl
    obtain ⟨z, hz0, hzf, hzl, hzz⟩ := floatSqrt_ok (c := c) (by omega) hf hx (Real.sqrt_pos.2 hx') (Real.mul_self_sqrt hx'.le).symm
    have hxe : x = ⟨c.p, x.val⟩ := by rw [← hxp]
    rw [hxe, hzz fuel hfu, bindOk] at h
    have hz0' : (0 : ℝ) < z := by exact_mod_cast hz0
    have hs0 := Real.sqrt_pos.2 hx'
    have hul := ulp_le (p := c.p) hz0
    have h5 : |(z : ℝ) - Real.sqrt x.val| ≤ 4 * eps c.p * Real.sqrt x.val := by
      have h6 : (z : ℝ) ≤ 2 * Real.sqrt x.val := by
        have := (abs_le.1 hzl).2
        nlinarith
      nlinarith
    obtain ⟨-, h6⟩ := log_rel hs0 (by linarith) h5
    rw [Real.log_sqrt hx'.le] at h6
    exact sign z 8 hz0 (by linarith) (by rw [hhalf', show (1 / 2 : ℝ) * Real.log x.val = Real.log x.val / 2 by ring]; linarith) h
  rename_i hnh
  obtain ⟨f1, f2, f3⟩ := frac_exact hp1 (abs_nonneg e.val) (by rcases abs_choice e.val with h | h <;> rw [h] <;> [exact hef; exact isFloat_neg hef]) h63
  set n := int64Of |e.val| with hn
  obtain ⟨i1, i2⟩ := integerPower_log (c := c) (by omega) hx hf n
  have hne : (n : ℝ) ≤ |(e.val : ℝ)| := by
    have : ((n : ℚ) : ℝ) ≤ ((|e.val| : ℚ) : ℝ) := by exact_mod_cast f1
    rw [hcast] at this
    exact_mod_cast this
  obtain ⟨z, hz, h⟩ := bind_eq_ok h
  split at hz
  · rename_i hint
    injection hz with hz
    subst hz
    refine sign _ (2 * |(e.val : ℝ)|) i1 (by linarith) ?_ h
    have hen : |(e.val : ℝ)| = n := by rw [← hcast, hint]; push_cast; rfl
    rw [hen]
    exact i2
  · obtain ⟨l, hlog, hz⟩ := bind_eq_ok hz
    rw [f3] at hz
    obtain ⟨w, hexp, hz⟩ := bind_eq_ok hz
    injection hz with hz
    subst hz
    obtain ⟨w1, w2⟩ := fraction_log hp hl hx hf (f := |e.val| - n) (by linarith) (by linarith) (powerOk_zero hok) hlog hexp
    obtain ⟨m1, m2⟩ := log_rnd (p := c.p) (by omega) (mul_pos i1 w1)
    refine sign _ (2 * |(e.val : ℝ)| + 940 * (c.p + 1) * growth x.val + 3 + 13 * |Real.log x.val|) m1 (by nlinarith) ?_ h
    show |Real.log (rnd c.p (integerPower c x.val n * w) : ℚ) - _| ≤ _
    have i1' : (0 : ℝ) < (integerPower c x.val n : ℚ) := by exact_mod_cast i1
    have w1' : (0 : ℝ) < w := by exact_mod_cast w1
    push_cast at m2 w2
    rw [Real.log_mul i1'.ne' w1'.ne'] at m2
    have t1 := abs_add_le (Real.log (rnd c.p (integerPower c x.val n * w) : ℚ) - (Real.log (integerPower c x.val n : ℚ) + Real.log w))
      ((Real.log (integerPower c x.val n : ℚ) - n * Real.log x.val) + (Real.log w - (|(e.val : ℝ)| - n) * Real.log x.val))
    have t2 := abs_add_le (Real.log (integerPower c x.val n : ℚ) - n * Real.log x.val) (Real.log w - (|(e.val : ℝ)| - n) * Real.log x.val)
    rw [show Real.log (rnd c.p (integerPower c x.val n * w) : ℚ) - (Real.log (integerPower c x.val n : ℚ) + Real.log w) +
      ((Real.log (integerPower c x.val n : ℚ) - n * Real.log x.val) + (Real.log w - (|(e.val : ℝ)| - n) * Real.log x.val)) =
      Real.log (rnd c.p (integerPower c x.val n * w) : ℚ) - |(e.val : ℝ)| * Real.log x.val by ring] at t1
    have t3 : (n : ℝ) * eps c.p ≤ |(e.val : ℝ)| * eps c.p := mul_le_mul_of_nonneg_right hne he.le
    have t4 : (c.p + 1 : ℝ) * eps c.p ≤ (c.p + 1) * growth x.val * eps c.p := mul_le_mul_of_nonneg_right hpg2 he.le
    nlinarith

/-- The error as it is usually given. -/
theorem floatPower_error {c : Ctx} (hp : 16 ≤ c.p) (hl : LogOk c) {x e r : Fl} (hx : 0 < x.val) (hxp : x.prec = c.p) (hf : IsFloat c.p x.val) (hef : IsFloat c.p e.val)
    (h63 : |e.val| < 2 ^ 63) (hok : PowerOk c.p x.val e.val) {fuel : ℕ} (hfu : 10 + c.p ≤ fuel) (h : floatPower c fuel x e = .ok r) :
    |(r.val : ℝ) - (x.val : ℝ) ^ (e.val : ℝ)| ≤ 2 * powerErr c.p x.val e.val * (x.val : ℝ) ^ (e.val : ℝ) := by
  obtain ⟨h1, h2⟩ := floatPower_log hp hl hx hxp hf hef h63 hok hfu h
  have hx' : (0 : ℝ) < x.val := by exact_mod_cast hx
  have hr' : (0 : ℝ) < r.val := by exact_mod_cast h1
  have he := eps_real c.p
  have hM : (1 : ℝ) ≤ growth x.val := le_max_left _ _
  have hle : powerErr c.p x.val e.val ≤ 1 := by
    refine le_trans ?_ hok
    apply mul_le_mul_of_nonneg_right _ he.le
    have h3 : 0 ≤ ((c.p : ℝ) + 1) * growth x.val := by positivity
    have := abs_nonneg (Real.log x.val)
    linarith
  rw [Real.rpow_def_of_pos hx', mul_comm (Real.log _)]
  set t := Real.log r.val - e.val * Real.log x.val with ht
  have h3 : (r.val : ℝ) = Real.exp t * Real.exp (e.val * Real.log x.val) := by
    rw [← Real.exp_add, ht, sub_add_cancel, Real.exp_log hr']
  have h4 := Real.abs_exp_sub_one_le (x := t) (by linarith)
  have h5 := Real.exp_pos (e.val * Real.log x.val)
  rw [h3, show Real.exp t * Real.exp (e.val * Real.log x.val) - Real.exp (e.val * Real.log x.val) = (Real.exp t - 1) * Real.exp (e.val * Real.log x.val) by ring, abs_mul, abs_of_pos h5]
  exact mul_le_mul_of_nonneg_right (by linarith) h5.le

/-- There is a power. -/
theorem floatPower_ok {c : Ctx} (hp : 16 ≤ c.p) (hl : LogOk c) {x e : Fl} (hx : 0 < x.val) (hxp : x.prec = c.p) (hf : IsFloat c.p x.val) (hef : IsFloat c.p e.val)
    (h63 : |e.val| < 2 ^ 63) (hok : PowerOk c.p x.val e.val) (hbig : Real.log x.val ≤ 2 * c.p - 1) {fuel : ℕ} (hfu : 10 + 40 * c.p ≤ fuel) :
    ∃ r, floatPower c fuel x e = .ok r := by
  have hp1 : 1 ≤ c.p := by omega
  have he := eps_real c.p
  have hx' : (0 : ℝ) < x.val := by exact_mod_cast hx
  have recip : ∀ z : ℚ, 0 < z → ∃ r, (if decide (0 ≤ e.val) = true then .ok ⟨c.p, z⟩ else (quo c.p 1 z).bind fun r => .ok ⟨c.p, r⟩ : R Fl) = .ok r := by
    intro z hz
    split
    · exact ⟨_, rfl⟩
    · rw [quo_ok hz.ne']; exact ⟨_, rfl⟩
  unfold floatPower
  rw [rnd_self hp1 hef]
  split
  · exact ⟨_, rfl⟩
  split
  · rename_i h; linarith [h.2]
  dsimp only
  rw [absOf_eq]
  split
  · exact ⟨_, rfl⟩
  split
  · obtain ⟨z, hz0, hzf, hzl, hzz⟩ := floatSqrt_ok (c := c) (by omega) hf hx (Real.sqrt_pos.2 hx') (Real.mul_self_sqrt hx'.le).symm
    have hxe : x = ⟨c.p, x.val⟩ := by rw [← hxp]
    rw [hxe, hzz fuel (by omega), bindOk]
    exact recip z hz0
  obtain ⟨f1, f2, f3⟩ := frac_exact hp1 (abs_nonneg e.val) (by rcases abs_choice e.val with h | h <;> rw [h] <;> [exact hef; exact isFloat_neg hef]) h63
  set n := int64Of |e.val| with hn
  obtain ⟨i1, -⟩ := integerPower_log (c := c) (by omega) hx hf n
  split
  · rw [bindOk]; exact recip _ i1
  · obtain ⟨l, hlog⟩ := floatLog_ok hp hx hf hfu
    obtain ⟨e1, e2⟩ := fraction_err hp hl hf (f := |e.val| - n) (by linarith) (by linarith) (powerOk_zero hok) hlog
    have hfr0 : (0 : ℝ) ≤ ((|e.val| - n : ℚ) : ℝ) := by exact_mod_cast (by linarith : (0 : ℚ) ≤ |e.val| - n)
    have hfr1 : ((|e.val| - n : ℚ) : ℝ) < 1 := by exact_mod_cast (by linarith : |e.val| - n < 1)
    obtain ⟨-, k2⟩ := exp_cancel hx' ⟨hfr0, hfr1⟩ e2
    obtain ⟨w, hexp⟩ : ∃ w, exponential c fuel (mul c.p (|e.val| - n) l) = .ok w := by
      rcases le_total 0 (mul c.p (|e.val| - n) l) with hy | hy
      · refine exponential_ok hp (rnd_isFloat hp1 _) hy ?_ (by omega)
        have h1 := (abs_le.1 e2).2
        have h2 : ((|e.val| - n : ℚ) : ℝ) * Real.log x.val ≤ 2 * c.p - 1 := by
          rcases le_total 0 (Real.log x.val) with h3 | h3
          · nlinarith
          · have : (16 : ℝ) ≤ c.p := by exact_mod_cast hp
            nlinarith
        have h3 : ((mul c.p (|e.val| - n) l : ℚ) : ℝ) ≤ ((2 * c.p : ℚ) : ℝ) := by push_cast at *; linarith
        exact_mod_cast h3
      · refine exponential_ok_neg hp (rnd_isFloat hp1 _) hy ?_ (by omega)
        have h1 := k2 (by exact_mod_cast hy)
        have h0 := powerOk_zero hok
        unfold PowerOk at h0
        rw [abs_zero] at h0
        change _ ≤ 2 * growth x.val at h1
        have h2 : 440 * ((c.p : ℝ) + 1) * eps c.p * Real.exp (2 * |((mul c.p (|e.val| - n) l : ℚ) : ℝ)|) ≤ 440 * ((c.p : ℝ) + 1) * eps c.p * (2 * growth x.val) :=
          mul_le_mul_of_nonneg_left h1 (by positivity)
        have h3 : 0 ≤ |Real.log x.val| * eps c.p := by positivity
        have hg0 : 0 ≤ ((c.p : ℝ) + 1) * growth x.val * eps c.p := by
          have : (0 : ℝ) ≤ growth x.val := le_trans zero_le_one (le_max_left _ _)
          positivity
        refine le_trans h2 ?_
        nlinarith
    obtain ⟨w1, -⟩ := fraction_log hp hl hx hf (f := |e.val| - n) (by linarith) (by linarith) (powerOk_zero hok) hlog hexp
    rw [hlog, bindOk, f3, hexp, bindOk, bindOk]
    exact recip _ (log_rnd (p := c.p) (by omega) (mul_pos i1 w1)).1

end Verif.Flt
