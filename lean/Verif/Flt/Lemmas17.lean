import Mathlib.Analysis.SpecialFunctions.Complex.Arctan
import Mathlib.Analysis.SpecialFunctions.Trigonometric.ArctanDeriv
import Verif.Flt.Lemmas16

/-! # Lemmas: the error of the arc tangent -/

namespace Verif.Flt
open Spec Finset
open Verif.Arr (R)

/-- The terms of the series. -/
noncomputable def atanTerm (y : ℝ) (i : ℕ) : ℝ := (-1) ^ i * y ^ (2 * i + 1) / ((2 * i + 1 : ℕ) : ℝ)

theorem atanTerm_abs {y : ℝ} (hy : 0 ≤ y) (i : ℕ) : |atanTerm y i| = y ^ (2 * i + 1) / ((2 * i + 1 : ℕ) : ℝ) := by
  unfold atanTerm
  rw [abs_div, abs_mul, abs_pow, abs_neg, abs_one, one_pow, one_mul, abs_of_nonneg (pow_nonneg hy _), abs_of_nonneg (Nat.cast_nonneg _)]

theorem atanTerm_half {y : ℝ} (hy : 0 ≤ y) (h : y ≤ 0.668) (k : ℕ) : |atanTerm y (k + 1)| ≤ 1 / 2 * |atanTerm y k| := by
  rw [atanTerm_abs hy, atanTerm_abs hy, show 2 * (k + 1) + 1 = 2 * k + 1 + 2 by ring, pow_add]
  have h1 : y ^ 2 ≤ 1 / 2 := by nlinarith
  calc y ^ (2 * k + 1) * y ^ 2 / ((2 * k + 1 + 2 : ℕ) : ℝ) ≤ y ^ (2 * k + 1) * (1 / 2) / ((2 * k + 1 : ℕ) : ℝ) :=
        div_le_div₀ (by positivity) (mul_le_mul_of_nonneg_left h1 (by positivity)) (by positivity) (by push_cast; linarith)
    _ = 1 / 2 * (y ^ (2 * k + 1) / ((2 * k + 1 : ℕ) : ℝ)) := by ring

theorem atanTerm_one {y : ℝ} (hy : 0 ≤ y) (h : y ≤ 0.668) : |atanTerm y 1| ≤ 0.15 * |atanTerm y 0| := by
  rw [atanTerm_abs hy, atanTerm_abs hy]
  norm_num
  rw [show y ^ 3 = y * y ^ 2 by ring]
  have h1 : y ^ 2 ≤ 0.45 := by nlinarith
  nlinarith

/-- The first term dominates. -/
theorem first_term {t : ℕ → ℝ} (h : ∀ k, |t (k + 1)| ≤ 1 / 2 * |t k|) (h1 : |t 1| ≤ 0.15 * |t 0|) (n : ℕ) :
    ∑ j ∈ range n, |t (j + 1)| ≤ 0.3 * |t 0| := by
  have key : ∀ n, ∑ j ∈ range n, |t (j + 1)| ≤ 2 * |t 1| - 2 * |t (n + 1)| := by
    intro n
    induction n with
    | zero => simp
    | succ n ih =>
      rw [sum_range_succ]
      have := h (n + 1)
      linarith
  have := key n
  have := abs_nonneg (t (n + 1))
  linarith

theorem first_sum {t : ℕ → ℝ} {S0 : ℝ} (h : ∀ k, |t (k + 1)| ≤ 1 / 2 * |t k|) (h1 : |t 1| ≤ 0.15 * |t 0|) (n : ℕ) :
    asum S0 t (n + 1) ≤ |S0| + 1.3 * |t 0| ∧ |psum S0 t (n + 1) - (S0 + t 0)| ≤ 0.3 * |t 0| := by
  have h2 := first_term h h1 n
  unfold asum psum
  rw [sum_range_succ', sum_range_succ']
  refine ⟨by linarith, ?_⟩
  rw [show S0 + (∑ k ∈ range n, t (k + 1) + t 0) - (S0 + t 0) = ∑ k ∈ range n, t (k + 1) by ring]
  exact le_trans (abs_sum_le_sum_abs _ _) h2

/-! ## The loops -/

/-- The power in the loops. -/
def AtanInv (c : Ctx) (x : ℚ) (i : ℕ) (s : ℚ × ℚ) : Prop := IsFloat c.p s.1 ∧ Near c.p (2 * i) s.1 ((-1) ^ i * (x : ℝ) ^ (2 * i + 1))

theorem atan_bits {c : Ctx} (hp : 16 ≤ c.p) : ((10 + 4 * c.p : ℕ) : ℝ) * eps c.p ≤ 1 / 96 := by
  have := bits_eps hp
  have := eps_real c.p
  push_cast
  nlinarith

theorem atan_odd {c : Ctx} (hp : 16 ≤ c.p) {i : ℕ} (hi : i < 10 + 4 * c.p) : rnd c.p (2 * (i : ℚ) + 1) = ((2 * i + 1 : ℕ) : ℚ) := by
  have h1 := bits_pow hp
  have h2 : IsFloat c.p (((2 * i + 1 : ℕ) : ℤ) : ℚ) := by
    apply isFloat_int
    rw [abs_of_nonneg (by positivity)]
    have : 2 * i + 1 < 2 ^ c.p := by omega
    exact_mod_cast this
  rw [show 2 * (i : ℚ) + 1 = (((2 * i + 1 : ℕ) : ℤ) : ℚ) by push_cast; ring, rnd_self (by omega) h2]
  simp

theorem atan_next {c : Ctx} (hp : 16 ≤ c.p) {x : ℚ} {i : ℕ} {s : ℚ × ℚ} (h : AtanInv c x i s) (z : ℚ) : AtanInv c x (i + 1) (mul c.p (-s.1) (mul c.p x x), z) := by
  have hp12 : 12 ≤ c.p := by omega
  refine ⟨rnd_isFloat (by omega) _, ?_⟩
  show Near c.p (2 * (i + 1)) (rnd c.p (-s.1 * mul c.p x x) : ℚ) _
  apply near_rnd hp12 (k := 2 * i + 1)
  push_cast
  rw [show (-1 : ℝ) ^ (i + 1) * (x : ℝ) ^ (2 * (i + 1) + 1) = -((-1) ^ i * (x : ℝ) ^ (2 * i + 1)) * (x * x) by ring]
  apply near_mul hp12 (near_neg h.2)
  apply near_rnd hp12 (k := 0)
  push_cast
  exact near_refl _

theorem atan_adds {c : Ctx} (hp : 16 ≤ c.p) (x : ℚ) :
    Adds c (atanBody c) Prod.snd (fun _ => atanAdvance c (mul c.p x x)) (10 + 4 * c.p) (AtanInv c x) (fun i s => rnd c.p (rnd c.p s.1 / rnd c.p (2 * (i : ℚ) + 1))) (atanTerm x)
      (2 * (2 * (10 + 4 * c.p) : ℕ) * eps c.p) := by
  intro i s h hi
  have hp12 : 12 ≤ c.p := by omega
  have hodd := atan_odd hp hi
  have hne : rnd c.p (2 * (i : ℚ) + 1) ≠ 0 := by rw [hodd]; positivity
  refine ⟨(-s.1, add c.p s.2 (rnd c.p (rnd c.p s.1 / rnd c.p (2 * (i : ℚ) + 1)))), (mul c.p (-s.1) (mul c.p x x), add c.p s.2 (rnd c.p (rnd c.p s.1 / rnd c.p (2 * (i : ℚ) + 1)))), ?_, rfl, ?_, rfl, rfl, atan_next hp h _⟩
  · unfold atanBody
    rw [quo_ok hne, bindOk]
  · refine near_err hp12 ?_ ?_
    · have := atan_bits hp
      push_cast at this ⊢
      linarith
    · refine near_mono hp12 (k := 2 * i + 1) (by omega) ?_
      unfold atanTerm
      dsimp only
      rw [rnd_self (by omega) h.1, hodd]
      apply near_rnd hp12
      push_cast
      simpa using near_div hp12 h.2 (near_refl (p := c.p) (2 * (i : ℝ) + 1))

theorem atanLarge_adds {c : Ctx} (hp : 16 ≤ c.p) {x : ℚ} (hx : 0 < x) :
    Adds c (atanLargeBody c) Prod.snd (fun _ => atanAdvance c (mul c.p x x)) (10 + 4 * c.p) (AtanInv c x)
      (fun i s => rnd c.p (1 / mul c.p (rnd c.p (-s.1)) (rnd c.p (2 * (i : ℚ) + 1)))) (fun i => -atanTerm (x : ℝ)⁻¹ i) (2 * (2 * (10 + 4 * c.p) : ℕ) * eps c.p) := by
  intro i s h hi
  have hp12 : 12 ≤ c.p := by omega
  have hodd := atan_odd hp hi
  have hx' : (0 : ℝ) < x := by exact_mod_cast hx
  have hs : (s.1 : ℝ) ≠ 0 := near_ne hp12 h.2 (mul_ne_zero (pow_ne_zero _ (by norm_num)) (pow_ne_zero _ hx'.ne'))
  have hs' : s.1 ≠ 0 := by exact_mod_cast hs
  have hne : mul c.p (rnd c.p (-s.1)) (rnd c.p (2 * (i : ℚ) + 1)) ≠ 0 := by
    unfold mul
    apply rnd_ne_zero (by omega)
    rw [hodd, rnd_self (by omega) (isFloat_neg h.1)]
    exact mul_ne_zero (neg_ne_zero.2 hs') (by positivity)
  refine ⟨(-s.1, add c.p s.2 (rnd c.p (1 / mul c.p (rnd c.p (-s.1)) (rnd c.p (2 * (i : ℚ) + 1))))), (mul c.p (-s.1) (mul c.p x x), add c.p s.2 (rnd c.p (1 / mul c.p (rnd c.p (-s.1)) (rnd c.p (2 * (i : ℚ) + 1))))), ?_, rfl, ?_, rfl, rfl, atan_next hp h _⟩
  · unfold atanLargeBody
    rw [quo_ok hne, bindOk]
  · refine near_err hp12 ?_ ?_
    · have := atan_bits hp
      push_cast at this ⊢
      linarith
    · refine near_mono hp12 (k := (2 * i + 1) + 1) (by omega) ?_
      have e : -atanTerm (x : ℝ)⁻¹ i = ((-((-1) ^ i * (x : ℝ) ^ (2 * i + 1))) * ((2 * i + 1 : ℕ) : ℝ))⁻¹ := by
        unfold atanTerm
        rw [inv_pow, mul_inv, ← neg_inv, mul_inv]
        have : ((-1 : ℝ) ^ i)⁻¹ = (-1) ^ i := by rw [← inv_pow]; norm_num
        rw [this]
        ring
      dsimp only
      rw [e]
      apply near_rnd hp12
      rw [one_div, Rat.cast_inv]
      apply near_inv hp12
      unfold mul
      apply near_rnd hp12
      rw [rnd_self (by omega) (isFloat_neg h.1), hodd]
      push_cast
      simpa using near_mul hp12 (near_neg h.2) (near_refl (p := c.p) (2 * (i : ℝ) + 1))

/-! ## Small arguments -/

theorem atanSmall_sum {x : ℝ} (h0 : 0 ≤ x) (h : x ≤ 0.668) (n : ℕ) : asum 0 (atanTerm x) n ≤ 4 * |psum 0 (atanTerm x) n| ∧ asum 0 (atanTerm x) n ≤ 1.3 * x := by
  have ht0 : |atanTerm x 0| = x := by rw [atanTerm_abs h0]; simp
  cases n with
  | zero => simp [asum, psum]; linarith
  | succ n =>
    obtain ⟨h1, h2⟩ := first_sum (S0 := 0) (atanTerm_half h0 h) (atanTerm_one h0 h) n
    rw [ht0] at h1 h2
    rw [abs_zero, zero_add] at h1
    refine ⟨?_, h1⟩
    rw [zero_add] at h2
    have h3 := abs_sub_abs_le_abs_sub (atanTerm x 0) (psum 0 (atanTerm x) (n + 1))
    rw [abs_sub_comm, ht0] at h3
    linarith

theorem atan_start {c : Ctx} (hp : 16 ≤ c.p) {x : ℚ} (hf : IsFloat c.p x) (z : ℚ) : AtanInv c x 0 (rnd c.p x, z) := by
  show IsFloat c.p (rnd c.p x) ∧ Near c.p (2 * 0) (rnd c.p x : ℚ) ((-1) ^ 0 * (x : ℝ) ^ (2 * 0 + 1))
  rw [rnd_self (by omega) hf]
  simp only [mul_zero, pow_zero, zero_add, pow_one, one_mul]
  exact ⟨hf, near_refl _⟩

theorem atanSmall_error {c : Ctx} (hp : 16 ≤ c.p) {x : ℚ} (hf : IsFloat c.p x) (h0 : 0 ≤ x) (h : (x : ℝ) ≤ 0.668) {fuel : ℕ} {z : ℚ} (hz : atanSmall c fuel x = .ok z) :
    |(z : ℝ) - Real.arctan x| ≤ 120 * (c.p + 1) * eps c.p * x := by
  have he := eps_real c.p
  have h0' : (0 : ℝ) ≤ x := by exact_mod_cast h0
  unfold atanSmall at hz
  obtain ⟨s, hs, hz⟩ := bind_eq_ok hz
  injection hz with hz
  subst hz
  obtain ⟨n, hn⟩ := geo_end (S0 := 0) (L := Real.arctan x) (by omega) (by omega) (atan_bits hp) (atan_adds hp x) (atanTerm_half h0' h)
    (by rw [sub_zero]; exact Real.hasSum_arctan (by rw [Real.norm_eq_abs, abs_of_nonneg h0']; linarith)) (fun n => (atanSmall_sum h0' h n).1)
    (sum_start 4 (atan_start hp hf 0) (isFloat_zero _) (by simp) rfl (by positivity)) hs
  refine le_trans hn ?_
  have h1 := (atanSmall_sum h0' h n).2
  push_cast
  have h2 : 9 * (10 + 4 * (c.p : ℝ)) * eps c.p * asum 0 (atanTerm x) n ≤ 9 * (10 + 4 * (c.p : ℝ)) * eps c.p * (1.3 * x) := mul_le_mul_of_nonneg_left h1 (by positivity)
  have h3 : 0 ≤ eps c.p * x := by positivity
  have h4 : 0 ≤ (c.p : ℝ) * (eps c.p * x) := by positivity
  nlinarith

theorem atan_tiny {y : ℝ} (hy : 0 ≤ y) (h : y ≤ 0.668) (p : ℕ) : |atanTerm y (p + 6)| ≤ eps p / 64 * y := by
  rw [atanTerm_abs hy, pow_succ, pow_mul]
  have h3 : (y ^ 2) ^ (p + 6) ≤ (1 / 2) ^ (p + 6) := pow_le_pow_left₀ (by positivity) (by nlinarith) _
  have h4 : ((1 : ℝ) / 2) ^ p = eps p := by unfold eps; rw [zpow_neg, zpow_natCast, one_div, inv_pow]
  rw [pow_add (1 / 2 : ℝ), h4] at h3
  calc (y ^ 2) ^ (p + 6) * y / ((2 * (p + 6) + 1 : ℕ) : ℝ) ≤ (y ^ 2) ^ (p + 6) * y := div_le_self (by positivity) (by push_cast; linarith [(by positivity : (0 : ℝ) ≤ p)])
    _ ≤ (eps p * (1 / 2) ^ 6) * y := mul_le_mul_of_nonneg_right h3 hy
    _ = eps p / 64 * y := by ring

theorem atanSmall_ok {c : Ctx} (hp : 16 ≤ c.p) {x : ℚ} (hf : IsFloat c.p x) (h0 : 0 ≤ x) (h : (x : ℝ) ≤ 0.668) {fuel : ℕ} (hfu : 10 + 4 * c.p ≤ fuel) :
    ∃ z, atanSmall c fuel x = .ok z := by
  have he := eps_real c.p
  have h0' : (0 : ℝ) ≤ x := by exact_mod_cast h0
  have ht0 : |atanTerm (x : ℝ) 0| = x := by rw [atanTerm_abs h0']; simp
  obtain ⟨s, hs⟩ := geo_ok (S0 := 0) (by omega) (atan_bits hp) (atan_adds hp x) (fun n => (atanSmall_sum h0' h n).1) (n := c.p + 6) (by omega) (by omega)
    (by
      refine le_trans (atan_tiny h0' h c.p) (mul_le_mul_of_nonneg_left ?_ (by positivity))
      refine le_trans ?_ (asum_mono 0 (atanTerm (x : ℝ)) (m := 1) (by omega))
      unfold asum
      rw [sum_range_one, ht0, abs_zero, zero_add]) 4 rfl hfu (atan_start hp hf 0) (isFloat_zero _) (by simp)
  unfold atanSmall
  rw [hs]
  exact ⟨_, rfl⟩

/-! ## Large arguments -/

/-- A part of π. -/
theorem pi_part {c : Ctx} (hp : 16 ≤ c.p) (hpi : PiOk c) {q z : ℚ} (k : ℕ) (hq : rnd c.p q = 2 ^ k) (hz : quo c.p (rnd c.p c.pi) (rnd c.p q) = .ok z) :
    IsFloat c.p z ∧ |(z : ℝ) - Real.pi / 2 ^ k| ≤ 12 * eps c.p / 2 ^ k := by
  have he := eps_real c.p
  have hes := eps_small (show 12 ≤ c.p by omega)
  have hpi' := abs_le.1 hpi
  have h4 := Real.pi_le_four
  have h3 := Real.pi_gt_three
  rw [hq, quo_ok (by positivity)] at hz
  injection hz with hz
  subst hz
  refine ⟨rnd_isFloat (by omega) _, ?_⟩
  have e1 : rnd c.p (rnd c.p c.pi / 2 ^ k) = rnd c.p c.pi / 2 ^ k := by
    rw [rnd_self (by omega)]
    have := isFloat_scale (rnd_isFloat (by omega : 1 ≤ c.p) c.pi) (-(k : ℤ))
    rwa [zpow_neg, zpow_natCast, ← div_eq_mul_inv] at this
  rw [e1]
  push_cast
  have h5 := rnd_err_real c.p c.pi
  have h6 : |(c.pi : ℝ)| ≤ 5 := abs_le.2 ⟨by linarith [hpi'.1], by linarith [hpi'.2]⟩
  have h7 : |((rnd c.p c.pi : ℚ) : ℝ) - Real.pi| ≤ 12 * eps c.p := by
    have h8 := abs_add_le (((rnd c.p c.pi : ℚ) : ℝ) - c.pi) ((c.pi : ℝ) - Real.pi)
    rw [show ((rnd c.p c.pi : ℚ) : ℝ) - c.pi + ((c.pi : ℝ) - Real.pi) = ((rnd c.p c.pi : ℚ) : ℝ) - Real.pi by ring] at h8
    have h9 : |(c.pi : ℝ) - Real.pi| ≤ 4 * eps c.p := hpi
    have h10 : eps c.p * |(c.pi : ℝ)| ≤ eps c.p * 5 := mul_le_mul_of_nonneg_left h6 he.le
    linarith
  rw [← sub_div, abs_div, abs_of_pos (show (0 : ℝ) < 2 ^ k by positivity)]
  exact div_le_div_of_nonneg_right h7 (by positivity)

theorem atanLarge_sum {y S0 : ℝ} (h0 : 0 ≤ y) (h : y ≤ 0.668) (hS : 1.569 ≤ S0) (hS' : S0 ≤ 1.6) (n : ℕ) :
    asum S0 (fun i => -atanTerm y i) n ≤ 4 * |psum S0 (fun i => -atanTerm y i) n| ∧ asum S0 (fun i => -atanTerm y i) n ≤ 2.5 := by
  have ht0 : atanTerm y 0 = y := by unfold atanTerm; simp
  cases n with
  | zero =>
    simp [asum, psum]
    rw [abs_of_pos (by linarith)]
    constructor <;> linarith
  | succ n =>
    obtain ⟨h1, h2⟩ := first_sum (S0 := S0) (t := fun i => -atanTerm y i) (fun k => by simp only [abs_neg]; exact atanTerm_half h0 h k) (by simp only [abs_neg]; exact atanTerm_one h0 h) n
    simp only [ht0, abs_neg] at h1 h2
    rw [abs_of_nonneg h0] at h1 h2
    rw [abs_of_pos (by linarith : (0 : ℝ) < S0)] at h1
    have h3 := (abs_le.1 h2).1
    have h4 := le_abs_self (psum S0 (fun i => -atanTerm y i) (n + 1))
    constructor <;> linarith

theorem half_pi {S0 e : ℝ} (he : e ≤ 1 / 4096) (h : |S0 - Real.pi / 2| ≤ 6 * e) : 1.569 ≤ S0 ∧ S0 ≤ 1.6 := by
  have h1 := abs_le.1 h
  have h2 := Real.pi_gt_d4
  have h3 := Real.pi_lt_d4
  constructor <;> linarith [h1.1, h1.2]

theorem floatAtanLarge_ok {c : Ctx} (hp : 16 ≤ c.p) (hpi : PiOk c) {x : ℚ} (hf : IsFloat c.p x) (h : (1.4995 : ℝ) ≤ x) {fuel : ℕ} (hfu : 10 + 4 * c.p ≤ fuel) :
    ∃ z, floatAtanLarge c fuel x = .ok z ∧ |(z : ℝ) - Real.arctan x| ≤ 250 * (c.p + 1) * eps c.p := by
  have he := eps_real c.p
  have hes := eps_small (show 12 ≤ c.p by omega)
  have hx' : (0 : ℝ) < x := by linarith
  have hx : 0 < x := by exact_mod_cast hx'
  have h0' : (0 : ℝ) ≤ (x : ℝ)⁻¹ := by positivity
  have h1' : (x : ℝ)⁻¹ ≤ 0.668 := by
    rw [inv_le_iff_one_le_mul₀ hx']
    linarith
  have h2 : rnd c.p 2 = 2 ^ 1 := by rw [rnd_two (by omega)]; norm_num
  obtain ⟨z0, hz0⟩ : ∃ z, quo c.p (rnd c.p c.pi) (rnd c.p 2) = .ok z := by rw [h2, quo_ok (by norm_num)]; exact ⟨_, rfl⟩
  obtain ⟨hzf, hzp⟩ := pi_part hp hpi 1 h2 hz0
  rw [pow_one] at hzp
  have hzp : |(z0 : ℝ) - Real.pi / 2| ≤ 6 * eps c.p := by linarith
  obtain ⟨s1, s2⟩ := half_pi hes hzp
  obtain ⟨s, hs⟩ := geo_ok (S0 := (z0 : ℝ)) (by omega) (atan_bits hp) (atanLarge_adds hp hx) (fun n => (atanLarge_sum h0' h1' s1 s2 n).1) (n := c.p + 6) (by omega) (by omega)
    (by
      rw [abs_neg]
      refine le_trans (atan_tiny h0' h1' c.p) (mul_le_mul_of_nonneg_left ?_ (by positivity))
      refine le_trans ?_ (asum_mono (z0 : ℝ) (fun i => -atanTerm (x : ℝ)⁻¹ i) (m := 0) (by omega))
      unfold asum
      rw [sum_range_zero, abs_of_pos (by linarith)]
      linarith) 4 rfl hfu (atan_start hp hf z0) hzf rfl
  refine ⟨s.2, by unfold floatAtanLarge; rw [hz0, bindOk, hs]; rfl, ?_⟩
  have hsum : HasSum (fun i => -atanTerm (x : ℝ)⁻¹ i) (((z0 : ℝ) - Real.pi / 2 + Real.arctan x) - z0) := by
    have := (Real.hasSum_arctan (x := (x : ℝ)⁻¹) (by rw [Real.norm_eq_abs, abs_of_nonneg h0']; linarith)).neg
    rw [Real.arctan_inv_of_pos hx'] at this
    rw [show ((z0 : ℝ) - Real.pi / 2 + Real.arctan x) - z0 = -(Real.pi / 2 - Real.arctan x) by ring]
    exact this
  obtain ⟨n, hn⟩ := geo_end (S0 := (z0 : ℝ)) (L := (z0 : ℝ) - Real.pi / 2 + Real.arctan x) (by omega) (by omega) (atan_bits hp) (atanLarge_adds hp hx)
    (fun k => by simp only [abs_neg]; exact atanTerm_half h0' h1' k) hsum (fun n => (atanLarge_sum h0' h1' s1 s2 n).1)
    (sum_start 4 (atan_start hp hf z0) hzf rfl rfl (by positivity)) hs
  have h1 := (atanLarge_sum h0' h1' s1 s2 n).2
  have h3 : 9 * (10 + 4 * (c.p : ℝ)) * eps c.p * asum z0 (fun i => -atanTerm (x : ℝ)⁻¹ i) n ≤ 9 * (10 + 4 * (c.p : ℝ)) * eps c.p * 2.5 := mul_le_mul_of_nonneg_left h1 (by positivity)
  push_cast at hn
  have h4 := abs_add_le ((s.2 : ℝ) - ((z0 : ℝ) - Real.pi / 2 + Real.arctan x)) ((z0 : ℝ) - Real.pi / 2)
  rw [show (s.2 : ℝ) - ((z0 : ℝ) - Real.pi / 2 + Real.arctan x) + ((z0 : ℝ) - Real.pi / 2) = s.2 - Real.arctan x by ring] at h4
  have h5 : 16 * eps c.p ≤ c.p * eps c.p := mul_le_mul_of_nonneg_right (by exact_mod_cast hp) he.le
  nlinarith

/-! ## Euler's formula -/

theorem arctan_lip (a b : ℝ) : |Real.arctan a - Real.arctan b| ≤ |a - b| := by
  have := Convex.norm_image_sub_le_of_norm_deriv_le (f := Real.arctan) (C := 1) (s := Set.univ) (x := b) (y := a)
    (fun x _ => Real.differentiableAt_arctan x) (fun x _ => by
      rw [Real.deriv_arctan, Real.norm_eq_abs, abs_of_pos (by positivity), div_le_one (by positivity)]
      nlinarith [sq_nonneg x]) convex_univ (Set.mem_univ _) (Set.mem_univ _)
  simpa [Real.norm_eq_abs] using this

theorem arctan_eighth : Real.arctan (√2 - 1) = Real.pi / 8 := by
  have h2 : √2 * √2 = 2 := Real.mul_self_sqrt (by norm_num)
  have h3 : √2 < 2 := by nlinarith [Real.sqrt_nonneg 2]
  have h4 : 1 < √2 := by nlinarith [Real.sqrt_nonneg 2]
  have h1 := Real.two_mul_arctan (x := √2 - 1) (by linarith) (by linarith)
  have h5 : 2 * (√2 - 1) / (1 - (√2 - 1) ^ 2) = 1 := by
    rw [div_eq_one_iff_eq (by nlinarith)]
    nlinarith
  rw [h5, Real.arctan_one] at h1
  linarith

theorem euler_real {x : ℝ} (hx : 0 < x) : Real.arctan ((x - (√2 - 1)) / (1 + x * (√2 - 1))) = Real.arctan x - Real.pi / 8 := by
  have h4 : 1 < √2 := by
    have h2 : √2 * √2 = 2 := Real.mul_self_sqrt (by norm_num)
    nlinarith [Real.sqrt_nonneg 2]
  have h1 : x * -(√2 - 1) < 1 := by nlinarith
  have h := Real.arctan_add h1
  rw [Real.arctan_neg, arctan_eighth] at h
  rw [show (x - (√2 - 1)) / (1 + x * (√2 - 1)) = (x + -(√2 - 1)) / (1 - x * -(√2 - 1)) by ring_nf, ← h]
  ring

theorem quot_err {n d N D e : ℝ} (he : 0 ≤ e) (hd : 1.2 ≤ d) (hD : 1.2 ≤ D) (hN : |N| ≤ D) (h1 : |n - N| ≤ 4.4 * e) (h2 : |d - D| ≤ 7.2 * e) :
    |n / d - N / D| ≤ 10 * e := by
  have hd0 : 0 < d := by linarith
  have hD0 : 0 < D := by linarith
  have h3 : n / d - N / D = ((n - N) - N / D * (d - D)) / d := by field_simp; ring
  have h4 : |N / D| ≤ 1 := by rw [abs_div, abs_of_pos hD0, div_le_one hD0]; exact hN
  have h5 : |N / D * (d - D)| ≤ 7.2 * e := by
    rw [abs_mul]
    have := abs_nonneg (d - D)
    nlinarith
  have h6 := abs_sub (n - N) (N / D * (d - D))
  rw [h3, abs_div, abs_of_pos hd0, div_le_iff₀ hd0]
  nlinarith

set_option maxHeartbeats 1000000 in
theorem euler_err {c : Ctx} (hp : 16 ≤ c.p) {x : ℚ} (hf : IsFloat c.p x) (hx1 : 1 / 2 < x) (hx2 : x < 3 / 2) {fuel : ℕ} (hfu : 10 + c.p ≤ fuel) :
    ∃ a, eulerArg c fuel x = .ok a ∧ IsFloat c.p a ∧ 0 < a ∧ a < 91 / 100 ∧ (x < 91 / 100 → a < 1 / 2) ∧ |Real.arctan a - (Real.arctan x - Real.pi / 8)| ≤ 12 * eps c.p := by
  have he := eps_real c.p
  have hes := eps_small (show 12 ≤ c.p by omega)
  obtain ⟨a, ha, a0, a1, a2⟩ := euler_bound (c := c) (by omega) hx1 hx2 fuel hfu
  have hx1' : (1 / 2 : ℝ) < x := by
    have : ((1 / 2 : ℚ) : ℝ) < x := by exact_mod_cast hx1
    push_cast at this; exact this
  have hx2' : (x : ℝ) < 3 / 2 := by
    have : (x : ℝ) < ((3 / 2 : ℚ) : ℝ) := by exact_mod_cast hx2
    push_cast at this; exact this
  have q2 : √2 * √2 = 2 := Real.mul_self_sqrt (by norm_num)
  have q3 : √2 < 1.415 := by nlinarith [Real.sqrt_nonneg 2]
  have q4 : 1.414 < √2 := by nlinarith [Real.sqrt_nonneg 2]
  obtain ⟨r, r0, rf, rerr, rall⟩ := floatSqrt_ok (c := c) (x := 2) (by omega) (by simpa using isFloat_zpow (show 1 ≤ c.p by omega) 1) (by norm_num) (Real.sqrt_pos.2 (show (0 : ℝ) < 2 by norm_num)) (by rw [q2]; norm_num)
  refine ⟨a, ha, ?_⟩
  unfold eulerArg at ha
  rw [rnd_two (by omega), rall fuel hfu, bindOk, rnd_self (by omega) hf] at ha
  dsimp only at ha
  have hu := ulp_le (p := c.p) r0
  have r0' : (0 : ℝ) < r := by exact_mod_cast r0
  have r1 : |(r : ℝ) - √2| ≤ 2.7 * eps c.p := by
    have : (r : ℝ) ≤ 1.45 := by
      have := (abs_le.1 rerr).2
      nlinarith
    nlinarith
  have r1' := abs_le.1 r1
  -- y
  have y1 := rnd_err_real c.p (r - 1)
  change |((sub c.p r 1 : ℚ) : ℝ) - _| ≤ _ at y1
  set y := sub c.p r 1 with hy
  push_cast at y1
  rw [abs_of_pos (show (0 : ℝ) < r - 1 by linarith [r1'.1])] at y1
  have y2 : |(y : ℝ) - (√2 - 1)| ≤ 3.2 * eps c.p := by
    have := abs_add_le ((y : ℝ) - (r - 1)) (r - √2)
    rw [show (y : ℝ) - (r - 1) + (r - √2) = y - (√2 - 1) by ring] at this
    nlinarith [r1'.2]
  have y2' := abs_le.1 y2
  -- the numerator
  have n1 := rnd_err_real c.p (x - y)
  change |((sub c.p x y : ℚ) : ℝ) - _| ≤ _ at n1
  set n := sub c.p x y with hn
  push_cast at n1
  have n2 : |(n : ℝ) - (x - (√2 - 1))| ≤ 4.4 * eps c.p := by
    have h1 := abs_add_le ((n : ℝ) - (x - y)) (-((y : ℝ) - (√2 - 1)))
    rw [abs_neg, show (n : ℝ) - (x - y) + -((y : ℝ) - (√2 - 1)) = n - (x - (√2 - 1)) by ring] at h1
    have h2 : |(x : ℝ) - y| ≤ 1.1 := abs_le.2 ⟨by linarith [y2'.2], by linarith [y2'.1]⟩
    nlinarith
  -- the denominator
  have m1 := rnd_err_real c.p (x * y)
  change |((mul c.p x y : ℚ) : ℝ) - _| ≤ _ at m1
  set m := mul c.p x y with hm
  push_cast at m1
  have hxy : |(x : ℝ) * y| ≤ 0.65 := by
    rw [abs_le]
    constructor <;> nlinarith [y2'.1, y2'.2]
  have m2 : |(m : ℝ) - x * (√2 - 1)| ≤ 5.5 * eps c.p := by
    have h1 := abs_add_le ((m : ℝ) - x * y) (x * ((y : ℝ) - (√2 - 1)))
    rw [show (m : ℝ) - x * y + x * ((y : ℝ) - (√2 - 1)) = m - x * (√2 - 1) by ring, abs_mul, abs_of_pos (show (0 : ℝ) < x by linarith)] at h1
    have h2 : (x : ℝ) * |(y : ℝ) - (√2 - 1)| ≤ 3 / 2 * (3.2 * eps c.p) := mul_le_mul hx2'.le y2 (abs_nonneg _) (by norm_num)
    have h3 : eps c.p * |(x : ℝ) * y| ≤ eps c.p * 0.65 := mul_le_mul_of_nonneg_left hxy he.le
    linarith
  have m2' := abs_le.1 m2
  have p1 : (0.207 : ℝ) ≤ x * (√2 - 1) := by nlinarith
  have p2 : (x : ℝ) * (√2 - 1) ≤ 0.63 := by nlinarith
  have d1 := rnd_err_real c.p (m + 1)
  change |((add c.p m 1 : ℚ) : ℝ) - _| ≤ _ at d1
  set d := add c.p m 1 with hd
  push_cast at d1
  have d2 : |(d : ℝ) - (1 + x * (√2 - 1))| ≤ 7.2 * eps c.p := by
    have h1 := abs_add_le ((d : ℝ) - (m + 1)) ((m : ℝ) - x * (√2 - 1))
    rw [show (d : ℝ) - (m + 1) + ((m : ℝ) - x * (√2 - 1)) = d - (1 + x * (√2 - 1)) by ring] at h1
    have h2 : |(m : ℝ) + 1| ≤ 1.65 := abs_le.2 ⟨by linarith [m2'.1], by linarith [m2'.2]⟩
    nlinarith
  have d2' := abs_le.1 d2
  have d3 : (1.2 : ℝ) ≤ d := by linarith [d2'.1]
  have hq := quot_err (n := n) (d := d) (N := x - (√2 - 1)) (D := 1 + x * (√2 - 1)) he.le d3 (by linarith) (abs_le.2 ⟨by linarith, by linarith⟩) n2 d2
  have d3' : d ≠ 0 := by
    intro hc
    rw [hc] at d3
    norm_num at d3
  rw [quo_ok d3'] at ha
  injection ha with ha
  have q1 := rnd_err_real c.p (n / d)
  rw [ha] at q1
  push_cast at q1
  have hND : |(x - (√2 - 1)) / (1 + x * (√2 - 1))| ≤ 1 := by
    rw [abs_div, abs_of_pos (show (0 : ℝ) < 1 + x * (√2 - 1) by linarith), div_le_one (by linarith), abs_le]
    constructor <;> linarith
  have hnd : |(n : ℝ) / d| ≤ 1.1 := by
    have := abs_sub_abs_le_abs_sub ((n : ℝ) / d) ((x - (√2 - 1)) / (1 + x * (√2 - 1)))
    linarith
  refine ⟨ha ▸ rnd_isFloat (by omega) _, a0, a1, a2, ?_⟩
  rw [← euler_real (by linarith)]
  refine le_trans (arctan_lip _ _) ?_
  have h1 := abs_add_le ((a : ℝ) - n / d) ((n : ℝ) / d - (x - (√2 - 1)) / (1 + x * (√2 - 1)))
  rw [show (a : ℝ) - n / d + ((n : ℝ) / d - (x - (√2 - 1)) / (1 + x * (√2 - 1))) = a - (x - (√2 - 1)) / (1 + x * (√2 - 1)) by ring] at h1
  nlinarith

/-! ## The function -/

theorem atan_apart {c : Ctx} (hp : 16 ≤ c.p) {x : ℚ} (h : ¬ absOf (sub c.p (rnd c.p 1) x) < rnd c.p (mkRat 1 2)) :
    (x ≤ 1 → (x : ℝ) ≤ 0.5005) ∧ (1 < x → (1.4995 : ℝ) ≤ x) := by
  have hes := eps_4096 (show 12 ≤ c.p by omega)
  have he := eps_pos c.p
  rw [rnd_half (by omega), rnd_one (by omega), absOf_eq] at h
  have h := not_lt.1 h
  constructor
  · intro hx
    have h1 := rnd_hi (p := c.p) (q := 1 - x) (by linarith)
    have h2 := rnd_nonneg (p := c.p) (by omega) (q := 1 - x) (by linarith)
    change 1 / 2 ≤ |rnd c.p (1 - x)| at h
    rw [abs_of_nonneg h2] at h
    have h3 : x ≤ 0.5005 := by nlinarith
    have : (x : ℝ) ≤ ((0.5005 : ℚ) : ℝ) := by exact_mod_cast h3
    norm_num at this ⊢
    exact this
  · intro hx
    have h1 := rnd_hi (p := c.p) (q := -(1 - x)) (by linarith)
    have h2 := rnd_nonpos (p := c.p) (by omega) (q := 1 - x) (by linarith)
    change 1 / 2 ≤ |rnd c.p (1 - x)| at h
    rw [abs_of_nonpos h2, ← rnd_neg] at h
    have h3 : 1.4995 ≤ x := by nlinarith
    have : ((1.4995 : ℚ) : ℝ) ≤ x := by exact_mod_cast h3
    norm_num at this ⊢
    exact this

/-- The arc tangent is found, up to an error. -/
def AtanOk (c : Ctx) (fuel : ℕ) (x : ℚ) (E : ℝ) : Prop := ∃ z, atanPos c fuel x = .ok z ∧ |(z : ℝ) - Real.arctan x| ≤ E * eps c.p

theorem atanPos_small {c : Ctx} (hp : 16 ≤ c.p) {x : ℚ} (hf : IsFloat c.p x) (h0 : 0 ≤ x) (h1 : x ≤ 1) (hfar : ¬ absOf (sub c.p (rnd c.p 1) x) < rnd c.p (mkRat 1 2))
    {fuel : ℕ} (hfu : 10 + 4 * c.p ≤ fuel) : AtanOk c fuel x (120 * (c.p + 1) * x) := by
  have hx := (atan_apart hp hfar).1 h1
  obtain ⟨z, hz⟩ := atanSmall_ok hp hf h0 (by linarith) hfu
  refine ⟨z, ?_, ?_⟩
  · obtain ⟨f, rfl⟩ : ∃ f, fuel = f + 1 := ⟨fuel - 1, by omega⟩
    unfold atanPos
    rw [if_neg hfar, if_neg (not_lt.2 h1), hz]
  · have := atanSmall_error hp hf h0 (by linarith) hz
    linarith

theorem atanPos_euler {c : Ctx} (hp : 16 ≤ c.p) (hpi : PiOk c) {x : ℚ} (hf : IsFloat c.p x) (hnear : absOf (sub c.p (rnd c.p 1) x) < rnd c.p (mkRat 1 2)) {E : ℝ}
    (hE : E * eps c.p ≤ 1 / 8) {fuel : ℕ} (hfu : 10 + 4 * c.p ≤ fuel)
    (h : ∀ a, IsFloat c.p a → 0 < a → a < 91 / 100 → (x < 91 / 100 → a < 1 / 2) → AtanOk c fuel a E) : AtanOk c (fuel + 1) x (E + 16) := by
  have he := eps_real c.p
  have hes := eps_small (show 12 ≤ c.p by omega)
  obtain ⟨x1, x2⟩ := atan_far (by omega : 1 ≤ c.p) hnear
  obtain ⟨a, ha, haf, a0, a1, a2, aerr⟩ := euler_err hp hf x1 x2 (fuel := fuel + 1) (by omega)
  obtain ⟨r, hr, rerr⟩ := h a haf a0 a1 a2
  have h8 : rnd c.p 8 = 2 ^ 3 := by
    rw [rnd_self (by omega)]
    · norm_num
    · have := isFloat_zpow (show 1 ≤ c.p by omega) 3; norm_num at this; exact this
  obtain ⟨z, hz⟩ : ∃ z, quo c.p (rnd c.p c.pi) (rnd c.p 8) = .ok z := by rw [h8, quo_ok (by norm_num)]; exact ⟨_, rfl⟩
  obtain ⟨-, zerr⟩ := pi_part hp hpi 3 h8 hz
  refine ⟨add c.p z r, ?_, ?_⟩
  · unfold atanPos
    rw [if_pos hnear, hz, bindOk, ha, bindOk, if_neg (not_lt.2 a0.le), hr]
    rfl
  · have s1 := rnd_err_real c.p (z + r)
    change |((add c.p z r : ℚ) : ℝ) - _| ≤ _ at s1
    push_cast at s1
    norm_num at zerr
    have t1 := abs_add_le ((z : ℝ) - Real.pi / 8) ((r : ℝ) - Real.arctan a)
    have t2 := abs_add_le ((z : ℝ) - Real.pi / 8 + ((r : ℝ) - Real.arctan a)) (Real.arctan a - (Real.arctan x - Real.pi / 8))
    rw [show (z : ℝ) - Real.pi / 8 + ((r : ℝ) - Real.arctan a) + (Real.arctan a - (Real.arctan x - Real.pi / 8)) = z + r - Real.arctan x by ring] at t2
    have t3 : |(z : ℝ) + r| ≤ 2 := by
      have u1 := abs_sub_abs_le_abs_sub ((z : ℝ) + r) (Real.arctan x)
      have u2 : |Real.arctan x| ≤ 1.6 := by
        have v1 := Real.arctan_lt_pi_div_two x
        have v2 := Real.neg_pi_div_two_lt_arctan x
        have v3 := Real.pi_lt_d2
        exact abs_le.2 ⟨by linarith, by linarith⟩
      linarith
    have t4 : eps c.p * |(z : ℝ) + r| ≤ eps c.p * 2 := mul_le_mul_of_nonneg_left t3 he.le
    have t5 := abs_add_le (((add c.p z r : ℚ) : ℝ) - (z + r)) ((z : ℝ) + r - Real.arctan x)
    rw [show ((add c.p z r : ℚ) : ℝ) - (z + r) + ((z : ℝ) + r - Real.arctan x) = ((add c.p z r : ℚ) : ℝ) - Real.arctan x by ring] at t5
    linarith

theorem atanOk_mono {c : Ctx} {fuel : ℕ} {x : ℚ} {E F : ℝ} (h : AtanOk c fuel x E) (hEF : E ≤ F) : AtanOk c fuel x F := by
  obtain ⟨z, h1, h2⟩ := h
  exact ⟨z, h1, le_trans h2 (mul_le_mul_of_nonneg_right hEF (eps_real c.p).le)⟩

theorem atanPos_ok {c : Ctx} (hp : 16 ≤ c.p) (hpi : PiOk c) {x : ℚ} (hf : IsFloat c.p x) (h0 : 0 ≤ x) {fuel : ℕ} (hfu : 12 + 4 * c.p ≤ fuel) :
    AtanOk c fuel x (250 * (c.p + 1)) := by
  have he := eps_real c.p
  have hb := bits_eps hp
  have hp16 : (16 : ℝ) ≤ c.p := by exact_mod_cast hp
  obtain ⟨f, rfl⟩ : ∃ f, fuel = f + 1 + 1 := ⟨fuel - 2, by omega⟩
  have base : ∀ (a : ℚ) (g : ℕ), IsFloat c.p a → 0 < a → a ≤ 1 → 10 + 4 * c.p ≤ g → ¬ absOf (sub c.p (rnd c.p 1) a) < rnd c.p (mkRat 1 2) → AtanOk c g a (61 * (c.p + 1)) := by
    intro a g haf a0 a1 hg hfar
    refine atanOk_mono (atanPos_small hp haf a0.le a1 hfar hg) ?_
    have := (atan_apart hp hfar).1 a1
    nlinarith
  by_cases hx : absOf (sub c.p (rnd c.p 1) x) < rnd c.p (mkRat 1 2)
  · refine atanOk_mono (atanPos_euler hp hpi hf hx (E := 61 * (c.p + 1) + 16) ?_ (by omega) fun a haf a0 a1 a2 => ?_) (by linarith)
    · nlinarith
    · by_cases ha : absOf (sub c.p (rnd c.p 1) a) < rnd c.p (mkRat 1 2)
      · refine atanPos_euler hp hpi haf ha (E := 61 * (c.p + 1)) (by nlinarith) (by omega) fun b hbf b0 b1 b2 => ?_
        exact base b f hbf b0 (by linarith) (by omega) (atan_near (by omega) (b2 a1).le)
      · exact atanOk_mono (base a (f + 1) haf a0 (by linarith) (by omega) ha) (by linarith)
  · by_cases h1 : 1 < x
    · obtain ⟨z, h2, h3⟩ := floatAtanLarge_ok hp hpi hf ((atan_apart hp hx).2 h1) (fuel := f + 1 + 1) (by omega)
      refine ⟨z, ?_, h3⟩
      unfold atanPos
      rw [if_neg hx, if_pos h1, h2]
    · refine atanOk_mono (atanPos_small hp hf h0 (not_lt.1 h1) hx (by omega)) ?_
      have := (atan_apart hp hx).1 (not_lt.1 h1)
      nlinarith

theorem floatAtan_ok {c : Ctx} (hp : 16 ≤ c.p) (hpi : PiOk c) {x : ℚ} (hf : IsFloat c.p x) {fuel : ℕ} (hfu : 12 + 4 * c.p ≤ fuel) :
    ∃ z, floatAtan c fuel x = .ok z ∧ |(z : ℝ) - Real.arctan x| ≤ 250 * (c.p + 1) * eps c.p := by
  unfold floatAtan
  split
  · rename_i h
    rw [rnd_self (by omega) hf]
    obtain ⟨z, h1, h2⟩ := atanPos_ok hp hpi (isFloat_neg hf) (by linarith) hfu
    rw [h1]
    refine ⟨-z, rfl, ?_⟩
    push_cast at h2 ⊢
    rw [Real.arctan_neg] at h2
    rw [show -(z : ℝ) - Real.arctan x = -(z - -Real.arctan x) by ring, abs_neg]
    exact h2
  · rename_i h
    exact atanPos_ok hp hpi hf (not_lt.1 h) hfu

/-- Small arguments. -/
theorem floatAtan_small {c : Ctx} (hp : 16 ≤ c.p) {x : ℚ} (hf : IsFloat c.p x) (hx : |x| ≤ 1 / 2) {fuel : ℕ} (hfu : 10 + 4 * c.p ≤ fuel) :
    ∃ z, floatAtan c fuel x = .ok z ∧ |(z : ℝ) - Real.arctan x| ≤ 120 * (c.p + 1) * eps c.p * |(x : ℝ)| := by
  unfold floatAtan
  split
  · rename_i h
    rw [rnd_self (by omega) hf]
    rw [abs_of_neg h] at hx
    obtain ⟨z, h1, h2⟩ := atanPos_small hp (isFloat_neg hf) (by linarith) (by linarith) (atan_near (by omega) hx) hfu
    rw [h1]
    refine ⟨-z, rfl, ?_⟩
    push_cast at h2 ⊢
    rw [Real.arctan_neg] at h2
    rw [show -(z : ℝ) - Real.arctan x = -(z - -Real.arctan x) by ring, abs_neg, abs_of_neg (by exact_mod_cast h : (x : ℝ) < 0)]
    linarith
  · rename_i h
    have h := not_lt.1 h
    rw [abs_of_nonneg h] at hx
    obtain ⟨z, h1, h2⟩ := atanPos_small hp hf h (by linarith) (atan_near (by omega) hx) hfu
    rw [h1]
    refine ⟨z, rfl, ?_⟩
    rw [abs_of_nonneg (by exact_mod_cast h : (0 : ℝ) ≤ x)]
    linarith

end Verif.Flt
