import Verif.Shown.Huge
import Verif.Flt.AccProps2
import Verif.Shown.SaveProps
/-
Lemmas on the text of huge floats: the power of ten.
-/
namespace Verif.Shown
open Verif.Flt Verif.Flt.Spec Verif.Arr

theorem eps_bits {p : ℕ} (hp : 48 ≤ p) : ((p : ℝ) + 1) * eps p ≤ 1 / 2 ^ 42 ∧ eps p ≤ 1 / 2 ^ 48 := by
  have h2 : eps p ≤ 1 / 2 ^ 48 := by
    unfold eps
    rw [zpow_neg, zpow_natCast, ← one_div]
    exact one_div_le_one_div_of_le (by positivity) (pow_le_pow_right₀ (by norm_num) hp)
  refine ⟨?_, h2⟩
  have h : ∀ k : ℕ, 48 + k + 1 ≤ 2 ^ (6 + k) := by
    intro k
    induction k with
    | zero => norm_num
    | succ k ih => rw [show 6 + (k + 1) = (6 + k) + 1 by omega, pow_succ]; omega
  obtain ⟨k, rfl⟩ : ∃ k, p = 48 + k := ⟨p - 48, by omega⟩
  have h1 : (((48 + k : ℕ) : ℝ) + 1) ≤ 2 ^ (6 + k) := by exact_mod_cast h k
  unfold eps
  rw [zpow_neg, zpow_natCast, ← div_eq_mul_inv, div_le_div_iff₀ (by positivity) (by positivity), one_mul]
  calc (((48 + k : ℕ) : ℝ) + 1) * 2 ^ 42 ≤ 2 ^ (6 + k) * 2 ^ 42 := mul_le_mul_of_nonneg_right h1 (by positivity)
    _ = 2 ^ (48 + k) := by rw [← pow_add]; congr 1; omega

/-- What is left of a float when its integer is taken off is a float. -/
theorem isFloat_fract {p : ℕ} {q : ℚ} (h0 : 0 ≤ q) (h : IsFloat p q) : IsFloat p (q - q.floor) := by
  obtain ⟨m, e, hm, rfl⟩ := h
  by_cases he : 0 ≤ e
  · obtain ⟨k, rfl⟩ : ∃ k : ℕ, e = k := ⟨e.toNat, by omega⟩
    have h1 : (m : ℚ) * 2 ^ (k : ℤ) = ((m * 2 ^ k : ℤ) : ℚ) := by push_cast; rw [zpow_natCast]
    rw [h1, Rat.floor_intCast, sub_self]
    exact isFloat_zero p
  · have hf : (0 : ℤ) ≤ ((m : ℚ) * 2 ^ e).floor := by rw [Rat.le_floor_iff]; exact_mod_cast h0
    have hf1 : (((m : ℚ) * 2 ^ e).floor : ℚ) ≤ (m : ℚ) * 2 ^ e := Rat.floor_le _
    generalize ((m : ℚ) * 2 ^ e).floor = f at hf hf1
    obtain ⟨k, rfl⟩ : ∃ k : ℕ, e = -(k : ℤ) := ⟨(-e).toNat, by omega⟩
    have hk : (0 : ℚ) < 2 ^ k := by positivity
    have h2 : (m : ℚ) * 2 ^ (-(k : ℤ)) * 2 ^ k = m := by rw [zpow_neg, zpow_natCast]; field_simp
    have h3 : f * 2 ^ k ≤ m := by
      have : (f : ℚ) * 2 ^ k ≤ m := by rw [← h2]; exact mul_le_mul_of_nonneg_right hf1 hk.le
      exact_mod_cast this
    have h4 : 0 ≤ f * 2 ^ k := by positivity
    refine ⟨m - f * 2 ^ k, -(k : ℤ), ?_, ?_⟩
    · rw [abs_of_nonneg (by omega)]
      have := le_abs_self m
      linarith
    · push_cast
      rw [zpow_neg, zpow_natCast]
      field_simp

theorem abs_exp_sub_one {x : ℝ} (h : |x| ≤ 1 / 100) : |Real.exp x - 1| ≤ 101 / 100 * |x| := by
  have h1 := Real.abs_exp_sub_one_sub_id_le (x := x) (by linarith)
  have h2 : x ^ 2 ≤ 1 / 100 * |x| := by
    rw [← sq_abs, sq]
    exact mul_le_mul_of_nonneg_right h (abs_nonneg x)
  have h3 : Real.exp x - 1 = (Real.exp x - 1 - x) + x := by ring
  rw [h3]
  have := abs_add_le (Real.exp x - 1 - x) x
  linarith

theorem log_bounds : (69 / 100 : ℝ) < Real.log 2 ∧ Real.log 2 < 694 / 1000 ∧ 2 < Real.log 10 ∧ Real.log 10 < 28 / 10 := by
  have h1 := Real.log_two_gt_d9
  have h2 := Real.log_two_lt_d9
  have h3 : Real.log 8 = 3 * Real.log 2 := by rw [show (8 : ℝ) = 2 ^ 3 by norm_num, Real.log_pow]; norm_num
  have h4 : Real.log 16 = 4 * Real.log 2 := by rw [show (16 : ℝ) = 2 ^ 4 by norm_num, Real.log_pow]; norm_num
  have h5 : Real.log 8 < Real.log 10 := Real.log_lt_log (by norm_num) (by norm_num)
  have h6 : Real.log 10 < Real.log 16 := Real.log_lt_log (by norm_num) (by norm_num)
  refine ⟨?_, ?_, ?_, ?_⟩ <;> linarith

set_option maxHeartbeats 1000000 in
/-- The power of ten is found up to a small relative error, which grows with the exponent. -/
theorem tenPower_ok {p : ℕ} (hp : 48 ≤ p) (hp' : p ≤ constPrecisionInBits) {n fuel : ℕ} (hn : 10000 < n) (hn' : n ≤ 2 ^ 31) (hf : 10 + 10 * p ≤ fuel) :
    ∃ (i : ℕ) (s : ℚ), tenPower p fuel n = .ok ((i : ℤ), s) ∧ 1000 ≤ i ∧ 99 / 100 ≤ s ∧ s ≤ 103 / 10 ∧
      |(s : ℝ) * 10 ^ i - 2 ^ n| ≤ (170 * (p + 1) + 13 * n) * eps p * 2 ^ n ∧ (170 * ((p : ℝ) + 1) + 13 * n) * eps p ≤ 1 / 1000 := by
  have hp1 : 1 ≤ p := by omega
  obtain ⟨e1, e2⟩ := eps_bits hp
  have e0 := eps_real p
  obtain ⟨_, _, hl2, hl10⟩ := C77_constants p hp'
  change _ ≤ 4 * eps p at hl2 hl10
  obtain ⟨b1, b2, b3, b4⟩ := log_bounds
  have hN : (10000 : ℝ) < n := by exact_mod_cast hn
  have hN' : (n : ℝ) ≤ 2 ^ 31 := by exact_mod_cast hn'
  have hNe : (n : ℝ) * eps p ≤ 1 / 2 ^ 17 := by
    calc (n : ℝ) * eps p ≤ 2 ^ 31 * (1 / 2 ^ 48) := mul_le_mul hN' e2 e0.le (by norm_num)
      _ = 1 / 2 ^ 17 := by norm_num
  have hpow : (2 : ℤ) ^ 32 < 2 ^ p := by
    have : (2 : ℤ) ^ 33 ≤ 2 ^ p := pow_le_pow_right₀ (by norm_num) (by omega)
    linarith
  have hl10' : (2 : ℝ) ≤ (floatLog10 p : ℝ) + 4 * eps p := by linarith [(abs_le.1 hl10).1, (abs_le.1 hl10).2]
  have u0 : eps p ≤ 1 / 1000000 := le_trans e2 (by norm_num)
  have l2a := abs_le.1 hl2
  have l10a := abs_le.1 hl10
  -- the quotient
  have hr : rnd p (n : ℚ) = n := by
    have := rnd_self hp1 (isFloat_int (p := p) (n := (n : ℤ)) (by rw [abs_of_nonneg (by positivity)]; have : ((n : ℕ) : ℤ) ≤ 2 ^ 31 := by exact_mod_cast hn'
                                                                  linarith))
    exact_mod_cast this
  have h10 : floatLog10 p ≠ 0 := by
    intro h
    rw [h] at hl10'
    push_cast at hl10'
    linarith
  have ha := rnd_err_real p ((n : ℚ) * floatLog2 p)
  have hq := rnd_err_real p (rnd p ((n : ℚ) * floatLog2 p) / floatLog10 p)
  have hff := rnd_isFloat hp1 (rnd p ((n : ℚ) * floatLog2 p) / floatLog10 p)
  obtain ⟨fe, hfe⟩ : ∃ x, rnd p (rnd p ((n : ℚ) * floatLog2 p) / floatLog10 p) = x := ⟨_, rfl⟩
  have htp : tenPower p fuel n = (exponential (ctxOf p) fuel (mul p (sub p fe (rnd p fe.floor)) (floatLog10 p))).bind fun scale => .ok (fe.floor, scale) := by
    unfold tenPower
    rw [hr]
    unfold Flt.mul
    rw [quo_ok h10, hfe]
    rfl
  rw [hfe] at hq hff
  obtain ⟨a, hadef⟩ : ∃ x, rnd p ((n : ℚ) * floatLog2 p) = x := ⟨_, rfl⟩
  rw [hadef] at ha hq hfe
  push_cast at ha hq
  have l2pos : (0 : ℝ) < floatLog2 p := by linarith
  have l10pos : (0 : ℝ) < floatLog10 p := by linarith
  rw [abs_of_pos (mul_pos (by linarith) l2pos)] at ha
  have haa := abs_le.1 ha
  have hap : (0 : ℝ) < a := by
    have : (0 : ℝ) < (n : ℝ) * floatLog2 p * (1 - eps p) := mul_pos (mul_pos (by linarith) l2pos) (by linarith)
    nlinarith
  rw [abs_of_pos (div_pos hap l10pos)] at hq
  have hal : (a : ℝ) ≤ 7 / 10 * n := by
    have h1 : (n : ℝ) * floatLog2 p ≤ n * (695 / 1000) := mul_le_mul_of_nonneg_left (by linarith) (by linarith)
    have h2 : (n : ℝ) * floatLog2 p * (1 + eps p) ≤ n * (695 / 1000) * (1 + 1 / 1000000) := mul_le_mul h1 (by linarith) (by linarith) (by linarith)
    nlinarith
  have hqa : |(fe : ℝ) * floatLog10 p - a| ≤ eps p * a := by
    have h1 : (fe : ℝ) * floatLog10 p - a = (fe - a / floatLog10 p) * floatLog10 p := by field_simp
    rw [h1, abs_mul, abs_of_pos l10pos]
    calc _ ≤ eps p * (a / floatLog10 p) * floatLog10 p := mul_le_mul_of_nonneg_right hq l10pos.le
      _ = eps p * a := by field_simp
  have hqb := abs_le.1 hqa
  have hfe0 : (0 : ℝ) ≤ fe := by
    by_contra hc
    have : (fe : ℝ) * floatLog10 p < 0 := mul_neg_of_neg_of_pos (by linarith) l10pos
    have : eps p * (a : ℝ) ≤ 1 / 1000000 * a := mul_le_mul_of_nonneg_right u0 hap.le
    linarith
  have hea : eps p * (a : ℝ) ≤ 1 / 1000000 * a := mul_le_mul_of_nonneg_right u0 hap.le
  have hfeN : (fe : ℝ) ≤ n / 2 := by
    have : (fe : ℝ) * (19 / 10) ≤ fe * floatLog10 p := mul_le_mul_of_nonneg_left (by linarith) hfe0
    linarith
  have hfeq : (0 : ℚ) ≤ fe := by exact_mod_cast hfe0
  -- fe * L10 against n * L2
  have hA : |(fe : ℝ) * Real.log 10 - n * Real.log 2| ≤ 11 * (n * eps p) := by
    have h1 : (fe : ℝ) * Real.log 10 - n * Real.log 2 = -(fe * (floatLog10 p - Real.log 10)) + (fe * floatLog10 p - a) + (a - n * floatLog2 p) + n * (floatLog2 p - Real.log 2) := by ring
    have h2 : |(fe : ℝ) * (floatLog10 p - Real.log 10)| ≤ n / 2 * (4 * eps p) := by
      rw [abs_mul, abs_of_nonneg hfe0]; exact mul_le_mul hfeN hl10 (abs_nonneg _) (by linarith)
    have h3 : |(n : ℝ) * (floatLog2 p - Real.log 2)| ≤ n * (4 * eps p) := by
      rw [abs_mul, abs_of_nonneg (by linarith)]; exact mul_le_mul_of_nonneg_left hl2 (by linarith)
    have h4 : eps p * (a : ℝ) ≤ eps p * n := mul_le_mul_of_nonneg_left (by linarith) e0.le
    have h5 : eps p * ((n : ℝ) * floatLog2 p) ≤ eps p * n := mul_le_mul_of_nonneg_left (by nlinarith) e0.le
    rw [h1]
    have h6 := abs_le.1 h2
    have h7 := abs_le.1 h3
    rw [abs_le]
    constructor <;> linarith [haa.1, haa.2, hqb.1, hqb.2, h6.1, h6.2, h7.1, h7.2]
  -- the integer
  obtain ⟨i, hi⟩ : ∃ i : ℕ, fe.floor = i := by
    have : (0 : ℤ) ≤ fe.floor := by rw [Rat.le_floor_iff]; exact_mod_cast hfeq
    exact ⟨fe.floor.toNat, by omega⟩
  have hi1 : ((i : ℕ) : ℚ) ≤ fe := by have := Rat.floor_le fe; rw [hi] at this; exact_mod_cast this
  have hi2 : fe < (i : ℕ) + 1 := by have := Rat.lt_floor_add_one fe; rw [hi] at this; exact_mod_cast this
  have hi1r : (i : ℝ) ≤ fe := by exact_mod_cast hi1
  have hi2r : (fe : ℝ) < i + 1 := by exact_mod_cast hi2
  have hir : rnd p (((i : ℕ) : ℤ) : ℚ) = ((i : ℕ) : ℤ) := by
    refine rnd_self hp1 (isFloat_int ?_)
    rw [abs_of_nonneg (by positivity)]
    have : (i : ℝ) ≤ 2 ^ 31 := by linarith
    have : ((i : ℕ) : ℤ) ≤ 2 ^ 31 := by exact_mod_cast this
    linarith
  have hsub : sub p fe (rnd p fe.floor) = fe - (i : ℚ) := by
    unfold sub
    have h1 := isFloat_fract hfeq hff
    rw [hi] at h1 ⊢
    rw [hir, rnd_self hp1 h1]
    norm_num
  have h1000 : 1000 ≤ i := by
    have h1 := (abs_le.1 hA).1
    have h2 : (n : ℝ) * (69 / 100) ≤ n * Real.log 2 := mul_le_mul_of_nonneg_left b1.le (by linarith)
    have h3 : (fe : ℝ) * Real.log 10 ≤ fe * (28 / 10) := mul_le_mul_of_nonneg_left b4.le hfe0
    have : (1001 : ℝ) ≤ fe := by linarith
    have : (1000 : ℝ) < i := by linarith
    have : 1000 < i := by exact_mod_cast this
    omega
  -- the fraction
  obtain ⟨fr, hfr⟩ : ∃ x, rnd p ((fe - (i : ℚ)) * floatLog10 p) = x := ⟨_, rfl⟩
  have hfr1 := rnd_err_real p ((fe - (i : ℚ)) * floatLog10 p)
  have hfrf := rnd_isFloat hp1 ((fe - (i : ℚ)) * floatLog10 p)
  have l10q : (0 : ℚ) < floatLog10 p := by exact_mod_cast l10pos
  have hfr0 := rnd_nonneg hp1 (q := (fe - (i : ℚ)) * floatLog10 p) (mul_nonneg (by linarith) l10q.le)
  rw [hfr] at hfr1 hfrf hfr0
  push_cast at hfr1
  have g0 : (0 : ℝ) ≤ fe - i := by linarith
  rw [abs_of_nonneg (mul_nonneg g0 l10pos.le)] at hfr1
  have g1 : ((fe : ℝ) - i) * floatLog10 p ≤ 3 := by
    have : ((fe : ℝ) - i) * floatLog10 p ≤ 1 * 3 := mul_le_mul (by linarith) (by linarith) l10pos.le (by norm_num)
    linarith
  have g2 : eps p * (((fe : ℝ) - i) * floatLog10 p) ≤ eps p * 3 := mul_le_mul_of_nonneg_left g1 e0.le
  have hB : |(fr : ℝ) - (fe - i) * Real.log 10| ≤ 7 * eps p := by
    have h1 : (fr : ℝ) - (fe - i) * Real.log 10 = (fr - (fe - i) * floatLog10 p) + (fe - i) * (floatLog10 p - Real.log 10) := by ring
    have h2 : |((fe : ℝ) - i) * (floatLog10 p - Real.log 10)| ≤ 1 * (4 * eps p) := by
      rw [abs_mul, abs_of_nonneg g0]; exact mul_le_mul (by linarith) hl10 (abs_nonneg _) (by norm_num)
    rw [h1]
    have := abs_add_le ((fr : ℝ) - (fe - i) * floatLog10 p) (((fe : ℝ) - i) * (floatLog10 p - Real.log 10))
    linarith
  have hfr3 : (fr : ℝ) ≤ 4 := by linarith [(abs_le.1 hfr1).2]
  obtain ⟨s, hs⟩ := exponential_ok (c := ctxOf p) (x := fr) (by show 16 ≤ p; omega) hfrf hfr0 (by
    show fr ≤ 2 * (p : ℚ)
    have h1 : (48 : ℚ) ≤ p := by exact_mod_cast hp
    have h2 : fr ≤ 4 := by exact_mod_cast hfr3
    linarith) (fuel := fuel) hf
  have hse := C71_exp_nonneg (ctxOf p) (by show 16 ≤ p; omega) fr hfrf hfr0 fuel s hs
  change |(s : ℝ) - Real.exp fr| ≤ 160 * (p + 1) * eps p * Real.exp fr at hse
  have hfr0r : (0 : ℝ) ≤ fr := by exact_mod_cast hfr0
  -- together
  obtain ⟨D, hD⟩ : ∃ D : ℝ, D = fr - (n * Real.log 2 - i * Real.log 10) := ⟨_, rfl⟩
  have hDb : |D| ≤ 11 * (n * eps p) + 7 * eps p := by
    have h1 : D = (fr - (fe - i) * Real.log 10) + (fe * Real.log 10 - n * Real.log 2) := by rw [hD]; ring
    rw [h1]
    have := abs_add_le ((fr : ℝ) - (fe - i) * Real.log 10) (fe * Real.log 10 - n * Real.log 2)
    linarith
  have hexp : Real.exp fr * 10 ^ i = 2 ^ n * Real.exp D := by
    have h1 : (10 : ℝ) ^ i = Real.exp (i * Real.log 10) := by rw [Real.exp_nat_mul, Real.exp_log (by norm_num)]
    have h2 : (2 : ℝ) ^ n = Real.exp (n * Real.log 2) := by rw [Real.exp_nat_mul, Real.exp_log (by norm_num)]
    rw [h1, h2, ← Real.exp_add, ← Real.exp_add, hD]
    congr 1; ring
  have hex1 := abs_exp_sub_one (x := D) (by linarith)
  have hphi : 160 * ((p : ℝ) + 1) * eps p ≤ 1 / 1000000 := by
    have : 160 * ((p : ℝ) + 1) * eps p = 160 * (((p : ℝ) + 1) * eps p) := by ring
    rw [this]
    calc _ ≤ 160 * (1 / 2 ^ 42 : ℝ) := by linarith
      _ ≤ _ := by norm_num
  have hphi0 : 0 ≤ 160 * ((p : ℝ) + 1) * eps p := by positivity
  refine ⟨i, s, ?_, h1000, ?_, ?_, ?_, ?_⟩
  · rw [htp, hsub]
    unfold Flt.mul
    rw [hfr, hs, hi]
    rfl
  · have h1 : 1 ≤ Real.exp fr := Real.one_le_exp hfr0r
    have h2 := (abs_le.1 hse).1
    have h3 : 160 * ((p : ℝ) + 1) * eps p * Real.exp fr ≤ 1 / 1000000 * Real.exp fr := mul_le_mul_of_nonneg_right hphi (by linarith)
    have : ((99 / 100 : ℚ) : ℝ) ≤ s := by push_cast; linarith
    exact_mod_cast this
  · have h2 := (abs_le.1 hse).2
    have h3 : 160 * ((p : ℝ) + 1) * eps p * Real.exp fr ≤ 1 / 1000000 * Real.exp fr := mul_le_mul_of_nonneg_right hphi (Real.exp_pos _).le
    have h4 : Real.exp fr ≤ 10 * (1 + 101 / 100 * (1 / 100)) := by
      have h5 : Real.exp fr = Real.exp ((fe - i) * Real.log 10) * Real.exp (fr - (fe - i) * Real.log 10) := by rw [← Real.exp_add]; congr 1; ring
      have h6 : Real.exp (((fe : ℝ) - i) * Real.log 10) ≤ 10 := by
        calc _ ≤ Real.exp (1 * Real.log 10) := Real.exp_le_exp.2 (mul_le_mul_of_nonneg_right (by linarith) (by linarith))
          _ = 10 := by rw [one_mul, Real.exp_log (by norm_num)]
      have h7 := abs_exp_sub_one (x := fr - (fe - i) * Real.log 10) (by linarith)
      rw [h5]
      exact mul_le_mul h6 (by linarith [(abs_le.1 h7).2]) (Real.exp_pos _).le (by norm_num)
    have : (s : ℝ) ≤ ((103 / 10 : ℚ) : ℝ) := by push_cast; linarith
    exact_mod_cast this
  · have h1 : (s : ℝ) * 10 ^ i - 2 ^ n = (s - Real.exp fr) * 10 ^ i + 2 ^ n * (Real.exp D - 1) := by
      have : (s - Real.exp fr) * 10 ^ i = s * 10 ^ i - Real.exp fr * 10 ^ i := by ring
      rw [this, hexp]; ring
    have h2 : |((s : ℝ) - Real.exp fr) * 10 ^ i| ≤ 160 * (p + 1) * eps p * (2 ^ n * Real.exp D) := by
      rw [abs_mul, abs_of_pos (show (0 : ℝ) < 10 ^ i by positivity), ← hexp, ← mul_assoc]
      exact mul_le_mul_of_nonneg_right hse (by positivity)
    have hT : (0 : ℝ) < 2 ^ n := by positivity
    have h3 : Real.exp D ≤ 102 / 100 := by
      have := (abs_le.1 hex1).2
      linarith
    have h4 : |(2 : ℝ) ^ n * (Real.exp D - 1)| ≤ 2 ^ n * (101 / 100 * (11 * (n * eps p) + 7 * eps p)) := by
      rw [abs_mul, abs_of_pos hT]
      exact mul_le_mul_of_nonneg_left (by linarith) hT.le
    have h5 : 160 * ((p : ℝ) + 1) * eps p * (2 ^ n * Real.exp D) ≤ 160 * (p + 1) * eps p * (2 ^ n * (102 / 100)) :=
      mul_le_mul_of_nonneg_left (mul_le_mul_of_nonneg_left h3 hT.le) hphi0
    rw [h1]
    refine le_trans (abs_add_le _ _) (le_trans (add_le_add (le_trans h2 h5) h4) ?_)
    have h6 : 160 * ((p : ℝ) + 1) * eps p * (2 ^ n * (102 / 100)) + 2 ^ n * (101 / 100 * (11 * (n * eps p) + 7 * eps p)) =
      (160 * (102 / 100) * ((p : ℝ) + 1) + 101 / 100 * 11 * n + 101 / 100 * 7) * eps p * 2 ^ n := by ring
    rw [h6]
    refine mul_le_mul_of_nonneg_right (mul_le_mul_of_nonneg_right ?_ e0.le) hT.le
    have : (0 : ℝ) ≤ p := by positivity
    linarith
  · have : (170 * ((p : ℝ) + 1) + 13 * n) * eps p = 170 * (((p : ℝ) + 1) * eps p) + 13 * (n * eps p) := by ring
    rw [this]
    calc _ ≤ 170 * (1 / 2 ^ 42 : ℝ) + 13 * (1 / 2 ^ 17) := by linarith
      _ ≤ _ := by norm_num

end Verif.Shown
