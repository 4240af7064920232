import Verif.Flt.Lemmas3
import Mathlib.Data.Real.Sqrt

/-! # The accuracy of the square root -/

namespace Verif.Flt
open Spec
open Verif.Arr (R)

/-! ## Newton's step with errors, over the reals -/

/-- The parts of a step: `c` the correction wanted, `a`, `b`, `d`, `f` the errors. -/
theorem newton_parts {w s x A B D r : ℝ} (hw : 0 < w) (hx : x = s * s) :
    r - s = (w - s) * (w - s) / (2 * w) - (A - w * w) / (2 * w) - (B - (A - x)) / (2 * w) - (D - B / (2 * w)) + (r - (w - D)) := by
  subst hx
  field_simp
  ring

theorem newton_coarse {w s x A B D r ε E : ℝ} (hs : 0 < s) (hx : x = s * s) (hε : 0 < ε) (hε' : ε ≤ 1 / 4096) (hE : 0 ≤ E) (hE' : E ≤ 1 / 2)
    (hw : |w - s| ≤ E * s) (hA : |A - w * w| ≤ ε * (w * w)) (hB : |B - (A - x)| ≤ ε * |A - x|)
    (hD : |D - B / (2 * w)| ≤ ε * |B / (2 * w)|) (hr : |r - (w - D)| ≤ ε * |w - D|) :
    0 < w ∧ |r - s| ≤ (E * E + 5 * ε) * s := by
  have hw' := abs_le.1 hw
  have hEs : E * s ≤ s / 2 := by nlinarith
  have hw1 : s / 2 ≤ w := by linarith [hw'.1]
  have hw2 : w ≤ 3 / 2 * s := by linarith [hw'.2]
  have hw0 : 0 < w := by linarith
  have h2w : 0 < 2 * w := by linarith
  refine ⟨hw0, ?_⟩
  have hεs : 0 < ε * s := mul_pos hε hs
  have hεs' : ε * s ≤ s / 4096 := by nlinarith
  -- errors
  have ha : |(A - w * w) / (2 * w)| ≤ 3 / 4 * (ε * s) := by
    rw [abs_div, abs_of_pos h2w, div_le_iff₀ h2w]
    have h1 := mul_le_mul_of_nonneg_left hw2 (mul_pos hε hw0).le
    have h2 : 3 / 4 * (ε * s) * (2 * w) = ε * w * (3 / 2 * s) := by ring
    rw [h2]
    refine le_trans hA (le_trans (le_of_eq ?_) h1)
    ring
  have hc : |(A - x) / (2 * w)| ≤ 13 / 10 * s := by
    have h1 : (A - x) / (2 * w) = (A - w * w) / (2 * w) + (w - s) * ((w + s) / (2 * w)) := by
      subst hx; field_simp; ring
    have h2 : |(w + s) / (2 * w)| ≤ 5 / 2 := by
      rw [abs_of_pos (by positivity), div_le_iff₀ h2w]; nlinarith
    have h3 : |(w - s) * ((w + s) / (2 * w))| ≤ s / 2 * (5 / 2) := by
      rw [abs_mul]
      exact mul_le_mul (by linarith) h2 (abs_nonneg _) (by linarith)
    rw [h1]
    refine le_trans (abs_add_le _ _) ?_
    linarith
  have hb : |(B - (A - x)) / (2 * w)| ≤ ε * |(A - x) / (2 * w)| := by
    rw [abs_div, abs_div, abs_of_pos h2w, ← mul_div_assoc]
    exact div_le_div_of_nonneg_right hB h2w.le
  have hb' : |(B - (A - x)) / (2 * w)| ≤ 13 / 10 * (ε * s) := by nlinarith
  have hBB : |B / (2 * w)| ≤ 131 / 100 * s := by
    have h1 : B / (2 * w) = (A - x) / (2 * w) + (B - (A - x)) / (2 * w) := by ring
    rw [h1]
    refine le_trans (abs_add_le _ _) ?_
    linarith
  have hd : |D - B / (2 * w)| ≤ 131 / 100 * (ε * s) := by nlinarith
  have hn : |(w - s) * (w - s) / (2 * w)| ≤ E * E * s := by
    rw [abs_div, abs_of_pos h2w, div_le_iff₀ h2w, abs_mul]
    have h1 : |w - s| * |w - s| ≤ E * s * (E * s) := mul_le_mul hw hw (abs_nonneg _) (by positivity)
    have h2 : 0 ≤ E * E * s := by positivity
    nlinarith
  have hwD : |w - D| ≤ 13 / 10 * s := by
    have h1 : w - D = s + (w - s) * (w - s) / (2 * w) - (A - w * w) / (2 * w) - (B - (A - x)) / (2 * w) - (D - B / (2 * w)) := by
      have := newton_parts (A := A) (B := B) (D := D) (r := r) hw0 hx
      linarith
    have h2 := abs_le.1 hn
    have h3 := abs_le.1 ha
    have h4 := abs_le.1 hb'
    have h5 := abs_le.1 hd
    have h6 : E * E * s ≤ s / 4 := by nlinarith
    rw [h1, abs_le]
    constructor <;> linarith [h2.1, h2.2, h3.1, h3.2, h4.1, h4.2, h5.1, h5.2]
  have hf : |r - (w - D)| ≤ 13 / 10 * (ε * s) := by nlinarith
  rw [newton_parts (A := A) (B := B) (D := D) (r := r) hw0 hx]
  have h2 := abs_le.1 hn
  have h3 := abs_le.1 ha
  have h4 := abs_le.1 hb'
  have h5 := abs_le.1 hd
  have h6 := abs_le.1 hf
  rw [abs_le]
  constructor <;> linarith [h2.1, h2.2, h3.1, h3.2, h4.1, h4.2, h5.1, h5.2, h6.1, h6.2]

theorem newton_fine {w s x A B D r ε u : ℝ} (hs : 0 < s) (hx : x = s * s) (hε : 0 < ε) (hε' : ε ≤ 1 / 4096) (hu : 0 < u) (hsu : ε * s ≤ 101 / 100 * u)
    (hw0 : 0 < w) (hw : |w - s| ≤ 11 * ε * s) (hA : |(A - w * w) / (2 * w)| ≤ 36 / 100 * u) (hB : |B - (A - x)| ≤ ε * |A - x|)
    (hD : |D - B / (2 * w)| ≤ ε * |B / (2 * w)|) (hr : |r - (w - D)| ≤ u / 2) : |r - s| ≤ 9 / 10 * u := by
  have h2w : 0 < 2 * w := by linarith
  have hw' := abs_le.1 hw
  have hεs : 0 < ε * s := mul_pos hε hs
  have hεs' : ε * s ≤ s / 4096 := by nlinarith
  have hw1 : 99 / 100 * s ≤ w := by nlinarith [hw'.1]
  have hc : |(A - x) / (2 * w)| ≤ 12 * u := by
    have h1 : (A - x) / (2 * w) = (A - w * w) / (2 * w) + (w - s) * ((w + s) / (2 * w)) := by
      subst hx; field_simp; ring
    have h2 : |(w + s) / (2 * w)| ≤ 101 / 100 := by
      rw [abs_of_pos (by positivity), div_le_iff₀ h2w]; linarith
    have h3 : |(w - s) * ((w + s) / (2 * w))| ≤ 11 * ε * s * (101 / 100) := by
      rw [abs_mul]
      exact mul_le_mul hw h2 (abs_nonneg _) (by nlinarith)
    rw [h1]
    refine le_trans (abs_add_le _ _) ?_
    linarith
  have hεu : ε * u ≤ u / 4096 := by nlinarith
  have hεu0 : 0 < ε * u := mul_pos hε hu
  have hb : |(B - (A - x)) / (2 * w)| ≤ ε * |(A - x) / (2 * w)| := by
    rw [abs_div, abs_div, abs_of_pos h2w, ← mul_div_assoc]
    exact div_le_div_of_nonneg_right hB h2w.le
  have hb' : |(B - (A - x)) / (2 * w)| ≤ 12 * (ε * u) := by nlinarith
  have hBB : |B / (2 * w)| ≤ 13 * u := by
    have h1 : B / (2 * w) = (A - x) / (2 * w) + (B - (A - x)) / (2 * w) := by ring
    rw [h1]
    refine le_trans (abs_add_le _ _) ?_
    linarith
  have hd : |D - B / (2 * w)| ≤ 13 * (ε * u) := by nlinarith
  have hn : |(w - s) * (w - s) / (2 * w)| ≤ 3 / 100 * u := by
    rw [abs_div, abs_of_pos h2w, div_le_iff₀ h2w, abs_mul]
    have h1 : |w - s| * |w - s| ≤ 11 * ε * s * (11 * ε * s) := mul_le_mul hw hw (abs_nonneg _) (by positivity)
    have h2 : 11 * ε * s * (11 * ε * s) ≤ 11 * s / 4096 * (11 * (101 / 100 * u)) := by
      apply mul_le_mul <;> nlinarith
    have h3 : s * u ≤ w * u * (100 / 99) := by nlinarith
    nlinarith [mul_pos hw0 hu]
  rw [newton_parts (A := A) (B := B) (D := D) (r := r) hw0 hx]
  have h2 := abs_le.1 hn
  have h3 := abs_le.1 hA
  have h4 := abs_le.1 hb'
  have h5 := abs_le.1 hd
  have h6 := abs_le.1 hr
  rw [abs_le]
  constructor <;> linarith [h2.1, h2.2, h3.1, h3.2, h4.1, h4.2, h5.1, h5.2, h6.1, h6.2]

/-- When a step changes the root by little, the root was near. -/
theorem newton_near {w s x A B D r ε u : ℝ} (hs : 0 < s) (hx : x = s * s) (hε : 0 < ε) (hε' : ε ≤ 1 / 4096) (hur : u ≤ 2 * ε * r)
    (hw0 : 0 < w) (hr0 : 0 < r) (hA : |A - w * w| ≤ ε * (w * w)) (hB : |B - (A - x)| ≤ ε * |A - x|)
    (hD : |D - B / (2 * w)| ≤ ε * |B / (2 * w)|) (hr : |r - (w - D)| ≤ u / 2) (hwr : |w - r| ≤ 101 / 100 * u) : |w - s| ≤ 11 * ε * s := by
  have h2w : 0 < 2 * w := by linarith
  have hu0 : 0 ≤ u := by have := le_trans (abs_nonneg _) hr; linarith
  have h1 := abs_le.1 hwr
  have h2 := abs_le.1 hr
  have hεr : ε * r ≤ r / 4096 := by nlinarith
  have hrw : r ≤ 1001 / 1000 * w := by nlinarith [h1.1, h1.2]
  have hD1 : |D| ≤ 151 / 100 * u := by rw [abs_le]; constructor <;> linarith [h1.1, h1.2, h2.1, h2.2]
  have hBB : |B / (2 * w)| ≤ 152 / 100 * u := by
    have h3 : |B / (2 * w)| ≤ |D| + |D - B / (2 * w)| := by
      have := abs_sub_abs_le_abs_sub (B / (2 * w)) D
      rw [abs_sub_comm (B / (2 * w)) D] at this
      linarith
    nlinarith [abs_nonneg (B / (2 * w))]
  have hc : |(A - x) / (2 * w)| ≤ 153 / 100 * u := by
    have hb : |(B - (A - x)) / (2 * w)| ≤ ε * |(A - x) / (2 * w)| := by
      rw [abs_div, abs_div, abs_of_pos h2w, ← mul_div_assoc]
      exact div_le_div_of_nonneg_right hB h2w.le
    have h3 : |(A - x) / (2 * w)| ≤ |B / (2 * w)| + |(B - (A - x)) / (2 * w)| := by
      have h4 : (A - x) / (2 * w) = B / (2 * w) - (B - (A - x)) / (2 * w) := by ring
      rw [h4]
      exact abs_sub _ _
    nlinarith [abs_nonneg ((A - x) / (2 * w))]
  have ha : |(A - w * w) / (2 * w)| ≤ ε * w / 2 := by
    rw [abs_div, abs_of_pos h2w, div_le_iff₀ h2w]
    linarith
  have hεw : 0 < ε * w := mul_pos hε hw0
  have hu' : u ≤ 2002 / 1000 * (ε * w) := by nlinarith
  have h5 : |(w - s) * ((w + s) / (2 * w))| ≤ 36 / 10 * (ε * w) := by
    have h4 : (w - s) * ((w + s) / (2 * w)) = (A - x) / (2 * w) - (A - w * w) / (2 * w) := by
      subst hx; field_simp; ring
    rw [h4]
    refine le_trans (abs_sub _ _) ?_
    linarith
  rw [abs_mul, abs_of_pos (show 0 < (w + s) / (2 * w) by positivity)] at h5
  have h6 : 1 / 2 ≤ (w + s) / (2 * w) := by rw [le_div_iff₀ h2w]; linarith
  have h7 : |w - s| ≤ 72 / 10 * (ε * w) := by nlinarith [abs_nonneg (w - s)]
  have h8 := abs_le.1 h7
  have h9 : w ≤ 101 / 100 * s := by nlinarith
  nlinarith

/-! ## The step on floating-point numbers -/

/-- The step, as a formula. -/
def nstep (p : ℕ) (x w : ℚ) : ℚ := rnd p (w - rnd p (rnd p (rnd p (w * w) - x) / (2 * w)))

theorem sqrtStep_nstep {c : Ctx} (hp : 1 ≤ c.p) {x w : ℚ} (hw : IsFloat c.p w) (h0 : 0 < w) : sqrtStep c c.p x w = .ok (nstep c.p x w) := by
  rw [sqrtStep_ok hp h0, rnd_double c.p hp, rnd_self hp hw]
  rfl

theorem nstep_isFloat {p : ℕ} (hp : 1 ≤ p) (x w : ℚ) : IsFloat p (nstep p x w) := rnd_isFloat hp _

/-- The error of a square is small beside the root: rounding errors are smaller where the square is small, and where the root and the next
root are on two sides of a power of two, the root is near that power. -/
theorem square_err {p : ℕ} (hp : 12 ≤ p) {w r : ℚ} (hw : IsFloat p w) (hw0 : 0 < w) (hr0 : 0 < r) (hwr : |w - r| ≤ 20 * 2 ^ (expo r - (p : ℤ))) :
    |rnd p (w * w) - w * w| ≤ 72 / 100 * 2 ^ (expo r - (p : ℤ)) * w := by
  have hew := expo_spec w hw0.ne'
  have her := expo_spec r hr0.ne'
  rw [abs_of_pos hw0] at hew
  rw [abs_of_pos hr0] at her
  have hww : 0 < w * w := mul_pos hw0 hw0
  by_cases hT : w < 2 ^ expo r
  · -- the root is not above the power of two
    have hle : expo w ≤ expo r := by
      have := (zpow_lt_zpow_iff_right₀ (by norm_num : (1 : ℚ) < 2)).1 (lt_of_le_of_lt hew.1 hT)
      omega
    have hu : (2 : ℚ) ^ (expo w - (p : ℤ)) ≤ 2 ^ (expo r - (p : ℤ)) := zpow_le_zpow_right₀ (by norm_num) (by omega)
    have hV : (2 : ℚ) ^ (expo w - (p : ℤ)) * 2 ^ expo w = 2 ^ (2 * expo w - (p : ℤ)) := by
      rw [← zpow_add₀ (by norm_num)]; congr 1; ring
    have hm : 72 / 100 * 2 ^ (expo w - (p : ℤ)) * w ≤ 72 / 100 * 2 ^ (expo r - (p : ℤ)) * w := by
      apply mul_le_mul_of_nonneg_right _ hw0.le; linarith
    refine le_trans ?_ hm
    have hVp := two_zpow_pos (expo w - (p : ℤ))
    have hEp := two_zpow_pos (expo w)
    have h1 := rnd_err_ulp p (w * w)
    have hE1 : (2 : ℚ) ^ (expo w - 1) = 2 ^ expo w / 2 := by rw [zpow_sub_one₀ (by norm_num)]; ring
    rw [hE1] at hew
    have hEE : (2 : ℚ) ^ (2 * expo w) = 2 ^ expo w * 2 ^ expo w := by rw [← zpow_add₀ (by norm_num)]; congr 1; ring
    by_cases hlow : w * w < 2 ^ (2 * expo w - 1)
    · have he : expo (w * w) ≤ 2 * expo w - 1 := by
        have h2 := (expo_spec (w * w) hww.ne').1
        rw [abs_of_pos hww] at h2
        have := (zpow_lt_zpow_iff_right₀ (by norm_num : (1 : ℚ) < 2)).1 (lt_of_le_of_lt h2 hlow)
        omega
      have h3 : (2 : ℚ) ^ (expo (w * w) - (p : ℤ)) ≤ 2 ^ (2 * expo w - 1 - (p : ℤ)) := zpow_le_zpow_right₀ (by norm_num) (by omega)
      have h4 : (2 : ℚ) ^ (2 * expo w - 1 - (p : ℤ)) = 2 ^ (2 * expo w - (p : ℤ)) / 2 := by
        rw [show 2 * expo w - 1 - (p : ℤ) = 2 * expo w - (p : ℤ) - 1 by ring, zpow_sub_one₀ (by norm_num)]; ring
      rw [h4, ← hV] at h3
      have h5 : 2 ^ (expo w - (p : ℤ)) * (2 ^ expo w / 2) ≤ 2 ^ (expo w - (p : ℤ)) * w := mul_le_mul_of_nonneg_left hew.1 hVp.le
      have h8 : 0 < (2 : ℚ) ^ (expo w - (p : ℤ)) * 2 ^ expo w := by positivity
      linarith
    · have hlow := not_lt.1 hlow
      have he : expo (w * w) ≤ 2 * expo w := by
        have h2 := (expo_spec (w * w) hww.ne').1
        rw [abs_of_pos hww] at h2
        have h6 : w * w < 2 ^ (2 * expo w) := by rw [hEE]; nlinarith
        have := (zpow_lt_zpow_iff_right₀ (by norm_num : (1 : ℚ) < 2)).1 (lt_of_le_of_lt h2 h6)
        omega
      have h3 : (2 : ℚ) ^ (expo (w * w) - (p : ℤ)) ≤ 2 ^ (2 * expo w - (p : ℤ)) := zpow_le_zpow_right₀ (by norm_num) (by omega)
      rw [← hV] at h3
      rw [zpow_sub_one₀ (by norm_num), hEE] at hlow
      have h7 : 7 / 10 * 2 ^ expo w ≤ w := by
        by_contra hc
        have hc := not_le.1 hc
        nlinarith
      have h5 : 2 ^ (expo w - (p : ℤ)) * (7 / 10 * 2 ^ expo w) ≤ 2 ^ (expo w - (p : ℤ)) * w := mul_le_mul_of_nonneg_left h7 hVp.le
      have h8 : 0 < (2 : ℚ) ^ (expo w - (p : ℤ)) * 2 ^ expo w := by positivity
      linarith
  · -- the root is above the power of two
    have hT := not_lt.1 hT
    obtain ⟨k, hk⟩ := isFloat_mult hw (e := expo r + 1) (by rw [abs_of_pos hw0, add_sub_cancel_right]; exact hT)
    have hT2 : (2 : ℚ) ^ expo r = 2 ^ (p - 1) * 2 ^ (expo r + 1 - (p : ℤ)) := by
      rw [← zpow_natCast, ← zpow_add₀ (by norm_num)]; congr 1
      omega
    have hu1 : (2 : ℚ) ^ (expo r + 1 - (p : ℤ)) = 2 * 2 ^ (expo r - (p : ℤ)) := by
      rw [show expo r + 1 - (p : ℤ) = expo r - (p : ℤ) + 1 by ring, zpow_add_one₀ (by norm_num)]; ring
    have hup := two_zpow_pos (expo r - (p : ℤ))
    have hTp := two_zpow_pos (expo r)
    have hd := (abs_le.1 hwr).2
    have hd0 : 0 ≤ w - 2 ^ expo r := by linarith
    have hd1 : w - 2 ^ expo r ≤ 20 * 2 ^ (expo r - (p : ℤ)) := by linarith [her.2]
    have hP : (2 : ℤ) ^ p = 2 * 2 ^ (p - 1) := by rw [← pow_succ']; congr 1; omega
    have hPb : (2 : ℤ) ^ 11 ≤ 2 ^ (p - 1) := pow_le_pow_right₀ (by norm_num) (by omega)
    have hf : IsFloat p (2 ^ expo r * 2 ^ expo r + 2 * 2 ^ expo r * (w - 2 ^ expo r)) := by
      refine ⟨2 ^ (p - 1) + 2 * (k - 2 ^ (p - 1)), 2 * expo r + 1 - (p : ℤ), ?_, ?_⟩
      · have hk0 : 0 ≤ k - 2 ^ (p - 1) := by
          have : (0 : ℚ) ≤ ((k - 2 ^ (p - 1) : ℤ) : ℚ) * 2 ^ (expo r + 1 - (p : ℤ)) := by
            push_cast; rw [sub_mul, ← hk, ← hT2]; exact hd0
          have := nonneg_of_mul_nonneg_left this (two_zpow_pos _)
          exact_mod_cast this
        have hk1 : k - 2 ^ (p - 1) ≤ 10 := by
          have h1 : ((k - 2 ^ (p - 1) : ℤ) : ℚ) * 2 ^ (expo r + 1 - (p : ℤ)) ≤ 10 * 2 ^ (expo r + 1 - (p : ℤ)) := by
            push_cast; rw [sub_mul, ← hk, ← hT2, hu1]; linarith
          have := le_of_mul_le_mul_right h1 (two_zpow_pos _)
          exact_mod_cast this
        rw [abs_of_nonneg (by omega)]
        omega
      · have h9 : (2 : ℚ) ^ (2 * expo r + 1 - (p : ℤ)) = 2 ^ expo r * 2 ^ (expo r + 1 - (p : ℤ)) := by
          rw [← zpow_add₀ (by norm_num)]; congr 1; ring
        have h10 : (w - 2 ^ expo r : ℚ) = (k - 2 ^ (p - 1)) * 2 ^ (expo r + 1 - (p : ℤ)) := by
          rw [sub_mul, ← hk, ← hT2]
        rw [h9, h10]
        push_cast
        rw [add_mul]
        have h11 : (2 : ℚ) ^ (p - 1) * (2 ^ expo r * 2 ^ (expo r + 1 - (p : ℤ))) = 2 ^ expo r * 2 ^ expo r := by
          rw [mul_left_comm, ← hT2]
        rw [h11]
        ring
    have h1 := rnd_le (by omega : 1 ≤ p) (w * w) hf
    rw [abs_sub_comm] at h1
    have h2 : w * w - (2 ^ expo r * 2 ^ expo r + 2 * 2 ^ expo r * (w - 2 ^ expo r)) = (w - 2 ^ expo r) * (w - 2 ^ expo r) := by ring
    rw [h2, abs_of_nonneg (mul_nonneg hd0 hd0)] at h1
    have h3 : (w - 2 ^ expo r) * (w - 2 ^ expo r) ≤ 20 * 2 ^ (expo r - (p : ℤ)) * (20 * 2 ^ (expo r - (p : ℤ))) :=
      mul_le_mul hd1 hd1 hd0 (by positivity)
    have h4 : (2 : ℚ) ^ (expo r - (p : ℤ)) ≤ 2 ^ expo r * (1 / 4096) := by
      rw [show expo r - (p : ℤ) = expo r + -(p : ℤ) by ring, zpow_add₀ (by norm_num)]
      apply mul_le_mul_of_nonneg_left _ hTp.le
      have := eps_le (k := 12) hp
      norm_num at this ⊢
      exact this
    have h5 : 20 * 2 ^ (expo r - (p : ℤ)) * (20 * 2 ^ (expo r - (p : ℤ))) ≤ 400 * 2 ^ (expo r - (p : ℤ)) * (w * (1 / 4096)) := by
      have : (2 : ℚ) ^ (expo r - (p : ℤ)) ≤ w * (1 / 4096) := by linarith
      nlinarith
    nlinarith [mul_pos hup hw0]

/-- The relative error. -/
noncomputable def eps (p : ℕ) : ℝ := (2 : ℝ) ^ (-(p : ℤ))

/-- The unit in the last place. -/
noncomputable def ulp (p : ℕ) (r : ℚ) : ℝ := (2 : ℝ) ^ (expo r - (p : ℤ))

theorem eps_real (p : ℕ) : 0 < eps p := by unfold eps; positivity

theorem eps_small {p : ℕ} (hp : 12 ≤ p) : eps p ≤ 1 / 4096 := by
  have := eps_le (k := 12) hp
  have h2 : ((2 : ℚ) ^ (-(p : ℤ)) : ℝ) ≤ ((1 / 2 ^ 12 : ℚ) : ℝ) := by exact_mod_cast this
  unfold eps
  norm_num at h2 ⊢
  exact h2

theorem ulp_pos (p : ℕ) (r : ℚ) : 0 < ulp p r := by unfold ulp; positivity

theorem rnd_err_real (p : ℕ) (q : ℚ) : |((rnd p q : ℚ) : ℝ) - (q : ℝ)| ≤ eps p * |(q : ℝ)| := by
  have h : ((|rnd p q - q| : ℚ) : ℝ) ≤ ((|q| * 2 ^ (-(p : ℤ)) : ℚ) : ℝ) := Rat.cast_le.2 (rnd_err p q)
  push_cast at h
  rw [mul_comm] at h
  exact h

theorem rnd_pos_expo {p : ℕ} (hp : 1 ≤ p) {q : ℚ} (hq : q ≠ 0) : expo q ≤ expo (rnd p q) := by
  have h1 := expo_spec q hq
  have h2 := expo_spec (rnd p q) (rnd_ne_zero hp hq)
  have h3 : (2 : ℚ) ^ (expo q - 1) ≤ |rnd p q| := by
    rcases abs_cases q with ⟨e, h⟩ | ⟨e, h⟩
    · rw [e] at h1
      have := float_le_rnd hp (isFloat_zpow hp _) h1.1
      exact le_trans this (le_abs_self _)
    · rw [e] at h1
      have := float_le_rnd hp (isFloat_zpow hp _) h1.1
      rw [rnd_neg] at this
      exact le_trans this (neg_le_abs _)
  have := (zpow_lt_zpow_iff_right₀ (by norm_num : (1 : ℚ) < 2)).1 (lt_of_le_of_lt h3 h2.2)
  omega

/-- Half a unit of the result. -/
theorem rnd_err_half {p : ℕ} (hp : 1 ≤ p) (q : ℚ) : |((rnd p q : ℚ) : ℝ) - (q : ℝ)| ≤ ulp p (rnd p q) / 2 := by
  by_cases hq : q = 0
  · subst hq
    rw [rnd_zero]
    simp
    have := ulp_pos p 0
    linarith
  · have h : ((|rnd p q - q| : ℚ) : ℝ) ≤ ((2 ^ (expo q - (p : ℤ)) / 2 : ℚ) : ℝ) := Rat.cast_le.2 (rnd_err_ulp p q)
    push_cast at h
    have h2 := rnd_pos_expo hp hq
    have h3 : (2 : ℝ) ^ (expo q - (p : ℤ)) ≤ ulp p (rnd p q) := zpow_le_zpow_right₀ (by norm_num) (by omega)
    linarith

theorem ulp_le {p : ℕ} {r : ℚ} (hr : 0 < r) : ulp p r ≤ 2 * eps p * r := by
  have h := (expo_spec r hr.ne').1
  rw [abs_of_pos hr] at h
  have h' : ((2 ^ (expo r - 1) : ℚ) : ℝ) ≤ r := Rat.cast_le.2 h
  push_cast at h'
  unfold ulp eps
  rw [show expo r - (p : ℤ) = -(p : ℤ) + 1 + (expo r - 1) by ring, zpow_add₀ (by norm_num), zpow_add_one₀ (by norm_num)]
  have : (0 : ℝ) < 2 ^ (-(p : ℤ)) := by positivity
  nlinarith

theorem lt_ulp {p : ℕ} {r : ℚ} (hr : 0 < r) : eps p * r < ulp p r := by
  have h := (expo_spec r hr.ne').2
  rw [abs_of_pos hr] at h
  have h' : (r : ℝ) < ((2 ^ (expo r) : ℚ) : ℝ) := Rat.cast_lt.2 h
  push_cast at h'
  unfold ulp eps
  rw [show expo r - (p : ℤ) = -(p : ℤ) + expo r by ring, zpow_add₀ (by norm_num)]
  exact mul_lt_mul_of_pos_left h' (by positivity)

section
variable {p : ℕ} {x : ℚ} {s : ℝ}

theorem step_coarse (hp : 12 ≤ p) (hs : 0 < s) (hx : (x : ℝ) = s * s) {w : ℚ} {E : ℝ} (hE : 0 ≤ E) (hE' : E ≤ 1 / 2) (hw : |(w : ℝ) - s| ≤ E * s) :
    0 < (w : ℝ) ∧ |(nstep p x w : ℝ) - s| ≤ (E * E + 5 * eps p) * s := by
  have h1 := rnd_err_real p (w * w)
  have h2 := rnd_err_real p (rnd p (w * w) - x)
  have h3 := rnd_err_real p (rnd p (rnd p (w * w) - x) / (2 * w))
  have h4 := rnd_err_real p (w - rnd p (rnd p (rnd p (w * w) - x) / (2 * w)))
  push_cast at h1 h2 h3 h4
  refine newton_coarse hs hx (eps_real p) (eps_small hp) hE hE' hw ?_ h2 h3 h4
  rwa [abs_of_nonneg (mul_self_nonneg (w : ℝ))] at h1

theorem step_fine (hp : 12 ≤ p) (hs : 0 < s) (hx : (x : ℝ) = s * s) {w : ℚ} (hwf : IsFloat p w) (hw : |(w : ℝ) - s| ≤ 11 * eps p * s) :
    0 < nstep p x w ∧ |(nstep p x w : ℝ) - s| ≤ 9 / 10 * ulp p (nstep p x w) := by
  have he := eps_small hp
  have he0 := eps_real p
  obtain ⟨hw0, hc⟩ := step_coarse hp hs hx (E := 11 * eps p) (by linarith) (by linarith) hw
  have hc' : |(nstep p x w : ℝ) - s| ≤ 6 * eps p * s := by
    refine le_trans hc (mul_le_mul_of_nonneg_right ?_ hs.le)
    nlinarith
  have hes : eps p * s ≤ s / 4096 := by nlinarith
  have hr0 : 0 < (nstep p x w : ℝ) := by
    have := (abs_le.1 hc').1
    nlinarith
  have hw0' : 0 < w := by exact_mod_cast hw0
  have hr0' : 0 < nstep p x w := by exact_mod_cast hr0
  refine ⟨hr0', ?_⟩
  have hu := ulp_pos p (nstep p x w)
  have hsr : s ≤ 101 / 100 * (nstep p x w : ℝ) := by
    have := (abs_le.1 hc').1
    nlinarith
  have hsu : eps p * s ≤ 101 / 100 * ulp p (nstep p x w) := by
    have := lt_ulp (p := p) hr0'
    nlinarith
  have h1 := square_err hp hwf hw0' hr0' (by
    have h1 := abs_le.1 hc'
    have h2 := abs_le.1 hw
    have : |(w : ℝ) - (nstep p x w : ℝ)| ≤ 20 * ulp p (nstep p x w) := by
      rw [abs_le]; constructor <;> nlinarith [h1.1, h1.2, h2.1, h2.2]
    have h3 : ((|w - nstep p x w| : ℚ) : ℝ) ≤ ((20 * 2 ^ (expo (nstep p x w) - (p : ℤ)) : ℚ) : ℝ) := by
      push_cast; exact this
    exact Rat.cast_le.1 h3)
  have h1' : ((|rnd p (w * w) - w * w| : ℚ) : ℝ) ≤ ((72 / 100 * 2 ^ (expo (nstep p x w) - (p : ℤ)) * w : ℚ) : ℝ) := Rat.cast_le.2 h1
  have h2 := rnd_err_real p (rnd p (w * w) - x)
  have h3 := rnd_err_real p (rnd p (rnd p (w * w) - x) / (2 * w))
  have h4 := rnd_err_half (by omega : 1 ≤ p) (w - rnd p (rnd p (rnd p (w * w) - x) / (2 * w)))
  push_cast at h1' h2 h3 h4
  refine newton_fine hs hx he0 he hu hsu hw0 hw ?_ h2 h3 h4
  rw [abs_div, abs_of_pos (by linarith : (0 : ℝ) < 2 * w), div_le_iff₀ (by linarith)]
  unfold ulp
  linarith

theorem step_near (hp : 12 ≤ p) (hs : 0 < s) (hx : (x : ℝ) = s * s) {w : ℚ} (hw0 : 0 < w) (hr0 : 0 < nstep p x w)
    (hwr : |(w : ℝ) - (nstep p x w : ℝ)| ≤ 101 / 100 * ulp p (nstep p x w)) : |(w : ℝ) - s| ≤ 11 * eps p * s := by
  have h1 := rnd_err_real p (w * w)
  have h2 := rnd_err_real p (rnd p (w * w) - x)
  have h3 := rnd_err_real p (rnd p (rnd p (w * w) - x) / (2 * w))
  have h4 := rnd_err_half (by omega : 1 ≤ p) (w - rnd p (rnd p (rnd p (w * w) - x) / (2 * w)))
  push_cast at h1 h2 h3 h4
  have hw0' : (0 : ℝ) < w := by exact_mod_cast hw0
  refine newton_near hs hx (eps_real p) (eps_small hp) (ulp_le hr0) hw0' (by exact_mod_cast hr0) ?_ h2 h3 h4 hwr
  rwa [abs_of_nonneg (mul_self_nonneg (w : ℝ))] at h1

/-- When the loop finds its values close, the root is accurate. -/
theorem step_done (hp : 12 ≤ p) (hs : 0 < s) (hx : (x : ℝ) = s * s) {w : ℚ} (hwf : IsFloat p w) (hw0 : 0 < w) (hr0 : 0 < nstep p x w)
    (hd : |sub p w (nstep p x w)| ≤ 2 ^ (expo (nstep p x w) - (p : ℤ))) : |(nstep p x w : ℝ) - s| ≤ 9 / 10 * ulp p (nstep p x w) := by
  refine (step_fine hp hs hx hwf (step_near hp hs hx hw0 hr0 ?_)).2
  have hd' : ((|sub p w (nstep p x w)| : ℚ) : ℝ) ≤ ((2 ^ (expo (nstep p x w) - (p : ℤ)) : ℚ) : ℝ) := Rat.cast_le.2 hd
  push_cast at hd'
  have h1 := rnd_err_real p (w - nstep p x w)
  push_cast at h1
  have he := eps_small hp
  have he0 := eps_real p
  have hu := ulp_pos p (nstep p x w)
  have hd'' : |((rnd p (w - nstep p x w) : ℚ) : ℝ)| ≤ ulp p (nstep p x w) := hd'
  generalize (w : ℝ) - (nstep p x w : ℝ) = t at *
  have h2 : |t| ≤ |((rnd p (w - nstep p x w) : ℚ) : ℝ)| + |((rnd p (w - nstep p x w) : ℚ) : ℝ) - t| := by
    have := abs_sub_abs_le_abs_sub t ((rnd p (w - nstep p x w) : ℚ) : ℝ)
    rw [abs_sub_comm t] at this
    linarith
  nlinarith [abs_nonneg t]

end

end Verif.Flt
