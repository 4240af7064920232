import Verif.Cell.Lemmas7

/-!
# Errors of the phase
-/

namespace Verif.Cell
open Verif.Arr (R)
open Verif.Flt
open Verif.Flt.Spec (IsFloat)

/-- The quotient of two numbers, converted to a float. -/
theorem divide_err {c : Ctx} (hp : 16 ≤ c.p) {u v : PS} (hv : v.val ≠ 0) :
    ∃ q, divide c u v = .ok q ∧ IsFloat c.p (q.float c).val ∧ |((q.float c).val : ℝ) - u.val / v.val| ≤ 5 * eps c.p * |(u.val : ℝ) / v.val| := by
  have he := eps_real c.p
  obtain ⟨-, -, -, hes⟩ := consts_small hp 0 (k := 0) le_rfl (by norm_num)
  have hv' : (v.val : ℝ) ≠ 0 := by exact_mod_cast hv
  have key : ∃ q, ((quo c.p (u.float c).val (v.float c).val).bind fun q => .ok (shrinkF ⟨c.p, q⟩)) = .ok q ∧ IsFloat c.p (q.float c).val ∧
      |((q.float c).val : ℝ) - u.val / v.val| ≤ 5 * eps c.p * |(u.val : ℝ) / v.val| := by
    have e1 := float_err c u
    have e2 := float_err c v
    set U : ℚ := (u.float c).val
    set V : ℚ := (v.float c).val
    have hV : (V : ℝ) ≠ 0 := by
      intro h
      rw [h, zero_sub, abs_neg] at e2
      have := abs_pos.2 hv'
      nlinarith
    have hV' : V ≠ 0 := by exact_mod_cast hV
    refine ⟨shrinkF ⟨c.p, rnd c.p (U / V)⟩, ?_, ?_, ?_⟩
    · unfold quo; rw [if_neg hV']; rfl
    · unfold shrinkF
      split
      · exact rnd_isFloat (by omega) _
      · exact rnd_isFloat (by omega) _
    · have e0 : ((shrinkF ⟨c.p, rnd c.p (U / V)⟩).float c).val = rnd c.p (U / V) := by
        unfold shrinkF
        split
        · exact rnd_self (by omega) (rnd_isFloat (by omega) _)
        · rfl
      rw [e0]
      have e3 := rnd_err_real c.p (U / V)
      push_cast at e3
      -- U = u (1 + a), V = v (1 + b)
      have h1 : |(U : ℝ) / V - u.val / v.val| ≤ 21 / 10 * eps c.p * |(u.val : ℝ) / v.val| := by
        have hvp := abs_pos.2 hv'
        have hb : |(v.val : ℝ)| * (999 / 1000) ≤ |(V : ℝ)| := by
          have := abs_sub_abs_le_abs_sub (v.val : ℝ) (V : ℝ)
          rw [abs_sub_comm] at this
          have : eps c.p * |(v.val : ℝ)| ≤ 1 / 1000 * |(v.val : ℝ)| := mul_le_mul_of_nonneg_right hes hvp.le
          linarith
        have e : (U : ℝ) / V - u.val / v.val = ((U - u.val) - u.val / v.val * (V - v.val)) / V := by field_simp; ring
        rw [e, abs_div, div_le_iff₀ (abs_pos.2 hV)]
        have t1 : |(U : ℝ) - u.val - u.val / v.val * (V - v.val)| ≤ eps c.p * |(u.val : ℝ)| + |(u.val : ℝ) / v.val| * (eps c.p * |(v.val : ℝ)|) := by
          refine (abs_sub _ _).trans (add_le_add e1 ?_)
          rw [abs_mul]
          exact mul_le_mul_of_nonneg_left e2 (abs_nonneg _)
        have t2 : |(u.val : ℝ)| = |(u.val : ℝ) / v.val| * |(v.val : ℝ)| := by rw [← abs_mul, div_mul_cancel₀ _ hv']
        rw [t2] at t1
        have t3 : 21 / 10 * eps c.p * |(u.val : ℝ) / v.val| * (|(v.val : ℝ)| * (999 / 1000)) ≤ 21 / 10 * eps c.p * |(u.val : ℝ) / v.val| * |(V : ℝ)| :=
          mul_le_mul_of_nonneg_left hb (by positivity)
        have t4 : 0 ≤ eps c.p * (|(u.val : ℝ) / v.val| * |(v.val : ℝ)|) := by positivity
        linarith
      have h2 : |(U : ℝ) / V| ≤ 11 / 10 * |(u.val : ℝ) / v.val| := by
        have := abs_add_le ((u.val : ℝ) / v.val) ((U : ℝ) / V - u.val / v.val)
        rw [add_sub_cancel] at this
        have h3 : eps c.p * |(u.val : ℝ) / v.val| ≤ 1 / 1000 * |(u.val : ℝ) / v.val| := mul_le_mul_of_nonneg_right hes (abs_nonneg _)
        have := abs_nonneg ((u.val : ℝ) / v.val)
        linarith
      have h3 := abs_add_le (((rnd c.p (U / V) : ℚ) : ℝ) - (U : ℝ) / V) ((U : ℝ) / V - u.val / v.val)
      rw [sub_add_sub_cancel] at h3
      have h4 : eps c.p * |(U : ℝ) / V| ≤ eps c.p * (11 / 10 * |(u.val : ℝ) / v.val|) := mul_le_mul_of_nonneg_left h2 he.le
      have h5 : 0 ≤ eps c.p * |(u.val : ℝ) / v.val| := by positivity
      linarith
  cases u with
  | flt x => cases v <;> exact key
  | exact a =>
    cases v with
    | flt x => exact key
    | exact b =>
      refine ⟨.exact (a / b), ?_, rnd_isFloat (by omega) _, ?_⟩
      · unfold divide; exact if_neg hv
      · have := rnd_err_real c.p (a / b)
        push_cast at this
        simp only [PS.float, floatOf, PS.val]
        refine this.trans (mul_le_mul_of_nonneg_right (by linarith) (abs_nonneg _))

/-- The arc tangent of a quotient with a small relative error. -/
theorem arctan_rel {Q q δ : ℝ} (hδ0 : 0 ≤ δ) (hδ : δ ≤ 1 / 10) (h : |Q - q| ≤ δ * |q|) : |Real.arctan Q - Real.arctan q| ≤ δ := by
  have hq : 9 / 10 * q ^ 2 ≤ Q * q := by
    have h1 : |(Q - q) * q| ≤ δ * q ^ 2 := by
      rw [abs_mul, ← sq_abs q, sq, ← mul_assoc]
      exact mul_le_mul_of_nonneg_right h (abs_nonneg _)
    have h2 := (abs_le.1 h1).1
    have h3 : δ * q ^ 2 ≤ 1 / 10 * q ^ 2 := mul_le_mul_of_nonneg_right hδ (sq_nonneg _)
    nlinarith
  have hq0 : 0 ≤ Q * q := le_trans (by positivity) hq
  refine (arctan_diff hq0).trans ?_
  rw [div_le_iff₀ (by linarith)]
  refine h.trans (mul_le_mul_of_nonneg_left ?_ hδ0)
  have : |q| ≤ 1 + 9 / 10 * q ^ 2 := by rw [← sq_abs q]; nlinarith [sq_nonneg (|q| - 1 / 2)]
  linarith

theorem arg_right {x y : ℝ} (hx : 0 < x) : Complex.arg ⟨x, y⟩ = Real.arctan (y / x) := by
  have h1 := Complex.tan_arg ⟨x, y⟩
  have h2 := abs_lt.1 (Complex.abs_arg_lt_pi_div_two_iff.2 (Or.inl (show 0 < (⟨x, y⟩ : ℂ).re from hx)))
  simp only at h1
  rw [← h1, Real.arctan_tan h2.1 h2.2]

theorem arg_upper {x y : ℝ} (hx : x < 0) (hy : 0 < y) : Complex.arg ⟨x, y⟩ = Real.arctan (y / x) + Real.pi := by
  have h1 := Complex.arg_neg_eq_arg_sub_pi_of_im_pos (x := ⟨x, y⟩) hy
  have h2 := arg_right (x := -x) (y := -y) (by linarith)
  rw [neg_div_neg_eq] at h2
  have e : -(⟨x, y⟩ : ℂ) = ⟨-x, -y⟩ := by apply Complex.ext <;> simp
  rw [e, h2] at h1
  linarith

theorem arg_lower {x y : ℝ} (hx : x < 0) (hy : y < 0) : Complex.arg ⟨x, y⟩ = Real.arctan (y / x) - Real.pi := by
  have h1 := Complex.arg_neg_eq_arg_add_pi_of_im_neg (x := ⟨x, y⟩) hy
  have h2 := arg_right (x := -x) (y := -y) (by linarith)
  rw [neg_div_neg_eq] at h2
  have e : -(⟨x, y⟩ : ℂ) = ⟨-x, -y⟩ := by apply Complex.ext <;> simp
  rw [e, h2] at h1
  linarith

theorem pi_err {c : Ctx} (hp : 16 ≤ c.p) (hpi : PiOk c) : |((rnd c.p c.pi : ℚ) : ℝ) - Real.pi| ≤ 8 * eps c.p := by
  have he := eps_real c.p
  have h1 := rnd_err_real c.p c.pi
  obtain ⟨g1, g2⟩ := pi_ge hp hpi
  have g1' : (3 : ℝ) ≤ c.pi := by exact_mod_cast g1
  have g2' : (c.pi : ℝ) ≤ 63 / 20 := by have : ((c.pi : ℚ) : ℝ) ≤ ((63 / 20 : ℚ) : ℝ) := Rat.cast_le.2 g2
                                        push_cast at this; exact this
  rw [abs_of_nonneg (by linarith : (0 : ℝ) ≤ c.pi)] at h1
  have h2 : |(c.pi : ℝ) - Real.pi| ≤ 4 * eps c.p := hpi
  have h3 := abs_add_le (((rnd c.p c.pi : ℚ) : ℝ) - c.pi) ((c.pi : ℝ) - Real.pi)
  rw [sub_add_sub_cancel] at h3
  have h4 : eps c.p * c.pi ≤ eps c.p * (63 / 20) := mul_le_mul_of_nonneg_left g2' he.le
  linarith

theorem half_pi_err {c : Ctx} (hp : 16 ≤ c.p) (hpi : PiOk c) : |((rnd c.p (c.pi / 2) : ℚ) : ℝ) - Real.pi / 2| ≤ 8 * eps c.p := by
  have he := eps_real c.p
  have h1 := rnd_err_real c.p (c.pi / 2)
  push_cast at h1
  obtain ⟨g1, g2⟩ := pi_ge hp hpi
  have g1' : (3 : ℝ) ≤ c.pi := by exact_mod_cast g1
  have g2' : (c.pi : ℝ) ≤ 63 / 20 := by have : ((c.pi : ℚ) : ℝ) ≤ ((63 / 20 : ℚ) : ℝ) := Rat.cast_le.2 g2
                                        push_cast at this; exact this
  rw [abs_of_nonneg (by linarith : (0 : ℝ) ≤ (c.pi : ℝ) / 2)] at h1
  have h2 : |(c.pi : ℝ) - Real.pi| ≤ 4 * eps c.p := hpi
  have h4 : eps c.p * (c.pi / 2) ≤ eps c.p * (63 / 40) := mul_le_mul_of_nonneg_left (by linarith) he.le
  obtain ⟨a, b⟩ := abs_le.1 h1
  obtain ⟨d, e⟩ := abs_le.1 h2
  rw [abs_le]
  constructor <;> linarith

/-- Adding or subtracting `π`. -/
theorem shift_err {c : Ctx} (hp : 16 ≤ c.p) (hpi : PiOk c) {s : PS} {t δ σ : ℝ} (hσ : σ = 1 ∨ σ = -1) {f : ℚ → ℚ → ℚ} (hf : ∀ a b : ℚ, ((f a b : ℚ) : ℝ) = a + σ * b)
    (ht : |t| ≤ 8 / 5) (hδ : δ ≤ 1 / 10) (hs : |(s.val : ℝ) - t| ≤ δ) :
    |((arith c f s (.flt ⟨c.p, rnd c.p c.pi⟩)).val : ℝ) - (t + σ * Real.pi)| ≤ δ + 20 * eps c.p := by
  have he := eps_real c.p
  obtain ⟨-, -, -, hes⟩ := consts_small hp 0 (k := 0) le_rfl (by norm_num)
  have e0 : (arith c f s (.flt ⟨c.p, rnd c.p c.pi⟩)).val = rnd c.p (f (s.float c).val (rnd c.p c.pi)) := by
    cases s <;> simp only [arith, shrinkF_val] <;> rfl
  rw [e0]
  have h1 := pi_err hp hpi
  have h2 := float_err c s
  have h3 := rnd_err_real c.p (f (s.float c).val (rnd c.p c.pi))
  rw [hf] at h3
  have hσ1 : |σ| = 1 := by rcases hσ with rfl | rfl <;> simp
  have hs2 : |(s.val : ℝ)| ≤ 17 / 10 := by
    have := abs_add_le t ((s.val : ℝ) - t)
    rw [add_sub_cancel] at this
    linarith
  have h2' : |((s.float c).val : ℝ) - t| ≤ δ + 17 / 10 * eps c.p := by
    have := abs_add_le (((s.float c).val : ℝ) - s.val) ((s.val : ℝ) - t)
    rw [sub_add_sub_cancel] at this
    have : eps c.p * |(s.val : ℝ)| ≤ eps c.p * (17 / 10) := mul_le_mul_of_nonneg_left hs2 he.le
    linarith
  have h4 : |((s.float c).val : ℝ) + σ * (rnd c.p c.pi : ℚ) - (t + σ * Real.pi)| ≤ δ + 17 / 10 * eps c.p + 8 * eps c.p := by
    rw [show ((s.float c).val : ℝ) + σ * (rnd c.p c.pi : ℚ) - (t + σ * Real.pi) = ((s.float c).val - t) + σ * ((rnd c.p c.pi : ℚ) - Real.pi) by ring]
    refine (abs_add_le _ _).trans (add_le_add h2' ?_)
    rw [abs_mul, hσ1, one_mul]
    exact h1
  have hpi4 := Real.pi_le_four
  have h5 : |((s.float c).val : ℝ) + σ * (rnd c.p c.pi : ℚ)| ≤ 6 := by
    have := abs_add_le (t + σ * Real.pi) (((s.float c).val : ℝ) + σ * (rnd c.p c.pi : ℚ) - (t + σ * Real.pi))
    rw [add_sub_cancel] at this
    have h6 := abs_add_le t (σ * Real.pi)
    rw [abs_mul, hσ1, one_mul, abs_of_pos Real.pi_pos] at h6
    linarith
  have h6 := abs_add_le (((rnd c.p (f (s.float c).val (rnd c.p c.pi)) : ℚ) : ℝ) - (((s.float c).val : ℝ) + σ * (rnd c.p c.pi : ℚ)))
    (((s.float c).val : ℝ) + σ * (rnd c.p c.pi : ℚ) - (t + σ * Real.pi))
  rw [sub_add_sub_cancel] at h6
  have h7 : eps c.p * |((s.float c).val : ℝ) + σ * (rnd c.p c.pi : ℚ)| ≤ eps c.p * 6 := mul_le_mul_of_nonneg_left h5 he.le
  linarith

theorem phaseC_err {c : Ctx} (hp : 16 ≤ c.p) (hpi : PiOk c) (re im : PS) {fuel : ℕ} (hfu : 12 + 4 * c.p ≤ fuel) :
    ∃ s, Spec.phaseC c fuel re im = .ok s ∧ |(s.val : ℝ) - Complex.arg ⟨re.val, im.val⟩| ≤ 260 * (c.p + 1) * eps c.p := by
  have he := eps_real c.p
  have hpe : (16 : ℝ) * eps c.p ≤ c.p * eps c.p := mul_le_mul_of_nonneg_right (by exact_mod_cast hp) he.le
  have hpe2 := p_eps hp
  obtain ⟨-, -, -, hes⟩ := consts_small hp 0 (k := 0) le_rfl (by norm_num)
  unfold Spec.phaseC
  by_cases hi : im.val = 0
  · rw [if_pos hi]
    refine ⟨_, rfl, ?_⟩
    unfold realPhase
    by_cases hr : re.val < 0
    · rw [if_pos hr]
      rw [(Complex.arg_eq_pi_iff (z := ⟨re.val, im.val⟩)).2 ⟨by simpa using hr, by simpa using hi⟩]
      refine (pi_err hp hpi).trans ?_
      linarith
    · rw [if_neg hr]
      rw [(Complex.arg_eq_zero_iff (z := ⟨re.val, im.val⟩)).2 ⟨by simpa using hr, by simpa using hi⟩]
      simp only [PS.val]
      norm_num
      positivity
  rw [if_neg hi]
  by_cases hr : re.val = 0
  · rw [if_pos hr]
    refine ⟨_, rfl, ?_⟩
    have h8 := half_pi_err hp hpi
    by_cases hneg : im.val < 0
    · rw [(Complex.arg_eq_neg_pi_div_two_iff (z := ⟨re.val, im.val⟩)).2 ⟨by simpa using hr, by simpa using hneg⟩]
      rw [if_pos hneg]
      simp only [PS.val]
      push_cast
      rw [neg_sub_neg, abs_sub_comm]
      linarith
    · have hpos : 0 < im.val := lt_of_le_of_ne (not_lt.1 hneg) (Ne.symm hi)
      rw [(Complex.arg_eq_pi_div_two_iff (z := ⟨re.val, im.val⟩)).2 ⟨by simpa using hr, by simpa using hpos⟩]
      rw [if_neg hneg]
      simp only [PS.val]
      linarith
  rw [if_neg hr]
  unfold quadrant
  obtain ⟨q, q1, q2, q3⟩ := divide_err hp (u := im) hr
  obtain ⟨z, z1, z2⟩ := floatAtan_ok hp hpi q2 hfu
  have h1 := arctan_rel (by positivity) (by linarith) q3
  have h2 := abs_add_le ((z : ℝ) - Real.arctan (q.float c).val) (Real.arctan (q.float c).val - Real.arctan (im.val / re.val))
  rw [sub_add_sub_cancel] at h2
  have h3 : |(z : ℝ) - Real.arctan (im.val / re.val)| ≤ 250 * (c.p + 1) * eps c.p + 5 * eps c.p := by linarith
  have ev : (evalFloat c (onVal c (floatAtan c fuel)) q) = .ok (shrinkF ⟨c.p, z⟩) := by
    unfold evalFloat onVal
    rw [z1]
    rfl
  rw [q1]
  simp only [R.bind, ev]
  by_cases hre : 0 ≤ re.val
  · rw [if_pos hre]
    refine ⟨_, rfl, ?_⟩
    have hpos : (0 : ℝ) < re.val := by exact_mod_cast lt_of_le_of_ne hre (Ne.symm hr)
    rw [shrinkF_val, arg_right hpos]
    refine h3.trans ?_
    linarith
  rw [if_neg hre]
  have hneg : (re.val : ℝ) < 0 := by exact_mod_cast not_le.1 hre
  have ht : |Real.arctan ((im.val : ℝ) / re.val)| ≤ 8 / 5 := by
    have a := Real.neg_pi_div_two_lt_arctan ((im.val : ℝ) / re.val)
    have b := Real.arctan_lt_pi_div_two ((im.val : ℝ) / re.val)
    have d := Real.pi_lt_d2
    rw [abs_le]
    constructor <;> linarith
  by_cases hn : im.val < 0
  · rw [if_pos hn]
    refine ⟨_, rfl, ?_⟩
    rw [arg_lower hneg (by exact_mod_cast hn)]
    have := shift_err hp hpi (s := shrinkF ⟨c.p, z⟩) (δ := 250 * (c.p + 1) * eps c.p + 5 * eps c.p) (σ := -1) (f := (· - ·)) (Or.inr rfl) (fun a b => by push_cast; ring) ht (by linarith) (by rw [shrinkF_val]; exact h3)
    rw [neg_one_mul, ← sub_eq_add_neg] at this
    refine this.trans ?_
    linarith
  · rw [if_neg hn]
    refine ⟨_, rfl, ?_⟩
    have hpos : 0 < im.val := lt_of_le_of_ne (not_lt.1 hn) (Ne.symm hi)
    rw [arg_upper hneg (by exact_mod_cast hpos)]
    have := shift_err hp hpi (s := shrinkF ⟨c.p, z⟩) (δ := 250 * (c.p + 1) * eps c.p + 5 * eps c.p) (σ := 1) (f := (· + ·)) (Or.inl rfl) (fun a b => by push_cast; ring) ht (by linarith) (by rw [shrinkF_val]; exact h3)
    rw [one_mul] at this
    refine this.trans ?_
    linarith

end Verif.Cell
