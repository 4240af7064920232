import Verif.Cell.Lemmas4

/-!
# Errors of the functions of complex numbers
-/

namespace Verif.Cell
open Verif.Arr (R)
open Verif.Flt
open Verif.Flt.Spec (IsFloat)

theorem shrinkF_val (x : Fl) : (shrinkF x).val = x.val := by unfold shrinkF; split <;> rfl

theorem PS.shrink_val (s : PS) : s.shrink.val = s.val := by
  cases s with
  | exact q => rfl
  | flt x => exact shrinkF_val x

theorem shrinkC_vals (a b : PS) : (shrinkC a b).parts.1.val = a.val ∧ (shrinkC a b).parts.2.val = b.val := by
  unfold shrinkC
  split
  · rename_i h
    refine ⟨a.shrink_val, ?_⟩
    rw [b.shrink_val] at h
    rw [h]
    rfl
  · exact ⟨a.shrink_val, b.shrink_val⟩

/-- The parts of a value are near those of a complex number. -/
def NearV (w : PV) (z : ℂ) (δ δ' : ℝ) : Prop := |(w.parts.1.val : ℝ) - z.re| ≤ δ ∧ |(w.parts.2.val : ℝ) - z.im| ≤ δ'

theorem near_pair {c : Ctx} {re im : ℚ} {z : ℂ} {δ δ' : ℝ} (h1 : |(re : ℝ) - z.re| ≤ δ) (h2 : |(im : ℝ) - z.im| ≤ δ') : NearV (Spec.pair c re im) z δ δ' := by
  unfold NearV Spec.pair
  obtain ⟨e1, e2⟩ := shrinkC_vals (.flt ⟨c.p, re⟩) (.flt ⟨c.p, im⟩)
  rw [e1, e2]
  exact ⟨h1, h2⟩

theorem sin_parts (x y : ℝ) : (Complex.sin ⟨x, y⟩).re = Real.sin x * Real.cosh y ∧ (Complex.sin ⟨x, y⟩).im = Real.cos x * Real.sinh y := by
  rw [Complex.sin_eq]
  simp [← Complex.ofReal_sin, ← Complex.ofReal_cos, ← Complex.ofReal_sinh, ← Complex.ofReal_cosh]

theorem cos_parts (x y : ℝ) : (Complex.cos ⟨x, y⟩).re = Real.cos x * Real.cosh y ∧ (Complex.cos ⟨x, y⟩).im = -(Real.sin x * Real.sinh y) := by
  rw [Complex.cos_eq]
  simp [← Complex.ofReal_sin, ← Complex.ofReal_cos, ← Complex.ofReal_sinh, ← Complex.ofReal_cosh]

theorem mk_eq (x y : ℝ) : (⟨x, y⟩ : ℂ) = x + y * Complex.I := by
  apply Complex.ext <;> simp

theorem sinh_parts (x y : ℝ) : (Complex.sinh ⟨x, y⟩).re = Real.sinh x * Real.cos y ∧ (Complex.sinh ⟨x, y⟩).im = Real.cosh x * Real.sin y := by
  rw [mk_eq, Complex.sinh_add, Complex.cosh_mul_I, Complex.sinh_mul_I]
  simp [← Complex.ofReal_sin, ← Complex.ofReal_cos, ← Complex.ofReal_sinh, ← Complex.ofReal_cosh]

theorem cosh_parts (x y : ℝ) : (Complex.cosh ⟨x, y⟩).re = Real.cosh x * Real.cos y ∧ (Complex.cosh ⟨x, y⟩).im = Real.sinh x * Real.sin y := by
  rw [mk_eq, Complex.cosh_add, Complex.cosh_mul_I, Complex.sinh_mul_I]
  simp [← Complex.ofReal_sin, ← Complex.ofReal_cos, ← Complex.ofReal_sinh, ← Complex.ofReal_cosh]

theorem exp_parts (x y : ℝ) : (Complex.exp ⟨x, y⟩).re = Real.cos y * Real.exp x ∧ (Complex.exp ⟨x, y⟩).im = Real.sin y * Real.exp x := by
  rw [Complex.exp_re, Complex.exp_im]
  exact ⟨mul_comm _ _, mul_comm _ _⟩

variable {c : Ctx} (hp : 16 ≤ c.p) (hpi : PiOk c) {x y : ℚ} (hx : IsFloat c.p x) (hy : IsFloat c.p y) {fuel : ℕ} {w : PV}
include hp hpi hx hy

theorem complexSin_error (h : Spec.complexSin c fuel ⟨c.p, x⟩ ⟨c.p, y⟩ = .ok w) :
    NearV w (Complex.sin ⟨x, y⟩) (2 * eta c.p x * Real.cosh y) (2 * eta c.p x * |Real.sinh y|) := by
  unfold Spec.complexSin at h
  obtain ⟨s, hs, h⟩ := bind_eq_ok h
  obtain ⟨ch, hch, h⟩ := bind_eq_ok h
  obtain ⟨t, ht, h⟩ := bind_eq_ok h
  obtain ⟨sh, hsh, h⟩ := bind_eq_ok h
  injection h with h
  rw [← h]
  obtain ⟨h1, h2⟩ := sin_then_cos hp hpi (x := ⟨c.p, x⟩) rfl hx hs ht
  obtain ⟨e1, e2⟩ := sin_parts x y
  refine near_pair ?_ ?_
  · rw [e1]; exact cosh_times hp h1 (Real.abs_sin_le_one _) hy hch
  · rw [e2]; exact sinh_times hp h2 (Real.abs_cos_le_one _) hy hsh

theorem complexCos_error (h7 : -7 ≤ x) (h : Spec.complexCos c fuel ⟨c.p, x⟩ ⟨c.p, y⟩ = .ok w) :
    NearV w (Complex.cos ⟨x, y⟩) (2 * eta c.p x * Real.cosh y) (2 * eta c.p x * |Real.sinh y|) := by
  unfold Spec.complexCos at h
  obtain ⟨t, ht, h⟩ := bind_eq_ok h
  obtain ⟨ch, hch, h⟩ := bind_eq_ok h
  obtain ⟨s, hs, h⟩ := bind_eq_ok h
  obtain ⟨sh, hsh, h⟩ := bind_eq_ok h
  injection h with h
  rw [← h]
  obtain ⟨h1, h2⟩ := cos_then_sin hp hpi (x := ⟨c.p, x⟩) rfl hx h7 ht hs
  obtain ⟨e1, e2⟩ := cos_parts x y
  refine near_pair ?_ ?_
  · rw [e1]; exact cosh_times hp h2 (Real.abs_cos_le_one _) hy hch
  · rw [e2, Rat.cast_neg, ← abs_neg, neg_sub_neg, neg_sub]
    exact sinh_times hp h1 (Real.abs_sin_le_one _) hy hsh

theorem complexSinh_error (h7 : -7 ≤ y) (h : Spec.complexSinh c fuel ⟨c.p, x⟩ ⟨c.p, y⟩ = .ok w) :
    NearV w (Complex.sinh ⟨x, y⟩) (2 * eta c.p y * |Real.sinh x|) (2 * eta c.p y * Real.cosh x) := by
  unfold Spec.complexSinh at h
  obtain ⟨sh, hsh, h⟩ := bind_eq_ok h
  obtain ⟨t, ht, h⟩ := bind_eq_ok h
  obtain ⟨ch, hch, h⟩ := bind_eq_ok h
  obtain ⟨s, hs, h⟩ := bind_eq_ok h
  injection h with h
  rw [← h]
  obtain ⟨h1, h2⟩ := cos_then_sin hp hpi (x := ⟨c.p, y⟩) rfl hy h7 ht hs
  obtain ⟨e1, e2⟩ := sinh_parts x y
  refine near_pair ?_ ?_
  · rw [e1, mul_comm (Real.sinh _), show Flt.mul c.p sh t.1 = Flt.mul c.p t.1 sh by unfold Flt.mul; rw [mul_comm]]
    exact sinh_times hp h2 (Real.abs_cos_le_one _) hx hsh
  · rw [e2, mul_comm (Real.cosh _) (Real.sin _), show Flt.mul c.p ch s.1 = Flt.mul c.p s.1 ch by unfold Flt.mul; rw [mul_comm]]
    exact cosh_times hp h1 (Real.abs_sin_le_one _) hx hch

theorem complexCosh_error (h7 : -7 ≤ y) (h : Spec.complexCosh c fuel ⟨c.p, x⟩ ⟨c.p, y⟩ = .ok w) :
    NearV w (Complex.cosh ⟨x, y⟩) (2 * eta c.p y * Real.cosh x) (2 * eta c.p y * |Real.sinh x|) := by
  unfold Spec.complexCosh at h
  obtain ⟨ch, hch, h⟩ := bind_eq_ok h
  obtain ⟨t, ht, h⟩ := bind_eq_ok h
  obtain ⟨sh, hsh, h⟩ := bind_eq_ok h
  obtain ⟨s, hs, h⟩ := bind_eq_ok h
  injection h with h
  rw [← h]
  obtain ⟨h1, h2⟩ := cos_then_sin hp hpi (x := ⟨c.p, y⟩) rfl hy h7 ht hs
  obtain ⟨e1, e2⟩ := cosh_parts x y
  refine near_pair ?_ ?_
  · rw [e1, mul_comm (Real.cosh _) (Real.cos _), show Flt.mul c.p ch t.1 = Flt.mul c.p t.1 ch by unfold Flt.mul; rw [mul_comm]]
    exact cosh_times hp h2 (Real.abs_cos_le_one _) hx hch
  · rw [e2, mul_comm (Real.sinh _), show Flt.mul c.p sh s.1 = Flt.mul c.p s.1 sh by unfold Flt.mul; rw [mul_comm]]
    exact sinh_times hp h1 (Real.abs_sin_le_one _) hx hsh

theorem expComplex_error (h7 : -7 ≤ y) (h : Spec.expComplex c fuel ⟨c.p, x⟩ ⟨c.p, y⟩ = .ok w) :
    NearV w (Complex.exp ⟨x, y⟩) (2 * eta c.p y * Real.exp |(x : ℝ)|) (2 * eta c.p y * Real.exp |(x : ℝ)|) := by
  unfold Spec.expComplex at h
  obtain ⟨e, he, h⟩ := bind_eq_ok h
  obtain ⟨t, ht, h⟩ := bind_eq_ok h
  obtain ⟨s, hs, h⟩ := bind_eq_ok h
  injection h with h
  rw [← h]
  obtain ⟨h1, h2⟩ := cos_then_sin hp hpi (x := ⟨c.p, y⟩) rfl hy h7 ht hs
  obtain ⟨e1, e2⟩ := exp_parts x y
  refine ⟨?_, ?_⟩
  · rw [e1]; exact exp_times hp h2 (Real.abs_cos_le_one _) hx he
  · rw [e2]; exact exp_times hp h1 (Real.abs_sin_le_one _) hx he

omit hp hpi hx hy in
theorem twice_eq {p : ℕ} (hp : 16 ≤ p) {x : ℚ} (hx : IsFloat p x) : Flt.mul p x (rnd p 2) = 2 * x ∧ IsFloat p (2 * x) := by
  have e : rnd p 2 = 2 := rnd_self (by omega) ⟨1, 1, by simpa using (one_lt_pow₀ (by norm_num) (by omega) : (1 : ℤ) < 2 ^ p), by norm_num⟩
  have hf : IsFloat p (2 * x) := by
    obtain ⟨m, k, a, b⟩ := hx
    refine ⟨m, k + 1, a, ?_⟩
    rw [b, zpow_add₀ (by norm_num)]
    ring
  refine ⟨?_, hf⟩
  unfold Flt.mul
  rw [e, mul_comm, rnd_self (by omega) hf]

omit hp hpi hx hy in
/-- `tan (x + iy) = (sin 2x + i sinh 2y) / (cos 2x + cosh 2y)`. -/
theorem tan_parts (x y : ℝ) (h : Real.cos (2 * x) + Real.cosh (2 * y) ≠ 0) :
    (Complex.tan ⟨x, y⟩).re = Real.sin (2 * x) / (Real.cos (2 * x) + Real.cosh (2 * y)) ∧
    (Complex.tan ⟨x, y⟩).im = Real.sinh (2 * y) / (Real.cos (2 * x) + Real.cosh (2 * y)) := by
  have key : Complex.tan ⟨x, y⟩ = ⟨Real.sin (2 * x) / (Real.cos (2 * x) + Real.cosh (2 * y)), Real.sinh (2 * y) / (Real.cos (2 * x) + Real.cosh (2 * y))⟩ := by
    have hsq : Real.cos (2 * x) + Real.cosh (2 * y) = 2 * (Real.cos x ^ 2 + Real.sinh y ^ 2) := by
      rw [Real.cos_two_mul, Real.cosh_two_mul, Real.cosh_sq]; ring
    have hc : Complex.cos ⟨x, y⟩ ≠ 0 := by
      intro h0
      obtain ⟨e1, e2⟩ := cos_parts x y
      rw [h0] at e1 e2
      simp only [Complex.zero_re, Complex.zero_im] at e1 e2
      have hch := Real.cosh_pos y
      have c0 : Real.cos x = 0 := by
        rcases mul_eq_zero.1 e1.symm with q | q
        · exact q
        · linarith
      have s1 : Real.sin x ^ 2 = 1 := by have := Real.sin_sq_add_cos_sq x; rw [c0] at this; linarith
      have s0 : Real.sinh y = 0 := by
        rcases mul_eq_zero.1 (neg_eq_zero.1 e2.symm) with q | q
        · rw [q] at s1; norm_num at s1
        · exact q
      apply h
      rw [hsq, c0, s0]
      ring
    rw [Complex.tan_eq_sin_div_cos, div_eq_iff hc]
    obtain ⟨e1, e2⟩ := sin_parts x y
    obtain ⟨e3, e4⟩ := cos_parts x y
    have hD : Real.cos x ^ 2 + Real.sinh y ^ 2 ≠ 0 := by intro q; apply h; rw [hsq, q]; ring
    have i1 := Real.sin_sq_add_cos_sq x
    have i2 := Real.cosh_sq y
    have i3 : Real.sin x ^ 2 = 1 - Real.cos x ^ 2 := by linarith
    apply Complex.ext
    · rw [Complex.mul_re, e1, e3, e4, hsq, Real.sin_two_mul, Real.sinh_two_mul]
      field_simp
      ring
    · rw [Complex.mul_im, e2, e3, e4, hsq, Real.sin_two_mul, Real.sinh_two_mul]
      field_simp
      rw [i2, i3]
      ring
  rw [key]
  exact ⟨rfl, rfl⟩

omit hp hpi hx hy in
theorem tanh_parts (x y : ℝ) (h : Real.cosh (2 * x) + Real.cos (2 * y) ≠ 0) :
    (Complex.tanh ⟨x, y⟩).re = Real.sinh (2 * x) / (Real.cosh (2 * x) + Real.cos (2 * y)) ∧
    (Complex.tanh ⟨x, y⟩).im = Real.sin (2 * y) / (Real.cosh (2 * x) + Real.cos (2 * y)) := by
  have e : (⟨x, y⟩ : ℂ) = ⟨y, -x⟩ * Complex.I := by apply Complex.ext <;> simp
  rw [e, Complex.tanh_mul_I]
  have e2 : Real.cos (2 * y) + Real.cosh (2 * -x) = Real.cosh (2 * x) + Real.cos (2 * y) := by rw [mul_neg, Real.cosh_neg, add_comm]
  obtain ⟨h1, h2⟩ := tan_parts y (-x) (by rw [e2]; exact h)
  rw [e2] at h1 h2
  simp only [Complex.mul_re, Complex.mul_im, Complex.I_re, Complex.I_im, mul_zero, mul_one, zero_sub, zero_add, add_zero]
  rw [h1, h2, mul_neg, Real.sinh_neg, neg_div, neg_neg]
  exact ⟨rfl, rfl⟩

omit hp hpi hx hy in
theorem quotients_error {re im den : ℚ} {z : ℂ} {δ : ℝ} (h : Spec.quotients c re im den = .ok w)
    (h1 : |((rnd c.p (re / den) : ℚ) : ℝ) - z.re| ≤ δ) (h2 : |((rnd c.p (im / den) : ℚ) : ℝ) - z.im| ≤ δ) : NearV w z δ δ := by
  unfold Spec.quotients at h
  split at h
  · cases h
  · rename_i h0
    unfold quo at h
    rw [if_neg h0] at h
    simp only [R.bind, if_neg h0] at h
    injection h with h
    rw [← h]
    exact near_pair h1 h2

omit hp hpi hx hy in
theorem abs_sinh_le (y : ℝ) : |Real.sinh y| ≤ Real.cosh y := by
  rw [Real.abs_sinh, ← Real.cosh_abs]
  exact (Real.sinh_lt_cosh _).le

theorem complexTan_error (h : Spec.complexTan c fuel ⟨c.p, x⟩ ⟨c.p, y⟩ = .ok w)
    (hD : 4 * eta c.p (2 * x) * Real.cosh (2 * y) ≤ Real.cos (2 * x) + Real.cosh (2 * y)) :
    NearV w (Complex.tan ⟨x, y⟩) (10 * eta c.p (2 * x) * (Real.cosh (2 * y) / (Real.cos (2 * x) + Real.cosh (2 * y))) ^ 2)
      (10 * eta c.p (2 * x) * (Real.cosh (2 * y) / (Real.cos (2 * x) + Real.cosh (2 * y))) ^ 2) := by
  unfold Spec.complexTan Spec.twice at h
  obtain ⟨ex, fx⟩ := twice_eq hp hx
  obtain ⟨ey, fy⟩ := twice_eq hp hy
  simp only [ex, ey] at h
  obtain ⟨s, hs, h⟩ := bind_eq_ok h
  obtain ⟨sh, hsh, h⟩ := bind_eq_ok h
  obtain ⟨t, ht, h⟩ := bind_eq_ok h
  obtain ⟨ch, hch, h⟩ := bind_eq_ok h
  obtain ⟨h1, h2⟩ := sin_then_cos hp hpi (x := ⟨c.p, 2 * x⟩) rfl fx hs ht
  obtain ⟨k1, k2, k3, k4⟩ := consts_small hp (2 * x : ℝ) (k := 250) (by norm_num) le_rfl
  have g1 := floatSinh_error hp fy hsh
  have g2 := floatCosh_error hp fy hch
  push_cast at h1 h2 g1 g2
  have hH := Real.one_le_cosh (2 * (y : ℝ))
  have hη := eta_nonneg c.p (2 * (x : ℝ))
  have hepos := eps_real c.p
  have hηe : 4 * eps c.p ≤ eta c.p (2 * x) := by linarith
  have d := denominator_err k1 k2 k3 k4 h2 (Real.abs_cos_le_one _) hH g2
  have hpos : 0 < eta c.p (2 * x) := by linarith
  have hD0 : 0 < Real.cos (2 * (x : ℝ)) + Real.cosh (2 * y) := lt_of_lt_of_le (by positivity) hD
  have hDH : Real.cos (2 * (x : ℝ)) + Real.cosh (2 * y) ≤ 2 * Real.cosh (2 * y) := by have := Real.cos_le_one (2 * (x : ℝ)); linarith
  obtain ⟨p1, p2⟩ := tan_parts x y hD0.ne'
  refine quotients_error h ?_ ?_
  · rw [p1]
    exact (quotient_tan k4 hηe (h1.trans (by nlinarith)) ((Real.abs_sin_le_one _).trans hH) d hD hD0 hDH).2
  · rw [p2]
    refine (quotient_tan k4 hηe (g1.trans ?_) (abs_sinh_le _) d hD hD0 hDH).2
    exact mul_le_mul (by linarith) (abs_sinh_le _) (abs_nonneg _) hη

theorem complexTanh_error (h : Spec.complexTanh c fuel ⟨c.p, x⟩ ⟨c.p, y⟩ = .ok w)
    (hD : 4 * eta c.p (2 * y) * Real.cosh (2 * x) ≤ Real.cosh (2 * x) + Real.cos (2 * y)) :
    NearV w (Complex.tanh ⟨x, y⟩) (10 * eta c.p (2 * y) * (Real.cosh (2 * x) / (Real.cosh (2 * x) + Real.cos (2 * y))) ^ 2)
      (10 * eta c.p (2 * y) * (Real.cosh (2 * x) / (Real.cosh (2 * x) + Real.cos (2 * y))) ^ 2) := by
  unfold Spec.complexTanh Spec.twice at h
  obtain ⟨ex, fx⟩ := twice_eq hp hx
  obtain ⟨ey, fy⟩ := twice_eq hp hy
  simp only [ex, ey] at h
  obtain ⟨sh, hsh, h⟩ := bind_eq_ok h
  obtain ⟨s, hs, h⟩ := bind_eq_ok h
  obtain ⟨ch, hch, h⟩ := bind_eq_ok h
  obtain ⟨t, ht, h⟩ := bind_eq_ok h
  obtain ⟨h1, h2⟩ := sin_then_cos hp hpi (x := ⟨c.p, 2 * y⟩) rfl fy hs ht
  obtain ⟨k1, k2, k3, k4⟩ := consts_small hp (2 * y : ℝ) (k := 250) (by norm_num) le_rfl
  have g1 := floatSinh_error hp fx hsh
  have g2 := floatCosh_error hp fx hch
  push_cast at h1 h2 g1 g2
  have hH := Real.one_le_cosh (2 * (x : ℝ))
  have hη := eta_nonneg c.p (2 * (y : ℝ))
  have hepos := eps_real c.p
  have hηe : 4 * eps c.p ≤ eta c.p (2 * y) := by linarith
  have d := denominator_err k1 k2 k3 k4 h2 (Real.abs_cos_le_one _) hH g2
  have hpos : 0 < eta c.p (2 * y) := by linarith
  rw [add_comm t.1 ch, add_comm (Real.cos _)] at d
  have hD0 : 0 < Real.cosh (2 * (x : ℝ)) + Real.cos (2 * y) := lt_of_lt_of_le (by positivity) hD
  have hDH : Real.cosh (2 * (x : ℝ)) + Real.cos (2 * y) ≤ 2 * Real.cosh (2 * x) := by have := Real.cos_le_one (2 * (y : ℝ)); linarith
  obtain ⟨p1, p2⟩ := tanh_parts x y hD0.ne'
  refine quotients_error h ?_ ?_
  · rw [p1]
    refine (quotient_tan k4 hηe (g1.trans ?_) (abs_sinh_le _) d hD hD0 hDH).2
    exact mul_le_mul (by linarith) (abs_sinh_le _) (abs_nonneg _) hη
  · rw [p2]
    exact (quotient_tan k4 hηe (h1.trans (by nlinarith)) ((Real.abs_sin_le_one _).trans hH) d hD hD0 hDH).2

end Verif.Cell
