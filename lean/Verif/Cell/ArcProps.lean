import Verif.Cell.ArcLemmas
import Verif.Cell.InverseProps

/-!
# C92: the inverse sines and cosines of complex numbers

Full statement: `asin`, `acos`, `asinh` and `acosh` of every number have a value, near the principal one (`IsArcsin` and so on).

Proved (`C92_acosh_partial` and so on): if there is a result, it is within `14 √(2 ^ -p)`, and a little more, of the principal value, for exact numbers whose parts are not zero in the half plane in which the two terms of the logarithm
do not cancel: that with a positive real part for `asinh` and `acosh`, that with a negative imaginary part for `asin` and `acos`. The square root is that of C83, which loses half of the bits of a part.

In the other half plane the statement is violated. The real part of `acosh -2` is negative (`C92_violated_acosh`; `cosh` takes the right value there, so that the result is an inverse but not the principal one).
`asin -1e20` is the error "log of non-positive value" (`C92_violated_asin`). Missing: existence of the square root, and parts that are zero or floats.
-/

namespace Verif.Cell
open Verif.Arr (R)
open Verif.Flt

/-- The principal values. -/
def IsArcosh (z w : ℂ) : Prop := Complex.cosh w = z ∧ 0 ≤ w.re ∧ -Real.pi < w.im ∧ w.im ≤ Real.pi
def IsArsinh (z w : ℂ) : Prop := Complex.sinh w = z ∧ |w.im| ≤ Real.pi / 2
def IsArcsin (z w : ℂ) : Prop := Complex.sin w = z ∧ |w.re| ≤ Real.pi / 2
def IsArccos (z w : ℂ) : Prop := Complex.cos w = z ∧ 0 ≤ w.re ∧ w.re ≤ Real.pi

/-- The error that is proved. -/
noncomputable def arcError (p : ℕ) (t : ℂ) : ℝ := 14 * √((2 : ℝ) ^ (-(p : ℤ))) + (570 * (p + 1) + 30 * ‖t‖) * (2 : ℝ) ^ (-(p : ℤ))

theorem sinh_log {s U : ℂ} (hs : s ^ 2 = U ^ 2 + 1) : Complex.sinh (Complex.log (s + U)) = U := by
  have h1 : (s + U) * (s - U) = 1 := by linear_combination hs
  have h0 : s + U ≠ 0 := left_ne_zero_of_mul_eq_one h1
  have h2 : (s + U)⁻¹ = s - U := inv_eq_of_mul_eq_one_right h1
  rw [Complex.sinh, Complex.exp_neg, Complex.exp_log h0, h2]
  ring

theorem cosh_log {s U : ℂ} (hs : s ^ 2 = U ^ 2 - 1) : Complex.cosh (Complex.log (s + U)) = U := by
  have h1 : (s + U) * (U - s) = 1 := by linear_combination -hs
  have h0 : s + U ≠ 0 := left_ne_zero_of_mul_eq_one h1
  have h2 : (s + U)⁻¹ = U - s := inv_eq_of_mul_eq_one_right h1
  rw [Complex.cosh, Complex.exp_neg, Complex.exp_log h0, h2]
  ring

theorem log_im_half {Q : ℂ} (h : 0 ≤ Q.re) : |(Complex.log Q).im| ≤ Real.pi / 2 := by
  rw [Complex.log_im]; exact Complex.abs_arg_le_pi_div_two_iff.2 h

/-- A complex function of an exact number that is not real. -/
theorem arc_eq (c : Ctx) (domain : Rat → Bool) (real : Rat → R Rat) (complex : PS × PS → M (PS × PS)) (h : Heap) (a b : ℚ) (hb : b ≠ 0) (r : Val) (h' : Heap)
    (hr : arc c domain real complex (.cplx (.exact a) (.exact b)) h = .ok (r, h')) : ∃ w h1, complex (.exact a, .exact b) h = .ok (w, h1) ∧ Value r h' (toC w) := by
  unfold arc at hr
  rw [bind_ok (show read (.cplx (.exact a) (.exact b)) h = .ok (.cplx (.exact a) (.exact b), h) from rfl), if_neg (fun hc => hb hc.1)] at hr
  change ((complex (.exact a, .exact b)).bind fun r => new (.cplx r.1 r.2)) h = _ at hr
  cases hc : complex (.exact a, .exact b) h with
  | ok z =>
    obtain ⟨w, h1⟩ := z
    refine ⟨w, h1, rfl, ?_⟩
    rw [bind_ok hc] at hr
    have hn := new_sim (n := 0) (h := h1) (Nat.zero_le _) (.cplx w.1 w.2)
    rw [hr] at hn
    exact ⟨_, read_ok hn.1, rfl⟩
  | err m => unfold M.bind at hr; rw [hc] at hr; cases hr
  | crash => unfold M.bind at hr; rw [hc] at hr; cases hr
  | hang => unfold M.bind at hr; rw [hc] at hr; cases hr

theorem lift_ok {α β : Type} {r : R α} {f : α → M β} {h : Heap} {y : β × Heap} (e : ((lift r).bind f) h = .ok y) : ∃ a, r = .ok a ∧ f a h = .ok y := by
  cases r with
  | ok a => exact ⟨a, rfl, e⟩
  | err m => cases e
  | crash => cases e
  | hang => cases e

theorem le_arcError {p : ℕ} {t : ℂ} {x : ℝ} (h : x ≤ 13 * √(eps p) + (570 * (p + 1) + 12 * ‖t‖) * eps p) : x ≤ arcError p t := by
  have he := eps_real p
  have h1 := Real.sqrt_nonneg (eps p)
  have h2 : 0 ≤ ‖t‖ * eps p := by positivity
  change x ≤ 14 * √(eps p) + (570 * (p + 1) + 30 * ‖t‖) * eps p
  linarith

section
variable (p : ℕ) (hp : 16 ≤ p) (hp' : p ≤ constPrecisionInBits) (h : Heap) (hg : Intact p h) (fuel : ℕ) (hfu : 12 + 40 * p ≤ fuel) (a b : ℚ)
include hp hp' hg hfu

theorem C92_asinh_partial (ha : 0 < a) (hb : b ≠ 0) (r : Val) (h' : Heap) (hr : asinh (ctxOf p) fuel (.cplx (.exact a) (.exact b)) h = .ok (r, h')) :
    ∃ w t, Value r h' w ∧ IsArsinh ⟨a, b⟩ t ∧ ‖w - t‖ ≤ arcError p t := by
  obtain ⟨w, h1, e1, e2⟩ := arc_eq _ _ _ _ _ _ _ hb _ _ hr
  unfold complexAsinh at e1
  obtain ⟨q, q1, q2⟩ := lift_ok e1
  have hz : Exactly (.exact a, .exact b) ⟨a, b⟩ := ⟨a, b, rfl, rfl⟩
  have hx := (hz.mul (c := ctxOf p) hz).add (c := ctxOf p) exactly_one
  obtain ⟨s, s1, s2, s3, w', h2, e3, e4⟩ := arc_err hp hp' hg hz hx (d := 1) (by push_cast; ring) (by simpa using ha) (by simpa using hb) hfu q1
  have e5 := e3.symm.trans q2
  injection e5 with e5
  injection e5 with e5 e6
  subst e5
  have ha' : (0 : ℝ) < a := by exact_mod_cast ha
  have hre : 0 ≤ (s + (⟨a, b⟩ : ℂ)).re := by rw [Complex.add_re]; exact add_nonneg s2 ha'.le
  exact ⟨_, _, e2, ⟨sinh_log (by rw [s1]; ring), log_im_half hre⟩, le_arcError e4⟩

theorem C92_acosh_partial (ha : 0 < a) (hb : b ≠ 0) (r : Val) (h' : Heap) (hr : acosh (ctxOf p) fuel (.cplx (.exact a) (.exact b)) h = .ok (r, h')) :
    ∃ w t, Value r h' w ∧ IsArcosh ⟨a, b⟩ t ∧ ‖w - t‖ ≤ arcError p t := by
  obtain ⟨w, h1, e1, e2⟩ := arc_eq _ _ _ _ _ _ _ hb _ _ hr
  unfold complexAcosh at e1
  obtain ⟨q, q1, q2⟩ := lift_ok e1
  have hz : Exactly (.exact a, .exact b) ⟨a, b⟩ := ⟨a, b, rfl, rfl⟩
  have hx := (hz.mul (c := ctxOf p) hz).sub (c := ctxOf p) exactly_one
  obtain ⟨s, s1, s2, s3, w', h2, e3, e4⟩ := arc_err hp hp' hg hz hx (d := -1) (by push_cast; ring) (by simpa using ha) (by simpa using hb) hfu q1
  have e5 := e3.symm.trans q2
  injection e5 with e5
  injection e5 with e5 e6
  subst e5
  have ha' : (0 : ℝ) < a := by exact_mod_cast ha
  have hs : s ^ 2 = (⟨a, b⟩ : ℂ) ^ 2 - 1 := by rw [s1]; ring
  refine ⟨_, _, e2, ⟨cosh_log hs, ?_, Complex.neg_pi_lt_log_im _, Complex.log_im_le_pi _⟩, le_arcError e4⟩
  rw [Complex.log_re]
  apply Real.log_nonneg
  have n1 : ‖s + ⟨a, b⟩‖ * ‖(⟨a, b⟩ : ℂ) - s‖ = 1 := by
    rw [← norm_mul, show (s + ⟨a, b⟩) * ((⟨a, b⟩ : ℂ) - s) = 1 by linear_combination -hs, norm_one]
  have n2 : ‖(⟨a, b⟩ : ℂ) - s‖ ≤ ‖s + ⟨a, b⟩‖ := by
    refine (sq_le_sq₀ (norm_nonneg _) (norm_nonneg _)).1 ?_
    rw [← Complex.normSq_eq_norm_sq, ← Complex.normSq_eq_norm_sq, Complex.normSq_apply, Complex.normSq_apply, Complex.add_re, Complex.add_im, Complex.sub_re, Complex.sub_im]
    have := mul_nonneg s2 ha'.le
    simp only at s3 ⊢
    nlinarith
  by_contra hc
  have hc := not_le.1 hc
  have n3 := norm_nonneg (s + (⟨a, b⟩ : ℂ))
  have n4 := norm_nonneg ((⟨a, b⟩ : ℂ) - s)
  nlinarith

/-- `complexAsin` of a number with a negative imaginary part. -/
theorem asin_core (ha : a ≠ 0) (hb : b < 0) (w : PS × PS) (h' : Heap) (hr : complexAsin (ctxOf p) fuel (.exact a, .exact b) h = .ok (w, h')) :
    ∃ t, IsArcsin ⟨a, b⟩ t ∧ ‖toC w - t‖ ≤ 13 * √(eps p) + (570 * (p + 1) + 24 * ‖t‖) * eps p + 4 * eps p := by
  unfold complexAsin at hr
  obtain ⟨q, q1, q2⟩ := lift_ok hr
  have hz : Exactly (.exact a, .exact b) ⟨a, b⟩ := ⟨a, b, rfl, rfl⟩
  have hu := exactly_I.mul (c := ctxOf p) hz
  have hx := exactly_one.sub (c := ctxOf p) (hz.mul (c := ctxOf p) hz)
  have hI : Complex.I * Complex.I = -1 := Complex.I_mul_I
  have hb' : (b : ℝ) < 0 := by exact_mod_cast hb
  have r1 : 0 < (Complex.I * (⟨a, b⟩ : ℂ)).re := by rw [Complex.I_mul_re]; exact neg_pos.2 hb'
  have r2 : (Complex.I * (⟨a, b⟩ : ℂ)).im ≠ 0 := by rw [Complex.I_mul_im]; show (a : ℝ) ≠ 0; exact_mod_cast ha
  obtain ⟨s, s1, s2, s3, w', h2, e3, e4⟩ := arc_err hp hp' hg hu hx (d := 1) (by push_cast; linear_combination -(⟨a, b⟩ : ℂ) ^ 2 * hI) r1 r2 hfu q1
  rw [bind_ok e3] at q2
  have e5 : cMul (ctxOf p) (.exact 0, .exact (-1)) w' = w := by
    injection q2 with q2
    injection q2
  have hs : s ^ 2 = (Complex.I * (⟨a, b⟩ : ℂ)) ^ 2 + 1 := by rw [s1]; linear_combination -(⟨a, b⟩ : ℂ) ^ 2 * hI
  have hre : 0 ≤ (s + Complex.I * (⟨a, b⟩ : ℂ)).re := by rw [Complex.add_re]; exact add_nonneg s2 r1.le
  have hsin := sinh_log hs
  have him := log_im_half hre
  generalize Complex.log (s + Complex.I * ⟨a, b⟩) = L at *
  refine ⟨-Complex.I * L, ⟨?_, ?_⟩, ?_⟩
  · rw [show -Complex.I * L = -(L * Complex.I) by ring, Complex.sin_neg, Complex.sin_mul_I, hsin]
    linear_combination -(⟨a, b⟩ : ℂ) * hI
  · rw [show -Complex.I * L = -(Complex.I * L) by ring, Complex.neg_re, Complex.I_mul_re, neg_neg]
    exact him
  · obtain ⟨q0, q3, q4⟩ := sqrt_eps hp
    have he := eps_real p
    have hes := eps_16 hp
    have hk : toC (.exact 0, .exact (-1)) = -Complex.I := by unfold toC; apply Complex.ext <;> simp [PS.val]
    have hm := cMul_err (c := ctxOf p) (show eps p ≤ 1 / 1000 from hes.trans (by norm_num)) (.exact 0, .exact (-1)) w'
    rw [hk, norm_neg, Complex.norm_I, one_mul, e5] at hm
    change ‖toC w - -Complex.I * toC w'‖ ≤ 11 * eps p * ‖toC w'‖ at hm
    have t1 := norm_add_le (toC w - -Complex.I * toC w') (-Complex.I * (toC w' - L))
    rw [show toC w - -Complex.I * toC w' + -Complex.I * (toC w' - L) = toC w - -Complex.I * L by ring, norm_mul, norm_neg, Complex.norm_I, one_mul] at t1
    have t2 := norm_add_le (toC w' - L) L
    rw [sub_add_cancel] at t2
    rw [norm_mul, norm_neg, Complex.norm_I, one_mul]
    have hpe := p_eps hp
    have hL := norm_nonneg L
    have k0 : eps p * ‖L‖ ≤ 1 / 65536 * ‖L‖ := mul_le_mul_of_nonneg_right hes hL
    have k1 : ‖toC w'‖ ≤ 3 / 10 + 1001 / 1000 * ‖L‖ := by
      have : (570 * ((p : ℝ) + 1) + 12 * ‖L‖) * eps p = 570 * (((p : ℝ) + 1) * eps p) + 12 * (eps p * ‖L‖) := by ring
      linarith
    have k2 : eps p * ‖toC w'‖ ≤ eps p * (3 / 10 + 1001 / 1000 * ‖L‖) := mul_le_mul_of_nonneg_left k1 he.le
    have k3 : 0 ≤ eps p * ‖L‖ := by positivity
    nlinarith

theorem C92_asin_partial (ha : a ≠ 0) (hb : b < 0) (r : Val) (h' : Heap) (hr : asin (ctxOf p) fuel (.cplx (.exact a) (.exact b)) h = .ok (r, h')) :
    ∃ w t, Value r h' w ∧ IsArcsin ⟨a, b⟩ t ∧ ‖w - t‖ ≤ arcError p t := by
  obtain ⟨w, h1, e1, e2⟩ := arc_eq _ _ _ _ _ _ _ hb.ne _ _ hr
  obtain ⟨t, t1, t2⟩ := asin_core p hp hp' h hg fuel hfu a b ha hb w h1 e1
  refine ⟨_, t, e2, t1, ?_⟩
  obtain ⟨q0, q3, q4⟩ := sqrt_eps hp
  have he := eps_real p
  have k : √(eps p) * √(eps p) ≤ 1 / 256 * √(eps p) := mul_le_mul_of_nonneg_right q4 q3.le
  have k2 : 0 ≤ ‖t‖ * eps p := by positivity
  change _ ≤ 14 * √(eps p) + (570 * (p + 1) + 30 * ‖t‖) * eps p
  linarith

theorem C92_acos_partial (ha : a ≠ 0) (hb : b < 0) (r : Val) (h' : Heap) (hr : acos (ctxOf p) fuel (.cplx (.exact a) (.exact b)) h = .ok (r, h')) :
    ∃ w t, Value r h' w ∧ IsArccos ⟨a, b⟩ t ∧ ‖w - t‖ ≤ arcError p t := by
  obtain ⟨w, h1, e1, e2⟩ := arc_eq _ _ _ _ _ _ _ hb.ne _ _ hr
  unfold complexAcos at e1
  rw [bind_ok (get_some hg.1)] at e1
  cases hc : complexAsin (ctxOf p) fuel (.exact a, .exact b) h with
  | ok z =>
    obtain ⟨x, h2⟩ := z
    rw [bind_ok hc] at e1
    obtain ⟨t, t1, t2⟩ := asin_core p hp hp' h hg fuel hfu a b ha hb x h2 hc
    have e5 : cSub (ctxOf p) (.flt ⟨(ctxOf p).p, rnd (ctxOf p).p (rnd (ctxOf p).p ((ctxOf p).pi / 2))⟩, .flt ⟨(ctxOf p).p, 0⟩) x = w := by
      injection e1 with e1
      injection e1
    have him := abs_le.1 t1.2
    refine ⟨_, Real.pi / 2 - t, e2, ⟨?_, ?_, ?_⟩, ?_⟩
    · rw [Complex.cos_pi_div_two_sub]; exact t1.1
    · rw [Complex.sub_re, show ((Real.pi : ℂ) / 2).re = Real.pi / 2 by rw [show (Real.pi : ℂ) / 2 = ((Real.pi / 2 : ℝ) : ℂ) by push_cast; rfl, Complex.ofReal_re]]
      linarith
    · rw [Complex.sub_re, show ((Real.pi : ℂ) / 2).re = Real.pi / 2 by rw [show (Real.pi : ℂ) / 2 = ((Real.pi / 2 : ℝ) : ℂ) by push_cast; rfl, Complex.ofReal_re]]
      linarith
    · rw [← e5]
      obtain ⟨q0, q3, q4⟩ := sqrt_eps hp
      have he := eps_real p
      have hes := eps_16 hp
      have hes' : eps (ctxOf p).p ≤ 1 / 1000 := hes.trans (by norm_num)
      have hpi : |((ctxOf p).pi : ℝ) - Real.pi| ≤ 4 * eps p := piOk hp'
      have pi1 : ((ctxOf p).pi : ℝ) ≤ 63 / 20 := by
        have : (((ctxOf p).pi : ℚ) : ℝ) ≤ ((63 / 20 : ℚ) : ℝ) := Rat.cast_le.2 (pi_ge (c := ctxOf p) hp (piOk hp')).2
        norm_num at this
        exact this
      have pi0 : (3 : ℝ) ≤ ((ctxOf p).pi : ℝ) := by exact_mod_cast (pi_ge (c := ctxOf p) hp (piOk hp')).1
      have v1 := rnd_err_real p ((ctxOf p).pi / 2)
      have v2 := rnd_err_real p (rnd p ((ctxOf p).pi / 2))
      have s1 := addS_err (c := ctxOf p) hes' (f := (· - ·)) (g := (· - ·)) (fun a b => by push_cast; rfl) (Or.inr fun _ _ => rfl)
        (.flt ⟨(ctxOf p).p, rnd (ctxOf p).p (rnd (ctxOf p).p ((ctxOf p).pi / 2))⟩) x.1
      have s2 := addS_err (c := ctxOf p) hes' (f := (· - ·)) (g := (· - ·)) (fun a b => by push_cast; rfl) (Or.inr fun _ _ => rfl) (.flt ⟨(ctxOf p).p, 0⟩) x.2
      change _ ≤ 21 / 10 * eps p * (|((rnd p (rnd p ((ctxOf p).pi / 2)) : ℚ) : ℝ)| + |(x.1.val : ℝ)|) at s1
      change _ ≤ 21 / 10 * eps p * (|((0 : ℚ) : ℝ)| + |(x.2.val : ℝ)|) at s2
      set W := cSub (ctxOf p) (.flt ⟨(ctxOf p).p, rnd (ctxOf p).p (rnd (ctxOf p).p ((ctxOf p).pi / 2))⟩, .flt ⟨(ctxOf p).p, 0⟩) x with hW
      have x1 : |(x.1.val : ℝ)| ≤ ‖toC x‖ := Complex.abs_re_le_norm (toC x)
      have x2 : |(x.2.val : ℝ)| ≤ ‖toC x‖ := Complex.abs_im_le_norm (toC x)
      have w1 : ‖toC W - ((((rnd p (rnd p ((ctxOf p).pi / 2)) : ℚ) : ℝ) : ℂ) - toC x)‖ ≤ 21 / 10 * eps p * (|((rnd p (rnd p ((ctxOf p).pi / 2)) : ℚ) : ℝ)| + 2 * ‖toC x‖) := by
        refine (Complex.norm_le_abs_re_add_abs_im _).trans ?_
        rw [Complex.sub_re, Complex.sub_im, Complex.sub_re, Complex.sub_im, Complex.ofReal_re, Complex.ofReal_im]
        have y1 : |(toC W).re - (((rnd p (rnd p ((ctxOf p).pi / 2)) : ℚ) : ℝ) - (toC x).re)| ≤ 21 / 10 * eps p * (|((rnd p (rnd p ((ctxOf p).pi / 2)) : ℚ) : ℝ)| + |(x.1.val : ℝ)|) := s1
        have y2 : |(toC W).im - (((0 : ℚ) : ℝ) - (toC x).im)| ≤ 21 / 10 * eps p * (|((0 : ℚ) : ℝ)| + |(x.2.val : ℝ)|) := s2
        rw [Rat.cast_zero, abs_zero, zero_add] at y2
        have z1 : eps p * |(x.1.val : ℝ)| ≤ eps p * ‖toC x‖ := mul_le_mul_of_nonneg_left x1 he.le
        have z2 : eps p * |(x.2.val : ℝ)| ≤ eps p * ‖toC x‖ := mul_le_mul_of_nonneg_left x2 he.le
        linarith
      push_cast at v1
      generalize ((rnd p (rnd p ((ctxOf p).pi / 2)) : ℚ) : ℝ) = P at *
      generalize ((rnd p ((ctxOf p).pi / 2) : ℚ) : ℝ) = P1 at *
      generalize ((ctxOf p).pi : ℝ) = P0 at *
      have b0 : |P0 / 2| = P0 / 2 := abs_of_pos (by linarith)
      rw [b0] at v1
      have v1' : |P1 - P0 / 2| ≤ 2 * eps p := v1.trans (by nlinarith)
      have b1 : |P1| ≤ 2 := by
        have := abs_sub_abs_le_abs_sub P1 (P0 / 2)
        rw [b0] at this
        linarith
      have v2' : |P - P1| ≤ 2 * eps p := v2.trans (by nlinarith)
      have b2 : |P| ≤ 3 := by
        have := abs_sub_abs_le_abs_sub P P1
        linarith
      have hP : |P - Real.pi / 2| ≤ 6 * eps p := by
        have h1 := abs_le.1 v1'
        have h2 := abs_le.1 v2'
        have h3 := abs_le.1 hpi
        rw [abs_le]
        constructor <;> linarith [h1.1, h1.2, h2.1, h2.2, h3.1, h3.2]
      have hP' : ‖((P : ℝ) : ℂ) - (Real.pi : ℂ) / 2‖ ≤ 6 * eps p := by
        rw [show ((P : ℝ) : ℂ) - (Real.pi : ℂ) / 2 = ((P - Real.pi / 2 : ℝ) : ℂ) by push_cast; rfl, Complex.norm_real]
        exact hP
      have n1 := norm_add_le (toC W - ((P : ℂ) - toC x)) (((P : ℂ) - (Real.pi : ℂ) / 2) - (toC x - t))
      rw [show toC W - ((P : ℂ) - toC x) + (((P : ℂ) - (Real.pi : ℂ) / 2) - (toC x - t)) = toC W - ((Real.pi : ℂ) / 2 - t) by ring] at n1
      have n2 := norm_sub_le ((P : ℂ) - (Real.pi : ℂ) / 2) (toC x - t)
      have n3 := norm_add_le (toC x - t) t
      rw [sub_add_cancel] at n3
      have n4 := norm_sub_le ((Real.pi : ℂ) / 2) ((Real.pi : ℂ) / 2 - t)
      rw [sub_sub_cancel] at n4
      have n5 : ‖(Real.pi : ℂ) / 2‖ ≤ 2 := by
        rw [show (Real.pi : ℂ) / 2 = ((Real.pi / 2 : ℝ) : ℂ) by push_cast; rfl, Complex.norm_real, Real.norm_eq_abs, abs_of_pos (by positivity)]
        linarith [Real.pi_le_four]
      have hT := norm_nonneg t
      have hpe := p_eps hp
      have k0 : eps p * ‖t‖ ≤ 1 / 65536 * ‖t‖ := mul_le_mul_of_nonneg_right hes hT
      have k1 : ‖toC x‖ ≤ 3 / 10 + 1001 / 1000 * ‖t‖ := by
        have : (570 * ((p : ℝ) + 1) + 24 * ‖t‖) * eps p = 570 * (((p : ℝ) + 1) * eps p) + 24 * (eps p * ‖t‖) := by ring
        linarith
      have k2 : eps p * (|P| + 2 * ‖toC x‖) ≤ eps p * (4 + 2002 / 1000 * ‖t‖) := mul_le_mul_of_nonneg_left (by linarith) he.le
      have k3 : eps p * ‖t‖ ≤ eps p * (2 + ‖(Real.pi : ℂ) / 2 - t‖) := mul_le_mul_of_nonneg_left (by linarith) he.le
      have k4 : √(eps p) * √(eps p) ≤ 1 / 256 * √(eps p) := mul_le_mul_of_nonneg_right q4 q3.le
      change ‖toC W - ((Real.pi : ℂ) / 2 - t)‖ ≤ 14 * √(eps p) + (570 * (p + 1) + 30 * ‖(Real.pi : ℂ) / 2 - t‖) * eps p
      have k5 : 0 ≤ eps p * ‖(Real.pi : ℂ) / 2 - t‖ := by positivity
      linarith
  | err m => unfold M.bind at e1; rw [hc] at e1; cases e1
  | crash => unfold M.bind at e1; rw [hc] at e1; cases e1
  | hang => unfold M.bind at e1; rw [hc] at e1; cases e1

end

/-- The hypotheses: `acosh 1j1` and `asin 1j-1` have results with 64 bits. -/
theorem results_run : passes (fun _ => true) (acosh (ctxOf 64) 2600 (.cplx (.exact 1) (.exact 1)) heap64) = true ∧
    passes (fun _ => true) (asinh (ctxOf 64) 2600 (.cplx (.exact 1) (.exact 1)) heap64) = true ∧
    passes (fun _ => true) (asin (ctxOf 64) 2600 (.cplx (.exact 1) (.exact (-1))) heap64) = true ∧
    passes (fun _ => true) (acos (ctxOf 64) 2600 (.cplx (.exact 1) (.exact (-1))) heap64) = true := by
  refine ⟨?_, ?_, ?_, ?_⟩ <;> decide +kernel

/-- The real part of the result. -/
def realPartOf (z : Val × Heap) : Option Rat := match read z.1 z.2 with
  | .ok (w, _) => some w.parts.1.val
  | _ => none

theorem acosh_run : passes (fun z => decide (∃ x ∈ realPartOf z, x < -1)) (acosh (ctxOf 64) 2600 (.real (.exact (-2))) heap64) = true := by decide +kernel

/-- Full statement for `acosh`: the result is near a principal value. -/
def C92_full_acosh : Prop := ∀ (p : ℕ) (h : Heap) (fuel : ℕ) (a b : ℚ), 64 ≤ p → p ≤ constPrecisionInBits → Intact p h → 12 + 40 * p ≤ fuel → ∀ r h', acosh (ctxOf p) fuel (exactNum a b) h = .ok (r, h') →
  ∃ w t, Value r h' w ∧ IsArcosh ⟨a, b⟩ t ∧ ‖w - t‖ ≤ 1

/-- With 64 bits, `acosh -2` has a real part below `-1`. -/
theorem C92_violated_acosh : ¬ C92_full_acosh := by
  intro hf
  obtain ⟨⟨r, h'⟩, z1, z2⟩ := of_passes acosh_run
  obtain ⟨w, t, ⟨u, u1, u2⟩, t1, t2⟩ := hf 64 heap64 2600 (-2) 0 le_rfl (by decide) ⟨rfl, rfl⟩ (by norm_num) r h' (by unfold exactNum; rw [if_pos rfl]; exact z1)
  obtain ⟨x, x1, x2⟩ := z2
  unfold realPartOf at x1
  simp only [u1, Option.mem_def, Option.some.injEq] at x1
  have h1 : w.re < -1 := by rw [← u2]; show ((u.parts.1.val : ℚ) : ℝ) < -1; rw [x1]; exact_mod_cast x2
  have h2 := (abs_le.1 ((Complex.abs_re_le_norm (w - t)).trans t2)).1
  rw [Complex.sub_re] at h2
  have := t1.2.1
  linarith

/-- With 64 bits, `asin -1e20` and `acosh -1e20` fail. -/
theorem C92_violated_asin : asin (ctxOf 64) 2600 (.real (.exact (-10 ^ 20))) heap64 = .err "log of non-positive value" ∧
    acosh (ctxOf 64) 2600 (.real (.exact (-10 ^ 20))) heap64 = .err "log of non-positive value" := by
  constructor <;> decide +kernel

end Verif.Cell
