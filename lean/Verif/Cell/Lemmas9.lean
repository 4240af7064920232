import Verif.Cell.Lemmas8

/-!
# Errors of the square root of a complex number
-/

namespace Verif.Cell
open Verif.Arr (R)
open Verif.Flt
open Verif.Flt.Spec (IsFloat)

theorem root_weak {u v e : ℝ} (hu : 0 ≤ u) (hv : 0 ≤ v) (h : |u * u - v * v| ≤ e) : |u - v| ≤ √e := by
  apply Real.abs_le_sqrt
  have h1 : |u - v| ≤ u + v := by rw [abs_le]; constructor <;> linarith
  have h2 : |u - v| * |u - v| ≤ |u - v| * (u + v) := mul_le_mul_of_nonneg_left h1 (abs_nonneg _)
  have h3 : |u - v| * (u + v) = |u * u - v * v| := by
    rw [show u * u - v * v = (u - v) * (u + v) by ring, abs_mul, abs_of_nonneg (add_nonneg hu hv)]
  rw [← sq_abs, sq]
  linarith

/-- One part of the root: `√((M + X) / 2)`. -/
theorem half_root {c : Ctx} (hp : 16 ≤ c.p) {mag x : ℚ} {M : ℝ} (hM : 0 < M) (hm : |(mag : ℝ) - M| ≤ 6 * eps c.p * M) (hx : |(x : ℝ)| ≤ M)
    {fuel : ℕ} (hfu : 10 + c.p ≤ fuel) {r : Fl} (h : floatSqrt c fuel ⟨c.p, rnd c.p (rnd c.p (mag + x) / 2)⟩ = .ok r) :
    0 ≤ r.val ∧ |(r.val : ℝ) - √((M + x) / 2)| ≤ 3 * √(eps c.p) * √M ∧ ((0 : ℝ) ≤ x → |(r.val : ℝ) - √((M + x) / 2)| ≤ 14 * eps c.p * √M) := by
  have he := eps_real c.p
  have hes : eps c.p ≤ 1 / 65536 := by
    have h1 := p_eps hp
    have h3 : (16 : ℝ) ≤ c.p := by exact_mod_cast hp
    have h2 : 17 * eps c.p ≤ ((c.p : ℝ) + 1) * eps c.p := mul_le_mul_of_nonneg_right (by linarith) he.le
    linarith
  set T : ℝ := (M + x) / 2 with hT
  obtain ⟨x1, x2⟩ := abs_le.1 hx
  have hT0 : 0 ≤ T := by rw [hT]; linarith
  have hTM : T ≤ M := by rw [hT]; linarith
  set V : ℚ := rnd c.p (rnd c.p (mag + x) / 2) with hV
  have hVT : |(V : ℝ) - T| ≤ 11 / 2 * eps c.p * M := by
    have e1 := rnd_err_real c.p (mag + x)
    have e2 := rnd_err_real c.p (rnd c.p (mag + x) / 2)
    rw [← hV] at e2
    set S : ℚ := rnd c.p (mag + x)
    push_cast at e1 e2
    obtain ⟨m1, m2⟩ := abs_le.1 hm
    have k : eps c.p * M ≤ 1 / 65536 * M := mul_le_mul_of_nonneg_right hes hM.le
    have b1 : |(mag : ℝ) + x| ≤ 201 / 100 * M := by rw [abs_le]; constructor <;> linarith
    have b2 : eps c.p * |(mag : ℝ) + x| ≤ eps c.p * (201 / 100 * M) := mul_le_mul_of_nonneg_left b1 he.le
    obtain ⟨s1, s2⟩ := abs_le.1 e1
    have b3 : |(S : ℝ) / 2| ≤ 102 / 100 * M := by
      obtain ⟨c1, c2⟩ := abs_le.1 b1
      rw [abs_le]; constructor <;> linarith
    have b4 : eps c.p * |(S : ℝ) / 2| ≤ eps c.p * (102 / 100 * M) := mul_le_mul_of_nonneg_left b3 he.le
    obtain ⟨v1, v2⟩ := abs_le.1 e2
    rw [hT, abs_le]
    constructor <;> linarith
  have hVf : IsFloat c.p V := rnd_isFloat (by omega) _
  have hsM := Real.sqrt_pos.2 hM
  have hsT : √T ≤ √M := Real.sqrt_le_sqrt hTM
  have hs5 : √(11 / 2 * eps c.p * M) ≤ 12 / 5 * √(eps c.p) * √M := by
    rw [Real.sqrt_mul (by positivity), Real.sqrt_mul (by norm_num)]
    have : √(11 / 2) ≤ 12 / 5 := by rw [Real.sqrt_le_left (by norm_num)]; norm_num
    exact mul_le_mul_of_nonneg_right (mul_le_mul_of_nonneg_right this (Real.sqrt_nonneg _)) (Real.sqrt_nonneg _)
  have hse : eps c.p ≤ 1 / 256 * √(eps c.p) := by
    have h1 : √(eps c.p) ≤ 1 / 256 := by rw [Real.sqrt_le_left (by norm_num)]; norm_num; linarith
    have h2 := Real.mul_self_sqrt he.le
    have h3 : √(eps c.p) * √(eps c.p) ≤ 1 / 256 * √(eps c.p) := mul_le_mul_of_nonneg_right h1 (Real.sqrt_nonneg _)
    linarith
  have hpos : 0 < √(eps c.p) * √M := mul_pos (Real.sqrt_pos.2 he) hsM
  rcases lt_trichotomy V 0 with hn | hz | hVpos
  · unfold floatSqrt at h
    rw [if_pos hn] at h
    cases h
  · rw [hz] at h
    have : floatSqrt c fuel ⟨c.p, 0⟩ = .ok ⟨c.p, 0⟩ := rfl
    rw [this] at h
    injection h with h
    rw [← h]
    rw [hz] at hVT
    simp only [Rat.cast_zero, zero_sub, abs_neg] at hVT ⊢
    rw [abs_of_nonneg hT0] at hVT
    refine ⟨le_refl _, ?_, fun hx0 => ?_⟩
    · rw [abs_of_nonneg (Real.sqrt_nonneg _)]
      have := Real.sqrt_le_sqrt hVT
      have h3 : 12 / 5 * √(eps c.p) * √M = 12 / 5 * (√(eps c.p) * √M) := by ring
      have h4 : 3 * √(eps c.p) * √M = 3 * (√(eps c.p) * √M) := by ring
      rw [h4]; rw [h3] at hs5
      linarith
    · exfalso
      have : M / 2 ≤ T := by rw [hT]; linarith
      have k : eps c.p * M ≤ 1 / 65536 * M := mul_le_mul_of_nonneg_right hes hM.le
      linarith
  · have hV' : (0 : ℝ) < V := by exact_mod_cast hVpos
    obtain ⟨q, q1, q0, q2⟩ := root_err hp hVpos hVf hfu
    rw [q1] at h
    injection h with h
    rw [← h]
    simp only
    refine ⟨q0.le, ?_, fun hx0 => ?_⟩
    · have r1 := root_weak (Real.sqrt_nonneg (V : ℝ)) (Real.sqrt_nonneg T) (e := 11 / 2 * eps c.p * M) (by rw [Real.mul_self_sqrt hV'.le, Real.mul_self_sqrt hT0]; exact hVT)
      have r1' := r1.trans hs5
      have r2 := abs_add_le ((q : ℝ) - √(V : ℝ)) (√(V : ℝ) - √T)
      rw [sub_add_sub_cancel] at r2
      have r3 : √(V : ℝ) ≤ 2 * √M := by
        rw [Real.sqrt_le_left (by positivity), mul_pow, Real.sq_sqrt hM.le]
        have := (abs_le.1 hVT).2
        have k : eps c.p * M ≤ 1 / 65536 * M := mul_le_mul_of_nonneg_right hes hM.le
        linarith
      have r4 : eps c.p * √(V : ℝ) ≤ 1 / 256 * √(eps c.p) * (2 * √M) := mul_le_mul hse r3 (Real.sqrt_nonneg _) (by positivity)
      have e1 : 12 / 5 * √(eps c.p) * √M = 12 / 5 * (√(eps c.p) * √M) := by ring
      have e2 : 3 * √(eps c.p) * √M = 3 * (√(eps c.p) * √M) := by ring
      have e3 : 1 / 256 * √(eps c.p) * (2 * √M) = 1 / 128 * (√(eps c.p) * √M) := by ring
      rw [e1] at r1'
      rw [e3] at r4
      rw [e2]
      linarith
    · have hMT : M / 2 ≤ T := by rw [hT]; linarith
      have hTpos : 0 < T := by linarith
      have hsTp := Real.sqrt_pos.2 hTpos
      have r1 := root_near (Real.sqrt_nonneg (V : ℝ)) hsTp (Real.mul_self_sqrt hV'.le) (Real.mul_self_sqrt hT0) hVT
      have r2 : 11 / 2 * eps c.p * M / √T ≤ 11 * eps c.p * √T := by
        rw [div_le_iff₀ hsTp, mul_assoc (11 * eps c.p), Real.mul_self_sqrt hT0]
        have : eps c.p * M ≤ eps c.p * (2 * T) := mul_le_mul_of_nonneg_left (by linarith) he.le
        linarith
      have r3 := abs_add_le ((q : ℝ) - √(V : ℝ)) (√(V : ℝ) - √T)
      rw [sub_add_sub_cancel] at r3
      have r8 := r1.trans r2
      have r4 := (abs_le.1 r8).2
      have r5 : eps c.p * √T ≤ 1 / 65536 * √T := mul_le_mul_of_nonneg_right hes hsTp.le
      have r6 : eps c.p * √(V : ℝ) ≤ eps c.p * (11 / 10 * √T) := mul_le_mul_of_nonneg_left (by linarith) he.le
      have r9 : 0 < eps c.p * √M := mul_pos he hsM
      have r7 : eps c.p * √T ≤ eps c.p * √M := mul_le_mul_of_nonneg_left hsT he.le
      linarith

theorem sqrt_parts {x y : ℝ} (hy : y ≠ 0) {w : ℂ} (hw : w ^ 2 = ⟨x, y⟩) (h0 : 0 ≤ w.re) :
    0 < w.re ∧ w.re = √((√(x ^ 2 + y ^ 2) + x) / 2) ∧ |w.im| = √((√(x ^ 2 + y ^ 2) + -x) / 2) ∧ (w.im < 0 ↔ y < 0) ∧ ‖w‖ = √(√(x ^ 2 + y ^ 2)) := by
  have e1 : w.re ^ 2 - w.im ^ 2 = x := by
    have := congrArg Complex.re hw
    rw [sq, Complex.mul_re] at this
    simp only at this
    rw [← this]; ring
  have e2 : 2 * w.re * w.im = y := by
    have := congrArg Complex.im hw
    rw [sq, Complex.mul_im] at this
    simp only at this
    rw [← this]; ring
  have hpos : 0 < w.re := by
    rcases h0.lt_or_eq with h | h
    · exact h
    · exfalso; apply hy; rw [← e2, ← h]; ring
  have e3 : √(x ^ 2 + y ^ 2) = w.re ^ 2 + w.im ^ 2 := by
    rw [← e1, ← e2, show (w.re ^ 2 - w.im ^ 2) ^ 2 + (2 * w.re * w.im) ^ 2 = (w.re ^ 2 + w.im ^ 2) ^ 2 by ring, Real.sqrt_sq (by positivity)]
  rw [e3]
  refine ⟨hpos, ?_, ?_, ?_, ?_⟩
  · rw [← e1, show (w.re ^ 2 + w.im ^ 2 + (w.re ^ 2 - w.im ^ 2)) / 2 = w.re ^ 2 by ring, Real.sqrt_sq h0]
  · rw [← e1, show (w.re ^ 2 + w.im ^ 2 + -(w.re ^ 2 - w.im ^ 2)) / 2 = w.im ^ 2 by ring, Real.sqrt_sq_eq_abs]
  · rw [← e2]
    constructor
    · intro h; nlinarith
    · intro h
      by_contra hc
      have := not_lt.1 hc
      have : 0 ≤ 2 * w.re * w.im := by positivity
      linarith
  · rw [← normSq_mk]

theorem bindR_ok {α β : Type} (a : α) (f : α → R β) : (R.ok a).bind f = f a := rfl

theorem complexSqrt_err {c : Ctx} (hp : 16 ≤ c.p) {re im : PS} {x y : ℚ} (hx : re.float c = ⟨c.p, x⟩) (hy : im.float c = ⟨c.p, y⟩) (hy0 : y ≠ 0) {fuel : ℕ} (hfu : 10 + c.p ≤ fuel)
    {r : PS × PS} (h : complexSqrt c fuel re im = .ok r) {w : ℂ} (hw : w ^ 2 = ⟨x, y⟩) (h0 : 0 ≤ w.re) :
    |(r.1.val : ℝ) - w.re| ≤ 3 * √(eps c.p) * ‖w‖ ∧ |(r.2.val : ℝ) - w.im| ≤ 3 * √(eps c.p) * ‖w‖ ∧
    (0 ≤ x → |(r.1.val : ℝ) - w.re| ≤ 14 * eps c.p * ‖w‖) ∧ (x ≤ 0 → |(r.2.val : ℝ) - w.im| ≤ 14 * eps c.p * ‖w‖) := by
  have he := eps_real c.p
  obtain ⟨-, -, -, hes⟩ := consts_small hp 0 (k := 0) le_rfl (by norm_num)
  have hy' : (y : ℝ) ≠ 0 := by exact_mod_cast hy0
  obtain ⟨w0, w1, w2, w3, w4⟩ := sqrt_parts hy' hw h0
  unfold complexSqrt at h
  dsimp only at h
  rw [hx, hy] at h
  dsimp only at h
  have two : rnd c.p 2 = 2 := rnd_self (by omega) ⟨1, 1, by simpa using (one_lt_pow₀ (by norm_num) (by omega) : (1 : ℤ) < 2 ^ c.p), by norm_num⟩
  set N : ℝ := (x : ℝ) ^ 2 + (y : ℝ) ^ 2 with hN
  have hNpos : 0 < N := by rw [hN]; positivity
  set W : ℚ := Flt.add c.p (Flt.mul c.p x x) (Flt.mul c.p y y) with hW
  have a1 := rnd_err_real c.p (x * x)
  have a2 := rnd_err_real c.p (y * y)
  have a3 := rnd_err_real c.p (Flt.mul c.p x x + Flt.mul c.p y y)
  have hmx : (0 : ℝ) ≤ (Flt.mul c.p x x : ℚ) := by exact_mod_cast rnd_nonneg (by omega) (mul_self_nonneg x)
  have hmy : (0 : ℝ) ≤ (Flt.mul c.p y y : ℚ) := by exact_mod_cast rnd_nonneg (by omega) (mul_self_nonneg y)
  have hWN : |(W : ℝ) - N| ≤ 3 * eps c.p * N := by
    have e1 : ((rnd c.p (x * x) : ℚ) : ℝ) = (Flt.mul c.p x x : ℚ) := rfl
    have e2 : ((rnd c.p (y * y) : ℚ) : ℝ) = (Flt.mul c.p y y : ℚ) := rfl
    have e3 : ((rnd c.p (Flt.mul c.p x x + Flt.mul c.p y y) : ℚ) : ℝ) = (W : ℝ) := rfl
    rw [e1, Rat.cast_mul, abs_of_nonneg (mul_self_nonneg (x : ℝ))] at a1
    rw [e2, Rat.cast_mul, abs_of_nonneg (mul_self_nonneg (y : ℝ))] at a2
    rw [e3, Rat.cast_add, abs_of_nonneg (add_nonneg hmx hmy)] at a3
    obtain ⟨p1, p2⟩ := abs_le.1 a1
    obtain ⟨p3, p4⟩ := abs_le.1 a2
    obtain ⟨p5, p6⟩ := abs_le.1 a3
    have k : eps c.p * N ≤ 1 / 1000 * N := mul_le_mul_of_nonneg_right hes hNpos.le
    have hNN : N = (x : ℝ) * x + y * y := by rw [hN]; ring
    have k2 : eps c.p * ((Flt.mul c.p x x : ℚ) + (Flt.mul c.p y y : ℚ) : ℝ) ≤ eps c.p * (101 / 100 * N) := mul_le_mul_of_nonneg_left (by rw [hNN] at k ⊢; linarith) he.le
    have k3 : 0 ≤ eps c.p * N := by positivity
    rw [hNN] at k2 k3 ⊢
    rw [abs_le]
    constructor <;> linarith
  have k : eps c.p * N ≤ 1 / 1000 * N := mul_le_mul_of_nonneg_right hes hNpos.le
  have hW0 : (0 : ℝ) < W := by have := (abs_le.1 hWN).1; linarith
  obtain ⟨q, q1, q0, q2⟩ := root_err hp (W := W) (by exact_mod_cast hW0) (rnd_isFloat (by omega) _) hfu
  set M : ℝ := √N with hMdef
  have hM : 0 < M := Real.sqrt_pos.2 hNpos
  have hMM : M * M = N := Real.mul_self_sqrt hNpos.le
  have hs := root_near (Real.sqrt_nonneg (W : ℝ)) hM (Real.mul_self_sqrt hW0.le) hMM hWN
  have hs2 : 3 * eps c.p * N / M = 3 * eps c.p * M := by rw [div_eq_iff hM.ne', mul_assoc (3 * eps c.p), hMM]
  rw [hs2] at hs
  have kM : eps c.p * M ≤ 1 / 1000 * M := mul_le_mul_of_nonneg_right hes hM.le
  have hq : |(q : ℝ) - M| ≤ 6 * eps c.p * M := by
    obtain ⟨s1, s2⟩ := abs_le.1 hs
    obtain ⟨s3, s4⟩ := abs_le.1 q2
    have k2 : eps c.p * √(W : ℝ) ≤ eps c.p * (101 / 100 * M) := mul_le_mul_of_nonneg_left (by linarith) he.le
    have k3 : 0 < eps c.p * M := mul_pos he hM
    rw [abs_le]
    constructor <;> linarith
  have hxM : |(x : ℝ)| ≤ M := by
    rw [hMdef]
    exact Real.abs_le_sqrt (by rw [hN]; nlinarith [sq_nonneg (y : ℝ)])
  have hxM' : |((-x : ℚ) : ℝ)| ≤ M := by rw [Rat.cast_neg, abs_neg]; exact hxM
  rw [q1, bindR_ok] at h
  dsimp only at h
  have quo2 : ∀ a, quo c.p a (rnd c.p 2) = .ok (rnd c.p (a / 2)) := by
    intro a
    rw [two]
    rfl
  rw [quo2, bindR_ok] at h
  obtain ⟨r1, hr1, h⟩ := Verif.Flt.bind_eq_ok h
  rw [quo2, bindR_ok] at h
  obtain ⟨i1, hi1, h⟩ := Verif.Flt.bind_eq_ok h
  injection h with h
  rw [← h]
  have hsub : Flt.sub c.p q x = rnd c.p (q + -x) := by unfold Flt.sub; rw [sub_eq_add_neg]
  rw [hsub] at hi1
  obtain ⟨a0, a1, a2⟩ := half_root hp hM hq hxM hfu hr1
  obtain ⟨b0, b1, b2⟩ := half_root hp hM hq hxM' hfu hi1
  rw [Rat.cast_neg] at b1 b2
  rw [← w1, ← w4] at a1 a2
  rw [← w2, ← w4] at b1 b2
  simp only [shrinkF_val]
  have key : ∀ {δ : ℝ}, |(i1.val : ℝ) - (|w.im|)| ≤ δ → |(((if y < 0 then (⟨i1.prec, -i1.val⟩ : Fl) else i1).val : ℚ) : ℝ) - w.im| ≤ δ := by
    intro δ hδ
    by_cases hyn : y < 0
    · have : w.im < 0 := w3.2 (by exact_mod_cast hyn)
      rw [abs_of_neg this] at hδ
      rw [if_pos hyn]
      simp only [Rat.cast_neg]
      rw [abs_sub_comm] at hδ
      rwa [show -(i1.val : ℝ) - w.im = -w.im - i1.val by ring]
    · have : ¬ w.im < 0 := fun hc => hyn (by exact_mod_cast w3.1 hc)
      rw [abs_of_nonneg (not_lt.1 this)] at hδ
      rwa [if_neg hyn]
  refine ⟨a1, key b1, fun hx0 => a2 (by exact_mod_cast hx0), fun hx0 => key (b2 ?_)⟩
  have : (x : ℝ) ≤ 0 := by exact_mod_cast hx0
  linarith

end Verif.Cell
