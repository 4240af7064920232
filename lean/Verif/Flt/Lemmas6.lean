import Verif.Flt.Lemmas5

/-! # The inverse functions and powers come to an end -/

namespace Verif.Flt
open Spec
open Verif.Arr (R)

theorem eps_4096 {p : ℕ} (hp : 12 ≤ p) : (2 : ℚ) ^ (-(p : ℤ)) ≤ 1 / 4096 := by
  refine le_trans (eps_le (k := 12) hp) ?_
  norm_num

/-- The root of the square of a number is that number. -/
theorem floatSqrt_square {c : Ctx} (hp : 12 ≤ c.p) {t : ℚ} (ht : 0 < t) (hf : IsFloat c.p t) (hsq : IsFloat c.p (t * t)) (fuel : ℕ) (hfu : 10 + c.p ≤ fuel) :
    floatSqrt c fuel ⟨c.p, t * t⟩ = .ok ⟨c.p, t⟩ := by
  obtain ⟨z, hz0, hzf, herr, hall⟩ := floatSqrt_ok hp hsq (mul_pos ht ht) (s := (t : ℝ)) (by exact_mod_cast ht) (by push_cast; rfl)
  rw [hall fuel hfu]
  have herr' : |z - t| ≤ 9 / 10 * 2 ^ (expo z - (c.p : ℤ)) := by
    have : ((|z - t| : ℚ) : ℝ) ≤ ((9 / 10 * 2 ^ (expo z - (c.p : ℤ)) : ℚ) : ℝ) := by push_cast; exact herr
    exact Rat.cast_le.1 this
  suffices h : z = t by rw [h]
  have hez := expo_spec z hz0.ne'
  obtain ⟨k, hk⟩ := isFloat_mult hzf hez.1
  rw [abs_of_pos hz0] at hez
  have hu := two_zpow_pos (expo z - (c.p : ℤ))
  have hE1 : (2 : ℚ) ^ (expo z - 1) = 2 ^ expo z / 2 := by rw [zpow_sub_one₀ (by norm_num)]; ring
  have hP : (2 : ℤ) ^ c.p = 2 * 2 ^ (c.p - 1) := by rw [← pow_succ']; congr 1; omega
  have hPb : (2 : ℤ) ^ 11 ≤ 2 ^ (c.p - 1) := pow_le_pow_right₀ (by norm_num) (by omega)
  have hT : (2 : ℚ) ^ (expo z - 1) = 2 ^ c.p * (2 ^ (expo z - (c.p : ℤ)) / 2) := by
    rw [show expo z - 1 = (c.p : ℤ) + (expo z - (c.p : ℤ)) - 1 by ring, zpow_sub_one₀ (by norm_num), zpow_add₀ (by norm_num), zpow_natCast]; ring
  by_cases hlo : (2 : ℚ) ^ (expo z - 1) ≤ t
  · obtain ⟨l, hl⟩ := isFloat_mult hf (e := expo z) (by rwa [abs_of_pos ht])
    rw [hk, hl]
    have e1 : z - t = ((k - l : ℤ) : ℚ) * 2 ^ (expo z - (c.p : ℤ)) := by push_cast; rw [sub_mul, ← hk, ← hl]
    rw [e1, abs_mul, abs_of_pos hu] at herr'
    have h5 : (|((k - l : ℤ) : ℚ)|) < 1 := by
      by_contra hc; have hc := not_lt.1 hc; nlinarith
    have h6 : |k - l| < 1 := by exact_mod_cast h5
    have : k = l := by
      have := Int.abs_lt_one_iff.1 h6
      omega
    rw [this]
  · exfalso
    have hlo := not_le.1 hlo
    have hd := (abs_le.1 herr').2
    have h4096 : (2 : ℚ) ^ (expo z - (c.p : ℤ)) ≤ 2 ^ expo z * (1 / 4096) := by
      rw [show expo z - (c.p : ℤ) = expo z + -(c.p : ℤ) by ring, zpow_add₀ (by norm_num)]
      apply mul_le_mul_of_nonneg_left _ (by positivity)
      have := eps_le (k := 12) hp
      norm_num at this ⊢
      exact this
    have hTz := two_zpow_pos (expo z)
    have hlo2 : (2 : ℚ) ^ (expo z - 1 - 1) ≤ |t| := by
      rw [abs_of_pos ht, zpow_sub_one₀ (by norm_num), hE1]
      rw [hE1] at hez
      linarith [hez.1]
    obtain ⟨l, hl⟩ := isFloat_mult hf hlo2
    have hu2 : (2 : ℚ) ^ (expo z - 1 - (c.p : ℤ)) = 2 ^ (expo z - (c.p : ℤ)) / 2 := by
      rw [show expo z - 1 - (c.p : ℤ) = expo z - (c.p : ℤ) - 1 by ring, zpow_sub_one₀ (by norm_num)]; ring
    have hl0 := hl
    rw [hu2] at hl
    have hz1 := hez.1
    rw [hT] at hlo hz1
    have hlt : l = 2 ^ c.p - 1 := by
      generalize (2 : ℚ) ^ (expo z - (c.p : ℤ)) = u at *
      have a1 : l < 2 ^ c.p := by
        rw [hl] at hlo
        have := lt_of_mul_lt_mul_right hlo (by linarith)
        exact_mod_cast this
      have a2 : 2 ^ c.p - 2 < l := by
        have : ((2 ^ c.p - 2 : ℤ) : ℚ) < l := by
          push_cast
          by_contra hc
          have hc := not_lt.1 hc
          have : (l : ℚ) * (u / 2) ≤ (2 ^ c.p - 2) * (u / 2) := mul_le_mul_of_nonneg_right hc (by linarith)
          rw [hl] at hd
          linarith
        exact_mod_cast this
      omega
    obtain ⟨m, e, hm, he⟩ := hsq
    -- the square of an odd number with that many bits does not fit
    rw [hl0, hlt] at he
    set j := expo z - 1 - (c.p : ℤ) with hj
    set M : ℤ := 2 ^ c.p - 1 with hM
    have hMsq : 2 ^ c.p ≤ M * M := by
      have : (2 : ℤ) ^ 12 ≤ 2 ^ c.p := pow_le_pow_right₀ (by norm_num) hp
      nlinarith
    have he' : ((M * M : ℤ) : ℚ) * 2 ^ (j + j) = m * 2 ^ e := by
      rw [← he, zpow_add₀ (by norm_num)]; push_cast; ring
    by_cases hje : e ≤ j + j
    · obtain ⟨d, hd'⟩ := Int.le.dest hje
      rw [← hd', zpow_add₀ (by norm_num) e, zpow_natCast] at he'
      have h1 : ((M * M : ℤ) : ℚ) * 2 ^ d = m := by
        have h2 := two_zpow_pos e
        have h3 : ((M * M : ℤ) : ℚ) * 2 ^ d * 2 ^ e = m * 2 ^ e := by rw [← he']; ring
        exact mul_right_cancel₀ h2.ne' h3
      have h2 : M * M * 2 ^ d = m := by exact_mod_cast h1
      have h3 : (1 : ℤ) ≤ 2 ^ d := one_le_pow₀ (by norm_num)
      have h4 := le_abs_self m
      nlinarith
    · obtain ⟨d, hd'⟩ := Int.le.dest (by omega : j + j + 1 ≤ e)
      rw [← hd', zpow_add₀ (by norm_num) (j + j + 1), zpow_natCast, zpow_add_one₀ (by norm_num)] at he'
      have h1 : ((M * M : ℤ) : ℚ) = m * 2 * 2 ^ d := by
        have h2 := two_zpow_pos (j + j)
        have h3 : ((M * M : ℤ) : ℚ) * 2 ^ (j + j) = m * 2 * 2 ^ d * 2 ^ (j + j) := by rw [he']; ring
        exact mul_right_cancel₀ h2.ne' h3
      have h2 : M * M = m * 2 * 2 ^ d := by exact_mod_cast h1
      have h3 : M * M % 2 = 1 := by
        have hM2 : M % 2 = 1 := by omega
        rw [Int.mul_emod, hM2]; norm_num
      rw [h2, show m * 2 * 2 ^ d = 2 * (m * 2 ^ d) by ring] at h3
      omega

/-- Every root found is positive. -/
theorem floatSqrt_pos {c : Ctx} (hp : 3 ≤ c.p) (fuel : ℕ) (x : Fl) (hx : 1 ≤ x.prec) (h0 : 0 < x.val) (r : Fl) (h : floatSqrt c fuel x = .ok r) : 0 < r.val := by
  unfold floatSqrt at h
  rw [if_neg (not_lt.2 h0.le), if_neg h0.ne'] at h
  dsimp only at h
  obtain ⟨z, h, hr⟩ := bind_eq_ok h
  obtain ⟨l', s', hi, hb, _⟩ := iterate_inv c x.prec _ _ _ (fun _ z => 0 < z) (fun l s s1 s2 hs e1 e2 _ => by
    injection e2 with e2
    rw [← e2]
    exact sqrtStep_pos hp hx h0 hs e1) fuel _ _ z (by
      rw [pow2_eq, pow2_eq]
      exact mul_pos (rnd_pos hx (mul_pos h0 (two_zpow_pos _))) (two_zpow_pos _)) h
  injection hr with hr
  rw [← hr]
  exact sqrtStep_pos hp hx h0 hi hb

/-! ## Arc tangent -/

theorem odd_pos (i : ℕ) : (0 : ℚ) < 2 * (i : ℚ) + 1 := by positivity

theorem atanSmall_ends {c : Ctx} (hp : 1 ≤ c.p) (fuel : ℕ) (hf : 10 + 4 * c.p ≤ fuel) (x : ℚ) : Ends (atanSmall c fuel x) := by
  refine ends_bind ?_ fun _ _ => trivial
  refine iterate_ends c c.p _ _ _ (fun _ _ => True) ?_ fuel _ _ (newLoop_lt c 4) (by show 10 + 4 * c.p ≤ fuel + 0; omega) trivial
  intro i s _
  refine ⟨(-s.1, add c.p s.2 (rnd c.p (rnd c.p s.1 / rnd c.p (2 * (i : ℚ) + 1)))), ?_, _, rfl, trivial⟩
  unfold atanBody
  rw [quo_ok (rnd_pos hp (odd_pos i)).ne']
  rfl

theorem floatAtanLarge_ends {c : Ctx} (hp : 1 ≤ c.p) (fuel : ℕ) (hf : 10 + 4 * c.p ≤ fuel) (x : ℚ) (hx : x ≠ 0) : Ends (floatAtanLarge c fuel x) := by
  refine ends_bind (ends_quo (rnd_ne_zero hp two_ne_zero)) fun z _ => ends_bind ?_ fun _ _ => trivial
  refine iterate_ends c c.p _ _ _ (fun _ s => s.1 ≠ 0) ?_ fuel _ _ (newLoop_lt c 4) (by show 10 + 4 * c.p ≤ fuel + 0; omega) (rnd_ne_zero hp hx)
  intro i s hs
  have h1 : mul c.p (rnd c.p (-s.1)) (rnd c.p (2 * (i : ℚ) + 1)) ≠ 0 :=
    rnd_ne_zero hp (mul_ne_zero (rnd_ne_zero hp (neg_ne_zero.2 hs)) (rnd_ne_zero hp (odd_pos i).ne'))
  refine ⟨(-s.1, add c.p s.2 (rnd c.p (1 / mul c.p (rnd c.p (-s.1)) (rnd c.p (2 * (i : ℚ) + 1))))), ?_, _, rfl, ?_⟩
  · unfold atanLargeBody
    rw [quo_ok h1]
    rfl
  · exact rnd_ne_zero hp (mul_ne_zero (neg_ne_zero.2 hs) (rnd_ne_zero hp (mul_ne_zero hx hx)))

/-- The root of two, less one. -/
theorem sqrt_two {c : Ctx} (hp : 12 ≤ c.p) : ∃ z, (∀ fuel, 10 + c.p ≤ fuel → floatSqrt c fuel ⟨c.p, rnd c.p 2⟩ = .ok ⟨c.p, z⟩) ∧
    41 / 100 ≤ sub c.p z 1 ∧ sub c.p z 1 ≤ 42 / 100 := by
  have h2 : rnd c.p 2 = 2 := rnd_two (by omega)
  rw [h2]
  have hs0 : 0 < Real.sqrt 2 := Real.sqrt_pos.2 (by norm_num)
  have hss : Real.sqrt 2 * Real.sqrt 2 = 2 := Real.mul_self_sqrt (by norm_num)
  obtain ⟨z, hz0, hzf, herr, hall⟩ := floatSqrt_ok hp (x := 2) (by rw [← h2]; exact rnd_isFloat (by omega) _) (by norm_num) hs0 (by rw [hss]; norm_num)
  refine ⟨z, hall, ?_⟩
  have hu := ulp_le (p := c.p) hz0
  have he := eps_small hp
  have he0 := eps_real c.p
  have hz0' : (0 : ℝ) < z := by exact_mod_cast hz0
  have hs1 : 1414 / 1000 < Real.sqrt 2 := by
    by_contra hc; have hc := not_lt.1 hc; nlinarith
  have hs2 : Real.sqrt 2 < 1415 / 1000 := by
    by_contra hc; have hc := not_lt.1 hc; nlinarith
  have hab := abs_le.1 herr
  have hez : eps c.p * z ≤ z / 4096 := by nlinarith
  have b1 : (1412 / 1000 : ℝ) ≤ z := by nlinarith [hab.1]
  have b2 : (z : ℝ) ≤ 1417 / 1000 := by nlinarith [hab.2]
  have b1' : 1412 / 1000 ≤ z := by
    have : ((1412 / 1000 : ℚ) : ℝ) ≤ z := by push_cast; exact b1
    exact Rat.cast_le.1 this
  have b2' : z ≤ 1417 / 1000 := by
    have : (z : ℝ) ≤ ((1417 / 1000 : ℚ) : ℝ) := by push_cast; exact b2
    exact Rat.cast_le.1 this
  have he' := eps_4096 hp
  have hlo := rnd_lo (p := c.p) (q := z - 1) (by linarith)
  have hhi := rnd_hi (p := c.p) (q := z - 1) (by linarith)
  have hp0 := eps_pos c.p
  show 41 / 100 ≤ rnd c.p (z - 1) ∧ rnd c.p (z - 1) ≤ 42 / 100
  generalize (2 : ℚ) ^ (-(c.p : ℤ)) = e at *
  constructor <;> nlinarith

/-- The argument of Euler's formula is smaller. -/
theorem euler_bound {c : Ctx} (hp : 12 ≤ c.p) {x : ℚ} (hx1 : 1 / 2 < x) (hx2 : x < 3 / 2) (fuel : ℕ) (hf : 10 + c.p ≤ fuel) :
    ∃ a, eulerArg c fuel x = .ok a ∧ 0 < a ∧ a < 91 / 100 ∧ (x < 91 / 100 → a < 1 / 2) := by
  obtain ⟨z, hall, y1, y2⟩ := sqrt_two hp
  have hp1 : 1 ≤ c.p := by omega
  have he := eps_4096 hp
  have hp0 := eps_pos c.p
  unfold eulerArg
  rw [hall fuel hf, bindOk]
  dsimp only
  generalize hy : sub c.p z 1 = y at *
  have x1 := rnd_lo (p := c.p) (q := x) (by linarith)
  have x2 := rnd_hi (p := c.p) (q := x) (by linarith)
  have x3 : 1 / 2 ≤ rnd c.p x := by
    have := float_le_rnd hp1 (f := 1 / 2) (by have := isFloat_zpow hp1 (-1); norm_num at this ⊢; exact this) hx1.le
    exact this
  have hX : rnd c.p x - y ≤ x + 1 / 1000 - 41 / 100 := by nlinarith
  have hX0 : 8 / 100 ≤ rnd c.p x - y := by linarith
  have n1 := rnd_hi (p := c.p) (q := rnd c.p x - y) (by linarith)
  have n0 := rnd_pos hp1 (q := rnd c.p x - y) (by linarith)
  have hxy : 1 / 2 * (41 / 100) ≤ rnd c.p x * y := mul_le_mul x3 y1 (by norm_num) (by linarith)
  have m1 := rnd_lo (p := c.p) (q := rnd c.p x * y) (by linarith)
  have m2 : 204 / 1000 ≤ rnd c.p (rnd c.p x * y) := by nlinarith
  have d1 := rnd_lo (p := c.p) (q := rnd c.p (rnd c.p x * y) + 1) (by linarith)
  have d2 : 1203 / 1000 ≤ rnd c.p (rnd c.p (rnd c.p x * y) + 1) := by nlinarith
  have n2 : rnd c.p (rnd c.p x - y) ≤ x - 408 / 1000 := by nlinarith
  rw [show add c.p (mul c.p (rnd c.p x) y) 1 = rnd c.p (rnd c.p (rnd c.p x * y) + 1) from rfl,
    show sub c.p (rnd c.p x) y = rnd c.p (rnd c.p x - y) from rfl]
  generalize rnd c.p (rnd c.p (rnd c.p x * y) + 1) = d at *
  generalize rnd c.p (rnd c.p x - y) = n at *
  have hd0 : 0 < d := by linarith
  rw [quo_ok hd0.ne']
  have q0 : 0 < n / d := div_pos n0 hd0
  have q1 := rnd_hi (p := c.p) q0.le
  have q2 : n / d ≤ (x - 408 / 1000) * (1000 / 1203) := by
    rw [div_le_iff₀ hd0]
    nlinarith
  refine ⟨_, rfl, rnd_pos hp1 q0, ?_, fun hx => ?_⟩
  · nlinarith
  · nlinarith

theorem atan_far {c : Ctx} (hp : 1 ≤ c.p) {x : ℚ} (h : absOf (sub c.p (rnd c.p 1) x) < rnd c.p (mkRat 1 2)) : 1 / 2 < x ∧ x < 3 / 2 := by
  rw [rnd_half hp, rnd_one hp] at h
  have hfl : IsFloat c.p (1 / 2) := by have := isFloat_zpow hp (-1); norm_num at this ⊢; exact this
  have h1 : sub c.p 1 x < 1 / 2 := by
    unfold absOf at h
    split at h <;> linarith
  have h2 : -(1 / 2) < sub c.p 1 x := by
    unfold absOf at h
    split at h <;> linarith
  constructor
  · by_contra hc
    have := float_le_rnd hp hfl (q := 1 - x) (by linarith)
    exact absurd h1 (not_lt.2 this)
  · by_contra hc
    have := rnd_le_float hp (isFloat_neg hfl) (q := 1 - x) (by linarith)
    exact absurd h2 (not_lt.2 this)

theorem atan_near {c : Ctx} (hp : 1 ≤ c.p) {x : ℚ} (hx : x ≤ 1 / 2) : ¬ absOf (sub c.p (rnd c.p 1) x) < rnd c.p (mkRat 1 2) :=
  fun h => by have := (atan_far hp h).1; linarith

theorem pi_quo_ends {c : Ctx} (hp : 1 ≤ c.p) (q : ℚ) (hq : q ≠ 0) : Ends (quo c.p (rnd c.p c.pi) (rnd c.p q)) := ends_quo (rnd_ne_zero hp hq)

theorem atanPos_ends0 {c : Ctx} (hp : 12 ≤ c.p) (fuel : ℕ) (hf : 10 + 4 * c.p ≤ fuel) (x : ℚ)
    (hx : ¬ absOf (sub c.p (rnd c.p 1) x) < rnd c.p (mkRat 1 2)) : Ends (atanPos c fuel x) := by
  cases fuel with
  | zero => omega
  | succ fuel =>
    unfold atanPos
    rw [if_neg hx]
    by_cases h1 : 1 < x
    · rw [if_pos h1]; exact floatAtanLarge_ends (by omega) _ hf x (by intro h; rw [h] at h1; norm_num at h1)
    · rw [if_neg h1]; exact atanSmall_ends (by omega) _ hf x

theorem atanPos_step {c : Ctx} (hp : 12 ≤ c.p) (fuel : ℕ) (hf : 10 + 4 * c.p ≤ fuel) (x : ℚ)
    (h : ∀ a, 0 < a → a < 91 / 100 → (x < 91 / 100 → a < 1 / 2) → Ends (atanPos c fuel a)) : Ends (atanPos c (fuel + 1) x) := by
  by_cases hx : absOf (sub c.p (rnd c.p 1) x) < rnd c.p (mkRat 1 2)
  · obtain ⟨x1, x2⟩ := atan_far (by omega : 1 ≤ c.p) hx
    obtain ⟨a, e, a0, a1, a2⟩ := euler_bound hp x1 x2 (fuel + 1) (by omega)
    unfold atanPos
    rw [if_pos hx]
    refine ends_bind (pi_quo_ends (by omega) 8 (by norm_num)) fun z _ => ?_
    rw [e, bindOk, if_neg (not_lt.2 a0.le)]
    exact ends_bind (h a a0 a1 a2) fun _ _ => trivial
  · exact atanPos_ends0 hp _ (by omega) x hx

/-- The recursion of the arc tangent goes at most two deep. -/
theorem atanPos_ends {c : Ctx} (hp : 12 ≤ c.p) (fuel : ℕ) (hf : 12 + 4 * c.p ≤ fuel) (x : ℚ) : Ends (atanPos c fuel x) := by
  obtain ⟨f, rfl⟩ : ∃ f, fuel = f + 1 + 1 := ⟨fuel - 2, by omega⟩
  refine atanPos_step hp _ (by omega) x fun a _ a1 _ => atanPos_step hp _ (by omega) a fun b _ _ b2 => ?_
  exact atanPos_ends0 hp _ (by omega) b (atan_near (by omega) (b2 a1).le)

theorem floatAtan_ends {c : Ctx} (hp : 12 ≤ c.p) (fuel : ℕ) (hf : 12 + 4 * c.p ≤ fuel) (x : ℚ) : Ends (floatAtan c fuel x) := by
  unfold floatAtan
  split
  · exact ends_bind (atanPos_ends hp fuel hf _) fun _ _ => trivial
  · exact atanPos_ends hp fuel hf _

/-! ## Arc sine and arc cosine -/

/-- The square of a number less than one is less than one, after rounding too. -/
theorem square_lt_one {p : ℕ} (hp : 1 ≤ p) {x : ℚ} (hf : IsFloat p x) (h0 : 0 ≤ x) (h1 : x < 1) : rnd p (x * x) < 1 := by
  have hfl : IsFloat p (1 - 2 ^ (-(p : ℤ))) := by
    refine ⟨2 ^ p - 1, -(p : ℤ), ?_, ?_⟩
    · have : (1 : ℤ) ≤ 2 ^ p := one_le_pow₀ (by norm_num)
      rw [abs_of_nonneg (by omega)]; omega
    · push_cast; rw [sub_mul, one_mul, ← zpow_natCast, ← zpow_add₀ (by norm_num)]; simp
  have hx : x ≤ 1 - 2 ^ (-(p : ℤ)) := by
    by_cases hh : 1 / 2 ≤ x
    · obtain ⟨k, hk⟩ := isFloat_mult hf (e := 0) (by rw [abs_of_nonneg h0]; norm_num; linarith)
      rw [zero_sub] at hk
      have hu := eps_pos p
      have hk1 : k ≤ 2 ^ p - 1 := by
        have : (k : ℚ) < 2 ^ p := by
          have h2 : (k : ℚ) * 2 ^ (-(p : ℤ)) < 2 ^ p * 2 ^ (-(p : ℤ)) := by
            rw [← hk, ← zpow_natCast, ← zpow_add₀ (by norm_num)]; simpa using h1
          exact lt_of_mul_lt_mul_right h2 hu.le
        have : k < 2 ^ p := by exact_mod_cast this
        omega
      have h3 : (k : ℚ) ≤ 2 ^ p - 1 := by exact_mod_cast hk1
      have h4 : (2 : ℚ) ^ p * 2 ^ (-(p : ℤ)) = 1 := by rw [← zpow_natCast, ← zpow_add₀ (by norm_num)]; simp
      calc x = k * 2 ^ (-(p : ℤ)) := hk
        _ ≤ (2 ^ p - 1) * 2 ^ (-(p : ℤ)) := mul_le_mul_of_nonneg_right h3 hu.le
        _ = _ := by rw [sub_mul, h4]; ring
    · have : (2 : ℚ) ^ (-(p : ℤ)) ≤ 1 / 2 := le_trans (eps_le (p := p) (k := 1) hp) (by norm_num)
      linarith
  have hu := eps_pos p
  have := rnd_le_float hp hfl (q := x * x) (by nlinarith)
  linarith

theorem floatAsin_ends {c : Ctx} (hp : 12 ≤ c.p) (fuel : ℕ) (hf : 12 + 4 * c.p ≤ fuel) (x : ℚ) (hx : IsFloat c.p x) : Ends (floatAsin c fuel x) := by
  have hp1 : 1 ≤ c.p := by omega
  unfold floatAsin
  by_cases h1 : x = 1
  · rw [if_pos h1]; exact pi_quo_ends hp1 2 (by norm_num)
  by_cases h2 : x = -1
  · rw [if_neg h1, if_pos h2]; exact ends_bind (pi_quo_ends hp1 2 (by norm_num)) fun _ _ => trivial
  rw [if_neg h1, if_neg h2]
  refine ends_bind (floatSqrt_ends (by omega) fuel (by omega) _ (by exact hp1)) fun r hr => ?_
  refine ends_bind (ends_quo ?_) fun z _ => floatAtan_ends hp fuel hf z
  -- the root is not zero
  have hr' := hr
  unfold floatSqrt at hr'
  by_cases hn : sub c.p 1 (mul c.p x x) < 0
  · rw [if_pos hn] at hr'; cases hr'
  · have hne : sub c.p 1 (mul c.p x x) ≠ 0 := by
      refine rnd_ne_zero hp1 ?_
      intro h
      have hm : mul c.p x x = 1 := by linarith
      by_cases ha : |x| < 1
      · have h3 := square_lt_one hp1 (x := |x|) (by
          rcases abs_cases x with ⟨e, _⟩ | ⟨e, _⟩ <;> rw [e]
          · exact hx
          · exact isFloat_neg hx) (abs_nonneg _) ha
        rw [abs_mul_abs_self] at h3
        have h4 : rnd c.p (x * x) = 1 := hm
        linarith
      · have h3 : 1 < |x| := by
          refine lt_of_le_of_ne (not_lt.1 ha) fun h => ?_
          rcases abs_cases x with ⟨e, _⟩ | ⟨e, _⟩ <;> rw [e] at h
          · exact h1 h.symm
          · exact h2 (by linarith)
        -- numbers above one are at least one and two units above
        have hup : IsFloat c.p (1 + 2 ^ (1 - (c.p : ℤ))) := by
          refine ⟨2 ^ (c.p - 1) + 1, 1 - (c.p : ℤ), ?_, ?_⟩
          · have h5 : (2 : ℤ) ^ c.p = 2 * 2 ^ (c.p - 1) := by rw [← pow_succ']; congr 1; omega
            have h6 : (2 : ℤ) ^ 11 ≤ 2 ^ (c.p - 1) := pow_le_pow_right₀ (by norm_num) (by omega)
            rw [abs_of_nonneg (by omega)]; omega
          · push_cast; rw [add_mul, one_mul, ← zpow_natCast, ← zpow_add₀ (by norm_num)]
            rw [show ((c.p - 1 : ℕ) : ℤ) + (1 - (c.p : ℤ)) = 0 by omega]; simp
        have hu := two_zpow_pos (1 - (c.p : ℤ))
        have hge : 1 + 2 ^ (1 - (c.p : ℤ)) ≤ |x| := by
          obtain ⟨k, hk⟩ := isFloat_mult (f := |x|) (p := c.p) (by
            rcases abs_cases x with ⟨e, _⟩ | ⟨e, _⟩ <;> rw [e]
            · exact hx
            · exact isFloat_neg hx) (e := 1) (by rw [abs_abs]; norm_num; linarith)
          have hT : (1 : ℚ) = 2 ^ (c.p - 1) * 2 ^ (1 - (c.p : ℤ)) := by
            rw [← zpow_natCast, ← zpow_add₀ (by norm_num), show ((c.p - 1 : ℕ) : ℤ) + (1 - (c.p : ℤ)) = 0 by omega]; simp
          have hk1 : 2 ^ (c.p - 1) < k := by
            have h7 : (2 : ℚ) ^ (c.p - 1) * 2 ^ (1 - (c.p : ℤ)) < k * 2 ^ (1 - (c.p : ℤ)) := by rw [← hk, ← hT]; exact h3
            have := lt_of_mul_lt_mul_right h7 hu.le
            exact_mod_cast this
          have h8 : (2 : ℚ) ^ (c.p - 1) + 1 ≤ k := by exact_mod_cast hk1
          calc (1 : ℚ) + 2 ^ (1 - (c.p : ℤ)) = (2 ^ (c.p - 1) + 1) * 2 ^ (1 - (c.p : ℤ)) := by rw [add_mul, ← hT, one_mul]
            _ ≤ k * 2 ^ (1 - (c.p : ℤ)) := mul_le_mul_of_nonneg_right h8 hu.le
            _ = |x| := hk.symm
        have h9 := float_le_rnd hp1 hup (q := x * x) (by
          rw [← abs_mul_abs_self]; nlinarith)
        have h10 : rnd c.p (x * x) = 1 := hm
        linarith
    have hpos : 0 < sub c.p 1 (mul c.p x x) := lt_of_le_of_ne (not_lt.1 hn) (Ne.symm hne)
    exact (floatSqrt_pos (by omega) fuel _ (by exact hp1) hpos r hr).ne'

theorem floatAcos_ends {c : Ctx} (hp : 12 ≤ c.p) (fuel : ℕ) (hf : 12 + 4 * c.p ≤ fuel) (x : ℚ) (hx : IsFloat c.p x) : Ends (floatAcos c fuel x) :=
  ends_bind (pi_quo_ends (by omega) 2 (by norm_num)) fun _ _ => ends_bind (floatAsin_ends hp fuel hf x hx) fun _ _ => trivial

/-! ## Inverse hyperbolic functions -/

theorem floatAsinh_ends {c : Ctx} (hp : 3 ≤ c.p) (fuel : ℕ) (hf : 10 + 40 * c.p ≤ fuel) (x : ℚ) : Ends (floatAsinh c fuel x) :=
  ends_bind (floatSqrt_ends hp fuel (by omega) _ (by show 1 ≤ c.p; omega)) fun _ _ => floatLog_ends (by omega) fuel hf _

theorem floatAcosh_ends {c : Ctx} (hp : 3 ≤ c.p) (fuel : ℕ) (hf : 10 + 40 * c.p ≤ fuel) (x : ℚ) : Ends (floatAcosh c fuel x) := by
  unfold floatAcosh
  split
  · trivial
  · exact ends_bind (floatSqrt_ends hp fuel (by omega) _ (by show 1 ≤ c.p; omega)) fun _ _ => floatLog_ends (by omega) fuel hf _

theorem floatAtanh_ends {c : Ctx} (hp : 1 ≤ c.p) (fuel : ℕ) (hf : 10 + 40 * c.p ≤ fuel) (x : ℚ) : Ends (floatAtanh c fuel x) := by
  unfold floatAtanh
  split
  · trivial
  · rename_i h
    refine ends_bind (ends_quo (rnd_ne_zero hp fun he => h (Or.inr (by linarith)))) fun q _ =>
      ends_bind (floatLog_ends hp fuel hf q) fun z _ => ends_quo (rnd_ne_zero hp two_ne_zero)

/-! ## Powers -/

theorem integerPowerLoop_ne {p : ℕ} (hp : 1 ≤ p) : ∀ (fuel exp : ℕ) (y z : ℚ), y ≠ 0 → z ≠ 0 → integerPowerLoop p fuel exp y z ≠ 0
  | 0, exp, y, z, _, hz => by unfold integerPowerLoop; exact hz
  | fuel + 1, exp, y, z, hy, hz => by
    unfold integerPowerLoop
    split
    · exact hz
    · refine integerPowerLoop_ne hp fuel _ _ _ (rnd_ne_zero hp (mul_ne_zero hy hy)) ?_
      split
      · exact rnd_ne_zero hp (mul_ne_zero hz hy)
      · exact hz

theorem integerPower_ne {c : Ctx} (hp : 1 ≤ c.p) {x : ℚ} (hx : x ≠ 0) (n : ℕ) : integerPower c x n ≠ 0 :=
  integerPowerLoop_ne hp _ _ _ _ (rnd_ne_zero hp hx) (rnd_ne_zero hp one_ne_zero)

/-- A power ends unless it is the inverse of a power that is not whole. -/
theorem floatPower_ends {c : Ctx} (hp : 3 ≤ c.p) (fuel : ℕ) (hf : 10 + 40 * c.p ≤ fuel) (x e : Fl) (hx : 1 ≤ x.prec)
    (he : 0 ≤ e.val ∨ absOf (rnd c.p e.val) = mkRat 1 2 ∨ absOf (rnd c.p e.val) = (int64Of (absOf (rnd c.p e.val)) : ℚ)) : Ends (floatPower c fuel x e) := by
  have hp1 : 1 ≤ c.p := by omega
  unfold floatPower
  by_cases h0 : rnd c.p e.val = 0
  · rw [if_pos h0]; trivial
  rw [if_neg h0]
  by_cases h1 : e.val < 0 ∧ x.val = 0
  · rw [if_pos h1]; trivial
  rw [if_neg h1]
  dsimp only
  by_cases h2 : x.val = 1 ∨ x.val = 0
  · rw [if_pos h2]; trivial
  rw [if_neg h2]
  have hx0 : x.val ≠ 0 := fun h => h2 (Or.inr h)
  by_cases h3 : absOf (rnd c.p e.val) = mkRat 1 2
  · rw [if_pos h3]
    refine ends_bind (floatSqrt_ends hp fuel (by omega) x hx) fun z hz => ?_
    split
    · trivial
    · refine ends_bind (ends_quo ?_) fun _ _ => trivial
      by_cases hneg : x.val < 0
      · unfold floatSqrt at hz; rw [if_pos hneg] at hz; cases hz
      · exact (floatSqrt_pos hp fuel x hx (lt_of_le_of_ne (not_lt.1 hneg) (Ne.symm hx0)) z hz).ne'
  rw [if_neg h3]
  by_cases h4 : absOf (rnd c.p e.val) = (int64Of (absOf (rnd c.p e.val)) : ℚ)
  · rw [if_pos h4, bindOk]
    split
    · trivial
    · exact ends_bind (ends_quo (integerPower_ne hp1 hx0 _)) fun _ _ => trivial
  · rw [if_neg h4]
    have hpos : 0 ≤ e.val := by rcases he with h | h | h <;> [exact h; exact absurd h h3; exact absurd h h4]
    refine ends_bind ?_ fun z _ => ?_
    · exact ends_bind (floatLog_ends hp1 fuel hf _) fun _ _ => ends_bind (exponential_ends hp1 fuel (by omega) _) fun _ _ => trivial
    · rw [if_pos (by simpa using hpos)]
      trivial

end Verif.Flt
