import Mathlib.Analysis.SpecialFunctions.Trigonometric.Bounds
import Verif.Flt.Lemmas12

/-! # Sine and cosine: the results -/

namespace Verif.Flt
open Spec Finset
open Verif.Arr (R)
open scoped Nat

theorem powerOf_float {c : Ctx} (hp : 1 ≤ c.p) (x : ℚ) : ∀ n, IsFloat c.p (powerOf c x n)
  | 0 => rnd_isFloat hp _
  | _ + 1 => rnd_isFloat hp _

theorem powerOf_near {c : Ctx} (hp : 12 ≤ c.p) (x : ℚ) : ∀ n, Near c.p n (powerOf c x n : ℚ) ((x : ℝ) ^ n)
  | 0 => by
    unfold powerOf
    rw [rnd_one (by omega)]
    simpa using near_refl (p := c.p) (1 : ℝ)
  | n + 1 => by
    unfold powerOf mul
    apply near_rnd hp
    rw [pow_succ]
    push_cast
    simpa using near_mul hp (powerOf_near hp x n) (near_refl (p := c.p) (x : ℝ))

theorem rnd_six {p : ℕ} (hp : 3 ≤ p) : rnd p 6 = 6 := by
  apply rnd_self (by omega)
  refine ⟨3, 1, ?_, by norm_num⟩
  calc |(3 : ℤ)| < 2 ^ 2 := by norm_num
    _ ≤ 2 ^ p := pow_le_pow_right₀ (by norm_num) (by omega)

theorem sin_start {c : Ctx} (hp : 12 ≤ c.p) (x : ℚ) :
    TrigInv c x 3 0 ⟨powerOf c x 3, rnd c.p (powerOf c x 3), rnd c.p 6, rnd c.p x, 3⟩ := by
  rw [rnd_self (by omega) (powerOf_float (by omega) x 3)]
  refine ⟨powerOf_near hp x 3, powerOf_near hp x 3, ?_, rfl⟩
  rw [rnd_six (by omega)]
  have : ((-1) ^ 0 * ((2 * 0 + 3)! : ℕ) : ℝ) = ((6 : ℚ) : ℝ) := by norm_num [Nat.factorial]
  rw [this]
  exact near_refl _

theorem cos_start {c : Ctx} (hp : 12 ≤ c.p) (x : ℚ) :
    TrigInv c x 2 0 ⟨powerOf c x 2, rnd c.p (powerOf c x 2), rnd c.p (rnd c.p 2), rnd c.p 1, 2⟩ := by
  rw [rnd_self (by omega) (powerOf_float (by omega) x 2)]
  have h2 : Near c.p 3 (powerOf c x 2 : ℚ) ((x : ℝ) ^ 2) := near_mono hp (by omega) (powerOf_near hp x 2)
  refine ⟨h2, h2, ?_, rfl⟩
  rw [rnd_two (by omega), rnd_two (by omega)]
  have : ((-1) ^ 0 * ((2 * 0 + 2)! : ℕ) : ℝ) = ((2 : ℚ) : ℝ) := by norm_num [Nat.factorial]
  rw [this]
  exact near_refl _

theorem sin_core {c : Ctx} (hp : 16 ≤ c.p) {x : ℚ} (hx : |(x : ℝ)| < 8) (hf : IsFloat c.p x) {fuel : ℕ} {z : ℚ}
    (h : sincos c fuel 3 x (rnd c.p x) 3 (rnd c.p 6) = .ok z) :
    ∃ n, |(z : ℝ) - Real.sin x| ≤ 25 * (10 + 4 * c.p : ℕ) * eps c.p * asum x (trigTerm x 3) n := by
  unfold sincos at h
  obtain ⟨s, hs, h⟩ := bind_eq_ok h
  injection h with h
  subst h
  refine trig_end hp rfl (by omega) (by omega) hx (sin_hasSum x) ?_ (sin_start (by omega) x) (rnd_isFloat (by omega) _) (by rw [rnd_self (by omega) hf]) hs
  intro n hn
  have h1 : |(x : ℝ)| ≤ asum x (trigTerm x 3) n := by
    have := asum_mono (x : ℝ) (trigTerm x 3) (Nat.zero_le n)
    rwa [show asum (x : ℝ) (trigTerm x 3) 0 = |(x : ℝ)| by unfold asum; simp] at this
  by_cases h2 : 1 ≤ |(x : ℝ)|
  · left; linarith
  · right
    have h3 := sin_asum_small (not_le.1 h2).le n
    have h4 : |(x : ℝ)| ≤ |psum x (trigTerm x 3) n| + (asum x (trigTerm x 3) n - |(x : ℝ)|) := by
      have h5 := abs_sub (psum (x : ℝ) (trigTerm x 3) n) (∑ j ∈ range n, trigTerm x 3 j)
      rw [show psum (x : ℝ) (trigTerm x 3) n - ∑ j ∈ range n, trigTerm x 3 j = x by unfold psum; ring] at h5
      have h6 := abs_sum_le_sum_abs (trigTerm x 3) (range n)
      unfold asum
      linarith
    have h7 : |(x : ℝ)| ≤ 0 := by linarith
    exact abs_eq_zero.1 (le_antisymm h7 (abs_nonneg _))

theorem cos_core {c : Ctx} (hp : 16 ≤ c.p) {x : ℚ} (hx : |(x : ℝ)| < 8) {fuel : ℕ} {z : ℚ}
    (h : sincos c fuel 2 x (rnd c.p 1) 2 (rnd c.p (rnd c.p 2)) = .ok z) :
    |(z : ℝ) - Real.cos x| ≤ 25 * (10 + 4 * c.p : ℕ) * eps c.p * Real.cosh x := by
  unfold sincos at h
  obtain ⟨s, hs, h⟩ := bind_eq_ok h
  injection h with h
  subst h
  have he := eps_real c.p
  obtain ⟨n, hn⟩ := trig_end hp rfl (by omega) (by omega) hx (cos_hasSum x) (fun n _ => Or.inl (by
    have := asum_mono (1 : ℝ) (trigTerm x 2) (Nat.zero_le n)
    rwa [show asum (1 : ℝ) (trigTerm x 2) 0 = 1 by unfold asum; simp] at this))
    (cos_start (by omega) x) (rnd_isFloat (by omega) _) (by simp [rnd_one (show 1 ≤ c.p by omega)]) hs
  exact le_trans hn (mul_le_mul_of_nonneg_left (cos_asum _ _) (by positivity))

theorem sin_core_ok {c : Ctx} (hp : 16 ≤ c.p) {x : ℚ} (hx : |(x : ℝ)| < 8) (hf : IsFloat c.p x) {fuel : ℕ} (hfu : 10 + 4 * c.p ≤ fuel)
    (hl : ∀ n, 25 * (10 + 4 * c.p : ℕ) * eps c.p * asum x (trigTerm x 3) n ≤ |Real.sin x| / 2) (h0 : |(x : ℝ)| ≤ 2 ^ 20 * ((2 : ℝ) ^ c.p * |Real.sin x|)) :
    ∃ z, sincos c fuel 3 x (rnd c.p x) 3 (rnd c.p 6) = .ok z := by
  obtain ⟨r, hr⟩ := trig_ok hp rfl (by omega) (by omega) hx (sin_hasSum x) hl h0 hfu (sin_start (by omega) x) (rnd_isFloat (by omega) _) (by rw [rnd_self (by omega) hf])
  unfold sincos
  dsimp only
  rw [hr]
  exact ⟨_, rfl⟩

theorem cos_core_ok {c : Ctx} (hp : 16 ≤ c.p) {x : ℚ} (hx : |(x : ℝ)| < 8) {fuel : ℕ} (hfu : 10 + 4 * c.p ≤ fuel)
    (hl : 25 * (10 + 4 * c.p : ℕ) * eps c.p * Real.cosh x ≤ |Real.cos x| / 2) (h0 : |(x : ℝ)| ≤ 2 ^ 20 * ((2 : ℝ) ^ c.p * |Real.cos x|)) :
    ∃ z, sincos c fuel 2 x (rnd c.p 1) 2 (rnd c.p (rnd c.p 2)) = .ok z := by
  have he := eps_real c.p
  obtain ⟨r, hr⟩ := trig_ok hp rfl (by omega) (by omega) hx (cos_hasSum x) (fun n => le_trans (mul_le_mul_of_nonneg_left (cos_asum _ _) (by positivity)) hl) h0 hfu
    (cos_start (by omega) x) (rnd_isFloat (by omega) _) (by simp [rnd_one (show 1 ≤ c.p by omega)])
  unfold sincos
  dsimp only
  rw [hr]
  exact ⟨_, rfl⟩

/-! ## The reduction keeps floating-point numbers -/

theorem subtractLoop_float {p : ℕ} (hp : 1 ≤ p) {m : ℚ} : ∀ (fuel : ℕ) (x r : ℚ), IsFloat p x → subtractLoop p m fuel x = .ok r → IsFloat p r
  | 0, _, _, _, h => by cases h
  | fuel + 1, x, r, hx, h => by
    unfold subtractLoop at h
    split at h
    · exact subtractLoop_float hp fuel _ r (rnd_isFloat hp _) h
    · injection h with h; rwa [← h]

theorem subtractAll_float {p : ℕ} (hp : 1 ≤ p) {fuel : ℕ} : ∀ (ms : List ℚ) (x r : ℚ), IsFloat p x → subtractAll p fuel ms x = .ok r → IsFloat p r
  | [], x, r, hx, h => by injection h with h; rwa [← h]
  | m :: ms, x, r, hx, h => by
    obtain ⟨y, hy, h⟩ := bind_eq_ok (r := subtractLoop p m fuel x) h
    exact subtractAll_float hp ms y r (subtractLoop_float hp fuel x y hx hy) h

theorem reduce_float {c : Ctx} {fuel : ℕ} {x y : Fl} (hp : 1 ≤ x.prec) (hf : IsFloat x.prec x.val) (h : twoPiReduce c fuel x = .ok y) :
    y.prec = x.prec ∧ IsFloat x.prec y.val := by
  unfold twoPiReduce at h
  obtain ⟨a, ha, h⟩ := bind_eq_ok h
  obtain ⟨b, hb, h⟩ := bind_eq_ok h
  injection h with h
  subst h
  refine ⟨rfl, subtractLoop_float hp fuel a b ?_ hb⟩
  split at ha
  · obtain ⟨ms, -, ha⟩ := bind_eq_ok ha
    exact subtractAll_float hp ms _ a hf ha
  · injection ha with ha; rwa [← ha]

/-- Numbers below 6 are left alone. -/
theorem reduce_id {c : Ctx} (hp : 16 ≤ c.p) (hpi : 3 ≤ c.pi) {fuel : ℕ} (hfu : 1 ≤ fuel) {x : Fl} (hx : x.val < 6) : twoPiReduce c fuel x = .ok x := by
  have h6 := twoPi_ge (by omega) hpi
  have h1000 : rnd c.p 1000 = 1000 := by
    apply rnd_self (by omega)
    refine ⟨125, 3, ?_, by norm_num⟩
    calc |(125 : ℤ)| < 2 ^ 7 := by norm_num
      _ ≤ 2 ^ c.p := pow_le_pow_right₀ (by norm_num) (by omega)
  unfold twoPiReduce
  dsimp only
  rw [h1000, if_neg (by linarith), bindOk]
  show (subtractLoop x.prec (twoPi c) fuel x.val).bind _ = _
  rw [subtractLoop_stop (by linarith) hfu, bindOk]

/-! ## Sizes -/

theorem exp_seven : Real.exp 7 ≤ 1100 := by
  have h1 := Real.exp_one_lt_d9
  have : Real.exp 7 = Real.exp 1 ^ 7 := by rw [← Real.exp_nat_mul]; norm_num
  rw [this]
  calc Real.exp 1 ^ 7 ≤ (2.7182818286 : ℝ) ^ 7 := pow_le_pow_left₀ (Real.exp_pos _).le h1.le 7
    _ ≤ 1100 := by norm_num

theorem exp_red : Real.exp (32 / 5) ≤ 605 := by
  have h1 := Real.exp_one_lt_d9
  have : Real.exp (32 / 5) ^ 5 = Real.exp 1 ^ 32 := by rw [← Real.exp_nat_mul, ← Real.exp_nat_mul]; norm_num
  have h2 : Real.exp 1 ^ 32 ≤ (2.7182818286 : ℝ) ^ 32 := pow_le_pow_left₀ (Real.exp_pos _).le h1.le 32
  have h3 : (2.7182818286 : ℝ) ^ 32 ≤ 605 ^ 5 := by norm_num
  exact le_of_pow_le_pow_left₀ (n := 5) (by norm_num) (by norm_num) (by rw [this]; linarith)

theorem sinh_red {y : ℝ} (hy : y ≤ 32 / 5) : Real.sinh y ≤ 303 := by
  rw [Real.sinh_eq]
  have := Real.exp_le_exp.2 hy
  have := exp_red
  have := Real.exp_pos (-y)
  linarith

theorem cosh_red {y : ℝ} (h : -7 ≤ y) (hy : y ≤ 32 / 5) : Real.cosh y ≤ 551 := by
  have h1 := Real.cosh_abs y
  rw [← h1, Real.cosh_eq]
  have h2 : |y| ≤ 7 := abs_le.2 ⟨h, by linarith⟩
  have := Real.exp_le_exp.2 h2
  have := exp_seven
  have : Real.exp (-|y|) ≤ 1 := Real.exp_le_one_iff.2 (neg_nonpos.2 (abs_nonneg _))
  linarith

/-! ## Sine -/

/-- The number whose sine is computed. -/
def absFl (x : Fl) : Fl := if decide (x.val < 0) then ⟨x.prec, -x.val⟩ else x

theorem absFl_prec (x : Fl) : (absFl x).prec = x.prec := by unfold absFl; split <;> rfl
theorem absFl_val (x : Fl) : (absFl x).val = |x.val| := by
  unfold absFl
  split
  · rename_i h; simp at h; rw [abs_of_neg h]
  · rename_i h; simp at h; rw [abs_of_nonneg h]
theorem absFl_float {x : Fl} (h : IsFloat x.prec x.val) : IsFloat (absFl x).prec (absFl x).val := by
  unfold absFl
  split
  · exact isFloat_neg h
  · exact h

theorem sin_sign (x : ℚ) (r : ℚ) : |((if decide (x < 0) then -r else r : ℚ) : ℝ) - Real.sin x| = |(r : ℝ) - Real.sin (|(x : ℝ)|)| := by
  by_cases h : x < 0
  · have h' : (x : ℝ) < 0 := by exact_mod_cast h
    rw [abs_of_neg h', Real.sin_neg]
    simp only [h, decide_true, if_true, Rat.cast_neg]
    rw [← abs_neg]
    congr 1
    ring
  · have h' : (0 : ℝ) ≤ x := by exact_mod_cast not_lt.1 h
    rw [abs_of_nonneg h']
    simp [h]

theorem floatSin_split {c : Ctx} {fuel : ℕ} {x : Fl} {r : ℚ × Fl} (h : floatSin c fuel x = .ok r) :
    ∃ z, twoPiReduce c fuel (absFl x) = .ok r.2 ∧ sincos c fuel 3 r.2.val (rnd c.p r.2.val) 3 (rnd c.p 6) = .ok z ∧ r.1 = if decide (x.val < 0) then -z else z := by
  unfold floatSin at h
  obtain ⟨y, hy, h⟩ := bind_eq_ok h
  obtain ⟨z, hz, h⟩ := bind_eq_ok h
  injection h with h
  subst h
  exact ⟨z, hy, hz, rfl⟩

theorem floatSin_error {c : Ctx} (hp : 16 ≤ c.p) (hpi : PiOk c) {x : Fl} (hx : x.prec = c.p) (hf : IsFloat c.p x.val) {fuel : ℕ} {r : ℚ × Fl}
    (h : floatSin c fuel x = .ok r) : |(r.1 : ℝ) - Real.sin x.val| ≤ (31000 * (c.p + 3) + 240 * |(x.val : ℝ)|) * eps c.p := by
  obtain ⟨z, hy, hz, hr⟩ := floatSin_split h
  obtain ⟨y0, y6, yx, j, hj⟩ := reduce_real hp hpi (by rw [absFl_prec, hx]) (by rw [absFl_val]; exact abs_nonneg _) hy
  obtain ⟨yp, yf⟩ := reduce_float (by rw [absFl_prec, hx]; omega) (absFl_float (by rw [hx]; exact hf)) hy
  rw [absFl_prec, hx] at yf
  have hy0 : (0 : ℝ) ≤ r.2.val := by exact_mod_cast y0
  obtain ⟨n, hn⟩ := sin_core hp (by rw [abs_of_nonneg hy0]; linarith) yf hz
  have he := eps_real c.p
  have h1 := sin_asum (r.2.val : ℝ) n
  rw [abs_of_nonneg hy0] at h1
  have h2 := sinh_red y6
  have h3 : 25 * ((10 + 4 * c.p : ℕ) : ℝ) * eps c.p * asum r.2.val (trigTerm r.2.val 3) n ≤ 25 * ((10 + 4 * c.p : ℕ) : ℝ) * eps c.p * 303 :=
    mul_le_mul_of_nonneg_left (by linarith) (by positivity)
  have h4 := Real.abs_sin_sub_sin_le (r.2.val : ℝ) ((absFl x).val - j * (2 * Real.pi))
  rw [Real.sin_sub_nat_mul_two_pi] at h4
  have h5 : (((absFl x).val : ℚ) : ℝ) = |(x.val : ℝ)| := by rw [absFl_val]; push_cast; rfl
  rw [h5] at h4 hj
  rw [hr, sin_sign]
  have h6 := abs_add_le ((z : ℝ) - Real.sin r.2.val) (Real.sin r.2.val - Real.sin (|(x.val : ℝ)|))
  rw [show (z : ℝ) - Real.sin r.2.val + (Real.sin r.2.val - Real.sin (|(x.val : ℝ)|)) = z - Real.sin (|(x.val : ℝ)|) by ring] at h6
  have h7 : 0 ≤ eps c.p * |(x.val : ℝ)| := mul_nonneg he.le (abs_nonneg _)
  push_cast at h3
  have h8 : 0 ≤ (c.p : ℝ) * eps c.p := by positivity
  push_cast at hn
  linarith

/-- Small arguments. -/
theorem floatSin_small {c : Ctx} (hp : 16 ≤ c.p) (hpi : 3 ≤ c.pi) {x : Fl} (hx : x.prec = c.p) (hf : IsFloat c.p x.val) (h1 : |x.val| ≤ 1) {fuel : ℕ}
    (hfu : 10 + 4 * c.p ≤ fuel) : ∃ r, floatSin c fuel x = .ok r ∧ |(r.1 : ℝ) - Real.sin x.val| ≤ 120 * (c.p + 3) * eps c.p * |(x.val : ℝ)| := by
  have hx1 : |(x.val : ℝ)| ≤ 1 := by exact_mod_cast h1
  have hred := reduce_id (c := c) hp hpi (fuel := fuel) (x := absFl x) (by omega) (by rw [absFl_val]; linarith)
  have hval : (((absFl x).val : ℚ) : ℝ) = |(x.val : ℝ)| := by rw [absFl_val]; push_cast; rfl
  have hfl : IsFloat c.p (absFl x).val := by
    have := absFl_float (x := x) (by rw [hx]; exact hf)
    rwa [absFl_prec, hx] at this
  have h8 : |(((absFl x).val : ℚ) : ℝ)| < 8 := by rw [hval, abs_abs]; linarith
  have he := eps_real c.p
  have hsin : 3 / 4 * |(x.val : ℝ)| ≤ |Real.sin (absFl x).val| := by
    rw [hval]
    rcases (abs_nonneg (x.val : ℝ)).eq_or_lt with h0 | h0
    · rw [← h0]; simp
    · have h2 := Real.sin_gt_sub_cube h0
      have h3 : |(x.val : ℝ)| ^ 3 ≤ |(x.val : ℝ)| := by
        have := mul_le_mul_of_nonneg_left (pow_le_one₀ (n := 2) (abs_nonneg (x.val : ℝ)) hx1) (abs_nonneg (x.val : ℝ))
        nlinarith
      have h4 : 3 / 4 * |(x.val : ℝ)| ≤ Real.sin (|(x.val : ℝ)|) := by linarith
      exact le_trans h4 (le_abs_self _)
  have hNe : ((10 + 4 * c.p : ℕ) : ℝ) * eps c.p ≤ 170 / 65536 := by
    have := bits_eps hp
    push_cast
    nlinarith
  have has : ∀ n, asum ((absFl x).val : ℝ) (trigTerm (absFl x).val 3) n ≤ 6 / 5 * |(x.val : ℝ)| := by
    intro n
    have := sin_asum_small (x := ((absFl x).val : ℝ)) (by rw [hval, abs_abs]; exact hx1) n
    rw [hval, abs_abs] at this
    rw [hval]
    exact this
  have hmul : ∀ n, 25 * ((10 + 4 * c.p : ℕ) : ℝ) * eps c.p * asum ((absFl x).val : ℝ) (trigTerm (absFl x).val 3) n ≤ 25 * ((10 + 4 * c.p : ℕ) : ℝ) * eps c.p * (6 / 5 * |(x.val : ℝ)|) :=
    fun n => mul_le_mul_of_nonneg_left (has n) (by positivity)
  obtain ⟨z, hz⟩ := sin_core_ok hp h8 hfl hfu (fun n => by
    refine le_trans (hmul n) ?_
    have := mul_le_mul_of_nonneg_right hNe (abs_nonneg (x.val : ℝ))
    linarith [abs_nonneg (x.val : ℝ)]) (by
    rw [hval, abs_abs]
    rw [hval] at hsin
    have h2 : (1 : ℝ) ≤ 2 ^ c.p := one_le_pow₀ (by norm_num)
    have h3 : |Real.sin (|(x.val : ℝ)|)| ≤ 2 ^ c.p * |Real.sin (|(x.val : ℝ)|)| := le_mul_of_one_le_left (abs_nonneg _) h2
    linarith [abs_nonneg (Real.sin (|(x.val : ℝ)|))])
  obtain ⟨n, hn⟩ := sin_core hp h8 hfl hz
  refine ⟨(if decide (x.val < 0) then -z else z, absFl x), ?_, ?_⟩
  · unfold floatSin
    dsimp only
    change (twoPiReduce c fuel (absFl x)).bind _ = _
    rw [hred, bindOk, hz, bindOk]
  · rw [sin_sign]
    rw [← hval]
    refine le_trans hn (le_trans (hmul n) ?_)
    rw [hval]
    push_cast
    have : 0 ≤ eps c.p * |(x.val : ℝ)| := mul_nonneg he.le (abs_nonneg _)
    have : 0 ≤ (c.p : ℝ) * (eps c.p * |(x.val : ℝ)|) := by positivity
    linarith

theorem floatSin_ok {c : Ctx} (hp : 16 ≤ c.p) (hpi : PiOk c) {x : Fl} (hx : x.prec = c.p) (hf : IsFloat c.p x.val)
    (hl : (62000 * (c.p + 3) + 240 * |(x.val : ℝ)|) * eps c.p ≤ |Real.sin x.val|) : ∃ n, ∀ fuel, n ≤ fuel → ∃ r, floatSin c fuel x = .ok r := by
  obtain ⟨hge, -⟩ := pi_ge hp hpi
  obtain ⟨y, -, -, -, -, n, hn⟩ := twoPiReduce_ok (x := absFl x) (by omega) hge (by rw [absFl_prec, hx]; omega) (absFl_float (by rw [hx]; exact hf))
  refine ⟨max n (10 + 4 * c.p), fun fuel hfu => ?_⟩
  have hy := hn fuel (le_trans (le_max_left _ _) hfu)
  obtain ⟨y0, y6, yx, j, hj⟩ := reduce_real hp hpi (by rw [absFl_prec, hx]) (by rw [absFl_val]; exact abs_nonneg _) hy
  obtain ⟨yp, yf⟩ := reduce_float (by rw [absFl_prec, hx]; omega) (absFl_float (by rw [hx]; exact hf)) hy
  rw [absFl_prec, hx] at yf
  dsimp only at y0 y6 yx hj yf
  have hy0 : (0 : ℝ) ≤ y := by exact_mod_cast y0
  have he := eps_real c.p
  have h4 := Real.abs_sin_sub_sin_le ((y : ℚ) : ℝ) ((absFl x).val - j * (2 * Real.pi))
  rw [Real.sin_sub_nat_mul_two_pi] at h4
  have h5 : (((absFl x).val : ℚ) : ℝ) = |(x.val : ℝ)| := by rw [absFl_val]; push_cast; rfl
  rw [h5] at h4 hj
  have h6 : |Real.sin (|(x.val : ℝ)|)| = |Real.sin x.val| := by
    rcases abs_cases (x.val : ℝ) with ⟨a, -⟩ | ⟨a, -⟩ <;> rw [a]
    rw [Real.sin_neg, abs_neg]
  have h7 : |Real.sin x.val| ≤ |Real.sin y| + 233 * eps c.p * |(x.val : ℝ)| := by
    rw [← h6]
    have := abs_sub_abs_le_abs_sub (Real.sin (|(x.val : ℝ)|)) (Real.sin y)
    rw [abs_sub_comm] at this
    linarith
  have h8 : 0 ≤ eps c.p * |(x.val : ℝ)| := mul_nonneg he.le (abs_nonneg _)
  have hsin : 62000 * (c.p + 3) * eps c.p ≤ |Real.sin y| := by linarith
  obtain ⟨z, hz⟩ := sin_core_ok hp (by rw [abs_of_nonneg hy0]; linarith) yf (le_trans (le_max_right _ _) hfu) (fun k => by
    have h1 := sin_asum (y : ℝ) k
    rw [abs_of_nonneg hy0] at h1
    have h2 := sinh_red y6
    have h3 : 25 * ((10 + 4 * c.p : ℕ) : ℝ) * eps c.p * asum y (trigTerm y 3) k ≤ 25 * ((10 + 4 * c.p : ℕ) : ℝ) * eps c.p * 303 :=
      mul_le_mul_of_nonneg_left (by linarith) (by positivity)
    push_cast at h3 ⊢
    have h8 : 0 ≤ (c.p : ℝ) * eps c.p := by positivity
    linarith) (by
    rw [abs_of_nonneg hy0]
    have h2 : eps c.p * (2 : ℝ) ^ c.p = 1 := by unfold eps; rw [zpow_neg, zpow_natCast]; exact inv_mul_cancel₀ (by positivity)
    have h3 : (62000 * ((c.p : ℝ) + 3) * eps c.p) * 2 ^ c.p ≤ |Real.sin y| * 2 ^ c.p := mul_le_mul_of_nonneg_right hsin (by positivity)
    rw [mul_assoc, h2] at h3
    have : (0 : ℝ) ≤ c.p := by positivity
    linarith)
  refine ⟨(if decide (x.val < 0) then -z else z, ⟨(absFl x).prec, y⟩), ?_⟩
  unfold floatSin
  dsimp only
  change (twoPiReduce c fuel (absFl x)).bind _ = _
  rw [hy, bindOk, hz, bindOk]

/-! ## Cosine -/

theorem floatCos_split {c : Ctx} {fuel : ℕ} {x : Fl} {r : ℚ × Fl} (h : floatCos c fuel x = .ok r) :
    twoPiReduce c fuel x = .ok r.2 ∧ sincos c fuel 2 r.2.val (rnd c.p 1) 2 (rnd c.p (rnd c.p 2)) = .ok r.1 := by
  unfold floatCos at h
  obtain ⟨y, hy, h⟩ := bind_eq_ok h
  obtain ⟨z, hz, h⟩ := bind_eq_ok h
  injection h with h
  subst h
  exact ⟨hy, hz⟩

theorem ok_fuel {c : Ctx} {fuel : ℕ} {x y : Fl} (h : twoPiReduce c fuel x = .ok y) : 1 ≤ fuel := by
  cases fuel with
  | zero =>
    unfold twoPiReduce at h
    obtain ⟨a, ha, h⟩ := bind_eq_ok h
    obtain ⟨b, hb, h⟩ := bind_eq_ok h
    cases hb
  | succ n => omega

/-- The number reduced, for the cosine. -/
theorem cos_reduce {c : Ctx} (hp : 16 ≤ c.p) (hpi : PiOk c) {x : Fl} (hx : x.prec = c.p) (h7 : -7 ≤ x.val) {fuel : ℕ} {y : Fl} (h : twoPiReduce c fuel x = .ok y) :
    -7 ≤ (y.val : ℝ) ∧ (y.val : ℝ) ≤ 32 / 5 ∧ |Real.cos y.val - Real.cos x.val| ≤ 233 * eps c.p * |(x.val : ℝ)| := by
  have he := eps_real c.p
  obtain ⟨hge, -⟩ := pi_ge hp hpi
  by_cases h0 : 0 ≤ x.val
  · obtain ⟨y0, y6, yx, j, hj⟩ := reduce_real hp hpi hx h0 h
    have hy0 : (0 : ℝ) ≤ y.val := by exact_mod_cast y0
    have hx0 : (0 : ℝ) ≤ x.val := by exact_mod_cast h0
    refine ⟨by linarith, y6, ?_⟩
    have h4 := Real.abs_cos_sub_cos_le (y.val : ℝ) (x.val - j * (2 * Real.pi))
    rw [Real.cos_sub_nat_mul_two_pi] at h4
    rw [abs_of_nonneg hx0]
    linarith
  · have h0 := not_le.1 h0
    rw [reduce_id hp hge (ok_fuel h) (by linarith)] at h
    injection h with h
    subst h
    have h0' : (x.val : ℝ) < 0 := by exact_mod_cast h0
    have h7' : (-7 : ℝ) ≤ x.val := by exact_mod_cast h7
    refine ⟨h7', by linarith, ?_⟩
    rw [sub_self, abs_zero]
    have : 0 ≤ eps c.p * |(x.val : ℝ)| := mul_nonneg he.le (abs_nonneg _)
    linarith

theorem floatCos_error {c : Ctx} (hp : 16 ≤ c.p) (hpi : PiOk c) {x : Fl} (hx : x.prec = c.p) (h7 : -7 ≤ x.val) {fuel : ℕ} {r : ℚ × Fl}
    (h : floatCos c fuel x = .ok r) : |(r.1 : ℝ) - Real.cos x.val| ≤ (56000 * (c.p + 3) + 240 * |(x.val : ℝ)|) * eps c.p := by
  obtain ⟨hy, hz⟩ := floatCos_split h
  obtain ⟨h1, h2, h3⟩ := cos_reduce hp hpi hx h7 hy
  have he := eps_real c.p
  have h4 := cos_core hp (abs_lt.2 ⟨by linarith, by linarith⟩) hz
  have h5 : 25 * ((10 + 4 * c.p : ℕ) : ℝ) * eps c.p * Real.cosh r.2.val ≤ 25 * ((10 + 4 * c.p : ℕ) : ℝ) * eps c.p * 551 :=
    mul_le_mul_of_nonneg_left (cosh_red h1 h2) (by positivity)
  have h6 := abs_add_le ((r.1 : ℝ) - Real.cos r.2.val) (Real.cos r.2.val - Real.cos x.val)
  rw [show (r.1 : ℝ) - Real.cos r.2.val + (Real.cos r.2.val - Real.cos x.val) = r.1 - Real.cos x.val by ring] at h6
  have h7 : 0 ≤ eps c.p * |(x.val : ℝ)| := mul_nonneg he.le (abs_nonneg _)
  have h8 : 0 ≤ (c.p : ℝ) * eps c.p := by positivity
  push_cast at h4 h5
  linarith

theorem floatCos_ok {c : Ctx} (hp : 16 ≤ c.p) (hpi : PiOk c) {x : Fl} (hx : x.prec = c.p) (hf : IsFloat c.p x.val) (h7 : -7 ≤ x.val)
    (hl : (112000 * (c.p + 3) + 240 * |(x.val : ℝ)|) * eps c.p ≤ |Real.cos x.val|) : ∃ n, ∀ fuel, n ≤ fuel → ∃ r, floatCos c fuel x = .ok r := by
  obtain ⟨hge, -⟩ := pi_ge hp hpi
  obtain ⟨y, -, -, -, -, n, hn⟩ := twoPiReduce_ok (x := x) (by omega) hge (by omega) (by rw [hx]; exact hf)
  refine ⟨max n (10 + 4 * c.p), fun fuel hfu => ?_⟩
  have hy := hn fuel (le_trans (le_max_left _ _) hfu)
  obtain ⟨h1, h2, h3⟩ := cos_reduce hp hpi hx h7 hy
  dsimp only at h1 h2 h3
  have he := eps_real c.p
  have h8 : 0 ≤ eps c.p * |(x.val : ℝ)| := mul_nonneg he.le (abs_nonneg _)
  have hcos : 112000 * (c.p + 3) * eps c.p ≤ |Real.cos y| := by
    have := abs_sub_abs_le_abs_sub (Real.cos x.val) (Real.cos y)
    rw [abs_sub_comm] at this
    linarith
  obtain ⟨z, hz⟩ := cos_core_ok (x := y) hp (abs_lt.2 ⟨by linarith, by linarith⟩) (le_trans (le_max_right _ _) hfu) (by
    have h5 : 25 * ((10 + 4 * c.p : ℕ) : ℝ) * eps c.p * Real.cosh y ≤ 25 * ((10 + 4 * c.p : ℕ) : ℝ) * eps c.p * 551 :=
      mul_le_mul_of_nonneg_left (cosh_red h1 h2) (by positivity)
    push_cast at h5 ⊢
    have h8 : 0 ≤ (c.p : ℝ) * eps c.p := by positivity
    linarith) (by
    have h4 : |(y : ℝ)| ≤ 7 := abs_le.2 ⟨h1, by linarith⟩
    have h2 : eps c.p * (2 : ℝ) ^ c.p = 1 := by unfold eps; rw [zpow_neg, zpow_natCast]; exact inv_mul_cancel₀ (by positivity)
    have h3 : (112000 * ((c.p : ℝ) + 3) * eps c.p) * 2 ^ c.p ≤ |Real.cos y| * 2 ^ c.p := mul_le_mul_of_nonneg_right hcos (by positivity)
    rw [mul_assoc, h2] at h3
    have : (0 : ℝ) ≤ c.p := by positivity
    linarith)
  refine ⟨(z, ⟨x.prec, y⟩), ?_⟩
  unfold floatCos
  rw [hy, bindOk]
  show (sincos c fuel 2 y (rnd c.p 1) 2 (rnd c.p (rnd c.p 2))).bind _ = _
  rw [hz, bindOk]

end Verif.Flt
