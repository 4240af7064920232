import Mathlib.Analysis.Complex.Exponential
import Mathlib.Analysis.Complex.ExponentialBounds
import Mathlib.Analysis.SpecialFunctions.Exponential
import Mathlib.Analysis.SpecialFunctions.Trigonometric.Series
import Verif.Flt.Lemmas8

/-! # The exponential function -/

namespace Verif.Flt
open Spec Finset
open Verif.Arr (R)
open scoped Nat

theorem bits_pow {p : ℕ} (hp : 16 ≤ p) : 65536 * (p + 1) ≤ 17 * 2 ^ p := by
  induction p, hp using Nat.le_induction with
  | base => norm_num
  | succ p hp ih => rw [pow_succ]; omega

theorem bits_eps {p : ℕ} (hp : 16 ≤ p) : ((p : ℝ) + 1) * eps p ≤ 17 / 65536 := by
  have h := bits_pow hp
  have h' : (65536 : ℝ) * (p + 1) ≤ 17 * 2 ^ p := by exact_mod_cast h
  unfold eps
  rw [zpow_neg, zpow_natCast, ← div_eq_mul_inv, div_le_iff₀ (by positivity)]
  linarith

/-- The last term, compared with the sum of all. -/
theorem term_small {z P A G e t w : ℝ} (he : 0 ≤ e) (h1 : |z - P| ≤ A * (1 / 16)) (h2 : |P| ≤ A) (hG : G ≤ 1 / 16) (hw : w ≤ max 1 |z|) (hA : w ≤ |z| ∨ 1 ≤ A)
    (h : (1 - G) * |t| ≤ 4 * e * w) : |t| ≤ 5 * e * A := by
  have hz : |z| ≤ 17 / 16 * A := by
    have := abs_sub_abs_le_abs_sub z P; linarith
  have hw' : w ≤ 17 / 16 * A := by
    rcases hA with h | h
    · linarith
    · rcases le_max_iff.1 hw with h' | h' <;> linarith
  have h3 : 15 / 16 * |t| ≤ 4 * e * w := le_trans (mul_le_mul_of_nonneg_right (by linarith) (abs_nonneg _)) h
  have h4 : 4 * e * w ≤ 4 * e * (17 / 16 * A) := mul_le_mul_of_nonneg_left hw' (by linarith)
  have : 0 ≤ A := le_trans (abs_nonneg _) h2
  nlinarith [mul_nonneg he this]

theorem ite_le (z : ℚ) : (if z = 0 then (1 : ℝ) else |(z : ℝ)|) ≤ max 1 |(z : ℝ)| := by
  split
  · exact le_max_left _ _
  · exact le_max_right _ _

theorem ite_eq {z : ℚ} (h : z ≠ 0) : (if z = 0 then (1 : ℝ) else |(z : ℝ)|) = |(z : ℝ)| := if_neg h

/-! ## The exponential function -/

section exp
variable {c : Ctx} {x : ℚ}

/-- The terms after the first. -/
noncomputable def expTerm (x : ℝ) (i : ℕ) : ℝ := x ^ (i + 1) / (i + 1)!

/-- The variables of the loop. -/
def ExpInv (c : Ctx) (x : ℚ) (i : ℕ) (s : Series) : Prop := Near c.p i s.xN ((x : ℝ) ^ (i + 1)) ∧ Near c.p (2 * i) s.fact ((i + 1)! : ℕ)

/-- The term as it is computed. -/
def tau (c : Ctx) (_ : ℕ) (s : Series) : ℚ := rnd c.p (s.xN / s.fact)

theorem series_turn (hp : 12 ≤ c.p) {s : Series} {k l m : ℕ} {a f : ℝ} (hx : Near c.p k s.xN a) (hf : Near c.p l s.fact f) (hf0 : f ≠ 0) (hk : k + l + 1 ≤ m)
    (hm : m * eps c.p ≤ 1 / 2) (i : ℕ) : s.fact ≠ 0 ∧ |(tau c i s : ℝ) - a / f| ≤ 2 * m * eps c.p * |a / f| := by
  refine ⟨?_, ?_⟩
  · have := near_ne hp hf hf0
    exact_mod_cast this
  · apply near_err hp hm
    apply near_mono hp hk
    apply near_rnd hp
    push_cast
    exact near_div hp hx hf

theorem exp_adds (hp : 12 ≤ c.p) {N : ℕ} (hN : (3 * N : ℕ) * eps c.p ≤ 1 / 2) :
    Adds c (fun _ => seriesBody c) Series.z (expAdvance c x) N (ExpInv c x) (tau c) (expTerm x) (2 * (3 * N : ℕ) * eps c.p) := by
  intro i s ⟨h1, h2⟩ hi
  obtain ⟨hf, ht⟩ := series_turn hp h1 h2 (by positivity) (m := 3 * N) (by omega) hN i
  refine ⟨_, _, seriesBody_ok hf, rfl, ht, rfl, rfl, ?_, ?_⟩
  · show Near c.p (i + 1) (mul c.p s.xN x : ℚ) _
    unfold mul
    apply near_rnd hp
    push_cast
    rw [pow_succ]
    exact near_mul hp h1 (near_refl (p := c.p) (x : ℝ))
  · show Near c.p (2 * (i + 1)) (mul c.p s.fact (rnd c.p (((i + 1 : ℕ) : ℚ) + 1)) : ℚ) _
    unfold mul
    rw [show 2 * (i + 1) = 2 * i + (0 + 1) + 1 by ring]
    apply near_rnd hp
    push_cast
    rw [show (i + 1 + 1)! = (i + 1)! * (i + 1 + 1) by rw [Nat.factorial_succ (i + 1)]; ring]
    push_cast
    refine near_mul hp h2 (near_rnd hp ?_)
    push_cast
    exact near_refl _

theorem expTerm_asum (x : ℝ) (n : ℕ) : asum 1 (expTerm x) n = ∑ j ∈ range (n + 1), |x| ^ j / j ! := by
  unfold asum
  rw [sum_range_succ', abs_one]
  simp only [pow_zero, Nat.factorial_zero, Nat.cast_one, div_one]
  rw [add_comm]
  congr 1
  apply sum_congr rfl
  intro j _
  unfold expTerm
  rw [abs_div, abs_pow, Nat.abs_cast]

theorem expTerm_hasSum (x : ℝ) : HasSum (expTerm x) (Real.exp x - 1) := by
  have h := NormedSpace.expSeries_div_hasSum_exp (𝔸 := ℝ) x
  rw [← Real.exp_eq_exp_ℝ] at h
  have := (hasSum_nat_add_iff' 1).2 h
  have h2 : HasSum (fun n => x ^ (n + 1) / ((n + 1)! : ℝ)) (Real.exp x - 1) := by simpa using this
  exact h2

theorem expTerm_succ (x : ℝ) (k : ℕ) : |expTerm x (k + 1)| = |x| / (k + 2) * |expTerm x k| := by
  unfold expTerm
  rw [abs_div, abs_div, abs_pow, abs_pow, Nat.abs_cast, Nat.abs_cast, Nat.factorial_succ (k + 1), pow_succ]
  push_cast
  have : ((k + 1)! : ℝ) ≠ 0 := by positivity
  field_simp
  ring

/-- Terms grow as long as the index is below the argument. -/
theorem pow_fact_grow {a : ℝ} (ha : 0 ≤ a) {j n : ℕ} (hj : j ≤ n) (hn : (n : ℝ) ≤ a) : a ^ j / j ! ≤ a ^ n / n ! := by
  induction n, hj using Nat.le_induction with
  | base => exact le_rfl
  | succ n hj ih =>
    push_cast at hn
    refine le_trans (ih (by linarith)) ?_
    rw [Nat.factorial_succ, pow_succ]
    push_cast
    rw [div_le_div_iff₀ (by positivity) (by positivity)]
    have h1 : 0 ≤ a ^ n * (n ! : ℝ) := by positivity
    nlinarith

/-- What the exponential function computes. -/
theorem exponential_error (hp : 16 ≤ c.p) (hx : IsFloat c.p x) {fuel : ℕ} {z : ℚ} (h : exponential c fuel x = .ok z) :
    |(z : ℝ) - Real.exp x| ≤ 160 * (c.p + 1) * eps c.p * Real.exp |(x : ℝ)| := by
  have hp1 : 1 ≤ c.p := by omega
  have hp12 : 12 ≤ c.p := by omega
  have he := eps_real c.p
  have hb := bits_eps hp
  unfold exponential at h
  obtain ⟨s, hs, h⟩ := bind_eq_ok h
  injection h with h
  subst h
  rw [rnd_one hp1, rnd_self hp1 hx] at hs
  set N := 10 + 10 * c.p with hN
  have hNr : (N : ℝ) = 10 * (c.p + 1) := by rw [hN]; push_cast; ring
  have hNe : (N : ℝ) * eps c.p ≤ 1 / 256 := by rw [hNr]; linarith
  have h3N : ((3 * N : ℕ) : ℝ) * eps c.p ≤ 1 / 2 := by push_cast; linarith
  have hG0 : 0 ≤ 2 * ((3 * N : ℕ) : ℝ) * eps c.p := by positivity
  obtain ⟨n, h3, hn, herr, hlast⟩ := series_end (S0 := 1) hp12 hG0 (by linarith) (exp_adds hp12 h3N)
    (sum_start 10 (s := (⟨x, 1, 1⟩ : Series)) ⟨by simpa using near_refl (p := c.p) (x : ℝ), by simpa using near_refl (p := c.p) (1 : ℝ)⟩ (isFloat_one hp1) (by simp) hN hG0) hs
  have hn' : ((n : ℝ) + 1) ≤ N := by exact_mod_cast hn
  have hf := factor_le (k := 3 * N) (n := n + 1) hp12 le_rfl (by push_cast; nlinarith)
  push_cast at hf
  set A := asum 1 (expTerm x) (n + 1) with hA
  have hA0 : 0 ≤ A := asum_nonneg _ _ _
  have hA1 : 1 ≤ A := by
    rw [hA]
    refine le_trans ?_ (asum_mono 1 (expTerm x) (Nat.zero_le _))
    unfold asum; simp
  have hAe : A ≤ Real.exp |(x : ℝ)| := by
    rw [hA, expTerm_asum]; exact Real.sum_le_exp_of_nonneg (abs_nonneg _) _
  have herr2 : |(s.z : ℝ) - psum 1 (expTerm x) (n + 1)| ≤ A * (11 * N * eps c.p) := by
    refine le_trans herr (mul_le_mul_of_nonneg_left (le_trans ?_ (le_trans hf ?_)) hA0)
    · push_cast; exact le_rfl
    · nlinarith
  have ht := term_small he.le (le_trans herr2 (mul_le_mul_of_nonneg_left (by linarith) hA0)) (psum_le _ _ _) (by push_cast; linarith) (ite_le _) (Or.inr hA1) hlast
  -- the argument is less than the index
  have hxn : |(x : ℝ)| < n + 1 := by
    by_contra hc
    push Not at hc
    have h1 : A ≤ ∑ j ∈ range (n + 2), |expTerm x n| := by
      rw [hA, expTerm_asum]
      apply sum_le_sum
      intro j hj
      have := pow_fact_grow (abs_nonneg (x : ℝ)) (j := j) (n := n + 1) (by have := mem_range.1 hj; omega) (by push_cast; exact hc)
      unfold expTerm
      rw [abs_div, abs_pow, Nat.abs_cast]; exact this
    rw [sum_const, card_range, nsmul_eq_mul] at h1
    push_cast at h1
    have h2 : ((n : ℝ) + 2) * |expTerm x n| ≤ (N + 1) * (5 * eps c.p * A) :=
      mul_le_mul (by linarith) ht (abs_nonneg _) (by positivity)
    have h4 : ((N : ℝ) + 1) * (5 * eps c.p) ≤ 1 / 2 := by have := eps_small hp12; nlinarith
    nlinarith
  have htail := tail_bound (expTerm_hasSum x) n (r := |(x : ℝ)| / (n + 2)) (by positivity) (by rw [div_lt_one (by positivity)]; linarith) (by
    intro k hk
    rw [expTerm_succ]
    apply mul_le_mul_of_nonneg_right _ (abs_nonneg _)
    have : (n : ℝ) ≤ k := by exact_mod_cast hk
    exact div_le_div_of_nonneg_left (abs_nonneg _) (by positivity) (by linarith))
  have hr : |(x : ℝ)| / (n + 2) / (1 - |(x : ℝ)| / (n + 2)) ≤ N := by
    have h1 : 1 - |(x : ℝ)| / (n + 2) = (n + 2 - |(x : ℝ)|) / (n + 2) := by field_simp
    rw [h1, div_div_div_cancel_right₀ (by positivity), div_le_iff₀ (by linarith)]
    have := abs_nonneg (x : ℝ)
    nlinarith
  have htail2 : |Real.exp x - 1 - ∑ j ∈ range (n + 1), expTerm x j| ≤ 5 * eps c.p * A * N :=
    le_trans htail (mul_le_mul ht hr (by
      apply div_nonneg (by positivity)
      rw [sub_nonneg, div_le_one (by positivity)]; linarith) (by positivity))
  have hps : psum 1 (expTerm x) (n + 1) = 1 + ∑ j ∈ range (n + 1), expTerm x j := rfl
  have hfin : |(s.z : ℝ) - Real.exp x| ≤ A * (11 * N * eps c.p) + 5 * eps c.p * A * N := by
    have h1 := abs_add_le ((s.z : ℝ) - psum 1 (expTerm x) (n + 1)) (-(Real.exp x - 1 - ∑ j ∈ range (n + 1), expTerm x j))
    rw [abs_neg, hps, show (s.z : ℝ) - (1 + ∑ j ∈ range (n + 1), expTerm x j) + -(Real.exp x - 1 - ∑ j ∈ range (n + 1), expTerm x j) = s.z - Real.exp x by ring] at h1
    rw [hps] at herr2
    linarith
  refine le_trans hfin ?_
  have : A * (11 * N * eps c.p) + 5 * eps c.p * A * N = 160 * (c.p + 1) * eps c.p * A := by rw [hNr]; ring
  rw [this]
  exact mul_le_mul_of_nonneg_left hAe (by positivity)

theorem exp_two_le : Real.exp 2 ≤ 8 := by
  have h := Real.exp_one_lt_d9
  have h0 := Real.exp_pos 1
  rw [show (2 : ℝ) = 1 + 1 by norm_num, Real.exp_add]
  nlinarith

/-- Far beyond the argument terms are tiny. -/
theorem far_term {a : ℝ} (ha : 0 ≤ a) {q m : ℕ} (hq : 2 * a ≤ q) (hm : q ≤ m) : a ^ m / m ! ≤ Real.exp a * (1 / 2) ^ (m - q) := by
  induction m, hm using Nat.le_induction with
  | base =>
    rw [Nat.sub_self, pow_zero, mul_one]
    exact Real.pow_div_factorial_le_exp a ha q
  | succ m hm ih =>
    rw [show m + 1 - q = (m - q) + 1 by omega, pow_succ, pow_succ, Nat.factorial_succ]
    push_cast
    have h1 : a ^ m * a / ((m + 1) * (m ! : ℝ)) = a / (m + 1) * (a ^ m / m !) := by field_simp
    have h2 : a / ((m : ℝ) + 1) ≤ 1 / 2 := by
      rw [div_le_iff₀ (by positivity)]
      have : (q : ℝ) ≤ m := by exact_mod_cast hm
      linarith
    rw [h1, ← mul_assoc, mul_comm]
    exact mul_le_mul ih h2 (by positivity) (by positivity)

/-- For arguments that are not negative and not too big the loop ends. -/
theorem exponential_ok (hp : 16 ≤ c.p) (hx : IsFloat c.p x) (hx0 : 0 ≤ x) (hx1 : x ≤ 2 * c.p) {fuel : ℕ} (hfu : 10 + 10 * c.p ≤ fuel) :
    ∃ z, exponential c fuel x = .ok z := by
  have hp1 : 1 ≤ c.p := by omega
  have hp12 : 12 ≤ c.p := by omega
  have he := eps_real c.p
  have hb := bits_eps hp
  set N := 10 + 10 * c.p with hN
  have hNr : (N : ℝ) = 10 * (c.p + 1) := by rw [hN]; push_cast; ring
  have hNe : (N : ℝ) * eps c.p ≤ 1 / 256 := by rw [hNr]; linarith
  have h3N : ((3 * N : ℕ) : ℝ) * eps c.p ≤ 1 / 2 := by push_cast; linarith
  have hG0 : 0 ≤ 2 * ((3 * N : ℕ) : ℝ) * eps c.p := by positivity
  have hx0' : (0 : ℝ) ≤ x := by exact_mod_cast hx0
  have hx1' : (x : ℝ) ≤ 2 * c.p := by exact_mod_cast hx1
  obtain ⟨r, hr⟩ := series_converges (S0 := 1) hp12 hG0 (exp_adds (x := x) hp12 h3N) (n := 8 * c.p + 8) (by omega) (by omega) (by
    intro s ⟨h1, h2⟩ hsum
    obtain ⟨_, hτ⟩ := series_turn hp12 h1 h2 (by positivity) (m := 3 * N) (by omega) h3N (8 * c.p + 8)
    have hf := factor_le (k := 3 * N) (n := 8 * c.p + 8) hp12 le_rfl (by push_cast; nlinarith)
    have hA0 := asum_nonneg 1 (expTerm x) (8 * c.p + 8)
    have hps : psum 1 (expTerm x) (8 * c.p + 8) = asum 1 (expTerm x) (8 * c.p + 8) := by
      unfold psum asum
      rw [abs_one]; congr 1
      apply sum_congr rfl
      intro j _
      rw [abs_of_nonneg]
      unfold expTerm; positivity
    have hA1 : 1 ≤ asum 1 (expTerm x) (8 * c.p + 8) := by
      refine le_trans ?_ (asum_mono 1 (expTerm x) (Nat.zero_le _))
      unfold asum; simp
    have hz : 1 / 2 ≤ (s.z : ℝ) := by
      have h3 : |(s.z : ℝ) - psum 1 (expTerm x) (8 * c.p + 8)| ≤ asum 1 (expTerm x) (8 * c.p + 8) * (1 / 2) := by
        refine le_trans hsum (mul_le_mul_of_nonneg_left (le_trans hf ?_) hA0)
        push_cast
        nlinarith
      rw [hps] at h3
      have := (abs_le.1 h3).1
      linarith
    have ht : |expTerm x (8 * c.p + 8)| ≤ eps c.p * (1 / 512) := by
      unfold expTerm
      rw [abs_of_nonneg (by positivity)]
      refine le_trans (far_term hx0' (q := 4 * c.p) (by push_cast; linarith) (by omega)) ?_
      rw [show 8 * c.p + 8 + 1 - 4 * c.p = 3 * c.p + c.p + 9 by omega, pow_add, pow_add]
      have h1 : Real.exp x ≤ 8 ^ c.p := by
        calc Real.exp x ≤ Real.exp (c.p * 2) := Real.exp_le_exp.2 (by linarith)
          _ = Real.exp 2 ^ c.p := by rw [Real.exp_nat_mul]
          _ ≤ 8 ^ c.p := pow_le_pow_left₀ (Real.exp_pos _).le exp_two_le _
      have h2 : (8 : ℝ) ^ c.p * (1 / 2) ^ (3 * c.p) = 1 := by
        rw [pow_mul, ← mul_pow]; norm_num
      have h3 : ((1 : ℝ) / 2) ^ c.p = eps c.p := by
        unfold eps; rw [zpow_neg, zpow_natCast, one_div, inv_pow]
      rw [h3]
      calc Real.exp x * ((1 / 2) ^ (3 * c.p) * eps c.p * (1 / 2) ^ 9) ≤ 8 ^ c.p * ((1 / 2) ^ (3 * c.p) * eps c.p * (1 / 2) ^ 9) :=
            mul_le_mul_of_nonneg_right h1 (by positivity)
        _ = (8 ^ c.p * (1 / 2) ^ (3 * c.p)) * (eps c.p * (1 / 2) ^ 9) := by ring
        _ = eps c.p * (1 / 512) := by rw [h2]; norm_num
    have hτ2 : |(tau c (8 * c.p + 8) s : ℝ)| ≤ 2 * |expTerm x (8 * c.p + 8)| := by
      have h3 : |(tau c (8 * c.p + 8) s : ℝ) - expTerm x (8 * c.p + 8)| ≤ 1 * |expTerm x (8 * c.p + 8)| :=
        le_trans hτ (mul_le_mul_of_nonneg_right (by linarith) (abs_nonneg _))
      have := abs_sub_abs_le_abs_sub (tau c (8 * c.p + 8) s : ℝ) (expTerm x (8 * c.p + 8))
      linarith
    rw [abs_of_nonneg (a := (s.z : ℝ)) (by linarith)]
    nlinarith) fuel (newLoop c 10) ⟨x, 1, 1⟩
    (sum_start 10 (s := (⟨x, 1, 1⟩ : Series)) ⟨by simpa using near_refl (p := c.p) (x : ℝ), by simpa using near_refl (p := c.p) (1 : ℝ)⟩ (isFloat_one hp1) (by simp) hN hG0)
    (Nat.zero_le _) (by show 8 * c.p + 8 < fuel + 0; omega)
  refine ⟨r.z, ?_⟩
  unfold exponential
  rw [rnd_one hp1, rnd_self hp1 hx, hr]
  rfl

/-- The same for negative arguments whose exponential is well above the rounding errors. -/
theorem exponential_ok_neg (hp : 16 ≤ c.p) (hx : IsFloat c.p x) (hx0 : x ≤ 0) (hx1 : 440 * ((c.p : ℝ) + 1) * eps c.p * Real.exp (2 * |(x : ℝ)|) ≤ 1) {fuel : ℕ}
    (hfu : 10 + 10 * c.p ≤ fuel) : ∃ z, exponential c fuel x = .ok z := by
  have hp1 : 1 ≤ c.p := by omega
  have hp12 : 12 ≤ c.p := by omega
  have he := eps_real c.p
  have hb := bits_eps hp
  set N := 10 + 10 * c.p with hN
  have hNr : (N : ℝ) = 10 * (c.p + 1) := by rw [hN]; push_cast; ring
  have hNe : (N : ℝ) * eps c.p ≤ 1 / 256 := by rw [hNr]; linarith
  have h3N : ((3 * N : ℕ) : ℝ) * eps c.p ≤ 1 / 2 := by push_cast; linarith
  have hG0 : 0 ≤ 2 * ((3 * N : ℕ) : ℝ) * eps c.p := by positivity
  have hx0' : (x : ℝ) ≤ 0 := by exact_mod_cast hx0
  set a := |(x : ℝ)| with ha
  have hxa : (x : ℝ) = -a := by rw [ha, abs_of_nonpos hx0']; ring
  have ha0 : 0 ≤ a := abs_nonneg _
  have hE := Real.exp_pos a
  have hEE : Real.exp (2 * a) = Real.exp a * Real.exp a := by rw [two_mul, Real.exp_add]
  have hE1 : 1 ≤ Real.exp a := Real.one_le_exp ha0
  have hei : Real.exp x = (Real.exp a)⁻¹ := by rw [hxa, Real.exp_neg]
  have hp0 : (16 : ℝ) ≤ c.p := by exact_mod_cast hp
  have hepsE : eps c.p * (Real.exp a * Real.exp a) ≤ 1 := by
    rw [hEE] at hx1
    have h1 : 0 ≤ eps c.p * (Real.exp a * Real.exp a) := by positivity
    nlinarith
  have hxp : a ≤ c.p := by
    have h2 : Real.exp (2 * a) ≤ Real.exp c.p := by
      rw [hEE]
      have h3 : Real.exp a * Real.exp a ≤ 2 ^ c.p := by
        have h4 : eps c.p = (2 ^ c.p)⁻¹ := by unfold eps; rw [zpow_neg, zpow_natCast]
        rw [h4, inv_mul_le_iff₀ (by positivity), mul_one] at hepsE
        exact hepsE
      refine le_trans h3 ?_
      rw [← mul_one (c.p : ℝ), Real.exp_nat_mul]
      exact pow_le_pow_left₀ (by norm_num) (by have := Real.exp_one_gt_d9; linarith) _
    have := Real.exp_le_exp.1 h2
    linarith
  obtain ⟨r, hr⟩ := series_converges (S0 := 1) hp12 hG0 (exp_adds (x := x) hp12 h3N) (n := 8 * c.p + 8) (by omega) (by omega) (by
    intro s ⟨h1, h2⟩ hsum
    obtain ⟨_, hτ⟩ := series_turn hp12 h1 h2 (by positivity) (m := 3 * N) (by omega) h3N (8 * c.p + 8)
    have hf := factor_le (k := 3 * N) (n := 8 * c.p + 8) hp12 le_rfl (by push_cast; nlinarith)
    have hA0 := asum_nonneg 1 (expTerm x) (8 * c.p + 8)
    have hAe : asum 1 (expTerm x) (8 * c.p + 8) ≤ Real.exp a := by
      rw [expTerm_asum]; exact Real.sum_le_exp_of_nonneg (abs_nonneg _) _
    have ht : |expTerm x (8 * c.p + 8)| ≤ eps c.p * (1 / 512) * Real.exp x := by
      unfold expTerm
      rw [abs_div, abs_pow, Nat.abs_cast]
      refine le_trans (far_term ha0 (q := 2 * c.p) (by push_cast; linarith) (by omega)) ?_
      rw [show 8 * c.p + 8 + 1 - 2 * c.p = c.p + c.p + (4 * c.p) + 9 by omega, pow_add, pow_add, pow_add]
      have h3 : ((1 : ℝ) / 2) ^ c.p = eps c.p := by
        unfold eps; rw [zpow_neg, zpow_natCast, one_div, inv_pow]
      rw [h3, hei]
      have h4 : ((1 : ℝ) / 2) ^ (4 * c.p) ≤ 1 := pow_le_one₀ (by norm_num) (by norm_num)
      have h5 : (0 : ℝ) ≤ (1 / 2) ^ (4 * c.p) := by positivity
      rw [← div_eq_mul_inv, le_div_iff₀ hE]
      calc Real.exp a * (eps c.p * eps c.p * (1 / 2) ^ (4 * c.p) * (1 / 2) ^ 9) * Real.exp a
          = (eps c.p * (Real.exp a * Real.exp a)) * (eps c.p * (1 / 512)) * (1 / 2) ^ (4 * c.p) := by ring
        _ ≤ 1 * (eps c.p * (1 / 512)) * 1 := by
          apply mul_le_mul _ h4 h5 (by positivity)
          exact mul_le_mul_of_nonneg_right hepsE (by positivity)
        _ = eps c.p * (1 / 512) := by ring
    have htail := tail_bound (expTerm_hasSum x) (8 * c.p + 8) (r := 1 / 2) (by norm_num) (by norm_num) (by
      intro k hk
      rw [expTerm_succ]
      apply mul_le_mul_of_nonneg_right _ (abs_nonneg _)
      have : ((8 * c.p + 8 : ℕ) : ℝ) ≤ k := by exact_mod_cast hk
      push_cast at this
      rw [div_le_iff₀ (by positivity)]
      linarith)
    have hz : Real.exp x / 2 ≤ (s.z : ℝ) := by
      have h3 : |(s.z : ℝ) - psum 1 (expTerm x) (8 * c.p + 8)| ≤ Real.exp a * (11 * N * eps c.p) := by
        refine le_trans hsum (mul_le_mul hAe (le_trans hf ?_) (le_trans hG0 (factor_ge c.p hG0 _)) hE.le)
        push_cast
        nlinarith
      have h4 : Real.exp a * (11 * N * eps c.p) ≤ Real.exp x / 4 := by
        rw [hei, hNr, ← one_div, div_div, le_div_iff₀ (by positivity)]
        rw [hEE] at hx1
        calc Real.exp a * (11 * (10 * (c.p + 1)) * eps c.p) * (Real.exp a * 4) = 440 * (c.p + 1) * eps c.p * (Real.exp a * Real.exp a) := by ring
          _ ≤ 1 := hx1
      have h5 : psum 1 (expTerm x) (8 * c.p + 8) = 1 + ∑ j ∈ range (8 * c.p + 8 + 1), expTerm x j - expTerm x (8 * c.p + 8) := by
        rw [sum_range_succ]; unfold psum; ring
      have h6 := (abs_le.1 h3).1
      have h7 := (abs_le.1 htail).2
      have h8 := (abs_le.1 (le_refl |expTerm x (8 * c.p + 8)|)).2
      have h9 : eps c.p * (1 / 512) * Real.exp x ≤ Real.exp x / 32 := by
        have := Real.exp_pos x
        have := eps_small hp12
        nlinarith
      rw [h5] at h6
      rw [show (1 / 2 : ℝ) / (1 - 1 / 2) = 1 by norm_num, mul_one] at h7
      have h10 := (abs_le.1 (le_refl |expTerm x (8 * c.p + 8)|)).1
      linarith
    have hτ2 : |(tau c (8 * c.p + 8) s : ℝ)| ≤ 2 * |expTerm x (8 * c.p + 8)| := by
      have h3 : |(tau c (8 * c.p + 8) s : ℝ) - expTerm x (8 * c.p + 8)| ≤ 1 * |expTerm x (8 * c.p + 8)| :=
        le_trans hτ (mul_le_mul_of_nonneg_right (by linarith) (abs_nonneg _))
      have := abs_sub_abs_le_abs_sub (tau c (8 * c.p + 8) s : ℝ) (expTerm x (8 * c.p + 8))
      linarith
    have hxp := Real.exp_pos x
    rw [abs_of_nonneg (a := (s.z : ℝ)) (by linarith)]
    have h10 : eps c.p / 4 * (Real.exp x / 2) ≤ eps c.p / 4 * s.z := mul_le_mul_of_nonneg_left hz (by linarith)
    have h11 := mul_pos he hxp
    linarith) fuel (newLoop c 10) ⟨x, 1, 1⟩
    (sum_start 10 (s := (⟨x, 1, 1⟩ : Series)) ⟨by simpa using near_refl (p := c.p) (x : ℝ), by simpa using near_refl (p := c.p) (1 : ℝ)⟩ (isFloat_one hp1) (by simp) hN hG0)
    (Nat.zero_le _) (by show 8 * c.p + 8 < fuel + 0; omega)
  refine ⟨r.z, ?_⟩
  unfold exponential
  rw [rnd_one hp1, rnd_self hp1 hx, hr]
  rfl

end exp

end Verif.Flt
