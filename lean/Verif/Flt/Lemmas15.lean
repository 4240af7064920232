import Mathlib.Analysis.SpecialFunctions.Log.Deriv
import Verif.Flt.Lemmas13

/-! # Logarithms -/

namespace Verif.Flt
open Spec Finset
open Verif.Arr (R)

/-! ## Series whose terms shrink -/

section
variable {σ : Type} {c : Ctx} {body : ℕ → σ → R σ} {zOf : σ → ℚ} {advance : ℕ → σ → R σ} {N : ℕ} {T : ℕ → σ → Prop} {τ : ℕ → σ → ℚ} {t : ℕ → ℝ} {S0 L : ℝ}

theorem asum_zero_of {n : ℕ} (h : asum S0 t n = 0) {m : ℕ} (hm : m < n) : t m = 0 := by
  have h1 := asum_mono S0 t (m := m + 1) (n := n) hm
  rw [asum_succ] at h1
  have h2 := asum_nonneg S0 t m
  have h3 := abs_nonneg (t m)
  exact abs_eq_zero.1 (by linarith)

/-- The end of a loop whose terms are at most half of the ones before. -/
theorem geo_end (hp : 12 ≤ c.p) (hN5 : 5 ≤ N) (hN : (N : ℝ) * eps c.p ≤ 1 / 96) (ha : Adds c body zOf advance N T τ t (2 * (2 * N : ℕ) * eps c.p))
    (hhalf : ∀ k, |t (k + 1)| ≤ 1 / 2 * |t k|) (hL : HasSum t (L - S0)) (hsum : ∀ n, asum S0 t n ≤ 4 * |psum S0 t n|)
    {fuel : ℕ} {l : Loop} {s r : σ} (hi : SumInv c zOf N T S0 t (2 * (2 * N : ℕ) * eps c.p) l s) (h : iterate c c.p body zOf advance fuel l s = .ok r) :
    ∃ n, |(zOf r : ℝ) - L| ≤ 9 * N * eps c.p * asum S0 t n := by
  have he := eps_real c.p
  have hG0 : 0 ≤ 2 * ((2 * N : ℕ) : ℝ) * eps c.p := by positivity
  obtain ⟨n, h3, hn, herr, hlast⟩ := series_end hp hG0 (by push_cast; linarith) ha hi h
  have hn' : ((n : ℝ) + 1) ≤ N := by exact_mod_cast hn
  have h0n : (0 : ℝ) ≤ n := by positivity
  have hf := factor_le (k := 2 * N) (n := n + 1) hp le_rfl (by push_cast; nlinarith)
  refine ⟨n + 1, ?_⟩
  have hsum1 := hsum (n + 1)
  set A := asum S0 t (n + 1) with hA
  have hA0 : 0 ≤ A := asum_nonneg _ _ _
  have herr2 : |(zOf r : ℝ) - psum S0 t (n + 1)| ≤ A * (8 * N * eps c.p) := by
    refine le_trans herr (mul_le_mul_of_nonneg_left (le_trans hf ?_) hA0)
    push_cast
    nlinarith
  have herr3 : |(zOf r : ℝ) - psum S0 t (n + 1)| ≤ A * (1 / 12) := le_trans herr2 (mul_le_mul_of_nonneg_left (by linarith) hA0)
  have hterm : |t n| ≤ 5 * eps c.p * A := by
    by_cases h0 : zOf r = 0
    · rw [h0, Rat.cast_zero, zero_sub, abs_neg] at herr3
      have : A = 0 := by linarith
      rw [asum_zero_of (t := t) (S0 := S0) (n := n + 1) (hA ▸ this) (Nat.lt_succ_self n), abs_zero, this]
      simp
    · rw [if_neg h0] at hlast
      have h1 : |(zOf r : ℝ)| ≤ 13 / 12 * A := by
        have h2 := abs_sub_abs_le_abs_sub (zOf r : ℝ) (psum S0 t (n + 1))
        have h3 := psum_le S0 t (n + 1)
        rw [← hA] at h3
        linarith
      have h2 : 4 * eps c.p * |(zOf r : ℝ)| ≤ 4 * eps c.p * (13 / 12 * A) := mul_le_mul_of_nonneg_left h1 (by linarith)
      have h3 : (1 - 1 / 24) * |t n| ≤ (1 - 2 * ((2 * N : ℕ) : ℝ) * eps c.p) * |t n| := mul_le_mul_of_nonneg_right (by push_cast; linarith) (abs_nonneg _)
      have h4 : 0 ≤ eps c.p * A := by positivity
      linarith
  have htail := tail_bound hL n (r := 1 / 2) (by norm_num) (by norm_num) (fun k _ => hhalf k)
  have h1 := abs_add_le ((zOf r : ℝ) - psum S0 t (n + 1)) (-(L - S0 - ∑ j ∈ range (n + 1), t j))
  rw [abs_neg] at h1
  have h2 : (zOf r : ℝ) - psum S0 t (n + 1) + -(L - S0 - ∑ j ∈ range (n + 1), t j) = zOf r - L := by unfold psum; ring
  rw [h2] at h1
  have h4 : (4 : ℝ) ≤ N := by
    have : (3 : ℝ) ≤ n := by exact_mod_cast h3
    linarith
  have h5 : 0 ≤ eps c.p * A := by positivity
  have h6 := mul_le_mul_of_nonneg_right h4 h5
  norm_num at htail
  have h9 : (5 : ℝ) ≤ N := by exact_mod_cast hN5
  have h10 := mul_le_mul_of_nonneg_right h9 h5
  linarith

/-- The loop ends. -/
theorem geo_ok (hp : 12 ≤ c.p) (hN : (N : ℝ) * eps c.p ≤ 1 / 96) (ha : Adds c body zOf advance N T τ t (2 * (2 * N : ℕ) * eps c.p))
    (hsum : ∀ n, asum S0 t n ≤ 4 * |psum S0 t n|) {n : ℕ} (h3 : 3 ≤ n) (hn : n < N) (ht : |t n| ≤ eps c.p / 64 * asum S0 t n)
    (k : ℕ) (hNk : N = 10 + k * c.p) {fuel : ℕ} (hfu : N ≤ fuel) {s : σ} (hT : T 0 s) (hf : IsFloat c.p (zOf s)) (hz : (zOf s : ℝ) = S0) :
    ∃ r, iterate c c.p body zOf advance fuel (newLoop c k) s = .ok r := by
  have he := eps_real c.p
  have hG0 : 0 ≤ 2 * ((2 * N : ℕ) : ℝ) * eps c.p := by positivity
  refine series_converges (S0 := S0) hp hG0 ha h3 hn ?_ fuel (newLoop c k) s (sum_start k hT hf hz hNk hG0) (Nat.zero_le _) (by show n < fuel + 0; omega)
  intro s hTs hs
  obtain ⟨_, _, _, _, hτ, _⟩ := ha n s hTs hn
  have hn' : (n : ℝ) ≤ N := by exact_mod_cast hn.le
  have h0n : (0 : ℝ) ≤ n := by positivity
  have hfa := factor_le (k := 2 * N) (n := n) hp le_rfl (by push_cast; nlinarith)
  have hsum1 := hsum n
  set A := asum S0 t n with hA
  have hA0 : 0 ≤ A := asum_nonneg _ _ _
  have h4 : |(zOf s : ℝ) - psum S0 t n| ≤ A * (1 / 12) := by
    refine le_trans hs (mul_le_mul_of_nonneg_left (le_trans hfa ?_) hA0)
    push_cast
    nlinarith
  have h5 : 1 / 6 * A ≤ |(zOf s : ℝ)| := by
    have := abs_sub_abs_le_abs_sub (psum S0 t n) (zOf s : ℝ)
    rw [abs_sub_comm] at this
    linarith
  have h6 : |(τ n s : ℝ)| ≤ 25 / 24 * |t n| := by
    have h7 : |(τ n s : ℝ) - t n| ≤ 1 / 24 * |t n| := le_trans hτ (mul_le_mul_of_nonneg_right (by push_cast; linarith) (abs_nonneg _))
    have := abs_sub_abs_le_abs_sub (τ n s : ℝ) (t n)
    linarith
  have h7 : eps c.p / 4 * (1 / 6 * A) ≤ eps c.p / 4 * |(zOf s : ℝ)| := mul_le_mul_of_nonneg_left h5 (by linarith)
  have h8 : 0 ≤ eps c.p * A := by positivity
  linarith

end

/-! ## The series of the logarithm -/

/-- The terms. -/
noncomputable def logTerm (y : ℝ) (i : ℕ) : ℝ := -(y ^ (i + 1) / (i + 1))

/-- The variables of the loop. -/
def LogInv (c : Ctx) (y : ℚ) (i : ℕ) (s : ℚ × ℚ) : Prop := Near c.p i s.1 ((y : ℝ) ^ (i + 1))

/-- The term as it is computed. -/
def logTau (c : Ctx) (i : ℕ) (s : ℚ × ℚ) : ℚ := -rnd c.p (s.1 / rnd c.p ((i : ℚ) + 1))

theorem log_bits {c : Ctx} (hp : 16 ≤ c.p) : ((10 + 40 * c.p : ℕ) : ℝ) * eps c.p ≤ 1 / 96 := by
  have := bits_eps hp
  have := eps_real c.p
  push_cast
  nlinarith

theorem log_adds {c : Ctx} (hp : 16 ≤ c.p) (y : ℚ) :
    Adds c (logBody c) Prod.snd (fun _ s => .ok (mul c.p s.1 y, s.2)) (10 + 40 * c.p) (LogInv c y) (logTau c) (logTerm y) (2 * (2 * (10 + 40 * c.p) : ℕ) * eps c.p) := by
  intro i s h hi
  have hp12 : 12 ≤ c.p := by omega
  refine ⟨(s.1, sub c.p s.2 (rnd c.p (s.1 / rnd c.p ((i : ℚ) + 1)))), (mul c.p s.1 y, sub c.p s.2 (rnd c.p (s.1 / rnd c.p ((i : ℚ) + 1)))), logBody_ok (by omega) i s, ?_, ?_, rfl, rfl, ?_⟩
  · show sub c.p s.2 _ = rnd c.p (s.2 + logTau c i s)
    unfold sub logTau
    rw [← sub_eq_add_neg]
  · refine near_err hp12 ?_ ?_
    · have := log_bits hp
      push_cast at this ⊢
      linarith
    · refine near_mono hp12 (k := (i + 1) + 1) (by omega) ?_
      unfold logTau logTerm
      rw [Rat.cast_neg]
      apply near_neg
      apply near_rnd hp12
      rw [Rat.cast_div]
      apply near_div hp12 h
      have h1 : Near c.p 1 (rnd c.p ((i : ℚ) + 1) : ℚ) ((i : ℝ) + 1) := by
        apply near_rnd hp12 (k := 0)
        push_cast
        exact near_refl _
      exact h1
  · show Near c.p (i + 1) (mul c.p s.1 y : ℚ) ((y : ℝ) ^ (i + 1 + 1))
    unfold mul
    apply near_rnd hp12
    push_cast
    rw [pow_succ]
    simpa using near_mul hp12 h (near_refl (p := c.p) (y : ℝ))

theorem log_half {y : ℝ} (h0 : 0 ≤ y) (h : y ≤ 1 / 2) (k : ℕ) : |logTerm y (k + 1)| ≤ 1 / 2 * |logTerm y k| := by
  unfold logTerm
  rw [abs_neg, abs_neg, abs_of_nonneg (by positivity), abs_of_nonneg (by positivity), pow_succ y (k + 1)]
  push_cast
  calc y ^ (k + 1) * y / ((k : ℝ) + 1 + 1) ≤ y ^ (k + 1) * (1 / 2) / ((k : ℝ) + 1) := by
        apply div_le_div₀ (by positivity) (mul_le_mul_of_nonneg_left h (by positivity)) (by positivity) (by linarith)
    _ = 1 / 2 * (y ^ (k + 1) / ((k : ℝ) + 1)) := by ring

theorem log_one {y : ℝ} (h0 : 0 ≤ y) (n : ℕ) : |psum 0 (logTerm y) n| = asum 0 (logTerm y) n := by
  unfold psum asum
  rw [abs_zero, zero_add, zero_add]
  have h1 : ∀ j, |logTerm y j| = -logTerm y j := by
    intro j
    unfold logTerm
    rw [abs_neg, abs_of_nonneg (by positivity), neg_neg]
  rw [sum_congr rfl (fun j _ => h1 j), sum_neg_distrib, abs_of_nonpos]
  apply sum_nonpos
  intro j _
  unfold logTerm
  have : 0 ≤ y ^ (j + 1) / ((j : ℝ) + 1) := by positivity
  linarith

theorem log_hasSum {y : ℝ} (h0 : 0 ≤ y) (h : y ≤ 1 / 2) : HasSum (logTerm y) (Real.log (1 - y)) := by
  have := (Real.hasSum_pow_div_log_of_abs_lt_one (x := y) (by rw [abs_of_nonneg h0]; linarith)).neg
  rw [neg_neg] at this
  exact this

theorem log_asum {y : ℝ} (h0 : 0 ≤ y) (h : y ≤ 1 / 2) (n : ℕ) : asum 0 (logTerm y) n ≤ |Real.log (1 - y)| := by
  have h1 : ∀ j, -logTerm y j = |logTerm y j| := by
    intro j
    unfold logTerm
    rw [abs_neg, abs_of_nonneg (by positivity), neg_neg]
  have h2 := (log_hasSum h0 h).neg
  have h3 := sum_le_hasSum (range n) (fun j _ => by rw [h1]; exact abs_nonneg _) h2
  unfold asum
  rw [abs_zero, zero_add, sum_congr rfl (fun j _ => (h1 j).symm)]
  exact le_trans h3 (neg_le_abs _)

theorem log_loop_error {c : Ctx} (hp : 16 ≤ c.p) {y : ℚ} (h0 : 0 ≤ y) (h : y ≤ 1 / 2) {fuel : ℕ} {s : ℚ × ℚ}
    (hs : iterate c c.p (logBody c) Prod.snd (fun _ s => .ok (mul c.p s.1 y, s.2)) fuel (newLoop c 40) (y, 0) = .ok s) :
    |(s.2 : ℝ) - Real.log (1 - y)| ≤ 9 * (10 + 40 * c.p) * eps c.p * |Real.log (1 - y)| := by
  have h0' : (0 : ℝ) ≤ y := by exact_mod_cast h0
  have h' : (y : ℝ) ≤ 1 / 2 := by
    have : (y : ℝ) ≤ ((1 / 2 : ℚ) : ℝ) := by exact_mod_cast h
    push_cast at this; exact this
  have he := eps_real c.p
  obtain ⟨n, hn⟩ := geo_end (S0 := 0) (L := Real.log (1 - y)) (N := 10 + 40 * c.p) (T := LogInv c y) (τ := logTau c) (t := logTerm y) (by omega) (by omega) (log_bits hp) (log_adds hp y) (log_half h0' h')
    (by rw [sub_zero]; exact log_hasSum h0' h') (fun n => by rw [log_one h0']; linarith [asum_nonneg 0 (logTerm y) n])
    (sum_start 40 (by show Near c.p 0 (y : ℝ) ((y : ℝ) ^ (0 + 1)); rw [zero_add, pow_one]; exact near_refl _) (isFloat_zero _) (by simp) rfl (by positivity)) hs
  refine le_trans hn ?_
  push_cast
  exact mul_le_mul_of_nonneg_left (log_asum h0' h' n) (by positivity)

theorem log_loop_ok {c : Ctx} (hp : 16 ≤ c.p) {y : ℚ} (h0 : 0 ≤ y) (h : y ≤ 1 / 2) {fuel : ℕ} (hfu : 10 + 40 * c.p ≤ fuel) :
    ∃ s, iterate c c.p (logBody c) Prod.snd (fun _ s => .ok (mul c.p s.1 y, s.2)) fuel (newLoop c 40) (y, 0) = .ok s := by
  have h0' : (0 : ℝ) ≤ y := by exact_mod_cast h0
  have h' : (y : ℝ) ≤ 1 / 2 := by
    have : (y : ℝ) ≤ ((1 / 2 : ℚ) : ℝ) := by exact_mod_cast h
    push_cast at this; exact this
  have he := eps_real c.p
  refine geo_ok (S0 := 0) (N := 10 + 40 * c.p) (T := LogInv c y) (τ := logTau c) (t := logTerm y) (by omega) (log_bits hp) (log_adds hp y)
    (fun n => by rw [log_one h0']; linarith [asum_nonneg 0 (logTerm y) n]) (n := c.p + 6) (by omega) (by omega) ?_ 40 rfl hfu
    (by show Near c.p 0 (y : ℝ) ((y : ℝ) ^ (0 + 1)); rw [zero_add, pow_one]; exact near_refl _) (isFloat_zero _) (by simp)
  have h1 : (y : ℝ) ≤ asum 0 (logTerm y) (c.p + 6) := by
    refine le_trans ?_ (asum_mono 0 (logTerm (y : ℝ)) (m := 1) (by omega))
    unfold asum logTerm
    rw [sum_range_one]
    simp
    exact le_abs_self _
  have h2 : |logTerm (y : ℝ) (c.p + 6)| ≤ eps c.p / 64 * y := by
    unfold logTerm
    rw [abs_neg, abs_of_nonneg (by positivity), pow_succ]
    have h3 : (y : ℝ) ^ (c.p + 6) ≤ (1 / 2) ^ (c.p + 6) := pow_le_pow_left₀ h0' h' _
    have h4 : ((1 : ℝ) / 2) ^ c.p = eps c.p := by unfold eps; rw [zpow_neg, zpow_natCast, one_div, inv_pow]
    rw [pow_add (1 / 2 : ℝ), h4] at h3
    calc (y : ℝ) ^ (c.p + 6) * y / (((c.p + 6 : ℕ) : ℝ) + 1) ≤ (y : ℝ) ^ (c.p + 6) * y := div_le_self (by positivity) (by push_cast; linarith [(by positivity : (0 : ℝ) ≤ c.p)])
      _ ≤ (eps c.p * (1 / 2) ^ 6) * y := mul_le_mul_of_nonneg_right h3 h0'
      _ = eps c.p / 64 * y := by ring
  exact le_trans h2 (mul_le_mul_of_nonneg_left h1 (by positivity))

/-! ## The function -/

/-- The mantissa, and its distance from one. -/
theorem mantissa {p : ℕ} (hp : 2 ≤ p) {q : ℚ} (h0 : 0 < q) (hf : IsFloat p q) :
    let m := q * pow2 (-expo q)
    1 / 2 ≤ m ∧ m < 1 ∧ sub p (rnd p 1) m = 1 - m := by
  intro m
  have h1 := expo_spec q h0.ne'
  rw [abs_of_pos h0] at h1
  have hm : m = q * 2 ^ (-expo q) := by show q * pow2 (-expo q) = _; rw [pow2_eq]
  have hz : (0 : ℚ) < 2 ^ (-expo q) := two_zpow_pos _
  have h2 : 1 / 2 ≤ m := by
    rw [hm]
    calc (1 / 2 : ℚ) = 2 ^ (expo q - 1) * 2 ^ (-expo q) := by rw [← zpow_add₀ (by norm_num), show expo q - 1 + -expo q = -1 by ring]; norm_num
      _ ≤ q * 2 ^ (-expo q) := mul_le_mul_of_nonneg_right h1.1 hz.le
  have h3 : m < 1 := by
    rw [hm]
    calc q * 2 ^ (-expo q) < 2 ^ expo q * 2 ^ (-expo q) := mul_lt_mul_of_pos_right h1.2 hz
      _ = 1 := by rw [← zpow_add₀ (by norm_num)]; simp
  refine ⟨h2, h3, ?_⟩
  have hmf : IsFloat p m := hm ▸ isFloat_scale hf _
  obtain ⟨k, hk⟩ := isFloat_mult hmf (e := 0) (by rw [abs_of_pos (by linarith)]; norm_num; linarith)
  rw [zero_sub] at hk
  unfold sub
  rw [rnd_one (by omega)]
  apply rnd_self (by omega)
  refine ⟨2 ^ p - k, -(p : ℤ), ?_, ?_⟩
  · have hw : (2 : ℚ) ^ p * 2 ^ (-(p : ℤ)) = 1 := by rw [← zpow_natCast, ← zpow_add₀ (by norm_num)]; simp
    have hu : (0 : ℚ) < 2 ^ (-(p : ℤ)) := two_zpow_pos _
    have h4 : (0 : ℚ) < k := by
      by_contra hc
      have : (k : ℚ) * 2 ^ (-(p : ℤ)) ≤ 0 := mul_nonpos_of_nonpos_of_nonneg (not_lt.1 hc) hu.le
      linarith
    have h5 : (k : ℚ) < 2 ^ p := by
      by_contra hc
      have : (2 : ℚ) ^ p * 2 ^ (-(p : ℤ)) ≤ k * 2 ^ (-(p : ℤ)) := mul_le_mul_of_nonneg_right (not_lt.1 hc) hu.le
      linarith
    have h4' : 0 < k := by exact_mod_cast h4
    have h5' : k < 2 ^ p := by exact_mod_cast h5
    rw [abs_of_nonneg (by omega)]
    omega
  · push_cast
    rw [sub_mul, ← hk, ← zpow_natCast, ← zpow_add₀ (by norm_num)]
    simp

/-- `log 2` to the precision in use. -/
def LogOk (c : Ctx) : Prop := |(c.log2 : ℝ) - Real.log 2| ≤ 4 * eps c.p

theorem scale_err {c : Ctx} (hp : 16 ≤ c.p) (hl : LogOk c) (e : ℤ) :
    |((mul c.p (rnd c.p (e : ℚ)) c.log2 : ℚ) : ℝ) - e * Real.log 2| ≤ 7 * eps c.p * |(e : ℝ)| := by
  have he := eps_real c.p
  have hes := eps_small (show 12 ≤ c.p by omega)
  have h2 := Real.log_two_lt_d9
  have h3 := Real.log_two_gt_d9
  have hl' := abs_le.1 hl
  have h4 := rnd_err_real c.p (e : ℚ)
  have h5 := rnd_err_real c.p (rnd c.p (e : ℚ) * c.log2)
  push_cast at h4 h5
  unfold mul
  set R1 := ((rnd c.p (e : ℚ) : ℚ) : ℝ) with hR1
  set R2 := ((rnd c.p (rnd c.p (e : ℚ) * c.log2) : ℚ) : ℝ) with hR2
  have hE := abs_nonneg (e : ℝ)
  have h6 : |R1| ≤ 1.01 * |(e : ℝ)| := by
    have := abs_sub_abs_le_abs_sub R1 (e : ℝ)
    nlinarith
  have hlog : |(c.log2 : ℝ)| ≤ 0.7 := abs_le.2 ⟨by linarith [hl'.1], by linarith [hl'.2]⟩
  rw [abs_mul] at h5
  have h7 : |R1| * |(c.log2 : ℝ)| ≤ 1.01 * |(e : ℝ)| * 0.7 := mul_le_mul h6 hlog (abs_nonneg _) (by positivity)
  have h8 : |R2 - R1 * c.log2| ≤ eps c.p * (1.01 * |(e : ℝ)| * 0.7) := le_trans h5 (mul_le_mul_of_nonneg_left h7 he.le)
  have h9 : |(R1 - e) * c.log2| ≤ eps c.p * |(e : ℝ)| * 0.7 := by
    rw [abs_mul]
    exact mul_le_mul h4 hlog (abs_nonneg _) (by positivity)
  have h10 : |(e : ℝ) * (c.log2 - Real.log 2)| ≤ |(e : ℝ)| * (4 * eps c.p) := by
    rw [abs_mul]
    exact mul_le_mul_of_nonneg_left hl hE
  have h11 := abs_add_le (R2 - R1 * c.log2) ((R1 - e) * c.log2 + e * (c.log2 - Real.log 2))
  have h12 := abs_add_le ((R1 - e) * c.log2) ((e : ℝ) * (c.log2 - Real.log 2))
  rw [show R2 - R1 * c.log2 + ((R1 - e) * c.log2 + e * (c.log2 - Real.log 2)) = R2 - e * Real.log 2 by ring] at h11
  have h13 : 0 ≤ eps c.p * |(e : ℝ)| := by positivity
  nlinarith

/-- The value of the code after the inversion: `q` is a number of at most one. -/
def logSum (c : Ctx) (z : ℚ) (q : ℚ) (invert : Bool) : ℚ :=
  let E := mul c.p (rnd c.p (expo q : ℚ)) c.log2
  add c.p (if invert then -z else z) (if invert then -E else E)

theorem logSum_err {c : Ctx} (hp : 16 ≤ c.p) (hl : LogOk c) {q z : ℚ} (h0 : 0 < q) (hf : IsFloat c.p q)
    (hz : |(z : ℝ) - Real.log ((q * pow2 (-expo q) : ℚ) : ℝ)| ≤ 9 * (10 + 40 * c.p) * eps c.p * |Real.log ((q * pow2 (-expo q) : ℚ) : ℝ)|) (invert : Bool) :
    |(logSum c z q invert : ℝ) - (if invert then -1 else 1) * Real.log q| ≤ (300 * (c.p + 1) - 4 + 12 * |Real.log q|) * eps c.p := by
  have he := eps_real c.p
  have hes := eps_small (show 12 ≤ c.p by omega)
  have l2 := Real.log_two_lt_d9
  have l3 := Real.log_two_gt_d9
  obtain ⟨m1, m2, -⟩ := mantissa (by omega) h0 hf
  set m := q * pow2 (-expo q) with hm
  have m1' : (1 / 2 : ℝ) ≤ m := by
    have : ((1 / 2 : ℚ) : ℝ) ≤ m := by exact_mod_cast m1
    push_cast at this; exact this
  have m2' : (m : ℝ) < 1 := by exact_mod_cast m2
  have hq0 : (0 : ℝ) < q := by exact_mod_cast h0
  have hmq : (q : ℝ) = m * (2 : ℝ) ^ (expo q) := by
    have : q = m * 2 ^ (expo q) := by
      rw [hm, pow2_eq, mul_assoc, ← zpow_add₀ (by norm_num)]; simp
    have h2 : ((q : ℚ) : ℝ) = ((m * 2 ^ (expo q) : ℚ) : ℝ) := by rw [← this]
    push_cast at h2
    exact h2
  have hlogq : Real.log q = Real.log m + expo q * Real.log 2 := by
    conv_lhs => rw [hmq]
    rw [Real.log_mul (by linarith) (by positivity), Real.log_zpow]
  have hlm0 : Real.log m ≤ 0 := Real.log_nonpos (by linarith) m2'.le
  have hlm1 : -Real.log 2 ≤ Real.log m := by
    have := Real.log_le_log (by norm_num) m1'
    rwa [one_div, Real.log_inv] at this
  have hlm : |Real.log m| ≤ 0.6932 := by rw [abs_of_nonpos hlm0]; linarith
  have hE := scale_err hp hl (expo q)
  set E := mul c.p (rnd c.p (expo q : ℚ)) c.log2 with hEd
  have hez : |(expo q : ℝ)| ≤ 1.5 * |Real.log q| + 1.1 := by
    have h1 : |(expo q : ℝ) * Real.log 2| ≤ |Real.log q| + |Real.log m| := by
      have := abs_sub (Real.log q) (Real.log m)
      rwa [show Real.log q - Real.log m = expo q * Real.log 2 by rw [hlogq]; ring] at this
    rw [abs_mul, abs_of_pos (by linarith : 0 < Real.log 2)] at h1
    have h2 := abs_nonneg (expo q : ℝ)
    nlinarith [abs_nonneg (Real.log q)]
  have hsum : |((z : ℝ) + E) - Real.log q| ≤ (9 * (10 + 40 * c.p) * 0.6932 + 7 * (1.5 * |Real.log q| + 1.1)) * eps c.p := by
    have h1 := abs_add_le ((z : ℝ) - Real.log m) ((E : ℝ) - expo q * Real.log 2)
    rw [show (z : ℝ) - Real.log m + (E - expo q * Real.log 2) = z + E - Real.log q by rw [hlogq]; ring] at h1
    have h2 : 9 * (10 + 40 * (c.p : ℝ)) * eps c.p * |Real.log m| ≤ 9 * (10 + 40 * (c.p : ℝ)) * eps c.p * 0.6932 := mul_le_mul_of_nonneg_left hlm (by positivity)
    have h3 : 7 * eps c.p * |(expo q : ℝ)| ≤ 7 * eps c.p * (1.5 * |Real.log q| + 1.1) := mul_le_mul_of_nonneg_left hez (by positivity)
    linarith
  have hr := rnd_err_real c.p (z + E)
  push_cast at hr
  have hbig : |(z : ℝ) + E| ≤ 1.1 * |Real.log q| + 4 := by
    have h1 := abs_sub_abs_le_abs_sub ((z : ℝ) + E) (Real.log q)
    have hb := bits_eps hp
    nlinarith [abs_nonneg (Real.log q)]
  have hfin : |((rnd c.p (z + E) : ℚ) : ℝ) - Real.log q| ≤ (300 * (c.p + 1) - 4 + 12 * |Real.log q|) * eps c.p := by
    have h1 := abs_add_le (((rnd c.p (z + E) : ℚ) : ℝ) - (z + E)) ((z : ℝ) + E - Real.log q)
    rw [show ((rnd c.p (z + E) : ℚ) : ℝ) - (z + E) + ((z : ℝ) + E - Real.log q) = ((rnd c.p (z + E) : ℚ) : ℝ) - Real.log q by ring] at h1
    have h2 : eps c.p * |(z : ℝ) + E| ≤ eps c.p * (1.1 * |Real.log q| + 4) := mul_le_mul_of_nonneg_left hbig he.le
    have h3 : 0 ≤ eps c.p * |Real.log q| := by positivity
    have h4 : 0 ≤ (c.p : ℝ) * eps c.p := by positivity
    have h5 : 16 * eps c.p ≤ (c.p : ℝ) * eps c.p := mul_le_mul_of_nonneg_right (by exact_mod_cast hp) he.le
    nlinarith
  cases invert with
  | false =>
    simp only [logSum, add, Bool.false_eq_true, if_false, one_mul]
    exact hfin
  | true =>
    simp only [logSum, add, if_true]
    rw [← hEd, show -z + -E = -(z + E) by ring, rnd_neg]
    push_cast
    rw [show -((rnd c.p (z + E) : ℚ) : ℝ) - -1 * Real.log q = -(((rnd c.p (z + E) : ℚ) : ℝ) - Real.log q) by ring, abs_neg]
    exact hfin

theorem floatLog_error {c : Ctx} (hp : 16 ≤ c.p) (hl : LogOk c) {x : ℚ} (hf : IsFloat c.p x) {fuel : ℕ} {z : ℚ} (h : floatLog c fuel x = .ok z) :
    |(z : ℝ) - Real.log x| ≤ (300 * (c.p + 1) + 12 * |Real.log x|) * eps c.p := by
  have he := eps_real c.p
  have hes := eps_small (show 12 ≤ c.p by omega)
  unfold floatLog at h
  split at h
  · cases h
  rename_i h0
  have h0 := not_le.1 h0
  have h0' : (0 : ℝ) < x := by exact_mod_cast h0
  split at h
  · rename_i h1
    injection h with h
    rw [← h, h1]
    simp
    positivity
  · rw [rnd_self (by omega) hf] at h
    obtain ⟨q, hq, h⟩ := bind_eq_ok h
    obtain ⟨s, hs, h⟩ := bind_eq_ok h
    injection h with h
    have hq0 : 0 < q ∧ IsFloat c.p q ∧ |Real.log q - (if decide (1 < x) then -1 else 1) * Real.log x| ≤ 2 * eps c.p := by
      split at hq
      · rename_i hx1
        rw [quo_ok h0.ne'] at hq
        injection hq with hq
        have h1 := rnd_pos (p := c.p) (by omega) (q := 1 / x) (by positivity)
        rw [hq] at h1
        refine ⟨h1, hq ▸ rnd_isFloat (by omega) _, ?_⟩
        rw [if_pos hx1]
        have h2 := rnd_err_real c.p (1 / x)
        rw [hq] at h2
        push_cast at h2
        have h3 : (0 : ℝ) < q := by exact_mod_cast h1
        rw [show Real.log q - -1 * Real.log x = Real.log (q * x) by rw [Real.log_mul h3.ne' h0'.ne']; ring]
        have h4 : |(q : ℝ) * x - 1| ≤ eps c.p := by
          have h5 : |(q : ℝ) * x - 1| = |(q : ℝ) - 1 / x| * x := by
            rw [← abs_of_pos h0', ← abs_mul, abs_of_pos h0', sub_mul, one_div, inv_mul_cancel₀ h0'.ne']
          rw [h5]
          calc |(q : ℝ) - 1 / x| * x ≤ eps c.p * |1 / (x : ℝ)| * x := mul_le_mul_of_nonneg_right h2 h0'.le
            _ = eps c.p := by rw [abs_of_pos (by positivity)]; field_simp
        have h5 := abs_le.1 h4
        have h6 : 0 < (q : ℝ) * x := by linarith [h5.1]
        rw [abs_le]
        constructor
        · have := Real.one_sub_inv_le_log_of_pos h6
          have h7 : ((q : ℝ) * x)⁻¹ ≤ 1 + 2 * eps c.p := by
            rw [inv_le_iff_one_le_mul₀ h6]
            nlinarith [h5.1]
          linarith
        · have := Real.log_le_sub_one_of_pos h6
          linarith [h5.2]
      · rename_i hx1
        injection hq with hq
        subst hq
        refine ⟨h0, hf, ?_⟩
        rw [if_neg hx1]
        simp
        positivity
    obtain ⟨hq0, hqf, hqx⟩ := hq0
    obtain ⟨m1, m2, m3⟩ := mantissa (by omega) hq0 hqf
    rw [m3] at hs
    have hs1 := log_loop_error hp (by linarith) (by linarith) hs
    have e1 : (1 : ℝ) - ((1 - q * pow2 (-expo q) : ℚ) : ℝ) = ((q * pow2 (-expo q) : ℚ) : ℝ) := by push_cast; ring
    rw [e1] at hs1
    have hfin := logSum_err hp hl hq0 hqf hs1 (decide (1 < x))
    have hz : z = logSum c s.2 q (decide (1 < x)) := h.symm
    rw [← hz] at hfin
    set σ : ℝ := if decide (1 < x) then -1 else 1 with hσ
    have hσ2 : σ * σ = 1 := by rw [hσ]; split <;> norm_num
    have hσa : |σ| = 1 := by rw [hσ]; split <;> norm_num
    have h1 : |σ * Real.log q - Real.log x| ≤ 2 * eps c.p := by
      have : σ * Real.log q - Real.log x = σ * (Real.log q - σ * Real.log x) := by
        rw [mul_sub, ← mul_assoc, hσ2, one_mul]
      rw [this, abs_mul, hσa, one_mul]
      exact hqx
    have h2 : |Real.log q| ≤ |Real.log x| + 2 * eps c.p := by
      have := abs_sub_abs_le_abs_sub (Real.log q) (σ * Real.log x)
      rw [abs_mul, hσa, one_mul] at this
      linarith
    have h3 := abs_add_le ((z : ℝ) - σ * Real.log q) (σ * Real.log q - Real.log x)
    rw [show (z : ℝ) - σ * Real.log q + (σ * Real.log q - Real.log x) = z - Real.log x by ring] at h3
    have h4 : (300 * ((c.p : ℝ) + 1) - 4 + 12 * |Real.log q|) * eps c.p ≤ (300 * ((c.p : ℝ) + 1) - 4 + 12 * (|Real.log x| + 2 * eps c.p)) * eps c.p :=
      mul_le_mul_of_nonneg_right (by linarith) he.le
    nlinarith

theorem floatLog_ok {c : Ctx} (hp : 16 ≤ c.p) {x : ℚ} (h0 : 0 < x) (hf : IsFloat c.p x) {fuel : ℕ} (hfu : 10 + 40 * c.p ≤ fuel) :
    ∃ z, floatLog c fuel x = .ok z := by
  unfold floatLog
  rw [if_neg (not_le.2 h0)]
  split
  · exact ⟨_, rfl⟩
  · rw [rnd_self (by omega) hf]
    obtain ⟨q, hq, hq0, hqf⟩ : ∃ q, (if decide (1 < x) then quo c.p 1 x else .ok x) = .ok q ∧ 0 < q ∧ IsFloat c.p q := by
      split
      · rw [quo_ok h0.ne']
        exact ⟨_, rfl, rnd_pos (by omega) (by positivity), rnd_isFloat (by omega) _⟩
      · exact ⟨_, rfl, h0, hf⟩
    obtain ⟨m1, m2, m3⟩ := mantissa (by omega) hq0 hqf
    obtain ⟨s, hs⟩ := log_loop_ok (c := c) hp (y := 1 - q * pow2 (-expo q)) (by linarith) (by linarith) hfu
    dsimp only
    rw [hq, bindOk]
    rw [m3, hs, bindOk]
    exact ⟨_, rfl⟩

end Verif.Flt
