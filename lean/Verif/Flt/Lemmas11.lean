import Verif.Flt.Lemmas10

/-! # Sine and cosine: the series -/

namespace Verif.Flt
open Spec Finset
open Verif.Arr (R)
open scoped Nat

/-- The terms of the series, after the first. -/
noncomputable def trigTerm (x : ℝ) (m i : ℕ) : ℝ := (-1) ^ (i + 1) * (x ^ (2 * i + m) / (2 * i + m)!)

theorem trig_even (x : ℝ) (m : ℕ) : EvenTerms x m (trigTerm x m) := by
  intro k
  unfold trigTerm
  rw [abs_mul, abs_pow, abs_neg, abs_one, one_pow, one_mul, abs_div, abs_pow, Nat.abs_cast]

/-- The variables of the loop. -/
def TrigInv (c : Ctx) (x : ℚ) (m i : ℕ) (s : Trig) : Prop :=
  Near c.p (2 * i + 3) s.xN ((x : ℝ) ^ (2 * i + m)) ∧ Near c.p (2 * i + 3) s.term ((x : ℝ) ^ (2 * i + m)) ∧
    Near c.p (4 * i) s.fact ((-1) ^ i * ((2 * i + m)! : ℕ)) ∧ s.exp = 2 * i + m

/-- The term as it is computed. -/
def trigTau (c : Ctx) (_ : ℕ) (s : Trig) : ℚ := rnd c.p (s.term / -s.fact)

theorem trig_fact {c : Ctx} (hp : 12 ≤ c.p) {y a b : ℚ} {m i : ℕ} {e : ℝ} (h : Near c.p (4 * i) y (e * ((2 * i + m)! : ℕ))) (ha : a = ((2 * i + m + 1 : ℕ) : ℚ)) (hb : b = ((2 * i + m + 2 : ℕ) : ℚ)) :
    Near c.p (4 * (i + 1)) (mul c.p (mul c.p y (rnd c.p a)) (rnd c.p b) : ℚ) (e * ((2 * (i + 1) + m)! : ℕ)) := by
  unfold mul
  rw [show 4 * (i + 1) = (4 * i + 1 + 1 + 1) + 1 by ring, show 2 * (i + 1) + m = 2 * i + m + 1 + 1 by ring, Nat.factorial_succ, Nat.factorial_succ]
  apply near_rnd hp
  push_cast
  have h1 : Near c.p (4 * i + 1 + 1) (rnd c.p (y * rnd c.p a) : ℚ) (e * (2 * i + m)! * ((2 * i + m : ℝ) + 1)) := by
    apply near_rnd hp
    push_cast
    refine near_mul hp (l := 1) h (near_rnd hp (k := 0) ?_)
    rw [ha]; push_cast
    exact near_refl _
  rw [show e * (((2 * i + m : ℝ) + 1 + 1) * (((2 * i + m : ℝ) + 1) * (2 * i + m)!)) = e * (2 * i + m)! * ((2 * i + m : ℝ) + 1) * (2 * i + m + 2) by ring]
  refine near_mul hp (l := 1) h1 (near_rnd hp (k := 0) ?_)
  rw [hb]; push_cast
  exact near_refl _

theorem trigBody_ok {c : Ctx} {s : Trig} (h : s.fact ≠ 0) :
    trigBody c s = .ok { s with term := rnd c.p (s.term / -s.fact), fact := -s.fact, z := add c.p s.z (rnd c.p (s.term / -s.fact)) } := by
  unfold trigBody; rw [quo_ok (neg_ne_zero.2 h)]; rfl

theorem trig_turn {c : Ctx} {x : ℚ} {m i N : ℕ} (hp : 12 ≤ c.p) (hN : (6 * N : ℕ) * eps c.p ≤ 1 / 2) (hi : i < N) {s : Trig} (h : TrigInv c x m i s) :
    s.fact ≠ 0 ∧ |(trigTau c i s : ℝ) - trigTerm x m i| ≤ 2 * (6 * N : ℕ) * eps c.p * |trigTerm x m i| := by
  obtain ⟨h1, h2, h3, h4⟩ := h
  have h5 : (s.fact : ℝ) ≠ 0 := near_ne hp h3 (by positivity)
  refine ⟨by exact_mod_cast h5, ?_⟩
  apply near_err hp hN
  have h6 : trigTerm (x : ℝ) m i = (x : ℝ) ^ (2 * i + m) / -((-1) ^ i * ((2 * i + m)! : ℕ)) := by
    unfold trigTerm
    rw [pow_succ]
    rcases neg_one_pow_eq_or ℝ i with h | h <;> rw [h] <;> field_simp
  rw [h6]
  apply near_mono hp (k := 2 * i + 3 + 4 * i + 1) (by omega)
  apply near_rnd hp
  push_cast
  exact near_div hp h2 (by have := near_neg h3; push_cast at this; exact this)

theorem trig_adds {c : Ctx} {x : ℚ} {m N : ℕ} (hp : 12 ≤ c.p) (hN : (6 * N : ℕ) * eps c.p ≤ 1 / 2) :
    Adds c (fun _ => trigBody c) Trig.z (fun _ => trigAdvance c (mul c.p x x)) N (TrigInv c x m) (trigTau c) (trigTerm x m) (2 * (6 * N : ℕ) * eps c.p) := by
  intro i s h hi
  obtain ⟨hf, ht⟩ := trig_turn hp hN hi h
  obtain ⟨h1, h2, h3, h4⟩ := h
  have hpow : Near c.p (2 * (i + 1) + 3) (mul c.p s.xN (mul c.p x x) : ℚ) ((x : ℝ) ^ (2 * (i + 1) + m)) := by
    unfold mul
    rw [show 2 * (i + 1) + 3 = (2 * i + 3 + 1) + 1 by ring]
    apply near_rnd hp
    push_cast
    rw [show 2 * (i + 1) + m = 2 * i + m + 2 by ring, pow_add]
    refine near_mul hp (l := 1) h1 (near_rnd hp (k := 0) ?_)
    push_cast
    rw [pow_two]
    exact near_refl _
  refine ⟨_, _, trigBody_ok hf, rfl, ht, rfl, rfl, hpow, hpow, ?_, ?_⟩
  · refine trig_fact hp (m := m) (i := i) (e := (-1) ^ (i + 1)) ?_ ?_ ?_
    · rw [pow_succ]
      have := near_neg h3
      push_cast at this ⊢
      rw [show (-1 : ℝ) ^ i * -1 * ((2 * i + m)! : ℝ) = -((-1) ^ i * (2 * i + m)!) by ring]
      exact this
    · show ((s.exp : ℚ) + 1) = _
      rw [h4]; push_cast; ring
    · show ((s.exp : ℚ) + 2) = _
      rw [h4]; push_cast; ring
  · show s.exp + 2 = _
    rw [h4]; ring

theorem sin_hasSum (x : ℝ) : HasSum (trigTerm x 3) (Real.sin x - x) := by
  have := (hasSum_nat_add_iff' 1).2 (Real.hasSum_sin x)
  have h2 : HasSum (fun n => (-1) ^ (n + 1) * x ^ (2 * (n + 1) + 1) / ((2 * (n + 1) + 1)! : ℝ)) (Real.sin x - x) := by simpa using this
  convert h2 using 2
  unfold trigTerm
  rw [mul_div_assoc]
  rfl

theorem cos_hasSum (x : ℝ) : HasSum (trigTerm x 2) (Real.cos x - 1) := by
  have := (hasSum_nat_add_iff' 1).2 (Real.hasSum_cos x)
  have h2 : HasSum (fun n => (-1) ^ (n + 1) * x ^ (2 * (n + 1)) / ((2 * (n + 1))! : ℝ)) (Real.cos x - 1) := by simpa using this
  convert h2 using 2
  unfold trigTerm
  rw [mul_div_assoc]
  rfl

theorem sin_asum (x : ℝ) (n : ℕ) : asum x (trigTerm x 3) n ≤ Real.sinh |x| := by
  have h := (hasSum_nat_add_iff' 1).2 (Real.hasSum_sinh |x|)
  have h2 : HasSum (fun n => |x| ^ (2 * (n + 1) + 1) / ((2 * (n + 1) + 1)! : ℝ)) (Real.sinh |x| - |x|) := by simpa using h
  have h3 := sum_le_hasSum (range n) (fun j _ => by positivity) h2
  unfold asum
  have h4 : ∑ j ∈ range n, |trigTerm x 3 j| = ∑ j ∈ range n, |x| ^ (2 * (j + 1) + 1) / ((2 * (j + 1) + 1)! : ℝ) :=
    sum_congr rfl fun j _ => by rw [trig_even x 3 j]; rfl
  linarith

theorem cos_asum (x : ℝ) (n : ℕ) : asum 1 (trigTerm x 2) n ≤ Real.cosh x := by
  have h := (hasSum_nat_add_iff' 1).2 (Real.hasSum_cosh |x|)
  have h2 : HasSum (fun n => |x| ^ (2 * (n + 1)) / ((2 * (n + 1))! : ℝ)) (Real.cosh |x| - 1) := by simpa using h
  have h3 := sum_le_hasSum (range n) (fun j _ => by positivity) h2
  rw [Real.cosh_abs] at h3
  unfold asum
  have h4 : ∑ j ∈ range n, |trigTerm x 2 j| = ∑ j ∈ range n, |x| ^ (2 * (j + 1)) / ((2 * (j + 1))! : ℝ) :=
    sum_congr rfl fun j _ => by rw [trig_even x 2 j]; rfl
  rw [abs_one]
  linarith

theorem sinh_one_le : Real.sinh 1 ≤ 6 / 5 := by
  rw [Real.sinh_eq]
  have h1 := Real.exp_one_lt_d9
  have h2 := Real.exp_pos 1
  have h3 : (1 / 3 : ℝ) ≤ Real.exp (-1) := by
    rw [Real.exp_neg, ← one_div]
    exact one_div_le_one_div_of_le h2 (by linarith)
  linarith

/-- For small arguments the first term is most of the sum. -/
theorem sin_asum_small {x : ℝ} (hx : |x| ≤ 1) (n : ℕ) : asum x (trigTerm x 3) n ≤ 6 / 5 * |x| := by
  have h := (hasSum_nat_add_iff' 1).2 (Real.hasSum_sinh 1)
  have h2 : HasSum (fun n => 1 / ((2 * (n + 1) + 1)! : ℝ)) (Real.sinh 1 - 1) := by simpa using h
  have h3 := sum_le_hasSum (range n) (fun j _ => by positivity) h2
  have h4 : ∑ j ∈ range n, |trigTerm x 3 j| ≤ |x| * ∑ j ∈ range n, 1 / ((2 * (j + 1) + 1)! : ℝ) := by
    rw [mul_sum]
    apply sum_le_sum
    intro j _
    rw [trig_even x 3 j, mul_one_div]
    apply div_le_div_of_nonneg_right _ (by positivity)
    have : |x| ^ (2 * j + 3) ≤ |x| ^ 1 := pow_le_pow_of_le_one (abs_nonneg _) hx (by omega)
    rwa [pow_one] at this
  have h5 := sinh_one_le
  have h6 : |x| * ∑ j ∈ range n, 1 / ((2 * (j + 1) + 1)! : ℝ) ≤ |x| * (1 / 5) := mul_le_mul_of_nonneg_left (by linarith) (abs_nonneg _)
  unfold asum
  linarith

/-- The end of the loop, for arguments below 8. -/
theorem trig_end {c : Ctx} {x : ℚ} {S0 L : ℝ} {m N : ℕ} (hp : 16 ≤ c.p) (hN : N = 10 + 4 * c.p) (hm2 : 2 ≤ m) (hm : m ≤ 3) (hx : |(x : ℝ)| < 8) (hL : HasSum (trigTerm x m) (L - S0))
    (hz0 : ∀ n, |psum S0 (trigTerm x m) n| ≤ asum S0 (trigTerm x m) n * (1 / 16) → 1 ≤ asum S0 (trigTerm x m) n ∨ (x : ℝ) = 0)
    {fuel : ℕ} {s r : Trig} (hT : TrigInv c x m 0 s) (hf : IsFloat c.p s.z) (hz : (s.z : ℝ) = S0)
    (h : iterate c c.p (fun _ => trigBody c) Trig.z (fun _ => trigAdvance c (mul c.p x x)) fuel (newLoop c 4) s = .ok r) :
    ∃ n, |(r.z : ℝ) - L| ≤ 25 * N * eps c.p * asum S0 (trigTerm x m) n := by
  have he := eps_real c.p
  have hG0 : 0 ≤ 2 * ((6 * N : ℕ) : ℝ) * eps c.p := by positivity
  obtain ⟨n, h3, hn, herr, hsmall, hlast⟩ := six_end hp (by omega) (trig_adds (by omega) (six_half hp (by omega))) (sum_start 4 hT hf hz hN hG0) h
  refine ⟨n + 1, ?_⟩
  set A := asum S0 (trigTerm x m) (n + 1) with hA
  have hA0 : 0 ≤ A := asum_nonneg _ _ _
  have hn' : ((n : ℝ) + 1) ≤ N := by exact_mod_cast hn
  have hn3 : (3 : ℝ) ≤ n := by exact_mod_cast h3
  have hm' : (m : ℝ) ≤ 3 := by exact_mod_cast hm
  have hm2' : (2 : ℝ) ≤ m := by exact_mod_cast hm2
  have hterm := hlast (fun h0 => by
    rw [h0, Rat.cast_zero, zero_sub, abs_neg] at herr
    rcases hz0 _ (le_trans herr (mul_le_mul_of_nonneg_left hsmall hA0)) with h | h
    · exact Or.inl h
    · right
      unfold trigTerm
      rw [h, zero_pow (by omega)]; simp)
  have htail : |L - S0 - ∑ j ∈ range (n + 1), trigTerm x m j| ≤ 5 * eps c.p * A * N :=
    le_trans (even_tail (trig_even x m) hL (by linarith)) (mul_le_mul hterm (by linarith) (by positivity) (by positivity))
  have h1 := abs_add_le ((r.z : ℝ) - psum S0 (trigTerm x m) (n + 1)) (-(L - S0 - ∑ j ∈ range (n + 1), trigTerm x m j))
  rw [abs_neg] at h1
  have h2 : (r.z : ℝ) - psum S0 (trigTerm x m) (n + 1) + -(L - S0 - ∑ j ∈ range (n + 1), trigTerm x m j) = r.z - L := by unfold psum; ring
  rw [h2] at h1
  linarith

/-- The loop ends if the result is not lost in rounding errors. -/
theorem trig_ok {c : Ctx} {x : ℚ} {S0 L : ℝ} {m N : ℕ} (hp : 16 ≤ c.p) (hN : N = 10 + 4 * c.p) (hm2 : 2 ≤ m) (hm : m ≤ 3) (hx : |(x : ℝ)| < 8) (hL : HasSum (trigTerm x m) (L - S0))
    (hlarge : ∀ n, 25 * N * eps c.p * asum S0 (trigTerm x m) n ≤ |L| / 2) (hL0 : |(x : ℝ)| ≤ 2 ^ 20 * ((2 : ℝ) ^ c.p * |L|))
    {fuel : ℕ} (hfu : 10 + 4 * c.p ≤ fuel) {s : Trig} (hT : TrigInv c x m 0 s) (hf : IsFloat c.p s.z) (hz : (s.z : ℝ) = S0) :
    ∃ r, iterate c c.p (fun _ => trigBody c) Trig.z (fun _ => trigAdvance c (mul c.p x x)) fuel (newLoop c 4) s = .ok r := by
  have hp12 : 12 ≤ c.p := by omega
  have he := eps_real c.p
  have hG0 : 0 ≤ 2 * ((6 * N : ℕ) : ℝ) * eps c.p := by positivity
  have hNr : (N : ℝ) = 10 + 4 * c.p := by rw [hN]; push_cast; ring
  have hNe : (N : ℝ) * eps c.p ≤ 170 / 65536 := by
    have := bits_eps hp
    rw [hNr]; nlinarith
  refine series_converges (S0 := S0) hp12 hG0 (trig_adds hp12 (six_half hp (by omega))) (n := 4 * c.p) (by omega) (by omega) ?_ fuel (newLoop c 4) s (sum_start 4 hT hf hz hN hG0)
    (Nat.zero_le _) (by show 4 * c.p < fuel + 0; omega)
  intro s hs hsum
  obtain ⟨_, hτ⟩ := trig_turn hp12 (six_half hp (N := N) (by omega)) (by omega) hs
  have hfa := factor_le (k := 6 * N) (n := 4 * c.p) hp12 le_rfl (by push_cast; nlinarith)
  set A := asum S0 (trigTerm x m) (4 * c.p) with hA
  have hA0 : 0 ≤ A := asum_nonneg _ _ _
  have hp0 : (16 : ℝ) ≤ c.p := by exact_mod_cast hp
  have hm' : (m : ℝ) ≤ 3 := by exact_mod_cast hm
  have hm2' : (2 : ℝ) ≤ m := by exact_mod_cast hm2
  -- the term
  have hterm : |trigTerm x m (4 * c.p)| ≤ eps c.p / 512 * |L| := by
    rw [trig_even]
    obtain ⟨k, hk⟩ : ∃ k, 2 * (4 * c.p) + m = k + 1 := ⟨2 * (4 * c.p) + m - 1, by omega⟩
    rw [hk, pow_succ, mul_div_right_comm]
    have h1 : |(x : ℝ)| ^ k / ((k + 1)! : ℝ) ≤ |(x : ℝ)| ^ k / (k ! : ℝ) := by
      apply div_le_div_of_nonneg_left (by positivity) (by positivity)
      exact_mod_cast Nat.factorial_le (by omega)
    have h2 := far_term (abs_nonneg (x : ℝ)) (q := 16) (m := k) (by push_cast; linarith) (by omega)
    have h3 : Real.exp |(x : ℝ)| ≤ 8 ^ 4 := by
      calc Real.exp |(x : ℝ)| ≤ Real.exp ((4 : ℕ) * 2) := Real.exp_le_exp.2 (by push_cast; linarith)
        _ = Real.exp 2 ^ 4 := by rw [Real.exp_nat_mul]
        _ ≤ 8 ^ 4 := pow_le_pow_left₀ (Real.exp_pos _).le exp_two_le _
    have h4 : ((1 : ℝ) / 2) ^ (k - 16) ≤ (1 / 2) ^ (c.p + c.p + 6 * 16 - 16 - 15) := pow_le_pow_of_le_one (by norm_num) (by norm_num) (by omega)
    have h5 : ((1 : ℝ) / 2) ^ c.p = eps c.p := by unfold eps; rw [zpow_neg, zpow_natCast, one_div, inv_pow]
    have h6 : (1 / 2 : ℝ) ^ (c.p + c.p + 6 * 16 - 16 - 15) = eps c.p * eps c.p * (1 / 2) ^ 65 := by
      rw [show c.p + c.p + 6 * 16 - 16 - 15 = c.p + c.p + 65 by omega, pow_add, pow_add, h5]
    have h7 : |(x : ℝ)| ^ k / ((k + 1)! : ℝ) ≤ 8 ^ 4 * (eps c.p * eps c.p * (1 / 2) ^ 65) := by
      refine le_trans h1 (le_trans h2 (mul_le_mul h3 (h6 ▸ h4) (by positivity) (by positivity)))
    have h8 : (2 : ℝ) ^ c.p * eps c.p = 1 := by
      unfold eps; rw [zpow_neg, zpow_natCast]; exact mul_inv_cancel₀ (by positivity)
    calc |(x : ℝ)| ^ k / ((k + 1)! : ℝ) * |(x : ℝ)| ≤ 8 ^ 4 * (eps c.p * eps c.p * (1 / 2) ^ 65) * (2 ^ 20 * ((2 : ℝ) ^ c.p * |L|)) :=
          mul_le_mul h7 hL0 (abs_nonneg _) (by positivity)
      _ = 8 ^ 4 * (1 / 2) ^ 65 * 2 ^ 20 * ((2 : ℝ) ^ c.p * eps c.p) * (eps c.p * |L|) := by ring
      _ = 8 ^ 4 * (1 / 2) ^ 65 * 2 ^ 20 * (eps c.p * |L|) := by rw [h8, mul_one]
      _ ≤ 1 / 512 * (eps c.p * |L|) := mul_le_mul_of_nonneg_right (by norm_num) (by positivity)
      _ = eps c.p / 512 * |L| := by ring
  have htail := tail_bound hL (4 * c.p) (r := 1 / 2) (by norm_num) (by norm_num) (by
    intro k hk
    refine le_trans (even_ratio (trig_even x m) hk) (mul_le_mul_of_nonneg_right ?_ (abs_nonneg _))
    rw [div_le_iff₀ (by positivity)]
    push_cast
    have := abs_nonneg (x : ℝ)
    nlinarith)
  rw [show (1 / 2 : ℝ) / (1 - 1 / 2) = 1 by norm_num, mul_one] at htail
  have h3 : |(s.z : ℝ) - psum S0 (trigTerm x m) (4 * c.p)| ≤ |L| / 2 := by
    refine le_trans hsum (le_trans ?_ (hlarge (4 * c.p)))
    rw [mul_comm (25 * (N : ℝ) * eps c.p)]
    apply mul_le_mul_of_nonneg_left (le_trans hfa _) hA0
    push_cast
    nlinarith
  have h4 : |L| / 4 ≤ |(s.z : ℝ)| := by
    have h5 : L - s.z = (L - S0 - ∑ j ∈ range (4 * c.p + 1), trigTerm x m j) + trigTerm x m (4 * c.p) + -(s.z - psum S0 (trigTerm x m) (4 * c.p)) := by
      rw [sum_range_succ]; unfold psum; ring
    have h6 : |L - s.z| ≤ |L - S0 - ∑ j ∈ range (4 * c.p + 1), trigTerm x m j| + |trigTerm x m (4 * c.p)| + |(s.z : ℝ) - psum S0 (trigTerm x m) (4 * c.p)| := by
      rw [h5]
      refine le_trans (abs_add_le _ _) ?_
      rw [abs_neg]
      have := abs_add_le (L - S0 - ∑ j ∈ range (4 * c.p + 1), trigTerm x m j) (trigTerm x m (4 * c.p))
      linarith
    have h7 := abs_sub_abs_le_abs_sub L (s.z : ℝ)
    have h8 : eps c.p / 512 * |L| ≤ 1 / 16 * |L| := mul_le_mul_of_nonneg_right (by have := eps_small hp12; linarith) (abs_nonneg _)
    have h9 := abs_nonneg L
    linarith
  have h5 : |(trigTau c (4 * c.p) s : ℝ)| ≤ 2 * |trigTerm x m (4 * c.p)| := by
    have h3 : |(trigTau c (4 * c.p) s : ℝ) - trigTerm x m (4 * c.p)| ≤ 1 * |trigTerm x m (4 * c.p)| :=
      le_trans hτ (mul_le_mul_of_nonneg_right (by push_cast; linarith) (abs_nonneg _))
    have := abs_sub_abs_le_abs_sub (trigTau c (4 * c.p) s : ℝ) (trigTerm x m (4 * c.p))
    linarith
  have h6 : eps c.p / 4 * (|L| / 4) ≤ eps c.p / 4 * |(s.z : ℝ)| := mul_le_mul_of_nonneg_left h4 (by linarith)
  have h7 := mul_nonneg he.le (abs_nonneg L)
  linarith

end Verif.Flt
