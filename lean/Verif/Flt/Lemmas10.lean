import Mathlib.Analysis.SpecialFunctions.Trigonometric.DerivHyp
import Verif.Flt.Lemmas9

/-! # Hyperbolic functions -/

namespace Verif.Flt
open Spec Finset
open Verif.Arr (R)
open scoped Nat

section
variable {σ : Type} {c : Ctx} {body : ℕ → σ → R σ} {zOf : σ → ℚ} {advance : ℕ → σ → R σ} {N : ℕ} {T : ℕ → σ → Prop} {τ : ℕ → σ → ℚ} {t : ℕ → ℝ} {S0 : ℝ}

/-- The end of a loop whose terms have at most six roundings per turn. -/
theorem six_end (hp : 16 ≤ c.p) (hN : N ≤ 10 * (c.p + 1)) (ha : Adds c body zOf advance N T τ t (2 * (6 * N : ℕ) * eps c.p)) {fuel : ℕ} {l : Loop} {s r : σ}
    (hi : SumInv c zOf N T S0 t (2 * (6 * N : ℕ) * eps c.p) l s) (h : iterate c c.p body zOf advance fuel l s = .ok r) :
    ∃ n, 3 ≤ n ∧ n < N ∧ |(zOf r : ℝ) - psum S0 t (n + 1)| ≤ asum S0 t (n + 1) * (20 * N * eps c.p) ∧ 20 * N * eps c.p ≤ 1 / 16 ∧
      ((zOf r = 0 → 1 ≤ asum S0 t (n + 1) ∨ t n = 0) → |t n| ≤ 5 * eps c.p * asum S0 t (n + 1)) := by
  have hp12 : 12 ≤ c.p := by omega
  have he := eps_real c.p
  have hb := bits_eps hp
  have hNr : (N : ℝ) ≤ 10 * (c.p + 1) := by exact_mod_cast hN
  have hNe : (N : ℝ) * eps c.p ≤ 170 / 65536 := by nlinarith
  have hG0 : 0 ≤ 2 * ((6 * N : ℕ) : ℝ) * eps c.p := by positivity
  obtain ⟨n, h3, hn, herr, hlast⟩ := series_end hp12 hG0 (by push_cast; linarith) ha hi h
  have hn' : ((n : ℝ) + 1) ≤ N := by exact_mod_cast hn
  have hf := factor_le (k := 6 * N) (n := n + 1) hp12 le_rfl (by push_cast; nlinarith)
  set A := asum S0 t (n + 1) with hA
  have hA0 : 0 ≤ A := asum_nonneg _ _ _
  have herr2 : |(zOf r : ℝ) - psum S0 t (n + 1)| ≤ A * (20 * N * eps c.p) := by
    refine le_trans herr (mul_le_mul_of_nonneg_left (le_trans hf ?_) hA0)
    push_cast
    nlinarith
  refine ⟨n, h3, hn, herr2, by linarith, fun hz => ?_⟩
  have herr3 := le_trans herr2 (mul_le_mul_of_nonneg_left (show 20 * N * eps c.p ≤ 1 / 16 by linarith) hA0)
  have hG1 : 2 * ((6 * N : ℕ) : ℝ) * eps c.p ≤ 1 / 16 := by push_cast; linarith
  by_cases h0 : zOf r = 0
  · rcases hz h0 with h1 | h1
    · exact term_small he.le herr3 (psum_le _ _ _) hG1 (ite_le _) (Or.inr h1) hlast
    · rw [h1, abs_zero]; positivity
  · exact term_small he.le herr3 (psum_le _ _ _) hG1 (ite_le _) (Or.inl (ite_eq h0).le) hlast

end

/-- Sizes of the terms of series in which every second power occurs. -/
def EvenTerms (x : ℝ) (m : ℕ) (t : ℕ → ℝ) : Prop := ∀ k, |t k| = |x| ^ (2 * k + m) / (2 * k + m)!

theorem even_succ {x : ℝ} {m : ℕ} {t : ℕ → ℝ} (h : EvenTerms x m t) (k : ℕ) :
    |t (k + 1)| = |x| ^ 2 / ((2 * k + m + 1) * (2 * k + m + 2)) * |t k| := by
  rw [h (k + 1), h k, show 2 * (k + 1) + m = 2 * k + m + 1 + 1 by ring, Nat.factorial_succ, Nat.factorial_succ, pow_succ, pow_succ]
  push_cast
  have : ((2 * k + m)! : ℝ) ≠ 0 := by positivity
  field_simp
  ring

theorem even_ratio {x : ℝ} {m : ℕ} {t : ℕ → ℝ} (h : EvenTerms x m t) {n k : ℕ} (hk : n ≤ k) :
    |t (k + 1)| ≤ |x| ^ 2 / ((2 * n + m + 1) * (2 * n + m + 2)) * |t k| := by
  rw [even_succ h]
  apply mul_le_mul_of_nonneg_right _ (abs_nonneg _)
  have : (n : ℝ) ≤ k := by exact_mod_cast hk
  apply div_le_div_of_nonneg_left (by positivity) (by positivity)
  apply mul_le_mul <;> first | linarith | positivity

theorem even_tail {x : ℝ} {m : ℕ} {t : ℕ → ℝ} (h : EvenTerms x m t) {L : ℝ} (hL : HasSum t L) {n : ℕ} (hx : |x| < 2 * n + m) :
    |L - ∑ j ∈ range (n + 1), t j| ≤ |t n| * ((2 * n + m) / 3) := by
  set q : ℝ := 2 * n + m with hq
  have hx0 := abs_nonneg x
  have hq0 : 0 < q := lt_of_le_of_lt hx0 hx
  have hr1 : |x| ^ 2 / ((q + 1) * (q + 2)) < 1 := by
    rw [div_lt_one (by positivity)]; nlinarith
  have := tail_bound hL n (r := |x| ^ 2 / ((q + 1) * (q + 2))) (by positivity) hr1 (fun k hk => even_ratio h hk)
  refine le_trans this (mul_le_mul_of_nonneg_left ?_ (abs_nonneg _))
  rw [show 1 - |x| ^ 2 / ((q + 1) * (q + 2)) = ((q + 1) * (q + 2) - |x| ^ 2) / ((q + 1) * (q + 2)) by field_simp,
    div_div_div_cancel_right₀ (by positivity), div_le_iff₀ (by nlinarith)]
  have : |x| ^ 2 ≤ q ^ 2 := by nlinarith
  nlinarith

theorem even_grow {x S0 : ℝ} {m : ℕ} {t : ℕ → ℝ} (h : EvenTerms x m t) {n : ℕ} (hx : (2 * n + m : ℝ) ≤ |x|) (hS : |S0| ≤ |t n|) :
    asum S0 t (n + 1) ≤ (n + 2) * |t n| := by
  unfold asum
  have : ∑ j ∈ range (n + 1), |t j| ≤ ∑ j ∈ range (n + 1), |t n| := by
    apply sum_le_sum
    intro j hj
    rw [h j, h n]
    exact pow_fact_grow (abs_nonneg _) (by have := mem_range.1 hj; omega) (by push_cast; exact hx)
  rw [sum_const, card_range, nsmul_eq_mul] at this
  push_cast at this
  linarith

/-- A loop without cancellation. -/
theorem hyp_end {c : Ctx} {advance : ℕ → Series → R Series} {T : ℕ → Series → Prop} {τ : ℕ → Series → ℚ} {t : ℕ → ℝ} {S0 x L : ℝ} {m N : ℕ} (hp : 16 ≤ c.p)
    (hN : N = 10 + 10 * c.p) (hm : m ≤ 2) (ht : EvenTerms x m t) (hL : HasSum t (L - S0)) (ha : Adds c (fun _ => seriesBody c) Series.z advance N T τ t (2 * (6 * N : ℕ) * eps c.p))
    (hS : ∀ n : ℕ, (2 * n + m : ℝ) ≤ |x| → |S0| ≤ |t n|) (hone : ∀ n, |psum S0 t n| = asum S0 t n) (hAL : ∀ n, asum S0 t n ≤ |L|)
    {fuel : ℕ} {s r : Series} (hT : T 0 s) (hf : IsFloat c.p s.z) (hz : (s.z : ℝ) = S0)
    (h : iterate c c.p (fun _ => seriesBody c) Series.z advance fuel (newLoop c 10) s = .ok r) : |(r.z : ℝ) - L| ≤ 250 * (c.p + 1) * eps c.p * |L| := by
  have he := eps_real c.p
  have hG0 : 0 ≤ 2 * ((6 * N : ℕ) : ℝ) * eps c.p := by positivity
  obtain ⟨n, h3, hn, herr, hsmall, hlast⟩ := six_end hp (by omega) ha (sum_start 10 hT hf hz hN hG0) h
  have hNr : (N : ℝ) = 10 * (c.p + 1) := by rw [hN]; push_cast; ring
  have hNe : (N : ℝ) * eps c.p ≤ 170 / 65536 := by
    have := bits_eps hp
    rw [hNr]; linarith
  set A := asum S0 t (n + 1) with hA
  have hA0 : 0 ≤ A := asum_nonneg _ _ _
  have hn' : ((n : ℝ) + 1) ≤ N := by exact_mod_cast hn
  have hm' : (m : ℝ) ≤ 2 := by exact_mod_cast hm
  have hterm := hlast (fun h0 => by
    right
    rw [h0, Rat.cast_zero, zero_sub, abs_neg, hone] at herr
    have h1 : A ≤ A * (1 / 16) := le_trans herr (mul_le_mul_of_nonneg_left hsmall hA0)
    have h2 : A = 0 := by linarith
    have h3 : |t n| ≤ A := by
      rw [hA, asum_succ]
      have := asum_nonneg S0 t n
      linarith
    rw [h2] at h3
    exact abs_nonpos_iff.1 h3)
  have htail : |L - S0 - ∑ j ∈ range (n + 1), t j| ≤ 5 * eps c.p * A * N := by
    by_cases hx : |x| < 2 * n + m
    · refine le_trans (even_tail ht hL hx) (mul_le_mul hterm (by linarith) (by positivity) (by positivity))
    · push Not at hx
      have h1 := even_grow ht hx (hS n hx)
      have h2 : ((n : ℝ) + 2) * |t n| ≤ (N + 1) * (5 * eps c.p * A) := mul_le_mul (by linarith) hterm (abs_nonneg _) (by positivity)
      have h4 : ((N : ℝ) + 1) * (5 * eps c.p) ≤ 1 / 2 := by have := eps_small (p := c.p) (by omega); nlinarith
      have h5 : A = 0 := by nlinarith
      have h6 : t n = 0 := by
        rw [h5, mul_zero] at hterm
        exact abs_nonpos_iff.1 hterm
      exfalso
      have h7 := ht n
      rw [h6, abs_zero] at h7
      have h8 : 0 < |x| ^ (2 * n + m) / ((2 * n + m)! : ℝ) := by
        have : 0 < |x| := by
          have : (3 : ℝ) ≤ n := by exact_mod_cast h3
          have : (0 : ℝ) ≤ m := by positivity
          linarith
        positivity
      linarith
  have hfin : |(r.z : ℝ) - L| ≤ A * (20 * N * eps c.p) + 5 * eps c.p * A * N := by
    have h1 := abs_add_le ((r.z : ℝ) - psum S0 t (n + 1)) (-(L - S0 - ∑ j ∈ range (n + 1), t j))
    rw [abs_neg] at h1
    have h2 : (r.z : ℝ) - psum S0 t (n + 1) + -(L - S0 - ∑ j ∈ range (n + 1), t j) = r.z - L := by unfold psum; ring
    rw [h2] at h1
    linarith
  refine le_trans hfin ?_
  have : A * (20 * N * eps c.p) + 5 * eps c.p * A * N = 250 * (c.p + 1) * eps c.p * A := by rw [hNr]; ring
  rw [this]
  exact mul_le_mul_of_nonneg_left (hAL _) (by positivity)

/-! ## The two loops -/

/-- The terms. -/
noncomputable def hypTerm (x : ℝ) (m i : ℕ) : ℝ := x ^ (2 * i + m) / (2 * i + m)!

theorem hyp_even (x : ℝ) (m : ℕ) : EvenTerms x m (hypTerm x m) := by
  intro k
  unfold hypTerm
  rw [abs_div, abs_pow, Nat.abs_cast]

/-- The variables of the loops. -/
def HypInv (c : Ctx) (x : ℚ) (m i : ℕ) (s : Series) : Prop := Near c.p (2 * i + 1) s.xN ((x : ℝ) ^ (2 * i + m)) ∧ Near c.p (4 * i) s.fact ((2 * i + m)! : ℕ)

theorem hyp_power {c : Ctx} (hp : 12 ≤ c.p) {x y : ℚ} {m i : ℕ} (h : Near c.p (2 * i + 1) y ((x : ℝ) ^ (2 * i + m))) :
    Near c.p (2 * (i + 1) + 1) (mul c.p (mul c.p y x) x : ℚ) ((x : ℝ) ^ (2 * (i + 1) + m)) := by
  unfold mul
  apply near_rnd hp
  push_cast
  rw [show 2 * (i + 1) + m = 2 * i + m + 1 + 1 by ring, pow_succ]
  refine near_mul hp (l := 0) (k := 2 * (i + 1)) ?_ (near_refl _)
  apply near_rnd hp
  push_cast
  rw [pow_succ]
  exact near_mul hp (l := 0) h (near_refl _)

theorem hyp_fact {c : Ctx} (hp : 12 ≤ c.p) {y a b : ℚ} {m i : ℕ} (h : Near c.p (4 * i) y ((2 * i + m)! : ℕ)) (ha : a = ((2 * i + m + 1 : ℕ) : ℚ)) (hb : b = ((2 * i + m + 2 : ℕ) : ℚ)) :
    Near c.p (4 * (i + 1)) (mul c.p (mul c.p y (rnd c.p a)) (rnd c.p b) : ℚ) ((2 * (i + 1) + m)! : ℕ) := by
  unfold mul
  rw [show 4 * (i + 1) = (4 * i + 1 + 1 + 1) + 1 by ring, show 2 * (i + 1) + m = 2 * i + m + 1 + 1 by ring, Nat.factorial_succ, Nat.factorial_succ]
  apply near_rnd hp
  push_cast
  have h1 : Near c.p (4 * i + 1 + 1) (rnd c.p (y * rnd c.p a) : ℚ) (((2 * i + m : ℝ) + 1) * (2 * i + m)!) := by
    apply near_rnd hp
    push_cast
    rw [mul_comm ((2 * i + m : ℝ) + 1)]
    refine near_mul hp (l := 1) h (near_rnd hp (k := 0) ?_)
    rw [ha]; push_cast
    exact near_refl _
  rw [mul_comm ((2 * i + m : ℝ) + 1 + 1)]
  refine near_mul hp (l := 1) h1 (near_rnd hp (k := 0) ?_)
  rw [hb]; push_cast
  rw [show (2 * i + m : ℝ) + 1 + 1 = 2 * i + m + 2 by ring]
  exact near_refl _

theorem hyp_adds {c : Ctx} {x : ℚ} {m N : ℕ} (hp : 12 ≤ c.p) (hN : (6 * N : ℕ) * eps c.p ≤ 1 / 2) {advance : ℕ → Series → R Series}
    (hadv : ∀ i s, ∃ a b, a = ((2 * i + m + 1 : ℕ) : ℚ) ∧ b = ((2 * i + m + 2 : ℕ) : ℚ) ∧
      advance (i + 1) s = .ok { s with xN := mul c.p (mul c.p s.xN x) x, fact := mul c.p (mul c.p s.fact (rnd c.p a)) (rnd c.p b) }) :
    Adds c (fun _ => seriesBody c) Series.z advance N (HypInv c x m) (tau c) (hypTerm x m) (2 * (6 * N : ℕ) * eps c.p) := by
  intro i s ⟨h1, h2⟩ hi
  obtain ⟨hf, ht⟩ := series_turn hp h1 h2 (by positivity) (m := 6 * N) (by omega) hN i
  obtain ⟨a, b, ha, hb, h⟩ := hadv i { s with z := add c.p s.z (rnd c.p (s.xN / s.fact)) }
  exact ⟨_, _, seriesBody_ok hf, rfl, ht, h, rfl, hyp_power hp h1, hyp_fact hp h2 ha hb⟩

theorem sinh_step (c : Ctx) (x : ℚ) (i : ℕ) (s : Series) : ∃ a b, a = ((2 * i + 1 + 1 : ℕ) : ℚ) ∧ b = ((2 * i + 1 + 2 : ℕ) : ℚ) ∧
    sinhAdvance c x (i + 1) s = .ok { s with xN := mul c.p (mul c.p s.xN x) x, fact := mul c.p (mul c.p s.fact (rnd c.p a)) (rnd c.p b) } :=
  ⟨2 * ((i + 1 : ℕ) : ℚ), 2 * ((i + 1 : ℕ) : ℚ) + 1, by push_cast; ring, by push_cast; ring, rfl⟩

theorem cosh_step (c : Ctx) (x : ℚ) (i : ℕ) (s : Series) : ∃ a b, a = ((2 * i + 2 + 1 : ℕ) : ℚ) ∧ b = ((2 * i + 2 + 2 : ℕ) : ℚ) ∧
    coshAdvance c x (i + 1) s = .ok { s with xN := mul c.p (mul c.p s.xN x) x, fact := mul c.p (mul c.p s.fact (rnd c.p a)) (rnd c.p b) } :=
  ⟨2 * ((i + 1 : ℕ) : ℚ) + 1, 2 * ((i + 1 : ℕ) : ℚ) + 2, by push_cast; ring, by push_cast; ring, rfl⟩

theorem six_half {c : Ctx} (hp : 16 ≤ c.p) {N : ℕ} (hN : N ≤ 10 * (c.p + 1)) : ((6 * N : ℕ) : ℝ) * eps c.p ≤ 1 / 2 := by
  have he := eps_real c.p
  have hb := bits_eps hp
  have hNr : (N : ℝ) ≤ 10 * (c.p + 1) := by exact_mod_cast hN
  push_cast
  nlinarith

theorem sinh_hasSum (x : ℝ) : HasSum (hypTerm x 1) (Real.sinh x - 0) := by rw [sub_zero]; exact Real.hasSum_sinh x

theorem cosh_hasSum (x : ℝ) : HasSum (hypTerm x 2) (Real.cosh x - 1) := by
  have := (hasSum_nat_add_iff' 1).2 (Real.hasSum_cosh x)
  have h2 : HasSum (fun n => x ^ (2 * (n + 1)) / ((2 * (n + 1))! : ℝ)) (Real.cosh x - 1) := by simpa using this
  exact h2

/-- Odd terms have the sign of the argument. -/
theorem hyp_odd (x : ℝ) (j : ℕ) : hypTerm x 1 j = (if 0 ≤ x then 1 else -1) * |hypTerm x 1 j| := by
  rw [hyp_even x 1 j]
  unfold hypTerm
  split
  · rename_i h; rw [abs_of_nonneg h, one_mul]
  · rename_i h; rw [abs_of_nonpos (by linarith), Odd.neg_pow ⟨j, rfl⟩]; ring

theorem floatSinh_error {c : Ctx} {x : ℚ} (hp : 16 ≤ c.p) (hx : IsFloat c.p x) {fuel : ℕ} {z : ℚ} (h : floatSinh c fuel x = .ok z) :
    |(z : ℝ) - Real.sinh x| ≤ 250 * (c.p + 1) * eps c.p * |Real.sinh x| := by
  have hp1 : 1 ≤ c.p := by omega
  unfold floatSinh at h
  obtain ⟨s, hs, h⟩ := bind_eq_ok h
  injection h with h
  subst h
  rw [rnd_one hp1, rnd_self hp1 hx] at hs
  have hone : ∀ n, |psum 0 (hypTerm x 1) n| = asum 0 (hypTerm x 1) n := by
    intro n
    unfold psum asum
    rw [abs_zero, zero_add, zero_add, sum_congr rfl (fun j _ => hyp_odd (x : ℝ) j), ← mul_sum, abs_mul]
    rw [abs_of_nonneg (a := ∑ j ∈ range n, |hypTerm (x : ℝ) 1 j|) (sum_nonneg fun _ _ => abs_nonneg _)]
    split <;> simp
  refine hyp_end hp (N := 10 + 10 * c.p) rfl (by omega) (hyp_even x 1) (sinh_hasSum x) (hyp_adds (x := x) (by omega) (six_half hp (by omega)) (sinh_step c x)) ?_ hone ?_
    (s := ⟨x, 1, 0⟩) ⟨?_, ?_⟩ (isFloat_zero _) (by simp) hs
  · intro n _; rw [abs_zero]; exact abs_nonneg _
  · intro n
    have h1 : HasSum (fun j => |hypTerm (x : ℝ) 1 j|) |Real.sinh x| := by
      have h2 := sinh_hasSum (x : ℝ)
      rw [sub_zero] at h2
      have h3 := h2.mul_left (if 0 ≤ (x : ℝ) then 1 else -1)
      have h4 : |Real.sinh x| = (if 0 ≤ (x : ℝ) then 1 else -1) * Real.sinh x := by
        split
        · rename_i h; rw [abs_of_nonneg (Real.sinh_nonneg_iff.2 h), one_mul]
        · rename_i h; rw [abs_of_nonpos (Real.sinh_nonpos_iff.2 (by linarith))]; ring
      rw [h4]
      have h5 : (fun j => |hypTerm (x : ℝ) 1 j|) = fun j => (if 0 ≤ (x : ℝ) then 1 else -1) * hypTerm (x : ℝ) 1 j := by
        funext j
        conv_rhs => rw [hyp_odd (x : ℝ) j]
        split <;> ring
      rw [h5]
      exact h3
    unfold asum
    rw [abs_zero, zero_add]
    exact sum_le_hasSum _ (fun _ _ => abs_nonneg _) h1
  · exact near_mono (k := 0) (by omega) (by omega) (by simpa using near_refl (p := c.p) (x : ℝ))
  · simpa using near_refl (p := c.p) (1 : ℝ)

theorem floatCosh_error {c : Ctx} {x : ℚ} (hp : 16 ≤ c.p) (hx : IsFloat c.p x) {fuel : ℕ} {z : ℚ} (h : floatCosh c fuel x = .ok z) :
    |(z : ℝ) - Real.cosh x| ≤ 250 * (c.p + 1) * eps c.p * Real.cosh x := by
  have hp1 : 1 ≤ c.p := by omega
  unfold floatCosh at h
  obtain ⟨s, hs, h⟩ := bind_eq_ok h
  injection h with h
  subst h
  rw [rnd_one hp1, rnd_self hp1 hx, rnd_two hp1] at hs
  have hcosh : |Real.cosh x| = Real.cosh x := abs_of_pos (Real.cosh_pos _)
  have hterm : ∀ j, 0 ≤ hypTerm (x : ℝ) 2 j := by
    intro j
    unfold hypTerm
    have : Even (2 * j + 2) := ⟨j + 1, by ring⟩
    have := this.pow_nonneg (x : ℝ)
    positivity
  have hone : ∀ n, |psum 1 (hypTerm x 2) n| = asum 1 (hypTerm x 2) n := by
    intro n
    unfold psum asum
    rw [abs_of_nonneg (by have := sum_nonneg (s := range n) (fun j _ => hterm j); linarith), abs_one]
    congr 1
    exact sum_congr rfl fun j _ => (abs_of_nonneg (hterm j)).symm
  have goal : |(s.z : ℝ) - Real.cosh x| ≤ 250 * (c.p + 1) * eps c.p * |Real.cosh x| := ?_
  · rwa [hcosh] at goal
  refine hyp_end hp (N := 10 + 10 * c.p) rfl (by omega) (hyp_even x 2) (cosh_hasSum x) (hyp_adds (x := x) (by omega) (six_half hp (by omega)) (cosh_step c x)) ?_ hone ?_
    (s := ⟨mul c.p x x, 2, 1⟩) ⟨?_, ?_⟩ (isFloat_one hp1) (by simp) hs
  · intro n hn
    rw [hyp_even x 2 n, abs_one]
    have := pow_fact_grow (abs_nonneg (x : ℝ)) (j := 0) (n := 2 * n + 2) (by omega) (by push_cast at hn ⊢; exact hn)
    simpa using this
  · intro n
    rw [hcosh]
    have h1 := sum_le_hasSum (range n) (fun j _ => hterm j) (cosh_hasSum (x : ℝ))
    unfold asum
    rw [abs_one, sum_congr rfl fun j _ => abs_of_nonneg (hterm j)]
    linarith
  · show Near c.p 1 (mul c.p x x : ℚ) ((x : ℝ) ^ 2)
    unfold mul
    apply near_rnd (by omega)
    push_cast
    rw [pow_two]
    exact near_refl _
  · simpa using near_refl (p := c.p) (2 : ℝ)

/-! ## The end of the loops -/

theorem tiny_term {p : ℕ} {a : ℝ} (ha : 0 ≤ a) (hx : a ≤ 4 * p) {q : ℕ} (hq : 15 * p + 9 ≤ q) : a ^ q / q ! ≤ eps p / 512 := by
  refine le_trans (far_term ha (q := 8 * p) (by push_cast; linarith) (by omega)) ?_
  have h1 : Real.exp a ≤ 64 ^ p := by
    calc Real.exp a ≤ Real.exp (p * (2 + 2)) := Real.exp_le_exp.2 (by linarith)
      _ = (Real.exp 2 * Real.exp 2) ^ p := by rw [Real.exp_nat_mul, Real.exp_add]
      _ ≤ 64 ^ p := pow_le_pow_left₀ (by positivity) (by have := exp_two_le; have := Real.exp_pos 2; nlinarith) _
  have h2 : ((1 : ℝ) / 2) ^ (q - 8 * p) ≤ (1 / 2) ^ (6 * p + p + 9) := pow_le_pow_of_le_one (by norm_num) (by norm_num) (by omega)
  have h3 : (64 : ℝ) ^ p * (1 / 2) ^ (6 * p) = 1 := by rw [pow_mul, ← mul_pow]; norm_num
  have h4 : ((1 : ℝ) / 2) ^ p = eps p := by unfold eps; rw [zpow_neg, zpow_natCast, one_div, inv_pow]
  calc Real.exp a * (1 / 2) ^ (q - 8 * p) ≤ 64 ^ p * (1 / 2) ^ (6 * p + p + 9) := mul_le_mul h1 h2 (by positivity) (by positivity)
    _ = (64 ^ p * (1 / 2) ^ (6 * p)) * ((1 / 2) ^ p * (1 / 2) ^ 9) := by rw [pow_add, pow_add]; ring
    _ = eps p / 512 := by rw [h3, h4]; norm_num; ring

theorem hyp_ok {c : Ctx} {x : ℚ} {m N : ℕ} {S0 : ℝ} {advance : ℕ → Series → R Series} (hp : 16 ≤ c.p) (hN : N = 10 + 10 * c.p)
    (ha : Adds c (fun _ => seriesBody c) Series.z advance N (HypInv c x m) (tau c) (hypTerm x m) (2 * (6 * N : ℕ) * eps c.p))
    (hone : ∀ n, |psum S0 (hypTerm x m) n| = asum S0 (hypTerm x m) n)
    (hterm : |hypTerm x m (8 * c.p + 5)| ≤ eps c.p / 512 * asum S0 (hypTerm x m) (8 * c.p + 5))
    {fuel : ℕ} (hfu : 10 + 10 * c.p ≤ fuel) {s : Series} (hT : HypInv c x m 0 s) (hf : IsFloat c.p s.z) (hz : (s.z : ℝ) = S0) :
    ∃ r, iterate c c.p (fun _ => seriesBody c) Series.z advance fuel (newLoop c 10) s = .ok r := by
  have hp12 : 12 ≤ c.p := by omega
  have he := eps_real c.p
  have hG0 : 0 ≤ 2 * ((6 * N : ℕ) : ℝ) * eps c.p := by positivity
  have hNr : (N : ℝ) = 10 * (c.p + 1) := by rw [hN]; push_cast; ring
  have hNe : (N : ℝ) * eps c.p ≤ 170 / 65536 := by
    have := bits_eps hp
    rw [hNr]; linarith
  refine series_converges (S0 := S0) hp12 hG0 ha (n := 8 * c.p + 5) (by omega) (by omega) ?_ fuel (newLoop c 10) s (sum_start 10 hT hf hz hN hG0)
    (Nat.zero_le _) (by show 8 * c.p + 5 < fuel + 0; omega)
  intro s ⟨h1, h2⟩ hsum
  obtain ⟨_, hτ⟩ := series_turn hp12 h1 h2 (by positivity) (m := 6 * N) (by omega) (six_half hp (by omega)) (8 * c.p + 5)
  have hfa := factor_le (k := 6 * N) (n := 8 * c.p + 5) hp12 le_rfl (by push_cast; nlinarith)
  set A := asum S0 (hypTerm x m) (8 * c.p + 5) with hA
  have hA0 : 0 ≤ A := asum_nonneg _ _ _
  have h3 : |(s.z : ℝ) - psum S0 (hypTerm x m) (8 * c.p + 5)| ≤ A * (1 / 2) := by
    refine le_trans hsum (mul_le_mul_of_nonneg_left (le_trans hfa ?_) hA0)
    push_cast
    nlinarith
  have h4 : A / 2 ≤ |(s.z : ℝ)| := by
    have := abs_sub_abs_le_abs_sub (psum S0 (hypTerm x m) (8 * c.p + 5)) (s.z : ℝ)
    rw [abs_sub_comm, hone, ← hA] at this
    linarith
  have h5 : |(tau c (8 * c.p + 5) s : ℝ)| ≤ 2 * |hypTerm x m (8 * c.p + 5)| := by
    have h3 : |(tau c (8 * c.p + 5) s : ℝ) - hypTerm x m (8 * c.p + 5)| ≤ 1 * |hypTerm x m (8 * c.p + 5)| :=
      le_trans hτ (mul_le_mul_of_nonneg_right (by push_cast; linarith) (abs_nonneg _))
    have := abs_sub_abs_le_abs_sub (tau c (8 * c.p + 5) s : ℝ) (hypTerm x m (8 * c.p + 5))
    linarith
  have h6 : eps c.p / 4 * (A / 2) ≤ eps c.p / 4 * |(s.z : ℝ)| := mul_le_mul_of_nonneg_left h4 (by linarith)
  have h7 := mul_nonneg he.le hA0
  nlinarith

theorem sinh_one (x : ℝ) (n : ℕ) : |psum 0 (hypTerm x 1) n| = asum 0 (hypTerm x 1) n := by
  unfold psum asum
  rw [abs_zero, zero_add, zero_add, sum_congr rfl (fun j _ => hyp_odd x j), ← mul_sum, abs_mul]
  rw [abs_of_nonneg (a := ∑ j ∈ range n, |hypTerm x 1 j|) (sum_nonneg fun _ _ => abs_nonneg _)]
  split <;> simp

theorem cosh_nonneg (x : ℝ) (j : ℕ) : 0 ≤ hypTerm x 2 j := by
  unfold hypTerm
  have : Even (2 * j + 2) := ⟨j + 1, by ring⟩
  have := this.pow_nonneg x
  positivity

theorem cosh_one (x : ℝ) (n : ℕ) : |psum 1 (hypTerm x 2) n| = asum 1 (hypTerm x 2) n := by
  unfold psum asum
  rw [abs_of_nonneg (by have := sum_nonneg (s := range n) (fun j _ => cosh_nonneg x j); linarith), abs_one]
  congr 1
  exact sum_congr rfl fun j _ => (abs_of_nonneg (cosh_nonneg x j)).symm

theorem sinh_start {c : Ctx} (hp : 16 ≤ c.p) (x : ℚ) : HypInv c x 1 0 ⟨x, 1, 0⟩ :=
  ⟨near_mono (k := 0) (by omega) (by omega) (by simpa using near_refl (p := c.p) (x : ℝ)), by simpa using near_refl (p := c.p) (1 : ℝ)⟩

theorem cosh_start {c : Ctx} (hp : 16 ≤ c.p) (x : ℚ) : HypInv c x 2 0 ⟨mul c.p x x, 2, 1⟩ := by
  refine ⟨?_, by simpa using near_refl (p := c.p) (2 : ℝ)⟩
  show Near c.p 1 (mul c.p x x : ℚ) ((x : ℝ) ^ 2)
  unfold mul
  apply near_rnd (by omega)
  push_cast
  rw [pow_two]
  exact near_refl _

theorem floatSinh_ok {c : Ctx} {x : ℚ} (hp : 16 ≤ c.p) (hx : IsFloat c.p x) (hx1 : |x| ≤ 4 * c.p) {fuel : ℕ} (hfu : 10 + 10 * c.p ≤ fuel) :
    ∃ z, floatSinh c fuel x = .ok z := by
  have hp1 : 1 ≤ c.p := by omega
  have hx1' : |(x : ℝ)| ≤ 4 * c.p := by exact_mod_cast hx1
  obtain ⟨r, hr⟩ := hyp_ok hp rfl (hyp_adds (x := x) (m := 1) (by omega) (six_half hp (by omega)) (sinh_step c x)) (sinh_one x) (by
    have h1 : |(x : ℝ)| ≤ asum 0 (hypTerm x 1) (8 * c.p + 5) := by
      refine le_trans ?_ (asum_mono 0 (hypTerm (x : ℝ) 1) (m := 1) (by omega))
      unfold asum
      rw [sum_range_one, hyp_even]
      simp
    rw [hyp_even]
    have h2 := tiny_term (abs_nonneg (x : ℝ)) hx1' (q := 2 * (8 * c.p + 5)) (by omega)
    have h3 : |(x : ℝ)| ^ (2 * (8 * c.p + 5) + 1) / ((2 * (8 * c.p + 5) + 1)! : ℝ) ≤ |(x : ℝ)| ^ (2 * (8 * c.p + 5)) / ((2 * (8 * c.p + 5))! : ℝ) * |(x : ℝ)| := by
      rw [pow_succ, mul_div_right_comm]
      apply mul_le_mul_of_nonneg_right _ (abs_nonneg _)
      apply div_le_div_of_nonneg_left (by positivity) (by positivity)
      exact_mod_cast Nat.factorial_le (by omega)
    refine le_trans h3 (mul_le_mul h2 h1 (abs_nonneg _) (by have := eps_real c.p; positivity))) hfu (sinh_start hp x) (isFloat_zero _) (by simp)
  refine ⟨r.z, ?_⟩
  unfold floatSinh
  rw [rnd_one hp1, rnd_self hp1 hx, hr]
  rfl

theorem floatCosh_ok {c : Ctx} {x : ℚ} (hp : 16 ≤ c.p) (hx : IsFloat c.p x) (hx1 : |x| ≤ 4 * c.p) {fuel : ℕ} (hfu : 10 + 10 * c.p ≤ fuel) :
    ∃ z, floatCosh c fuel x = .ok z := by
  have hp1 : 1 ≤ c.p := by omega
  have hx1' : |(x : ℝ)| ≤ 4 * c.p := by exact_mod_cast hx1
  obtain ⟨r, hr⟩ := hyp_ok hp rfl (hyp_adds (x := x) (m := 2) (by omega) (six_half hp (by omega)) (cosh_step c x)) (cosh_one x) (by
    have h1 : 1 ≤ asum 1 (hypTerm x 2) (8 * c.p + 5) := by
      refine le_trans ?_ (asum_mono 1 (hypTerm (x : ℝ) 2) (m := 0) (by omega))
      unfold asum
      simp
    rw [hyp_even]
    have h2 := tiny_term (abs_nonneg (x : ℝ)) hx1' (q := 2 * (8 * c.p + 5) + 2) (by omega)
    have := eps_real c.p
    nlinarith) hfu (cosh_start hp x) (isFloat_one hp1) (by simp)
  refine ⟨r.z, ?_⟩
  unfold floatCosh
  rw [rnd_one hp1, rnd_self hp1 hx, rnd_two hp1, hr]
  rfl

end Verif.Flt
