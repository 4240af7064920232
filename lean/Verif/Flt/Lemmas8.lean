import Mathlib.Analysis.SpecificLimits.Basic
import Verif.Flt.Lemmas5
import Verif.Flt.Lemmas7

/-! # Series: rounding errors and the end of the loop -/

namespace Verif.Flt
open Spec Finset
open Verif.Arr (R)

/-! ## Products of rounding errors -/

/-- `a` is `b` but for `k` roundings. -/
def Near (p k : ℕ) (a b : ℝ) : Prop := ∃ d : ℝ, a = b * d ∧ (1 - eps p) ^ k ≤ d ∧ d * (1 - eps p) ^ k ≤ 1

section
variable {p : ℕ}

theorem lo_pos (hp : 12 ≤ p) : 0 < 1 - eps p := by have := eps_small hp; linarith
theorem lo_le (p : ℕ) : 1 - eps p ≤ 1 := by have := eps_real p; linarith

theorem near_refl (a : ℝ) : Near p 0 a a := ⟨1, by simp, by simp, by simp⟩

theorem near_mono (hp : 12 ≤ p) {k l : ℕ} (h : k ≤ l) {a b : ℝ} (hn : Near p k a b) : Near p l a b := by
  obtain ⟨d, h1, h2, h3⟩ := hn
  have hl := lo_pos hp
  have hle : (1 - eps p) ^ l ≤ (1 - eps p) ^ k := pow_le_pow_of_le_one hl.le (lo_le p) h
  refine ⟨d, h1, le_trans hle h2, ?_⟩
  have hd : 0 ≤ d := le_trans (pow_nonneg hl.le _) h2
  exact le_trans (mul_le_mul_of_nonneg_left hle hd) h3

theorem near_rnd (hp : 12 ≤ p) {k : ℕ} {q : ℚ} {b : ℝ} (hn : Near p k q b) : Near p (k + 1) (rnd p q : ℚ) b := by
  obtain ⟨d, h1, h2, h3⟩ := hn
  have hl := lo_pos hp
  obtain ⟨e, h4, h5, h6⟩ := rnd_factor p q
  have h5' : 1 - eps p ≤ (e : ℝ) := by
    have : ((1 - 2 ^ (-(p : ℤ)) : ℚ) : ℝ) ≤ e := Rat.cast_le.2 h5
    push_cast at this; exact this
  have h6' : (e : ℝ) ≤ 1 + eps p := by
    have : (e : ℝ) ≤ ((1 + 2 ^ (-(p : ℤ)) : ℚ) : ℝ) := Rat.cast_le.2 h6
    push_cast at this; exact this
  have hd : 0 ≤ d := le_trans (pow_nonneg hl.le _) h2
  refine ⟨d * e, ?_, ?_, ?_⟩
  · rw [h4]; push_cast; rw [h1]; ring
  · rw [pow_succ]; exact mul_le_mul h2 h5' hl.le hd
  · rw [pow_succ]
    calc d * e * ((1 - eps p) ^ k * (1 - eps p)) = (d * (1 - eps p) ^ k) * (e * (1 - eps p)) := by ring
      _ ≤ 1 * 1 := by
        apply mul_le_mul h3 _ (mul_nonneg (le_trans hl.le h5') hl.le) zero_le_one
        nlinarith [sq_nonneg (eps p)]
      _ = 1 := by ring

theorem near_mul (hp : 12 ≤ p) {k l : ℕ} {a b a' b' : ℝ} (h : Near p k a b) (h' : Near p l a' b') : Near p (k + l) (a * a') (b * b') := by
  obtain ⟨d, h1, h2, h3⟩ := h
  obtain ⟨d', h1', h2', h3'⟩ := h'
  have hl := lo_pos hp
  have hd : 0 ≤ d := le_trans (pow_nonneg hl.le _) h2
  have hd' : 0 ≤ d' := le_trans (pow_nonneg hl.le _) h2'
  refine ⟨d * d', by rw [h1, h1']; ring, ?_, ?_⟩
  · rw [pow_add]; exact mul_le_mul h2 h2' (pow_nonneg hl.le _) hd
  · calc d * d' * (1 - eps p) ^ (k + l) = (d * (1 - eps p) ^ k) * (d' * (1 - eps p) ^ l) := by rw [pow_add]; ring
      _ ≤ 1 * 1 := mul_le_mul h3 h3' (mul_nonneg hd' (pow_nonneg hl.le _)) zero_le_one
      _ = 1 := by ring

theorem near_inv (hp : 12 ≤ p) {k : ℕ} {a b : ℝ} (h : Near p k a b) : Near p k a⁻¹ b⁻¹ := by
  obtain ⟨d, h1, h2, h3⟩ := h
  have hl := lo_pos hp
  have hd : 0 < d := lt_of_lt_of_le (pow_pos hl _) h2
  refine ⟨d⁻¹, by rw [h1, mul_inv], ?_, ?_⟩
  · rw [← one_div, le_div_iff₀ hd]; linarith
  · rw [inv_mul_le_iff₀ hd, mul_one]; exact h2

theorem near_div (hp : 12 ≤ p) {k l : ℕ} {a b a' b' : ℝ} (h : Near p k a b) (h' : Near p l a' b') : Near p (k + l) (a / a') (b / b') := by
  rw [div_eq_mul_inv, div_eq_mul_inv]; exact near_mul hp h (near_inv hp h')

theorem near_neg {k : ℕ} {a b : ℝ} (h : Near p k a b) : Near p k (-a) (-b) := by
  obtain ⟨d, h1, h2⟩ := h
  exact ⟨d, by rw [h1]; ring, h2⟩

theorem near_ne {k : ℕ} (hp : 12 ≤ p) {a b : ℝ} (h : Near p k a b) (hb : b ≠ 0) : a ≠ 0 := by
  obtain ⟨d, h1, h2, _⟩ := h
  have hl := lo_pos hp
  rw [h1]; exact mul_ne_zero hb (lt_of_lt_of_le (pow_pos hl _) h2).ne'

/-- Bernoulli. -/
theorem lo_pow (hp : 12 ≤ p) (k : ℕ) : 1 - k * eps p ≤ (1 - eps p) ^ k := by
  have := one_add_mul_le_pow (a := -eps p) (by have := eps_small hp; linarith) k
  rw [← sub_eq_add_neg] at this
  linarith

theorem near_err (hp : 12 ≤ p) {k : ℕ} (hk : k * eps p ≤ 1 / 2) {a b : ℝ} (h : Near p k a b) : |a - b| ≤ 2 * k * eps p * |b| := by
  obtain ⟨d, h1, h2, h3⟩ := h
  have hl := lo_pow hp k
  have he := eps_real p
  have hk0 : 0 ≤ k * eps p := by positivity
  have hd : 0 ≤ d := le_trans (by linarith) h2
  have h4 : d * (1 - k * eps p) ≤ 1 := le_trans (mul_le_mul_of_nonneg_left hl hd) h3
  have h5 : |d - 1| ≤ 2 * k * eps p := by
    rw [abs_le]
    constructor
    · nlinarith
    · by_contra hc
      push Not at hc
      nlinarith
  rw [h1, show b * d - b = (d - 1) * b by ring, abs_mul]
  exact mul_le_mul_of_nonneg_right h5 (abs_nonneg _)

end

/-! ## Sums -/

/-- The next partial sum. -/
theorem sum_step {z S A t τ e G K z' : ℝ} (he : 0 ≤ e) (hz : |z' - (z + τ)| ≤ e * |z + τ|) (h : |z - S| ≤ A * (K - 1)) (hS : |S| ≤ A)
    (hτ : |τ - t| ≤ G * |t|) (hG : G ≤ K - 1) : |z' - (S + t)| ≤ (A + |t|) * (K * (1 + e) - 1) ∧ |S + t| ≤ A + |t| := by
  have h1 : |S + t| ≤ A + |t| := le_trans (abs_add_le _ _) (by linarith)
  refine ⟨?_, h1⟩
  have h2 : |z + τ - (S + t)| ≤ (A + |t|) * (K - 1) := by
    rw [show z + τ - (S + t) = (z - S) + (τ - t) by ring]
    refine le_trans (abs_add_le _ _) ?_
    have : G * |t| ≤ (K - 1) * |t| := mul_le_mul_of_nonneg_right hG (abs_nonneg _)
    nlinarith
  have h3 : |z + τ| ≤ |z + τ - (S + t)| + |S + t| := by
    have := abs_add_le (z + τ - (S + t)) (S + t)
    rwa [sub_add_cancel] at this
  have h4 : |z' - (S + t)| ≤ |z' - (z + τ)| + |z + τ - (S + t)| := by
    have := abs_add_le (z' - (z + τ)) (z + τ - (S + t))
    rwa [sub_add_sub_cancel] at this
  have h5 : e * |z + τ| ≤ e * ((A + |t|) * (K - 1) + (A + |t|)) := mul_le_mul_of_nonneg_left (by linarith) he
  nlinarith

/-- Partial sums of a series that begins with `S0`. -/
noncomputable def psum (S0 : ℝ) (t : ℕ → ℝ) (n : ℕ) : ℝ := S0 + ∑ j ∈ range n, t j

/-- The sums of the sizes. -/
noncomputable def asum (S0 : ℝ) (t : ℕ → ℝ) (n : ℕ) : ℝ := |S0| + ∑ j ∈ range n, |t j|

theorem psum_succ (S0 : ℝ) (t : ℕ → ℝ) (n : ℕ) : psum S0 t (n + 1) = psum S0 t n + t n := by unfold psum; rw [sum_range_succ]; ring
theorem asum_succ (S0 : ℝ) (t : ℕ → ℝ) (n : ℕ) : asum S0 t (n + 1) = asum S0 t n + |t n| := by unfold asum; rw [sum_range_succ]; ring
theorem asum_nonneg (S0 : ℝ) (t : ℕ → ℝ) (n : ℕ) : 0 ≤ asum S0 t n := by unfold asum; positivity
theorem asum_mono (S0 : ℝ) (t : ℕ → ℝ) {m n : ℕ} (h : m ≤ n) : asum S0 t m ≤ asum S0 t n := by
  unfold asum
  have := sum_le_sum_of_subset_of_nonneg (f := fun j => |t j|) (range_subset_range.2 h) (fun _ _ _ => abs_nonneg _)
  linarith
theorem psum_le (S0 : ℝ) (t : ℕ → ℝ) (n : ℕ) : |psum S0 t n| ≤ asum S0 t n := by
  unfold psum asum
  exact le_trans (abs_add_le _ _) (add_le_add le_rfl (abs_sum_le_sum_abs _ _))

/-- What a loop that adds the terms `t` does in a turn. -/
def Adds {σ : Type} (c : Ctx) (body : ℕ → σ → R σ) (zOf : σ → ℚ) (advance : ℕ → σ → R σ) (N : ℕ) (T : ℕ → σ → Prop) (τ : ℕ → σ → ℚ) (t : ℕ → ℝ)
    (G : ℝ) : Prop :=
  ∀ i s, T i s → i < N → ∃ s1 s2, body i s = .ok s1 ∧ zOf s1 = rnd c.p (zOf s + τ i s) ∧ |(τ i s : ℝ) - t i| ≤ G * |t i| ∧
    advance (i + 1) s1 = .ok s2 ∧ zOf s2 = zOf s1 ∧ T (i + 1) s2

/-- What holds at the beginning of a turn. -/
structure SumInv {σ : Type} (c : Ctx) (zOf : σ → ℚ) (N : ℕ) (T : ℕ → σ → Prop) (S0 : ℝ) (t : ℕ → ℝ) (G : ℝ) (l : Loop) (s : σ) : Prop where
  max : l.maxIterations = N
  lt : l.i < N
  inv : T l.i s
  flt : IsFloat c.p (zOf s)
  sum : |(zOf s : ℝ) - psum S0 t l.i| ≤ asum S0 t l.i * ((1 + G) * (1 + eps c.p) ^ l.i - 1)
  prev : 1 ≤ l.i → l.prevZ = zOf s

section
variable {σ : Type} {c : Ctx} {body : ℕ → σ → R σ} {zOf : σ → ℚ} {advance : ℕ → σ → R σ} {N : ℕ} {T : ℕ → σ → Prop} {τ : ℕ → σ → ℚ} {t : ℕ → ℝ} {G S0 : ℝ}

theorem factor_ge (p : ℕ) {G : ℝ} (hG : 0 ≤ G) (n : ℕ) : G ≤ (1 + G) * (1 + eps p) ^ n - 1 := by
  have h1 : 1 ≤ (1 + eps p) ^ n := one_le_pow₀ (by have := eps_real p; linarith)
  nlinarith

theorem turn_sum (hG : 0 ≤ G) {l : Loop} {s s1 : σ} (hi : SumInv c zOf N T S0 t G l s)
    (hz : zOf s1 = rnd c.p (zOf s + τ l.i s)) (hτ : |(τ l.i s : ℝ) - t l.i| ≤ G * |t l.i|) :
    |(zOf s1 : ℝ) - psum S0 t (l.i + 1)| ≤ asum S0 t (l.i + 1) * ((1 + G) * (1 + eps c.p) ^ (l.i + 1) - 1) := by
  have hr := rnd_err_real c.p (zOf s + τ l.i s)
  rw [← hz] at hr
  push_cast at hr
  have := (sum_step (eps_real c.p).le hr hi.sum (psum_le S0 t l.i) hτ (factor_ge c.p hG l.i)).1
  rw [psum_succ, asum_succ, pow_succ]
  rwa [mul_assoc] at this

theorem turn_inv (hp : 1 ≤ c.p) (hG : 0 ≤ G) {l : Loop} {s s1 s2 : σ} (hi : SumInv c zOf N T S0 t G l s)
    (hz : zOf s1 = rnd c.p (zOf s + τ l.i s)) (hτ : |(τ l.i s : ℝ) - t l.i| ≤ G * |t l.i|) (hz2 : zOf s2 = zOf s1) (hT : T (l.i + 1) s2)
    (hne : l.i + 1 ≠ l.maxIterations) : SumInv c zOf N T S0 t G ⟨l.i + 1, l.maxIterations, rnd c.p (zOf s1)⟩ s2 := by
  have hf : IsFloat c.p (zOf s1) := by rw [hz]; exact rnd_isFloat hp _
  exact ⟨hi.max, by have h1 := hi.max; have h2 := hi.lt; show l.i + 1 < N; omega, hT, hz2 ▸ hf, by rw [hz2]; exact turn_sum hG hi hz hτ,
    fun _ => by rw [hz2]; exact rnd_self hp hf⟩

/-- The last term is small. -/
theorem last_term (hp : 12 ≤ c.p) {z z' q : ℚ} (hz : IsFloat c.p z) (h' : z' = rnd c.p (z + q))
    (h : |sub c.p z z'| ≤ 2 ^ (expo z' - (c.p : ℤ))) : |(q : ℝ)| ≤ 4 * eps c.p * (if z' = 0 then 1 else |(z' : ℝ)|) := by
  have he := eps_real c.p
  have hs := eps_small hp
  by_cases h0 : z' = 0
  · rw [if_pos h0]
    rw [h0, expo_zero] at h
    unfold sub at h
    rw [sub_zero, rnd_self (by omega) hz] at h
    have hq : z + q = 0 := by
      by_contra hc
      exact rnd_ne_zero (p := c.p) (by omega) hc (by rw [← h', h0])
    have hq' : q = -z := by linarith
    have h2 : ((|z| : ℚ) : ℝ) ≤ ((2 ^ (0 - (c.p : ℤ)) : ℚ) : ℝ) := Rat.cast_le.2 h
    push_cast at h2
    rw [zero_sub] at h2
    rw [hq']; push_cast; rw [abs_neg]
    have h3 : |(z : ℝ)| ≤ eps c.p := h2
    linarith
  · rw [if_neg h0]
    have h1 := expo_spec z' h0
    have h2 : |sub c.p z z'| ≤ 2 * 2 ^ (-(c.p : ℤ)) * |z'| := by
      refine le_trans h ?_
      rw [show expo z' - (c.p : ℤ) = -(c.p : ℤ) + 1 + (expo z' - 1) by ring, zpow_add₀ (by norm_num), zpow_add_one₀ (by norm_num)]
      have : (0 : ℚ) < 2 ^ (-(c.p : ℤ)) := by positivity
      nlinarith [h1.1]
    have h3 : |(sub c.p z z' : ℝ)| ≤ 2 * eps c.p * |(z' : ℝ)| := by
      have : ((|sub c.p z z'| : ℚ) : ℝ) ≤ ((2 * 2 ^ (-(c.p : ℤ)) * |z'| : ℚ) : ℝ) := Rat.cast_le.2 h2
      push_cast at this; exact this
    have h4 := rnd_err_real c.p (z - z')
    have h5 := rnd_err_real c.p (z + q)
    rw [← h'] at h5
    rw [show rnd c.p (z - z') = sub c.p z z' from rfl] at h4
    push_cast at h4 h5
    generalize (sub c.p z z' : ℝ) = D at *
    generalize (z : ℝ) = a at *
    generalize (z' : ℝ) = b at *
    generalize (q : ℝ) = r at *
    generalize eps c.p = e at *
    have h6 : |a - b| ≤ |D| + |D - (a - b)| := by
      have := abs_sub_abs_le_abs_sub (a - b) D
      rw [abs_sub_comm (a - b) D] at this; linarith
    have h7 : |a + r| ≤ |b| + |b - (a + r)| := by
      have := abs_sub_abs_le_abs_sub (a + r) b
      rw [abs_sub_comm (a + r) b] at this; linarith
    have h8 : |r| ≤ |a - b| + |b - (a + r)| := by
      have h := abs_add_le (-(a - b)) (-(b - (a + r)))
      rw [abs_neg, abs_neg, show -(a - b) + -(b - (a + r)) = r by ring] at h; exact h
    have hb := abs_nonneg b
    have h9 : |a - b| * (1 - e) ≤ 2 * e * |b| := by nlinarith
    have h10 : |a + r| * (1 - e) ≤ |b| := by nlinarith
    have h11 : |a - b| ≤ 2.5 * e * |b| := by
      by_contra hc
      push Not at hc
      have : 2.5 * e * |b| * (1 - e) < |a - b| * (1 - e) := mul_lt_mul_of_pos_right hc (by linarith)
      nlinarith [mul_nonneg he.le hb]
    have h12 : |a + r| ≤ 1.5 * |b| := by
      by_contra hc
      push Not at hc
      have : 1.5 * |b| * (1 - e) < |a + r| * (1 - e) := mul_lt_mul_of_pos_right hc (by linarith)
      nlinarith [mul_nonneg he.le hb]
    nlinarith

/-- When a loop that adds the terms `t` ends: the sum up to there, with an error, and the last term is small. -/
theorem series_end (hp : 12 ≤ c.p) (hG : 0 ≤ G) (hG1 : G ≤ 1) (ha : Adds c body zOf advance N T τ t G) {fuel : ℕ} {l : Loop} {s r : σ} (hi : SumInv c zOf N T S0 t G l s)
    (h : iterate c c.p body zOf advance fuel l s = .ok r) :
    ∃ n, 3 ≤ n ∧ n < N ∧ |(zOf r : ℝ) - psum S0 t (n + 1)| ≤ asum S0 t (n + 1) * ((1 + G) * (1 + eps c.p) ^ (n + 1) - 1) ∧
      (1 - G) * |t n| ≤ 4 * eps c.p * (if zOf r = 0 then 1 else |(zOf r : ℝ)|) := by
  obtain ⟨l', s', hi', hb, h3, h4⟩ := iterate_inv c c.p body zOf advance (SumInv c zOf N T S0 t G) (by
    intro l s s1 s2 hi h1 h2 hne
    obtain ⟨s1', s2', e1, e2, e3, e4, e5, e6⟩ := ha _ _ hi.inv hi.lt
    rw [h1] at e1; injection e1 with e1; subst e1
    rw [h2] at e4; injection e4 with e4; subst e4
    exact turn_inv (by omega) hG hi e2 e3 e5 e6 hne) fuel l s r hi h
  obtain ⟨s1', s2', e1, e2, e3, e4, e5, e6⟩ := ha _ _ hi'.inv hi'.lt
  rw [hb] at e1; injection e1 with e1; subst e1
  refine ⟨l'.i, h3, hi'.lt, turn_sum hG hi' e2 e3, ?_⟩
  rw [hi'.prev (by omega)] at h4
  have h5 := last_term hp hi'.flt e2 h4
  refine le_trans ?_ h5
  have := abs_sub_abs_le_abs_sub (t l'.i) (τ l'.i s' : ℝ)
  rw [abs_sub_comm] at this
  nlinarith

/-- The value is settled when the term is small. -/
theorem settled (hp : 12 ≤ c.p) {z q : ℚ} (hz : IsFloat c.p z) (hq : |(q : ℝ)| ≤ eps c.p / 4 * |(z : ℝ)|) :
    |sub c.p z (rnd c.p (z + q))| ≤ 2 ^ (expo (rnd c.p (z + q)) - (c.p : ℤ)) := by
  have he := eps_real c.p
  have hs := eps_small hp
  by_cases h0 : rnd c.p (z + q) = 0
  · have h1 : z + q = 0 := by
      by_contra hc
      exact rnd_ne_zero (p := c.p) (by omega) hc h0
    have h2 : (z : ℝ) = -(q : ℝ) := by
      have : z = -q := by linarith
      rw [this]; push_cast; ring
    rw [h2, abs_neg] at hq
    have h3 : |(q : ℝ)| = 0 := by
      have := abs_nonneg (q : ℝ)
      nlinarith
    have h4 : (z : ℝ) = 0 := by rw [h2, abs_eq_zero.1 h3]; simp
    have h5 : z = 0 := by exact_mod_cast h4
    unfold sub
    rw [h0, h5, sub_zero, rnd_zero, abs_zero]
    exact (two_zpow_pos _).le
  · have h1 := (expo_spec _ h0).2
    set w := rnd c.p (z + q) with hw
    have h2 : |((z + q : ℚ) : ℝ) - w| ≤ |(q : ℝ)| := by
      have := rnd_le (p := c.p) (by omega) (z + q) hz
      have h : ((|z + q - w| : ℚ) : ℝ) ≤ ((|z + q - z| : ℚ) : ℝ) := Rat.cast_le.2 this
      rw [add_sub_cancel_left] at h
      push_cast at h ⊢; exact h
    have h4 := rnd_err_real c.p (z - w)
    have goal : |(sub c.p z w : ℝ)| ≤ eps c.p * |(w : ℝ)| := by
      rw [show rnd c.p (z - w) = sub c.p z w from rfl] at h4
      push_cast at h2 h4
      generalize (sub c.p z w : ℝ) = D at *
      generalize (z : ℝ) = a at *
      generalize (w : ℝ) = b at *
      generalize (q : ℝ) = r at *
      generalize eps c.p = e at *
      have h6 : |a - b| ≤ 2 * |r| := by
        have h := abs_add_le (a + r - b) (-r)
        rw [abs_neg, show a + r - b + -r = a - b by ring] at h; linarith
      have h7 : |D| ≤ |a - b| + |D - (a - b)| := by
        have := abs_sub_abs_le_abs_sub D (a - b); linarith
      have h8 : |a| - |b| ≤ |a - b| := abs_sub_abs_le_abs_sub a b
      have ha := abs_nonneg a
      have h9 : |a - b| ≤ e / 2 * |a| := by linarith
      have h10 : |a| ≤ 1.1 * |b| := by nlinarith
      have hb := abs_nonneg b
      have h11 : |a - b| ≤ 0.55 * (e * |b|) := by nlinarith
      have h12 : |D| ≤ (1 + e) * |a - b| := by linarith
      have h13 : (1 + e) * |a - b| ≤ 1.1 * |a - b| := mul_le_mul_of_nonneg_right (by linarith) (abs_nonneg _)
      nlinarith [mul_nonneg he.le hb]
    have goal' : |sub c.p z w| ≤ 2 ^ (-(c.p : ℤ)) * |w| := by
      have : ((|sub c.p z w| : ℚ) : ℝ) ≤ ((2 ^ (-(c.p : ℤ)) * |w| : ℚ) : ℝ) := by push_cast; exact goal
      exact Rat.cast_le.1 this
    refine le_trans goal' ?_
    rw [show expo w - (c.p : ℤ) = -(c.p : ℤ) + expo w by ring, zpow_add₀ (by norm_num)]
    exact mul_le_mul_of_nonneg_left h1.le (two_zpow_pos _).le

theorem done_settled (c : Ctx) (l : Loop) (pz : ℕ) (z : ℚ) (h3 : 3 ≤ l.i) (h : |sub c.p l.prevZ z| ≤ 2 ^ (expo z - (pz : ℤ))) :
    l.done c pz z = .ok none := by
  unfold Loop.done
  dsimp only
  by_cases h1 : sub c.p l.prevZ z = 0 ∧ 3 ≤ l.i
  · rw [if_pos h1]
  · rw [if_neg h1, pow2_eq]
    have ha : absOf (sub c.p l.prevZ z) = |sub c.p l.prevZ z| := by
      unfold absOf
      split
      · rename_i h; rw [abs_of_neg h]
      · rename_i h; rw [abs_of_nonneg (not_lt.1 h)]
    rw [ha, if_pos ⟨h, h3⟩]

/-- The loop ends by the turn in which the term is small. -/
theorem series_converges (hp : 12 ≤ c.p) (hG : 0 ≤ G) (ha : Adds c body zOf advance N T τ t G) {n : ℕ} (h3 : 3 ≤ n) (hn : n < N)
    (hsmall : ∀ s, T n s → |(zOf s : ℝ) - psum S0 t n| ≤ asum S0 t n * ((1 + G) * (1 + eps c.p) ^ n - 1) → |(τ n s : ℝ)| ≤ eps c.p / 4 * |(zOf s : ℝ)|) :
    ∀ (fuel : ℕ) (l : Loop) (s : σ), SumInv c zOf N T S0 t G l s → l.i ≤ n → n < fuel + l.i →
      ∃ r, iterate c c.p body zOf advance fuel l s = .ok r
  | 0, l, s, hi, h1, h2 => by omega
  | fuel + 1, l, s, hi, h1, h2 => by
    obtain ⟨s1, s2, e1, e2, e3, e4, e5, e6⟩ := ha _ _ hi.inv hi.lt
    unfold iterate
    rw [e1, bindOk]
    have hmax := hi.max
    by_cases he : l.i = n
    · have hd : l.done c c.p (zOf s1) = .ok none := by
        apply done_settled c l c.p (zOf s1) (by omega)
        rw [hi.prev (by omega), e2]
        apply settled hp hi.flt
        rw [he]
        exact hsmall s (he ▸ hi.inv) (he ▸ hi.sum)
      rw [hd, bindOk]
      exact ⟨_, rfl⟩
    · rcases done_cases c l c.p (zOf s1) with ⟨hd, _⟩ | ⟨hd, hd'⟩ | ⟨hd, hne⟩
      · rw [hd, bindOk]; exact ⟨_, rfl⟩
      · omega
      · rw [hd, bindOk]
        dsimp only
        rw [e4, bindOk]
        exact series_converges hp hG ha h3 hn hsmall fuel _ s2 (turn_inv (by omega) hG hi e2 e3 e5 e6 hne) (by show l.i + 1 ≤ n; omega)
          (by show n < fuel + (l.i + 1); omega)

/-- The beginning of the loop. -/
theorem sum_start (k : ℕ) {s : σ} (hT : T 0 s) (hf : IsFloat c.p (zOf s)) (hz : (zOf s : ℝ) = S0) (hN : N = 10 + k * c.p) (hG : 0 ≤ G) :
    SumInv c zOf N T S0 t G (newLoop c k) s := by
  refine ⟨hN.symm, by show 0 < N; omega, hT, hf, ?_, fun h => by cases h⟩
  show |(zOf s : ℝ) - psum S0 t 0| ≤ asum S0 t 0 * _
  have : psum S0 t 0 = S0 := by unfold psum; simp
  rw [this, hz, sub_self, abs_zero]
  exact mul_nonneg (asum_nonneg _ _ _) (by show 0 ≤ (1 + G) * (1 + eps c.p) ^ 0 - 1; simpa using hG)

end

/-! ## What is left out -/

theorem tail_bound {t : ℕ → ℝ} {L r : ℝ} (hL : HasSum t L) (n : ℕ) (hr0 : 0 ≤ r) (hr1 : r < 1) (h : ∀ k, n ≤ k → |t (k + 1)| ≤ r * |t k|) :
    |L - ∑ j ∈ range (n + 1), t j| ≤ |t n| * (r / (1 - r)) := by
  have h1 : HasSum (fun k => t (k + (n + 1))) (L - ∑ j ∈ range (n + 1), t j) := (hasSum_nat_add_iff' (n + 1)).2 hL
  have h2 : ∀ k, |t (k + (n + 1))| ≤ |t n| * r * r ^ k := by
    intro k
    induction k with
    | zero =>
      have := h n le_rfl
      rw [zero_add, pow_zero, mul_one]; linarith
    | succ k ih =>
      have := h (k + (n + 1)) (by omega)
      rw [show k + 1 + (n + 1) = k + (n + 1) + 1 by omega, pow_succ]
      have := mul_le_mul_of_nonneg_left ih hr0
      linarith
  have h3 : HasSum (fun k => |t n| * r * r ^ k) (|t n| * r * (1 - r)⁻¹) := (hasSum_geometric_of_lt_one hr0 hr1).mul_left _
  have h4 : L - ∑ j ∈ range (n + 1), t j ≤ |t n| * r * (1 - r)⁻¹ := hasSum_le (fun k => le_trans (le_abs_self _) (h2 k)) h1 h3
  have h5 : -(L - ∑ j ∈ range (n + 1), t j) ≤ |t n| * r * (1 - r)⁻¹ := hasSum_le (fun k => le_trans (neg_le_abs _) (h2 k)) h1.neg h3
  rw [mul_assoc, ← div_eq_mul_inv] at h4 h5
  exact abs_le.2 ⟨by linarith, h4⟩

/-- All factors together. -/
theorem factor_le {p k n : ℕ} (hp : 12 ≤ p) {G : ℝ} (hG : G ≤ 2 * k * eps p) (h : (k + n) * eps p ≤ 1 / 8) :
    (1 + G) * (1 + eps p) ^ n - 1 ≤ (3 * k + 2 * n) * eps p := by
  have he := eps_real p
  have h1 : (1 + eps p) ^ n * (1 - eps p) ^ n ≤ 1 := by
    rw [← mul_pow]
    exact pow_le_one₀ (by have := eps_small hp; nlinarith) (by nlinarith)
  have h2 := lo_pow hp n
  have hk0 : 0 ≤ k * eps p := by positivity
  have hn0 : 0 ≤ n * eps p := by positivity
  have h3 : 0 < (1 + eps p) ^ n := by positivity
  have h4 : (1 + eps p) ^ n * (1 - n * eps p) ≤ 1 := le_trans (mul_le_mul_of_nonneg_left h2 h3.le) h1
  have h5 : (1 + eps p) ^ n ≤ 1 + 1.2 * (n * eps p) := by
    by_contra hc
    push Not at hc
    nlinarith
  have h6 : (1 + G) * (1 + eps p) ^ n ≤ (1 + 2 * (k * eps p)) * (1 + 1.2 * (n * eps p)) :=
    mul_le_mul (by linarith) h5 h3.le (by linarith)
  nlinarith

end Verif.Flt
