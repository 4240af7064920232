import Verif.Cell.Lemmas9
import Verif.Cell.Power

/-!
# Whole powers of complex numbers
-/

namespace Verif.Cell
open Verif.Arr (R)
open Verif.Flt
open Verif.Flt.Spec (IsFloat)

theorem arith_cases (c : Ctx) (f : ℚ → ℚ → ℚ) (u v : PS) :
    (arith c f u v).val = f u.val v.val ∨ (arith c f u v).val = rnd c.p (f (u.float c).val (v.float c).val) := by
  cases u with
  | flt x => right; cases v <;> simp only [arith, shrinkF_val]
  | exact a =>
    cases v with
    | flt x => right; simp only [arith, shrinkF_val]
    | exact b => left; rfl

theorem float_bound (c : Ctx) (u : PS) : |((u.float c).val : ℝ)| ≤ (1 + eps c.p) * |(u.val : ℝ)| := by
  have h1 := float_err c u
  have h2 := abs_add_le (((u.float c).val : ℝ) - u.val) u.val
  rw [sub_add_cancel] at h2
  linarith

theorem mulS_err {c : Ctx} (hes : eps c.p ≤ 1 / 1000) (u v : PS) : |((arith c (· * ·) u v).val : ℝ) - u.val * v.val| ≤ 31 / 10 * eps c.p * (|(u.val : ℝ)| * |(v.val : ℝ)|) := by
  have he := eps_real c.p
  rcases arith_cases c (· * ·) u v with h | h <;> rw [h]
  · push_cast
    rw [sub_self, abs_zero]
    positivity
  · have e1 := float_err c u
    have e2 := float_err c v
    have b2 := float_bound c v
    have b1 := float_bound c u
    have e3 := rnd_err_real c.p ((u.float c).val * (v.float c).val)
    push_cast at e3
    generalize ((rnd c.p ((u.float c).val * (v.float c).val) : ℚ) : ℝ) = r at *
    generalize ((u.float c).val : ℝ) = U at *
    generalize ((v.float c).val : ℝ) = V at *
    generalize (u.val : ℝ) = x at *
    generalize (v.val : ℝ) = y at *
    generalize eps c.p = e at *
    have h1 : |U * V - x * y| ≤ (e * (1 + e) + e) * (|x| * |y|) := by
      rw [show U * V - x * y = (U - x) * V + x * (V - y) by ring]
      refine (abs_add_le _ _).trans ?_
      rw [abs_mul, abs_mul]
      have k1 : |U - x| * |V| ≤ (e * |x|) * ((1 + e) * |y|) := mul_le_mul e1 b2 (abs_nonneg _) (by positivity)
      have k2 : |x| * |V - y| ≤ |x| * (e * |y|) := mul_le_mul_of_nonneg_left e2 (abs_nonneg _)
      calc _ ≤ (e * |x|) * ((1 + e) * |y|) + |x| * (e * |y|) := add_le_add k1 k2
        _ = _ := by ring
    have h2 : e * |U * V| ≤ e * ((1 + e) * |x| * ((1 + e) * |y|)) := by
      rw [abs_mul]
      exact mul_le_mul_of_nonneg_left (mul_le_mul b1 b2 (abs_nonneg _) (by positivity)) he.le
    have h3 := abs_add_le (r - U * V) (U * V - x * y)
    rw [sub_add_sub_cancel] at h3
    have h4 : e * ((1 + e) * |x| * ((1 + e) * |y|)) + (e * (1 + e) + e) * (|x| * |y|) = e * ((1 + e) ^ 2 + (1 + e) + 1) * (|x| * |y|) := by ring
    have h5 : e * ((1 + e) ^ 2 + (1 + e) + 1) ≤ 31 / 10 * e := by
      have : (1 + e) ^ 2 + (1 + e) + 1 ≤ 31 / 10 := by nlinarith
      nlinarith
    have h6 := mul_le_mul_of_nonneg_right h5 (show 0 ≤ |x| * |y| by positivity)
    linarith

theorem addS_err {c : Ctx} (hes : eps c.p ≤ 1 / 1000) {f : ℚ → ℚ → ℚ} {g : ℝ → ℝ → ℝ} (hf : ∀ a b : ℚ, ((f a b : ℚ) : ℝ) = g a b)
    (hg : (∀ a b, g a b = a + b) ∨ (∀ a b, g a b = a - b)) (u v : PS) :
    |((arith c f u v).val : ℝ) - g u.val v.val| ≤ 21 / 10 * eps c.p * (|(u.val : ℝ)| + |(v.val : ℝ)|) := by
  have he := eps_real c.p
  rcases arith_cases c f u v with h | h <;> rw [h]
  · rw [hf, sub_self, abs_zero]
    positivity
  · have e1 := float_err c u
    have e2 := float_err c v
    have b2 := float_bound c v
    have b1 := float_bound c u
    have e3 := rnd_err_real c.p (f (u.float c).val (v.float c).val)
    rw [hf] at e3
    generalize ((rnd c.p (f (u.float c).val (v.float c).val) : ℚ) : ℝ) = r at *
    generalize ((u.float c).val : ℝ) = U at *
    generalize ((v.float c).val : ℝ) = V at *
    generalize (u.val : ℝ) = x at *
    generalize (v.val : ℝ) = y at *
    generalize eps c.p = e at *
    have h1 : |g U V - g x y| ≤ |U - x| + |V - y| := by
      rcases hg with hg | hg
      · rw [hg, hg, show U + V - (x + y) = (U - x) + (V - y) by ring]; exact abs_add_le _ _
      · rw [hg, hg, show U - V - (x - y) = (U - x) - (V - y) by ring]; exact abs_sub _ _
    have h2 : |g U V| ≤ |U| + |V| := by
      rcases hg with hg | hg
      · rw [hg]; exact abs_add_le _ _
      · rw [hg]; exact abs_sub _ _
    have h3 := abs_add_le (r - g U V) (g U V - g x y)
    rw [sub_add_sub_cancel] at h3
    have h4 : e * |g U V| ≤ e * ((1 + e) * |x| + (1 + e) * |y|) := mul_le_mul_of_nonneg_left (by linarith) he.le
    have h5 : e * ((1 + e) * |x| + (1 + e) * |y|) ≤ e * (11 / 10 * (|x| + |y|)) := by
      refine mul_le_mul_of_nonneg_left ?_ he.le
      have := abs_nonneg x
      have := abs_nonneg y
      nlinarith
    linarith

/-- The complex number. -/
def toC (a : PS × PS) : ℂ := ⟨a.1.val, a.2.val⟩

theorem dot_le (a b x y : ℝ) : |a| * |x| + |b| * |y| ≤ ‖(⟨a, b⟩ : ℂ)‖ * ‖(⟨x, y⟩ : ℂ)‖ := by
  rw [normSq_mk, normSq_mk, ← Real.sqrt_mul (by positivity)]
  apply Real.le_sqrt_of_sq_le
  rw [← sq_abs a, ← sq_abs b, ← sq_abs x, ← sq_abs y]
  nlinarith [sq_nonneg (|a| * |y| - |b| * |x|)]

theorem norm_swap (a b : ℝ) : ‖(⟨b, a⟩ : ℂ)‖ = ‖(⟨a, b⟩ : ℂ)‖ := by rw [normSq_mk, normSq_mk, add_comm]

/-- Two products and their sum or difference. -/
theorem mul_part {c : Ctx} (hes : eps c.p ≤ 1 / 1000) {f : ℚ → ℚ → ℚ} {g : ℝ → ℝ → ℝ} (hf : ∀ a b : ℚ, ((f a b : ℚ) : ℝ) = g a b)
    (hg : (∀ a b, g a b = a + b) ∨ (∀ a b, g a b = a - b)) (u v w x : PS) {N : ℝ} (hN : |(u.val : ℝ)| * |(v.val : ℝ)| + |(w.val : ℝ)| * |(x.val : ℝ)| ≤ N) :
    |((arith c f (arith c (· * ·) u v) (arith c (· * ·) w x)).val : ℝ) - g (u.val * v.val) (w.val * x.val)| ≤ 11 / 2 * eps c.p * N := by
  have he := eps_real c.p
  have a1 := mulS_err (c := c) hes u v
  have a2 := mulS_err (c := c) hes w x
  have a3 := addS_err (c := c) hes hf hg (arith c (· * ·) u v) (arith c (· * ·) w x)
  have n1 : |(u.val : ℝ) * v.val| = |(u.val : ℝ)| * |(v.val : ℝ)| := abs_mul _ _
  have n2 : |(w.val : ℝ) * x.val| = |(w.val : ℝ)| * |(x.val : ℝ)| := abs_mul _ _
  rw [← n1] at a1 hN
  rw [← n2] at a2 hN
  generalize ((arith c f (arith c (· * ·) u v) (arith c (· * ·) w x)).val : ℝ) = r at *
  generalize ((arith c (· * ·) u v).val : ℝ) = P at *
  generalize ((arith c (· * ·) w x).val : ℝ) = Q at *
  generalize (u.val : ℝ) * v.val = s at *
  generalize (w.val : ℝ) * x.val = t at *
  generalize eps c.p = e at *
  have h1 : |g P Q - g s t| ≤ |P - s| + |Q - t| := by
    rcases hg with hg | hg
    · rw [hg, hg, show P + Q - (s + t) = (P - s) + (Q - t) by ring]; exact abs_add_le _ _
    · rw [hg, hg, show P - Q - (s - t) = (P - s) - (Q - t) by ring]; exact abs_sub _ _
  have h2 := abs_add_le (r - g P Q) (g P Q - g s t)
  rw [sub_add_sub_cancel] at h2
  have h3 := abs_add_le (P - s) s
  have h4 := abs_add_le (Q - t) t
  rw [sub_add_cancel] at h3 h4
  have s0 := abs_nonneg s
  have t0 := abs_nonneg t
  have k1 : e * |s| ≤ 1 / 1000 * |s| := mul_le_mul_of_nonneg_right hes s0
  have k2 : e * |t| ≤ 1 / 1000 * |t| := mul_le_mul_of_nonneg_right hes t0
  have k3 : e * (|P| + |Q|) ≤ e * (101 / 100 * (|s| + |t|)) := mul_le_mul_of_nonneg_left (by linarith) he.le
  have k4 : e * (|s| + |t|) ≤ e * N := mul_le_mul_of_nonneg_left hN he.le
  have k5 : 0 ≤ e * (|s| + |t|) := by positivity
  linarith

/-- A product is right up to `11 ε`. -/
theorem cMul_err {c : Ctx} (hes : eps c.p ≤ 1 / 1000) (a b : PS × PS) : ‖toC (cMul c a b) - toC a * toC b‖ ≤ 11 * eps c.p * (‖toC a‖ * ‖toC b‖) := by
  have r := mul_part (c := c) hes (f := (· - ·)) (g := (· - ·)) (fun a b => by push_cast; rfl) (Or.inr fun _ _ => rfl) a.1 b.1 a.2 b.2 (dot_le _ _ _ _)
  have i := mul_part (c := c) hes (f := (· + ·)) (g := (· + ·)) (fun a b => by push_cast; rfl) (Or.inl fun _ _ => rfl) b.2 a.1 b.1 a.2 (dot_le _ _ _ _)
  rw [norm_swap] at i
  refine (Complex.norm_le_abs_re_add_abs_im _).trans ?_
  rw [Complex.sub_re, Complex.sub_im, Complex.mul_re, Complex.mul_im]
  unfold toC cMul
  simp only at r i ⊢
  rw [show (a.1.val : ℝ) * b.2.val + a.2.val * b.1.val = b.2.val * a.1.val + b.1.val * a.2.val by ring]
  have e : 11 * eps c.p * (‖(⟨a.1.val, a.2.val⟩ : ℂ)‖ * ‖(⟨b.1.val, b.2.val⟩ : ℂ)‖) =
    11 / 2 * eps c.p * (‖(⟨a.1.val, a.2.val⟩ : ℂ)‖ * ‖(⟨b.1.val, b.2.val⟩ : ℂ)‖) + 11 / 2 * eps c.p * (‖(⟨b.1.val, b.2.val⟩ : ℂ)‖ * ‖(⟨a.1.val, a.2.val⟩ : ℂ)‖) := by ring
  rw [e]
  exact add_le_add r i

/-- `a` is `A` up to `k` rounded products. -/
def Within (δ : ℝ) (k : ℕ) (a : PS × PS) (A : ℂ) : Prop := ‖toC a - A‖ ≤ ((1 + δ) ^ k - 1) * ‖A‖

theorem Within.mul {c : Ctx} (hes : eps c.p ≤ 1 / 1000) {a b : PS × PS} {A B : ℂ} {i j : ℕ} (ha : Within (11 * eps c.p) i a A) (hb : Within (11 * eps c.p) j b B) :
    Within (11 * eps c.p) (i + j + 1) (cMul c a b) (A * B) := by
  have he := eps_real c.p
  have hm := cMul_err hes a b
  unfold Within at *
  generalize toC a = x at *
  generalize toC b = y at *
  generalize toC (cMul c a b) = r at *
  have hd : 0 ≤ 11 * eps c.p := by positivity
  generalize 11 * eps c.p = d at *
  have p1 : 1 ≤ (1 + d) ^ i := one_le_pow₀ (by linarith)
  have p2 : 1 ≤ (1 + d) ^ j := one_le_pow₀ (by linarith)
  have hx : ‖x‖ ≤ (1 + d) ^ i * ‖A‖ := by
    have := norm_add_le (x - A) A
    rw [sub_add_cancel] at this
    linarith
  have hy : ‖y‖ ≤ (1 + d) ^ j * ‖B‖ := by
    have := norm_add_le (y - B) B
    rw [sub_add_cancel] at this
    linarith
  have h1 := norm_add_le (r - x * y) (x * y - A * B)
  rw [sub_add_sub_cancel] at h1
  have h2 : ‖x * y - A * B‖ ≤ ((1 + d) ^ i - 1) * ‖A‖ * ((1 + d) ^ j * ‖B‖) + ‖A‖ * (((1 + d) ^ j - 1) * ‖B‖) := by
    rw [show x * y - A * B = (x - A) * y + A * (y - B) by ring]
    refine (norm_add_le _ _).trans ?_
    rw [norm_mul, norm_mul]
    exact add_le_add (mul_le_mul ha hy (norm_nonneg _) (mul_nonneg (by linarith) (norm_nonneg _))) (mul_le_mul_of_nonneg_left hb (norm_nonneg _))
  have h3 : d * (‖x‖ * ‖y‖) ≤ d * ((1 + d) ^ i * ‖A‖ * ((1 + d) ^ j * ‖B‖)) :=
    mul_le_mul_of_nonneg_left (mul_le_mul hx hy (norm_nonneg _) (by positivity)) hd
  rw [norm_mul, pow_succ, pow_add]
  calc _ ≤ d * ((1 + d) ^ i * ‖A‖ * ((1 + d) ^ j * ‖B‖)) + (((1 + d) ^ i - 1) * ‖A‖ * ((1 + d) ^ j * ‖B‖) + ‖A‖ * (((1 + d) ^ j - 1) * ‖B‖)) := by linarith
    _ = _ := by ring

theorem cPowLoop_within {c : Ctx} (hes : eps c.p ≤ 1 / 1000) (v : ℂ) : ∀ (fuel exp : ℕ) (y z : PS × PS) (m j : ℕ), exp < fuel → Within (11 * eps c.p) m y (v ^ (m + 1)) →
    Within (11 * eps c.p) j z (v ^ j) → Within (11 * eps c.p) (j + (m + 1) * exp) (cPowLoop c fuel exp y z) (v ^ (j + (m + 1) * exp))
  | fuel + 1, exp, y, z, m, j, hf, hy, hz => by
    unfold cPowLoop
    split
    · rename_i h
      rw [h, mul_zero, add_zero]
      exact hz
    · rename_i h
      have hy2 := hy.mul hes hy
      rw [← pow_add, show m + 1 + (m + 1) = (m + m + 1) + 1 by ring] at hy2
      have hh : exp / 2 < fuel := by omega
      have hd := Nat.div_add_mod exp 2
      split
      · rename_i ho
        have hz2 := hz.mul hes hy
        rw [← pow_add, add_assoc j m 1] at hz2
        have := cPowLoop_within hes v fuel (exp / 2) _ _ _ _ hh hy2 hz2
        have e : j + (m + 1) + (m + m + 1 + 1) * (exp / 2) = j + (m + 1) * exp := by
          rw [← hd, ho]
          have : (2 * (exp / 2) + 1) / 2 = exp / 2 := by omega
          rw [this]; ring
        rwa [e] at this
      · rename_i ho
        have := cPowLoop_within hes v fuel (exp / 2) _ _ _ _ hh hy2 hz
        have h0 : exp % 2 = 0 := by omega
        have e : j + (m + m + 1 + 1) * (exp / 2) = j + (m + 1) * exp := by
          rw [← hd, h0]
          have : (2 * (exp / 2) + 0) / 2 = exp / 2 := by omega
          rw [this]; ring
        rwa [e] at this

theorem cIntPower_err {c : Ctx} (hes : eps c.p ≤ 1 / 1000) (v : PS × PS) (n : ℕ) : ‖toC (cIntPower c v n) - toC v ^ n‖ ≤ ((1 + 11 * eps c.p) ^ n - 1) * ‖toC v‖ ^ n := by
  have := cPowLoop_within hes (toC v) (n + 1) n v (.exact 1, .exact 0) 0 0 (Nat.lt_succ_self n) (by unfold Within; simp) (by
    unfold Within
    have : toC (.exact 1, .exact 0) = 1 := by unfold toC; apply Complex.ext <;> simp [PS.val]
    rw [this]; simp)
  simp only [zero_add, one_mul] at this
  unfold Within at this
  rw [norm_pow] at this
  exact this

/-- Both parts are exact, and the number is `A`. -/
def Exactly (a : PS × PS) (A : ℂ) : Prop := ∃ q r : ℚ, a = (.exact q, .exact r) ∧ (⟨q, r⟩ : ℂ) = A

theorem Exactly.mul {c : Ctx} {a b : PS × PS} {A B : ℂ} (ha : Exactly a A) (hb : Exactly b B) : Exactly (cMul c a b) (A * B) := by
  obtain ⟨q, r, rfl, rfl⟩ := ha
  obtain ⟨s, t, rfl, rfl⟩ := hb
  refine ⟨q * s - r * t, t * q + s * r, rfl, ?_⟩
  apply Complex.ext
  · rw [Complex.mul_re]; push_cast; rfl
  · rw [Complex.mul_im]; push_cast; ring

theorem cPowLoop_exact (c : Ctx) (v : ℂ) : ∀ (fuel exp : ℕ) (y z : PS × PS) (m j : ℕ), exp < fuel → Exactly y (v ^ m) → Exactly z (v ^ j) →
    Exactly (cPowLoop c fuel exp y z) (v ^ (j + m * exp))
  | fuel + 1, exp, y, z, m, j, hf, hy, hz => by
    unfold cPowLoop
    split
    · rename_i h
      rw [h, mul_zero, add_zero]
      exact hz
    · rename_i h
      have hy2 := hy.mul (c := c) hy
      rw [← pow_add] at hy2
      have hh : exp / 2 < fuel := by omega
      have hd := Nat.div_add_mod exp 2
      split
      · rename_i ho
        have hz2 := hz.mul (c := c) hy
        rw [← pow_add] at hz2
        have := cPowLoop_exact c v fuel (exp / 2) _ _ _ _ hh hy2 hz2
        have e : j + m + (m + m) * (exp / 2) = j + m * exp := by
          rw [← hd, ho]
          have : (2 * (exp / 2) + 1) / 2 = exp / 2 := by omega
          rw [this]; ring
        rwa [e] at this
      · rename_i ho
        have := cPowLoop_exact c v fuel (exp / 2) _ _ _ _ hh hy2 hz
        have h0 : exp % 2 = 0 := by omega
        have e : j + (m + m) * (exp / 2) = j + m * exp := by
          rw [← hd, h0]
          have : (2 * (exp / 2) + 0) / 2 = exp / 2 := by omega
          rw [this]; ring
        rwa [e] at this

theorem cIntPower_exact (c : Ctx) (a b : ℚ) (n : ℕ) : Exactly (cIntPower c (.exact a, .exact b) n) ((⟨a, b⟩ : ℂ) ^ n) := by
  have := cPowLoop_exact c ⟨a, b⟩ (n + 1) n (.exact a, .exact b) (.exact 1, .exact 0) 1 0 (Nat.lt_succ_self n) ⟨a, b, rfl, by rw [pow_one]⟩
    ⟨1, 0, rfl, by rw [pow_zero]; apply Complex.ext <;> simp⟩
  rwa [zero_add, one_mul] at this

theorem cInverse_exact (c : Ctx) {a : PS × PS} {A : ℂ} (ha : Exactly a A) (h0 : A ≠ 0) : ∃ r, cInverse c a = .ok r ∧ Exactly r A⁻¹ := by
  obtain ⟨q, r, rfl, rfl⟩ := ha
  have hqr : ¬ (q = 0 ∧ r = 0) := by
    rintro ⟨h1, h2⟩
    apply h0
    rw [h1, h2]
    apply Complex.ext <;> simp
  have hn : q * q + r * r ≠ 0 := by
    intro h
    have h1 := mul_self_nonneg q
    have h2 := mul_self_nonneg r
    exact hqr ⟨mul_self_eq_zero.1 (by linarith), mul_self_eq_zero.1 (by linarith)⟩
  refine ⟨(.exact (q / (q * q + r * r)), .exact (-(r / (q * q + r * r)))), ?_, _, _, rfl, ?_⟩
  · unfold cInverse
    rw [if_neg (show ¬ ((PS.exact q).val = 0 ∧ (PS.exact r).val = 0) from hqr)]
    simp only [divide, norm, arith, if_neg hn, R.bind, negS]
  · apply Complex.ext
    · rw [Complex.inv_re, Complex.normSq_mk]; push_cast; rfl
    · rw [Complex.inv_im, Complex.normSq_mk]; push_cast; ring

end Verif.Cell
