import Verif.Cell.Lemmas6
import Mathlib.Analysis.SpecialFunctions.Complex.Arctan

/-!
# Errors of the absolute value, the phase and the logarithm
-/

namespace Verif.Cell
open Verif.Arr (R)
open Verif.Flt
open Verif.Flt.Spec (IsFloat)

/-- An exact number, or a float of the precision of the context. -/
def Num (p : ℕ) : PS → Prop
  | .exact _ => True
  | .flt x => x.prec = p ∧ IsFloat p x.val

theorem num_shrinkF {p : ℕ} (hp : 1 ≤ p) (q : ℚ) : Num p (shrinkF ⟨p, rnd p q⟩) := by
  unfold shrinkF
  split
  · trivial
  · exact ⟨rfl, rnd_isFloat hp _⟩

theorem num_arith {c : Ctx} (hp : 1 ≤ c.p) (f : ℚ → ℚ → ℚ) (u v : PS) : Num c.p (arith c f u v) := by
  cases u <;> cases v <;> unfold arith <;> first | trivial | exact num_shrinkF hp _

theorem float_isFloat {c : Ctx} (hp : 1 ≤ c.p) {u : PS} (hu : Num c.p u) : (u.float c).prec = c.p ∧ IsFloat c.p (u.float c).val := by
  cases u with
  | exact q => exact ⟨rfl, rnd_isFloat hp _⟩
  | flt x => exact hu

theorem float_mk {c : Ctx} (hp : 1 ≤ c.p) {u : PS} (hu : Num c.p u) : u.float c = ⟨c.p, (u.float c).val⟩ := by
  have := (float_isFloat hp hu).1
  rw [← this]

theorem float_err (c : Ctx) (u : PS) : |((u.float c).val : ℝ) - u.val| ≤ eps c.p * |(u.val : ℝ)| := by
  cases u with
  | exact q => exact rnd_err_real c.p q
  | flt x =>
    have := eps_real c.p
    simp only [PS.float, PS.val, sub_self, abs_zero]
    positivity

/-- The square is right up to the rounding. -/
theorem square_err {c : Ctx} (hp : 1 ≤ c.p) (u : PS) : 0 ≤ (arith c (· * ·) u u).val ∧ |((arith c (· * ·) u u).val : ℝ) - (u.val : ℝ) ^ 2| ≤ eps c.p * (u.val : ℝ) ^ 2 := by
  have he := eps_real c.p
  cases u with
  | exact q =>
    refine ⟨mul_self_nonneg q, ?_⟩
    simp only [arith, PS.val]
    push_cast
    rw [show (q : ℝ) * q - q ^ 2 = 0 by ring, abs_zero]
    positivity
  | flt x =>
    have e : (arith c (· * ·) (.flt x) (.flt x)).val = rnd c.p (x.val * x.val) := by simp only [arith, shrinkF_val, PS.float]
    rw [e]
    simp only [PS.val]
    refine ⟨rnd_nonneg hp (mul_self_nonneg _), ?_⟩
    have := rnd_err_real c.p (x.val * x.val)
    rw [show ((x.val * x.val : ℚ) : ℝ) = (x.val : ℝ) ^ 2 by push_cast; ring, abs_of_nonneg (sq_nonneg (x.val : ℝ))] at this
    exact this

/-- A sum of two numbers that are not negative. -/
theorem sum_err {c : Ctx} (hp : 1 ≤ c.p) (hes : eps c.p ≤ 1 / 1000) {u v : PS} (hu : 0 ≤ u.val) (hv : 0 ≤ v.val) :
    0 ≤ (arith c (· + ·) u v).val ∧ |((arith c (· + ·) u v).val : ℝ) - (u.val + v.val)| ≤ 21 / 10 * eps c.p * (u.val + v.val) := by
  have he := eps_real c.p
  have hu' : (0 : ℝ) ≤ u.val := by exact_mod_cast hu
  have hv' : (0 : ℝ) ≤ v.val := by exact_mod_cast hv
  have key : 0 ≤ rnd c.p ((u.float c).val + (v.float c).val) ∧
      |((rnd c.p ((u.float c).val + (v.float c).val) : ℚ) : ℝ) - (u.val + v.val)| ≤ 21 / 10 * eps c.p * (u.val + v.val) := by
    have e1 := float_err c u
    have e2 := float_err c v
    rw [abs_of_nonneg hu'] at e1
    rw [abs_of_nonneg hv'] at e2
    have e3 := rnd_err_real c.p ((u.float c).val + (v.float c).val)
    push_cast at e3
    obtain ⟨a1, a2⟩ := abs_le.1 e1
    obtain ⟨b1, b2⟩ := abs_le.1 e2
    have eu : eps c.p * u.val ≤ 1 / 1000 * (u.val : ℝ) := mul_le_mul_of_nonneg_right hes hu'
    have ev : eps c.p * v.val ≤ 1 / 1000 * (v.val : ℝ) := mul_le_mul_of_nonneg_right hes hv'
    have hfu : (0 : ℝ) ≤ (u.float c).val := by linarith
    have hfv : (0 : ℝ) ≤ (v.float c).val := by linarith
    refine ⟨rnd_nonneg hp (add_nonneg (by exact_mod_cast hfu) (by exact_mod_cast hfv)), ?_⟩
    rw [abs_of_nonneg (add_nonneg hfu hfv)] at e3
    obtain ⟨c1, c2⟩ := abs_le.1 e3
    have g : eps c.p * ((u.float c).val + (v.float c).val) ≤ eps c.p * (11 / 10 * (u.val + v.val : ℝ)) := mul_le_mul_of_nonneg_left (by linarith) he.le
    rw [abs_le]
    constructor <;> linarith
  cases u with
  | flt x => cases v <;> (simp only [arith, shrinkF_val]; exact key)
  | exact a =>
    cases v with
    | flt x => simp only [arith, shrinkF_val]; exact key
    | exact b =>
      simp only [arith, PS.val]
      refine ⟨add_nonneg hu hv, ?_⟩
      push_cast
      rw [sub_self, abs_zero]
      simp only [PS.val] at hu' hv'
      positivity

theorem norm_err {c : Ctx} (hp : 1 ≤ c.p) (hes : eps c.p ≤ 1 / 1000) (a b : PS) :
    0 ≤ (norm c (a, b)).val ∧ |((norm c (a, b)).val : ℝ) - ((a.val : ℝ) ^ 2 + (b.val : ℝ) ^ 2)| ≤ 4 * eps c.p * ((a.val : ℝ) ^ 2 + (b.val : ℝ) ^ 2) := by
  have he := eps_real c.p
  obtain ⟨a0, a1⟩ := square_err (c := c) hp a
  obtain ⟨b0, b1⟩ := square_err (c := c) hp b
  obtain ⟨s0, s1⟩ := sum_err (c := c) hp hes a0 b0
  refine ⟨s0, ?_⟩
  unfold norm
  simp only at *
  generalize ((arith c (· + ·) (arith c (· * ·) a a) (arith c (· * ·) b b)).val : ℝ) = S at *
  generalize ((arith c (· * ·) a a).val : ℝ) = A at *
  generalize ((arith c (· * ·) b b).val : ℝ) = B at *
  obtain ⟨a2, a3⟩ := abs_le.1 a1
  obtain ⟨b2, b3⟩ := abs_le.1 b1
  obtain ⟨s2, s3⟩ := abs_le.1 s1
  have hA : 0 ≤ (a.val : ℝ) ^ 2 := sq_nonneg _
  have hB : 0 ≤ (b.val : ℝ) ^ 2 := sq_nonneg _
  generalize (a.val : ℝ) ^ 2 = A' at *
  generalize (b.val : ℝ) ^ 2 = B' at *
  have hm : eps c.p * (A' + B') ≤ 1 / 1000 * (A' + B') := mul_le_mul_of_nonneg_right hes (by linarith)
  have g : eps c.p * (A + B) ≤ eps c.p * (11 / 10 * (A' + B')) := mul_le_mul_of_nonneg_left (by linarith) he.le
  have g2 : 0 ≤ eps c.p * (A' + B') := mul_nonneg he.le (by linarith)
  rw [abs_le]
  constructor <;> linarith

theorem normSq_mk (x y : ℝ) : ‖(⟨x, y⟩ : ℂ)‖ = √(x ^ 2 + y ^ 2) := by
  rw [Complex.norm_def, Complex.normSq_mk]; congr 1; ring

/-- The absolute value of a number that is not zero. -/
theorem cAbs_err {c : Ctx} (hp : 16 ≤ c.p) {a b : PS} (h0 : a.val ≠ 0 ∨ b.val ≠ 0) {fuel : ℕ} (hfu : 10 + c.p ≤ fuel) :
    ∃ s, cAbs c fuel (a, b) = .ok s ∧ Num c.p s ∧ 0 < s.val ∧ |(s.val : ℝ) - ‖(⟨a.val, b.val⟩ : ℂ)‖| ≤ 9 * eps c.p * ‖(⟨a.val, b.val⟩ : ℂ)‖ := by
  have he := eps_real c.p
  obtain ⟨-, -, -, hes⟩ := consts_small hp 0 (k := 0) le_rfl (by norm_num)
  obtain ⟨n0, n1⟩ := norm_err (by omega) hes a b
  rw [normSq_mk]
  set N : ℝ := (a.val : ℝ) ^ 2 + (b.val : ℝ) ^ 2 with hN
  have hNpos : 0 < N := by
    rw [hN]
    rcases h0 with h | h
    · have : (a.val : ℝ) ≠ 0 := by exact_mod_cast h
      positivity
    · have : (b.val : ℝ) ≠ 0 := by exact_mod_cast h
      positivity
  have nn : Num c.p (norm c (a, b)) := num_arith (by omega) _ _ _
  have fe := float_err c (norm c (a, b))
  have hn0' : (0 : ℝ) ≤ (norm c (a, b)).val := by exact_mod_cast n0
  rw [abs_of_nonneg hn0'] at fe
  obtain ⟨q1, q2⟩ := abs_le.1 n1
  obtain ⟨q3, q4⟩ := abs_le.1 fe
  obtain ⟨f1, f2⟩ := float_isFloat (by omega) nn
  have hmk := float_mk (by omega) nn
  set W : ℚ := ((norm c (a, b)).float c).val with hW
  have hm : eps c.p * N ≤ 1 / 1000 * N := mul_le_mul_of_nonneg_right hes hNpos.le
  have g : eps c.p * (norm c (a, b)).val ≤ eps c.p * (101 / 100 * N) := mul_le_mul_of_nonneg_left (by linarith) he.le
  have hWN : |(W : ℝ) - N| ≤ 6 * eps c.p * N := by rw [abs_le]; constructor <;> linarith
  have hW0 : (0 : ℝ) < W := by have := (abs_le.1 hWN).1; linarith
  obtain ⟨r, r1, r0, r2⟩ := root_err hp (W := W) (by exact_mod_cast hW0) f2 hfu
  have hs := root_near (Real.sqrt_nonneg (W : ℝ)) (Real.sqrt_pos.2 hNpos) (Real.mul_self_sqrt hW0.le) (Real.mul_self_sqrt hNpos.le) hWN
  have hs2 : 6 * eps c.p * N / √N = 6 * eps c.p * √N := by
    rw [div_eq_iff (Real.sqrt_pos.2 hNpos).ne', mul_assoc (6 * eps c.p), Real.mul_self_sqrt hNpos.le]
  rw [hs2] at hs
  refine ⟨shrinkF ⟨c.p, r⟩, ?_, ?_, ?_, ?_⟩
  · unfold cAbs evalFloat
    rw [hmk, r1]
    rfl
  · obtain ⟨z, z0, zf, -, zz⟩ := floatSqrt_ok (c := c) (by omega) f2 (by exact_mod_cast hW0 : 0 < W) (Real.sqrt_pos.2 hW0) (Real.mul_self_sqrt hW0.le).symm
    have : r = z := by
      have := zz fuel hfu
      rw [r1] at this
      injection this with this
      injection this
    unfold shrinkF
    split
    · trivial
    · exact ⟨rfl, by rw [this]; exact zf⟩
  · rw [shrinkF_val]; exact r0
  · rw [shrinkF_val]
    have hsN := Real.sqrt_pos.2 hNpos
    obtain ⟨s1, s2⟩ := abs_le.1 hs
    obtain ⟨s3, s4⟩ := abs_le.1 r2
    have k : eps c.p * √N ≤ 1 / 1000 * √N := mul_le_mul_of_nonneg_right hes hsN.le
    have k2 : eps c.p * √(W : ℝ) ≤ eps c.p * (101 / 100 * √N) := mul_le_mul_of_nonneg_left (by linarith) he.le
    have k3 : 0 < eps c.p * √N := mul_pos he hsN
    rw [abs_le]
    constructor <;> linarith

/-- The logarithm of a positive number. -/
theorem realLog_err {c : Ctx} (hp : 16 ≤ c.p) (hl : LogOk c) {s : PS} (hs : Num c.p s) (h0 : 0 < s.val) {m : ℝ} (hm : 0 < m) (hsm : |(s.val : ℝ) - m| ≤ 9 * eps c.p * m)
    {fuel : ℕ} (hfu : 10 + 40 * c.p ≤ fuel) :
    ∃ l, realLog c fuel s = .ok l ∧ |(l.val : ℝ) - Real.log m| ≤ (310 * (c.p + 1) + 12 * |Real.log m|) * eps c.p := by
  have he := eps_real c.p
  obtain ⟨-, -, -, hes⟩ := consts_small hp 0 (k := 0) le_rfl (by norm_num)
  have h0' : (0 : ℝ) < s.val := by exact_mod_cast h0
  have fe := float_err c s
  rw [abs_of_pos h0'] at fe
  obtain ⟨f1, f2⟩ := float_isFloat (c := c) (by omega) hs
  set W : ℚ := (s.float c).val with hW
  obtain ⟨q1, q2⟩ := abs_le.1 hsm
  obtain ⟨q3, q4⟩ := abs_le.1 fe
  have k : eps c.p * m ≤ 1 / 1000 * m := mul_le_mul_of_nonneg_right hes hm.le
  have k2 : eps c.p * (s.val : ℝ) ≤ eps c.p * (101 / 100 * m) := mul_le_mul_of_nonneg_left (by linarith) he.le
  have k3 : 0 < eps c.p * m := mul_pos he hm
  have hWm : |(W : ℝ) - m| ≤ 11 * eps c.p * m := by rw [abs_le]; constructor <;> linarith
  obtain ⟨w0, w1⟩ := log_rel hm (by linarith) hWm
  obtain ⟨z, hz⟩ := floatLog_ok hp (by exact_mod_cast w0) f2 hfu
  have ze := floatLog_error hp hl f2 hz
  refine ⟨shrinkF ⟨c.p, z⟩, ?_, ?_⟩
  · unfold realLog evalFloat onVal
    rw [← hW, hz]
    rfl
  · rw [shrinkF_val]
    have t1 := abs_add_le ((z : ℝ) - Real.log W) (Real.log W - Real.log m)
    rw [sub_add_sub_cancel] at t1
    have t2 : |Real.log W| ≤ |Real.log m| + 22 * eps c.p := by
      have := abs_add_le (Real.log m) (Real.log W - Real.log m)
      rw [add_sub_cancel] at this
      linarith
    have t3 : |Real.log W| * eps c.p ≤ (|Real.log m| + 22 * eps c.p) * eps c.p := mul_le_mul_of_nonneg_right t2 he.le
    have t4 : eps c.p * eps c.p ≤ 1 / 1000 * eps c.p := mul_le_mul_of_nonneg_right hes he.le
    have t5 : (16 : ℝ) * eps c.p ≤ c.p * eps c.p := mul_le_mul_of_nonneg_right (by exact_mod_cast hp) he.le
    linarith

end Verif.Cell
