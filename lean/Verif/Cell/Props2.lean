import Verif.Cell.Lemmas6
import Verif.Cell.Props

/-!
# C81: functions of complex numbers are accurate

Full statement: each part of the result of `sin`, `cos`, `tan`, `sinh`, `cosh`, `tanh` and `**` is within some ten thousand times `p` units of `2 ^ -p`, plus an error that grows
with the argument of the sine like the distance of neighbouring floats, relative to the size of the hyperbolic factor. The functions are those of Mathlib on
`ℂ`. For the tangents the error grows near the poles like the square of the distance's inverse.

`sin`, `tan` and `tanh` satisfy it. `cos`, `sinh`, `cosh` and `**` take a cosine first, which is wrong for arguments below -7 (C72): with 256 bits, the real part
of `** 0j-200` is below -300000000 (`C81_violated`). They satisfy it for arguments of the cosine from -7 on; the exponential function of a negative
real part moreover has the error of C71 (relative to `exp |x|`).

The operand is any complex number at any time of a session, as long as its parts are not one object (C80). The theorems are about results, if there are any: that there are
is not proved here (near zeros of the sine the loops can give up, see C72).
-/

namespace Verif.Cell
open Verif.Arr (R)
open Verif.Flt
open Verif.Flt.Spec (IsFloat)

/-- The value `r` is near the complex number `z`. -/
def Near (r : Val) (h : Heap) (z : ℂ) (δ δ' : ℝ) : Prop :=
  ∃ w, read r h = .ok (w, h) ∧ |(w.parts.1.val : ℝ) - z.re| ≤ δ ∧ |(w.parts.2.val : ℝ) - z.im| ≤ δ'

/-- The error of the sine and the cosine of `x`, doubled. -/
noncomputable def unit (p : ℕ) (x : ℝ) : ℝ := (120000 * (p + 3) + 600 * |x|) * (2 : ℝ) ^ (-(p : ℤ))

theorem unit_eq (p : ℕ) (x : ℝ) : unit p x = 2 * eta p x := by unfold unit eta eps; ring

variable (p : ℕ) (hp : 16 ≤ p) (hp' : p ≤ constPrecisionInBits) (h : Heap) (x y : ℚ) (v : Val) (ho : Operand p h x y v) (fuel : ℕ) (r : Val) (h' : Heap)
include hp hp' ho

theorem C81_sin (hr : unary (ctxOf p) fuel .sin v h = .ok (r, h')) :
    Near r h' (Complex.sin ⟨x, y⟩) (unit p x * Real.cosh y) (unit p x * |Real.sinh y|) := by
  obtain ⟨hx, hy, hv⟩ := operand_value (c := ctxOf p) (by show 1 ≤ p; omega) ho
  obtain ⟨w, h1, h2⟩ := hv (fun r' n' => complexSin_sim _ fuel (Nat.zero_le _) r' n') hr
  rw [unit_eq]
  exact ⟨w, h1, complexSin_error (c := ctxOf p) hp (piOk hp') hx hy h2⟩

theorem C81_cos_partial (h7 : -7 ≤ x) (hr : unary (ctxOf p) fuel .cos v h = .ok (r, h')) :
    Near r h' (Complex.cos ⟨x, y⟩) (unit p x * Real.cosh y) (unit p x * |Real.sinh y|) := by
  obtain ⟨hx, hy, hv⟩ := operand_value (c := ctxOf p) (by show 1 ≤ p; omega) ho
  obtain ⟨w, h1, h2⟩ := hv (fun r' n' => complexCos_sim _ fuel (Nat.zero_le _) r' n') hr
  rw [unit_eq]
  exact ⟨w, h1, complexCos_error (c := ctxOf p) hp (piOk hp') hx hy h7 h2⟩

theorem C81_sinh_partial (h7 : -7 ≤ y) (hr : unary (ctxOf p) fuel .sinh v h = .ok (r, h')) :
    Near r h' (Complex.sinh ⟨x, y⟩) (unit p y * |Real.sinh x|) (unit p y * Real.cosh x) := by
  obtain ⟨hx, hy, hv⟩ := operand_value (c := ctxOf p) (by show 1 ≤ p; omega) ho
  obtain ⟨w, h1, h2⟩ := hv (fun r' n' => complexSinh_sim _ fuel (Nat.zero_le _) r' n') hr
  rw [unit_eq]
  exact ⟨w, h1, complexSinh_error (c := ctxOf p) hp (piOk hp') hx hy h7 h2⟩

theorem C81_cosh_partial (h7 : -7 ≤ y) (hr : unary (ctxOf p) fuel .cosh v h = .ok (r, h')) :
    Near r h' (Complex.cosh ⟨x, y⟩) (unit p y * Real.cosh x) (unit p y * |Real.sinh x|) := by
  obtain ⟨hx, hy, hv⟩ := operand_value (c := ctxOf p) (by show 1 ≤ p; omega) ho
  obtain ⟨w, h1, h2⟩ := hv (fun r' n' => complexCosh_sim _ fuel (Nat.zero_le _) r' n') hr
  rw [unit_eq]
  exact ⟨w, h1, complexCosh_error (c := ctxOf p) hp (piOk hp') hx hy h7 h2⟩

theorem C81_exp_partial (h7 : -7 ≤ y) (hr : unary (ctxOf p) fuel .exp v h = .ok (r, h')) :
    Near r h' (Complex.exp ⟨x, y⟩) (unit p y * Real.exp |(x : ℝ)|) (unit p y * Real.exp |(x : ℝ)|) := by
  obtain ⟨hx, hy, hv⟩ := operand_value (c := ctxOf p) (by show 1 ≤ p; omega) ho
  obtain ⟨w, h1, h2⟩ := hv (fun r' n' => expComplex_sim _ fuel (Nat.zero_le _) r' n') hr
  rw [unit_eq]
  exact ⟨w, h1, expComplex_error (c := ctxOf p) hp (piOk hp') hx hy h7 h2⟩

/-- The denominator `D` is twice the square of the absolute value of the cosine of the operand; it must not vanish among the errors. -/
theorem C81_tan (D : ℝ) (hD : D = Real.cos (2 * x) + Real.cosh (2 * y)) (hfar : 2 * unit p (2 * x) * Real.cosh (2 * y) ≤ D)
    (hr : unary (ctxOf p) fuel .tan v h = .ok (r, h')) :
    Near r h' (Complex.tan ⟨x, y⟩) (5 * unit p (2 * x) * (Real.cosh (2 * y) / D) ^ 2) (5 * unit p (2 * x) * (Real.cosh (2 * y) / D) ^ 2) := by
  obtain ⟨hx, hy, hv⟩ := operand_value (c := ctxOf p) (by show 1 ≤ p; omega) ho
  obtain ⟨w, h1, h2⟩ := hv (fun r' n' => complexTan_sim _ fuel (Nat.zero_le _) r' n') hr
  have e : ∀ z, 2 * unit p z = 4 * eta p z := fun z => by rw [unit_eq]; ring
  have e' : ∀ z, 5 * unit p z = 10 * eta p z := fun z => by rw [unit_eq]; ring
  rw [e, hD] at hfar
  rw [e', hD]
  exact ⟨w, h1, complexTan_error (c := ctxOf p) hp (piOk hp') hx hy h2 hfar⟩

theorem C81_tanh (D : ℝ) (hD : D = Real.cosh (2 * x) + Real.cos (2 * y)) (hfar : 2 * unit p (2 * y) * Real.cosh (2 * x) ≤ D)
    (hr : unary (ctxOf p) fuel .tanh v h = .ok (r, h')) :
    Near r h' (Complex.tanh ⟨x, y⟩) (5 * unit p (2 * y) * (Real.cosh (2 * x) / D) ^ 2) (5 * unit p (2 * y) * (Real.cosh (2 * x) / D) ^ 2) := by
  obtain ⟨hx, hy, hv⟩ := operand_value (c := ctxOf p) (by show 1 ≤ p; omega) ho
  obtain ⟨w, h1, h2⟩ := hv (fun r' n' => complexTanh_sim _ fuel (Nat.zero_le _) r' n') hr
  have e : ∀ z, 2 * unit p z = 4 * eta p z := fun z => by rw [unit_eq]; ring
  have e' : ∀ z, 5 * unit p z = 10 * eta p z := fun z => by rw [unit_eq]; ring
  rw [e, hD] at hfar
  rw [e', hD]
  exact ⟨w, h1, complexTanh_error (c := ctxOf p) hp (piOk hp') hx hy h2 hfar⟩

omit hp hp' ho

/-- The operand `1j2` at the start of a session with 64 bits has a sine, and the errors bounded here are small. -/
example : Operand 64 [] 1 2 (.cplx (.exact 1) (.exact 2)) ∧ (64 ≤ constPrecisionInBits) ∧
    passes (fun z => decide (z.1 = .cplx (.cell 2) (.cell 3))) (unary ctx64 300 .sin (.cplx (.exact 1) (.exact 2)) []) = true := by
  refine ⟨⟨.exact 1, .exact 2, rfl, ?_, ?_, by norm_num, fun a ha => by cases ha⟩, by decide, by decide +kernel⟩
  · show (1 : ℚ) = rnd 64 1; decide +kernel
  · show (2 : ℚ) = rnd 64 2; decide +kernel

example : unit 64 1 ≤ 1 / 10 ^ 12 := by unfold unit; norm_num

/-- It is far enough from the poles of the tangent. -/
example : 2 * unit 64 (2 * (1 : ℚ)) * Real.cosh (2 * (2 : ℚ)) ≤ Real.cos (2 * (1 : ℚ)) + Real.cosh (2 * (2 : ℚ)) := by
  have h1 : unit 64 (2 * ((1 : ℚ) : ℝ)) ≤ 1 / 10 ^ 12 := by unfold unit; norm_num
  have h2 : 5 / 2 ≤ Real.cosh (2 * ((2 : ℚ) : ℝ)) := by
    rw [Real.cosh_eq]
    have h3 := Real.add_one_le_exp (2 * ((2 : ℚ) : ℝ))
    have h4 := Real.exp_pos (-(2 * ((2 : ℚ) : ℝ)))
    have h5 : 2 * ((2 : ℚ) : ℝ) = 4 := by norm_num
    rw [h5] at h3 h4 ⊢
    generalize Real.exp 4 = a at h3 ⊢
    generalize Real.exp (-4) = b at h4 ⊢
    linarith
  have h5 := Real.neg_one_le_cos (2 * ((1 : ℚ) : ℝ))
  generalize Real.cosh (2 * ((2 : ℚ) : ℝ)) = C at h2 ⊢
  generalize unit 64 (2 * ((1 : ℚ) : ℝ)) = U at h1 ⊢
  generalize Real.cos (2 * ((1 : ℚ) : ℝ)) = D at h5 ⊢
  have h6 : U * C ≤ 1 / 10 ^ 12 * C := mul_le_mul_of_nonneg_right h1 (by linarith)
  linarith

theorem exp200_run : passes (fun vs => decide (reAt vs 0 < -300000000)) (run [.show (.un .exp (.num 0 (-200)))]) = true := by decide +kernel

theorem cosh19_run : passes (fun vs => decide (1 < reAt vs 0)) (session ctx24 250 [.show (.un .cosh (.num 0 (-19)))] initial (constants ctx24 0)) = true := by decide +kernel

/-- The exponential function of an imaginary number has absolute value one; with 256 bits, that of `0j-200` has a real part below -300000000. -/
theorem C81_violated : (∃ vs, run [.show (.un .exp (.num 0 (-200)))] = .ok vs ∧ reAt vs 0 < -300000000) ∧ -1 ≤ (Complex.exp ⟨0, -200⟩).re := by
  refine ⟨of_passes exp200_run, ?_⟩
  rw [Complex.exp_re]
  have := Real.neg_one_le_cos (-200)
  simpa using this

/-- Likewise, the hyperbolic cosine of an imaginary number is the cosine of a real one; with 24 bits, that of `0j-19` is more than one. -/
theorem C81_violated_cosh : (∃ vs, session ctx24 250 [.show (.un .cosh (.num 0 (-19)))] initial (constants ctx24 0) = .ok vs ∧ 1 < reAt vs 0) ∧ (Complex.cosh ⟨0, -19⟩).re ≤ 1 := by
  refine ⟨of_passes cosh19_run, ?_⟩
  rw [(cosh_parts 0 (-19)).1, Real.cosh_zero, one_mul]
  exact Real.cos_le_one _

end Verif.Cell
