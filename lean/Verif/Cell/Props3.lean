import Mathlib.Analysis.Complex.Polynomial.Basic
import Verif.Cell.Lemmas9
import Verif.Cell.Props2

/-!
# C82, C83: phase, absolute value, logarithm and square root of complex numbers

C82: `phase`, `abs` and `log` of every number of a session have a value, which is near the argument, the absolute value and the principal logarithm of Mathlib.
The loops of the model have fuel; any amount above `12 + 40 p` gives this result, so that the loops of the program end.

C83, full statement: each part of the square root of a complex number is within `1000 * 2 ^ -p` times its absolute value of that of the principal root. This is false
(`C83_violated`): the smaller part is computed from a difference of almost equal numbers, and is lost. What is proved (`C83_partial`) is that the larger part is
within `14 * 2 ^ -p`, and that the smaller one is within `3 * √(2 ^ -p)`, if there is a result. That there always is one is not proved: it is not if the rounded absolute value
is less than the real part.
-/

namespace Verif.Cell
open Verif.Arr (R)
open Verif.Flt
open Verif.Flt.Spec (IsFloat)

/-- A scalar with the value `x`: an exact number, or an object with a float of the precision in use. -/
def Scalar (p : ℕ) (h : Heap) (x : ℚ) : Sc → Prop
  | .exact q => x = q
  | .cell a => h[a]? = some ⟨p, x⟩ ∧ IsFloat p x

/-- A real or complex number with the value `x + iy`. -/
def Number (p : ℕ) (h : Heap) (x y : ℚ) : Val → Prop
  | .real s => Scalar p h x s ∧ y = 0
  | .cplx s t => Scalar p h x s ∧ Scalar p h y t

/-- The constants `π/2` and `-π/2` of the program have their values. -/
def Intact (p : ℕ) (h : Heap) : Prop := Good (ctxOf p) h

theorem Scalar.reads {p : ℕ} {h : Heap} {x : ℚ} {s : Sc} (hs : Scalar p h x s) : ∃ u, ReadsS h s u ∧ u.val = x ∧ Num p u := by
  cases s with
  | exact q => exact ⟨.exact q, rfl, hs.symm, trivial⟩
  | cell a => exact ⟨.flt ⟨p, x⟩, hs.1, rfl, rfl, hs.2⟩

theorem Number.reads {p : ℕ} {h : Heap} {x y : ℚ} {v : Val} (hv : Number p h x y v) :
    ∃ u, Reads h v u ∧ u.parts.1.val = x ∧ u.parts.2.val = y ∧ Num p u.parts.1 := by
  cases v with
  | real s =>
    obtain ⟨u, u1, u2, u3⟩ := hv.1.reads
    exact ⟨.real u, u1, u2, hv.2.symm, u3⟩
  | cplx s t =>
    obtain ⟨u, u1, u2, u3⟩ := hv.1.reads
    obtain ⟨w, w1, w2, -⟩ := hv.2.reads
    exact ⟨.cplx u w, ⟨u1, w1⟩, u2, w2, u3⟩

theorem sim_ok {r : R (Val × Heap)} {n : Nat} {h : Heap} {q : Prop} {w : PV} {s : R PV} (hs : Sim r s (UnPost n h q)) (hw : s = .ok w) :
    ∃ v h', r = .ok (v, h') ∧ read v h' = .ok (w, h') := by
  rw [hw] at hs
  cases r <;> first | exact hs.elim | skip
  exact ⟨_, _, rfl, read_ok hs.1⟩

variable (p : ℕ) (hp : 16 ≤ p) (hp' : p ≤ constPrecisionInBits) (h : Heap) (x y : ℚ) (v : Val) (hv : Number p h x y v) (hg : Intact p h) (fuel : ℕ) (hfu : 12 + 40 * p ≤ fuel)
include hp hp' hv hg hfu

theorem C82_phase : ∃ r h', unary (ctxOf p) fuel .phase v h = .ok (r, h') ∧ Near r h' (Complex.arg ⟨x, y⟩ : ℝ) (260 * (p + 1) * (2 : ℝ) ^ (-(p : ℤ))) 0 := by
  obtain ⟨u, u1, u2, u3, -⟩ := hv.reads
  obtain ⟨s, s1, s2⟩ := phaseC_err (c := ctxOf p) hp (piOk hp') u.parts.1 u.parts.2 (fuel := fuel) (by show 12 + 4 * p ≤ fuel; omega)
  have hs : ∃ w : PS, Spec.phase (ctxOf p) fuel u = .ok (.real w) ∧ w.val = s.val := by
    cases u with
    | real a =>
      refine ⟨_, rfl, ?_⟩
      unfold Spec.phaseC at s1
      rw [if_pos (show (PV.real a).parts.2.val = 0 from rfl)] at s1
      injection s1 with s1
      rw [← s1]; rfl
    | cplx a b =>
      refine ⟨s.shrink, ?_, s.shrink_val⟩
      unfold Spec.phase
      simp only [PV.parts] at s1
      dsimp only
      rw [s1]; rfl
  obtain ⟨w, w1, w2⟩ := hs
  obtain ⟨r, h', r1, r2⟩ := sim_ok (phase_sim (ctxOf p) fuel hg (Nat.zero_le _) u1) w1
  refine ⟨r, h', r1, _, r2, ?_, ?_⟩
  · show |((w.val : ℚ) : ℝ) - _| ≤ _
    rw [w2, Complex.ofReal_re, ← u2, ← u3]
    exact s2
  · simp [PV.parts, PS.val]

theorem C82_log (h0 : x ≠ 0 ∨ y ≠ 0) : ∃ r h', unary (ctxOf p) fuel .log v h = .ok (r, h') ∧
    Near r h' (Complex.log ⟨x, y⟩) ((310 * (p + 1) + 12 * |Real.log ‖(⟨x, y⟩ : ℂ)‖|) * (2 : ℝ) ^ (-(p : ℤ))) (260 * (p + 1) * (2 : ℝ) ^ (-(p : ℤ))) := by
  obtain ⟨u, u1, u2, u3, u4⟩ := hv.reads
  have hz : (⟨x, y⟩ : ℂ) ≠ 0 := by
    intro hc
    have h1 := congrArg Complex.re hc
    have h2 := congrArg Complex.im hc
    simp only [Complex.zero_re, Complex.zero_im, Rat.cast_eq_zero] at h1 h2
    tauto
  have hm : 0 < ‖(⟨x, y⟩ : ℂ)‖ := norm_pos_iff.2 hz
  have he := eps_real p
  have hs : ∃ w, Spec.log (ctxOf p) fuel u = .ok w ∧ |(w.parts.1.val : ℝ) - Real.log ‖(⟨x, y⟩ : ℂ)‖| ≤ (310 * (p + 1) + 12 * |Real.log ‖(⟨x, y⟩ : ℂ)‖|) * eps p ∧
      |(w.parts.2.val : ℝ) - Complex.arg ⟨x, y⟩| ≤ 260 * (p + 1) * eps p := by
    unfold Spec.log
    dsimp only
    by_cases hb : u.parts.2.val ≠ 0 ∨ u.parts.1.val < 0
    · rw [if_pos hb]
      obtain ⟨a, a1, a2, a3, a4⟩ := cAbs_err (c := ctxOf p) hp (a := u.parts.1) (b := u.parts.2) (by rw [u2, u3]; exact h0) (fuel := fuel) (by show 10 + p ≤ fuel; omega)
      obtain ⟨s, s1, s2⟩ := phaseC_err (c := ctxOf p) hp (piOk hp') u.parts.1 u.parts.2 (fuel := fuel) (by show 12 + 4 * p ≤ fuel; omega)
      rw [u2, u3] at a4 s2
      obtain ⟨l, l1, l2⟩ := realLog_err (c := ctxOf p) hp (logOk hp') a2 a3 hm a4 (fuel := fuel) (by show 10 + 40 * p ≤ fuel; omega)
      rw [a1, bindR_ok, s1, bindR_ok, l1, bindR_ok]
      obtain ⟨c1, c2⟩ := shrinkC_vals l s
      exact ⟨_, rfl, by rw [c1]; exact l2, by rw [c2]; exact s2⟩
    · rw [if_neg hb]
      rw [u2, u3] at hb
      have hy : y = 0 := by by_contra hc; exact hb (Or.inl hc)
      have hx : 0 < x := lt_of_le_of_ne (not_lt.1 fun hc => hb (Or.inr hc)) (fun hc => by rcases h0 with h0 | h0; exacts [h0 hc.symm, h0 hy])
      have hx' : (0 : ℝ) < x := by exact_mod_cast hx
      have hn : ‖(⟨x, y⟩ : ℂ)‖ = x := by rw [normSq_mk, hy]; simp [Real.sqrt_sq hx'.le]
      obtain ⟨l, l1, l2⟩ := realLog_err (c := ctxOf p) hp (logOk hp') u4 (by rw [u2]; exact hx) hm (by rw [u2, hn, sub_self, abs_zero]; positivity) (fuel := fuel)
        (by show 10 + 40 * p ≤ fuel; omega)
      rw [l1, bindR_ok]
      refine ⟨_, rfl, l2, ?_⟩
      have ha : Complex.arg ⟨x, y⟩ = 0 := by
        rw [Complex.arg_eq_zero_iff]
        exact ⟨hx'.le, by show ((y : ℚ) : ℝ) = 0; rw [hy]; simp⟩
      rw [ha]
      simp only [PV.parts, PS.val, Rat.cast_zero, sub_self, abs_zero]
      positivity
  obtain ⟨w, w1, w2, w3⟩ := hs
  obtain ⟨r, h', r1, r2⟩ := sim_ok (logn_sim (ctxOf p) fuel hg (Nat.zero_le _) u1) w1
  refine ⟨r, h', r1, w, r2, ?_, ?_⟩
  · rw [Complex.log_re]; exact w2
  · rw [Complex.log_im]; exact w3

omit hp' hg in
theorem C82_abs (h0 : y ≠ 0) : ∃ r h', unary (ctxOf p) fuel .abs v h = .ok (r, h') ∧ Near r h' (‖(⟨x, y⟩ : ℂ)‖ : ℝ) (9 * (2 : ℝ) ^ (-(p : ℤ)) * ‖(⟨x, y⟩ : ℂ)‖) 0 := by
  obtain ⟨u, u1, u2, u3, -⟩ := hv.reads
  cases u with
  | real a => exact absurd u3.symm h0
  | cplx a b =>
    simp only [PV.parts] at u2 u3
    obtain ⟨s, s1, -, -, s4⟩ := cAbs_err (c := ctxOf p) hp (a := a) (b := b) (Or.inr (by rw [u3]; exact h0)) (fuel := fuel) (by show 10 + p ≤ fuel; omega)
    have e : absV (ctxOf p) fuel (.cplx a b) = .ok (.real s) := by unfold absV; dsimp only; rw [s1]; rfl
    obtain ⟨r, h', r1, r2⟩ := sim_ok (q := False) ((fresh1_sim (Nat.zero_le h.length) (absV (ctxOf p) fuel) u1).mono fun _ _ _ q => q.un) e
    refine ⟨r, h', r1, _, r2, ?_, ?_⟩
    · rw [u2, u3] at s4
      exact s4
    · simp [PV.parts, PS.val]

omit hp' hv hg hfu

theorem C83_partial (ho : Operand p h x y v) (hfu : 10 + p ≤ fuel) (r : Val) (h' : Heap) (hr : unary (ctxOf p) fuel .sqrt v h = .ok (r, h')) (w : ℂ) (hw : w ^ 2 = ⟨x, y⟩)
    (hw0 : 0 ≤ w.re) :
    Near r h' w (3 * √((2 : ℝ) ^ (-(p : ℤ))) * ‖w‖) (3 * √((2 : ℝ) ^ (-(p : ℤ))) * ‖w‖) ∧
    (0 ≤ x → Near r h' w (14 * (2 : ℝ) ^ (-(p : ℤ)) * ‖w‖) (3 * √((2 : ℝ) ^ (-(p : ℤ))) * ‖w‖)) ∧
    (x ≤ 0 → Near r h' w (3 * √((2 : ℝ) ^ (-(p : ℤ))) * ‖w‖) (14 * (2 : ℝ) ^ (-(p : ℤ)) * ‖w‖)) := by
  obtain ⟨s, t, rfl, hs, ht, hy, hst⟩ := ho
  obtain ⟨u, u1, u2, u3, -⟩ := Part.reads (c := ctxOf p) (by show 1 ≤ p; omega) hs
  obtain ⟨b, b1, b2, b3, b4⟩ := Part.reads (c := ctxOf p) (by show 1 ≤ p; omega) ht
  have hsim := fresh1_sim (Nat.zero_le h.length) (sqrtV (ctxOf p) fuel) (v := .cplx s t) (x := .cplx u b) ⟨u1, b1⟩
  have hr' : fresh1 (sqrtV (ctxOf p) fuel) (.cplx s t) h = .ok (r, h') := hr
  rw [hr'] at hsim
  have e : sqrtV (ctxOf p) fuel (.cplx u b) = (complexSqrt (ctxOf p) fuel u b).bind fun r => .ok (.cplx r.1 r.2) := by
    unfold sqrtV
    rw [if_pos (show (PV.cplx u b).parts.2.val ≠ 0 from b4 hy)]
    rfl
  cases hk : complexSqrt (ctxOf p) fuel u b <;> rw [e, hk] at hsim <;> first | exact hsim.elim | skip
  obtain ⟨e1, e2, e3, e4⟩ := complexSqrt_err (c := ctxOf p) hp u2 b2 hy hfu hk hw hw0
  have hrd := read_ok hsim.1
  exact ⟨⟨_, hrd, e1, e2⟩, fun hx => ⟨_, hrd, e3 hx, e2⟩, fun hx => ⟨_, hrd, e1, e4 hx⟩⟩

omit hp

/-- The operand `-3j4` at the start of a session with 64 bits: the constants are intact, and 2572 is enough. -/
example : Number 64 (constants (ctxOf 64) 0) (-3) 4 (.cplx (.exact (-3)) (.exact 4)) ∧ Intact 64 (constants (ctxOf 64) 0) ∧ 64 ≤ constPrecisionInBits ∧ 12 + 40 * 64 ≤ 2572 :=
  ⟨⟨rfl, rfl⟩, ⟨rfl, rfl⟩, by decide, by decide⟩

/-- The error of its phase is small. -/
example : (260 * ((64 : ℝ) + 1) * (2 : ℝ) ^ (-(64 : ℤ))) ≤ 1 / 10 ^ 15 := by norm_num

/-- It has a square root, with 64 bits. -/
example : passes (fun z => decide (z.1 = .cplx (.exact 1) (.exact 2))) (unary ctx64 300 .sqrt (.cplx (.exact (-3)) (.exact 4)) []) = true := by decide +kernel

theorem sqrt_run : passes (fun vs => decide (vs.length = 1 ∧ imAt vs 0 = 0)) (run64 [.show (.un .sqrt (.num 3 (1 / 10 ^ 10)))]) = true := by decide +kernel

/-- With 64 bits, the imaginary part of `sqrt 3j1e-10` is zero instead of about `2.9e-11`, some 300 million times `2 ^ -64 * ‖w‖`. -/
theorem C83_violated (w : ℂ) (hw : w ^ 2 = ⟨3, 1 / 10 ^ 10⟩) (hw0 : 0 ≤ w.re) :
    ∃ vs, run64 [.show (.un .sqrt (.num 3 (1 / 10 ^ 10)))] = .ok vs ∧ vs.length = 1 ∧ imAt vs 0 = 0 ∧ 1000 * (2 : ℝ) ^ (-(64 : ℤ)) * ‖w‖ < |(imAt vs 0 : ℝ) - w.im| := by
  obtain ⟨vs, h1, h2, h3⟩ := of_passes sqrt_run
  refine ⟨vs, h1, h2, h3, ?_⟩
  have e1 : w.re ^ 2 - w.im ^ 2 = 3 := by
    have := congrArg Complex.re hw
    rw [sq, Complex.mul_re] at this
    simp only at this
    rw [← this]; ring
  have e2 : 2 * w.re * w.im = 1 / 10 ^ 10 := by
    have := congrArg Complex.im hw
    rw [sq, Complex.mul_im] at this
    simp only at this
    rw [← this]; ring
  have l1 : 1 ≤ w.re := by nlinarith [sq_nonneg w.im]
  have l2 : 0 ≤ w.im := by
    by_contra hc
    have := not_le.1 hc
    nlinarith
  have l3 : w.im ≤ 1 / 10 ^ 10 := by nlinarith
  have l4 : w.re ≤ 2 := by nlinarith
  have l5 : 1 / (4 * 10 ^ 10) ≤ w.im := by nlinarith
  have l6 : ‖w‖ ≤ 3 := (Complex.norm_le_abs_re_add_abs_im w).trans (by rw [abs_of_nonneg hw0, abs_of_nonneg l2]; linarith)
  rw [h3, Rat.cast_zero, zero_sub, abs_neg, abs_of_nonneg l2]
  have : 1000 * (2 : ℝ) ^ (-(64 : ℤ)) * ‖w‖ ≤ 1000 * (2 : ℝ) ^ (-(64 : ℤ)) * 3 := mul_le_mul_of_nonneg_left l6 (by positivity)
  refine lt_of_le_of_lt this (lt_of_lt_of_le ?_ l5)
  norm_num

/-- There is such a number. -/
example : ∃ w : ℂ, w ^ 2 = ⟨3, 1 / 10 ^ 10⟩ ∧ 0 ≤ w.re := by
  obtain ⟨w, hw⟩ := IsAlgClosed.exists_pow_nat_eq (⟨3, 1 / 10 ^ 10⟩ : ℂ) (show 0 < 2 by norm_num)
  rcases le_total 0 w.re with h | h
  · exact ⟨w, hw, h⟩
  · exact ⟨-w, by rw [neg_sq, hw], by rw [Complex.neg_re]; linarith⟩

end Verif.Cell
