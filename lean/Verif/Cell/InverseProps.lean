import Verif.Cell.InverseLemmas

/-!
# C91: the inverse tangents of complex numbers

Full statement: every part of `atan z` and `atanh z` is within a factor `1 ± 2 ^ -20` of that of the value Mathlib gives (`Complex.arctan`; the number with hyperbolic tangent `z` and imaginary part
in `(-π/2, π/2]`), and `atan` fails only at `±i`, `atanh` only at `±1`.

Proved for exact `z`: the functions fail at these points and nowhere else (`C91_atan_poles`, `C91_atanh_poles`), and the error is at most `(300 (p + 1) + 30 |w|) * 2 ^ -p`, where `w` is the right value
(`C91_atan_partial`, `C91_atanh_partial`). This is not a bound of the relative error, and there is none: the parts of tiny numbers are lost (`C91_violated`), and the result that then has an imaginary
part zero is still complex. Missing: `z` with floats as parts.
-/

namespace Verif.Cell
open Verif.Arr (R)
open Verif.Flt

/-- The value of the result. -/
def Value (v : Val) (h : Heap) (z : ℂ) : Prop := ∃ w, read v h = .ok (w, h) ∧ (⟨w.parts.1.val, w.parts.2.val⟩ : ℂ) = z

theorem atan_eq (c : Ctx) (fuel : ℕ) (h : Heap) (a b : ℚ) (hb : b ≠ 0) : atan c fuel (.cplx (.exact a) (.exact b)) h =
    ((lift (cDiv c (cSub c (.exact 0, .exact 1) (.exact a, .exact b)) (cAdd c (.exact 0, .exact 1) (.exact a, .exact b)))).bind fun q => logTimes c fuel q minusOneOverTwoI) h := by
  unfold atan trig
  dsimp only
  rw [bind_ok (show readS (.exact b) h = .ok (.exact b, h) from rfl), if_pos (show (PS.exact b).val ≠ 0 from hb)]
  rfl

theorem exactly_I : Exactly (.exact 0, .exact 1) Complex.I := ⟨0, 1, rfl, by apply Complex.ext <;> simp⟩
theorem exactly_one : Exactly (.exact 1, .exact 0) 1 := ⟨1, 0, rfl, by apply Complex.ext <;> simp⟩

/-- `atan` of an exact complex number is near the arctangent. -/
theorem C91_atan_partial (p : ℕ) (hp : 16 ≤ p) (hp' : p ≤ constPrecisionInBits) (h : Heap) (hg : Intact p h) (fuel : ℕ) (hfu : 12 + 40 * p ≤ fuel) (a b : ℚ) (hb : b ≠ 0)
    (h1 : (⟨a, b⟩ : ℂ) ≠ Complex.I) (h2 : (⟨a, b⟩ : ℂ) ≠ -Complex.I) :
    ∃ r h' w, atan (ctxOf p) fuel (.cplx (.exact a) (.exact b)) h = .ok (r, h') ∧ Value r h' w ∧
      ‖w - Complex.arctan ⟨a, b⟩‖ ≤ (300 * (p + 1) + 30 * ‖Complex.arctan ⟨a, b⟩‖) * (2 : ℝ) ^ (-(p : ℤ)) := by
  have hz : Exactly (.exact a, .exact b) ⟨a, b⟩ := ⟨a, b, rfl, rfl⟩
  have hd : Complex.I + ⟨a, b⟩ ≠ 0 := fun hc => h2 (by linear_combination hc)
  have hn : Complex.I - ⟨a, b⟩ ≠ 0 := fun hc => h1 (by linear_combination -hc)
  obtain ⟨q, q1, q2⟩ := cDiv_exact (ctxOf p) (exactly_I.sub (c := ctxOf p) hz) (exactly_I.add (c := ctxOf p) hz) hd
  have hk : toC minusOneOverTwoI = -Complex.I / 2 := by
    unfold toC minusOneOverTwoI
    apply Complex.ext <;> simp [PS.val, Rat.mkRat_eq_div] <;> norm_num
  obtain ⟨r, s, h', w, e1, e2, e3⟩ := logTimes_err hp hp' hg q2 (div_ne_zero hn hd) minusOneOverTwoI (by rw [hk]; simp) hfu
  have ht : toC minusOneOverTwoI * Complex.log ((Complex.I - ⟨a, b⟩) / (Complex.I + ⟨a, b⟩)) = Complex.arctan ⟨a, b⟩ := by
    rw [hk]
    unfold Complex.arctan
    congr 2
    have hI : Complex.I * Complex.I = -1 := Complex.I_mul_I
    have hd' : 1 - (⟨a, b⟩ : ℂ) * Complex.I ≠ 0 := by
      intro hc
      apply hd
      linear_combination Complex.I * hc + (⟨a, b⟩ : ℂ) * hI
    rw [div_eq_div_iff hd hd']
    generalize (⟨a, b⟩ : ℂ) = z
    linear_combination (-2 * z) * hI
  rw [ht] at e3
  refine ⟨_, h', _, ?_, ⟨w, e2, rfl⟩, e3⟩
  rw [atan_eq _ _ _ _ _ hb, bind_ok (show lift (cDiv _ _ _) h = .ok (q, h) by rw [q1]; rfl)]
  exact e1

/-- `atan` fails at `i` and `-i`. -/
theorem C91_atan_poles (c : Ctx) (fuel : ℕ) (h : Heap) (v : Val) (hv : v = .cplx (.exact 0) (.exact 1) ∨ v = .cplx (.exact 0) (.exact (-1))) : ∃ m, atan c fuel v h = .err m := by
  rcases hv with rfl | rfl
  · have e : cDiv c (cSub c (.exact 0, .exact 1) (.exact 0, .exact 1)) (cAdd c (.exact 0, .exact 1) (.exact 0, .exact 1)) = .ok (.exact 0, .exact 0) := by
      simp [cDiv, cSub, cAdd, arith, PS.val, norm, divide, R.bind]
    have e2 : cAbs c fuel (.exact 0, .exact 0) = .ok (.exact 0) := by
      have h0 : rnd c.p 0 = 0 := rnd_zero c.p
      simp [cAbs, evalFloat, norm, arith, PS.float, floatOf, h0, floatSqrt, R.bind, shrinkF]
      decide
    have e3 : realLog c fuel (.exact 0) = .err "log of non-positive value" := by
      have h0 : rnd c.p 0 = 0 := rnd_zero c.p
      simp [realLog, evalFloat, onVal, PS.float, floatOf, h0, floatLog, R.bind]
    refine ⟨"log of non-positive value", ?_⟩
    rw [atan_eq _ _ _ _ _ (by norm_num), e]
    rw [bind_ok (show lift (.ok (.exact 0, .exact 0) : R (PS × PS)) h = .ok ((.exact 0, .exact 0), h) from rfl)]
    unfold logTimes
    rw [bind_ok (show newS (.exact 0) h = .ok (.exact 0, h) from rfl), bind_ok (show newS (.exact 0) h = .ok (.exact 0, h) from rfl)]
    have e4 : complexLog c fuel (.exact 0) (.exact 0) h = .err "log of non-positive value" := by
      unfold complexLog
      rw [bind_ok (show readS (.exact 0) h = .ok (.exact 0, h) from rfl), bind_ok (show readS (.exact 0) h = .ok (.exact 0, h) from rfl), e2]
      rw [bind_ok (show lift (.ok (.exact 0) : R PS) h = .ok (.exact 0, h) from rfl)]
      rw [bind_ok (show phaseC c fuel (.exact 0) (.exact 0) h = .ok (.exact 0, h) from rfl), e3]
      rfl
    unfold M.bind
    rw [e4]
    rfl
  · have e : cDiv c (cSub c (.exact 0, .exact 1) (.exact 0, .exact (-1))) (cAdd c (.exact 0, .exact 1) (.exact 0, .exact (-1))) = .err "complex division by zero" := by
      simp [cDiv, cSub, cAdd, arith, PS.val]
    refine ⟨"complex division by zero", ?_⟩
    rw [atan_eq _ _ _ _ _ (by norm_num), e]
    rfl

/-- The number with hyperbolic tangent `z` and imaginary part in `(-π/2, π/2]`. -/
def IsArtanh (z w : ℂ) : Prop := Complex.tanh w = z ∧ -(Real.pi / 2) < w.im ∧ w.im ≤ Real.pi / 2

theorem isArtanh_log {z : ℂ} (h1 : z ≠ 1) (h2 : z ≠ -1) : IsArtanh z (1 / 2 * Complex.log ((1 + z) / (1 - z))) := by
  refine ⟨tanh_half_log h1 h2, ?_, ?_⟩
  · have := Complex.neg_pi_lt_log_im ((1 + z) / (1 - z))
    rw [show (1 / 2 : ℂ) = ((1 / 2 : ℝ) : ℂ) by norm_num, Complex.im_ofReal_mul]; linarith
  · have := Complex.log_im_le_pi ((1 + z) / (1 - z))
    rw [show (1 / 2 : ℂ) = ((1 / 2 : ℝ) : ℂ) by norm_num, Complex.im_ofReal_mul]; linarith

/-- An exact number: real if the imaginary part is zero. -/
def exactNum (a b : ℚ) : Val := if b = 0 then .real (.exact a) else .cplx (.exact a) (.exact b)

theorem atanh_eq (c : Ctx) (fuel : ℕ) (h : Heap) (a b : ℚ) (hb : b ≠ 0 ∨ a ≤ -1 ∨ 1 ≤ a) : atanh c fuel (exactNum a b) h =
    (let num := cAdd c (.exact 1, .exact 0) (.exact a, .exact b)
    let den := cSub c (.exact 1, .exact 0) (.exact a, .exact b)
    if (num.1.val = 0 ∧ num.2.val = 0) ∨ (den.1.val = 0 ∧ den.2.val = 0) then lift (.err "atanh is infinite") else
      (lift (cDiv c num den)).bind fun q => logTimes c fuel q (.exact (mkRat 1 2), .exact 0) : M Val) h := by
  unfold atanh exactNum
  by_cases h0 : b = 0
  · rw [if_pos h0]
    dsimp only
    have ha : (PS.exact a).val ≤ -1 ∨ 1 ≤ (PS.exact a).val := hb.resolve_left (not_not.2 h0)
    rw [bind_ok (show readS (.exact a) h = .ok (.exact a, h) from rfl), if_pos ha, h0]
    rfl
  · rw [if_neg h0]
    dsimp only
    rw [bind_ok (show readS (.exact b) h = .ok (.exact b, h) from rfl), if_pos (show (PS.exact b).val ≠ 0 from h0)]
    rfl

/-- `atanh` of an exact number that is not real, or real and beyond `±1`. -/
theorem C91_atanh_partial (p : ℕ) (hp : 16 ≤ p) (hp' : p ≤ constPrecisionInBits) (h : Heap) (hg : Intact p h) (fuel : ℕ) (hfu : 12 + 40 * p ≤ fuel) (a b : ℚ) (hb : b ≠ 0 ∨ a < -1 ∨ 1 < a) :
    ∃ r h' w t, atanh (ctxOf p) fuel (exactNum a b) h = .ok (r, h') ∧ Value r h' w ∧ IsArtanh ⟨a, b⟩ t ∧
      ‖w - t‖ ≤ (300 * (p + 1) + 30 * ‖t‖) * (2 : ℝ) ^ (-(p : ℤ)) := by
  have hz : Exactly (.exact a, .exact b) ⟨a, b⟩ := ⟨a, b, rfl, rfl⟩
  have h1 : (⟨a, b⟩ : ℂ) ≠ 1 := by
    intro hc
    have e1 := congrArg Complex.re hc
    have e2 := congrArg Complex.im hc
    simp only [Complex.one_re, Complex.one_im, Rat.cast_eq_zero] at e1 e2
    have e3 : a = 1 := by exact_mod_cast e1
    rw [e3, e2] at hb
    norm_num at hb
  have h2 : (⟨a, b⟩ : ℂ) ≠ -1 := by
    intro hc
    have e1 := congrArg Complex.re hc
    have e2 := congrArg Complex.im hc
    simp only [Complex.neg_re, Complex.neg_im, Complex.one_re, Complex.one_im, neg_zero, Rat.cast_eq_zero] at e1 e2
    have e3 : a = -1 := by exact_mod_cast e1
    rw [e3, e2] at hb
    norm_num at hb
  have hn : 1 + (⟨a, b⟩ : ℂ) ≠ 0 := fun hc => h2 (by linear_combination hc)
  have hd : 1 - (⟨a, b⟩ : ℂ) ≠ 0 := fun hc => h1 (by linear_combination -hc)
  have zero : ∀ {x : PS × PS} {X : ℂ}, Exactly x X → X ≠ 0 → ¬ (x.1.val = 0 ∧ x.2.val = 0) := by
    rintro x X ⟨q, r, rfl, rfl⟩ hX ⟨e1, e2⟩
    apply hX
    apply Complex.ext
    · show (q : ℝ) = 0; exact_mod_cast e1
    · show (r : ℝ) = 0; exact_mod_cast e2
  have xn := exactly_one.add (c := ctxOf p) hz
  have xd := exactly_one.sub (c := ctxOf p) hz
  obtain ⟨q, q1, q2⟩ := cDiv_exact (ctxOf p) xn xd hd
  have hk : toC (.exact (mkRat 1 2), .exact 0) = 1 / 2 := by
    unfold toC
    apply Complex.ext <;> simp [PS.val, Rat.mkRat_eq_div]
  obtain ⟨r, s, h', w, e1, e2, e3⟩ := logTimes_err hp hp' hg q2 (div_ne_zero hn hd) (.exact (mkRat 1 2), .exact 0) (by rw [hk]; simp) hfu
  rw [hk] at e3
  refine ⟨_, h', _, _, ?_, ⟨w, e2, rfl⟩, isArtanh_log h1 h2, e3⟩
  rw [atanh_eq _ _ _ _ _ (hb.imp_right (Or.imp le_of_lt le_of_lt))]
  dsimp only
  rw [if_neg (not_or.2 ⟨zero xn hn, zero xd hd⟩), bind_ok (show lift (cDiv _ _ _) h = .ok (q, h) by rw [q1]; rfl)]
  exact e1

/-- `atanh` fails at `1` and `-1`. -/
theorem C91_atanh_poles (c : Ctx) (fuel : ℕ) (h : Heap) (a : ℚ) (ha : a = 1 ∨ a = -1) : atanh c fuel (exactNum a 0) h = .err "atanh is infinite" := by
  rcases ha with rfl | rfl
  · rw [atanh_eq _ _ _ _ _ (by norm_num)]
    dsimp only
    rw [if_pos (by simp [cSub, cAdd, arith, PS.val])]
    rfl
  · rw [atanh_eq _ _ _ _ _ (by norm_num)]
    dsimp only
    rw [if_pos (by simp [cSub, cAdd, arith, PS.val])]
    rfl

/-- The hypotheses of `C91_atan_partial` for `atan 1j1` and of `C91_atanh_partial` for `atanh 2`. -/
example : (1 : ℚ) ≠ 0 ∧ (⟨1, 1⟩ : ℂ) ≠ Complex.I ∧ (⟨1, 1⟩ : ℂ) ≠ -Complex.I ∧ ((0 : ℚ) ≠ 0 ∨ (2 : ℚ) < -1 ∨ (1 : ℚ) < 2) := by
  refine ⟨by norm_num, ?_, ?_, Or.inr (Or.inr (by norm_num))⟩ <;> intro hc <;> simpa using congrArg Complex.re hc

/-- Full statement for `atan`: the parts are right to 20 bits. -/
def C91_full : Prop := ∀ (p : ℕ) (h : Heap) (fuel : ℕ) (a b : ℚ), 64 ≤ p → p ≤ constPrecisionInBits → Intact p h → 12 + 40 * p ≤ fuel → b ≠ 0 → (⟨a, b⟩ : ℂ) ≠ Complex.I → (⟨a, b⟩ : ℂ) ≠ -Complex.I →
  ∃ r h' w, atan (ctxOf p) fuel (.cplx (.exact a) (.exact b)) h = .ok (r, h') ∧ Value r h' w ∧
    |w.re - (Complex.arctan ⟨a, b⟩).re| ≤ (2 : ℝ) ^ (-20 : ℤ) * |(Complex.arctan ⟨a, b⟩).re| ∧ |w.im - (Complex.arctan ⟨a, b⟩).im| ≤ (2 : ℝ) ^ (-20 : ℤ) * |(Complex.arctan ⟨a, b⟩).im|

/-- The memory of a session with 64 bits. -/
def heap64 : Heap := [⟨64, rnd 64 ((ctxOf 64).pi / 2)⟩, ⟨64, -rnd 64 ((ctxOf 64).pi / 2)⟩]

theorem tiny_run : passes (fun z => decide (passes (fun w => decide (w.1.parts.2.val = 0)) (read z.1 z.2) = true))
    (atan (ctxOf 64) 2600 (.cplx (.exact (1 / 10 ^ 30)) (.exact (1 / 10 ^ 30))) heap64) = true := by decide +kernel

/-- With 64 bits, the imaginary part of `atan` of `1e-30 + 1e-30 i` is zero. -/
theorem C91_violated : ¬ C91_full := by
  intro hf
  have hb : (1 / 10 ^ 30 : ℚ) ≠ 0 := by norm_num
  have n1 : (⟨(1 / 10 ^ 30 : ℚ), (1 / 10 ^ 30 : ℚ)⟩ : ℂ) ≠ Complex.I := by
    intro hc
    have := congrArg Complex.re hc
    norm_num at this
  have n2 : (⟨(1 / 10 ^ 30 : ℚ), (1 / 10 ^ 30 : ℚ)⟩ : ℂ) ≠ -Complex.I := by
    intro hc
    have := congrArg Complex.re hc
    norm_num at this
  obtain ⟨r, h', w, e1, ⟨u, u1, u2⟩, -, e3⟩ := hf 64 heap64 2600 (1 / 10 ^ 30) (1 / 10 ^ 30) le_rfl (by decide) ⟨rfl, rfl⟩ (by norm_num) hb n1 n2
  obtain ⟨z, z1, z2⟩ := of_passes tiny_run
  rw [e1] at z1
  injection z1 with z1
  subst z1
  simp only [u1] at z2
  have z3 : u.parts.2.val = 0 := of_decide_eq_true z2
  have hw : w.im = 0 := by rw [← u2]; show ((u.parts.2.val : ℚ) : ℝ) = 0; rw [z3]; simp
  have ht := Complex.tan_arctan n1 n2
  generalize Complex.arctan ⟨(1 / 10 ^ 30 : ℚ), (1 / 10 ^ 30 : ℚ)⟩ = t at *
  rw [hw, zero_sub, abs_neg] at e3
  have h0 : |t.im| = 0 := by
    have := abs_nonneg t.im
    have h2 : (2 : ℝ) ^ (-20 : ℤ) * |t.im| ≤ 1 / 2 * |t.im| := mul_le_mul_of_nonneg_right (by norm_num) this
    have h3 := e3.trans h2
    linarith
  have h1 : t = ((t.re : ℝ) : ℂ) := Complex.ext rfl (by rw [Complex.ofReal_im]; exact abs_eq_zero.1 h0)
  rw [h1, ← Complex.ofReal_tan] at ht
  have := congrArg Complex.im ht
  rw [Complex.ofReal_im] at this
  norm_num at this

end Verif.Cell
