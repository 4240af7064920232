import Verif.Cell.PowerLemmas
import Verif.Cell.Props3

/-!
# C84: powers of complex and negative numbers

Full statement: `z ** n` with a whole exponent `n` is the `n`th power of `z`: exact if the parts of `z` are exact, with an error of at most some `n` units otherwise, and real if `z` is real; other powers
are `exp (w log z)` with the errors of C81 and C82.

Proved: the exact powers (`C84_exact`, positive and negative exponents) and the error bound for floats and exponents that are not negative (`C84_float_partial`). The rest is violated: a negative float has powers that are not real (`C84_violated_real`:
both operands are floats there, so that the exponent is never taken for a whole number), and numbers of absolute value one have powers of absolute value above 1000 (`C84_violated_unit`, the
cosine of C72 again).
-/

namespace Verif.Cell
open Verif.Arr (R)
open Verif.Flt
open Verif.Flt.Spec (IsFloat)

/-- A complex number with exact parts; it is real if the imaginary part is zero. -/
def exactVal (q r : ℚ) : Val := if r = 0 then .real (.exact q) else .cplx (.exact q) (.exact r)

theorem new_exact {a : PS × PS} {A : ℂ} (ha : Exactly a A) (h : Heap) : ∃ q r : ℚ, new (shrinkC a.1 a.2) h = .ok (exactVal q r, h) ∧ (⟨q, r⟩ : ℂ) = A := by
  obtain ⟨q, r, rfl, h2⟩ := ha
  refine ⟨q, r, ?_, h2⟩
  unfold shrinkC exactVal
  simp only [PS.shrink, PS.val]
  by_cases hr : r = 0 <;> simp only [hr, if_true, if_false] <;> rfl

/-- The power of a number with exact parts is exact; nothing in memory changes. -/
theorem C84_exact (c : Ctx) (fuel : ℕ) (h : Heap) (a b : ℚ) (n : ℤ) (h1 : -2 ^ 31 ≤ n) (h2 : n < 2 ^ 31) (hb : b ≠ 0) :
    ∃ q r : ℚ, power c fuel (.cplx (.exact a) (.exact b)) (.real (.exact n)) h = .ok (exactVal q r, h) ∧ (⟨q, r⟩ : ℂ) = (⟨a, b⟩ : ℂ) ^ n := by
  have hz : (⟨a, b⟩ : ℂ) ≠ 0 := by
    intro hc
    have := congrArg Complex.im hc
    simp only [Complex.zero_im, Rat.cast_eq_zero] at this
    exact hb this
  have e : power c fuel (.cplx (.exact a) (.exact b)) (.real (.exact n)) h =
      (if n = 0 then M.pure (.real (.exact 1)) else if n = 1 then shrinkV (.exact a) (.exact b) else
        if n < 0 then (lift (cInverse c (cIntPower c (.exact a, .exact b) (-n).toNat))).bind fun r => new (shrinkC r.1 r.2) else
          new (shrinkC (cIntPower c (.exact a, .exact b) n.toNat).1 (cIntPower c (.exact a, .exact b) n.toNat).2) : M Val) h := by
    have hd : (n : ℚ).den = 1 ∧ -2 ^ 31 ≤ (n : ℚ).num ∧ (n : ℚ).num < 2 ^ 31 := ⟨rfl, h1, h2⟩
    show complexPower c fuel (.exact a, .exact b) (.exact n, .exact 0) h = _
    unfold complexPower
    rw [bind_ok (show readS (.exact (n : ℚ)) h = .ok (.exact (n : ℚ), h) from rfl), bind_ok (show readS (.exact 0) h = .ok (.exact 0, h) from rfl),
      bind_ok (show readS (.exact a) h = .ok (.exact a, h) from rfl), bind_ok (show readS (.exact b) h = .ok (.exact b, h) from rfl)]
    rw [if_pos (show (PS.exact 0).val = 0 from rfl)]
    simp only [if_pos hd]
    simp only [Rat.num_intCast]
    rfl
  rw [e]
  by_cases n0 : n = 0
  · rw [if_pos n0, n0]
    refine ⟨1, 0, by unfold exactVal; rw [if_pos rfl]; rfl, ?_⟩
    rw [zpow_zero]
    apply Complex.ext <;> simp
  · rw [if_neg n0]
    by_cases n1 : n = 1
    · rw [if_pos n1, n1, zpow_one]
      refine ⟨a, b, ?_, rfl⟩
      unfold exactVal
      rw [if_neg hb]
      have : shrinkV (.exact a) (.exact b) h = (if (PS.exact b).val = 0 then M.pure (.real (.exact a)) else M.pure (.cplx (.exact a) (.exact b)) : M Val) h := rfl
      rw [this, if_neg (show ¬ (PS.exact b).val = 0 from hb)]
      rfl
    · rw [if_neg n1]
      by_cases nn : n < 0
      · rw [if_pos nn]
        have hp := cIntPower_exact c a b (-n).toNat
        obtain ⟨r, r1, r2⟩ := cInverse_exact c hp (pow_ne_zero _ hz)
        obtain ⟨q, s, q1, q2⟩ := new_exact r2 h
        refine ⟨q, s, ?_, ?_⟩
        · rw [bind_ok (show lift (cInverse c (cIntPower c (.exact a, .exact b) (-n).toNat)) h = .ok (r, h) by rw [r1]; rfl)]
          exact q1
        · rw [q2, ← zpow_natCast, ← zpow_neg]
          congr 1
          omega
      · rw [if_neg nn]
        obtain ⟨q, s, q1, q2⟩ := new_exact (cIntPower_exact c a b n.toNat) h
        refine ⟨q, s, q1, ?_⟩
        rw [q2, ← zpow_natCast]
        congr 1
        omega

/-- `1j2 ** -3` is `-11/125 + 2i/125`. -/
example : power ctx64 0 (.cplx (.exact 1) (.exact 2)) (.real (.exact (-3 : ℤ))) [] = .ok (exactVal (-11 / 125) (2 / 125), []) := by decide +kernel

/-- The power of any complex number (from 16 bits on) has a relative error of at most `(1 + 11 * 2 ^ -p) ^ n - 1`. -/
theorem C84_float_partial (c : Ctx) (hp : 16 ≤ c.p) (fuel : ℕ) (h : Heap) (x y : ℚ) (s t : Sc) (hv : Number c.p h x y (.cplx s t)) (n : ℕ) (hn : n < 2 ^ 31) :
    ∃ r h', power c fuel (.cplx s t) (.real (.exact n)) h = .ok (r, h') ∧
      ∃ w, read r h' = .ok (w, h') ∧ ‖(⟨w.parts.1.val, w.parts.2.val⟩ : ℂ) - (⟨x, y⟩ : ℂ) ^ n‖ ≤ ((1 + 11 * (2 : ℝ) ^ (-(c.p : ℤ))) ^ n - 1) * ‖(⟨x, y⟩ : ℂ)‖ ^ n := by
  obtain ⟨-, -, -, hes⟩ := consts_small hp 0 (k := 0) le_rfl (by norm_num)
  obtain ⟨u, u1, u2, -⟩ := hv.1.reads
  obtain ⟨b, b1, b2, -⟩ := hv.2.reads
  have e : power c fuel (.cplx s t) (.real (.exact n)) h =
      (if (n : ℤ) = 0 then M.pure (.real (.exact 1)) else if (n : ℤ) = 1 then shrinkV s t else
        if (n : ℤ) < 0 then (lift (cInverse c (cIntPower c (u, b) (-(n : ℤ)).toNat))).bind fun r => new (shrinkC r.1 r.2) else
          new (shrinkC (cIntPower c (u, b) (n : ℤ).toNat).1 (cIntPower c (u, b) (n : ℤ).toNat).2) : M Val) h := by
    have hd : (n : ℚ).den = 1 ∧ -2 ^ 31 ≤ (n : ℚ).num ∧ (n : ℚ).num < 2 ^ 31 := by
      refine ⟨rfl, ?_, ?_⟩ <;> rw [Rat.num_natCast] <;> omega
    show complexPower c fuel (s, t) (.exact n, .exact 0) h = _
    unfold complexPower
    rw [bind_ok (show readS (.exact (n : ℚ)) h = .ok (.exact (n : ℚ), h) from rfl), bind_ok (show readS (.exact 0) h = .ok (.exact 0, h) from rfl),
      bind_ok (readS_ok u1), bind_ok (readS_ok b1)]
    rw [if_pos (show (PS.exact 0).val = 0 from rfl)]
    simp only [if_pos hd]
    simp only [Rat.num_natCast]
    rfl
  rw [e]
  have hz : (⟨x, y⟩ : ℂ) = toC (u, b) := by unfold toC; rw [u2, b2]
  rw [hz]
  by_cases n0 : n = 0
  · subst n0
    rw [if_pos (by rfl)]
    refine ⟨_, h, rfl, .real (.exact 1), rfl, ?_⟩
    have : (⟨((PV.real (.exact 1)).parts.1.val : ℚ), ((PV.real (.exact 1)).parts.2.val : ℚ)⟩ : ℂ) = 1 := by apply Complex.ext <;> simp [PV.parts, PS.val]
    rw [this]
    simp
  · rw [if_neg (by exact_mod_cast n0)]
    by_cases n1 : n = 1
    · subst n1
      rw [if_pos (by rfl)]
      have hs := shrinkV_sim u1 b1
      cases hr : shrinkV s t h <;> rw [hr] at hs <;> first | exact hs.elim | skip
      rename_i z
      obtain ⟨z1, z2, -⟩ := hs
      refine ⟨z.1, z.2, rfl, shrinkC u b, by rw [z1]; exact read_ok z2, ?_⟩
      rw [(shrinkC_vals _ _).1, (shrinkC_vals _ _).2]
      have : (⟨(u, b).1.val, (u, b).2.val⟩ : ℂ) - toC (u, b) ^ 1 = 0 := by rw [pow_one]; exact sub_self _
      rw [show (⟨u.val, b.val⟩ : ℂ) - toC (u, b) ^ 1 = 0 from this, norm_zero, pow_one, pow_one]
      have := eps_real c.p
      have h11 : (0 : ℝ) < (2 : ℝ) ^ (-(c.p : ℤ)) := by positivity
      have := norm_nonneg (toC (u, b))
      exact mul_nonneg (by linarith) this
    · rw [if_neg (by exact_mod_cast n1), if_neg (by omega)]
      have hs := new_sim (Nat.zero_le h.length) (shrinkC (cIntPower c (u, b) (n : ℤ).toNat).1 (cIntPower c (u, b) (n : ℤ).toNat).2)
      obtain ⟨r, h', r1, r2⟩ := sim_ok (q := False) (hs.mono fun _ _ _ q => q.un) rfl
      refine ⟨r, h', r1, _, r2, ?_⟩
      rw [(shrinkC_vals _ _).1, (shrinkC_vals _ _).2]
      exact cIntPower_err hes (u, b) n

/-- The float `3/2` and three: a float and an exact number. -/
example : ∃ x, Number 64 [⟨64, x⟩] x 3 (.cplx (.cell 0) (.exact 3)) := ⟨3 / 2, ⟨rfl, 3, -1, by norm_num, by norm_num⟩, rfl⟩

/-- The result of an operation, read. -/
def readResult (r : R (Val × Heap)) : R PV := r.bind fun z => (read z.1 z.2).bind fun w => .ok w.1

theorem cube_run : passes (fun w => decide (w.parts.2.val ≠ 0)) (readResult (power ctx64 650 (.real (.cell 4)) (.real (.exact 3)) (constants ctx64 0 ++ [⟨64, -3 / 2⟩]))) = true := by decide +kernel

/-- With 64 bits, the cube of the float `-3/2` is not real. -/
theorem C84_violated_real : ∃ w, readResult (power ctx64 650 (.real (.cell 4)) (.real (.exact 3)) (constants ctx64 0 ++ [⟨64, -3 / 2⟩])) = .ok w ∧ w.parts.2.val ≠ 0 ∧
    (((-3 / 2 : ℝ) : ℂ) ^ 3).im = 0 := by
  obtain ⟨w, h1, h2⟩ := of_passes cube_run
  exact ⟨w, h1, h2, by rw [← Complex.ofReal_pow, Complex.ofReal_im]⟩

theorem unit_run : passes (fun w => decide (w.parts.1.val < -1000 ∨ 1000 < w.parts.1.val))
    (readResult (power ctx64 650 (.cplx (.exact 0) (.exact (-1))) (.real (.exact (101 / 2))) (constants ctx64 0))) = true := by decide +kernel

/-- With 64 bits, `0j-1 ** 101/2` has a real part beyond 1000, while the power has absolute value one. -/
theorem C84_violated_unit : (∃ w, readResult (power ctx64 650 (.cplx (.exact 0) (.exact (-1))) (.real (.exact (101 / 2))) (constants ctx64 0)) = .ok w ∧
    (w.parts.1.val < -1000 ∨ 1000 < w.parts.1.val)) ∧ ‖(-Complex.I) ^ ((101 / 2 : ℝ) : ℂ)‖ = 1 := by
  refine ⟨of_passes unit_run, ?_⟩
  rw [Complex.norm_cpow_of_ne_zero (neg_ne_zero.2 Complex.I_ne_zero)]
  simp

end Verif.Cell
