import Verif.Shown.HugeLemmas2
/-
C89: huge floats, tiny floats and long integers are shown rounded to the digits asked for.
-/
namespace Verif.Shown
open Verif.Flt Verif.Flt.Spec Verif.Arr
open Verif.Lit (Sign Numeral Exponent withSign Digit formatInt)

/-! ## Specification -/

/-- The verb and the precision that are in use. -/
def InUse (format : List Char) (verb : Char) (prec : Nat) : Prop := floatFormat format = some (verb, prec) ∨ floatFormat format = none ∧ verb = 'g' ∧ prec = 12

/-- **C89, full statement.** Floats with exponents beyond 10000 are printed, with every format and in every precision, as decimal numbers that are rounded correctly. -/
def C89_full : Prop :=
  ∀ p pf format verb prec q fuel t, 1 ≤ p → p ≤ constPrecisionInBits → IsFloat pf q → 10000 < (expo q).natAbs → FloatVerb verb → InUse format verb prec → sprintBigFloat p fuel format ⟨pf, q⟩ = .ok t →
    ∃ k d ex x v, Decimal t k d ex x v ∧ Rounded verb prec q v

/-- The relative error of the computation with floats of `p` bits, for a number of `pf` bits with exponent `n`. -/
noncomputable def computed (p pf n : ℕ) : ℝ := (200 * (p + 1) + 20 * n) * (2 : ℝ) ^ (-(p : ℤ)) + 4 * (2 : ℝ) ^ (-(pf : ℤ))

/-! ## Theorems -/

theorem huge_ok {p pf prec fuel : ℕ} {q : ℚ} (verb : Char) (hp : 48 ≤ p) (hp' : p ≤ constPrecisionInBits) (hpf : 16 ≤ pf) (hq : IsFloat pf q) (hn : 10000 < (expo q).natAbs) (hn' : (expo q).natAbs ≤ 2 ^ 31)
    (hprec : 2 ≤ prec) (hf : 10 + 10 * p ≤ fuel) :
    ∃ t k d ex x v, hugeText p fuel verb prec ⟨pf, q⟩ = .ok t ∧ Decimal t k d ex x v ∧ ex ≠ [] ∧
      |(v : ℝ) - q| ≤ ((10 : ℝ) ^ (1 - (prec : ℤ)) / 2 * (1 + computed p pf (expo q).natAbs) + computed p pf (expo q).natAbs) * |(q : ℝ)| := by
  have hp1 : 1 ≤ pf := by omega
  have h0 : q ≠ 0 := by rintro rfl; rw [expo_zero] at hn; simp at hn
  obtain ⟨i, s, hs, hi, s1, s2, hse, hsm⟩ := tenPower_ok hp hp' hn hn' hf
  obtain ⟨n, hnn⟩ : ∃ n, (expo q).natAbs = n := ⟨_, rfl⟩
  rw [hnn] at hs hse hsm hn hn' ⊢
  obtain ⟨m1, m2⟩ := expo_spec q h0
  have hM1 : 1 / 2 ≤ |q * 2 ^ (-expo q)| := by
    rw [abs_mul, abs_of_pos (two_zpow_pos _)]
    have := mul_le_mul_of_nonneg_right m1 (two_zpow_pos (-expo q)).le
    rw [← zpow_add₀ (by norm_num)] at this
    refine le_trans (le_of_eq ?_) this
    rw [show expo q - 1 + -expo q = -1 by ring]; norm_num
  have hM2 : |q * 2 ^ (-expo q)| < 1 := by
    rw [abs_mul, abs_of_pos (two_zpow_pos _)]
    have := mul_lt_mul_of_pos_right m2 (two_zpow_pos (-expo q))
    rwa [← zpow_add₀ (by norm_num), add_neg_cancel, zpow_zero] at this
  have hMq : q = q * 2 ^ (-expo q) * 2 ^ expo q := by rw [mul_assoc, ← zpow_add₀ (by norm_num), neg_add_cancel, zpow_zero, mul_one]
  obtain ⟨M, hM⟩ : ∃ M, q * 2 ^ (-expo q) = M := ⟨_, rfl⟩
  rw [hM] at hM1 hM2 hMq
  have hMneg : (M < 0 ↔ q < 0) := by
    rw [← hM]
    constructor
    · intro h; by_contra hc; exact absurd h (not_lt.2 (mul_nonneg (not_lt.1 hc) (two_zpow_pos _).le))
    · intro h; exact mul_neg_of_neg_of_pos h (two_zpow_pos _)
  have hspos : 0 < s := by linarith
  -- the mantissa, scaled
  obtain ⟨pos, hpos⟩ : ∃ b, decide (0 ≤ expo q) = b := ⟨_, rfl⟩
  obtain ⟨r, hr⟩ : ∃ r : ℚ, (if pos then M * s else M / s) = r := ⟨_, rfl⟩
  have hr1 : 1 / 24 ≤ |r| ∧ |r| ≤ 104 / 10 := by
    rw [← hr]
    cases pos
    · simp only [Bool.false_eq_true, if_false]
      rw [abs_div, abs_of_pos hspos]
      constructor
      · rw [le_div_iff₀ hspos]; linarith
      · rw [div_le_iff₀ hspos]; linarith
    · simp only [if_true]
      rw [abs_mul, abs_of_pos hspos]
      constructor
      · have := mul_le_mul hM1 s1 (by norm_num) (abs_nonneg M); linarith
      · have := mul_le_mul hM2.le s2 hspos.le (by norm_num); linarith
  have hrneg : (r < 0 ↔ q < 0) := by
    rw [← hMneg, ← hr]
    cases pos
    · simp only [Bool.false_eq_true, if_false]
      exact ⟨fun h => by by_contra hc; exact absurd h (not_lt.2 (div_nonneg (not_lt.1 hc) hspos.le)), fun h => div_neg_of_neg_of_pos h hspos⟩
    · simp only [if_true]
      exact ⟨fun h => by by_contra hc; exact absurd h (not_lt.2 (mul_nonneg (not_lt.1 hc) hspos.le)), fun h => mul_neg_of_neg_of_pos h hspos⟩
  have hscaled : (if pos then R.ok (Flt.mul pf M s) else quo pf M s) = R.ok (rnd pf r) := by
    rw [← hr]
    cases pos
    · simp only [Bool.false_eq_true, if_false]; exact quo_ok hspos.ne'
    · rfl
  have hneg : (rnd pf r < 0 ↔ q < 0) := by
    rw [← hrneg]
    constructor
    · intro h; by_contra hc; exact absurd h (not_lt.2 (rnd_nonneg hp1 (not_lt.1 hc)))
    · intro h
      have := rnd_pos hp1 (q := -r) (by linarith)
      rw [rnd_neg] at this; linarith
  have hw : (if rnd pf r < 0 then -rnd pf r else rnd pf r) = rnd pf |r| := by
    by_cases h : q < 0
    · rw [if_pos (hneg.2 h), abs_of_neg (hrneg.2 h), rnd_neg]
    · rw [if_neg (fun h' => h (hneg.1 h')), abs_of_nonneg (not_lt.1 fun h' => h (hrneg.1 h'))]
  have hwr := rel_rnd pf (q := |r|) (abs_nonneg r)
  have hwf := rnd_isFloat hp1 |r|
  have he := eps16 hpf
  have he0 := eps_real pf
  have hrr : (1 / 24 : ℝ) ≤ ((|r| : ℚ) : ℝ) ∧ ((|r| : ℚ) : ℝ) ≤ 104 / 10 := by
    constructor
    · have : ((1 / 24 : ℚ) : ℝ) ≤ ((|r| : ℚ) : ℝ) := by exact_mod_cast hr1.1
      push_cast at this ⊢; linarith
    · have : ((|r| : ℚ) : ℝ) ≤ ((104 / 10 : ℚ) : ℝ) := by exact_mod_cast hr1.2
      push_cast at this ⊢; linarith
  obtain ⟨w, hwd⟩ : ∃ w, rnd pf |r| = w := ⟨_, rfl⟩
  rw [hwd] at hwr hwf hw
  have hwb : 1 / 25 ≤ w ∧ w ≤ 11 := by
    have h1 := abs_le.1 hwr
    have h2 : eps pf * ((|r| : ℚ) : ℝ) ≤ 1 / 65536 * ((|r| : ℚ) : ℝ) := mul_le_mul_of_nonneg_right he (by linarith)
    constructor
    · have : ((1 / 25 : ℚ) : ℝ) ≤ w := by push_cast; linarith
      exact_mod_cast this
    · have : (w : ℝ) ≤ ((11 : ℚ) : ℝ) := by push_cast; linarith
      exact_mod_cast this
  obtain ⟨m', j, hres, hj, hm'f, hm'1, hm'2, hm'r⟩ := rescale_ok hpf hprec pos hwf hwb.1 hwb.2 (i : ℤ) (fuel := fuel) (by omega)
  obtain ⟨⟨v, hv0, hv, hdec⟩, _⟩ := text_plain hprec (float_binary hm'f) hm'1 hm'2
  obtain ⟨k, d, hdec⟩ := hdec (rnd pf r < 0)
  -- the exponent
  obtain ⟨E, hE⟩ : ∃ E : ℕ, (if pos then (i : ℤ) - j else i + j) = E := by
    refine ⟨(if pos then (i : ℤ) - j else i + j).toNat, ?_⟩
    cases pos <;> simp only [Bool.false_eq_true, if_false, if_true] <;> omega
  rw [hE] at hres
  obtain ⟨c, hc⟩ : ∃ c, (if verb = 'E' ∨ verb = 'G' then 'E' else 'e') = c := ⟨_, rfl⟩
  have hc' : c = 'e' ∨ c = 'E' := by rw [← hc]; split <;> simp
  have hex : Exponent (c :: (if pos then '+' else '-') :: formatInt 10 E) (if pos then (E : ℤ) else -E) := by
    refine Or.inr ⟨c, [if pos then '+' else '-'], formatInt 10 E, !pos, E, by simp, hc', ?_, ?_, ?_⟩
    · cases pos
      · exact Or.inr (Or.inr ⟨rfl, rfl⟩)
      · exact Or.inr (Or.inl ⟨rfl, rfl⟩)
    · unfold formatInt
      rw [if_neg (by omega)]
      simpa using toDigits10 E
    · cases pos <;> rfl
  have hfin := decimal_exponent hdec hex
  refine ⟨_, k, d, _, _, _, ?_, hfin, by simp, ?_⟩
  · unfold hugeText
    simp only [hnn, hs, R.bind, pow2_eq, hM, hpos, hscaled, hw, hres, hc]
    rw [if_neg (by omega)]
  · -- the error
    have hX : withSign (decide (rnd pf r < 0)) v * (10 : ℚ) ^ (if pos then (E : ℤ) else -E) = withSign (decide (q < 0)) (v * (10 : ℚ) ^ (if pos then (E : ℤ) else -E)) := by
      have : decide (rnd pf r < 0) = decide (q < 0) := decide_eq_decide.2 hneg
      rw [this]
      unfold withSign
      split <;> ring
    rw [hX]
    have hXp : (0 : ℚ) < (10 : ℚ) ^ (if pos then (E : ℤ) else -E) := zpow_pos (by norm_num) _
    have hab := (withSign_abs q (v * (10 : ℚ) ^ (if pos then (E : ℤ) else -E)) (mul_nonneg hv0 hXp.le)).1
    have hab' : |((withSign (decide (q < 0)) (v * (10 : ℚ) ^ (if pos then (E : ℤ) else -E)) : ℚ) : ℝ) - q| = abs ((v : ℝ) * (10 : ℝ) ^ (if pos then (E : ℤ) else -E) - abs (q : ℝ)) := by
      have := congrArg (fun x : ℚ => (x : ℝ)) hab
      push_cast at this ⊢
      exact this
    rw [hab']
    obtain ⟨A, hA⟩ : ∃ A, (170 * ((p : ℝ) + 1) + 13 * n) * eps p = A := ⟨_, rfl⟩
    rw [hA] at hse hsm
    have hA0 : 0 ≤ A := by rw [← hA]; have := eps_real p; positivity
    have hqpos : (0 : ℝ) < |(q : ℝ)| := abs_pos.2 (by exact_mod_cast h0)
    have hP : (0 : ℝ) < 2 ^ n := by positivity
    have hI : (0 : ℝ) < 10 ^ i := by positivity
    have hsr : (0 : ℝ) < s := by exact_mod_cast hspos
    -- the scaled mantissa times the power of ten
    have R4 : Rel (((|r| : ℚ) : ℝ) * (10 : ℝ) ^ (if pos then (i : ℤ) else -i)) |(q : ℝ)| (1002 / 1000 * A) := by
      have hqr : |(q : ℝ)| = ((|M| : ℚ) : ℝ) * (2 : ℝ) ^ (expo q) := by
        conv_lhs => rw [hMq]
        push_cast
        rw [abs_mul, abs_of_pos (show (0 : ℝ) < (2 : ℝ) ^ (expo q) by positivity)]
      have hMr : (0 : ℝ) ≤ ((|M| : ℚ) : ℝ) := by exact_mod_cast abs_nonneg M
      rw [hqr, ← hr]
      cases pos
      · have hx : expo q = -(n : ℤ) := by have := of_decide_eq_false hpos; omega
        simp only [Bool.false_eq_true, if_false]
        rw [hx, abs_div, abs_of_pos hspos]
        push_cast
        rw [zpow_neg, zpow_natCast, zpow_neg, zpow_natCast]
        have hS : (999 / 1000 : ℝ) * 2 ^ n ≤ s * 10 ^ i := by
          have h1 := (abs_le.1 hse).1
          have h2 : A * 2 ^ n ≤ 1 / 1000 * 2 ^ n := mul_le_mul_of_nonneg_right hsm hP.le
          linarith
        have h3 : Rel ((s * 10 ^ i : ℝ)⁻¹) ((2 : ℝ) ^ n)⁻¹ (1002 / 1000 * A) := by
          unfold Rel
          have hS0 : (0 : ℝ) < s * 10 ^ i := by positivity
          rw [show ((s * 10 ^ i : ℝ)⁻¹ - ((2 : ℝ) ^ n)⁻¹) = (2 ^ n - s * 10 ^ i) / (s * 10 ^ i * 2 ^ n) by field_simp]
          rw [abs_div, abs_of_pos (mul_pos hS0 hP), abs_sub_comm, ← div_eq_mul_inv, div_le_div_iff₀ (by positivity) hP]
          have h4 : A * 2 ^ n * 1 ≤ 1002 / 1000 * A * (s * 10 ^ i) := by
            have := mul_le_mul_of_nonneg_left hS hA0
            have h5 : 0 ≤ A * 2 ^ n := by positivity
            linarith
          calc |(s : ℝ) * 10 ^ i - 2 ^ n| * 2 ^ n ≤ A * 2 ^ n * 2 ^ n := mul_le_mul_of_nonneg_right hse hP.le
            _ ≤ 1002 / 1000 * A * (s * 10 ^ i) * 2 ^ n := mul_le_mul_of_nonneg_right (by linarith) hP.le
            _ = 1002 / 1000 * A * (s * 10 ^ i * 2 ^ n) := by ring
        have h6 := h3.mul hMr
        rw [mul_comm ((2 : ℝ) ^ n)⁻¹] at h6
        push_cast at h6
        convert h6 using 1
        field_simp
      · have hx : expo q = (n : ℤ) := by have := of_decide_eq_true hpos; omega
        simp only [if_true]
        rw [hx, abs_mul, abs_of_pos hspos]
        push_cast
        rw [zpow_natCast, zpow_natCast]
        have h6 := (Rel.mono hP.le (show Rel ((s : ℝ) * 10 ^ i) (2 ^ n) A from hse) (show A ≤ 1002 / 1000 * A by linarith)).mul hMr
        rw [mul_comm ((2 : ℝ) ^ n)] at h6
        push_cast at h6
        convert h6 using 1
        ring
    have hKI : (10 : ℝ) ^ j * (10 : ℝ) ^ (if pos then (E : ℤ) else -E) = (10 : ℝ) ^ (if pos then (i : ℤ) else -i) := by
      rw [← zpow_natCast, ← zpow_add₀ (by norm_num)]
      congr 1
      revert hE
      cases pos <;> simp only [Bool.false_eq_true, if_false, if_true] <;> intro hE <;> omega
    have hK : (0 : ℝ) < (10 : ℝ) ^ (if pos then (E : ℤ) else -E) := zpow_pos (by norm_num) _
    have hK' : (0 : ℝ) < (10 : ℝ) ^ (if pos then (i : ℤ) else -i) := zpow_pos (by norm_num) _
    have R3 := hwr.mul hK'.le
    have R2 := hm'r.mul hK.le
    rw [mul_assoc, hKI] at R2
    have R1 : Rel (v : ℝ) m' ((10 : ℝ) ^ (1 - (prec : ℤ)) / 2) := by
      unfold Rel
      have : ((|v - m'| : ℚ) : ℝ) ≤ ((m' * (10 : ℚ) ^ (1 - (prec : ℤ)) / 2 : ℚ) : ℝ) := by exact_mod_cast hv
      push_cast at this
      linarith
    have R1 := R1.mul hK.le
    have hT : (0 : ℝ) < (10 : ℝ) ^ (1 - (prec : ℤ)) := zpow_pos (by norm_num) _
    have R34 := R3.trans he0.le R4
    have hee : 0 ≤ eps pf * eps pf := by positivity
    have R234 := R2.trans (by linarith) R34
    have heta : (2 * eps pf + eps pf * eps pf) * (1 + (eps pf * (1 + 1002 / 1000 * A) + 1002 / 1000 * A)) + (eps pf * (1 + 1002 / 1000 * A) + 1002 / 1000 * A) ≤ computed p pf n := by
      have h1 : computed p pf n = (200 * (p + 1) + 20 * n) * eps p + 4 * eps pf := rfl
      rw [h1]
      have h2 : 11 / 10 * A ≤ (200 * ((p : ℝ) + 1) + 20 * n) * eps p := by
        rw [← hA]
        have := eps_real p
        have hn0 : (0 : ℝ) ≤ n := by positivity
        have hp0 : (0 : ℝ) ≤ p := by positivity
        rw [← mul_assoc]
        exact mul_le_mul_of_nonneg_right (by linarith) this.le
      have h3 : eps pf * eps pf ≤ 1 / 65536 * eps pf := mul_le_mul_of_nonneg_right he he0.le
      have h4 : eps pf * (1 + 1002 / 1000 * A) ≤ eps pf * (101 / 100) := mul_le_mul_of_nonneg_left (by linarith) he0.le
      have h5 : (2 * eps pf + eps pf * eps pf) * (1 + (eps pf * (1 + 1002 / 1000 * A) + 1002 / 1000 * A)) ≤ (2 * eps pf + 1 / 65536 * eps pf) * (101 / 100) :=
        mul_le_mul (by linarith) (by linarith) (by positivity) (by positivity)
      linarith
    exact R1.trans (by linarith) (R234.mono hqpos.le heta)

/-- **C89, partial.** In 48 bits or more, and with a format of two digits or more, floats of all sizes beyond the exponent 10000 are printed as decimal numbers with exponents that differ from the float by half a unit of the last
digit at most, and the error of the computation. Missing: fewer bits, one digit, and what `%f` asks for. -/
theorem C89_partial (p pf : ℕ) (format : List Char) (verb : Char) (prec : ℕ) (q : ℚ) (hp : 48 ≤ p) (hp' : p ≤ constPrecisionInBits) (hpf : 16 ≤ pf) (hq : IsFloat pf q) (hn : 10000 < (expo q).natAbs)
    (hn' : (expo q).natAbs ≤ 2 ^ 31) (hu : InUse format verb prec) (hprec : 2 ≤ prec) :
    ∃ n, ∀ fuel, n ≤ fuel → ∃ t k d ex x v, sprintBigFloat p fuel format ⟨pf, q⟩ = .ok t ∧ Decimal t k d ex x v ∧ ex ≠ [] ∧
      |(v : ℝ) - q| ≤ ((10 : ℝ) ^ (1 - (prec : ℤ)) / 2 * (1 + computed p pf (expo q).natAbs) + computed p pf (expo q).natAbs) * |(q : ℝ)| := by
  refine ⟨10 + 10 * p, fun fuel hf => ?_⟩
  have : sprintBigFloat p fuel format ⟨pf, q⟩ = hugeText p fuel verb prec ⟨pf, q⟩ := by
    unfold sprintBigFloat
    rw [if_pos hn]
    rcases hu with h | ⟨h, rfl, rfl⟩ <;> rw [h]
  rw [this]
  exact huge_ok verb hp hp' hpf hq hn hn' hprec hf

example : IsFloat 256 ((-3 : ℚ) / 2 ^ 20000) ∧ (expo (-3 / 2 ^ 20000)).natAbs = 19998 ∧ InUse [] 'g' 12 ∧ sprintBigFloat 256 2600 [] ⟨256, -3 / 2 ^ 20000⟩ = .ok "-7.5371641731e-6021".toList :=
  ⟨⟨-3, -20000, by norm_num, by rw [zpow_neg, div_eq_mul_inv]; norm_cast⟩, by decide +kernel, Or.inr (by decide +kernel), by decide +kernel⟩

theorem computed_small {p n : ℕ} (hp : 96 ≤ p) (hn : n ≤ 2 ^ 31) : computed p p n ≤ 1 / 10 ^ 17 := by
  have h : ∀ k : ℕ, 96 + k + 1 ≤ 2 ^ (7 + k) := by
    intro k
    induction k with
    | zero => norm_num
    | succ k ih => rw [show 7 + (k + 1) = (7 + k) + 1 by omega, pow_succ]; omega
  obtain ⟨k, rfl⟩ : ∃ k, p = 96 + k := ⟨p - 96, by omega⟩
  have h1 : (((96 + k : ℕ) : ℝ) + 1) ≤ 2 ^ (7 + k) := by exact_mod_cast h k
  have hN : (n : ℝ) ≤ 2 ^ 31 := by exact_mod_cast hn
  have h2 : (1 : ℝ) ≤ 2 ^ k := one_le_pow₀ (by norm_num)
  unfold computed
  rw [← add_mul, zpow_neg, zpow_natCast, ← div_eq_mul_inv, pow_add]
  have h3 : (0 : ℝ) < 2 ^ k := by positivity
  rw [div_le_iff₀ (by positivity)]
  rw [pow_add] at h1
  have h4 : (1 : ℝ) / 10 ^ 17 * (2 ^ 96 * 2 ^ k) = 2 ^ 96 / 10 ^ 17 * 2 ^ k := by ring
  rw [h4]
  have h5 : (792281625142 : ℝ) ≤ 2 ^ 96 / 10 ^ 17 := by norm_num
  have h6 : 792281625142 * (2 : ℝ) ^ k ≤ 2 ^ 96 / 10 ^ 17 * 2 ^ k := mul_le_mul_of_nonneg_right h5 h3.le
  norm_num at h1
  have hN : (n : ℝ) ≤ 2147483648 := le_trans hN (by norm_num)
  push_cast
  linarith

/-- **C89, default format.** In 96 bits or more, what is printed without a format is right to eleven digits: the relative error is less than 0.501 units of the twelfth. -/
theorem C89_default (p : ℕ) (format : List Char) (q : ℚ) (hp : 96 ≤ p) (hp' : p ≤ constPrecisionInBits) (hq : IsFloat p q) (hn : 10000 < (expo q).natAbs) (hn' : (expo q).natAbs ≤ 2 ^ 31) (hu : floatFormat format = none) :
    ∃ n, ∀ fuel, n ≤ fuel → ∃ t k d ex x v, sprintBigFloat p fuel format ⟨p, q⟩ = .ok t ∧ Decimal t k d ex x v ∧ |(v : ℝ) - q| ≤ 501 / 1000 / 10 ^ 11 * |(q : ℝ)| := by
  obtain ⟨n, h⟩ := C89_partial p p format 'g' 12 q (by omega) hp' (by omega) hq hn hn' (Or.inr ⟨hu, rfl, rfl⟩) (by norm_num)
  refine ⟨n, fun fuel hf => ?_⟩
  obtain ⟨t, k, d, ex, x, v, h1, h2, _, h3⟩ := h fuel hf
  refine ⟨t, k, d, ex, x, v, h1, h2, le_trans h3 (mul_le_mul_of_nonneg_right ?_ (abs_nonneg _))⟩
  have h4 := computed_small hp hn'
  have h5 : (10 : ℝ) ^ (1 - ((12 : ℕ) : ℤ)) = 1 / 10 ^ 11 := by norm_num
  rw [h5]
  norm_num at h4 ⊢
  linarith

example : IsFloat 256 ((2 : ℚ) ^ 20000) ∧ floatFormat "%v".toList = none ∧ sprintBigFloat 256 2600 "%v".toList ⟨256, 2 ^ 20000⟩ = .ok "3.98027684034e+6020".toList :=
  ⟨by have := isFloat_zpow (p := 256) (by norm_num) 20000; exact_mod_cast this, by decide +kernel, by decide +kernel⟩

theorem numeral_no_e {s : List Char} {n : Nat} (h : Numeral 10 s n) : s.count 'e' = 0 := by
  obtain ⟨_, ds, hd, _⟩ := h
  clear * - hd
  induction hd with
  | nil => rfl
  | cons a _ ih =>
    rename_i c d l _ _
    rw [List.count_cons, ih]
    have : c ≠ 'e' := by
      rintro rfl
      rcases a.1 with ⟨h1, h2⟩ | ⟨h1, _⟩
      · simp at h2; have := a.2; omega
      · have := a.2; omega
    simp [this]

theorem decimal_one_e {t ex : List Char} {k d : Nat} {E : Int} {v : Rat} (h : Decimal t k d ex E v) : t.count 'e' ≤ 1 := by
  obtain ⟨sg, i, f, neg, n, rfl, _, _, _, hsg, hn, hx, _⟩ := h
  have hsign : ∀ {sg neg}, Sign sg neg → sg.count 'e' = 0 := by
    intro sg neg h
    rcases h with ⟨rfl, _⟩ | ⟨rfl, _⟩ | ⟨rfl, _⟩ <;> decide
  have h1 := numeral_no_e hn
  rw [List.count_append] at h1
  have h2 : (if f = [] then [] else '.' :: f).count 'e' = 0 := by
    split
    · rfl
    · rw [List.count_cons]; simp; omega
  have h3 : ex.count 'e' ≤ 1 := by
    rcases hx with ⟨rfl, _⟩ | ⟨c, sg', ds, neg', n', rfl, _, hs, hn', _⟩
    · simp
    · rw [List.count_append, List.count_cons, hsign hs, numeral_no_e hn']
      split <;> omega
  rw [List.count_append, List.count_append, List.count_append, hsign hsg, h2]
  omega

theorem float255 (k : ℕ) : IsFloat 256 (255 * 2 ^ k) := ⟨255, k, by norm_num, by rw [zpow_natCast]; norm_num⟩

/-- **C89 is violated** (finding): with `%.1g`, 255·2^10074 is printed as `1e+01e+3034`, which is no number. -/
theorem C89_violated : ¬ C89_full := by
  intro h
  obtain ⟨k, d, ex, x, v, hd, _⟩ := h 256 256 "%.1g".toList 'g' 1 (255 * 2 ^ 10074) 2600 "1e+01e+3034".toList (by decide) (by decide) (float255 10074) (by decide +kernel)
    (by unfold FloatVerb; decide) (Or.inl (by decide +kernel)) (by decide +kernel)
  exact absurd (decimal_one_e hd) (by decide +kernel)

/-- **C89 is violated** (finding): with `%.2f`, 2^20000 is printed as `4e+6020`, though its integer has 6021 digits. -/
theorem C89_violated_fixed : ¬ C89_full := by
  intro h
  obtain ⟨k, d, ex, x, v, hd, hr⟩ := h 256 256 "%.2f".toList 'f' 2 (2 ^ 20000) 2600 "4e+6020".toList (by decide) (by decide) (by have := isFloat_zpow (p := 256) (by norm_num) 20000; exact_mod_cast this) (by decide +kernel)
    (by unfold FloatVerb; decide) (Or.inl (by decide +kernel)) (by decide +kernel)
  obtain ⟨y, hy, _, hyv⟩ := short_read hd (by decide)
  rw [show Lit.parse 10 "4e+6020".toList = some (.num (.bigInt (4 * 10 ^ 6020))) by decide +kernel] at hy
  cases hy
  have hv : ((4 * 10 ^ 6020 : Int) : Rat) = v := hyv
  have hm : Magnitude (2 ^ 20000) 6020 := by
    unfold Magnitude
    rw [abs_of_pos (by positivity)]
    exact ⟨by exact_mod_cast (by decide +kernel : (10 : ℕ) ^ 6020 ≤ 2 ^ 20000), by exact_mod_cast (by decide +kernel : (2 : ℕ) ^ 20000 < 10 ^ 6021)⟩
  have h1 := hr.2 6020 hm
  rw [← hv, show unit 'f' 2 6020 = 1 / 100 by unfold unit; rw [if_pos (Or.inl rfl)]; norm_num] at h1
  have h2 := (abs_le.1 h1).2
  have h3 : ((1 + 2 ^ 20000 : ℕ) : ℚ) ≤ ((4 * 10 ^ 6020 : ℕ) : ℚ) := by exact_mod_cast (by decide +kernel : (1 + 2 ^ 20000 : ℕ) ≤ 4 * 10 ^ 6020)
  push_cast at h2 h3
  generalize (2 : ℚ) ^ 20000 = a at *
  generalize (10 : ℚ) ^ 6020 = b at *
  linarith

/-- **C89 is violated** (finding): with `)prec 40`, of the twelve digits that are shown of 2^20000 only seven are right, although forty bits have twelve. -/
theorem C89_violated_digits : sprintBigFloat 40 500 [] ⟨40, 2 ^ 20000⟩ = .ok "3.98027680852e+6020".toList ∧ (398027684033 * 10 ^ 6009 : ℚ) < 2 ^ 20000 :=
  ⟨by decide +kernel, by exact_mod_cast (by decide +kernel : (398027684033 * 10 ^ 6009 : ℕ) < 2 ^ 20000)⟩

end Verif.Shown
