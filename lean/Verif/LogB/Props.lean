import Verif.LogB.Lemmas
import Verif.Flt.AccProps2

/-!
# C78: logarithms to a base

Full statement: for whole numbers `b ≥ 2` and `v ≥ 1`, `b log v` is the logarithm of `v` to the base `b` up to an error of some hundred times `p` units of
`2 ^ -p`, relative to `1 + log_b v`. (Exact results for powers are C68.) It does not hold: after a division by a higher power of the base, the code divides
by the base again if the rest is larger than the base, whether or not it is a multiple (`value/log.go:76-79`, `value/log.go:101-104`). `10 log 250000` is `5 + log 2` (`C78_violated`).
-/

namespace Verif.LogB
open Verif.Flt
open Verif.Arr (R)

/-- If the number was split into `b ^ i` and `r` without a rest, the logarithm is accurate. The second argument of `logBaseU` receives what is left of the number. -/
theorem C78_split_partial (p : ℕ) (hp : 16 ≤ p) (hp' : p ≤ constPrecisionInBits) (int : Bool) (b v i r : ℕ) (hb : 2 ≤ b) (hr : 2 ≤ r)
    (hi : logBaseU int (fun r _ => r) b v = ((i : ℤ), some (r : ℤ))) (hv : b ^ i * r = v) :
    ∃ n, ∀ fuel, n ≤ fuel → ∃ z, logBase (ctxOf p) fuel int b v = .ok z ∧ |(z : ℝ) - Real.logb b v| ≤ 500 * (p + 1) * (1 + Real.logb b v) * (2 : ℝ) ^ (-(p : ℤ)) :=
  ⟨10 + 40 * p, fun _ hfu => logBase_split (c := ctxOf p) hp (logOk hp') hb hr hi hv hfu⟩

/-- Numbers that are not multiples of the base. -/
theorem C78_coprime (p : ℕ) (hp : 16 ≤ p) (hp' : p ≤ constPrecisionInBits) (int : Bool) (b v : ℕ) (hb : 2 ≤ b) (hv : 2 ≤ v) (h : ¬b ∣ v) :
    ∃ n, ∀ fuel, n ≤ fuel → ∃ z, logBase (ctxOf p) fuel int b v = .ok z ∧ |(z : ℝ) - Real.logb b v| ≤ 500 * (p + 1) * (1 + Real.logb b v) * (2 : ℝ) ^ (-(p : ℤ)) :=
  C78_split_partial p hp hp' int b v 0 v hb hv (split_coprime hb hv (fun hc => h (Nat.dvd_of_mod_eq_zero hc))) (by rw [pow_zero, one_mul])

/-- Numbers with one digit that is not zero. -/
theorem C78_digit (p : ℕ) (hp : 16 ≤ p) (hp' : p ≤ constPrecisionInBits) (int : Bool) (b m k : ℕ) (hb : 2 ≤ b) (hm : 2 ≤ m) (hmb : m < b) (h : int = true → b ^ k * m < 2 ^ 63) :
    ∃ n, ∀ fuel, n ≤ fuel → ∃ z, logBase (ctxOf p) fuel int b (b ^ k * m : ℕ) = .ok z ∧
      |(z : ℝ) - Real.logb b (b ^ k * m : ℕ)| ≤ 500 * (p + 1) * (1 + Real.logb b (b ^ k * m : ℕ)) * (2 : ℝ) ^ (-(p : ℤ)) :=
  C78_split_partial p hp hp' int b (b ^ k * m) k m hb hm (split_digit hb hm hmb h) rfl

/-- `10 log 500`, `10 log 7`, `2 log 40` are split correctly, and the first is 2.69897. -/
example : logBaseU true (fun r _ => r) 10 500 = (2, some 5) ∧ logBaseU false (fun r _ => r) 10 500 = (2, some 5) ∧ logBaseU true (fun r _ => r) 10 7 = (0, some 7) ∧
    logBaseU true (fun r _ => r) 2 40 = (3, some 5) ∧
    passes (fun z => decide (mkRat 269896 100000 < z ∧ z < mkRat 269898 100000)) (logBase (ctxOf 24) 970 true 10 500) = true := by
  refine ⟨by decide +kernel, by decide +kernel, by decide +kernel, by decide +kernel, by decide +kernel⟩

/-- `10 log 250000` is 5.30103 with 24 bits, for `Int` and `BigInt`: the number is split into `10 ^ 5` and 2. -/
theorem C78_violated_eval (int : Bool) : logBaseU int (fun r _ => r) 10 250000 = (5, some 2) ∧
    passes (fun z => decide (mkRat 530102 100000 < z ∧ z < mkRat 530104 100000)) (logBase (ctxOf 24) 970 int 10 250000) = true := by
  cases int <;> refine ⟨by decide +kernel, by decide +kernel⟩

/-- It should be more than 5.375. -/
theorem C78_violated : ∃ z, logBase (ctxOf 24) 970 true 10 250000 = .ok z ∧ (z : ℝ) < 5.302 ∧ 5.375 < Real.logb 10 250000 := by
  obtain ⟨z, h1, h2⟩ := of_passes (C78_violated_eval true).2
  refine ⟨z, h1, ?_, ?_⟩
  · have h3 := h2.2
    have h4 : (z : ℝ) < ((mkRat 530104 100000 : ℚ) : ℝ) := Rat.cast_lt.2 h3
    refine lt_trans h4 ?_
    rw [Rat.mkRat_eq_div]; norm_num
  · rw [Real.lt_logb_iff_rpow_lt (by norm_num) (by norm_num)]
    have h5 : ((10 : ℝ) ^ (5.375 : ℝ)) ^ (8 : ℕ) < 250000 ^ (8 : ℕ) := by
      rw [← Real.rpow_natCast, ← Real.rpow_mul (by norm_num)]
      norm_num
    exact lt_of_pow_lt_pow_left₀ 8 (by norm_num) h5

end Verif.LogB
