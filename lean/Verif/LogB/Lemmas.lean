import Mathlib.Analysis.SpecialFunctions.Log.Base
import Verif.LogB.Model
import Verif.Flt.Lemmas7
import Verif.Flt.Lemmas18

/-! # Lemmas: logarithms to a base that is a whole number -/

namespace Verif.LogB
open Verif.Flt
open Verif.Arr (R)

theorem logBaseU_map {α : Type} (int : Bool) (q : ℤ → ℤ → α) (u v : ℤ) :
    logBaseU int q u v = ((logBaseU int (fun r _ => r) u v).1, (logBaseU int (fun r _ => r) u v).2.map fun r => q r u) := by
  unfold logBaseU
  dsimp only
  split <;> split <;> rfl

theorem logBase_eq {c : Ctx} {fuel : ℕ} {int : Bool} {u v i r : ℤ} (h : logBaseU int (fun r _ => r) u v = (i, some r)) :
    logBase c fuel int u v = (quotient c fuel r u).bind fun f => if i = 0 then .ok f else .ok (add c.p f (rnd c.p i)) := by
  unfold logBase
  rw [logBaseU_map, h]
  rfl

/-- A number with one digit that is not zero. -/
theorem split_digit {int : Bool} {b m k : ℕ} (hb : 2 ≤ b) (hm : 2 ≤ m) (hmb : m < b) (h : int = true → b ^ k * m < 2 ^ 63) :
    logBaseU int (fun r _ => r) b ((b ^ k * m : ℕ) : ℤ) = ((k : ℤ), some (m : ℤ)) := by
  have hk : k < 2 ^ k := Nat.lt_two_pow_self
  have hbk : 2 ^ k ≤ b ^ k := Nat.pow_le_pow_left hb k
  have hbm : b ^ k ≤ b ^ k * m := Nat.le_mul_of_pos_right _ (by omega)
  have hm1 : ¬((m : ℤ) = 1) := by omega
  cases int with
  | true =>
    have h63 := h rfl
    rw [logBaseU_int, intLog_nat hb, uint64Log_power 64 b k m hb (by omega) hmb (by omega) (by omega)]
    dsimp only
    rw [if_neg hm1]
  | false =>
    have hl := (bitLen_spec (b ^ k * m) (by
      have : 0 < b ^ k * m := by positivity
      omega)).2.1
    have h4 : 2 ^ (bitLen (b ^ k * m) + 1) = 2 * 2 ^ bitLen (b ^ k * m) := by rw [pow_succ]; ring
    rw [logBaseU_big, bigIntLog_nat hb, bigIntLog_power _ b k m hb (by omega) hmb (by omega)]
    dsimp only
    rw [if_neg hm1]

/-- A number that is not a multiple of the base. -/
theorem split_coprime {int : Bool} {b v : ℕ} (hb : 2 ≤ b) (hv : 2 ≤ v) (h : v % b ≠ 0) : logBaseU int (fun r _ => r) b (v : ℤ) = (((0 : ℕ) : ℤ), some (v : ℤ)) := by
  have hm1 : ¬((v : ℤ) = 1) := by omega
  cases int with
  | true =>
    have : uint64Log 64 b v = (0, v) := by rw [uint64Log, if_pos (Or.inr (Or.inr h))]
    rw [logBaseU_int, intLog_nat hb, this]
    dsimp only
    rw [if_neg hm1]
  | false =>
    have : bigIntLogLoop (bitLen v + 1) b v = (0, (v : ℤ)) := by
      rw [bigIntLogLoop, if_pos (Or.inr (Or.inr (by rw [← Int.natCast_mod]; exact_mod_cast h)))]
    rw [logBaseU_big, bigIntLog_nat hb, this]
    dsimp only
    rw [if_neg hm1]

theorem quotient_err {lv lb L B K e : ℝ} (hB : 0.69 ≤ B) (hL0 : 0 ≤ L) (hK : K ≤ 0.08) (hK0 : 0 ≤ K) (he0 : 0 ≤ e) (he : e ≤ 1 / 65536)
    (h1 : |lv - L| ≤ K + 12 * L * e) (h2 : |lb - B| ≤ K + 12 * B * e) : 0 < lb ∧ |lv / lb - L / B| ≤ (1 + L / B) * (1.65 * K + 28 * e) := by
  have h2' := abs_le.1 h2
  have hlb : 0.88 * B ≤ lb := by nlinarith [h2'.1]
  have hlb0 : 0 < lb := by nlinarith
  have hB0 : 0 < B := by linarith
  refine ⟨hlb0, ?_⟩
  rw [show lv / lb - L / B = ((lv - L) - L / B * (lb - B)) / lb by field_simp; ring, abs_div, abs_of_pos hlb0, div_le_iff₀ hlb0]
  have h3 := abs_sub (lv - L) (L / B * (lb - B))
  have hρ : 0 ≤ L / B := div_nonneg hL0 hB0.le
  have hLB : L = L / B * B := by field_simp
  set ρ := L / B with hρd
  have h4 : |ρ * (lb - B)| ≤ ρ * (K + 12 * B * e) := by
    rw [abs_mul, abs_of_nonneg hρ]
    exact mul_le_mul_of_nonneg_left h2 hρ
  have h5 : 12 * L * e = ρ * (12 * B * e) := by rw [hLB]; ring
  have h6 : (1 + ρ) * (K + 24 * B * e) ≤ (1 + ρ) * ((1.65 * K + 28 * e) * lb) := by
    apply mul_le_mul_of_nonneg_left _ (by linarith)
    have h7 : (1.65 * K + 28 * e) * (0.88 * B) ≤ (1.65 * K + 28 * e) * lb := mul_le_mul_of_nonneg_left hlb (by positivity)
    have h8 : K ≤ 1.65 * K * (0.88 * B) := by nlinarith
    nlinarith [mul_nonneg he0 hB0.le]
  have h7 : 0 ≤ B * e := mul_nonneg hB0.le he0
  rw [mul_assoc]
  refine le_trans ?_ h6
  nlinarith [mul_nonneg hρ h7]

theorem log_two_le {n : ℕ} (hn : 2 ≤ n) : 0.69 ≤ Real.log n := by
  have h1 := Real.log_two_gt_d9
  have h2 : Real.log 2 ≤ Real.log n := Real.log_le_log (by norm_num) (by exact_mod_cast hn)
  linarith

theorem log_nat {c : Ctx} (hp : 16 ≤ c.p) (hl : LogOk c) {n : ℕ} (hn : 2 ≤ n) {fuel : ℕ} (hfu : 10 + 40 * c.p ≤ fuel) :
    ∃ z, floatLog c fuel (rnd c.p n) = .ok z ∧ |(z : ℝ) - Real.log n| ≤ (300 * (c.p + 1) + 3) * eps c.p + 12 * Real.log n * eps c.p := by
  have hn0 : (0 : ℝ) < n := by exact_mod_cast (by omega : 0 < n)
  obtain ⟨z, hz, herr⟩ := log_near hp hl (q := (n : ℚ)) (A := n) (δ := 0) hn0 le_rfl (by norm_num) (by simp) hfu
  refine ⟨z, hz, ?_⟩
  rw [abs_of_nonneg (by linarith [log_two_le hn] : 0 ≤ Real.log n)] at herr
  linarith

theorem logBase_split {c : Ctx} (hp : 16 ≤ c.p) (hl : LogOk c) {int : Bool} {b v i r : ℕ} (hb : 2 ≤ b) (hr : 2 ≤ r)
    (hsplit : logBaseU int (fun r _ => r) b v = ((i : ℤ), some (r : ℤ))) (hv : b ^ i * r = v) {fuel : ℕ} (hfu : 10 + 40 * c.p ≤ fuel) :
    ∃ z, logBase c fuel int b v = .ok z ∧ |(z : ℝ) - Real.logb b v| ≤ 500 * (c.p + 1) * (1 + Real.logb b v) * eps c.p := by
  have he := eps_real c.p
  have hpe := p_eps hp
  have hes : eps c.p ≤ 1 / 65536 := by
    unfold eps
    refine le_trans (zpow_le_zpow_right₀ (by norm_num) (show -(c.p : ℤ) ≤ -16 by omega)) (by norm_num)
  have hp16 : (16 : ℝ) ≤ c.p := by exact_mod_cast hp
  have hp' : (17 : ℝ) * eps c.p ≤ (c.p + 1) * eps c.p := mul_le_mul_of_nonneg_right (by linarith) he.le
  obtain ⟨lv, hlv, e1⟩ := log_nat hp hl hr hfu
  obtain ⟨lb, hlb, e2⟩ := log_nat hp hl hb hfu
  have hB := log_two_le hb
  have hL0 := log_two_le hr
  have hm0 : (0 : ℝ) < r := by exact_mod_cast (by omega : 0 < r)
  have hb0 : (0 : ℝ) < b := by exact_mod_cast (by omega : 0 < b)
  obtain ⟨hlb0, e3⟩ := quotient_err hB (by linarith) (by linarith) (by positivity) he.le hes e1 e2
  have hlb0' : lb ≠ 0 := by
    intro hc
    rw [hc] at hlb0
    norm_num at hlb0
  have hlogb : Real.logb b v = i + Real.log r / Real.log b := by
    unfold Real.logb
    rw [← hv]
    push_cast
    rw [Real.log_mul (by positivity) hm0.ne', Real.log_pow]
    have : Real.log b ≠ 0 := by linarith
    field_simp
  have hr0 : 0 ≤ Real.log r / Real.log b := div_nonneg (by linarith) (by linarith)
  have e4 := rnd_err_real c.p (lv / lb)
  push_cast at e4
  set f := ((rnd c.p (lv / lb) : ℚ) : ℝ) with hf
  set t := Real.log r / Real.log b with ht
  set P := ((c.p : ℝ) + 1) * eps c.p with hP
  have e3a : |(lv : ℝ) / lb - t| ≤ (1 + t) * (497 * P) := by
    refine le_trans e3 (mul_le_mul_of_nonneg_left ?_ (by linarith))
    rw [show (300 * ((c.p : ℝ) + 1) + 3) * eps c.p = 300 * P + 3 * eps c.p by rw [hP]; ring]
    linarith
  have e5 : |(lv : ℝ) / lb| ≤ 1.13 * (1 + t) := by
    have := abs_sub_abs_le_abs_sub ((lv : ℝ) / lb) t
    rw [abs_of_nonneg hr0] at this
    nlinarith
  have e6 : eps c.p * |(lv : ℝ) / lb| ≤ eps c.p * (1.13 * (1 + t)) := mul_le_mul_of_nonneg_left e5 he.le
  have hte : 0 ≤ t * eps c.p := mul_nonneg hr0 he.le
  have hE1 : (1 + t) * (17 * eps c.p) ≤ (1 + t) * P := mul_le_mul_of_nonneg_left hp' (by linarith)
  have e7 : |f - t| ≤ (1 + t) * (498 * P) := by
    have := abs_add_le (f - lv / lb) ((lv : ℝ) / lb - t)
    rw [sub_add_sub_cancel] at this
    nlinarith
  rw [logBase_eq hsplit, show quotient c fuel r b = .ok (rnd c.p (lv / lb)) by
    unfold quotient
    rw [Int.cast_natCast, Int.cast_natCast, hlv, bindOk, hlb, bindOk, quo_ok hlb0'], bindOk]
  rw [hlogb, show 500 * ((c.p : ℝ) + 1) * (1 + (i + t)) * eps c.p = 500 * (1 + t) * P + 500 * i * P by rw [hP]; ring]
  have hP0 : 0 ≤ P := by positivity
  by_cases hk : i = 0
  · refine ⟨rnd c.p (lv / lb), ?_, ?_⟩
    · rw [if_pos (by omega)]
    · rw [hk, ← hf]
      push_cast
      rw [zero_add]
      nlinarith [mul_nonneg hr0 hP0]
  · refine ⟨add c.p (rnd c.p (lv / lb)) (rnd c.p i), ?_, ?_⟩
    · rw [if_neg (by omega), Int.cast_natCast]
    · have e8 := rnd_err_real c.p (i : ℚ)
      have e9 := rnd_err_real c.p (rnd c.p (lv / lb) + rnd c.p i)
      change |((add c.p (rnd c.p (lv / lb)) (rnd c.p i) : ℚ) : ℝ) - _| ≤ _ at e9
      push_cast at e8 e9
      rw [← hf] at e9
      have hk0 : (0 : ℝ) ≤ i := Nat.cast_nonneg i
      rw [abs_of_nonneg hk0] at e8
      set g := ((rnd c.p (i : ℚ) : ℚ) : ℝ) with hg
      set z := ((add c.p (rnd c.p (lv / lb)) (rnd c.p i) : ℚ) : ℝ) with hz
      have e10 : |f + g| ≤ 1.2 * (1 + t) + 1.1 * i := by
        have h1 := abs_add_le f g
        have h2 := abs_sub_abs_le_abs_sub f t
        have h3 := abs_sub_abs_le_abs_sub g i
        rw [abs_of_nonneg hr0] at h2
        rw [abs_of_nonneg hk0] at h3
        nlinarith
      have e11 : eps c.p * |f + g| ≤ eps c.p * (1.2 * (1 + t) + 1.1 * i) := mul_le_mul_of_nonneg_left e10 he.le
      have e12 := abs_add_le (z - (f + g)) ((f - t) + (g - i))
      have e13 := abs_add_le (f - t) (g - i)
      rw [show z - (f + g) + ((f - t) + (g - i)) = z - (i + t) by ring] at e12
      have e14 : |z - (i + t)| ≤ eps c.p * (1.2 * (1 + t) + 1.1 * i) + ((1 + t) * (498 * P) + eps c.p * i) := by linarith
      have hiP : i * (17 * eps c.p) ≤ i * P := mul_le_mul_of_nonneg_left hp' hk0
      have hiP0 : 0 ≤ i * P := mul_nonneg hk0 hP0
      have htP0 : 0 ≤ (1 + t) * P := mul_nonneg (by linarith) hP0
      refine le_trans e14 ?_
      rw [show eps c.p * (1.2 * (1 + t) + 1.1 * i) + ((1 + t) * (498 * P) + eps c.p * i) = 1.2 / 17 * ((1 + t) * (17 * eps c.p)) + 2.1 / 17 * (i * (17 * eps c.p)) + 498 * ((1 + t) * P) by ring,
        show 500 * (1 + t) * P + 500 * i * P = 500 * ((1 + t) * P) + 500 * (i * P) by ring]
      linarith

end Verif.LogB
