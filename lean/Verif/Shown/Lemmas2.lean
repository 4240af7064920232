import Verif.Shown.Lemmas
import Mathlib.Algebra.Order.Field.Rat
import Mathlib.Tactic.Zify
import Mathlib.Data.Rat.Lemmas
/-
Helper lemmas: the text of rationals.
-/
namespace Verif.Shown
open Verif.Lit Verif.Arr

/-- The text with `prec` decimals, from the number in units of the last one. -/
theorem ratString_ok (q : Rat) (prec : Nat) : ∃ f N, ratString q prec = (if q < 0 then ['-'] else []) ++ Nat.toDigits 10 (N / 10 ^ prec) ++ (if f = [] then [] else '.' :: f) ∧
    f.length = prec ∧ Numeral 10 (Nat.toDigits 10 (N / 10 ^ prec) ++ f) N ∧ |(N : Rat) - |q| * 10 ^ prec| ≤ 1 / 2 := by
  have hq : |q| = (q.num.natAbs : Rat) / q.den := by
    conv_lhs => rw [← Rat.num_div_den q]
    rw [abs_div, Nat.abs_cast, ← Int.cast_abs, Int.abs_eq_natAbs]; rfl
  have hd0 : (0 : Rat) < q.den := by exact_mod_cast q.den_pos
  have hp0 : 0 < 10 ^ prec := by positivity
  by_cases hd : q.den = 1
  · refine ⟨zeros prec, q.num.natAbs * 10 ^ prec, ?_, zeros_length _, ?_, ?_⟩
    · unfold ratString formatInt
      rw [if_pos hd, Nat.mul_div_cancel _ hp0]
      congr 1
      · congr 1
        have : q.num < 0 ↔ q < 0 := Rat.num_neg
        simp only [this]
      · by_cases hp : prec = 0
        · subst hp; rfl
        · rw [if_pos (by omega), if_neg (by intro h; have := zeros_length prec; rw [h] at this; simp at this; omega)]; simp
    · rw [Nat.mul_div_cancel _ hp0]; exact numeral_zeros (toDigits10 _) _
    · rw [hq, hd]; push_cast; simp
  · set a := q.num.natAbs with ha
    set d := q.den with hdd
    set p := 10 ^ prec with hpp
    have hdp : 0 < d := q.den_pos
    set r := a % d * p / d with hr
    set r2 := a % d * p % d with hr2
    have e1 : d * r + r2 = a % d * p := Nat.div_add_mod _ _
    have e2 : d * (a / d) + a % d = a := Nat.div_add_mod _ _
    have hr2d : r2 < d := Nat.mod_lt _ hdp
    have hrp : r < p := by
      rw [hr, Nat.div_lt_iff_lt_mul hdp, Nat.mul_comm p]
      exact Nat.mul_lt_mul_of_pos_right (Nat.mod_lt _ hdp) hp0
    have key : (a : Rat) * p = d * (a / d * p + r : Nat) + r2 := by
      have : a * p = d * (a / d * p + r) + r2 := by
        calc a * p = (d * (a / d) + a % d) * p := by rw [e2]
          _ = d * (a / d * p) + a % d * p := by ring
          _ = d * (a / d * p) + (d * r + r2) := by rw [e1]
          _ = _ := by ring
      exact_mod_cast this
    set whole := (if d ≤ r2 + r2 ∧ p ≤ r + 1 then a / d + 1 else a / d) with hw
    set frac := (if d ≤ r2 + r2 then (if p ≤ r + 1 then r + 1 - p else r + 1) else r) with hf
    have hsum : whole * p + frac = a / d * p + r + (if d ≤ r2 + r2 then 1 else 0) := by
      rw [hw, hf]
      by_cases h1 : d ≤ r2 + r2 <;> by_cases h2 : p ≤ r + 1
      · have : r + 1 = p := by omega
        simp only [h1, h2, true_and, if_true]; rw [Nat.add_mul]; omega
      · simp only [h1, h2, and_false, if_true, if_false]; omega
      · simp only [h1, h2, false_and, if_false]; omega
      · simp only [h1, h2, false_and, if_false]; omega
    have hfp : frac < p := by rw [hf]; split <;> [split; skip] <;> omega
    have hdiv : (whole * p + frac) / p = whole := by rw [Nat.mul_comm, Nat.mul_add_div hp0, Nat.div_eq_of_lt hfp, Nat.add_zero]
    have hnear : |((whole * p + frac : Nat) : Rat) - |q| * 10 ^ prec| ≤ 1 / 2 := by
      have hpc : (10 : Rat) ^ prec = p := by rw [hpp]; push_cast; rfl
      rw [hsum, hq, hpc, show (a : Rat) / d * p = (a * p) / d by ring, key, add_div, mul_div_cancel_left₀ _ (ne_of_gt hd0)]
      have h3 : (0 : Rat) ≤ (r2 : Rat) / d := by positivity
      have h4 : (r2 : Rat) / d < 1 := by rw [div_lt_one hd0]; exact_mod_cast hr2d
      by_cases h1 : d ≤ r2 + r2
      · have h5 : (1 : Rat) / 2 ≤ (r2 : Rat) / d := by
          rw [le_div_iff₀ hd0]
          have : (d : Rat) ≤ r2 + r2 := by exact_mod_cast h1
          linarith
        rw [if_pos h1, abs_le]; push_cast; constructor <;> linarith
      · have h5 : (r2 : Rat) / d ≤ 1 / 2 := by
          rw [div_le_iff₀ hd0]
          have : (r2 : Rat) + r2 ≤ d := by exact_mod_cast (le_of_lt (not_le.1 h1))
          linarith
        rw [if_neg h1, abs_le]; push_cast; constructor <;> linarith
    have hstr : ratString q prec = (if q < 0 then ['-'] else []) ++ Nat.toDigits 10 whole ++
        (if 0 < (prec : Int) then '.' :: (zeros (prec - (Nat.toDigits 10 frac).length) ++ Nat.toDigits 10 frac) else []) := by
      unfold ratString; rw [if_neg hd]; rfl
    by_cases hp : prec = 0
    · have hp1 : p = 1 := by rw [hpp, hp]; rfl
      refine ⟨[], whole * p + frac, ?_, by simp [hp], ?_, hnear⟩
      · rw [hstr, hdiv, if_neg (show ¬ (0 : Int) < (prec : Int) by omega)]; simp
      · rw [hdiv, List.append_nil]
        have : frac = 0 := by omega
        rw [this, hp1, Nat.mul_one, Nat.add_zero]; exact toDigits10 _
    · have hlen : (Nat.toDigits 10 frac).length ≤ prec := by
        by_cases h0 : frac = 0
        · rw [h0]; simp; omega
        · have h1 := lt_of_le_of_lt (toDigits_low h0) hfp
          have := (Nat.pow_lt_pow_iff_right (by norm_num)).1 h1
          omega
      have hl : (zeros (prec - (Nat.toDigits 10 frac).length) ++ Nat.toDigits 10 frac).length = prec := by
        rw [List.length_append, zeros_length]; omega
      refine ⟨zeros (prec - (Nat.toDigits 10 frac).length) ++ Nat.toDigits 10 frac, whole * p + frac, ?_, hl, ?_, hnear⟩
      · rw [hstr, hdiv, if_pos (show (0 : Int) < (prec : Int) by omega), if_neg (show ¬ (zeros (prec - (Nat.toDigits 10 frac).length) ++ Nat.toDigits 10 frac = []) from by intro h; rw [h] at hl; simp at hl; omega)]
      · rw [hdiv]
        have := numeral_append (toDigits10 whole) (zeros_numeral (toDigits10 frac) (prec - (Nat.toDigits 10 frac).length))
        rw [hl] at this
        exact this

/-! ## The exponent of a rational -/

theorem ratBillions_ok : ∀ (k : Nat) (x : Rat) (e : Int), 1 ≤ x → x < 2 ^ k → ∃ (m : Nat) (y : Rat), ratBillions (k + 1) x e = .ok (y, e + (9 * m : Nat)) ∧ 1 ≤ y ∧ y ≤ x ∧ x = y * 10 ^ (9 * m) := by
  intro k
  induction k with
  | zero =>
    intro x e h1 h
    rw [pow_zero] at h
    linarith
  | succ k ih =>
    intro x e h1 h
    rw [ratBillions]
    by_cases hx : 1000000000 ≤ x
    · obtain ⟨m, y, g1, g2, g3, g4⟩ := ih (x / 1000000000) (e + 9) (by rw [le_div_iff₀ (by norm_num)]; linarith)
        (by rw [div_lt_iff₀ (by norm_num)]; rw [pow_succ] at h; linarith)
      refine ⟨m + 1, y, by rw [if_pos hx, g1]; congr 2; push_cast; ring, g2, le_trans g3 ?_, ?_⟩
      · rw [div_le_iff₀ (by norm_num)]; linarith
      · rw [div_eq_iff (by norm_num)] at g4
        rw [g4, Nat.mul_add, pow_add, mul_assoc]; norm_num
    · exact ⟨0, x, by rw [if_neg hx]; simp, h1, le_refl _, by simp⟩

theorem ratTens_ok : ∀ (k : Nat) (x : Rat) (e : Int), 1 ≤ x → x < 2 ^ k → ∃ (m : Nat) (y : Rat), ratTens (k + 1) x e = .ok (e + m) ∧ 1 ≤ y ∧ y ≤ 10 ∧ x = y * 10 ^ m ∧ (y = 1 → m = 0) := by
  intro k
  induction k with
  | zero =>
    intro x e h1 h
    rw [pow_zero] at h
    linarith
  | succ k ih =>
    intro x e h1 h
    rw [ratTens]
    by_cases hx : 10 < x
    · obtain ⟨m, y, g1, g2, g3, g4, g5⟩ := ih (x / 10) (e + 1) (by rw [le_div_iff₀ (by norm_num)]; linarith)
        (by rw [div_lt_iff₀ (by norm_num)]; rw [pow_succ] at h; linarith)
      rw [div_eq_iff (by norm_num)] at g4
      refine ⟨m + 1, y, by rw [if_pos hx, g1]; congr 1; push_cast; ring, g2, g3, by rw [g4, pow_succ, mul_assoc], fun hy => ?_⟩
      rw [hy, g5 hy] at g4
      norm_num at g4
      rw [g4] at hx
      norm_num at hx
    · exact ⟨0, x, by rw [if_neg hx]; simp, h1, not_lt.1 hx, by simp, fun _ => rfl⟩

theorem lt_turns_rat {y : Rat} (h : 1 ≤ y) : y < 2 ^ (Nat.log2 y.num.natAbs + 1) := by
  have hn : 0 < y.num := Rat.num_pos.2 (by linarith)
  have h1 : y ≤ (y.num.natAbs : Rat) := by
    have hd : (1 : Rat) ≤ y.den := by exact_mod_cast y.den_pos
    have : y * y.den = y.num := Rat.mul_den_eq_num y
    have e : (y.num : Rat) = (y.num.natAbs : Rat) := by
      have h' : y.num = (y.num.natAbs : Int) := by omega
      calc (y.num : Rat) = (((y.num.natAbs : Nat) : Int) : Rat) := congrArg (Int.cast : Int → Rat) h'
        _ = _ := Int.cast_natCast _
    nlinarith
  have h2 : (y.num.natAbs : Rat) < 2 ^ (Nat.log2 y.num.natAbs + 1) := by exact_mod_cast lt_turns y.num.natAbs
  exact lt_of_le_of_lt h1 h2

theorem num_lt_den (x : Rat) : x.num < x.den ↔ x < 1 := by
  have hd : (0 : Rat) < x.den := by exact_mod_cast x.den_pos
  have : x * x.den = x.num := Rat.mul_den_eq_num x
  constructor
  · intro h
    have h' : (x.num : Rat) < x.den := by exact_mod_cast h
    nlinarith
  · intro h
    have h' : (x.num : Rat) < x.den := by nlinarith
    exact_mod_cast h'

/-- The exponent is that of the first digit, but one too low for the powers of ten of a billion. -/
theorem ratExponent_ok {q : Rat} (hq : q ≠ 0) : ∃ e, ratExponent q = .ok e ∧ ((Magnitude q e) ∨ (0 ≤ e ∧ |q| = (10 : Rat) ^ (e + 1)) ∨ (∃ k : Nat, 1 ≤ k ∧ e + 1 = -(9 * k : Nat) ∧ |q| = (10 : Rat) ^ (-(9 * k : Nat) : Int))) := by
  have hx : (if q < 0 then -q else q) = |q| := by
    by_cases h : q < 0
    · rw [if_pos h, abs_of_neg h]
    · rw [if_neg h, abs_of_nonneg (not_lt.1 h)]
  unfold ratExponent
  simp only [hx, num_lt_den, decide_eq_true_eq]
  have hpos : 0 < |q| := abs_pos.2 hq
  by_cases h1 : |q| < 1
  · simp only [h1, if_true]
    have hy : 1 ≤ |q|⁻¹ := (one_le_inv₀ hpos).2 (le_of_lt h1)
    obtain ⟨m, y, g1, g2, g3, g4⟩ := ratBillions_ok (Nat.log2 (|q|⁻¹).num.natAbs + 1) (|q|⁻¹) 1 hy (lt_turns_rat hy)
    obtain ⟨m', y', k1, k2, k3, k4, k5⟩ := ratTens_ok (Nat.log2 (|q|⁻¹).num.natAbs + 1) y (1 + (9 * m : Nat)) g2 (lt_of_le_of_lt g3 (lt_turns_rat hy))
    refine ⟨-(1 + (9 * m : Nat) + (m' : Int)), ?_, ?_⟩
    · unfold turns
      rw [g1, bind_ok, k1, bind_ok]
    · have hval : |q| = y'⁻¹ * (10 : Rat) ^ (-((9 * m : Nat) : Int) - m') := by
        have : |q|⁻¹ = y' * 10 ^ m' * 10 ^ (9 * m) := by rw [g4, k4]
        rw [← inv_inv |q|, this, mul_inv, mul_inv, zpow_sub₀ (by norm_num), zpow_neg, zpow_natCast, zpow_natCast]
        field_simp
      have hy0 : 0 < y' := by linarith
      have hz : (0 : Rat) < (10 : Rat) ^ (-((9 * m : Nat) : Int) - m') := zpow_pos (by norm_num) _
      by_cases hy1 : y' = 1
      · right; right
        have hm' := k5 hy1
        rw [hy1, hm', inv_one, one_mul] at hval
        refine ⟨m, ?_, by rw [hm']; ring, by rw [hval]; congr 1; ring⟩
        by_contra h0
        have : m = 0 := by omega
        rw [this] at hval
        norm_num at hval
        rw [hval] at h1
        norm_num at h1
      · left
        have e1 : (10 : Rat) ^ (-(1 + ((9 * m : Nat) : Int) + (m' : Int))) = 1 / 10 * (10 : Rat) ^ (-((9 * m : Nat) : Int) - m') := by
          rw [show -(1 + ((9 * m : Nat) : Int) + (m' : Int)) = (-1) + (-((9 * m : Nat) : Int) - m') by ring, zpow_add₀ (by norm_num)]; norm_num
        have e2 : (10 : Rat) ^ (-(1 + ((9 * m : Nat) : Int) + (m' : Int)) + 1) = (10 : Rat) ^ (-((9 * m : Nat) : Int) - m') := by congr 1; ring
        refine ⟨?_, ?_⟩
        · rw [e1, hval]
          refine mul_le_mul_of_nonneg_right ?_ (le_of_lt hz)
          rw [le_inv_comm₀ (by norm_num) hy0]; linarith
        · rw [e2, hval]
          refine mul_lt_of_lt_one_left hz ?_
          exact inv_lt_one_of_one_lt₀ (lt_of_le_of_ne k2 (Ne.symm hy1))
  · simp only [h1, if_false]
    have hy : 1 ≤ |q| := not_lt.1 h1
    obtain ⟨m, y, g1, g2, g3, g4⟩ := ratBillions_ok (Nat.log2 (|q|).num.natAbs + 1) (|q|) 0 hy (lt_turns_rat hy)
    obtain ⟨m', y', k1, k2, k3, k4, k5⟩ := ratTens_ok (Nat.log2 (|q|).num.natAbs + 1) y (0 + (9 * m : Nat)) g2 (lt_of_le_of_lt g3 (lt_turns_rat hy))
    refine ⟨0 + (9 * m : Nat) + (m' : Int), ?_, ?_⟩
    · unfold turns
      rw [g1, bind_ok, k1, bind_ok]
    · have hval : |q| = y' * (10 : Rat) ^ (0 + ((9 * m : Nat) : Int) + m') := by
        rw [zero_add, zpow_add₀ (by norm_num), zpow_natCast, zpow_natCast, g4, k4]; ring
      have hz : (0 : Rat) < (10 : Rat) ^ (0 + ((9 * m : Nat) : Int) + m') := zpow_pos (by norm_num) _
      have e2 : (10 : Rat) ^ (0 + ((9 * m : Nat) : Int) + m' + 1) = 10 * (10 : Rat) ^ (0 + ((9 * m : Nat) : Int) + m') := by
        rw [zpow_add₀ (by norm_num)]; norm_num; ring
      by_cases hy1 : y' = 10
      · right; left
        exact ⟨by omega, by rw [e2, hval, hy1]⟩
      · left
        refine ⟨?_, ?_⟩
        · rw [hval]; nlinarith
        · rw [e2, hval]
          exact mul_lt_mul_of_pos_right (lt_of_le_of_ne k3 hy1) hz

theorem ratDown_eq : ∀ (k : Nat) (x : Rat) (e : Nat), e ≤ k → ratDown k x e = x / 10 ^ e := by
  intro k
  induction k with
  | zero => intro x e h; have : e = 0 := by omega
            subst this; simp [ratDown]
  | succ k ih =>
    intro x e h
    rw [ratDown]
    by_cases h9 : 9 ≤ e
    · rw [if_pos h9, ih _ _ (by omega), div_div]
      congr 1
      rw [show (10 : Rat) ^ e = 10 ^ 9 * 10 ^ (e - 9) by rw [← pow_add]; congr 1; omega]; norm_num
    · rw [if_neg h9]
      by_cases h1 : 1 ≤ e
      · rw [if_pos h1, ih _ _ (by omega), div_div]
        congr 1
        rw [show (10 : Rat) ^ e = 10 * 10 ^ (e - 1) by rw [← pow_succ']; congr 1; omega]
      · rw [if_neg h1]
        have : e = 0 := by omega
        subst this; simp

theorem ratScale_eq (x : Rat) (e : Int) : ratScale x e = x / (10 : Rat) ^ e := by
  unfold ratScale
  by_cases h : e < 0
  · rw [if_pos h, ratDown_eq _ _ _ (le_refl _), inv_div, div_inv_eq_mul]
    have : (10 : Rat) ^ e = ((10 : Rat) ^ e.natAbs)⁻¹ := by
      rw [← zpow_natCast, ← zpow_neg]; congr 1; omega
    rw [this, div_inv_eq_mul, mul_comm]
  · rw [if_neg h, ratDown_eq _ _ _ (le_refl _)]
    congr 1
    rw [← zpow_natCast]; congr 1; omega

end Verif.Shown
