import Verif.Shown.Text
import Verif.Shown.Lemmas4
namespace Verif.Shown
open Verif.Lit Verif.Arr

theorem strip_ok : ∀ (k n : Nat) (e : Int), ∃ j : Nat, n = (strip k n e).n * 10 ^ j ∧ (strip k n e).e = e + j ∧ (n ≠ 0 ∧ n % 10 = 0 ∧ k ≠ 0 → 1 ≤ j) := by
  intro k
  induction k with
  | zero => intro n e; exact ⟨0, by simp [strip], by simp [strip], by simp⟩
  | succ k ih =>
    intro n e
    unfold strip
    by_cases h : n ≠ 0 ∧ n % 10 = 0
    · rw [if_pos h]
      obtain ⟨j, h1, h2, _⟩ := ih (n / 10) (e + 1)
      refine ⟨j + 1, ?_, by rw [h2]; push_cast; ring, by omega⟩
      rw [pow_succ, ← mul_assoc, ← h1]; omega
    · rw [if_neg h]; exact ⟨0, by simp, by simp, fun h' => absurd ⟨h'.1, h'.2.1⟩ h⟩

theorem trim_ok (n : Nat) (e : Int) : ∃ j : Nat, n = (trim n e).n * 10 ^ j ∧ (trim n e).e = e + j ∧ (n ≠ 0 → n % 10 = 0 → 1 ≤ j) := by
  obtain ⟨j, h1, h2, h3⟩ := strip_ok (Nat.log2 n + 1) n e
  exact ⟨j, h1, h2, fun a b => h3 ⟨a, b, by omega⟩⟩

/-- The value of a decimal. -/
def Dec.val (d : Dec) : Rat := (d.n : Rat) * (10 : Rat) ^ d.e

theorem trim_val (n : Nat) (e : Int) : (trim n e).val = (n : Rat) * (10 : Rat) ^ e := by
  obtain ⟨j, h1, h2, _⟩ := trim_ok n e
  unfold Dec.val
  rw [h2]
  conv_rhs => rw [h1]
  push_cast
  rw [zpow_add₀ (by norm_num), zpow_natCast]; ring

theorem trim_zero {n : Nat} {e : Int} : (trim n e).n = 0 ↔ n = 0 := by
  obtain ⟨j, h1, h2, _⟩ := trim_ok n e
  constructor
  · intro h; rw [h] at h1; omega
  · intro h; subst h
    rcases Nat.mul_eq_zero.1 h1.symm with h | h
    · exact h
    · exact absurd h (by positivity)

theorem mant_length {d : Dec} {k : Nat} (hk : 1 ≤ k) (h : d.n < 10 ^ k) : d.mant.length ≤ k := by
  unfold Dec.mant
  by_cases h0 : d.n = 0
  · rw [if_pos h0]; simp
  · rw [if_neg h0]
    by_contra hc
    have h1 := toDigits_low h0
    have : 10 ^ k ≤ 10 ^ ((Nat.toDigits 10 d.n).length - 1) := Nat.pow_le_pow_right (by decide) (by omega)
    omega

theorem mant_lt (d : Dec) : d.n < 10 ^ d.mant.length := by
  unfold Dec.mant
  by_cases h0 : d.n = 0
  · rw [if_pos h0, h0]; simp
  · rw [if_neg h0]; exact numeral_lt (toDigits10 _)

theorem mant_numeral {d : Dec} (h : d.n ≠ 0) : Numeral 10 d.mant d.n := by
  unfold Dec.mant; rw [if_neg h]; exact toDigits10 _

theorem mant_pos {d : Dec} (h : d.n ≠ 0) : 1 ≤ d.mant.length := List.length_pos_of_ne_nil (mant_numeral h).1

theorem mant_low {d : Dec} (h : d.n ≠ 0) : 10 ^ (d.mant.length - 1) ≤ d.n := by
  unfold Dec.mant; rw [if_neg h]; exact toDigits_low h

/-- The power of ten of the first digit. -/
theorem dec_magnitude {d : Dec} (h : d.n ≠ 0) : Magnitude d.val (d.exp - 1) := by
  have hl := mant_pos h
  have h1 := mant_low h
  have h2 := mant_lt d
  have hp : (0 : Rat) < (10 : Rat) ^ d.e := zpow_pos (by norm_num) _
  have hv : |d.val| = (d.n : Rat) * (10 : Rat) ^ d.e := by unfold Dec.val; exact abs_of_nonneg (mul_nonneg (by positivity) (le_of_lt hp))
  have he : d.exp = d.e + d.mant.length := by unfold Dec.exp; rw [if_neg h]
  constructor
  · rw [hv, he, show d.e + (d.mant.length : Int) - 1 = ((d.mant.length - 1 : Nat) : Int) + d.e by omega, zpow_add₀ (by norm_num), zpow_natCast]
    apply mul_le_mul_of_nonneg_right _ (le_of_lt hp)
    exact_mod_cast h1
  · rw [hv, he, show d.e + (d.mant.length : Int) - 1 + 1 = ((d.mant.length : Nat) : Int) + d.e by omega, zpow_add₀ (by norm_num), zpow_natCast]
    apply mul_lt_mul_of_pos_right _ hp
    exact_mod_cast h2

theorem round_err (N k : Nat) (up : Prop) [Decidable up] (h : up ↔ (10 ^ k < 2 * (N % 10 ^ k) ∨ (10 ^ k = 2 * (N % 10 ^ k) ∧ N / 10 ^ k % 2 = 1))) :
    |(((if up then N / 10 ^ k + 1 else N / 10 ^ k : Nat) : Rat) * (10 : Rat) ^ k - N)| ≤ (10 : Rat) ^ k / 2 := by
  have h1 := Nat.div_add_mod N (10 ^ k)
  have h2 : N % 10 ^ k < 10 ^ k := Nat.mod_lt _ (by positivity)
  have e : (N : Rat) = (10 : Rat) ^ k * ((N / 10 ^ k : Nat) : Rat) + ((N % 10 ^ k : Nat) : Rat) := by exact_mod_cast h1.symm
  generalize hQ : N / 10 ^ k = Q at *
  generalize hR : N % 10 ^ k = r at *
  rw [e, abs_le]
  by_cases hu : up
  · rw [if_pos hu]
    have h3 : (10 : Rat) ^ k ≤ 2 * (r : Rat) := by
      have : 10 ^ k ≤ 2 * r := by rcases h.1 hu with h | h <;> omega
      exact_mod_cast this
    have h4 : (r : Rat) < (10 : Rat) ^ k := by exact_mod_cast h2
    push_cast
    constructor <;> nlinarith
  · rw [if_neg hu]
    have h3 : 2 * (r : Rat) ≤ (10 : Rat) ^ k := by
      have : 2 * r ≤ 10 ^ k := by
        by_contra hc
        exact hu (h.2 (Or.inl (by omega)))
      exact_mod_cast this
    have h4 : (0 : Rat) ≤ (r : Rat) := by positivity
    constructor <;> nlinarith

/-- Rounding to `n` digits is off by half a unit at most, and `n` digits are left. -/
theorem round_ok {d : Dec} {n : Nat} (h : d.n ≠ 0) :
    abs ((d.round n).val - d.val) ≤ (10 : Rat) ^ (d.exp - n) / 2 ∧ (1 ≤ n → (d.round n).mant.length ≤ n ∧ (d.round n).n ≠ 0) ∧
      ((d.round n).n = 0 ∨ (d.exp - n ≤ (d.round n).e)) := by
  have he : d.exp = d.e + d.mant.length := by unfold Dec.exp; rw [if_neg h]
  unfold Dec.round
  by_cases hc : (n : Int) < 0 ∨ d.mant.length ≤ (n : Int)
  · rw [if_pos hc]
    have hl : d.mant.length ≤ n := by omega
    refine ⟨?_, fun _ => ⟨hl, h⟩, Or.inr (by omega)⟩
    rw [sub_self, abs_zero]; exact div_nonneg (zpow_nonneg (by norm_num) _) (by norm_num)
  · rw [if_neg hc]
    simp only [Int.toNat_natCast]
    obtain ⟨k, hk⟩ : ∃ k, d.mant.length - n = k := ⟨_, rfl⟩
    rw [hk]
    have hkl : d.mant.length = n + k := by omega
    have hr := round_err d.n k _ Iff.rfl
    generalize hM : (if 10 ^ k < 2 * (d.n % 10 ^ k) ∨ 10 ^ k = 2 * (d.n % 10 ^ k) ∧ d.n / 10 ^ k % 2 = 1 then d.n / 10 ^ k + 1 else d.n / 10 ^ k) = M at hr ⊢
    have hdk : (d.n / 10 ^ k) ≤ M ∧ M ≤ d.n / 10 ^ k + 1 := by
      rw [← hM]; split <;> omega
    have hlt : d.n / 10 ^ k < 10 ^ n := by
      rw [Nat.div_lt_iff_lt_mul (by positivity), ← pow_add, ← hkl]; exact mant_lt d
    refine ⟨?_, ?_, ?_⟩
    · rw [trim_val]
      unfold Dec.val
      have : (M : Rat) * (10 : Rat) ^ (d.e + (k : Int)) - (d.n : Rat) * (10 : Rat) ^ d.e = ((M : Rat) * (10 : Rat) ^ k - d.n) * (10 : Rat) ^ d.e := by
        rw [zpow_add₀ (by norm_num), zpow_natCast]; ring
      have hp : (0 : Rat) < (10 : Rat) ^ d.e := zpow_pos (by norm_num) _
      rw [this, abs_mul, abs_of_pos hp, he, hkl, show d.e + ((n + k : Nat) : Int) - n = (k : Int) + d.e by push_cast; ring, zpow_add₀ (by norm_num), zpow_natCast]
      have := mul_le_mul_of_nonneg_right hr (le_of_lt hp)
      linarith
    · intro hn
      have hM0 : M ≠ 0 := by
        have h1 := mant_low h
        have h2 : 10 ^ k ≤ d.n := le_trans (Nat.pow_le_pow_right (by decide) (by omega)) h1
        have : 1 ≤ d.n / 10 ^ k := by rw [Nat.one_le_div_iff (by positivity)]; exact h2
        omega
      refine ⟨?_, by rw [Ne, trim_zero]; exact hM0⟩
      obtain ⟨j, t1, _, t3⟩ := trim_ok M (d.e + (k : Int))
      apply mant_length hn
      by_cases hM1 : M < 10 ^ n
      · have : (trim M (d.e + k)).n ≤ M := by
          conv_rhs => rw [t1]
          exact Nat.le_mul_of_pos_right _ (by positivity)
        omega
      · have hMe : M = 10 ^ n := by omega
        have hj : 1 ≤ j := t3 hM0 (by
          rw [hMe]; obtain ⟨m, rfl⟩ : ∃ m, n = m + 1 := ⟨n - 1, by omega⟩
          rw [pow_succ]; simp)
        have h10 : 10 ≤ 10 ^ j := by calc 10 = 10 ^ 1 := by norm_num
          _ ≤ 10 ^ j := Nat.pow_le_pow_right (by decide) hj
        have hpos : 0 < 10 ^ n := by positivity
        rw [hMe] at t1
        by_contra hc
        have hc : 10 ^ n ≤ (trim M (d.e + k)).n := by omega
        rw [hMe] at hc
        have := Nat.mul_le_mul hc h10
        omega
    · obtain ⟨j, t1, t2, _⟩ := trim_ok M (d.e + (k : Int))
      right; rw [t2]; omega

/-- A float is a fraction whose denominator is a power of two. -/
theorem decOf_val {q : Rat} (h : ∃ k, q.den = 2 ^ k) : (decOf q).val = |q| := by
  obtain ⟨k, hk⟩ := h
  unfold decOf
  rw [hk, Nat.log2_two_pow, trim_val]
  have : |q| = (q.num.natAbs : Rat) / (q.den : Rat) := by
    rw [← Rat.num_div_den q, abs_div]
    rw [Rat.num_div_den q]
    congr 1
    · rw [← Int.cast_abs, Int.abs_eq_natAbs]; rfl
    · exact abs_of_nonneg (by positivity)
  rw [this, hk, zpow_neg, zpow_natCast]
  push_cast
  rw [show (10 : Rat) = 2 * 5 by norm_num, mul_pow]
  field_simp

theorem decOf_ne {q : Rat} (h : q ≠ 0) : (decOf q).n ≠ 0 := by
  unfold decOf
  rw [Ne, trim_zero]
  have : q.num.natAbs ≠ 0 := by simpa using h
  have : 0 < 5 ^ Nat.log2 q.den := by positivity
  intro h
  rcases Nat.mul_eq_zero.1 h with h | h <;> omega

theorem decOf_zero : decOf 0 = ⟨0, 0⟩ := by decide +kernel

theorem window_length (d : Dec) (a : Int) (k : Nat) : (d.window a k).length = k := by unfold Dec.window; simp

theorem window_get (d : Dec) (a : Int) (k i : Nat) (h : i < (d.window a k).length) : (d.window a k)[i] = d.at (a + i) := by
  have : (d.window a k)[i] = ((List.range k).map fun (i : Nat) => d.at (a + i))[i]'(by rw [window_length] at h; simpa using h) := rfl
  rw [this, List.getElem_map, List.getElem_range]

theorem window_append (d : Dec) (a : Int) (k l : Nat) : d.window a k ++ d.window (a + k) l = d.window a (k + l) := by
  apply List.ext_getElem
  · rw [List.length_append]; simp only [window_length]
  · intro i h1 h2
    rw [List.getElem_append]
    simp only [window_length, window_get]
    by_cases h : i < k
    · rw [dif_pos h]
    · rw [dif_neg h]
      congr 1
      omega

theorem window_eq (d : Dec) (z : Nat) (k : Nat) (h : z + d.mant.length ≤ k) : d.window (-(z : Int)) k = zeros z ++ (d.mant ++ zeros (k - z - d.mant.length)) := by
  apply List.ext_getElem
  · simp only [List.length_append, window_length, zeros_length]; omega
  · intro i h1 h2
    rw [window_get]
    unfold Dec.at
    rw [List.getElem_append]
    simp only [zeros_length]
    by_cases hz : i < z
    · rw [dif_pos hz, if_neg (by omega)]; simp [zeros]
    · rw [dif_neg hz, if_pos (by omega), show (-(z : Int) + i).toNat = i - z by omega, List.getElem_append, List.getD_eq_getElem?_getD]
      by_cases hm : i - z < d.mant.length
      · rw [dif_pos hm, List.getElem?_eq_getElem hm]; rfl
      · rw [dif_neg hm, List.getElem?_eq_none (by omega)]; simp [zeros]

theorem window_numeral (d : Dec) (z k : Nat) (hk : 1 ≤ k) (h : z + d.mant.length ≤ k) : Numeral 10 (d.window (-(z : Int)) k) (d.n * 10 ^ (k - z - d.mant.length)) := by
  rw [window_eq d z k h]
  by_cases h0 : d.n = 0
  · have hm : d.mant = [] := by unfold Dec.mant; rw [if_pos h0]
    rw [hm, h0, Nat.zero_mul, List.nil_append]
    have : zeros z ++ zeros (k - z - ([] : List Char).length) = zeros (k - 1) ++ ['0'] := by
      simp only [zeros, List.length_nil]
      rw [← List.replicate_add, show (['0'] : List Char) = List.replicate 1 '0' from rfl, ← List.replicate_add]
      rw [hm] at h
      congr 1; simp at h; omega
    rw [this]
    exact zeros_numeral ⟨by decide, [0], .cons ⟨Or.inl (by decide), by decide⟩ .nil, by decide⟩ _
  · exact zeros_numeral (numeral_zeros (mant_numeral h0) _) _

/-- Digits in front of all that are kept are zeros. -/
theorem window_low (d : Dec) (a : Int) (k : Nat) (hk : 1 ≤ k) (h : a + k ≤ 0) : Numeral 10 (d.window a k) 0 := by
  have : d.window a k = zeros (k - 1) ++ ['0'] := by
    apply List.ext_getElem
    · rw [List.length_append, window_length, zeros_length]; simp; omega
    · intro i h1 h2
      have hi : i < k := by rw [window_length] at h1; exact h1
      rw [window_get]
      unfold Dec.at
      rw [if_neg (by omega), List.getElem_append]
      split <;> simp [zeros]
  rw [this]
  exact zeros_numeral ⟨by decide, [0], .cons ⟨Or.inl (by decide), by decide⟩ .nil, by decide⟩ _

/-- What `fmtE` writes. -/
theorem fmtE_ok {verb : Char} (hv : verb = 'e' ∨ verb = 'E') {prec : Nat} {d : Dec} (h : d.mant.length ≤ prec + 1) (neg : Prop) [Decidable neg] :
    ∃ ex E, Decimal ((if neg then ['-'] else []) ++ fmtE verb prec d) 1 prec (verb :: ex) E (withSign (decide neg) d.val) ∧ (d.n ≠ 0 → E = d.exp - 1) := by
  have hn := window_numeral d 0 (1 + prec) (by omega) (by omega)
  rw [show (-((0 : Nat) : Int)) = 0 by rfl, ← window_append] at hn
  refine ⟨expText (if d.n = 0 then 0 else d.exp - 1), (if d.n = 0 then 0 else d.exp - 1), ⟨_, d.window 0 1, d.window 1 prec, decide neg, _, ?_, window_length .., window_length .., ?_, sign_of, hn, expText_ok verb hv _, ?_⟩, fun h => if_neg h⟩
  · unfold fmtE point
    simp only [List.append_assoc]
  · intro h'
    have := window_length d 0 1
    rw [h'] at this; simp at this
  · congr 1
    unfold Dec.val
    by_cases h0 : d.n = 0
    · rw [h0]; simp
    · rw [if_neg h0]
      have he : d.exp = d.e + d.mant.length := by unfold Dec.exp; rw [if_neg h0]
      push_cast
      rw [mul_assoc, ← zpow_natCast, ← zpow_add₀ (by norm_num), he]
      congr 2
      omega

/-- What `fmtF` writes. -/
theorem fmtF_ok {prec : Nat} {d : Dec} (h : (d.mant.length : Int) ≤ d.exp + prec ∨ d.n = 0) (neg : Prop) [Decidable neg] :
    ∃ k, Decimal ((if neg then ['-'] else []) ++ fmtF prec d) k prec [] 0 (withSign (decide neg) d.val) := by
  by_cases hx : 0 < d.exp
  · have h0 : d.n ≠ 0 := by intro h; unfold Dec.exp at hx; rw [if_pos h] at hx; omega
    have h := h.resolve_right h0
    have hn := window_numeral d 0 (d.exp.toNat + prec) (by omega) (by omega)
    rw [show (-((0 : Nat) : Int)) = 0 by rfl, ← window_append, show (0 : Int) + (d.exp.toNat : Int) = d.exp by omega] at hn
    refine ⟨_, _, d.window 0 d.exp.toNat, d.window d.exp prec, decide neg, _, ?_, rfl, window_length .., ?_, sign_of, hn, Or.inl ⟨rfl, rfl⟩, ?_⟩
    · unfold fmtF point
      rw [if_pos hx]
      simp only [List.append_assoc, List.append_nil]
    · intro h'
      have := window_length d 0 d.exp.toNat
      rw [h'] at this; simp at this; omega
    · congr 1
      unfold Dec.val
      have he : d.exp = d.e + d.mant.length := by unfold Dec.exp; rw [if_neg h0]
      push_cast
      rw [mul_assoc, ← zpow_natCast, ← zpow_add₀ (by norm_num)]
      congr 2
      omega
  · have hone : d.window (d.exp - 1) 1 = ['0'] := by
      unfold Dec.window Dec.at
      simp only [List.range_one, List.map_cons, List.map_nil]
      rw [if_neg (by simp; omega)]
    have hn : Numeral 10 (['0'] ++ d.window d.exp prec) (d.n * 10 ^ (1 + prec - (1 - d.exp).toNat - d.mant.length)) := by
      rw [← hone]
      have := window_append d (d.exp - 1) 1 prec
      rw [show d.exp - 1 + ((1 : Nat) : Int) = d.exp by omega] at this
      rw [this]
      by_cases h0 : d.n = 0
      · have hm : d.mant = [] := by unfold Dec.mant; rw [if_pos h0]
        have he : d.exp = 0 := by unfold Dec.exp; rw [if_pos h0]
        have := window_numeral d 1 (1 + prec) (by omega) (by rw [hm]; simp)
        rw [he]; exact this
      · have h := h.resolve_right h0
        have := window_numeral d (1 - d.exp).toNat (1 + prec) (by omega) (by omega)
        rw [show (-((1 - d.exp).toNat : Int)) = d.exp - 1 by omega] at this
        exact this
    refine ⟨_, _, ['0'], d.window d.exp prec, decide neg, _, ?_, rfl, window_length .., by simp, sign_of, hn, Or.inl ⟨rfl, rfl⟩, ?_⟩
    · unfold fmtF point
      rw [if_neg hx]
      simp only [List.append_assoc, List.append_nil]
    · congr 1
      unfold Dec.val
      by_cases h0 : d.n = 0
      · rw [h0]; simp
      · have h := h.resolve_right h0
        have he : d.exp = d.e + d.mant.length := by unfold Dec.exp; rw [if_neg h0]
        push_cast
        rw [mul_assoc, ← zpow_natCast, ← zpow_add₀ (by norm_num)]
        congr 2
        omega

/-- What `fmtF` writes if the number is far less than the last place. -/
theorem fmtF_low {prec : Nat} {d : Dec} (h : d.exp + prec < 0) (neg : Prop) [Decidable neg] :
    Decimal ((if neg then ['-'] else []) ++ fmtF prec d) 1 prec [] 0 0 := by
  have hone : d.window (d.exp - 1) 1 = ['0'] := by
    unfold Dec.window Dec.at
    simp only [List.range_one, List.map_cons, List.map_nil]
    rw [if_neg (by simp; omega)]
  have hn : Numeral 10 (['0'] ++ d.window d.exp prec) 0 := by
    rw [← hone]
    have := window_append d (d.exp - 1) 1 prec
    rw [show d.exp - 1 + ((1 : Nat) : Int) = d.exp by omega] at this
    rw [this]
    exact window_low d _ _ (by omega) (by omega)
  refine ⟨_, ['0'], d.window d.exp prec, decide neg, 0, ?_, rfl, window_length .., by simp, sign_of, hn, Or.inl ⟨rfl, rfl⟩, ?_⟩
  · unfold fmtF point
    rw [if_neg (show ¬ 0 < d.exp by omega)]
    simp only [List.append_assoc, List.append_nil]
  · unfold withSign; simp

end Verif.Shown
