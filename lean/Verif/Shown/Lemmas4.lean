import Verif.Shown.Lemmas3
import Verif.Lit.Props
/-
Helper lemmas: the formats put together.
-/
namespace Verif.Shown
open Verif.Lit Verif.Arr Verif.Num

theorem sign_of {neg : Prop} [Decidable neg] : Sign (if neg then ['-'] else []) (decide neg) := by
  by_cases h : neg
  · rw [if_pos h]; exact Or.inr (Or.inr ⟨rfl, by simp [h]⟩)
  · rw [if_neg h]; exact Or.inl ⟨rfl, by simp [h]⟩

theorem sign_form {neg : Prop} [Decidable neg] : (if neg then ['-'] else [] : List Char) = [] ∨ (if neg then ['-'] else [] : List Char) = ['-'] := by
  by_cases h : neg
  · right; rw [if_pos h]
  · left; rw [if_neg h]

theorem withSign_abs (q a : Rat) (ha : 0 ≤ a) : |withSign (decide (q < 0)) a - q| = abs (a - abs q) ∧ |withSign (decide (q < 0)) a| = a := by
  unfold withSign
  by_cases h : q < 0
  · simp only [h, decide_true, if_true]
    rw [abs_of_neg h, show -a - q = -(a - -q) by ring, abs_neg, abs_neg, abs_of_nonneg ha]; exact ⟨rfl, rfl⟩
  · simp only [h, decide_false, Bool.false_eq_true, if_false]
    rw [abs_of_nonneg (not_lt.1 h), abs_of_nonneg ha]; exact ⟨rfl, rfl⟩

theorem magnitude_unique {q : Rat} {E E' : Int} (h : Magnitude q E) (h' : Magnitude q E') : E = E' := by
  have h1 : (10 : Rat) ^ E < (10 : Rat) ^ (E' + 1) := lt_of_le_of_lt h.1 h'.2
  have h2 : (10 : Rat) ^ E' < (10 : Rat) ^ (E + 1) := lt_of_le_of_lt h'.1 h.2
  rw [zpow_lt_zpow_iff_right₀ (by norm_num)] at h1 h2
  omega

theorem int_magnitude {i : Int} {e : Nat} (h1 : i.natAbs < 10 ^ (e + 1)) (h2 : 10 ^ e ≤ i.natAbs) : Magnitude i e := by
  have h : |(i : Rat)| = (i.natAbs : Rat) := by rw [← Int.cast_abs, Int.abs_eq_natAbs]; rfl
  constructor
  · rw [h, zpow_natCast]; exact_mod_cast h2
  · rw [h, show ((e : Int) + 1) = ((e + 1 : Nat) : Int) by push_cast; rfl, zpow_natCast]; exact_mod_cast h1

/-- The text of an integer with an exponent. -/
theorem eInt (verb : Char) (prec : Nat) (i : Int) {e : Nat} (h1 : i.natAbs < 10 ^ (e + 1)) (h2 : i ≠ 0 → 10 ^ e ≤ i.natAbs) (h3 : i = 0 → e = 0) :
    ∃ a f n, eFormat verb prec (if i < 0 then ['-'] else []) (Nat.toDigits 10 i.natAbs) e =
        .ok ((if i < 0 then ['-'] else []) ++ a ++ (if f = [] then [] else '.' :: f) ++ verb :: expText e) ∧ a.length = 1 ∧ f.length = prec ∧ Numeral 10 (a ++ f) n ∧
      n = i.natAbs * 10 ^ prec / 10 ^ e ∧ (i ≠ 0 → a ≠ ['0']) := by
  obtain ⟨a, f, g1, g2, g3, g4, g5⟩ := eFormat_ok verb prec (if i < 0 then ['-'] else []) (e : Int) (toDigits10 i.natAbs)
  have hlen : (Nat.toDigits 10 i.natAbs).length - 1 = e := by
    by_cases hi : i = 0
    · rw [h3 hi, hi]; rfl
    · rw [toDigits_length (h2 hi) h1]; omega
  rw [hlen] at g4
  refine ⟨a, f, _, g1, g2, g3, g4, rfl, fun hi ha => ?_⟩
  have hz := (toDigits_numeral (b := 10) (by norm_num) (by norm_num) i.natAbs).2 (by omega)
  rw [g5] at ha
  cases hd : Nat.toDigits 10 i.natAbs with
  | nil => rw [hd] at ha; simp at ha
  | cons c r => rw [hd] at ha hz; simp at ha hz; exact hz ha

/-- Cutting off costs less than a unit. -/
theorem eInt_near {i : Int} {e prec : Nat} (h1 : i.natAbs < 10 ^ (e + 1)) (h2 : i ≠ 0 → 10 ^ e ≤ i.natAbs) :
    let v := withSign (decide (i < 0)) (((i.natAbs * 10 ^ prec / 10 ^ e : Nat) : Rat) * (10 : Rat) ^ ((e : Int) - prec))
    (i = 0 → v = 0) ∧ |v - i| < (10 : Rat) ^ ((e : Int) - prec) ∧ |v| ≤ |(i : Rat)| := by
  intro v
  have habs : |(i : Rat)| = (i.natAbs : Rat) := by rw [← Int.cast_abs, Int.abs_eq_natAbs]; rfl
  have hu : (0 : Rat) < (10 : Rat) ^ ((e : Int) - prec) := zpow_pos (by norm_num) _
  have hneg : (decide (i < 0)) = decide ((i : Rat) < 0) := by
    have : i < 0 ↔ (i : Rat) < 0 := by exact_mod_cast Iff.rfl
    simp only [this]
  have hw := withSign_abs (i : Rat) (((i.natAbs * 10 ^ prec / 10 ^ e : Nat) : Rat) * (10 : Rat) ^ ((e : Int) - prec)) (by positivity)
  rw [← hneg] at hw
  have hdiv : (i.natAbs : Rat) = ((i.natAbs * 10 ^ prec : Nat) : Rat) / ((10 ^ e : Nat) : Rat) * (10 : Rat) ^ ((e : Int) - prec) := by
    rw [zpow_sub₀ (by norm_num), zpow_natCast, zpow_natCast]; push_cast; field_simp
  have hp : 0 < 10 ^ e := by positivity
  have hp' : (0 : Rat) < ((10 ^ e : Nat) : Rat) := by exact_mod_cast hp
  have hlo : ((i.natAbs * 10 ^ prec / 10 ^ e : Nat) : Rat) ≤ ((i.natAbs * 10 ^ prec : Nat) : Rat) / ((10 ^ e : Nat) : Rat) := by
    rw [le_div_iff₀ hp']; exact_mod_cast Nat.div_mul_le_self _ _
  have hhi : ((i.natAbs * 10 ^ prec : Nat) : Rat) / ((10 ^ e : Nat) : Rat) < ((i.natAbs * 10 ^ prec / 10 ^ e : Nat) : Rat) + 1 := by
    rw [div_lt_iff₀ hp']; have := Nat.lt_div_mul_add (a := i.natAbs * 10 ^ prec) hp
    have h' : i.natAbs * 10 ^ prec < (i.natAbs * 10 ^ prec / 10 ^ e + 1) * 10 ^ e := by rw [Nat.add_mul, Nat.one_mul]; exact this
    exact_mod_cast h'
  refine ⟨fun hi => ?_, ?_, ?_⟩
  · change withSign _ _ = 0
    subst hi; simp [withSign]
  · rw [hw.1, habs, hdiv, ← sub_mul, abs_mul, abs_of_pos hu]
    refine mul_lt_of_lt_one_left hu ?_
    rw [abs_lt]; constructor <;> linarith
  · rw [hw.2, habs]
    conv_rhs => rw [hdiv]
    exact mul_le_mul_of_nonneg_right hlo (le_of_lt hu)

theorem not_pow {r : Rat} (h : r.den ≠ 1) {e : Int} (he : 0 ≤ e) : |r| ≠ (10 : Rat) ^ (e + 1) := by
  intro h'
  apply h
  have h1 : |r| = ((10 ^ (e + 1).toNat : Int) : Rat) := by
    rw [h', show e + 1 = (((e + 1).toNat : Nat) : Int) by omega, zpow_natCast]; rw [Int.toNat_natCast]; push_cast; rfl
  have h2 : |r|.den = 1 := by rw [h1]; exact Rat.den_intCast _
  rcases abs_choice r with h3 | h3
  · rw [← h3]; exact h2
  · rw [h3, Rat.neg_den] at h2; exact h2

theorem ratExponent_regular {r : Rat} (h : r.den ≠ 1) (hb : ∀ k : Nat, 1 ≤ k → |r| ≠ (10 : Rat) ^ (-(9 * k : Nat) : Int)) : ∃ e, ratExponent r = .ok e ∧ Magnitude r e := by
  have h0 : r ≠ 0 := by rintro rfl; exact h rfl
  obtain ⟨e, h1, h2 | h2 | ⟨k, h2, _, h3⟩⟩ := ratExponent_ok h0
  · exact ⟨e, h1, h2⟩
  · exact absurd h2.2 (not_pow h h2.1)
  · exact absurd h3 (hb k h2)

theorem ratExponent_abs (q : Rat) : ratExponent (if q < 0 then -q else q) = ratExponent q := by
  unfold ratExponent
  by_cases h : q < 0
  · rw [if_pos h]
    have : ¬ (-q < 0) := by linarith
    simp only [this, h, if_true, if_false]
  · simp only [h, if_false]

/-- The text of a rational with an exponent. -/
theorem eRat (verb : Char) (prec : Nat) {r : Rat} {e : Int} (he : ratExponent r = .ok e) (hm : Magnitude r e) (hc : |r| + (10 : Rat) ^ (e - prec - 1) / 2 < (10 : Rat) ^ (e + 1)) :
    ∃ a f n, ratE verb prec r = .ok ((if r < 0 then ['-'] else []) ++ a ++ (if f = [] then [] else '.' :: f) ++ verb :: expText e) ∧ a.length = 1 ∧ f.length = prec ∧ Numeral 10 (a ++ f) n ∧
      abs ((n : Rat) * (10 : Rat) ^ (e - prec) - abs r) < (10 : Rat) ^ (e - prec) ∧ a ≠ ['0'] := by
  have hx : (if r < 0 then -r else r) = |r| := by
    by_cases h : r < 0
    · rw [if_pos h, abs_of_neg h]
    · rw [if_neg h, abs_of_nonneg (not_lt.1 h)]
  have hE : (0 : Rat) < (10 : Rat) ^ e := zpow_pos (by norm_num) _
  set t : Rat := |r| / (10 : Rat) ^ e with ht
  have ht1 : 1 ≤ t := by rw [ht, le_div_iff₀ hE, one_mul]; exact hm.1
  have ht0 : |t| = t := abs_of_nonneg (by linarith)
  obtain ⟨f0, N, s1, s2, s3, s4⟩ := ratString_ok t (prec + 1)
  rw [ht0, abs_le] at s4
  have hP : (0 : Rat) < (10 : Rat) ^ (prec + 1) := by positivity
  have hNlo : 10 ^ (prec + 1) ≤ N := by
    have : (10 : Rat) ^ (prec + 1) - 1 / 2 ≤ N := by nlinarith [s4.1]
    have h2 : ((10 ^ (prec + 1) : Nat) : Rat) < N + 1 := by push_cast; linarith
    have h3 : 10 ^ (prec + 1) < N + 1 := by exact_mod_cast h2
    omega
  have hsplit : (10 : Rat) ^ (e - prec - 1) * (10 : Rat) ^ (prec + 1) = (10 : Rat) ^ e := by
    rw [← zpow_natCast, ← zpow_add₀ (by norm_num)]; congr 1; push_cast; ring
  have hNhi : N < 10 ^ (prec + 2) := by
    have h2 : t * 10 ^ (prec + 1) + 1 / 2 < 10 ^ (prec + 2) := by
      have h3 : (|r| + (10 : Rat) ^ (e - prec - 1) / 2) / (10 : Rat) ^ e < 10 := by
        rw [div_lt_iff₀ hE, mul_comm]
        rw [zpow_add₀ (by norm_num), zpow_one] at hc
        exact hc
      have h4 : (10 : Rat) ^ (e - prec - 1) / 2 / (10 : Rat) ^ e = 1 / 2 / 10 ^ (prec + 1) := by
        rw [div_div, div_div, div_eq_div_iff (by positivity) (by positivity), ← hsplit]; ring
      rw [add_div, h4, ← ht] at h3
      have h5 := mul_lt_mul_of_pos_right h3 hP
      rw [add_mul, div_mul_cancel₀ _ (ne_of_gt hP)] at h5
      calc t * 10 ^ (prec + 1) + 1 / 2 < 10 * 10 ^ (prec + 1) := h5
        _ = 10 ^ (prec + 2) := by rw [pow_succ _ (prec + 1)]; ring
    have : (N : Rat) < ((10 ^ (prec + 2) : Nat) : Rat) := by push_cast; linarith [s4.2]
    exact_mod_cast this
  have hdig : N / 10 ^ (prec + 1) < 10 := by
    rw [Nat.div_lt_iff_lt_mul (by positivity)]
    calc N < 10 ^ (prec + 2) := hNhi
      _ = 10 * 10 ^ (prec + 1) := by rw [pow_succ _ (prec + 1)]; ring
  have hdig1 : 1 ≤ N / 10 ^ (prec + 1) := by rw [Nat.le_div_iff_mul_le (by positivity)]; omega
  have hlen : (Nat.toDigits 10 (N / 10 ^ (prec + 1))).length = 1 := toDigits_length (e := 0) (by omega) (by omega)
  have hz := (toDigits_numeral (b := 10) (by norm_num) (by norm_num) (N / 10 ^ (prec + 1))).2 (by omega)
  obtain ⟨c, hcd⟩ := List.length_eq_one_iff.1 hlen
  rw [hcd] at s1 s3 hz
  have hc0 : c ≠ '0' := by simpa using hz
  have hf0 : f0 ≠ [] := by intro h; rw [h] at s2; simp at s2
  rw [if_neg (by linarith : ¬ t < 0), if_neg hf0, List.nil_append] at s1
  have hstr : (ratString (ratScale (if r < 0 then -r else r) e) ((prec : Int) + 1)) = c :: '.' :: f0 := by
    rw [ratScale_eq, hx, ← ht, show ((prec : Int) + 1) = ((prec + 1 : Nat) : Int) by push_cast; rfl, s1]; rfl
  obtain ⟨a, f, g1, g2, g3, g4, g5⟩ := eFormat_ok verb prec (if r < 0 then ['-'] else []) e s3
  have hl2 : ([c] ++ f0).length - 1 = prec + 1 := by simp [s2]
  have hn : N * 10 ^ prec / 10 ^ (prec + 1) = N / 10 := by
    rw [pow_succ, Nat.mul_comm N, Nat.mul_div_mul_left _ _ (by positivity)]
  rw [hl2, hn] at g4
  refine ⟨a, f, N / 10, ?_, g2, g3, g4, ?_, ?_⟩
  · unfold ratE
    simp only [ratExponent_abs, he, bind_ok, hstr]
    have hs1 : slice (c :: '.' :: f0) 0 1 = .ok [c] := by
      have := slice_ok (s := c :: '.' :: f0) (a := 0) (b := 1) (by omega) (by simp)
      simpa using this
    rw [hs1, bind_ok, if_neg (by simpa using hc0), if_pos (by simp)]
    simp only [bind_ok]
    exact g1
  · have hU : (0 : Rat) < (10 : Rat) ^ (e - prec) := zpow_pos (by norm_num) _
    have hr : |r| = t * 10 ^ (prec + 1) / 10 * (10 : Rat) ^ (e - prec) := by
      have : (10 : Rat) ^ (prec + 1) / 10 * (10 : Rat) ^ (e - prec) = (10 : Rat) ^ e := by
        rw [pow_succ, mul_div_cancel_right₀ _ (by norm_num), ← zpow_natCast, ← zpow_add₀ (by norm_num)]; congr 1; ring
      rw [mul_div_assoc, mul_assoc, this, ht, div_mul_cancel₀ _ (ne_of_gt hE)]
    rw [hr, ← sub_mul, abs_mul, abs_of_pos hU]
    refine mul_lt_of_lt_one_left hU ?_
    have h1 : ((N / 10 : Nat) : Rat) * 10 ≤ N := by exact_mod_cast Nat.div_mul_le_self N 10
    have h2 : (N : Rat) ≤ ((N / 10 : Nat) : Rat) * 10 + 9 := by
      have : N ≤ N / 10 * 10 + 9 := by omega
      exact_mod_cast this
    rw [abs_lt]
    constructor <;> linarith [s4.1, s4.2]
  · rw [g5]; simpa using hc0

end Verif.Shown
