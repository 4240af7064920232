import Verif.Shown.TextProps
import Verif.Shown.Props
import Verif.Flt.Lemmas1
import Verif.Flt.Spec
import Mathlib.Data.Nat.Prime.Basic
import Mathlib.Algebra.Order.Floor.Ring
/-
C87: floats that are saved.
-/
namespace Verif.Shown
open Verif.Lit Verif.Arr
open Verif.Flt.Spec (IsFloat Nearest)
open Verif.Flt (rnd)

/-- **C87, full statement.** The text saved for a float is read as a number to which the float is nearest among all of its precision. -/
def C87_full : Prop :=
  ∀ p q, 1 ≤ p → p ≤ 1000000 → IsFloat p q → q ≠ 0 → (∀ E, Magnitude q E → E.natAbs ≤ 600000) → ∃ v, ReadsAs 10 (saveFloat p q) v ∧ Nearest p v q

theorem float_binary {p : Nat} {q : Rat} (h : IsFloat p q) : Binary q := by
  obtain ⟨m, e, _, rfl⟩ := h
  rcases le_total 0 e with he | he
  · refine ⟨0, ?_⟩
    obtain ⟨k, rfl⟩ := Int.eq_ofNat_of_zero_le he
    rw [zpow_natCast]
    have : (m : Rat) * 2 ^ k = ((m * 2 ^ k : Int) : Rat) := by push_cast; rfl
    rw [this, Rat.den_intCast, pow_zero]
  · obtain ⟨k, hk⟩ : ∃ k : Nat, e = -(k : Int) := ⟨e.natAbs, by omega⟩
    rw [hk, zpow_neg, zpow_natCast, ← div_eq_mul_inv]
    have h1 : ((m : Rat) / (2 : Rat) ^ k) = (m : Rat) / ((2 ^ k : Int) : Rat) := by push_cast; rfl
    have h2 : (((m : Rat) / ((2 ^ k : Int) : Rat)).den : Int) ∣ 2 ^ k := by rw [← Rat.divInt_eq_div]; exact Rat.den_dvd m (2 ^ k)
    rw [h1]
    have h3 : ((m : Rat) / ((2 ^ k : Int) : Rat)).den ∣ 2 ^ k := by exact_mod_cast h2
    obtain ⟨j, _, hj⟩ := (Nat.dvd_prime_pow Nat.prime_two).1 h3
    exact ⟨j, hj⟩

theorem dec_exp_near {q : Rat} {d : Dec} {n : Nat} (hn : 1 ≤ n) (hq : Binary q) (h0 : q ≠ 0) (hd : d.n ≠ 0) (h : abs (d.val - (decOf q).val) ≤ (10 : Rat) ^ ((decOf q).exp - n) / 2) :
    (decOf q).exp - 1 ≤ d.exp ∧ d.exp ≤ (decOf q).exp + 1 := by
  have h1 := exp_magnitude hq h0
  have h2 := dec_magnitude hd
  rw [decOf_val hq] at h
  have h3 : (10 : Rat) ^ ((decOf q).exp - n) ≤ (10 : Rat) ^ ((decOf q).exp - 1) := zpow_le_zpow_right₀ (by norm_num) (by omega)
  have hv : |d.val| = d.val := abs_of_nonneg (by unfold Dec.val; exact mul_nonneg (by positivity) (zpow_nonneg (by norm_num) _))
  unfold Magnitude at h1 h2
  rw [hv] at h2
  rw [abs_le] at h
  have e1 : (10 : Rat) ^ ((decOf q).exp - 1 + 1) = 10 * (10 : Rat) ^ ((decOf q).exp - 1) := by rw [zpow_add₀ (by norm_num), zpow_one]; ring
  have e2 : (10 : Rat) ^ (d.exp - 1 + 1) = 10 * (10 : Rat) ^ (d.exp - 1) := by rw [zpow_add₀ (by norm_num), zpow_one]; ring
  have hp : (0 : Rat) < (10 : Rat) ^ ((decOf q).exp - 1) := zpow_pos (by norm_num) _
  constructor
  · have : (10 : Rat) ^ ((decOf q).exp - 2) < (10 : Rat) ^ d.exp := by
      have e3 : (10 : Rat) ^ ((decOf q).exp - 1) = 10 * (10 : Rat) ^ ((decOf q).exp - 2) := by
        rw [show (decOf q).exp - 1 = (decOf q).exp - 2 + 1 by ring, zpow_add₀ (by norm_num), zpow_one]; ring
      rw [show d.exp = d.exp - 1 + 1 by ring]
      linarith [h2.2]
    rw [zpow_lt_zpow_iff_right₀ (by norm_num)] at this
    omega
  · have : (10 : Rat) ^ (d.exp - 1) < (10 : Rat) ^ ((decOf q).exp + 1) := by
      rw [show (decOf q).exp + 1 = (decOf q).exp - 1 + 1 + 1 by ring, zpow_add₀ (by norm_num) ((decOf q).exp - 1 + 1), zpow_one]
      linarith [h2.1, h1.2]
    rw [zpow_lt_zpow_iff_right₀ (by norm_num)] at this
    omega

/-- The exponent of what `%g` writes is about that of the number. -/
theorem general_bound {n : Nat} {q : Rat} (hn : 1 ≤ n) (hq : Binary q) (h0 : q ≠ 0) :
    ∃ k d ex E v, Decimal (text 'g' n q) k d ex E v ∧ Rounded 'g' n q v ∧ (E - d).natAbs ≤ ((decOf q).exp - 1).natAbs + n + 3 := by
  have hl : less 'g' 2 = 'e' ∨ less 'g' 2 = 'E' := by decide
  obtain ⟨d, hd⟩ : ∃ d, (decOf q).round (n : Int) = d := ⟨_, rfl⟩
  have ht : text 'g' n q = if d.exp - 1 < -4 ∨ ((if d.mant.length < n ∧ d.exp ≤ d.mant.length then d.mant.length else n : Nat) : Int) ≤ d.exp - 1 then
      (if q < 0 then ['-'] else []) ++ fmtE (less 'g' 2) ((if d.mant.length < n then d.mant.length else n) - 1) d
    else (if q < 0 then ['-'] else []) ++ fmtF (((if d.exp < n then d.mant.length else n : Nat) : Int) - d.exp).toNat d := by
    unfold text
    rw [if_neg (by decide), if_neg (by decide), if_pos (by decide)]
    simp only [if_neg (show ¬ n = 0 by omega), hd]
  obtain ⟨r1, r2, _⟩ := round_ok (n := n) (decOf_ne h0)
  rw [hd] at r1 r2
  obtain ⟨r2, r3⟩ := r2 hn
  have hnear := dec_exp_near hn hq h0 r3 r1
  have hR : Rounded 'g' n q (withSign (decide (q < 0)) d.val) := rounded_of hq h0 n (by
    intro E hE
    unfold unit
    rw [if_neg (by decide), if_neg (by decide)]
    congr 1; omega) r1
  rw [ht]
  by_cases hc : d.exp - 1 < -4 ∨ ((if d.mant.length < n ∧ d.exp ≤ d.mant.length then d.mant.length else n : Nat) : Int) ≤ d.exp - 1
  · rw [if_pos hc]
    obtain ⟨ex, E, hk, hE⟩ := fmtE_ok hl (prec := (if d.mant.length < n then d.mant.length else n) - 1) (d := d) (by split <;> omega) (q < 0)
    refine ⟨1, _, _, E, _, hk, hR, ?_⟩
    rw [hE r3]
    split <;> omega
  · rw [if_neg hc]
    rw [not_or] at hc
    obtain ⟨k, hk⟩ := fmtF_ok (prec := (((if d.exp < n then d.mant.length else n : Nat) : Int) - d.exp).toNat) (d := d) (by
      left
      by_cases he : d.exp < n
      · rw [if_pos he]; omega
      · rw [if_neg he]
        have := hc.2
        split at this <;> omega) (q < 0)
    refine ⟨k, _, _, 0, _, hk, hR, ?_⟩
    have := hc.1
    split <;> omega

theorem two_ten : (2 : Nat) ^ 12539179 ≤ 10 ^ 3774669 := by decide +kernel

/-- As many decimal digits are written as there are bits, at least. -/
theorem saveDigits_ok (p : Nat) : 2 ^ p ≤ 10 ^ (saveDigits p + 1) := by
  have hc : rnd 53 (301029995664 / 1000000000000) ≥ 3010299956639999 / 10000000000000000 := by decide +kernel
  have hc0 : 0 ≤ rnd 53 (301029995664 / 1000000000000) := by linarith
  obtain ⟨x, hx⟩ : ∃ x, rnd 53 ((p : Rat) * rnd 53 (301029995664 / 1000000000000)) = x := ⟨_, rfl⟩
  have h1 : (p : Rat) * (3774669 / 12539179) ≤ x := by
    have := Flt.rnd_err 53 ((p : Rat) * rnd 53 (301029995664 / 1000000000000))
    rw [hx, abs_of_nonneg (a := (p : Rat) * rnd 53 (301029995664 / 1000000000000)) (mul_nonneg (by positivity) hc0), abs_le] at this
    have h2 : (2 : Rat) ^ (-((53 : Nat) : Int)) ≤ 1 / 1000000000000000 := by norm_num
    have hp : (0 : Rat) ≤ p := by positivity
    have h3 := mul_le_mul_of_nonneg_left hc hp
    have h4 : (p : Rat) * rnd 53 (301029995664 / 1000000000000) * (2 : Rat) ^ (-((53 : Nat) : Int)) ≤ (p : Rat) * rnd 53 (301029995664 / 1000000000000) * (1 / 1000000000000000) :=
      mul_le_mul_of_nonneg_left h2 (mul_nonneg hp (by linarith))
    have h5 : (p : Rat) * (3774669 / 12539179) ≤ (p : Rat) * (3010299956639999 / 10000000000000000) * (1 - 1 / 1000000000000000) := by
      rw [mul_assoc]; exact mul_le_mul_of_nonneg_left (by norm_num) hp
    nlinarith [this.1]
  have h2 : (p : Rat) * (3774669 / 12539179) < ((saveDigits p + 1 : Nat) : Rat) := by
    have hs : saveDigits p = x.floor.toNat := by unfold saveDigits; rw [hx]
    have hf : x < ((x.floor + 1 : Int) : Rat) := by exact_mod_cast Rat.lt_floor_add_one x
    have : ((x.floor + 1 : Int) : Rat) ≤ ((saveDigits p + 1 : Nat) : Rat) := by
      rw [hs]
      have : x.floor + 1 ≤ ((x.floor.toNat + 1 : Nat) : Int) := by push_cast; omega
      exact_mod_cast this
    linarith
  have h3 : p * 3774669 ≤ 12539179 * (saveDigits p + 1) := by
    have : (p : Rat) * 3774669 ≤ 12539179 * ((saveDigits p + 1 : Nat) : Rat) := by linarith
    exact_mod_cast this
  have h4 : (2 ^ p) ^ 12539179 ≤ (10 ^ (saveDigits p + 1)) ^ 12539179 := by
    calc (2 ^ p) ^ 12539179 = (2 ^ 12539179) ^ p := by rw [← pow_mul, ← pow_mul, mul_comm]
      _ ≤ (10 ^ 3774669) ^ p := Nat.pow_le_pow_left two_ten p
      _ = 10 ^ (p * 3774669) := by rw [← pow_mul, mul_comm]
      _ ≤ 10 ^ (12539179 * (saveDigits p + 1)) := Nat.pow_le_pow_right (by decide) h3
      _ = (10 ^ (saveDigits p + 1)) ^ 12539179 := by rw [← pow_mul, mul_comm]
  exact (Nat.pow_le_pow_iff_left (by decide)).1 h4

/-- **C87, partial.** What is read for a saved float differs from it by at most `5 * 2 ^ -p` of it, and by at most half a unit in the last decimal place. It is an exact number, not a float. If no other float of the
precision is as near as that unit, the float is nearest to what is read. -/
theorem C87_partial {p : Nat} {q : Rat} (hq : IsFloat p q) (h0 : q ≠ 0) {E : Int} (hE : Magnitude q E) (hlim : E.natAbs + saveDigits p + 4 ≤ 1000000) :
    ∃ v, ReadsAs 10 (saveFloat p q) v ∧ |v - q| ≤ 5 * |q| / 2 ^ p ∧ |v - q| ≤ (10 : Rat) ^ (E - saveDigits p) / 2 ∧
      ((∀ f, IsFloat p f → f ≠ q → (10 : Rat) ^ (E - saveDigits p) < |f - q|) → Nearest p v q) := by
  have hb := float_binary hq
  obtain ⟨k, d, ex, x, v, h1, h2, h3⟩ := general_bound (n := saveDigits p + 1) (by omega) hb h0
  have hE' := magnitude_unique hE (exp_magnitude hb h0)
  have hv : |v - q| ≤ (10 : Rat) ^ (E - saveDigits p) / 2 := by
    have := h2.2 E hE
    unfold unit at this
    rw [if_neg (by decide), if_neg (by decide), show E + 1 - ((max (saveDigits p + 1) 1 : Nat) : Int) = E - saveDigits p by omega] at this
    exact this
  refine ⟨v, C85_read h1 (by rw [← hE'] at h3; omega) (Or.inl rfl), ?_, hv, ?_⟩
  · refine le_trans hv ?_
    have h4 : ((2 ^ p : Nat) : Rat) ≤ ((10 ^ (saveDigits p + 1) : Nat) : Rat) := by exact_mod_cast saveDigits_ok p
    push_cast at h4
    have hp : (0 : Rat) < 2 ^ p := by positivity
    have hP : (0 : Rat) < (10 : Rat) ^ (saveDigits p) := by positivity
    rw [zpow_sub₀ (by norm_num), zpow_natCast, div_div, div_le_div_iff₀ (by positivity) hp]
    have h5 := mul_le_mul hE.1 h4 (le_of_lt hp) (abs_nonneg q)
    rw [pow_succ] at h5
    linarith
  · intro hf
    refine ⟨hq, fun f hff => ?_⟩
    by_cases he : f = q
    · rw [he]
    · have h6 := hf f hff he
      have h7 : |f - q| ≤ |v - f| + |v - q| := by
        have := abs_sub_le f v q
        rw [abs_sub_comm f v] at this
        exact this
      linarith

example : IsFloat 53 (-3 / 8) ∧ saveFloat 53 (-3 / 8) = "-0.375".toList ∧ saveFloat 24 (11184811 / 33554432) = "0.33333334".toList ∧ Magnitude (-3 / 8) (-1) ∧ (-1 : Int).natAbs + saveDigits 53 + 4 ≤ 1000000 :=
  ⟨⟨-3, -3, by norm_num, by norm_num⟩, by decide +kernel, by decide +kernel, ⟨by norm_num [abs_of_neg], by norm_num [abs_of_neg]⟩, by decide +kernel⟩

/-- **C87 is violated** (finding): with the default precision of 256 bits, `1000 + 4 * 2 ^ -246` is saved as a text whose number is nearer to the next float. -/
theorem C87_violated : ¬ C87_full := by
  intro h
  obtain ⟨v, ⟨x, hx, _, hv⟩, _, h2⟩ := h 256 (1000 + 4 / 2 ^ 246) (by decide) (by decide) ⟨1000 * 2 ^ 246 + 4, -246, by norm_num, by norm_num⟩ (by positivity) (by
    intro E hE
    have : E = 3 := magnitude_unique hE ⟨by rw [abs_of_pos (by positivity)]; norm_num, by rw [abs_of_pos (by positivity)]; norm_num⟩
    omega)
  have hp : parse 10 (saveFloat 256 (1000 + 4 / 2 ^ 246)) = some (.num (.bigRat (100000000000000000000000000000000000000000000000000000000000000000000000000004 / 10 ^ 74))) := by decide +kernel
  rw [hp] at hx
  cases hx
  have hv : (100000000000000000000000000000000000000000000000000000000000000000000000000004 / 10 ^ 74 : Rat) = v := hv
  have := h2 (1000 + 5 / 2 ^ 246) ⟨1000 * 2 ^ 246 + 5, -246, by norm_num, by norm_num⟩
  rw [← hv] at this
  norm_num [abs_of_pos, abs_of_neg] at this

/-- **C87 is violated** (finding): the two floats are even saved as the same text. -/
theorem C87_violated_same : saveFloat 256 (1000 + 4 / 2 ^ 246) = saveFloat 256 (1000 + 5 / 2 ^ 246) := by decide +kernel

end Verif.Shown
