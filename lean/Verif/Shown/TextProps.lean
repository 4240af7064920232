import Verif.Shown.TextLemmas
/-
C86: floats are printed rounded to the digits asked for.
-/
namespace Verif.Shown
open Verif.Lit Verif.Arr

/-- **C86, full statement.** With every floating-point format, and with `%.12g` if there is none, every float is printed as a decimal number that is rounded correctly. -/
def C86_full : Prop :=
  (∀ format verb prec q, FloatVerb verb → floatFormat format = some (verb, prec) → Binary q → ∃ k d ex E v, Decimal (sprintFloat format q) k d ex E v ∧ Rounded verb prec q v) ∧
  (∀ format q, floatFormat format = none → Binary q → ∃ k d ex E v, Decimal (sprintFloat format q) k d ex E v ∧ Rounded 'g' 12 q v)

theorem exp_magnitude {q : Rat} (hq : Binary q) (h0 : q ≠ 0) : Magnitude q ((decOf q).exp - 1) := by
  have := dec_magnitude (decOf_ne h0)
  rw [decOf_val hq] at this
  unfold Magnitude at this ⊢
  rwa [abs_abs] at this

theorem rounded_of {verb : Char} {prec : Nat} {q : Rat} {d : Dec} (hq : Binary q) (h0 : q ≠ 0) (n : Int)
    (hu : ∀ E, E = (decOf q).exp - 1 → unit verb prec E = (10 : Rat) ^ ((decOf q).exp - n)) (h : abs (d.val - (decOf q).val) ≤ (10 : Rat) ^ ((decOf q).exp - n) / 2) :
    Rounded verb prec q (withSign (decide (q < 0)) d.val) := by
  refine ⟨fun h => absurd h h0, fun E hE => ?_⟩
  have hE := magnitude_unique hE (exp_magnitude hq h0)
  rw [(withSign_abs q d.val (by unfold Dec.val; exact mul_nonneg (by positivity) (zpow_nonneg (by norm_num) _))).1, hu E hE, ← decOf_val hq]
  exact h

theorem rounded_zero (verb : Char) (prec : Nat) : Rounded verb prec 0 0 := by
  refine ⟨fun _ => rfl, fun E hE => ?_⟩
  have := hE.1
  rw [abs_zero] at this
  exact absurd this (not_le.2 (zpow_pos (by norm_num) _))

theorem round_zero (n : Int) : (decOf 0).round n = ⟨0, 0⟩ := by
  rw [decOf_zero]
  unfold Dec.round
  rw [if_pos]
  by_cases h : n < 0
  · exact Or.inl h
  · right; simp [Dec.mant]; omega

theorem val_zero {neg : Bool} {d : Dec} (h : d = ⟨0, 0⟩) : withSign neg d.val = 0 := by subst h; unfold withSign Dec.val; simp

/-- **C86, `%f`.** Floats have the digits asked for after the point, rounded to nearest. -/
theorem C86_fixed {prec : Nat} {q : Rat} (hq : Binary q) : ∃ k v, Decimal (text 'f' prec q) k prec [] 0 v ∧ Rounded 'f' prec q v := by
  have ht : text 'f' prec q = (if q < 0 then ['-'] else []) ++ fmtF prec ((decOf q).round ((decOf q).exp + prec)) := by
    unfold text; rw [if_neg (by decide), if_pos rfl]
  rw [ht]
  by_cases h0 : q = 0
  · subst h0
    obtain ⟨k, hk⟩ := fmtF_ok (prec := prec) (d := (decOf 0).round ((decOf 0).exp + prec)) (Or.inr (by rw [round_zero])) ((0 : Rat) < 0)
    rw [val_zero (round_zero _)] at hk
    exact ⟨k, 0, hk, rounded_zero ..⟩
  · by_cases hn : (decOf q).exp + prec < 0
    · have hr : (decOf q).round ((decOf q).exp + prec) = decOf q := by unfold Dec.round; rw [if_pos (Or.inl hn)]
      rw [hr]
      refine ⟨1, 0, fmtF_low hn _, fun _ => rfl, fun E hE => ?_⟩
      have hE' := magnitude_unique hE (exp_magnitude hq h0)
      rw [zero_sub, abs_neg]
      unfold unit
      rw [if_pos (Or.inl rfl)]
      have h1 : (10 : Rat) ^ (E + 1) ≤ (10 : Rat) ^ (-(prec : Int) - 1) := zpow_le_zpow_right₀ (by norm_num) (by omega)
      rw [zpow_sub₀ (by norm_num), zpow_one] at h1
      have h2 := hE.2
      have h3 : (0 : Rat) < (10 : Rat) ^ (-(prec : Int)) := zpow_pos (by norm_num) _
      linarith
    · obtain ⟨n, hn⟩ : ∃ n : Nat, (decOf q).exp + prec = n := ⟨((decOf q).exp + prec).toNat, by omega⟩
      rw [hn]
      obtain ⟨r1, _, r3⟩ := round_ok (n := n) (decOf_ne h0)
      obtain ⟨k, hk⟩ := fmtF_ok (prec := prec) (d := (decOf q).round n) (by
        rcases r3 with h | h
        · exact Or.inr h
        · by_cases hz : ((decOf q).round n).n = 0
          · exact Or.inr hz
          · left
            have : ((decOf q).round n).exp = ((decOf q).round n).e + ((decOf q).round n).mant.length := by
              conv_lhs => unfold Dec.exp
              rw [if_neg hz]
            omega) (q < 0)
      refine ⟨k, _, hk, rounded_of hq h0 n ?_ r1⟩
      intro E _
      unfold unit
      rw [if_pos (Or.inl rfl)]
      congr 1; omega

example : Binary (5 / 8) ∧ text 'f' 2 (5 / 8) = "0.62".toList ∧ text 'f' 1 (-1023 / 1024) = "-1.0".toList ∧ text 'f' 2 (1 / 1024) = "0.00".toList := ⟨⟨3, by decide +kernel⟩, by decide +kernel, by decide +kernel, by decide +kernel⟩

/-- **C86, `%e`.** Floats have one digit before the point and those asked for after it, rounded to nearest, and an exponent. -/
theorem C86_exponent {verb : Char} {prec : Nat} {q : Rat} (hv : verb = 'e' ∨ verb = 'E') (hq : Binary q) :
    ∃ ex E v, Decimal (text verb prec q) 1 prec (verb :: ex) E v ∧ Rounded verb prec q v := by
  have ht : text verb prec q = (if q < 0 then ['-'] else []) ++ fmtE verb prec ((decOf q).round ((1 + prec : Nat) : Int)) := by
    unfold text; rw [if_pos hv]; push_cast; rfl
  rw [ht]
  by_cases h0 : q = 0
  · subst h0
    obtain ⟨ex, E, hk, _⟩ := fmtE_ok hv (prec := prec) (d := (decOf 0).round ((1 + prec : Nat) : Int)) (by rw [round_zero]; simp [Dec.mant]) ((0 : Rat) < 0)
    rw [val_zero (round_zero _)] at hk
    exact ⟨ex, E, 0, hk, rounded_zero ..⟩
  · obtain ⟨r1, r2, _⟩ := round_ok (n := 1 + prec) (decOf_ne h0)
    obtain ⟨ex, E, hk, _⟩ := fmtE_ok hv (prec := prec) (d := (decOf q).round ((1 + prec : Nat) : Int)) (by have := (r2 (by omega)).1; omega) (q < 0)
    refine ⟨ex, E, _, hk, rounded_of hq h0 ((1 + prec : Nat) : Int) ?_ r1⟩
    intro E hE
    unfold unit
    rw [if_neg (by rcases hv with rfl | rfl <;> decide), if_pos hv]
    congr 1; push_cast; omega

example : text 'e' 2 (-19 / 2) = "-9.50e+00".toList ∧ text 'E' 1 (9999 / 1024) = "9.8E+00".toList ∧ text 'e' 0 (1023 / 1024) = "1e+00".toList := by decide +kernel

/-- **C86, `%g`.** Floats have as many digits as are asked for, at least one, rounded to nearest, without an exponent or with one digit before the point. -/
theorem C86_general {verb : Char} {prec : Nat} {q : Rat} (hv : verb = 'g' ∨ verb = 'G') (hq : Binary q) :
    ∃ k d ex E v, Decimal (text verb prec q) k d ex E v ∧ Rounded verb prec q v ∧ (ex = [] ∨ (k = 1 ∧ d < max prec 1)) := by
  have hl : less verb 2 = 'e' ∨ less verb 2 = 'E' := by rcases hv with rfl | rfl <;> decide
  have hne : ¬ (verb = 'e' ∨ verb = 'E') := by rcases hv with rfl | rfl <;> decide
  have hnf : ¬ (verb = 'f' ∨ verb = 'F') := by rcases hv with rfl | rfl <;> decide
  obtain ⟨n, hn⟩ : ∃ n, (if prec = 0 then 1 else prec) = n := ⟨_, rfl⟩
  have hn1 : n = max prec 1 := by rw [← hn]; split <;> omega
  obtain ⟨d, hd⟩ : ∃ d, (decOf q).round (n : Int) = d := ⟨_, rfl⟩
  have ht : text verb prec q = if d.exp - 1 < -4 ∨ ((if d.mant.length < n ∧ d.exp ≤ d.mant.length then d.mant.length else n : Nat) : Int) ≤ d.exp - 1 then
      (if q < 0 then ['-'] else []) ++ fmtE (less verb 2) ((if d.mant.length < n then d.mant.length else n) - 1) d
    else (if q < 0 then ['-'] else []) ++ fmtF (((if d.exp < n then d.mant.length else n : Nat) : Int) - d.exp).toNat d := by
    unfold text
    rw [if_neg hne, if_neg (fun h => hnf (Or.inl h)), if_pos hv]
    simp only [hn, hd]
  have key : d.mant.length ≤ n ∧ Rounded verb prec q (withSign (decide (q < 0)) d.val) := by
    by_cases h0 : q = 0
    · subst h0
      rw [round_zero] at hd
      subst hd
      rw [val_zero rfl]
      exact ⟨by simp [Dec.mant], rounded_zero ..⟩
    · obtain ⟨r1, r2, _⟩ := round_ok (n := n) (decOf_ne h0)
      rw [hd] at r1 r2
      refine ⟨(r2 (by omega)).1, rounded_of hq h0 n ?_ r1⟩
      intro E hE
      unfold unit
      rw [if_neg hnf, if_neg hne]
      congr 1; omega
  rw [ht]
  by_cases hc : d.exp - 1 < -4 ∨ ((if d.mant.length < n ∧ d.exp ≤ d.mant.length then d.mant.length else n : Nat) : Int) ≤ d.exp - 1
  · rw [if_pos hc]
    obtain ⟨ex, E, hk, _⟩ := fmtE_ok hl (prec := (if d.mant.length < n then d.mant.length else n) - 1) (d := d) (by have := key.1; split <;> omega) (q < 0)
    exact ⟨1, _, _, E, _, hk, key.2, Or.inr ⟨rfl, by split <;> omega⟩⟩
  · rw [if_neg hc]
    obtain ⟨k, hk⟩ := fmtF_ok (prec := (((if d.exp < n then d.mant.length else n : Nat) : Int) - d.exp).toNat) (d := d) (by
      left
      have := key.1
      by_cases he : d.exp < n
      · rw [if_pos he]; omega
      · rw [if_neg he]
        rw [not_or] at hc
        have := hc.2
        split at this <;> omega) (q < 0)
    exact ⟨k, _, _, 0, _, hk, key.2, Or.inl rfl⟩

example : text 'g' 12 (1 / 4294967296) = "2.32830643654e-10".toList ∧ text 'g' 3 (99999 / 65536) = "1.53".toList ∧ text 'G' 2 100000 = "1E+05".toList ∧ text 'g' 12 (-100000) = "-100000".toList := by decide +kernel

/-- **C86, partial.** What is missing: the verb `F`. -/
theorem C86_partial :
    (∀ format verb prec q, FloatVerb verb → verb ≠ 'F' → floatFormat format = some (verb, prec) → Binary q → ∃ k d ex E v, Decimal (sprintFloat format q) k d ex E v ∧ Rounded verb prec q v) ∧
    (∀ format q, floatFormat format = none → Binary q → ∃ k d ex E v, Decimal (sprintFloat format q) k d ex E v ∧ Rounded 'g' 12 q v) := by
  constructor
  · intro format verb prec q hv hF hf hq
    have : sprintFloat format q = text verb prec q := by unfold sprintFloat; rw [hf]
    rw [this]
    rcases hv with rfl | rfl | hv | hv | hv | hv
    · obtain ⟨k, v, h1, h2⟩ := C86_fixed (prec := prec) hq
      exact ⟨k, _, _, _, v, h1, h2⟩
    · exact absurd rfl hF
    · obtain ⟨ex, E, v, h1, h2⟩ := C86_exponent (prec := prec) (Or.inl hv) hq
      exact ⟨_, _, _, E, v, h1, h2⟩
    · obtain ⟨ex, E, v, h1, h2⟩ := C86_exponent (prec := prec) (Or.inr hv) hq
      exact ⟨_, _, _, E, v, h1, h2⟩
    · obtain ⟨k, d, ex, E, v, h1, h2, _⟩ := C86_general (prec := prec) (Or.inl hv) hq
      exact ⟨_, _, _, E, v, h1, h2⟩
    · obtain ⟨k, d, ex, E, v, h1, h2, _⟩ := C86_general (prec := prec) (Or.inr hv) hq
      exact ⟨_, _, _, E, v, h1, h2⟩
  · intro format q hf hq
    have : sprintFloat format q = text 'g' 12 q := by unfold sprintFloat; rw [hf]
    rw [this]
    obtain ⟨k, d, ex, E, v, h1, h2, _⟩ := C86_general (prec := 12) (Or.inl rfl) hq
    exact ⟨_, _, _, E, v, h1, h2⟩

/-- **C86 is violated** (finding): with the format `%.2F` all floats are printed as `%F`. -/
theorem C86_violated : ¬ C86_full := by
  intro h
  obtain ⟨k, d, ex, E, v, hD, _⟩ := h.1 "%.2F".toList 'F' 2 (1 / 2) (by unfold FloatVerb; decide) (by decide +kernel) ⟨1, by decide +kernel⟩
  rw [show sprintFloat "%.2F".toList (1 / 2) = ['%', 'F'] by decide +kernel] at hD
  obtain ⟨sg, i, f, neg, n, h1, _, _, hi, hsg, hn, _⟩ := hD
  obtain ⟨_, ds, hd, _⟩ := hn
  have hc : ∀ c t, i = c :: t → c ≠ '%' ∧ c ≠ 'F' := by
    rintro c t rfl
    cases hd with
    | cons a _ => 
      rcases a.1 with ⟨h1, h2⟩ | ⟨h1, _⟩
      · constructor <;> (rintro rfl; simp at h2; omega)
      · have := a.2; omega
  cases i with
  | nil => exact hi rfl
  | cons c t =>
    rcases hsg with ⟨rfl, _⟩ | ⟨rfl, _⟩ | ⟨rfl, _⟩
    · simp only [List.nil_append, List.cons_append, List.cons.injEq] at h1
      exact (hc c t rfl).1 h1.1.symm
    · simp at h1
    · simp at h1

end Verif.Shown
