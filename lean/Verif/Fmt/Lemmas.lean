import Verif.Fmt.Spec
import Verif.Arr.EvalLemmas4

namespace Verif.Fmt
open Verif.Num (Num)
open Verif.Arr (vol R vAt bind_ok bind_err bind_eq_ok)
open Verif.Order (Val)

theorem split_percent {a s : Str} (ha : ∀ c ∈ a, c ≠ '%') : (a ++ '%' :: s).dropWhile (· ≠ '%') = '%' :: s ∧ (a ++ '%' :: s).takeWhile (· ≠ '%') = a := by
  induction a with
  | nil => simp
  | cons c a ih =>
    have h1 : c ≠ '%' := ha c (by simp)
    obtain ⟨h2, h3⟩ := ih (fun d hd => ha d (by simp [hd]))
    constructor
    · rw [List.cons_append, List.dropWhile_cons_of_pos (by simpa using h1), h2]
    · rw [List.cons_append, List.takeWhile_cons_of_pos (by simpa using h1), h3]

theorem digit_flag {c : Char} (h : Digit c) : isFlag c = true := by
  unfold Digit at h
  simp only [List.mem_cons, List.not_mem_nil, or_false] at h
  rcases h with rfl | rfl | rfl | rfl | rfl | rfl | rfl | rfl | rfl | rfl <;> decide

theorem opts_flags {o : Str} (h : Opts o) : ∀ c ∈ o, isFlag c = true := by
  obtain ⟨f, w, p, rfl, h1, h2, h3⟩ := h
  intro c hc
  rw [List.mem_append, List.mem_append] at hc
  rcases hc with (hc | hc) | hc
  · have := h1 c hc
    simp only [List.mem_cons, List.not_mem_nil, or_false] at this
    rcases this with rfl | rfl | rfl | rfl | rfl <;> decide
  · exact digit_flag (h2 c hc)
  · rcases h3 with rfl | ⟨q, rfl, h3⟩
    · simp at hc
    · rcases List.mem_cons.mp hc with rfl | hc
      · decide
      · exact digit_flag (h3 c hc)

theorem verb_is {v : Char} (h : Verb v) : isVerb v = true ∧ isFlag v = false ∧ v ≠ '%' := by
  unfold Verb at h
  have : ∀ v ∈ "bcdeEfFgGoOqstTUvxX".toList, isVerb v = true ∧ isFlag v = false ∧ v ≠ '%' := by decide
  exact this v h

theorem scan_flags : ∀ {o : Str} (i : Nat) (r : Str), (∀ c ∈ o, isFlag c = true) → scan i (o ++ r) = scan (i + o.length) r
  | [], i, r, _ => rfl
  | c :: o, i, r, h => by
    rw [List.cons_append, scan, if_pos (h c (by simp)), scan_flags (i + 1) r (fun d hd => h d (by simp [hd]))]
    congr 1; simp; omega

theorem verbIndex_here {a o r : Str} {v : Char} (ha : ∀ c ∈ a, c ≠ '%') (ho : ∀ c ∈ o, isFlag c = true) (hv : Verb v) :
    verbIndex (a ++ '%' :: (o ++ v :: r)) = .ok (a.length + 1 + o.length) := by
  obtain ⟨h1, h2⟩ := split_percent (s := o ++ v :: r) ha
  obtain ⟨v1, v2, v3⟩ := verb_is hv
  have hs : scan 0 (o ++ v :: r) = .verb o.length := by
    rw [scan_flags 0 _ ho, Nat.zero_add, scan, if_neg (by rw [v2]; simp), if_neg v3, if_pos v1]
  rw [verbIndex]
  split
  · next h => rw [h1] at h; cases h
  · next c s h =>
    rw [h1] at h
    cases h
    split
    · next h => rw [hs] at h; cases h
    · next i h => rw [hs] at h; cases h; rw [h2]
    · next rest h => rw [hs] at h; cases h

theorem verbIndex_skip {a o r : Str} (ha : ∀ c ∈ a, c ≠ '%') (ho : ∀ c ∈ o, isFlag c = true) :
    verbIndex (a ++ '%' :: (o ++ '%' :: r)) = verbIndex r := by
  obtain ⟨h1, h2⟩ := split_percent (s := o ++ '%' :: r) ha
  have hs : scan 0 (o ++ '%' :: r) = .escape r := by
    rw [scan_flags 0 _ ho, Nat.zero_add, scan, if_neg (by decide), if_pos rfl]
  conv => lhs; rw [verbIndex]
  split
  · next h => rw [h1] at h; cases h
  · next c s h =>
    rw [h1] at h
    cases h
    split
    · next h => rw [hs] at h; cases h
    · next i h => rw [hs] at h; cases h
    · next rest h => rw [hs] at h; cases h; rfl

theorem scan_inv : ∀ (s : Str) (i : Nat), (∃ o v r, s = o ++ v :: r ∧ (∀ c ∈ o, isFlag c = true) ∧ isVerb v = true ∧ scan i s = .verb (i + o.length)) ∨
    (∃ o r, s = o ++ '%' :: r ∧ (∀ c ∈ o, isFlag c = true) ∧ scan i s = .escape r) ∨ scan i s = .bad
  | [], i => .inr (.inr rfl)
  | c :: s, i => by
    by_cases h1 : isFlag c = true
    · have e : scan i (c :: s) = scan (i + 1) s := by rw [scan, if_pos h1]
      rw [e]
      rcases scan_inv s (i + 1) with ⟨o, v, r, rfl, h2, h3, h4⟩ | ⟨o, r, rfl, h2, h3⟩ | h
      · exact .inl ⟨c :: o, v, r, rfl, by intro d hd; rcases List.mem_cons.mp hd with rfl | hd; exacts [h1, h2 d hd], h3, by rw [h4]; simp; omega⟩
      · exact .inr (.inl ⟨c :: o, r, rfl, by intro d hd; rcases List.mem_cons.mp hd with rfl | hd; exacts [h1, h2 d hd], h3⟩)
      · exact .inr (.inr h)
    · by_cases h2 : c = '%'
      · subst h2
        exact .inr (.inl ⟨[], s, rfl, by simp, by rw [scan, if_neg h1, if_pos rfl]⟩)
      · by_cases h3 : isVerb c = true
        · exact .inl ⟨[], c, s, rfl, by simp, h3, by rw [scan, if_neg h1, if_neg h2, if_pos h3]; rfl⟩
        · exact .inr (.inr (by rw [scan, if_neg h1, if_neg h2, if_neg h3]))

theorem percent_cases (format : Str) : (∀ c ∈ format, c ≠ '%') ∨ ∃ a s, format = a ++ '%' :: s ∧ ∀ c ∈ a, c ≠ '%' := by
  induction format with
  | nil => exact .inl (by simp)
  | cons c f ih =>
    by_cases h : c = '%'
    · exact .inr ⟨[], f, by rw [h]; rfl, by simp⟩
    · rcases ih with ih | ⟨a, s, rfl, ih⟩
      · exact .inl (by intro d hd; rcases List.mem_cons.mp hd with rfl | hd; exacts [h, ih d hd])
      · exact .inr ⟨c :: a, s, rfl, by intro d hd; rcases List.mem_cons.mp hd with rfl | hd; exacts [h, ih d hd]⟩

theorem dropWhile_none : ∀ {f : Str}, (∀ c ∈ f, c ≠ '%') → f.dropWhile (· ≠ '%') = []
  | [], _ => rfl
  | c :: f, h => by
    rw [List.dropWhile_cons_of_pos (by simpa using h c (by simp))]
    exact dropWhile_none (fun d hd => h d (by simp [hd]))

theorem isVerb_verb {v : Char} (h : isVerb v = true) : Verb v := by
  unfold isVerb at h
  unfold Verb
  simpa using h

/-- `verbIndex` by cases on the format. -/
theorem verbIndex_cases (format : Str) :
    (∃ a o v r, format = a ++ '%' :: (o ++ v :: r) ∧ (∀ c ∈ a, c ≠ '%') ∧ (∀ c ∈ o, isFlag c = true) ∧ Verb v ∧ verbIndex format = .ok (a.length + 1 + o.length)) ∨
    (∃ a o r, format = a ++ '%' :: (o ++ '%' :: r) ∧ (∀ c ∈ a, c ≠ '%') ∧ (∀ c ∈ o, isFlag c = true) ∧ verbIndex format = verbIndex r) ∨
    (∃ e, verbIndex format = .err e) ∧ ((∀ c ∈ format, c ≠ '%') ∨ ∃ a s, format = a ++ '%' :: s ∧ (∀ c ∈ a, c ≠ '%') ∧ scan 0 s = .bad) := by
  rcases percent_cases format with h | ⟨a, s, rfl, ha⟩
  · refine .inr (.inr ⟨⟨"invalid format", ?_⟩, .inl h⟩)
    rw [verbIndex]
    split
    · rfl
    · next c s h1 =>
      have : c ∈ format.dropWhile (· ≠ '%') := by rw [h1]; simp
      have h2 := dropWhile_none h
      rw [h2] at this; simp at this
  · rcases scan_inv s 0 with ⟨o, v, r, rfl, h1, h2, _⟩ | ⟨o, r, rfl, h1, _⟩ | h
    · exact .inl ⟨a, o, v, r, rfl, ha, h1, isVerb_verb h2, verbIndex_here ha h1 (isVerb_verb h2)⟩
    · exact .inr (.inl ⟨a, o, r, rfl, ha, h1, verbIndex_skip ha h1⟩)
    · refine .inr (.inr ⟨⟨"invalid format", ?_⟩, .inr ⟨a, s, rfl, ha, h⟩⟩)
      obtain ⟨h1, h2⟩ := split_percent (s := s) ha
      rw [verbIndex]
      split
      · rfl
      · next c s' h3 =>
        rw [h1] at h3
        cases h3
        split
        · rfl
        · next i h4 => rw [h] at h4; cases h4
        · next rest h4 => rw [h] at h4; cases h4

/-- The index lies in the format. -/
theorem verbIndex_total (format : Str) : (∃ i, verbIndex format = .ok i ∧ i < format.length) ∨ ∃ e, verbIndex format = .err e := by
  induction hn : format.length using Nat.strongRecOn generalizing format with
  | _ n ih =>
    subst hn
    rcases verbIndex_cases format with ⟨a, o, v, r, h1, _, _, _, h2⟩ | ⟨a, o, r, h1, _, _, h2⟩ | ⟨h, _⟩
    · exact .inl ⟨_, h2, by rw [h1]; simp; omega⟩
    · rw [h2]
      have hl : r.length < format.length := by rw [h1]; simp; omega
      rcases ih r.length hl r rfl with ⟨i, h3, h4⟩ | h3
      · exact .inl ⟨i, h3, by omega⟩
      · exact .inr h3
    · exact .inr h

/-! ## Layout of matrices -/

open Verif.Arr (InB ravel unravel ravel_lt inB_length unravel_inB ravel_unravel unravel_zero)

theorem blockEnds_full : ∀ (s : List Nat) (k : Nat), blockEnds s k ≤ s.length ∧ (blockEnds s k = s.length ↔ (k + 1) % vol s = 0)
  | [], k => by simp [blockEnds, vol, Nat.mod_one]
  | d :: s, k => by
    obtain ⟨h1, h2⟩ := blockEnds_full s k
    simp only [blockEnds, vol, List.length_cons]
    by_cases h : (k + 1) % (d * vol s) = 0
    · have h3 : (k + 1) % vol s = 0 := Nat.mod_eq_zero_of_dvd (Nat.dvd_trans (Nat.dvd_mul_left _ _) (Nat.dvd_of_mod_eq_zero h))
      rw [if_pos h, h2.mpr h3]
      exact ⟨by omega, by constructor <;> intro <;> omega⟩
    · rw [if_neg h]
      exact ⟨by omega, by constructor <;> intro <;> omega⟩

theorem blockEnds_mod : ∀ (s : List Nat) (a k : Nat), vol s ∣ a → blockEnds s (a + k) = blockEnds s k
  | [], a, k, _ => rfl
  | d :: s, a, k, h => by
    simp only [blockEnds]
    simp only [vol] at h
    rw [blockEnds_mod s a k (Nat.dvd_trans (Nat.dvd_mul_left _ _) h), Nat.add_assoc]
    obtain ⟨q, rfl⟩ := h
    rw [Nat.mul_add_mod]

theorem bump_eq : ∀ {s c : List Nat}, InB s c → (bump s c).1 = unravel s ((ravel s c + 1) % vol s) ∧ (bump s c).2 = blockEnds s (ravel s c)
  | [], [], _ => by simp [bump, unravel, blockEnds]
  | d :: s, i :: c, h => by
    obtain ⟨ih1, ih2⟩ := bump_eq h.2
    have hk := ravel_lt h.2
    have hi := h.1
    have hp : 0 < vol s := by omega
    have hfull := blockEnds_full s (ravel s c)
    have hbe : blockEnds s (i * vol s + ravel s c) = blockEnds s (ravel s c) := blockEnds_mod s _ _ (Nat.dvd_mul_left _ _)
    unfold bump
    rw [show ravel (d :: s) (i :: c) = i * vol s + ravel s c from rfl]
    simp only [vol, blockEnds, hbe, ih2]
    by_cases h1 : ravel s c + 1 = vol s
    · have hb : blockEnds s (ravel s c) = s.length := hfull.2.mpr (by rw [h1, Nat.mod_self])
      rw [if_pos hb]
      have e1 : i * vol s + ravel s c + 1 = (i + 1) * vol s := by rw [Nat.succ_mul]; omega
      rw [e1, ih1, h1]
      by_cases h2 : i + 1 < d
      · have hlt : (i + 1) * vol s < d * vol s := Nat.mul_lt_mul_of_pos_right h2 hp
        have hpos : 0 < (i + 1) * vol s := Nat.mul_pos (by omega) hp
        rw [if_pos h2, Nat.mod_eq_of_lt hlt, if_neg (by omega)]
        simp only [unravel, Nat.mul_div_cancel _ hp, Nat.mul_mod_left, Nat.mod_self]
        exact ⟨trivial, by omega⟩
      · have hd : i + 1 = d := by omega
        rw [if_neg h2, hd, Nat.mod_self, Nat.mod_self]
        simp only [unravel, Nat.zero_div, Nat.zero_mod, if_true]
        exact ⟨trivial, by omega⟩
    · have hlt : ravel s c + 1 < vol s := by omega
      have e1 : i * vol s + ravel s c + 1 < d * vol s := by
        calc i * vol s + ravel s c + 1 < i * vol s + vol s := by omega
          _ = (i + 1) * vol s := by rw [Nat.succ_mul]
          _ ≤ d * vol s := Nat.mul_le_mul_right _ hi
      have hb : ¬ blockEnds s (ravel s c) = s.length := by
        rw [hfull.2, Nat.mod_eq_of_lt hlt]; omega
      rw [if_neg hb, Nat.mod_eq_of_lt e1, if_neg (by omega)]
      rw [Nat.mod_eq_of_lt hlt] at ih1
      rw [ih1]
      have e2 : (i * vol s + ravel s c + 1) / vol s = i := by
        rw [Nat.add_assoc, Nat.mul_comm, Nat.mul_add_div hp, Nat.div_eq_of_lt hlt]; simp
      have e3 : (i * vol s + ravel s c + 1) % vol s = ravel s c + 1 := by
        rw [Nat.add_assoc, Nat.mul_comm, Nat.mul_add_mod, Nat.mod_eq_of_lt hlt]
      simp only [unravel, e2, e3]
      exact ⟨trivial, by omega⟩

theorem bind_assoc' {σ τ υ : Type} (r : R σ) (f : σ → R τ) (g : τ → R υ) : (r.bind f).bind g = r.bind fun a => (f a).bind g := by
  cases r <;> rfl

theorem formatVec_eq (E : Env) (format : Str) (verb : Char) : ∀ (l : List Val) (b : Bool), formatVec E format verb b l =
    (allOne E format verb l).bind fun r => .ok ((if b ∨ l = [] then [] else [.lit ' ']) ++ joined (fun _ => [.lit ' ']) 0 r)
  | [], b => by simp [formatVec, allOne, joined]
  | v :: vs, b => by
    simp only [formatVec, allOne, formatVec_eq E format verb vs, bind_assoc', bind_ok]
    congr 1; funext o
    cases vs with
    | nil => simp only [allOne, bind_ok]; cases b <;> simp [joined]
    | cons v' vs =>
      simp only [allOne, bind_assoc', bind_ok]
      congr 1; funext o'
      congr 1; funext r
      have : ∀ i, joined (fun _ => [Out.lit ' ']) i (o' :: r) = joined (fun _ => [Out.lit ' ']) 0 (o' :: r) := by
        intro i
        clear * -
        induction r generalizing o' i with
        | nil => rfl
        | cons y r ih => simp only [joined]; rw [ih y (i + 1), ih y (0 + 1)]
      cases b <;> simp [joined, this 1]

theorem formatMat_eq (E : Env) (format : Str) (verb : Char) {shape : List Nat} : ∀ (l : List Val) (k : Nat) (b : Bool), k + l.length = vol shape →
    formatMat E format verb shape (unravel shape k) b l =
    (allOne E format verb l).bind fun r => .ok ((if b ∧ l ≠ [] then [.lit ' '] else []) ++ joined (between shape) k r)
  | [], k, b, _ => by simp [formatMat, allOne, joined]
  | v :: vs, k, b, h => by
    have hk : k < vol shape := by simp at h; omega
    obtain ⟨h1, h2⟩ := bump_eq (unravel_inB hk)
    rw [ravel_unravel hk] at h1 h2
    simp only [formatMat, allOne, bind_assoc', bind_ok]
    congr 1; funext o
    cases vs with
    | nil => cases b <;> simp [formatMat, allOne, joined]
    | cons v' vs =>
      have hk1 : k + 1 < vol shape := by simp at h; omega
      rw [Nat.mod_eq_of_lt hk1] at h1
      simp only [List.isEmpty_cons, Bool.false_eq_true, if_false]
      rw [h1, h2, formatMat_eq E format verb (v' :: vs) (k + 1) _ (by simp at h ⊢; omega)]
      simp only [allOne, bind_assoc', bind_ok]
      congr 1; funext o'
      congr 1; funext r
      simp only [joined, between]
      by_cases h0 : blockEnds shape k = 0
      · cases b <;> simp [h0]
      · cases b <;> simp [h0]

end Verif.Fmt
