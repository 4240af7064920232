import Verif.Shown.Lemmas2
/-
Helper lemmas: cutting off zeros, and the formats put together.
-/
namespace Verif.Shown
open Verif.Lit Verif.Arr

theorem numeral_unique {s : List Char} {n m : Nat} (h : Numeral 10 s n) (h' : Numeral 10 s m) : n = m := by
  obtain ⟨_, ds, hd, rfl⟩ := h
  obtain ⟨_, es, he, rfl⟩ := h'
  have : ds = es := by
    clear * - hd he
    induction hd generalizing es with
    | nil => cases he; rfl
    | cons h _ ih =>
      cases he with
      | cons h' hr =>
        have := (digitVal_digit h.1).symm.trans (digitVal_digit h'.1)
        rw [Option.some.inj this, ih _ hr]
  rw [this]

/-- The digits without the zeros at the end. -/
theorem no_zeros : ∀ f : List Char, ∃ f' k, f = f' ++ zeros k ∧ f'.getLast? ≠ some '0' := by
  intro f
  induction f using List.reverseRecOn with
  | nil => exact ⟨[], 0, rfl, by simp⟩
  | append_singleton l c ih =>
    by_cases hc : c = '0'
    · obtain ⟨f', k, h1, h2⟩ := ih
      refine ⟨f', k + 1, ?_, h2⟩
      rw [h1, hc, List.append_assoc]
      congr 1
      simp [zeros, List.replicate_succ']
    · exact ⟨l ++ [c], 0, by simp [zeros], by simp [hc]⟩

theorem reverse_zeros (k : Nat) : (zeros k).reverse = zeros k := by simp [zeros]

theorem dropWhile_zeros (k : Nat) (l : List Char) : (zeros k ++ l).dropWhile (· == '0') = l.dropWhile (· == '0') := by
  induction k with
  | zero => rfl
  | succ k ih => simp only [zeros, List.replicate_succ, List.cons_append] at ih ⊢; rw [List.dropWhile_cons]; simpa using ih

theorem dropWhile_last {s : List Char} (h : s.getLast? ≠ some '0') : s.reverse.dropWhile (· == '0') = s.reverse := by
  rw [← List.head?_reverse] at h
  cases hs : s.reverse with
  | nil => rfl
  | cons c r => rw [hs] at h; rw [List.dropWhile_cons, if_neg]; simpa using h

/-- Digits have no points, signs or letters among them. -/
theorem digit_ne {s : List Char} {n : Nat} (h : Numeral 10 s n) : '.' ∉ s ∧ 'e' ∉ s ∧ 'E' ∉ s ∧ '-' ∉ s := by
  obtain ⟨_, ds, hd, _⟩ := h
  have key : ∀ c ∈ s, 48 ≤ c.toNat ∧ c.toNat < 58 := by
    intro c hc
    obtain ⟨d, h1, h2⟩ := Digs.mem hd c hc
    rcases h1 with ⟨_, h⟩ | ⟨h, _⟩
    · have : '0'.toNat = 48 := rfl
      omega
    · omega
  refine ⟨fun h => ?_, fun h => ?_, fun h => ?_, fun h => ?_⟩ <;> have := key _ h <;> revert this <;> decide

/-- The value of the digits that are left. -/
theorem numeral_trim {i f' : List Char} {k n : Nat} (hi : i ≠ []) (h : Numeral 10 (i ++ (f' ++ zeros k)) n) : ∃ n', Numeral 10 (i ++ f') n' ∧ n = n' * 10 ^ k := by
  rw [← List.append_assoc] at h
  have h' := numeral_take (a := i ++ f') (by simp [hi]) h
  exact ⟨_, h', numeral_unique h (numeral_zeros h' k)⟩

/-- What is left when zeros are cut off the part in front of the exponent. -/
theorem trim_head {sg i f : List Char} {n : Nat} (hi : i ≠ []) (hi0 : i.getLast? ≠ some '0' ∨ f ≠ []) (h : Numeral 10 (i ++ f) n) :
    ∃ f' k, f = f' ++ zeros k ∧
      (match (sg ++ i ++ (if f = [] then [] else '.' :: f)).reverse.dropWhile (· == '0') with
        | [] => R.crash
        | c :: r => if c = '.' then .ok r.reverse else .ok (c :: r).reverse) = .ok (sg ++ i ++ (if f' = [] then [] else '.' :: f')) := by
  have hdot := (digit_ne h).1
  rw [List.mem_append, not_or] at hdot
  by_cases hf : f = []
  · subst hf
    refine ⟨[], 0, rfl, ?_⟩
    have hl : i.getLast? ≠ some '0' := by simpa using hi0
    simp only [if_true, List.append_nil]
    have h2 : (sg ++ i).getLast? ≠ some '0' := by rw [List.getLast?_append_of_ne_nil _ hi]; exact hl
    rw [dropWhile_last h2]
    have : ∃ c r, (sg ++ i).reverse = c :: r := by
      cases hr : (sg ++ i).reverse with
      | nil => simp [hi] at hr
      | cons c r => exact ⟨c, r, rfl⟩
    obtain ⟨c, r, hr⟩ := this
    simp only [hr]
    have hc : c ≠ '.' := by
      rintro rfl
      have h3 := congrArg List.head? hr
      rw [List.head?_reverse, List.getLast?_append_of_ne_nil _ hi] at h3
      exact hdot.1 (List.mem_of_getLast? h3)
    rw [if_neg hc, ← hr, List.reverse_reverse]
  · obtain ⟨f', k, h1, h2⟩ := no_zeros f
    refine ⟨f', k, h1, ?_⟩
    rw [if_neg hf]
    have e : (sg ++ i ++ '.' :: f).reverse = zeros k ++ ((sg ++ i ++ '.' :: f').reverse) := by
      rw [h1]; simp [reverse_zeros]
    rw [e, dropWhile_zeros]
    by_cases hf' : f' = []
    · subst hf'
      rw [dropWhile_last (by simp)]
      simp
    · have h3 : (sg ++ i ++ '.' :: f').getLast? ≠ some '0' := by
        rw [List.getLast?_append_of_ne_nil _ (by simp)]
        rw [List.getLast?_cons_of_ne_nil hf']
        exact h2
      rw [dropWhile_last h3, if_neg hf']
      have : ∃ c r, (sg ++ i ++ '.' :: f').reverse = c :: r := by
        cases hr : (sg ++ i ++ '.' :: f').reverse with
        | nil => simp at hr
        | cons c r => exact ⟨c, r, rfl⟩
      obtain ⟨c, r, hr⟩ := this
      simp only [hr]
      have hc : c ≠ '.' := by
        rintro rfl
        have h4 := congrArg List.head? hr
        rw [List.head?_reverse, List.getLast?_append_of_ne_nil _ (by simp), List.getLast?_cons_of_ne_nil hf'] at h4
        exact hdot.2 (by rw [h1]; exact List.mem_append_left _ (List.mem_of_getLast? h4))
      rw [if_neg hc, ← hr, List.reverse_reverse]

theorem takeWhile_before {a b : List Char} {e : Char} (h : e ∉ a) : (a ++ e :: b).takeWhile (· != e) = a ∧ (a ++ e :: b).dropWhile (· != e) = e :: b := by
  induction a with
  | nil => simp
  | cons c a ih =>
    rw [List.mem_cons, not_or] at h
    obtain ⟨h1, h2⟩ := ih h.2
    have : (c != e) = true := by simpa using fun h' => h.1 h'.symm
    simp only [List.cons_append, List.takeWhile_cons, List.dropWhile_cons, this, if_true]
    exact ⟨by rw [h1], h2⟩

theorem trimEZeros_ok {verb : Char} (hv : verb = 'e' ∨ verb = 'E') {sg i f rest : List Char} {n : Nat} (hsg : sg = [] ∨ sg = ['-']) (hi : i ≠ []) (hi0 : i.getLast? ≠ some '0' ∨ f ≠ [])
    (h : Numeral 10 (i ++ f) n) : ∃ f' k, f = f' ++ zeros k ∧
      trimEZeros verb (sg ++ i ++ (if f = [] then [] else '.' :: f) ++ verb :: rest) = .ok (sg ++ i ++ (if f' = [] then [] else '.' :: f') ++ verb :: rest) := by
  obtain ⟨f', k, h1, h2⟩ := trim_head (sg := sg) hi hi0 h
  refine ⟨f', k, h1, ?_⟩
  have hd := digit_ne h
  have hv' : verb ∉ sg ++ i ++ (if f = [] then [] else '.' :: f) := by
    have e1 : verb ∉ i ++ f := by rcases hv with rfl | rfl; exacts [hd.2.1, hd.2.2.1]
    rw [List.mem_append, not_or] at e1
    have e2 : verb ∉ sg := by rcases hsg with rfl | rfl <;> rcases hv with rfl | rfl <;> decide
    have e3 : verb ≠ '.' := by rcases hv with rfl | rfl <;> decide
    simp only [List.mem_append, not_or]
    refine ⟨⟨e2, e1.1⟩, ?_⟩
    split
    · simp
    · simp [e3, e1.2]
  obtain ⟨t1, t2⟩ := takeWhile_before (b := rest) hv'
  unfold trimEZeros
  rw [if_pos (by simp)]
  simp only [t1, t2]
  revert h2
  generalize List.dropWhile (fun x => x == '0') (sg ++ i ++ if f = [] then [] else '.' :: f).reverse = l
  intro h2
  cases l with
  | nil => cases h2
  | cons c r =>
    dsimp only at h2 ⊢
    by_cases hc : c = '.'
    · rw [if_pos hc] at h2 ⊢
      rw [R.ok.inj h2]
    · rw [if_neg hc] at h2 ⊢
      rw [R.ok.inj h2]

theorem trimDecimals_ok {sg i f : List Char} {n : Nat} (hsg : sg = [] ∨ sg = ['-']) (hi : i ≠ []) (h : Numeral 10 (i ++ f) n) :
    ∃ f' k, f = f' ++ zeros k ∧ trimDecimals (sg ++ i ++ (if f = [] then [] else '.' :: f)) = sg ++ i ++ (if f' = [] then [] else '.' :: f') := by
  have hd := (digit_ne h).1
  rw [List.mem_append, not_or] at hd
  by_cases hf : f = []
  · subst hf
    refine ⟨[], 0, rfl, ?_⟩
    unfold trimDecimals
    rw [if_neg]
    rintro ⟨h1, _⟩
    simp only [if_true, List.append_nil, List.mem_append] at h1
    rcases h1 with h1 | h1
    · rcases hsg with rfl | rfl <;> simp at h1
    · exact hd.1 h1
  · obtain ⟨f', k, h1, h2⟩ := trim_head (sg := sg) hi (Or.inr hf) h
    refine ⟨f', k, h1, ?_⟩
    unfold trimDecimals
    rw [if_pos]
    · revert h2
      generalize List.dropWhile (fun x => x == '0') (sg ++ i ++ if f = [] then [] else '.' :: f).reverse = l
      intro h2
      cases l with
      | nil => cases h2
      | cons c r =>
        dsimp only at h2 ⊢
        by_cases hc : c = '.'
        · rw [if_pos hc] at h2 ⊢
          rw [R.ok.inj h2]
        · rw [if_neg hc] at h2 ⊢
          rw [R.ok.inj h2]
    · rw [if_neg hf]
      refine ⟨by simp, ?_⟩
      rcases hsg with rfl | rfl
      · cases i with
        | nil => exact absurd rfl hi
        | cons c i => simp only [List.nil_append, List.cons_append, List.head?_cons, ne_eq, Option.some.injEq]; rintro rfl; exact hd.1 (by simp)
      · simp

end Verif.Shown
