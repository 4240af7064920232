import Verif.Scan.Lemmas
/-
Helper lemmas: which types of tokens the functions of the scanner give, with which texts.
-/
namespace Verif.Scan
variable {U : Uni} {C : Ctx}

/-- What `lexOperator` gives. -/
def OpRes (U : Uni) (inp : List Char) (t : Ty) (n : Nat) : Prop := t = .operator ∨ t = .identifier ∧ isIdentifier U (inp.take n) = true

theorem emitOperator_ty {inp : List Char} {pos n : Nat} {t : Ty} (h : emitOperator U inp pos = .tok t n) : OpRes U inp t n := by
  unfold emitOperator at h
  split at h
  · rename_i hi; cases h; exact Or.inr ⟨rfl, hi⟩
  · cases h; exact Or.inl rfl

theorem lexProduct_ty {inp : List Char} {pos n : Nat} {t : Ty} (h : lexProduct U C inp pos = .tok t n) : OpRes U inp t n := by
  unfold lexProduct at h
  dsimp only at h
  repeat' split at h
  all_goals first
    | exact emitOperator_ty h
    | cases h

theorem lexOperator_ty {inp : List Char} {pos n : Nat} {t : Ty} (h : lexOperator U C inp pos = .tok t n) : OpRes U inp t n := by
  unfold lexOperator at h
  dsimp only at h
  split at h
  · split at h
    · exact emitOperator_ty h
    · split at h
      · split at h
        · cases h; exact Or.inl rfl
        · exact lexProduct_ty h
      · exact emitOperator_ty h
  · exact emitOperator_ty h

theorem acceptNumber_ty {inp : List Char} {pos n : Nat} {t : Ty} (h : acceptNumber U C inp pos = .not (.tok t n)) : OpRes U inp t n := by
  unfold acceptNumber at h
  cases hs : accept (fun c => c == '+' || c == '-') inp pos with
  | mk sg q =>
    rw [hs] at h
    dsimp only at h
    split at h
    · simp only [Num.not.injEq, Res.tok.injEq] at h
      exact Or.inl h.1.symm
    · split at h
      · simp only [Num.not.injEq] at h
        exact lexOperator_ty h
      · repeat' split at h
        all_goals cases h

theorem lexComplex_ty {inp : List Char} {pos n : Nat} {t : Ty} (h : lexComplex U C inp pos = .tok t n) : t = .number ∨ OpRes U inp t n := by
  unfold lexComplex at h
  split at h
  · rename_i r hr
    rw [h] at hr
    exact Or.inr (acceptNumber_ty hr)
  · split at h
    · cases h; exact Or.inl rfl
    · split at h
      · cases h
      · cases h; exact Or.inl rfl

theorem isIdentLoop_all : ∀ {s : List Char} {f : Bool}, isIdentLoop U f s = true → ∀ c ∈ s, isAlphaNumeric U c = true := by
  intro s
  induction s with
  | nil => intro f _ c hc; cases hc
  | cons d s ih =>
    intro f h c hc
    unfold isIdentLoop at h
    split at h
    · rename_i hd
      split at h
      · cases h
      · rcases List.mem_cons.1 hc with rfl | hc
        · simp [isAlphaNumeric, hd]
        · exact ih h c hc
    · split at h
      · cases h
      · rename_i hn
        rcases List.mem_cons.1 hc with rfl | hc
        · unfold isAlphaNumeric
          by_cases hu : c = '_'
          · simp [hu]
          · have : U.letter c = true := by
              cases hl : U.letter c with
              | true => rfl
              | false => exact absurd ⟨hu, hl⟩ hn
            simp [this]
        · exact ih h c hc

theorem isIdentifier_all {s : List Char} (h : isIdentifier U s = true) : ∀ c ∈ s, isAlphaNumeric U c = true := by
  unfold isIdentifier at h
  split at h
  · cases h
  · exact isIdentLoop_all h

theorem take_ne_nil {inp : List Char} {n : Nat} (h : inp ≠ []) (hn : 0 < n) : inp.take n ≠ [] := by
  cases inp with
  | nil => exact absurd rfl h
  | cons c s =>
    cases n with
    | zero => omega
    | succ n => simp

theorem OpRes.form {inp : List Char} {t : Ty} {n : Nat} (h : OpRes U inp t n) (hi : inp ≠ []) (hn : 0 < n) : Form U ⟨t, inp.take n⟩ := by
  rcases h with rfl | ⟨rfl, h⟩
  · trivial
  · exact ⟨inp.take n, 0, by simp, take_ne_nil hi hn, isIdentifier_all h⟩

theorem number_form {r : Char} {rest : List Char} {n : Nat} (hd : (r = '+' ∨ r = '-' ∨ isDigit r = true ∨ digitOf C.base r = true ∨ r = '.') ∨ r = 'j')
    (hU : U.Ok) (hb : C.base ≤ 36) : Form U ⟨.number, (r :: rest).take n⟩ := by
  have hdig : ∀ c : Char, isDigit c = true → isAlphaNumeric U c = true := by
    intro c hc
    have : c.toNat < 128 := by
      simp only [isDigit, Bool.and_eq_true, decide_eq_true_eq] at hc
      have : c.toNat ≤ '9'.toNat := hc.2
      have h9 : '9'.toNat = 57 := rfl
      omega
    simp [isAlphaNumeric, hU.digit c this, hc]
  have hlet : ∀ (c : Char) (k : Nat), letterBelow k c = true → k ≤ 26 → isAlphaNumeric U c = true := by
    intro c k hc hk
    simp only [letterBelow, Bool.or_eq_true, Bool.and_eq_true, decide_eq_true_eq] at hc
    have ha : 'a'.toNat = 97 := rfl
    have hA : 'A'.toNat = 65 := rfl
    have hz : 'z'.toNat = 122 := rfl
    have hZ : 'Z'.toNat = 90 := rfl
    have hlt : c.toNat < 128 := by omega
    have : U.letter c = true := by
      rw [hU.letter c hlt]
      simp only [Bool.or_eq_true, decide_eq_true_eq]
      rcases hc with ⟨h1, h2⟩ | ⟨h1, h2⟩
      · exact Or.inl ⟨h1, show c.toNat ≤ 'z'.toNat by omega⟩
      · exact Or.inr ⟨h1, show c.toNat ≤ 'Z'.toNat by omega⟩
    simp [isAlphaNumeric, this]
  intro c hc
  have : c = r := by
    cases n with
    | zero => simp at hc
    | succ n => simpa using hc.symm
  subst this
  rcases hd with (hd | hd | hd | hd | hd) | hd
  · exact Or.inl hd
  · exact Or.inr (Or.inl hd)
  · have := hdig _ hd; tauto
  · unfold digitOf at hd
    simp only [Bool.or_eq_true, Bool.and_eq_true, decide_eq_true_eq, beq_iff_eq] at hd
    rcases hd with (hd | hd) | ⟨_, hd⟩
    · tauto
    · have := hdig _ hd; tauto
    · have := hlet _ _ hd (by split <;> omega)
      tauto
  · tauto
  · tauto

theorem mem_takeWhile_true {d : Char → Bool} {c : Char} : ∀ {s : List Char}, c ∈ s.takeWhile d → d c = true := by
  intro s
  induction s with
  | nil => intro h; cases h
  | cons e s ih =>
    intro h
    rw [List.takeWhile_cons] at h
    split at h
    · rename_i he
      rcases List.mem_cons.1 h with rfl | h
      · exact he
      · exact ih h
    · cases h

theorem takeWhile_at (s : List Char) : s.takeWhile (· == '@') = List.replicate (s.takeWhile (· == '@')).length '@' := by
  induction s with
  | nil => rfl
  | cons c s ih =>
    by_cases h : c = '@'
    · subst h
      simp only [List.takeWhile_cons, beq_self_eq_true, if_true, List.length_cons, List.replicate_succ]
      rw [← ih]
    · have : (c == '@') = false := by simpa using h
      simp [this]

theorem take_acceptRun (d : Char → Bool) (inp : List Char) (pos : Nat) : inp.take (acceptRun d inp pos) = inp.take pos ++ (inp.drop pos).takeWhile d := by
  unfold acceptRun
  rw [List.take_add]
  congr 1
  exact (List.prefix_iff_eq_take.1 (List.takeWhile_prefix d)).symm

theorem lexIdentifier_form {inp : List Char} {r : Char} {t : Ty} {n : Nat} (hc : inp[0]? = some r) (ha : isAlphaNumeric U r = true ∨ r = '@') (hU : U.Ok)
    (hb : C.base ≤ 36) (h : lexIdentifier U C inp = .tok t n) : Form U ⟨t, inp.take n⟩ := by
  have hn := lexIdentifier_pos hc ha h
  have hi : inp ≠ [] := by rintro rfl; cases hc
  unfold lexIdentifier at h
  have t1 := take_acceptRun (· == '@') inp 0
  have t2 := take_acceptRun (isAlphaNumeric U) inp (acceptRun (· == '@') inp 0)
  have t3 := take_acceptRun (· == '@') inp (acceptRun (isAlphaNumeric U) inp (acceptRun (· == '@') inp 0))
  have g2 : acceptRun (isAlphaNumeric U) inp (acceptRun (· == '@') inp 0) - acceptRun (· == '@') inp 0 = ((inp.drop (acceptRun (· == '@') inp 0)).takeWhile (isAlphaNumeric U)).length := by
    rw [acceptRun]; omega
  have w : (inp.drop (acceptRun (· == '@') inp 0)).take (acceptRun (isAlphaNumeric U) inp (acceptRun (· == '@') inp 0) - acceptRun (· == '@') inp 0) = (inp.drop (acceptRun (· == '@') inp 0)).takeWhile (isAlphaNumeric U) := by
    rw [g2]
    exact (List.prefix_iff_eq_take.1 (List.takeWhile_prefix _)).symm
  rw [List.take_zero, List.drop_zero, List.nil_append, takeWhile_at inp] at t1
  rw [takeWhile_at (inp.drop _)] at t3
  have hpos : 0 < acceptRun (isAlphaNumeric U) inp (acceptRun (· == '@') inp 0) := by
    rcases Nat.eq_zero_or_pos (acceptRun (· == '@') inp 0) with h0 | h0
    · have hz := acceptRun_zero h0 r hc
      rw [h0]
      refine acceptRun_pos hc ?_
      rcases ha with ha | ha
      · exact ha
      · rw [ha] at hz; simp at hz
    · have := acceptRun_ge (isAlphaNumeric U) inp (acceptRun (· == '@') inp 0)
      omega
  dsimp only at h
  rw [w] at h
  generalize List.length _ = k3 at t3
  generalize List.length _ = k1 at t1
  generalize acceptRun (· == '@') inp (acceptRun (isAlphaNumeric U) inp (acceptRun (· == '@') inp 0)) = stop at *
  generalize acceptRun (isAlphaNumeric U) inp (acceptRun (· == '@') inp 0) = pos at *
  generalize acceptRun (· == '@') inp 0 = left at *
  have hall : ∀ c ∈ (inp.drop left).takeWhile (isAlphaNumeric U), isAlphaNumeric U c = true := fun c hc => mem_takeWhile_true hc
  generalize (inp.drop left).takeWhile (isAlphaNumeric U) = word at *
  rw [t1] at t2
  rw [t2] at t3
  split at h
  · cases h
  · split at h
    · rename_i hw
      cases h
      exact ⟨k1, k3, by rw [← hw]; exact t3⟩
    · split at h
      · rename_i hw
        cases h
        exact ⟨k1, k3, by rw [← hw]; exact t3⟩
      · split at h
        · exact (lexOperator_ty h).form hi hn
        · split at h
          · exact (lexOperator_ty h).form hi hn
          · split at h
            · cases h
            · rename_i hne
              have hl0 : left = 0 := by omega
              have hk0 : List.replicate k1 '@' = [] := by rw [← t1, hl0]; rfl
              rw [hk0, List.nil_append] at t2 t3
              split at h
              · rename_i hdig
                rcases lexComplex_ty h with rfl | h
                · cases inp with
                  | nil => exact absurd rfl hi
                  | cons d s =>
                    obtain ⟨p, rfl⟩ : ∃ p, pos = p + 1 := ⟨pos - 1, by omega⟩
                    rw [← t2, List.take_succ_cons] at hdig
                    have := isAllDigits_head hdig
                    exact number_form (C := C) (by tauto) hU hb
                · exact h.form hi hn
              · cases h
                have hwne : word ≠ [] := by tauto
                split
                · exact ⟨word, k3, t3, hwne, hall⟩
                · exact ⟨word, 0, by simpa using t2, hwne, hall⟩

theorem lexQuote_form {q : Char} : ∀ (k : Nat) {s : List Char} {m n : Nat} {t : Ty}, s.length ≤ k → lexQuote q s m = .tok t n → t = .string ∧
    ∃ body, Quoted q body ∧ n = m + body.length + 1 ∧ s.take (body.length + 1) = body ++ [q] := by
  intro k
  induction k with
  | zero =>
    intro s m n t hk h
    cases s with
    | nil => simp [lexQuote] at h
    | cons => simp at hk
  | succ k ih =>
    intro s m n t hk h
    match s with
    | [] => simp [lexQuote] at h
    | [c] =>
      simp only [lexQuote] at h
      split at h
      · rename_i hc; cases h; exact ⟨rfl, [], .nil, rfl, by simp [hc]⟩
      · cases h
    | c :: d :: s =>
      simp only [lexQuote] at h
      simp at hk
      split at h
      · rename_i hc
        split at h
        · cases h
        · rename_i hd
          obtain ⟨ht, b, hb, hn, hs⟩ := ih (by omega) h
          exact ⟨ht, '\\' :: d :: b, .escape hd hb, by simp; omega, by simp [hc, hs]⟩
      · rename_i hc1
        split at h
        · cases h
        · rename_i hc2
          split at h
          · rename_i hc3
            cases h; exact ⟨rfl, [], .nil, rfl, by simp [hc3]⟩
          · rename_i hc3
            obtain ⟨ht, b, hb, hn, hs⟩ := ih (by simp; omega) h
            exact ⟨ht, c :: b, .plain hc1 hc2 hc3 hb, by simp; omega, by rw [List.length_cons, List.take_succ_cons, hs]; rfl⟩

theorem lexRawQuote_form : ∀ {s : List Char} {m n : Nat} {t : Ty}, lexRawQuote s m = .tok t n → t = .string ∧
    ∃ body, '`' ∉ body ∧ n = m + body.length + 1 ∧ s.take (body.length + 1) = body ++ ['`'] := by
  intro s
  induction s with
  | nil => intro m n t h; simp [lexRawQuote] at h
  | cons c s ih =>
    intro m n t h
    simp only [lexRawQuote] at h
    split at h
    · rename_i hc; cases h; exact ⟨rfl, [], by simp, rfl, by simp [hc]⟩
    · rename_i hc
      obtain ⟨ht, b, hb, hn, hs⟩ := ih h
      refine ⟨ht, c :: b, ?_, by simp; omega, by rw [List.length_cons, List.take_succ_cons, hs]; rfl⟩
      intro hm
      rcases List.mem_cons.1 hm with h1 | h1
      · exact hc h1.symm
      · exact hb h1

theorem lexComment_form {rest : List Char} {t : Ty} {n : Nat} (h : lexComment ('#' :: rest) = .tok t n) : t = .newline ∧
    ∃ com, ('#' :: rest).take n = '#' :: com ++ ['\n'] ∧ '\n' ∉ com := by
  unfold lexComment at h
  dsimp only at h
  split at h
  · cases h
  · rename_i c hc
    cases h
    refine ⟨rfl, rest.takeWhile (· ≠ '\n'), ?_, ?_⟩
    · have hne : ('#' :: rest).takeWhile (· ≠ '\n') = '#' :: rest.takeWhile (· ≠ '\n') := by
        rw [List.takeWhile_cons, if_pos (by decide)]
      have ht := take_acceptRun (· ≠ '\n') ('#' :: rest) 0
      rw [List.take_zero, List.drop_zero, List.nil_append, hne] at ht
      have hcn : c = '\n' := by
        unfold peek at hc
        have : (('#' :: rest).dropWhile (· ≠ '\n'))[0]? = some c := by
          have hd : ('#' :: rest).dropWhile (· ≠ '\n') = ('#' :: rest).drop (acceptRun (· ≠ '\n') ('#' :: rest) 0) := by
            unfold acceptRun
            rw [Nat.zero_add, List.drop_zero]
            have := List.takeWhile_append_dropWhile (p := (· ≠ '\n')) (l := '#' :: rest)
            have h2 := List.drop_left (l₁ := ('#' :: rest).takeWhile (· ≠ '\n')) (l₂ := ('#' :: rest).dropWhile (· ≠ '\n'))
            rw [this] at h2
            exact h2.symm
          rw [hd, List.getElem?_drop]
          simpa using hc
        by_cases hcn : c = '\n'
        · exact hcn
        · exfalso
          have hh : (('#' :: rest).dropWhile (· ≠ '\n')).head? = some c := by rw [List.head?_eq_getElem?]; exact this
          have := List.head?_dropWhile_not (· ≠ '\n') ('#' :: rest)
          rw [hh] at this
          simp [hcn] at this
      rw [List.take_add_one, ht]
      unfold peek at hc
      rw [hc, hcn]
      rfl
    · intro hm
      have := mem_takeWhile_true hm
      simp at this

theorem lexAny_form {prev : Option Char} {inp : List Char} {t : Ty} {n : Nat} (hU : U.Ok) (hb : C.base ≤ 36)
    (h : lexAny U C prev inp = .tok t n) : Form U ⟨t, inp.take n⟩ := by
  have hn := lexAny_pos h
  cases inp with
  | nil => cases h
  | cons r rest =>
    have hi : r :: rest ≠ [] := by simp
    have hc : (r :: rest)[0]? = some r := rfl
    simp only [lexAny] at h
    by_cases h1 : r = '\n'
    · rw [if_pos h1] at h; cases h; exact Or.inl (by simp [h1])
    rw [if_neg h1] at h
    by_cases h2 : r = ';'
    · rw [if_pos h2] at h; cases h; show _ = _; simp [h2]
    rw [if_neg h2] at h
    by_cases h3 : r = '#'
    · rw [if_pos h3] at h
      subst h3
      obtain ⟨rfl, com, hcom⟩ := lexComment_form h
      exact Or.inr ⟨com, hcom⟩
    rw [if_neg h3] at h
    by_cases h4 : r = '\'' ∨ r = '"'
    · rw [if_pos h4] at h
      obtain ⟨rfl, b, hb, rfl, hs⟩ := lexQuote_form _ (Nat.le_refl _) h
      refine Or.inl ⟨r, b, ?_, h4, hb⟩
      show (r :: rest).take (1 + b.length + 1) = _
      rw [show 1 + b.length + 1 = (b.length + 1) + 1 by omega, List.take_succ_cons, hs]
      rfl
    rw [if_neg h4] at h
    by_cases h5 : r = '`'
    · rw [if_pos h5] at h
      obtain ⟨rfl, b, hb, rfl, hs⟩ := lexRawQuote_form h
      refine Or.inr ⟨b, ?_, hb⟩
      show (r :: rest).take (1 + b.length + 1) = _
      rw [show 1 + b.length + 1 = (b.length + 1) + 1 by omega, List.take_succ_cons, hs, h5]
      rfl
    rw [if_neg h5] at h
    by_cases h6 : r = '-' ∨ r = '+'
    · rw [if_pos h6] at h
      unfold lexSign at h
      have hcx : lexComplex U C (r :: rest) 0 = .tok t n → Form U ⟨t, (r :: rest).take n⟩ := by
        intro h
        rcases lexComplex_ty h with rfl | h
        · exact number_form (C := C) (by tauto) hU hb
        · exact h.form hi hn
      split at h
      · exact hcx h
      · split at h
        · exact (lexOperator_ty h).form hi hn
        · split at h
          · exact (lexOperator_ty h).form hi hn
          · exact hcx h
    rw [if_neg h6] at h
    by_cases h7 : r = '.' ∨ isDigit r = true
    · rw [if_pos h7] at h
      rcases lexComplex_ty h with rfl | h
      · exact number_form (C := C) (by tauto) hU hb
      · exact h.form hi hn
    rw [if_neg h7] at h
    by_cases h8 : r = '='
    · rw [if_pos h8] at h
      split at h
      · cases h; show _ = _; simp [h8]
      · exact (lexOperator_ty h).form hi hn
    rw [if_neg h8] at h
    split at h
    · exact (lexOperator_ty h).form hi hn
    · by_cases h9 : isAlphaNumeric U r = true ∨ r = '@'
      · rw [if_pos h9] at h
        exact lexIdentifier_form hc h9 hU hb h
      rw [if_neg h9] at h
      split at h
      · rename_i hr; cases h; show _ = _; simp [hr]
      split at h
      · rename_i hr; cases h; show _ = _; simp [hr]
      split at h
      · rename_i hr; cases h; show _ = _; simp [hr]
      split at h
      · rename_i hr; cases h; show _ = _; simp [hr]
      split at h
      · rename_i hr; cases h; show _ = _; simp [hr]
      split at h
      · rename_i hr; cases h; exact ⟨r, rfl, hr.2⟩
      · cases h

theorem lexAny_eof {prev : Option Char} {inp : List Char} (h : lexAny U C prev inp = .eof) : inp = [] ∨ ∃ rest, inp = '#' :: rest ∧ '\n' ∉ rest := by
  cases inp with
  | nil => exact Or.inl rfl
  | cons r rest =>
    have hop : ∀ p, lexOperator U C (r :: rest) p ≠ .eof := by
      intro p h
      have he : ∀ p, emitOperator U (r :: rest) p ≠ .eof := by intro p; unfold emitOperator; split <;> simp
      unfold lexOperator lexProduct at h
      dsimp only at h
      repeat' split at h
      all_goals first
        | exact he _ h
        | cases h
    have hnum : ∀ p, acceptNumber U C (r :: rest) p ≠ .not .eof := by
      intro p h
      unfold acceptNumber at h
      dsimp only at h
      repeat' split at h
      all_goals first
        | (simp only [Num.not.injEq] at h; exact hop _ h)
        | cases h
    have hcx : lexComplex U C (r :: rest) 0 ≠ .eof := by
      intro h
      unfold lexComplex at h
      split at h
      · rename_i hr; rw [h] at hr; exact hnum _ hr
      · split at h
        · cases h
        · split at h <;> cases h
    have hq : ∀ (q : Char) (k : Nat) (s : List Char) (m : Nat), s.length ≤ k → lexQuote q s m ≠ .eof := by
      intro q k
      induction k with
      | zero =>
        intro s m hk h
        cases s with
        | nil => simp [lexQuote] at h
        | cons => simp at hk
      | succ k ih =>
        intro s m hk h
        match s with
        | [] => simp [lexQuote] at h
        | [c] => simp only [lexQuote] at h; split at h <;> cases h
        | c :: d :: s =>
          simp only [lexQuote] at h
          simp at hk
          split at h
          · split at h
            · cases h
            · exact ih _ _ (by omega) h
          · split at h
            · cases h
            · split at h
              · cases h
              · exact ih _ _ (by simp; omega) h
    have hr : ∀ (s : List Char) (m : Nat), lexRawQuote s m ≠ .eof := by
      intro s
      induction s with
      | nil => intro m h; simp [lexRawQuote] at h
      | cons c s ih =>
        intro m h
        simp only [lexRawQuote] at h
        split at h
        · cases h
        · exact ih _ h
    simp only [lexAny] at h
    by_cases h1 : r = '\n'
    · rw [if_pos h1] at h; cases h
    rw [if_neg h1] at h
    by_cases h2 : r = ';'
    · rw [if_pos h2] at h; cases h
    rw [if_neg h2] at h
    by_cases h3 : r = '#'
    · rw [if_pos h3] at h
      refine Or.inr ⟨rest, by rw [h3], fun hm => ?_⟩
      unfold lexComment at h
      dsimp only at h
      split at h
      · rename_i hp
        unfold peek acceptRun at hp
        rw [List.getElem?_eq_none_iff, Nat.zero_add, List.drop_zero] at hp
        have hs : (r :: rest).takeWhile (· ≠ '\n') = r :: rest :=
          (List.takeWhile_sublist _).eq_of_length_le hp
        have hm' : '\n' ∈ (r :: rest).takeWhile (· ≠ '\n') := by rw [hs]; exact List.mem_cons_of_mem _ hm
        have := mem_takeWhile_true hm'
        simp at this
      · cases h
    rw [if_neg h3] at h
    exfalso
    by_cases h4 : r = '\'' ∨ r = '"'
    · rw [if_pos h4] at h; exact hq _ _ _ _ (Nat.le_refl _) h
    rw [if_neg h4] at h
    by_cases h5 : r = '`'
    · rw [if_pos h5] at h; exact hr _ _ h
    rw [if_neg h5] at h
    by_cases h6 : r = '-' ∨ r = '+'
    · rw [if_pos h6] at h
      unfold lexSign at h
      repeat' split at h
      all_goals first
        | exact hcx h
        | exact hop _ h
    rw [if_neg h6] at h
    by_cases h7 : r = '.' ∨ isDigit r = true
    · rw [if_pos h7] at h; exact hcx h
    rw [if_neg h7] at h
    by_cases h8 : r = '='
    · rw [if_pos h8] at h
      split at h
      · cases h
      · exact hop _ h
    rw [if_neg h8] at h
    split at h
    · exact hop _ h
    · by_cases h9 : isAlphaNumeric U r = true ∨ r = '@'
      · rw [if_pos h9] at h
        unfold lexIdentifier at h
        dsimp only at h
        repeat' split at h
        all_goals first
          | exact hop _ h
          | exact hcx h
          | cases h
      rw [if_neg h9] at h
      repeat' split at h
      all_goals cases h

/-- What a call of `Next` does. -/
theorem next_tok {prev p : Option Char} {inp rest : List Char} {t : Tok} (h : next U C prev inp = .tok t p rest) :
    ∃ sp, (∀ c ∈ sp, isSpace c = true) ∧ inp = sp ++ t.text ++ rest ∧ t.text ≠ [] ∧ (∀ c, t.text.head? = some c → isSpace c = false) ∧
      ((U.Ok ∧ C.base ≤ 36) → Form U t) := by
  unfold next at h
  dsimp only at h
  generalize hq : (if acceptRun isSpace inp 0 = 0 then prev else peek inp (acceptRun isSpace inp 0 - 1)) = q at h
  split at h
  · rename_i ty k hk
    cases h
    have hn := lexAny_pos hk
    have hi : inp.drop (acceptRun isSpace inp 0) ≠ [] := by intro hi; rw [hi] at hk; cases hk
    have hs := take_acceptRun isSpace inp 0
    rw [List.take_zero, List.nil_append, List.drop_zero] at hs
    refine ⟨inp.takeWhile isSpace, fun c hc => mem_takeWhile_true hc, ?_, take_ne_nil hi hn, ?_, fun hU => lexAny_form hU.1 hU.2 hk⟩
    · rw [List.append_assoc, List.take_append_drop, ← hs, List.take_append_drop]
    · intro c hc
      dsimp only at hc
      have hc0 : (inp.drop (acceptRun isSpace inp 0)).head? = some c := by
        cases hd : inp.drop (acceptRun isSpace inp 0) with
        | nil => exact absurd hd hi
        | cons d s =>
          rw [hd] at hc
          cases k with
          | zero => omega
          | succ k => simpa using hc
      rw [List.head?_drop] at hc0
      unfold acceptRun at hc0
      rw [Nat.zero_add, List.drop_zero] at hc0
      cases hsp : isSpace c with
      | false => rfl
      | true =>
        exfalso
        have hd : inp.dropWhile isSpace = inp.drop (inp.takeWhile isSpace).length := by
          have h1 := List.takeWhile_append_dropWhile (p := isSpace) (l := inp)
          have h2 := List.drop_left (l₁ := inp.takeWhile isSpace) (l₂ := inp.dropWhile isSpace)
          rw [h1] at h2
          exact h2.symm
        have := List.head?_dropWhile_not isSpace inp
        rw [hd, List.head?_drop, hc0] at this
        simp [hsp] at this
  · cases h
  · cases h

theorem next_eof {prev : Option Char} {inp : List Char} (h : next U C prev inp = .eof) : Layout [] inp := by
  unfold next at h
  dsimp only at h
  generalize hq : (if acceptRun isSpace inp 0 = 0 then prev else peek inp (acceptRun isSpace inp 0 - 1)) = q at h
  split at h
  · cases h
  · rename_i hk
    have hs := take_acceptRun isSpace inp 0
    rw [List.take_zero, List.nil_append, List.drop_zero] at hs
    have hall : ∀ c ∈ inp.takeWhile isSpace, isSpace c = true := fun c hc => mem_takeWhile_true hc
    have he := List.take_append_drop (acceptRun isSpace inp 0) inp
    rw [hs] at he
    rcases lexAny_eof hk with h1 | ⟨r, h1, h2⟩
    · rw [h1, List.append_nil] at he
      rw [← he]
      exact .done hall
    · rw [h1] at he
      rw [← he]
      exact .comment hall h2
  · cases h

end Verif.Scan
