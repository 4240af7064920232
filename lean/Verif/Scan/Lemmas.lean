import Verif.Scan.Spec
import Mathlib.Tactic.Tauto
/-
Helper lemmas for the properties of the scanner.
-/
namespace Verif.Scan
variable {U : Uni} {C : Ctx}

theorem acceptRun_ge (ok : Char → Bool) (inp : List Char) (pos : Nat) : pos ≤ acceptRun ok inp pos := Nat.le_add_right _ _

theorem accept_ge (ok : Char → Bool) (inp : List Char) (pos : Nat) : pos ≤ (accept ok inp pos).2 := by
  unfold accept
  split
  · split <;> simp
  · simp

theorem accept_true {ok : Char → Bool} {inp : List Char} {pos p : Nat} (h : accept ok inp pos = (true, p)) : p = pos + 1 ∧ ∃ c, inp[pos]? = some c ∧ ok c = true := by
  unfold accept peek at h
  split at h
  · rename_i c hc
    split at h
    · rename_i hok
      simp only [Prod.mk.injEq, true_and] at h
      exact ⟨h.symm, c, hc, hok⟩
    · simp at h
  · simp at h

theorem accept_false {ok : Char → Bool} {inp : List Char} {pos p : Nat} (h : accept ok inp pos = (false, p)) : p = pos ∧ ∀ c, inp[pos]? = some c → ok c = false := by
  unfold accept peek at h
  split at h
  · rename_i c hc
    split at h
    · simp at h
    · rename_i hok
      simp only [Prod.mk.injEq, true_and] at h
      refine ⟨h.symm, fun d hd => ?_⟩
      rw [hc] at hd
      cases hd
      simpa using hok
  · rename_i hn
    simp only [Prod.mk.injEq, true_and] at h
    refine ⟨h.symm, fun d hd => ?_⟩
    rw [hn] at hd
    cases hd

theorem isOperatorToken_ge {r : Char} {inp : List Char} {pos p : Nat} (h : isOperatorToken r inp pos = some p) : pos ≤ p := by
  unfold isOperatorToken at h
  repeat' split at h
  all_goals first
    | (simp only [Option.some.injEq] at h; omega)
    | (simp at h)

theorem emitOperator_eq {inp : List Char} {pos n : Nat} {t : Ty} (h : emitOperator U inp pos = .tok t n) : n = pos := by
  unfold emitOperator at h
  split at h <;> cases h <;> rfl

theorem lexProduct_ge {inp : List Char} {pos n : Nat} {t : Ty} (h : lexProduct U C inp pos = .tok t n) : pos ≤ n := by
  unfold lexProduct at h
  split at h
  · exact Nat.le_of_eq (emitOperator_eq h).symm
  · split at h
    · rename_i p hp
      rw [emitOperator_eq h]
      have := isOperatorToken_ge hp
      omega
    · split at h
      · dsimp only at h
        split at h
        · split at h
          · rw [emitOperator_eq h]; exact acceptRun_ge _ _ _
          · cases h
        · cases h
      · rw [emitOperator_eq h]; omega

theorem lexOperator_ge {inp : List Char} {pos n : Nat} {t : Ty} (h : lexOperator U C inp pos = .tok t n) : pos ≤ n := by
  have h0 := acceptRun_ge (· == '@') inp pos
  unfold lexOperator at h
  dsimp only at h
  split at h
  · split at h
    · rw [emitOperator_eq h]
      split <;> omega
    · split at h
      · split at h
        · cases h; exact h0
        · have := lexProduct_ge h; omega
      · rw [emitOperator_eq h]; exact h0
  · rw [emitOperator_eq h]; exact h0

/-- The digits that `scanNumber` accepts, and where it starts to. -/
def numStart (C : Ctx) (inp : List Char) (pos : Nat) : (Char → Bool) × Nat :=
  if C.base = 0 then
    let (zero, p) := accept (· == '0') inp pos
    if zero then
      let (x, p1) := accept (fun c => c == 'x' || c == 'X') inp p
      let (o, p2) := accept (fun c => c == 'o' || c == 'O') inp p
      let (b, p3) := accept (fun c => c == 'b' || c == 'B') inp p
      if x then (digitOf 16, p1) else if o then (digitOf 8, p2) else if b then (digitOf 2, p3) else (digitOf 0, p)
    else (digitOf 0, pos)
  else (digitOf C.base, pos)

/-- The end of the part before the exponent. -/
def numPoint (digits : Char → Bool) (inp : List Char) (pos : Nat) : Nat :=
  match accept (· == '.') inp (acceptRun digits inp pos) with
  | (true, p) => acceptRun digits inp p
  | (false, p) => p

/-- The end of the exponent. -/
def numExp (inp : List Char) (pos : Nat) : Nat :=
  match accept (fun c => "eEpP".toList.contains c) inp pos with
  | (true, p) => acceptRun isDigit inp (accept (fun c => c == '+' || c == '-') inp p).2
  | (false, p) => p

/-- The end of the characters that `scanNumber` takes. -/
def numEnd (C : Ctx) (inp : List Char) (pos : Nat) : Nat := numExp inp (numPoint (numStart C inp pos).1 inp (numStart C inp pos).2)

theorem scanNumber_eq (slashOK jOK : Bool) (inp : List Char) (pos : Nat) : scanNumber U C slashOK jOK inp pos =
    match peek inp (numEnd C inp pos) with
    | none => (true, numEnd C inp pos)
    | some r =>
      if slashOK = true ∧ r = '/' then (true, numEnd C inp pos)
      else if jOK = true ∧ r = 'j' then (true, numEnd C inp pos)
      else if r ≠ 'o' ∧ isAlphaNumeric U r = true then (false, numEnd C inp pos + 1)
      else if r = '.' ∨ atTerminator U inp (numEnd C inp pos) = false then (false, numEnd C inp pos + 1)
      else (true, numEnd C inp pos) := rfl

theorem numStart_ge (C : Ctx) (inp : List Char) (pos : Nat) : pos ≤ (numStart C inp pos).2 := by
  unfold numStart
  have := accept_ge (· == '0') inp pos
  split
  · cases h : accept (· == '0') inp pos with
    | mk z p =>
      rw [h] at this
      dsimp only
      split
      · have h1 := accept_ge (fun c => c == 'x' || c == 'X') inp p
        have h2 := accept_ge (fun c => c == 'o' || c == 'O') inp p
        have h3 := accept_ge (fun c => c == 'b' || c == 'B') inp p
        dsimp only at this
        split
        · dsimp only; omega
        · split
          · dsimp only; omega
          · split
            · dsimp only; omega
            · exact this
      · exact Nat.le_refl _
  · exact Nat.le_refl _

theorem numPoint_ge (d : Char → Bool) (inp : List Char) (pos : Nat) : acceptRun d inp pos ≤ numPoint d inp pos := by
  unfold numPoint
  split
  · rename_i p h
    have := (accept_true h).1
    have := acceptRun_ge d inp p
    omega
  · rename_i p h
    have := (accept_false h).1
    omega

theorem numExp_ge (inp : List Char) (pos : Nat) : pos ≤ numExp inp pos := by
  unfold numExp
  split
  · rename_i p h
    have := (accept_true h).1
    have h1 := accept_ge (fun c => c == '+' || c == '-') inp p
    have h2 := acceptRun_ge isDigit inp (accept (fun c => c == '+' || c == '-') inp p).2
    omega
  · rename_i p h
    have := (accept_false h).1
    omega

theorem numEnd_ge (C : Ctx) (inp : List Char) (pos : Nat) : pos ≤ numEnd C inp pos := by
  have h1 := numStart_ge C inp pos
  have h2 := acceptRun_ge (numStart C inp pos).1 inp (numStart C inp pos).2
  have h3 := numPoint_ge (numStart C inp pos).1 inp (numStart C inp pos).2
  have h4 := numExp_ge inp (numPoint (numStart C inp pos).1 inp (numStart C inp pos).2)
  unfold numEnd
  omega

theorem scanNumber_pos {s j : Bool} {inp : List Char} {pos p : Nat} (h : scanNumber U C s j inp pos = (true, p)) : p = numEnd C inp pos := by
  rw [scanNumber_eq] at h
  split at h
  · simpa using h.symm
  · repeat' split at h
    all_goals (simp at h; try exact h.symm)

theorem acceptRun_pos {d : Char → Bool} {inp : List Char} {pos : Nat} {c : Char} (h : inp[pos]? = some c) (hd : d c = true) : pos < acceptRun d inp pos := by
  unfold acceptRun
  obtain ⟨hl, he⟩ := List.getElem?_eq_some_iff.1 h
  rw [List.drop_eq_getElem_cons hl, he, List.takeWhile_cons, if_pos hd]
  simp

theorem numEnd_pos {inp : List Char} {pos : Nat} {c : Char} (h : inp[pos]? = some c) (hc : isDigit c = true ∨ digitOf C.base c = true ∨ c = '.') :
    pos < numEnd C inp pos := by
  have h1 := numStart_ge C inp pos
  have h2 := acceptRun_ge (numStart C inp pos).1 inp (numStart C inp pos).2
  have h3 := numPoint_ge (numStart C inp pos).1 inp (numStart C inp pos).2
  have h4 := numExp_ge inp (numPoint (numStart C inp pos).1 inp (numStart C inp pos).2)
  by_cases hs : pos < (numStart C inp pos).2
  · unfold numEnd; omega
  · have he : (numStart C inp pos).2 = pos := by omega
    have hdig : (∀ b, isDigit c = true → digitOf b c = true) := fun b hb => by simp [digitOf, hb]
    have hst : (numStart C inp pos).1 = digitOf 0 ∧ C.base = 0 ∨ (numStart C inp pos).1 = digitOf C.base := by
      unfold numStart at he ⊢
      split
      · rename_i hb
        rw [if_pos hb] at he
        cases hz : accept (· == '0') inp pos with
        | mk z p =>
          rw [hz] at he
          dsimp only at he ⊢
          cases z with
          | false => exact Or.inl ⟨rfl, hb⟩
          | true =>
            exfalso
            have hp := (accept_true hz).1
            have g1 := accept_ge (fun c => c == 'x' || c == 'X') inp p
            have g2 := accept_ge (fun c => c == 'o' || c == 'O') inp p
            have g3 := accept_ge (fun c => c == 'b' || c == 'B') inp p
            simp only [if_true] at he
            repeat' split at he
            all_goals (dsimp only at he; omega)
      · exact Or.inr rfl
    rw [he] at h2 h3 h4
    by_cases hd : (numStart C inp pos).1 c = true
    · have := acceptRun_pos h hd
      unfold numEnd; rw [he]; omega
    · have hdot : c = '.' := by
        rcases hc with hc | hc | hc
        · rcases hst with ⟨hst, _⟩ | hst <;> (rw [hst] at hd; exact absurd (hdig _ hc) hd)
        · rcases hst with ⟨hst, hb⟩ | hst
          · rw [hst] at hd; rw [hb] at hc; exact absurd hc hd
          · rw [hst] at hd; exact absurd hc hd
        · exact hc
      have hrun : acceptRun (numStart C inp pos).1 inp pos = pos := by
        unfold acceptRun
        obtain ⟨hl, hge⟩ := List.getElem?_eq_some_iff.1 h
        rw [List.drop_eq_getElem_cons hl, hge, List.takeWhile_cons, if_neg hd]
        simp
      have hp : pos < numPoint (numStart C inp pos).1 inp pos := by
        unfold numPoint
        rw [hrun]
        have : accept (· == '.') inp pos = (true, pos + 1) := by
          unfold accept peek
          rw [h, hdot]
          simp
        rw [this]
        have := acceptRun_ge (numStart C inp pos).1 inp (pos + 1)
        dsimp only
        omega
      unfold numEnd; rw [he]; omega

theorem acceptNumber_ok_ge {inp : List Char} {pos p : Nat} (h : acceptNumber U C inp pos = .ok p) : pos ≤ p := by
  unfold acceptNumber at h
  have h0 := accept_ge (fun c => c == '+' || c == '-') inp pos
  cases hs : accept (fun c => c == '+' || c == '-') inp pos with
  | mk sg q =>
    rw [hs] at h h0
    dsimp only at h h0
    split at h
    · cases h
    · split at h
      · cases h
      · split at h
        · cases h
        · rename_i p1 h1
          have e1 := scanNumber_pos h1
          have g1 := numEnd_ge C inp q
          split at h
          · cases h; omega
          · split at h
            · cases h; omega
            · split at h
              · cases h
              · rename_i p2 h2
                have e2 := scanNumber_pos h2
                have g2 := numEnd_ge C inp (p1 + 1)
                split at h
                · cases h
                · cases h; omega

theorem acceptNumber_ok_pos {inp : List Char} {p : Nat} {c : Char} (hc : inp[0]? = some c)
    (hd : c = '+' ∨ c = '-' ∨ isDigit c = true ∨ digitOf C.base c = true ∨ c = '.') (h : acceptNumber U C inp 0 = .ok p) : 0 < p := by
  unfold acceptNumber at h
  cases hs : accept (fun c => c == '+' || c == '-') inp 0 with
  | mk sg q =>
    rw [hs] at h
    dsimp only at h
    have hq : sg = true ∧ q = 1 ∨ sg = false ∧ q = 0 ∧ c ≠ '+' ∧ c ≠ '-' := by
      cases sg with
      | true => exact Or.inl ⟨rfl, (accept_true hs).1⟩
      | false =>
        have := accept_false hs
        refine Or.inr ⟨rfl, this.1, ?_⟩
        have := this.2 c hc
        simpa using this
    have hqn : 0 < numEnd C inp q := by
      rcases hq with ⟨_, rfl⟩ | ⟨_, rfl, h1, h2⟩
      · have := numEnd_ge C inp 1; omega
      · exact numEnd_pos hc (by rcases hd with h | h | h; exact absurd h h1; exact absurd h h2; exact h)
    split at h
    · cases h
    · split at h
      · cases h
      · split at h
        · cases h
        · rename_i p1 h1
          have e1 := scanNumber_pos h1
          split at h
          · cases h; omega
          · split at h
            · cases h; omega
            · split at h
              · cases h
              · rename_i p2 h2
                have e2 := scanNumber_pos h2
                have g2 := numEnd_ge C inp (p1 + 1)
                split at h
                · cases h
                · cases h; omega

theorem acceptNumber_not {inp : List Char} {pos : Nat} {t : Ty} {n : Nat} (h : acceptNumber U C inp pos = .not (.tok t n)) : pos + 1 ≤ n := by
  unfold acceptNumber at h
  cases hs : accept (fun c => c == '+' || c == '-') inp pos with
  | mk sg q =>
    rw [hs] at h
    dsimp only at h
    split at h
    · rename_i hsg
      rw [hsg.1] at hs
      have := (accept_true hs).1
      simp only [Num.not.injEq, Res.tok.injEq] at h
      rw [← h.2]
      split <;> omega
    · split at h
      · rename_i hsg
        rw [hsg.1] at hs
        have := (accept_true hs).1
        simp only [Num.not.injEq] at h
        have := lexOperator_ge h
        omega
      · split at h
        · cases h
        · split at h
          · cases h
          · split at h
            · cases h
            · split at h
              · cases h
              · split at h <;> cases h

theorem lexComplex_pos {inp : List Char} {t : Ty} {n : Nat} {c : Char} (hc : inp[0]? = some c)
    (hd : (c = '+' ∨ c = '-' ∨ isDigit c = true ∨ digitOf C.base c = true ∨ c = '.') ∨ c = 'j') (h : lexComplex U C inp 0 = .tok t n) : 0 < n := by
  unfold lexComplex at h
  split at h
  · rename_i r hr
    rw [h] at hr
    have := acceptNumber_not hr
    omega
  · rename_i p hp
    split at h
    · rename_i p' hj
      cases h
      have he := accept_false hj
      rcases hd with hd | hd
      · have := acceptNumber_ok_pos hc hd hp; omega
      · rcases Nat.eq_zero_or_pos p with h0 | h0
        · exfalso
          subst h0 hd
          have := he.2 'j' hc
          simp at this
        · omega
    · rename_i p' hj
      have he := (accept_true hj).1
      split at h
      · cases h
      · rename_i p2 hp2
        cases h
        have := acceptNumber_ok_ge hp2
        omega

theorem isAllDigits_head {base : Nat} {c : Char} {s : List Char} (h : isAllDigits base false (c :: s) = true) : (isDigit c = true ∨ digitOf base c = true) ∨ c = 'j' := by
  unfold isAllDigits at h
  split at h
  · rename_i hj; exact Or.inr hj.1
  · split at h
    · rename_i hd; exact Or.inl (Or.inl hd)
    · split at h
      · rename_i hl
        left; right
        unfold digitOf
        have hb : 10 < base := by
          rcases Nat.lt_or_ge 10 base with h | h
          · exact h
          · rw [Nat.sub_eq_zero_of_le h] at hl
            unfold letterBelow at hl
            simp only [Nat.add_zero, Bool.or_eq_true, Bool.and_eq_true, decide_eq_true_eq] at hl
            exfalso
            rcases hl with ⟨h1, h2⟩ | ⟨h1, h2⟩
            · have : 'a'.toNat ≤ c.toNat := h1; omega
            · have : 'A'.toNat ≤ c.toNat := h1; omega
        have hb0 : base ≠ 0 := by omega
        simp [hb0, hb, hl]
      · cases h

theorem lexQuote_ge {q : Char} : ∀ (k : Nat) {s : List Char} {m n : Nat} {t : Ty}, s.length ≤ k → lexQuote q s m = .tok t n → m < n := by
  intro k
  induction k with
  | zero =>
    intro s m n t hk h
    cases s with
    | nil => simp [lexQuote] at h
    | cons => simp at hk
  | succ k ih =>
    intro s m n t hk h
    match s with
    | [] => simp [lexQuote] at h
    | [c] =>
      simp only [lexQuote] at h
      split at h
      · cases h; omega
      · cases h
    | c :: d :: s =>
      simp only [lexQuote] at h
      simp at hk
      split at h
      · split at h
        · cases h
        · have := ih (by omega) h; omega
      · split at h
        · cases h
        · split at h
          · cases h; omega
          · have := ih (by simp; omega) h; omega

theorem lexRawQuote_ge : ∀ {s : List Char} {m n : Nat} {t : Ty}, lexRawQuote s m = .tok t n → m < n := by
  intro s
  induction s with
  | nil => intro m n t h; simp [lexRawQuote] at h
  | cons c s ih =>
    intro m n t h
    simp only [lexRawQuote] at h
    split at h
    · cases h; omega
    · have := ih h; omega

theorem acceptRun_zero {d : Char → Bool} {inp : List Char} {pos : Nat} (h : acceptRun d inp pos = pos) : ∀ c, inp[pos]? = some c → d c = false := by
  intro c hc
  cases hd : d c with
  | false => rfl
  | true => have := acceptRun_pos hc hd; omega

theorem isOperator_pos {inp : List Char} {p : Nat} (h : isOperator inp = some p) : 0 < p := by
  unfold isOperator at h
  dsimp only at h
  split at h
  · cases h
  · cases hp : isOperatorToken _ inp (acceptRun (· == '@') inp 0 + 1) with
    | none => rw [hp] at h; cases h
    | some q =>
      rw [hp] at h
      simp only [Option.map_some, Option.some.injEq] at h
      have h1 := isOperatorToken_ge hp
      have h2 := acceptRun_ge (· == '@') inp q
      omega

theorem lexIdentifier_num_pos {inp : List Char} {c : Char} {t : Ty} {n k : Nat} (hc : inp[0]? = some c) (hk : 0 < k)
    (hall : isAllDigits C.base false ((inp.drop 0).take (k - 0)) = true) (h : lexComplex U C inp 0 = .tok t n) : 0 < n := by
  cases inp with
  | nil => simp at hc
  | cons d s =>
    cases k with
    | zero => omega
    | succ k =>
      simp only [List.drop_zero, Nat.sub_zero, List.take_succ_cons] at hall
      rcases isAllDigits_head hall with (h1 | h1) | h1
      · exact lexComplex_pos (c := d) rfl (Or.inl (Or.inr (Or.inr (Or.inl h1)))) h
      · exact lexComplex_pos (c := d) rfl (Or.inl (Or.inr (Or.inr (Or.inr (Or.inl h1))))) h
      · exact lexComplex_pos (c := d) rfl (Or.inr h1) h

theorem lexIdentifier_pos {inp : List Char} {c : Char} {t : Ty} {n : Nat} (hc : inp[0]? = some c) (ha : isAlphaNumeric U c = true ∨ c = '@')
    (h : lexIdentifier U C inp = .tok t n) : 0 < n := by
  unfold lexIdentifier at h
  have g1 := acceptRun_ge (· == '@') inp 0
  have g2 := acceptRun_ge (isAlphaNumeric U) inp (acceptRun (· == '@') inp 0)
  have g3 := acceptRun_ge (· == '@') inp (acceptRun (isAlphaNumeric U) inp (acceptRun (· == '@') inp 0))
  have hpos : 0 < acceptRun (isAlphaNumeric U) inp (acceptRun (· == '@') inp 0) := by
    rcases Nat.eq_zero_or_pos (acceptRun (· == '@') inp 0) with h0 | h0
    · have hz := acceptRun_zero h0 c hc
      rw [h0]
      refine acceptRun_pos hc ?_
      rcases ha with ha | ha
      · exact ha
      · rw [ha] at hz; simp at hz
    · omega
  dsimp only at h
  generalize acceptRun (· == '@') inp (acceptRun (isAlphaNumeric U) inp (acceptRun (· == '@') inp 0)) = stop at *
  generalize acceptRun (isAlphaNumeric U) inp (acceptRun (· == '@') inp 0) = pos at *
  generalize acceptRun (· == '@') inp 0 = left at *
  split at h
  · cases h
  · split at h
    · cases h; omega
    · split at h
      · cases h; omega
      · split at h
        · have := lexOperator_ge h; omega
        · split at h
          · have := lexOperator_ge h; omega
          · split at h
            · cases h
            · rename_i hne
              split at h
              · rename_i hall
                have hl0 : left = 0 := by omega
                rw [hl0] at hall
                exact lexIdentifier_num_pos hc hpos hall h
              · cases h
                split <;> omega

theorem lexComment_pos {inp : List Char} {t : Ty} {n : Nat} (h : lexComment inp = .tok t n) : 0 < n := by
  unfold lexComment at h
  dsimp only at h
  split at h
  · cases h
  · cases h; omega

theorem lexSign_pos {prev : Option Char} {inp : List Char} {t : Ty} {n : Nat} {r : Char} (hc : inp[0]? = some r) (hs : r = '-' ∨ r = '+')
    (h : lexSign U C prev inp = .tok t n) : 0 < n := by
  unfold lexSign at h
  split at h
  · exact lexComplex_pos hc (by tauto) h
  · split at h
    · have := lexOperator_ge h; omega
    · split at h
      · have := lexOperator_ge h; omega
      · exact lexComplex_pos hc (by tauto) h

theorem lexAny_pos {prev : Option Char} {inp : List Char} {t : Ty} {n : Nat} (h : lexAny U C prev inp = .tok t n) : 0 < n := by
  cases inp with
  | nil => cases h
  | cons r rest =>
    have hc : (r :: rest)[0]? = some r := rfl
    simp only [lexAny] at h
    by_cases h1 : r = '\n'
    · rw [if_pos h1] at h; cases h; omega
    rw [if_neg h1] at h
    by_cases h2 : r = ';'
    · rw [if_pos h2] at h; cases h; omega
    rw [if_neg h2] at h
    by_cases h3 : r = '#'
    · rw [if_pos h3] at h; exact lexComment_pos h
    rw [if_neg h3] at h
    by_cases h4 : r = '\'' ∨ r = '"'
    · rw [if_pos h4] at h
      have := lexQuote_ge _ (Nat.le_refl _) h; omega
    rw [if_neg h4] at h
    by_cases h5 : r = '`'
    · rw [if_pos h5] at h
      have := lexRawQuote_ge h; omega
    rw [if_neg h5] at h
    by_cases h6 : r = '-' ∨ r = '+'
    · rw [if_pos h6] at h; exact lexSign_pos hc h6 h
    rw [if_neg h6] at h
    by_cases h7 : r = '.' ∨ isDigit r = true
    · rw [if_pos h7] at h
      exact lexComplex_pos hc (by tauto) h
    rw [if_neg h7] at h
    by_cases h8 : r = '='
    · rw [if_pos h8] at h
      split at h
      · cases h; omega
      · have := lexOperator_ge h
        split at this <;> omega
    rw [if_neg h8] at h
    split at h
    · rename_i p hp
      have h1 := isOperator_pos hp
      have h2 := lexOperator_ge h
      omega
    · by_cases h9 : isAlphaNumeric U r = true ∨ r = '@'
      · rw [if_pos h9] at h
        exact lexIdentifier_pos hc h9 h
      rw [if_neg h9] at h
      repeat' split at h
      all_goals first
        | (cases h; omega)
        | (cases h)

end Verif.Scan
