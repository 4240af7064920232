import Verif.Scan.LemmasForm
/-
Helper lemmas: scanning words and signs.
-/
namespace Verif.Scan
variable {U : Uni} {C : Ctx}

theorem scan_some : ∀ (fuel : Nat) (prev : Option Char) (inp : List Char), inp.length < fuel → ∃ ts b, scan U C fuel prev inp = some (ts, b) := by
  intro fuel
  induction fuel with
  | zero => intro prev inp h; omega
  | succ fuel ih =>
    intro prev inp h
    unfold scan
    cases hn : next U C prev inp with
    | eof => exact ⟨[], true, rfl⟩
    | err m => exact ⟨[], false, rfl⟩
    | tok t p rest =>
      obtain ⟨sp, _, he, hne, _⟩ := next_tok hn
      have hl := congrArg List.length he
      have := List.length_pos_iff.2 hne
      simp at hl
      obtain ⟨ts, b, hs⟩ := ih p rest (by omega)
      exact ⟨t :: ts, b, by simp [hs]⟩

theorem scan_layout : ∀ (fuel : Nat) (prev : Option Char) (inp : List Char) (ts : List Tok), scan U C fuel prev inp = some (ts, true) → Layout ts inp := by
  intro fuel
  induction fuel with
  | zero => intro prev inp ts h; cases h
  | succ fuel ih =>
    intro prev inp ts h
    unfold scan at h
    cases hn : next U C prev inp with
    | eof =>
      rw [hn] at h
      cases h
      exact next_eof hn
    | err m => rw [hn] at h; cases h
    | tok t p rest =>
      rw [hn] at h
      obtain ⟨sp, hsp, he, hne, hh, _⟩ := next_tok hn
      dsimp only at h
      cases hs : scan U C fuel p rest with
      | none => rw [hs] at h; cases h
      | some r =>
        rw [hs] at h
        simp only [Option.map_some, Option.some.injEq, Prod.mk.injEq] at h
        rw [← h.1, he]
        refine .tok hsp hne hh (ih p rest r.1 ?_)
        rw [hs, ← h.2]

theorem scan_upto : ∀ (fuel : Nat) (prev : Option Char) (inp : List Char) (ts : List Tok) (b : Bool), scan U C fuel prev inp = some (ts, b) → Layout.Upto ts inp := by
  intro fuel
  induction fuel with
  | zero => intro prev inp ts b h; cases h
  | succ fuel ih =>
    intro prev inp ts b h
    unfold scan at h
    cases hn : next U C prev inp with
    | eof => rw [hn] at h; cases h; exact .rest
    | err m => rw [hn] at h; cases h; exact .rest
    | tok t p rest =>
      rw [hn] at h
      obtain ⟨sp, hsp, he, hne, hh, _⟩ := next_tok hn
      dsimp only at h
      cases hs : scan U C fuel p rest with
      | none => rw [hs] at h; cases h
      | some r =>
        rw [hs] at h
        simp only [Option.map_some, Option.some.injEq, Prod.mk.injEq] at h
        rw [← h.1, he]
        exact .tok hsp hne (ih p rest r.1 r.2 hs)

theorem scan_form (hU : U.Ok) (hb : C.base ≤ 36) : ∀ (fuel : Nat) (prev : Option Char) (inp : List Char) (ts : List Tok) (b : Bool),
    scan U C fuel prev inp = some (ts, b) → ∀ t ∈ ts, Form U t := by
  intro fuel
  induction fuel with
  | zero => intro prev inp ts b h; cases h
  | succ fuel ih =>
    intro prev inp ts b h t ht
    unfold scan at h
    cases hn : next U C prev inp with
    | eof => rw [hn] at h; cases h; cases ht
    | err m => rw [hn] at h; cases h; cases ht
    | tok t' p rest =>
      rw [hn] at h
      obtain ⟨sp, hsp, he, hne, hh, hf⟩ := next_tok hn
      dsimp only at h
      cases hs : scan U C fuel p rest with
      | none => rw [hs] at h; cases h
      | some r =>
        rw [hs] at h
        simp only [Option.map_some, Option.some.injEq, Prod.mk.injEq] at h
        rw [← h.1] at ht
        rcases List.mem_cons.1 ht with rfl | ht
        · exact hf ⟨hU, hb⟩
        · exact ih p rest r.1 r.2 hs t ht

/-- The first character of a word is none of those that `lexAny` asks for first. -/
theorem alnum_plain (hU : U.Ok) {r : Char} (ha : isAlphaNumeric U r = true) : r ∉ "\n;#'\"`-+.=?/&|^,!><*@ \t[:]()%\\".toList := by
  intro hm
  have hlt : r.toNat < 128 := by
    have : ∀ c ∈ "\n;#'\"`-+.=?/&|^,!><*@ \t[:]()%\\".toList, c.toNat < 128 := by decide
    exact this r hm
  have : ∀ c ∈ "\n;#'\"`-+.=?/&|^,!><*@ \t[:]()%\\".toList, (c == '_' || (decide ('a' ≤ c ∧ c ≤ 'z') || decide ('A' ≤ c ∧ c ≤ 'Z')) || isDigit c) = false := by decide
  have h1 := this r hm
  rw [isAlphaNumeric, hU.letter r hlt, hU.digit r hlt, h1] at ha
  cases ha

theorem acceptRun_append {d : Char → Bool} {a w rest : List Char} (hw : ∀ c ∈ w, d c = true) (hr : ∀ c, rest.head? = some c → d c = false) :
    acceptRun d (a ++ w ++ rest) a.length = a.length + w.length := by
  unfold acceptRun
  rw [List.append_assoc, List.drop_left]
  congr 1
  induction w with
  | nil =>
    cases rest with
    | nil => rfl
    | cons c s => simp [List.takeWhile_cons, hr c rfl]
  | cons c w ih =>
    rw [List.cons_append, List.takeWhile_cons, if_pos (hw c (by simp)), List.length_cons, List.length_cons, ih (fun d hd => hw d (by simp [hd]))]

theorem isOperatorToken_none (hU : U.Ok) {r : Char} (ha : isAlphaNumeric U r = true) (inp : List Char) (pos : Nat) : isOperatorToken r inp pos = none := by
  have hp := alnum_plain hU ha
  simp at hp
  unfold isOperatorToken
  rw [if_neg (by simp; tauto), if_neg (by tauto), if_neg (by tauto), if_neg (by tauto), if_neg (by tauto), if_neg (by tauto)]

theorem next_plain {prev : Option Char} {r : Char} {inp : List Char} (hr : isSpace r = false) :
    next U C prev (r :: inp) = match lexAny U C prev (r :: inp) with
      | .tok t k => .tok ⟨t, (r :: inp).take k⟩ (before (peek (r :: inp) (k - 1))) ((r :: inp).drop k)
      | .eof => .eof
      | .err m => .err m := by
  have : acceptRun isSpace (r :: inp) 0 = 0 := by
    unfold acceptRun
    rw [List.drop_zero, List.takeWhile_cons, hr]
    rfl
  unfold next
  rw [this]
  rfl

theorem Ends.term {rest a : List Char} (h : Ends U rest) : atTerminator U (a ++ rest) a.length = true := by
  unfold atTerminator peek
  rw [List.getElem?_append_right (Nat.le_refl _), Nat.sub_self]
  cases rest with
  | nil => rfl
  | cons c s =>
    have := (h c rfl).1
    simp only [List.getElem?_cons_zero]
    rcases this with h | h | h | h <;> simp [h]

/-- A word that is not all digits and not an operator. -/
theorem lexAny_word (hU : U.Ok) {w rest : List Char} {prev : Option Char} (hw : Word U w) (he : Ends U rest) (hf : Free C w)
    (hd : isAllDigits C.base false w = false) : lexAny U C prev (w ++ rest) = .tok .identifier w.length := by
  obtain ⟨hne, hall, hdig⟩ := hw
  cases w with
  | nil => exact absurd rfl hne
  | cons r w =>
    have ha := hall r (by simp)
    have hp := alnum_plain hU ha
    have hnd : isDigit r = false := by
      cases hx : isDigit r with
      | false => rfl
      | true =>
        have hlt : r.toNat < 128 := by
          simp only [isDigit, Bool.and_eq_true, decide_eq_true_eq] at hx
          have : r.toNat ≤ '9'.toNat := hx.2
          have h9 : '9'.toNat = 57 := rfl
          omega
        have := hdig r rfl
        rw [hU.digit r hlt, hx] at this
        cases this
    simp at hp
    have hat : acceptRun (· == '@') (r :: w ++ rest) 0 = 0 := by
      unfold acceptRun
      have : (r == '@') = false := by simp; tauto
      rw [List.drop_zero, List.cons_append, List.takeWhile_cons, this]
      rfl
    have hop : isOperator (r :: w ++ rest) = none := by
      unfold isOperator
      rw [hat]
      show (isOperatorToken r _ _).map _ = none
      rw [isOperatorToken_none hU ha]
      rfl
    have hlen := acceptRun_append (a := []) hall (fun c hc => (he c hc).2.1)
    rw [List.nil_append, List.length_nil, Nat.zero_add] at hlen
    have hat2 := acceptRun_append (d := (· == '@')) (a := r :: w) (w := []) (rest := rest) (by simp) (fun c hc => by simpa using (he c hc).2.2)
    rw [List.append_nil, List.length_nil, Nat.add_zero] at hat2
    have hid : lexIdentifier U C (r :: w ++ rest) = .tok .identifier (r :: w).length := by
      unfold lexIdentifier
      dsimp only
      rw [hat, hlen, hat2, he.term, Nat.sub_zero, List.drop_zero, List.take_left]
      obtain ⟨f1, f2, f3, f4, f5, f6⟩ := hf
      rw [if_neg (by simp), if_neg f1, if_neg f2, if_neg (by tauto), f4, if_neg (by simp), if_neg (by simp), hd, if_neg (by simp), f6, if_neg (by simp)]
    rw [List.cons_append] at hop hid ⊢
    simp only [lexAny]
    rw [if_neg (by tauto), if_neg (by tauto), if_neg (by tauto), if_neg (by tauto), if_neg (by tauto), if_neg (by tauto), if_neg (by simp [hnd]; tauto), if_neg (by tauto), hop]
    dsimp only
    rw [if_pos (Or.inl ha), hid]

theorem letterBelow_eq {k : Nat} {c : Char} (h : letterBelow k c = true) (hk : k ≤ 26) :
    ∃ j, j < k ∧ (c = Char.ofNat ('a'.toNat + j) ∨ c = Char.ofNat ('A'.toNat + j)) := by
  simp only [letterBelow, Bool.or_eq_true, Bool.and_eq_true, decide_eq_true_eq] at h
  have ha : 'a'.toNat = 97 := rfl
  have hA : 'A'.toNat = 65 := rfl
  rcases h with ⟨h1, h2⟩ | ⟨h1, h2⟩
  · have h1 : 'a'.toNat ≤ c.toNat := h1
    refine ⟨c.toNat - 'a'.toNat, by omega, Or.inl ?_⟩
    rw [show 'a'.toNat + (c.toNat - 'a'.toNat) = c.toNat by omega, Char.ofNat_toNat]
  · have h1 : 'A'.toNat ≤ c.toNat := h1
    refine ⟨c.toNat - 'A'.toNat, by omega, Or.inr ?_⟩
    rw [show 'A'.toNat + (c.toNat - 'A'.toNat) = c.toNat by omega, Char.ofNat_toNat]

theorem isAllDigits_mem {base : Nat} (hb : base ≤ 36) : ∀ {w : List Char} {s : Bool}, isAllDigits base s w = true → ∀ c ∈ w, c = 'j' ∨ DigitIn base c := by
  intro w
  induction w with
  | nil => intro s h c hc; cases hc
  | cons d w ih =>
    intro s h c hc
    unfold isAllDigits at h
    split at h
    · rename_i hj
      rcases List.mem_cons.1 hc with rfl | hc
      · exact Or.inl hj.1
      · exact ih h c hc
    · split at h
      · rename_i hd
        rcases List.mem_cons.1 hc with rfl | hc
        · exact Or.inr (Or.inl hd)
        · exact ih h c hc
      · split at h
        · rename_i hl
          rcases List.mem_cons.1 hc with rfl | hc
          · obtain ⟨j, hj, he⟩ := letterBelow_eq hl (by omega)
            exact Or.inr (Or.inr ⟨by omega, j, hj, he⟩)
          · exact ih h c hc
        · cases h

/-- A sign before a character that does not continue a number. -/
theorem lexOperator_sign (hU : U.Ok) {s r : Char} {rest : List Char} (hs : s = '+' ∨ s = '-') (ha : isAlphaNumeric U r = true) :
    lexOperator U C (s :: r :: rest) 1 = .tok .operator 1 := by
  have hp := alnum_plain hU ha
  simp at hp
  have hat : acceptRun (· == '@') (s :: r :: rest) 1 = 1 := by
    unfold acceptRun
    have : (r == '@') = false := by simp; tauto
    rw [List.drop_one, List.tail_cons, List.takeWhile_cons, this]
    rfl
  have hem : emitOperator U (s :: r :: rest) 1 = .tok .operator 1 := by
    unfold emitOperator
    rw [if_neg]
    show ¬ isIdentifier U [s] = true
    intro h
    have := isIdentifier_all h s (by simp)
    have := alnum_plain hU this
    rcases hs with rfl | rfl <;> exact absurd (by decide) this
  have hpk : peek (s :: r :: rest) 1 = some r := rfl
  unfold lexOperator
  dsimp only
  rw [hat, hpk, hem]
  split
  · rw [if_neg (by simp; tauto), if_neg (by simp; tauto)]
  · rfl

theorem lexSign_op (hU : U.Ok) {s r : Char} {rest : List Char} {prev : Option Char} (hs : s = '+' ∨ s = '-') (ha : isAlphaNumeric U r = true)
    (hn : isNumeral C (some r) = false) : lexAny U C prev (s :: r :: rest) = .tok .operator 1 := by
  have hp := alnum_plain hU ha
  simp at hp
  have hlex := lexOperator_sign (C := C) (rest := rest) hU hs ha
  have hacc : accept (fun c => c == '+' || c == '-') (s :: r :: rest) 0 = (true, 1) := by
    unfold accept
    rcases hs with rfl | rfl <;> rfl
  have hcx : lexComplex U C (s :: r :: rest) 0 = .tok .operator 1 := by
    unfold lexComplex acceptNumber
    rw [hacc]
    dsimp only
    rw [show peek (s :: r :: rest) 1 = some r from rfl]
    rw [if_neg (by simp; tauto), if_pos (by simp [hn]; tauto), hlex]
  have hl : lexAny U C prev (s :: r :: rest) = lexSign U C prev (s :: r :: rest) := by
    rcases hs with rfl | rfl <;> rfl
  rw [hl]
  unfold lexSign
  split
  · exact hcx
  · split
    · exact hlex
    · split
      · exact hlex
      · exact hcx

end Verif.Scan
