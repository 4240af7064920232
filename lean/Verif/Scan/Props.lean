import Verif.Scan.LemmasName
/-
Properties of the scanner (C64, C56).
-/
namespace Verif.Scan
variable {U : Uni} {C : Ctx}

theorem ascii_ok : ascii.Ok where
  letter _ _ := rfl
  digit _ _ := rfl
  punct _ _ := rfl
  symbol _ _ := rfl
  print _ _ := rfl
  apart c h hc := by
    exfalso
    simp only [ascii, isDigit, Bool.or_eq_true, Bool.and_eq_true, decide_eq_true_eq] at hc
    have h1 : 'z'.toNat = 122 := rfl
    have h2 : 'Z'.toNat = 90 := rfl
    have h3 : '9'.toNat = 57 := rfl
    rcases hc with (hc | hc) | hc
    · have : c.toNat ≤ 'z'.toNat := hc.2; omega
    · have : c.toNat ≤ 'Z'.toNat := hc.2; omega
    · have : c.toNat ≤ '9'.toNat := hc.2; omega

/-- **C64, first part.** The scanner comes to the end of every text, or to an error. -/
theorem C64_ends (s : List Char) : ∃ ts ok, scanText U C s = some (ts, ok) :=
  scan_some _ _ _ (Nat.lt_succ_self _)

/-- **C64, second part.** If there is no error, the text (without carriage returns) is the tokens, one after another, with
spaces and tabs between them: no character is lost, none is read twice, no token is empty. -/
theorem C64_split {s : List Char} {ts : List Tok} (h : scanText U C s = some (ts, true)) : Layout ts (s.filter (· ≠ '\r')) :=
  scan_layout _ _ _ _ h

/-- **C64, third part.** The same holds for the tokens before an error. -/
theorem C64_error {s : List Char} {ts : List Tok} {ok : Bool} (h : scanText U C s = some (ts, ok)) : Layout.Upto ts (s.filter (· ≠ '\r')) :=
  scan_upto _ _ _ _ _ h

/-- **C64, fourth part.** Every token has the text that its type says. -/
theorem C64_forms (hU : U.Ok) (hb : C.base ≤ 36) {s : List Char} {ts : List Tok} {ok : Bool} (h : scanText U C s = some (ts, ok)) : ∀ t ∈ ts, Form U t :=
  scan_form hU hb _ _ _ _ _ h

example : scanText ascii (someCtx 0) "x = 3 rho -1/2j5 \"a\\\"b\" # text\n".toList = some
    ([⟨.identifier, ['x']⟩, ⟨.assign, ['=']⟩, ⟨.number, ['3']⟩, ⟨.identifier, "rho".toList⟩, ⟨.number, "-1/2j5".toList⟩,
      ⟨.string, "\"a\\\"b\"".toList⟩, ⟨.newline, "# text\n".toList⟩], true) := by decide +kernel

example : scanText ascii (someCtx 0) "1 \"abc\n".toList = some ([⟨.number, ['1']⟩], false) := by decide +kernel

/-- **C56, full statement.** In every input base, a word that is not an operator and does not consist of digits of the base
is scanned as a name, and a sign before a word that does not begin with a digit of the base is scanned as an operator. -/
def C56_full (U : Uni) : Prop :=
  ∀ (C : Ctx) (prev : Option Char) (w rest : List Char), C.base ≤ 36 → Word U w → Ends U rest → Free C w →
    ((∃ c ∈ w, ¬ DigitIn C.base c) → ∃ p, next U C prev (w ++ rest) = .tok ⟨.identifier, w⟩ p rest) ∧
    ∀ s, s = '+' ∨ s = '-' → (∀ c, w.head? = some c → ¬ DigitIn C.base c) →
      ∃ p, next U C prev (s :: w ++ rest) = .tok ⟨.operator, [s]⟩ p (w ++ rest)

theorem no_digit (c : Char) (h : c = 'j' ∨ c = 'a') : ¬ DigitIn 10 c := by
  rintro (h1 | ⟨h1, _⟩)
  · rcases h with rfl | rfl <;> exact absurd h1 (by decide)
  · omega

theorem word_one (c : Char) (h : c = 'j' ∨ c = 'a') : Word ascii [c] := by
  refine ⟨by simp, ?_, ?_⟩
  · intro d hd; simp at hd; subst hd; rcases h with rfl | rfl <;> decide
  · intro d hd; simp at hd; subst hd; rcases h with rfl | rfl <;> decide

/-- **C56 is violated** (finding): the name `j` is scanned as a number, in every base, because `isAllDigits` accepts a `j`
and asks for no digit. -/
theorem C56_violated_name : ¬ C56_full ascii := by
  intro h
  obtain ⟨p, hp⟩ := (h (someCtx 10) none ['j'] ['\n'] (by decide) (word_one _ (by simp)) (by intro c hc; simp at hc; subst hc; decide)
    (by unfold Free; decide)).1 ⟨'j', by simp, no_digit _ (by simp)⟩
  have : next ascii (someCtx 10) none (['j'] ++ ['\n']) = .tok ⟨.number, ['j']⟩ (some 'j') ['\n'] := rfl
  rw [this] at hp
  cases hp

/-- **C56 is violated** (finding): with `)base 10`, the text `-a` is an error, because `isNumeral` takes the letter after the
last digit of the base for a digit. -/
theorem C56_violated_sign : ¬ C56_full ascii := by
  intro h
  obtain ⟨p, hp⟩ := (h (someCtx 10) none ['a'] ['\n'] (by decide) (word_one _ (by simp)) (by intro c hc; simp at hc; subst hc; decide)
    (by unfold Free; decide)).2 '-' (by simp) (by intro c hc; simp at hc; subst hc; exact no_digit _ (by simp))
  have : next ascii (someCtx 10) none ('-' :: ['a'] ++ ['\n']) = .err "bad number syntax" := rfl
  rw [this] at hp
  cases hp

/-- **C56, partial.** Words with a character that is neither `j` nor a digit are scanned as names. Missing: words of `j` and
digits, for which the statement does not hold. -/
theorem C56_name_partial (hU : U.Ok) {w rest : List Char} {prev : Option Char} (hb : C.base ≤ 36) (hw : Word U w) (he : Ends U rest) (hf : Free C w)
    (hd : ∃ c ∈ w, c ≠ 'j' ∧ ¬ DigitIn C.base c) : ∃ p, next U C prev (w ++ rest) = .tok ⟨.identifier, w⟩ p rest := by
  have hall : isAllDigits C.base false w = false := by
    cases h : isAllDigits C.base false w with
    | false => rfl
    | true =>
      obtain ⟨c, hc, h1, h2⟩ := hd
      rcases isAllDigits_mem hb h c hc with h | h
      · exact absurd h h1
      · exact absurd h h2
  have hl := lexAny_word (prev := prev) hU hw he hf hall
  obtain ⟨hne, hal, _⟩ := hw
  cases w with
  | nil => exact absurd rfl hne
  | cons r w =>
    have hp := alnum_plain hU (hal r (by simp))
    simp at hp
    rw [List.cons_append] at hl ⊢
    rw [next_plain (by simp [isSpace]; tauto), hl, ← List.cons_append]
    refine ⟨before (peek (r :: w ++ rest) ((r :: w).length - 1)), ?_⟩
    dsimp only
    rw [List.take_left, List.drop_left]

/-- **C56, partial.** A sign before a word is an operator, unless the word begins with a digit of the base or, in the base 10
and above, with the letter that would be the next digit. Missing: that letter, for which the statement does not hold. -/
theorem C56_sign_partial (hU : U.Ok) {w rest : List Char} {prev : Option Char} {s : Char} (hb : C.base ≤ 36) (hw : Word U w) (hs : s = '+' ∨ s = '-')
    (hd : ∀ c, w.head? = some c → ¬ DigitIn C.base c ∧ (10 ≤ C.base → c ≠ Char.ofNat ('a'.toNat + (C.base - 10)) ∧ c ≠ Char.ofNat ('A'.toNat + (C.base - 10)))) :
    next U C prev (s :: w ++ rest) = .tok ⟨.operator, [s]⟩ (some s) (w ++ rest) := by
  obtain ⟨hne, hal, _⟩ := hw
  cases w with
  | nil => exact absurd rfl hne
  | cons r w =>
    have hnum : isNumeral C (some r) = false := by
      obtain ⟨h1, h2⟩ := hd r rfl
      simp only [isNumeral]
      have h0 : isDigit r = false := by
        cases h : isDigit r with
        | false => rfl
        | true => exact absurd (Or.inl h) h1
      rw [h0, if_neg (by simp)]
      split
      · rfl
      · rename_i hb10
        cases h : letterBelow (C.base - 10 + 1) r with
        | false => rfl
        | true =>
          have hb10 : 10 ≤ C.base := by omega
          have h3 := h2 hb10
          simp only [letterBelow, Bool.or_eq_true, Bool.and_eq_true, decide_eq_true_eq] at h
          have hA : 'A'.toNat = 65 := rfl
          have ha : 'a'.toNat = 97 := rfl
          exfalso
          have hx : ∀ k : Nat, k < C.base - 10 + 1 → (r = Char.ofNat ('a'.toNat + k) ∨ r = Char.ofNat ('A'.toNat + k)) → False := by
            intro k hk hr
            rcases Nat.lt_or_ge k (C.base - 10) with h4 | h4
            · exact h1 (Or.inr ⟨by omega, k, h4, hr⟩)
            · have : k = C.base - 10 := by omega
              subst this
              rcases hr with hr | hr
              · exact h3.1 hr
              · exact h3.2 hr
          rcases h with ⟨g1, g2⟩ | ⟨g1, g2⟩
          · have g1 : 'a'.toNat ≤ r.toNat := g1
            refine hx (r.toNat - 'a'.toNat) (by omega) (Or.inl ?_)
            rw [show 'a'.toNat + (r.toNat - 'a'.toNat) = r.toNat by omega, Char.ofNat_toNat]
          · have g1 : 'A'.toNat ≤ r.toNat := g1
            refine hx (r.toNat - 'A'.toNat) (by omega) (Or.inr ?_)
            rw [show 'A'.toNat + (r.toNat - 'A'.toNat) = r.toNat by omega, Char.ofNat_toNat]
    have hl := lexSign_op (rest := w ++ rest) (prev := prev) hU hs (hal r (by simp)) hnum
    have hsp : isSpace s = false := by rcases hs with rfl | rfl <;> rfl
    rw [List.cons_append, List.cons_append, next_plain hsp, hl]
    dsimp only
    rcases hs with rfl | rfl <;> rfl

example : next ascii (someCtx 16) none ("face_x = 1\n".toList) = .tok ⟨.identifier, "face_x".toList⟩ (some 'x') " = 1\n".toList := by rfl

example : next ascii (someCtx 16) (some ' ') ("-h\n".toList) = .tok ⟨.operator, ['-']⟩ (some '-') "h\n".toList := by rfl

example : DigitIn 16 'f' ∧ ¬ DigitIn 16 'h' := by
  refine ⟨Or.inr ⟨by omega, 5, by omega, Or.inl rfl⟩, ?_⟩
  rintro (h | ⟨_, k, hk, h⟩)
  · exact absurd h (by decide)
  · have : ∀ k < 6, ¬ ('h' = Char.ofNat ('a'.toNat + k) ∨ 'h' = Char.ofNat ('A'.toNat + k)) := by decide
    exact this k hk h

end Verif.Scan
