import Verif.Save.LemmasText
import Verif.Scan.LemmasName
/-
Helper lemmas: scanning what `put` writes.
-/
namespace Verif.Save
open Verif.Scan
open Verif.Num (CNum Cx)
variable {U : Uni} {C : Ctx}

/-- The scanner gives these tokens, none of which ends the line, and goes on from there. -/
inductive Scans (U : Uni) (C : Ctx) : Option Char → List Char → List Tok → Option Char → List Char → Prop where
  | nil {p s} : Scans U C p s [] p s
  | cons {p s t p' s' ts p'' s''} (h : next U C p s = .tok t p' s') (hn : t.ty ≠ .newline) (hs : Scans U C p' s' ts p'' s'') :
      Scans U C p s (t :: ts) p'' s''

theorem Scans.trans {p s ts p' s' us p'' s''} (h : Scans U C p s ts p' s') (g : Scans U C p' s' us p'' s'') : Scans U C p s (ts ++ us) p'' s'' := by
  induction h with
  | nil => exact g
  | cons h hn _ ih => exact .cons h hn (ih g)

theorem Scans.one {p s t p' s'} (h : next U C p s = .tok t p' s') (hn : t.ty ≠ .newline) : Scans U C p s [t] p' s' := .cons h hn .nil

theorem readLine_scans {p s ts p' s'} (h : Scans U C p s ts p' s') (n : Nat) :
    readLine U C (n + ts.length) p s = (readLine U C n p' s').map fun r => (ts ++ r.1, r.2) := by
  induction h with
  | nil => cases h : readLine U C n _ _ <;> simp [h]
  | @cons p s t p' s' ts p'' s'' h hn _ ih =>
    rw [List.length_cons, ← Nat.add_assoc]
    simp only [readLine]
    rw [h]
    dsimp only
    rw [if_neg hn, ih]
    cases readLine U C n p'' s'' <;> rfl

theorem readLine_mono : ∀ (n m : Nat) (p : Option Char) (s : List Char) (r : List Tok × List Char), readLine U C n p s = some r → n ≤ m → readLine U C m p s = some r := by
  intro n
  induction n with
  | zero => intro m p s r h; cases h
  | succ n ih =>
    intro m p s r h hm
    cases m with
    | zero => omega
    | succ m =>
      simp only [readLine] at h ⊢
      cases hx : next U C p s with
      | eof => rw [hx] at h; exact h
      | err e => rw [hx] at h; exact h
      | tok t p' s' =>
        rw [hx] at h
        dsimp only at h ⊢
        split
        · rename_i ht; rw [if_pos ht] at h; exact h
        · rename_i ht
          rw [if_neg ht] at h
          cases hr : readLine U C n p' s' with
          | none => rw [hr] at h; cases h
          | some q =>
            rw [hr] at h
            rw [ih m p' s' q hr (by omega)]
            exact h

theorem Scans.length {p s ts p' s'} (h : Scans U C p s ts p' s') : ts.length + s'.length ≤ s.length := by
  induction h with
  | nil => simp
  | cons h _ _ ih =>
    obtain ⟨sp, _, he, hne, _⟩ := next_tok h
    have := List.length_pos_iff.2 hne
    have hl := congrArg List.length he
    simp at hl ⊢
    omega

/-- A space is skipped. -/
theorem next_space (p : Option Char) (s : List Char) : next U C p (' ' :: s) = next U C (some ' ') s := by
  have h1 : acceptRun isSpace (' ' :: s) 0 = acceptRun isSpace s 0 + 1 := by
    unfold acceptRun
    rw [List.drop_zero, List.drop_zero, List.takeWhile_cons, if_pos (by rfl), List.length_cons]
    omega
  unfold next
  rw [h1]
  dsimp only
  rw [if_neg (by omega), List.drop_succ_cons, Nat.add_sub_cancel]
  have h2 : peek (' ' :: s) (acceptRun isSpace s 0) = if acceptRun isSpace s 0 = 0 then some ' ' else peek s (acceptRun isSpace s 0 - 1) := by
    split
    · rename_i h; rw [h]; rfl
    · rename_i h
      unfold peek
      cases hk : acceptRun isSpace s 0 with
      | zero => exact absurd hk h
      | succ k => simp
  rw [h2]

theorem Scans.space {p s t ts p' s'} (h : Scans U C (some ' ') s (t :: ts) p' s') : Scans U C p (' ' :: s) (t :: ts) p' s' := by
  cases h with
  | cons h hn hs => exact .cons (by rw [next_space]; exact h) hn hs

/-- What may stand after something saved: a space, a parenthesis, or the end of the line. -/
def After (rest : List Char) : Prop := ∃ c s, rest = c :: s ∧ (c = ' ' ∨ c = ')' ∨ c = '\n')

/-- What may stand before something saved. -/
def Before (p : Option Char) : Prop := p = some ' ' ∨ p = some '('

theorem not_alnum (hU : U.Ok) {c : Char} (h : c ∈ "\n;#'\"`-+.=?/&|^,!><*@ \t[:]()%\\".toList) : isAlphaNumeric U c = false := by
  cases ha : isAlphaNumeric U c with
  | false => rfl
  | true => exact absurd h (alnum_plain hU ha)

/-- `scanNumber` on decimal digits. -/
theorem scanNumber_digits (hU : U.Ok) (hb : C.base = 10) {a ds rest : List Char} {c : Char} {s j : Bool} (hd : ∀ x ∈ ds, isDigit x = true)
    (hc : (c = ' ' ∨ c = ')' ∨ c = '\n') ∨ (c = 'j' ∧ j = true) ∨ (c = '/' ∧ s = true)) :
    scanNumber U C s j (a ++ ds ++ c :: rest) a.length = (true, (a ++ ds).length) := by
  have hnd : digitOf 10 c = false ∧ c ≠ '.' ∧ "eEpP".toList.contains c = false := by
    rcases hc with (rfl | rfl | rfl) | ⟨rfl, _⟩ | ⟨rfl, _⟩ <;> decide
  have hrun : acceptRun (digitOf 10) (a ++ ds ++ c :: rest) a.length = (a ++ ds).length := by
    rw [List.length_append]
    refine acceptRun_append ?_ ?_
    · intro x hx; simp [digitOf, hd x hx]
    · intro x hx; simp at hx; subst hx; exact hnd.1
  have hpk : peek (a ++ ds ++ c :: rest) (a ++ ds).length = some c := by
    unfold peek
    rw [List.getElem?_append_right (Nat.le_refl _), Nat.sub_self]
    rfl
  have hacc : ∀ f : Char → Bool, f c = false → accept f (a ++ ds ++ c :: rest) (a ++ ds).length = (false, (a ++ ds).length) := by
    intro f hf
    unfold accept
    rw [hpk]
    simp [hf]
  have hend : numEnd C (a ++ ds ++ c :: rest) a.length = (a ++ ds).length := by
    unfold numEnd numStart
    rw [hb, if_neg (by decide)]
    dsimp only
    unfold numPoint
    rw [hrun, hacc _ (by simpa using hnd.2.1)]
    dsimp only
    unfold numExp
    rw [hacc _ hnd.2.2]
  rw [scanNumber_eq, hend, hpk]
  dsimp only
  rcases hc with h | ⟨rfl, rfl⟩ | ⟨rfl, rfl⟩
  · have hterm : atTerminator U (a ++ ds ++ c :: rest) (a ++ ds).length = true := by
      unfold atTerminator
      rw [hpk]
      dsimp only
      rcases h with rfl | rfl | rfl
      · rfl
      · have : U.punct ')' = true := by rw [hU.punct ')' (by decide)]; rfl
        simp [this]
      · rfl
    have hal : isAlphaNumeric U c = false := by
      rcases h with rfl | rfl | rfl <;> exact not_alnum hU (by decide)
    have hne : c ≠ '/' ∧ c ≠ 'j' := by rcases h with rfl | rfl | rfl <;> decide
    rw [if_neg (by tauto), if_neg (by tauto), if_neg (by simp [hal]), if_neg (by rw [hterm]; simp [hnd.2.1])]
  · rw [if_neg (by simp), if_pos ⟨rfl, rfl⟩]
  · rw [if_pos ⟨rfl, rfl⟩]

/-- The text of a real number: sign, digits, and perhaps a slash and digits. -/
def RealText (t : List Char) : Prop :=
  ∃ sg ds fr : List Char, t = sg ++ ds ++ fr ∧ (sg = [] ∨ sg = ['-']) ∧ ds ≠ [] ∧ (∀ x ∈ ds, isDigit x = true) ∧
    (fr = [] ∨ ∃ es, fr = '/' :: es ∧ es ≠ [] ∧ ∀ x ∈ es, isDigit x = true)

theorem intText_form (i : Int) : ∃ sg ds : List Char, intText i = sg ++ ds ∧ (sg = [] ∨ sg = ['-']) ∧ ds ≠ [] ∧ ∀ x ∈ ds, isDigit x = true := by
  refine ⟨if i < 0 then ['-'] else [], Nat.toDigits 10 i.natAbs, rfl, ?_, Nat.toDigits_ne_nil, toDigits_digits _⟩
  split <;> simp

theorem putNum_real (n : Num.Num) (h : n.isNum) : RealText (putNum U n) := by
  cases n with
  | int i =>
    obtain ⟨sg, ds, h1, h2, h3, h4⟩ := intText_form i
    exact ⟨sg, ds, [], by simp [putNum, h1], h2, h3, h4, Or.inl rfl⟩
  | char c => exact absurd h id
  | bigInt i =>
    obtain ⟨sg, ds, h1, h2, h3, h4⟩ := intText_form i
    exact ⟨sg, ds, [], by simp [putNum, h1], h2, h3, h4, Or.inl rfl⟩
  | bigRat r =>
    obtain ⟨sg, ds, h1, h2, h3, h4⟩ := intText_form r.num
    refine ⟨sg, ds, '/' :: intText r.den, by simp [putNum, h1], h2, h3, h4, Or.inr ⟨_, rfl, intText_ne _, ?_⟩⟩
    intro x hx
    unfold intText at hx
    rw [if_neg (by omega), List.nil_append] at hx
    exact toDigits_digits _ x hx

theorem acceptNumber_real (hU : U.Ok) (hb : C.base = 10) {a t rest : List Char} {c : Char} (ht : RealText t)
    (hc : (c = ' ' ∨ c = ')' ∨ c = '\n') ∨ c = 'j') : acceptNumber U C (a ++ t ++ c :: rest) a.length = .ok (a ++ t).length := by
  obtain ⟨sg, ds, fr, rfl, hsg, hne, hds, hfr⟩ := ht
  obtain ⟨d, ds', rfl⟩ : ∃ d ds', ds = d :: ds' := by
    cases ds with
    | nil => exact absurd rfl hne
    | cons d ds' => exact ⟨d, ds', rfl⟩
  have hd : isDigit d = true := hds d (by simp)
  have hdne : d ≠ '+' ∧ d ≠ '-' ∧ d ≠ '/' ∧ d ≠ '\\' ∧ d ≠ '.' := by
    refine ⟨?_, ?_, ?_, ?_, ?_⟩ <;> (rintro rfl; exact absurd hd (by decide))
  have hnum : isNumeral C (some d) = true := by simp [isNumeral, hd]
  have hcs : c ≠ '/' := by rcases hc with (rfl | rfl | rfl) | rfl <;> decide
  -- the text, seen from after the sign
  have hinp : a ++ (sg ++ d :: ds' ++ fr) ++ c :: rest = (a ++ sg) ++ (d :: ds') ++ (fr ++ c :: rest) := by simp
  have hpd : peek (a ++ (sg ++ d :: ds' ++ fr) ++ c :: rest) (a ++ sg).length = some d := by
    rw [hinp]
    unfold peek
    rw [List.append_assoc, List.getElem?_append_right (Nat.le_refl _), Nat.sub_self]
    rfl
  have hacc : accept (fun c => c == '+' || c == '-') (a ++ (sg ++ d :: ds' ++ fr) ++ c :: rest) a.length = (decide (sg = ['-']), (a ++ sg).length) := by
    unfold accept
    rcases hsg with rfl | rfl
    · rw [List.append_nil] at hpd ⊢
      rw [hpd]
      simp [hdne]
    · have : peek (a ++ (['-'] ++ d :: ds' ++ fr) ++ c :: rest) a.length = some '-' := by
        unfold peek
        rw [List.append_assoc, List.getElem?_append_right (Nat.le_refl _), Nat.sub_self]
        rfl
      rw [this]
      simp
  unfold acceptNumber
  rw [hacc]
  dsimp only
  rw [hpd, if_neg (by simp [hdne]), if_neg (by simp [hnum])]
  -- the numerator
  have h1 : scanNumber U C true true (a ++ (sg ++ d :: ds' ++ fr) ++ c :: rest) (a ++ sg).length = (true, (a ++ sg ++ (d :: ds')).length) := by
    rw [hinp]
    rcases hfr with rfl | ⟨es, rfl, hes, hesd⟩
    · exact scanNumber_digits hU hb hds (by tauto)
    · exact scanNumber_digits hU hb hds (by tauto)
  rw [h1]
  dsimp only
  rcases hfr with rfl | ⟨es, rfl, hes, hesd⟩
  · have : peek (a ++ (sg ++ d :: ds' ++ []) ++ c :: rest) (a ++ sg ++ d :: ds').length = some c := by
      rw [hinp]
      unfold peek
      rw [List.nil_append, List.getElem?_append_right (Nat.le_refl _), Nat.sub_self]
      rfl
    rw [this, if_pos (by simpa using hcs)]
    simp
  · obtain ⟨e, es', rfl⟩ : ∃ e es', es = e :: es' := by
      cases es with
      | nil => exact absurd rfl hes
      | cons e es' => exact ⟨e, es', rfl⟩
    have he : isDigit e = true := hesd e (by simp)
    have hene : e ≠ '.' := by rintro rfl; exact absurd he (by decide)
    have hinp2 : a ++ (sg ++ d :: ds' ++ '/' :: e :: es') ++ c :: rest = (a ++ sg ++ d :: ds' ++ ['/']) ++ (e :: es') ++ (c :: rest) := by simp
    have p1 : peek (a ++ (sg ++ d :: ds' ++ '/' :: e :: es') ++ c :: rest) (a ++ sg ++ d :: ds').length = some '/' := by
      rw [hinp]
      unfold peek
      rw [List.getElem?_append_right (Nat.le_refl _), Nat.sub_self]
      rfl
    have hl : (a ++ sg ++ d :: ds').length + 1 = (a ++ sg ++ d :: ds' ++ ['/']).length := by simp; omega
    have p2 : peek (a ++ (sg ++ d :: ds' ++ '/' :: e :: es') ++ c :: rest) ((a ++ sg ++ d :: ds').length + 1) = some e := by
      rw [hinp2, hl]
      unfold peek
      rw [List.append_assoc, List.getElem?_append_right (Nat.le_refl _), Nat.sub_self]
      rfl
    rw [p1, p2, if_neg (by simp), if_neg (by simp [isNumeral, he])]
    have h2 : scanNumber U C false true (a ++ (sg ++ d :: ds' ++ '/' :: e :: es') ++ c :: rest) ((a ++ sg ++ d :: ds').length + 1) = (true, (a ++ sg ++ d :: ds' ++ ['/'] ++ (e :: es')).length) := by
      rw [hinp2, hl]
      exact scanNumber_digits hU hb hesd (by tauto)
    rw [h2]
    dsimp only
    have p3 : peek (a ++ (sg ++ d :: ds' ++ '/' :: e :: es') ++ c :: rest) (a ++ sg ++ d :: ds' ++ ['/'] ++ e :: es').length = some c := by
      rw [hinp2]
      unfold peek
      rw [List.getElem?_append_right (Nat.le_refl _), Nat.sub_self]
      rfl
    have hcd : c ≠ '.' := by rcases hc with (rfl | rfl | rfl) | rfl <;> decide
    rw [p3, if_neg (by simpa using hcd)]
    simp

/-- The text of a number: one real number or two with a `j` between them. -/
def NumText (t : List Char) : Prop := RealText t ∨ ∃ a b, t = a ++ 'j' :: b ∧ RealText a ∧ RealText b

theorem lexComplex_num (hU : U.Ok) (hb : C.base = 10) {t rest : List Char} {c : Char} (ht : NumText t)
    (hc : c = ' ' ∨ c = ')' ∨ c = '\n') : lexComplex U C (t ++ c :: rest) 0 = .tok .number t.length := by
  have hcj : c ≠ 'j' := by rcases hc with rfl | rfl | rfl <;> decide
  have hpk : ∀ (a : List Char) (d : Char) (s : List Char), peek (a ++ d :: s) a.length = some d := by
    intro a d s
    unfold peek
    rw [List.getElem?_append_right (Nat.le_refl _), Nat.sub_self]
    rfl
  rcases ht with ht | ⟨a, b, rfl, ha, hb'⟩
  · have h1 := acceptNumber_real (a := []) (rest := rest) hU hb ht (Or.inl hc)
    rw [List.nil_append, List.length_nil] at h1
    unfold lexComplex
    rw [h1]
    dsimp only
    unfold accept
    rw [hpk]
    simp [hcj]
  · have h1 := acceptNumber_real (a := []) (rest := b ++ c :: rest) hU hb ha (Or.inr (rfl : 'j' = 'j'))
    rw [List.nil_append, List.length_nil] at h1
    have e : a ++ 'j' :: b ++ c :: rest = a ++ 'j' :: (b ++ c :: rest) := by simp
    unfold lexComplex
    rw [e, h1]
    dsimp only
    have h2 : accept (· == 'j') (a ++ 'j' :: (b ++ c :: rest)) a.length = (true, a.length + 1) := by
      unfold accept
      rw [hpk]
      rfl
    rw [h2]
    dsimp only
    have h3 := acceptNumber_real (a := a ++ ['j']) (rest := rest) hU hb hb' (Or.inl hc)
    have e2 : a ++ ['j'] ++ b ++ c :: rest = a ++ 'j' :: (b ++ c :: rest) := by simp
    have e3 : (a ++ ['j']).length = a.length + 1 := by simp
    rw [e2, e3] at h3
    rw [h3]
    simp

theorem RealText.head {t : List Char} (h : RealText t) : ∃ c s, t = c :: s ∧ (isDigit c = true ∨ (c = '-' ∧ ∃ d s', s = d :: s' ∧ isDigit d = true)) := by
  obtain ⟨sg, ds, fr, rfl, hsg, hne, hds, hfr⟩ := h
  cases ds with
  | nil => exact absurd rfl hne
  | cons d ds =>
    rcases hsg with rfl | rfl
    · exact ⟨d, ds ++ fr, rfl, Or.inl (hds d (by simp))⟩
    · exact ⟨'-', d :: ds ++ fr, rfl, Or.inr ⟨rfl, d, ds ++ fr, rfl, hds d (by simp)⟩⟩

theorem NumText.head {t : List Char} (h : NumText t) : ∃ c s, t = c :: s ∧ (isDigit c = true ∨ (c = '-' ∧ ∃ d s', s = d :: s' ∧ isDigit d = true)) := by
  rcases h with h | ⟨a, b, rfl, ha, _⟩
  · exact h.head
  · obtain ⟨c, s, rfl, hcs⟩ := ha.head
    refine ⟨c, s ++ 'j' :: b, rfl, ?_⟩
    rcases hcs with h | ⟨rfl, d, s', rfl, hd⟩
    · exact Or.inl h
    · exact Or.inr ⟨rfl, d, s' ++ 'j' :: b, rfl, hd⟩

/-- A number is one token. -/
theorem next_num (hU : U.Ok) (hb : C.base = 10) {t rest : List Char} {p : Option Char} (ht : NumText t) (hp : Before p) (hr : After rest) :
    ∃ p', next U C p (t ++ rest) = .tok ⟨.number, t⟩ p' rest := by
  obtain ⟨c, s, rfl, hc⟩ := hr
  have hlex := lexComplex_num (rest := s) hU hb ht hc
  obtain ⟨d, t', rfl, hd⟩ := ht.head
  have hany : lexAny U C p (d :: t' ++ c :: s) = .tok .number (d :: t').length := by
    rw [← hlex]
    rcases hd with hd | ⟨rfl, e, t'', rfl, he⟩
    · have hne : d ∉ ['\n', ';', '#', '\'', '"', '`', '-', '+'] := by
        intro hm
        have : ∀ x ∈ ['\n', ';', '#', '\'', '"', '`', '-', '+'], isDigit x = false := by decide
        rw [this d hm] at hd; cases hd
      simp at hne
      rw [List.cons_append]
      simp only [lexAny]
      rw [if_neg (by tauto), if_neg (by tauto), if_neg (by tauto), if_neg (by tauto), if_neg (by tauto), if_neg (by tauto), if_pos (Or.inr hd)]
    · have hne : e ≠ '.' := by rintro rfl; exact absurd he (by decide)
      have hl : lexAny U C p ('-' :: e :: t'' ++ c :: s) = lexSign U C p ('-' :: e :: t'' ++ c :: s) := rfl
      rw [hl]
      unfold lexSign
      rcases hp with rfl | rfl
      · dsimp only
        rw [if_neg (by rw [not_alnum hU (by decide)]; simp), if_neg]
        rintro ⟨h, _⟩
        simp [peek] at h
        exact hne h
      · dsimp only
        rw [if_neg (by rw [not_alnum hU (by decide)]; simp), if_neg]
        rintro ⟨h, _⟩
        simp [peek] at h
        exact hne h
  have hsp : isSpace d = false := by
    rcases hd with hd | ⟨rfl, _⟩
    · cases hs : isSpace d with
      | false => rfl
      | true =>
        simp only [isSpace, Bool.or_eq_true, beq_iff_eq] at hs
        rcases hs with rfl | rfl <;> exact absurd hd (by decide)
    · rfl
  rw [List.cons_append] at hany ⊢
  rw [next_plain hsp, hany, ← List.cons_append]
  refine ⟨before (peek (d :: t' ++ c :: s) ((d :: t').length - 1)), ?_⟩
  dsimp only
  rw [List.take_left, List.drop_left]

theorem lexQuote_quoted {q : Char} (hq : IsQuote q) : ∀ {body : List Char} (n : Nat) (rest : List Char), Quoted q body →
    lexQuote q (body ++ q :: rest) n = .tok .string (n + body.length + 1) := by
  intro body n rest h
  have hqb : q ≠ '\\' ∧ q ≠ '\n' := by rcases hq with rfl | rfl <;> decide
  induction h generalizing n with
  | nil =>
    cases rest with
    | nil => simp [lexQuote]
    | cons d s => simp [lexQuote, hqb]
  | @plain c s h1 h2 h3 hs ih =>
    have hne : ∃ d r, s ++ q :: rest = d :: r := by
      cases s with
      | nil => exact ⟨q, rest, rfl⟩
      | cons d s => exact ⟨d, s ++ q :: rest, rfl⟩
    obtain ⟨d, r, hr⟩ := hne
    rw [List.cons_append, hr]
    simp only [lexQuote]
    rw [if_neg h1, if_neg h2, if_neg h3, ← hr, ih]
    simp
    omega
  | @escape d s h hs ih =>
    rw [List.cons_append, List.cons_append]
    simp only [lexQuote]
    rw [if_pos trivial, if_neg h, ih]
    simp
    omega

/-- A quoted text is one token. -/
theorem next_quote (hU : U.Ok) {q : Char} (hq : IsQuote q) (cs : List Char) (p : Option Char) (rest : List Char) :
    ∃ p', next U C p (quote U q cs ++ rest) = .tok ⟨.string, quote U q cs⟩ p' rest := by
  have hl := lexQuote_quoted hq 1 rest (quoted_flatMap hU hq cs)
  have hsp : isSpace q = false := by rcases hq with rfl | rfl <;> rfl
  have hany : lexAny U C p (q :: (cs.flatMap (escape U q) ++ q :: rest)) = .tok .string (quote U q cs).length := by
    have h1 : lexAny U C p (q :: (cs.flatMap (escape U q) ++ q :: rest)) = lexQuote q (cs.flatMap (escape U q) ++ q :: rest) 1 := by
      rcases hq with rfl | rfl <;> rfl
    rw [h1, hl]
    simp [quote]
    omega
  have e : quote U q cs ++ rest = q :: (cs.flatMap (escape U q) ++ q :: rest) := by simp [quote]
  rw [e, next_plain hsp, hany]
  dsimp only
  rw [← e]
  refine ⟨before (peek (quote U q cs ++ rest) ((quote U q cs).length - 1)), ?_⟩
  rw [List.take_left, List.drop_left]

theorem next_paren (hU : U.Ok) (p : Option Char) (s : List Char) :
    next U C p ('(' :: s) = .tok ⟨.leftParen, ['(']⟩ (some '(') s ∧ next U C p (')' :: s) = .tok ⟨.rightParen, [')']⟩ (some ')') s := by
  have h : ∀ c, c = '(' ∨ c = ')' → isAlphaNumeric U c = false := by
    rintro c (rfl | rfl) <;> exact not_alnum hU (by decide)
  constructor
  · rw [next_plain (by rfl)]
    have : lexAny U C p ('(' :: s) = .tok .leftParen 1 := by
      have h0 : lexAny U C p ('(' :: s) = (if isAlphaNumeric U '(' = true ∨ '(' = '@' then lexIdentifier U C ('(' :: s) else .tok .leftParen 1) := rfl
      rw [h0, if_neg]
      rw [h _ (Or.inl rfl)]
      decide
    rw [this]
    rfl
  · rw [next_plain (by rfl)]
    have : lexAny U C p (')' :: s) = .tok .rightParen 1 := by
      have h0 : lexAny U C p (')' :: s) = (if isAlphaNumeric U ')' = true ∨ ')' = '@' then lexIdentifier U C (')' :: s) else .tok .rightParen 1) := rfl
      rw [h0, if_neg]
      rw [h _ (Or.inr rfl)]
      decide
    rw [this]
    rfl

theorem next_assign (p : Option Char) (s : List Char) : next U C p ('=' :: ' ' :: s) = .tok ⟨.assign, ['=']⟩ (some '=') (' ' :: s) := rfl

/-- The word `rho` before a space. -/
theorem next_rho (hU : U.Ok) (h1 : C.predefined "rho".toList = true) (p : Option Char) (s : List Char) :
    ∃ p', next U C p ('r' :: 'h' :: 'o' :: ' ' :: s) = .tok ⟨.identifier, "rho".toList⟩ p' (' ' :: s) := by
  have hlet : ∀ c, c ∈ ['r', 'h', 'o'] → isAlphaNumeric U c = true := by
    intro c hc
    have : c.toNat < 128 := by
      have : ∀ c ∈ ['r', 'h', 'o'], c.toNat < 128 := by decide
      exact this c hc
    rw [isAlphaNumeric, hU.letter c this]
    have : ∀ c ∈ ['r', 'h', 'o'], (c == '_' || (decide ('a' ≤ c ∧ c ≤ 'z') || decide ('A' ≤ c ∧ c ≤ 'Z'))) = true := by decide
    rw [this c hc]
    rfl
  have hsp : isAlphaNumeric U ' ' = false := not_alnum hU (by decide)
  have hlen : acceptRun (isAlphaNumeric U) ('r' :: 'h' :: 'o' :: ' ' :: s) 0 = 3 := by
    have := acceptRun_append (a := []) (w := ['r', 'h', 'o']) (rest := ' ' :: s) hlet (by intro c hc; simp at hc; subst hc; exact hsp)
    exact this
  have hat : ∀ n, n = 0 ∨ n = 3 → acceptRun (· == '@') ('r' :: 'h' :: 'o' :: ' ' :: s) n = n := by
    rintro n (rfl | rfl) <;> rfl
  have hid : isIdentifier U ['r', 'h', 'o'] = true := by
    have hdig : ∀ c ∈ ['r', 'h', 'o'], U.digit c = false ∧ U.letter c = true := by
      intro c hc
      have hlt : ∀ c ∈ ['r', 'h', 'o'], c.toNat < 128 := by decide
      rw [hU.digit c (hlt c hc), hU.letter c (hlt c hc)]
      have : ∀ c ∈ ['r', 'h', 'o'], isDigit c = false ∧ (decide ('a' ≤ c ∧ c ≤ 'z') || decide ('A' ≤ c ∧ c ≤ 'Z')) = true := by decide
      exact this c hc
    obtain ⟨a1, a2⟩ := hdig 'r' (by simp)
    obtain ⟨b1, b2⟩ := hdig 'h' (by simp)
    obtain ⟨c1, c2⟩ := hdig 'o' (by simp)
    simp [isIdentifier, isIdentLoop, a1, a2, b1, b2, c1, c2]
  have hem : emitOperator U ('r' :: 'h' :: 'o' :: ' ' :: s) 3 = .tok .identifier 3 := by
    unfold emitOperator
    show (if isIdentifier U ['r', 'h', 'o'] = true then _ else _) = _
    rw [if_pos hid]
  have hop : lexOperator U C ('r' :: 'h' :: 'o' :: ' ' :: s) 3 = .tok .identifier 3 := by
    unfold lexOperator
    dsimp only
    rw [hat 3 (Or.inr rfl), hem]
    have hpk : peek ('r' :: 'h' :: 'o' :: ' ' :: s) 3 = some ' ' := rfl
    rw [hpk]
    split
    · rw [if_neg (by decide), if_neg (by decide)]
    · rfl
  have hle : lexIdentifier U C ('r' :: 'h' :: 'o' :: ' ' :: s) = .tok .identifier 3 := by
    unfold lexIdentifier
    dsimp only
    rw [hat 0 (Or.inl rfl), hlen, hat 3 (Or.inr rfl)]
    have ht : atTerminator U ('r' :: 'h' :: 'o' :: ' ' :: s) 3 = true := rfl
    rw [ht, if_neg (by simp)]
    have hw : (('r' :: 'h' :: 'o' :: ' ' :: s).drop 0).take (3 - 0) = "rho".toList := rfl
    rw [hw, if_neg (by decide), if_neg (by decide), if_neg (by intro h; exact absurd h.1 (by decide)), if_pos (by rw [defined, h1]; rfl), hop]
  have hany : lexAny U C p ('r' :: 'h' :: 'o' :: ' ' :: s) = .tok .identifier 3 := by
    have h0 : lexAny U C p ('r' :: 'h' :: 'o' :: ' ' :: s) = (if isAlphaNumeric U 'r' = true ∨ 'r' = '@' then lexIdentifier U C ('r' :: 'h' :: 'o' :: ' ' :: s) else
      if U.print 'r' = true then .tok .char 1 else .err "unrecognized character") := by
      simp [lexAny, isDigit, isOperator, peek, acceptRun, isOperatorToken]
    rw [h0, if_pos (Or.inl (hlet 'r' (by simp))), hle]
  rw [next_plain (by rfl), hany]
  exact ⟨some 'o', rfl⟩

end Verif.Save
