import Verif.Lit.Lemmas
import Verif.Save.LemmasScan
/-
Helper lemmas: scanning and reading what was printed.
-/
namespace Verif.Lit
open Verif.Scan (Uni Ctx isDigit digitOf isNumeral isAlphaNumeric isAllDigits letterBelow acceptRun accept peek scanNumber acceptNumber lexComplex lexIdentifier lexAny next
  atTerminator numEnd numStart numPoint numExp scanNumber_eq acceptRun_append next_plain before isSpace defined isOperator isOperatorToken lexSign)
open Verif.Save (After Before not_alnum split_two)
open Verif.Num (CNum Cx shrinkBig shrinkRat)
open Verif.Arr (R)
variable {U : Uni} {C : Ctx}

/-- The base in use. -/
def eff (b : Nat) : Nat := if b = 0 then 10 else b

theorem eff_le {b : Nat} (h : BaseOk b) : 2 ≤ eff b ∧ eff b ≤ 16 := by
  unfold eff BaseOk at *
  split <;> omega

/-- A digit of the base. -/
def Dg (b : Nat) (c : Char) : Prop := ∃ d, Digit c d ∧ d < eff b

theorem Dg.digitOf {b : Nat} {c : Char} (hb : eff b ≤ 16) (h : Dg b c) : digitOf b c = true := by
  obtain ⟨d, h, hd⟩ := h
  unfold Scan.digitOf isDigit letterBelow
  change (c == '_' || (decide ('0' ≤ c) && decide (c ≤ '9')) || (decide (10 < eff b) && _)) = true
  simp only [Bool.or_eq_true, Bool.and_eq_true, decide_eq_true_eq, char_le]
  have e0 : '0'.toNat = 48 := rfl
  have e9 : '9'.toNat = 57 := rfl
  have ea : 'a'.toNat = 97 := rfl
  have eA : 'A'.toNat = 65 := rfl
  unfold eff at *
  rcases h with ⟨h1, h2⟩ | ⟨h1, h2, h3 | h3⟩ <;> split at hd <;> split <;> omega

theorem Dg.isNumeral {c : Char} (hb : eff C.base ≤ 16) (h : Dg C.base c) : isNumeral C (some c) = true := by
  obtain ⟨d, h, hd⟩ := h
  unfold Scan.isNumeral isDigit letterBelow
  have e0 : '0'.toNat = 48 := rfl
  have e9 : '9'.toNat = 57 := rfl
  have ea : 'a'.toNat = 97 := rfl
  have eA : 'A'.toNat = 65 := rfl
  have ea : 'a'.toNat = 97 := rfl
  by_cases hx : '0' ≤ c ∧ c ≤ '9'
  · simp [hx]
  · dsimp only
    rw [if_neg (by simp only [Bool.and_eq_true, decide_eq_true_eq]; exact hx)]
    simp only [char_le] at hx
    simp only [char_le]
    have : 10 ≤ d := by rcases h with h | h <;> omega
    have hb' : C.base ≠ 0 := by
      intro h0
      rw [h0] at hd
      unfold eff at hd
      rw [if_pos rfl] at hd
      omega
    have he : eff C.base = C.base := if_neg hb'
    rw [he] at hd
    rw [if_neg (by omega)]
    simp only [Bool.or_eq_true, Bool.and_eq_true, decide_eq_true_eq]
    rcases h with ⟨h1, h2⟩ | ⟨h1, h2, h3 | h3⟩ <;> omega

theorem Dg.allDigits {b : Nat} {c : Char} (hb : eff b ≤ 16) (h : Dg b c) (sawJ : Bool) (s : List Char) : isAllDigits b sawJ (c :: s) = isAllDigits b sawJ s := by
  obtain ⟨d, h, hd⟩ := h
  have hj := h.plain.2.2.2.2.2 (by omega)
  simp only [isAllDigits]
  rw [if_neg (by tauto)]
  by_cases hx : isDigit c = true
  · rw [if_pos hx]
  · rw [if_neg hx, if_pos]
    unfold letterBelow
    unfold isDigit at hx
    simp only [Bool.or_eq_true, Bool.and_eq_true, decide_eq_true_eq, char_le] at hx ⊢
    have e0 : '0'.toNat = 48 := rfl
    have e9 : '9'.toNat = 57 := rfl
    have ea : 'a'.toNat = 97 := rfl
    have eA : 'A'.toNat = 65 := rfl
    unfold eff at *
    rcases h with ⟨h1, h2⟩ | ⟨h1, h2, h3 | h3⟩ <;> split at hd <;> omega

theorem Digit.ascii {c : Char} {d : Nat} (h : Digit c d) : c.toNat < 128 ∧ (('0' ≤ c ∧ c ≤ '9') ∨ ('a' ≤ c ∧ c ≤ 'z') ∨ ('A' ≤ c ∧ c ≤ 'Z')) := by
  have e0 : '0'.toNat = 48 := rfl
  have e9 : '9'.toNat = 57 := rfl
  have ea : 'a'.toNat = 97 := rfl
  have eA : 'A'.toNat = 65 := rfl
  have ez : 'z'.toNat = 122 := rfl
  have eZ : 'Z'.toNat = 90 := rfl
  simp only [char_le]
  rcases h with ⟨h1, h2⟩ | ⟨h1, h2, h3 | h3⟩ <;> omega

theorem Dg.alnum (hU : U.Ok) {b : Nat} {c : Char} (h : Dg b c) : isAlphaNumeric U c = true := by
  obtain ⟨d, h, _⟩ := h
  obtain ⟨h1, h2⟩ := h.ascii
  unfold isAlphaNumeric
  rw [hU.letter c h1, hU.digit c h1]
  unfold isDigit
  rcases h2 with h | h | h <;> simp [h]

/-- `scanNumber` on digits of the base. -/
theorem scanNumber_dg (hU : U.Ok) (hb : eff C.base ≤ 16) {a ds rest : List Char} {c : Char} {s j : Bool} (hd : ∀ x ∈ ds, Dg C.base x)
    (hc : (c = ' ' ∨ c = ')' ∨ c = '\n') ∨ (c = 'j' ∧ j = true) ∨ (c = '/' ∧ s = true)) :
    scanNumber U C s j (a ++ ds ++ c :: rest) a.length = (true, (a ++ ds).length) := by
  have hnd : (∀ b, eff b ≤ 16 → digitOf b c = false) ∧ c ≠ '.' ∧ "eEpP".toList.contains c = false ∧ c ∉ ['x', 'X', 'o', 'O', 'b', 'B', '0'] := by
    have : ∀ c ∈ [' ', ')', '\n', 'j', '/'], (∀ b, eff b ≤ 16 → digitOf b c = false) ∧ c ≠ '.' ∧ "eEpP".toList.contains c = false ∧ c ∉ ['x', 'X', 'o', 'O', 'b', 'B', '0'] := by
      intro c hc
      refine ⟨?_, ?_⟩
      · intro b hb
        have : ∀ c ∈ [' ', ')', '\n', 'j', '/'], ∀ k ≤ 16, (c == '_' || isDigit c || (decide (10 < k) && letterBelow (k - 10) c)) = false := by decide
        exact this c hc (eff b) hb
      · have : ∀ c ∈ [' ', ')', '\n', 'j', '/'], c ≠ '.' ∧ "eEpP".toList.contains c = false ∧ c ∉ ['x', 'X', 'o', 'O', 'b', 'B', '0'] := by decide
        exact this c hc
    apply this
    rcases hc with (rfl | rfl | rfl) | ⟨rfl, _⟩ | ⟨rfl, _⟩ <;> decide
  have hpk : peek (a ++ ds ++ c :: rest) (a ++ ds).length = some c := by
    unfold peek
    rw [List.getElem?_append_right (Nat.le_refl _), Nat.sub_self]
    rfl
  have hacc : ∀ f : Char → Bool, f c = false → accept f (a ++ ds ++ c :: rest) (a ++ ds).length = (false, (a ++ ds).length) := by
    intro f hf
    unfold accept
    rw [hpk]
    simp [hf]
  -- the run of digits, from any place in them
  have hrun : ∀ d1 d2, ds = d1 ++ d2 → acceptRun (digitOf C.base) (a ++ ds ++ c :: rest) (a ++ d1).length = (a ++ ds).length := by
    rintro d1 d2 rfl
    have := acceptRun_append (d := digitOf C.base) (a := a ++ d1) (w := d2) (rest := c :: rest) (by
      intro x hx; exact (hd x (by simp [hx])).digitOf hb) (by intro x hx; simp at hx; subst hx; exact hnd.1 _ hb)
    rw [← List.append_assoc]
    rw [this]
    simp [Nat.add_assoc]
  have hstart : ∃ d1 d2, ds = d1 ++ d2 ∧ numStart C (a ++ ds ++ c :: rest) a.length = (digitOf C.base, (a ++ d1).length) := by
    by_cases h0 : C.base = 0
    · unfold numStart
      rw [if_pos h0, h0]
      cases ds with
      | nil =>
        refine ⟨[], [], rfl, ?_⟩
        have := hacc (· == '0') (by simpa using fun h => hnd.2.2.2 (by simp [h]))
        rw [List.append_nil] at this ⊢
        rw [this]
        rfl
      | cons x ds =>
        have hpx : peek (a ++ (x :: ds) ++ c :: rest) a.length = some x := by
          unfold peek
          rw [List.append_assoc, List.getElem?_append_right (Nat.le_refl _), Nat.sub_self]
          rfl
        by_cases hx : x = '0'
        · subst hx
          have ha : accept (· == '0') (a ++ ('0' :: ds) ++ c :: rest) a.length = (true, a.length + 1) := by
            unfold accept; rw [hpx]; rfl
          refine ⟨['0'], ds, rfl, ?_⟩
          rw [ha]
          -- what follows
          obtain ⟨y, hy, hyn⟩ : ∃ y, peek (a ++ ('0' :: ds) ++ c :: rest) (a.length + 1) = some y ∧ y ∉ ['x', 'X', 'o', 'O', 'b', 'B'] := by
            have hl : a.length + 1 = (a ++ ['0']).length := by simp
            have e : a ++ ('0' :: ds) ++ c :: rest = (a ++ ['0']) ++ (ds ++ c :: rest) := by simp
            rw [hl, e]
            unfold peek
            rw [List.getElem?_append_right (Nat.le_refl _), Nat.sub_self]
            cases ds with
            | nil => exact ⟨c, rfl, fun h => hnd.2.2.2 (by simp at h ⊢; tauto)⟩
            | cons y ds =>
              refine ⟨y, rfl, ?_⟩
              obtain ⟨d, hy1, hy2⟩ := hd y (by simp)
              rw [h0] at hy2
              have hy2 : d < 10 := hy2
              have := hy1.noPrefix hy2
              intro hm
              have h2 : ∀ y ∈ ['x', 'X', 'o', 'O', 'b', 'B'], prefixBase y ≠ none := by decide
              exact h2 y hm this
          have hno : ∀ f : Char → Bool, f y = false → accept f (a ++ ('0' :: ds) ++ c :: rest) (a.length + 1) = (false, a.length + 1) := by
            intro f hf
            unfold accept
            rw [hy]
            simp [hf]
          simp at hyn
          dsimp only
          rw [hno _ (by simp; tauto), hno _ (by simp; tauto), hno _ (by simp; tauto)]
          simp
        · have ha : accept (· == '0') (a ++ (x :: ds) ++ c :: rest) a.length = (false, a.length) := by
            unfold accept; rw [hpx]; simp [hx]
          refine ⟨[], x :: ds, rfl, ?_⟩
          rw [ha]
          simp
    · refine ⟨[], ds, rfl, ?_⟩
      unfold numStart
      rw [if_neg h0]
      simp
  have hend : numEnd C (a ++ ds ++ c :: rest) a.length = (a ++ ds).length := by
    obtain ⟨d1, d2, h12, hs⟩ := hstart
    unfold numEnd
    rw [hs]
    dsimp only
    unfold numPoint
    rw [hrun d1 d2 h12, hacc _ (by simpa using hnd.2.1)]
    dsimp only
    unfold numExp
    rw [hacc _ hnd.2.2.1]
  rw [scanNumber_eq, hend, hpk]
  dsimp only
  rcases hc with h | ⟨rfl, rfl⟩ | ⟨rfl, rfl⟩
  · have hterm : atTerminator U (a ++ ds ++ c :: rest) (a ++ ds).length = true := by
      unfold atTerminator
      rw [hpk]
      dsimp only
      rcases h with rfl | rfl | rfl
      · rfl
      · have : U.punct ')' = true := by rw [hU.punct ')' (by decide)]; rfl
        simp [this]
      · rfl
    have hal : isAlphaNumeric U c = false := by
      rcases h with rfl | rfl | rfl <;> exact not_alnum hU (by decide)
    have hne : c ≠ '/' ∧ c ≠ 'j' := by rcases h with rfl | rfl | rfl <;> decide
    rw [if_neg (by tauto), if_neg (by tauto), if_neg (by simp [hal]), if_neg (by rw [hterm]; simp [hnd.2.1])]
  · rw [if_neg (by simp), if_pos ⟨rfl, rfl⟩]
  · rw [if_pos ⟨rfl, rfl⟩]

/-- The text of a real number in the base: sign, digits, and perhaps a slash and digits. -/
def RealText (b : Nat) (t : List Char) : Prop :=
  ∃ sg ds fr : List Char, t = sg ++ ds ++ fr ∧ (sg = [] ∨ sg = ['-']) ∧ ds ≠ [] ∧ (∀ x ∈ ds, Dg b x) ∧
    (fr = [] ∨ ∃ es, fr = '/' :: es ∧ es ≠ [] ∧ ∀ x ∈ es, Dg b x)

theorem Dg.ne {b : Nat} {c : Char} (h : Dg b c) : c ≠ '+' ∧ c ≠ '-' ∧ c ≠ '/' ∧ c ≠ '\\' ∧ c ≠ '.' ∧ c ≠ '_' := by
  obtain ⟨d, h, _⟩ := h
  have := h.plain
  have h2 : c ≠ '\\' := by
    rintro rfl
    have := digitVal_digit h
    rw [show digitVal '\\' = none from rfl] at this
    cases this
  tauto

theorem acceptNumber_dg (hU : U.Ok) (hb : eff C.base ≤ 16) {a t rest : List Char} {c : Char} (ht : RealText C.base t)
    (hc : (c = ' ' ∨ c = ')' ∨ c = '\n') ∨ c = 'j') : acceptNumber U C (a ++ t ++ c :: rest) a.length = .ok (a ++ t).length := by
  obtain ⟨sg, ds, fr, rfl, hsg, hne, hds, hfr⟩ := ht
  obtain ⟨d, ds', rfl⟩ : ∃ d ds', ds = d :: ds' := by
    cases ds with
    | nil => exact absurd rfl hne
    | cons d ds' => exact ⟨d, ds', rfl⟩
  have hd : Dg C.base d := hds d (by simp)
  have hdne := hd.ne
  have hnum : isNumeral C (some d) = true := hd.isNumeral hb
  have hcs : c ≠ '/' := by rcases hc with (rfl | rfl | rfl) | rfl <;> decide
  -- the text, seen from after the sign
  have hinp : a ++ (sg ++ d :: ds' ++ fr) ++ c :: rest = (a ++ sg) ++ (d :: ds') ++ (fr ++ c :: rest) := by simp
  have hpd : peek (a ++ (sg ++ d :: ds' ++ fr) ++ c :: rest) (a ++ sg).length = some d := by
    rw [hinp]
    unfold peek
    rw [List.append_assoc, List.getElem?_append_right (Nat.le_refl _), Nat.sub_self]
    rfl
  have hacc : accept (fun c => c == '+' || c == '-') (a ++ (sg ++ d :: ds' ++ fr) ++ c :: rest) a.length = (decide (sg = ['-']), (a ++ sg).length) := by
    unfold accept
    rcases hsg with rfl | rfl
    · rw [List.append_nil] at hpd ⊢
      rw [hpd]
      simp [hdne]
    · have : peek (a ++ (['-'] ++ d :: ds' ++ fr) ++ c :: rest) a.length = some '-' := by
        unfold peek
        rw [List.append_assoc, List.getElem?_append_right (Nat.le_refl _), Nat.sub_self]
        rfl
      rw [this]
      simp
  unfold acceptNumber
  rw [hacc]
  dsimp only
  rw [hpd, if_neg (by simp [hdne]), if_neg (by simp [hnum])]
  -- the numerator
  have h1 : scanNumber U C true true (a ++ (sg ++ d :: ds' ++ fr) ++ c :: rest) (a ++ sg).length = (true, (a ++ sg ++ (d :: ds')).length) := by
    rw [hinp]
    rcases hfr with rfl | ⟨es, rfl, hes, hesd⟩
    · exact scanNumber_dg hU hb hds (by tauto)
    · exact scanNumber_dg hU hb hds (by tauto)
  rw [h1]
  dsimp only
  rcases hfr with rfl | ⟨es, rfl, hes, hesd⟩
  · have : peek (a ++ (sg ++ d :: ds' ++ []) ++ c :: rest) (a ++ sg ++ d :: ds').length = some c := by
      rw [hinp]
      unfold peek
      rw [List.nil_append, List.getElem?_append_right (Nat.le_refl _), Nat.sub_self]
      rfl
    rw [this, if_pos (by simpa using hcs)]
    simp
  · obtain ⟨e, es', rfl⟩ : ∃ e es', es = e :: es' := by
      cases es with
      | nil => exact absurd rfl hes
      | cons e es' => exact ⟨e, es', rfl⟩
    have he : Dg C.base e := hesd e (by simp)
    have hinp2 : a ++ (sg ++ d :: ds' ++ '/' :: e :: es') ++ c :: rest = (a ++ sg ++ d :: ds' ++ ['/']) ++ (e :: es') ++ (c :: rest) := by simp
    have p1 : peek (a ++ (sg ++ d :: ds' ++ '/' :: e :: es') ++ c :: rest) (a ++ sg ++ d :: ds').length = some '/' := by
      rw [hinp]
      unfold peek
      rw [List.getElem?_append_right (Nat.le_refl _), Nat.sub_self]
      rfl
    have hl : (a ++ sg ++ d :: ds').length + 1 = (a ++ sg ++ d :: ds' ++ ['/']).length := by simp; omega
    have p2 : peek (a ++ (sg ++ d :: ds' ++ '/' :: e :: es') ++ c :: rest) ((a ++ sg ++ d :: ds').length + 1) = some e := by
      rw [hinp2, hl]
      unfold peek
      rw [List.append_assoc, List.getElem?_append_right (Nat.le_refl _), Nat.sub_self]
      rfl
    rw [p1, p2, if_neg (by simp), if_neg (by simp [he.isNumeral hb])]
    have h2 : scanNumber U C false true (a ++ (sg ++ d :: ds' ++ '/' :: e :: es') ++ c :: rest) ((a ++ sg ++ d :: ds').length + 1) = (true, (a ++ sg ++ d :: ds' ++ ['/'] ++ (e :: es')).length) := by
      rw [hinp2, hl]
      exact scanNumber_dg hU hb hesd (by tauto)
    rw [h2]
    dsimp only
    have p3 : peek (a ++ (sg ++ d :: ds' ++ '/' :: e :: es') ++ c :: rest) (a ++ sg ++ d :: ds' ++ ['/'] ++ e :: es').length = some c := by
      rw [hinp2]
      unfold peek
      rw [List.getElem?_append_right (Nat.le_refl _), Nat.sub_self]
      rfl
    have hcd : c ≠ '.' := by rcases hc with (rfl | rfl | rfl) | rfl <;> decide
    rw [p3, if_neg (by simpa using hcd)]
    simp

/-- The text of a number: one real number or two with a `j` between them. -/
def NumText (b : Nat) (t : List Char) : Prop := RealText b t ∨ ∃ x y, t = x ++ 'j' :: y ∧ RealText b x ∧ RealText b y

theorem peek_append (a : List Char) (d : Char) (s : List Char) : peek (a ++ d :: s) a.length = some d := by
  unfold peek
  rw [List.getElem?_append_right (Nat.le_refl _), Nat.sub_self]
  rfl

theorem lexComplex_dg (hU : U.Ok) (hb : eff C.base ≤ 16) {t rest : List Char} {c : Char} (ht : NumText C.base t)
    (hc : c = ' ' ∨ c = ')' ∨ c = '\n') : lexComplex U C (t ++ c :: rest) 0 = .tok .number t.length := by
  have hcj : c ≠ 'j' := by rcases hc with rfl | rfl | rfl <;> decide
  have hpk := peek_append
  rcases ht with ht | ⟨a, b, rfl, ha, hb'⟩
  · have h1 := acceptNumber_dg (a := []) (rest := rest) hU hb ht (Or.inl hc)
    rw [List.nil_append, List.length_nil] at h1
    unfold lexComplex
    rw [h1]
    dsimp only
    unfold accept
    rw [hpk]
    simp [hcj]
  · have h1 := acceptNumber_dg (a := []) (rest := b ++ c :: rest) hU hb ha (Or.inr (rfl : 'j' = 'j'))
    rw [List.nil_append, List.length_nil] at h1
    have e : a ++ 'j' :: b ++ c :: rest = a ++ 'j' :: (b ++ c :: rest) := by simp
    unfold lexComplex
    rw [e, h1]
    dsimp only
    have h2 : accept (· == 'j') (a ++ 'j' :: (b ++ c :: rest)) a.length = (true, a.length + 1) := by
      unfold accept
      rw [hpk]
      rfl
    rw [h2]
    dsimp only
    have h3 := acceptNumber_dg (a := a ++ ['j']) (rest := rest) hU hb hb' (Or.inl hc)
    have e2 : a ++ ['j'] ++ b ++ c :: rest = a ++ 'j' :: (b ++ c :: rest) := by simp
    have e3 : (a ++ ['j']).length = a.length + 1 := by simp
    rw [e2, e3] at h3
    rw [h3]
    simp

/-- What the scanner takes for a word when a number begins with a letter: its digits up to the sign, slash or space. -/
theorem word_of_text (hU : U.Ok) {b : Nat} (hb : eff b ≤ 16) {t rest : List Char} {c : Char} (ht : NumText b t) (hh : ∀ x, t.head? = some x → x ≠ '-') (hc : c = ' ' ∨ c = ')' ∨ c = '\n') :
    ∃ d w r, t ++ c :: rest = d :: w ++ r ∧ Dg b d ∧ (∀ x ∈ w, x = 'j' ∨ Dg b x) ∧ isAllDigits b false (d :: w) = true ∧
      (∀ x, r.head? = some x → isAlphaNumeric U x = false ∧ x ≠ '@') ∧ atTerminator U (d :: w ++ r) (d :: w).length = true := by
  have key : ∀ (d : Char) (w : List Char) (x : Char) (s : List Char), (x = ' ' ∨ x = ')' ∨ x = '\n' ∨ x = '/' ∨ x = '-') →
      (∀ y, (x :: s).head? = some y → isAlphaNumeric U y = false ∧ y ≠ '@') ∧ atTerminator U (d :: w ++ x :: s) (d :: w).length = true := by
    intro d w x s hx
    have hp : isAlphaNumeric U x = false ∧ x ≠ '@' := by
      rcases hx with rfl | rfl | rfl | rfl | rfl <;> exact ⟨not_alnum hU (by decide), by decide⟩
    refine ⟨?_, ?_⟩
    · intro y hy
      simp at hy
      subst hy
      exact hp
    · unfold atTerminator
      rw [peek_append]
      dsimp only
      rcases hx with rfl | rfl | rfl | rfl | rfl
      · rfl
      · have : U.punct ')' = true := by rw [hU.punct ')' (by decide)]; rfl
        simp [this]
      · rfl
      · have : U.punct '/' = true := by rw [hU.punct '/' (by decide)]; rfl
        simp [this]
      · have : U.punct '-' = true := by rw [hU.punct '-' (by decide)]; rfl
        simp [this]
  have all : ∀ (sj : Bool) (l s : List Char), (∀ x ∈ l, Dg b x) → isAllDigits b sj (l ++ s) = isAllDigits b sj s := by
    intro sj l s hl
    induction l with
    | nil => rfl
    | cons x l ih => rw [List.cons_append, (hl x (by simp)).allDigits hb, ih fun y hy => hl y (by simp [hy])]
  have all' : ∀ (sj : Bool) (l : List Char), (∀ x ∈ l, Dg b x) → isAllDigits b sj l = true := by
    intro sj l hl
    have := all sj l [] hl
    rw [List.append_nil] at this
    rw [this]
    rfl
  -- a real number, and what follows it
  have real : ∀ (x : List Char), RealText b x → (∀ y, x.head? = some y → y ≠ '-') →
      ∃ d ds fr, x = d :: ds ++ fr ∧ (∀ y ∈ d :: ds, Dg b y) ∧ (fr = [] ∨ ∃ es, fr = '/' :: es) := by
    rintro x ⟨sg, ds, fr, rfl, hsg, hne, hds, hfr⟩ hh
    have : sg = [] := by
      rcases hsg with h | rfl
      · exact h
      · exact absurd rfl (hh '-' rfl)
    subst this
    cases ds with
    | nil => exact absurd rfl hne
    | cons d ds => exact ⟨d, ds, fr, rfl, hds, by rcases hfr with h | ⟨es, h, _⟩; exact Or.inl h; exact Or.inr ⟨es, h⟩⟩
  rcases ht with ht | ⟨x, y, rfl, hx, hy⟩
  · obtain ⟨d, ds, fr, rfl, hd, hfr⟩ := real t ht hh
    rcases hfr with rfl | ⟨es, rfl⟩
    · obtain ⟨k1, k2⟩ := key d ds c rest (by tauto)
      exact ⟨d, ds, c :: rest, by simp, hd d (by simp), fun x hx => Or.inr (hd x (by simp [hx])), all' _ _ hd, k1, k2⟩
    · obtain ⟨k1, k2⟩ := key d ds '/' (es ++ c :: rest) (by tauto)
      exact ⟨d, ds, '/' :: (es ++ c :: rest), by simp, hd d (by simp), fun x hx => Or.inr (hd x (by simp [hx])), all' _ _ hd, k1, k2⟩
  · obtain ⟨d, ds, fr, rfl, hd, hfr⟩ := real x hx (by
      intro z hz
      refine hh z ?_
      cases x with
      | nil => cases hz
      | cons q x => simpa using hz)
    rcases hfr with rfl | ⟨es, rfl⟩
    · obtain ⟨sg, ds2, fr2, rfl, hsg, hne2, hds2, hfr2⟩ := hy
      rcases hsg with rfl | rfl
      · -- the word goes on after the `j`
        have hall : isAllDigits b false (d :: (ds ++ 'j' :: ds2)) = true := by
          have := all false (d :: ds) ('j' :: ds2) hd
          rw [List.cons_append] at this
          rw [this]
          simp only [isAllDigits]
          rw [if_pos ⟨trivial, trivial⟩]
          exact all' _ _ hds2
        have hw : ∀ x ∈ ds ++ 'j' :: ds2, x = 'j' ∨ Dg b x := by
          intro x hx
          rcases List.mem_append.1 hx with h | h
          · exact Or.inr (hd x (by simp [h]))
          · rcases List.mem_cons.1 h with h | h
            · exact Or.inl h
            · exact Or.inr (hds2 x h)
        rcases hfr2 with rfl | ⟨es, rfl, _, _⟩
        · obtain ⟨k1, k2⟩ := key d (ds ++ 'j' :: ds2) c rest (by tauto)
          exact ⟨d, ds ++ 'j' :: ds2, c :: rest, by simp, hd d (by simp), hw, hall, k1, k2⟩
        · obtain ⟨k1, k2⟩ := key d (ds ++ 'j' :: ds2) '/' (es ++ c :: rest) (by tauto)
          exact ⟨d, ds ++ 'j' :: ds2, '/' :: (es ++ c :: rest), by simp, hd d (by simp), hw, hall, k1, k2⟩
      · have hall : isAllDigits b false (d :: (ds ++ ['j'])) = true := by
          have := all false (d :: ds) ['j'] hd
          rw [List.cons_append] at this
          rw [this]
          rfl
        have hw : ∀ x ∈ ds ++ ['j'], x = 'j' ∨ Dg b x := by
          intro x hx
          rcases List.mem_append.1 hx with h | h
          · exact Or.inr (hd x (by simp [h]))
          · simp at h; exact Or.inl h
        obtain ⟨k1, k2⟩ := key d (ds ++ ['j']) '-' (ds2 ++ fr2 ++ c :: rest) (by tauto)
        exact ⟨d, ds ++ ['j'], '-' :: (ds2 ++ fr2 ++ c :: rest), by simp, hd d (by simp), hw, hall, k1, k2⟩
    · obtain ⟨k1, k2⟩ := key d ds '/' (es ++ 'j' :: y ++ c :: rest) (by tauto)
      exact ⟨d, ds, '/' :: (es ++ 'j' :: y ++ c :: rest), by simp, hd d (by simp), fun x hx => Or.inr (hd x (by simp [hx])), all' _ _ hd, k1, k2⟩

theorem Dg.word {b : Nat} (hb : eff b ≤ 16) {d : Char} {w : List Char} (hd : Dg b d) : d :: w ≠ "op".toList ∧ d :: w ≠ "opdelete".toList ∧ d :: w ≠ ['o'] := by
  have : d ≠ 'o' := by
    rintro rfl
    obtain ⟨k, h, hk⟩ := hd
    have := digitVal_digit h
    rw [show digitVal 'o' = some 24 from rfl] at this
    cases this
    omega
  refine ⟨?_, ?_, ?_⟩ <;> (intro h; injection h; tauto)

theorem NumText.head {b : Nat} {t : List Char} (h : NumText b t) : ∃ c s, t = c :: s ∧ (Dg b c ∨ (c = '-' ∧ ∃ d s', s = d :: s' ∧ Dg b d)) := by
  have real : ∀ {t}, RealText b t → ∃ c s, t = c :: s ∧ (Dg b c ∨ (c = '-' ∧ ∃ d s', s = d :: s' ∧ Dg b d)) := by
    rintro t ⟨sg, ds, fr, rfl, hsg, hne, hds, hfr⟩
    cases ds with
    | nil => exact absurd rfl hne
    | cons d ds =>
      rcases hsg with rfl | rfl
      · exact ⟨d, ds ++ fr, rfl, Or.inl (hds d (by simp))⟩
      · exact ⟨'-', d :: ds ++ fr, rfl, Or.inr ⟨rfl, d, ds ++ fr, rfl, hds d (by simp)⟩⟩
  rcases h with h | ⟨x, y, rfl, hx, _⟩
  · exact real h
  · obtain ⟨c, s, rfl, hcs⟩ := real hx
    refine ⟨c, s ++ 'j' :: y, rfl, ?_⟩
    rcases hcs with h | ⟨rfl, d, s', rfl, hd⟩
    · exact Or.inl h
    · exact Or.inr ⟨rfl, d, s' ++ 'j' :: y, rfl, hd⟩

theorem lexIdentifier_dg (hU : U.Ok) (hb : eff C.base ≤ 16) (hops : NoDigitOps C) {t rest : List Char} {c : Char} (ht : NumText C.base t) (hh : ∀ x, t.head? = some x → x ≠ '-')
    (hc : c = ' ' ∨ c = ')' ∨ c = '\n') : lexIdentifier U C (t ++ c :: rest) = .tok .number t.length := by
  have hlex := lexComplex_dg (rest := rest) hU hb ht hc
  obtain ⟨d, w, r, e, hd, hw, hall, hr, hterm⟩ := word_of_text (rest := rest) hU hb ht hh hc
  have hal : ∀ x ∈ d :: w, isAlphaNumeric U x = true := by
    intro x hx
    rcases List.mem_cons.1 hx with rfl | hx
    · exact hd.alnum hU
    · rcases hw x hx with rfl | h
      · unfold isAlphaNumeric
        rw [hU.letter 'j' (by decide)]
        rfl
      · exact h.alnum hU
  rw [e] at hlex ⊢
  have h0 : acceptRun (· == '@') (d :: w ++ r) 0 = 0 := by
    have := acceptRun_append (d := (· == '@')) (a := []) (w := []) (rest := d :: w ++ r) (by simp) (by
      intro x hx
      simp at hx
      subst hx
      have : d ≠ '@' := by
        rintro rfl
        have h1 := hd.alnum hU
        rw [not_alnum hU (by decide)] at h1
        cases h1
      simpa using this)
    simpa using this
  have h1 : acceptRun (isAlphaNumeric U) (d :: w ++ r) 0 = (d :: w).length := by
    have := acceptRun_append (d := isAlphaNumeric U) (a := []) (w := d :: w) (rest := r) hal (fun x hx => (hr x hx).1)
    simpa using this
  have h2 : acceptRun (· == '@') (d :: w ++ r) (d :: w).length = (d :: w).length := by
    have := acceptRun_append (d := (· == '@')) (a := d :: w) (w := []) (rest := r) (by simp) (by
      intro x hx
      simpa using (hr x hx).2)
    simpa using this
  have hkw := hd.word (w := w) hb
  unfold lexIdentifier
  dsimp only
  rw [h0, h1, h2, hterm, if_neg (by simp)]
  have hword : ((d :: w ++ r).drop 0).take ((d :: w).length - 0) = d :: w := by simp
  rw [hword, if_neg hkw.1, if_neg hkw.2.1, if_neg (by tauto), if_neg (by rw [hops d w hd hw]; simp), if_neg (by simp), if_pos hall, hlex]

/-- A number is one token. -/
theorem next_dg (hU : U.Ok) (hb : eff C.base ≤ 16) (hops : NoDigitOps C) {t rest : List Char} {p : Option Char} (ht : NumText C.base t) (hp : Before p) (hr : After rest) :
    ∃ p', next U C p (t ++ rest) = .tok ⟨.number, t⟩ p' rest := by
  obtain ⟨c, s, rfl, hc⟩ := hr
  have hlex := lexComplex_dg (rest := s) hU hb ht hc
  have hid := lexIdentifier_dg (rest := s) (c := c) hU hb hops ht
  obtain ⟨d, t', rfl, hd⟩ := ht.head
  have hany : lexAny U C p (d :: t' ++ c :: s) = .tok .number (d :: t').length := by
    rcases hd with hd | ⟨rfl, e, t'', rfl, he⟩
    · have hal := hd.alnum hU
      have hn : ∀ x ∈ "\n;#'\"`-+.=?/&|^,!><*@ \t[:]()%\\".toList, d ≠ x := by
        rintro x hx rfl
        exact Scan.alnum_plain hU hal hx
      have n1 := hn '\n' (by decide)
      have n2 := hn ';' (by decide)
      have n3 := hn '#' (by decide)
      have n4 : ¬(d = '\'' ∨ d = '"') := not_or.2 ⟨hn _ (by decide), hn _ (by decide)⟩
      have n5 := hn '`' (by decide)
      have n6 : ¬(d = '-' ∨ d = '+') := not_or.2 ⟨hn _ (by decide), hn _ (by decide)⟩
      by_cases hdd : isDigit d = true
      · rw [← hlex]
        rw [List.cons_append]
        simp only [lexAny]
        rw [if_neg n1, if_neg n2, if_neg n3, if_neg n4, if_neg n5, if_neg n6, if_pos (Or.inr hdd)]
      · have hid := hid (by intro x hx; simp at hx; subst hx; exact hd.ne.2.1) hc
        rw [← hid]
        have hop : isOperator (d :: t' ++ c :: s) = none := by
          have h0 : acceptRun (· == '@') (d :: t' ++ c :: s) 0 = 0 := by
            have := acceptRun_append (d := (· == '@')) (a := []) (w := []) (rest := d :: t' ++ c :: s) (by simp) (by
              intro x hx
              simp at hx
              subst hx
              simpa using hn '@' (by decide))
            simpa using this
          unfold isOperator
          dsimp only
          rw [h0]
          have : peek (d :: t' ++ c :: s) 0 = some d := rfl
          rw [this]
          dsimp only
          rw [Scan.isOperatorToken_none hU hal]
          rfl
        rw [List.cons_append] at hop ⊢
        simp only [lexAny]
        rw [if_neg n1, if_neg n2, if_neg n3, if_neg n4, if_neg n5, if_neg n6, if_neg (not_or.2 ⟨hn '.' (by decide), hdd⟩), if_neg (hn '=' (by decide)), hop]
        dsimp only
        rw [if_pos (Or.inl hal)]
    · rw [← hlex]
      have hne : e ≠ '.' := he.ne.2.2.2.2.1
      have hl : lexAny U C p ('-' :: e :: t'' ++ c :: s) = lexSign U C p ('-' :: e :: t'' ++ c :: s) := rfl
      rw [hl]
      unfold lexSign
      rcases hp with rfl | rfl
      · dsimp only
        rw [if_neg (by rw [not_alnum hU (by decide)]; simp), if_neg]
        rintro ⟨h, _⟩
        simp [peek] at h
        exact hne h
      · dsimp only
        rw [if_neg (by rw [not_alnum hU (by decide)]; simp), if_neg]
        rintro ⟨h, _⟩
        simp [peek] at h
        exact hne h
  have hsp : isSpace d = false := by
    rcases hd with hd | ⟨rfl, _⟩
    · cases hs : isSpace d with
      | false => rfl
      | true =>
        simp only [isSpace, Bool.or_eq_true, beq_iff_eq] at hs
        have hal := hd.alnum hU
        rcases hs with rfl | rfl <;> (rw [not_alnum hU (by decide)] at hal; cases hal)
    · rfl
  rw [List.cons_append] at hany ⊢
  rw [next_plain hsp, hany, ← List.cons_append]
  refine ⟨before (peek (d :: t' ++ c :: s) ((d :: t').length - 1)), ?_⟩
  dsimp only
  rw [List.take_left, List.drop_left]

/-! ## The digits of a number -/

theorem digitChar_digit : ∀ d, d < 16 → Digit (Nat.digitChar d) d := by
  have : ∀ d, d < 16 → (d < 10 ∧ (Nat.digitChar d).toNat = '0'.toNat + d) ∨ (10 ≤ d ∧ d < 36 ∧ (Nat.digitChar d).toNat = 'a'.toNat + (d - 10)) := by decide
  intro d h
  rcases this d h with h | h
  · exact Or.inl h
  · exact Or.inr ⟨h.1, h.2.1, Or.inl h.2.2⟩

theorem forall₂_snoc {α β : Type} {R : α → β → Prop} {l : List α} {m : List β} {a : α} {b : β} (h : List.Forall₂ R l m) (hab : R a b) : List.Forall₂ R (l ++ [a]) (m ++ [b]) := by
  induction h with
  | nil => exact .cons hab .nil
  | cons h _ ih => exact .cons h ih

theorem toDigits_numeral {b : Nat} (h2 : 2 ≤ b) (h16 : b ≤ 16) (n : Nat) : Numeral b (Nat.toDigits b n) n ∧ (n ≠ 0 → (Nat.toDigits b n).head? ≠ some '0') := by
  induction n using Nat.strongRecOn with
  | ind n ih =>
    by_cases hlt : n < b
    · rw [Nat.toDigits_of_lt_base hlt]
      refine ⟨⟨by simp, [n], .cons ⟨digitChar_digit n (by omega), hlt⟩ .nil, by simp [Nat.ofDigits]⟩, ?_⟩
      intro h
      simp [h]
    · obtain ⟨⟨hne, ds, hd, hn⟩, hz⟩ := ih (n / b) (Nat.div_lt_self (by omega) (by omega))
      have hmod := Nat.mod_lt n (show b > 0 by omega)
      have hpos : n / b ≠ 0 := by
        have := Nat.div_pos (Nat.le_of_not_lt hlt) (show 0 < b by omega)
        omega
      rw [Nat.toDigits_of_base_le (by omega) (by omega)]
      refine ⟨⟨by simp, ds ++ [n % b], forall₂_snoc hd ⟨digitChar_digit _ (by omega), hmod⟩, ?_⟩, ?_⟩
      · rw [List.reverse_append, List.reverse_singleton, List.singleton_append, Nat.ofDigits_cons, ← hn]
        have := Nat.div_add_mod n b
        omega
      · intro _
        have := hz hpos
        rw [List.head?_append]
        cases hh : (Nat.toDigits b (n / b)).head? with
        | none => exact absurd (List.head?_eq_none_iff.1 hh) hne
        | some x => rw [hh] at this; simpa using this

end Verif.Lit

namespace Verif.Lit
open Verif.Save (meanScal meanNum_num shrink_val isZeroNum_val Mean split_two)
open Verif.Num (CNum Cx shrinkBig shrinkRat)
open Verif.Arr (R)

/-- The number of the text of an integer. -/
theorem formatInt_form {b : Nat} (hb : BaseOk b) (i : Int) :
    ∃ sg neg, formatInt (eff b) i = sg ++ Nat.toDigits (eff b) i.natAbs ∧ Sign sg neg ∧ (sg = [] ∨ sg = ['-']) ∧ withSign neg (i.natAbs : Nat) = i ∧ (0 ≤ i → sg = []) := by
  unfold formatInt
  by_cases h : i < 0
  · refine ⟨['-'], true, by rw [if_pos h], Or.inr (Or.inr ⟨rfl, rfl⟩), Or.inr rfl, ?_, by omega⟩
    unfold withSign
    rw [if_pos rfl]
    have : (i : Rat) = ((-(i.natAbs : Int) : Int) : Rat) := by congr 1; omega
    rw [this, Int.cast_neg, Int.cast_natCast]
  · refine ⟨[], false, by rw [if_neg h], Or.inl ⟨rfl, rfl⟩, Or.inl rfl, ?_, fun _ => rfl⟩
    unfold withSign
    rw [if_neg (by simp)]
    have : (i : Rat) = (((i.natAbs : Int) : Int) : Rat) := by congr 1; omega
    rw [this]; rfl

theorem toDigits_read {b : Nat} (hb : BaseOk b) (n : Nat) :
    parseUint b (Nat.toDigits (eff b) n) = some n ∧ ∃ b' k, natScan b false (Nat.toDigits (eff b) n) = some (n, b', k, []) := by
  obtain ⟨h2, h16⟩ := eff_le hb
  obtain ⟨hn, hz⟩ := toDigits_numeral h2 h16 n
  by_cases h0 : b = 0
  · subst h0
    have e : eff 0 = 10 := rfl
    rw [e] at hn hz ⊢
    by_cases hn0 : n = 0
    · subst hn0
      rw [Nat.toDigits_zero]
      exact zero_zero
    · obtain ⟨hne, ds, hd, hv⟩ := hn
      have hu := Digs.noUnder hd
      refine numeral_zero (hz hn0) (fun h => hu (List.mem_of_mem_head? h)) (spaced_plain hu) ?_
      rw [filter_plain hu]
      exact ⟨hne, ds, hd, hv⟩
  · have e : eff b = b := if_neg h0
    rw [e] at hn ⊢
    exact numeral_base h0 hn

theorem parseOne_formatInt {b : Nat} (hb : BaseOk b) (i : Int) : ∃ x, parseOne b (formatInt (eff b) i) = some x ∧ x.isNum ∧ x.val = i := by
  obtain ⟨sg, neg, e, hsg, _, hv, _⟩ := formatInt_form hb i
  obtain ⟨h2, h16⟩ := eff_le hb
  obtain ⟨⟨_, ds, hd, _⟩, _⟩ := toDigits_numeral h2 h16 i.natAbs
  have hh := head_of_digs hd
  obtain ⟨hu, hs⟩ := toDigits_read hb i.natAbs
  rw [e, ← hv]
  exact parseOne_int hsg hh.1 hh.2 hu hs

theorem formatInt_chars {b : Nat} (hb : BaseOk b) (i : Int) : formatInt (eff b) i ≠ [] ∧ '/' ∉ formatInt (eff b) i ∧ 'j' ∉ formatInt (eff b) i := by
  obtain ⟨sg, neg, e, hsg, _, _, _⟩ := formatInt_form hb i
  obtain ⟨h2, h16⟩ := eff_le hb
  obtain ⟨⟨hne, ds, hd, _⟩, _⟩ := toDigits_numeral h2 h16 i.natAbs
  have h1 := digs_noj (by omega) hd
  have h3 := sign_noj hsg
  rw [e]
  refine ⟨by simp [hne], ?_, ?_⟩ <;> (simp only [List.mem_append]; tauto)

theorem formatInt_real {b : Nat} (hb : BaseOk b) (i : Int) : ∃ sg ds, formatInt (eff b) i = sg ++ ds ∧ (sg = [] ∨ sg = ['-']) ∧ ds ≠ [] ∧ (∀ x ∈ ds, Dg b x) ∧ (0 ≤ i → sg = []) := by
  obtain ⟨sg, neg, e, _, hsg, _, hp⟩ := formatInt_form hb i
  obtain ⟨h2, h16⟩ := eff_le hb
  obtain ⟨⟨hne, ds, hd, _⟩, _⟩ := toDigits_numeral h2 h16 i.natAbs
  exact ⟨sg, _, e, hsg, hne, fun x hx => Digs.mem hd x hx, hp⟩

theorem sprintInt_eq (b : Nat) (i : Int) : sprintInt b i = formatInt (eff b) i := rfl

theorem sprintBig_eq {md b : Nat} {i : Int} {t : List Char} (h : sprintBig md b i = .ok t) : t = formatInt (eff b) i := by
  unfold sprintBig at h
  dsimp only at h
  split at h
  · cases h
  · split at h
    · cases h; rfl
    · split at h
      · rename_i hb
        cases h
        rcases hb with rfl | rfl <;> rfl
      · split at h
        · rename_i hb; cases h; subst hb; rfl
        · split at h
          · rename_i hb; cases h; subst hb; rfl
          · split at h
            · rename_i hb; cases h; subst hb; rfl
            · cases h

theorem sprintBig_ok {b : Nat} (hb : b = 0 ∨ b = 2 ∨ b = 8 ∨ b = 10 ∨ b = 16) (i : Int) : ∃ t, sprintBig 0 b i = .ok t := by
  unfold sprintBig
  dsimp only
  rw [if_neg (by simp)]
  split
  · exact ⟨_, rfl⟩
  · rcases hb with rfl | rfl | rfl | rfl | rfl <;> exact ⟨_, rfl⟩

/-- The text of a real number, and what it is read as. -/
theorem sprintNum_text {md b : Nat} (hb : BaseOk b) {n : Num.Num} (hn : n.isNum) {t : List Char} (h : sprintNum md b n = .ok t) :
    RealText b t ∧ 'j' ∉ t ∧ t ≠ [] ∧ ∃ x, parseReal b t = some x ∧ x.isNum ∧ x.val = n.val := by
  have key : ∀ i : Int, RealText b (formatInt (eff b) i) ∧ 'j' ∉ formatInt (eff b) i ∧ formatInt (eff b) i ≠ [] ∧ ∃ x, parseReal b (formatInt (eff b) i) = some x ∧ x.isNum ∧ x.val = i := by
    intro i
    obtain ⟨h1, h2, h3⟩ := formatInt_chars hb i
    obtain ⟨sg, ds, e, hsg, hne, hds, _⟩ := formatInt_real hb i
    refine ⟨⟨sg, ds, [], by rw [e]; simp, hsg, hne, hds, Or.inl rfl⟩, h3, h1, ?_⟩
    unfold parseReal
    rw [if_neg (by simpa using h2)]
    exact parseOne_formatInt hb i
  cases n with
  | int i =>
    cases h
    exact key i
  | char c => exact absurd hn id
  | bigInt i =>
    have := sprintBig_eq (show sprintBig md b i = .ok t from h)
    subst this
    exact key i
  | bigRat r =>
    change ((sprintBig md b r.num).bind fun a => (sprintBig md b r.den).bind fun c => .ok (a ++ '/' :: c)) = .ok t at h
    cases hx : sprintBig md b r.num with
    | err e => rw [hx] at h; cases h
    | crash => rw [hx] at h; cases h
    | hang => rw [hx] at h; cases h
    | ok a =>
      rw [hx] at h
      cases hy : sprintBig md b r.den with
      | err e => rw [hy] at h; cases h
      | crash => rw [hy] at h; cases h
      | hang => rw [hy] at h; cases h
      | ok c =>
        rw [hy] at h
        have ht : t = a ++ '/' :: c := by cases h; rfl
        have ha := sprintBig_eq hx
        have hc := sprintBig_eq hy
        subst ha hc ht
        obtain ⟨a1, a2, a3⟩ := formatInt_chars hb r.num
        obtain ⟨c1, c2, c3⟩ := formatInt_chars hb (r.den : Int)
        obtain ⟨sg, ds, e, hsg, hne, hds, _⟩ := formatInt_real hb r.num
        obtain ⟨sg', ds', e', hsg', hne', hds', hp'⟩ := formatInt_real hb (r.den : Int)
        have : sg' = [] := hp' (by omega)
        subst this
        rw [List.nil_append] at e'
        refine ⟨⟨sg, ds, '/' :: ds', by rw [e, e'], hsg, hne, hds, Or.inr ⟨ds', rfl, hne', hds'⟩⟩, by simp [a3, c3], by simp, ?_⟩
        obtain ⟨x, hx1, hx2, hx3⟩ := parseOne_formatInt hb r.num
        obtain ⟨y, hy1, hy2, hy3⟩ := parseOne_formatInt hb (r.den : Int)
        have hden : ((r.den : Int) : Rat) ≠ 0 := by
          have := r.den_nz
          simp [this]
        unfold parseReal
        rw [if_pos (by simp), split_two c2 a2]
        dsimp only
        rw [if_neg (by simp [a1, c1]), hx1, hy1]
        dsimp only
        rw [Save.toRat_val, Save.toRat_val, hx3, hy3, if_neg hden]
        refine ⟨_, rfl, (Save.shrinkRat_val _).2, ?_⟩
        rw [(Save.shrinkRat_val _).1]
        show ((r.num : Int) : Rat) / ((r.den : Int) : Rat) = r
        exact_mod_cast Rat.num_div_den r

theorem mean_shrink {x y : Num.Num} (hx : x.isNum) (hy : y.isNum) : meanScal (Cx.shrink ⟨x, y⟩) = .num x.val y.val := by
  unfold Cx.shrink
  dsimp only
  obtain ⟨sa, sna⟩ := shrink_val hx
  obtain ⟨sb, snb⟩ := shrink_val hy
  split
  · rename_i hz
    have : y.shrink.val = 0 := (isZeroNum_val snb).1 hz
    show Save.meanNum x.shrink = _
    rw [meanNum_num sna, sa, ← sb, this]
  · show Mean.num x.shrink.val y.shrink.val = _
    rw [sa, sb]

theorem sprint_text {md b : Nat} (hb : BaseOk b) {x : CNum} (hx : match x with | .num n => n.isNum | .cx c => c.re.isNum ∧ c.im.isNum) {t : List Char} (h : sprint md b x = .ok t) :
    NumText b t ∧ ∃ y, parse b t = some y ∧ meanScal y = meanScal x := by
  cases x with
  | num n =>
    obtain ⟨h1, h2, _, m, hm, hn, hv⟩ := sprintNum_text hb hx (show sprintNum md b n = .ok t from h)
    refine ⟨Or.inl h1, .num m, ?_, ?_⟩
    · unfold parse
      rw [if_neg (by simpa using h2), hm]
      rfl
    · show Save.meanNum m = Save.meanNum n
      rw [meanNum_num hn, meanNum_num hx, hv]
  | cx c =>
    change ((sprintNum md b c.re).bind fun a => (sprintNum md b c.im).bind fun d => .ok (a ++ 'j' :: d)) = .ok t at h
    cases hre : sprintNum md b c.re with
    | err e => rw [hre] at h; cases h
    | crash => rw [hre] at h; cases h
    | hang => rw [hre] at h; cases h
    | ok a =>
      rw [hre] at h
      cases him : sprintNum md b c.im with
      | err e => rw [him] at h; cases h
      | crash => rw [him] at h; cases h
      | hang => rw [him] at h; cases h
      | ok d =>
        rw [him] at h
        have ht : t = a ++ 'j' :: d := by cases h; rfl
        subst ht
        obtain ⟨a1, a2, a3, p, hp1, hp2, hp3⟩ := sprintNum_text hb hx.1 hre
        obtain ⟨d1, d2, d3, q, hq1, hq2, hq3⟩ := sprintNum_text hb hx.2 him
        refine ⟨Or.inr ⟨a, d, rfl, a1, d1⟩, Cx.shrink ⟨p, q⟩, ?_, ?_⟩
        · unfold parse
          rw [if_pos (by simp), split_two d2 a2]
          dsimp only
          rw [if_neg (by simp [a3, d3]), hp1, hq1]
        · rw [mean_shrink hp2 hq2, hp3, hq3]
          rfl

end Verif.Lit
