import Verif.Fmt.Lemmas

/-!
# C46 and C58: the binary operator `text`
-/

namespace Verif.Fmt
open Verif.Num (Num)
open Verif.Arr (vol R vAt bind_ok bind_err bind_eq_ok unravel unravel_zero)
open Verif.Order (Val)

/-! ## C46 -/

/-- C46 in full: the verb used is the first one of the format, and a format without one is reported. -/
def C46_statement : Prop :=
  ∀ format : Str, (∀ i v, FirstVerb format i v → verbIndex format = .ok i ∧ verbOf format = .ok v) ∧
    ((¬ ∃ i v, FirstVerb format i v) → ∃ e, verbOf format = .err e)

/-- The full statement fails: in `%%%x` the code takes the second percent sign for the verb. -/
theorem C46_violated : ¬ C46_statement := by
  intro h
  have h1 : FirstVerb ['%', '%', '%', 'x'] 3 'x' := by
    refine .skip (a := []) (o := []) (r := ['%', 'x']) (i := 1) (by simp) ⟨[], [], [], rfl, by simp, by simp, .inl rfl⟩ ?_
    exact .here (a := []) (o := []) (r := []) (by simp) ⟨[], [], [], rfl, by simp, by simp, .inl rfl⟩ (by unfold Verb; decide)
  have h2 := ((h ['%', '%', '%', 'x']).1 3 'x' h1).2
  have h3 : verbOf ['%', '%', '%', 'x'] = .ok '%' := by decide +kernel
  rw [h3] at h2
  cases h2

/-- The same for the operator: with the format `%%%x` a fraction is given to Go's formatting as it is, and not as two integers. -/
theorem C46_text_violated (E : Env) (r : Rat) :
    text E (.vec [.num (.char 37), .num (.char 37), .num (.char 37), .num (.char 120)]) (.num (.bigRat r)) =
      .ok [.print ['%', '%', '%', 'x'] (.value (.num (.bigRat r)))] ∧
    text E (.vec [.num (.char 37), .num (.char 120)]) (.num (.bigRat r)) =
      .ok [.print ['%', 'x'] (.int r.num), .lit '/', .print ['%', 'x'] (.int r.den)] := by
  have h1 : formatString E (.vec [.num (.char 37), .num (.char 37), .num (.char 37), .num (.char 120)]) = .ok (['%', '%', '%', 'x'], '%') := by
    have : verbOf ['%', '%', '%', 'x'] = .ok '%' := by decide +kernel
    simp [formatString, runes, Env.utf8, this]
  have h2 : formatString E (.vec [.num (.char 37), .num (.char 120)]) = .ok (['%', 'x'], 'x') := by
    have : verbOf ['%', 'x'] = .ok 'x' := by decide +kernel
    simp [formatString, runes, Env.utf8, this]
  constructor
  · unfold text
    rw [h1, bind_ok]
    simp [formatOne]
  · unfold text
    rw [h2, bind_ok]
    simp [formatOne, asInt, asInt1]

/-- With `%%%T` the format is changed at the wrong place: what Go is given is `%s%T`. -/
theorem C46_date_violated (E : Env) (v : Val) (h : isTime v = true) :
    formatOne E ['%', '%', '%', 'T'] 'T' v = .ok [.print ['%', 's', '%', 'T'] (.date v)] := by
  have : verbIndex ['%', '%', '%', 'T'] = .ok 1 := by decide +kernel
  simp [formatOne, this, h]

/-- A format without a verb that is not reported: after a period Go accepts no sign. It is what a negative number of decimals leads to. -/
theorem C46_negative_violated (E : Env) : formatString E (.num (.int (-1))) = .ok (['%', '.', '-', '1', 'f'], 'f') ∧
    verbOf ['%', '.', '-', '1', 'f'] = .ok 'f' ∧ ¬ ∃ i v, FirstVerb ['%', '.', '-', '1', 'f'] i v := by
  refine ⟨by simp [formatString, dec]; decide, by decide +kernel, ?_⟩
  have key : ∀ (a o : Str) (v : Char) (r : Str), Opts o → a ++ '%' :: (o ++ v :: r) = ['%', '.', '-', '1', 'f'] → v = '-' ∨ v = '.' := by
    rintro a o v r ⟨f, w, p, rfl, h1, h2, h3⟩ h
    cases a with
    | cons c a =>
      simp only [List.cons_append, List.cons.injEq] at h
      have : '%' ∈ (['.', '-', '1', 'f'] : Str) := by rw [← h.2]; simp
      simp at this
    | nil =>
      simp only [List.nil_append, List.cons.injEq, true_and] at h
      cases f with
      | cons c f =>
        simp only [List.cons_append, List.cons.injEq] at h
        have := h1 c (by simp)
        rw [h.1] at this
        simp at this
      | nil =>
        cases w with
        | cons c w =>
          simp only [List.nil_append, List.cons_append, List.cons.injEq] at h
          have := h2 c (by simp)
          rw [h.1] at this
          simp [Digit] at this
        | nil =>
          rcases h3 with rfl | ⟨q, rfl, h3⟩
          · simp only [List.nil_append, List.cons.injEq] at h
            exact .inr h.1
          · simp only [List.nil_append, List.cons_append, List.cons.injEq, true_and] at h
            cases q with
            | nil => simp only [List.nil_append, List.cons.injEq] at h; exact .inl h.1
            | cons c q =>
              simp only [List.cons_append, List.cons.injEq] at h
              have := h3 c (by simp)
              rw [h.1] at this
              simp [Digit] at this
  rintro ⟨i, v, h⟩
  generalize hf : (['%', '.', '-', '1', 'f'] : Str) = f at h
  cases h with
  | here ha ho hv =>
    rcases key _ _ _ _ ho hf.symm with rfl | rfl
    · revert hv; unfold Verb; decide
    · revert hv; unfold Verb; decide
  | skip ha ho h =>
    rcases key _ _ _ _ ho hf.symm with h | h <;> simp at h

/-- C46 but for escapes before the verb: the first verb is found. -/
theorem C46_verb_partial {a o r : Str} {v : Char} (ha : ∀ c ∈ a, c ≠ '%') (ho : Opts o) (hv : Verb v) :
    verbIndex (a ++ '%' :: (o ++ v :: r)) = .ok (a.length + 1 + o.length) ∧ verbOf (a ++ '%' :: (o ++ v :: r)) = .ok v := by
  have h := verbIndex_here (r := r) ha (opts_flags ho) hv
  refine ⟨h, ?_⟩
  unfold verbOf
  rw [h, bind_ok]
  unfold vAt
  have : (a ++ '%' :: (o ++ v :: r))[a.length + 1 + o.length]? = some v := by
    rw [List.getElem?_append_right (by omega), show a.length + 1 + o.length - a.length = o.length + 1 by omega, List.getElem?_cons_succ,
      List.getElem?_append_right (by omega)]
    simp
  rw [this]

/-- C46, formats with a verb are accepted, escapes or not; and nothing ends the program. -/
theorem C46_accepted {format : Str} {i : Nat} {v : Char} (h : FirstVerb format i v) : ∃ c, verbOf format = .ok c := by
  have key : ∃ j, verbIndex format = .ok j := by
    induction h with
    | here ha ho hv => exact ⟨_, verbIndex_here ha (opts_flags ho) hv⟩
    | skip ha ho _ ih => rw [verbIndex_skip ha (opts_flags ho)]; exact ih
  obtain ⟨j, hj⟩ := key
  rcases verbIndex_total format with ⟨k, h1, h2⟩ | ⟨e, h1⟩
  · refine ⟨format[k], ?_⟩
    unfold verbOf vAt
    rw [h1, bind_ok, List.getElem?_eq_getElem h2]
  · rw [hj] at h1; cases h1

/-- C46, the other direction, with the code's idea of what may stand before a verb: what is accepted has a percent sign followed by flags, digits and periods in any
order and then a verb. -/
theorem C46_reported_partial (format : Str) (h : ∀ a o r v, (∀ c ∈ o, isFlag c = true) → Verb v → format ≠ a ++ '%' :: (o ++ v :: r)) :
    ∃ e, verbOf format = .err e := by
  have key : ∀ (n : Nat) (f p : Str), f.length = n → format = p ++ f → ∃ e, verbIndex f = .err e := by
    intro n
    induction n using Nat.strongRecOn with
    | _ n ih =>
      intro f p hn hp
      rcases verbIndex_cases f with ⟨a, o, v, r, h1, _, ho, hv, _⟩ | ⟨a, o, r, h1, _, _, h2⟩ | ⟨h1, _⟩
      · exact absurd (by rw [hp, h1, List.append_assoc]) (h (p ++ a) o r v ho hv)
      · rw [h2]
        have hl : r.length < f.length := by rw [h1]; simp; omega
        exact ih r.length (by omega) r (p ++ a ++ '%' :: (o ++ ['%'])) rfl (by rw [hp, h1]; simp)
      · exact h1
  obtain ⟨e, he⟩ := key _ format [] rfl rfl
  exact ⟨e, by unfold verbOf; rw [he]; rfl⟩

theorem dec_decimal {n : Int} (h : 0 ≤ n) : Decimal (dec n) n.toNat := by
  unfold dec
  rw [if_neg (by omega)]
  refine ⟨Nat.toDigits_ne_nil, ?_, ?_⟩
  · intro c hc
    have hd := Nat.isDigit_of_mem_toDigits (by decide) (by decide) hc
    have key : ∀ k : Nat, 48 ≤ k → k ≤ 57 → Digit (Char.ofNat k) := by
      intro k h1 h2
      have : k = 48 ∨ k = 49 ∨ k = 50 ∨ k = 51 ∨ k = 52 ∨ k = 53 ∨ k = 54 ∨ k = 55 ∨ k = 56 ∨ k = 57 := by omega
      unfold Digit
      rcases this with rfl | rfl | rfl | rfl | rfl | rfl | rfl | rfl | rfl | rfl <;> decide
    have e : c = Char.ofNat c.toNat := by simp
    rw [e]
    simp only [Char.isDigit, Bool.and_eq_true, decide_eq_true_eq] at hd
    exact key _ (by have := UInt32.le_iff_toNat_le.mp hd.1; exact this) (by have := UInt32.le_iff_toNat_le.mp hd.2; exact this)
  · rw [Nat.ofDigitChars_ten_toDigits]; omega

/-- C46, formats given by numbers: `d text v`, and `w d text v`, have width `w`, precision `d` and verb `f`; with a letter, that verb. -/
theorem C46_numbers (E : Env) {w d : Int} (hw : 0 ≤ w) (hd : 0 ≤ d) :
    (∃ f, formatString E (.num (.int d)) = .ok (f, 'f') ∧ Sized f none d.toNat 'f') ∧
    (∃ f, formatString E (.vec [.num (.int d)]) = .ok (f, 'f') ∧ Sized f none d.toNat 'f') ∧
    (∃ f, formatString E (.vec [.num (.int w), .num (.int d)]) = .ok (f, 'f') ∧ Sized f (some w.toNat) d.toNat 'f') ∧
    (∀ c v, (c, v) ∈ [('e', 'e'), ('E', 'e'), ('f', 'f'), ('F', 'f'), ('g', 'g'), ('G', 'g')] →
      ∃ f, formatString E (.vec [.num (.int w), .num (.int d), .num (.char (Char.toNat c))]) = .ok (f, v) ∧ Sized f (some w.toNat) d.toNat v) := by
  have dw := dec_decimal hw
  have dd := dec_decimal hd
  refine ⟨⟨_, rfl, [], dec d, by simp, dd, rfl⟩, ⟨_, rfl, [], dec d, by simp, dd, rfl⟩, ⟨_, rfl, dec w, dec d, by simp, dd, dw⟩, ?_⟩
  intro c v hc
  simp only [List.mem_cons, Prod.mk.injEq, List.not_mem_nil, or_false] at hc
  rcases hc with ⟨rfl, rfl⟩ | ⟨rfl, rfl⟩ | ⟨rfl, rfl⟩ | ⟨rfl, rfl⟩ | ⟨rfl, rfl⟩ | ⟨rfl, rfl⟩ <;>
    exact ⟨_, by simp [formatString, runes, lower]; rfl, dec w, dec d, by simp, dd, dw⟩

/-- The formats of `C46_numbers` have that verb. -/
theorem C46_numbers_verb {format : Str} {width : Option Nat} {p : Nat} {verb : Char} (h : Sized format width p verb) (hv : Verb verb) :
    verbOf format = .ok verb := by
  obtain ⟨w, q, rfl, hq, hw⟩ := h
  have := (C46_verb_partial (a := []) (o := w ++ '.' :: q) (r := []) (v := verb) (by simp) ⟨[], w, '.' :: q, rfl, by simp, ?_, .inr ⟨q, rfl, hq.2.1⟩⟩ hv).2
  · simpa using this
  · cases width with
    | none => simp only at hw; rw [hw]; simp
    | some n => exact hw.2.1

/-- C46, formats that are strings: without a percent sign one is put in front; otherwise the string is the format. A single character is such a string. -/
theorem C46_strings (E : Env) (cs : List Char) (hc : ∀ c ∈ cs, c.toNat < 128) {v : Char}
    (h : verbOf (if '%' ∈ cs then cs else '%' :: cs) = .ok v) :
    formatString E (.vec (cs.map fun c => .num (.char c.toNat))) = .ok (if '%' ∈ cs then cs else '%' :: cs, v) ∧
    ∀ c, cs = [c] → c ≠ '%' → formatString E (.num (.char c.toNat)) = .ok (['%', c], v) := by
  have hr : ∀ cs : List Char, runes (cs.map fun c => Val.num (.char c.toNat)) = some (cs.map fun c => (c.toNat : Int)) := by
    intro cs
    induction cs with
    | nil => rfl
    | cons c cs ih => simp [runes, ih]
  have hu : ∀ c : Char, c.toNat < 128 → E.utf8 c.toNat = [c] := by
    intro c h
    unfold Env.utf8
    rw [if_pos (by omega)]
    simp
  have hf : ∀ cs : List Char, (∀ c ∈ cs, c.toNat < 128) → (cs.map fun c => (c.toNat : Int)).flatMap E.utf8 = cs := by
    intro cs hc
    induction cs with
    | nil => rfl
    | cons c cs ih =>
      rw [List.map_cons, List.flatMap_cons, hu c (hc c (by simp)), ih (fun d hd => hc d (by simp [hd]))]
      rfl
  constructor
  · unfold formatString
    simp only [hr, hf cs hc]
    rw [h, bind_ok]
  · rintro c rfl hp
    rw [if_neg (by simp [Ne.symm hp])] at h
    unfold formatString
    simp only [hu c (hc c (by simp))]
    rw [h, bind_ok]

/-- `(%6.2f) and 5%%`. -/
def exFmt : Str := "(%6.2f) and 5%%".toList

example : verbOf exFmt = .ok 'f' := by decide +kernel
example : Opts ['-', '6', '.', '2'] ∧ Verb 'f' := ⟨⟨['-'], ['6'], ['.', '2'], rfl, by simp, by simp [Digit], .inr ⟨['2'], rfl, by simp [Digit]⟩⟩, by unfold Verb; decide⟩
example : ∃ e, verbOf "100%%".toList = .err e := ⟨_, (by decide +kernel : verbOf "100%%".toList = .err "invalid format")⟩

/-! ## C58 -/

/-- C58 in full: with a verb for numbers, what is printed for a vector contains something for every element. -/
def C58_statement : Prop :=
  ∀ (E : Env) (format : Str) (verb : Char) (v : Val), NumVerb verb → ∀ o, formatOne E format verb v = .ok o → o ≠ []

/-- The full statement fails: of an element that is itself a vector nothing is printed. -/
theorem C58_violated : ¬ C58_statement := by
  intro h
  exact h ⟨fun _ => [], fun _ => 0⟩ ['%', 'd'] 'd' (.vec [.num (.int 1), .num (.int 2)]) (by unfold NumVerb; decide) [] (by simp [formatOne, asInt]) rfl

/-- `'d' text 5 (1 2) 7` is `5  7`. -/
theorem C58_nested_violated (E : Env) : text E (.num (.char 100)) (.vec [.num (.int 5), .vec [.num (.int 1), .num (.int 2)], .num (.int 7)]) =
    .ok [.print ['%', 'd'] (.int 5), .lit ' ', .lit ' ', .print ['%', 'd'] (.int 7)] := by
  have h1 : formatString E (.num (.char 100)) = .ok (['%', 'd'], 'd') := by
    have : verbOf ['%', 'd'] = .ok 'd' := by decide +kernel
    simp [formatString, Env.utf8, this]
  unfold text
  rw [h1, bind_ok]
  simp [runes, formatVec, formatOne, asInt, asInt1]

theorem asRat_val (n : Num) : asRat n = n.val := by cases n <;> rfl

/-- C58, numbers: with a verb for numbers the arguments printed stand for the number given, and the format is the one given. -/
theorem C58_number (E : Env) (format : Str) {verb : Char} (hv : NumVerb verb) (n : Num) :
    ∃ o, formatOne E format verb (.num n) = .ok o ∧ denoted o = some n.val ∧ ∀ x ∈ o, x.uses format := by
  have hi : ∃ o, asInt format (.num n) = .ok o ∧ denoted o = some n.val ∧ ∀ x ∈ o, x.uses format := by
    refine ⟨_, rfl, ?_, ?_⟩
    · cases n with
      | int n => rfl
      | char n => rfl
      | bigInt n => rfl
      | bigRat r =>
        simp only [asInt1, denoted, Num.val]
        congr 1
        exact Rat.num_div_den r
    · cases n <;> simp [asInt1, Out.uses]
  have hf : ∃ o, asFloat format (.num n) = .ok o ∧ denoted o = some n.val ∧ ∀ x ∈ o, x.uses format :=
    ⟨_, rfl, by simp [denoted, asRat_val], by simp [Out.uses]⟩
  have : ∀ v ∈ "bdoOxXeEfFgG".toList, formatOne E format v (.num n) = asInt format (.num n) ∨ formatOne E format v (.num n) = asFloat format (.num n) := by
    intro v hv
    simp at hv
    rcases hv with rfl | rfl | rfl | rfl | rfl | rfl | rfl | rfl | rfl | rfl | rfl | rfl <;> simp [formatOne]
  rcases this verb hv with h | h <;> rw [h]
  · exact hi
  · exact hf

/-- C58, complex numbers: the text of the real part, `j`, and that of the imaginary part, alone and as an element. -/
theorem C58_complex (E : Env) (u : Val) {format : Str} {verb : Char} (hf : formatString E u = .ok (format, verb)) (hv : NumVerb verb) (a b : Num) :
    ∃ x y, formatOne E format verb (.num a) = .ok x ∧ formatOne E format verb (.num b) = .ok y ∧
      text E u (.cplx a b) = .ok (x ++ .lit 'j' :: y) ∧ formatOne E format verb (.cplx a b) = .ok (x ++ .lit 'j' :: y) := by
  have : ∀ v ∈ "bdoOxXeEfFgG".toList, (∀ z, formatOne E format v z = asInt format z) ∨ (∀ z, formatOne E format v z = asFloat format z) := by
    intro v hv
    simp at hv
    rcases hv with rfl | rfl | rfl | rfl | rfl | rfl | rfl | rfl | rfl | rfl | rfl | rfl <;> simp [formatOne]
  rcases this verb hv with h | h
  · refine ⟨asInt1 format a, asInt1 format b, h _, h _, ?_, h _⟩
    unfold text
    simp [hf, bind_ok, h, asInt]
  · refine ⟨_, _, h _, h _, ?_, h _⟩
    unfold text
    simp [hf, bind_ok, h, asFloat]

/-- C58, characters and integers with the verbs `c`, `U`, `s` and `q`: the rune with that number, in the format given. -/
theorem C58_rune (E : Env) (format : Str) {verb : Char} (hv : verb ∈ ['c', 'U', 's', 'q']) (n : Int) :
    (∃ o, formatOne E format verb (.num (.int n)) = .ok o ∧ denotedRune o = some n ∧ ∀ x ∈ o, x.uses format) ∧
    ∃ o, formatOne E format verb (.num (.char n)) = .ok o ∧ denotedRune o = some n ∧ ∀ x ∈ o, x.uses format := by
  simp only [List.mem_cons, List.not_mem_nil, or_false] at hv
  rcases hv with rfl | rfl | rfl | rfl <;> simp [formatOne, asRune, asText, denotedRune, Out.uses]

/-- C58, truth values: with the verb `t` a number is true if it is not zero, and a complex number if one of its parts is not. -/
theorem C58_bool (E : Env) (format : Str) (a b : Num) :
    formatOne E format 't' (.num a) = .ok [.print format (.bool (a.val ≠ 0))] ∧
    formatOne E format 't' (.cplx a b) = .ok [.print format (.bool (¬ (a.val = 0 ∧ b.val = 0)))] := by
  constructor
  · simp [formatOne, toBool, asRat_val]
  · by_cases h1 : a.val = 0 <;> by_cases h2 : b.val = 0 <;> simp [formatOne, toBool, asRat_val, h1, h2]

/-- C58, strings: with one of the verbs that Go has for strings, or `v`, the whole string is the argument; with others each character is formatted. -/
theorem C58_string (E : Env) (u : Val) {format : Str} {verb : Char} (hf : formatString E u = .ok (format, verb)) (cs : List Int) :
    text E u (.vec (cs.map fun c => .num (.char c))) =
      if verb ∈ "boOqsvxX".toList then .ok [.print format (.shown (.vec (cs.map fun c => .num (.char c))))] else
      (allOne E format verb (cs.map fun c => .num (.char c))).bind fun r => .ok (joined (fun _ => [.lit ' ']) 0 r) := by
  have hr : runes (cs.map fun c => Val.num (.char c)) = some cs := by
    clear hf
    induction cs with
    | nil => rfl
    | cons c cs ih => simp [runes, ih]
  unfold text
  simp only [hf, bind_ok, hr]
  rw [formatVec_eq, show "boOqsvxX".toList = ['b', 'o', 'O', 'q', 's', 'v', 'x', 'X'] from rfl]
  simp only [true_or, if_true, List.nil_append]

/-- C58, vectors that are not strings. -/
theorem C58_not_string (E : Env) (u : Val) {format : Str} {verb : Char} (hf : formatString E u = .ok (format, verb)) (l : List Val)
    (h : ∃ v ∈ l, ∀ c, v ≠ .num (.char c)) :
    text E u (.vec l) = (allOne E format verb l).bind fun r => .ok (joined (fun _ => [.lit ' ']) 0 r) := by
  have hr : runes l = none := by
    obtain ⟨v, hv, hc⟩ := h
    induction l with
    | nil => simp at hv
    | cons w l ih =>
      rcases List.mem_cons.mp hv with rfl | hm
      · unfold runes
        split
        · next heq => cases heq
        · next c r heq => cases heq; exact absurd rfl (hc c)
        · rfl
      · unfold runes
        split
        · next heq => cases heq
        · next c r heq => cases heq; rw [ih hm]; rfl
        · rfl
  unfold text
  simp only [hf, bind_ok, hr]
  rw [formatVec_eq]
  simp

/-- C58, vectors: the texts of the elements one after the other, with blanks between. -/
theorem C58_vector (E : Env) (format : Str) (verb : Char) (l : List Val) : formatVec E format verb true l =
    (allOne E format verb l).bind fun r => .ok (joined (fun _ => [.lit ' ']) 0 r) := by
  rw [formatVec_eq]; simp

/-- C58, matrices: the texts of the elements one after the other, with blanks between those of a row, one newline after a row, two after a plane and so on. -/
theorem C58_matrix (E : Env) (u : Val) (shape : List Nat) (l : List Val) (hs : shape ≠ []) (hl : l.length = vol shape) (h0 : l ≠ []) {format : Str} {verb : Char}
    (hf : formatString E u = .ok (format, verb)) (hv : verbOf format = .ok verb) :
    text E u (.mat shape l) = (allOne E format verb l).bind fun r => .ok (joined (between shape) 0 r) := by
  unfold text
  rw [hf, bind_ok]
  simp only
  rw [if_neg (by
    rintro (h | h)
    · exact hs (List.length_eq_zero_iff.mp h)
    · exact h0 (List.length_eq_zero_iff.mp h)), hv, bind_ok, ← unravel_zero, formatMat_eq E format verb l 0 false (by omega)]
  simp

/-- Number `n` to be printed with `%d`. -/
def exOut (n : Int) : Out := .print ['%', 'd'] (.int n)

example (E : Env) : formatString E (.num (.char 100)) = .ok (['%', 'd'], 'd') := by
  have : verbOf ['%', 'd'] = .ok 'd' := by decide +kernel
  simp [formatString, Env.utf8, this]
example : joined (between [2, 2, 2]) 0 [[exOut 1], [exOut 2], [exOut 3], [exOut 4], [exOut 5], [exOut 6], [exOut 7], [exOut 8]] =
    [exOut 1, .lit ' ', exOut 2, .lit '\n', exOut 3, .lit ' ', exOut 4, .lit '\n', .lit '\n', exOut 5, .lit ' ', exOut 6, .lit '\n', exOut 7, .lit ' ', exOut 8] := rfl
example (E : Env) : formatMat E ['%', 'd'] 'd' [2, 2] [0, 0] false [.num (.int 1), .num (.int 2), .num (.int 3), .num (.int 4)] =
    .ok [exOut 1, .lit ' ', exOut 2, .lit '\n', exOut 3, .lit ' ', exOut 4] := by rfl
example : Sized "%6.2f".toList (some 6) 2 'f' := ⟨['6'], ['2'], rfl, ⟨by simp, by simp [Digit], rfl⟩, ⟨by simp, by simp [Digit], rfl⟩⟩
example : verbOf (if '%' ∈ "5x".toList then "5x".toList else '%' :: "5x".toList) = .ok 'x' := by decide +kernel
example : NumVerb 'x' := by unfold NumVerb; decide

end Verif.Fmt
