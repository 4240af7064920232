import Verif.Lit.Spec
import Verif.Save.LemmasText
import Mathlib.Tactic.Tauto
import Mathlib.Tactic.Ring
import Mathlib.Tactic.Linarith
import Mathlib.Tactic.FieldSimp
import Mathlib.Tactic.Positivity
import Mathlib.Data.Nat.Digits.Lemmas
/-
Helper lemmas: reading numerals.
-/
namespace Verif.Lit
open Verif.Num (CNum Cx shrinkBig shrinkRat)

theorem char_le (a c : Char) : a ≤ c ↔ a.toNat ≤ c.toNat := by
  rw [Char.le_def, UInt32.le_iff_toNat_le]; rfl

theorem char_eq {a c : Char} (h : c.toNat = a.toNat) : c = a := Char.toNat_inj.1 h

theorem digitVal_digit {c : Char} {d : Nat} (h : Digit c d) : digitVal c = some d := by
  unfold digitVal
  simp only [char_le]
  rcases h with ⟨h1, h2⟩ | ⟨h1, h2, h3 | h3⟩
  · have e0 : '0'.toNat = 48 := rfl
    have e9 : '9'.toNat = 57 := rfl
    rw [if_pos (by omega)]
    congr 1; omega
  · have e0 : '0'.toNat = 48 := rfl
    have e9 : '9'.toNat = 57 := rfl
    have ea : 'a'.toNat = 97 := rfl
    have ez : 'z'.toNat = 122 := rfl
    rw [if_neg (by omega), if_pos (by omega)]
    congr 1; omega
  · have e0 : '0'.toNat = 48 := rfl
    have e9 : '9'.toNat = 57 := rfl
    have ea : 'a'.toNat = 97 := rfl
    have eA : 'A'.toNat = 65 := rfl
    have ez : 'z'.toNat = 122 := rfl
    have eZ : 'Z'.toNat = 90 := rfl
    rw [if_neg (by omega), if_neg (by omega), if_pos (by omega)]
    congr 1; omega

theorem Digit.plain {c : Char} {d : Nat} (h : Digit c d) : c ≠ '_' ∧ c ≠ '.' ∧ c ≠ '+' ∧ c ≠ '-' ∧ c ≠ '/' ∧ (d < 19 → c ≠ 'j') := by
  have key : ∀ x : Char, digitVal x ≠ some d → c ≠ x := by
    rintro x hx rfl
    exact hx (digitVal_digit h)
  refine ⟨key _ ?_, key _ ?_, key _ ?_, key _ ?_, key _ ?_, fun hd => key _ ?_⟩
  · rw [show digitVal '_' = none from rfl]; simp
  · rw [show digitVal '.' = none from rfl]; simp
  · rw [show digitVal '+' = none from rfl]; simp
  · rw [show digitVal '-' = none from rfl]; simp
  · rw [show digitVal '/' = none from rfl]; simp
  · rw [show digitVal 'j' = some 19 from rfl]
    simp only [ne_eq, Option.some.injEq]; omega

/-- Digits of base `b` and their values. -/
abbrev Digs (b : Nat) (s : List Char) (ds : List Nat) : Prop := List.Forall₂ (fun c d => Digit c d ∧ d < b) s ds

theorem ofDigits_cons_rev (b d : Nat) (ds : List Nat) : Nat.ofDigits b (d :: ds).reverse = d * b ^ ds.length + Nat.ofDigits b ds.reverse := by
  rw [List.reverse_cons, Nat.ofDigits_append, Nat.ofDigits_singleton, List.length_reverse]
  ring

theorem Digs.mem {b : Nat} {s : List Char} {ds : List Nat} (h : Digs b s ds) : ∀ c ∈ s, ∃ d, Digit c d ∧ d < b := by
  induction h with
  | nil => intro c hc; cases hc
  | cons h _ ih =>
    intro c hc
    rcases List.mem_cons.1 hc with rfl | hc
    · exact ⟨_, h⟩
    · exact ih c hc

theorem uintLoop_digits (base0 : Bool) (b : Nat) : ∀ (t : List Char) (ds : List Nat) (n : Nat), Digs b (t.filter (· ≠ '_')) ds → (base0 = true ∨ '_' ∉ t) →
    uintLoop base0 b n t = some (n * b ^ ds.length + Nat.ofDigits b ds.reverse) := by
  intro t
  induction t with
  | nil =>
    intro ds n h _
    simp at h
    subst h
    simp [uintLoop, Nat.ofDigits]
  | cons c t ih =>
    intro ds n h hu
    simp only [uintLoop]
    by_cases hc : c = '_'
    · subst hc
      have h0 : base0 = true := by rcases hu with h | h; exact h; simp at h
      rw [if_pos ⟨rfl, h0⟩]
      exact ih ds n (by simpa using h) (Or.inl h0)
    · rw [if_neg (by tauto)]
      rw [List.filter_cons, if_pos (by simpa using hc)] at h
      cases h with
      | @cons _ d _ ds h hs =>
        rw [digitVal_digit h.1]
        dsimp only
        rw [if_pos h.2, ih ds _ hs (by
          rcases hu with h | h
          · exact Or.inl h
          · exact Or.inr fun hm => h (by simp [hm])), ofDigits_cons_rev]
        rw [List.length_cons, pow_succ]
        congr 1; ring

theorem uintLoop_stop (base0 : Bool) (b : Nat) {c : Char} (hc : c ≠ '_') (hd : ∀ d, digitVal c = some d → b ≤ d) : ∀ (t : List Char) (n : Nat), c ∈ t → uintLoop base0 b n t = none := by
  intro t
  induction t with
  | nil => intro n h; cases h
  | cons x t ih =>
    intro n h
    simp only [uintLoop]
    by_cases hx : x = '_' ∧ base0 = true
    · rw [if_pos hx]
      refine ih n ?_
      rcases List.mem_cons.1 h with rfl | h
      · exact absurd hx.1 hc
      · exact h
    · rw [if_neg hx]
      cases hv : digitVal x with
      | none => rfl
      | some d =>
        dsimp only
        split
        · rename_i hlt
          refine ih _ ?_
          rcases List.mem_cons.1 h with rfl | h
          · have := hd d hv; omega
          · exact h
        · rfl

theorem scanLoop_digits (base0 : Bool) (b : Nat) (rest : List Char) : ∀ (t : List Char) (ds : List Nat) (st : St), t ≠ [] → Digs b (t.filter (· ≠ '_')) ds → (base0 = true ∨ '_' ∉ t) →
    Spaced t → (t.head? = some '_' → st.prev = .digit) →
    scanLoop base0 b st (t ++ rest) = scanLoop base0 b ⟨.digit, st.inval, st.fracOk, st.val * b ^ ds.length + Nat.ofDigits b ds.reverse, st.count + ds.length, st.dp⟩ rest := by
  intro t
  induction t with
  | nil => intro ds st h; exact absurd rfl h
  | cons c t ih =>
    intro ds st _ h hu hsp hpv
    rw [List.cons_append]
    simp only [scanLoop]
    by_cases hc : c = '_'
    · subst hc
      have h0 : base0 = true := by rcases hu with h | h; exact h; simp at h
      have hp := hpv rfl
      rw [if_neg (by rintro ⟨h, _⟩; exact absurd h (by decide)), if_pos ⟨rfl, h0⟩]
      cases t with
      | nil => exact absurd rfl hsp
      | cons c' t =>
        rw [ih ds _ (by simp) (by simpa using h) (Or.inl h0) hsp.2 (by
          intro hh
          simp at hh
          have := hsp.1
          tauto)]
        rw [hp]
        simp
    · rw [List.filter_cons, if_pos (by simpa using hc)] at h
      cases h with
      | @cons _ d _ ds h hs =>
        have hpl := h.1.plain
        rw [if_neg (by tauto), if_neg (by tauto), digitVal_digit h.1]
        dsimp only
        rw [if_pos h.2]
        have hu' : base0 = true ∨ '_' ∉ t := by
          rcases hu with h | h
          · exact Or.inl h
          · exact Or.inr fun hm => h (by simp [hm])
        rw [ofDigits_cons_rev, List.length_cons]
        cases t with
        | nil =>
          simp at hs
          subst hs
          simp [Nat.ofDigits]
        | cons c' t =>
          rw [ih ds _ (by simp) hs hu' hsp.2 (fun _ => rfl)]
          dsimp only
          rw [pow_succ]
          congr 2
          · ring
          · omega

theorem scanLoop_stop (base0 : Bool) (b : Nat) {c : Char} (hc : c ≠ '_') (hd : ∀ d, digitVal c = some d → b ≤ d) : ∀ (t : List Char) (st : St), st.fracOk = false → c ∈ t → c ∈ (scanLoop base0 b st t).2 := by
  intro t
  induction t with
  | nil => intro st _ h; cases h
  | cons x t ih =>
    intro st hf h
    simp only [scanLoop]
    rw [if_neg (by rw [hf]; simp)]
    by_cases hx : x = '_' ∧ base0 = true
    · rw [if_pos hx]
      refine ih _ hf ?_
      rcases List.mem_cons.1 h with rfl | h
      · exact absurd hx.1 hc
      · exact h
    · rw [if_neg hx]
      cases hv : digitVal x with
      | none => exact h
      | some d =>
        dsimp only
        split
        · rename_i hlt
          refine ih _ hf ?_
          rcases List.mem_cons.1 h with rfl | h
          · have := hd d hv; omega
          · exact h
        · exact h

theorem Digs.noUnder {b : Nat} {s : List Char} {ds : List Nat} (h : Digs b s ds) : '_' ∉ s := by
  intro hm
  obtain ⟨d, hd, _⟩ := h.mem _ hm
  exact hd.plain.1 rfl

theorem spaced_plain : ∀ {s : List Char}, '_' ∉ s → Spaced s
  | [], _ => trivial
  | [c], h => by simp at h; exact fun e => h e.symm
  | c :: d :: s, h => by
    simp at h
    exact ⟨Or.inl fun e => h.1 e.symm, spaced_plain (by simp; tauto)⟩

theorem filter_plain {s : List Char} (h : '_' ∉ s) : s.filter (· ≠ '_') = s := by
  rw [List.filter_eq_self]
  intro c hc
  simp
  rintro rfl
  exact h hc

theorem unsign_sign {sg : List Char} {neg : Bool} (h : Sign sg neg) {t : List Char} (h1 : t.head? ≠ some '+') (h2 : t.head? ≠ some '-') : unsign (sg ++ t) = (neg, t) := by
  rcases h with ⟨rfl, rfl⟩ | ⟨rfl, rfl⟩ | ⟨rfl, rfl⟩
  · rw [List.nil_append]
    unfold unsign
    split
    · simp at h1
    · simp at h2
    · rfl
  · rfl
  · rfl

theorem parseOne_int {base : Nat} {sg t : List Char} {neg : Bool} {n : Nat} (hsg : Sign sg neg) (h1 : t.head? ≠ some '+') (h2 : t.head? ≠ some '-')
    (hu : parseUint base t = some n) (hs : ∃ b k, natScan base false t = some (n, b, k, [])) :
    ∃ x, parseOne base (sg ++ t) = some x ∧ x.isNum ∧ x.val = withSign neg n := by
  have hun := unsign_sign hsg h1 h2
  obtain ⟨b, k, hs⟩ := hs
  have hv : ((signed neg n : Int) : Rat) = withSign neg n := by
    unfold signed withSign
    split <;> push_cast <;> rfl
  unfold parseOne parseInt32 setString
  rw [hun]
  dsimp only
  rw [hu, hs]
  dsimp only [Option.bind_some]
  split
  · rename_i i hi
    have : i = signed neg n := by
      split at hi
      · cases hi
      · split at hi
        · cases hi
        · cases hi; rfl
    refine ⟨.int i, rfl, trivial, ?_⟩
    rw [this]; exact hv
  · refine ⟨_, rfl, (Save.shrinkBig_val _).2, ?_⟩
    rw [(Save.shrinkBig_val _).1]; exact hv

theorem parse_one {base : Nat} {s : List Char} (h1 : 'j' ∉ s) (h2 : '/' ∉ s) : parse base s = (parseOne base s).map .num := by
  unfold parse parseReal
  rw [if_neg (by simpa using h1), if_neg (by simpa using h2)]

/-! ## A base other than 0 -/

theorem head_of_digs {b : Nat} {s : List Char} {ds : List Nat} (h : Digs b s ds) : s.head? ≠ some '+' ∧ s.head? ≠ some '-' := by
  cases h with
  | nil => simp
  | cons h _ =>
    have := h.1.plain
    simp; tauto

theorem numeral_base {b : Nat} (hb : b ≠ 0) {s : List Char} {n : Nat} (h : Numeral b s n) : parseUint b s = some n ∧ ∃ b' k, natScan b false s = some (n, b', k, []) := by
  obtain ⟨hne, ds, hd, rfl⟩ := h
  have hu := Digs.noUnder hd
  have hf : Digs b (s.filter (· ≠ '_')) ds := by rw [filter_plain hu]; exact hd
  have hl : ds.length = s.length := hd.length_eq.symm
  constructor
  · unfold parseUint uintPrefix
    rw [if_neg hne, if_pos hb]
    dsimp only
    rw [uintLoop_digits _ b s ds 0 hf (Or.inr hu)]
    simp only [Option.bind_some, Nat.zero_mul, Nat.zero_add]
    rw [if_neg (by tauto)]
  · unfold natScan scanPrefix
    rw [if_pos hb]
    dsimp only
    have := scanLoop_digits (b == 0) b [] s ds ⟨.other, false, false, 0, 0, none⟩ hne hf (Or.inr hu) (spaced_plain hu) (by
      intro hh
      exact absurd (List.mem_of_mem_head? hh) hu)
    rw [List.append_nil] at this
    rw [this]
    simp only [scanLoop]
    have : ds.length ≠ 0 := by rw [hl]; simpa using hne
    simp [this]

theorem digs_noj {b : Nat} (hb : b ≤ 19) {s : List Char} {ds : List Nat} (h : Digs b s ds) : 'j' ∉ s ∧ '/' ∉ s := by
  constructor
  · intro hm
    obtain ⟨d, hd, hlt⟩ := h.mem _ hm
    exact hd.plain.2.2.2.2.2 (by omega) rfl
  · intro hm
    obtain ⟨d, hd, hlt⟩ := h.mem _ hm
    exact hd.plain.2.2.2.2.1 rfl

theorem sign_noj {sg : List Char} {neg : Bool} (h : Sign sg neg) : 'j' ∉ sg ∧ '/' ∉ sg := by
  rcases h with ⟨rfl, rfl⟩ | ⟨rfl, rfl⟩ | ⟨rfl, rfl⟩ <;> decide

/-! ## Base 0 -/

theorem uintPrefix_zero {t : List Char} (h : t.head? ≠ some '0') : uintPrefix 0 t = (10, t) := by
  unfold uintPrefix
  rw [if_neg (by simp)]
  split
  · simp at h
  · simp at h
  · rfl

theorem scanPrefix_zero {t : List Char} (f : Bool) (h : t.head? ≠ some '0') : scanPrefix 0 f t = (10, false, .other, 0, t) := by
  unfold scanPrefix
  rw [if_neg (by simp)]
  split
  · simp at h
  · simp at h
  · rfl

theorem underLoop_spaced (hex : Bool) : ∀ (t : List Char) (saw : Saw),
    (∀ c ∈ t, c = '_' ∨ ('0' ≤ c ∧ c ≤ '9') ∨ (hex = true ∧ (('a' ≤ c ∧ c ≤ 'f') ∨ ('A' ≤ c ∧ c ≤ 'F')))) → Spaced t → (t.head? = some '_' → saw = .digit) → (t = [] → saw ≠ .under) →
    underLoop hex saw t = true := by
  intro t
  induction t with
  | nil => intro saw _ _ _ h; simp [underLoop, h rfl]
  | cons c t ih =>
    intro saw hc hs hh _
    simp only [underLoop]
    by_cases hd : ('0' ≤ c ∧ c ≤ '9') ∨ (hex = true ∧ (('a' ≤ c ∧ c ≤ 'f') ∨ ('A' ≤ c ∧ c ≤ 'F')))
    · rw [if_pos hd]
      refine ih _ (fun c hc' => hc c (by simp [hc'])) ?_ (fun _ => rfl) (by simp)
      cases t with
      | nil => trivial
      | cons d t => exact hs.2
    · rw [if_neg hd]
      have hu : c = '_' := by
        rcases hc c (by simp) with h | h
        · exact h
        · exact absurd h hd
      subst hu
      rw [if_pos rfl, if_neg (by simp [hh rfl])]
      cases t with
      | nil => exact absurd rfl hs
      | cons d t =>
        refine ih _ (fun c hc' => hc c (by simp [hc'])) hs.2 ?_ (by simp)
        intro h
        simp at h
        have := hs.1
        tauto

theorem Digit.range {c : Char} {d : Nat} (h : Digit c d) (hd : d < 16) : ('0' ≤ c ∧ c ≤ '9') ∨ (10 ≤ d ∧ (('a' ≤ c ∧ c ≤ 'f') ∨ ('A' ≤ c ∧ c ≤ 'F'))) := by
  have e0 : '0'.toNat = 48 := rfl
  have e9 : '9'.toNat = 57 := rfl
  have ea : 'a'.toNat = 97 := rfl
  have eA : 'A'.toNat = 65 := rfl
  have ez : 'f'.toNat = 102 := rfl
  have eZ : 'F'.toNat = 70 := rfl
  simp only [char_le]
  rcases h with ⟨h1, h2⟩ | ⟨h1, h2, h3 | h3⟩ <;> omega

theorem Digit.noPrefix {c : Char} {d : Nat} (h : Digit c d) (hd : d < 10) : prefixBase c = none := by
  have key : ∀ x : Char, digitVal x ≠ some d → c ≠ x := by
    rintro x hx rfl
    exact hx (digitVal_digit h)
  have hh : ∀ x v, digitVal x = some v → 10 ≤ v → c ≠ x := by
    intro x v hx hv
    refine key x ?_
    rw [hx]; simp only [ne_eq, Option.some.injEq]; omega
  unfold prefixBase
  rw [if_neg, if_neg, if_neg]
  · rintro (rfl | rfl)
    · exact hh 'x' 33 rfl (by omega) rfl
    · exact hh 'X' 33 rfl (by omega) rfl
  · rintro (rfl | rfl)
    · exact hh 'o' 24 rfl (by omega) rfl
    · exact hh 'O' 24 rfl (by omega) rfl
  · rintro (rfl | rfl)
    · exact hh 'b' 11 rfl (by omega) rfl
    · exact hh 'B' 11 rfl (by omega) rfl

theorem mem_digits {b : Nat} {t : List Char} {ds : List Nat} (hd : Digs b (t.filter (· ≠ '_')) ds) : ∀ c ∈ t, c = '_' ∨ ∃ d, Digit c d ∧ d < b := by
  intro c hc
  by_cases h : c = '_'
  · exact Or.inl h
  · right
    exact hd.mem c (by simp [hc, h])

/-- Numerals when the base is 0: no prefix. -/
theorem numeral_zero {t : List Char} {n : Nat} (h0 : t.head? ≠ some '0') (hh : t.head? ≠ some '_') (hs : Spaced t) (h : Numeral 10 (t.filter (· ≠ '_')) n) :
    parseUint 0 t = some n ∧ ∃ b' k, natScan 0 false t = some (n, b', k, []) := by
  obtain ⟨hne', ds, hd, rfl⟩ := h
  have hne : t ≠ [] := by rintro rfl; simp at hne'
  have hpos : ds.length ≠ 0 := by rw [← hd.length_eq]; simpa using hne'
  have hok : underscoreOK t = true := by
    have : underscoreOK t = underLoop false .start t := by
      unfold underscoreOK
      split
      · simp at h0
      · rfl
    rw [this]
    refine underLoop_spaced false t _ ?_ hs (fun h => absurd h hh) (by simp)
    intro c hc
    rcases mem_digits hd c hc with h | ⟨d, h1, h2⟩
    · exact Or.inl h
    · rcases h1.range (by omega) with h | h
      · exact Or.inr (Or.inl h)
      · omega
  constructor
  · unfold parseUint
    rw [if_neg hne, uintPrefix_zero h0]
    dsimp only
    rw [uintLoop_digits (0 == 0) 10 t ds 0 hd (Or.inl rfl)]
    simp only [Option.bind_some, Nat.zero_mul, Nat.zero_add]
    rw [if_neg (by simp [hok])]
  · unfold natScan
    rw [scanPrefix_zero _ h0]
    dsimp only
    have := scanLoop_digits true 10 [] t ds ⟨.other, false, false, 0, 0, none⟩ hne hd (Or.inl rfl) hs (fun h => absurd h hh)
    rw [List.append_nil] at this
    have e : ((0 : Nat) == 0) = true := rfl
    rw [e, this]
    simp only [scanLoop]
    simp [hpos]

theorem zero_zero : parseUint 0 ['0'] = some 0 ∧ ∃ b' k, natScan 0 false ['0'] = some (0, b', k, []) := ⟨by decide, 10, 1, by decide⟩

/-- Numerals when the base is 0: the prefix `0`. -/
theorem numeral_octal {t : List Char} {n : Nat} (hh : t.head? ≠ some '_') (hs : Spaced t) (h : Numeral 8 (t.filter (· ≠ '_')) n) :
    parseUint 0 ('0' :: t) = some n ∧ ∃ b' k, natScan 0 false ('0' :: t) = some (n, b', k, []) := by
  obtain ⟨hne', ds, hd, rfl⟩ := h
  have hpos : ds.length ≠ 0 := by rw [← hd.length_eq]; simpa using hne'
  obtain ⟨c, r, rfl⟩ : ∃ c r, t = c :: r := by
    cases t with
    | nil => simp at hne'
    | cons c r => exact ⟨c, r, rfl⟩
  have hc : prefixBase c = none := by
    rcases mem_digits hd c (by simp) with rfl | ⟨d, h1, h2⟩
    · simp at hh
    · exact h1.noPrefix (by omega)
  have hpre : uintPrefix 0 ('0' :: c :: r) = (8, c :: r) := by
    unfold uintPrefix
    rw [if_neg (by simp)]
    cases r with
    | nil => rfl
    | cons d r => simp [hc]
  have hok : underscoreOK ('0' :: c :: r) = true := by
    have : underscoreOK ('0' :: c :: r) = underLoop false .start ('0' :: c :: r) := by
      unfold underscoreOK
      simp [hc]
    rw [this]
    refine underLoop_spaced false _ _ ?_ ⟨Or.inl (by decide), hs⟩ (by simp) (by simp)
    intro x hx
    rcases List.mem_cons.1 hx with rfl | hx
    · exact Or.inr (Or.inl (by decide))
    rcases mem_digits hd x hx with h | ⟨d, h1, h2⟩
    · exact Or.inl h
    · rcases h1.range (by omega) with h | h
      · exact Or.inr (Or.inl h)
      · omega
  constructor
  · unfold parseUint
    rw [if_neg (by simp), hpre]
    dsimp only
    rw [uintLoop_digits (0 == 0) 8 (c :: r) ds 0 hd (Or.inl rfl)]
    simp only [Option.bind_some, Nat.zero_mul, Nat.zero_add]
    rw [if_neg (by simp [hok])]
  · have hsp : scanPrefix 0 false ('0' :: c :: r) = (8, true, .digit, 0, c :: r) := by
      unfold scanPrefix
      simp [hc]
    unfold natScan
    rw [hsp]
    dsimp only
    have := scanLoop_digits true 8 [] (c :: r) ds ⟨.digit, false, false, 0, 0, none⟩ (by simp) hd (Or.inl rfl) hs (fun _ => rfl)
    rw [List.append_nil] at this
    have e : ((0 : Nat) == 0) = true := rfl
    rw [e, this]
    simp only [scanLoop]
    simp [hpos]

/-- Numerals when the base is 0: a prefix of two characters. -/
theorem numeral_prefix {t : List Char} {n : Nat} {p : Char} {b : Nat} (hp : prefixBase p = some b) (hb : b = 2 ∨ b = 8 ∨ b = 16) (hs : Spaced t)
    (h : Numeral b (t.filter (· ≠ '_')) n) :
    parseUint 0 ('0' :: p :: t) = some n ∧ ∃ b' k, natScan 0 false ('0' :: p :: t) = some (n, b', k, []) := by
  obtain ⟨hne', ds, hd, rfl⟩ := h
  have hpos : ds.length ≠ 0 := by rw [← hd.length_eq]; simpa using hne'
  obtain ⟨c, r, rfl⟩ : ∃ c r, t = c :: r := by
    cases t with
    | nil => simp at hne'
    | cons c r => exact ⟨c, r, rfl⟩
  have hpre : uintPrefix 0 ('0' :: p :: c :: r) = (b, c :: r) := by
    unfold uintPrefix
    rw [if_neg (by simp)]
    simp [hp]
  have hok : underscoreOK ('0' :: p :: c :: r) = true := by
    unfold underscoreOK
    simp only [hp]
    refine underLoop_spaced _ _ _ ?_ hs (fun _ => rfl) (by simp)
    intro x hx
    rcases mem_digits hd x hx with h | ⟨d, h1, h2⟩
    · exact Or.inl h
    · rcases h1.range (by omega) with h | h
      · exact Or.inr (Or.inl h)
      · have : b = 16 := by omega
        subst this
        exact Or.inr (Or.inr ⟨rfl, h.2⟩)
  constructor
  · unfold parseUint
    rw [if_neg (by simp), hpre]
    dsimp only
    rw [uintLoop_digits (0 == 0) b (c :: r) ds 0 hd (Or.inl rfl)]
    simp only [Option.bind_some, Nat.zero_mul, Nat.zero_add]
    rw [if_neg (by simp [hok])]
  · have hsp : scanPrefix 0 false ('0' :: p :: c :: r) = (b, false, .digit, 0, c :: r) := by
      unfold scanPrefix
      simp [hp]
    unfold natScan
    rw [hsp]
    dsimp only
    have := scanLoop_digits true b [] (c :: r) ds ⟨.digit, false, false, 0, 0, none⟩ (by simp) hd (Or.inl rfl) hs (fun _ => rfl)
    rw [List.append_nil] at this
    have e : ((0 : Nat) == 0) = true := rfl
    rw [e, this]
    simp only [scanLoop]
    simp [hpos]

end Verif.Lit
