import Verif.Save.Spec
import Mathlib.Tactic.Tauto
import Mathlib.Tactic.Ring
/-
Helper lemmas: quoting and unquoting, writing and reading of numbers.
-/
namespace Verif.Save
open Verif.Scan (Uni Ctx Quoted)
open Verif.Num (CNum Cx)
variable {U : Uni}

/-! ## Hexadecimal digits -/

theorem unhex_digit : ∀ d, d < 16 → unhex (Nat.digitChar d) = some d := by decide

theorem hexDigit_plain : ∀ d, d < 16 → Nat.digitChar d ≠ '\\' ∧ Nat.digitChar d ≠ '\n' ∧ Nat.digitChar d ≠ '\'' ∧ Nat.digitChar d ≠ '"' ∧ Nat.digitChar d ≠ '\r' := by decide

theorem hex_succ (k n : Nat) : hex (k + 1) n = Nat.digitChar (n / 16 ^ k % 16) :: hex k n := by
  unfold hex
  rw [List.range_succ]
  simp

theorem readHex_hex (s : List Char) : ∀ (k v n : Nat), readHex k v (hex k n ++ s) = some (v * 16 ^ k + n % 16 ^ k, s) := by
  intro k
  induction k with
  | zero => intro v n; simp [hex, readHex, Nat.mod_one]
  | succ k ih =>
    intro v n
    rw [hex_succ, List.cons_append]
    simp only [readHex]
    rw [unhex_digit _ (Nat.mod_lt _ (by omega))]
    dsimp only
    rw [ih]
    congr 2
    have h1 := Nat.mod_mul (x := n) (a := 16 ^ k) (b := 16)
    rw [Nat.pow_succ, h1]
    ring

theorem hex_mem {k n : Nat} {c : Char} (h : c ∈ hex k n) : c ≠ '\\' ∧ c ≠ '\n' ∧ c ≠ '\'' ∧ c ≠ '"' ∧ c ≠ '\r' := by
  unfold hex at h
  obtain ⟨i, _, rfl⟩ := List.mem_map.1 h
  exact hexDigit_plain _ (Nat.mod_lt _ (by omega))

/-! ## Quoting -/

/-- A quote. -/
def IsQuote (q : Char) : Prop := q = '\'' ∨ q = '"'

theorem print_ctl (hU : U.Ok) {c : Char} (h : c.toNat < 32) : U.print c = false := by
  rw [hU.print c (by omega)]
  simp
  omega

theorem escape_ne (U : Uni) (q c : Char) : escape U q c ≠ [] := by
  unfold escape
  repeat' split
  all_goals simp

/-- What `escape` comes to. -/
theorem escape_cases (U : Uni) (q c : Char) :
    (escape U q c = ['\\', c] ∧ (c = q ∨ c = '\\')) ∨ (escape U q c = [c] ∧ c ≠ q ∧ c ≠ '\\' ∧ U.print c = true) ∨
    (∃ d, escape U q c = ['\\', d] ∧ c ≠ q ∧ c ≠ '\\' ∧
      ((d, c) ∈ [('a', '\x07'), ('b', '\x08'), ('f', '\x0c'), ('n', '\n'), ('r', '\r'), ('t', '\t'), ('v', '\x0b')])) ∨
    (escape U q c = '\\' :: 'x' :: hex 2 c.toNat ∧ c.toNat < 128) ∨
    (escape U q c = '\\' :: 'u' :: hex 4 c.toNat ∧ c.toNat < 65536) ∨
    (escape U q c = '\\' :: 'U' :: hex 8 c.toNat) := by
  unfold escape
  by_cases h0 : c = q ∨ c = '\\'
  · rw [if_pos h0]; exact Or.inl ⟨rfl, h0⟩
  rw [if_neg h0]
  rw [not_or] at h0
  right
  by_cases h1 : U.print c = true
  · rw [if_pos h1]; exact Or.inl ⟨rfl, h0.1, h0.2, h1⟩
  rw [if_neg h1]
  right
  by_cases h : c = '\x07'
  · rw [if_pos h]; exact Or.inl ⟨'a', rfl, h0.1, h0.2, by rw [h]; decide⟩
  rw [if_neg h]; clear h
  by_cases h : c = '\x08'
  · rw [if_pos h]; exact Or.inl ⟨'b', rfl, h0.1, h0.2, by rw [h]; decide⟩
  rw [if_neg h]; clear h
  by_cases h : c = '\x0c'
  · rw [if_pos h]; exact Or.inl ⟨'f', rfl, h0.1, h0.2, by rw [h]; decide⟩
  rw [if_neg h]; clear h
  by_cases h : c = '\n'
  · rw [if_pos h]; exact Or.inl ⟨'n', rfl, h0.1, h0.2, by rw [h]; decide⟩
  rw [if_neg h]; clear h
  by_cases h : c = '\r'
  · rw [if_pos h]; exact Or.inl ⟨'r', rfl, h0.1, h0.2, by rw [h]; decide⟩
  rw [if_neg h]; clear h
  by_cases h : c = '\t'
  · rw [if_pos h]; exact Or.inl ⟨'t', rfl, h0.1, h0.2, by rw [h]; decide⟩
  rw [if_neg h]; clear h
  by_cases h : c = '\x0b'
  · rw [if_pos h]; exact Or.inl ⟨'v', rfl, h0.1, h0.2, by rw [h]; decide⟩
  rw [if_neg h]; clear h
  right
  by_cases h : c.toNat < 32 ∨ c.toNat = 127
  · rw [if_pos h]; exact Or.inl ⟨rfl, by omega⟩
  rw [if_neg h]
  right
  by_cases h : c.toNat < 65536
  · rw [if_pos h]; exact Or.inl ⟨rfl, h⟩
  rw [if_neg h]
  exact Or.inr rfl

theorem unquoteChar_escape {q : Char} (hq : IsQuote q) (c : Char) (s : List Char) : unquoteChar q (escape U q c ++ s) = some (c, s) := by
  have hqb : ¬ '\\' = q := by rcases hq with rfl | rfl <;> decide
  rcases escape_cases U q c with ⟨h, h1⟩ | ⟨h, h1, h2, _⟩ | ⟨d, h, h1, h2, h3⟩ | ⟨h, h1⟩ | ⟨h, h1⟩ | h
  · rw [h]
    simp only [List.cons_append, List.nil_append, unquoteChar]
    rw [if_neg hqb, if_neg (by simp)]
    rcases h1 with rfl | rfl
    · rcases hq with rfl | rfl <;> rfl
    · rfl
  · rw [h]
    simp only [List.cons_append, List.nil_append, unquoteChar]
    rw [if_neg h1, if_pos h2]
  · rw [h]
    simp only [List.cons_append, List.nil_append, unquoteChar]
    rw [if_neg hqb, if_neg (by simp)]
    simp only [List.mem_cons, Prod.mk.injEq, List.not_mem_nil, or_false] at h3
    rcases h3 with ⟨rfl, rfl⟩ | ⟨rfl, rfl⟩ | ⟨rfl, rfl⟩ | ⟨rfl, rfl⟩ | ⟨rfl, rfl⟩ | ⟨rfl, rfl⟩ | ⟨rfl, rfl⟩ <;> rfl
  · rw [h]
    simp only [List.cons_append, unquoteChar]
    rw [if_neg hqb, if_neg (by simp), if_neg (by decide), if_neg (by decide), if_neg (by decide), if_neg (by decide), if_neg (by decide),
      if_neg (by decide), if_neg (by decide), if_pos trivial, readHex_hex]
    simp only [Option.bind_some, Nat.zero_mul, Nat.zero_add]
    rw [Nat.mod_eq_of_lt (by omega), ofByte, if_pos h1, Char.ofNat_toNat]
  · rw [h]
    simp only [List.cons_append, unquoteChar]
    rw [if_neg hqb, if_neg (by simp), if_neg (by decide), if_neg (by decide), if_neg (by decide), if_neg (by decide), if_neg (by decide),
      if_neg (by decide), if_neg (by decide), if_neg (by decide), if_pos trivial, readHex_hex]
    simp only [Option.bind_some, Nat.zero_mul, Nat.zero_add]
    rw [Nat.mod_eq_of_lt (by omega), if_pos (show c.toNat.isValidChar from c.valid), Char.ofNat_toNat]
  · rw [h]
    simp only [List.cons_append, unquoteChar]
    rw [if_neg hqb, if_neg (by simp), if_neg (by decide), if_neg (by decide), if_neg (by decide), if_neg (by decide), if_neg (by decide),
      if_neg (by decide), if_neg (by decide), if_neg (by decide), if_neg (by decide), if_pos trivial, readHex_hex]
    simp only [Option.bind_some, Nat.zero_mul, Nat.zero_add]
    have hlt : c.toNat < 16 ^ 8 := by
      have := c.valid
      unfold UInt32.isValidChar Nat.isValidChar at this
      have e : c.val.toNat = c.toNat := rfl
      rw [e] at this
      omega
    rw [Nat.mod_eq_of_lt hlt, if_pos (show c.toNat.isValidChar from c.valid), Char.ofNat_toNat]

theorem unquoteLoop_flatMap {q : Char} (hq : IsQuote q) : ∀ (cs : List Char) (n : Nat), cs.length ≤ n →
    unquoteLoop q n (cs.flatMap (escape U q)) = some cs := by
  intro cs
  induction cs with
  | nil => intro n _; cases n <;> rfl
  | cons c cs ih =>
    intro n hn
    cases n with
    | zero => simp at hn
    | succ n =>
      rw [List.flatMap_cons]
      have hu := unquoteChar_escape (U := U) hq c (cs.flatMap (escape U q))
      have hne : escape U q c ++ cs.flatMap (escape U q) ≠ [] := by simp [escape_ne]
      cases hl : escape U q c ++ cs.flatMap (escape U q) with
      | nil => exact absurd hl hne
      | cons d s =>
        rw [hl] at hu
        simp only [unquoteLoop]
        rw [hu]
        simp only [Option.bind_some]
        rw [ih n (by simpa using hn)]
        rfl

theorem unquoteLoop_plain {q : Char} : ∀ (s : List Char) (n : Nat), s.length ≤ n → '\\' ∉ s → q ∉ s → unquoteLoop q n s = some s := by
  intro s
  induction s with
  | nil => intro n _ _ _; cases n <;> rfl
  | cons c s ih =>
    intro n hn h1 h2
    cases n with
    | zero => simp at hn
    | succ n =>
      simp only [List.mem_cons, not_or] at h1 h2
      simp only [unquoteLoop, unquoteChar]
      rw [if_neg (fun h => h2.1 h.symm), if_pos (fun h => h1.1 h.symm)]
      simp only [Option.bind_some]
      rw [ih n (by simpa using hn) h1.2 h2.2]
      rfl

/-- No newline and no carriage return in a quoted text. -/
theorem escape_noctl (hU : U.Ok) {q c : Char} (hq : IsQuote q) : '\n' ∉ escape U q c ∧ '\r' ∉ escape U q c := by
  have hqn : q ≠ '\n' ∧ q ≠ '\r' := by rcases hq with rfl | rfl <;> decide
  have hp1 : U.print '\n' = false := print_ctl hU (by decide)
  have hp2 : U.print '\r' = false := print_ctl hU (by decide)
  rcases escape_cases U q c with ⟨h, h1⟩ | ⟨h, h1, h2, h3⟩ | ⟨d, h, h1, h2, h3⟩ | ⟨h, h1⟩ | ⟨h, h1⟩ | h
  · rw [h]
    rcases h1 with rfl | rfl
    · simp [hqn.1.symm, hqn.2.symm]
    · decide
  · rw [h]
    constructor
    · intro hm; simp at hm; subst hm; rw [hp1] at h3; cases h3
    · intro hm; simp at hm; subst hm; rw [hp2] at h3; cases h3
  · rw [h]
    simp only [List.mem_cons, Prod.mk.injEq, List.not_mem_nil, or_false] at h3
    rcases h3 with ⟨rfl, rfl⟩ | ⟨rfl, rfl⟩ | ⟨rfl, rfl⟩ | ⟨rfl, rfl⟩ | ⟨rfl, rfl⟩ | ⟨rfl, rfl⟩ | ⟨rfl, rfl⟩ <;> decide
  all_goals
    rw [h]
    constructor
    · intro hm
      simp only [List.mem_cons] at hm
      rcases hm with hm | hm | hm
      · exact absurd hm (by decide)
      · exact absurd hm (by decide)
      · exact (hex_mem hm).2.1 rfl
    · intro hm
      simp only [List.mem_cons] at hm
      rcases hm with hm | hm | hm
      · exact absurd hm (by decide)
      · exact absurd hm (by decide)
      · exact (hex_mem hm).2.2.2.2 rfl

theorem quoted_plain {q : Char} {s : List Char} (hs : Quoted q s) : ∀ (l : List Char), (∀ c ∈ l, c ≠ '\\' ∧ c ≠ '\n' ∧ c ≠ q) → Quoted q (l ++ s) := by
  intro l
  induction l with
  | nil => intro _; exact hs
  | cons c l ih =>
    intro h
    obtain ⟨h1, h2, h3⟩ := h c (by simp)
    exact .plain h1 h2 h3 (ih fun d hd => h d (by simp [hd]))

theorem quoted_escape (hU : U.Ok) {q : Char} (hq : IsQuote q) (c : Char) {s : List Char} (hs : Quoted q s) : Quoted q (escape U q c ++ s) := by
  have hqn : q ≠ '\n' := by rcases hq with rfl | rfl <;> decide
  have hp1 : U.print '\n' = false := print_ctl hU (by decide)
  have hh : ∀ k, ∀ d ∈ hex k c.toNat, d ≠ '\\' ∧ d ≠ '\n' ∧ d ≠ q := by
    intro k d hd
    obtain ⟨h1, h2, h3, h4, _⟩ := hex_mem hd
    refine ⟨h1, h2, ?_⟩
    rcases hq with rfl | rfl
    · exact h3
    · exact h4
  rcases escape_cases U q c with ⟨h, h1⟩ | ⟨h, h1, h2, h3⟩ | ⟨d, h, h1, h2, h3⟩ | ⟨h, h1⟩ | ⟨h, h1⟩ | h
  · rw [h]
    refine .escape ?_ hs
    rcases h1 with rfl | rfl
    · exact hqn
    · decide
  · rw [h]
    refine .plain h2 ?_ h1 hs
    rintro rfl
    rw [hp1] at h3; cases h3
  · rw [h]
    refine .escape ?_ hs
    simp only [List.mem_cons, Prod.mk.injEq, List.not_mem_nil, or_false] at h3
    rcases h3 with ⟨rfl, rfl⟩ | ⟨rfl, rfl⟩ | ⟨rfl, rfl⟩ | ⟨rfl, rfl⟩ | ⟨rfl, rfl⟩ | ⟨rfl, rfl⟩ | ⟨rfl, rfl⟩ <;> decide
  all_goals
    rw [h, List.cons_append, List.cons_append]
    exact .escape (by decide) (quoted_plain hs _ (hh _))

theorem quoted_flatMap (hU : U.Ok) {q : Char} (hq : IsQuote q) : ∀ cs : List Char, Quoted q (cs.flatMap (escape U q)) := by
  intro cs
  induction cs with
  | nil => exact .nil
  | cons c cs ih => rw [List.flatMap_cons]; exact quoted_escape hU hq c ih

theorem parseString_quote (hU : U.Ok) {q : Char} (hq : IsQuote q) (cs : List Char) : parseString (quote U q cs) = some cs := by
  have hlen : cs.length ≤ (cs.flatMap (escape U q)).length := by
    induction cs with
    | nil => simp
    | cons c cs ih =>
      rw [List.flatMap_cons, List.length_append, List.length_cons]
      have := List.length_pos_iff.2 (escape_ne U q c)
      omega
  have hn : '\n' ∉ cs.flatMap (escape U q) := by
    intro hm
    obtain ⟨c, _, hc⟩ := List.mem_flatMap.1 hm
    exact (escape_noctl hU hq).1 hc
  have hloop := unquoteLoop_flatMap (U := U) hq cs _ hlen
  unfold quote
  generalize hb : cs.flatMap (escape U q) = body at *
  have hshape : ∃ r0 r, body ++ [q] = r0 :: r := by
    cases body with
    | nil => exact ⟨q, [], rfl⟩
    | cons a b => exact ⟨a, b ++ [q], rfl⟩
  obtain ⟨r0, r, hr⟩ := hshape
  have hlast : (r0 :: r).getLast? = some q := by rw [← hr]; simp
  have hdrop : (r0 :: r).dropLast = body := by rw [← hr]; simp
  rw [List.cons_append, hr]
  simp only [parseString]
  rw [if_neg (by rw [hlast]; simp), hdrop]
  have hq1 : ¬ q = '`' := by rcases hq with rfl | rfl <;> decide
  have hq2 : ¬ (q ≠ '"' ∧ q ≠ '\'') := by rcases hq with rfl | rfl <;> decide
  rw [if_neg hq1, if_neg hq2, if_neg (by simpa using hn)]
  split
  · rename_i h
    have h1 : '\\' ∉ body := by simpa using h.1
    have h2 : q ∉ body := by simpa using h.2
    rw [unquoteLoop_plain body _ (Nat.le_refl _) h1 h2] at hloop
    exact hloop
  · exact hloop

/-! ## Numbers -/

theorem isDigit_iff (c : Char) : Scan.isDigit c = true ↔ c.isDigit = true := by
  simp only [Scan.isDigit, Char.isDigit, Bool.and_eq_true, decide_eq_true_eq]
  rfl

theorem toDigits_digits (n : Nat) : ∀ c ∈ Nat.toDigits 10 n, Scan.isDigit c = true := by
  intro c hc
  rw [isDigit_iff]
  exact Nat.isDigit_of_mem_toDigits (by omega) (by omega) hc

theorem readDigits_toDigits (n : Nat) : readDigits (Nat.toDigits 10 n) = some n := by
  unfold readDigits
  rw [if_neg Nat.toDigits_ne_nil, if_pos (by rw [List.all_eq_true]; exact toDigits_digits n)]
  congr 1
  have := Nat.ofDigitChars_ten_toDigits (n := n)
  rw [Nat.ofDigitChars_eq_foldl] at this
  exact this

theorem readInt_digits {s : List Char} (h : ∀ c ∈ s, Scan.isDigit c = true) : readInt s = (readDigits s).map fun n => (n : Int) := by
  unfold readInt
  split
  · exact absurd (h '+' (by simp)) (by decide)
  · exact absurd (h '-' (by simp)) (by decide)
  · rfl

theorem readInt_minus (s : List Char) : readInt ('-' :: s) = (readDigits s).map fun n => -(n : Int) := by
  simp [readInt]

theorem readInt_intText (i : Int) : readInt (intText i) = some i := by
  unfold intText
  split
  · rename_i h
    rw [List.singleton_append, readInt_minus, readDigits_toDigits]
    show some (-(i.natAbs : Int)) = some i
    congr 1
    omega
  · rename_i h
    rw [List.nil_append, readInt_digits (toDigits_digits _), readDigits_toDigits]
    show some ((i.natAbs : Int)) = some i
    congr 1
    omega

theorem shrinkBig_val (i : Int) : (Num.shrinkBig i).val = i ∧ (Num.shrinkBig i).isNum := by
  unfold Num.shrinkBig
  split <;> exact ⟨rfl, trivial⟩

theorem shrinkRat_val (r : Rat) : (Num.shrinkRat r).val = r ∧ (Num.shrinkRat r).isNum := by
  unfold Num.shrinkRat
  split
  · rename_i h
    refine ⟨?_, (shrinkBig_val _).2⟩
    rw [(shrinkBig_val _).1]
    exact Rat.coe_int_num_of_den_eq_one h
  · exact ⟨rfl, trivial⟩

theorem parseInt_intText (i : Int) : ∃ n, parseInt (intText i) = some n ∧ n.val = i ∧ n.isNum := by
  unfold parseInt
  rw [readInt_intText]
  refine ⟨if Num.minInt ≤ i ∧ i ≤ Num.maxInt then .int i else Num.shrinkBig i, rfl, ?_⟩
  split
  · exact ⟨rfl, trivial⟩
  · exact shrinkBig_val i

theorem parseInt_small {d : Nat} (h : d ≤ 2147483647) : parseInt (intText d) = some (.int d) := by
  unfold parseInt
  rw [readInt_intText]
  simp only [Option.map_some, Option.some.injEq]
  rw [if_pos]
  unfold Num.minInt Num.maxInt
  omega

theorem intText_chars (i : Int) : ∀ c ∈ intText i, c = '-' ∨ Scan.isDigit c = true := by
  intro c hc
  unfold intText at hc
  rcases List.mem_append.1 hc with h | h
  · split at h
    · left; simpa using h
    · cases h
  · exact Or.inr (toDigits_digits _ c h)

theorem intText_ne (i : Int) : intText i ≠ [] := by
  unfold intText
  simp [Nat.toDigits_ne_nil]

theorem split_none {sep : Char} : ∀ {s : List Char}, sep ∉ s → split sep s = [s] := by
  intro s
  induction s with
  | nil => intro _; rfl
  | cons c s ih =>
    intro h
    simp only [List.mem_cons, not_or] at h
    simp only [split, ih h.2]
    rw [if_neg (fun e => h.1 e.symm)]

theorem split_two {sep : Char} {b : List Char} (hb : sep ∉ b) : ∀ {a : List Char}, sep ∉ a → split sep (a ++ sep :: b) = [a, b] := by
  intro a
  induction a with
  | nil => intro _; simp [split, split_none hb]
  | cons c a ih =>
    intro h
    simp only [List.mem_cons, not_or] at h
    simp only [List.cons_append, split, ih h.2]
    rw [if_neg (fun e => h.1 e.symm)]

theorem intText_no (i : Int) {c : Char} (h1 : c ≠ '-') (h2 : Scan.isDigit c = false) : c ∉ intText i := by
  intro hm
  rcases intText_chars i c hm with h | h
  · exact h1 h
  · rw [h2] at h; cases h

theorem toRat_val (n : Num.Num) : toRat n = n.val := by cases n <;> rfl

theorem parseReal_intText (i : Int) : ∃ n, parseReal (intText i) = some n ∧ n.val = i ∧ n.isNum := by
  unfold parseReal
  rw [if_neg (by have := intText_no i (c := '/') (by decide) (by decide); simpa using this)]
  exact parseInt_intText i

theorem parseReal_ratText (r : Rat) : ∃ n, parseReal (intText r.num ++ '/' :: intText r.den) = some n ∧ n.val = r ∧ n.isNum := by
  unfold parseReal
  rw [if_pos (by simp), split_two (intText_no _ (by decide) (by decide)) (intText_no _ (by decide) (by decide))]
  dsimp only
  rw [if_neg (by simp [intText_ne])]
  obtain ⟨x, hx, hxv, _⟩ := parseInt_intText r.num
  obtain ⟨y, hy, hyv, _⟩ := parseInt_intText r.den
  rw [hx, hy]
  dsimp only
  rw [toRat_val, toRat_val, hxv, hyv]
  have hd : ((r.den : Int) : Rat) ≠ 0 := by
    have := r.den_nz
    exact_mod_cast this
  rw [if_neg hd]
  have : ((r.num : Rat) / ((r.den : Int) : Rat)) = r := by
    have := Rat.num_div_den r
    simpa using this
  rw [this]
  exact ⟨_, rfl, shrinkRat_val r⟩

theorem parseReal_putNum (n : Num.Num) (h : n.isNum) : ∃ m, parseReal (putNum U n) = some m ∧ m.val = n.val ∧ m.isNum := by
  cases n with
  | int i => exact parseReal_intText i
  | char c => exact absurd h id
  | bigInt i => exact parseReal_intText i
  | bigRat r => exact parseReal_ratText r

theorem putNum_chars (n : Num.Num) (h : n.isNum) : ∀ c ∈ putNum U n, c = '-' ∨ c = '/' ∨ Scan.isDigit c = true := by
  intro c hc
  have hi : ∀ i, c ∈ intText i → c = '-' ∨ c = '/' ∨ Scan.isDigit c = true := fun i hm => by
    have := intText_chars i c hm; tauto
  cases n with
  | int i => exact hi i hc
  | char c => exact absurd h id
  | bigInt i => exact hi i hc
  | bigRat r =>
    simp only [putNum, List.mem_append, List.mem_cons] at hc
    rcases hc with hc | hc | hc
    · exact hi _ hc
    · tauto
    · exact hi _ hc

theorem putNum_ne (n : Num.Num) : putNum U n ≠ [] := by
  cases n <;> simp [putNum, intText_ne, quote]

theorem putNum_no_j (n : Num.Num) (h : n.isNum) : 'j' ∉ putNum U n := by
  intro hm
  rcases putNum_chars n h _ hm with h | h | h <;> exact absurd h (by decide)

theorem shrink_val {n : Num.Num} (h : n.isNum) : n.shrink.val = n.val ∧ n.shrink.isNum := by
  cases n with
  | int i => exact ⟨rfl, trivial⟩
  | char c => exact absurd h id
  | bigInt i => exact shrinkBig_val i
  | bigRat r => exact shrinkRat_val r

theorem isZeroNum_val {n : Num.Num} (h : n.isNum) : Num.isZeroNum n = true ↔ n.val = 0 := by
  cases n <;> simp [Num.isZeroNum, Num.Num.val]
  exact absurd h id

theorem meanNum_num {n : Num.Num} (h : n.isNum) : meanNum n = .num n.val 0 := by
  cases n <;> first | rfl | exact absurd h id

/-- A number written is read as the same number. -/
theorem parseNumber_putScal (x : CNum) (hx : match x with | .num n => n.isNum | .cx c => c.re.isNum ∧ c.im.isNum) :
    ∃ y, parseNumber (putScal U x) = some y ∧ meanScal y = meanScal x := by
  cases x with
  | num n =>
    obtain ⟨m, hm, hv, hn⟩ := parseReal_putNum (U := U) n hx
    refine ⟨.num m, ?_, ?_⟩
    · unfold parseNumber putScal
      rw [if_neg (by have := putNum_no_j (U := U) n hx; simpa using this), hm]
      rfl
    · show meanNum m = meanNum n
      rw [meanNum_num hn, meanNum_num hx, hv]
  | cx c =>
    obtain ⟨h1, h2⟩ := hx
    obtain ⟨a, ha, hav, han⟩ := parseReal_putNum (U := U) c.re h1
    obtain ⟨b, hb, hbv, hbn⟩ := parseReal_putNum (U := U) c.im h2
    refine ⟨Cx.shrink ⟨a, b⟩, ?_, ?_⟩
    · unfold parseNumber putScal
      rw [if_pos (by simp), split_two (putNum_no_j _ h2) (putNum_no_j _ h1)]
      dsimp only
      rw [if_neg (by simp [putNum_ne]), ha, hb]
    · unfold Cx.shrink
      dsimp only
      obtain ⟨sa, sna⟩ := shrink_val han
      obtain ⟨sb, snb⟩ := shrink_val hbn
      split
      · rename_i hz
        have : b.shrink.val = 0 := (isZeroNum_val snb).1 hz
        show meanNum a.shrink = .num c.re.val c.im.val
        rw [meanNum_num sna, sa, hav, ← hbv, ← sb, this]
      · show Mean.num a.shrink.val b.shrink.val = .num c.re.val c.im.val
        rw [sa, sb, hav, hbv]

end Verif.Save
