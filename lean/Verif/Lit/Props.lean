import Verif.Lit.LemmasDec
import Verif.Lit.LemmasPrint
import Verif.Scan.Props
/-
Reading and printing numbers: the properties.
-/
namespace Verif.Lit
open Verif.Scan (Uni Ctx next ascii ascii_ok)
open Verif.Save (After Before meanScal Mean split_two)
open Verif.Num (CNum Cx)
open Verif.Arr (R)

/-! ## C65: the text of a number is read as the number -/

/-- **C65, integers.** In every input base from 2 to 16, digits of the base with or without a sign are read as the number they stand for,
however many they are. -/
theorem C65_int {b : Nat} (h2 : 2 ≤ b) (h16 : b ≤ 16) {sg s : List Char} {neg : Bool} {n : Nat} (hsg : Sign sg neg) (hs : Numeral b s n) : ReadsAs b (sg ++ s) (withSign neg n) := by
  obtain ⟨hu, hn⟩ := numeral_base (by omega) hs
  obtain ⟨hne, ds, hd, _⟩ := hs
  have hh := head_of_digs hd
  obtain ⟨x, hx1, hx2, hx3⟩ := parseOne_int hsg hh.1 hh.2 hu hn
  have hj := digs_noj (by omega) hd
  have hj' := sign_noj hsg
  refine ⟨x, ?_, hx2, hx3⟩
  rw [parse_one (by simp only [List.mem_append]; tauto) (by simp only [List.mem_append]; tauto), hx1]
  rfl

example : Sign ['-'] true ∧ Numeral 16 "fF".toList 255 ∧ parse 16 "-fF".toList = some (.num (.int (-255))) ∧
    parse 16 "ffffffffff".toList = some (.num (.bigInt 1099511627775)) := by
  refine ⟨by unfold Sign; decide, ⟨by decide, [15, 15], .cons ⟨Or.inr (by decide), by decide⟩ (.cons ⟨Or.inr (by decide), by decide⟩ .nil), by decide⟩, by decide +kernel, by decide +kernel⟩

/-- **C65, digits outside the base.** In every input base from 2 to 16, letters and digits one of which is no digit of the base are not read as a number,
unless there is an `e` or a `p` among them, which may be an exponent, or a `j`. -/
theorem C65_refused {b : Nat} (h2 : 2 ≤ b) (h16 : b ≤ 16) {sg s : List Char} {neg : Bool} (hsg : Sign sg neg) (hs : ∀ c ∈ s, ∃ d, Digit c d) (hbad : ∃ c ∈ s, ∃ d, Digit c d ∧ b ≤ d)
    (he : ∀ c ∈ s, c ∉ "eEpPj".toList) : parse b (sg ++ s) = none := by
  obtain ⟨c, hc, d, hcd, hd⟩ := hbad
  have hh : s.head? ≠ some '+' ∧ s.head? ≠ some '-' := by
    constructor <;> (intro h; obtain ⟨d, h'⟩ := hs _ (List.mem_of_mem_head? h); have := h'.plain; tauto)
  have hun := unsign_sign hsg hh.1 hh.2
  have hv : ∀ d', digitVal c = some d' → b ≤ d' := by
    intro d' h'
    rw [digitVal_digit hcd] at h'
    cases h'; exact hd
  have hne : s ≠ [] := by rintro rfl; cases hc
  have hsj := sign_noj hsg
  have hj : 'j' ∉ sg ++ s := by
    simp only [List.mem_append, not_or]
    exact ⟨hsj.1, fun h => he _ h (by decide)⟩
  have hsl : '/' ∉ sg ++ s := by
    simp only [List.mem_append, not_or]
    refine ⟨hsj.2, fun h => ?_⟩
    obtain ⟨d, h'⟩ := hs _ h
    exact h'.plain.2.2.2.2.1 rfl
  have h1 : parseInt32 b (sg ++ s) = none := by
    unfold parseInt32 parseUint uintPrefix
    rw [hun]
    dsimp only
    rw [if_neg hne, if_pos (by omega)]
    dsimp only
    rw [uintLoop_stop _ _ hcd.plain.1 hv _ _ hc]
    rfl
  have h2' : setString b (sg ++ s) = none := by
    unfold setString natScan scanPrefix
    rw [hun]
    dsimp only
    rw [if_pos (show b ≠ 0 by omega)]
    dsimp only
    have := scanLoop_stop (b == 0) b hcd.plain.1 hv s ⟨.other, false, false, 0, 0, none⟩ rfl hc
    generalize scanLoop (b == 0) b ⟨.other, false, false, 0, 0, none⟩ s = w at this
    obtain ⟨st, rest⟩ := w
    dsimp only at this ⊢
    cases rest with
    | nil => cases this
    | cons x rest =>
      split
      · rename_i heq
        exfalso
        split at heq
        · simp at heq
        · split at heq <;> simp at heq
      · rfl
  have h3 : setFloatString (sg ++ s) = none := by
    unfold setFloatString
    rw [if_pos]
    rw [List.any_eq_false]
    intro x hx
    rcases List.mem_append.1 hx with h | h
    · rcases hsg with ⟨rfl, _⟩ | ⟨rfl, _⟩ | ⟨rfl, _⟩
      · cases h
      · simp at h; subst h; decide
      · simp at h; subst h; decide
    · have h1 := he x h
      obtain ⟨d, h'⟩ := hs x h
      have h2 := h'.plain.2.1
      simp at h1 ⊢
      tauto
  rw [parse_one hj hsl]
  unfold parseOne
  rw [h1, h2', h3]
  rfl

example : parse 2 "102".toList = none ∧ (∃ c ∈ "102".toList, ∃ d, Digit c d ∧ 2 ≤ d) := ⟨by decide +kernel, '2', by decide, 2, Or.inl (by decide), by decide⟩

/-- **C65, base 0.** With the input base 0, a numeral is octal after `0`, `0o` and `0O`, hexadecimal after `0x` and `0X`, binary after `0b` and `0B`, and
decimal otherwise; single underscores between its digits mean nothing. -/
theorem C65_zero {sg p t : List Char} {neg : Bool} {b n : Nat} (hsg : Sign sg neg) (hp : Prefix p b ∨ (p = [] ∧ b = 10 ∧ (t.head? ≠ some '0' ∨ t = ['0'])))
    (hh : t.head? ≠ some '_') (hs : Spaced t) (hn : Numeral b (t.filter (· ≠ '_')) n) : ReadsAs 0 (sg ++ (p ++ t)) (withSign neg n) := by
  have hb : b ≤ 16 := by
    rcases hp with h | h
    · unfold Prefix at h; omega
    · omega
  have key : parseUint 0 (p ++ t) = some n ∧ ∃ b' k, natScan 0 false (p ++ t) = some (n, b', k, []) := by
    rcases hp with (⟨rfl, rfl⟩ | ⟨rfl, rfl⟩ | ⟨rfl, rfl⟩ | ⟨rfl, rfl⟩ | ⟨rfl, rfl⟩ | ⟨rfl, rfl⟩ | ⟨rfl, rfl⟩) | ⟨rfl, rfl, h | h⟩
    · exact numeral_octal hh hs hn
    · exact numeral_prefix (p := 'o') rfl (by omega) hs hn
    · exact numeral_prefix (p := 'O') rfl (by omega) hs hn
    · exact numeral_prefix (p := 'x') rfl (by omega) hs hn
    · exact numeral_prefix (p := 'X') rfl (by omega) hs hn
    · exact numeral_prefix (p := 'b') rfl (by omega) hs hn
    · exact numeral_prefix (p := 'B') rfl (by omega) hs hn
    · exact numeral_zero h hh hs hn
    · subst h
      have : n = 0 := by
        obtain ⟨_, ds, hd, rfl⟩ := hn
        have e : ['0'].filter (· ≠ '_') = ['0'] := by decide
        rw [e] at hd
        cases hd with
        | cons h hs =>
          cases hs
          have := digitVal_digit h.1
          rw [show digitVal '0' = some 0 from rfl] at this
          cases this
          rfl
      subst this
      exact zero_zero
  obtain ⟨hne, ds, hd, _⟩ := hn
  have hpm : ∀ c ∈ p, c ∈ "0oOxXbB".toList := by
    rcases hp with (⟨rfl, _⟩ | ⟨rfl, _⟩ | ⟨rfl, _⟩ | ⟨rfl, _⟩ | ⟨rfl, _⟩ | ⟨rfl, _⟩ | ⟨rfl, _⟩) | ⟨rfl, _⟩ <;> decide
  have hmem : ∀ c ∈ p ++ t, c ≠ '+' ∧ c ≠ '-' ∧ c ≠ 'j' ∧ c ≠ '/' := by
    intro c hc
    rcases List.mem_append.1 hc with h | h
    · have : ∀ c ∈ "0oOxXbB".toList, c ≠ '+' ∧ c ≠ '-' ∧ c ≠ 'j' ∧ c ≠ '/' := by decide
      exact this c (hpm c h)
    · rcases mem_digits hd c h with rfl | ⟨d, h1, h2⟩
      · decide
      · have := h1.plain
        have := this.2.2.2.2.2 (by omega)
        tauto
  have hsj := sign_noj hsg
  obtain ⟨x, hx1, hx2, hx3⟩ := parseOne_int hsg (fun h => (hmem _ (List.mem_of_mem_head? h)).1 rfl) (fun h => (hmem _ (List.mem_of_mem_head? h)).2.1 rfl) key.1 key.2
  refine ⟨x, ?_, hx2, hx3⟩
  rw [parse_one, hx1]
  · rfl
  · rw [List.mem_append, not_or]
    exact ⟨hsj.1, fun h => (hmem _ h).2.2.1 rfl⟩
  · rw [List.mem_append, not_or]
    exact ⟨hsj.2, fun h => (hmem _ h).2.2.2 rfl⟩

example : Prefix "0x".toList 16 ∧ Spaced ['f', '_', '0'] ∧ parse 0 "0xf_0".toList = some (.num (.int 240)) ∧ parse 0 "037".toList = some (.num (.int 31)) ∧ parse 0 "08".toList = none ∧
    parse 0 "-1_000".toList = some (.num (.int (-1000))) ∧ parse 0 "1__0".toList = none := by
  refine ⟨by unfold Prefix; decide, ⟨Or.inl (by decide), Or.inr (by decide), (by decide : '0' ≠ '_')⟩, by decide +kernel, by decide +kernel, by decide +kernel, by decide +kernel, by decide +kernel⟩

theorem dec_sign {i f : List Char} {n : Nat} (h : Numeral 10 (i ++ f) n) : ∃ ds es, Digs 10 i ds ∧ Digs 10 f es ∧ n = Nat.ofDigits 10 (ds ++ es).reverse := by
  obtain ⟨_, ds, hd, hn⟩ := h
  obtain ⟨h1, h2⟩ := List.forall₂_iff_get.1 hd
  refine ⟨ds.take i.length, ds.drop i.length, ?_, ?_, by rw [List.take_append_drop]; exact hn⟩
  · have := List.forall₂_take_append ds i f hd.flip
    exact this.flip
  · have := List.forall₂_drop_append ds i f hd.flip
    exact this.flip

theorem exp_chars {ex : List Char} {x : Int} (h : Exponent ex x) : 'j' ∉ ex ∧ '/' ∉ ex := by
  rcases h with ⟨rfl, _⟩ | ⟨c, sg, ds, neg, n, rfl, hc, hsg, ⟨_, es, hd, _⟩, _⟩
  · simp
  · have h1 := sign_noj hsg
    have h2 := digs_noj (by omega) hd
    simp only [List.cons_append, List.mem_cons, List.mem_append]
    rcases hc with rfl | rfl <;> (constructor <;> (rintro (h | h | h) <;> first | exact absurd h (by decide) | tauto))

/-- **C65, decimals.** In every input base, decimal digits with a point among, before or after them, with or without an exponent, are read as the exact decimal fraction. (The exponent and the
digits after the point together must not exceed a million.) -/
theorem C65_decimal {base : Nat} {sg i f ex : List Char} {neg : Bool} {n : Nat} {x : Int} (hsg : Sign sg neg) (hn : Numeral 10 (i ++ f) n) (hx : Exponent ex x)
    (hlim : (x - f.length).natAbs ≤ 1000000) : ReadsAs base (sg ++ (i ++ '.' :: (f ++ ex))) (withSign neg (n * (10 : Rat) ^ (x - f.length))) := by
  obtain ⟨ds, es, hi, hf, hval⟩ := dec_sign hn
  have hend := (scanExponent_of hx).2
  obtain ⟨h1, h2⟩ := not_int (base := base) (c := '.') (r := f ++ ex) hsg hi (by decide) (by decide) (by intro d h; rw [show digitVal '.' = none from rfl] at h; cases h)
  have hh : (i ++ '.' :: (f ++ ex)).head? ≠ some '+' ∧ (i ++ '.' :: (f ++ ex)).head? ≠ some '-' := by
    have := head_of_digs hi
    cases i with
    | nil => simp
    | cons x i => simpa using this
  have hun := unsign_sign hsg hh.1 hh.2
  have hk : (if -(f.length : Int) < 0 then -(f.length : Int) else 0) = -(f.length : Int) := by
    split <;> omega
  have hr := ratSetString_of (sg := sg) (by simp) hun (natScan_point hi hf hend hn.1) hx (by rw [hk]; omega)
  rw [hk, ← hval, show -(f.length : Int) + x = x - f.length by omega] at hr
  have c1 := digs_noj (by omega) hi
  have c2 := digs_noj (by omega) hf
  have c3 := exp_chars hx
  have c4 := sign_noj hsg
  refine ⟨Num.shrinkRat _, ?_, (Save.shrinkRat_val _).2, (Save.shrinkRat_val _).1⟩
  rw [parse_one]
  · unfold parseOne setFloatString
    rw [h1, h2, if_neg, hr]
    · rfl
    · simp
  · simp only [List.mem_append, List.mem_cons]
    rintro (h | h | h | h | h) <;> first | exact absurd h (by decide) | tauto
  · simp only [List.mem_append, List.mem_cons]
    rintro (h | h | h | h | h) <;> first | exact absurd h (by decide) | tauto

example : Exponent "e-2".toList (-2) ∧ parse 10 "12.5e-2".toList = some (.num (.bigRat (1 / 8))) ∧ parse 0 "-.5".toList = some (.num (.bigRat (-1 / 2))) ∧ parse 10 "3.".toList = some (.num (.int 3)) := by
  refine ⟨Or.inr ⟨'e', ['-'], ['2'], true, 2, rfl, Or.inl rfl, Or.inr (Or.inr ⟨rfl, rfl⟩), ⟨by decide, [2], .cons ⟨Or.inl (by decide), by decide⟩ .nil, by decide⟩, rfl⟩,
    by decide +kernel, by decide +kernel, by decide +kernel⟩

/-- **C65, exponents.** In the input bases in which `e` is no digit, decimal digits and an exponent are read as the number times the power of ten. -/
theorem C65_exponent {base : Nat} (hb : base ≤ 14) {sg i ex : List Char} {neg : Bool} {n : Nat} {x : Int} (hsg : Sign sg neg) (hn : Numeral 10 i n) (hx : Exponent ex x) (hne : ex ≠ [])
    (hlim : x.natAbs ≤ 1000000) : ReadsAs base (sg ++ (i ++ ex)) (withSign neg (n * (10 : Rat) ^ x)) := by
  obtain ⟨hi0, ds, hi, hval⟩ := hn
  obtain ⟨c, r, he, hc⟩ := (scanExponent_of hx).2.resolve_left hne
  have hcd : digitVal c = some 14 := by rcases hc with rfl | rfl <;> rfl
  have hcp : prefixBase c = none ∧ (c ≠ '_' ∧ c ≠ '+' ∧ c ≠ '-' ∧ c ≠ '0') := by rcases hc with rfl | rfl <;> decide
  obtain ⟨h1, h2⟩ := not_int (base := base) (c := c) (r := r) hsg hi hcp.1 hcp.2 (by intro d h; rw [hcd] at h; cases h; omega)
  have hh : (i ++ ex).head? ≠ some '+' ∧ (i ++ ex).head? ≠ some '-' := by
    have := head_of_digs hi
    cases i with
    | nil => exact absurd rfl hi0
    | cons x i => simpa using this
  have hun := unsign_sign hsg hh.1 hh.2
  have hk : (if (i.length : Int) < 0 then (i.length : Int) else 0) = 0 := if_neg (by omega)
  have hr := ratSetString_of (sg := sg) (by simp [hi0]) hun (natScan_exp hi he hc hi0) hx (by rw [hk]; omega)
  rw [hk, ← hval, zero_add] at hr
  have c1 := digs_noj (by omega) hi
  have c3 := exp_chars hx
  have c4 := sign_noj hsg
  rw [← he] at h1 h2
  refine ⟨Num.shrinkRat _, ?_, (Save.shrinkRat_val _).2, (Save.shrinkRat_val _).1⟩
  rw [parse_one]
  · unfold parseOne setFloatString
    rw [h1, h2, if_neg, hr]
    · rfl
    · rw [he]
      simp only [Bool.not_eq_false, List.any_eq_true]
      refine ⟨c, by simp, ?_⟩
      rcases hc with rfl | rfl <;> decide
  · simp only [List.mem_append]
    tauto
  · simp only [List.mem_append]
    tauto

example : parse 10 "1e3".toList = some (.num (.int 1000)) ∧ parse 16 "1e3".toList = some (.num (.int 483)) := ⟨by decide +kernel, by decide +kernel⟩

/-- **C65, rationals.** Two texts that are read as numbers, with a slash between them, are read as the quotient; if the second is zero they are not read as a number. -/
theorem C65_ratio {base : Nat} {s t : List Char} {p q : Rat} (hs : ReadsAs base s p) (ht : ReadsAs base t q) (h1 : 'j' ∉ s ∧ '/' ∉ s) (h2 : 'j' ∉ t ∧ '/' ∉ t) :
    (q ≠ 0 → ReadsAs base (s ++ '/' :: t) (p / q)) ∧ (q = 0 → parse base (s ++ '/' :: t) = none) := by
  have nonempty : ∀ {u : List Char} {r}, ReadsAs base u r → u ≠ [] := by
    rintro u r ⟨x, hx, _⟩ rfl
    have : parse base [] = none := by
      have h1 : natScan base false [] = none := by
        unfold natScan scanPrefix
        by_cases h0 : base ≠ 0
        · rw [if_pos h0]; rfl
        · rw [if_neg h0]; rfl
      unfold parse parseReal parseOne parseInt32 setString
      simp [unsign, parseUint, setFloatString, h1]
    rw [this] at hx
    cases hx
  have ns := nonempty hs
  have nt := nonempty ht
  obtain ⟨x, hx, hxn, hxv⟩ := hs
  obtain ⟨y, hy, hyn, hyv⟩ := ht
  rw [parse_one h1.1 h1.2] at hx
  rw [parse_one h2.1 h2.2] at hy
  obtain ⟨x', hx, e⟩ := Option.map_eq_some_iff.1 hx
  cases e
  obtain ⟨y', hy, e⟩ := Option.map_eq_some_iff.1 hy
  cases e
  have hj : (s ++ '/' :: t).contains 'j' = false := by
    simp only [List.contains_eq_mem, decide_eq_false_iff_not, List.mem_append, List.mem_cons]
    rintro (h | h | h)
    · exact h1.1 h
    · exact absurd h (by decide)
    · exact h2.1 h
  have hp : parse base (s ++ '/' :: t) = (if Save.toRat y = 0 then none else some (Num.shrinkRat (Save.toRat x / Save.toRat y))).map .num := by
    unfold parse parseReal
    rw [hj, if_neg (by simp), if_pos (by simp), split_two h2.2 h1.2]
    dsimp only
    rw [if_neg (by simp [ns, nt]), hx, hy]
  rw [hp, Save.toRat_val, Save.toRat_val, hxv, hyv]
  refine ⟨fun h0 => ?_, fun h0 => ?_⟩
  · refine ⟨Num.shrinkRat (p / q), ?_, (Save.shrinkRat_val _).2, (Save.shrinkRat_val _).1⟩
    rw [hp, Save.toRat_val, Save.toRat_val, hxv, hyv, if_neg h0]
    rfl
  · rw [if_pos h0]
    rfl

example : parse 10 "6/4".toList = some (.num (.bigRat (3 / 2))) ∧ parse 10 "1.5/0.5".toList = some (.num (.int 3)) ∧ parse 10 "1/0".toList = none :=
  ⟨by decide +kernel, by decide +kernel, by decide +kernel⟩

/-- **C65, complex numbers.** Two texts that are read as numbers, with a `j` between them, are read as the number with that real and that imaginary part. -/
theorem C65_complex {base : Nat} {s t : List Char} {p q : Rat} (hs : ReadsAs base s p) (ht : ReadsAs base t q) (h1 : 'j' ∉ s ∧ s ≠ []) (h2 : 'j' ∉ t ∧ t ≠ []) :
    ∃ z, parse base (s ++ 'j' :: t) = some z ∧ meanScal z = .num p q := by
  obtain ⟨x, hx, hxn, hxv⟩ := hs
  obtain ⟨y, hy, hyn, hyv⟩ := ht
  have e1 : parse base s = (parseReal base s).map .num := by
    unfold parse; rw [if_neg (by simpa using h1.1)]
  have e2 : parse base t = (parseReal base t).map .num := by
    unfold parse; rw [if_neg (by simpa using h2.1)]
  rw [e1] at hx
  rw [e2] at hy
  obtain ⟨x', hx, e⟩ := Option.map_eq_some_iff.1 hx
  cases e
  obtain ⟨y', hy, e⟩ := Option.map_eq_some_iff.1 hy
  cases e
  refine ⟨Cx.shrink ⟨x, y⟩, ?_, ?_⟩
  · unfold parse
    rw [if_pos (by simp), split_two h2.1 h1.1]
    dsimp only
    rw [if_neg (by simp [h1.2, h2.2]), hx, hy]
  · rw [mean_shrink hxn hyn, hxv, hyv]

example : parse 10 "1j-1/2".toList = some (.cx ⟨.int 1, .bigRat (-1 / 2)⟩) ∧ parse 10 "3j0".toList = some (.num (.int 3)) := ⟨by decide +kernel, by decide +kernel⟩

/-- **C65, full statement.** In every input base from 2 to 16, digits of the base with a point among, before or after them are read as the number they stand for in that base. -/
def C65_full : Prop :=
  ∀ (b : Nat) (i f : List Char) (n : Nat), 2 ≤ b → b ≤ 16 → Numeral b (i ++ f) n → f.length ≤ 1000000 → ReadsAs b (i ++ '.' :: f) (n / (b : Rat) ^ f.length)

/-- **C65 is violated** (finding): with the input base 16, `1.8` is nine fifths, not one and a half: what has a point is always read base 10. -/
theorem C65_violated : ¬ C65_full := by
  intro h
  obtain ⟨x, hx, _, hv⟩ := h 16 ['1'] ['8'] 24 (by decide) (by decide) ⟨by decide, [1, 8], .cons ⟨Or.inl (by decide), by decide⟩ (.cons ⟨Or.inl (by decide), by decide⟩ .nil), by decide⟩ (by decide)
  have : parse 16 (['1'] ++ '.' :: ['8']) = some (.num (.bigRat (9 / 5))) := by decide +kernel
  rw [this] at hx
  cases hx
  have hv : ((9 : Rat) / 5) = ((24 : Nat) : Rat) / ((16 : Nat) : Rat) ^ 1 := hv
  norm_num at hv

/-- **C65 is violated** (finding): with the input base 16, `a.8` is no number. -/
theorem C65_violated_letter : ¬ C65_full := by
  intro h
  obtain ⟨x, hx, _, hv⟩ := h 16 ['a'] ['8'] 168 (by decide) (by decide) ⟨by decide, [10, 8], .cons ⟨Or.inr (by decide), by decide⟩ (.cons ⟨Or.inl (by decide), by decide⟩ .nil), by decide⟩ (by decide)
  have : parse 16 (['a'] ++ '.' :: ['8']) = none := by decide +kernel
  rw [this] at hx
  cases hx

/-- **C65, partial.** `C65_full` holds for base 10. Missing: the other bases, for which it is false. -/
theorem C65_partial {i f : List Char} {n : Nat} (hn : Numeral 10 (i ++ f) n) (hlim : f.length ≤ 1000000) : ReadsAs 10 (i ++ '.' :: f) (n / (10 : Rat) ^ f.length) := by
  have := C65_decimal (base := 10) (sg := []) (neg := false) (ex := []) (x := 0) (Or.inl ⟨rfl, rfl⟩) hn (Or.inl ⟨rfl, rfl⟩) (by omega)
  rw [List.nil_append, List.append_nil] at this
  have e : withSign false ((n : Rat) * (10 : Rat) ^ ((0 : Int) - f.length)) = n / (10 : Rat) ^ f.length := by
    unfold withSign
    rw [if_neg (by simp), zero_sub, zpow_neg, zpow_natCast, div_eq_mul_inv]
  rw [e] at this
  exact this

example : Numeral 10 ("12".toList ++ "50".toList) 1250 ∧ parse 10 "12.50".toList = some (.num (.bigRat (25 / 2))) :=
  ⟨⟨by decide, [1, 2, 5, 0], .cons ⟨Or.inl (by decide), by decide⟩ (.cons ⟨Or.inl (by decide), by decide⟩ (.cons ⟨Or.inl (by decide), by decide⟩ (.cons ⟨Or.inl (by decide), by decide⟩ .nil))), by decide⟩,
    by decide +kernel⟩

/-! ## C66: what is printed can be read back -/

/-- The scalar is a number. -/
def IsNumber : CNum → Prop
  | .num n => n.isNum
  | .cx c => c.re.isNum ∧ c.im.isNum

/-- **C66.** Whatever the base, if a number is printed, then its text, read in the same base, is scanned as one number and read as that number, provided no operator has a name made of digits of the base. -/
theorem C66 {U : Uni} {C : Ctx} {md : Nat} {x : CNum} {t rest : List Char} {p : Option Char} (hU : U.Ok) (hb : BaseOk C.base) (hops : NoDigitOps C) (hx : IsNumber x)
    (h : sprint md C.base x = .ok t) (hp : Before p) (hr : After rest) :
    (∃ p', next U C p (t ++ rest) = .tok ⟨.number, t⟩ p' rest) ∧ ∃ y, parse C.base t = some y ∧ meanScal y = meanScal x := by
  obtain ⟨ht, hy⟩ := sprint_text hb (by cases x <;> exact hx) h
  exact ⟨next_dg hU (eff_le hb).2 hops ht hp hr, hy⟩

/-- **C66, no text stands for two numbers.** -/
theorem C66_distinct {md md' b : Nat} {x y : CNum} {t : List Char} (hb : BaseOk b) (hx : IsNumber x) (hy : IsNumber y) (h1 : sprint md b x = .ok t) (h2 : sprint md' b y = .ok t) : meanScal x = meanScal y := by
  obtain ⟨_, u, hu, e⟩ := sprint_text hb (by cases x <;> exact hx) h1
  obtain ⟨_, v, hv, e'⟩ := sprint_text hb (by cases y <;> exact hy) h2
  rw [hu] at hv
  cases hv
  rw [← e, ← e']

/-- **C66, every number is printed** in the bases 0, 2, 8, 10 and 16 if `)maxdigits` is 0. -/
theorem C66_prints {b : Nat} (hb : b = 0 ∨ b = 2 ∨ b = 8 ∨ b = 10 ∨ b = 16) {x : CNum} (hx : IsNumber x) : ∃ t, sprint 0 b x = .ok t := by
  have key : ∀ n : Num.Num, n.isNum → ∃ t, sprintNum 0 b n = .ok t := by
    intro n hn
    cases n with
    | int i => exact ⟨_, rfl⟩
    | char c => exact absurd hn id
    | bigInt i => exact sprintBig_ok hb i
    | bigRat r =>
      obtain ⟨a, ha⟩ := sprintBig_ok hb r.num
      obtain ⟨c, hc⟩ := sprintBig_ok hb (r.den : Int)
      refine ⟨a ++ '/' :: c, ?_⟩
      show ((sprintBig 0 b r.num).bind fun a => (sprintBig 0 b r.den).bind fun c => .ok (a ++ '/' :: c)) = _
      rw [ha, hc]
      rfl
  cases x with
  | num n => exact key n hx
  | cx c =>
    obtain ⟨a, ha⟩ := key c.re hx.1
    obtain ⟨d, hd⟩ := key c.im hx.2
    refine ⟨a ++ 'j' :: d, ?_⟩
    show ((sprintNum 0 b c.re).bind fun a => (sprintNum 0 b c.im).bind fun d => .ok (a ++ 'j' :: d)) = _
    rw [ha, hd]
    rfl

theorem someCtx_ops (b : Nat) (hb : BaseOk b) : NoDigitOps (Scan.someCtx b) := by
  intro c w hc _
  obtain ⟨d, h, hd⟩ := hc
  have hlt : d < 16 := by
    have := eff_le hb
    unfold eff at this
    change d < (if b = 0 then 10 else b) at hd
    omega
  have key : ∀ x v, digitVal x = some v → 16 ≤ v → c ≠ x := by
    rintro x v hv h16 rfl
    rw [digitVal_digit h] at hv
    cases hv
    omega
  have hr := key 'r' 27 rfl (by decide)
  have hpl := h.plain
  simp [Scan.defined, Scan.someCtx, hr, hpl]

/-- Numbers that begin with a letter, with two parts, negative. -/
example : ascii.Ok ∧ BaseOk (Scan.someCtx 16).base ∧ NoDigitOps (Scan.someCtx 16) ∧ IsNumber (.cx ⟨.bigRat (-255 / 16), .int 171⟩) ∧
    sprint 0 16 (.cx ⟨.bigRat (-255 / 16), .int 171⟩) = .ok "-ff/10jab".toList ∧ Before (some ' ') ∧ After ['\n'] :=
  ⟨ascii_ok, Or.inr (by decide), someCtx_ops 16 (Or.inr (by decide)), ⟨trivial, trivial⟩, by decide +kernel, Or.inl rfl, '\n', [], rfl, Or.inr (Or.inr rfl)⟩

end Verif.Lit
