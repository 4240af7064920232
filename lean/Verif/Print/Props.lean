import Verif.Print.Lemmas7
import Verif.Lit.Props

/-!
# Printing of arrays: the properties (C59)

`sp` gives the texts of the numbers. A newline is the byte 10, a blank is 32.
-/

namespace Verif.Print
open Verif.Arr
open Verif.Order (Val)

/-! ## Arrays of numbers and characters -/

/-- **C59, vectors.** The elements of a vector of numbers, or of numbers and characters, are printed on one line with one blank between them. -/
theorem C59_vector {sp : Val → Str} {o : Nat} {l : List Val} (h : ∀ v ∈ l, IsScalar v) (hn : ∃ v ∈ l, ¬ IsChar v) :
    sprint sp o (.vec l) = .ok (List.intercalate [32] (l.map (scalarText sp))) := by
  simp only [sprint]
  rw [elemsOf_scalars h, bind_ok, vecText_scalars (scalars_all h), chars_not h hn, elems_text]
  rfl

/-- **C59, strings.** The characters of a vector of characters are printed without anything between them. -/
theorem C59_string {sp : Val → Str} {o : Nat} {l : List Val} (h : ∀ v ∈ l, IsChar v) :
    sprint sp o (.vec l) = .ok ((l.map (scalarText sp)).flatten) := by
  have hs : ∀ v ∈ l, IsScalar v := fun v hv => (h v hv).scalar
  simp only [sprint]
  rw [elemsOf_scalars hs, bind_ok, vecText_scalars (scalars_all hs), chars_all h, elems_text]
  simp only [if_true]
  rw [intercalate_empty]

/-- The texts of integers. -/
def ints : Val → Str
  | .num (.int i) => decimal i
  | _ => bytes "?"

/-- An integer. -/
abbrev int (i : Int) : Val := .num (.int i)

/-- A character. -/
abbrev chr (c : Char) : Val := .num (.char c.toNat)

/-- **C59, characters.** The text of a character is its encoding in UTF-8 (as Lean's library has it). -/
theorem C59_utf8 (c : Char) {sp : Val → Str} {o : Nat} : sprint sp o (chr c) = .ok ((String.utf8EncodeChar c).map UInt8.toNat) := by
  have hv : c.val.toNat = c.toNat := rfl
  have hr := c.valid
  simp only [UInt32.isValidChar, Nat.isValidChar, hv] at hr
  simp only [sprint, utf8]
  rw [if_neg (by omega)]
  simp only [Int.toNat_natCast]
  unfold String.utf8EncodeChar
  simp only [hv]
  by_cases h1 : c.toNat < 0x80
  · rw [if_pos h1, if_pos (by omega)]
    simp only [List.map_cons, List.map_nil, UInt8.toNat_ofNat']
    congr 2
    omega
  rw [if_neg h1, if_neg (show ¬ c.toNat ≤ 0x7f by omega)]
  by_cases h2 : c.toNat < 0x800
  · rw [if_pos h2, if_pos (by omega)]
    simp only [List.map_cons, List.map_nil, UInt8.toNat_ofNat', R.ok.injEq, List.cons.injEq, and_true]
    omega
  rw [if_neg h2, if_neg (show ¬ c.toNat ≤ 0x7ff by omega)]
  by_cases h3 : c.toNat < 0x10000
  · rw [if_pos h3, if_pos (by omega)]
    simp only [List.map_cons, List.map_nil, UInt8.toNat_ofNat', R.ok.injEq, List.cons.injEq, and_true]
    omega
  · rw [if_neg h3, if_neg (show ¬ c.toNat ≤ 0xffff by omega)]
    simp only [List.map_cons, List.map_nil, UInt8.toNat_ofNat', R.ok.injEq, List.cons.injEq, and_true]
    omega

example : sprint ints 1 (chr 'é') = .ok [195, 169] := by decide +kernel

example : (∀ v ∈ [int 1, chr 'a', int (-23)], IsScalar v) ∧ (∃ v ∈ [int 1, chr 'a', int (-23)], ¬ IsChar v) ∧
    sprint ints 1 (.vec [int 1, chr 'a', int (-23)]) = .ok (bytes "1 a -23") :=
  ⟨by simp [IsScalar], ⟨int 1, by simp, id⟩, by decide +kernel⟩

example : (∀ v ∈ [chr 'a', chr 'b'], IsChar v) ∧ sprint ints 1 (.vec [chr 'a', chr 'b']) = .ok (bytes "ab") := ⟨by simp [IsChar], by decide +kernel⟩

/-- **C59, matrices.** A matrix of numbers, or of numbers and characters, is printed as a table: a line for each row, in which the texts are moved to the right
in columns with a blank between them. A column is as wide as the longest text in it; if no text has more than four bytes, all columns are as wide as the
longest of all. -/
theorem C59_matrix {sp : Val → Str} {o r c : Nat} {d : List Val} (hr : 0 < r) (hc : 0 < c) (hl : d.length = r * c) (h : ∀ v ∈ d, IsScalar v)
    (hn : ∃ v ∈ d, ¬ IsChar v) : sprint sp o (.mat [r, c] d) = .ok (table r c (d.map (scalarText sp)) (d.map (scalarText sp))) := by
  simp only [sprint]
  rw [elemsOf_scalars h, bind_ok]
  simp only [matText, List.length_cons, List.length_nil, Nat.reduceLeDiff, if_true, lowText]
  rw [text2_scalars hr hc (by rw [List.length_map, hl]) (scalars_all h) (chars_not h hn), elems_text]

/-- **C59, matrices of characters.** A line for each row. -/
theorem C59_text {sp : Val → Str} {o r c : Nat} {d : List Val} (hr : 0 < r) (hc : 0 < c) (h : ∀ v ∈ d, IsChar v) :
    sprint sp o (.mat [r, c] d) = .ok (List.intercalate [10] ((tableRows r c (d.map (scalarText sp))).map List.flatten)) := by
  have hs : ∀ v ∈ d, IsScalar v := fun v hv => (h v hv).scalar
  simp only [sprint]
  rw [elemsOf_scalars hs, bind_ok]
  simp only [matText, List.length_cons, List.length_nil, Nat.reduceLeDiff, if_true, lowText]
  rw [text2_chars hr hc (chars_all h), elems_text]

/-- **C59, rank three.** The matrices that make up an array of rank three are printed one after the other, with an empty line between them. The columns are as
wide as the texts of the whole array need. -/
theorem C59_blocks {sp : Val → Str} {o n r c : Nat} {d : List Val} (hr : 0 < r) (hc : 0 < c) (hl : d.length = n * (r * c)) (h : ∀ v ∈ d, IsScalar v)
    (hn : ∃ v ∈ d, ¬ IsChar v) : sprint sp o (.mat [n, r, c] d) = .ok (List.intercalate [10, 10] ((List.range n).map fun i =>
      table r c (d.map (scalarText sp)) (((d.map (scalarText sp)).drop (i * (r * c))).take (r * c)))) := by
  simp only [sprint]
  rw [elemsOf_scalars h, bind_ok]
  simp only [matText, List.length_cons, List.length_nil, Nat.reduceLeDiff, if_true, lowText]
  rw [text3_scalars hr hc (by rw [List.length_map, hl]) (scalars_all h) (chars_not h hn), elems_text]
  rfl

example : (∀ v ∈ [int 1, int 12345, int 3, int (-4)], IsScalar v) ∧ (∃ v ∈ [int 1, int 12345, int 3, int (-4)], ¬ IsChar v) ∧
    sprint ints 1 (.mat [2, 2] [int 1, int 12345, int 3, int (-4)]) = .ok (bytes "1 12345\n3    -4") ∧
    sprint ints 1 (.mat [2, 1, 2] [int 1, int 12, int 3, int (-4)]) = .ok (bytes " 1 12\n\n 3 -4") :=
  ⟨by simp [IsScalar], ⟨int 1, by simp, id⟩, by decide +kernel, by decide +kernel⟩

example : (∀ v ∈ [chr 'a', chr 'b', chr 'c', chr ' '], IsChar v) ∧ sprint ints 1 (.mat [2, 2] [chr 'a', chr 'b', chr 'c', chr ' ']) = .ok (bytes "ab\nc ") :=
  ⟨by simp [IsChar], by decide +kernel⟩

/-- **C59, alignment.** All lines of a matrix of numbers have the same length. -/
theorem C59_aligned {sp : Val → Str} {o r c : Nat} {d : List Val} (hr : 0 < r) (hc : 0 < c) (hl : d.length = r * c)
    (h : ∀ v ∈ d, IsNumber v ∧ sp v ≠ [] ∧ 10 ∉ sp v) : ∃ ls w, sprint sp o (.mat [r, c] d) = .ok (List.intercalate [10] ls) ∧ ls.length = r ∧
      ∀ l ∈ ls, l.length = w ∧ 10 ∉ l := by
  obtain ⟨w, hw⟩ := tableLines_props (r := r) (ts := d.map sp) hc (by simpa using hl)
    (fun s hs => by obtain ⟨v, hv, rfl⟩ := List.mem_map.mp hs; exact (h v hv).2.1)
    (fun s hs => by obtain ⟨v, hv, rfl⟩ := List.mem_map.mp hs; exact (h v hv).2.2)
  refine ⟨tableLines r c (d.map sp), w, ?_, tableLines_length r c _, fun l hl => ⟨(hw l hl).2.1, (hw l hl).1⟩⟩
  have hne : ∃ v ∈ d, ¬ IsChar v := by
    cases d with
    | nil =>
      have : 0 < r * c := Nat.mul_pos hr hc
      simp at hl
      omega
    | cons v d => exact ⟨v, by simp, (h v (by simp)).1.notChar⟩
  rw [C59_matrix hr hc hl (fun v hv => (h v hv).1.scalar) hne, texts_numbers fun v hv => (h v hv).1]
  rfl

/-- **C59, all numbers are there.** Whatever the shape, the words printed for an array of numbers are the texts of its elements, each once and in order; but for
the lines that say which part of an array of rank four or more comes next. -/
theorem C59_words {sp : Val → Str} {o : Nat} {shape : List Nat} {d : List Val} (hs : shape ≠ []) (hl : d.length = shape.prod)
    (h : ∀ v ∈ d, IsNumber v ∧ Word (sp v)) : ∃ s, sprint sp o (.mat shape d) = .ok s ∧ contents s = d.map sp := by
  have hsc : ∀ v ∈ d, IsScalar v := fun v hv => (h v hv).1.scalar
  simp only [sprint]
  rw [elemsOf_scalars hsc, bind_ok]
  obtain ⟨s, h1, h2⟩ := matText_contents (origin := o) (es := d.map fun v => ⟨kindOf v, scalarText sp v⟩) hs (by rw [List.length_map, hl]) (by
    intro e he
    obtain ⟨v, hv, rfl⟩ := List.mem_map.mp he
    exact ⟨(h v hv).1.kind, by simp only; rw [(h v hv).1.text]; exact (h v hv).2⟩)
  refine ⟨s, h1, ?_⟩
  rw [h2, elems_text, texts_numbers fun v hv => (h v hv).1]

/-- A digit can stand for an element. -/
theorem ints_digit {v : Val} (h : v ∈ [int 1, int 2, int 3, int 4]) : IsNumber v ∧ Word (ints v) := by
  simp only [List.mem_cons, List.not_mem_nil, or_false] at h
  rcases h with rfl | rfl | rfl | rfl <;> exact ⟨trivial, by unfold Word; decide +kernel⟩

example : (∀ v ∈ [int 1, int 2, int 3, int 4], IsNumber v ∧ Word (ints v)) ∧
    sprint ints 1 (.mat [2, 1, 1, 2] [int 1, int 2, int 3, int 4]) = .ok (bytes "[1 * * *]:\n  1 2\n\n[2 * * *]:\n  3 4") ∧
    contents (bytes "[1 * * *]:\n  1 2\n\n[2 * * *]:\n  3 4") = [bytes "1", bytes "2", bytes "3", bytes "4"] :=
  ⟨fun _ => ints_digit, by decide +kernel, by decide +kernel⟩

example : (∀ v ∈ [int 1, int 2, int 3, int 4], IsNumber v ∧ ints v ≠ [] ∧ 10 ∉ ints v) ∧ sprint ints 1 (.mat [2, 2] [int 1, int 2, int 3, int 4]) = .ok (bytes "1 2\n3 4") :=
  ⟨fun _ h => ⟨(ints_digit h).1, (ints_digit h).2.1, (ints_digit h).2.2.2.1⟩, by decide +kernel⟩

/-! ## Reading back -/

/-- The scalar as the model of reading and printing of numbers has it. -/
def toNum : Val → Option Num.CNum
  | .num n => some (.num n)
  | .cplx a b => some (.cx ⟨a, b⟩)
  | _ => none

/-- The number is printed as the text `t` in the base. -/
def Prints (md b : Nat) (v : Val) (t : List Char) : Prop := ∃ x, toNum v = some x ∧ Lit.IsNumber x ∧ Lit.sprint md b x = .ok t

/-- The texts of numbers in a base. -/
def numerals (md b : Nat) (v : Val) : Str :=
  match toNum v with
  | none => []
  | some x => match Lit.sprint md b x with
    | .ok t => t.map Char.toNat
    | _ => []

theorem Prints.spec {md b : Nat} {v : Val} {t : List Char} (hb : Lit.BaseOk b) (h : Prints md b v t) : IsNumber v ∧ Word (numerals md b v) ∧ numerals md b v = t.map Char.toNat := by
  obtain ⟨x, h1, h2, h3⟩ := h
  have h4 : numerals md b v = t.map Char.toNat := by unfold numerals; rw [h1]; simp only; rw [h3]
  refine ⟨?_, ?_, h4⟩
  · cases v with
    | num n =>
      simp only [toNum, Option.some.injEq] at h1
      subst h1
      cases n <;> first | trivial | exact absurd h2 id
    | cplx a b => trivial
    | vec l => simp [toNum] at h1
    | mat s d => simp [toNum] at h1
  · rw [h4]
    exact numText_word (Lit.sprint_text hb (by cases x <;> exact h2) h3).1

/-- **C59, reading back.** In every base, the words printed for an array of numbers of any shape, read in the same base one after the other, are its elements. -/
theorem C59_readback {md b o : Nat} (hb : Lit.BaseOk b) {shape : List Nat} {d : List Val} {ts : List (List Char)} (hs : shape ≠ []) (hl : d.length = shape.prod)
    (h : List.Forall₂ (Prints md b) d ts) :
    ∃ s, sprint (numerals md b) o (.mat shape d) = .ok s ∧ contents s = ts.map (List.map Char.toNat) ∧
      List.Forall₂ (fun v t => ∃ x y, toNum v = some x ∧ Lit.parse b t = some y ∧ Save.meanScal y = Save.meanScal x) d ts := by
  have hall : ∀ v ∈ d, IsNumber v ∧ Word (numerals md b v) := by
    intro v hv
    obtain ⟨i, hi⟩ := List.getElem?_of_mem hv
    have key : ∀ {d : List Val} {ts : List (List Char)}, List.Forall₂ (Prints md b) d ts → ∀ v ∈ d, ∃ t, Prints md b v t := by
      intro d ts h
      induction h with
      | nil => intro v hv; simp at hv
      | cons h _ ih =>
        intro v hv
        simp only [List.mem_cons] at hv
        rcases hv with rfl | hv
        · exact ⟨_, h⟩
        · exact ih v hv
    obtain ⟨t, ht⟩ := key h v hv
    exact ⟨(ht.spec hb).1, (ht.spec hb).2.1⟩
  obtain ⟨s, h1, h2⟩ := C59_words (o := o) hs hl hall
  refine ⟨s, h1, ?_, ?_⟩
  · rw [h2]
    clear hl hall h1 h2
    induction h with
    | nil => rfl
    | cons h _ ih => simp only [List.map_cons]; rw [(h.spec hb).2.2, ih]
  · clear hl hall h1 h2
    induction h with
    | nil => exact .nil
    | cons h _ ih =>
      refine .cons ?_ ih
      obtain ⟨x, e1, e2, e3⟩ := h
      obtain ⟨_, y, e4, e5⟩ := Lit.sprint_text hb (by cases x <;> exact e2) e3
      exact ⟨x, y, e1, e4, e5⟩

/-- **C59, no two arrays look alike.** Arrays of numbers of the same shape that print the same text have the same elements. -/
theorem C59_distinct {md b o : Nat} (hb : Lit.BaseOk b) {shape : List Nat} {d d' : List Val} {ts ts' : List (List Char)} {s : Str} (hs : shape ≠ [])
    (hl : d.length = shape.prod) (hl' : d'.length = shape.prod) (h : List.Forall₂ (Prints md b) d ts) (h' : List.Forall₂ (Prints md b) d' ts')
    (e : sprint (numerals md b) o (.mat shape d) = .ok s) (e' : sprint (numerals md b) o (.mat shape d') = .ok s) :
    List.Forall₂ (fun v v' => ∃ x x', toNum v = some x ∧ toNum v' = some x' ∧ Save.meanScal x = Save.meanScal x') d d' := by
  obtain ⟨s1, h1, h2, h3⟩ := C59_readback (o := o) hb hs hl h
  obtain ⟨s2, h4, h5, h6⟩ := C59_readback (o := o) hb hs hl' h'
  rw [e] at h1
  rw [e'] at h4
  cases h1
  cases h4
  have hts : ts = ts' := by
    rw [h2] at h5
    exact List.map_injective_iff.mpr (fun a b hab => toNat_inj hab) h5
  subst hts
  clear hl hl' h h' e e' h2 h5
  induction h3 generalizing d' with
  | nil => cases h6; exact .nil
  | cons hp _ ih =>
    cases h6 with
    | cons hq hr =>
      refine .cons ?_ (ih hr)
      obtain ⟨x, y, a1, a2, a3⟩ := hp
      obtain ⟨x', y', b1, b2, b3⟩ := hq
      rw [a2] at b2
      cases b2
      exact ⟨x, x', a1, b1, by rw [← a3, ← b3]⟩

example : Lit.BaseOk 16 ∧ List.Forall₂ (Prints 0 16) [int 255, .cplx (.int 1) (.int (-16))] ["ff".toList, "1j-10".toList] ∧
    sprint (numerals 0 16) 1 (.mat [2, 1] [int 255, .cplx (.int 1) (.int (-16))]) = .ok (bytes "   ff\n1j-10") :=
  ⟨.inr (by decide), .cons ⟨_, rfl, trivial, by decide +kernel⟩ (.cons ⟨_, rfl, ⟨trivial, trivial⟩, by decide +kernel⟩ .nil), by decide +kernel⟩

/-! ## Arrays in arrays -/

/-- **C59, vectors of matrices.** Numbers and matrices of numbers in a vector are printed side by side: the numbers on the first line, the matrices as tables in
boxes. On each line, there is a blank between two elements, and nothing after the last element that reaches down to the line. -/
theorem C59_nested_vector {sp : Val → Str} {o : Nat} {l : List Val} (h : ∀ v ∈ l, (IsNumber v ∧ sp v ≠ [] ∧ 10 ∉ sp v) ∨ IsTable sp v) (ht : ∃ v ∈ l, IsTable sp v) :
    sprint sp o (.vec l) = .ok (List.intercalate [10] ((List.range (tallest (l.map (face sp)))).map fun j =>
      beside [32] ((l.map (face sp)).take (upTo j (l.map (face sp)))) j)) := by
  have h' : ∀ v ∈ l, IsNumber v ∨ IsTable sp v := fun v hv => (h v hv).imp (·.1) id
  simp only [sprint]
  rw [elemsOf_faces h', bind_ok, vecText_boxes (faces_regular h) (faces_notScalar ht), faces_shown h']

/-- **C59, matrices of matrices.** Numbers and matrices of numbers in a matrix are printed in columns, which are as wide as the widest element needs. A row has as
many lines as its tallest element; if half of the elements are matrices, there is an empty line between the rows. -/
theorem C59_nested_matrix {sp : Val → Str} {o r c : Nat} {d : List Val} (hr : 0 < r) (hc : 0 < c) (hl : d.length = r * c)
    (h : ∀ v ∈ d, (IsNumber v ∧ sp v ≠ [] ∧ 10 ∉ sp v) ∨ IsTable sp v) (ht : ∃ v ∈ d, IsTable sp v) :
    sprint sp o (.mat [r, c] d) =
      .ok (boxTable (if d.length ≤ 2 * (d.filter fun v => kindOf v == .matrix).length + 1 then [10, 10] else [10]) r c (d.map (face sp))) := by
  have h' : ∀ v ∈ d, IsNumber v ∨ IsTable sp v := fun v hv => (h v hv).imp (·.1) id
  simp only [sprint]
  rw [elemsOf_faces h', bind_ok]
  simp only [matText, List.length_cons, List.length_nil, Nat.reduceLeDiff, if_true, lowText]
  rw [text2_boxes hr hc (by rw [List.length_map, hl]) (faces_regular h) (faces_notScalar ht), faces_shown h']
  have hm : (mostly (d.map (faceElem sp)) = true) = (d.length ≤ 2 * (d.filter fun v => kindOf v == .matrix).length + 1) := by
    unfold mostly
    rw [decide_eq_true_eq, List.length_map, List.filter_map, List.length_map]
    rfl
  congr 2
  simp only [hm]

/-- A matrix of two rows. -/
abbrev m22 : Val := .mat [2, 2] [int 1, int 2, int 3, int 4]

theorem m22_table : IsTable ints m22 :=
  ⟨2, 2, _, rfl, by decide, by decide, rfl, fun x hx => ⟨(ints_digit hx).1, (ints_digit hx).2.1, (ints_digit hx).2.2.2.1⟩⟩

example : (∀ v ∈ [int 1, m22, int 2], (IsNumber v ∧ ints v ≠ [] ∧ 10 ∉ ints v) ∨ IsTable ints v) ∧ (∃ v ∈ [int 1, m22, int 2], IsTable ints v) ∧
    sprint ints 1 (.vec [int 1, m22, int 2]) = .ok (bytes "1 (1 2| 2\n  |3 4)") := by
  refine ⟨?_, ⟨m22, by simp, m22_table⟩, by decide +kernel⟩
  intro v hv
  simp only [List.mem_cons, List.not_mem_nil, or_false] at hv
  rcases hv with rfl | rfl | rfl
  · have := ints_digit (v := int 1) (by simp)
    exact .inl ⟨this.1, this.2.1, this.2.2.2.1⟩
  · exact .inr m22_table
  · have := ints_digit (v := int 2) (by simp)
    exact .inl ⟨this.1, this.2.1, this.2.2.2.1⟩

example : sprint ints 1 (.mat [2, 2] [int 1, m22, int 2, m22]) = .ok (bytes "1 (1 2|\n  |3 4)\n\n2 (1 2|\n  |3 4)") := by decide +kernel

/-- **C59, boxes (partial).** In general, the elements of a vector that are not scalars are printed in boxes, side by side. Proved if the texts of all elements are
rectangles and either all have one line or what is in a box has two or more (`Regular`). Otherwise it fails: see `C59_violated_crash` and
`C59_violated_align`. -/
theorem C59_boxes_partial {sp : Val → Str} {o : Nat} {l : List Val} {es : List Elem} {ls : List (List Str)} (he : elemsOf sp o l = .ok es) (h : Regular es ls)
    (hn : allScalars es = false) :
    sprint sp o (.vec l) = .ok (List.intercalate [10] ((List.range (tallest (shownAll es ls))).map fun j =>
      beside [32] ((shownAll es ls).take (upTo j (shownAll es ls))) j)) := by
  simp only [sprint]
  rw [he, bind_ok, vecText_boxes h hn]

/-- **C59, boxes in matrices (partial).** Proved for matrices of rank two under the same condition. -/
theorem C59_boxes_matrix_partial {sp : Val → Str} {o r c : Nat} {d : List Val} {es : List Elem} {ls : List (List Str)} (hr : 0 < r) (hc : 0 < c) (hl : es.length = r * c)
    (he : elemsOf sp o d = .ok es) (h : Regular es ls) (hn : allScalars es = false) :
    sprint sp o (.mat [r, c] d) = .ok (boxTable (if mostly es then [10, 10] else [10]) r c (shownAll es ls)) := by
  simp only [sprint]
  rw [he, bind_ok]
  simp only [matText, List.length_cons, List.length_nil, Nat.reduceLeDiff, if_true, lowText]
  rw [text2_boxes hr hc hl h hn]

example : elemsOf ints 1 [.vec [int 1, int 2], int 3] = .ok [⟨.vector, bytes "1 2"⟩, ⟨.number, bytes "3"⟩] ∧
    Regular [⟨.vector, bytes "1 2"⟩, ⟨.number, bytes "3"⟩] [[bytes "1 2"], [bytes "3"]] ∧
    sprint ints 1 (.vec [.vec [int 1, int 2], int 3]) = .ok (bytes "(1 2) 3") ∧ sprint ints 1 (.mat [1, 2] [.vec [int 1, int 2], int 3]) = .ok (bytes "(1 2) 3") := by
  refine ⟨by decide +kernel, ⟨rfl, ?_, .inl (by decide)⟩, by decide +kernel, by decide +kernel⟩
  intro i e l he hl
  match i with
  | 0 =>
    simp only [List.getElem?_cons_zero, Option.some.injEq] at he hl
    subst he hl
    exact ⟨⟨3, by decide, by decide +kernel, by decide +kernel⟩, by decide⟩
  | 1 =>
    simp only [List.getElem?_cons_succ, List.getElem?_cons_zero, Option.some.injEq] at he hl
    subst he hl
    exact ⟨⟨1, by decide, by decide +kernel, by decide +kernel⟩, by decide⟩
  | i + 2 => simp at he

/-! ## What goes wrong -/

/-- **C59 fails: some values cannot be printed.** A matrix with a matrix and a vector in a row, such as `1 2 rho (2 2 rho iota 4) (1 2)`: the box of the vector has one
line, its closing parenthesis makes the first line longer than the others, and `elemStrs` cuts the others out of range (`value/matrix.go:104-108`). -/
theorem C59_violated_crash : sprint ints 1 (.mat [1, 2] [m22, .vec [int 1, int 2]]) = .crash := by decide +kernel

/-- **C59 fails**: a matrix with an array of rank three in it cannot be printed either: the empty line between its blocks is skipped
(`value/vector.go:240-245`). -/
theorem C59_violated_crash_blocks : sprint ints 1 (.mat [1, 2] [int 1, .mat [2, 1, 1] [int 1, int 2]]) = .crash := by decide +kernel

/-- **C59 fails**: nor can a matrix with a vector in it that has several lines: the blanks at the ends of its lines have been removed. -/
theorem C59_violated_crash_vector : sprint ints 1 (.mat [1, 2] [int 1, .vec [m22, int 5]]) = .crash := by decide +kernel

/-- **C59 fails**: nor can a vector of a string of two lines, the second longer than the first, and another string (`value/vector.go:261-264`, a negative count). -/
theorem C59_violated_crash_string : sprint ints 1 (.vec [.vec ([chr 'a', chr '\n', chr 'b', chr 'c', chr 'd', chr 'e', chr 'f']), .vec [chr 'x', chr 'y']]) = .crash := by decide +kernel

/-- **C59 fails: misaligned boxes.** What comes after a box of one line beside a taller one is one column to the right on its first line. -/
theorem C59_violated_align : sprint ints 1 (.vec [m22, .vec [int 1, int 2], m22]) = .ok (bytes "(1 2| (1 2) (1 2|\n|3 4)      |3 4)") := by decide +kernel

/-- The characters of a text: bytes that do not continue one. -/
def runes (s : Str) : Nat := (s.filter fun b => !(decide (0x80 ≤ b) && decide (b ≤ 0xBF))).length

/-- **C59 fails: characters beyond ASCII.** Widths are counted in bytes, so that the lines of a matrix with such a character have different numbers of characters. -/
theorem C59_violated_utf8 : ∃ a b, sprint ints 1 (.mat [2, 2] [chr 'é', int 1, int 2, int 3]) = .ok (a ++ [10] ++ b) ∧ 10 ∉ a ∧ 10 ∉ b ∧ runes a ≠ runes b :=
  ⟨[195, 169, 32, 32, 49], bytes " 2  3", by decide +kernel, by decide, by decide, by decide +kernel⟩

/-- **C59 fails: rank four.** The columns of the parts of an array of rank four have different widths: those of a part depend on the elements from there to the end of
the array (`value/matrix.go:285-288`), unlike those of an array of rank three. -/
theorem C59_violated_rank4 : sprint ints 1 (.mat [2, 1, 1, 2] [int 1, int 2, int 3, int 12345]) = .ok (bytes "[1 * * *]:\n  1     2\n\n[2 * * *]:\n  3 12345") ∧
    sprint ints 1 (.mat [2, 1, 1, 2] [int 3, int 12345, int 1, int 2]) = .ok (bytes "[1 * * *]:\n  3 12345\n\n[2 * * *]:\n  1 2") := by decide +kernel

/-- **C59 fails: rank four, characters.** If there are only characters from some part of an array of rank four on, they are printed without blanks between them, though there
are numbers before them; in an array of rank three they are not. -/
theorem C59_violated_rank4_chars : sprint ints 1 (.mat [2, 1, 1, 2] [int 1, int 2, chr 'a', chr 'b']) = .ok (bytes "[1 * * *]:\n  1 2\n\n[2 * * *]:\n  ab") ∧
    sprint ints 1 (.mat [2, 1, 2] [int 1, int 2, chr 'a', chr 'b']) = .ok (bytes "1 2\n\na b") := by decide +kernel

end Verif.Print
