import Verif.Print.Model

/-!
# What printing should do

Tables of texts in columns, independent of how the code goes about it. The byte 10 ends a line, 32 is a blank.
-/

namespace Verif.Print
open Verif.Order (Val)

/-- A text moved to the right in a column of width `w`. -/
def padLeft (w : Nat) (s : Str) : Str := List.replicate (w - s.length) 32 ++ s

/-- The length of the longest text. -/
def longest : List Str → Nat
  | [] => 0
  | s :: r => max s.length (longest r)

/-- The texts that are in column `j` of a table of `c` columns, given row by row; `k` texts come before. -/
def column (c j : Nat) : Nat → List Str → List Str
  | _, [] => []
  | k, s :: r => if k % c = j then s :: column c j (k + 1) r else column c j (k + 1) r

/-- The width of column `j`: that of its longest text; but if all texts are short, all columns have the same. -/
def width (c : Nat) (ts : List Str) (j : Nat) : Nat := if longest ts < 5 then longest ts else longest (column c j 0 ts)

/-- A line of a table: the texts of a row in columns of widths `w`, with a blank between them. -/
def tableLine (w : Nat → Nat) (row : List Str) : Str := List.intercalate [32] (row.mapIdx fun j s => padLeft (w j) s)

/-- The rows of a table of `r` rows and `c` columns. -/
def tableRows (r c : Nat) (ts : List Str) : List (List Str) := (List.range r).map fun i => (ts.drop (i * c)).take c

/-- The table itself, its columns wide enough for the texts `all`. -/
def table (r c : Nat) (all ts : List Str) : Str :=
  List.intercalate [10] ((tableRows r c ts).map (tableLine (width c all)))

/-- The lines of a text. -/
def lines : Str → List Str
  | [] => [[]]
  | x :: r =>
    if x = 10 then [] :: lines r
    else match lines r with
      | [] => [[x]]
      | l :: ls => (x :: l) :: ls

/-- The words of a line: what is between the blanks. -/
def words : Str → List Str
  | [] => []
  | x :: r =>
    if x = 32 then words r
    else if r.head?.getD 32 = 32 then [x] :: words r
    else match words r with
      | [] => [[x]]
      | w :: ws => (x :: w) :: ws

/-- A line that says which part of an array of many axes follows, such as `[1 2 * * *]:`. -/
def heading (l : Str) : Bool := (l.dropWhile (· == 32)).head? == some 91

/-- The words of a text, but for those of the headings. -/
def contents (s : Str) : List Str := ((lines s).filter fun l => !heading l).flatMap words

/-- A text that can stand for an element: not empty, without blank and newline, and not beginning with a bracket. -/
def Word (s : Str) : Prop := s ≠ [] ∧ 32 ∉ s ∧ 10 ∉ s ∧ s.head? ≠ some 91

/-! ## Boxes -/

/-- An element printed as a rectangle: its lines, all of the same length, none of them empty. -/
structure Rect (e : Elem) (ls : List Str) (w : Nat) : Prop where
  some : ls ≠ []
  text : e.text = List.intercalate [10] ls
  line : ∀ l ∈ ls, 10 ∉ l ∧ l.length = w ∧ l ≠ []

/-- Lines but the first in a box: bars on both sides; the last one ends with a parenthesis. -/
def boxRest : List Str → List Str
  | [] => []
  | [s] => [[124] ++ s ++ [41]]
  | s :: r => ([124] ++ s ++ [124]) :: boxRest r

/-- Lines in a box. -/
def box : List Str → List Str
  | [] => []
  | [s] => [[40] ++ s ++ [41]]
  | s :: r => ([40] ++ s ++ [124]) :: boxRest r

/-- What is shown of an element inside an array: the text of a scalar, and anything else in a box. -/
def shown (scalar : Bool) (ls : List Str) : List Str := if scalar then ls else box ls

/-- Line `j` of a rectangle of width `w`, which is blank below its last line. -/
def cell (w : Nat) (b : List Str) (j : Nat) : Str := (b[j]?).getD (List.replicate w 32)

/-- How many lines the tallest has. -/
def tallest : List (List Str) → Nat
  | [] => 0
  | b :: r => max b.length (tallest r)

/-- The width of a rectangle. -/
def wide (b : List Str) : Nat := (b.head?.getD []).length

/-- Rectangles side by side: line `j`. -/
def beside (sep : Str) (bs : List (List Str)) (j : Nat) : Str := List.intercalate sep (bs.map fun b => cell (wide b) b j)

/-- How many of the rectangles there are up to the last that has a line `j`. -/
def upTo (j : Nat) (bs : List (List Str)) : Nat := (bs.reverse.dropWhile fun b => decide (b.length ≤ j)).length

/-- The elements of an array that can be printed side by side: all are rectangles; scalars have one line; and either all have one line or what is
in a box has two or more. -/
structure Regular (es : List Elem) (ls : List (List Str)) : Prop where
  len : es.length = ls.length
  rect : ∀ (i : Nat) e l, es[i]? = some e → ls[i]? = some l → (∃ w, Rect e l w) ∧ (e.scalar = true → l.length = 1)
  tall : (∀ l ∈ ls, l.length = 1) ∨ ∀ (i : Nat) e l, es[i]? = some e → ls[i]? = some l → e.scalar = false → 2 ≤ l.length

/-- What is shown of the elements of an array. -/
def shownAll (es : List Elem) (ls : List (List Str)) : List (List Str) := List.zipWith (fun e l => shown e.scalar l) es ls

/-- The first lines of rectangles: those tell their widths. -/
def firstLines (bs : List (List Str)) : List Str := bs.map fun b => b.head?.getD []

/-- A row of rectangles in columns of widths `w`: as many lines as the tallest has. -/
def boxRow (w : Nat → Nat) (row : List (List Str)) : Str :=
  List.intercalate [10] ((List.range (tallest row)).map fun j => tableLine w (row.map fun b => cell (wide b) b j))

/-- A table of `r` rows and `c` columns of rectangles; `sep` comes between the rows. -/
def boxTable (sep : Str) (r c : Nat) (bs : List (List Str)) : Str :=
  List.intercalate sep ((List.range r).map fun i => boxRow (width c (firstLines bs)) ((bs.drop (i * c)).take c))

/-- Whether half of the elements, give or take one, are matrices. -/
def mostly (es : List Elem) : Bool := decide (es.length ≤ 2 * (es.filter fun e => e.kind == .matrix).length + 1)

/-! ## Values -/

/-- A number or a character. -/
def IsScalar : Val → Prop
  | .num _ | .cplx _ _ => True
  | .vec _ | .mat _ _ => False

/-- A character. -/
def IsChar : Val → Prop
  | .num (.char _) => True
  | _ => False

/-- A number. -/
def IsNumber : Val → Prop
  | .num (.char _) => False
  | .num _ | .cplx _ _ => True
  | .vec _ | .mat _ _ => False

/-- The text of a number or a character; `sp` is that of the numbers. -/
def scalarText (sp : Val → Str) : Val → Str
  | .num (.char r) => utf8 r
  | v => sp v

/-- The lines of a table. -/
def tableLines (r c : Nat) (ts : List Str) : List Str := (tableRows r c ts).map (tableLine (width c ts))

/-- A matrix of two or more rows of numbers. -/
def IsTable (sp : Val → Str) (v : Val) : Prop :=
  ∃ r c d, v = .mat [r, c] d ∧ 2 ≤ r ∧ 0 < c ∧ d.length = r * c ∧ ∀ x ∈ d, IsNumber x ∧ sp x ≠ [] ∧ 10 ∉ sp x

/-- What is shown in an array of a number or of a matrix of numbers: its text, or the table in a box. -/
def face (sp : Val → Str) : Val → List Str
  | .mat [r, c] d => box (tableLines r c (d.map sp))
  | v => [sp v]

end Verif.Print
