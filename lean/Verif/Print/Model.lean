import Verif.Order.Model
import Verif.Arr.Basic

/-!
# Printing of arrays

`value/vector.go:109-303` and `value/matrix.go:55-310`: how a value is laid out on lines. A string is the list of its bytes, since widths are
counted in bytes (`len`). How a single number is written is a parameter (`sp`; it depends on the format, and is modelled in `Verif.Lit`).

Simplified: the texts of all elements are made before any of them is laid out; only which of two failures comes first depends on that. Values do not
remember whether they should be printed (`QuietValue`).
-/

namespace Verif.Print
open Verif.Arr (R)
open Verif.Order (Val)

/-- A string: its bytes. -/
abbrev Str := List Nat

/-- What the printing routines ask of an element: a character, another scalar, a vector or a matrix (`value/eval.go:761-763`,
`value/vector.go:343-350`). -/
inductive Kind where
  | char | number | vector | matrix
deriving DecidableEq, Repr

/-- An element and its text. -/
structure Elem where
  kind : Kind
  text : Str
deriving DecidableEq, Repr

/-- `value/eval.go:761-763`: `IsScalarType`. -/
def Elem.scalar (e : Elem) : Bool := e.kind == .char || e.kind == .number

/-- `value/vector.go:343-350`: `AllChars`. -/
def allChars (es : List Elem) : Bool := es.all fun e => e.kind == .char

/-- `value/vector.go:353-360`: `allScalars`. -/
def allScalars (es : List Elem) : Bool := es.all Elem.scalar

/-- `value/vector.go:286-303`: `blanks`. The slice of a string up to a negative length is a run-time fault. -/
def blanks (n : Int) : R Str := if n < 0 then .crash else .ok (List.replicate n.toNat 32)

/-- Go's `strings.Split(s, "\n")`. -/
def splitNl : Str → List Str
  | [] => [[]]
  | 10 :: r => [] :: splitNl r
  | c :: r => match splitNl r with
    | [] => [[c]]
    | l :: ls => (c :: l) :: ls

/-- Go's `strings.Join`; also the loops that write a separator before everything but the first. -/
def joinWith (sep : Str) : List Str → Str
  | [] => []
  | [s] => s
  | s :: r => s ++ sep ++ joinWith sep r

/-- The results of several steps, if all succeed. -/
def collect {α : Type} : List (R α) → R (List α)
  | [] => .ok []
  | r :: rs => r.bind fun x => (collect rs).bind fun xs => .ok (x :: xs)

/-! ## Vectors -/

/-- `value/vector.go:155-174`: the loop of `oneLineSprint`, which is only called without parentheses (`:192`): the buffer at the end, and its length
after each element. -/
def oneLine (spaces : Bool) : Bool → Str → List Elem → Str × List Nat
  | _, b, [] => (b, [])
  | first, b, e :: es =>
    let b1 := (if spaces && !first then b ++ [32] else b) ++ e.text
    let q := oneLine spaces false b1 es
    (q.1, b1.length :: q.2)

/-- A line in the making (`value/vector.go:207-208`): its text so far and the last column that is not padding. -/
abbrev Row := Str × Nat

/-- `WriteString` followed by an update of `lastColumn`. -/
def put (s : Str) (l : Row) : Row := (l.1 ++ s, (l.1 ++ s).length)

/-- `value/vector.go:212-217`: the length of the longest line. -/
def widest (rows : List Row) : Nat := rows.foldl (fun w l => if l.1.length > w then l.1.length else w) 0

/-- `value/vector.go:211-228`: room for an element of `n` lines. -/
def grow (n : Nat) (rows : List Row) : List Row :=
  if n > rows.length then
    rows ++ (List.range' rows.length (n - rows.length)).map fun j => (if j > 0 then List.replicate (widest rows) 32 else [], 0)
  else rows

/-- `value/vector.go:229-233`: a blank on each line. -/
def spaceAll (rows : List Row) : List Row := rows.map fun l => (l.1 ++ [32], l.2)

/-- `value/vector.go:235-238`. -/
def openParen : List Row → R (List Row)
  | [] => .crash
  | l :: rows => .ok (put [40] l :: rows)

/-- `value/vector.go:239-257`: the lines of an element. -/
def writeLines (paren isMat : Bool) : Bool → List Str → List Row → R (List Row)
  | _, [], rows => .ok rows
  | _, _ :: _, [] => .crash
  | first, s :: ss, l :: rows =>
    (writeLines paren isMat false ss rows).bind fun rest =>
    .ok ((if s = [] ∧ isMat then l
          else put ((if paren && !first then [124] else []) ++ s ++ (if paren && !ss.isEmpty then [124] else [])) l) :: rest)

/-- `value/vector.go:261-267`: blanks on the lines below an element of `k` lines. -/
def fillBelow (k col : Nat) (rows : List Row) : R (List Row) :=
  if k < rows.length then
    match rows.getLast? with
    | none => .crash
    | some l => (blanks ((col : Int) - l.1.length)).bind fun p => .ok (rows.take k ++ (rows.drop k).map fun l => (l.1 ++ p, l.2))
  else .ok rows

/-- `value/vector.go:268-276`: the closing parenthesis on line `k`, and the length of that line. -/
def closeParen (k : Nat) (rows : List Row) : R (List Row × Nat) :=
  match rows[k]? with
  | none => .crash
  | some l => .ok (rows.set k (put [41] l), l.1.length + 1)

/-- `value/vector.go:209-277`: one element: the lines, and the position after it. -/
def addElem (spaces first : Bool) (e : Elem) (rows : List Row) : R (List Row × Nat) :=
  let strs := splitNl e.text
  let rows := grow strs.length rows
  let rows := if spaces && !first then spaceAll rows else rows
  (if e.scalar then .ok rows else openParen rows).bind fun rows =>
  (writeLines (!e.scalar) (e.kind == .matrix) true strs rows).bind fun rows =>
  match rows.head? with
  | none => .crash
  | some l0 =>
    (fillBelow strs.length l0.1.length rows).bind fun rows =>
    if e.scalar then .ok (rows, l0.1.length)
    else (closeParen (strs.length - 1) rows).bind fun q => .ok (q.1, if q.2 > l0.1.length then q.2 else l0.1.length)

/-- `value/vector.go:209-277`: the loop over the elements. -/
def multiLoop (spaces : Bool) : Bool → List Elem → List Row → R (List Row × List Nat)
  | _, [], rows => .ok (rows, [])
  | first, e :: es, rows =>
    (addElem spaces first e rows).bind fun q => (multiLoop spaces false es q.1).bind fun p => .ok (p.1, q.2 :: p.2)

/-- `value/vector.go:189-285`: `multiLineSprint`. The branch for characters (`:196-206`) is never reached: they are scalars. -/
def multi (spaces trim : Bool) (es : List Elem) : R (List Str × List Nat) :=
  if allScalars es then let q := oneLine spaces true [] es; .ok ([q.1], q.2)
  else (multiLoop spaces true es []).bind fun q => .ok (q.1.map fun l => if trim then l.1.take l.2 else l.1, q.2)

/-- `value/vector.go:110-128`: `Sprint` of a vector. -/
def vecText (es : List Elem) : R Str := (multi (!allChars es) true es).bind fun q => .ok (joinWith [10] q.1)

/-! ## Matrices -/

/-- `value/matrix.go:55-59`: `widths`. -/
structure Widths where
  wid : List Nat
  max : Nat
deriving DecidableEq, Repr

/-- `value/matrix.go:65-75`: `addColumn`. -/
def Widths.addColumn (w : Widths) (i wid : Nat) : R Widths :=
  if i < w.wid.length then .ok ⟨w.wid.set i (Nat.max wid (w.wid.getD i 0)), Nat.max w.max wid⟩
  else if i = w.wid.length then .ok ⟨w.wid ++ [wid], Nat.max w.max wid⟩
  else .err "cannot happen: out of range in addColumn"

/-- `value/matrix.go:78-83`: `column`; `:61`: `widthThreshold`. -/
def Widths.column (w : Widths) (i : Nat) : R Nat :=
  if w.max < 5 then .ok w.max
  else match w.wid[i]? with
    | some n => .ok n
    | none => .crash

/-- Go's `line[a:b]`. -/
def cut (line : Str) (a b : Nat) : R Str := if a ≤ b ∧ b ≤ line.length then .ok ((line.take b).drop a) else .crash

/-- `value/matrix.go:98-110`: the piece of each line that belongs to an element of column `col`. -/
def cutRows (col a b : Nat) : List Str → Widths → R (List Str × Widths)
  | [], w => .ok ([], w)
  | l :: ls, w =>
    if l = [] then (cutRows col a b ls w).bind fun q => .ok ([] :: q.1, q.2)
    else
      (cut l a b).bind fun s => (w.addColumn col s.length).bind fun w1 =>
      (cutRows col a b ls w1).bind fun q => .ok (s :: q.1, q.2)

/-- `value/matrix.go:96-112`: the loop over the elements, of which `i` have been done; they ended at `prev`. -/
def cutAll (lastDim : Nat) (lines : List Str) : Nat → Nat → List Nat → Widths → R (List (List Str) × Widths)
  | _, _, [], w => .ok ([], w)
  | i, prev, b :: cols, w =>
    if i ≠ 0 ∧ lastDim = 0 then .crash
    else
      (cutRows (if i = 0 then 0 else i % lastDim) prev b lines w).bind fun q =>
      (cutAll lastDim lines (i + 1) b cols q.2).bind fun p => .ok (q.1 :: p.1, p.2)

/-- `value/matrix.go:88-114`: `elemStrs`. -/
def elemStrs (shape : List Nat) (es : List Elem) : R (List (List Str) × Widths) :=
  (multi false false es).bind fun q => cutAll (shape.getLastD 0) q.1 0 0 q.2 ⟨[], 0⟩

/-- `value/matrix.go:138-143`: whether a line has content. -/
def nonBlank (s : Str) : Bool := s.any (· != 32)

/-- `value/matrix.go:133-145`: the last line of a row of the matrix that has content, or the first. -/
def lastLine (cells : List (List Str)) : Nat :=
  cells.foldl (fun nb strs => (List.range' nb (strs.length - nb)).foldl (fun nb line => if nonBlank (strs.getD line []) then line else nb) nb) 0

/-- `value/matrix.go:150-157`: one line of a row of the matrix, from column `col` on. -/
def writeLine (w : Widths) (line : Nat) : Nat → List (List Str) → R Str
  | _, [] => .ok []
  | col, strs :: cells =>
    match strs[line]? with
    | none => .crash
    | some s =>
      (w.column col).bind fun n => (blanks ((n : Int) - s.length)).bind fun p =>
      (writeLine w line (col + 1) cells).bind fun r => .ok (p ++ s ++ (if cells.isEmpty then [] else [32]) ++ r)

/-- `value/matrix.go:124-131`: what comes before a row of the matrix. -/
def rowBreak (nested first : Bool) (b : Str) : R Str :=
  if first then .ok b
  else if nested then
    match b.getLast? with
    | none => .crash
    | some c => .ok (b ++ (if c ≠ 10 then [10, 10] else [10]))
  else .ok (b ++ [10])

/-- `value/matrix.go:123-160`: the loop over the rows that are left, on the elements that are left. -/
def writeRows (nested : Bool) (ncols : Nat) (w : Widths) : Nat → Bool → Str → List (List Str) → R Str
  | 0, _, b, _ => .ok b
  | n + 1, first, b, elems =>
    (rowBreak nested first b).bind fun b =>
    let cells := elems.take ncols
    if cells.length < ncols then .crash
    else
      (collect ((List.range (lastLine cells + 1)).map fun line => writeLine w line 0 cells)).bind fun lines =>
      writeRows nested ncols w n false (b ++ joinWith [10] lines) (elems.drop ncols)

/-- `value/matrix.go:119-161`: `write2d`: the buffer afterwards. -/
def write2d (b : Str) (nrows ncols : Nat) (elems : List (List Str)) (nested : Bool) (w : Widths) : R Str :=
  writeRows nested ncols w nrows true b elems

/-- `value/matrix.go:202-210`: whether the matrix is mostly nested. -/
def isNested (rank : Nat) (es : List Elem) : Bool :=
  decide (es.length / 2 ≤ (es.filter fun e => e.kind == .matrix && decide (rank > 1)).length)

/-- `value/matrix.go:218-234`: `Sprint` of a matrix of rank two. -/
def text2 (nrows ncols : Nat) (es : List Elem) : R Str :=
  if nrows = 0 ∨ ncols = 0 then .ok []
  else if allChars es then
    (collect ((List.range nrows).map fun i => vecText ((es.drop (i * ncols)).take ncols))).bind fun l => .ok (joinWith [10] l)
  else (elemStrs [nrows, ncols] es).bind fun q => write2d [] nrows ncols q.1 (isNested 2 es) q.2

/-- `value/matrix.go:255-265`: the loop over the submatrices. -/
def blocks (nrows ncols : Nat) (nested : Bool) (w : Widths) : Nat → Bool → Str → List (List Str) → R Str
  | 0, _, b, _ => .ok b
  | n + 1, first, b, strs =>
    if strs.length < nrows * ncols then .crash
    else
      (write2d (if first then b else b ++ [10, 10]) nrows ncols (strs.take (nrows * ncols)) nested w).bind fun b =>
      blocks nrows ncols nested w n false b (strs.drop (nrows * ncols))

/-- `value/matrix.go:235-265`: `Sprint` of a matrix of rank three. -/
def text3 (n nrows ncols : Nat) (es : List Elem) : R Str :=
  if allChars es then
    (collect ((List.range n).map fun i => text2 nrows ncols ((es.drop (i * (nrows * ncols))).take (nrows * ncols)))).bind fun l =>
    .ok (joinWith [10, 10] l)
  else (elemStrs [n, nrows, ncols] es).bind fun q => blocks nrows ncols (isNested 3 es) q.2 n true [] q.1

/-- `value/matrix.go:201-270`: `Sprint` of a matrix of rank up to three. -/
def lowText (shape : List Nat) (es : List Elem) : R Str :=
  match shape with
  | [] => .err "matrix is rank 0"
  | [_] => vecText es
  | [r, c] => text2 r c es
  | [n, r, c] => text3 n r c es
  | _ => .ok []

/-- Go's `strings.SplitAfter(s, "\n")` without the last part if that is empty. -/
def splitAfter : Str → List Str
  | [] => []
  | 10 :: r => [10] :: splitAfter r
  | c :: r => match splitAfter r with
    | [] => [[c]]
    | l :: ls => (c :: l) :: ls

/-- `value/matrix.go:300-318`: `indent` and `spaces`. -/
def indent (n : Nat) (s : Str) : Str :=
  if n = 0 then s else ((splitAfter s).map fun l => List.replicate (2 * Nat.min n 10) 32 ++ l).flatten

/-- The bytes of a text of ASCII characters. -/
def bytes (s : String) : Str := s.toList.map Char.toNat

/-- The decimal digits of an integer (`%d`). -/
def decimal (i : Int) : Str := (if i < 0 then [45] else []) ++ (Nat.toDigits 10 i.natAbs).map Char.toNat

/-- `value/matrix.go:278-298`: `higherDim`. -/
def higher (origin : Nat) : List Nat → Str → Nat → List Elem → R Str
  | n :: shape, pre, ind, es =>
    if shape.length < 3 then (lowText (n :: shape) es).bind fun s => .ok (indent ind s)
    else
      (collect ((List.range n).map fun (i : Nat) =>
        let inner := pre ++ decimal ((i : Int) + origin) ++ [32]
        (higher origin shape inner (ind + 1) (es.drop (i * shape.prod))).bind fun s =>
        .ok (indent ind (inner ++ (List.replicate shape.length [32, 42]).flatten.drop 1 ++ [93, 58, 10]) ++ s))).bind fun l =>
      .ok (joinWith [10, 10] l)
  | [], _, ind, es => (lowText [] es).bind fun s => .ok (indent ind s)

/-- `value/matrix.go:201-270`: `Sprint` of a matrix. -/
def matText (origin : Nat) (shape : List Nat) (es : List Elem) : R Str :=
  if shape.length ≤ 3 then lowText shape es else higher origin shape [91] 0 es

/-! ## Values -/

/-- Go's conversion of a rune to a string: UTF-8. -/
def utf8 (r : Int) : Str :=
  if r < 0 ∨ 0x10FFFF < r ∨ (0xD800 ≤ r ∧ r ≤ 0xDFFF) then [0xEF, 0xBF, 0xBD]
  else
    let n := r.toNat
    if n < 0x80 then [n]
    else if n < 0x800 then [0xC0 + n / 64, 0x80 + n % 64]
    else if n < 0x10000 then [0xE0 + n / 4096, 0x80 + n / 64 % 64, 0x80 + n % 64]
    else [0xF0 + n / 262144, 0x80 + n / 4096 % 64, 0x80 + n / 64 % 64, 0x80 + n % 64]

/-- What an element is. -/
def kindOf : Val → Kind
  | .num (.char _) => .char
  | .num _ => .number
  | .cplx _ _ => .number
  | .vec _ => .vector
  | .mat _ _ => .matrix

mutual
/-- `Sprint` of a value: `value/char.go:29-33`, `value/vector.go:110-128`, `value/matrix.go:201-270`; `sp` is that of the numbers. -/
def sprint (sp : Val → Str) (origin : Nat) : Val → R Str
  | .num (.char r) => .ok (utf8 r)
  | .num n => .ok (sp (.num n))
  | .cplx a b => .ok (sp (.cplx a b))
  | .vec l => (elemsOf sp origin l).bind vecText
  | .mat s d => (elemsOf sp origin d).bind (matText origin s)

/-- The elements with their texts. -/
def elemsOf (sp : Val → Str) (origin : Nat) : List Val → R (List Elem)
  | [] => .ok []
  | x :: xs => (sprint sp origin x).bind fun t => (elemsOf sp origin xs).bind fun es => .ok (⟨kindOf x, t⟩ :: es)
end

end Verif.Print
