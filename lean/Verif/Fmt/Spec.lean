import Verif.Fmt.Model
import Verif.Arr.Spec
import Verif.Num.Spec

/-!
# What `text` is to do
-/

namespace Verif.Fmt
open Verif.Num (Num)
open Verif.Arr (vol R)
open Verif.Order (Val)

/-- A decimal digit. -/
def Digit (c : Char) : Prop := c ∈ ['0', '1', '2', '3', '4', '5', '6', '7', '8', '9']

/-- What may stand between the percent sign and the verb, in Go's package fmt: flags, then a width, then a period and a precision. -/
def Opts (o : Str) : Prop :=
  ∃ f w p, o = f ++ w ++ p ∧ (∀ c ∈ f, c ∈ ['+', '-', '#', ' ', '0']) ∧ (∀ c ∈ w, Digit c) ∧ (p = [] ∨ ∃ q, p = '.' :: q ∧ ∀ c ∈ q, Digit c)

/-- The verbs of Ivy: those of Go for integers, floating-point numbers, strings, runes and booleans, `v`, and `T` for dates. -/
def Verb (v : Char) : Prop := v ∈ "bcdeEfFgGoOqstTUvxX".toList

/-- The first verb of a format is `v`, at index `i`; escapes `%%` before it are passed over. -/
inductive FirstVerb : Str → Nat → Char → Prop
  | here {a o r : Str} {v : Char} (ha : ∀ c ∈ a, c ≠ '%') (ho : Opts o) (hv : Verb v) :
    FirstVerb (a ++ '%' :: (o ++ v :: r)) (a.length + 1 + o.length) v
  | skip {a o r : Str} {i : Nat} {v : Char} (ha : ∀ c ∈ a, c ≠ '%') (ho : Opts o) (h : FirstVerb r i v) :
    FirstVerb (a ++ '%' :: (o ++ '%' :: r)) (a.length + 1 + o.length + 1 + i) v

/-- The number that what is printed stands for, if it is an integer, a quotient of integers or a floating-point number. -/
def denoted : List Out → Option Rat
  | [.print _ (.int n)] => some n
  | [.print _ (.int p), .lit '/', .print _ (.int q)] => some (p / q)
  | [.print _ (.float x)] => some x
  | _ => none

/-- The format of what is printed. -/
def Out.uses (format : Str) : Out → Prop
  | .print f _ => f = format
  | .lit _ => True

/-- The verbs for numbers. -/
def NumVerb (v : Char) : Prop := v ∈ "bdoOxXeEfFgG".toList

/-- How many blocks of a matrix of the given shape end with element number `i` (rows, planes and so on): one for each run of last axes whose elements are counted out. -/
def blockEnds : List Nat → Nat → Nat
  | [], _ => 0
  | d :: s, i => (if (i + 1) % (d * vol s) = 0 then 1 else 0) + blockEnds s i

/-- What is printed between element `i` and the next: a blank within a row, otherwise a newline for each block that ends. -/
def between (shape : List Nat) (i : Nat) : List Out :=
  if blockEnds shape i = 0 then [.lit ' '] else List.replicate (blockEnds shape i) (.lit '\n')

/-- Pieces with separators between them; `i` is the number of the first. -/
def joined (sep : Nat → List Out) : Nat → List (List Out) → List Out
  | _, [] => []
  | _, [x] => x
  | i, x :: y :: r => x ++ sep i ++ joined sep (i + 1) (y :: r)

/-- The texts of all elements, in order; the first error, if there is one. -/
def allOne (E : Env) (format : Str) (verb : Char) : List Val → R (List (List Out))
  | [] => .ok []
  | v :: vs => (formatOne E format verb v).bind fun o => (allOne E format verb vs).bind fun r => .ok (o :: r)

/-- Decimal digits whose value is `n`. -/
def Decimal (s : Str) (n : Nat) : Prop := s ≠ [] ∧ (∀ c ∈ s, Digit c) ∧ Nat.ofDigitChars 10 s 0 = n

/-- The format with the given width and precision. -/
def Sized (format : Str) (width : Option Nat) (precision : Nat) (verb : Char) : Prop :=
  ∃ w p, format = '%' :: (w ++ '.' :: p) ++ [verb] ∧ Decimal p precision ∧ (match width with | none => w = [] | some n => Decimal w n)

/-- The rune that what is printed stands for. -/
def denotedRune : List Out → Option Int
  | [.print _ (.int n)] => some n
  | [.print _ (.text [n])] => some n
  | _ => none

end Verif.Fmt
