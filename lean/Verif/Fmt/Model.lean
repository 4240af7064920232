import Verif.Arr.Basic
import Verif.Order.Model

/-!
# The binary operator `text`

`value/format.go` and `value/matrix.go:161-194`.  Strings are lists of bytes, written as characters.  What Go's `fmt.Fprintf` makes of a format and an
argument is not modelled: the output is the list of its calls.  Values are those of `Verif/Order`: exact numbers, complex numbers with exact parts, and nested vectors
and matrices of them; floating-point numbers are not modelled.
-/

namespace Verif.Fmt
open Verif.Arr (R vAt)
open Verif.Num (Num)
open Verif.Order (Val)

/-- Bytes. -/
abbrev Str := List Char

/-- What the model does not say about Go: the UTF-8 encoding of a rune that is not ASCII, and `int64(f)` for the `float64` nearest to a rational
(`value/format.go:169-170`, `:188-189`). -/
structure Env where
  wide : Int → Str
  trunc : Rat → Int

/-- An argument of `fmt.Fprintf`: an integer (`int32`, `uint32`, `int64` or `*big.Int`); a string, given by its runes; a boolean; a `big.Float` set to a
number (the rounding to its precision is not modelled); the text of a value; the date a value stands for; or an Ivy value itself. -/
inductive Arg where
  | int (n : Int)
  | text (l : List Int)
  | bool (b : Bool)
  | float (x : Rat)
  | shown (v : Val)
  | date (v : Val)
  | value (v : Val)

/-- What is written to the buffer: the result of a call of `fmt.Fprintf`, or a byte. -/
inductive Out where
  | print (format : Str) (a : Arg)
  | lit (c : Char)

/-- `value/format.go:129-134`: flags, digits and the period. -/
def isFlag (c : Char) : Bool := c ∈ ['+', '-', '#', ' ', '0', '.', '1', '2', '3', '4', '5', '6', '7', '8', '9']

/-- `value/format.go:138`: the verbs. -/
def isVerb (c : Char) : Bool :=
  c ∈ ['b', 'c', 'd', 'e', 'E', 'f', 'F', 'g', 'G', 'o', 'O', 'q', 's', 't', 'T', 'U', 'v', 'x', 'X']

/-- How the loop of `verbIndex` ends. -/
inductive Scan where
  | verb (i : Nat)
  | escape (rest : Str)
  | bad

/-- `value/format.go:126-143`: the loop of `verbIndex`. Go's loop goes over runes; a rune that is not ASCII ends it, and so does its first byte here. -/
def scan (i : Nat) : Str → Scan
  | [] => .bad
  | c :: r => if isFlag c then scan (i + 1) r else if c = '%' then .escape r else if isVerb c then .verb i else .bad

theorem scan_shorter : ∀ (s : Str) (i : Nat) (rest : Str), scan i s = .escape rest → rest.length < s.length
  | [], i, rest, h => by simp [scan] at h
  | c :: r, i, rest, h => by
    unfold scan at h
    split at h
    · have := scan_shorter r _ _ h; simp; omega
    · split at h
      · cases h; simp
      · split at h <;> cases h

/-- `value/format.go:118-146`: `verbIndex`. The index of what follows an escape is not moved by the length of what was skipped (`:137`). -/
def verbIndex (format : Str) : R Nat :=
  match h : format.dropWhile (· ≠ '%') with
  | [] => .err "invalid format"
  | _ :: s =>
    match h2 : scan 0 s with
    | .bad => .err "invalid format"
    | .verb i => .ok ((format.takeWhile (· ≠ '%')).length + 1 + i)
    | .escape rest => verbIndex rest
termination_by format.length
decreasing_by
  have h3 := scan_shorter s 0 rest h2
  have h4 : (format.dropWhile (· ≠ '%')).length ≤ format.length := (List.dropWhile_suffix _).length_le
  rw [h] at h4
  simp at h4
  omega

/-- `value/format.go:112-114`: `verbOf`. -/
def verbOf (format : Str) : R Char := (verbIndex format).bind fun i => vAt format i

/-- `fmt.Sprintf("%d", n)`. -/
def dec (n : Int) : Str := if n < 0 then '-' :: Nat.toDigits 10 n.natAbs else Nat.toDigits 10 n.natAbs

/-- A rune as bytes. -/
def Env.utf8 (E : Env) (c : Int) : Str := if 0 ≤ c ∧ c < 128 then [Char.ofNat c.toNat] else E.wide c

/-- `value/vector.go:342-350`: `AllChars`, and the runes. -/
def runes : List Val → Option (List Int)
  | [] => some []
  | .num (.char c) :: r => (runes r).map (c :: ·)
  | _ => none

/-- `c | ' '`, for a rune that is ASCII; no other rune becomes one of the letters compared with. -/
def lower (c : Int) : Int := if 0 ≤ c ∧ c < 128 then (if c / 32 % 2 = 0 then c + 32 else c) else c

/-- `value/format.go:62-107`: `formatString`. The empty format with which the code reports an illegal one (`:106`, `:30-32`) is an error here. -/
def formatString (E : Env) : Val → R (Str × Char)
  | .num (.int n) => .ok ('%' :: '.' :: dec n ++ ['f'], 'f')
  | .num (.char c) =>
    let s := '%' :: E.utf8 c
    (verbOf s).bind fun v => .ok (s, v)
  | .vec l =>
    match runes l with
    | some cs =>
      let s := cs.flatMap E.utf8
      let s := if '%' ∈ s then s else '%' :: s
      (verbOf s).bind fun v => .ok (s, v)
    | none =>
      match l with
      | [.num (.int d)] => .ok ('%' :: '.' :: dec d ++ ['f'], 'f')
      | [.num (.int w), .num (.int d)] => .ok ('%' :: dec w ++ '.' :: dec d ++ ['f'], 'f')
      | [.num (.int w), .num (.int d), .num (.char c)] =>
        if lower c = 101 then .ok ('%' :: dec w ++ '.' :: dec d ++ ['e'], 'e')
        else if lower c = 102 then .ok ('%' :: dec w ++ '.' :: dec d ++ ['f'], 'f')
        else if lower c = 103 then .ok ('%' :: dec w ++ '.' :: dec d ++ ['g'], 'g')
        else .err "illegal format"
      | _ => .err "illegal format"
  | _ => .err "illegal format"

/-- The integer and rational behind a number, for the arguments below. -/
def asRat : Num → Rat
  | .int n => n
  | .char n => n
  | .bigInt n => n
  | .bigRat r => r

/-- `value/format.go:163-181`: verbs `c` and `U`. -/
def asRune (E : Env) (format : Str) : Val → R (List Out)
  | .num (.int n) => .ok [.print format (.int n)]
  | .num (.char n) => .ok [.print format (.int n)]
  | .num (.bigInt _) => .err "value too large"
  | .num (.bigRat r) => .ok [.print format (.int (E.trunc r))]
  | .cplx _ _ => .err "not implemented for complex"
  | _ => .ok []

/-- `value/format.go:182-200`: verbs `s` and `q`. -/
def asText (E : Env) (format : Str) : Val → R (List Out)
  | .num (.int n) => .ok [.print format (.text [n])]
  | .num (.char n) => .ok [.print format (.text [n])]
  | .num (.bigInt _) => .err "value too large"
  | .num (.bigRat r) => .ok [.print format (.text [E.trunc r])]
  | .cplx _ _ => .err "not implemented for complex"
  | _ => .ok []

/-- `value/format.go:203-215`: integer verbs, of a real number. -/
def asInt1 (format : Str) : Num → List Out
  | .int n => [.print format (.int n)]
  | .char n => [.print format (.int n)]
  | .bigInt n => [.print format (.int n)]
  | .bigRat r => [.print format (.int r.num), .lit '/', .print format (.int r.den)]

/-- `value/format.go:201-232`: integer verbs. -/
def asInt (format : Str) : Val → R (List Out)
  | .num n => .ok (asInt1 format n)
  | .cplx a b => .ok (asInt1 format a ++ .lit 'j' :: asInt1 format b)
  | _ => .ok []

/-- `value/format.go:233-256`: floating-point verbs. -/
def asFloat (format : Str) : Val → R (List Out)
  | .num n => .ok [.print format (.float (asRat n))]
  | .cplx a b => .ok [.print format (.float (asRat a)), .lit 'j', .print format (.float (asRat b))]
  | _ => .ok []

/-- `value/binary.go:161-178`: `toBool`. -/
def toBool : Val → R Bool
  | .num n => .ok (asRat n ≠ 0)
  | .cplx a b => .ok (asRat a ≠ 0 || asRat b ≠ 0)
  | _ => .err "cannot convert to bool"

/-- `value/sys.go:297-304`: what can be converted to a time: `toType` to a float (`value/char.go:46-60` has no such case, nor `value/complex.go:73-86`). -/
def isTime : Val → Bool
  | .num (.char _) => false
  | .num _ => true
  | _ => false

/-- `value/format.go:151-260`: `formatOne`. -/
def formatOne (E : Env) (format : Str) (verb : Char) (v : Val) : R (List Out) :=
  if verb = 'T' then
    (verbIndex format).bind fun i =>
    if ¬ isTime v then .err "cannot convert" else .ok [.print (format.set i 's') (.date v)]
  else if verb = 't' then (toBool v).bind fun b => .ok [.print format (.bool b)]
  else if verb = 'v' then .ok [.print format (.shown v)]
  else if verb ∈ ['c', 'U'] then asRune E format v
  else if verb ∈ ['s', 'q'] then asText E format v
  else if verb ∈ ['b', 'd', 'o', 'O', 'x', 'X'] then asInt format v
  else if verb ∈ ['e', 'E', 'f', 'F', 'g', 'G'] then asFloat format v
  else .ok [.print format (.value v)]

/-- `value/format.go:46-51`: the elements of a vector; the first argument tells whether it is the first. -/
def formatVec (E : Env) (format : Str) (verb : Char) : Bool → List Val → R (List Out)
  | _, [] => .ok []
  | first, v :: vs => (formatOne E format verb v).bind fun o => (formatVec E format verb false vs).bind fun r =>
    .ok ((if first then [] else [.lit ' ']) ++ o ++ r)

/-- `value/matrix.go:178-192`: the counters after an element, and how many of them were set back to zero. -/
def bump : List Nat → List Nat → List Nat × Nat
  | d :: ds, i :: is =>
    let p := bump ds is
    if p.2 = ds.length then (if i + 1 < d then ((i + 1) :: p.1, p.2) else (0 :: p.1, p.2 + 1)) else (i :: p.1, p.2)
  | _, is => (is, 0)

/-- `value/matrix.go:172-193`: the elements of a matrix. -/
def formatMat (E : Env) (format : Str) (verb : Char) (shape : List Nat) : List Nat → Bool → List Val → R (List Out)
  | _, _, [] => .ok []
  | counters, printSpace, v :: vs =>
    (formatOne E format verb v).bind fun o =>
    let p := bump shape counters
    let newlines := if vs.isEmpty then 0 else p.2
    (formatMat E format verb shape p.1 (newlines = 0) vs).bind fun r =>
    .ok ((if printSpace then [.lit ' '] else []) ++ o ++ List.replicate newlines (.lit '\n') ++ r)

/-- `value/format.go:27-59`: `fmtText`. -/
def text (E : Env) (u v : Val) : R (List Out) :=
  (formatString E u).bind fun fv =>
  match v with
  | .num _ => formatOne E fv.1 fv.2 v
  | .cplx a b => (formatOne E fv.1 fv.2 (.num a)).bind fun x => (formatOne E fv.1 fv.2 (.num b)).bind fun y => .ok (x ++ .lit 'j' :: y)
  | .vec l =>
    match runes l with
    | some _ => if fv.2 ∈ ['b', 'o', 'O', 'q', 's', 'v', 'x', 'X'] then .ok [.print fv.1 (.shown v)] else formatVec E fv.1 fv.2 true l
    | none => formatVec E fv.1 fv.2 true l
  | .mat shape l =>
    if shape.length = 0 ∨ l.length = 0 then .ok [] else
    (verbOf fv.1).bind fun verb => formatMat E fv.1 verb shape (List.replicate shape.length 0) false l

end Verif.Fmt
