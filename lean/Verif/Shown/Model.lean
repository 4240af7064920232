import Verif.Lit.Model
/-
Printing exact numbers with a floating-point format: `Config.SetFormat` (`config/config.go`) and the methods `floatString` of
`Int`, `BigInt` and `BigRat` (`value/int.go`, `value/bigint.go`, `value/bigrat.go`) with what they call.

Strings are lists of characters.  A slice of a string outside of its bounds is the outcome `crash`, a loop that does not end `hang`.
Integers of Go are unlimited.  The text of a big integer longer than `)maxdigits`, which is printed as a floating-point
number, is an error in the model.
-/
namespace Verif.Shown
open Verif.Lit (formatInt parseInt32)
open Verif.Arr (R)

/-- `config/config.go:122-150`, `SetFormat`: the verb and the precision if the format is a floating-point one. -/
def floatFormat (s : List Char) : Option (Char × Nat) :=
  match s.getLast? with
  | none => none
  | some v =>
    if v ∈ ['f', 'F', 'g', 'G', 'e', 'E'] then
      let after := (s.reverse.takeWhile (· != '.')).reverse
      let point := s.length - after.length
      -- `point` is the index of the last period plus one, or zero
      if 1 < point then
        match parseInt32 10 after.dropLast with
        | some p => if 0 ≤ p then some (v, p.toNat) else some (v, 6)
        | none => some (v, 6)
      else some (v, 6)
    else none

/-- `value/int.go:140-145`: `zeros`. -/
def zeros (n : Nat) : List Char := List.replicate n '0'

/-- `s[a:b]` of a string. -/
def slice (s : List Char) (a b : Int) : R (List Char) :=
  if 0 ≤ a ∧ a ≤ b ∧ b ≤ s.length then .ok ((s.take b.toNat).drop a.toNat) else .crash

/-- `fmt.Sprintf("%+.2d", exp)` (`value/int.go:135`). -/
def expText (exp : Int) : List Char :=
  (if exp < 0 then '-' else '+') :: (zeros (2 - (Nat.toDigits 10 exp.natAbs).length) ++ Nat.toDigits 10 exp.natAbs)

/-- `value/int.go:122-136`: `eFormat`. -/
def eFormat (verb : Char) (prec : Int) (sign str : List Char) (exp : Int) : R (List Char) :=
  (if (str.length : Int) - 1 < prec then R.ok (str ++ zeros (prec - str.length + 1).toNat) else slice str 0 (1 + prec)).bind fun s =>
  (slice s 0 1).bind fun a =>
  (slice s 1 s.length).bind fun b =>
  .ok (sign ++ a ++ (if prec = 0 then [] else ['.']) ++ b ++ verb :: expText exp)

/-- The loop `for x >= 10` (`value/int.go:102-105`, `value/bigint.go:126-129`).  The first argument bounds the number of turns. -/
def tenLoop : Nat → Nat → Nat → R Nat
  | 0, _, _ => .hang
  | k + 1, x, e => if 10 ≤ x then tenLoop k (x / 10) (e + 1) else .ok e

/-- The loop `for x.Cmp(bigIntBillion) >= 0` (`value/bigint.go:122-125`). -/
def billionLoop : Nat → Nat → Nat → R (Nat × Nat)
  | 0, _, _ => .hang
  | k + 1, x, e => if 1000000000 ≤ x then billionLoop k (x / 1000000000) (e + 9) else .ok (x, e)

/-- More turns than the loops make for numbers up to `n`. -/
def turns (n : Nat) : Nat := Nat.log2 n + 2

/-- `value/int.go:95-107`: `Int.eExponent`. -/
def intExponent (i : Int) : R Nat := tenLoop (turns i.natAbs) i.natAbs 0

/-- `value/bigint.go:117-131`: `eExponent`. -/
def bigExponent (i : Int) : R Nat := (billionLoop (turns i.natAbs) i.natAbs 0).bind fun p => tenLoop (turns i.natAbs) p.1 p.2

/-- `verb - n` for a byte. -/
def less (verb : Char) (n : Nat) : Char := Char.ofNat (verb.toNat - n)

/-- `value/bigint.go:174-187`: `trimEZeros`. -/
def trimEZeros (e : Char) (s : List Char) : R (List Char) :=
  if e ∈ s then
    let head := s.takeWhile (· != e)
    let tail := s.dropWhile (· != e)
    -- the loop reads `s[n-1]` and stops at the first character, from the right, that is not a zero
    match head.reverse.dropWhile (· == '0') with
    | [] => .crash
    | c :: r => if c = '.' then .ok (r.reverse ++ tail) else .ok ((c :: r).reverse ++ tail)
  else .ok s

/-- `value/int.go:65-92`, the case of `%e` in `Int.floatString`. -/
def intE (verb : Char) (prec : Int) (i : Int) : R (List Char) :=
  (intExponent i).bind fun e => eFormat verb prec (if i < 0 then ['-'] else []) (Nat.toDigits 10 i.natAbs) e

/-- `value/int.go:65-92`: `Int.floatString`. -/
def intFloat (verb : Char) (prec : Int) (i : Int) : R (List Char) :=
  if verb = 'f' ∨ verb = 'F' then .ok (formatInt 10 i ++ if 0 < prec then '.' :: zeros prec.toNat else [])
  else if verb = 'e' ∨ verb = 'E' then intE verb prec i
  else if verb = 'g' ∨ verb = 'G' then
    (intExponent i).bind fun e => if prec ≤ e then intE (less verb 2) (prec - 1) i else .ok (formatInt 10 i)
  else .err "can't handle verb for int"

/-- `value/bigint.go:81-114`, the case of `%e` in `BigInt.floatString`. -/
def bigE (verb : Char) (prec : Int) (i : Int) : R (List Char) :=
  (bigExponent i).bind fun e => eFormat verb prec (if i < 0 then ['-'] else []) (Nat.toDigits 10 i.natAbs) e

/-- `value/bigint.go:81-114`: `BigInt.floatString`. -/
def bigFloat (verb : Char) (prec : Int) (i : Int) : R (List Char) :=
  if verb = 'f' ∨ verb = 'F' then .ok (formatInt 10 i ++ if 0 < prec then '.' :: zeros prec.toNat else [])
  else if verb = 'e' ∨ verb = 'E' then bigE verb prec i
  else if verb = 'g' ∨ verb = 'G' then
    (bigExponent i).bind fun e =>
      if prec ≤ e then (bigE (less verb 2) (prec - 1) i).bind (trimEZeros (less verb 2)) else .ok (formatInt 10 i)
  else .err "can't handle verb for big int"

/-- `(*big.Rat).FloatString` of package math/big: rounded to `prec` digits after the point, halves away from zero. -/
def ratString (q : Rat) (prec : Int) : List Char :=
  if q.den = 1 then formatInt 10 q.num ++ (if 0 < prec then '.' :: zeros prec.toNat else [])
  else
    let a := q.num.natAbs
    let p := 10 ^ prec.toNat
    let r := a % q.den * p / q.den
    let r2 := a % q.den * p % q.den
    let up := q.den ≤ r2 + r2
    let whole := if up ∧ p ≤ r + 1 then a / q.den + 1 else a / q.den
    let frac := if up then (if p ≤ r + 1 then r + 1 - p else r + 1) else r
    let digits := Nat.toDigits 10 frac
    (if q < 0 then ['-'] else []) ++ Nat.toDigits 10 whole ++
      (if 0 < prec then '.' :: (zeros (prec.toNat - digits.length) ++ digits) else [])

/-- The loop `for x.Cmp(bigRatBillion) >= 0` (`value/bigrat.go:134-137`). -/
def ratBillions : Nat → Rat → Int → R (Rat × Int)
  | 0, _, _ => .hang
  | k + 1, x, e => if 1000000000 ≤ x then ratBillions k (x / 1000000000) (e + 9) else .ok (x, e)

/-- The loop `for x.Cmp(bigRatTen) > 0` (`value/bigrat.go:138-141`). -/
def ratTens : Nat → Rat → Int → R Int
  | 0, _, _ => .hang
  | k + 1, x, e => if 10 < x then ratTens k (x / 10) (e + 1) else .ok e

/-- `value/bigrat.go:123-146`: `ratExponent`. -/
def ratExponent (q : Rat) : R Int :=
  let x := if q < 0 then -q else q
  let invert : Bool := x.num < x.den
  let y := if invert then x⁻¹ else x
  (ratBillions (turns y.num.natAbs) y (if invert then 1 else 0)).bind fun p =>
  (ratTens (turns y.num.natAbs) p.1 p.2).bind fun e => .ok (if invert then -e else e)

/-- The loops of `ratScale` for an exponent that is not negative (`value/bigrat.go:156-163`). -/
def ratDown : Nat → Rat → Nat → Rat
  | 0, x, _ => x
  | k + 1, x, e => if 9 ≤ e then ratDown k (x / 1000000000) (e - 9) else if 1 ≤ e then ratDown k (x / 10) (e - 1) else x

/-- `value/bigrat.go:149-164`: `ratScale`.  (The comment in the code has it multiply, where it divides.) -/
def ratScale (x : Rat) (exp : Int) : Rat :=
  if exp < 0 then (ratDown exp.natAbs x⁻¹ exp.natAbs)⁻¹ else ratDown exp.natAbs x exp.natAbs

/-- `value/bigrat.go:67-87`, the case of `%e` in `BigRat.floatString`. -/
def ratE (verb : Char) (prec : Int) (q : Rat) : R (List Char) :=
  let x := if q < 0 then -q else q
  (ratExponent x).bind fun exp =>
  let str := ratString (ratScale x exp) (prec + 1)
  (slice str 0 1).bind fun first =>
  (if first = ['0'] then (slice str 2 str.length).bind fun s => .ok (s, exp - 1)
   else if 1 < str.length ∧ (str.drop 1).head? = some '.' then .ok (str.take 1 ++ str.drop 2, exp)
   else .ok (str, exp)).bind fun p =>
  eFormat verb prec (if q < 0 then ['-'] else []) p.1 p.2

/-- `value/bigrat.go:102-114`: trailing zeros and a period at the end are cut off if there is a period after the first character. -/
def trimDecimals (s : List Char) : List Char :=
  if '.' ∈ s ∧ s.head? ≠ some '.' then
    match s.reverse.dropWhile (· == '0') with
    | [] => []
    | c :: r => if c = '.' then r.reverse else (c :: r).reverse
  else s

/-- `value/bigrat.go:63-120`: `BigRat.floatString`. -/
def ratFloat (verb : Char) (prec : Int) (q : Rat) : R (List Char) :=
  if verb = 'f' ∨ verb = 'F' then .ok (ratString q prec)
  else if verb = 'e' ∨ verb = 'E' then ratE verb prec q
  else if verb = 'g' ∨ verb = 'G' then
    (ratExponent q).bind fun exp =>
      if exp < -4 ∨ prec ≤ exp then (ratE (less verb 2) (prec - 1) q).bind (trimEZeros (less verb 2))
      else .ok (trimDecimals (ratString q (prec - exp - 1)))
  else .err "can't handle verb for rational"

/-- `Sprint` of a number when the format is a floating-point one (`value/int.go:37-45`, `value/bigint.go:44-58`,
`value/bigrat.go:45-53`, `value/char.go:31-35`). -/
def sprint (maxDigits : Nat) (verb : Char) (prec : Nat) : Num.Num → R (List Char)
  | .int i => intFloat verb prec i
  | .char c => .ok [Char.ofNat c.toNat]
  | .bigInt i =>
    let maxBits := maxDigits * 33222 / 10000
    if Num.bitLen i > maxBits ∧ maxBits ≠ 0 then .err "floating point" else bigFloat verb prec i
  | .bigRat r => ratFloat verb prec r

end Verif.Shown
