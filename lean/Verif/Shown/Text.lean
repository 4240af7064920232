import Verif.Shown.Model
import Verif.Flt.Model
/-
The text of floating-point numbers: `(*big.Float).Text` of Go's package `math/big`, `BigFloat.Sprint` (`value/bigfloat.go`) for numbers that are not huge,
and the text that `)save` writes (`parse/save.go`).

`Text` is not code of ivy.  It is modelled as the Go library computes it: an exact conversion to decimal, rounding, and writing the digits.
A float is its exact value, a rational number whose denominator is a power of two.  Infinities and the sign of zero are left out.
-/
namespace Verif.Shown
open Verif.Lit (formatInt)
open Verif.Arr (R)

/-- `decimal` of `math/big` (decimal.go): the number `n * 10 ^ e`.  There the digits of `n` and the place of the point are kept. -/
structure Dec where
  n : Nat
  e : Int
  deriving DecidableEq, Repr

/-- The digits, `mant` (decimal.go). -/
def Dec.mant (d : Dec) : List Char := if d.n = 0 then [] else Nat.toDigits 10 d.n

/-- The place of the point in front of the digits, `exp` (decimal.go). -/
def Dec.exp (d : Dec) : Int := if d.n = 0 then 0 else d.e + d.mant.length

/-- Zeros at the end are cut off (`trim`, decimal.go). -/
def strip : Nat → Nat → Int → Dec
  | 0, n, e => ⟨n, e⟩
  | k + 1, n, e => if n ≠ 0 ∧ n % 10 = 0 then strip k (n / 10) (e + 1) else ⟨n, e⟩

/-- `trim` (decimal.go). -/
def trim (n : Nat) (e : Int) : Dec := strip (Nat.log2 n + 1) n e

/-- `decimal.init` (decimal.go): the exact value of a fraction whose denominator is `2 ^ k`. -/
def decOf (q : Rat) : Dec := trim (q.num.natAbs * 5 ^ Nat.log2 q.den) (-(Nat.log2 q.den : Int))

/-- `decimal.round` with `shouldRoundUp`, `roundUp`, `roundDown` (decimal.go): to `n` digits, halves to the even digit. -/
def Dec.round (d : Dec) (n : Int) : Dec :=
  if n < 0 ∨ d.mant.length ≤ n then d
  else
    let k := d.mant.length - n.toNat
    let p := 10 ^ k
    let up := p < 2 * (d.n % p) ∨ (p = 2 * (d.n % p) ∧ d.n / p % 2 = 1)
    trim (if up then d.n / p + 1 else d.n / p) (d.e + k)

/-- `decimal.at` (decimal.go): a digit, zero outside of the digits kept. -/
def Dec.at (d : Dec) (i : Int) : Char := if 0 ≤ i then d.mant.getD i.toNat '0' else '0'

/-- The digits from place `a` on, `k` of them. -/
def Dec.window (d : Dec) (a : Int) (k : Nat) : List Char := (List.range k).map fun (i : Nat) => d.at (a + i)

/-- A period and the digits, if there are any. -/
def point (f : List Char) : List Char := if f = [] then [] else '.' :: f

/-- `fmtE` (ftoa.go of `math/big`). -/
def fmtE (verb : Char) (prec : Nat) (d : Dec) : List Char :=
  d.window 0 1 ++ point (d.window 1 prec) ++ verb :: expText (if d.n = 0 then 0 else d.exp - 1)

/-- `fmtF` (ftoa.go of `math/big`). -/
def fmtF (prec : Nat) (d : Dec) : List Char :=
  (if 0 < d.exp then d.window 0 d.exp.toNat else ['0']) ++ point (d.window d.exp prec)

/-- `(*big.Float).Text(verb, prec)` (ftoa.go of `math/big`, `Append`). -/
def text (verb : Char) (prec : Nat) (q : Rat) : List Char :=
  let d := decOf q
  let sign : List Char := if q < 0 then ['-'] else []
  if verb = 'e' ∨ verb = 'E' then sign ++ fmtE verb prec (d.round (1 + prec))
  else if verb = 'f' then sign ++ fmtF prec (d.round (d.exp + prec))
  else if verb = 'g' ∨ verb = 'G' then
    let prec := if prec = 0 then 1 else prec
    let d := d.round prec
    let len := d.mant.length
    let eprec := if len < prec ∧ d.exp ≤ len then len else prec
    if d.exp - 1 < -4 ∨ eprec ≤ d.exp - 1 then sign ++ fmtE (less verb 2) ((if len < prec then len else prec) - 1) d
    else sign ++ fmtF ((if d.exp < prec then len else prec) - d.exp).toNat d
  else ['%', verb]

/-- `BigFloat.Sprint` (`value/bigfloat.go:36-50`, `:120`) for floats whose exponent is at most 10000: with a floating-point format its verb and precision, otherwise `%.12g`. -/
def sprintFloat (format : List Char) (q : Rat) : List Char :=
  match floatFormat format with
  | some (v, p) => text v p q
  | none => text 'g' 12 q

/-- The number of digits written for a float of precision `p` less one, `int(float64(val.Prec()) * 0.301029995664)` (`parse/save.go:181`); the constant and the product are
floating-point numbers of 53 bits. -/
def saveDigits (p : Nat) : Nat := (Flt.rnd 53 (p * Flt.rnd 53 (301029995664 / 1000000000000))).floor.toNat

/-- `put` of a float that is not zero (`parse/save.go:171-182`). -/
def saveFloat (p : Nat) (q : Rat) : List Char := text 'g' (saveDigits p + 1) q

end Verif.Shown
