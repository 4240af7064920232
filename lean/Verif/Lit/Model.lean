import Verif.Scan.Model
import Verif.Num.CModel
import Verif.Save.Model
/-
Reading and printing numbers: `Parse` (`value/value.go`) with the parts of packages strconv and math/big it uses, and
`Sprint` of integers, rationals and complex numbers (`value/int.go`, `value/bigint.go`, `value/bigrat.go`, `value/complex.go`).

Simplifications. Every error is `none`, or a message in `sprint`. Integers of Go are unlimited here except where their range matters (`parseInt32`, the
exponents of `ratSetString`; an exponent beyond 64 bits is refused by the limits of one million that follow it). Printing
is modelled for an empty format; a big integer beyond `)maxdigits`, which is printed as a floating-point number, is an error in the model. Floating-point numbers are not modelled.
-/
namespace Verif.Lit
open Verif.Num (CNum Cx shrinkBig shrinkRat)
open Verif.Arr (R)

/-- The value of a digit (strconv/atoi.go, `ParseUint`; math/big, `nat.scan`, for bases up to 36). -/
def digitVal (c : Char) : Option Nat :=
  if '0' ≤ c ∧ c ≤ '9' then some (c.toNat - '0'.toNat)
  else if 'a' ≤ c ∧ c ≤ 'z' then some (c.toNat - 'a'.toNat + 10)
  else if 'A' ≤ c ∧ c ≤ 'Z' then some (c.toNat - 'A'.toNat + 10)
  else none

/-- The letter after `0` that tells the base. -/
def prefixBase (c : Char) : Option Nat :=
  if c = 'b' ∨ c = 'B' then some 2
  else if c = 'o' ∨ c = 'O' then some 8
  else if c = 'x' ∨ c = 'X' then some 16
  else none

/-- strconv/atoi.go, `ParseUint`: the base and the digits. -/
def uintPrefix (base : Nat) (s : List Char) : Nat × List Char :=
  if base ≠ 0 then (base, s)
  else
    match s with
    | '0' :: c :: d :: r =>
      match prefixBase c with
      | some b => (b, d :: r)
      | none => (8, c :: d :: r)
    | '0' :: r => (8, r)
    | s => (10, s)

/-- strconv/atoi.go, `ParseUint`: the loop; underscores are skipped if the base was given as 0. -/
def uintLoop (base0 : Bool) (b : Nat) : Nat → List Char → Option Nat
  | n, [] => some n
  | n, c :: s =>
    if c = '_' ∧ base0 = true then uintLoop base0 b n s
    else
      match digitVal c with
      | some d => if d < b then uintLoop base0 b (n * b + d) s else none
      | none => none

/-- The class of the last character in `underscoreOK`. -/
inductive Saw where
  | start
  | digit
  | under
  | other
deriving DecidableEq

/-- strconv/atoi.go, `underscoreOK`: the loop. -/
def underLoop (hex : Bool) : Saw → List Char → Bool
  | saw, [] => decide (saw ≠ .under)
  | saw, c :: s =>
    if ('0' ≤ c ∧ c ≤ '9') ∨ (hex = true ∧ (('a' ≤ c ∧ c ≤ 'f') ∨ ('A' ≤ c ∧ c ≤ 'F'))) then underLoop hex .digit s
    else if c = '_' then (if saw ≠ .digit then false else underLoop hex .under s)
    else if saw = .under then false
    else underLoop hex .other s

/-- strconv/atoi.go, `underscoreOK`, of a text without sign. -/
def underscoreOK (s : List Char) : Bool :=
  match s with
  | '0' :: c :: r =>
    match prefixBase c with
    | some b => underLoop (b == 16) .digit r
    | none => underLoop false .start s
  | s => underLoop false .start s

/-- strconv/atoi.go, `ParseUint`, without the limit. -/
def parseUint (base : Nat) (s : List Char) : Option Nat :=
  if s = [] then none
  else
    (uintLoop (base == 0) (uintPrefix base s).1 0 (uintPrefix base s).2).bind fun n =>
    if base = 0 ∧ s.contains '_' = true ∧ underscoreOK s = false then none else some n

/-- The sign at the start of a text, if there is one. -/
def unsign : List Char → Bool × List Char
  | '+' :: s => (false, s)
  | '-' :: s => (true, s)
  | s => (false, s)

/-- The number with its sign. -/
def signed (neg : Bool) (n : Nat) : Int := if neg then -n else n

/-- `value/int.go:28-31`: `strconv.ParseInt(s, base, 32)`. -/
def parseInt32 (base : Nat) (s : List Char) : Option Int :=
  (parseUint base (unsign s).2).bind fun n =>
  if (unsign s).1 = false ∧ 2147483648 ≤ n then none
  else if (unsign s).1 = true ∧ 2147483648 < n then none
  else some (signed (unsign s).1 n)

/-- The state of the loop of `nat.scan` (math/big/natconv.go): the last character, whether an underscore was misplaced, whether a point
may come, the number and the count of digits so far, and the count at the point. -/
structure St where
  prev : Saw
  inval : Bool
  fracOk : Bool
  val : Nat
  count : Nat
  dp : Option Nat

/-- math/big/natconv.go, `nat.scan`: the loop. `base0` tells whether the base was given as 0; `b` is the base. -/
def scanLoop (base0 : Bool) (b : Nat) : St → List Char → St × List Char
  | st, [] => (st, [])
  | st, c :: s =>
    if c = '.' ∧ st.fracOk = true then
      scanLoop base0 b { st with fracOk := false, inval := st.inval || st.prev == .under, prev := .other, dp := some st.count } s
    else if c = '_' ∧ base0 = true then
      scanLoop base0 b { st with inval := st.inval || st.prev != .digit, prev := .under } s
    else
      match digitVal c with
      | some d => if d < b then scanLoop base0 b { st with prev := .digit, count := st.count + 1, val := st.val * b + d } s else (st, c :: s)
      | none => (st, c :: s)

/-- math/big/natconv.go, `nat.scan`: the base; whether there was the octal prefix `0`; the last character, the count of digits, and the text from
which the loop starts. -/
def scanPrefix (base : Nat) (fracOk : Bool) (s : List Char) : Nat × Bool × Saw × Nat × List Char :=
  if base ≠ 0 then (base, false, .other, 0, s)
  else
    match s with
    | '0' :: c :: r =>
      match prefixBase c with
      | some b => (b, false, .digit, 0, r)
      | none => if fracOk then (10, false, .digit, 1, c :: r) else (8, true, .digit, 0, c :: r)
    | ['0'] => (10, false, .digit, 1, [])
    | s => (10, false, .other, 0, s)

/-- math/big/natconv.go, `nat.scan`: the number, the base, the count of digits (or minus the count of those after the point), and the text that remains. -/
def natScan (base : Nat) (fracOk : Bool) (s : List Char) : Option (Nat × Nat × Int × List Char) :=
  match scanPrefix base fracOk s with
  | (b, octal, prev, count, r) =>
    match scanLoop (base == 0) b ⟨prev, false, fracOk, 0, count, none⟩ r with
    | (st, rest) =>
      if st.count = 0 then (if octal then some (0, 10, 1, rest) else none)
      else if st.inval = true ∨ st.prev = .under then none
      else some (st.val, b, (match st.dp with | some d => (d : Int) - st.count | none => st.count), rest)

/-- `value/bigint.go:32-38`: `big.Int.SetString`. -/
def setString (base : Nat) (s : List Char) : Option Int :=
  match natScan base false (unsign s).2 with
  | some (n, _, _, []) => some (signed (unsign s).1 n)
  | _ => none

/-- math/big/ratconv.go, `scanExponent`: the loop over the digits. -/
def expLoop : Saw → Bool → Bool → Nat → List Char → Saw × Bool × Bool × Nat × List Char
  | prev, inval, has, n, [] => (prev, inval, has, n, [])
  | prev, inval, has, n, c :: s =>
    if '0' ≤ c ∧ c ≤ '9' then expLoop .digit inval true (n * 10 + (c.toNat - '0'.toNat)) s
    else if c = '_' then expLoop .under (inval || prev != .digit) has n s
    else (prev, inval, has, n, c :: s)

/-- math/big/ratconv.go, `scanExponent`: the exponent, its base, and the text that remains. -/
def scanExponent (s : List Char) : Option (Int × Nat × List Char) :=
  match s with
  | [] => some (0, 10, [])
  | c :: r =>
    if c ≠ 'e' ∧ c ≠ 'E' ∧ c ≠ 'p' ∧ c ≠ 'P' then some (0, 10, c :: r)
    else
      match expLoop .other false false 0 (unsign r).2 with
      | (prev, inval, has, n, rest) =>
        if has = false ∨ inval = true ∨ prev = .under then none
        else some (signed (unsign r).1 n, if c = 'e' ∨ c = 'E' then 10 else 2, rest)

/-- A power with a sign to the exponent. -/
def zpow (b : Nat) (e : Int) : Rat := if e < 0 then 1 / (b : Rat) ^ e.natAbs else (b : Rat) ^ e.natAbs

/-- math/big/ratconv.go, `Rat.SetString`, of a text without slash. -/
def ratSetString (s : List Char) : Option Rat :=
  if s = [] then none
  else
    (natScan 0 true (unsign s).2).bind fun p =>
    (scanExponent p.2.2.2).bind fun q =>
    if q.2.2 ≠ [] then none
    else if p.1 = 0 then some 0
    else
      let d : Int := if p.2.2.1 < 0 then p.2.2.1 else 0
      let exp5 : Int := (if p.2.1 = 10 then d else 0) + (if q.2.1 = 10 then q.1 else 0)
      let exp2 : Int := (if p.2.1 = 10 ∨ p.2.1 = 2 then d else if p.2.1 = 8 then d * 3 else d * 4) + q.1
      if exp5.natAbs > 1000000 ∨ exp2.natAbs > 10000000 then none
      else some ((signed (unsign s).1 p.1 : Int) * zpow 5 exp5 * zpow 2 exp2)

/-- `value/bigrat.go:22-35`: `setBigRatFromFloatString`. -/
def setFloatString (s : List Char) : Option Rat :=
  if s.any (fun c => ".eEpP".toList.contains c) = false then none else ratSetString s

/-- `value/value.go:87-125`: `Parse` of a text without `j` and slash. -/
def parseOne (base : Nat) (s : List Char) : Option Num.Num :=
  match parseInt32 base s with
  | some i => some (.int i)
  | none =>
    match setString base s with
    | some i => some (shrinkBig i)
    | none => (setFloatString s).map shrinkRat

/-- `value/value.go:59-125`: `Parse` of a text without `j`. -/
def parseReal (base : Nat) (s : List Char) : Option Num.Num :=
  if s.contains '/' then
    match Save.split '/' s with
    | [a, b] =>
      if a = [] ∨ b = [] then none
      else
        match parseOne base a, parseOne base b with
        | some x, some y => if Save.toRat y = 0 then none else some (shrinkRat (Save.toRat x / Save.toRat y))
        | _, _ => none
    | _ => none
  else parseOne base s

/-- `value/value.go:59-125`: `Parse`. -/
def parse (base : Nat) (s : List Char) : Option CNum :=
  if s.contains 'j' then
    match Save.split 'j' s with
    | [a, b] =>
      if a = [] ∨ b = [] then none
      else
        match parseReal base a, parseReal base b with
        | some x, some y => some (Cx.shrink ⟨x, y⟩)
        | _, _ => none
    | _ => none
  else (parseReal base s).map .num

/-! ## Printing -/

/-- strconv.FormatInt, and `%b`, `%o`, `%d`, `%x` of a big integer, for bases up to 16. -/
def formatInt (base : Nat) (i : Int) : List Char := (if i < 0 then ['-'] else []) ++ Nat.toDigits base i.natAbs

/-- `value/int.go:46-50`: `Int.Sprint` with an empty format. -/
def sprintInt (obase : Nat) (i : Int) : List Char := formatInt (if obase = 0 then 10 else obase) i

/-- `value/bigint.go:44-75`: `BigInt.Sprint` with an empty format. -/
def sprintBig (maxDigits obase : Nat) (i : Int) : R (List Char) :=
  let maxBits := maxDigits * 33222 / 10000
  if Num.bitLen i > maxBits ∧ maxBits ≠ 0 then .err "floating point"
  else if Num.bitLen i < 32 then .ok (sprintInt obase i)
  else if obase = 0 ∨ obase = 10 then .ok (formatInt 10 i)
  else if obase = 2 then .ok (formatInt 2 i)
  else if obase = 8 then .ok (formatInt 8 i)
  else if obase = 16 then .ok (formatInt 16 i)
  else .err "can't print number in base"

/-- `Sprint` of a number or a character (`value/char.go:28-32`, `value/bigrat.go:45-57`). -/
def sprintNum (maxDigits obase : Nat) : Num.Num → R (List Char)
  | .int i => .ok (sprintInt obase i)
  | .char c => .ok [Char.ofNat c.toNat]
  | .bigInt i => sprintBig maxDigits obase i
  | .bigRat r => (sprintBig maxDigits obase r.num).bind fun a => (sprintBig maxDigits obase r.den).bind fun b => .ok (a ++ '/' :: b)

/-- `Sprint` of a scalar (`value/complex.go:45-47`). -/
def sprint (maxDigits obase : Nat) : CNum → R (List Char)
  | .num n => sprintNum maxDigits obase n
  | .cx c => (sprintNum maxDigits obase c.re).bind fun a => (sprintNum maxDigits obase c.im).bind fun b => .ok (a ++ 'j' :: b)

end Verif.Lit
