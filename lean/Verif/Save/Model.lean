import Verif.Scan.Model
import Verif.Syn.Model
import Verif.Arr.Model
import Verif.Num.CModel
/-
Saving a variable and reading it back: `put` (`parse/save.go`), the parts of packages fmt and strconv it uses, the
turning of tokens into values (`value/value.go`, `value/char.go`, `parse/parse.go`), and the evaluation of the line.

Simplifications. Floating-point numbers, and numbers written with a period or an exponent, are not modelled (`put` writes no
such number for the values modelled). The input base is 10, which `save` sets before it writes variables
(`parse/save.go:116`), so underscores and prefixes are refused as strconv.ParseInt and big.Int.SetString do for that base.
-/
namespace Verif.Save
open Verif.Scan (Uni Ctx)
open Verif.Arr (R)
open Verif.Num (CNum Cx Num.shrink shrinkBig shrinkRat newComplex)
open Verif.Exec (Expr)

/-- A value (`value/value.go:18-48`): a scalar, a vector, or a matrix with its shape and its elements. -/
inductive Val where
  | scal (x : CNum)
  | vec (l : List Val)
  | mat (shape : List Nat) (data : List Val)

/-! ## Package strconv -/

/-- `k` hexadecimal digits of a number (`lowerhex` in strconv/quote.go, `appendEscapedRune`). -/
def hex (k n : Nat) : List Char := (List.range k).reverse.map fun i => Nat.digitChar (n / 16 ^ i % 16)

/-- strconv/quote.go, `appendEscapedRune`, neither `ASCIIonly` nor `graphicOnly`; `q` is the quote. -/
def escape (U : Uni) (q c : Char) : List Char :=
  if c = q ∨ c = '\\' then ['\\', c]
  else if U.print c then [c]
  else if c = '\x07' then ['\\', 'a']
  else if c = '\x08' then ['\\', 'b']
  else if c = '\x0c' then ['\\', 'f']
  else if c = '\n' then ['\\', 'n']
  else if c = '\r' then ['\\', 'r']
  else if c = '\t' then ['\\', 't']
  else if c = '\x0b' then ['\\', 'v']
  else if c.toNat < 32 ∨ c.toNat = 127 then '\\' :: 'x' :: hex 2 c.toNat
  else if c.toNat < 65536 then '\\' :: 'u' :: hex 4 c.toNat
  else '\\' :: 'U' :: hex 8 c.toNat

/-- strconv/quote.go, `appendQuotedWith` and `appendQuotedRuneWith`, which `%q` comes to: `q` is `"` for strings and `'`
for a rune. -/
def quote (U : Uni) (q : Char) (cs : List Char) : List Char := q :: cs.flatMap (escape U q) ++ [q]

/-- strconv/quote.go, `unhex`. -/
def unhex (c : Char) : Option Nat :=
  if '0' ≤ c ∧ c ≤ '9' then some (c.toNat - '0'.toNat)
  else if 'a' ≤ c ∧ c ≤ 'f' then some (c.toNat - 'a'.toNat + 10)
  else if 'A' ≤ c ∧ c ≤ 'F' then some (c.toNat - 'A'.toNat + 10)
  else none

/-- strconv/quote.go, `UnquoteChar`: the loop over `k` hexadecimal digits; `v` is the number so far. -/
def readHex : Nat → Nat → List Char → Option (Nat × List Char)
  | 0, v, s => some (v, s)
  | _ + 1, _, [] => none
  | k + 1, v, c :: s =>
    match unhex c with
    | some d => readHex k (v * 16 + d) s
    | none => none

/-- An octal digit (strconv/quote.go, `UnquoteChar`). -/
def unoct (c : Char) : Option Nat := if '0' ≤ c ∧ c ≤ '7' then some (c.toNat - '0'.toNat) else none

/-- A byte below 128 is a character. Escapes for other bytes, of which several make one character, are not modelled. -/
def ofByte (v : Nat) (s : List Char) : Option (Char × List Char) := if v < 128 then some (Char.ofNat v, s) else none

/-- strconv/quote.go, `UnquoteChar`; `q` is `'` or `"`. -/
def unquoteChar (q : Char) : List Char → Option (Char × List Char)
  | [] => none
  | c :: s =>
    if c = q then none
    else if c ≠ '\\' then some (c, s)
    else
      match s with
      | [] => none
      | d :: s =>
        if d = 'a' then some ('\x07', s)
        else if d = 'b' then some ('\x08', s)
        else if d = 'f' then some ('\x0c', s)
        else if d = 'n' then some ('\n', s)
        else if d = 'r' then some ('\r', s)
        else if d = 't' then some ('\t', s)
        else if d = 'v' then some ('\x0b', s)
        else if d = 'x' then (readHex 2 0 s).bind fun p => ofByte p.1 p.2
        else if d = 'u' then (readHex 4 0 s).bind fun p => if p.1.isValidChar then some (Char.ofNat p.1, p.2) else none
        else if d = 'U' then (readHex 8 0 s).bind fun p => if p.1.isValidChar then some (Char.ofNat p.1, p.2) else none
        else if (unoct d).isSome then
          match s with
          | e :: f :: s =>
            match unoct d, unoct e, unoct f with
            | some x, some y, some z => ofByte (x * 64 + y * 8 + z) s
            | _, _, _ => none
          | _ => none
        else if d = '\\' then some ('\\', s)
        else if d = '\'' ∨ d = '"' then (if d = q then some (d, s) else none)
        else none

/-! ## put -/

/-- `%d` of an integer (fmt/format.go, `fmtInteger`). -/
def intText (i : Int) : List Char := (if i < 0 then ['-'] else []) ++ Nat.toDigits 10 i.natAbs

/-- `parse/save.go:163-170`: a number or a character. -/
def putNum (U : Uni) : Num.Num → List Char
  | .int i => intText i
  | .char c => quote U '\'' [Char.ofNat c.toNat]
  | .bigInt i => intText i
  | .bigRat r => intText r.num ++ '/' :: intText r.den

/-- `parse/save.go:163-187`: a scalar. -/
def putScal (U : Uni) : CNum → List Char
  | .num n => putNum U n
  | .cx c => putNum U c.re ++ 'j' :: putNum U c.im

/-- `value/vector.go:343-350`, `AllChars`, and what `Sprint` (`:113-131`, `:154-172`) makes of such a vector: its
characters, nothing if there are others. -/
def charsOf : List Val → Option (List Char)
  | [] => some []
  | .scal (.num (.char c)) :: l => (charsOf l).map (Char.ofNat c.toNat :: ·)
  | _ => none

/-- The dimensions of a matrix as `put` writes them (`parse/save.go:200`), all integers. -/
def putShape : List Nat → List Char
  | [] => ['"', '"']
  | [d] => intText d
  | d :: ds => intText d ++ ' ' :: putShape ds

mutual
/-- `parse/save.go:158-209`: `put`. Text is written without the closing parenthesis if a vector is all characters. -/
def put (U : Uni) (withParens : Bool) : Val → List Char
  | .scal x => (if withParens then ['('] else []) ++ putScal U x ++ (if withParens then [')'] else [])
  | .vec l =>
    match charsOf l with
    | some cs => (if withParens then ['('] else []) ++ quote U '"' cs
    | none => (if withParens then ['('] else []) ++ putElems U l ++ (if withParens then [')'] else [])
  | .mat shape data =>
    (if withParens then ['('] else []) ++ putShape shape ++ " rho ".toList ++
      (match charsOf data with
      | some cs => quote U '"' cs
      | none => putElems U data) ++ (if withParens then [')'] else [])

/-- `parse/save.go:193-198`: the elements, with spaces between them. -/
def putElems (U : Uni) : List Val → List Char
  | [] => []
  | v :: l => put U (match v with | .scal _ => false | _ => true) v ++ putRest U l

/-- The elements after the first, each with a space before it. -/
def putRest (U : Uni) : List Val → List Char
  | [] => []
  | v :: l => ' ' :: put U (match v with | .scal _ => false | _ => true) v ++ putRest U l
end

/-- `parse/save.go:120-122`: the line for a variable. -/
def saveLine (U : Uni) (name : List Char) (v : Val) : List Char := name ++ " = ".toList ++ put U false v ++ ['\n']

/-! ## Reading -/

/-- The value of decimal digits; nothing if there are none or other characters (strconv/atoi.go, `ParseUint`, and math/big,
`nat.scan`, for base 10). -/
def readDigits (s : List Char) : Option Nat :=
  if s = [] then none else if s.all Verif.Scan.isDigit then some (s.foldl (fun n c => 10 * n + (c.toNat - '0'.toNat)) 0) else none

/-- A sign and digits (strconv/atoi.go, `ParseInt`; math/big, `Int.SetString`). -/
def readInt : List Char → Option Int
  | '+' :: s => (readDigits s).map fun n => (n : Int)
  | '-' :: s => (readDigits s).map fun n => -(n : Int)
  | s => (readDigits s).map fun n => (n : Int)

/-- `value/value.go:110-119`: the end of `Parse`: an `Int` if it is in the range of 32 bits (`value/int.go:28-31`), else a
big integer (`value/bigint.go:32-38`). -/
def parseInt (s : List Char) : Option Num.Num := (readInt s).map fun i => if Num.minInt ≤ i ∧ i ≤ Num.maxInt then .int i else shrinkBig i

/-- `strings.Split(s, sep)` for a `sep` of one character. -/
def split (sep : Char) : List Char → List (List Char)
  | [] => [[]]
  | c :: s =>
    match split sep s with
    | [] => []
    | w :: ws => if c = sep then [] :: w :: ws else (c :: w) :: ws

/-- The number as a big rational (`toType`, `value/int.go:161-162`, `value/bigint.go:155-157`). -/
def toRat : Num.Num → Rat
  | .int i => i
  | .char c => c
  | .bigInt i => i
  | .bigRat r => r

/-- `value/value.go:59-119`: `Parse` (and `parseTwo`) of a text without `j`. -/
def parseReal (s : List Char) : Option Num.Num :=
  if s.contains '/' then
    match split '/' s with
    | [a, b] =>
      if a = [] ∨ b = [] then none
      else
        match parseInt a, parseInt b with
        | some x, some y => if toRat y = 0 then none else some (shrinkRat (toRat x / toRat y))
        | _, _ => none
    | _ => none
  else parseInt s

/-- `value/value.go:59-119`: `Parse`. -/
def parseNumber (s : List Char) : Option CNum :=
  if s.contains 'j' then
    match split 'j' s with
    | [a, b] =>
      if a = [] ∨ b = [] then none
      else
        match parseReal a, parseReal b with
        | some x, some y => some (Cx.shrink ⟨x, y⟩)
        | _, _ => none
    | _ => none
  else (parseReal s).map .num

/-- `value/char.go:116-128`: the loop of `unquote`; `n` bounds the number of characters. -/
def unquoteLoop (q : Char) : Nat → List Char → Option (List Char)
  | _, [] => some []
  | 0, _ => none
  | n + 1, s => (unquoteChar q s).bind fun p => (unquoteLoop q n p.2).map (p.1 :: ·)

/-- `value/char.go:70-130`: `ParseString` with `unquote`. -/
def parseString (s : List Char) : Option (List Char) :=
  match s with
  | [] => none
  | [_] => none
  | q :: r =>
    if r.getLast? ≠ some q then none
    else
      let body := r.dropLast
      if q = '`' then (if body.contains '`' then none else some body)
      else if q ≠ '"' ∧ q ≠ '\'' then none
      else if body.contains '\n' then none
      else if body.contains '\\' = false ∧ body.contains q = false then some body
      else unquoteLoop q body.length body

/-- The token as the parser sees it (`parse/parse.go:424-436`). -/
def tokOf (t : Verif.Scan.Tok) : Syn.Tok CNum :=
  match t.ty with
  | .number => .num (parseNumber t.text)
  | .string => .str ((parseString t.text).map fun cs => cs.map fun c => .num (.char c.toNat))
  | .identifier => .id (String.ofList t.text)
  | .operator => .op (String.ofList t.text)
  | .assign => .assign
  | .leftParen => .lparen
  | .rightParen => .rparen
  | .leftBrack => .lbrack
  | .rightBrack => .rbrack
  | .semicolon => .semi
  | .colon => .colon
  | _ => .other (String.ofList t.text)

/-- The elements of a value converted to a vector (`value/int.go:167-168` and so on), or the elements of a matrix. -/
def elems : Val → List Val
  | .scal x => [.scal x]
  | .vec l => l
  | .mat _ d => d

/-- A dimension (`value/matrix.go:425`). -/
def small : Val → Arr.Small
  | .scal (.num (.int i)) => some i
  | _ => none

/-- The result of `reshape` as a value. -/
def ofV : Arr.V Val → Val
  | .elem x => x
  | .vec l => .vec l
  | .mat m => .mat m.shape m.data

/-- `value/binary.go:1284-1300`: binary `rho`. -/
def rho (u v : Val) : R Val :=
  match u with
  | .mat [_] d => (Arr.reshape (.scal (.num (.int 0))) (d.map small) (elems v)).bind fun r => .ok (ofV r)
  | .mat _ _ => .err "lhs of rho cannot be matrix"
  | _ => (Arr.reshape (.scal (.num (.int 0))) ((elems u).map small) (elems v)).bind fun r => .ok (ofV r)

mutual
/-- The value of an expression of constants, vectors (`value/expr.go:83-93`) and `rho` (`exec/context.go:187-226`: an operator of
the user first, `userRho`). Other expressions are not modelled; see `Verif/Exec`. -/
def eval (userRho : Option (Val → Val → R Val)) : Expr CNum → R Val
  | .lit x => .ok (.scal x)
  | .vec es => (evalAll userRho es).bind fun l => .ok (.vec l)
  | .binary op l r =>
    if op = "rho" then (eval userRho r).bind fun v => (eval userRho l).bind fun u => (userRho.getD rho) u v else .err "not modelled"
  | _ => .err "not modelled"

/-- The elements of a vector. -/
def evalAll (userRho : Option (Val → Val → R Val)) : List (Expr CNum) → R (List Val)
  | [] => .ok []
  | e :: es => (evalAll userRho es).bind fun l => (eval userRho e).bind fun v => .ok (v :: l)
end

/-- A line `name = expr` read from the text: the name, the value (`value/expr.go:53-57`; the assignment itself is in `Verif/Exec`), and the text after the
line. -/
def load (U : Uni) (C : Ctx) (Γ : Syn.Names) (userRho : Option (Val → Val → R Val)) (s : List Char) : R (String × Val × List Char) :=
  match Verif.Scan.readLine U C (s.length + 1) none (Verif.Scan.loadText s) with
  | none => .err "bad token"
  | some (ts, rest) =>
    (Syn.parseLine Γ (ts.map tokOf)).bind fun es =>
    match es with
    | [.binary op (.var x _) e] => if op = "=" then (eval userRho e).bind fun v => .ok (x, v, rest) else .err "not modelled"
    | _ => .err "not modelled"

end Verif.Save
