/-
Model of the scanner, function by function after `scan/scan.go`, from characters to tokens.

A function that works on the pending token gets `inp`, the text from the start of that token on, and `pos`, the
number of its characters read so far; it returns the new `pos`. The text of a token is then `inp.take pos`, as the
slice `l.input[l.start:l.pos]` is in Go (`:175`).
Simplifications. The text is all of the input, with carriage returns removed (`:93-114`, `loadText`); a line is loaded
when the scanner comes to the end of the one before (`:117-128`), which shows only in `l.start` being 0 at the
beginning of a line, so what comes before the token is `none` there. (`readOK` is never false, `:226`, `:612`.)
The text is a list of characters, so positions are numbers of characters and not of bytes; text that is not valid
UTF-8 is not modelled. The tables of package unicode are a parameter (`Uni`).
-/
namespace Verif.Scan

/-- `scan/scan.go:30-54`: the types of tokens that the scanner gives, but `Error` and `EOF`. (`Rational` and
`Complex` are never used.) -/
inductive Ty where
  | newline | assign | char | identifier | leftBrack | leftParen | number | operator | op | opDelete | rightBrack
  | rightParen | semicolon | string | colon
deriving DecidableEq, Repr

/-- The functions of package unicode: IsLetter, IsDigit, IsPunct, IsSymbol, IsPrint. -/
structure Uni where
  letter : Char → Bool
  digit : Char → Bool
  punct : Char → Bool
  symbol : Char → Bool
  print : Char → Bool

/-- What the scanner asks its context: the input base; whether a word is a predefined operator (exec/operator.go:10-12) or
a predefined binary one (scan.go:391); whether it is a binary or unary operator of the user (exec/context.go:179-184). -/
structure Ctx where
  base : Nat
  predefined : List Char → Bool
  binary : List Char → Bool
  userBinary : List Char → Bool
  userUnary : List Char → Bool

/-- What a state function comes to: a token of `n` characters, the end of the input, or an error. -/
inductive Res where
  | tok (t : Ty) (n : Nat)
  | eof
  | err (msg : String)
deriving DecidableEq, Repr

/-- `:88-114`, `loadLine`: carriage returns are removed. -/
def loadText (s : List Char) : List Char := s.filter (· ≠ '\r')

/-- `:139-142`, `peek`: the next character, nothing at the end. -/
def peek (inp : List Char) (pos : Nat) : Option Char := inp[pos]?

/-- `:196-201`, `acceptRun`. -/
def acceptRun (ok : Char → Bool) (inp : List Char) (pos : Nat) : Nat := pos + ((inp.drop pos).takeWhile ok).length

/-- `:187-193`, `accept`: whether the next character is one of those wanted, and the new position. -/
def accept (ok : Char → Bool) (inp : List Char) (pos : Nat) : Bool × Nat :=
  match peek inp pos with
  | some c => if ok c then (true, pos + 1) else (false, pos)
  | none => (false, pos)

/-- `:620-622`, `isSpace`. -/
def isSpace (c : Char) : Bool := c == ' ' || c == '\t'

/-- `:625-627`, `isEndOfLine`. -/
def isEndOfLine (c : Char) : Bool := c == '\n' || c == ';'

variable (U : Uni) (C : Ctx)

/-- `:649-651`, `isAlphaNumeric`. -/
def isAlphaNumeric (c : Char) : Bool := c == '_' || U.letter c || U.digit c

/-- `:654-656`, `isDigit`. -/
def isDigit (c : Char) : Bool := decide ('0' ≤ c) && decide (c ≤ '9')

/-- `:630-646`, `isIdentifier`: the loop, after the first character or at it. -/
def isIdentLoop (first : Bool) : List Char → Bool
  | [] => true
  | c :: s =>
    if U.digit c then (if first then false else isIdentLoop false s)
    else if c ≠ '_' ∧ U.letter c = false then false
    else isIdentLoop false s

/-- `:630-646`, `isIdentifier`. -/
def isIdentifier (s : List Char) : Bool := if s = ['_'] then false else isIdentLoop U true s

/-- A letter less than `n` places after `a` or `A`. -/
def letterBelow (n : Nat) (c : Char) : Bool :=
  (decide ('a' ≤ c) && decide (c.toNat < 'a'.toNat + n)) || (decide ('A' ≤ c) && decide (c.toNat < 'A'.toNat + n))

/-- `:662-678`, `isNumeral`; nothing stands for the end of the input. The letters go up to `'a' + (base - 10)` inclusive. -/
def isNumeral : Option Char → Bool
  | none => false
  | some c =>
    if isDigit c then true else if C.base < 10 then false else letterBelow (C.base - 10 + 1) c

/-- `:682-706`, `isAllDigits`, the loop. The letters go up to `'a' + (base - 10) - 1` inclusive. -/
def isAllDigits (base : Nat) : Bool → List Char → Bool
  | _, [] => true
  | sawJ, c :: s =>
    if c = 'j' ∧ sawJ = false then isAllDigits base true s
    else if isDigit c then isAllDigits base sawJ s
    else if letterBelow (base - 10) c then isAllDigits base sawJ s
    else false

/-- `:569-588`, `digitsForBase`. -/
def digitOf (base : Nat) (c : Char) : Bool :=
  let base := if base = 0 then 10 else base
  c == '_' || isDigit c || (decide (10 < base) && letterBelow (base - 10) c)

/-- `:762-764`, `defined`. -/
def defined (w : List Char) : Bool := C.predefined w || C.userBinary w

/-- `strings.Trim(word, "@")` (`:390`). -/
def trimAt (w : List Char) : List Char := ((w.dropWhile (· == '@')).reverse.dropWhile (· == '@')).reverse

/-- `:414-427`, `atTerminator`. -/
def atTerminator (inp : List Char) (pos : Nat) : Bool :=
  match peek inp pos with
  | none => true
  | some r =>
    isSpace r || isEndOfLine r || U.punct r || U.symbol r || (r == 'o' && peek inp (pos + 1) == some '.')

/-- `:727-759`, `isOperatorToken`, called after `r` was read: the new position, or nothing if it is no operator. -/
def isOperatorToken (r : Char) (inp : List Char) (pos : Nat) : Option Nat :=
  if ['?', '+', '-', '/', '&', '|', '^'].contains r then some pos
  else if r = ',' then some (if peek inp pos = some '%' then pos + 1 else pos)
  else if r = '!' ∨ r = '=' then
    some (if peek inp pos = some '=' then (if peek inp (pos + 1) = some '=' then pos + 2 else pos + 1) else pos)
  else if r = '>' then some (if peek inp pos = some '>' ∨ peek inp pos = some '=' then pos + 1 else pos)
  else if r = '<' then some (if peek inp pos = some '<' ∨ peek inp pos = some '=' then pos + 1 else pos)
  else if r = '*' then some (if peek inp pos = some '*' then pos + 1 else pos)
  else none

/-- `:710-725`, `isOperator`: at the start of the token, the signs `@` before and after an operator. -/
def isOperator (inp : List Char) : Option Nat :=
  let n := acceptRun (· == '@') inp 0
  match peek inp n with
  | none => none
  | some r => (isOperatorToken r inp (n + 1)).map (acceptRun (· == '@') inp)

/-- `:405-409`: the end of `lexOperator`. -/
def emitOperator (inp : List Char) (pos : Nat) : Res :=
  if isIdentifier U (inp.take pos) then .tok .identifier pos else .tok .operator pos

/-- `:377-401`: what follows the period of an inner or outer product, at `pos`. -/
def lexProduct (inp : List Char) (pos : Nat) : Res :=
  match peek inp pos with
  | none => emitOperator U inp pos
  | some r =>
    match isOperatorToken r inp (pos + 1) with
    | some p => emitOperator U inp p
    | none =>
      if isAlphaNumeric U r then
        let p := acceptRun (isAlphaNumeric U) inp pos
        if atTerminator U inp p then
          if defined C ((inp.drop pos).take (p - pos)) then emitOperator U inp p else .err "not an operator"
        else .err "bad character"
      else emitOperator U inp (pos + 1)

/-- `:382-410`, `lexOperator`. -/
def lexOperator (inp : List Char) (pos : Nat) : Res :=
  let pos := acceptRun (· == '@') inp pos
  let word := inp.take pos
  let w := trimAt word
  if word = ['o'] ∨ C.binary w = true ∨ C.userBinary w = true then
    if peek inp pos = some '/' ∨ peek inp pos = some '\\' then
      emitOperator U inp (if peek inp (pos + 1) = some '%' then pos + 2 else pos + 1)
    else if peek inp pos = some '.' then
      if (peek inp (pos + 1)).any isDigit then .tok .operator pos else lexProduct U C inp (pos + 1)
    else emitOperator U inp pos
  else emitOperator U inp pos

/-- `:513-556`, `scanNumber`: whether it succeeded, and the position. -/
def scanNumber (slashOK jOK : Bool) (inp : List Char) (pos : Nat) : Bool × Nat :=
  let (digits, pos) :=
    if C.base = 0 then
      let (zero, p) := accept (· == '0') inp pos
      if zero then
        let (x, p1) := accept (fun c => c == 'x' || c == 'X') inp p
        let (o, p2) := accept (fun c => c == 'o' || c == 'O') inp p
        let (b, p3) := accept (fun c => c == 'b' || c == 'B') inp p
        if x then (digitOf 16, p1) else if o then (digitOf 8, p2) else if b then (digitOf 2, p3) else (digitOf 0, p)
      else (digitOf 0, pos)
    else (digitOf C.base, pos)
  let pos := acceptRun digits inp pos
  let pos := match accept (· == '.') inp pos with
    | (true, p) => acceptRun digits inp p
    | (false, p) => p
  let pos := match accept (fun c => "eEpP".toList.contains c) inp pos with
    | (true, p) => acceptRun isDigit inp (accept (fun c => c == '+' || c == '-') inp p).2
    | (false, p) => p
  match peek inp pos with
  | none => (true, pos)
  | some r =>
    if slashOK = true ∧ r = '/' then (true, pos)
    else if jOK = true ∧ r = 'j' then (true, pos)
    else if r ≠ 'o' ∧ isAlphaNumeric U r = true then (false, pos + 1)
    else if r = '.' ∨ atTerminator U inp pos = false then (false, pos + 1)
    else (true, pos)

/-- What `acceptNumber` comes to: a number up to a position; or, if it is none, what the scanner does instead. -/
inductive Num where
  | ok (pos : Nat)
  | not (r : Res)

/-- `:468-511`, `acceptNumber`; it is only called with `realPart` true (`:447`, `:454`). -/
def acceptNumber (inp : List Char) (pos : Nat) : Num :=
  let (sign, pos) := accept (fun c => c == '+' || c == '-') inp pos
  let r := peek inp pos
  if sign = true ∧ (r = some '/' ∨ r = some '\\') then
    .not (.tok .operator (if peek inp (pos + 1) = some '%' then pos + 2 else pos + 1))
  else if sign = true ∧ r ≠ some '.' ∧ isNumeral C r = false then .not (lexOperator U C inp pos)
  else
    match scanNumber U C true true inp pos with
    | (false, _) => .not (.err "bad number syntax")
    | (true, pos) =>
      if peek inp pos ≠ some '/' then .ok pos
      else
        let r := peek inp (pos + 1)
        if r ≠ some '.' ∧ isNumeral C r = false then .ok pos
        else
          match scanNumber U C false true inp (pos + 1) with
          | (false, _) => .not (.err "bad number syntax")
          | (true, pos) => if peek inp pos = some '.' then .not (.err "bad number syntax") else .ok pos

/-- `:446-459`, `lexComplex`. -/
def lexComplex (inp : List Char) (pos : Nat) : Res :=
  match acceptNumber U C inp pos with
  | .not r => r
  | .ok pos =>
    match accept (· == 'j') inp pos with
    | (false, pos) => .tok .number pos
    | (true, pos) =>
      match acceptNumber U C inp pos with
      | .not _ => .err "bad complex number syntax"
      | .ok pos => .tok .number pos

/-- `:331-378`, `lexIdentifier`, at the start of the token. -/
def lexIdentifier (inp : List Char) : Res :=
  let left := acceptRun (· == '@') inp 0
  let pos := acceptRun (isAlphaNumeric U) inp left
  if atTerminator U inp pos = false then .err "bad character"
  else
    let word := (inp.drop left).take (pos - left)
    let stop := acceptRun (· == '@') inp pos
    if word = "op".toList then .tok .op stop
    else if word = "opdelete".toList then .tok .opDelete stop
    else if word = ['o'] ∧ peek inp stop = some '.' then lexOperator U C inp stop
    else if defined C word then lexOperator U C inp stop
    else if word = [] ∨ 0 < left then .err "invalid operator"
    else if isAllDigits C.base false word then lexComplex U C inp 0
    else .tok .identifier (if C.userUnary word then stop else pos)

/-- `:592-607`, `lexQuote`, after the quote. -/
def lexQuote (quote : Char) : List Char → Nat → Res
  | [], _ => .err "unterminated quoted string"
  | [c], n => if c = quote then .tok .string (n + 1) else .err "unterminated quoted string"
  | c :: d :: s, n =>
    if c = '\\' then (if d = '\n' then .err "unterminated quoted string" else lexQuote quote s (n + 2))
    else if c = '\n' then .err "unterminated quoted string"
    else if c = quote then .tok .string (n + 1)
    else lexQuote quote (d :: s) (n + 1)

/-- `:610-620`, `lexRawQuote`, after the quote. -/
def lexRawQuote : List Char → Nat → Res
  | [], _ => .err "unterminated raw quoted string"
  | c :: s, n => if c = '`' then .tok .string (n + 1) else lexRawQuote s (n + 1)

/-- `:239-249`, `lexComment`, and what `lexAny` does after it: the comment is part of the token of the newline. -/
def lexComment (inp : List Char) : Res :=
  let pos := acceptRun (· ≠ '\n') inp 0
  match peek inp pos with
  | none => .eof
  | some _ => .tok .newline (pos + 1)

/-- `:271-285`: a sign. `prev` is what comes before on the line. -/
def lexSign (prev : Option Char) (inp : List Char) : Res :=
  match prev with
  | none => lexComplex U C inp 0
  | some p =>
    if isAlphaNumeric U p = true ∨ p = ')' ∨ p = ']' then lexOperator U C inp 1
    else if peek inp 1 = some '.' ∧ isNumeral C (peek inp 2) = false then lexOperator U C inp 1
    else lexComplex U C inp 0

/-- `:252-321`, `lexAny`, but spaces. -/
def lexAny (prev : Option Char) (inp : List Char) : Res :=
  match inp with
  | [] => .eof
  | r :: rest =>
    if r = '\n' then .tok .newline 1
    else if r = ';' then .tok .semicolon 1
    else if r = '#' then lexComment inp
    else if r = '\'' ∨ r = '"' then lexQuote r rest 1
    else if r = '`' then lexRawQuote rest 1
    else if r = '-' ∨ r = '+' then lexSign U C prev inp
    else if r = '.' ∨ isDigit r = true then lexComplex U C inp 0
    else if r = '=' then
      if peek inp 1 ≠ some '=' then .tok .assign 1
      else lexOperator U C inp (if peek inp 2 = some '=' then 3 else 2)
    else
      match isOperator inp with
      | some pos => lexOperator U C inp pos
      | none =>
        if isAlphaNumeric U r = true ∨ r = '@' then lexIdentifier U C inp
        else if r = '[' then .tok .leftBrack 1
        else if r = ':' then .tok .colon 1
        else if r = ']' then .tok .rightBrack 1
        else if r = '(' then .tok .leftParen 1
        else if r = ')' then .tok .rightParen 1
        else if r.toNat ≤ 127 ∧ U.print r = true then .tok .char 1
        else .err "unrecognized character"

/-- A token: its type and its text. -/
structure Tok where
  ty : Ty
  text : List Char
deriving DecidableEq

/-- What a call of `Next` gives, with the rest of the text and the character before it. -/
inductive Item where
  | tok (t : Tok) (prev : Option Char) (rest : List Char)
  | eof
  | err (msg : String)

/-- The character before the rest of the text; nothing if that is the beginning of a line. -/
def before (c : Option Char) : Option Char := if c = some '\n' then none else c

/-- `:225-236`, `Next`, with `lexSpace` (`:325-332`), which moves the start of the token past the spaces. -/
def next (prev : Option Char) (inp : List Char) : Item :=
  let n := acceptRun isSpace inp 0
  let prev := if n = 0 then prev else peek inp (n - 1)
  let inp := inp.drop n
  match lexAny U C prev inp with
  | .tok t k => .tok ⟨t, inp.take k⟩ (before (peek inp (k - 1))) (inp.drop k)
  | .eof => .eof
  | .err m => .err m

/-- The tokens up to the end of the input or the first error (`false`), for at most `fuel` calls of `Next`. -/
def scan : Nat → Option Char → List Char → Option (List Tok × Bool)
  | 0, _, _ => none
  | fuel + 1, prev, inp =>
    match next U C prev inp with
    | .eof => some ([], true)
    | .err _ => some ([], false)
    | .tok t p rest => (scan fuel p rest).map fun r => (t :: r.1, r.2)

/-- All tokens of a text. -/
def scanText (s : List Char) : Option (List Tok × Bool) :=
  let s := loadText s
  scan U C (s.length + 1) none s

/-- `parse/parse.go:184-206`, `readTokensToNewline` outside of a function: the tokens of one line and the text after it;
nothing after an error. -/
def readLine : Nat → Option Char → List Char → Option (List Tok × List Char)
  | 0, _, _ => none
  | fuel + 1, prev, inp =>
    match next U C prev inp with
    | .eof => some ([], [])
    | .err _ => none
    | .tok t p rest => if t.ty = .newline then some ([], rest) else (readLine fuel p rest).map fun r => (t :: r.1, r.2)

end Verif.Scan
