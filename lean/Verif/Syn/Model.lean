import Verif.Exec.Model

/-!
# Syntax: the parser and the printer

Function by function after `parse/parse.go`, `parse/function.go` and the `ProgString` methods of `value/expr.go`.

Simplifications.  A line is the list of its tokens: `readTokensToNewline` (`parse/parse.go:184-207`) reads the whole
line before anything is parsed, and `next` and `peek` (`parse/parse.go:104-124`) take tokens off that list.  The text of
a number or of a string has already been turned into a value (`value.Parse`, `value.ParseString`), or has been found
to be no number or string (`none`).  A panic with a `value.Error` is `R.err`; messages are shortened.
-/

namespace Verif.Syn
open Verif.Arr (R)
open Verif.Exec (Expr Fn Env Sem)
variable {ν : Type}

/-- `scan/scan.go:33-54`: the types of tokens.  A number (`Number`, `Rational`, `Complex`) and a string carry the value
they stand for, `none` if there is none.  `other` stands for `Char`, `Op` and `OpDelete`, which begin no expression. -/
inductive Tok (ν : Type) where
  | num (v : Option ν)
  | str (cs : Option (List ν))
  | id (x : String)
  | op (x : String)
  | assign
  | lparen
  | rparen
  | lbrack
  | rbrack
  | semi
  | colon
  | other (x : String)
  deriving DecidableEq

/-- `exec/operator.go:22-36`: what the parser asks the context: the names of unary and of binary operators. -/
structure Names where
  unary : String → Bool
  binary : String → Bool

/-- `exec/operator.go:15-20`: `DefinedOp`. -/
def Names.op (Γ : Names) (x : String) : Bool := Γ.unary x || Γ.binary x

/-- `strings.Trim(s, "@")` (`parse/parse.go:338`). -/
def trimAt (s : String) : String :=
  String.ofList ((s.toList.dropWhile (· == '@')).reverse.dropWhile (· == '@')).reverse

/-- The result of a parsing function: what it has read and the tokens that remain. -/
abbrev P (ν α : Type) := R (α × List (Tok ν))

mutual
/-- `parse/parse.go:285-316`: `checkAssign`. -/
def checkAssign : Expr ν → R Unit
  | .var _ _ => .ok ()
  | .index (.index _ _) _ => .err "cannot assign; use"
  | .index _ _ => .ok ()
  | .vec es => checkAssigns es
  | _ => .err "cannot assign to"

/-- `parse/parse.go:312-315`: the elements of a vector, in order. -/
def checkAssigns : List (Expr ν) → R Unit
  | [] => .ok ()
  | e :: es => (checkAssign e).bind fun _ => checkAssigns es
end

/-- `parse/parse.go:494-504`: `evalString`. -/
def evalString (cs : List ν) : Expr ν :=
  match cs with
  | [c] => .lit c
  | cs => .vec (cs.map .lit)

/-- `parse/parse.go:387-407`: the loop of `indexList`; `seen` is `exprSeen`, `ex` is `p.expr`.  Every turn takes at
least one token, so the number of tokens bounds the number of turns. -/
def indexLoop (ex : List (Tok ν) → P ν (Expr ν)) : Nat → Bool → List (Tok ν) → P ν (List (Expr ν))
  | 0, _, _ => .hang
  | _ + 1, seen, .rbrack :: ts => .ok (if seen then [] else [.hole], .rbrack :: ts)
  | n + 1, seen, .semi :: ts =>
    (indexLoop ex n false ts).bind fun p => .ok ((if seen then [] else [.hole]) ++ p.1, p.2)
  | n + 1, _, ts =>
    (ex ts).bind fun p => (indexLoop ex n true p.2).bind fun q => .ok (p.1 :: q.1, q.2)

/-- `parse/parse.go:382-408`: `indexList`. -/
def indexList (ex : List (Tok ν) → P ν (Expr ν)) (ts : List (Tok ν)) : P ν (List (Expr ν)) :=
  indexLoop ex (ts.length + 1) false ts

/-- `parse/parse.go:356-375`: the loop of `index`. -/
def indexOn (ex : List (Tok ν) → P ν (Expr ν)) : Nat → Expr ν → List (Tok ν) → P ν (Expr ν)
  | 0, _, _ => .hang
  | n + 1, e, .lbrack :: ts =>
    (indexList ex ts).bind fun p =>
      match p.2 with
      | .rbrack :: ts' => indexOn ex n (.index e p.1) ts'
      | _ => .err "expected right bracket"
  | _ + 1, e, ts => .ok (e, ts)

/-- `parse/parse.go:356-375`: `index`. -/
def index (ex : List (Tok ν) → P ν (Expr ν)) (e : Expr ν) (ts : List (Tok ν)) : P ν (Expr ν) :=
  indexOn ex (ts.length + 1) e ts

/-- `parse/parse.go:410-442` and `472-479`: `number` of the token `t`, a string being passed to `evalString` as the
callers do.  The callers call it for the five kinds of tokens only. -/
def number (ex : List (Tok ν) → P ν (Expr ν)) (t : Tok ν) (ts : List (Tok ν)) : P ν (Expr ν) :=
  match t with
  | .id x => index ex (.var x 0) ts
  | .str (some cs) => .ok (evalString cs, ts)
  | .str none => .err "invalid string syntax"
  | .num (some v) => .ok (.lit v, ts)
  | .num none => .err "bad number"
  | .lparen =>
    (ex ts).bind fun p =>
      match p.2 with
      | .rparen :: ts' => .ok (p.1, ts')
      | _ => .err "expected right paren"
  | _ => .crash

/-- `parse/parse.go:468-492`: does another element of the vector follow?  A name of an operator ends the vector. -/
def continues (Γ : Names) : List (Tok ν) → Bool
  | .lparen :: _ => true
  | .id x :: _ => !Γ.op x
  | .num _ :: _ => true
  | .str _ :: _ => true
  | _ => false

/-- `parse/parse.go:467-493`: the loop of `numberOrVector`. -/
def elements (Γ : Names) (ex : List (Tok ν) → P ν (Expr ν)) : Nat → List (Tok ν) → P ν (List (Expr ν))
  | 0, _ => .hang
  | n + 1, ts =>
    if continues Γ ts then
      match ts with
      | [] => .crash
      | t :: ts =>
        (number ex t ts).bind fun p => (elements Γ ex n p.2).bind fun q => .ok (p.1 :: q.1, q.2)
    else .ok ([], ts)

/-- `parse/parse.go:444-498`: `numberOrVector`.  The variable `done` only spares a turn of the loop that would end it at
once. -/
def numberOrVector (Γ : Names) (ex : List (Tok ν) → P ν (Expr ν)) (t : Tok ν) (ts : List (Tok ν)) : P ν (Expr ν) :=
  (number ex t ts).bind fun p =>
  (elements Γ ex (p.2.length + 1) p.2).bind fun q =>
    .ok (match q.1 with | [] => p.1 | es => .vec (p.1 :: es), q.2)

/-- `parse/parse.go:318-351`: `operand`.  Its argument `indexOK` is true in the only call (line 246). -/
def operand (Γ : Names) (ex : List (Tok ν) → P ν (Expr ν)) (t : Tok ν) (ts : List (Tok ν)) : P ν (Expr ν) :=
  let un (x : String) : P ν (Expr ν) := (ex ts).bind fun p => index ex (.unary x p.1) p.2
  let vec : P ν (Expr ν) := (numberOrVector Γ ex t ts).bind fun p => index ex p.1 p.2
  match t with
  | .op x => un x
  | .id x => if Γ.unary (trimAt x) then un x else vec
  | .num _ => vec
  | .str _ => vec
  | .lparen => vec
  | _ => .err "unexpected token"

/-- `parse/parse.go:247-281`: what follows the operand `e`. -/
def after (Γ : Names) (ex : List (Tok ν) → P ν (Expr ν)) (e : Expr ν) (ts : List (Tok ν)) : P ν (Expr ν) :=
  let bin (x : String) (ts : List (Tok ν)) : P ν (Expr ν) := (ex ts).bind fun p => .ok (.binary x e p.1, p.2)
  match ts with
  | [] => .ok (e, ts)
  | .rparen :: _ => .ok (e, ts)
  | .rbrack :: _ => .ok (e, ts)
  | .semi :: _ => .ok (e, ts)
  | .colon :: _ => .ok (e, ts)
  | .id x :: ts' => if Γ.binary x then bin x ts' else .err "after expression: unexpected token"
  | .assign :: ts' => (checkAssign e).bind fun _ => bin "=" ts'
  | .op x :: ts' => bin x ts'
  | _ => .err "after expression: unexpected token"

/-- `parse/parse.go:240-283`: `expr`.  The first argument bounds the nesting; `parseExpr_fine` shows that it never
runs out when it exceeds the number of tokens. -/
def expr (Γ : Names) : Nat → List (Tok ν) → P ν (Expr ν)
  | 0, _ => .hang
  | _ + 1, [] => .err "unexpected EOF"
  | n + 1, t :: ts => (operand Γ (expr Γ n) t ts).bind fun p => after Γ (expr Γ n) p.1 p.2

/-- `p.expr()` on the rest of a line. -/
def parseExpr (Γ : Names) (ts : List (Tok ν)) : P ν (Expr ν) := expr Γ (ts.length + 1) ts

/-- `parse/parse.go:210-217`: one statement: an expression or a conditional. -/
def statement (Γ : Names) (ts : List (Tok ν)) : P ν (Expr ν) :=
  (parseExpr Γ ts).bind fun p =>
    match p.2 with
    | .colon :: ts' => (parseExpr Γ ts').bind fun q => .ok (.cond p.1 q.1, q.2)
    | ts' => .ok (p.1, ts')

/-- `parse/parse.go:205-238`: `statementList`; the first argument bounds the number of statements. -/
def statementList (Γ : Names) : Nat → List (Tok ν) → P ν (List (Expr ν))
  | 0, _ => .hang
  | n + 1, ts =>
    (statement Γ ts).bind fun p =>
      match p.2 with
      | .semi :: ts' => (statementList Γ n ts').bind fun q => .ok (p.1 :: q.1, q.2)
      | ts' => .ok ([p.1], ts')

/-- `parse/parse.go:186-203`: `expressionList`, a line that is neither empty nor a definition nor a command. -/
def parseLine (Γ : Names) (ts : List (Tok ν)) : R (List (Expr ν)) :=
  (statementList Γ (ts.length + 1) ts).bind fun p =>
    match p.2 with
    | [] => .ok p.1
    | _ => .err "unexpected token"

/-! ## Operator definitions -/

mutual
/-- `parse/function.go:165-182`: `funcArg`; the first argument bounds the nesting. -/
def funcArg : Nat → List (Tok ν) → P ν (Expr ν)
  | 0, _ => .hang
  | _ + 1, .id x :: ts => .ok (.var x 0, ts)
  | n + 1, .lparen :: ts => (funcArgs n ts).bind fun p => .ok (.vec p.1, p.2)
  | _ + 1, _ => .err "invalid function argument syntax"

/-- `parse/function.go:176-180`: the loop of `funcArg`, with the closing parenthesis. -/
def funcArgs : Nat → List (Tok ν) → P ν (List (Expr ν))
  | 0, _ => .hang
  | _ + 1, .rparen :: ts => .ok ([], ts)
  | n + 1, ts => (funcArg n ts).bind fun p => (funcArgs n p.2).bind fun q => .ok (p.1 :: q.1, q.2)
end

/-- `funcArg` on the rest of a line. -/
def parseArg (ts : List (Tok ν)) : P ν (Expr ν) := funcArg (2 * ts.length + 2) ts

/-- `parse/function.go:36-55, 82-98`: the header of a definition, after the word `op` or `opdelete`: the name, whether
it is binary and the parameters. -/
def header (ts : List (Tok ν)) : P ν (Fn ν) :=
  let named (a : Expr ν) (f : String → Fn ν) (ts : List (Tok ν)) : P ν (Fn ν) :=
    match a with
    | .var x _ => .ok (f x, ts)
    | _ => .err "invalid function name"
  let three (a b : Expr ν) (ts : List (Tok ν)) : P ν (Fn ν) :=
    (parseArg ts).bind fun r => named b (fun x => ⟨true, x, some a, r.1, none, []⟩) r.2
  (parseArg ts).bind fun p => (parseArg p.2).bind fun q =>
    match q.2 with
    | .id _ :: _ => three p.1 q.1 q.2
    | .lparen :: _ => three p.1 q.1 q.2
    | _ => named p.1 (fun x => ⟨false, x, none, q.1, none, []⟩) q.2

/-- `parse/function.go:119-134`: the lines of a definition in several lines, each an `expressionList`. -/
def bodyLines (Γ : Names) : List (List (Tok ν)) → R (List (Expr ν))
  | [] => .ok []
  | l :: ls => (parseLine Γ l).bind fun es => (bodyLines Γ ls).bind fun fs => .ok (es ++ fs)

/-- `parse/function.go:110-148`: the rest of a definition: `ts` follows the header, `more` are the following lines up to
the blank one that ends the definition. -/
def bodyOf (Γ : Names) (ts : List (Tok ν)) (more : List (List (Tok ν))) : R (Option (List (Expr ν))) :=
  let nonempty (r : R (List (Expr ν))) : R (Option (List (Expr ν))) :=
    r.bind fun es => if es.isEmpty then .err "missing function body" else .ok (some es)
  match ts with
  | [] => .ok none
  | [.assign] => nonempty (bodyLines Γ more)
  | .assign :: ts => nonempty (parseLine Γ ts)
  | _ => .err "expected newline after function declaration"

/-- `exec/operator.go:22-36`: the names of operators in the context `g`, given the names of the built-in ones; a declared
parameter is a variable (`exec/context.go:321-328`). -/
def namesOf (builtin : Names) (g : Env ν) : Names where
  unary x := if x ∈ g.declared then false else (g.unaryFn x).isSome || builtin.unary x
  binary x := if x ∈ g.declared then false else (g.binaryFn x).isSome || builtin.binary x

/-- `parse/function.go:27-160`: `functionDefn` for the word `op`; `ts` follows that word and `more` are the lines that
follow, up to a blank one. -/
def define (builtin : Names) (S : Sem ν) (g : Env ν) (ts : List (Tok ν)) (more : List (List (Tok ν))) : R Unit × Env ν :=
  match header ts with
  | .ok (f, rest) => Exec.definition S g f fun g' => bodyOf (namesOf builtin g') rest more
  | .err m => (.err m, g)
  | .crash => (.crash, g)
  | .hang => (.hang, g)

/-! ## Printing -/

/-- How values are printed: which are characters, and the tokens a value is printed as (`ProgString` of the types of
values); and whether an operator is printed as a word, which the scanner makes an `Identifier`, or as a symbol. -/
structure Print (ν : Type) where
  isChar : ν → Bool
  value : ν → R (List (Tok ν))
  word : String → Bool

/-- The token of an operator (`scan/scan.go:406-409`). -/
def Print.opTok (W : Print ν) (x : String) : Tok ν := if W.word x then .id x else .op x

/-- `value/expr.go:214-231`: `IsCompound`. -/
def isCompound : Expr ν → Bool
  | .lit _ => false
  | .var _ _ => false
  | .index l _ => isCompound l
  | _ => true

/-- `value/expr.go:137-144`: `allChars`, with the characters. -/
def allChars (W : Print ν) : List (Expr ν) → Option (List ν)
  | [] => some []
  | .lit v :: es => if W.isChar v then (allChars W es).map (v :: ·) else none
  | _ :: _ => none

/-- Parentheses, if asked for (`value/expr.go:44-48, 126-130, 154-160`). -/
def paren (b : Bool) (ts : List (Tok ν)) : List (Tok ν) :=
  if b then .lparen :: ts ++ [.rparen] else ts

mutual
/-- `value/expr.go:28-30, 42-50, 67, 100-135, 152-176, 209-211`: `ProgString`, as tokens. -/
def print (W : Print ν) : Expr ν → R (List (Tok ν))
  | .lit v => W.value v
  | .var x _ => .ok [.id x]
  | .unary x r => (print W r).bind fun t => .ok (W.opTok x :: t)
  | .binary x l r =>
    (print W l).bind fun s => (print W r).bind fun t =>
      .ok (paren (isCompound l) s ++ (if x = "=" then Tok.assign else W.opTok x) :: t)
  | .cond l r =>
    (print W l).bind fun s => (print W r).bind fun t => .ok (paren (isCompound l) s ++ .colon :: t)
  | .vec es =>
    match allChars W es with
    | some cs => .ok [.str (some cs)]
    | none => printAll W es
  | .index l is =>
    (print W l).bind fun s => (printIndex W is).bind fun t =>
      .ok (paren (isCompound l) s ++ .lbrack :: t ++ [.rbrack])
  | .hole => .ok []

/-- `value/expr.go:122-132`: the elements of a vector. -/
def printAll (W : Print ν) : List (Expr ν) → R (List (Tok ν))
  | [] => .ok []
  | e :: es => (print W e).bind fun s => (printAll W es).bind fun t => .ok (paren (isCompound e) s ++ t)

/-- `value/expr.go:161-170`: the indexes, separated by semicolons. -/
def printIndex (W : Print ν) : List (Expr ν) → R (List (Tok ν))
  | [] => .ok []
  | [e] => print W e
  | e :: es => (print W e).bind fun s => (printIndex W es).bind fun t => .ok (s ++ .semi :: t)
end

mutual
/-- `exec/function.go:28-46`: `argProgString`; anything but names and lists of them would be printed as an error text. -/
def printArg : Expr ν → R (List (Tok ν))
  | .var x _ => .ok [.id x]
  | .vec es => (printArgs es).bind fun t => .ok (.lparen :: t ++ [.rparen])
  | _ => .ok [.other "unknown type in op print"]

/-- `exec/function.go:35-40`: the elements. -/
def printArgs : List (Expr ν) → R (List (Tok ν))
  | [] => .ok []
  | e :: es => (printArg e).bind fun s => (printArgs es).bind fun t => .ok (s ++ t)
end

/-- The lines of the body, each on its own (`exec/function.go:62-65`). -/
def printLines (W : Print ν) : List (Expr ν) → R (List (List (Tok ν)))
  | [] => .ok []
  | e :: es => (print W e).bind fun s => (printLines W es).bind fun t => .ok (s :: t)

/-- `exec/function.go:51-54`: the left argument, if there is one. -/
def printLeft : Option (Expr ν) → R (List (Tok ν))
  | some l => printArg l
  | none => .ok []

/-- `exec/function.go:58-66`: the body after the header; one statement is printed on the line of the header, several on
lines of their own.  For a function without body (nil) nothing follows the `=`. -/
def printBody (W : Print ν) (head : List (Tok ν)) : Option (List (Expr ν)) → R (List (Tok ν) × List (List (Tok ν)))
  | some [e] => (print W e).bind fun t => .ok (head ++ t, [])
  | some es => (printLines W es).bind fun ls => .ok (head, ls)
  | none => .ok (head, [])

/-- `exec/function.go:48-68`: `(*Function).String`, as the tokens that follow the word `op` and the further lines. -/
def printFn (W : Print ν) (f : Fn ν) : R (List (Tok ν) × List (List (Tok ν))) :=
  (printLeft f.left).bind fun l => (printArg f.right).bind fun r =>
  printBody W (l ++ Tok.id f.name :: r ++ [Tok.assign]) f.body

end Verif.Syn
