import Verif.Arr.Basic

/-!
# Sessions: special commands and `)get`

Function by function after `parse/special.go` and, as far as they run lines, `parse/parse.go` and `run/run.go`.

Simplifications.  A line is the list of its tokens.  What a line of expressions does is an arbitrary program (`Act`) that
looks at the configuration and may, by the operator `ivy` (`run/run.go:28-37`), run further lines.  What is printed is left
out, but for error messages of `)get`.  Writing the workspace, the demo, and the display of variables and operators are
parameters (`World`), of which only the outcome matters.  A panic with a `value.Error` is `R.err`, any other panic `R.crash`.
The variable `runDepth` is taken to be used by one goroutine only.
-/

namespace Verif.Sess
open Verif.Arr (R)

/-- The tokens special commands look at (`scan/scan.go:33-54`).  A string carries its value, `none` if
`value.ParseString` fails. -/
inductive Tok where
  | num (text : List Char)
  | id (x : String)
  | str (v : Option String)
  | opWord
  | operator (x : String)
  | rparen
  | other
  deriving DecidableEq

/-- `config/config.go:33-62`: the settings of `Config` that special commands change. -/
structure Conf where
  ibase : Nat
  obase : Nat
  maxBits : Nat
  maxDigits : Nat
  maxStack : Nat
  origin : Nat
  prec : Nat
  seed : Nat
  format : String
  prompt : String
  zone : String
  debug : String → Option Nat

mutual
/-- A line of input (`parse/parse.go:151-178`): a special command, expressions, or a line that ends in the scanner or in
a definition, with or without an error. -/
inductive Line where
  | special (ts : List Tok)
  | exprs (a : Act)
  | other (r : Option String)

/-- What the evaluation of expressions does: it may look at the configuration, run a line by the operator `ivy`, and ends
with a value, an error, or a crash. -/
inductive Act where
  | done
  | fail (m : String)
  | crash
  | look (k : Conf → Act)
  | ivy (l : Line) (k : Act)
end

/-- The state of a session.  `runDepth` is `parse/special.go:381`.  The last three are not in the code: how many files are
being read now, the largest number there has been, and how often reading was refused because of `runDepth`. -/
structure St where
  conf : Conf
  files : String → Option (List Line)
  log : List String
  runDepth : Nat
  nest : Nat
  peak : Nat
  refused : Nat

/-- What is left open: the text `)save` writes, or its failure; and the outcomes of `)demo`, `)var x`, `)op x` and
`)timezone`. -/
structure World where
  save : St → R (List Line)
  demo : R Unit
  var : String → R Unit
  op : String → R Unit
  zone : String → Bool

/-- `config/config.go:393-397`: `SetBase`. -/
def St.setBase (s : St) (i o : Nat) : St := { s with conf := { s.conf with ibase := i, obase := o } }

/-- The value of a digit in bases up to 36 (`strconv.ParseInt`). -/
def digitVal (c : Char) : Option Nat :=
  if '0' ≤ c ∧ c ≤ '9' then some (c.toNat - '0'.toNat)
  else if 'a' ≤ c ∧ c ≤ 'z' then some (c.toNat - 'a'.toNat + 10)
  else if 'A' ≤ c ∧ c ≤ 'Z' then some (c.toNat - 'A'.toNat + 10)
  else none

/-- One more digit of a number in base `b`. -/
def addDigit (b : Nat) (acc : Option Nat) (c : Char) : Option Nat :=
  match acc, digitVal c with
  | some n, some d => if d < b then some (b * n + d) else none
  | _, _ => none

/-- Digits in base `b`, at least one. -/
def parseDigits (b : Nat) (cs : List Char) : Option Nat :=
  if cs.isEmpty then none else cs.foldl (addDigit b) (some 0)

/-- `value/value.go:90-131` for whole numbers without sign, exponent or underscore; base 0 means that the prefix tells the
base (`strconv.ParseInt`).  Anything else is refused here, while the code accepts, for instance, `1e3`. -/
def parseNat (base : Nat) (cs : List Char) : Option Nat :=
  if base = 0 then
    match cs with
    | '0' :: 'x' :: ds => parseDigits 16 ds
    | '0' :: 'b' :: ds => parseDigits 2 ds
    | '0' :: 'o' :: ds => parseDigits 8 ds
    | '0' :: d :: ds => parseDigits 8 (d :: ds)
    | ds => parseDigits 10 ds
  else parseDigits base cs

/-- The result of reading an argument: what was read, the tokens that remain, and the state. -/
abbrev M (α : Type) := R (α × List Tok) × St

/-- `parse/special.go:58-81`: `nextDecimalNumber64`; the deferred call restores the bases whatever happens. -/
def number64 (ts : List Tok) (s : St) : M Nat :=
  let i := s.conf.ibase
  let o := s.conf.obase
  let s1 := s.setBase 10 o
  let r : R (Nat × List Tok) :=
    match ts with
    | .num cs :: ts' =>
      match parseNat s1.conf.ibase cs with
      | some n => if n < 2 ^ 63 then .ok (n, ts') else .err "value out of range"
      | none => .err "bad number"
    | _ => .err "expected Number"
  (r, s1.setBase i o)

/-- `parse/special.go:48-54`: `nextDecimalNumber`. -/
def number (ts : List Tok) (s : St) : M Nat :=
  match number64 ts s with
  | (.ok (n, ts'), s1) => (if n < 2 ^ 31 then .ok (n, ts') else .err "value too large", s1)
  | r => r

/-- `parse/special.go:377-379`: `getString`. -/
def getString (ts : List Tok) (s : St) : M String :=
  match ts with
  | .str (some x) :: ts' => (.ok (x, ts'), s)
  | .str none :: _ => (.err "bad string syntax", s)
  | _ => (.err "expected String", s)

/-- Go on with what was read. -/
def M.then {α β : Type} (m : M α) (k : α → List Tok → St → M β) : M β :=
  match m with
  | (.ok (a, ts), s) => k a ts s
  | (.err e, s) => (.err e, s)
  | (.crash, s) => (.crash, s)
  | (.hang, s) => (.hang, s)

/-- The commands that show a setting, or set it to a number (`parse/special.go:230-250, 292-312`). -/
def setting (ts : List Tok) (s : St) (ok : Nat → Bool) (set : Conf → Nat → Conf) : M Unit :=
  match ts with
  | [] => (.ok ((), []), s)
  | ts => (number ts s).then fun n ts' s1 =>
    if ok n then (.ok ((), ts'), { s1 with conf := set s1.conf n }) else (.err "illegal value", s1)

/-- The commands that show a setting, or set it to a string (`parse/special.go:218-223, 313-318`). -/
def settingStr (ts : List Tok) (s : St) (set : Conf → String → Conf) : M Unit :=
  match ts with
  | [] => (.ok ((), []), s)
  | ts => (getString ts s).then fun x ts' s1 => (.ok ((), ts'), { s1 with conf := set s1.conf x })

/-- `parse/special.go:180-204`: `)debug`. -/
def debugCmd (ts : List Tok) (s : St) : M Unit :=
  match ts with
  | [] => (.ok ((), []), s)
  | .id x :: ts' =>
    match s.conf.debug x with
    | none => (.ok ((), ts'), s)
    | some v =>
      match ts' with
      | [] =>
        (.ok ((), []), { s with conf := { s.conf with debug := fun y => if y = x then some (if v = 0 then 1 else 0)
                                                                       else s.conf.debug y } })
      | ts' => (number ts' s).then fun n ts'' s1 =>
        (.ok ((), ts''), { s1 with conf := { s1.conf with debug := fun y => if y = x then some n
                                                                           else s1.conf.debug y } })
  | _ => (.err "expected Identifier", s)

/-- The outcome of something that is left open. -/
def outcome (r : R Unit) (ts : List Tok) (s : St) : M Unit :=
  match r with
  | .ok _ => (.ok ((), ts), s)
  | .err m => (.err m, s)
  | .crash => (.crash, s)
  | .hang => (.hang, s)

/-- `parse/save.go:57-132`: `save`, as far as bases and files are concerned: the base is set to 10 while the text is
written, and set back only if that succeeds. -/
def save (w : World) (name : String) (ts : List Tok) (s : St) : M Unit :=
  match w.save s with
  | .ok ls =>
    (.ok ((), ts), ({ s.setBase 10 10 with files := fun y => if y = name then some ls else s.files y }).setBase
      s.conf.ibase s.conf.obase)
  | .err m => (.err m, s.setBase 10 10)
  | .crash => (.crash, s.setBase 10 10)
  | .hang => (.hang, s.setBase 10 10)

/-- `parse/special.go:251-291`: `)op` and `)ops`, with the printing of an operator left open. -/
def opCmd (w : World) (ts : List Tok) (s : St) : M Unit :=
  match ts with
  | [] => (.ok ((), []), s)
  | .id x :: ts' => outcome (w.op x) ts' s
  | .operator x :: ts' => outcome (w.op x) ts' s
  | _ => (.err "expected Operator or Identifier", s)

/-- `parse/special.go:343-364`: `)var` and `)vars`, with the printing of a variable left open. -/
def varCmd (w : World) (ts : List Tok) (s : St) : M Unit :=
  match ts with
  | [] => (.ok ((), []), s)
  | .id x :: ts' => outcome (w.var x) ts' s
  | _ => (.err "expected Identifier", s)

/-- `parse/special.go:107-366`: the commands that do not set a base; `ib` and `ob` are the variables `ibase` and `obase`.
The tokens follow the name of the command; `get` runs a file. -/
def command (w : World) (get : String → St → R Unit × St) (text : String) (ib ob : Nat) (ts : List Tok) (s : St) :
    M Unit :=
  match text with
  | "help" =>
    match ts with
    | [] => (.ok ((), []), s)
    | .id "about" :: ts' => (.ok ((), ts'.drop 2), s)
    | _ :: ts' => (.ok ((), ts'), s)
  | "cpu" => (.ok ((), ts), s)
  | "debug" => debugCmd ts s
  | "demo" => if ts.isEmpty then outcome w.demo ts s else (.err "expected EOF", s)
  | "format" => settingStr ts s fun c x => { c with format := x }
  | "get" =>
    match ts with
    | [] => let p := get "save.ivy" s; outcome p.1 [] p.2
    | ts => (getString ts s).then fun x ts' s1 => let p := get x s1; outcome p.1 ts' p.2
  | "maxbits" => setting ts s (fun _ => true) fun c n => { c with maxBits := n }
  | "maxdigits" => setting ts s (fun _ => true) fun c n => { c with maxDigits := n }
  | "maxstack" => setting ts s (fun _ => true) fun c n => { c with maxStack := n }
  | "op" => opCmd w ts s
  | "ops" => opCmd w ts s
  | "origin" => setting ts s (fun _ => true) fun c n => { c with origin := n }
  | "prec" => setting ts s (fun n => n != 0 && decide (n ≤ 1000000)) fun c n => { c with prec := n }
  | "prompt" => settingStr ts s fun c x => { c with prompt := x }
  | "save" =>
    let s1 := s.setBase ib ob
    match ts with
    | [] => save w "save.ivy" [] s1
    | ts => (getString ts s1).then fun x ts' s2 => save w x ts' s2
  | "seed" =>
    match ts with
    | [] => (.ok ((), []), s)
    | ts => (number64 ts s).then fun n ts' s1 => (.ok ((), ts'), { s1 with conf := { s1.conf with seed := n } })
  | "timezone" =>
    match ts with
    | [] => (.ok ((), []), s)
    | ts => (getString ts s).then fun x ts' s1 =>
      if w.zone x then (.ok ((), ts'), { s1 with conf := { s1.conf with zone := x } })
      else (.err "no such location", s1)
  | "var" => varCmd w ts s
  | "vars" => varCmd w ts s
  | _ => (.err "not recognized", s)

/-- `parse/special.go:160-177`: `)base`, `)ibase` and `)obase`, with the new values of the variables `ibase` and `obase`. -/
def baseCmd (text : String) (ib ob : Nat) (ts : List Tok) (s : St) : M (Nat × Nat) :=
  match ts with
  | [] => (.ok ((ib, ob), []), s)
  | ts => (number ts s).then fun b ts' s1 =>
    if b ≠ 0 ∧ (b < 2 ∨ 16 < b) then (.err "illegal base", s1)
    else
      match text with
      | "base" => (.ok ((b, b), ts'), s1)
      | "ibase" => (.ok ((b, ob), ts'), s1)
      | _ => (.ok ((ib, b), ts'), s1)

/-- The text of the token that names the command (`parse/special.go:106`). -/
def name : Tok → Option String
  | .id x => some x
  | .num cs => some (String.ofList cs)
  | .opWord => some "op"
  | _ => none

/-- `parse/special.go:99-101, 372-373`: the end of `special`.  The bases become what the variables `ibase` and `obase`
are, by the deferred function too. -/
def finish (ib ob : Nat) (m : M (Nat × Nat)) : R Unit × St :=
  match m with
  | (.ok ((i, o), rest), s) => (if rest.isEmpty then .ok () else .err "expected EOF", (s.setBase i o).setBase i o)
  | (.err e, s) => (.err e, s.setBase ib ob)
  | (.crash, s) => (.crash, s.setBase ib ob)
  | (.hang, s) => (.hang, s.setBase ib ob)

/-- `parse/special.go:92-374`: `special`; the first token, a right parenthesis, has been taken.  The deferred function
sets the bases to the variables `ibase` and `obase`, which only `baseCmd` changes. -/
def special (w : World) (get : String → St → R Unit × St) (ts : List Tok) (s : St) : R Unit × St :=
  let ib := s.conf.ibase
  let ob := s.conf.obase
  let s1 := s.setBase 0 0
  match ts with
  | [] => finish ib ob (.err "expected Identifier or Number or Op", s1)
  | t :: ts' =>
    match name t with
    | none => finish ib ob (.err "expected Identifier or Number or Op", s1)
    | some text =>
      if text = "base" ∨ text = "ibase" ∨ text = "obase" then finish ib ob (baseCmd text ib ob ts' s1)
      else finish ib ob ((command w get text ib ob ts' s1).then fun _ rest s2 => (.ok ((ib, ob), rest), s2))

mutual
/-- `parse/parse.go:151-178` and the evaluation of the expressions: one line. -/
def runLine (w : World) (get : String → St → R Unit × St) : Line → St → R Unit × St
  | .special ts, s => special w get ts s
  | .exprs a, s => runAct w get a s
  | .other none, s => (.ok (), s)
  | .other (some m), s => (.err m, s)

/-- Evaluation; an error in a line run by `ivy` ends it (`run/run.go:104-108`). -/
def runAct (w : World) (get : String → St → R Unit × St) : Act → St → R Unit × St
  | .done, s => (.ok (), s)
  | .fail m, s => (.err m, s)
  | .crash, s => (.crash, s)
  | .look k, s => runAct w get (k s.conf) s
  | .ivy l k, s =>
    match runLine w get l s with
    | (.ok _, s1) => runAct w get k s1
    | r => r
end

/-- The lines of a file, up to an error (`parse/special.go:436-454`). -/
def runLines (w : World) (get : String → St → R Unit × St) : List Line → St → R Unit × St
  | [], s => (.ok (), s)
  | l :: ls, s =>
    match runLine w get l s with
    | (.ok _, s1) => runLines w get ls s1
    | r => r

/-- The deferred functions of `runFromReader` and `runUntilError` (`parse/special.go:398-409, 424-435`): `runDepth` is
decreased, and an Ivy error is printed and forgotten. -/
def recovered (p : R Unit × St) : R Unit × St :=
  let s := { p.2 with runDepth := p.2.runDepth - 1 }
  match p.1 with
  | .err m => (.ok (), { s with log := m :: s.log })
  | r => (r, s)

/-- `parse/special.go:419-455`: `runUntilError`; the error when too deep comes before the deferred function is set. -/
def runUntilError (w : World) (get : String → St → R Unit × St) (ls : List Line) (s : St) : R Unit × St :=
  let s1 := { s with runDepth := s.runDepth + 1 }
  if s1.runDepth > 10 then (.err "get nested too deep", { s1 with refused := s1.refused + 1 })
  else
    let s2 := { s1 with nest := s1.nest + 1, peak := max s1.peak (s1.nest + 1) }
    let p := runLines w get ls s2
    recovered (p.1, { p.2 with nest := p.2.nest - 1 })

/-- `parse/special.go:393-417`: `runFromReader`; after an error nothing more is read, as `stopOnError` is true. -/
def runFromReader (w : World) (get : String → St → R Unit × St) (ls : List Line) (s : St) : R Unit × St :=
  let s1 := { s with runDepth := s.runDepth + 1 }
  if s1.runDepth > 10 then (.err "invocations nested too deep", { s1 with refused := s1.refused + 1 })
  else recovered (runUntilError w get ls s1)

/-- `parse/special.go:384-390`: `runFromFile`.  The first argument bounds the nesting of files; `C44_bounded` shows that
it never runs out when it is at least 6. -/
def get (w : World) : Nat → String → St → R Unit × St
  | 0, _, s => (.hang, s)
  | n + 1, x, s =>
    match s.files x with
    | none => (.err "no such file", s)
    | some ls => runFromReader w (get w n) ls s

/-- `run/run.go:49-102`: one line of the session, with its error reported. -/
def step (w : World) (n : Nat) (l : Line) (s : St) : R Unit × St :=
  match runLine w (get w n) l s with
  | (.err m, s1) => (.ok (), { s1 with log := m :: s1.log })
  | r => r

/-- `run/run.go:73-101`: the lines of a session, up to a crash. -/
def session (w : World) (n : Nat) : List Line → St → R Unit × St
  | [], s => (.ok (), s)
  | l :: ls, s =>
    match step w n l s with
    | (.ok _, s1) => session w n ls s1
    | r => r

end Verif.Sess
