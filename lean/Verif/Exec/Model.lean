import Verif.Arr.Basic

/-!
# Execution: expressions, the call stack, user-defined operators

Model of `exec/context.go`, `exec/function.go`, `value/expr.go`, `value/assign.go`, the function-body loop of
`value/eval.go` and the resolution of local variables in `parse/function.go`.

Values are of an arbitrary type `ν`; what the evaluator asks of a value is collected in `Sem`.  Built-in operators are
arbitrary programs (`Act`) which may call back into the evaluator - that is how reductions, scans, products, `each` and
the `ivy` operator reach user-defined operators - and read or change the global state.  Go's panics are results here;
what a deferred call does on the way out is written where the call is made.
-/

namespace Verif.Exec
open Verif.Arr (R)
variable {ν : Type}

/-- Parsed expressions (`value/expr.go:23-26, 36-40, 62-65, 81, 146-150, 180-183`).  `lit` is a constant, `hole` the
missing index of `x[;1]` (a nil entry of `IndexExpr.Right`).  A `var` carries the index of a local variable in its
frame, or 0 for a global one. -/
inductive Expr (ν : Type) where
  | lit (v : ν)
  | var (name : String) (loc : Nat)
  | unary (op : String) (r : Expr ν)
  | binary (op : String) (l r : Expr ν)
  | cond (l r : Expr ν)
  | vec (l : List (Expr ν))
  | index (l : Expr ν) (r : List (Expr ν))
  | hole

/-- `exec/function.go:15-23`: `Function`.  `left` is absent from a unary operator, `body` from an operator that has
only been declared. -/
structure Fn (ν : Type) where
  isBinary : Bool
  name : String
  left : Option (Expr ν)
  right : Expr ν
  body : Option (List (Expr ν))
  locals : List String

/-- `exec/context.go:20-40`: the parts of `Context` that are not the call stack. -/
structure Env (ν : Type) where
  globals : String → Option ν
  unaryFn : String → Option (Fn ν)
  binaryFn : String → Option (Fn ν)
  defs : List (String × Bool)
  declared : List String

/-- `exec/context.go:20-40`: `Context`.  `slot` is the array behind the slice `c.stack`, of which the first `len` are in
use; a slot that has never been written, one holding a nil `*Var` and one holding a `Var` without value are all `none`
(`Local`, `exec/context.go:81-88`, turns the second into the third).  The array grows when needed, with nil in the new
slots (`push`), so it is unbounded here.  `frames` is `frameSizes`, last frame first.  `peak` is not in the code: it
records the largest number of frames there has been. -/
structure Ctx (ν : Type) where
  env : Env ν
  slot : Nat → Option ν
  len : Nat
  frames : List Nat
  peak : Nat

/-- What a built-in operator does, as seen by the evaluator: end; evaluate a unary or binary operator or an expression
and go on with the outcome, be it a value or a recovered panic; look at the global state; assign a global variable;
define or delete an operator (the `ivy` operator, `run/run.go:30-38`). -/
inductive Act (ν : Type) where
  | done (r : R ν)
  | unary (op : String) (v : ν) (k : R ν → Act ν)
  | binary (l : ν) (op : String) (r : ν) (k : R ν → Act ν)
  | eval (e : Expr ν) (k : R ν → Act ν)
  | look (k : Env ν → Act ν)
  | assign (x : String) (v : ν) (k : Act ν)
  | define (f : Fn ν) (parse : Env ν → R (Option (List (Expr ν)))) (k : R Unit → Act ν)
  | undefine (name : String) (bin : Bool) (k : R Unit → Act ν)

/-- What the evaluator asks of values and of built-in operators.
* `inner`, `quiet`: `Value.Inner` and the wrapping in a `QuietValue` (`value/assign.go:10-15`).
* `ofList`: the vector with these elements; `asVector`: the assertion `.(*Vector)` (`value/assign.go:42`).
* `isTrue`: `value/eval.go:853-878`.  `isZero`: the test of `exec/context.go:291`.
* `okIndex`: the type check of one index (`value/index.go:51-67`), with the message of its failure.
* `index`, `setIndex`: the rest of `Index` and of `IndexAssign` once everything is evaluated (`value/index.go:94-330`;
  their behaviour is C27 and C28).  A failing `setIndex` leaves the variable as it was.
* `unaryDerived`: the operators recognised by their last character, `exec/context.go:131-155`; `binaryDerived`: those
  recognised by `exec/context.go:190-205`.
* `unary`, `binary`: the tables `UnaryOps` and `BinaryOps`. -/
structure Sem (ν : Type) where
  inner : ν → ν
  quiet : ν → ν
  ofList : List ν → ν
  asVector : ν → Option (List ν)
  isTrue : ν → R Bool
  isZero : ν → Bool
  okIndex : ν → Option String
  index : ν → List (Option ν) → R ν
  setIndex : ν → List (Option ν) → ν → R ν
  unaryDerived : String → Option (ν → Act ν)
  binaryDerived : ν → String → ν → Option (Act ν)
  unary : String → Option (ν → Act ν)
  binary : String → Option (ν → ν → Act ν)

/-- The outcome of an evaluation and the context it leaves; the context is a mutable object, so what an evaluation did
to it before failing stays done. -/
abbrev Res (ν : Type) (α : Type) := R α × Ctx ν

/-- Go statements one after the other. -/
def andThen {α β : Type} (p : Res ν α) (f : α → Ctx ν → Res ν β) : Res ν β :=
  match p.1 with
  | .ok a => f a p.2
  | .err m => (.err m, p.2)
  | .crash => (.crash, p.2)
  | .hang => (.hang, p.2)

/-- Change one entry of a table. -/
def update {α : Type} (f : String → α) (x : String) (a : α) : String → α :=
  fun y => if y = x then a else f y

/-- `exec/context.go:70-78`: `AssignGlobal`. -/
def Env.assign (g : Env ν) (x : String) (v : ν) : Env ν :=
  { g with globals := update g.globals x (some v) }

/-- `exec/context.go:81-88`: the value of the local variable with index `i`, `c.stack[len(c.stack)-i]`. -/
def Ctx.getLocal (c : Ctx ν) (i : Nat) : R (Option ν) :=
  if i ≤ c.len then .ok (c.slot (c.len - i)) else .crash

/-- `exec/context.go:81-88` with `Var.Assign`, `value/context.go:74-77`. -/
def Ctx.setLocal (c : Ctx ν) (i : Nat) (v : ν) : Res ν Unit :=
  if i ≤ c.len then (.ok (), { c with slot := fun j => if j = c.len - i then some v else c.slot j })
  else (.crash, c)

/-- `exec/context.go:91-98`: `push`. -/
def Ctx.push (c : Ctx ν) (f : Fn ν) : Ctx ν :=
  { c with len := c.len + f.locals.length
           frames := f.locals.length :: c.frames
           peak := max c.peak (c.frames.length + 1) }

/-- `exec/context.go:101-105`: `pop`. -/
def Ctx.pop (c : Ctx ν) : Ctx ν :=
  match c.frames with
  | [] => c
  | n :: rest => { c with len := c.len - n, frames := rest }

/-- `value/expr.go:189-207`: `VarExpr.Eval`. -/
def readVar (x : String) (loc : Nat) (c : Ctx ν) : Res ν ν :=
  if 1 ≤ loc then
    match c.getLocal loc with
    | .ok (some v) => (.ok v, c)
    | .ok none => (.err "undefined local variable", c)
    | _ => (.crash, c)
  else
    match c.env.globals x with
    | some v => (.ok v, c)
    | none => (.err "undefined global variable", c)

/-- `value/assign.go:31-36`: assignment to a variable. -/
def setVar (x : String) (loc : Nat) (v : ν) (c : Ctx ν) : Res ν Unit :=
  if 1 ≤ loc then c.setLocal loc v
  else (.ok (), { c with env := c.env.assign x v })

/-- `value/expr.go:83-93`: the elements of a vector, evaluated from right to left. -/
def evalRev (ev : Expr ν → Ctx ν → Res ν ν) : List (Expr ν) → Ctx ν → Res ν (List ν)
  | [], c => (.ok [], c)
  | e :: es, c =>
    andThen (evalRev ev es c) fun vs c1 =>
    andThen (ev e c1) fun v c2 => (.ok (v :: vs), c2)

/-- `value/index.go:51-67`: one index, evaluated and checked; a missing one is left open. -/
def evalIdx1 (S : Sem ν) (ev : Expr ν → Ctx ν → Res ν ν) : Expr ν → Ctx ν → Res ν (Option ν)
  | .hole, c => (.ok none, c)
  | e, c => andThen (ev e c) fun v c1 =>
      match S.okIndex (S.inner v) with
      | none => (.ok (some (S.inner v)), c1)
      | some m => (.err m, c1)

/-- `value/index.go:43-68`: the indexes, evaluated and checked from right to left. -/
def evalIdx (S : Sem ν) (ev : Expr ν → Ctx ν → Res ν ν) : List (Expr ν) → Ctx ν → Res ν (List (Option ν))
  | [], c => (.ok [], c)
  | e :: es, c =>
    andThen (evalIdx S ev es c) fun vs c1 =>
    andThen (evalIdx1 S ev e c1) fun v c2 => (.ok (v :: vs), c2)

/-- `value/index.go:79-97`: the value of the variable whose element is assigned.  A local variable without value is not
refused: its nil value reaches `whichType`, which panics. -/
def indexTarget (x : String) (loc : Nat) (c : Ctx ν) : Res ν ν :=
  if 1 ≤ loc then
    match c.getLocal loc with
    | .ok (some v) => (.ok v, c)
    | _ => (.crash, c)
  else
    match c.env.globals x with
    | some v => (.ok v, c)
    | none => (.err "undefined global variable", c)

/-- `value/index.go:268-330`: `IndexAssign`. -/
def indexAssign (S : Sem ν) (ev : Expr ν → Ctx ν → Res ν ν) (x : String) (loc : Nat) (is : List (Expr ν)) (rhs : ν)
    (c : Ctx ν) : Res ν Unit :=
  andThen (evalIdx S ev is c) fun ivs c1 =>
  andThen (indexTarget x loc c1) fun old c2 =>
  match S.setIndex old ivs rhs with
  | .ok new => setVar x loc new c2
  | .err m => (.err m, c2)
  | .crash => (.crash, c2)
  | .hang => (.hang, c2)

mutual
/-- `value/assign.go:26-60`: `Assign`. -/
def assignTo (S : Sem ν) (ev : Expr ν → Ctx ν → Res ν ν) : Expr ν → ν → Ctx ν → Res ν Unit
  | .var x loc, v, c => setVar x loc v c
  | .index (.var x loc) is, v, c => indexAssign S ev x loc is v c
  | .vec l, v, c =>
    match S.asVector v with
    | none => (.err "rhs of assignment not a vector", c)
    | some vs =>
      if l.length ≠ vs.length then (.err "length mismatch in assignment", c)
      else assignRev S ev l vs c
  | _, _, c => (.err "internal error: cannot assign", c)

/-- `value/assign.go:50-52`: the loop over the elements, from right to left. -/
def assignRev (S : Sem ν) (ev : Expr ν → Ctx ν → Res ν ν) : List (Expr ν) → List ν → Ctx ν → Res ν Unit
  | e :: es, v :: vs, c => andThen (assignRev S ev es vs c) fun _ c1 => assignTo S ev e v c1
  | _, _, c => (.ok (), c)
end

/-- `value/eval.go:1017-1030`: `EvalFunctionBody`; `last` is the variable `v`, nil at first. -/
def evalBody (S : Sem ν) (ev : Expr ν → Ctx ν → Res ν ν) : List (Expr ν) → Option ν → Ctx ν → Res ν (Option ν)
  | [], last, c => (.ok last, c)
  | .cond l r :: es, last, c =>
    andThen (ev l c) fun v c1 =>
      match S.isTrue v with
      | .ok true => andThen (ev r c1) fun w c2 => (.ok (some w), c2)
      | .ok false => evalBody S ev es last c1
      | .err m => (.err m, c1)
      | .crash => (.crash, c1)
      | .hang => (.hang, c1)
  | e :: es, _, c => andThen (ev e c) fun v c1 => evalBody S ev es (some v) c1

/-- What `exec/function.go:75-83` and `97-105` do between `push` and `pop`: bind the parameters, run the body. -/
def runFn (S : Sem ν) (ev : Expr ν → Ctx ν → Res ν ν) (f : Fn ν) (body : List (Expr ν)) (args : Option ν × ν)
    (c : Ctx ν) : Res ν ν :=
  andThen (match f.left, args.1 with
    | some p, some v => assignTo S ev p v c
    | _, _ => (.ok (), c)) fun _ c1 =>
  andThen (assignTo S ev f.right args.2 c1) fun _ c2 =>
  andThen (evalBody S ev body none c2) fun r c3 =>
    match r with
    | some v => (.ok v, c3)
    | none => (.err "no value returned", c3)

/-- `exec/function.go:68-84` (unary: no left argument) and `86-106` (binary).  `pop` is deferred, so it happens
whatever `runFn` ends with. -/
def callFn (S : Sem ν) (maxStack : Nat) (ev : Expr ν → Ctx ν → Res ν ν) (f : Fn ν) (args : Option ν × ν)
    (c : Ctx ν) : Res ν ν :=
  match f.body with
  | none => (.err "undefined", c)
  | some body =>
    if maxStack ≤ c.frames.length then (.err "stack overflow", c)
    else
      let p := runFn S ev f body args (c.push f)
      (p.1, p.2.pop)

/-! ## Definitions -/

/-- `exec/context.go:283-296`: `noVar`. -/
def noVar (S : Sem ν) (g : Env ν) (name : String) : R Unit × Env ν :=
  if name = "_" ∨ name = "pi" ∨ name = "e" then (.err "cannot define op with that name", g)
  else
    match g.globals name with
    | none => (.ok (), g)
    | some v =>
      if S.isZero v then (.ok (), { g with globals := update g.globals name none })
      else (.err "cannot define op; it is a variable", g)

/-- `exec/context.go:240-247` and `259-264`: drop the first entry for this operator. -/
def dropDef (d : String × Bool) : List (String × Bool) → List (String × Bool)
  | [] => []
  | e :: es => if e = d then es else e :: dropDef d es

/-- `exec/context.go:232-250`: the sequence of definitions. -/
def addDef (d : String × Bool) (l : List (String × Bool)) : List (String × Bool) :=
  if l.getLast? = some d then l else dropDef d l ++ [d]

/-- `exec/context.go:224-229`: install the function under its name. -/
def Env.install (g : Env ν) (name : String) (bin : Bool) (f : Option (Fn ν)) : Env ν :=
  if bin then { g with binaryFn := update g.binaryFn name f }
  else { g with unaryFn := update g.unaryFn name f }

/-- The table lookup matching `Env.install`. -/
def Env.lookup (g : Env ν) (name : String) (bin : Bool) : Option (Fn ν) :=
  if bin then g.binaryFn name else g.unaryFn name

/-- `exec/context.go:221-251`: `Define`. -/
def Env.define (S : Sem ν) (g : Env ν) (f : Fn ν) : R Unit × Env ν :=
  match noVar S g f.name with
  | (.ok _, g1) =>
    let g2 := g1.install f.name f.isBinary (some f)
    (.ok (), { g2 with defs := addDef (f.name, f.isBinary) g2.defs })
  | (r, g1) => (r, g1)

/-- `exec/context.go:253-274`: `Undefine`. -/
def Env.undefine (g : Env ν) (name : String) (bin : Bool) : R Unit × Env ν :=
  if (name, bin) ∈ g.defs then
    let g1 := g.install name bin none
    (.ok (), { g1 with defs := dropDef (name, bin) g1.defs })
  else (.err "no definition", g)

/-! ## Resolution of variables

`funcVars` changes the `Local` fields of the expression in place, while `walk` visits it; here the walk returns the
changed expression. -/

/-- What `funcVars` knows while walking: `fn.Locals` and the map `known` (`parse/function.go:225-229`). -/
structure Scope where
  locals : List String
  known : String → Option Nat

/-- `parse/function.go:230-245`: the visit of a variable. -/
def Scope.visit (s : Scope) (x : String) (assign : Bool) : Nat × Scope :=
  match s.known x with
  | some n => (n, s)
  | none =>
    if assign then (s.locals.length + 1, ⟨s.locals ++ [x], update s.known x (some (s.locals.length + 1))⟩)
    else (0, ⟨s.locals, update s.known x (some 0)⟩)

mutual
/-- `parse/function.go:263-302`: `walk` with the visitor of `funcVars`.  A `CondExpr` is walked as the binary
expression inside it: its right side first. -/
def walk : Expr ν → Bool → Scope → Expr ν × Scope
  | .lit v, _, s => (.lit v, s)
  | .hole, _, s => (.hole, s)
  | .var x _, assign, s => (.var x (s.visit x assign).1, (s.visit x assign).2)
  | .unary op r, _, s => (.unary op (walk r false s).1, (walk r false s).2)
  | .binary op l r, _, s =>
    (.binary op (walk l (op == "=") (walk r false s).2).1 (walk r false s).1, (walk l (op == "=") (walk r false s).2).2)
  | .cond l r, _, s =>
    (.cond (walk l false (walk r false s).2).1 (walk r false s).1, (walk l false (walk r false s).2).2)
  | .vec es, assign, s => (.vec (walkRev es assign s).1, (walkRev es assign s).2)
  | .index l is, _, s =>
    (.index (walk l false (walkRev is false s).2).1 (walkRev is false s).1, (walk l false (walkRev is false s).2).2)

/-- `parse/function.go:272-277, 280-282`: the elements from right to left. -/
def walkRev : List (Expr ν) → Bool → Scope → List (Expr ν) × Scope
  | [], _, s => ([], s)
  | e :: es, assign, s =>
    ((walk e assign (walkRev es assign s).2).1 :: (walkRev es assign s).1, (walk e assign (walkRev es assign s).2).2)
end

/-- `parse/function.go:253-255`: the statements of the body, in order. -/
def walkBody : List (Expr ν) → Scope → List (Expr ν) × Scope
  | [], s => ([], s)
  | e :: es, s => ((walk e false s).1 :: (walkBody es (walk e false s).2).1, (walkBody es (walk e false s).2).2)

/-- `parse/function.go:247-249`: the left parameter, if there is one. -/
def walkOpt : Option (Expr ν) → Scope → Option (Expr ν) × Scope
  | none, s => (none, s)
  | some e, s => (some (walk e true s).1, (walk e true s).2)

/-- `parse/function.go:250-255`: the body, if there is one. -/
def walkBodyOpt : Option (List (Expr ν)) → Scope → Option (List (Expr ν)) × Scope
  | none, s => (none, s)
  | some es, s => (some (walkBody es s).1, (walkBody es s).2)

/-- `parse/function.go:225-258`: `funcVars`. -/
def funcVars (f : Fn ν) : Fn ν :=
  let l := walkOpt f.left ⟨[], fun _ => none⟩
  let r := walk f.right true l.2
  let b := walkBodyOpt f.body r.2
  { f with left := l.1, right := r.1, body := b.1, locals := b.2.locals }

mutual
/-- `parse/function.go:304-316`: `walkVars`, the names of the parameters, from right to left. -/
def paramNames : Expr ν → List String
  | .var x _ => [x]
  | .vec es => paramNamesRev es
  | _ => []

/-- `parse/function.go:309-312`: the loop of `walkVars`. -/
def paramNamesRev : List (Expr ν) → List String
  | [] => []
  | e :: es => paramNamesRev es ++ paramNames e
end

/-- `parse/function.go:63-73`: `declare` for one parameter after another; `seen` is the map `argNames`. -/
def declareAll (fname : String) : List String → List String → Env ν → R Unit × Env ν
  | [], _, g => (.ok (), g)
  | x :: xs, seen, g =>
    if x = fname then (.err "argument name is function name", g)
    else if x ∈ seen then (.err "multiple arguments with that name", g)
    else declareAll fname xs (x :: seen) { g with declared := g.declared ++ [x] }

/-- `exec/context.go:317-319`: `ForgetAll`. -/
def Env.forgetAll (g : Env ν) : Env ν := { g with declared := [] }

/-- `parse/function.go:82-93`: the parameters of `f`, the left ones first. -/
def params (f : Fn ν) : List String :=
  (match f.left with | some l => paramNames l | none => []) ++ paramNames f.right

/-- `parse/function.go:63-152`: a definition, once its header has been read; `f` is the function without body or
locals, and `parse` stands for the reading of the body, which may fail.  `Define` is called before the body is read, so
that recursive operators work, and again after it.  When reading fails, the deferred function restores the entry in
the table of operators.  `funcVars` changes the installed function in place after the second `Define`; it is written
here before it. -/
def definition (S : Sem ν) (g : Env ν) (f : Fn ν) (parse : Env ν → R (Option (List (Expr ν)))) : R Unit × Env ν :=
  if f.isBinary = true ∧ f.name = "o" then (.err "not a valid name for a binary operator", g)
  else
    match declareAll f.name (params f) [] g with
    | (.ok _, g1) =>
      let prev := g1.lookup f.name f.isBinary
      match g1.define S { f with body := none, locals := [] } with
      | (.ok _, g2) =>
        match parse g2 with
        | .ok body =>
          match g2.define S (funcVars { f with body := body }) with
          | (.ok _, g3) => (.ok (), g3.forgetAll)
          | (r, g3) => (r, (g3.install f.name f.isBinary prev).forgetAll)
        | .err m => (.err m, (g2.install f.name f.isBinary prev).forgetAll)
        | .crash => (.crash, (g2.install f.name f.isBinary prev).forgetAll)
        | .hang => (.hang, g2)
      | (r, g2) => (r, g2)
    | (r, g1) => (r, g1)

/-! ## The evaluator -/

/-- What the evaluator can be asked to do. -/
inductive Task (ν : Type) where
  | expr (e : Expr ν)
  | unary (op : String) (v : ν)
  | binary (l : ν) (op : String) (r : ν)
  | act (a : Act ν)

/-- `value/expr.go:33-35, 51-58, 68, 83-93, 175-177` and `value/assign.go:19-23`: `Eval` of an expression. -/
def evalExpr (S : Sem ν) (run : Task ν → Ctx ν → Res ν ν) (e : Expr ν) (c : Ctx ν) : Res ν ν :=
  let ev := fun e c => run (.expr e) c
  match e with
  | .lit v => (.ok v, c)
  | .hole => (.crash, c)
  | .var x loc => readVar x loc c
  | .unary op r => andThen (ev r c) fun v c1 => run (.unary op (S.inner v)) c1
  | .binary op l r =>
    if op = "=" then
      andThen (ev r c) fun v c1 =>
      andThen (assignTo S ev l (S.inner v) c1) fun _ c2 => (.ok (S.quiet (S.inner v)), c2)
    else
      andThen (ev r c) fun v c1 =>
      andThen (ev l c1) fun u c2 => run (.binary u op (S.inner v)) c2
  | .cond l r =>
    andThen (ev r c) fun v c1 =>
    andThen (ev l c1) fun u c2 => run (.binary u ":" (S.inner v)) c2
  | .vec es => andThen (evalRev ev es c) fun vs c1 => (.ok (S.ofList vs), c1)
  | .index l is =>
    andThen (evalIdx S ev is c) fun ivs c1 =>
    andThen (ev l c1) fun u c2 => (S.index u ivs, c2)

/-- `exec/context.go:130-165`: `EvalUnary`.  User-defined operators come before built-in ones. -/
def evalUnary (S : Sem ν) (maxStack : Nat) (run : Task ν → Ctx ν → Res ν ν) (op : String) (v : ν) (c : Ctx ν) :
    Res ν ν :=
  match S.unaryDerived op with
  | some p => run (.act (p v)) c
  | none =>
    match c.env.unaryFn op with
    | some f => callFn S maxStack (fun e c => run (.expr e) c) f (none, v) c
    | none =>
      match S.unary op with
      | some p => run (.act (p v)) c
      | none => (.err "unary not implemented", c)

/-- `exec/context.go:187-213`: `EvalBinary`. -/
def evalBinary (S : Sem ν) (maxStack : Nat) (run : Task ν → Ctx ν → Res ν ν) (l : ν) (op : String) (r : ν)
    (c : Ctx ν) : Res ν ν :=
  match S.binaryDerived l op r with
  | some p => run (.act p) c
  | none =>
    match c.env.binaryFn op with
    | some f => callFn S maxStack (fun e c => run (.expr e) c) f (some l, r) c
    | none =>
      match S.binary op with
      | some p => run (.act (p l r)) c
      | none => (.err "binary not implemented", c)

/-- One step of a built-in operator. -/
def evalAct (S : Sem ν) (run : Task ν → Ctx ν → Res ν ν) (a : Act ν) (c : Ctx ν) : Res ν ν :=
  match a with
  | .done r => (r, c)
  | .unary op v k => run (.act (k (run (.unary op v) c).1)) (run (.unary op v) c).2
  | .binary l op r k => run (.act (k (run (.binary l op r) c).1)) (run (.binary l op r) c).2
  | .eval e k => run (.act (k (run (.expr e) c).1)) (run (.expr e) c).2
  | .look k => run (.act (k c.env)) c
  | .assign x v k => run (.act k) { c with env := c.env.assign x v }
  | .define f p k => run (.act (k (definition S c.env f p).1)) { c with env := (definition S c.env f p).2 }
  | .undefine n b k => run (.act (k (c.env.undefine n b).1)) { c with env := (c.env.undefine n b).2 }

/-- The evaluator.  The first argument bounds the depth of the evaluation; running out of it is `hang`, the result of
an evaluation that has not ended. -/
def run (S : Sem ν) (maxStack : Nat) : Nat → Task ν → Ctx ν → Res ν ν
  | 0, _, c => (.hang, c)
  | n + 1, t, c =>
    match t with
    | .expr e => evalExpr S (run S maxStack n) e c
    | .unary op v => evalUnary S maxStack (run S maxStack n) op v c
    | .binary l op r => evalBinary S maxStack (run S maxStack n) l op r c
    | .act a => evalAct S (run S maxStack n) a c

end Verif.Exec
