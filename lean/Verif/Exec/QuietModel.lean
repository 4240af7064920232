/-!
# Quiet values inside of vectors

Evaluation of vectors, assignments, global variables and the operators `-`, `print` and `print@` as the program does it, with the type `QuietValue` (`value/assign.go:10-15`), which the other models leave out.
Simplified: numbers are integers of any size, there are no local variables and no other operators, and what `print` writes is left out.
-/

namespace Verif.Exec.Quiet

/-- Values: `Int`, `QuietValue` (`value/assign.go:13-15`) and `*Vector`. -/
inductive Val where
  | int (n : Int)
  | quiet (v : Val)
  | vec (l : List Val)

/-- Expressions: constants, variables, `- e`, `print e`, `print@ e`, `x = e`, and vectors (`value/expr.go:24, :37, :81, :187`). -/
inductive Expr where
  | int (n : Int)
  | var (x : String)
  | neg (e : Expr)
  | print (e : Expr)
  | printEach (e : Expr)
  | assign (x : String) (e : Expr)
  | vec (l : List Expr)

/-- How evaluation ends: with a value; with an error that is reported; or with a run-time fault, which ends the program (`run/run.go:72`). -/
inductive Res (α : Type) where
  | ok (a : α)
  | err
  | crash

/-- What follows a step that went well. -/
def Res.andThen {α β : Type} : Res α → (α → Res β) → Res β
  | .ok a, f => f a
  | .err, _ => .err
  | .crash, _ => .crash

/-- `Inner` (`value/value.go:29`; `QuietValue` has that of the value in it). -/
def inner : Val → Val
  | .quiet v => inner v
  | v => v

mutual
/-- `EvalUnary` for `-` (`value/eval.go:56-74`, `value/unary.go:286-293`, `value/eval.go:649-658`). `whichType` looks at the inner value (`value/eval.go:86-106`), but the assertions `v.(Int)` and
`i.(*Vector)` of the functions it selects are for the value itself, so they fail for a `QuietValue`. -/
def neg : Val → Res Val
  | .int n => .ok (.int (-n))
  | .quiet _ => .crash
  | .vec l => (negL l).andThen fun l => .ok (.vec l)

/-- `value/eval.go:653-655`: the elements. -/
def negL : List Val → Res (List Val)
  | [] => .ok []
  | v :: vs => (neg v).andThen fun w => (negL vs).andThen fun ws => .ok (w :: ws)
end

/-- `Each` for `print` (`value/eval.go:626-646`): the result of `printValue` (`value/unary.go:138-141`) for each element; a number is its only element (`value/eval.go:560-562`). -/
def printEach : Val → Val
  | .vec l => .vec (l.map .quiet)
  | v => .vec [.quiet v]

/-- The global variables (`exec/context.go:66-79`). -/
abbrev Env := String → Option Val

mutual
/-- `Eval`: constants; `value/expr.go:196-213` (variables), `:33-35` (unary operators; `print`: `value/unary.go:138-141`), `value/assign.go:19-23` (assignment), `value/expr.go:83-93` (vectors). -/
def eval : Expr → Env → Res (Val × Env)
  | .int n, g => .ok (.int n, g)
  | .var x, g =>
    match g x with
    | some v => .ok (v, g)
    | none => .err
  | .neg e, g => (eval e g).andThen fun r => (neg (inner r.1)).andThen fun w => .ok (w, r.2)
  | .print e, g => (eval e g).andThen fun r => .ok (.quiet (inner r.1), r.2)
  | .printEach e, g => (eval e g).andThen fun r => .ok (printEach (inner r.1), r.2)
  | .assign x e, g => (eval e g).andThen fun r => .ok (.quiet (inner r.1), fun y => if y = x then some (inner r.1) else r.2 y)
  | .vec l, g => (evalL l g).andThen fun r => .ok (.vec r.1, r.2)

/-- `value/expr.go:89-91`: the elements of a vector, from right to left. -/
def evalL : List Expr → Env → Res (List Val × Env)
  | [], g => .ok ([], g)
  | e :: es, g => (evalL es g).andThen fun r => (eval e r.2).andThen fun q => .ok (q.1 :: r.1, q.2)
end

/-- `value/eval.go:553-574`: `eachValue` for one dimension: the elements of a vector; all else is one part. The switch looks at the value itself, so a quiet vector is one part. -/
def parts : Val → List Val
  | .vec l => l
  | v => [v]

/-- The loop over the parts (`value/eval.go:612-616`). -/
def eachL (f : Val → Res Val) : List Val → Res (List Val)
  | [] => .ok []
  | v :: vs => (f v).andThen fun w => (eachL f vs).andThen fun ws => .ok (w :: ws)

/-- `value/eval.go:579-618`: `BinaryEach` for an operator with one `@`, on the left; `f` is the operator. `BinaryExpr.Eval` (`value/expr.go:53-60`) unwraps the right operand, but not
the left one. -/
def leftEach (f : Val → Val → Res Val) (u v : Val) : Res Val := (eachL (fun x => f x (inner v)) (parts u)).andThen fun l => .ok (.vec l)

/-- `EvalBinary` for `+` (`value/eval.go:108-130`), for a number or a vector of numbers and a number; `toType` unwraps the operands. Other operands are left out. -/
def plus (u v : Val) : Res Val :=
  match inner u, inner v with
  | .int a, .int b => .ok (.int (a + b))
  | .vec l, .int b => (eachL (fun x => match inner x with
      | .int a => .ok (.int (a + b))
      | _ => .err) l).andThen fun l => .ok (.vec l)
  | _, _ => .err

end Verif.Exec.Quiet
