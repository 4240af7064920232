import Verif.Arr.EvalModel

/-!
# `@`: each

`value/eval.go:510-646`.  The operators themselves (`c.EvalUnary`, `c.EvalBinary`, called with what is left of the name) are a parameter `f`; they
may change a state `σ` (variables, output).  The results become elements, whatever they are.
-/

namespace Verif.Arr
variable {α β γ σ : Type}

/-- `value/eval.go:584-588`, `:599-602` and `:629-632`: how many of the first `n` characters are `@`, up to the first that is not. For the right end
the name is read backwards. -/
def leadAts : Nat → List Char → Nat
  | 0, _ => 0
  | _ + 1, [] => 0
  | n + 1, c :: r => if c = '@' then leadAts n r + 1 else 0

/-- `value/eval.go:534-538`: the divisions of `eachMatrix`. -/
def eachSize (size : Nat) : List Nat → R Nat
  | [] => .ok size
  | d :: ds => if d = 0 then .crash else eachSize (size / d) ds

/-- `value/eval.go:541-546`: the part of `m` that starts at element `i`. -/
def eachPart (m : Mat α) (dim i size : Nat) : R (V α) :=
  if m.data.length < i + size then .crash
  else if dim = m.shape.length - 1 then .ok (.vec ((m.data.drop i).take size))
  else (newMatrix (m.shape.drop dim) ((m.data.drop i).take size)).bind fun r => .ok (.mat r)

/-- `value/eval.go:528-553`: `eachMatrix`: what the iterator yields. A loop that does not advance never ends. -/
def eachMatrix (m : Mat α) (dim : Nat) : R (List (R (V α))) :=
  if dim = m.shape.length then .ok (m.data.map fun x => .ok (.elem x)) else
  (if 0 < m.data.length then eachSize m.data.length (m.shape.take dim) else .ok 0).bind fun size =>
  if size = 0 ∧ 0 < m.data.length then .hang
  else .ok ((List.range ((m.data.length + size - 1) / size)).map fun k => eachPart m dim (k * size) size)

/-- `value/eval.go:556-574`: `eachValue`, with `eachOne` (`:505-509`) and `eachVector` (`:512-520`). -/
def eachValue (v : V α) (dim : Nat) : R (List (R (V α))) :=
  if dim = 0 then .ok [.ok v] else
  match v with
  | .elem x => .ok [.ok (.elem x)]
  | .vec l => if dim ≠ 1 then .crash else .ok (l.map fun x => .ok (.elem x))
  | .mat m => if dim > m.shape.length then .crash else eachMatrix m dim

/-- `value/eval.go:638-640` and `:612-614`: the loop over what an iterator yields; the variables are the results so far and the state. -/
def eachLoop (g : V α → σ → R (β × σ)) : List (R (V α)) → List β × σ → R (List β × σ)
  | [], s => .ok s
  | x :: xs, s => x.bind fun x => (g x s.2).bind fun y => eachLoop g xs (s.1 ++ [y.1], y.2)

/-- `value/eval.go:611-615`: the loop over what the iterator on the left yields. -/
def eachLoop2 (g : V α → V γ → σ → R (β × σ)) (rhs : List (R (V γ))) : List (R (V α)) → List β × σ → R (List β × σ)
  | [], s => .ok s
  | x :: xs, s => x.bind fun x => (eachLoop (g x) rhs s).bind fun s => eachLoop2 g rhs xs s

/-- `value/eval.go:626-646`: `Each`. -/
def Each [Wide α] (f : List Char → V α → σ → R (β × σ)) (op : List Char) (v : V α) (s : σ) : R (V β × σ) :=
  v.toMat.bind fun m =>
  let d := leadAts m.shape.length op.reverse
  if d = 0 then .err "arg is scalar" else
  (eachValue v d).bind fun items =>
  (eachLoop (f (op.take (op.length - d))) items ([], s)).bind fun r =>
  if d = 1 then .ok (.vec r.1, r.2) else (newMatrix (m.shape.take d) r.1).bind fun m => .ok (.mat m, r.2)

/-- `value/eval.go:579-622`: `BinaryEach`. The name of the operator is not empty (`exec/context.go:197`). -/
def BinaryEach [Wide α] [Wide γ] (f : List Char → V α → V γ → σ → R (β × σ)) (op : List Char) (u : V α) (v : V γ) (s : σ) : R (V β × σ) :=
  u.toMat.bind fun l =>
  let ld := leadAts l.shape.length op
  if ld = 0 ∧ op.head? = some '@' then .err "left side is scalar" else
  (eachValue u ld).bind fun lhs =>
  v.toMat.bind fun r =>
  let rd := leadAts r.shape.length op.reverse
  if rd = 0 ∧ op.getLast? = some '@' then .err "right side is scalar" else
  (eachValue v rd).bind fun rhs =>
  if op.length < ld + rd then .crash else
  (eachLoop2 (f ((op.take (op.length - rd)).drop ld)) rhs lhs ([], s)).bind fun res =>
  if ld + rd = 1 then .ok (.vec res.1, res.2)
  else (newMatrix (l.shape.take ld ++ r.shape.take rd) res.1).bind fun m => .ok (.mat m, res.2)

end Verif.Arr
