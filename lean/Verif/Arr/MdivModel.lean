import Verif.Arr.InvModel
import Verif.Arr.EvalModel

/-!
# Division of matrices

`mdiv` (`value/binary.go:377-401`), for elements of any type with given operators.
-/

namespace Verif.Arr
variable {α : Type}

/-- `value/binary.go:388-392`: the check of the elements, two at a time; `real` is `whichType(x) < complexType`. -/
def allReal (real : α → Bool) : List (α × α) → R Unit
  | [] => .ok ()
  | (a, b) :: l => if real a = false ∨ real b = false then .err "non-real element in vector mdiv" else allReal real l

/-- `value/binary.go:382-396`: how often `v` is in `u`. The division is that of the interpreter (`c.EvalBinary`). -/
def mdivVec (o : Ops α) (real : α → Bool) (u v : List α) : R (V α) :=
  if u.length ≠ v.length then .err "mismatched lengths in vector mdiv" else
  (allReal real (u.zip v)).bind fun _ =>
  (innerVec o.add o.mul u v).bind fun num => (innerVec o.add o.mul v v).bind fun den =>
  match num, den with
  | .elem a, .elem b => (o.div a b).bind fun x => .ok (.elem x)
  | _, _ => .err "internal"

/-- `value/binary.go:377-401` with `value/eval.go:86-147`: `mdiv`. The operands are made to be of one type, a vector or a matrix, unless both are
single elements, for which there is no function. Simplified: `Matrix.inverse` gives a matrix always (`value/matrix.go:1078-1175`), so that
`innerProduct` takes its second case. -/
def mdiv [Wide α] (S : Sched) (o : Ops α) (real : α → Bool) (u v : V α) : R (V α) :=
  if u.isMat ∨ v.isMat then
    u.toMat.bind fun u => v.toMat.bind fun v => (matInverse o v).bind fun w => innerMat S o.add o.mul w u
  else match u, v with
    | .elem _, .elem _ => .err "binary mdiv not implemented"
    | u, v => u.toVec.bind fun u => v.toVec.bind fun v => mdivVec o real u v

end Verif.Arr
