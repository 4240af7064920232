import Verif.Shape.Model

/-!
# What shapes should be

Shapes as plain lists, which do not change: each operation adds one.
-/

namespace Verif.Shape

/-- Stores into a list; those out of range do nothing. -/
def storesTo (l : List Nat) : List (Nat × Nat) → List Nat
  | [] => l
  | (i, v) :: ps => storesTo (l.set i v) ps

/-- The lengths a piece stands for, from the last to the first. -/
def idealPiece (vs : List (List Nat)) : Piece → List Nat
  | .missing => [0]
  | .scalar => []
  | .vector n => [n]
  | .matrix i => (vs.getD i []).reverse

/-- The shape of the new matrix. -/
def ideal (vs : List (List Nat)) : Op → Option (List Nat)
  | .fresh l => some l
  | .share i => vs[i]?
  | .prefix i k => match vs[i]? with
    | some l => if k ≤ l.length then some (l.take k) else none
    | none => none
  | .suffix i k => match vs[i]? with
    | some l => if k ≤ l.length then some (l.drop k) else none
    | none => none
  | .clone i stores _ => match vs[i]? with
    | some l => some (storesTo l stores)
    | none => none
  | .encode n i _ => match vs[i]? with
    | some l => some (n :: l)
    | none => none
  | .each i k j l _ _ => match vs[i]?, vs[j]? with
    | some a, some b => if k ≤ a.length ∧ l ≤ b.length then some (a.take k ++ b.take l) else none
    | _, _ => none
  | .index ps stores j n _ _ => match vs[j]? with
    | some l => if n ≤ l.length then
        some (storesTo (ps.flatMap (idealPiece vs)).reverse stores ++ l.drop n)
      else none
    | none => none
  | .outer i j _ => match vs[i]?, vs[j]? with
    | some a, some b => some (a ++ b)
    | _, _ => none
  | .mix i l _ => match vs[i]? with
    | some a => some (a ++ l)
    | none => none

/-- One operation on lists. -/
def idealStep (vs : List (List Nat)) (op : Op) : List (List Nat) :=
  match ideal vs op with
  | some l => vs ++ [l]
  | none => vs

/-- A history on lists. -/
def idealRun (vs : List (List Nat)) (ops : List Op) : List (List Nat) := ops.foldl idealStep vs

/-- The operations whose shape may have been written over: outer products of matrices and mix. -/
def Op.appends : Op → Bool
  | .outer .. => true
  | .mix .. => true
  | _ => false

/-- The matrix whose shape `outer` and `mix` append to. -/
def Op.left : Op → Nat
  | .outer i _ _ => i
  | .mix i _ _ => i
  | _ => 0

/-- Matrix `i` has a shape with no room behind it. -/
def St.full (w : St) (i : Nat) : Prop := ∀ s, w.vals[i]? = some s → s.len = cap w.mem s

/-- The shape `t` reaches into the room behind the shape `s`. -/
def Behind (s t : Slice) : Prop := t.arr = s.arr ∧ s.off + s.len < t.off + t.len

/-- Matrix `i` does not reach into the room behind the matrix the operation appends to. -/
def St.apart (w : St) (op : Op) (i : Nat) : Prop :=
  op.appends = true → ∀ s t, w.vals[op.left]? = some s → w.vals[i]? = some t → ¬ Behind s t

/-- Whenever an outer product or a mix is made, the shape of its left operand has no room behind it. -/
def Roomless (w : St) : List Op → Prop
  | [] => True
  | op :: ops => (op.appends = true → w.full op.left) ∧ Roomless (step w op) ops

/-- From the operations alone: for each matrix, whether its shape is all of an array, or an end of it: made by `make` or a
literal, the same as such a shape, or what remains of one. -/
def exactly (vs : List Bool) : Op → Bool
  | .fresh _ => true
  | .share i => vs.getD i true
  | .suffix i _ => vs.getD i true
  | _ => false

/-- Every outer product and mix has a left operand with such a shape; `n` tells of the matrices `vs` so far. -/
def LeftExact (vs : List (List Nat)) (n : List Bool) : List Op → Prop
  | [] => True
  | op :: ops => (op.appends = true → n.getD op.left true = true) ∧
    LeftExact (idealStep vs op) (if (ideal vs op).isSome then n ++ [exactly n op] else n) ops

end Verif.Shape
