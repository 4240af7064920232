import Verif.Arr.EvalModel

/-!
# The operators `iota` and `where`

`value/unary.go:624-671`, `:737-797`, `value/index.go:401-427`. The elements of the results are integers and vectors of integers: values of type `V Int`.
-/

namespace Verif.Arr

/-- `value/index.go:422-427` and `:401-419`: `newIota`. The elements are those of a shared slice (`constIota`), which holds at `i` the number `i`. -/
def iotaList (origin : Nat) (n : Int) : R (V (V Int)) :=
  if n < 0 ∨ (maxInt : Int) < n then .err "bad iota" else .ok (.vec ((List.range n.toNat).map fun i => .elem ((origin + i : Nat) : Int)))

/-- `value/unary.go:642-652`: the loop over the coordinates of the argument; the state is the shape and the number of elements. -/
def iotaShape (v : List Small) : R (List Nat × Nat) :=
  loopOver (fun x (s : List Nat × Nat) =>
    match x with
    | none => .err "bad coordinate in iota"
    | some c =>
      if c < 0 ∨ (maxInt : Int) < c then .err "bad coordinate in iota" else
      if s.2 * c.toNat > maxInt then .err "shape too large in iota" else .ok (s.1 ++ [c.toNat], s.2 * c.toNat)) v ([], 1)

/-- `value/unary.go:661-667`: the odometer, from the last coordinate, which starts at the origin; the flag says that all coordinates were reset. -/
def tickFrom (origin : Nat) : List Nat → List Int → List Int × Bool
  | d :: ds, i :: is =>
    let p := tickFrom origin ds is
    if p.2 then (if i + 1 - (origin : Int) < d then ((i + 1) :: p.1, false) else ((origin : Int) :: p.1, true)) else (i :: p.1, false)
  | _, is => (is, true)

/-- `value/unary.go:630-670`: `iota` of a vector. -/
def iotaVec (origin : Nat) (v : List Small) : R (V (V Int)) :=
  if v.length = 0 then .ok (.vec [])
  else if v.length = 1 then (intAt v 0 "iota argument").bind (iotaList origin)
  else (iotaShape v).bind fun s =>
    (loop (fun i (t : List Int × Ed (V Int)) => (t.2.put i (.vec t.1)).bind fun e => .ok ((tickFrom origin s.1 t.1).1, e))
      (List.range s.2) (List.replicate v.length (origin : Int), newEd s.2)).bind fun t =>
    t.2.publish.bind fun d => (newMatrix s.1 d).bind fun m => .ok (.mat m)

/-- `value/unary.go:624-671`: the operator `iota`; other arguments have no function (`value/eval.go:EvalUnary` reports this). -/
def iotaOp (origin : Nat) : V Small → R (V (V Int))
  | .elem (some n) => iotaList origin n
  | .elem none => .err "unary iota not implemented"
  | .vec l => iotaVec origin l
  | .mat _ => .err "unary iota not implemented"

/-- `value/unary.go:758-769`: `where` of a vector; the state is the vector being made. -/
def whereVec (origin : Nat) (v : List Small) : R (List (V Int)) :=
  loop (fun i result => (uintAt v i "where argument").bind fun e => .ok (result ++ List.replicate e (.elem ((origin + i : Nat) : Int)))) (List.range v.length) []

/-- `value/unary.go:770-794`: `where` of a matrix; the state is the coordinates and the vector being made. -/
def whereMat (origin : Nat) (m : Mat Small) : R (List (V Int)) :=
  (loop (fun i (s : List Nat × List (V Int)) =>
    (uintAt m.data i "where argument").bind fun e =>
    .ok ((tick m.shape s.1).1, s.2 ++ List.replicate e (.vec (s.1.map fun x => ((x + origin : Nat) : Int))))) (List.range m.data.length)
    (List.replicate m.shape.length 0, [])).bind fun s => .ok s.2

/-- `value/unary.go:737-797`: the operator `where`. -/
def whereOp (origin : Nat) : V Small → R (V (V Int))
  | .elem _ => .ok (.vec [])
  | .vec l => (whereVec origin l).bind fun r => .ok (.vec r)
  | .mat m => (whereMat origin m).bind fun r => .ok (.vec r)

end Verif.Arr
