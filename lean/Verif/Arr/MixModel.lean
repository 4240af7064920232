import Verif.Arr.EvalModel

/-!
# Split and mix

`value/matrix.go:957-1033`, `value/unary.go:240-272`. The elements of a nested array are values of type `V α`: single ones, vectors and matrices.
-/

namespace Verif.Arr
variable {α : Type}

/-- `value/matrix.go:41-46`: `shrink`. -/
def Mat.shrink (m : Mat α) : V α := if m.shape.length = 1 then .vec m.data else .mat m

/-- `value/vector.go`: `Slice`, which panics out of range. -/
def sliceV (l : List α) (i j : Nat) : R (List α) := if i ≤ j ∧ j ≤ l.length then .ok ((l.drop i).take (j - i)) else .crash

/-- `value/matrix.go:957-970`: `split`. -/
def split (m : Mat α) : R (V (V α)) :=
  if m.shape.length < 2 then .err "cannot split" else
  let shape := m.shape.take (m.shape.length - 1)
  (vAt m.shape (m.shape.length - 1)).bind fun n =>
  (size shape).bind fun sz =>
  (loop (fun i e => (sliceV m.data (i * n) ((i + 1) * n)).bind fun row => e.put i (.vec row)) (List.range sz) (newEd sz)).bind fun e =>
  e.publish.bind fun d => (newMatrix shape d).bind fun r => .ok r.shrink

/-- `value/vector.go:352-360`: `allScalars`, giving the elements. -/
def allScalars : List (V α) → Option (List α)
  | [] => some []
  | .elem x :: r => (allScalars r).map (x :: ·)
  | _ :: _ => none

/-- `value/matrix.go:994-998`: the maxima of the dimensions, from the first. -/
def maxInto : List Nat → List Nat → R (List Nat)
  | as, [] => .ok as
  | a :: as, d :: ds => (maxInto as ds).bind fun r => .ok ((if a < d then d else a) :: r)
  | [], _ :: _ => .crash

/-- `value/matrix.go:980-999`: the body of the loop that computes the shape; `:991-993` appends zeros. -/
def mixStep (e : V α) (shape : List Nat) : R (List Nat) :=
  match e with
  | .elem _ => (vAt shape (shape.length - 1)).bind fun x => .ok (if x = 0 then shape.set (shape.length - 1) 1 else shape)
  | .vec l => (vAt shape (shape.length - 1)).bind fun x => .ok (if x < l.length then shape.set (shape.length - 1) l.length else shape)
  | .mat m => maxInto (shape ++ List.replicate (m.shape.length - shape.length) 0) m.shape

/-- `value/matrix.go:1003-1027`: the elements an element contributes; `s` is the shape found. The assignments to `takeShape` (`:1018-1022`) fill its end, as no
element has more dimensions than `s`. `same` is as in the code: the dimensions are compared with 1 (`:1019`), to which `takeShape` is set. -/
def mixOne (fill : List α → α) (s : List Nat) (e : V α) : R (List α) :=
  let vshape : List Small := s.map fun d : Nat => some (d : Int)
  match e with
  | .elem x => (newMatrix (List.replicate s.length 1) [x]).bind fun m => (take (fill m.data) m vshape).bind fun r => .ok r.data
  | .vec l => (newMatrix ((List.replicate s.length 1).set (s.length - 1) l.length) l).bind fun m => (take (fill m.data) m vshape).bind fun r => .ok r.data
  | .mat m =>
    if s.length - m.shape.length = 0 ∧ (∀ d ∈ m.shape, d = 1) then .ok m.data
    else (newMatrix (List.replicate (s.length - m.shape.length) 1 ++ m.shape) m.data).bind fun m' => (take (fill m'.data) m' vshape).bind fun r => .ok r.data

/-- `value/matrix.go:973-1033`: `mix`. -/
def mix (fill : List α → α) (m : Mat (V α)) : R (Mat α) :=
  match allScalars m.data with
  | some l => .ok ⟨m.shape, l⟩
  | none =>
    (loopOver mixStep m.data [0]).bind fun s =>
    (loopOver (fun e (d : List α) => (mixOne fill s e).bind fun x => .ok (d ++ x)) m.data []).bind fun d =>
    newMatrix (m.shape ++ s) d

/-- `value/unary.go:256-272`: the operator `mix` on vectors and matrices. -/
def mixOp (fill : List α → α) : V (V α) → R (V α)
  | .elem _ => .err "single values are not modelled"
  | .vec l => (newMatrix [l.length] l).bind fun m => (mix fill m).bind fun r => .ok r.shrink
  | .mat m => (mix fill m).bind fun r => .ok (.mat r)

end Verif.Arr
