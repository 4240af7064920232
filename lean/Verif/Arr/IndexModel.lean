import Verif.Arr.Model

/-!
# Indexing and indexed assignment

`value/index.go`, and `Var` of `value/context.go:35-91`.
-/

namespace Verif.Arr
variable {α : Type}

/-- An element of an index: an `Int`, a vector (of which the elements matter only as far as they are `Int`s), or
anything else. -/
inductive IxElem where
  | int (k : Int)
  | vec (l : List Small)
  | other
  deriving DecidableEq, Repr

/-- The value of one index expression (`value/index.go:44-67`). Simplified: the expressions are evaluated already; that
this happens from right to left and before the left side is evaluated is not modelled. -/
inductive Ix where
  /-- `nil`: nothing between the semicolons. -/
  | missing
  | int (k : Int)
  | vec (l : List IxElem)
  | mat (m : Mat IxElem)
  /-- A value of any other type. -/
  | other

/-- `value/index.go:44-67`: the loop over the indexes, from the last: the index vectors, the shape so far, reversed, and the
places in it to be set later (`outShapeToUpdate`). -/
def gather : List Ix → R (List (Option (List IxElem)) × List Nat × List Nat)
  | [] => .ok ([], [], [])
  | x :: xs =>
    (gather xs).bind fun p =>
    match x with
    | .missing => .ok (none :: p.1, p.2.1 ++ [0], p.2.2 ++ [p.2.1.length])
    | .int k => .ok (some [.int k] :: p.1, p.2.1, p.2.2)
    | .vec l => .ok (some l :: p.1, p.2.1 ++ [l.length], p.2.2)
    | .mat m => .ok (some m.data :: p.1, p.2.1 ++ m.shape.reverse, p.2.2)
    | .other => .err "invalid index"

/-- `newIota` (`value/index.go:422-427` and `401-419`). -/
def newIota (origin n : Nat) : R (List IxElem) :=
  if maxInt < n then .err "bad iota" else .ok ((List.range n).map fun i => .int ((origin + i : Nat) : Int))

/-- `value/index.go:121-129`: the loop that replaces the missing indexes; `upd` are the places of `outShapeToUpdate`
left. -/
def fillMissing (origin : Nat) : List (Option (List IxElem)) → List Nat → List Nat → List Nat → R (List (List IxElem) × List Nat)
  | [], _, _, out => .ok ([], out)
  | some l :: r, _ :: ds, upd, out => (fillMissing origin r ds upd out).bind fun p => .ok (l :: p.1, p.2)
  | none :: r, d :: ds, u :: upd, out =>
    (newIota origin d).bind fun x =>
    if u < out.length then (fillMissing origin r ds upd (out.set u x.length)).bind fun p => .ok (x :: p.1, p.2) else .crash
  | _ :: _, _, _, _ => .crash

/-- `value/index.go:136-156`: the check of one index vector, and its elements. Simplified: the code makes two passes, of
which the first looks for elements that are not integers, so that the message may be another. -/
def checkIx (origin d : Nat) : List IxElem → R (List Int)
  | [] => .ok []
  | .int k :: r =>
    if k < origin ∨ k - origin ≥ d then .err "index out of range"
    else (checkIx origin d r).bind fun l => .ok (k :: l)
  | _ :: _ => .err "invalid index"

/-- `value/index.go:135-157`: the loop over all the index vectors. -/
def checkAll (origin : Nat) : List (List IxElem) → List Nat → R (List (List Int))
  | [], _ => .ok []
  | l :: r, d :: ds => (checkIx origin d l).bind fun x => (checkAll origin r ds).bind fun y => .ok (x :: y)
  | _ :: _, [] => .crash

/-- `value/index.go:187-195`: the check of one vector of indexes. -/
def checkVec (origin : Nat) : List Small → List Nat → R (List Int)
  | [], _ => .ok []
  | none :: _, _ => .err "index vector contains invalid index"
  | some k :: r, d :: ds =>
    if k < origin ∨ k - origin ≥ d then .err "index vector out of range"
    else (checkVec origin r ds).bind fun l => .ok (k :: l)
  | some _ :: _, [] => .crash

/-- `value/index.go:178-196`: the loop over the vectors of indexes, all of length `n`. -/
def checkVecs (origin n : Nat) (shape : List Nat) : List IxElem → R (List (List Int))
  | [] => .ok []
  | .vec v :: r =>
    if v.length ≠ n then .err "index vectors of mixed lengths"
    else (checkVec origin v shape).bind fun x => (checkVecs origin n shape r).bind fun y => .ok (x :: y)
  | _ :: _ => .err "mixed vector and non-vector indices"

/-- The fields of `indexState` (`value/index.go:15-27`) after `init`. -/
structure IxState where
  shape : List Nat
  /-- `indexes`, or `indexVector`. -/
  sel : List (List Int) ⊕ List (List Int)
  indexDim : Nat
  outShape : List Nat
  outSize : Nat
  deriving DecidableEq

/-- `value/index.go:162-202`: `initVectorIndex`; `none` is the result false. -/
def initVectorIndex (origin : Nat) (shape : List Nat) (indexes : List (Option (List IxElem))) (outShape : List Nat) : R (Option IxState) :=
  match indexes with
  | [some (.vec v :: r)] =>
    if v.length > shape.length then .err "index vector too long"
    else
      (checkVecs origin v.length shape (.vec v :: r)).bind fun vs =>
      let out := outShape ++ shape.drop v.length
      (size out).bind fun sz => .ok (some ⟨shape, .inr vs, v.length, out, sz⟩)
  | _ => .ok none

/-- The shape of what is indexed (`value/index.go:91-106`): only vectors and matrices can be. -/
def lhsShape : V α → R (List Nat)
  | .elem _ => .err "cannot index"
  | .vec l => .ok [l.length]
  | .mat m => .ok m.shape

/-- `value/index.go:34-160`: `init`. -/
def ixInit (origin : Nat) (lhs : V α) (index : List Ix) : R IxState :=
  (gather index).bind fun g =>
  let out := g.2.1.reverse
  let upd := g.2.2.map fun o => out.length - o - 1
  (lhsShape lhs).bind fun shape =>
  (initVectorIndex origin shape g.1 out).bind fun o =>
  match o with
  | some st => .ok st
  | none =>
    if g.1.length > shape.length then .err "too many dimensions"
    else
      (fillMissing origin g.1 shape upd out).bind fun p =>
      let out := p.2 ++ shape.drop index.length
      (size out).bind fun sz =>
      (checkAll origin p.1 shape).bind fun ixs => .ok ⟨shape, .inl ixs, index.length, out, sz⟩

/-- The vector that holds the elements (`value/index.go:95` and `101`). -/
def V.data : V α → List α
  | .elem x => [x]
  | .vec l => l
  | .mat m => m.data

/-- `value/index.go:214-220`, `229-235`, `244-250`, `325-331`, `342-348`, `375-381`: the offset of the location with the
given coordinates: `offset *= shape[j]`, except for the first, and `offset += k - origin`. Written with the
multiplication for the first too, when the offset is 0. -/
def offset (origin : Nat) (ks : List Int) (shape : List Nat) : Nat :=
  ((ks.zip shape).foldl (fun (o : Int) p => o * p.2 + (p.1 - origin)) 0).toNat

/-- `ix.indexes[j].At(coord[j])` for all `j` (`value/index.go:249` and `380`). -/
def picks : List (List Int) → List Nat → R (List Int)
  | [], _ => .ok []
  | l :: r, c :: cs => (vAt l c).bind fun k => (picks r cs).bind fun ks => .ok (k :: ks)
  | _ :: _, [] => .crash

/-- `value/index.go:236-238` and `251-253`: the loop that copies the elements of one selection. -/
def copyOut (data : List α) (i off copySize : Nat) (e : Ed α) : R (Ed α) :=
  loop (fun k e => (vAt data (off * copySize + k)).bind fun x => e.put (i * copySize + k) x) (List.range copySize) e

/-- `value/index.go:242-262`: one step of the loop of `Index`, with the variables `coord` and `data`. -/
def indexStep (origin : Nat) (data : List α) (shape : List Nat) (ixs : List (List Int)) (copySize : Nat) (i : Nat) (s : List Nat × Ed α) : R (List Nat × Ed α) :=
  (picks ixs s.1).bind fun ks =>
  (copyOut data i (offset origin ks shape) copySize s.2).bind fun e => .ok ((tick (ixs.map List.length) s.1).1, e)

/-- `value/index.go:227-263`: the loops of `Index`. -/
def indexLoop (origin : Nat) (data : List α) (st : IxState) (copySize : Nat) : R (Ed α) :=
  match st.sel with
  | .inr vs =>
    loop (fun i e => (vAt vs i).bind fun v => copyOut data i (offset origin v st.shape) copySize e) (List.range vs.length) (newEd st.outSize)
  | .inl ixs =>
    (loop (indexStep origin data st.shape ixs copySize) (List.range (st.outSize / copySize)) (List.replicate st.indexDim 0, newEd st.outSize)).bind
      fun s => .ok s.2

/-- `value/index.go:207-273`: `Index`. -/
def index (origin : Nat) (lhs : V α) (ixs : List Ix) : R (V α) :=
  (ixInit origin lhs ixs).bind fun st =>
  if st.outShape.length = 0 then
    match st.sel with
    | .inl ixs => (picks ixs (ixs.map fun _ => 0)).bind fun ks => (vAt lhs.data (offset origin ks st.shape)).bind fun x => .ok (.elem x)
    | .inr _ => (vAt lhs.data 0).bind fun x => .ok (.elem x)
  else
    (size (st.shape.drop st.indexDim)).bind fun copySize =>
    if copySize = 0 then .crash
    else
      (indexLoop origin lhs.data st copySize).bind fun e =>
      e.publish.bind fun d =>
      if st.outShape.length = 1 then .ok (.vec d) else (newMatrix st.outShape d).bind fun m => .ok (.mat m)

/-! ## Assignment -/

/-- `Var` (`value/context.go:35-42`): the value, and the editor while indexed assignments are made. -/
structure Var (α : Type) where
  value : V α
  edit : Option (Ed α)

/-- `value/context.go:49-64`: `Value`. -/
def Var.read (x : Var α) : R (Var α × V α) :=
  match x.edit, x.value with
  | none, v => .ok (x, v)
  | some e, .vec _ => e.publish.bind fun d => .ok (⟨.vec d, none⟩, .vec d)
  | some e, .mat m => e.publish.bind fun d => .ok (⟨.mat ⟨m.shape, d⟩, none⟩, .mat ⟨m.shape, d⟩)
  | some _, .elem _ => .crash

/-- `value/context.go:74-86`: `editor`; for vectors and matrices only. -/
def Var.editor (x : Var α) : Ed α :=
  match x.edit with
  | some e => e
  | none => Verif.Arr.edit x.value.data

/-- The value stored `j`-th for selection `i` (`value/index.go:352-360` and `383-391`). -/
def rhsAt (rhs : α ⊕ List α) (copySize i j : Nat) : R α :=
  match rhs with
  | .inl x => .ok x
  | .inr l => vAt l (j + i * copySize)

/-- `value/index.go:352-360` and `383-391`: the loop that stores the elements of one selection; `i` counts the selections. -/
def storeIn (rhs : α ⊕ List α) (i off copySize : Nat) (e : Ed α) : R (Ed α) :=
  loop (fun j e => (rhsAt rhs copySize i j).bind fun x => e.put (off * copySize + j) x) (List.range copySize) e

/-- `value/index.go:303-319`: the right-hand side: a single value for all the cells, or a vector of the shape
of the selection. Elements of arrays are values like any other, so the same type serves for both. -/
def rhsOf (outShape : List Nat) (toElem : V α → α) (rhs : V α) : R (α ⊕ List α) :=
  if outShape.length = 0 then .ok (.inl (toElem rhs))
  else
    match rhs with
    | .elem x => .ok (.inl x)
    | .vec l => if outShape = [l.length] then .ok (.inr l) else .err "shape mismatch"
    | .mat m => if outShape = m.shape then .ok (.inr m.data) else .err "shape mismatch"

/-- `value/index.go:373-397`: one step of the loop, with the variables `coord` and the editor. -/
def storeStep (origin : Nat) (rhs : α ⊕ List α) (shape : List Nat) (ixs : List (List Int)) (copySize : Nat) (i : Nat) (s : List Nat × Ed α) : R (List Nat × Ed α) :=
  (picks ixs s.1).bind fun ks =>
  (storeIn rhs i (offset origin ks shape) copySize s.2).bind fun e => .ok ((tick (ixs.map List.length) s.1).1, e)

/-- `value/index.go:339-397`: the function given to `pfor`. -/
def storeRange (origin : Nat) (st : IxState) (rhs : α ⊕ List α) (copySize lo hi : Nat) (e : Ed α) : R (Ed α) :=
  match st.sel with
  | .inr vs => loop (fun i e => (vAt vs i).bind fun v => storeIn rhs i (offset origin v st.shape) copySize e) (List.range' lo (hi - lo)) e
  | .inl ixs =>
    (loop (storeStep origin rhs st.shape ixs copySize) (List.range' lo (hi - lo)) ((startIndex (ixs.map List.length) lo).1, e)).bind fun s => .ok s.2

/-- `value/index.go:321-398`: `IndexAssign` once the right-hand side is known: what becomes of the editor. The outer
result is how the computations before the first store end, the inner one how the stores end. -/
def storeAll (S : Sched) (origin : Nat) (st : IxState) (rhs : α ⊕ List α) (e : Ed α) : R (R (Ed α)) :=
  if st.outShape.length = 0 then
    match rhs, st.sel with
    | .inl x, .inl ixs => (picks ixs (ixs.map fun _ => 0)).bind fun ks => .ok (e.put (offset origin ks st.shape) x)
    | .inl x, .inr _ => .ok (e.put 0 x)
    | .inr _, _ => .crash
  else
    (size (st.shape.drop st.indexDim)).bind fun copySize =>
    if copySize = 0 then .crash
    else .ok (pfor (S.ranges copySize (st.outSize / copySize)) (storeRange origin st rhs copySize) e)

/-- The steps of `IndexAssign` before the first store, and the stores. -/
def assignPlan (S : Sched) (origin : Nat) (toElem : V α → α) (lhs : V α) (e : Ed α) (ixs : List Ix) (rhs : V α) : R (R (Ed α)) :=
  (ixInit origin lhs ixs).bind fun st => (rhsOf st.outShape toElem rhs).bind fun r => storeAll S origin st r e

/-- `value/index.go:280-399`: `IndexAssign`: the variable afterwards, and how the statement ended. The editor is made in
`init` (`value/index.go:97` and `103`), before the indexes are checked. If a store were to fail, those made before it
would remain; the model then has an editor without any elements, which no theorem could make do with. -/
def indexAssign (S : Sched) (origin : Nat) (toElem : V α → α) (x : Var α) (ixs : List Ix) (rhs : V α) : Var α × R Unit :=
  match (gather ixs).bind fun _ => lhsShape x.value with
  | .err m => (x, .err m)
  | .crash => (x, .crash)
  | .hang => (x, .hang)
  | .ok _ =>
    match assignPlan S origin toElem x.value x.editor ixs rhs with
    | .ok (.ok e) => (⟨x.value, some e⟩, .ok ())
    | .ok (.err m) => (⟨x.value, some (newEd x.editor.length)⟩, .err m)
    | .ok .crash => (⟨x.value, some (newEd x.editor.length)⟩, .crash)
    | .ok .hang => (⟨x.value, some (newEd x.editor.length)⟩, .hang)
    | .err m => (⟨x.value, some x.editor⟩, .err m)
    | .crash => (⟨x.value, some x.editor⟩, .crash)
    | .hang => (⟨x.value, some x.editor⟩, .hang)

end Verif.Arr
