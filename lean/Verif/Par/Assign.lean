import Verif.Par.Model
/-
Model of the store loop of an indexed assignment (value/index.go:333-398).

`offs i` is the cell group that the `i`-th selected position denotes (the `offset` of index.go:339-345 and
372-378, which is computed from `i` alone); `val q` is the element of the right-hand side for position `q`
(`rscalar` for every `q`, or `rvector.At(q)`).
-/
namespace Verif.Par
open Verif.Persist
variable {α : Type}

/-- The `Set` calls for one selected position (index.go:346-355, 379-388). -/
def cellCalls (copySize : Nat) (offs : Nat → Nat) (val : Nat → α) (i : Nat) : List (Nat × α) :=
  (List.range copySize).map (fun j => (offs i * copySize + j, val (j + i * copySize)))

/-- The `Set` calls of one range `[lo, hi)` (index.go:337-356, 370-397). -/
def rangeCalls (copySize : Nat) (offs : Nat → Nat) (val : Nat → α) (r : Nat × Nat) : List (Nat × α) :=
  (List.range' r.1 (r.2 - r.1)).flatMap (cellCalls copySize offs val)

/-- The store loop on transient `k` (index.go:335): in one go, or by the goroutines of `pfor`. -/
inductive AssignOp [Inhabited α] (procs minWork copySize n : Nat) (offs : Nat → Nat) (val : Nat → α) (k : Nat)
    (w : World α) : World α → Prop where
  | seq (hp : parallel true procs minWork copySize n = false) :
      AssignOp procs minWork copySize n offs val k w
        (w.run ((rangeCalls copySize offs val (0, n)).map (fun c => .set k (c.1 : Nat) c.2)))
  | par {t : Trans} {m : Nat} {p : PCfg α Empty} (hp : parallel true procs minWork copySize n = true)
      (ht : w.trans[k]? = some t)
      (r : PRun m (PCfg.start ⟨w.h, t⟩
        ((tiles procs minWork copySize n).map (fun r => (rangeCalls copySize offs val r, none)))) p)
      (hr : p.returned) :
      AssignOp procs minWork copySize n offs val k w
        { w with h := p.c.st.h, trans := w.trans.set k p.c.st.t }

end Verif.Par
