import Verif.Persist.Conc
/-
Model of the parallel loop `pfor` and of the element-wise operators built on it (value/eval.go, value/vector.go).

The result vector is built in a `vectorEditor`, i.e. a transient slice; the workers are the goroutines of
`Verif/Persist/Conc.lean`, each making the `Set` calls of its range until an element fails.
Simplifications: Go's `int` is unbounded (`n*size` is at most the number of elements of an existing vector);
elements are computed by a function `g` of the index (the operands are persistent slices, which nothing
changes, and the operator is a built-in other than `?`); the failing element's error is the value `recover`
returns.
-/
namespace Verif.Par
open Verif.Persist
variable {α ε : Type}

/-- Whether `pfor` uses goroutines (eval.go:204-213); `safe` is the argument `ok`, `procs` is
`runtime.GOMAXPROCS(-1)`, `minWork` is `pforMinWork` (eval.go:191-195). -/
def parallel (safe : Bool) (procs minWork size n : Nat) : Bool :=
  safe && !(procs == 1 || decide (n ≤ 1) || decide (n * size < minWork * 2))

/-- The number of goroutines (eval.go:214-217). -/
def workers (procs minWork size n : Nat) : Nat :=
  if n * size / minWork < procs * 4 then n * size / minWork else procs * 4

/-- The ranges `[lo, hi)` given to the goroutines (eval.go:219-220). -/
def tiles (procs minWork size n : Nat) : List (Nat × Nat) :=
  let p := workers procs minWork size n
  (List.range p).map (fun i => (i * n / p, (i + 1) * n / p))

/-- All the ranges `pfor` calls `f` with, parallel or not (eval.go:210-224). -/
def ranges (safe : Bool) (procs minWork size n : Nat) : List (Nat × Nat) :=
  if parallel safe procs minWork size n then tiles procs minWork size n else [(0, n)]

/-- The loop `for k := lo; k < hi; k++ { n.Set(k, …) }` of the element-wise operators (eval.go:653-655 and
its copies at 665-667, 678-680, 687-689, 696-698, 716-718, 724-726, 734-736, 743-745, 752-754), `cnt`
iterations from `lo`: the `Set` calls made, and the error that ends the loop if an element fails. -/
def work (g : Nat → Except ε α) : Nat → Nat → List (Nat × α) × Option ε
  | _, 0 => ([], none)
  | lo, cnt + 1 =>
    match g lo with
    | .error e => ([], some e)
    | .ok v =>
      let r := work g (lo + 1) cnt
      ((lo, v) :: r.1, r.2)

/-- A state of the goroutines of one `pfor` (eval.go:218-235): the workers' `Set` calls; what each worker's
`recover` will return; which workers have sent it; the channel; and what the caller has received so far and
its variable `err`. -/
structure PCfg (α ε : Type) where
  c : Cfg α
  outs : List (Option ε)
  sent : List Bool
  chan : List (Option ε)
  got : Nat
  err : Option ε

/-- The caller's `err` after receiving a message (eval.go:228-230): the last error received. -/
def keepErr (o err : Option ε) : Option ε :=
  match o with
  | some e => some e
  | none => err

/-- One step of `pfor` under an arbitrary schedule. The channel has room for every worker, so a send never
blocks (eval.go:218). -/
inductive PStep [Inhabited α] : PCfg α ε → PCfg α ε → Prop where
  /-- a worker moves inside `f` -/
  | work {p : PCfg α ε} {c' : Cfg α} (s : CStep p.c c') : PStep p { p with c := c' }
  /-- a worker whose `f` is over sends what it recovered (eval.go:222, 237-239) -/
  | send {p : PCfg α ε} {k : Nat} {th : Th α} {o : Option ε} (h1 : p.c.ths[k]? = some th) (h2 : th.todo = [])
      (h3 : p.sent[k]? = some false) (h4 : p.outs[k]? = some o) :
      PStep p { p with sent := p.sent.set k true, chan := p.chan ++ [o] }
  /-- the caller receives (eval.go:227-231) -/
  | recv {p : PCfg α ε} {o : Option ε} {rest : List (Option ε)} (h1 : p.chan = o :: rest) (h2 : p.got < p.outs.length) :
      PStep p { p with chan := rest, got := p.got + 1, err := keepErr o p.err }

/-- Any number of steps, counted. -/
inductive PRun [Inhabited α] : Nat → PCfg α ε → PCfg α ε → Prop where
  | refl {p} : PRun 0 p p
  | snoc {n p p' p''} (r : PRun n p p') (s : PStep p' p'') : PRun (n + 1) p p''

/-- The goroutines at the start. -/
def PCfg.start (st : St α) (ws : List (List (Nat × α) × Option ε)) : PCfg α ε :=
  ⟨Cfg.start st (ws.map (·.1)), ws.map (·.2), ws.map (fun _ => false), [], 0, none⟩

/-- `pfor` returns (eval.go:227): one message received for every worker. -/
def PCfg.returned (p : PCfg α ε) : Prop := p.got = p.outs.length

/-- The workers of a parallel loop with the given ranges. -/
def mkWorkers (g : Nat → Except ε α) (rs : List (Nat × Nat)) : List (List (Nat × α) × Option ε) :=
  rs.map (fun r => work g r.1 (r.2 - r.1))

/-- `newVectorEditor(n, def)` (vector.go:52-61): a new transient, resized and filled. Its handle is the number
of transients before. -/
def newEditor [Inhabited α] (w : World α) (n : Nat) (d : α) : World α :=
  w.run (.newTrans :: (if n = 0 then [] else
    .resize w.trans.length n :: (List.range n).map (fun i => .set w.trans.length (i : Nat) d)))

/-- An element-wise operator: `newVectorEditor`, `pfor`, `Publish` (eval.go:649-658 and its copies at 661-670,
673-701, 704-758). The outcome is the handle of the published slice, or the error the caller sees. In the
sequential case the one range is done by the caller itself (eval.go:210-213). -/
inductive ElemOp [Inhabited α] (safe : Bool) (procs minWork size n : Nat) (g : Nat → Except ε α) (d : α) (w : World α) :
    World α → Except ε Nat → Prop where
  | seqOk {w1 : World α} (hp : parallel safe procs minWork size n = false)
      (he : (work g 0 n).2 = none)
      (h1 : w1 = (newEditor w n d).run ((work g 0 n).1.map (fun c => .set w.trans.length (c.1 : Nat) c.2))) :
      ElemOp safe procs minWork size n g d w (w1.run [.persist w.trans.length]) (.ok w1.slices.length)
  | seqErr {w1 : World α} {e : ε} (hp : parallel safe procs minWork size n = false)
      (he : (work g 0 n).2 = some e)
      (h1 : w1 = (newEditor w n d).run ((work g 0 n).1.map (fun c => .set w.trans.length (c.1 : Nat) c.2))) :
      ElemOp safe procs minWork size n g d w w1 (.error e)
  | parOk {t : Trans} {m : Nat} {p : PCfg α ε} {w1 : World α} (hp : parallel safe procs minWork size n = true)
      (ht : (newEditor w n d).trans[w.trans.length]? = some t)
      (r : PRun m (PCfg.start ⟨(newEditor w n d).h, t⟩ (mkWorkers g (tiles procs minWork size n))) p)
      (hr : p.returned) (he : p.err = none)
      (h1 : w1 = { newEditor w n d with h := p.c.st.h, trans := (newEditor w n d).trans.set w.trans.length p.c.st.t }) :
      ElemOp safe procs minWork size n g d w (w1.run [.persist w.trans.length]) (.ok w1.slices.length)
  | parErr {t : Trans} {m : Nat} {p : PCfg α ε} {w1 : World α} {e : ε} (hp : parallel safe procs minWork size n = true)
      (ht : (newEditor w n d).trans[w.trans.length]? = some t)
      (r : PRun m (PCfg.start ⟨(newEditor w n d).h, t⟩ (mkWorkers g (tiles procs minWork size n))) p)
      (hr : p.returned) (he : p.err = some e)
      (h1 : w1 = { newEditor w n d with h := p.c.st.h, trans := (newEditor w n d).trans.set w.trans.length p.c.st.t }) :
      ElemOp safe procs minWork size n g d w w1 (.error e)

/-- The element computed at index `k` by `binaryVectorOp` (eval.go:673-701), for operands of lengths `a` and
`b`: the number of elements of the result, and which operand elements are combined; `none` is the
`sameLength` error. -/
def binaryPlan (a b : Nat) : Option (Nat × (Nat → Nat × Nat)) :=
  if a = 1 then some (b, fun k => (0, k))
  else if b = 1 then some (a, fun k => (k, 0))
  else if a = b then some (a, fun k => (k, k))
  else none

/-- `isScalar` (eval.go:766-773) on a shape. -/
def isScalarShape (a : List Nat) : Bool := a.all (· == 1)

/-- `isVector(u, shape)` (eval.go:777-787) on shapes. -/
def isVectorShape (a shape : List Nat) : Bool :=
  match a with
  | [] => false
  | d :: rest => shape.getLast? == some d && rest.all (· == 1)

/-- `binaryMatrixOp` (eval.go:704-758): the shape of the result and which elements of the operands' data are
combined for element `k`; `none` is the `sameShape` error. -/
def matrixPlan (a b : List Nat) : Option (List Nat × (Nat → Nat × Nat)) :=
  if isScalarShape a then some (b, fun k => (0, k))
  else if isScalarShape b then some (a, fun k => (k, 0))
  else if isVectorShape a b then some (b, fun k => (k % a.headD 0, k))
  else if isVectorShape b a then some (a, fun k => (k, k % b.headD 0))
  else if a = b then some (a, fun k => (k, k))
  else none

end Verif.Par
