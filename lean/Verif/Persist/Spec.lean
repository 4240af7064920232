import Verif.Persist.Model
/-
What users of persistent slices rely on, stated over plain lists. Nothing here mentions trees, owners or
tails.
-/
namespace Verif.Persist
variable {α : Type}

/-- The abstract program state: every slice and every transient is just a list. -/
structure Spec.World (α : Type) where
  slices : List (List α)
  trans : List (List α)

/-- The allowed results of one call on lists. -/
inductive Spec.Step : Spec.World α → Op α → Spec.World α → Prop where
  | newSlice {w} : Step w .newSlice { w with slices := w.slices ++ [[]] }
  | newTrans {w} : Step w .newTrans { w with trans := w.trans ++ [[]] }
  | transient {w k l} (h : w.slices[k]? = some l) : Step w (.transient k) { w with trans := w.trans ++ [l] }
  | persist {w k l} (h : w.trans[k]? = some l) : Step w (.persist k) { w with slices := w.slices ++ [l] }
  | set {w k l i x} (h : w.trans[k]? = some l) (hi : i < l.length) :
      Step w (.set k (i : Nat) x) { w with trans := w.trans.set k (l.set i x) }
  | append {w k l xs} (h : w.trans[k]? = some l) :
      Step w (.append k xs) { w with trans := w.trans.set k (l ++ xs) }
  /-- elements added by growing are undefined (slice.go:502) -/
  | resize {w k l n l'} (h : w.trans[k]? = some l) (hlen : l'.length = n)
      (hkeep : ∀ i, i < n → i < l.length → l'[i]? = l[i]?) :
      Step w (.resize k n) { w with trans := w.trans.set k l' }

/-- The calls a correct program may make: existing handles, indexes in range. -/
def Spec.Legal (w : Spec.World α) : Op α → Prop
  | .newSlice => True
  | .newTrans => True
  | .transient k => k < w.slices.length
  | .persist k => k < w.trans.length
  | .set k i _ => ∃ l, w.trans[k]? = some l ∧ 0 ≤ i ∧ i < l.length
  | .append k _ => k < w.trans.length
  | .resize k _ => k < w.trans.length

/-- A list history in which every call is legal and has an allowed result. Illegal calls change nothing. -/
inductive Spec.Run : Spec.World α → List (Op α) → Spec.World α → Prop where
  | nil {w} : Run w [] w
  | step {w w' w'' op ops} (h : Step w op w') (r : Run w' ops w'') : Run w (op :: ops) w''
  | refuse {w w'' op ops} (h : ¬ Legal w op) (r : Run w ops w'') : Run w (op :: ops) w''

/-- The slice reads as the list `l` through `Len` and `At`: every index in range gives the element, every
other index panics. -/
def Reads [Inhabited α] (h : Heap α) (s : Slice) (l : List α) : Prop :=
  s.len = l.length ∧ ∀ i : Int, s.at h i = if 0 ≤ i then l[i.toNat]? else none

/-- The transient reads as the list `l` through its own `Len` and `At`. -/
def ReadsT [Inhabited α] (h : Heap α) (t : Trans) (l : List α) : Prop :=
  t.len = l.length ∧ ∀ i : Int, t.at h i = if 0 ≤ i then l[i.toNat]? else none

/-- A concrete state shows the abstract one. -/
structure Shows [Inhabited α] (w : Verif.Persist.World α) (a : Spec.World α) : Prop where
  nslices : w.slices.length = a.slices.length
  ntrans : w.trans.length = a.trans.length
  slices : ∀ (k : Nat) s l, w.slices[k]? = some s → a.slices[k]? = some l → Reads w.h s l
  trans : ∀ (k : Nat) t l, w.trans[k]? = some t → a.trans[k]? = some l → ReadsT w.h t l

/-- The transient a call is made on, if any. -/
def Op.on : Op α → Option Nat
  | .persist k => some k
  | .set k _ _ => some k
  | .append k _ => some k
  | .resize k _ => some k
  | _ => none

/-- The calls that the documentation allows, in terms of what the program can see: the handle exists and an
index is below the reported length. -/
def Callable (w : Verif.Persist.World α) : Op α → Prop
  | .newSlice => True
  | .newTrans => True
  | .transient k => k < w.slices.length
  | .persist k => k < w.trans.length
  | .set k i _ => ∃ t, w.trans[k]? = some t ∧ 0 ≤ i ∧ i < t.len
  | .append k _ => k < w.trans.length
  | .resize k _ => k < w.trans.length

end Verif.Persist
