import Verif.Persist.Conc
import Verif.Persist.Spec
/-
What users of concurrent `Set` rely on, stated over plain lists.
-/
namespace Verif.Persist
variable {α : Type}

/-- Make the calls one after the other on a list. -/
def setAll (l : List α) (calls : List (Nat × α)) : List α := calls.foldl (fun l c => l.set c.1 c.2) l

/-- The goroutines write different indexes: no index is used by two of them. -/
def Disjoint (calls : List (List (Nat × α))) : Prop :=
  ∀ (k k' : Nat) l l', k ≠ k' → calls[k]? = some l → calls[k']? = some l' → ∀ a ∈ l, ∀ b ∈ l', a.1 ≠ b.1

/-- All indexes are below `n`. -/
def InRange (n : Nat) (calls : List (List (Nat × α))) : Prop := ∀ l ∈ calls, ∀ a ∈ l, a.1 < n

/-- What a program can do: one call, or start goroutines that call `Set` on transient `k` and wait for all
of them. -/
inductive Event (α : Type) where
  | call (op : Op α)
  | parallel (k : Nat) (calls : List (List (Nat × α)))

/-- The allowed results on lists. -/
inductive Spec.EStep : Spec.World α → Event α → Spec.World α → Prop where
  | call {w op w'} (h : Spec.Step w op w') : EStep w (.call op) w'
  | refuse {w op} (h : ¬ Spec.Legal w op) : EStep w (.call op) w
  | parallel {w k l calls} (h : w.trans[k]? = some l) :
      EStep w (.parallel k calls) { w with trans := w.trans.set k (setAll l calls.flatten) }

/-- The results the code can have: for goroutines, any schedule that lets all of them finish. -/
inductive EStep [Inhabited α] : World α → Event α → World α → Prop where
  | call {w op w'} (h : w.step op = some w') : EStep w (.call op) w'
  | refuse {w op} (h : w.step op = none) : EStep w (.call op) w
  | parallel {w k t calls n c} (ht : w.trans[k]? = some t) (hr : InRange t.len calls) (hd : Disjoint calls)
      (r : CRun n (Cfg.start ⟨w.h, t⟩ calls) c) (hf : c.finished) :
      EStep w (.parallel k calls) { w with h := c.st.h, trans := w.trans.set k c.st.t }

/-- States reachable by calls and parallel phases in any order. -/
inductive EReach [Inhabited α] : List (Event α) → World α → Prop where
  | init : EReach [] World.init
  | snoc {es w e w'} (r : EReach es w) (s : EStep w e w') : EReach (es ++ [e]) w'

/-- The list histories. -/
inductive Spec.EReach : List (Event α) → Spec.World α → Prop where
  | init : EReach [] ⟨[], []⟩
  | snoc {es w e w'} (r : EReach es w) (s : Spec.EStep w e w') : EReach (es ++ [e]) w'

end Verif.Persist
