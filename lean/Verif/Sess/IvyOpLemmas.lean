import Verif.Sess.IvyOp

/-!
# The operator `ivy`: lemmas
-/

namespace Verif.Sess.Out
variable {ν : Type}

/-- What is printed for the values of a line. -/
def printed (text : ν → List Char) (vs : List (V ν)) : List Char := (printValues false (fun _ => []) text vs).1

theorem evalLoop_works (text : ν → List Char) : ∀ (ls : List (Line ν)) (prev : List (V ν)) (l : Line ν) (_ : l.vals ≠ []) (_ : ∀ m ∈ ls ++ [l], m.out = []),
    evalLoop text (ls ++ [l]) prev = (printed text prev ++ (ls.flatMap fun m => printed text m.vals) ++ printed text l.vals.dropLast, l.vals.getLast?)
  | [], prev, l, h, ho => by
    have he : l.vals.isEmpty = false := by cases hv : l.vals <;> simp_all
    have := ho l (by simp)
    simp [evalLoop, printed, he, this]
  | m :: ls, prev, l, h, ho => by
    have h1 := evalLoop_works text ls m.vals l h fun x hx => ho x (by simp at hx ⊢; exact .inr hx)
    have h2 := ho m (by simp)
    show (m.out ++ _ ++ (evalLoop text (ls ++ [l]) m.vals).1, (evalLoop text (ls ++ [l]) m.vals).2) = _
    rw [h1, h2]
    simp [printed]

end Verif.Sess.Out
