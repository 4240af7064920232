import Verif.Sess.IvyOpLemmas

/-!
# What the operator `ivy` prints and gives

`eval` "prints every value but the last, and returns the last" (`run/run.go:104-106`). The specification is written with `printed`, what a session prints for a line (C102).
-/

namespace Verif.Sess.Out
variable {ν : Type}

/-- C103: if the last line of the text is an expression, and no line but the first writes anything while it is evaluated, the values of all lines are printed in order, line by line, but for
the last value of all, which is the result. -/
theorem C103_partial (text : ν → List Char) (first : Line ν) (ls : List (Line ν)) (l : Line ν) (h : l.vals ≠ []) (ho : ∀ m ∈ ls ++ [l], m.out = []) :
    eval text (first :: (ls ++ [l])) = (first.out ++ printed text first.vals ++ (ls.flatMap fun m => printed text m.vals) ++ printed text l.vals.dropLast, l.vals.getLast?) := by
  show (first.out ++ printed text [] ++ (evalLoop text (ls ++ [l]) first.vals).1, (evalLoop text (ls ++ [l]) first.vals).2) = _
  rw [evalLoop_works text ls first.vals l h ho]
  simp [printed, printValues]

/-- C103 for a text of one line: all its values but the last are printed, the last is the result. -/
theorem C103_one (text : ν → List Char) (l : Line ν) (h : l.vals ≠ []) : eval text [l] = (l.out ++ printed text l.vals.dropLast, l.vals.getLast?) := by
  have he : l.vals.isEmpty = false := by cases hv : l.vals <;> simp_all
  simp [eval, evalLoop, he, printed, printValues]

/-- C103, the result alone: whatever the lines write, it is the last value of all if the last line is an expression. -/
theorem C103_result (text : ν → List Char) (ls : List (Line ν)) (l : Line ν) (h : l.vals ≠ []) :
    (eval text (ls ++ [l])).2 = ((ls ++ [l]).flatMap (·.vals)).getLast? := by
  have key : ∀ (ls : List (Line ν)) (prev : List (V ν)), (evalLoop text (ls ++ [l]) prev).2 = l.vals.getLast? := by
    intro ls
    induction ls with
    | nil =>
      intro prev
      have he : l.vals.isEmpty = false := by cases hv : l.vals <;> simp_all
      simp [evalLoop, he]
    | cons m ls ih => exact fun prev => ih m.vals
  rw [eval, key, List.flatMap_append, List.getLast?_append]
  cases hv : l.vals.getLast? with
  | none => exact absurd (List.getLast?_eq_none_iff.1 hv) h
  | some v => simp [hv]

/-- C103 fails if the text ends with a blank line, a comment, a definition or a command: its last value is printed in place of being the result, which is nil (then `IvyEval` gives
an empty vector): `ivy "3\n\n"` prints 3 and gives an empty vector. -/
theorem C103_result_violated (text : ν → List Char) (three : ν) : eval text [⟨[], [.plain three]⟩, ⟨[], []⟩] = (text three ++ ['\n'], none) := by
  simp [eval, evalLoop, printValues, values]

/-- C103 fails for lines that print: the values of a line are printed after the next line has been evaluated, so `ivy "1\nprint 2\n3"` prints 2 before 1. -/
theorem C103_order_violated (text : ν → List Char) (one two three : ν) :
    eval text [⟨[], [.plain one]⟩, ⟨text two ++ ['\n'], [.quiet two]⟩, ⟨[], [.plain three]⟩] = (text two ++ ['\n'] ++ (text one ++ ['\n']), some (.plain three)) := by
  simp [eval, evalLoop, printValues, values]

/-- `ivy "1; 2\n3; 4"` prints `1 2` and `3`, and gives 4. -/
example : eval (fun n => (toString n).toList) [⟨[], [V.plain 1, .plain 2]⟩, ⟨[], [.plain 3, .plain 4]⟩] = (['1', ' ', '2', '\n', '3', '\n'], some (.plain 4)) := by decide +kernel
example : (⟨[], [.plain 3, .plain 4]⟩ : Line Nat).vals ≠ [] ∧ ∀ m ∈ ([] : List (Line Nat)) ++ [⟨[], [.plain 3, .plain 4]⟩], m.out = [] := by decide

end Verif.Sess.Out
