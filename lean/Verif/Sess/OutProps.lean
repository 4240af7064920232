import Verif.Sess.OutLemmas

/-!
# What is printed for a line, and `_`

`shown`, `joined` and `Clean` (`OutLemmas.lean`) are the specification.
-/

namespace Verif.Sess.Out
variable {ν : Type}

/-- C102: the values of a line that are not quiet are printed in their order, with one blank between them and a newline at the end; nothing is printed if there are none.
For values whose texts are neither empty nor end with a newline. -/
theorem C102_partial (typ : V ν → List Char) (text : ν → List Char) (vs : List (V ν)) (h : ∀ v ∈ shown vs, Clean (text v)) :
    (printValues false typ text vs).1 = joined ((shown vs).map text) := by
  rw [printValues_text]
  exact values_joined text vs h

/-- C102 for all texts: before each value but the first one there is a blank, unless the text of the value is empty or ends with a newline. -/
theorem C102_all (typ : V ν → List Char) (text : ν → List Char) (vs : List (V ν)) {v : ν} {ws : List ν} (h : shown vs = v :: ws) :
    (printValues false typ text vs).1 = text v ++ (ws.flatMap fun w => (if text w = [] ∨ (text w).getLast? = some '\n' then [] else [' ']) ++ text w) ++ ['\n'] := by
  rw [printValues_text, values_shown, h]
  exact values_first text v ws

/-- C102: quiet values leave no trace, wherever they are on the line. -/
theorem C102_quiet (typ : V ν → List Char) (text : ν → List Char) (vs ws : List (V ν)) (h : shown vs = shown ws) :
    printValues false typ text vs = printValues false typ text ws := by
  apply Prod.ext
  · rw [printValues_text, printValues_text, values_shown text vs, values_shown text ws, h]
  · rw [Bool.eq_iff_iff, printValues_flag, printValues_flag, h]

/-- C102: the result says whether a value was printed. -/
theorem C102_flag (debugTypes : Bool) (typ : V ν → List Char) (text : ν → List Char) (vs : List (V ν)) :
    (printValues debugTypes typ text vs).2 = true ↔ shown vs ≠ [] := printValues_flag debugTypes typ text vs

/-- C102: `)debug types` adds a line with the types of all values, quiet ones too, and changes nothing else. -/
theorem C102_types (typ : V ν → List Char) (text : ν → List Char) (v : V ν) (vs : List (V ν)) :
    (printValues true typ text (v :: vs)).1 = (typ v ++ vs.flatMap fun w => ',' :: typ w) ++ '\n' :: (printValues false typ text (v :: vs)).1 := by
  simp only [printValues, List.isEmpty_cons, Bool.false_eq_true, if_false, if_true, List.nil_append]
  rw [types_all]
  simp

/-- C102: `_` is the last value printed, if the last value of each line is printed unless all of its values are quiet. -/
theorem C102_underscore_partial (debugTypes : Bool) (typ : V ν → List Char) (text : ν → List Char) (ls : List (Option (V ν) → List (V ν))) (u : Option (V ν))
    (h : ∀ p ∈ (session debugTypes typ text ls u).1, LastShown p.1) :
    (session debugTypes typ text ls u).2 = match ((session debugTypes typ text ls u).1.flatMap fun p => shown p.1).getLast? with
      | some v => some (.plain v)
      | none => u :=
  session_last debugTypes typ text ls u h

/-- C102 in files read by `)get`: each value is on a line of its own, and `_` is the last value printed in all cases. -/
theorem C102_file (text : ν → List Char) (vs : List (V ν)) (u : Option (V ν)) :
    fileLine text vs u = ((shown vs).flatMap fun v => text v ++ ['\n'],
      match (shown vs).getLast? with
      | some v => some (.plain v)
      | none => u) := fileLine_all text vs u

/-- C102: a line that shows one value at most prints the same in a file as in a session. -/
theorem C102_same (typ : V ν → List Char) (text : ν → List Char) (vs : List (V ν)) (u : Option (V ν)) (h : (shown vs).length ≤ 1) :
    (fileLine text vs u).1 = (after false typ text vs u).1 := by
  show _ = (printValues false typ text vs).1
  rw [fileLine_all]
  cases hs : shown vs with
  | nil => rw [printValues_text, values_shown, hs]; rfl
  | cons v ws =>
    rw [hs] at h
    obtain rfl : ws = [] := List.length_eq_zero_iff.1 (by simpa using h)
    rw [C102_all typ text vs hs]
    simp

/-- C102 fails for a line that ends with an assignment: after `3; x = 4` the variable `_` is 4, although 3 is the last value printed and assignments should not be stored
there; and it is quiet, so that the line `_` then prints nothing at all. -/
theorem C102_underscore_violated (typ : V ν → List Char) (text : ν → List Char) (three four : ν) (u : Option (V ν)) :
    session false typ text [fun _ => [.plain three, .quiet four], fun u => u.toList] u =
      ([([.plain three, .quiet four], text three ++ ['\n']), ([.quiet four], [])], some (.quiet four)) := by
  simp [session, after, printValues, values]

/-- C102 fails for texts that end with a newline: `1; "2\n"` prints 12 and an empty line. The test of the newline is for the text before the blank, but looks at the one after
it; so `"2\n"; 1` prints a blank at the beginning of the second line. -/
theorem C102_violated :
    (printValues false (fun _ => []) (fun s => s) [V.plain ['1'], .plain ['2', '\n']]).1 = ['1', '2', '\n', '\n'] ∧
    (printValues false (fun _ => []) (fun s => s) [V.plain ['2', '\n'], .plain ['1']]).1 = ['2', '\n', ' ', '1', '\n'] := by decide

/-- `1; x = 2; 34` prints `1 34`, and `_` is 34. -/
example : printValues false (fun _ => []) (fun n => (toString n).toList) [V.plain 1, .quiet 2, .plain 34] = (['1', ' ', '3', '4', '\n'], true) := by decide +kernel
example : ∀ v ∈ shown [V.plain 1, .quiet 2, .plain 34], Clean ((fun n : Nat => (toString n).toList) v) := by decide +kernel
example : shown [V.plain 1, .quiet 2, .plain 34] = 1 :: [34] := rfl
/-- The same line in a file prints 1 and 34 on two lines; a line that ends with an assignment sets `_` to the value printed. -/
example : fileLine (fun n => (toString n).toList) [V.plain 1, .quiet 2, .plain 34] none = (['1', '\n', '3', '4', '\n'], some (.plain 34)) := by decide +kernel
example : fileLine (fun n => (toString n).toList) [V.plain 3, .quiet 4] none = (['3', '\n'], some (.plain 3)) ∧ (shown [V.plain 3, .quiet 4]).length ≤ 1 := by decide +kernel
example : LastShown [V.plain 1, .quiet 2, .plain 34] := .inl ⟨34, rfl⟩
example : LastShown [V.quiet 1, .quiet 2] := .inr rfl
example : ¬LastShown [V.plain 1, .quiet 2] := by
  rintro (⟨v, h⟩ | h)
  · cases h
  · cases h

end Verif.Sess.Out
