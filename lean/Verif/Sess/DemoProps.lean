import Verif.Sess.DemoLemmas

/-!
# What a demonstration of package mobile shows

`Lines`, `outputs` and `Short` are the specification.
-/

namespace Verif.Sess.Sys
variable {σ Out : Type}

/-- C98: `Next` returns the result of each line of the text in turn, evaluated in the session the lines before have left, and `io.EOF` ever after; if the lines are short.
Missing: long lines, for which it fails. -/
theorem C98_partial (eval : σ → List Char → σ × Out) (s : σ) {text : List Char} {ls : List (List Char)} (h : Lines text ls) (hs : Short text) (n : Nat) :
    (newDemo text).nexts eval n s = ((outputs eval s ls).map Shown.out ++ List.replicate n Shown.eof).take n := by
  rw [nexts_lines eval n s text hs, lines_scan h]

/-- C98 fails: a line of 65536 bytes or more ends the demonstration. Neither it nor anything after it is evaluated, however often `Next` is called. -/
theorem C98_violated (eval : σ → List Char → σ × Out) (s : σ) (line after : List Char) (hn : '\n' ∉ line) (hl : 65536 ≤ line.length) (n : Nat) :
    (newDemo (line ++ '\n' :: after)).nexts eval n s = List.replicate n .tooLong := by
  cases n with
  | zero => rfl
  | succ n =>
    have e : (newDemo (line ++ '\n' :: after)).next eval s = (.tooLong, s, { rest := [], bad := true }) := by
      simp [Demo.next, newDemo, scan1_long line [] _ hn (by decide) (by simpa using hl)]
    rw [Demo.nexts, e, nexts_bad eval n s rfl]
    rfl

/-- There are such lines. -/
example (n : Nat) (h : n = 65536) : '\n' ∉ List.replicate n '1' ∧ 65536 ≤ (List.replicate n '1').length :=
  ⟨fun hm => absurd (List.eq_of_mem_replicate hm) (by decide), by rw [List.length_replicate, h]; exact Nat.le_refl _⟩
/-- A session that counts the lines: the empty line counts, too. -/
example : (newDemo "x\n\ny".toList).nexts (fun s l => (s + 1, (s, l.length))) 5 0 = [.out (0, 1), .out (1, 0), .out (2, 1), .eof, .eof] := by decide +kernel
example : Lines "x\n\ny".toList [['x'], [], ['y']] := .lf (l := ['x']) (by decide) (by decide) (.lf (l := []) (by decide) (by decide) (.last (by decide) (by decide) (by decide)))
example : Short "x\n\ny".toList := by
  intro a m b e _
  have := congrArg List.length e
  simp only [List.length_append] at this
  have h4 : "x\n\ny".toList.length = 4 := by decide
  omega

end Verif.Sess.Sys
