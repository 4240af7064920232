import Verif.Sess.HtmlLemmas

/-!
# What the user of package mobile sees
-/

namespace Verif.Sess

/-- C96, for texts without tabs and `&`: the user sees what was printed, with every space (a no-break space shows as a space). Missing: tabs and `&`, for which it fails. -/
theorem C96_partial (text : List Char) (h : ∀ c ∈ text, c ≠ '\t' ∧ c ≠ '&') : seen text = text.map fun c => if c = '\u00a0' then ' ' else c :=
  browser_any text false h

/-- C96: two such texts that look alike are the same, up to the kind of the spaces. -/
theorem C96_distinct (x y : List Char) (hx : ∀ c ∈ x, c ≠ '\t' ∧ c ≠ '&' ∧ c ≠ '\u00a0') (hy : ∀ c ∈ y, c ≠ '\t' ∧ c ≠ '&' ∧ c ≠ '\u00a0')
    (h : seen x = seen y) : x = y := by
  rw [C96_partial x fun c hc => ⟨(hx c hc).1, (hx c hc).2.1⟩, C96_partial y fun c hc => ⟨(hy c hc).1, (hy c hc).2.1⟩] at h
  have key : ∀ l : List Char, (∀ c ∈ l, c ≠ '\t' ∧ c ≠ '&' ∧ c ≠ '\u00a0') → (l.map fun c => if c = '\u00a0' then ' ' else c) = l := by
    intro l hl
    conv => rhs; rw [← List.map_id l]
    apply List.map_congr_left
    intro c hc
    rw [if_neg (hl c hc).2.2]
    rfl
  rwa [key x hx, key y hy] at h

/-- C96 fails: a tab becomes four spaces that HTML collapses, so that `1`, two tabs and `2` look like `1 2`; and a text that contains a reference, like `&lt;`, looks
like another. -/
theorem C96_violated : seen "1\t\t2".toList = "1 2".toList ∧ seen "&lt;".toList = seen "<".toList ∧ seen "&#92;".toList = seen "\\".toList := by decide +kernel

/-- A row of a table, and a program. -/
example : seen " 1  2\n10 20 <- \\".toList = " 1  2\n10 20 <- \\".toList := by decide +kernel
example : ∀ c ∈ " 1  2\n10 20 <- \\".toList, c ≠ '\t' ∧ c ≠ '&' ∧ c ≠ '\u00a0' := by decide +kernel
/-- Without the escaper rows of spaces would be lost. -/
example : browser false (app " 1  2".toList) = " 1 2".toList := by decide +kernel

end Verif.Sess
