import Verif.Save.LemmasRead
import Verif.Save.LemmasEq
/-
Saving and reading back a variable: the property C40.

Beside each theorem an example shows a concrete case that meets its hypotheses.
-/
namespace Verif.Save
open Verif.Scan (Uni Ctx ascii ascii_ok someCtx)
open Verif.Arr (R)
open Verif.Num (CNum)

/-- The operators for the examples: `rho`. -/
def someNames : Syn.Names where
  unary x := x == "rho"
  binary x := x == "rho"

/-- An integer. -/
def vInt (i : Int) : Val := .scal (.num (.int i))

/-- A text. -/
def vText (s : String) : Val := .vec (s.toList.map charVal)

/-- C40 in full: whatever the value of a variable, the line saved for it, read in a context in which operators of the user have been
read before it, gives the variable that value. -/
def C40_full : Prop :=
  ∀ (U : Uni) (C : Ctx) (Γ : Syn.Names) (userRho : Option (Val → Val → R Val)) (x : List Char) (v : Val), Setting U C Γ x → Wf v → Back U C Γ userRho x v

/-- The examples are in these circumstances. -/
theorem someSetting : Setting ascii (someCtx 10) someNames ['x'] where
  uni := ascii_ok
  base := rfl
  rho := by decide
  word := by
    refine ⟨by simp, by decide, ?_⟩
    intro c hc
    simp at hc
    subst hc
    decide
  free := by
    refine ⟨by decide, by decide, by decide, by decide, by decide, by decide⟩
  name := ⟨'x', by simp, by decide, by decide⟩
  noOp := by decide

/-- C40: numbers (integers, rationals, complex), characters, texts of other than one character, vectors of two or more elements and matrices, of these and of one another
but with no text inside, come back as they were, if `rho` is not an operator of the user. What is missing is exactly what is refuted below. -/
theorem C40_partial {U : Uni} {C : Ctx} {Γ : Syn.Names} {x : List Char} {v : Val} (hset : Setting U C Γ x) (hw : Wf v) (hs : Savable v) :
    Back U C Γ none x v := back_of_expr hset (savable_expr hset hw hs)

/-- `1 (2 1/3 (2 2 rho "ab\ncd")) 'q' (2 2 rho 1 2 (3 4) 5j-6)` -/
def sample : Val :=
  .vec [vInt 1, .vec [vInt 2, .scal (.num (.bigRat (1/3))), .mat [2, 2] ("a\ncd".toList.map charVal)], charVal 'q',
    .mat [2, 2] [vInt 1, vInt 2, .vec [vInt 3, vInt 4], .scal (.cx ⟨.int 5, .int (-6)⟩)]]

example : Setting ascii (someCtx 10) someNames ['x'] ∧ Wf sample ∧ Savable sample ∧
    String.ofList (saveLine ascii ['x'] sample) = "x = 1 (2 1/3 (2 2 rho \"a\\ncd\")) 'q' (2 2 rho 1 2 (3 4) 5j-6)\n" := by
  refine ⟨someSetting, ?_, ?_, by decide +kernel⟩
  · have h1 : ShapeOk [2, 2] := ⟨by simp, by decide, by
      intro k h1 h2
      have : k = 1 ∨ k = 2 := by simp at h2; omega
      rcases this with rfl | rfl <;> decide⟩
    simp [sample, Wf, WfAll, ScalOk, NumOk, charVal, vInt, h1, Num.Num.isNum, Arr.vol]
    decide
  · left
    simp [sample, Inner, InnerAll, vInt, charVal, IsChar]

/-- C40, refuted: a vector of one element comes back as a scalar. -/
theorem C40_violated_one : saveLine ascii ['x'] (.vec [vInt 3]) = "x = 3\n".toList ∧
    load ascii (someCtx 10) someNames none "x = 3\n".toList = .ok ("x", vInt 3, []) ∧ ¬ Back ascii (someCtx 10) someNames none ['x'] (.vec [vInt 3]) := by
  have h1 : saveLine ascii ['x'] (.vec [vInt 3]) = "x = 3\n".toList := by decide +kernel
  have h2 : load ascii (someCtx 10) someNames none "x = 3\n".toList = .ok ("x", vInt 3, []) := by decide +kernel
  refine ⟨h1, h2, ?_⟩
  rintro ⟨w, hw, hm⟩
  rw [h1, h2] at hw
  cases hw
  cases hm

/-- C40, refuted: a vector of texts is written without closing parentheses, and cannot be read. -/
theorem C40_violated_texts : saveLine ascii ['x'] (.vec [vText "ab", vText "cd"]) = "x = (\"ab\" (\"cd\"\n".toList ∧
    (∃ m, load ascii (someCtx 10) someNames none "x = (\"ab\" (\"cd\"\n".toList = .err m) ∧ ¬ Back ascii (someCtx 10) someNames none ['x'] (.vec [vText "ab", vText "cd"]) := by
  have h1 : saveLine ascii ['x'] (.vec [vText "ab", vText "cd"]) = "x = (\"ab\" (\"cd\"\n".toList := by decide +kernel
  have h2 : ∃ m, load ascii (someCtx 10) someNames none "x = (\"ab\" (\"cd\"\n".toList = .err m := ⟨"expected right paren", by decide +kernel⟩
  refine ⟨h1, h2, ?_⟩
  rintro ⟨w, hw, hm⟩
  rw [h1] at hw
  obtain ⟨m, h2⟩ := h2
  rw [h2] at hw
  cases hw

/-- C40, refuted: a matrix with a vector as its only element comes back with a number. -/
theorem C40_violated_box : saveLine ascii ['x'] (.mat [1, 1] [.vec [vInt 1, vInt 2]]) = "x = 1 1 rho (1 2)\n".toList ∧
    load ascii (someCtx 10) someNames none "x = 1 1 rho (1 2)\n".toList = .ok ("x", .mat [1, 1] [vInt 1], []) ∧
    ¬ Back ascii (someCtx 10) someNames none ['x'] (.mat [1, 1] [.vec [vInt 1, vInt 2]]) := by
  have h1 : saveLine ascii ['x'] (.mat [1, 1] [.vec [vInt 1, vInt 2]]) = "x = 1 1 rho (1 2)\n".toList := by decide +kernel
  have h2 : load ascii (someCtx 10) someNames none "x = 1 1 rho (1 2)\n".toList = .ok ("x", .mat [1, 1] [vInt 1], []) := by decide +kernel
  refine ⟨h1, h2, ?_⟩
  rintro ⟨w, hw, hm⟩
  rw [h1, h2] at hw
  cases hw
  simp [mean, means, vInt, meanScal, meanNum] at hm

/-- C40, refuted: if the user has an operator `rho`, a matrix comes back as what that makes of it; here `op a rho b = a`. -/
theorem C40_violated_rho : saveLine ascii ['x'] (.mat [1, 2] [vInt 7, vInt 8]) = "x = 1 2 rho 7 8\n".toList ∧
    load ascii (someCtx 10) someNames (some fun u _ => .ok u) "x = 1 2 rho 7 8\n".toList = .ok ("x", .vec [vInt 1, vInt 2], []) ∧
    ¬ Back ascii (someCtx 10) someNames (some fun u _ => .ok u) ['x'] (.mat [1, 2] [vInt 7, vInt 8]) := by
  have h1 : saveLine ascii ['x'] (.mat [1, 2] [vInt 7, vInt 8]) = "x = 1 2 rho 7 8\n".toList := by decide +kernel
  have h2 : load ascii (someCtx 10) someNames (some fun u _ => .ok u) "x = 1 2 rho 7 8\n".toList = .ok ("x", .vec [vInt 1, vInt 2], []) := by decide +kernel
  refine ⟨h1, h2, ?_⟩
  rintro ⟨w, hw, hm⟩
  rw [h1, h2] at hw
  cases hw
  simp [mean, vInt] at hm

/-- C40 is violated. -/
theorem C40_violated : ¬ C40_full := fun h =>
  C40_violated_one.2.2 (h _ _ _ _ _ _ someSetting (by simp [Wf, WfAll, vInt, ScalOk, NumOk]))

end Verif.Save
