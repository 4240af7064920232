import Verif.Sess.SysSpec

/-!
# What a demonstration should show
-/

namespace Verif.Sess.Sys
variable {σ Out : Type}

/-- The outputs of the lines, one evaluated after the other. -/
def outputs (eval : σ → List Char → σ × Out) : σ → List (List Char) → List Out
  | _, [] => []
  | s, l :: ls => (eval s l).2 :: outputs eval (eval s l).1 ls

/-- No line has 65536 bytes or more. -/
def Short (text : List Char) : Prop := ∀ a m b, text = a ++ m ++ b → '\n' ∉ m → m.length < 65536

end Verif.Sess.Sys
