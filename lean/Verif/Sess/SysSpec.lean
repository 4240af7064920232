import Verif.Sess.Sys

/-!
# The lines of a file
-/

namespace Verif.Sess.Sys

/-- The lines of a text: each ends with a newline or with a carriage return and a newline, which are not part of it; the last one may lack the newline. -/
inductive Lines : List Char → List (List Char) → Prop
  | nil : Lines [] []
  | lf {l rest ls} : '\n' ∉ l → l.getLast? ≠ some '\r' → Lines rest ls → Lines (l ++ '\n' :: rest) (l :: ls)
  | crlf {l rest ls} : '\n' ∉ l → Lines rest ls → Lines (l ++ '\r' :: '\n' :: rest) (l :: ls)
  | last {l} : l ≠ [] → '\n' ∉ l → l.getLast? ≠ some '\r' → Lines l [l]
  | lastcr {l} : '\n' ∉ l → Lines (l ++ ['\r']) [l]

end Verif.Sess.Sys
