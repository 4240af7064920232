import Verif.Sess.Html

/-!
# What the user of package mobile sees

`app`, `browser` and `seen` are the specification: they follow the comment in `mobile/mobile.go:38-42`, by which `<` and `>` are handled by the application and
runs of spaces are collapsed. The character references are the one that the code uses, those for `<` and `>`, and that for `&`.
Newlines are left to the application.
-/

namespace Verif.Sess

/-- The application's part: `<` and `>` are written as references. -/
def app : List Char → List Char
  | [] => []
  | '<' :: l => '&' :: 'l' :: 't' :: ';' :: app l
  | '>' :: l => '&' :: 'g' :: 't' :: ';' :: app l
  | c :: l => c :: app l

/-- What a browser shows: references are replaced by their characters, and of blanks in a row only one is shown. `b` is whether the last character was a blank. -/
def browser (b : Bool) : List Char → List Char
  | [] => []
  | '&' :: '#' :: '9' :: '2' :: ';' :: l => '\\' :: browser false l
  | '&' :: 'l' :: 't' :: ';' :: l => '<' :: browser false l
  | '&' :: 'g' :: 't' :: ';' :: l => '>' :: browser false l
  | '&' :: 'a' :: 'm' :: 'p' :: ';' :: l => '&' :: browser false l
  | c :: l =>
    if c = ' ' ∨ c = '\t' then (if b then browser true l else ' ' :: browser true l)
    else (if c = '\u00a0' then ' ' else c) :: browser false l

/-- What the user sees of a text that ivy has printed. -/
def seen (text : List Char) : List Char := browser false (app (escape text))

end Verif.Sess
