/-!
# The output of package mobile as HTML

`escaper` and the use of it in `Eval` (`mobile/mobile.go:38-56`). `strings.NewReplacer` with old strings of one byte replaces byte by byte; as the three bytes are
no part of longer UTF-8 sequences, this is character by character.
-/

namespace Verif.Sess

/-- `mobile/mobile.go:43`: the replacement of one character. -/
def escape1 (c : Char) : List Char :=
  if c = ' ' then ['\u00a0'] else
  if c = '\t' then [' ', ' ', ' ', ' '] else
  if c = '\\' then ['&', '#', '9', '2', ';'] else [c]

/-- `mobile/mobile.go:52`: `escaper.Replace`. What is replaced is not looked at again. -/
def escape : List Char → List Char
  | [] => []
  | c :: l => escape1 c ++ escape l

end Verif.Sess
