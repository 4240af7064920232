import Verif.Sess.Sys

/-!
# Demonstrations of package mobile

`Demo` and `Next` (`mobile/mobile.go:58-85`), with `bufio.Scanner` and its limit on the length of lines. The text is given by its bytes, each one a `Char`. `Eval` is a
parameter, a function of the state of the session.
-/

namespace Verif.Sess.Sys
variable {σ Out : Type}

/-- What a call of `bufio.Scanner.Scan` finds. -/
inductive Tok where
  | eof
  | tok (line rest : List Char)
  | tooLong
deriving DecidableEq

/-- One call of `Scan` (`mobile/mobile.go:78`) in a scanner with the default buffer of at most 65536 bytes, which a line has to leave room in; `acc` is the line so far, backwards. -/
def scan1 (acc : List Char) : List Char → Tok
  | [] => if acc.isEmpty then .eof else .tok (dropCR acc.reverse) []
  | c :: l => if c = '\n' then .tok (dropCR acc.reverse) l else if 65536 ≤ acc.length + 1 then .tooLong else scan1 (c :: acc) l

/-- What `Next` returns: the output and error of `Eval`, `io.EOF`, or the error of the scanner. -/
inductive Shown (Out : Type) where
  | out (o : Out)
  | eof
  | tooLong
deriving DecidableEq

/-- `mobile/mobile.go:58-61`: a demonstration; `bad` is whether the scanner has failed, which it keeps. -/
structure Demo where
  rest : List Char
  bad : Bool

/-- `mobile/mobile.go:75-85`: `Next`, with the session. -/
def Demo.next (eval : σ → List Char → σ × Out) (s : σ) (d : Demo) : Shown Out × σ × Demo :=
  if d.bad then (.tooLong, s, d) else
  match scan1 [] d.rest with
  | .eof => (.eof, s, { d with rest := [] })
  | .tooLong => (.tooLong, s, { rest := [], bad := true })
  | .tok line rest => (.out (eval s line).2, (eval s line).1, { d with rest := rest })

/-- What `n` calls of `Next` return (the use of `mobile/mobile.go:75`). -/
def Demo.nexts (eval : σ → List Char → σ × Out) : Nat → σ → Demo → List (Shown Out)
  | 0, _, _ => []
  | n + 1, s, d => (d.next eval s).1 :: Demo.nexts eval n (d.next eval s).2.1 (d.next eval s).2.2

/-- `mobile/mobile.go:64-71`: `NewDemo`; the session is reset by the caller. -/
def newDemo (input : List Char) : Demo := { rest := input, bad := false }

end Verif.Sess.Sys
