import Verif.Arr.EvalNum

/-!
# `encode` and `decode`

Elements are the exact numbers and characters of `Verif.Num`; floating-point and complex numbers and nested elements are left out.
Times (a left operand of characters only, `value/binary.go:963-966` and `:1046-1049`) are left out: they are an error here.
`+` and `*` called through `c.EvalBinary` are the built-in ones, since names of operators of the user are identifiers.
-/

namespace Verif.Arr
open Verif.Num (Num)

/-- `value/vector.go:343-350`: `AllChars`. -/
def allChars (l : List Num) : Bool := l.all fun x => match x with | .char _ => true | _ => false

/-- Not a negative fraction. -/
def Kept : Num → Prop
  | .bigRat r => 0 ≤ r
  | _ => True

instance : (x : Num) → Decidable (Kept x)
  | .bigRat r => inferInstanceAs (Decidable (0 ≤ r))
  | .int _ => .isTrue trivial
  | .bigInt _ => .isTrue trivial
  | .char _ => .isTrue trivial

/-- `value/eval.go:917-1014`: `QuoRem`, as in `Verif.Num`. Negative fractions, which it negates in place (C12), so that the next use
of the same element is different, are left out: an error here. -/
def quoRemR (a b : Num) : R (Num × Num) :=
  if ¬ (Kept a ∧ Kept b) then .err "negated in place" else
  match Num.quoRem a b with
  | .ok z => .ok z
  | .err => .err "number"
  | .crash => .crash
  | .float => .err "float"

/-- `value/binary.go:970-975` and `:998-1003`: `get`. -/
def getOr (l : List Num) (i : Nat) : R Num := if l.length = 1 then vAt l 0 else vAt l i

/-- `value/binary.go:980-983` and `:1010-1019`: the loop of `decode`; `digit i` and `radix i` are read in this order. -/
def decodeLoop (mb : Nat) (digit radix : Nat → R Num) (n : Nat) : R Num :=
  (loop (fun i (s : Num × Num) => (digit i).bind fun d => (numOp mb .mul s.2 d).bind fun p => (numOp mb .add s.1 p).bind fun r =>
      (radix i).bind fun a => (numOp mb .mul s.2 a).bind fun q => .ok (r, q))
    (List.range n).reverse (Num.zero, .int 1)).bind fun s => .ok s.1

/-- `value/binary.go:956-990`: `decode` of vectors. -/
def decodeVec (mb : Nat) (A B : List Num) : R Num :=
  if A.length = 0 ∨ B.length = 0 then .ok Num.zero else
  if allChars A then .err "time" else
  if A.length = 1 ∨ B.length = 1 ∨ A.length = B.length then decodeLoop mb (getOr B) (getOr A) (max A.length B.length)
  else .err "decode of unequal lengths"

/-- `value/binary.go:991-1027`: `decode` with a matrix on the right. -/
def decodeMat (S : Sched) (mb : Nat) (A : List Num) (B : Mat Num) : R (V Num) :=
  (vAt B.shape 0).bind fun rows =>
  if A.length ≠ 1 ∧ rows ≠ 1 ∧ A.length ≠ rows then .err "decode of length and shape" else
  if rows = 0 then .crash else
  let len := B.data.length / rows
  let n := max A.length rows
  (pfor (S.ranges n len) (each fun j e =>
      (decodeLoop mb (fun i => vAt B.data (if rows > 1 then j + i * len else j)) (getOr A) n).bind fun x => e.put j x)
    (newEd len)).bind fun e =>
  e.publish.bind fun d =>
  if (B.shape.drop 1).length = 1 then .ok (.vec d) else (newMatrix (B.shape.drop 1) d).bind fun r => .ok (.mat r)

/-- `value/binary.go:952-1029`: `decode`, with the conversions of its operands (`value/binary.go:64-69`). -/
def decode (S : Sched) (mb : Nat) (u v : V Num) : R (V Num) :=
  u.toVec.bind fun A =>
  match v with
  | .mat B => decodeMat S mb A B
  | v => v.toVec.bind fun B => (decodeVec mb A B).bind fun x => .ok (.elem x)

/-- `value/binary.go:1060-1064`, `:1085-1090`, `:1102-1107`: the digits of `b`, stored at `pos i`. -/
def encodeCol (A : List Num) (pos : Nat → Nat) (b : Num) (e : Ed Num) : R (Ed Num) :=
  (loop (fun i (s : Ed Num × Num) => (vAt A i).bind fun a => (quoRemR s.2 a).bind fun qr => (s.1.put (pos i) qr.2).bind fun e => .ok (e, qr.1))
    (List.range A.length).reverse (e, b)).bind fun s => .ok s.1

/-- `value/binary.go:1035-1094`: `encode` of vectors. -/
def encodeVec (S : Sched) (A B : List Num) : R (V Num) :=
  if allChars A then .err "time" else
  if A.length = 1 ∧ B.length = 1 then
    (vAt B 0).bind fun b => (vAt A 0).bind fun a => (quoRemR b a).bind fun qr => .ok (.elem qr.2)
  else if B.length = 1 then
    (vAt B 0).bind fun b => (encodeCol A id b (newEd A.length)).bind fun e => e.publish.bind fun d => .ok (.vec d)
  else if A.length = 1 then
    (vAt A 0).bind fun a =>
    (loop (fun i e => (vAt B i).bind fun b => (quoRemR b a).bind fun qr => Ed.put e i qr.2) (List.range B.length) (newEd B.length)).bind fun e =>
    e.publish.bind fun d => .ok (.vec d)
  else
    (pfor (S.ranges A.length B.length) (each fun j e => (vAt B j).bind fun b => encodeCol A (fun i => j + i * B.length) b e)
      (newEd (A.length * B.length))).bind fun e =>
    e.publish.bind fun d => (newMatrix [A.length, B.length] d).bind fun r => .ok (.mat r)

/-- `value/binary.go:1095-1111`: `encode` with a matrix on the right. -/
def encodeMat (S : Sched) (A : List Num) (B : Mat Num) : R (V Num) :=
  (pfor (S.ranges A.length B.data.length) (each fun j e => (vAt B.data j).bind fun b => encodeCol A (fun i => j + i * B.data.length) b e)
    (newEd (A.length * B.data.length))).bind fun e =>
  e.publish.bind fun d => (newMatrix (A.length :: B.shape) d).bind fun r => .ok (.mat r)

/-- `value/binary.go:1031-1113`: `encode`, with the conversions of its operands (`value/binary.go:64-69`). -/
def encode (S : Sched) (u v : V Num) : R (V Num) :=
  u.toVec.bind fun A =>
  match v with
  | .mat B => encodeMat S A B
  | v => v.toVec.bind fun B => encodeVec S A B

end Verif.Arr
