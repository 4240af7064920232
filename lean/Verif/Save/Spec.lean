import Verif.Save.Model
import Verif.Scan.Spec
import Verif.Num.Spec
import Verif.Arr.Spec
/-
What a saved variable should come back as.
-/
namespace Verif.Save
open Verif.Scan (Uni Ctx)
open Verif.Arr (R)
open Verif.Num (CNum)

/-- What a value stands for: a character, a (complex) number, or an array of such things; not how it is represented. -/
inductive Mean where
  | char (c : Int)
  | num (re im : Rat)
  | arr (shape : List Nat) (l : List Mean)

/-- What a number or a character stands for. -/
def meanNum : Num.Num → Mean
  | .char c => .char c
  | n => .num n.val 0

/-- What a scalar stands for. -/
def meanScal : CNum → Mean
  | .num n => meanNum n
  | .cx c => .num c.re.val c.im.val

mutual
/-- What a value stands for. -/
def mean : Val → Mean
  | .scal x => meanScal x
  | .vec l => .arr [l.length] (means l)
  | .mat s d => .arr s (means d)

/-- What the elements stand for. -/
def means : List Val → List Mean
  | [] => []
  | v :: l => mean v :: means l
end

/-- A character is a code point of Unicode. -/
def NumOk : Num.Num → Prop
  | .char c => 0 ≤ c ∧ c.toNat.isValidChar
  | _ => True

/-- The parts of a complex number are not characters. -/
def ScalOk : CNum → Prop
  | .num n => NumOk n
  | .cx c => c.re.isNum ∧ c.im.isNum

/-- The dimensions are such that `rho` accepts them. -/
def ShapeOk (s : List Nat) : Prop :=
  s ≠ [] ∧ (∀ d ∈ s, d ≤ 2147483647) ∧ ∀ k, 1 ≤ k → k ≤ s.length → Arr.vol (s.take k) ≤ 2147483647

mutual
/-- A value as the interpreter has them: a matrix has as many elements as its shape says. -/
def Wf : Val → Prop
  | .scal x => ScalOk x
  | .vec l => WfAll l
  | .mat s d => ShapeOk s ∧ d.length = Arr.vol s ∧ WfAll d

/-- All elements are so. -/
def WfAll : List Val → Prop
  | [] => True
  | v :: l => Wf v ∧ WfAll l
end

/-- The element is a character. -/
def IsChar : Val → Prop
  | .scal (.num (.char _)) => True
  | _ => False

/-- The value is a scalar. -/
def IsScal : Val → Prop
  | .scal _ => True
  | _ => False

mutual
/-- The value is one that `put` writes well inside of another: no text, and no vector of fewer than two elements. -/
def Inner : Val → Prop
  | .scal _ => True
  | .vec l => 2 ≤ l.length ∧ (∃ v ∈ l, ¬ IsChar v) ∧ InnerAll l
  | .mat _ d => (∀ v ∈ d, IsChar v) ∨ (2 ≤ d.length ∧ InnerAll d) ∨ (∃ v, d = [v] ∧ IsScal v)

/-- All elements are so. -/
def InnerAll : List Val → Prop
  | [] => True
  | v :: l => Inner v ∧ InnerAll l
end

/-- The value is one that `put` writes well: text of other than one character, or as inside of others. -/
def Savable (v : Val) : Prop := Inner v ∨ ∃ l, v = .vec l ∧ l.length ≠ 1 ∧ ∀ x ∈ l, IsChar x

/-- The circumstances in which the variable `x` is read: base 10, `rho` is known, `x` is a name. -/
structure Setting (U : Uni) (C : Ctx) (Γ : Syn.Names) (x : List Char) : Prop where
  uni : U.Ok
  base : C.base = 10
  rho : C.predefined "rho".toList = true ∧ C.binary "rho".toList = true ∧ Γ.binary "rho" = true
  word : Scan.Word U x
  free : Scan.Free C x
  name : ∃ c ∈ x, c ≠ 'j' ∧ Scan.isDigit c = false
  noOp : Γ.unary (String.ofList x) = false ∧ Γ.binary (String.ofList x) = false

/-- The variable comes back. -/
def Back (U : Uni) (C : Ctx) (Γ : Syn.Names) (userRho : Option (Val → Val → R Val)) (x : List Char) (v : Val) : Prop :=
  ∃ w, load U C Γ userRho (saveLine U x v) = .ok (String.ofList x, w, []) ∧ mean w = mean v

end Verif.Save
