import Verif.Safe.Model
import Verif.Exec.Spec

/-!
# No input ends the interpreter: what the property is about

Values as the interpreter keeps them, programs as the parser makes them, and the states in which all values are like that. Nothing here refers to
the operators.
-/

namespace Verif.Safe
open Verif.Arr Verif.Num Verif.Exec
open Verif.Order (Val)

/-- A number as the interpreter keeps it: machine integers have 64 bits, and fractions are not integers. -/
def Tidy : Num → Prop
  | .int i => -(2 ^ 63) ≤ i ∧ i < 2 ^ 63
  | .char _ => True
  | .bigInt _ => True
  | .bigRat r => r.den ≠ 1

mutual
/-- A well-formed value: its numbers are tidy, and its matrices, at any depth, have a dimension at least and as many elements as the shape says. -/
def Well : Val → Prop
  | .num n => Tidy n
  | .cplx a b => Tidy a ∧ Tidy b
  | .vec l => Wells l
  | .mat s d => s ≠ [] ∧ d.length = s.prod ∧ Wells d

/-- All values of a list are well-formed. -/
def Wells : List Val → Prop
  | [] => True
  | x :: xs => Well x ∧ Wells xs
end

mutual
/-- An expression as the parser makes it: its constants are well-formed, every index expression has an index, and an index is missing only in one. -/
def WellE : Expr Val → Prop
  | .lit v => Well v
  | .hole => False
  | .var _ _ => True
  | .unary _ r => WellE r
  | .binary op l r => WellE r ∧ (if op = "=" then WellT l else WellE l)
  | .cond l r => WellE l ∧ WellE r
  | .vec es => WellEs es
  | .index l is => WellE l ∧ is ≠ [] ∧ WellIs is

/-- The expressions of a list. -/
def WellEs : List (Expr Val) → Prop
  | [] => True
  | e :: es => WellE e ∧ WellEs es

/-- The indexes of an index expression: some may be missing. -/
def WellIs : List (Expr Val) → Prop
  | [] => True
  | .hole :: es => WellIs es
  | e :: es => WellE e ∧ WellIs es

/-- What is assigned to: a variable, elements of a variable, or several of those; anything else is refused when it is tried. -/
def WellT : Expr Val → Prop
  | .index (.var _ _) is => is ≠ [] ∧ WellIs is
  | .vec es => WellTs es
  | _ => True

/-- The targets of a simultaneous assignment. -/
def WellTs : List (Expr Val) → Prop
  | [] => True
  | e :: es => WellT e ∧ WellTs es
end

mutual
/-- Reading in the order of evaluation, starting with the local variables in `a` known to have a value: the local variables known to have one
afterwards, or nothing if an element of one is assigned that may have none. What has been read has a value: otherwise reading it was an error. -/
def sure : Expr Val → List Nat → Option (List Nat)
  | .lit _, a => some a
  | .hole, a => some a
  | .var _ loc, a => some (loc :: a)
  | .unary _ r, a => sure r a
  | .binary op l r, a => (sure r a).bind fun b => if op = "=" then sureT l b else sure l b
  | .cond l r, a => (sure r a).bind fun b => sure l b
  | .vec es, a => sureRev es a
  | .index l is, a => (sureRev is a).bind fun b => sure l b

/-- The same for a list, from right to left. -/
def sureRev : List (Expr Val) → List Nat → Option (List Nat)
  | [], a => some a
  | e :: es, a => (sureRev es a).bind fun b => sure e b

/-- The same for what is assigned to. (If that is neither a variable, an element nor several of those, it is an error and nothing comes after it.) -/
def sureT : Expr Val → List Nat → Option (List Nat)
  | .var _ loc, a => some (loc :: a)
  | .index (.var _ loc) is, a => (sureRev is a).bind fun b => if loc = 0 ∨ loc ∈ b then some b else none
  | .vec es, a => sureTRev es a
  | .lit _, a => some a
  | .hole, a => some a
  | .unary _ r, a => sure r a
  | .binary op l r, a => (sure r a).bind fun b => if op = "=" then sureT l b else sure l b
  | .cond l r, a => (sure r a).bind fun b => sure l b
  | .index l is, a => (sureRev is a).bind fun b => sure l b

/-- The same for the targets of a simultaneous assignment. -/
def sureTRev : List (Expr Val) → List Nat → Option (List Nat)
  | [], a => some a
  | e :: es, a => (sureTRev es a).bind fun b => sureT e b
end

/-- The same for the statements of an operator. What the right side of a conditional does is not known to have been done. -/
def bodySure : List (Expr Val) → List Nat → Bool
  | [], _ => true
  | .cond l r :: es, a => match sure l a with
    | some b => (sure r b).isSome && bodySure es b
    | none => false
  | e :: es, a => match sure e a with
    | some b => bodySure es b
    | none => false

/-- The local variables that have values once the left operand is bound: none, if there is no left operand. -/
def sureLeft (f : Fn Val) : Bool → Option (List Nat)
  | true => match f.left with
    | some l => sureT l []
    | none => some []
  | false => some []

/-- The body of an operator, given the local variables its operands are bound to. -/
def bodyFrom (body : List (Expr Val)) : Option (List Nat) → Bool
  | some a => bodySure body a
  | none => false

/-- No element is assigned of a local variable that may have no value: in an operator called with (`bin`) or without a left operand. -/
def sureFn (f : Fn Val) (bin : Bool) : Bool :=
  match f.body with
  | none => true
  | some body => bodyFrom body ((sureLeft f bin).bind (sureT f.right))

/-- An operator as the parser makes it. -/
structure WellFn (f : Fn Val) : Prop where
  left : ∀ l, f.left = some l → WellT l
  right : WellT f.right
  body : ∀ b, f.body = some b → WellEs b

/-- All global variables and operators are well-formed. -/
structure WellEnv (g : Env Val) : Prop where
  globals : ∀ x v, g.globals x = some v → Well v
  fns : ∀ name bin f, g.lookup name bin = some f → WellFn f ∧ sureFn f bin = true
  ok : g.Ok

/-- All variables and operators are well-formed, and operators mention only local variables of their own frame. -/
structure WellCtx (c : Ctx Val) : Prop where
  env : WellEnv c.env
  slots : ∀ i v, c.slot i = some v → Well v

/-- A line as the parser makes it. What is typed outside of operators has no local variables. -/
def WellLine : Line → Prop
  | .exprs es => WellEs es ∧ ScopedAll 0 es
  | .define f body => (∀ l, f.left = some l → WellT l) ∧ WellT f.right ∧ ∀ b, body = some b → WellEs b
  | .declare f => (∀ l, f.left = some l → WellT l) ∧ WellT f.right

/-- No element is assigned of a local variable that may have no value. -/
def SureLine : Line → Prop
  | .define f (some b) => sureFn (funcVars { f with body := some b }) f.isBinary = true
  | _ => True

/-- No conditional assigns a variable on the right of its colon; and only binary operators have a left operand. -/
def PlainLine : Line → Prop
  | .define f (some b) => NoCondAssign b ∧ (f.isBinary = false → f.left = none)
  | _ => True

/-- The code itself: without guard. -/
def Conf.plain (c : Conf) : Conf := { c with guard := false }

/-- With guard. -/
def Conf.guarded (c : Conf) : Conf := { c with guard := true }

/-- An array that has elements; a single value counts as one. -/
def HasElems : Val → Prop
  | .vec l => l ≠ []
  | .mat _ d => d ≠ []
  | _ => True

/-- Not a product nor an each. -/
def F2.Simple : F2 → Prop
  | .inner _ _ => False
  | .outer _ => False
  | .each _ _ => False
  | _ => True

/-- Not a reduction, a scan nor an each. -/
def F1.Simple : F1 → Prop
  | .reduce _ => False
  | .reduceFirst _ => False
  | .scan _ _ => False
  | .scanFirst _ _ => False
  | .each _ _ => False
  | _ => True

/-- A matrix of rank one: a vector in all but name. -/
def FlatMat : Val → Prop
  | .mat s _ => s.length = 1
  | _ => False

/-- An operation ends with a well-formed value or with an error of Ivy. -/
def Ends (r : R Val) : Prop := (∃ v, r = .ok v ∧ Well v) ∨ ∃ m, r = .err m

/-- The state in which a session begins. -/
def startCtx : Ctx Val := ⟨⟨fun _ => none, fun _ => none, fun _ => none, [], []⟩, fun _ => none, 0, [], 0⟩

end Verif.Safe
