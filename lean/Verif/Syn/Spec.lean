import Verif.Syn.Model

/-!
# Syntax: the grammar

The grammar of expressions as relations between lists of tokens and trees.  It says nothing about how a line is read:
there is no next token, no remaining input, and no order in which alternatives are tried.
-/

namespace Verif.Syn
open Verif.Arr (R)
open Verif.Exec (Expr Fn Env Sem)
variable {ν : Type}

/-- What may stand to the left of an assignment: a variable, something indexed once, or a vector of these. -/
inductive Assignable : Expr ν → Prop
  | var (x : String) (n : Nat) : Assignable (.var x n)
  | index (l : Expr ν) (is : List (Expr ν)) (h : ∀ a b, l ≠ .index a b) : Assignable (.index l is)
  | vec (es : List (Expr ν)) (h : ∀ e ∈ es, Assignable e) : Assignable (.vec es)

/-- The token stands for the unary operator `x`. -/
def UnaryTok (Γ : Names) (t : Tok ν) (x : String) : Prop :=
  t = .op x ∨ (t = .id x ∧ Γ.unary (trimAt x) = true)

/-- The token stands for the binary operator `x`. -/
def BinaryTok (Γ : Names) (t : Tok ν) (x : String) : Prop :=
  t = .op x ∨ (t = .id x ∧ Γ.binary x = true)

/-- The first element of a vector cannot be the name of a unary operator, and the others cannot be the name of any. -/
def Admits (Γ : Names) (first : Bool) : List (Tok ν) → Prop
  | .id x :: _ => (if first then Γ.unary (trimAt x) else Γ.op x) = false
  | _ => True

/-- The tree of a vector written out: a single element stands for itself. -/
def vector : List (Expr ν) → Expr ν
  | [e] => e
  | es => .vec es

mutual
/-- An expression: an operand; a unary operator applied to the whole expression on its right; or a binary operator (or an
assignment) with an operand on its left and a whole expression on its right. -/
inductive Reads (Γ : Names) : List (Tok ν) → Expr ν → Prop
  | operand {ts e} : Operand Γ ts e → Reads Γ ts e
  | unary {t x ts e} : UnaryTok Γ t x → Reads Γ ts e → Reads Γ (t :: ts) (.unary x e)
  | binary {t x ls l rs r} : Operand Γ ls l → BinaryTok Γ t x → Reads Γ rs r →
      Reads Γ (ls ++ t :: rs) (.binary x l r)
  | assign {ls l rs r} : Operand Γ ls l → Assignable l → Reads Γ rs r →
      Reads Γ (ls ++ .assign :: rs) (.binary "=" l r)

/-- An operand: one or more elements side by side, indexed or not.  If the last element is a variable, brackets after it
belong to that variable. -/
inductive Operand (Γ : Names) : List (Tok ν) → Expr ν → Prop
  | mk {v ts es us e} : Elements Γ true v ts es → Brackets Γ us (vector es) e → (us = [] ∨ v = false) →
      Operand Γ (ts ++ us) e

/-- The elements of a vector; `v` tells whether the last one is a variable. -/
inductive Elements (Γ : Names) : Bool → Bool → List (Tok ν) → List (Expr ν) → Prop
  | one {first v ts e} : Element Γ v ts e → Admits Γ first ts → Elements Γ first v ts [e]
  | more {first v w ts e us es} : Element Γ v ts e → Admits Γ first ts → Elements Γ false w us es →
      Elements Γ first w (ts ++ us) (e :: es)

/-- One element: a number, a string, a variable with its indexes, or an expression in parentheses. -/
inductive Element (Γ : Names) : Bool → List (Tok ν) → Expr ν → Prop
  | num {v} : Element Γ false [.num (some v)] (.lit v)
  | str {cs} : Element Γ false [.str (some cs)] (vector (cs.map .lit))
  | var {x ts e} : Brackets Γ ts (.var x 0) e → Element Γ true (.id x :: ts) e
  | paren {ts e} : Reads Γ ts e → Element Γ false (.lparen :: ts ++ [.rparen]) e

/-- Any number of lists of indexes in brackets; `Brackets Γ ts e e'` if `e` followed by `ts` is `e'`. -/
inductive Brackets (Γ : Names) : List (Tok ν) → Expr ν → Expr ν → Prop
  | none {e} : Brackets Γ [] e e
  | more {is l ts e e'} : Indexes Γ is l → Brackets Γ ts (.index e l) e' →
      Brackets Γ (.lbrack :: is ++ .rbrack :: ts) e e'

/-- Indexes separated by semicolons, any of which may be left out. -/
inductive Indexes (Γ : Names) : List (Tok ν) → List (Expr ν) → Prop
  | lastNone : Indexes Γ [] [.hole]
  | last {ts e} : Reads Γ ts e → Indexes Γ ts [e]
  | none {us es} : Indexes Γ us es → Indexes Γ (.semi :: us) (.hole :: es)
  | more {ts e us es} : Reads Γ ts e → Indexes Γ us es → Indexes Γ (ts ++ .semi :: us) (e :: es)
end

/-- A statement: an expression, or a conditional. -/
inductive Statement (Γ : Names) : List (Tok ν) → Expr ν → Prop
  | expr {ts e} : Reads Γ ts e → Statement Γ ts e
  | cond {ts e us f} : Reads Γ ts e → Reads Γ us f → Statement Γ (ts ++ .colon :: us) (.cond e f)

/-- A line: one or more statements separated by semicolons. -/
inductive Line (Γ : Names) : List (Tok ν) → List (Expr ν) → Prop
  | last {ts e} : Statement Γ ts e → Line Γ ts [e]
  | more {ts e us es} : Statement Γ ts e → Line Γ us es → Line Γ (ts ++ .semi :: us) (e :: es)

/-! ## Printing -/

/-- The constant is printed as one token that stands for it: a number, or a quoted character. -/
def Print.Readable (W : Print ν) (v : ν) : Prop :=
  (W.value v = .ok [.num (some v)] ∧ W.isChar v = false) ∨ (W.value v = .ok [.str (some [v])] ∧ W.isChar v = true)

/-- The token is one the scanner makes: it gives operators that are words one type, other operators another, and the
sign `=` a type of its own (`scan/scan.go:286-292, 406-409`). -/
def Print.Scanned (W : Print ν) : Tok ν → Prop
  | .op x => W.word x = false ∧ x ≠ "="
  | .id x => W.word x = true ∧ x ≠ "="
  | _ => True

/-- A constant with indexes, as in `5[1]`. -/
def constIndexed : Expr ν → Bool
  | .index (.lit _) _ => true
  | .index l _ => constIndexed l
  | _ => false

mutual
/-- What an expression must satisfy to be printed well: its constants are `Readable`, its variables do not bear the name
of an operator, and no vector has a constant with indexes among its elements. -/
def Tidy (W : Print ν) (Γ : Names) : Expr ν → Prop
  | .lit v => W.Readable v
  | .var x _ => Γ.op x = false ∧ Γ.unary (trimAt x) = false
  | .unary _ r => Tidy W Γ r
  | .binary _ l r => Tidy W Γ l ∧ Tidy W Γ r
  | .cond l r => Tidy W Γ l ∧ Tidy W Γ r
  | .vec es => TidyAll W Γ es ∧ ∀ e ∈ es, constIndexed e = false
  | .index l is => Tidy W Γ l ∧ TidyAll W Γ is
  | .hole => True

/-- All of the expressions are `Tidy`. -/
def TidyAll (W : Print ν) (Γ : Names) : List (Expr ν) → Prop
  | [] => True
  | e :: es => Tidy W Γ e ∧ TidyAll W Γ es
end

/-- The names of operators while the body of an operator named `name` with parameters `ps` is read in the context `g`:
those of the context and the operator itself, but not the parameters. -/
def inBody (builtin : Names) (g : Env ν) (name : String) (isBinary : Bool) (ps : List String) : Names where
  unary x := !ps.contains x && ((x == name && !isBinary) || (g.unaryFn x).isSome || builtin.unary x)
  binary x := !ps.contains x && ((x == name && isBinary) || (g.binaryFn x).isSome || builtin.binary x)

/-- The two contexts have operators of the same names. -/
def SameOps (g h : Env ν) : Prop := ∀ x b, (h.lookup x b).isSome = (g.lookup x b).isSome

end Verif.Syn
