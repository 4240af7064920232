import Verif.Exec.Model

/-!
# Execution: what the properties are about

The only notions here are: which local variables an expression mentions, which of them are certain to have been
assigned when it is evaluated, and the order in which operators were last defined.  They are stated on expressions and
on histories, without reference to the evaluator.
-/

namespace Verif.Exec
open Verif.Arr (R)
variable {ν : Type}

mutual
/-- Every local variable mentioned has an index of at most `n`. -/
def Expr.Scoped (n : Nat) : Expr ν → Prop
  | .lit _ => True
  | .hole => True
  | .var _ loc => loc ≤ n
  | .unary _ r => r.Scoped n
  | .binary _ l r => l.Scoped n ∧ r.Scoped n
  | .cond l r => l.Scoped n ∧ r.Scoped n
  | .vec es => ScopedAll n es
  | .index l is => l.Scoped n ∧ ScopedAll n is

/-- The same for every expression of a list. -/
def ScopedAll (n : Nat) : List (Expr ν) → Prop
  | [] => True
  | e :: es => e.Scoped n ∧ ScopedAll n es
end

/-- An operator mentions only local variables of its own frame. -/
def Fn.Ok (f : Fn ν) : Prop :=
  ∀ body, f.body = some body →
    (∀ l, f.left = some l → l.Scoped f.locals.length) ∧ f.right.Scoped f.locals.length ∧
      ScopedAll f.locals.length body

/-- All operators are like that. -/
def Env.Ok (g : Env ν) : Prop :=
  ∀ name bin f, g.lookup name bin = some f → f.Ok

/-- A built-in operator evaluates only expressions without local variables: those it gets by parsing text. -/
inductive Act.Ok : Act ν → Prop where
  | done (r) : Act.Ok (.done r)
  | unary (op v k) : (∀ r, Act.Ok (k r)) → Act.Ok (.unary op v k)
  | binary (l op r k) : (∀ r, Act.Ok (k r)) → Act.Ok (.binary l op r k)
  | eval (e k) : e.Scoped 0 → (∀ r, Act.Ok (k r)) → Act.Ok (.eval e k)
  | look (k) : (∀ g, Act.Ok (k g)) → Act.Ok (.look k)
  | assign (x v k) : Act.Ok k → Act.Ok (.assign x v k)
  | define (f p k) : (∀ r, Act.Ok (k r)) → Act.Ok (.define f p k)
  | undefine (n b k) : (∀ r, Act.Ok (k r)) → Act.Ok (.undefine n b k)

/-- All built-in operators are like that. -/
structure Sem.Ok (S : Sem ν) : Prop where
  unaryDerived : ∀ op p v, S.unaryDerived op = some p → (p v).Ok
  binaryDerived : ∀ l op r p, S.binaryDerived l op r = some p → p.Ok
  unary : ∀ op p v, S.unary op = some p → (p v).Ok
  binary : ∀ op p l r, S.binary op = some p → (p l r).Ok

/-! ## Definite assignment -/

mutual
/-- Reading in the order of evaluation, starting with the local variables in `a` assigned: the local variables
certainly assigned once `e` has a value, or nothing if one may be read before it is assigned. -/
def Expr.assigned : Expr ν → List Nat → Option (List Nat)
  | .lit _, a => some a
  | .hole, a => some a
  | .var _ loc, a => if loc = 0 ∨ loc ∈ a then some a else none
  | .unary _ r, a => r.assigned a
  | .binary op l r, a => (r.assigned a).bind fun b => if op = "=" then l.target b else l.assigned b
  | .cond l r, a => (r.assigned a).bind fun b => l.assigned b
  | .vec es, a => assignedRev es a
  | .index l is, a => (assignedRev is a).bind fun b => l.assigned b

/-- The same for a list of expressions, from right to left. -/
def assignedRev : List (Expr ν) → List Nat → Option (List Nat)
  | [], a => some a
  | e :: es, a => (assignedRev es a).bind fun b => e.assigned b

/-- The same for an expression that is assigned to. -/
def Expr.target : Expr ν → List Nat → Option (List Nat)
  | .var _ loc, a => some (loc :: a)
  | .vec es, a => targetRev es a
  | .lit _, a => some a
  | .hole, a => some a
  | .unary _ r, a => r.assigned a
  | .binary op l r, a => (r.assigned a).bind fun b => if op = "=" then l.target b else l.assigned b
  | .cond l r, a => (r.assigned a).bind fun b => l.assigned b
  | .index l is, a => (assignedRev is a).bind fun b => l.assigned b

/-- The same for a list of expressions that are assigned to. -/
def targetRev : List (Expr ν) → List Nat → Option (List Nat)
  | [], a => some a
  | e :: es, a => (targetRev es a).bind fun b => e.target b
end

/-- No statement of the body can read a local variable that is not certainly assigned.  What the right side of a
conditional assigns is not assigned afterwards. -/
def bodyDefinite : List (Expr ν) → List Nat → Prop
  | [], _ => True
  | .cond l r :: es, a => ∃ b, l.assigned a = some b ∧ (∃ d, r.assigned b = some d) ∧ bodyDefinite es b
  | e :: es, a => ∃ b, e.assigned a = some b ∧ bodyDefinite es b

mutual
/-- The expression contains an assignment. -/
def Expr.assigns : Expr ν → Bool
  | .lit _ => false
  | .hole => false
  | .var _ _ => false
  | .unary _ r => r.assigns
  | .binary op l r => op == "=" || l.assigns || r.assigns
  | .cond l r => l.assigns || r.assigns
  | .vec es => assignsAny es
  | .index l is => l.assigns || assignsAny is

/-- One of the expressions contains an assignment. -/
def assignsAny : List (Expr ν) → Bool
  | [] => false
  | e :: es => e.assigns || assignsAny es
end

/-- No conditional statement assigns a variable on the right of its colon. -/
def NoCondAssign : List (Expr ν) → Prop
  | [] => True
  | .cond _ r :: es => r.assigns = false ∧ NoCondAssign es
  | _ :: es => NoCondAssign es

/-- The parameters of an operator called with (`bin`) or without a left argument, assigned at entry. -/
def Fn.entry (f : Fn ν) (bin : Bool) : Option (List Nat) :=
  (match bin, f.left with | true, some l => l.target [] | _, _ => some []).bind fun a => f.right.target a

/-- The operator never reads a local variable before assigning it. -/
def Fn.Definite (f : Fn ν) (bin : Bool) : Prop :=
  ∀ body, f.body = some body → ∃ a, f.entry bin = some a ∧ bodyDefinite body a

/-- All operators are like that. -/
def Env.Definite (g : Env ν) : Prop :=
  ∀ name bin f, g.lookup name bin = some f → f.Definite bin

/-- A built-in operator defines only operators like that. -/
inductive Act.Definite : Act ν → Prop where
  | done (r) : Act.Definite (.done r)
  | unary (op v k) : (∀ r, Act.Definite (k r)) → Act.Definite (.unary op v k)
  | binary (l op r k) : (∀ r, Act.Definite (k r)) → Act.Definite (.binary l op r k)
  | eval (e k) : (∀ r, Act.Definite (k r)) → Act.Definite (.eval e k)
  | look (k) : (∀ g, Act.Definite (k g)) → Act.Definite (.look k)
  | assign (x v k) : Act.Definite k → Act.Definite (.assign x v k)
  | define (f p k) : (∀ g body, p g = .ok body → (funcVars { f with body := body }).Definite f.isBinary) →
      (∀ r, Act.Definite (k r)) → Act.Definite (.define f p k)
  | undefine (n b k) : (∀ r, Act.Definite (k r)) → Act.Definite (.undefine n b k)

/-- All built-in operators are like that. -/
structure Sem.Definite (S : Sem ν) : Prop where
  unaryDerived : ∀ op p v, S.unaryDerived op = some p → (p v).Definite
  binaryDerived : ∀ l op r p, S.binaryDerived l op r = some p → p.Definite
  unary : ∀ op p v, S.unary op = some p → (p v).Definite
  binary : ∀ op p l r, S.binary op = some p → (p l r).Definite

/-! ## Histories of definitions -/

/-- What can happen to the table of operators and the global variables between two commands. -/
inductive Event (ν : Type) where
  | define (f : Fn ν) (parse : Env ν → R (Option (List (Expr ν))))
  | undefine (name : String) (bin : Bool)
  | assign (x : String) (v : ν)

/-- Is this event the definition of operator `d`? -/
def Event.defines (d : String × Bool) : Event ν → Prop
  | .define f _ => (f.name, f.isBinary) = d
  | _ => False

/-- Is this event the deletion of operator `d`? -/
def Event.deletes (d : String × Bool) : Event ν → Prop
  | .undefine n b => (n, b) = d
  | _ => False

/-- Operator `d` is defined after the history `h`, latest event last: it was defined at time `i` and neither defined
nor deleted since. -/
def DefinedAt (h : List (Event ν)) (d : String × Bool) (i : Nat) : Prop :=
  (∃ e, h[i]? = some e ∧ e.defines d) ∧ ∀ j e, i < j → h[j]? = some e → ¬ e.defines d ∧ ¬ e.deletes d

/-- The state after a history of successful definitions, deletions (successful or refused) and assignments, starting
without operators. -/
inductive Reaches (S : Sem ν) : List (Event ν) → Env ν → Prop where
  | start (g) : (∀ n b, g.lookup n b = none) → g.defs = [] → Reaches S [] g
  | define (h g f p g') : Reaches S h g → definition S g f p = (.ok (), g') → Reaches S (h ++ [.define f p]) g'
  | undefine (h g n b) : Reaches S h g → Reaches S (h ++ [.undefine n b]) (g.undefine n b).2
  | assign (h g x v) : Reaches S h g → Reaches S (h ++ [.assign x v]) (g.assign x v)

/-- A history that takes care never to assign to the name of an operator; definitions may fail. -/
inductive Careful (S : Sem ν) : Env ν → Prop where
  | start (g) : (∀ n b, g.lookup n b = none) → Careful S g
  | define (g f p) : Careful S g → (definition S g f p).1 ≠ .hang → Careful S (definition S g f p).2
  | undefine (g n b) : Careful S g → Careful S (g.undefine n b).2
  | assign (g x v) : Careful S g → (∀ b, g.lookup x b = none) → Careful S (g.assign x v)

/-- No identifier denotes both an operator and a global variable. -/
def Env.Disjoint (g : Env ν) : Prop :=
  ∀ x b, (g.lookup x b).isSome → g.globals x = none

end Verif.Exec
