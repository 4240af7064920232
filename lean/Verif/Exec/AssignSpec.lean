import Verif.Exec.Model

/-!
# Assignment of several variables: specification
-/

namespace Verif.Exec
open Verif.Arr
variable {ν : Type}

/-- A variable: a global one by its name, or a local one by its number, from 1. -/
inductive Key where
  | glob (x : String)
  | loc (i : Nat)
deriving DecidableEq

/-- The variable that an expression stands for (`loc` is zero for global variables). -/
def keyOf (x : String) (loc : Nat) : Key := if 1 ≤ loc then .loc loc else .glob x

/-- The value of a variable. -/
def Ctx.holds (c : Ctx ν) : Key → Option ν
  | .glob x => c.env.globals x
  | .loc i => c.slot (c.len - i)

/-- The variable exists: local ones are within the stack. -/
def Ctx.has (c : Ctx ν) : Key → Prop
  | .glob _ => True
  | .loc i => 1 ≤ i ∧ i ≤ c.len

/-- Assigning `v` to the variables `e`, nested in parentheses, gives the variable `k` the value `a`. -/
inductive Binds (S : Sem ν) : Expr ν → ν → Key → ν → Prop
  | var {x : String} {loc : Nat} {v : ν} : Binds S (.var x loc) v (keyOf x loc) v
  | vec {l : List (Expr ν)} {v : ν} {vs : List ν} {i : Nat} {e : Expr ν} {w : ν} {k : Key} {a : ν} :
      S.asVector v = some vs → l[i]? = some e → vs[i]? = some w → Binds S e w k a → Binds S (.vec l) v k a

/-- The value has the parts that the variables ask for. -/
inductive Fits (S : Sem ν) : Expr ν → ν → Prop
  | var {x : String} {loc : Nat} {v : ν} : Fits S (.var x loc) v
  | vec {l : List (Expr ν)} {v : ν} {vs : List ν} : S.asVector v = some vs → l.length = vs.length →
      (∀ (i : Nat) (e : Expr ν) (w : ν), l[i]? = some e → vs[i]? = some w → Fits S e w) → Fits S (.vec l) v

mutual
/-- The expression is a variable, or a list of such left sides in parentheses. -/
def Targets : Expr ν → Prop
  | .var _ _ => True
  | .vec l => TargetsL l
  | _ => False

/-- All of the expressions are. -/
def TargetsL : List (Expr ν) → Prop
  | [] => True
  | e :: es => Targets e ∧ TargetsL es
end

mutual
/-- The variables on the left side. -/
def names : Expr ν → List Key
  | .var x loc => [keyOf x loc]
  | .vec l => namesL l
  | _ => []

/-- The variables of several expressions. -/
def namesL : List (Expr ν) → List Key
  | [] => []
  | e :: es => names e ++ namesL es
end

/-- The contexts differ in the values of variables in use only. -/
structure SameBut (c c' : Ctx ν) : Prop where
  env : c'.env = { c.env with globals := c'.env.globals }
  len : c'.len = c.len
  frames : c'.frames = c.frames
  peak : c'.peak = c.peak
  above : ∀ j, c.len ≤ j → c'.slot j = c.slot j

end Verif.Exec
