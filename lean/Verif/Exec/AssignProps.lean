import Verif.Exec.AssignLemmas

/-!
# Assignment of several variables

`Binds`, `Fits` and `names` (`Verif/Exec/AssignSpec.lean`) are the specification.
-/

namespace Verif.Exec
open Verif.Arr
variable {ν : Type}

/-- C100: if the value has the parts that the left side asks for, each variable gets its part, all other variables and the rest of the context stay as they are. For
different variables, global or local, in any nesting; so it holds for the parameters of operators, too. Missing: what happens if the value does not fit, see below; indexes
on the left side. -/
theorem C100_partial (S : Sem ν) (ev : Expr ν → Ctx ν → Res ν ν) {e : Expr ν} {v : ν} (hf : Fits S e v) (hn : (names e).Nodup) (c : Ctx ν)
    (hc : ∀ k ∈ names e, c.has k) :
    ∃ c', assignTo S ev e v c = (.ok (), c') ∧ SameBut c c' ∧ (∀ k, c.has k → k ∉ names e → c'.holds k = c.holds k) ∧ ∀ k a, Binds S e v k a → c'.holds k = some a := by
  obtain ⟨c', h1, h2, h3, h4⟩ := works ev hf c hc
  exact ⟨c', h1, h2, h3, h4 hn⟩

/-- C100 for two variables: after `(x y) = y x` they are exchanged, as the right side is evaluated first. -/
theorem C100_exchange (S : Sem ν) (ev : Expr ν → Ctx ν → Res ν ν) {x y : String} (hxy : x ≠ y) {v a b : ν} (hv : S.asVector v = some [a, b]) (c : Ctx ν) :
    ∃ c', assignTo S ev (.vec [.var x 0, .var y 0]) v c = (.ok (), c') ∧ c'.env.globals x = some a ∧ c'.env.globals y = some b := by
  have hf : Fits S (.vec [.var x 0, .var y 0]) v := .vec hv rfl (by
    intro i e w he _
    match i, he with
    | 0, he => simp at he; subst he; exact .var
    | 1, he => simp at he; subst he; exact .var
    | i + 2, he => simp at he)
  obtain ⟨c', h1, _, _, h3⟩ := C100_partial S ev hf (by simp [names, namesL, keyOf, hxy]) c (by
    intro k hk
    simp [names, namesL, keyOf] at hk
    rcases hk with rfl | rfl <;> trivial)
  exact ⟨c', h1, h3 (.glob x) a (.vec hv (i := 0) rfl rfl .var), h3 (.glob y) b (.vec hv (i := 1) rfl rfl .var)⟩

/-- C100: an assignment is accepted if and only if the value has the parts. -/
theorem C100_accepted (S : Sem ν) (ev : Expr ν → Ctx ν → Res ν ν) {e : Expr ν} (ht : Targets e) (v : ν) (c : Ctx ν) (hc : ∀ k ∈ names e, c.has k) :
    (assignTo S ev e v c).1 = .ok () ↔ Fits S e v := by
  refine ⟨fits_of_ok ev e v c ht, fun h => ?_⟩
  obtain ⟨g, h1, _, _⟩ := works ev h c hc
  rw [h1]

/-- C100 fails for values that do not fit: `((b c) a) = 1 2` is an error, and yet `a` has changed. -/
theorem C100_violated (S : Sem ν) (ev : Expr ν → Ctx ν → Res ν ν) {v one two : ν} (hv : S.asVector v = some [one, two]) (h1 : S.asVector one = none) (c : Ctx ν) :
    (assignTo S ev (.vec [.vec [.var "b" 0, .var "c" 0], .var "a" 0]) v c).1 = .err "rhs of assignment not a vector" ∧
    (assignTo S ev (.vec [.vec [.var "b" 0, .var "c" 0], .var "a" 0]) v c).2.env.globals "a" = some two := by
  simp [assignTo, assignRev, hv, h1, andThen, setVar, Env.assign, update]

/-- Values for examples: numbers and vectors of them. -/
inductive Nest where
  | num (n : Int)
  | vec (l : List Nest)

/-- Just enough of the evaluator for assignments. -/
def nestSem : Sem Nest where
  inner v := v
  quiet v := v
  ofList := .vec
  asVector v := match v with
    | .vec l => some l
    | .num _ => none
  isTrue _ := .ok true
  isZero _ := false
  okIndex _ := none
  index v _ := .ok v
  setIndex v _ _ := .ok v
  unaryDerived _ := none
  binaryDerived _ _ _ := none
  unary _ := none
  binary _ := none

/-- `(a (b c)) = 1 (2 3)` fits, and `c` gets 3. -/
example : Fits nestSem (.vec [.var "a" 0, .vec [.var "b" 0, .var "c" 0]]) (.vec [.num 1, .vec [.num 2, .num 3]]) := by
  refine .vec rfl rfl fun i e w he hw => ?_
  match i, he, hw with
  | 0, he, hw => simp at he; subst he; exact .var
  | 1, he, hw =>
    simp at he hw
    subst he hw
    refine .vec rfl rfl fun j e w he hw => ?_
    match j, he with
    | 0, he => simp at he; subst he; exact .var
    | 1, he => simp at he; subst he; exact .var
    | j + 2, he => simp at he
  | i + 2, he, hw => simp at he
example : Binds nestSem (.vec [.var "a" 0, .vec [.var "b" 0, .var "c" 0]]) (.vec [.num 1, .vec [.num 2, .num 3]]) (.glob "c") (.num 3) :=
  .vec (i := 1) rfl rfl rfl (.vec (i := 1) rfl rfl rfl .var)
example : Targets (.vec [.var "a" 0, .vec [.var "b" 0, .var "c" 0]] : Expr Nest) := by simp [Targets, TargetsL]
/-- A global variable and the two local ones of a frame. -/
example : (names (.vec [.var "a" 0, .vec [.var "b" 1, .var "c" 2]] : Expr Nest)).Nodup := by decide
example (c : Ctx Nest) (h : c.len = 2) : ∀ k ∈ names (.vec [.var "a" 0, .vec [.var "b" 1, .var "c" 2]] : Expr Nest), c.has k := by
  intro k hk
  simp [names, namesL, keyOf] at hk
  rcases hk with rfl | rfl | rfl
  · trivial
  · exact ⟨by decide, by omega⟩
  · exact ⟨by decide, by omega⟩
example : (names (.vec [.var "a" 0, .vec [.var "b" 0, .var "c" 0]] : Expr Nest)).Nodup := by decide
example : nestSem.asVector (.vec [.num 1, .num 2]) = some [.num 1, .num 2] ∧ nestSem.asVector (.num 1) = none := ⟨rfl, rfl⟩

end Verif.Exec
