import Verif.Exec.QuietModel

/-!
# Quiet values inside of vectors: specification and lemmas
-/

namespace Verif.Exec.Quiet

mutual
/-- No part of the value is quiet. -/
def Proper : Val → Prop
  | .int _ => True
  | .quiet _ => False
  | .vec l => ProperL l

/-- No part of the values is quiet. -/
def ProperL : List Val → Prop
  | [] => True
  | v :: vs => Proper v ∧ ProperL vs
end

/-- The expression is an assignment or a call of `print`. -/
def isQuiet : Expr → Bool
  | .assign _ _ => true
  | .print _ => true
  | _ => false

mutual
/-- No element of a vector is an assignment or a call of `print`, and `print@` is not used. -/
def NoneInside : Expr → Prop
  | .int _ => True
  | .var _ => True
  | .neg e => NoneInside e
  | .print e => NoneInside e
  | .printEach _ => False
  | .assign _ e => NoneInside e
  | .vec l => NoneInsideL l

/-- None of the expressions is such a one or has one inside of a vector. -/
def NoneInsideL : List Expr → Prop
  | [] => True
  | e :: es => isQuiet e = false ∧ NoneInside e ∧ NoneInsideL es
end

/-- The variables have no quiet parts. -/
def ProperEnv (g : Env) : Prop := ∀ x v, g x = some v → Proper v

mutual
/-- What `-` should give. -/
def negated : Val → Val
  | .int n => .int (-n)
  | .quiet v => .quiet v
  | .vec l => .vec (negatedL l)

/-- Element by element. -/
def negatedL : List Val → List Val
  | [] => []
  | v :: vs => negated v :: negatedL vs
end

theorem inner_proper {v : Val} (h : Proper v) : inner v = v := by
  cases v with
  | int n => rfl
  | quiet v => cases h
  | vec l => rfl

mutual
theorem neg_works : ∀ (v : Val) (_ : Proper v), neg v = .ok (negated v) ∧ Proper (negated v)
  | .int n, _ => ⟨by rw [neg, negated], by rw [negated, Proper]; trivial⟩
  | .quiet v, h => by rw [Proper] at h; cases h
  | .vec l, h => by
    rw [Proper] at h
    have := negL_works l h
    refine ⟨?_, ?_⟩
    · rw [neg, this.1, negated]
      rfl
    · rw [negated, Proper]
      exact this.2

theorem negL_works : ∀ (l : List Val) (_ : ProperL l), negL l = .ok (negatedL l) ∧ ProperL (negatedL l)
  | [], _ => ⟨by rw [negL, negatedL], by rw [negatedL, ProperL]; trivial⟩
  | v :: vs, h => by
    rw [ProperL] at h
    have h1 := neg_works v h.1
    have h2 := negL_works vs h.2
    refine ⟨?_, ?_⟩
    · rw [negL, h1.1, h2.1, negatedL]
      rfl
    · rw [negatedL, ProperL]
      exact ⟨h1.2, h2.2⟩
end

/-- A good end: an error, or a value whose inner value is proper, as are the variables. -/
def Good (r : Res (Val × Env)) : Prop :=
  match r with
  | .ok (v, g) => Proper (inner v) ∧ ProperEnv g
  | .err => True
  | .crash => False

/-- The same for vectors. -/
def GoodL (r : Res (List Val × Env)) : Prop :=
  match r with
  | .ok (l, g) => ProperL l ∧ ProperEnv g
  | .err => True
  | .crash => False

mutual
theorem eval_good : ∀ (e : Expr) (g : Env) (_ : NoneInside e) (_ : ProperEnv g),
    Good (eval e g) ∧ (isQuiet e = false → ∀ v g', eval e g = .ok (v, g') → Proper v)
  | .int n, g, _, hg => by
    rw [eval]
    exact ⟨⟨trivial, hg⟩, fun _ v g' h => by cases h; rw [Proper]; trivial⟩
  | .var x, g, _, hg => by
    rw [eval]
    cases hx : g x with
    | none => exact ⟨trivial, fun _ v g' h => by cases h⟩
    | some v =>
      have hp := hg x v hx
      refine ⟨⟨?_, hg⟩, fun _ v g' h => by cases h; exact hp⟩
      rw [inner_proper hp]
      exact hp
  | .neg e, g, h, hg => by
    rw [NoneInside] at h
    have h1 := (eval_good e g h hg).1
    rw [eval]
    cases he : eval e g with
    | err => exact ⟨trivial, fun _ v g' h => by cases h⟩
    | crash => rw [he] at h1; cases h1
    | ok r =>
      rw [he] at h1
      have h2 := neg_works (inner r.1) h1.1
      show Good (Res.andThen (neg (inner r.1)) _) ∧ (_ → ∀ v g', Res.andThen (neg (inner r.1)) _ = _ → _)
      rw [h2.1]
      refine ⟨⟨?_, h1.2⟩, fun _ v g' h => by cases h; exact h2.2⟩
      rw [inner_proper h2.2]
      exact h2.2
  | .print e, g, h, hg => by
    rw [NoneInside] at h
    have h1 := (eval_good e g h hg).1
    rw [eval]
    refine ⟨?_, fun h => by cases h⟩
    cases he : eval e g with
    | err => trivial
    | crash => rw [he] at h1; cases h1
    | ok r =>
      rw [he] at h1
      refine ⟨?_, h1.2⟩
      show Proper (inner (.quiet (inner r.1)))
      rw [inner, inner_proper h1.1]
      exact h1.1
  | .printEach e, g, h, hg => by
    rw [NoneInside] at h
    cases h
  | .assign x e, g, h, hg => by
    rw [NoneInside] at h
    have h1 := (eval_good e g h hg).1
    rw [eval]
    refine ⟨?_, fun h => by cases h⟩
    cases he : eval e g with
    | err => trivial
    | crash => rw [he] at h1; cases h1
    | ok r =>
      rw [he] at h1
      refine ⟨?_, ?_⟩
      · show Proper (inner (.quiet (inner r.1)))
        rw [inner, inner_proper h1.1]
        exact h1.1
      · intro y v hy
        replace hy : (if y = x then some (inner r.1) else r.2 y) = some v := hy
        by_cases e : y = x
        · rw [if_pos e] at hy
          cases hy
          exact h1.1
        · rw [if_neg e] at hy
          exact h1.2 y v hy
  | .vec l, g, h, hg => by
    rw [NoneInside] at h
    have h1 := evalL_good l g h hg
    rw [eval]
    cases he : evalL l g with
    | err => exact ⟨trivial, fun _ v g' h => by cases h⟩
    | crash => rw [he] at h1; cases h1
    | ok r =>
      rw [he] at h1
      refine ⟨⟨?_, h1.2⟩, fun _ v g' h => ?_⟩
      · show Proper (.vec r.1)
        rw [Proper]
        exact h1.1
      · cases h
        rw [Proper]
        exact h1.1

theorem evalL_good : ∀ (l : List Expr) (g : Env) (_ : NoneInsideL l) (_ : ProperEnv g), GoodL (evalL l g)
  | [], g, _, hg => by
    rw [evalL]
    exact ⟨by rw [ProperL]; trivial, hg⟩
  | e :: es, g, h, hg => by
    rw [NoneInsideL] at h
    have h1 := evalL_good es g h.2.2 hg
    rw [evalL]
    cases he : evalL es g with
    | err => trivial
    | crash => rw [he] at h1; cases h1
    | ok r =>
      rw [he] at h1
      have h2 := eval_good e r.2 h.2.1 h1.2
      show GoodL (Res.andThen (eval e r.2) _)
      cases hq : eval e r.2 with
      | err => trivial
      | crash => rw [hq] at h2; cases h2.1
      | ok q =>
        rw [hq] at h2
        refine ⟨?_, h2.1.2⟩
        show ProperL (q.1 :: r.1)
        rw [ProperL]
        exact ⟨h2.2 h.1 q.1 q.2 rfl, h1.1⟩
end

end Verif.Exec.Quiet
