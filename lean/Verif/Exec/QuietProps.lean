import Verif.Exec.QuietLemmas

/-!
# Quiet values inside of vectors

`Proper`, `NoneInside` and `negated` (`QuietLemmas.lean`) are the specification.
-/

namespace Verif.Exec.Quiet

/-- C104: evaluation does not end in a run-time fault, and no value and no variable gets a quiet part, if no element of a vector in the expression is an
assignment or a call of `print`, and `print@` is not used. -/
theorem C104_partial (e : Expr) (g : Env) (h : NoneInside e) (hg : ProperEnv g) :
    eval e g ≠ .crash ∧ ∀ v g', eval e g = .ok (v, g') → Proper (inner v) ∧ ProperEnv g' := by
  have := (eval_good e g h hg).1
  refine ⟨fun e => by rw [e] at this; exact this, fun v g' e => by rw [e] at this; exact this⟩

/-- C104: on values without quiet parts `-` gives the negated elements. -/
theorem C104_neg (v : Val) (h : Proper v) : neg v = .ok (negated v) := (neg_works v h).1

/-- C104 fails for assignments inside of a vector: `-(x = 3) 4` ends the program, for all variables and numbers. -/
theorem C104_violated (g : Env) (x : String) (m n : Int) : eval (.neg (.vec [.assign x (.int m), .int n])) g = .crash := by
  simp [eval, evalL, neg, negL, inner, Res.andThen]

/-- C104 fails for `print@`: `- print@ v` ends the program for every number and every vector that has elements. -/
theorem C104_each_violated (g : Env) (x : String) {v : Val} (hx : g x = some v) (hv : ∀ l, v = .vec l → l ≠ []) (hp : Proper v) :
    eval (.neg (.printEach (.var x))) g = .crash := by
  cases v with
  | int n => simp [eval, hx, inner, printEach, neg, negL, Res.andThen]
  | quiet v => cases hp
  | vec l =>
    cases l with
    | nil => exact absurd rfl (hv [] rfl)
    | cons w l => simp [eval, hx, inner, printEach, neg, negL, Res.andThen]

/-- C104: a left operand without quiet parts is taken apart by `@`: `1 2 @+ 3` is `4 5`, and likewise for all numbers. -/
theorem C104_left (l : List Int) (n : Int) : leftEach plus (.vec (l.map .int)) (.int n) = .ok (.vec (l.map fun m => .int (m + n))) := by
  have key : ∀ l : List Int, eachL (fun x => plus x (inner (.int n))) (l.map .int) = .ok (l.map fun m => .int (m + n)) := by
    intro l
    induction l with
    | nil => rfl
    | cons m l ih =>
      rw [List.map_cons, eachL, ih]
      rfl
  rw [leftEach, parts, key]
  rfl

/-- C104 fails for a left operand that is an assignment: it is not taken apart, so `(x = 1 2) @+ 3` is a vector of one element, the vector `4 5`. -/
theorem C104_left_violated (x : String) (g : Env) : ∃ v g', eval (.assign x (.vec [.int 1, .int 2])) g = .ok (v, g') ∧
    leftEach plus v (.int 3) = .ok (.vec [.vec [.int 4, .int 5]]) := by
  refine ⟨.quiet (.vec [.int 1, .int 2]), _, by simp [eval, evalL, Res.andThen, inner]; rfl, ?_⟩
  simp [leftEach, parts, eachL, plus, inner, Res.andThen]

/-- C104: a fault may come later; there are two lines of which neither is wrong by itself: after `y = (x = 3) 4` the line `-y` ends the program. -/
theorem C104_later_violated (g : Env) : ∃ v g', eval (.assign "y" (.vec [.assign "x" (.int 3), .int 4])) g = .ok (v, g') ∧ eval (.neg (.var "y")) g' = .crash := by
  refine ⟨_, _, by simp [eval, evalL, Res.andThen]; exact ⟨rfl, rfl⟩, ?_⟩
  simp [eval, neg, negL, inner, Res.andThen]

/-- C104 and C102: after `3; x = 4` the variable `_` is quiet, and the line `-_ 1` ends the program. -/
theorem C104_underscore_violated (g : Env) (v : Val) (h : g "_" = some (.quiet v)) : eval (.neg (.vec [.var "_", .int 1])) g = .crash := by
  simp [eval, evalL, neg, negL, inner, Res.andThen, h]

/-- `-(- x = 3) 4` has an assignment inside of a vector, but not as an element. -/
example : NoneInside (.neg (.vec [.neg (.assign "x" (.int 3)), .int 4])) := by simp [NoneInside, NoneInsideL, isQuiet]
example : (match eval (.neg (.vec [.neg (.assign "x" (.int 3)), .int 4])) (fun _ => none) with
    | .ok (.vec [.int a, .int b], g) => (a, b, match g "x" with | some (.int c) => c | _ => (0 : Int))
    | _ => (0, 0, 0)) = ((3, -4, 3) : Int × Int × Int) := by decide +kernel
example : NoneInside (.print (.vec [.int 3, .int 4])) := by simp [NoneInside, NoneInsideL, isQuiet]
/-- `- print@ 1 2` is a case of `C104_each_violated`. -/
example : eval (.neg (.printEach (.vec [.int 1, .int 2]))) (fun _ => none) = .crash := by simp [eval, evalL, inner, printEach, neg, negL, Res.andThen]
example : leftEach plus (.vec [.int 1, .int 2]) (.int 3) = .ok (.vec [.int 4, .int 5]) := C104_left [1, 2] 3
example : ProperEnv fun _ => none := fun _ _ h => by cases h
example : Proper (.vec [.int 1, .vec [.int 2]]) ∧ negated (.vec [.int 1, .vec [.int 2]]) = .vec [.int (-1), .vec [.int (-2)]] := by
  simp [Proper, ProperL, negated, negatedL]

end Verif.Exec.Quiet
