import Verif.Exec.Lemmas4
import Verif.Exec.Race

/-!
# Execution: the properties C34 to C39

Beside each theorem an example shows a concrete case that meets its hypotheses.
-/

namespace Verif.Exec
open Verif.Arr (R)
variable {ν : Type}

/-! ## A concrete language for the examples: integers, with `+`, `-`, `*`, `==`, and `twice`, which calls the
user-defined operator `f` two times. -/

/-- Arithmetic on integers, for the examples. -/
def arith (f : Int → Int → Int) : Option (Int → Int → Act Int) := some fun l r => .done (.ok (f l r))

/-- Integers as values, for the examples. -/
def intSem : Sem Int where
  inner := id
  quiet := id
  ofList l := l.headD 0
  asVector _ := none
  isTrue v := .ok (v != 0)
  isZero v := v == 0
  okIndex _ := none
  index _ _ := .err "cannot index"
  setIndex _ _ _ := .err "cannot index"
  unaryDerived op := if op = "twice" then some fun v => .unary "f" v fun r =>
    (match r with | .ok w => .unary "f" w .done | r => .done r) else none
  binaryDerived _ _ _ := none
  unary op := if op = "-" then some fun v => .done (.ok (-v)) else none
  binary op :=
    if op = "+" then arith (· + ·) else if op = "-" then arith (· - ·) else if op = "*" then arith (· * ·)
    else if op = "==" then arith (fun a b => if a = b then 1 else 0) else none

theorem intSem_ok : intSem.Ok := by
  refine ⟨?_, ?_, ?_, ?_⟩
  · intro op p v h
    simp only [intSem] at h
    split at h
    · cases h
      exact .unary _ _ _ fun r => by cases r <;> first | exact .done _ | exact .unary _ _ _ fun _ => .done _
    · cases h
  · intro l op r p h; simp [intSem] at h
  · intro op p v h
    simp only [intSem] at h
    split at h
    · cases h; exact .done _
    · cases h
  · intro op p l r h
    simp only [intSem, arith] at h
    split at h
    · cases h; exact .done _
    · split at h
      · cases h; exact .done _
      · split at h
        · cases h; exact .done _
        · split at h
          · cases h; exact .done _
          · cases h

theorem intSem_definite : intSem.Definite := by
  refine ⟨?_, ?_, ?_, ?_⟩
  · intro op p v h
    simp only [intSem] at h
    split at h
    · cases h
      exact .unary _ _ _ fun r => by cases r <;> first | exact .done _ | exact .unary _ _ _ fun _ => .done _
    · cases h
  · intro l op r p h; simp [intSem] at h
  · intro op p v h
    simp only [intSem] at h
    split at h
    · cases h; exact .done _
    · cases h
  · intro op p l r h
    simp only [intSem, arith] at h
    split at h
    · cases h; exact .done _
    · split at h
      · cases h; exact .done _
      · split at h
        · cases h; exact .done _
        · split at h
          · cases h; exact .done _
          · cases h

/-- No operators and no variables. -/
def noOps : Env Int := ⟨fun _ => none, fun _ => none, fun _ => none, [], []⟩

/-- A unary operator with one parameter. -/
def op1 (name x : String) (body : List (Expr Int)) : Fn Int :=
  ⟨false, name, none, .var x 0, some body, []⟩

/-- The header of a unary operator with one parameter. -/
def head1 (name x : String) : Fn Int := ⟨false, name, none, .var x 0, none, []⟩

/-- `op f n = n == 0 : 1; n * f n - 1`: the factorial. -/
def facBody : List (Expr Int) :=
  [.cond (.binary "==" (.var "n" 0) (.lit 0)) (.lit 1),
   .binary "*" (.var "n" 0) (.unary "f" (.binary "-" (.var "n" 0) (.lit 1)))]

/-- The state after the definition of the factorial. -/
def facEnv : Env Int := (definition intSem noOps (head1 "f" "n") fun _ => .ok (some facBody)).2

theorem noOps_ok : noOps.Ok := by
  intro n b f h; cases b <;> simp [noOps, Env.lookup] at h

theorem facEnv_ok : facEnv.Ok := definition_ok _ noOps_ok _ _

/-- In the body of an operator with two local variables, 7 and 8. -/
def inCall (g : Env Int) : Ctx Int := ⟨g, fun i => if i = 0 then some 7 else if i = 1 then some 8 else none, 2, [2], 1⟩

/-! ## C34 -/

/-- Every operator that a history of definitions produces has its local variables numbered within its own frame. -/
theorem C34_scoped {S : Sem ν} {h : List (Event ν)} {g : Env ν} (hr : Reaches S h g) : g.Ok := by
  induction hr with
  | start g hl _ => intro n b f hf; rw [hl] at hf; cases hf
  | define h g f p g' _ hdef ih => have := definition_ok S ih f p; rw [hdef] at this; exact this
  | undefine h g n b _ ih => exact Env.undefine_ok ih n b
  | assign h g x v _ ih => exact ih.same (fun _ _ => rfl)

example : ∃ h, Reaches intSem h facEnv ∧ h.length = 1 :=
  ⟨_, .define [] noOps (head1 "f" "n") (fun _ => .ok (some facBody)) facEnv
    (.start _ (by intro n b; cases b <;> rfl) rfl) rfl, rfl⟩

/-- **C34 (partial).**  Evaluating a unary operator - user-defined, built in, or derived from others, such as a
reduction - leaves every local variable of its caller, the frames and the depth of the stack as they were, whether it
ends with a value, an error or a run-time panic, and whatever operators it calls, defines or deletes on the way.

*Missing:* evaluation in several goroutines, for which the property fails (`C34_violated`). -/
theorem C34_unary_partial {S : Sem ν} (hS : S.Ok) (M fuel : Nat) (op : String) (v : ν) (c : Ctx ν) (hc : c.env.Ok) :
    let c' := (run S M fuel (.unary op v) c).2
    (∀ i, 1 ≤ i → c'.getLocal i = c.getLocal i) ∧ c'.frames = c.frames ∧ c'.len = c.len := by
  have h := run_keeps hS M fuel (.unary op v) 0 c hc trivial (Nat.zero_le _)
  refine ⟨fun i hi => ?_, h.frames, h.len⟩
  unfold Ctx.getLocal
  rw [h.len]
  split
  · rw [h.slot _ (by simp only [Task.own]; omega)]
  · rfl

/-- **C34 (partial).**  The same for binary operators. -/
theorem C34_binary_partial {S : Sem ν} (hS : S.Ok) (M fuel : Nat) (l : ν) (op : String) (r : ν) (c : Ctx ν)
    (hc : c.env.Ok) :
    let c' := (run S M fuel (.binary l op r) c).2
    (∀ i, 1 ≤ i → c'.getLocal i = c.getLocal i) ∧ c'.frames = c.frames ∧ c'.len = c.len := by
  have h := run_keeps hS M fuel (.binary l op r) 0 c hc trivial (Nat.zero_le _)
  refine ⟨fun i hi => ?_, h.frames, h.len⟩
  unfold Ctx.getLocal
  rw [h.len]
  split
  · rw [h.slot _ (by simp only [Task.own]; omega)]
  · rfl

/-- The factorial of 4 called from within a frame: a value, and the caller's variables are still 8 and 7. -/
example : intSem.Ok ∧ facEnv.Ok ∧
    (run intSem 10 40 (.unary "f" 4) (inCall facEnv)).1 = .ok 24 ∧
    (run intSem 10 40 (.unary "f" 4) (inCall facEnv)).2.getLocal 1 = .ok (some 8) ∧
    (run intSem 10 40 (.unary "f" 4) (inCall facEnv)).2.getLocal 2 = .ok (some 7) :=
  ⟨intSem_ok, facEnv_ok, by decide, by decide, by decide⟩

/-- Called through a built-in operator: `twice` is `f f`. -/
example : (run intSem 10 60 (.unary "twice" 3) (inCall facEnv)).1 = .ok 720 := by decide

/-- With a limit of 3 calls it ends with an error, and the caller's variables are still there. -/
example : (run intSem 3 40 (.unary "f" 4) (inCall facEnv)).1 = .err "stack overflow" ∧
    (run intSem 3 40 (.unary "f" 4) (inCall facEnv)).2.getLocal 1 = .ok (some 8) := by decide

/-- **C34 (partial).**  An expression in the body of an operator changes nothing below the frame of that operator: the
local variables of all callers stay as they were. -/
theorem C34_expr_partial {S : Sem ν} (hS : S.Ok) (M fuel : Nat) (e : Expr ν) (n : Nat) (c : Ctx ν) (hc : c.env.Ok)
    (he : e.Scoped n) (hn : n ≤ c.len) :
    let c' := (run S M fuel (.expr e) c).2
    (∀ i, n < i → c'.getLocal i = c.getLocal i) ∧ c'.frames = c.frames ∧ c'.len = c.len := by
  have h := run_keeps hS M fuel (.expr e) n c hc he hn
  refine ⟨fun i hi => ?_, h.frames, h.len⟩
  unfold Ctx.getLocal
  rw [h.len]
  split
  · rw [h.slot _ (by simp only [Task.own]; omega)]
  · rfl

/-- `y = f y` in a frame of one variable: it changes, the caller's does not. -/
example : (Expr.binary "=" (.var "y" 1) (.unary "f" (.var "y" 1)) : Expr Int).Scoped 1 ∧
    (run intSem 10 90 (.expr (.binary "=" (.var "y" 1) (.unary "f" (.var "y" 1)))) (inCall facEnv)).2.getLocal 1 =
      .ok (some 40320) ∧
    (run intSem 10 90 (.expr (.binary "=" (.var "y" 1) (.unary "f" (.var "y" 1)))) (inCall facEnv)).2.getLocal 2 =
      .ok (some 7) := ⟨by simp [Expr.Scoped], by decide, by decide⟩

/-- **C34 fails** when a user-defined operator bears the name of a built-in one and is applied to a large operand: two
goroutines that call it with the same stack can both end normally and leave the caller, whose frame had one variable,
with an empty stack; one of them has read the argument of the other. -/
theorem C34_violated : ∃ (w : List Bool) (s s' : Race.Stack) (a b : Race.Thread),
    s.len = 1 ∧ s.frames = [1] ∧
      Race.runBoth w (Race.start 10) (Race.start 20) s = some (a, b, s') ∧
      a.pc = 7 ∧ b.pc = 7 ∧ s'.len = 0 ∧ a.got = some 20 :=
  ⟨[true, false, true, true, false, false, true, false, true, false, true, true, false, false],
    ⟨[7, 0, 0], 1, [1]⟩, ⟨[7, 20, 0], 0, [1]⟩, ⟨7, 1, 10, some 20⟩, ⟨7, 1, 20, some 20⟩, by decide⟩

/-- One call after the other, all is well. -/
example : Race.runBoth [true, true, true, true, true, true, true, false, false, false, false, false, false, false]
    (Race.start 10) (Race.start 20) ⟨[7, 0, 0], 1, [1]⟩ =
    some (⟨7, 1, 10, some 10⟩, ⟨7, 1, 20, some 20⟩, ⟨[7, 20, 0], 1, [1]⟩) := by decide

/-! ## C35 -/

/-- `op g x = x == 0 : y = 5; y`: on a path where it is not assigned, `y` is read all the same. -/
def staleBody : List (Expr Int) :=
  [.cond (.binary "==" (.var "x" 0) (.lit 0)) (.binary "=" (.var "y" 0) (.lit 5)), .var "y" 0]

/-- The state after the definition of `g`. -/
def staleEnv : Env Int := (definition intSem noOps (head1 "g" "x") fun _ => .ok (some staleBody)).2

/-- Nothing on the stack, nothing ever on it. -/
def fresh (g : Env Int) : Ctx Int := ⟨g, fun _ => none, 0, [], 0⟩

/-- **C35 fails.**  `g 1` reads a variable it has not assigned.  In a fresh session that is an error; after a call of
`g 0`, which changes no global variable and leaves the same stack, `g 1` is 5. -/
theorem C35_violated : ∃ (c c' : Ctx Int), c = fresh staleEnv ∧ c' = (run intSem 10 20 (.unary "g" 0) c).2 ∧
    c.env.Ok ∧ c'.env = c.env ∧ c'.frames = c.frames ∧ c'.len = c.len ∧
    (run intSem 10 20 (.unary "g" 1) c).1 = .err "undefined local variable" ∧
    (run intSem 10 20 (.unary "g" 1) c').1 = .ok 5 :=
  ⟨_, _, rfl, rfl, definition_ok _ noOps_ok _ _, rfl, rfl, rfl, by decide, by decide⟩

/-- **C35 (partial).**  If no operator reads a local variable that it may not have assigned (`Definite`, a condition on
the text of the operators), then the outcome of a call and its effect on the global state depend only on the argument,
the global state and the number of active calls: not on anything that was or is on the stack.

*Missing:* operators that read a local variable on a path where they have not assigned it, for which the property fails
(`C35_violated`). -/
theorem C35_unary_partial {S : Sem ν} (hS : S.Ok) (hSd : S.Definite) (M fuel : Nat) (op : String) (v : ν)
    (c c' : Ctx ν) (hok : c.env.Ok) (hd : c.env.Definite) (henv : c.env = c'.env)
    (hdepth : c.frames.length = c'.frames.length) :
    (run S M fuel (.unary op v) c).1 = (run S M fuel (.unary op v) c').1 ∧
      (run S M fuel (.unary op v) c).2.env = (run S M fuel (.unary op v) c').2.env := by
  have h := (run_sim hS hSd M fuel).2 (.unary op v) c c' trivial ⟨henv, hdepth, hok, hd⟩
  exact ⟨h.same, h.base.env⟩

/-- **C35 (partial).**  The same for binary operators. -/
theorem C35_binary_partial {S : Sem ν} (hS : S.Ok) (hSd : S.Definite) (M fuel : Nat) (l : ν) (op : String) (r : ν)
    (c c' : Ctx ν) (hok : c.env.Ok) (hd : c.env.Definite) (henv : c.env = c'.env)
    (hdepth : c.frames.length = c'.frames.length) :
    (run S M fuel (.binary l op r) c).1 = (run S M fuel (.binary l op r) c').1 ∧
      (run S M fuel (.binary l op r) c).2.env = (run S M fuel (.binary l op r) c').2.env := by
  have h := (run_sim hS hSd M fuel).2 (.binary l op r) c c' trivial ⟨henv, hdepth, hok, hd⟩
  exact ⟨h.same, h.base.env⟩

/-- **C35 (partial).**  The condition of the theorems above holds of every operator none of whose conditional
statements assigns on the right of its colon. -/
theorem C35_definite_partial (f : Fn ν) (hl : f.isBinary = false → f.left = none)
    (h : ∀ body, f.body = some body → NoCondAssign body) : (funcVars f).Definite f.isBinary :=
  funcVars_definite f hl h

theorem facEnv_definite : facEnv.Definite :=
  definition_definite _ (by intro n b f h; cases b <;> simp [noOps, Env.lookup] at h) _ _ (by
    intro g body hb
    cases hb
    exact C35_definite_partial { head1 "f" "n" with body := some facBody } (fun _ => rfl)
      (by intro body hb; cases hb; simp [facBody, NoCondAssign, Expr.assigns]))

/-- The factorial is such an operator, and its value does not depend on what is on the stack. -/
example : intSem.Ok ∧ intSem.Definite ∧ facEnv.Definite ∧
    ∀ slot, (run intSem 10 40 (.unary "f" 4) ⟨facEnv, slot, 3, [3], 0⟩).1 =
      (run intSem 10 40 (.unary "f" 4) (inCall facEnv)).1 :=
  ⟨intSem_ok, intSem_definite, facEnv_definite, fun slot =>
    (C35_unary_partial intSem_ok intSem_definite 10 40 "f" 4 ⟨facEnv, slot, 3, [3], 0⟩ (inCall facEnv) facEnv_ok
      facEnv_definite rfl rfl).1⟩

/-! ## C36 -/

/-- **C36.**  Starting with at most `M` active calls, evaluation never makes them more than `M`, whatever it
evaluates: `peak` is the largest number of frames there has been at any time. -/
theorem C36_bound {S : Sem ν} (hS : S.Ok) (M fuel : Nat) (t : Task ν) (n : Nat) (c : Ctx ν) (hc : c.env.Ok)
    (ht : match t with | .expr e => e.Scoped n | .act a => a.Ok | _ => True) (hn : n ≤ c.len) (hp : c.peak ≤ M) :
    (run S M fuel t c).2.peak ≤ M := by
  have h := (run_keeps hS M fuel t n c hc (by cases t <;> exact ht) hn).peak
  omega

/-- `op f n = f n + 1` never ends, but the number of calls stays within the limit, which it reaches. -/
def loopEnv : Env Int :=
  (definition intSem noOps (head1 "f" "n") fun _ =>
    .ok (some [.unary "f" (.binary "+" (.var "n" 0) (.lit 1))])).2

example : (run intSem 5 40 (.unary "f" 0) (fresh loopEnv)).2.peak = 5 ∧
    (run intSem 5 40 (.unary "f" 0) (fresh loopEnv)).1 = .err "stack overflow" ∧
    (run intSem 5 40 (.unary "f" 0) (fresh loopEnv)).2.frames = [] := by decide

/-- **C36.**  With `M` calls active, a call of a user-defined unary operator is refused with an error, and nothing has
changed. -/
theorem C36_refused_unary (S : Sem ν) (M fuel : Nat) (op : String) (v : ν) (c : Ctx ν) (f : Fn ν)
    (hb : f.body ≠ none) (hf : c.env.unaryFn op = some f) (hd : S.unaryDerived op = none) (hM : M ≤ c.frames.length) :
    run S M (fuel + 1) (.unary op v) c = (.err "stack overflow", c) := by
  show evalUnary S M (run S M fuel) op v c = _
  unfold evalUnary
  rw [hd, hf]
  show callFn S M _ f (none, v) c = _
  unfold callFn
  cases h : f.body with
  | none => exact absurd h hb
  | some body => dsimp only; rw [if_pos hM]

/-- **C36.**  The same for binary operators. -/
theorem C36_refused_binary (S : Sem ν) (M fuel : Nat) (l : ν) (op : String) (r : ν) (c : Ctx ν) (f : Fn ν)
    (hb : f.body ≠ none) (hf : c.env.binaryFn op = some f) (hd : S.binaryDerived l op r = none)
    (hM : M ≤ c.frames.length) :
    run S M (fuel + 1) (.binary l op r) c = (.err "stack overflow", c) := by
  show evalBinary S M (run S M fuel) l op r c = _
  unfold evalBinary
  rw [hd, hf]
  show callFn S M _ f (some l, r) c = _
  unfold callFn
  cases h : f.body with
  | none => exact absurd h hb
  | some body => dsimp only; rw [if_pos hM]

example : facEnv.unaryFn "f" ≠ none ∧ intSem.unaryDerived "f" = none ∧
    run intSem 1 40 (.unary "f" 4) (inCall facEnv) = (.err "stack overflow", inCall facEnv) :=
  ⟨by simp [facEnv, definition, head1, params, paramNames, declareAll, Env.define, noVar, noOps, Env.install,
      Env.lookup, update, Env.forgetAll, funcVars, walkOpt, walk, walkBodyOpt, facBody, walkBody],
    rfl, C36_refused_unary intSem 1 39 "f" 4 (inCall facEnv)
      (funcVars { head1 "f" "n" with body := some facBody }) (by simp [funcVars, walkBodyOpt]) rfl rfl (by decide)⟩

/-- **C36.**  With fewer than `M` calls active, a call is not refused: the body runs, one frame deeper. -/
theorem C36_accepted (S : Sem ν) (M fuel : Nat) (op : String) (v : ν) (c : Ctx ν) (f : Fn ν) (body : List (Expr ν))
    (hb : f.body = some body) (hf : c.env.unaryFn op = some f) (hd : S.unaryDerived op = none)
    (hM : c.frames.length < M) :
    ∃ d : Ctx ν, d.frames.length = c.frames.length + 1 ∧ d.env = c.env ∧
      (run S M (fuel + 1) (.unary op v) c).1 =
        (runFn S (fun e c => run S M fuel (.expr e) c) f body (none, v) d).1 := by
  refine ⟨c.push f, rfl, rfl, ?_⟩
  show (evalUnary S M (run S M fuel) op v c).1 = _
  unfold evalUnary
  rw [hd, hf]
  show (callFn S M _ f (none, v) c).1 = _
  unfold callFn
  rw [hb]
  dsimp only
  rw [if_neg (by omega)]

example : (inCall facEnv).frames.length < 2 ∧ (run intSem 2 40 (.unary "f" 0) (inCall facEnv)).1 = .ok 1 := by decide

/-- **C36.**  However it ends, evaluation unwinds: the frames are those it started with. -/
theorem C36_unwinds {S : Sem ν} (hS : S.Ok) (M fuel : Nat) (t : Task ν) (n : Nat) (c : Ctx ν) (hc : c.env.Ok)
    (ht : match t with | .expr e => e.Scoped n | .act a => a.Ok | _ => True) (hn : n ≤ c.len) :
    (run S M fuel t c).2.frames = c.frames ∧ (run S M fuel t c).2.len = c.len := by
  have h := run_keeps hS M fuel t n c hc (by cases t <;> exact ht) hn
  exact ⟨h.frames, h.len⟩

example : (run intSem 3 40 (.expr (.binary "+" (.lit 1) (.unary "f" (.lit 9)))) (inCall facEnv)).1 =
      .err "stack overflow" ∧
    (run intSem 3 40 (.expr (.binary "+" (.lit 1) (.unary "f" (.lit 9)))) (inCall facEnv)).2.frames = [2] := by decide

/-! ## C37 -/

/-- **C37.**  After any history of successful definitions and of deletions, the list of definitions has no entry twice;
it contains exactly the operators defined and not deleted since; they are in the order of their latest definition; and
they are exactly the operators in the tables. -/
theorem C37_defs {S : Sem ν} {h : List (Event ν)} {g : Env ν} (hr : Reaches S h g) :
    g.defs.Nodup ∧ (∀ d, d ∈ g.defs ↔ ∃ i, DefinedAt h d i) ∧
      (g.defs.Pairwise fun a b => ∀ i j, DefinedAt h a i → DefinedAt h b j → i < j) ∧
      ∀ n b, (g.lookup n b).isSome ↔ (n, b) ∈ g.defs := by
  have := reaches_defs hr
  exact ⟨this.nodup, this.mem, this.order, this.table⟩

/-- Three definitions, the first redefined, the second deleted. -/
def threeOps : Env Int :=
  let def1 := fun (g : Env Int) (x : String) => (definition intSem g (head1 x "n") fun _ => .ok (some facBody)).2
  ((def1 (def1 (def1 (def1 noOps "f") "g") "h") "f").undefine "g" false).2

example : ∃ h, Reaches intSem h threeOps ∧ h.length = 5 ∧ threeOps.defs = [("h", false), ("f", false)] := by
  refine ⟨_, .undefine _ _ "g" false (.define _ _ (head1 "f" "n") (fun _ => .ok (some facBody)) _
    (.define _ _ (head1 "h" "n") (fun _ => .ok (some facBody)) _ (.define _ _ (head1 "g" "n")
      (fun _ => .ok (some facBody)) _ (.define [] noOps (head1 "f" "n") (fun _ => .ok (some facBody)) _
        (.start _ (by intro n b; cases b <;> rfl) rfl) rfl) rfl) rfl) rfl), rfl, by decide⟩

/-! ## C38 -/

/-- **C38 fails.**  After `op a x b = a + b`, the assignment `x = 3` is carried out: `x` is an operator and a variable
at once. -/
theorem C38_violated : ∃ (g : Env Int) (c : Ctx Int),
    definition intSem noOps ⟨true, "x", some (.var "a" 0), .var "b" 0, none, []⟩
      (fun _ => .ok (some [.binary "+" (.var "a" 0) (.var "b" 0)])) = (.ok (), g) ∧
    c = (run intSem 10 10 (.expr (.binary "=" (.var "x" 0) (.lit 3))) (fresh g)).2 ∧
    (c.env.lookup "x" true).isSome = true ∧ c.env.globals "x" = some 3 ∧
    (run intSem 10 10 (.expr (.binary "x" (.lit 1) (.var "x" 0))) c).1 = .ok 4 :=
  ⟨_, _, rfl, rfl, by decide, by decide, by decide⟩

/-- **C38 (partial).**  As long as no assignment is made to the name of an operator, no identifier denotes both an
operator and a global variable: definitions, failed or not, and deletions keep the two apart.

*Missing:* assignments to the name of an operator; nothing prevents them (`C38_violated`). -/
theorem C38_disjoint_partial {S : Sem ν} {g : Env ν} (h : Careful S g) : g.Disjoint := by
  induction h with
  | start g hl => intro x b hx; rw [hl] at hx; simp at hx
  | define g f p _ hh ih =>
    cases hdef : definition S g f p with
    | mk r g' =>
    rw [hdef] at hh
    show g'.Disjoint
    by_cases hr : r = .ok ()
    · subst hr
      obtain ⟨-, -, h3, h4, -, body, -, h6⟩ := definition_effect hdef
      intro x b hx
      by_cases hxf : x = f.name
      · rw [hxf]; exact h3
      · rw [h4 x hxf]
        refine ih x b ?_
        rw [h6, if_neg (fun h => hxf h.1)] at hx
        exact hx
    · obtain ⟨h1, h2, -⟩ := definition_failed hdef hr hh
      intro x b hx
      rw [h1] at hx
      rcases h2 x with h | h
      · rw [h]; exact ih x b hx
      · exact h.2.1
  | undefine g n b _ ih =>
    intro x b' hx
    have hg : (g.undefine n b).2.globals = g.globals := by
      unfold Env.undefine
      split
      · exact (install_rest g n b none).2.1
      · rfl
    rw [hg]
    refine ih x b' ?_
    unfold Env.undefine at hx
    split at hx
    · have hx' : ((g.install n b none).lookup x b').isSome = true := hx
      rw [Env.lookup_install] at hx'
      split at hx'
      · simp at hx'
      · exact hx'
    · exact hx
  | assign g x v _ hl ih =>
    intro y b hy
    show update g.globals x (some v) y = none
    by_cases hyx : y = x
    · subst hyx
      rw [show (g.assign y v).lookup y b = g.lookup y b from rfl, hl] at hy
      simp at hy
    · unfold update
      rw [if_neg hyx]
      exact ih y b hy

/-- The definition of the factorial, then `n = 3`. -/
example : Careful intSem (facEnv.assign "n" 3) ∧ (facEnv.assign "n" 3).globals "n" = some 3 :=
  ⟨.assign _ _ _ (.define _ _ _ (.start noOps (by intro n b; cases b <;> rfl)) (by simp [definition, head1, params,
      paramNames, declareAll, Env.define, noVar, noOps, Env.install, Env.lookup, update, funcVars]))
    (by intro b; cases b <;> rfl), rfl⟩

/-- **C38 (partial).**  A name that is a global variable with a value other than 0 is refused as the name of an
operator, and the definition of an operator removes the variable 0 of that name. -/
theorem C38_define_partial {S : Sem ν} {g g' : Env ν} {f : Fn ν} {p : Env ν → R (Option (List (Expr ν)))}
    (h : definition S g f p = (.ok (), g')) :
    g'.globals f.name = none ∧ ∀ v, g.globals f.name = some v → S.isZero v = true := by
  obtain ⟨-, -, h3, -, h5, -⟩ := definition_effect h
  exact ⟨h3, h5⟩

example : (definition intSem (noOps.assign "f" 0) (head1 "f" "n") fun _ => .ok (some facBody)).1 = .ok () ∧
    (definition intSem (noOps.assign "f" 7) (head1 "f" "n") fun _ => .ok (some facBody)).1 =
      .err "cannot define op; it is a variable" := by decide

/-! ## C39 -/

/-- **C39 fails.**  A definition whose body cannot be parsed leaves two traces: the operator, which does not exist, is
in the list of definitions, and a variable 0 of that name is gone. -/
theorem C39_violated : ∃ g : Env Int,
    definition intSem (noOps.assign "f" 0) (head1 "f" "n") (fun _ => .err "syntax error") =
      (.err "syntax error", g) ∧
    g.defs = [("f", false)] ∧ g.lookup "f" false = none ∧ g.globals "f" = none ∧
    (noOps.assign "f" 0).globals "f" = some 0 :=
  ⟨_, rfl, by decide, rfl, by decide, by decide⟩

/-- **C39 fails.**  A definition refused for its second parameter leaves the first one declared, so that from then on
the parser takes that name for a variable, even if it is that of an operator. -/
theorem C39_violated_declared : ∃ g : Env Int,
    definition intSem noOps ⟨true, "f", some (.var "iota" 0), .var "iota" 0, none, []⟩
      (fun _ => .ok (some [.lit 1])) = (.err "multiple arguments with that name", g) ∧ g.declared = ["iota"] :=
  ⟨_, rfl, by decide⟩

/-- **C39 (partial).**  What a failed definition cannot do: it leaves every operator and every global variable as it
was, but for a variable 0 bearing the name of the operator; the list of definitions can only have the operator moved or
added at its end.

*Missing:* exactly those effects, and declared parameters (`C39_violated`, `C39_violated_declared`). -/
theorem C39_failed_partial {S : Sem ν} {g g' : Env ν} {f : Fn ν} {p : Env ν → R (Option (List (Expr ν)))} {r : R Unit}
    (h : definition S g f p = (r, g')) (hr : r ≠ .ok ()) (hh : r ≠ .hang) :
    (∀ n b, g'.lookup n b = g.lookup n b) ∧
      (∀ y, g'.globals y = g.globals y ∨
        (y = f.name ∧ g'.globals y = none ∧ ∃ v, g.globals y = some v ∧ S.isZero v = true)) ∧
      (g'.defs = g.defs ∨
        ∃ l, g'.defs = l ++ [(f.name, f.isBinary)] ∧ ∀ d, d ≠ (f.name, f.isBinary) → (d ∈ l ↔ d ∈ g.defs)) := by
  obtain ⟨h1, h2, h3⟩ := definition_failed h hr hh
  refine ⟨h1, h2, ?_⟩
  rcases h3 with h3 | h3
  · exact Or.inl h3
  · right
    rw [h3]
    unfold addDef
    split
    · rename_i hl
      rw [List.getLast?_eq_some_iff] at hl
      obtain ⟨ys, hys⟩ := hl
      refine ⟨ys, hys, fun d hd => ?_⟩
      rw [hys]
      simp [hd]
    · refine ⟨_, rfl, fun d hd => ?_⟩
      generalize g.defs = l
      induction l with
      | nil => simp [dropDef]
      | cons e es ih =>
        unfold dropDef
        split
        · rename_i he
          simp [he, hd]
        · simp [ih]

/-- A failed redefinition: the old operator is still there and works. -/
example : ∃ g, definition intSem facEnv (head1 "f" "x") (fun _ => .err "syntax error") = (.err "syntax error", g) ∧
    (run intSem 10 40 (.unary "f" 4) (fresh g)).1 = .ok 24 := ⟨_, rfl, by decide⟩

end Verif.Exec
