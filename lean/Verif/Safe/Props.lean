import Verif.Safe.Lemmas6
import Verif.Order.Lemmas4
import Verif.Arr.Props

/-!
# Property C45: no input ends the interpreter

The code violates it: there are operations on arrays without elements that end in a run-time fault (`C45_violated` and what follows). What does hold:
the faults are those, and no others. `C45_operators_partial` is about the code as it is and arrays that have elements; `C45_session_partial` and
`C45_code_partial` are about all sessions, with derived operators, nested arrays, definitions and recursion.
-/

namespace Verif.Safe
open Verif.Arr
open Verif.Exec (Expr Fn)
open Verif.Order (Val)

/-- The property as it should be: whatever well-formed lines a session consists of, none ends in a run-time fault. -/
def C45_full : Prop := ∀ (c : Conf) (maxStack fuel : Nat) (ls : List Line), (∀ l ∈ ls, WellLine l) →
  ∀ r ∈ session c.plain maxStack fuel ls startCtx, r ≠ .crash

/-! ## The code violates it -/

/-- A configuration: four processors, `)origin 1`, `)maxbits 1000`. -/
def conf : Conf := ⟨pforSched 4 1 (by decide) (by decide), 1000, 1, Order.stableLib, false⟩

/-- The vector of these integers. -/
def lits (l : List Int) : Expr Val := .lit (.vec (l.map fun i => .num (.int i)))

/-- `0 2 rho 1`, a matrix without elements. -/
def emptyMat : Expr Val := .binary "rho" (lits [0, 2]) (lits [1])

/-- `iota 0`, a vector without elements. -/
def emptyVec : Expr Val := .unary "iota" (.lit (.num (.int 0)))

/-- `2 2 rho 1`. -/
def ones : Expr Val := .binary "rho" (lits [2, 2]) (lits [1])

/-- What the code does with one expression. -/
def outcome (e : Expr Val) : R (List Val) := (runLine conf 10 20 (.exprs [e]) startCtx).1

/-- `2 0 rho 1`, a matrix without columns. -/
def noCols : Expr Val := .binary "rho" (lits [2, 0]) (lits [1])

/-- Expressions that end the interpreter: `up 0 2 rho 1`, `down 0 2 rho 1`, `transp 2 0 rho 1`, `inv 2 2 0 2 rho 1`, `1 rot 2 0 rho 1`,
`1 flip 0 2 rho 1`, `2 decode 0 2 rho 1`, `(iota 0) decode 1 2 rho 1`, `(iota 0) iota 2 2 rho 1`, `(0 2 rho 1) iota 2 2 rho 1`,
`(0 2 rho 1), iota 0`, `1 sel 0 2 rho 1`, `1 part 0 2 rho 1`, `(2 0 rho 1) +.* 0 2 rho 1`, `(2 0 rho 1)[1]`,
`(iota 0)[(iota 0) (iota 0)]`. -/
def faults : List (Expr Val) :=
  [.unary "up" emptyMat,
   .unary "down" emptyMat,
   .unary "transp" noCols,
   .unary "inv" (.binary "rho" (lits [2, 2, 0, 2]) (lits [1])),
   .binary "rot" (lits [1]) noCols,
   .binary "flip" (lits [1]) emptyMat,
   .binary "decode" (.lit (.num (.int 2))) emptyMat,
   .binary "decode" emptyVec (.binary "rho" (lits [1, 2]) (lits [1])),
   .binary "iota" emptyVec ones,
   .binary "iota" emptyMat ones,
   .binary "," emptyMat emptyVec,
   .binary "sel" (.lit (.num (.int 1))) emptyMat,
   .binary "part" (.lit (.num (.int 1))) emptyMat,
   .binary "+.*" noCols emptyMat,
   .index noCols [.lit (.num (.int 1))],
   .index emptyVec [.vec [emptyVec, emptyVec]]]

/-- Every one of these expressions is well-formed and ends the interpreter. -/
theorem C45_violated : faults.map outcome = List.replicate 16 .crash ∧ (∀ e ∈ faults, WellE e ∧ e.Scoped 0) := by
  constructor
  · decide +kernel
  · simp [faults, emptyMat, emptyVec, ones, noCols, lits, WellE, WellEs, WellIs, Well, Wells, Tidy, Expr.Scoped, Exec.ScopedAll]

/-- So the property does not hold. -/
theorem C45_full_violated : ¬ C45_full := by
  intro h
  have := h conf 10 20 [.exprs [.unary "up" emptyMat]] (by
    intro l hl
    simp only [List.mem_singleton] at hl
    subst hl
    exact ⟨⟨(C45_violated.2 _ (by simp [faults])).1, trivial⟩, ⟨(C45_violated.2 _ (by simp [faults])).2, trivial⟩⟩)
  exact this .crash (by decide +kernel) rfl

/-- `rot 2 0 rho 1` does not end the interpreter; it does not end at all. -/
theorem C45_rot_hangs : outcome (.unary "rot" noCols) = .hang := by decide +kernel

/-- The operator `op f y`, whose lines are `(y == 0): x = 1` and `x[1] = 2`. -/
def badOp : Line := .define ⟨false, "f", none, .var "y" 0, none, []⟩
  (some [.cond (.binary "==" (.var "y" 0) (.lit (.num (.int 0)))) (.binary "=" (.var "x" 0) (.lit (.num (.int 1)))),
         .binary "=" (.index (.var "x" 0) [.lit (.num (.int 1))]) (.lit (.num (.int 2)))])

/-- The property does not hold for another reason: assigning an element of a local variable that has no value ends the interpreter. Reading the
variable is an error as it should be. -/
theorem C45_local_violated :
    (session conf 10 30 [badOp, .exprs [.unary "f" (.lit (.num (.int 5)))]] startCtx) = [.ok [], .crash] ∧ WellLine badOp := by
  constructor
  · decide +kernel
  · simp [badOp, WellLine, WellT, WellEs, WellE, WellIs, Well, Tidy]

/-! ## What holds -/

/-- C45, in part: about the code as it is. An operator that is not derived, on well-formed operands that have elements, ends with a well-formed value
or with an error of Ivy, for any schedule, origin, `)maxbits` and sorting library. For `decode` the right operand must not be a matrix of rank one. Missing: operands
without elements (`C45_violated`); floating-point numbers. -/
theorem C45_operators_partial (c : Conf) :
    (∀ (f : F2) (u v : Val), f.Simple → Well u → Well v → HasElems u → HasElems v → (f = .decode → ¬ FlatMat v) → Ends (f.eval c.plain u v)) ∧
    ∀ (f : F1) (v : Val), f.Simple → Well v → HasElems v → Ends (f.eval c.plain v) := by
  refine ⟨fun f u v hs wu wv hu hv hd => ?_, fun f v hs wv hv => ?_⟩
  · rw [← plain2 c hs wv hu hv hd]
    exact ends_of (gives_F2 rfl f (simple2_ok hs) u v wu wv)
  · rw [← plain1 c hs wv hv]
    exact ends_of (gives_F1 rfl f (simple1_ok hs) v wv)

example : (F2.s (.op .quo)).eval conf.plain (.vec [.num (.int 1), .num (.int 2)]) (.vec [.num (.int 3), .num (.int 4)]) =
      .ok (.vec [.num (.bigRat (1 / 3)), .num (.bigRat (1 / 2))]) ∧
    (F2.s (.op .quo)).eval conf.plain (.vec [.num (.int 1), .num (.int 2)]) (.vec [.num (.int 3), .num (.int 0)]) = .err "arithmetic" ∧
    HasElems (.vec [.num (.int 3), .num (.int 4)]) ∧ Well (.vec [.num (.int 3), .num (.int 4)]) ∧ (F2.s (.op .quo)).Simple := by
  refine ⟨by decide +kernel, by decide +kernel, by simp [HasElems], by simp [Well, Wells, Tidy], trivial⟩

/-- C45, in part: the same for indexing and for assigning elements. -/
theorem C45_index_partial (c : Conf) (u w : Val) (is : List (Option Val)) (hu : Well u) (hw : Well w) (he : HasElems u) (hi : is ≠ [])
    (hx : ∀ i ∈ is, ∀ v, i = some v → Well v) : Ends (indexVal c.plain u (is.map ixOf)) ∧ Ends (setIndexVal c.plain u (is.map ixOf) w) := by
  have h1 := gives_indexVal (c := c.guarded) rfl hu hi hx
  have h2 := gives_setIndexVal (c := c.guarded) rfl hu hw hi hx
  unfold indexVal at h1
  unfold setIndexVal at h2
  rw [need_true (indexFine_of he _)] at h1 h2
  unfold indexVal setIndexVal
  rw [need_true (indexFine_of he _), need_true (indexFine_of he _)]
  exact ⟨ends_of h1, ends_of h2⟩

example : indexVal conf.plain (.vec [.num (.int 5), .num (.int 6)]) ([some (.num (.int 2))].map ixOf) = .ok (.num (.int 6)) ∧
    setIndexVal conf.plain (.vec [.num (.int 5), .num (.int 6)]) ([some (.num (.int 2))].map ixOf) (.vec []) = .ok (.vec [.num (.int 5), .vec []]) ∧
    indexVal conf.plain (.vec [.num (.int 5), .num (.int 6)]) ([some (.num (.int 3))].map ixOf) = .err "index out of range" := by
  decide +kernel

/-- C45, in part: a session in which operations that are known to fault are refused. No line, whatever the operators - also derived and nested, also
of the user, also recursive - ends in a run-time fault; there is an outcome for every line; and the values are well-formed. -/
theorem C45_session_partial (c : Conf) (maxStack fuel : Nat) (ls : List Line) (h : ∀ l ∈ ls, WellLine l ∧ SureLine l) :
    (session c.guarded maxStack fuel ls startCtx).length = ls.length ∧
    ∀ r ∈ session c.guarded maxStack fuel ls startCtx, r ≠ .crash ∧ ∀ vs, r = .ok vs → Wells vs := by
  obtain ⟨h1, h2⟩ := session_fine (c := c.guarded) rfl maxStack fuel start_well h
  refine ⟨h1, fun r hr => ?_⟩
  have := h2 r hr
  cases r with
  | ok vs => exact ⟨by simp, fun ws e => by cases e; exact this⟩
  | err m => exact ⟨by simp, by simp⟩
  | crash => exact this.elim
  | hang => exact ⟨by simp, by simp⟩

/-- C45, in part: about the code as it is. It has the same outcomes as the session with refusals, up to the first refusal; so if a line ends in a
run-time fault, there is a refusal at this line or before. (What is refused: see `need` in `F1.eval`, `F2.eval`, `indexVal` and `setIndexVal`; always
an operation on an array without elements, or `decode` of a matrix of rank one.) Missing: that nothing need be refused, which is false. -/
theorem C45_code_partial (c : Conf) (maxStack fuel : Nat) (ls : List Line) (h : ∀ l ∈ ls, WellLine l ∧ SureLine l) :
    (∀ k : Nat, (session c.plain maxStack fuel ls startCtx)[k]? = some .crash → ∃ j : Nat, j ≤ k ∧ (session c.guarded maxStack fuel ls startCtx)[j]? = some (.err refused)) ∧
    ((.err refused) ∉ session c.guarded maxStack fuel ls startCtx → session c.plain maxStack fuel ls startCtx = session c.guarded maxStack fuel ls startCtx) := by
  have hs := (C45_session_partial c maxStack fuel ls h).2
  rcases session_ref c maxStack fuel ls startCtx with e | ⟨j, h1, h2⟩
  · refine ⟨fun k hk => ?_, fun _ => e⟩
    rw [e] at hk
    exact ((hs _ (List.mem_of_getElem? hk)).1 rfl).elim
  · refine ⟨fun k hk => ⟨j, ?_, h1⟩, fun hn => (hn (List.mem_of_getElem? h1)).elim⟩
    rcases Nat.lt_or_ge k j with hlt | hge
    · have e1 : ((session c.plain maxStack fuel ls startCtx).take j)[k]? = some .crash := by rw [List.getElem?_take_of_lt hlt]; exact hk
      rw [h2, List.getElem?_take_of_lt hlt] at e1
      exact ((hs _ (List.mem_of_getElem? e1)).1 rfl).elim
    · exact hge

/-- A condition on the definitions that is easy to see, and enough for the theorems above: no conditional assigns a variable. -/
theorem C45_plain_lines (l : Line) (h : PlainLine l) : SureLine l := sure_of_plain h

/-- `op f y`, whose lines are `z = y`, `z[1] = 7` and `+/ z`. -/
def goodOp : Line := .define ⟨false, "f", none, .var "y" 0, none, []⟩
  (some [.binary "=" (.var "z" 0) (.var "y" 0), .binary "=" (.index (.var "z" 0) [.lit (.num (.int 1))]) (.lit (.num (.int 7))), .unary "+/" (.var "z" 0)])

/-- A session: `op f y` as above; `x = 2 3 rho iota 6`; `f x[2]`; `x + 1 2`, an error; `x +.* transp x`. -/
def goodSession : List Line :=
  [goodOp,
   .exprs [.binary "=" (.var "x" 0) (.binary "rho" (lits [2, 3]) (.unary "iota" (.lit (.num (.int 6)))))],
   .exprs [.unary "f" (.index (.var "x" 0) [.lit (.num (.int 2))])],
   .exprs [.binary "+" (.var "x" 0) (lits [1, 2])],
   .exprs [.binary "+.*" (.var "x" 0) (.unary "transp" (.var "x" 0))]]

example : (∀ l ∈ goodSession, WellLine l ∧ SureLine l) ∧ (.err refused) ∉ session conf.guarded 10 30 goodSession startCtx ∧
    session conf.plain 10 30 goodSession startCtx =
      [.ok [], .ok [.mat [2, 3] ([1, 2, 3, 4, 5, 6].map fun i => .num (.int i))], .ok [.num (.int 18)], .err "shape mismatch",
       .ok [.mat [2, 2] ([14, 32, 32, 77].map fun i => .num (.int i))]] := by
  refine ⟨?_, by decide +kernel, by decide +kernel⟩
  intro l hl
  simp only [goodSession, List.mem_cons, List.not_mem_nil, or_false] at hl
  rcases hl with rfl | rfl | rfl | rfl | rfl
  · refine ⟨by simp [goodOp, WellLine, WellT, WellEs, WellE, WellIs, Well, Tidy], C45_plain_lines _ ?_⟩
    simp [goodOp, PlainLine, Exec.NoCondAssign]
  all_goals
    refine ⟨?_, trivial⟩
    simp [WellLine, WellT, WellEs, WellE, WellIs, Well, Wells, Tidy, lits, Expr.Scoped, Exec.ScopedAll]

end Verif.Safe
