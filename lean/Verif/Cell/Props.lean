import Verif.Cell.Lemmas3
import Verif.Flt.AccProps2

/-!
# C80: numbers are values

Full statement: a session of assignments and expressions prints what `Spec.session` says, where variables have values and a function is a function of
the values of its operands: evaluating an expression changes no variable, and evaluating it again gives the same value.

This is false (`C80_violated_pi`, `C80_violated_again`, `C80_violated_variable`, `C80_violated_alias`): `sin`, `cos`, `tan` and the complex functions made of them
reduce, negate and double the float they are given. It holds for sessions where these functions are applied to new values only (`careful`), such as
`sin x+0`, and what is missing is the rest: variables and the results of `phase` and `log` as operands. A real operand between zero and `2π` is not
changed (`C80_range`).
-/

namespace Verif.Cell
open Verif.Arr (R)
open Verif.Flt

/-- The variables of a new session, and their values. -/
def initialValues (c : Ctx) (e : Rat) : List (String × PV) := [("e", .real (.flt ⟨c.p, e⟩)), ("pi", .real (.flt ⟨c.p, c.pi⟩))]

theorem C80_session_partial (c : Ctx) (fuel : Nat) (e : Rat) (ls : List Line) (hc : ∀ l ∈ ls, Spec.careful (Spec.lineExpr l) = true) :
    session c fuel ls initial (constants c e) = Spec.session c fuel ls (initialValues c e) :=
  session_eq c fuel ls _ _ _ hc ⟨rfl, rfl⟩ ⟨rfl, rfl, rfl, rfl, trivial⟩

/-- In any state where the constants have their values, a careful expression gives its value, and all objects stay as they are. -/
theorem C80_careful_partial (c : Ctx) (fuel : Nat) (env : Env) (vals : List (String × PV)) (e : Ex) (h : Heap) (hc : Spec.careful e = true) (hg : Good c h)
    (he : EnvReads h env vals) (v : Val) (h' : Heap) (hv : eval c fuel env e h = .ok (v, h')) :
    (∃ x, read v h' = .ok (x, h') ∧ Spec.value c fuel vals e = .ok x) ∧ (∀ i, i < h.length → h'[i]? = h[i]?) := by
  have := eval_sim c fuel env vals e h hc hg he
  rw [hv] at this
  cases hs : Spec.value c fuel vals e <;> rw [hs] at this <;> first | exact this.elim | skip
  exact ⟨⟨_, read_ok this.1, rfl⟩, this.2.1.2⟩

/-- Evaluating a careful expression twice gives the same value twice. -/
theorem C80_again_partial (c : Ctx) (fuel : Nat) (a : Rat) (e : Ex) (hc : Spec.careful e = true) (vs : List PV)
    (h : session c fuel [.show e, .show e] initial (constants c a) = .ok vs) : ∃ v, vs = [v, v] := by
  rw [C80_session_partial c fuel a _ (by intro l hl; simp only [List.mem_cons, List.not_mem_nil, or_false, or_self] at hl; subst hl; exact hc)] at h
  unfold Spec.session Spec.session Spec.session at h
  cases hv : Spec.value c fuel (initialValues c a) e <;> rw [hv] at h <;> simp only [R.bind] at h
  · injection h with h; exact ⟨_, h.symm⟩
  all_goals cases h

/-- `sin 0+x`, `** 0+log 0j-1`. -/
def addZero (e : Ex) : Ex := .bin .add (.num 0 0) e

example : Spec.careful (.un .sin (addZero (.var "pi"))) = true ∧ Spec.careful (.un .exp (addZero (.un .log (.num 0 (-1))))) = true ∧
    Spec.careful (.un .tan (.j (.un .sqrt (.num 2 0)) (.un .minus (.var "pi")))) = true ∧ Spec.careful (.un .sin (.var "pi")) = false := by decide

theorem subtractLoop_id {px : Nat} {m x : Rat} (h : x < m) : ∀ {fuel : Nat}, 0 < fuel → subtractLoop px m fuel x = .ok x
  | fuel + 1, _ => by unfold subtractLoop; rw [if_neg (not_le.mpr h)]

theorem twoPiReduce_id {c : Ctx} {fuel : Nat} {x : Fl} (hf : 0 < fuel) (h1 : x.val < mul c.p (rnd c.p (rnd c.p 2)) c.pi) (h2 : x.val ≤ rnd c.p 1000) :
    twoPiReduce c fuel x = .ok x := by
  unfold twoPiReduce
  simp only [if_neg (not_lt.mpr h2), R.bind, subtractLoop_id h1 hf]

/-- `sin`, `cos` and `tan` do not change an operand that is not negative and less than `2π`. -/
theorem C80_range (c : Ctx) (fuel : Nat) (x y : Fl) (z : Rat) (h0 : 0 ≤ x.val) (h1 : x.val < mul c.p (rnd c.p (rnd c.p 2)) c.pi) (h2 : x.val ≤ rnd c.p 1000)
    (h : floatSin c fuel x = .ok (z, y) ∨ floatCos c fuel x = .ok (z, y) ∨ floatTan c fuel x = .ok (z, y)) : y = x := by
  rcases Nat.eq_zero_or_pos fuel with rfl | hf
  · rcases h with h | h | h
    · unfold floatSin twoPiReduce at h
      simp [not_lt.mpr h0, not_lt.mpr h2, R.bind, subtractLoop] at h
    · unfold floatCos twoPiReduce at h
      simp [not_lt.mpr h2, R.bind, subtractLoop] at h
    · unfold floatTan twoPiReduce at h
      simp [not_lt.mpr h0, not_lt.mpr h2, R.bind, subtractLoop] at h
  have hs : ∀ {z y}, floatSin c fuel x = .ok (z, y) → y = x := by
    intro z y h
    unfold floatSin at h
    simp only [decide_eq_true_eq, if_neg (not_lt.mpr h0), twoPiReduce_id hf h1 h2, R.bind] at h
    split at h <;> first | (injection h with h; injection h with _ h; exact h.symm) | cases h
  have hcs : ∀ {z y}, floatCos c fuel x = .ok (z, y) → y = x := by
    intro z y h
    unfold floatCos at h
    simp only [twoPiReduce_id hf h1 h2, R.bind] at h
    split at h <;> first | (injection h with h; injection h with _ h; exact h.symm) | cases h
  rcases h with h | h | h
  · exact hs h
  · exact hcs h
  · unfold floatTan at h
    simp only [decide_eq_true_eq, if_neg (not_lt.mpr h0), twoPiReduce_id hf h1 h2, R.bind] at h
    cases h3 : floatSin c fuel x <;> rw [h3] at h <;> simp only at h <;> first | cases h | skip
    rename_i s
    have e1 := hs (z := s.1) (y := s.2) h3
    rw [e1] at h
    cases h4 : floatCos c fuel x <;> rw [h4] at h <;> simp only at h <;> first | cases h | skip
    rename_i d
    have e2 := hcs (z := d.1) (y := d.2) h4
    rw [e2] at h
    split at h
    · cases h
    · split at h <;> first | (injection h with h; injection h with _ h; exact h.symm) | cases h

/-- One is between zero and `2π` in 64 bits. -/
example : (0 : Rat) ≤ 1 ∧ (1 : Rat) < mul ctx64.p (rnd ctx64.p (rnd ctx64.p 2)) ctx64.pi ∧ (1 : Rat) ≤ rnd ctx64.p 1000 ∧
    passes (fun r => decide (r.2 = (⟨64, 1⟩ : Fl))) (floatSin ctx64 270 ⟨64, 1⟩) = true := by decide +kernel

/-- The real part of the `i`th number printed. -/
def reAt (vs : List PV) (i : Nat) : Rat := match vs[i]? with
  | some v => v.parts.1.val
  | none => 0

/-- The imaginary part of the `i`th number printed. -/
def imAt (vs : List PV) (i : Nat) : Rat := match vs[i]? with
  | some v => v.parts.2.val
  | none => 0

/-- `tan pi j 1`. -/
def tanPi : Ex := .un .tan (.j (.var "pi") (.num 1 0))

/-- `** log 0j-1`. -/
def expLog : Ex := .un .exp (.un .log (.num 0 (-1)))

/-- The numbers printed in the session `ls`, with 256 bits. -/
def run (ls : List Line) : R (List PV) := session ctx256 2600 ls initial (constants ctx256 0)

/-- The same with 64 bits. -/
def run64 (ls : List Line) : R (List PV) := session ctx64 650 ls initial (constants ctx64 0)

theorem tanPi_run : passes (fun vs => decide (vs.length = 2 ∧ reAt vs 1 = 0)) (run [.show tanPi, .show (.var "pi")]) = true := by
  decide +kernel

/-- After `tan pi j 1`, the variable `pi` is zero. -/
theorem C80_violated_pi : ∃ vs, run [.show tanPi, .show (.var "pi")] = .ok vs ∧
    (vs.length = 2 ∧ reAt vs 1 = 0) := of_passes tanPi_run

/-- Sessions do not print what they would if numbers were values. -/
theorem C80_violated : ¬ ∀ ls, run64 ls = Spec.session ctx64 650 ls (initialValues ctx64 0) := by
  intro h
  have h1 := h [.show tanPi, .show (.var "pi")]
  revert h1
  decide +kernel

theorem expLog_run : passes (fun vs => decide ((imAt vs 0 < -(9 / 10)) ∧ (9 / 10 < imAt vs 1))) (run [.show expLog, .show expLog]) = true := by
  decide +kernel

/-- `** log 0j-1` is `0j-1`; the second time, it is `0j1`: the function has negated the constant `-π/2`. -/
theorem C80_violated_again : ∃ vs, run [.show expLog, .show expLog] = .ok vs ∧
    (imAt vs 0 < -(9 / 10) ∧ 9 / 10 < imAt vs 1) := of_passes expLog_run

/-- `y = -sqrt 2`. -/
def negRoot : Line := .assign "y" (.un .minus (.un .sqrt (.num 2 0)))

theorem negRoot_run : passes (fun vs => decide ((reAt vs 0 < -1) ∧ (1 < reAt vs 2)))
    (run [negRoot, .assign "z" (.var "y"), .show (.var "z"), .show (.un .sin (.var "y")), .show (.var "z")]) = true := by
  decide +kernel

/-- After `y = -sqrt 2` and `z = y`, `sin y` makes `z` positive. -/
theorem C80_violated_variable : ∃ vs, run [negRoot, .assign "z" (.var "y"), .show (.var "z"), .show (.un .sin (.var "y")), .show (.var "z")] = .ok vs ∧
    (reAt vs 0 < -1 ∧ 1 < reAt vs 2) := of_passes negRoot_run

/-- `x = 7 * sqrt 2`. -/
def sevenRoots : Line := .assign "x" (.bin .mul (.num 7 0) (.un .sqrt (.num 2 0)))

theorem alias_run : passes (fun vs => decide ((reAt vs 0 < -4000) ∧ (-10 < reAt vs 1)))
    (run64 [sevenRoots, .show (.un .sin (.j (addZero (.var "x")) (addZero (.var "x")))), .show (.un .sin (.j (.var "x") (.var "x")))]) = true := by
  decide +kernel

/-- The sine of `x j x`, with the same object twice, is not that of `(0+x) j 0+x`: the imaginary part is reduced with the real one. -/
theorem C80_violated_alias : ∃ vs, run64 [sevenRoots, .show (.un .sin (.j (addZero (.var "x")) (addZero (.var "x")))), .show (.un .sin (.j (.var "x") (.var "x")))] = .ok vs ∧
    (reAt vs 0 < -4000 ∧ -10 < reAt vs 1) := of_passes alias_run

/-- A careful session, and its value. -/
example : (∀ l ∈ [negRoot, .show (.un .sin (addZero (.var "y")))], Spec.careful (Spec.lineExpr l) = true) ∧
    passes (fun vs => decide (reAt vs 0 < -(9 / 10))) (run64 [negRoot, .show (.un .sin (addZero (.var "y")))]) = true := by
  decide +kernel

end Verif.Cell
