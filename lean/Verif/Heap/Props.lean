import Verif.Heap.Lemmas2
/-
C12: an operator leaves its operands, and every variable that is not assigned, as they were. The code violates this:
`mod` of a negative fraction makes the fraction positive, in every variable that shares its cell.
-/
namespace Verif.Heap
open Verif.Num

/-- C12: an assignment changes only the variable it assigns. -/
def C12_statement : Prop := ∀ st, Reachable st → ∀ d e k, k ≠ d → (step st d e).value k = st.value k

/-- The program `x = -7/2; y = 2; z = x mod y`, of variables 0, 1 and 2. -/
def witness : List (Nat × Rhs) := [(0, .const (-7/2)), (1, .const 2)]

/-- C12 is violated: after `z = x mod y`, `x` is 7/2. -/
theorem C12_violated : ¬ C12_statement := by
  intro h
  have := h (run .init witness) ⟨witness, rfl⟩ 2 (.bin 0 .mod 1) 0 (by decide)
  exact absurd this (by decide +kernel)

example : (run .init witness).value 0 = .bigRat (-7/2) ∧
    (step (run .init witness) 2 (.bin 0 .mod 1)).value 0 = .bigRat (7/2) := by decide +kernel

/-- C12, the exact extent: whatever the program so far, an assignment leaves every variable but its target as it was,
or, only if it takes `mod` and the variable shares its cell with an operand, replaces its fraction by the absolute
value. -/
theorem C12_extent {st : State} (hr : Reachable st) {d k : Nat} (e : Rhs) (hk : k ≠ d) :
    (step st d e).value k = st.value k ∨
      ∃ s t r, e = .bin s .mod t ∧ (st.vars k = st.vars s ∨ st.vars k = st.vars t) ∧
        st.value k = .bigRat r ∧ r < 0 ∧ (step st d e).value k = .bigRat |r| :=
  step_extent (reachable_inv hr) e hk

example : Reachable (run .init witness) := ⟨witness, rfl⟩

/-- C12, the damage is certain: if `s` holds a negative fraction and `t` a number other than zero, `d = s mod t`
makes every variable that shares the cell of `s` (at least `s` itself, unless it is `d`) positive. -/
theorem C12_damage {st : State} (hr : Reachable st) {d k s t : Nat} {r : Rat} (hk : k ≠ d)
    (hs : st.value s = .bigRat r) (hneg : r < 0) (ht : (st.value t).isNum) (ht0 : (st.value t).val ≠ 0)
    (hsame : st.vars k = st.vars s) : (step st d (.bin s .mod t)).value k = .bigRat |r| :=
  step_damage (reachable_inv hr) hk hs hneg ht ht0 hsame

example : Reachable (run .init witness) ∧ (run .init witness).value 0 = .bigRat (-7/2) ∧ ((-7/2 : Rat) < 0) ∧
    ((run .init witness).value 1).isNum ∧ ((run .init witness).value 1).val ≠ 0 :=
  ⟨⟨witness, rfl⟩, by decide +kernel, by norm_num, by
    rw [show (run .init witness).value 1 = .int 2 by decide +kernel]; trivial, by
    rw [show (run .init witness).value 1 = .int 2 by decide +kernel]; norm_num [Num.val]⟩

/-- C12, the part that holds: any assignment that does not take `mod` of a negative fraction leaves every other
variable as it was and gives its target the value that the operator computes from the values of the variables. What
is missing from C12: `mod` with a negative fraction among its operands (`C12_damage`). -/
theorem C12_kept_partial {st : State} (hr : Reachable st) {d : Nat} {e : Rhs} (hg : Gentle st.value e) :
    (step st d e).value = stepV st.value d e :=
  step_gentle (reachable_inv hr) hg

example : Reachable (run .init witness) ∧ Gentle (run .init witness).value (.bin 0 .add 1) := ⟨⟨witness, rfl⟩, trivial⟩

/-- C12 for programs: a program that never takes `mod` of a negative fraction computes as if variables held values and
nothing were shared. -/
theorem C12_program_partial {prog : List (Nat × Rhs)} (hg : AllGentle (fun _ => .int 0) prog) :
    (run .init prog).value = runV (fun _ => .int 0) prog :=
  run_gentle (st := .init) (fun _ => trivial) hg

/-- The program `x = 7/2; y = 2; z = x min y; z = z mod y; x = - x; w = x`. -/
def gentleProg : List (Nat × Rhs) :=
  [(0, .const (7/2)), (1, .const 2), (2, .bin 0 .max 1), (2, .bin 2 .mod 1), (0, .un .neg 0), (3, .var 0)]

example : AllGentle (fun _ => .int 0) gentleProg := by
  refine ⟨trivial, trivial, trivial, ?_, trivial, trivial, trivial⟩
  intro r hr
  have h2 : stepV (stepV (stepV (fun _ => .int 0) 0 (.const (7/2))) 1 (.const 2)) 2 (.bin 0 .max 1) 2 = .bigRat (7/2) := by
    decide +kernel
  have h1 : stepV (stepV (stepV (fun _ => .int 0) 0 (.const (7/2))) 1 (.const 2)) 2 (.bin 0 .max 1) 1 = .int 2 := by
    decide +kernel
  rcases hr with hr | hr
  · rw [h2] at hr; cases hr; norm_num
  · rw [h1] at hr; cases hr

/-- The damage reaches computed values: `x = -7/2; y = x mod 2; z = x mod 2` gives `y` and `z` different values. -/
theorem C12_wrong_value :
    let st := run .init [(0, .const (-7/2)), (1, .const 2), (2, .bin 0 .mod 1), (3, .bin 0 .mod 1)]
    st.value 2 = .bigRat (1/2) ∧ st.value 3 = .bigRat (3/2) := by decide +kernel

end Verif.Heap
