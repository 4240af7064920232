import Verif.Shape.Lemmas

/-!
# C33: no operation changes the shape of an existing value

In full: after any history of operations, the shapes of the matrices there were are as they were:

  `∀ ops ops', (run start ops).shapes <+: (run start (ops ++ ops')).shapes`

The code violates it (`C33_violated`).  What holds:

* it holds of the histories in which no outer product or mix appends to a shape with room behind it (`C33_partial`), for
  instance those whose left operands were made by reshape, transpose, take, inner product, and so on (`C33_exact_partial`);
* every operation gives a new value the right shape, whatever went wrong before (`C33_new`);
* the operations other than outer product and mix change no shape, and these two change only shapes that reach into the room
  behind the shape of the left operand (`C33_kept_partial`).
-/

namespace Verif.Shape

/-- Histories in which outer products and mixes append to shapes without room. -/
theorem C33_partial (ops ops' : List Op) (h : Roomless start (ops ++ ops')) :
    (run start (ops ++ ops')).shapes = idealRun [] (ops ++ ops') ∧
      (run start ops).shapes <+: (run start (ops ++ ops')).shapes := by
  have i : Inv start [] := ⟨start_ok, rfl⟩
  have a := (run_inv (ops ++ ops') start [] i h).2
  have pre : ∀ (ops : List Op) (w : St), Roomless w (ops ++ ops') → Roomless w ops := by
    intro ops
    induction ops with
    | nil => intro w _; exact trivial
    | cons op ops ih => intro w hw; exact ⟨hw.1, ih _ hw.2⟩
  have b := (run_inv ops start [] i (pre ops start h)).2
  refine ⟨a, ?_⟩
  rw [a, b, idealRun_append]
  exact idealRun_prefix ops' _

/-- The same seen from how the left operands were made. -/
theorem C33_exact_partial (ops ops' : List Op) (h : LeftExact [] [] (ops ++ ops')) :
    (run start (ops ++ ops')).shapes = idealRun [] (ops ++ ops') ∧
      (run start ops).shapes <+: (run start (ops ++ ops')).shapes :=
  C33_partial ops ops' (leftExact_roomless _ ⟨start_ok, rfl⟩ ⟨rfl, by intro i s hs; cases hs⟩ h)

/-- Two matrices and their outer product, its reduction, and the outer product the other way round. -/
example : LeftExact [] [] [.fresh [2, 3], .fresh [4], .outer 0 1 3, .prefix 2 2, .outer 1 3 0] ∧
    (run start [.fresh [2, 3], .fresh [4], .outer 0 1 3, .prefix 2 2, .outer 1 3 0]).shapes =
      [[2, 3], [4], [2, 3, 4], [2, 3], [4, 2, 3]] := by
  refine ⟨?_, by decide⟩
  simp [LeftExact, Op.appends, Op.left, ideal, idealStep, exactly]

/-- Whatever happened before, the shape of a new value is what it should be given the shapes of the operands. -/
theorem C33_new (ops : List Op) (op : Op) :
    (step (run start ops) op).shapes.getLast? =
      match ideal (run start ops).shapes op with
      | some l => some l
      | none => (run start ops).shapes.getLast? := by
  rcases make_any (run_ok ops start_ok) op with ⟨h1, h2⟩ | ⟨p, l, h1, h2, _, hv, _⟩
  · unfold step
    rw [h1, show ideal (run start ops).shapes op = none from h2]
  · unfold step
    rw [h1, show ideal (run start ops).shapes op = some l from h2]
    show ((_ ++ [p.1]).map (read p.2)).getLast? = some l
    rw [List.map_append, List.map_singleton, hv, List.getLast?_append]
    rfl

example : (step (run start [.fresh [2, 3, 4], .prefix 0 2, .fresh [2]]) (.outer 1 2 0)).shapes.getLast? = some [2, 3, 2] := by
  decide

/-- Whatever happened before, an operation leaves the shape of an existing value alone, unless it is an outer product or a
mix and the shape of that value reaches into the room behind the shape of the left operand. -/
theorem C33_kept_partial (ops : List Op) (op : Op) (i : Nat) (hi : i < (run start ops).vals.length)
    (h : (run start ops).apart op i) :
    (run start (ops ++ [op])).shapes[i]? = (run start ops).shapes[i]? := by
  have e : run start (ops ++ [op]) = step (run start ops) op := by simp [run]
  rw [e]
  have hok := run_ok ops start_ok
  revert hi h hok
  generalize run start ops = w
  intro hi h hok
  unfold step
  rcases make_any hok op with ⟨h1, _⟩ | ⟨p, l, h1, _, _, _, ho⟩
  · rw [h1]
  · rw [h1]
    show ((w.vals ++ [p.1]).map (read p.2))[i]? = (w.vals.map (read w.mem))[i]?
    rw [List.getElem?_map, List.getElem?_map, List.getElem?_append_left hi, List.getElem?_eq_getElem hi]
    simp only [Option.map_some, Option.some.injEq]
    exact (ho _ (hok _ (List.getElem_mem hi))).2 fun ha s hs => h ha s _ hs (List.getElem?_eq_getElem hi)

/-- A reduction, an index, and an outer product of the result, of which only the first matrix is not `apart`. -/
example : (run start [.fresh [2, 3, 4], .prefix 0 2, .fresh [2]]).apart (.outer 1 2 0) 2 ∧
    (run start [.fresh [2, 3, 4], .prefix 0 2, .fresh [2]]).apart (.outer 1 2 0) 1 ∧
    ¬ (run start [.fresh [2, 3, 4], .prefix 0 2, .fresh [2]]).apart (.outer 1 2 0) 0 := by
  refine ⟨?_, ?_, ?_⟩
  · intro _ s t hs ht
    have hs : s = ⟨0, 0, 2⟩ := by cases hs; rfl
    have ht : t = ⟨1, 0, 1⟩ := by cases ht; rfl
    subst hs; subst ht; simp [Behind]
  · intro _ s t hs ht
    have hs : s = ⟨0, 0, 2⟩ := by cases hs; rfl
    have ht : t = ⟨0, 0, 2⟩ := by cases ht; rfl
    subst hs; subst ht; simp [Behind]
  · intro h
    exact h rfl ⟨0, 0, 2⟩ ⟨0, 0, 3⟩ rfl rfl ⟨rfl, by decide⟩

/-- The code violates C33: with `m = 2 3 4 rho iota 24`, `r = +/m` and `v = 1 rho 2` as a matrix, `r o.* v` makes the shape of
`m` 2 3 2, though it has 24 elements. -/
theorem C33_violated : ∃ ops op, ¬ (run start ops).shapes <+: (run start (ops ++ [op])).shapes :=
  ⟨[.fresh [2, 3, 4], .prefix 0 2, .fresh [2]], .outer 1 2 0, by decide⟩

example : (run start [.fresh [2, 3, 4], .prefix 0 2, .fresh [2]]).shapes = [[2, 3, 4], [2, 3], [2]] ∧
    (run start [.fresh [2, 3, 4], .prefix 0 2, .fresh [2], .outer 1 2 0]).shapes = [[2, 3, 2], [2, 3], [2], [2, 3, 2]] := by
  decide

/-- Another way: the shape of an outer product has room if `append` left some; two outer products of it with others share an
array, and the second changes the shape of the first. -/
theorem C33_violated_twice :
    (run start [.fresh [2, 3], .fresh [4], .outer 0 1 1, .fresh [5], .fresh [6], .outer 2 3 0]).shapes[5]? =
        some [2, 3, 4, 5] ∧
      (run start [.fresh [2, 3], .fresh [4], .outer 0 1 1, .fresh [5], .fresh [6], .outer 2 3 0, .outer 2 4 0]).shapes[5]? =
        some [2, 3, 4, 6] := by
  decide

end Verif.Shape
