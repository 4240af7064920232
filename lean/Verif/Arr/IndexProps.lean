import Verif.Arr.IndexLemmas6
import Verif.Arr.Props

/-!
# C27, C28: indexing and indexed assignment
-/

namespace Verif.Arr
variable {α : Type}

theorem points_vecs {origin : Nat} {ix : Ix} {shape : List Nat} {n : Nat} {ps : List (List Nat)} (hw : ix.Ok) (h : Points origin ix shape n ps) :
    Vecs origin ix shape n ps := by
  have hne : ix.elems ≠ [] := by rw [h.elems]; simpa using h.some
  have hlen := congrArg List.length h.elems
  simp only [List.length_map] at hlen
  refine ⟨?_, h.some, h.le, fun p hp => ⟨?_, h.inB p hp⟩, ?_, ?_⟩
  · cases ix with
    | vec l => simp only [Ix.raw]; rw [← h.elems]; rfl
    | mat m => simp only [Ix.raw]; rw [← h.elems]; rfl
    | _ => exact absurd rfl hne
  · rw [inB_length (h.inB p hp), List.length_take]; have := h.le; omega
  · cases ix with
    | vec l => simp only [Ix.elems] at hlen; simp [Ix.shape, vol, hlen]
    | mat m => simp only [Ix.elems] at hlen; rw [← hlen]; exact Mat.WF.len hw
    | _ => exact absurd rfl hne
  · cases ix with
    | vec l => simp [Ix.shape]
    | mat m => exact Mat.WF.rank hw
    | _ => exact absurd rfl hne

theorem vecs_points {origin : Nat} {ix : Ix} {shape : List Nat} {n : Nat} {ps : List (List Nat)} (h : Vecs origin ix shape n ps) :
    Points origin ix shape n ps := by
  refine ⟨?_, h.ne, h.le, fun p hp => (h.inB p hp).2⟩
  have hr := h.raw
  cases ix with
  | vec l => simpa [Ix.raw, Ix.elems] using hr
  | mat m => simpa [Ix.raw, Ix.elems] using hr
  | int k =>
    exact absurd rfl h.rank
  | missing => simp [Ix.raw] at hr
  | other => simp [Ix.raw] at hr

/-! ## C27 -/

/-- C27 in full: the shape of `x[i;j;...]` is the catenation of the shapes of the indexes, and of the remaining axes of `x`,
and its elements are those of `x` at the places that the indexes denote. -/
def C27_statement : Prop :=
  ∀ (origin : Nat) (x : V Nat) (ixs : List Ix) (ks : List (List Nat)), (∀ a, x ≠ .elem a) → x.Ok → (∀ ix ∈ ixs, ix.Ok) → Denote origin ixs x.shape ks →
    0 < vol (x.shape.drop ixs.length) → vol (x.shape.drop ixs.length) ≤ 2147483647 →
    Fits (selShape ixs x.shape) → (∀ d ∈ selShape ixs x.shape, d ≤ 2147483647) →
    ∃ r, index origin x ixs = .ok r ∧ r.shape = selShape ixs x.shape ∧
      ∀ cs rest, InBs (ixShapes ixs x.shape) cs → InB (x.shape.drop ixs.length) rest →
        r.at (cs.flatten ++ rest) = x.at (pickAll ks (ixShapes ixs x.shape) cs ++ rest)

/-- The code violates it: for a matrix of 2 rows and 3 columns, `x[;]` has 3 rows and 2 columns. -/
theorem C27_violated : ¬ C27_statement := by
  intro h
  obtain ⟨r, h1, h2, -⟩ := h 1 (.mat ⟨[2, 3], [1, 2, 3, 4, 5, 6]⟩) [.missing, .missing] [[0, 1], [0, 1, 2]] (by simp) (by decide) (by decide) (by decide)
    (by decide) (by decide) (by decide) (by decide)
  have : index 1 (.mat ⟨[2, 3], [1, 2, 3, 4, 5, 6]⟩ : V Nat) [.missing, .missing] = .ok (.mat ⟨[3, 2], [1, 2, 3, 4, 5, 6]⟩) := by decide
  rw [this] at h1
  cases h1
  revert h2; decide

/-- C27 where at most one index is missing, or more generally where the lengths of the axes with a missing index read the same in both
directions. -/
theorem C27_index_partial (origin : Nat) (x : V α) (ixs : List Ix) (ks : List (List Nat)) (hv : ∀ a, x ≠ .elem a) (hok : x.Ok) (hw : ∀ ix ∈ ixs, ix.Ok)
    (h : Denote origin ixs x.shape ks) (hc : 0 < vol (x.shape.drop ixs.length)) (hcm : vol (x.shape.drop ixs.length) ≤ 2147483647)
    (hf : Fits (selShape ixs x.shape)) (hd : ∀ d ∈ selShape ixs x.shape, d ≤ 2147483647)
    (hp : (missingDims ixs x.shape).reverse = missingDims ixs x.shape) :
    ∃ r, index origin x ixs = .ok r ∧ r.shape = selShape ixs x.shape ∧
      ∀ cs rest, InBs (ixShapes ixs x.shape) cs → InB (x.shape.drop ixs.length) rest →
        r.at (cs.flatten ++ rest) = x.at (pickAll ks (ixShapes ixs x.shape) cs ++ rest) := by
  have hcode := codeShape_pal h.1 hp
  obtain ⟨r, h1, h2, h3, h4⟩ := index_core hv hok hw h hc hcm (by rw [hcode]; exact hf) (by rw [hcode]; exact hd)
  rw [hcode] at h2
  refine ⟨r, h1, h2, ?_⟩
  intro cs rest hcs hr
  obtain ⟨i, i1, i2, i3, i4, i5⟩ := sel_addr hw h hcs hr
  rw [at_data (by rw [h2]; exact i5), at_data i2, h2, i3, i4]
  exact h4 i _ i1 (ravel_lt hr)

example : index 1 (.mat ⟨[2, 3], [1, 2, 3, 4, 5, 6]⟩ : V Nat) [.missing, .vec [.int 3, .int 1]] = .ok (.mat ⟨[2, 2], [3, 1, 6, 4]⟩) ∧
    (missingDims [.missing, .vec [.int 3, .int 1]] [2, 3]).reverse = missingDims [.missing, .vec [.int 3, .int 1]] [2, 3] ∧
    Denote 1 [.missing, .vec [.int 3, .int 1]] [2, 3] [[0, 1], [2, 0]] ∧ selShape [.missing, .vec [.int 3, .int 1]] [2, 3] = [2, 2] ∧
    (V.mat ⟨[2, 3], [1, 2, 3, 4, 5, 6]⟩ : V Nat).Ok ∧ Fits [2, 2] := by decide

/-- Whatever indexes are missing, the elements are the right ones in the right order, and the shape is right exactly when the
lengths of the axes with a missing index read the same in both directions: the code puts those lengths in reverse. -/
theorem C27_elements (origin : Nat) (x : V α) (ixs : List Ix) (ks : List (List Nat)) (hv : ∀ a, x ≠ .elem a) (hok : x.Ok) (hw : ∀ ix ∈ ixs, ix.Ok)
    (h : Denote origin ixs x.shape ks) (hc : 0 < vol (selShape ixs x.shape)) (hcm : vol (selShape ixs x.shape) ≤ 2147483647) :
    ∃ r, index origin x ixs = .ok r ∧ (r.shape = selShape ixs x.shape ↔ (missingDims ixs x.shape).reverse = missingDims ixs x.shape) ∧
      r.data.length = vol (selShape ixs x.shape) ∧
      ∀ cs rest, InBs (ixShapes ixs x.shape) cs → InB (x.shape.drop ixs.length) rest →
        r.data[ravel (selShape ixs x.shape) (cs.flatten ++ rest)]? = x.at (pickAll ks (ixShapes ixs x.shape) cs ++ rest) := by
  have hvol := vol_codeShape (ixs := ixs) (shape := x.shape) h.1
  have hpos : 0 < vol (x.shape.drop ixs.length) := by
    unfold selShape at hc; rw [vol_append] at hc; exact Nat.pos_of_mul_pos_left hc
  have hpos' : 0 < vol (ixShapes ixs x.shape).flatten := by
    unfold selShape at hc; rw [vol_append] at hc; exact Nat.pos_of_mul_pos_right hc
  have hle : vol (x.shape.drop ixs.length) ≤ vol (selShape ixs x.shape) := by
    unfold selShape; rw [vol_append]; exact Nat.le_mul_of_pos_left _ hpos'
  have hmem : ∀ (s : List Nat), 0 < vol s → ∀ d ∈ s, d ≤ vol s := by
    intro s
    induction s with
    | nil => intro _ d hd; simp at hd
    | cons a s ih =>
      intro hs d hd
      have p1 : 0 < a := Nat.pos_of_mul_pos_right hs
      have p2 : 0 < vol s := Nat.pos_of_mul_pos_left hs
      rcases List.mem_cons.mp hd with rfl | hd
      · exact Nat.le_mul_of_pos_right _ p2
      · exact Nat.le_trans (ih p2 d hd) (Nat.le_mul_of_pos_left _ p1)
  obtain ⟨r, h1, h2, h3, h4⟩ := index_core hv hok hw h hpos (Nat.le_trans hle hcm) (fits_of_pos (by rw [hvol]; exact hc) (by rw [hvol]; exact hcm))
    (fun d hd => Nat.le_trans (hmem _ (by rw [hvol]; exact hc) d hd) (by rw [hvol]; exact hcm))
  refine ⟨r, h1, ?_, by rw [h3, h2, hvol], ?_⟩
  · rw [h2]
    constructor
    · intro e
      unfold codeShape selShape at e
      have := List.append_cancel_right e
      rw [← fillOut_right ixs x.shape h.1] at this
      have hl := missingDims_length ixs x.shape h.1
      exact fillOut_inj ixs _ _ (by simp [hl]) hl this
    · exact codeShape_pal h.1
  · intro cs rest hcs hr
    obtain ⟨i, i1, i2, i3, i4, i5⟩ := sel_addr hw h hcs hr
    rw [at_data i2, i3, i4]
    exact h4 i _ i1 (ravel_lt hr)

example : index 1 (.mat ⟨[2, 3, 2], [1, 2, 3, 4, 5, 6, 7, 8, 9, 10, 11, 12]⟩ : V Nat) [.missing, .missing, .int 2] = .ok (.mat ⟨[3, 2], [2, 4, 6, 8, 10, 12]⟩) ∧
    selShape [.missing, .missing, .int 2] [2, 3, 2] = [2, 3] := by decide

/-- Indexes that are not all integers on their axes, or are too many, are refused, unless they are vectors of coordinates. -/
theorem C27_refused (origin : Nat) (x : V α) (ixs : List Ix) (hok : x.Ok) (hw : ∀ ix ∈ ixs, ix.Ok)
    (h : ¬ ∃ ks, Denote origin ixs x.shape ks) (h' : ¬ ∃ ix n ps, ixs = [ix] ∧ Points origin ix x.shape n ps) : ∃ e, index origin x ixs = .err e := by
  rcases ixInit_cases (origin := origin) hok hw with ⟨ks, hv, hd⟩ | ⟨ix, n, ps, hv, rfl, hd⟩ | ⟨e, he⟩
  · exact absurd ⟨ks, hd⟩ h
  · exact absurd ⟨ix, n, ps, rfl, vecs_points hd⟩ h'
  · exact ⟨e, by unfold index; rw [he]; rfl⟩

example : index 1 (.mat ⟨[2, 3], [1, 2, 3, 4, 5, 6]⟩ : V Nat) [.int 2, .int 4] = .err "index out of range" ∧
    index 1 (.mat ⟨[2, 3], [1, 2, 3, 4, 5, 6]⟩ : V Nat) [.int 0] = .err "index out of range" ∧
    index 0 (.mat ⟨[2, 3], [1, 2, 3, 4, 5, 6]⟩ : V Nat) [.int 2] = .err "index out of range" ∧
    ([Ix.int 2, .int 4].zipWith (fun ix d => ix.places 1 d) [2, 3]) = [some [1], none] := by decide

/-- What cannot be indexed at all is refused. -/
theorem C27_elem_refused (origin : Nat) (a : α) (ixs : List Ix) (hw : ∀ ix ∈ ixs, ix.Ok) : ∃ e, index origin (.elem a) ixs = .err e := by
  rcases ixInit_cases (lhs := V.elem a) (origin := origin) (ixs := ixs) trivial hw with ⟨ks, hv, hd⟩ | ⟨ix, n, ps, hv, rfl, hd⟩ | ⟨e, he⟩
  · exact absurd rfl (hv a)
  · exact absurd rfl (hv a)
  · exact ⟨e, by unfold index; rw [he]; rfl⟩

/-- A vector (or matrix) of vectors of coordinates selects the elements at those points, with the shape of the index. -/
theorem C27_points (origin : Nat) (x : V α) (ix : Ix) (n : Nat) (ps : List (List Nat)) (hv : ∀ a, x ≠ .elem a) (hok : x.Ok) (hw : ix.Ok)
    (h : Points origin ix x.shape n ps) (hc : 0 < vol (x.shape.drop n)) (hcm : vol (x.shape.drop n) ≤ 2147483647)
    (hf : Fits (ix.shape 0 ++ x.shape.drop n)) (hd : ∀ d ∈ ix.shape 0 ++ x.shape.drop n, d ≤ 2147483647) :
    ∃ r, index origin x [ix] = .ok r ∧ r.shape = ix.shape 0 ++ x.shape.drop n ∧
      ∀ c rest p, InB (ix.shape 0) c → InB (x.shape.drop n) rest → ps[ravel (ix.shape 0) c]? = some p → r.at (c ++ rest) = x.at (p ++ rest) := by
  have hv' := points_vecs hw h
  obtain ⟨r, h1, h2, h3, h4⟩ := index_vecs hv hok hv' hc hcm hf hd
  refine ⟨r, h1, h2, ?_⟩
  intro c rest p hcb hr hp
  have hlt : ravel (ix.shape 0) c < ps.length := by rw [hv'.num]; exact ravel_lt hcb
  have hpm : p ∈ ps := List.mem_of_getElem? hp
  have hpb := h.inB p hpm
  have hxb : InB x.shape (p ++ rest) := by
    have := inB_append hpb hr
    rwa [List.take_append_drop] at this
  have hx : ravel x.shape (p ++ rest) = ravel (x.shape.take n) p * vol (x.shape.drop n) + ravel (x.shape.drop n) rest := by
    have := ravel_append (x.shape.take n) (x.shape.drop n) p rest (inB_length hpb)
    rwa [List.take_append_drop] at this
  rw [at_data (by rw [h2]; exact inB_append hcb hr), at_data hxb, h2, ravel_append _ _ _ _ (inB_length hcb), hx, h4 _ _ hlt (ravel_lt hr)]
  unfold vecOff
  rw [List.getD_eq_getElem?_getD, hp, Option.getD_some]

example : index 1 (.mat ⟨[2, 3], [1, 2, 3, 4, 5, 6]⟩ : V Nat) [.vec [.vec [some 2, some 3], .vec [some 1, some 2]]] = .ok (.vec [6, 2]) := by decide

example : Points 1 (.vec [.vec [some 2, some 3], .vec [some 1, some 2]]) [2, 3] 2 [[1, 2], [0, 1]] :=
  ⟨by decide, by decide, by decide, by decide⟩

/-- The code violates the property in another way: indexing a matrix without columns divides by zero. -/
theorem C27_no_columns_violated : index 1 (.mat ⟨[2, 0], []⟩ : V Nat) [.int 1] = .crash ∧ Denote 1 [.int 1] [2, 0] [[0]] ∧
    (V.mat ⟨[2, 0], []⟩ : V Nat).Ok ∧ selShape [.int 1] [2, 0] = [0] := by decide

/-! ## C28 -/

/-- After an indexed assignment that succeeds, every cell that was selected holds the element of the right-hand side for (one
of) its selections; every other cell, and the shape, are as before. -/
theorem C28_assign (S : Sched) (origin : Nat) (toElem : V α → α) (x x0 x' : Var α) (v y : V α) (ixs : List Ix) (ks : List (List Nat))
    (hx : x.Ok) (hv : x.read = .ok (x0, v)) (hy : y.Ok) (hw : ∀ ix ∈ ixs, ix.Ok) (h : Denote origin ixs v.shape ks)
    (hok : indexAssign S origin toElem x ixs y = (x', .ok ())) :
    x'.Ok ∧ ∃ x1 v', x'.read = .ok (x1, v') ∧ v'.shape = v.shape ∧ ∀ p, InB v.shape p →
      (∃ cs rest, InBs (ixShapes ixs v.shape) cs ∧ InB (v.shape.drop ixs.length) rest ∧ pickAll ks (ixShapes ixs v.shape) cs ++ rest = p ∧
        v'.at p = storedVal (selShape ixs v.shape) toElem y (ravel (selShape ixs v.shape) (cs.flatten ++ rest))) ∨
      ((∀ cs rest, InBs (ixShapes ixs v.shape) cs → InB (v.shape.drop ixs.length) rest → pickAll ks (ixShapes ixs v.shape) cs ++ rest ≠ p) ∧
        v'.at p = v.at p) := by
  obtain ⟨data, hd, hl, x2, hr⟩ := var_read hx
  rw [hr] at hv
  cases hv
  rcases assign_cases (S := S) (origin := origin) (toElem := toElem) hx hy hw hd hl with ⟨x3, e, hel, l, rfl, hll, hplan⟩ | ⟨x3, r, e, hr', -⟩
  · rw [hok] at e; cases e
    have hps := put_shape hel hl
    rw [hps.1] at h ⊢
    have hl' : data.length = vol x.value.shape := by rw [hl, data_length hx.1]
    have hpl := plan_plain (S := S) (toElem := toElem) hel hx.1 hy hw h hl'
    rw [hplan] at hpl
    cases hpl with
    | ok _ hwr =>
      have hx'Ok : (⟨x.value, some (edit l)⟩ : Var α).Ok := ⟨hx.1, .inr ⟨l, rfl, by rw [hll, hl], hel⟩⟩
      obtain ⟨hll', hcells⟩ := wrote_cells hw h hl' hwr
      obtain ⟨l2, g1, g2, x4, g3⟩ := var_read hx'Ok
      have : l2 = l := by
        have g1 : edit l = edit l2 := g1
        unfold edit at g1
        exact (List.map_injective_iff.mpr (fun a b h => Option.some.inj h) g1).symm
      subst this
      have hps' := put_shape (v := x.value) (l := l2) hel g2
      refine ⟨hx'Ok, x4, _, g3, hps'.1, ?_⟩
      intro p hp
      rw [at_data (by rw [hps'.1]; exact hp), at_data (by rw [hps.1]; exact hp), hps'.1, hps'.2.1, hps.1, hps.2.1]
      rcases hcells p hp with ⟨cs, rest, c1, c2, c3, c4⟩ | c
      · exact .inl ⟨cs, rest, c1, c2, c3, by rw [c4, storedVal_code h.1]⟩
      · exact .inr c
  · rw [hok] at e
    cases e
    rcases hr' with h | ⟨e, h⟩ <;> cases h

/-- The matrix of the examples. -/
def exM : Var Nat := ⟨.mat ⟨[2, 3], [1, 2, 3, 4, 5, 6]⟩, none⟩

/-- The schedule of the examples. -/
def exS : Sched := pforSched 4 100 (by decide) (by decide)

example : (indexAssign exS 1 (fun _ => 0) exM [.missing, .vec [.int 3, .int 1]] (.mat ⟨[2, 2], [10, 20, 30, 40]⟩)).2 = .ok () ∧
    (indexAssign exS 1 (fun _ => 0) exM [.missing, .vec [.int 3, .int 1]] (.mat ⟨[2, 2], [10, 20, 30, 40]⟩)).1.edit =
      some (edit [20, 2, 10, 40, 5, 30]) ∧ Denote 1 [.missing, .vec [.int 3, .int 1]] [2, 3] [[0, 1], [2, 0]] ∧
    exM.value.Ok := by decide

example : exM.Ok := ⟨by decide, .inl rfl⟩

example : (indexAssign exS 1 (fun _ => 0) exM [.int 2] (.elem 7)).1.edit = some (edit [1, 2, 3, 7, 7, 7]) ∧
    (indexAssign exS 1 (fun _ => 0) exM [.int 3] (.elem 7)).2 = .err "index out of range" ∧
    (indexAssign exS 1 (fun _ => 0) exM [.int 3] (.elem 7)).1.edit = some (edit [1, 2, 3, 4, 5, 6]) ∧
    (indexAssign exS 1 (fun _ => 0) exM [.int 2] (.vec [7, 8])).2 = .err "shape mismatch" ∧
    (indexAssign exS 1 (fun _ => 0) exM [.vec [.vec [some 2, some 3], .vec [some 1, some 1]]] (.vec [7, 8])).1.edit = some (edit [8, 2, 3, 4, 5, 7]) := by decide

/-- Because of the shape that the code gives to a selection with two missing indexes (`C27_violated`), `x[;] = x` is refused, and
a matrix with the dimensions exchanged is accepted. -/
theorem C28_missing_violated :
    (indexAssign exS 1 (fun _ => 0) exM [.missing, .missing] (.mat ⟨[2, 3], [1, 2, 3, 4, 5, 6]⟩)).2 = .err "shape mismatch" ∧
    (indexAssign exS 1 (fun _ => 0) exM [.missing, .missing] (.mat ⟨[3, 2], [10, 20, 30, 40, 50, 60]⟩)).1.edit = some (edit [10, 20, 30, 40, 50, 60]) := by decide

/-- If the indexes do not name a place twice, every selected cell holds the corresponding element of the right-hand side. -/
theorem C28_distinct (S : Sched) (origin : Nat) (toElem : V α → α) (x x0 x' : Var α) (v y : V α) (ixs : List Ix) (ks : List (List Nat))
    (hx : x.Ok) (hv : x.read = .ok (x0, v)) (hy : y.Ok) (hw : ∀ ix ∈ ixs, ix.Ok) (h : Denote origin ixs v.shape ks) (hn : ∀ k ∈ ks, k.Nodup)
    (hok : indexAssign S origin toElem x ixs y = (x', .ok ())) :
    ∃ x1 v', x'.read = .ok (x1, v') ∧ v'.shape = v.shape ∧
      ∀ cs rest, InBs (ixShapes ixs v.shape) cs → InB (v.shape.drop ixs.length) rest →
        v'.at (pickAll ks (ixShapes ixs v.shape) cs ++ rest) = storedVal (selShape ixs v.shape) toElem y (ravel (selShape ixs v.shape) (cs.flatten ++ rest)) := by
  obtain ⟨-, x1, v', h1, h2, h3⟩ := C28_assign S origin toElem x x0 x' v y ixs ks hx hv hy hw h hok
  refine ⟨x1, v', h1, h2, ?_⟩
  intro cs rest hcs hr
  obtain ⟨i, -, i2, -⟩ := sel_addr hw h hcs hr
  obtain ⟨l1, -, l3⟩ := denote_lens hw h
  rcases h3 _ i2 with ⟨cs', rest', c1, c2, c3, c4⟩ | ⟨c1, -⟩
  · have hsl : ks.length = (ixShapes ixs v.shape).length := by have := congrArg List.length l1; simpa using this
    have hlen : (pickAll ks (ixShapes ixs v.shape) cs').length = (pickAll ks (ixShapes ixs v.shape) cs).length := by
      rw [pickAll_length hsl c1, pickAll_length hsl hcs]
    obtain ⟨e1, e2⟩ := List.append_inj c3 hlen
    have := pickAll_inj l1 hn c1 hcs e1
    rw [this, e2] at c4
    exact c4
  · exact absurd rfl (c1 cs rest hcs hr)

/-- An assignment that does not succeed leaves the variable with the value it had. -/
theorem C28_refused (S : Sched) (origin : Nat) (toElem : V α → α) (x x0 x' : Var α) (v y : V α) (ixs : List Ix) (r : R Unit)
    (hx : x.Ok) (hv : x.read = .ok (x0, v)) (hy : y.Ok) (hw : ∀ ix ∈ ixs, ix.Ok) (h : indexAssign S origin toElem x ixs y = (x', r)) (hr : r ≠ .ok ()) :
    x'.Ok ∧ ∃ x1, x'.read = .ok (x1, v) := by
  obtain ⟨data, hd, hl, x2, hr'⟩ := var_read hx
  rw [hr'] at hv
  cases hv
  rcases assign_cases (S := S) (origin := origin) (toElem := toElem) hx hy hw hd hl with ⟨x3, e, -⟩ | ⟨x3, r', e, -, rfl | ⟨rfl, hel⟩⟩
  · rw [h] at e; cases e; exact absurd rfl hr
  · rw [h] at e; cases e
    exact ⟨hx, _, hr'⟩
  · rw [h] at e; cases e
    have hx' : (⟨x.value, some (edit data)⟩ : Var α).Ok := ⟨hx.1, .inr ⟨data, rfl, hl, hel⟩⟩
    obtain ⟨l2, g1, g2, x4, g3⟩ := var_read hx'
    have : l2 = data := by
      have g1 : edit data = edit l2 := g1
      unfold edit at g1
      exact (List.map_injective_iff.mpr (fun a b h => Option.some.inj h) g1).symm
    subst this
    exact ⟨hx', _, g3⟩

/-- A single element, or a value of the shape of the selection, is accepted. -/
theorem C28_accepted (S : Sched) (origin : Nat) (toElem : V α → α) (x x0 : Var α) (v y : V α) (ixs : List Ix) (ks : List (List Nat))
    (hx : x.Ok) (hv : x.read = .ok (x0, v)) (hel : ∀ a, v ≠ .elem a) (hy : y.Ok) (hw : ∀ ix ∈ ixs, ix.Ok) (h : Denote origin ixs v.shape ks)
    (hc : 0 < vol (v.shape.drop ixs.length)) (hcm : vol (v.shape.drop ixs.length) ≤ 2147483647)
    (hf : Fits (selShape ixs v.shape)) (hd : ∀ d ∈ selShape ixs v.shape, d ≤ 2147483647)
    (hp : (missingDims ixs v.shape).reverse = missingDims ixs v.shape) (ha : (∃ a, y = .elem a) ∨ y.shape = selShape ixs v.shape) :
    ∃ x', indexAssign S origin toElem x ixs y = (x', .ok ()) := by
  obtain ⟨data, hed, hl, x2, hr⟩ := var_read hx
  rw [hr] at hv
  cases hv
  have hel' : ∀ a, x.value ≠ .elem a := by
    rintro a ha
    rw [ha] at hel
    exact hel a rfl
  have hps := put_shape hel' hl
  rw [hps.1] at h hc hcm hf hd hp ha
  have hl' : data.length = vol x.value.shape := by rw [hl, data_length hx.1]
  have hcode := codeShape_pal h.1 hp
  obtain ⟨e, he⟩ := plan_plain_ok (S := S) (toElem := toElem) hel' hx.1 hy hw h hl' hc hcm (by rw [hcode]; exact hf) (by rw [hcode]; exact hd)
    (by rw [hcode]; exact .inr ha)
  rcases assign_cases (S := S) (origin := origin) (toElem := toElem) hx hy hw hed hl with ⟨x3, e, -⟩ | ⟨x3, r', e2, hr', hx3⟩
  · exact ⟨x3, e⟩
  · exfalso
    unfold indexAssign at e2
    rcases gather_total ixs x.value with ⟨s, hg⟩ | ⟨m, hg⟩
    · simp only [hg, hed, he] at e2
      cases e2
      rcases hr' with h | ⟨_, h⟩ <;> cases h
    · obtain ⟨m', hm⟩ := gather_lhs (origin := origin) hg
      unfold assignPlan at he
      rw [hm] at he; cases he

/-- Assignment at a vector of points: the same. -/
theorem C28_points (S : Sched) (origin : Nat) (toElem : V α → α) (x x0 x' : Var α) (v y : V α) (ix : Ix) (n : Nat) (ps : List (List Nat))
    (hx : x.Ok) (hv : x.read = .ok (x0, v)) (hy : y.Ok) (hw : ix.Ok) (h : Points origin ix v.shape n ps)
    (hok : indexAssign S origin toElem x [ix] y = (x', .ok ())) :
    x'.Ok ∧ ∃ x1 v', x'.read = .ok (x1, v') ∧ v'.shape = v.shape ∧ ∀ p, InB v.shape p →
      (∃ (i : Nat) (q rest : List Nat), ps[i]? = some q ∧ InB (v.shape.drop n) rest ∧ q ++ rest = p ∧
        v'.at p = storedVal (ix.shape 0 ++ v.shape.drop n) toElem y (i * vol (v.shape.drop n) + ravel (v.shape.drop n) rest)) ∨
      ((∀ q ∈ ps, ∀ rest, q ++ rest ≠ p) ∧ v'.at p = v.at p) := by
  obtain ⟨data, hd, hl, x2, hr⟩ := var_read hx
  rw [hr] at hv
  cases hv
  have hw' : ∀ i ∈ [ix], i.Ok := by simpa using hw
  rcases assign_cases (S := S) (origin := origin) (toElem := toElem) hx hy hw' hd hl with ⟨x3, e, hel, l, rfl, hll, hplan⟩ | ⟨x3, r, e, hr', -⟩
  · rw [hok] at e; cases e
    have hps := put_shape hel hl
    rw [hps.1] at h ⊢
    have hl' : data.length = vol x.value.shape := by rw [hl, data_length hx.1]
    have hvs := points_vecs hw h
    have hpl := plan_vecs (S := S) (toElem := toElem) hel hy hvs hl'
    rw [hplan] at hpl
    cases hpl with
    | ok _ hwr =>
      have hx'Ok : (⟨x.value, some (edit l)⟩ : Var α).Ok := ⟨hx.1, .inr ⟨l, rfl, by rw [hll, hl], hel⟩⟩
      obtain ⟨l2, g1, g2, x4, g3⟩ := var_read hx'Ok
      have inj : ∀ {a b : List α}, edit a = edit b → a = b := fun h => List.map_injective_iff.mpr (fun a b h => Option.some.inj h) h
      have : l = l2 := inj g1
      subst this
      obtain ⟨l3, hl3, hll3, hcells⟩ := hwr
      have := inj hl3
      subst this
      have hps' := put_shape (v := x.value) (l := l) hel g2
      refine ⟨hx'Ok, x4, _, g3, hps'.1, ?_⟩
      intro p hp
      rw [at_data (by rw [hps'.1]; exact hp), at_data (by rw [hps.1]; exact hp), hps'.1, hps'.2.1, hps.1, hps.2.1]
      have split : ∀ q rest, InB (x.value.shape.take n) q → ravel x.value.shape (q ++ rest) = ravel (x.value.shape.take n) q * vol (x.value.shape.drop n) + ravel (x.value.shape.drop n) rest := by
        intro q rest hq
        have := ravel_append (x.value.shape.take n) (x.value.shape.drop n) q rest (inB_length hq)
        rwa [List.take_append_drop] at this
      have hsp : InB (x.value.shape.take n ++ x.value.shape.drop n) p := by rw [List.take_append_drop]; exact hp
      obtain ⟨a, b, hab, ha, hb⟩ := inB_split2 hsp
      have hblt := ravel_lt hb
      have hc : 0 < vol (x.value.shape.drop n) := by omega
      rcases hcells (ravel x.value.shape p) (by rw [hl']; exact ravel_lt hp) with ⟨w, w1, w2, w3⟩ | ⟨w1, w2⟩
      · left
        have hi : w / vol (x.value.shape.drop n) < ps.length := by rw [Nat.div_lt_iff_lt_mul hc]; exact w1
        have hm : w % vol (x.value.shape.drop n) < vol (x.value.shape.drop n) := Nat.mod_lt _ hc
        have hq := List.getElem?_eq_getElem hi
        have hqb := h.inB _ (List.getElem_mem hi)
        have hrb := unravel_inB hm
        refine ⟨w / vol (x.value.shape.drop n), ps[w / vol (x.value.shape.drop n)], unravel (x.value.shape.drop n) (w % vol (x.value.shape.drop n)), hq, hrb, ?_, ?_⟩
        · apply ravel_inj (s := x.value.shape) ?_ hp
          · rw [split _ _ hqb, ravel_unravel hm, ← w2]
            unfold addrOf vecOff
            rw [List.getD_eq_getElem?_getD, hq, Option.getD_some]
          · have := inB_append hqb hrb
            rwa [List.take_append_drop] at this
        · rw [ravel_unravel hm, w3]
          congr 1
          rw [Nat.mul_comm]; exact (Nat.div_add_mod w _).symm
      · refine .inr ⟨?_, w2⟩
        intro q hq rest hqr
        have hqb := h.inB q hq
        obtain ⟨i, hi, hiq⟩ := List.mem_iff_getElem.mp hq
        have hlen : q.length = a.length := by rw [inB_length hqb, inB_length ha]
        rw [hab] at hqr
        obtain ⟨rfl, rfl⟩ := List.append_inj hqr hlen
        apply w1 (i * vol (x.value.shape.drop n) + ravel (x.value.shape.drop n) rest) (off_lt hi hblt rfl)
        unfold addrOf vecOff
        have e1 : (i * vol (x.value.shape.drop n) + ravel (x.value.shape.drop n) rest) / vol (x.value.shape.drop n) = i := by
          rw [Nat.mul_comm, Nat.mul_add_div hc, Nat.div_eq_of_lt hblt]; simp
        have e2 : (i * vol (x.value.shape.drop n) + ravel (x.value.shape.drop n) rest) % vol (x.value.shape.drop n) = ravel (x.value.shape.drop n) rest := by
          rw [Nat.mul_comm, Nat.mul_add_mod, Nat.mod_eq_of_lt hblt]
        rw [e1, e2, List.getD_eq_getElem?_getD, List.getElem?_eq_getElem hi, Option.getD_some, hiq, hab, split _ _ hqb]
  · rw [hok] at e
    cases e
    rcases hr' with h | ⟨e, h⟩ <;> cases h

end Verif.Arr
