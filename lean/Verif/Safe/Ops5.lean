import Verif.Safe.Ops2
import Verif.Arr.IndexProps

/-!
# Indexing ends
-/

namespace Verif.Safe
open Verif.Arr
variable {α : Type}

theorem good_shape {P : α → Prop} {v : V α} (h : GoodV P v) : v.data.length = vol v.shape := by
  cases v with
  | elem x => rfl
  | vec l => simp [V.data, V.shape, vol]
  | mat m => exact h.1.len

theorem good_data {P : α → Prop} {v : V α} (h : GoodV P v) : ∀ x ∈ v.data, P x := by
  cases v with
  | elem x => intro y hy; rw [List.mem_singleton.1 hy]; exact h
  | vec l => exact h
  | mat m => exact h.2

theorem fillMissing_err (origin : Nat) : ∀ (ixs : List Ix) (shape upd out : List Nat), ixs.length ≤ shape.length → NoOther ixs →
    (¬ ∀ d ∈ missingDims ixs shape, d ≤ maxInt) → upd.length = (missPos ixs).length → (∀ u ∈ upd, u < out.length) →
    ∃ e, fillMissing origin (ixs.map Ix.raw) shape upd out = .err e
  | [], shape, upd, out, _, _, h, _, _ => (h (by simp [missingDims])).elim
  | ix :: ixs, [], _, _, h, _, _, _, _ => by simp at h
  | ix :: ixs, d :: ds, upd, out, hl, ho, hd, hu, hb => by
    have ih := fun upd out => fillMissing_err origin ixs ds upd out (by simpa using hl) (fun x hx => ho x (by simp [hx]))
    cases ix with
    | other => exact absurd rfl (ho .other (by simp))
    | missing =>
      cases upd with
      | nil => simp [missPos] at hu
      | cons u upd =>
        simp only [List.map_cons, Ix.raw, fillMissing]
        by_cases hdm : d ≤ maxInt
        · have hni : newIota origin d = .ok ((List.range d).map fun i => .int ((origin + i : Nat) : Int)) := by
            unfold newIota; rw [if_neg (by omega)]
          rw [hni, bind_ok, if_pos (hb u (by simp))]
          obtain ⟨e, he⟩ := ih upd (out.set u ((List.range d).map fun i => IxElem.int ((origin + i : Nat) : Int)).length)
            (fun h => hd (by simp only [missingDims, List.mem_cons, forall_eq_or_imp]; exact ⟨hdm, h⟩))
            (by simpa [missPos] using hu) (by intro x hx; rw [List.length_set]; exact hb x (by simp [hx]))
          exact ⟨e, by rw [he]; rfl⟩
        · unfold newIota
          rw [if_pos (by omega)]
          exact ⟨_, rfl⟩
    | int k =>
      simp only [List.map_cons, Ix.raw, fillMissing]
      obtain ⟨e, he⟩ := ih upd out hd (by simpa [missPos] using hu) hb
      exact ⟨e, by rw [he]; rfl⟩
    | vec l =>
      simp only [List.map_cons, Ix.raw, fillMissing]
      obtain ⟨e, he⟩ := ih upd out hd (by simpa [missPos] using hu) hb
      exact ⟨e, by rw [he]; rfl⟩
    | mat m =>
      simp only [List.map_cons, Ix.raw, fillMissing]
      obtain ⟨e, he⟩ := ih upd out hd (by simpa [missPos] using hu) hb
      exact ⟨e, by rw [he]; rfl⟩

/-- How the indexes are read, whatever the sizes. -/
inductive Inited (origin : Nat) (lhs : V α) (ixs : List Ix) : R IxState → Prop where
  | err (m : String) : Inited origin lhs ixs (.err m)
  | plain (ks : List (List Nat)) (hv : ∀ x, lhs ≠ .elem x) (h : Denote origin ixs lhs.shape ks) :
      Inited origin lhs ixs (.ok ⟨lhs.shape, .inl (shiftAll origin ks), ixs.length, codeShape ixs lhs.shape, vol (codeShape ixs lhs.shape)⟩)
  | vecs (ix : Ix) (n : Nat) (ps : List (List Nat)) (hv : ∀ x, lhs ≠ .elem x) (hi : ixs = [ix]) (h : Vecs origin ix lhs.shape n ps) :
      Inited origin lhs ixs (.ok ⟨lhs.shape, .inr (ps.map (shift origin)), n, ix.shape 0 ++ lhs.shape.drop n, vol (ix.shape 0 ++ lhs.shape.drop n)⟩)

theorem ixInit_elem (origin : Nat) (x : α) (ixs : List Ix) : ∃ e, ixInit origin (.elem x) ixs = .err e := by
  by_cases hno : NoOther ixs
  · obtain ⟨upd, h1, -, -⟩ := gather_ok ixs hno
    unfold ixInit; rw [h1, bind_ok]; exact ⟨_, rfl⟩
  · obtain ⟨e, he⟩ := gather_other ixs hno
    exact ⟨e, by unfold ixInit; rw [he]; rfl⟩

theorem inited_plain {origin : Nat} {lhs : V α} {ixs : List Ix} (hv : ∀ x, lhs ≠ .elem x) (hnv : ¬ VecIndex ixs) : Inited origin lhs ixs (ixInit origin lhs ixs) := by
  by_cases hno : NoOther ixs
  · obtain ⟨upd, h1, h2, h3⟩ := gather_ok ixs hno
    unfold ixInit
    rw [h1, bind_ok]
    simp only
    rw [lhsShape_ok hv, bind_ok, initVectorIndex_none _ _ _ _ hnv, bind_ok]
    simp only [List.length_map, List.length_reverse, List.reverse_reverse]
    by_cases hl : ixs.length ≤ lhs.shape.length
    · rw [if_neg (by omega), h3]
      by_cases hd : ∀ d ∈ missingDims ixs lhs.shape, d ≤ maxInt
      · rw [fillMissing_ok origin ixs _ _ _ hl hno hd (by simp) (fun u hu => missPos_lt ixs u (by simpa using hu)), bind_ok, fill_shape hl hno]
        show Inited origin lhs ixs ((size (codeShape ixs lhs.shape)).bind _)
        rcases size_total (codeShape ixs lhs.shape) with ⟨r, hr⟩ | ⟨e, he⟩
        · have := size_inv hr
          subst this
          rw [hr, bind_ok]
          by_cases hk : ∃ ks, Denote origin ixs lhs.shape ks
          · obtain ⟨ks, hk⟩ := hk
            simp only
            rw [checkAll_ok _ _ _ _ hno hk, bind_ok]
            exact .plain ks hv hk
          · obtain ⟨e, he⟩ := checkAll_err origin ixs lhs.shape hno hl hk
            simp only
            rw [he]
            exact .err e
        · rw [he]; exact .err e
      · obtain ⟨e, he⟩ := fillMissing_err origin ixs lhs.shape (missPos ixs).reverse (shape0 ixs) hl hno hd (by simp) (fun u hu => missPos_lt ixs u (by simpa using hu))
        rw [he]
        exact .err e
    · rw [if_pos (by omega)]
      exact .err _
  · obtain ⟨e, he⟩ := gather_other ixs hno
    unfold ixInit
    rw [he]
    exact .err e

/-- Reading the indexes ends. -/
theorem inited (origin : Nat) (lhs : V α) (ixs : List Ix) (hw : ∀ ix ∈ ixs, ix.Ok) : Inited origin lhs ixs (ixInit origin lhs ixs) := by
  by_cases hv : ∀ x, lhs ≠ .elem x
  · by_cases hvi : VecIndex ixs
    · obtain ⟨v, r, hvr⟩ := hvi
      cases ixs with
      | nil => simp at hvr
      | cons ix ixs =>
        simp only [List.map_cons, List.cons.injEq, List.map_eq_nil_iff] at hvr
        obtain ⟨hraw, rfl⟩ := hvr
        have hno : NoOther [ix] := by
          intro x hx
          simp at hx; subst hx
          rintro rfl
          simp [Ix.raw] at hraw
        have hrank : ix.shape 0 ≠ [] := by
          cases ix with
          | missing => simp [Ix.shape]
          | int k => simp [Ix.raw] at hraw
          | vec l => simp [Ix.shape]
          | mat m => exact (show m.WF from hw (.mat m) (by simp)).rank
          | other => simp [Ix.raw] at hraw
        by_cases hle : v.length > lhs.shape.length
        · obtain ⟨upd, h1, h2, h3⟩ := gather_ok [ix] hno
          unfold ixInit
          rw [h1, bind_ok]
          simp only
          rw [lhsShape_ok hv, bind_ok]
          simp only [List.map_cons, List.map_nil, hraw]
          unfold initVectorIndex
          simp only
          rw [if_pos hle]
          exact .err _
        · rcases checkVecs_inv origin v.length lhs.shape (by omega) (.vec v :: r) with ⟨ps, g1, g2⟩ | ⟨e, g1⟩
          · have hvs : Vecs origin ix lhs.shape v.length ps := by
              refine ⟨by rw [hraw, g1], ?_, by omega, g2, ?_, hrank⟩
              · rintro rfl; simp at g1
              · have hl := congrArg List.length g1
                simp only [List.length_map] at hl
                cases ix with
                | missing => simp [Ix.raw] at hraw
                | int k => simp [Ix.raw] at hraw
                | vec l => simp only [Ix.raw, Option.some.injEq] at hraw; subst hraw; simp [Ix.shape, vol, ← hl]
                | mat m =>
                  simp only [Ix.raw, Option.some.injEq] at hraw
                  have := (show m.WF from hw (.mat m) (by simp)).len
                  rw [hraw] at this
                  simp only [Ix.shape]; omega
                | other => simp [Ix.raw] at hraw
            rw [ixInit_vecs hv hvs]
            rcases size_total (ix.shape 0 ++ lhs.shape.drop v.length) with ⟨r, hr⟩ | ⟨e, he⟩
            · have := size_inv hr
              subst this
              rw [hr, bind_ok]
              exact .vecs ix _ ps hv rfl hvs
            · rw [he]; exact .err e
          · obtain ⟨upd, h1, h2, h3⟩ := gather_ok [ix] hno
            unfold ixInit
            rw [h1, bind_ok]
            simp only
            rw [lhsShape_ok hv, bind_ok]
            simp only [List.map_cons, List.map_nil, hraw]
            unfold initVectorIndex
            simp only
            rw [if_neg hle, g1]
            exact .err _
    · exact inited_plain hv hvi
  · simp only [not_forall, not_not] at hv
    obtain ⟨x, rfl⟩ := hv
    obtain ⟨e, he⟩ := ixInit_elem origin x ixs
    rw [he]
    exact .err e

theorem gives_wrap {P : α → Prop} {out : List Nat} {d : List α} (h0 : out ≠ []) (hd : ∀ x ∈ d, P x) :
    Gives (GoodV P) (if out.length = 1 then .ok (.vec d) else (newMatrix out d).bind fun m => .ok (.mat m)) := by
  split
  · exact hd
  · exact gives_matV h0 hd

/-- The elements copied are elements of the value indexed. -/
theorem gives_copied {P : α → Prop} {data : List α} {shape : List Nat} {dim n : Nat} {o : Nat → Nat} {out : List Nat} (hs : Sel shape dim n o) (hl : data.length = vol shape)
    (hd : ∀ x ∈ data, P x) (h0 : out ≠ []) (hc : 0 < vol (shape.drop dim)) {q : R (Ed α)}
    (hq : q = loop (fun i e => copyOut data i (o i) (vol (shape.drop dim)) e) (List.range n) (newEd (n * vol (shape.drop dim)))) :
    Gives (GoodV P) (q.bind fun e => e.publish.bind fun d => if out.length = 1 then .ok (.vec d) else (newMatrix out d).bind fun m => .ok (.mat m)) := by
  obtain ⟨e, d, h1, h2, h3, h4⟩ := copyAll hs hl hc
  rw [hq, h1, bind_ok, h2, bind_ok]
  refine gives_wrap h0 ?_
  intro x hx
  obtain ⟨j, hj, rfl⟩ := List.mem_iff_getElem.1 hx
  have h5 := h4 (j / vol (shape.drop dim)) (j % vol (shape.drop dim)) (by rw [Nat.div_lt_iff_lt_mul hc]; omega) (Nat.mod_lt _ hc)
  rw [show j / vol (shape.drop dim) * vol (shape.drop dim) + j % vol (shape.drop dim) = j by rw [Nat.mul_comm]; exact Nat.div_add_mod j _,
    List.getElem?_eq_getElem hj] at h5
  exact hd _ (List.mem_of_getElem? h5.symm)

theorem elem_nonempty {l : V α} (hv : ∀ x, l ≠ .elem x) : (∃ xs, l = .vec xs) ∨ ∃ m, l = .mat m := by
  cases l with
  | elem x => exact (hv x rfl).elim
  | vec l => exact .inl ⟨l, rfl⟩
  | mat m => exact .inr ⟨m, rfl⟩

theorem vol_drop_pos {P : α → Prop} {lhs : V α} (hg : GoodV P lhs) (h : 0 < lhs.data.length) (k : Nat) : 0 < vol (lhs.shape.drop k) := by
  rw [good_shape hg, vol_split lhs.shape k] at h
  exact Nat.pos_of_mul_pos_left h

theorem vecs_vecIndex {origin : Nat} {ix : Ix} {shape : List Nat} {n : Nat} {ps : List (List Nat)} (h : Vecs origin ix shape n ps) : VecIndex [ix] := by
  cases ps with
  | nil => exact (h.ne rfl).elim
  | cons p ps => exact ⟨_, _, by rw [List.map_singleton, h.raw]; rfl⟩

/-- The value holds elements, or it is a vector and its index is not a vector of vectors. -/
def Indexable (lhs : V α) (ixs : List Ix) : Prop := 0 < lhs.data.length ∨ ((∃ l, lhs = .vec l) ∧ ¬ VecIndex ixs)

theorem indexable_pos {P : α → Prop} {lhs : V α} {ixs : List Ix} (hg : GoodV P lhs) (hi : ixs ≠ []) (h : Indexable lhs ixs) (hv : ¬ VecIndex ixs) :
    0 < vol (lhs.shape.drop ixs.length) := by
  rcases h with h | ⟨⟨l, rfl⟩, -⟩
  · exact vol_drop_pos hg h _
  · cases ixs with
    | nil => exact (hi rfl).elim
    | cons ix ixs => simp [V.shape, vol]

/-- Indexing ends, except of a matrix without elements (or of an empty vector, by vectors). -/
theorem gives_index {P : α → Prop} {origin : Nat} {lhs : V α} {ixs : List Ix} (hg : GoodV P lhs) (hw : ∀ ix ∈ ixs, ix.Ok) (hix : ixs ≠ [])
    (hne : Indexable lhs ixs) : Gives (GoodV P) (index origin lhs ixs) := by
  have hi := inited origin lhs ixs hw
  unfold index
  generalize ixInit origin lhs ixs = q at hi
  cases hi with
  | err m => trivial
  | plain ks hv h =>
    rw [bind_ok]
    simp only
    have hsel := plain_sel hw h
    have hlen := denote_lens hw h
    have hvol : vol (codeShape ixs lhs.shape) = vol (ks.map List.length) * vol (lhs.shape.drop ixs.length) := by
      rw [vol_codeShape h.1, selShape, vol_append, vol_flatten, hlen.1]
    split
    · rename_i h0
      have h0 : codeShape ixs lhs.shape = [] := List.length_eq_zero_iff.mp h0
      have hd0 : lhs.shape.drop ixs.length = [] := by
        unfold codeShape at h0; exact (List.append_eq_nil_iff.mp h0).2
      have hn : vol (ks.map List.length) = 1 := by
        rw [h0, hd0] at hvol; simpa [vol] using hvol.symm
      have hz : (shiftAll origin ks).map (fun _ => 0) = unravel (ks.map List.length) 0 := by
        rw [unravel_zero]; simp [shiftAll, Function.comp_def]
      have hin : InB (ks.map List.length) (unravel (ks.map List.length) 0) := unravel_inB (by omega)
      rw [hz, picks_ok origin ks _ hin, bind_ok, offset_eq origin _ _ (by rw [pickAt_length hin, hlen.2.2]; exact h.1), pickAt_length hin, hlen.2.2]
      have hlt := hsel.lt 0 (by omega)
      have hb : plainOff lhs.shape ixs.length ks 0 < lhs.data.length := by
        rw [good_shape hg, vol_split lhs.shape ixs.length, hd0]; simpa [vol] using hlt
      exact gives_bind (gives_vAt (good_data hg) hb) fun x hx => hx
    · rename_i h0
      have h0 : codeShape ixs lhs.shape ≠ [] := fun h => h0 (by simp [h])
      refine gives_bind (gives_size _) fun cs hcs => ?_
      subst hcs
      have hc := indexable_pos hg hix hne (denote_not_vec h)
      rw [if_neg (by omega)]
      refine gives_copied hsel (good_shape hg) (good_data hg) h0 hc ?_
      unfold indexLoop
      simp only
      rw [hvol, Nat.mul_div_cancel _ hc]
      have := coordLoop hw h (fun i off e => copyOut lhs.data i off (vol (lhs.shape.drop ixs.length)) e) (vol (ks.map List.length)) 0
        (newEd (vol (ks.map List.length) * vol (lhs.shape.drop ixs.length))) (by omega)
      rw [Nat.zero_mod, unravel_zero, List.length_map, hlen.2.2, ← range_eq] at this
      exact this
  | vecs ix n ps hv hix h =>
    subst hix
    rw [bind_ok]
    simp only
    have hc : 0 < vol (lhs.shape.drop n) := vol_drop_pos hg (hne.resolve_right fun h' => h'.2 (vecs_vecIndex h)) n
    have h0 : ix.shape 0 ++ lhs.shape.drop n ≠ [] := fun e => h.rank (List.append_eq_nil_iff.mp e).1
    have hvol : vol (ix.shape 0 ++ lhs.shape.drop n) = ps.length * vol (lhs.shape.drop n) := by rw [vol_append, h.num]
    rw [if_neg (fun e => h0 (List.length_eq_zero_iff.mp e))]
    refine gives_bind (gives_size _) fun cs hcs => ?_
    subst hcs
    rw [if_neg (by omega)]
    refine gives_copied (vecs_sel h) (good_shape hg) (good_data hg) h0 hc ?_
    unfold indexLoop
    simp only
    rw [hvol, List.length_map, range_eq]
    exact vecLoop h (fun i off e => copyOut lhs.data i off (vol (lhs.shape.drop n)) e) 0 ps.length (newEd (ps.length * vol (lhs.shape.drop n))) (by omega)

/-! ## Assignment -/

/-- A variable as it should be: the editor, if there is one, holds as many elements as the value. -/
def GoodVar (P : α → Prop) (x : Var α) : Prop :=
  GoodV P x.value ∧ (x.edit = none ∨ ∃ l, x.edit = some (Verif.Arr.edit l) ∧ l.length = x.value.data.length ∧ (∀ y ∈ l, P y) ∧ ∀ a, x.value ≠ .elem a)

theorem good_rhs {P : α → Prop} {out : List Nat} {toElem : V α → α} {y : V α} (ht : ∀ y, GoodV P y → P (toElem y)) (hy : GoodV P y) :
    Gives (fun r => (∀ w, w < vol out → (rhsVal r w).isSome) ∧ (out = [] → ∃ x, r = .inl x) ∧ ∀ w x, rhsVal r w = some x → P x) (rhsOf out toElem y) := by
  unfold rhsOf
  split
  · exact ⟨fun _ _ => rfl, fun _ => ⟨_, rfl⟩, fun w x h => by cases h; exact ht y hy⟩
  · rename_i h0
    have h0 : out ≠ [] := fun h => h0 (by simp [h])
    cases y with
    | elem x => exact ⟨fun _ _ => rfl, fun _ => ⟨_, rfl⟩, fun w x h => by cases h; exact hy⟩
    | vec l =>
      simp only
      split
      · rename_i he
        refine ⟨fun w hw => ?_, fun h => (h0 h).elim, fun w x h => hy x (List.mem_of_getElem? h)⟩
        rw [he] at hw
        simp only [vol, Nat.mul_one] at hw
        simp [rhsVal, hw]
      · trivial
    | mat m =>
      simp only
      split
      · rename_i he
        refine ⟨fun w hw => ?_, fun h => (h0 h).elim, fun w x h => hy.2 x (List.mem_of_getElem? h)⟩
        rw [he, ← hy.1.len] at hw
        simp [rhsVal, hw]
      · trivial

/-- How the stores end. -/
theorem stored_good {P : α → Prop} {data : List α} {shape : List Nat} {dim n : Nat} {o : Nat → Nat} {rhs : α ⊕ List α} {q : R (R (Ed α))}
    (h : Stored data shape dim n o rhs q) (hc : 0 < vol (shape.drop dim)) (hd : ∀ x ∈ data, P x) (hr : ∀ w x, rhsVal rhs w = some x → P x) :
    (∃ m, q = .err m) ∨ ∃ l, q = .ok (.ok (edit l)) ∧ l.length = data.length ∧ ∀ x ∈ l, P x := by
  cases h with
  | err m h => exact .inl ⟨m, rfl⟩
  | crash h => omega
  | ok e h =>
    obtain ⟨l, rfl, hl, hp⟩ := h
    refine .inr ⟨l, rfl, hl, ?_⟩
    intro x hx
    obtain ⟨p, hpl, rfl⟩ := List.mem_iff_getElem.1 hx
    rcases hp p (by omega) with ⟨w, -, -, h3⟩ | ⟨-, h3⟩
    · exact hr w _ (by rw [← h3, List.getElem?_eq_getElem hpl])
    · rw [List.getElem?_eq_getElem hpl] at h3
      exact hd _ (List.mem_of_getElem? h3.symm)

/-- What `IndexAssign` does before and while it stores. -/
theorem plan_good {P : α → Prop} {S : Sched} {origin : Nat} {toElem : V α → α} {lhs y : V α} {data : List α} {ixs : List Ix} (ht : ∀ y, GoodV P y → P (toElem y))
    (hg : GoodV P lhs) (hy : GoodV P y) (hw : ∀ ix ∈ ixs, ix.Ok) (hix : ixs ≠ []) (hne : Indexable lhs ixs) (hl : data.length = vol lhs.shape) (hd : ∀ x ∈ data, P x) :
    (∃ m, assignPlan S origin toElem lhs (edit data) ixs y = .err m) ∨
    ∃ l, assignPlan S origin toElem lhs (edit data) ixs y = .ok (.ok (edit l)) ∧ l.length = data.length ∧ ∀ x ∈ l, P x := by
  have hi := inited origin lhs ixs hw
  unfold assignPlan
  generalize ixInit origin lhs ixs = q at hi
  cases hi with
  | err m => exact .inl ⟨m, rfl⟩
  | plain ks hv h =>
    rw [bind_ok]
    simp only
    have hr := good_rhs (out := codeShape ixs lhs.shape) ht hy
    generalize rhsOf (codeShape ixs lhs.shape) toElem y = r at hr
    cases r with
    | err m => exact .inl ⟨m, rfl⟩
    | crash => exact hr.elim
    | hang => exact hr.elim
    | ok r =>
      obtain ⟨g1, g2, g3⟩ := hr
      exact stored_good (stores_plain (S := S) hw h hl g1 g2) (indexable_pos hg hix hne (denote_not_vec h)) hd g3
  | vecs ix n ps hv hi h =>
    subst hi
    rw [bind_ok]
    simp only
    have hr := good_rhs (out := ix.shape 0 ++ lhs.shape.drop n) ht hy
    generalize rhsOf (ix.shape 0 ++ lhs.shape.drop n) toElem y = r at hr
    cases r with
    | err m => exact .inl ⟨m, rfl⟩
    | crash => exact hr.elim
    | hang => exact hr.elim
    | ok r =>
      obtain ⟨g1, g2, g3⟩ := hr
      exact stored_good (stores_vecs (S := S) (origin := origin) h hl g1) (vol_drop_pos hg (hne.resolve_right fun h' => h'.2 (vecs_vecIndex h)) n) hd g3

/-- The elements a variable holds now. -/
theorem good_editor {P : α → Prop} {x : Var α} (h : GoodVar P x) : ∃ l, x.editor = edit l ∧ l.length = x.value.data.length ∧ ∀ y ∈ l, P y := by
  obtain ⟨v, e⟩ := x
  obtain ⟨h1, h2⟩ := h
  rcases h2 with h2 | ⟨l, h2, h3, h4, -⟩
  · simp only at h2; subst h2
    exact ⟨v.data, rfl, rfl, good_data h1⟩
  · simp only at h2 h3; subst h2
    exact ⟨l, rfl, h3, h4⟩

/-- Reading a variable ends. -/
theorem gives_read {P : α → Prop} {x : Var α} (h : GoodVar P x) : Gives (fun r => GoodVar P r.1 ∧ GoodV P r.2) x.read := by
  obtain ⟨v, e⟩ := x
  obtain ⟨h1, h2⟩ := h
  rcases h2 with h2 | ⟨l, h2, h3, h4, h5⟩
  · simp only at h2; subst h2
    cases v <;> exact ⟨⟨h1, .inl rfl⟩, h1⟩
  · simp only at h2 h3 h4 h5; subst h2
    have hpub : (edit l).publish = .ok l := by simp [edit, publish_edit]
    cases v with
    | elem a => exact absurd rfl (h5 a)
    | vec l' =>
      simp only [Var.read, hpub, bind_ok]
      exact ⟨⟨h4, .inl rfl⟩, h4⟩
    | mat m =>
      simp only [Var.read, hpub, bind_ok]
      have hm : GoodV P (.mat ⟨m.shape, l⟩) := ⟨⟨h1.1.rank, by simp only; rw [h3]; exact h1.1.len⟩, h4⟩
      exact ⟨⟨hm, .inl rfl⟩, hm⟩

/-- Indexed assignment ends, except to a matrix without elements (or to an empty vector, by vectors); the variable is as it should be in any case. -/
theorem gives_indexAssign {P : α → Prop} {S : Sched} {origin : Nat} {toElem : V α → α} {x : Var α} {y : V α} {ixs : List Ix} (ht : ∀ y, GoodV P y → P (toElem y))
    (hx : GoodVar P x) (hy : GoodV P y) (hw : ∀ ix ∈ ixs, ix.Ok) (hix : ixs ≠ []) (hne : Indexable x.value ixs) :
    GoodVar P (indexAssign S origin toElem x ixs y).1 ∧ Gives (fun _ => True) (indexAssign S origin toElem x ixs y).2 := by
  obtain ⟨data, hd, hl, hp⟩ := good_editor hx
  have hl' : data.length = vol x.value.shape := by rw [hl, good_shape hx.1]
  rcases gather_total ixs x.value with ⟨s, hg⟩ | ⟨e, hg⟩
  · have hv := gather_elem hg
    rcases plan_good (S := S) (origin := origin) ht hx.1 hy hw hix hne hl' hp with ⟨e, h⟩ | ⟨l, h, h2, h3⟩
    · unfold indexAssign
      simp only [hg, hd, h]
      exact ⟨⟨hx.1, .inr ⟨data, rfl, hl, hp, hv⟩⟩, trivial⟩
    · unfold indexAssign
      simp only [hg, hd, h]
      exact ⟨⟨hx.1, .inr ⟨l, rfl, by rw [h2, hl], h3, hv⟩⟩, trivial⟩
  · unfold indexAssign
    rw [hg]
    exact ⟨hx, trivial⟩

end Verif.Safe
