import Verif.Arr.IndexLemmas4

/-! # Lemmas about indexed assignment -/

namespace Verif.Arr
variable {α : Type}

/-- How the stores end. -/
inductive Stored (data : List α) (shape : List Nat) (dim n : Nat) (o : Nat → Nat) (rhs : α ⊕ List α) : R (R (Ed α)) → Prop where
  | err (m : String) (h : ¬ (0 < vol (shape.drop dim) ∧ vol (shape.drop dim) ≤ maxInt)) : Stored data shape dim n o rhs (.err m)
  | crash (h : vol (shape.drop dim) = 0) : Stored data shape dim n o rhs .crash
  | ok (e : Ed α) (h : Wrote data (addrOf o (vol (shape.drop dim))) (rhsVal rhs) (fun w => w < n * vol (shape.drop dim)) e) :
      Stored data shape dim n o rhs (.ok (.ok e))

/-- The stores of a selection, given what the loops do. -/
theorem stores {S : Sched} {origin : Nat} {data : List α} {st : IxState} {n : Nat} {o : Nat → Nat} {rhs : α ⊕ List α}
    (hs : Sel st.shape st.indexDim n o) (hl : data.length = vol st.shape) (hz : vol st.outShape = n * vol (st.shape.drop st.indexDim))
    (hsz : st.outSize = vol st.outShape) (h0 : st.outShape ≠ []) (hr : ∀ w, w < vol st.outShape → (rhsVal rhs w).isSome)
    (hf : ∀ cs lo cnt e, cs = vol (st.shape.drop st.indexDim) → lo + cnt ≤ n →
      storeRange origin st rhs cs lo (lo + cnt) e = loop (fun i e => storeIn rhs i (o i) cs e) (List.range' lo cnt) e) :
    Stored data st.shape st.indexDim n o rhs (storeAll S origin st rhs (edit data)) := by
  unfold storeAll
  rw [if_neg (fun e => h0 (List.length_eq_zero_iff.mp e))]
  rcases size_total (st.shape.drop st.indexDim) with ⟨r, hr'⟩ | ⟨e, he⟩
  · have := size_inv hr'
    subst this
    rw [hr', bind_ok]
    split
    · rename_i h; exact .crash h
    · rename_i h
      have hc : 0 < vol (st.shape.drop st.indexDim) := Nat.pos_of_ne_zero h
      obtain ⟨e, h1, h2⟩ := storePfor (data := data) S (rhs := rhs) (o := o) (n := n) hc (by rw [← hz]; exact hr)
        (fun i j hi hj => off_lt (hs.lt i hi) hj (by rw [hl, vol_split st.shape st.indexDim]))
        (storeRange origin st rhs (vol (st.shape.drop st.indexDim))) (fun lo cnt e h => hf _ lo cnt e rfl h) (by
          intro lo hi e hle
          unfold storeRange
          rw [show hi - lo = 0 by omega]
          cases st.sel <;> rfl)
      rw [hsz, hz, Nat.mul_div_cancel _ hc, h1]
      exact .ok e h2
  · rw [he]
    refine .err e fun h => ?_
    rw [size_of_pos h.1 h.2] at he; cases he

theorem plain_range {origin : Nat} {ixs : List Ix} {shape out : List Nat} {sz : Nat} {ks : List (List Nat)} (hw : ∀ ix ∈ ixs, ix.Ok)
    (h : Denote origin ixs shape ks) (rhs : α ⊕ List α) (cs lo cnt : Nat) (e : Ed α) (hc : lo + cnt ≤ vol (ks.map List.length)) :
    storeRange origin ⟨shape, .inl (shiftAll origin ks), ixs.length, out, sz⟩ rhs cs lo (lo + cnt) e =
      loop (fun i e => storeIn rhs i (plainOff shape ixs.length ks i) cs e) (List.range' lo cnt) e := by
  unfold storeRange
  simp only
  rw [show lo + cnt - lo = cnt by omega]
  cases cnt with
  | zero => rfl
  | succ n =>
    rw [shiftAll_lens, startIndex_eq (vol_pos.mp (by omega)) lo]
    exact coordLoop hw h (fun i off e => storeIn rhs i off cs e) (n + 1) lo e hc

/-- The stores with plain indexes. -/
theorem stores_plain {S : Sched} {origin : Nat} {data : List α} {ixs : List Ix} {shape : List Nat} {ks : List (List Nat)} {rhs : α ⊕ List α}
    (hw : ∀ ix ∈ ixs, ix.Ok) (h : Denote origin ixs shape ks) (hl : data.length = vol shape)
    (hr : ∀ w, w < vol (codeShape ixs shape) → (rhsVal rhs w).isSome) (h0 : codeShape ixs shape = [] → ∃ x, rhs = .inl x) :
    Stored data shape ixs.length (vol (ks.map List.length)) (plainOff shape ixs.length ks) rhs
      (storeAll S origin ⟨shape, .inl (shiftAll origin ks), ixs.length, codeShape ixs shape, vol (codeShape ixs shape)⟩ rhs (edit data)) := by
  have hsel := plain_sel hw h
  have hlen := denote_lens hw h
  have hvol : vol (codeShape ixs shape) = vol (ks.map List.length) * vol (shape.drop ixs.length) := by
    rw [vol_codeShape h.1, selShape, vol_append, vol_flatten, hlen.1]
  by_cases hn : codeShape ixs shape = []
  · obtain ⟨x, rfl⟩ := h0 hn
    have hd0 : shape.drop ixs.length = [] := by
      unfold codeShape at hn; exact (List.append_eq_nil_iff.mp hn).2
    have hn1 : vol (ks.map List.length) = 1 := by
      rw [hn, hd0] at hvol; simpa [vol] using hvol.symm
    have hz : (shiftAll origin ks).map (fun _ => 0) = unravel (ks.map List.length) 0 := by
      rw [unravel_zero]; simp [shiftAll, Function.comp_def]
    have hin : InB (ks.map List.length) (unravel (ks.map List.length) 0) := unravel_inB (by omega)
    unfold storeAll
    rw [if_pos (by simp [hn])]
    simp only
    rw [hz, picks_ok origin ks _ hin, bind_ok, offset_eq origin _ _ (by rw [pickAt_length hin, hlen.2.2]; exact h.1), pickAt_length hin, hlen.2.2]
    have hlt := hsel.lt 0 (by omega)
    have hb : plainOff shape ixs.length ks 0 < data.length := by
      rw [hl, vol_split shape ixs.length, hd0]; simpa [vol] using hlt
    have ha : addrOf (plainOff shape ixs.length ks) (vol (shape.drop ixs.length)) 0 = plainOff shape ixs.length ks 0 := by
      rw [hd0]; simp [addrOf, vol]
    obtain ⟨e', g1, g2⟩ := wrote_put (wrote_nil data (addrOf (plainOff shape ixs.length ks) (vol (shape.drop ixs.length))) (rhsVal (.inl x)))
      (w := 0) (x := x) rfl (by rw [ha]; exact hb)
    rw [ha] at g1
    have g1' : (edit data).put (ravel (shape.take ixs.length) (pickAt ks (unravel (ks.map List.length) 0))) x = .ok e' := g1
    rw [g1']
    refine .ok e' (wrote_iff g2 fun w => ?_)
    rw [hn1, hd0]; simp [vol]
  · exact stores (st := ⟨shape, .inl (shiftAll origin ks), ixs.length, codeShape ixs shape, vol (codeShape ixs shape)⟩) hsel hl hvol rfl hn hr
      (fun cs lo cnt e _ hc => plain_range hw h rhs cs lo cnt e hc)

/-- The stores with a vector of vectors of indexes. -/
theorem stores_vecs {S : Sched} {origin : Nat} {data : List α} {ix : Ix} {shape : List Nat} {n : Nat} {ps : List (List Nat)} {rhs : α ⊕ List α}
    (h : Vecs origin ix shape n ps) (hl : data.length = vol shape)
    (hr : ∀ w, w < vol (ix.shape 0 ++ shape.drop n) → (rhsVal rhs w).isSome) :
    Stored data shape n ps.length (vecOff shape n ps) rhs
      (storeAll S origin ⟨shape, .inr (ps.map (shift origin)), n, ix.shape 0 ++ shape.drop n, vol (ix.shape 0 ++ shape.drop n)⟩ rhs (edit data)) := by
  have hvol : vol (ix.shape 0 ++ shape.drop n) = ps.length * vol (shape.drop n) := by rw [vol_append, h.num]
  have h0 : ix.shape 0 ++ shape.drop n ≠ [] := fun e => h.rank (List.append_eq_nil_iff.mp e).1
  refine stores (st := ⟨shape, .inr (ps.map (shift origin)), n, ix.shape 0 ++ shape.drop n, vol (ix.shape 0 ++ shape.drop n)⟩) (vecs_sel h) hl hvol rfl h0 hr ?_
  intro cs lo cnt e _ hc
  unfold storeRange
  simp only
  rw [show lo + cnt - lo = cnt by omega]
  exact vecLoop h (fun i off e => storeIn rhs i off cs e) lo cnt e hc

/-! ## The right-hand side -/

theorem rhsOf_val {out : List Nat} {toElem : V α → α} {y : V α} (hy : y.Ok) {r : α ⊕ List α} (h : rhsOf out toElem y = .ok r) :
    (∀ w, w < vol out → (rhsVal r w).isSome) ∧ (out = [] → ∃ x, r = .inl x) ∧ (∀ w, w < vol out → rhsVal r w = storedVal out toElem y w) := by
  unfold rhsOf at h
  split at h
  · rename_i h0
    have h0 : out = [] := List.length_eq_zero_iff.mp h0
    cases h
    refine ⟨fun _ _ => rfl, fun _ => ⟨_, rfl⟩, fun w _ => ?_⟩
    unfold storedVal
    rw [if_pos h0]; rfl
  · rename_i h0
    have h0 : out ≠ [] := fun h => h0 (by simp [h])
    cases y with
    | elem x =>
      cases h
      refine ⟨fun _ _ => rfl, fun _ => ⟨_, rfl⟩, fun w _ => ?_⟩
      unfold storedVal
      rw [if_neg h0]; rfl
    | vec l =>
      simp only at h
      split at h
      · rename_i e
        cases h
        refine ⟨fun w hw => ?_, fun h => absurd h h0, fun w _ => ?_⟩
        · rw [e] at hw
          simp [vol] at hw
          simp [rhsVal, hw]
        · unfold storedVal; rw [if_neg h0]; rfl
      · cases h
    | mat m =>
      simp only at h
      split at h
      · rename_i e
        cases h
        refine ⟨fun w hw => ?_, fun h => absurd h h0, fun w _ => ?_⟩
        · rw [e, ← hy.1.len] at hw
          simp [rhsVal, hw]
        · unfold storedVal; rw [if_neg h0]; rfl
      · cases h

theorem rhsOf_total (out : List Nat) (toElem : V α → α) (y : V α) : (∃ r, rhsOf out toElem y = .ok r) ∨ ∃ e, rhsOf out toElem y = .err e := by
  unfold rhsOf
  split
  · exact .inl ⟨_, rfl⟩
  · cases y with
    | elem x => exact .inl ⟨_, rfl⟩
    | vec l => simp only; split <;> [exact .inl ⟨_, rfl⟩; exact .inr ⟨_, rfl⟩]
    | mat m => simp only; split <;> [exact .inl ⟨_, rfl⟩; exact .inr ⟨_, rfl⟩]

theorem rhsOf_accepts {out : List Nat} {toElem : V α → α} {y : V α} (h : out = [] ∨ (∃ x, y = .elem x) ∨ y.shape = out) :
    ∃ r, rhsOf out toElem y = .ok r := by
  unfold rhsOf
  split
  · exact ⟨_, rfl⟩
  · rename_i h0
    cases y with
    | elem x => exact ⟨_, rfl⟩
    | vec l =>
      rcases h with h | ⟨x, h⟩ | h
      · simp [h] at h0
      · cases h
      · simp only; rw [if_pos (show out = [l.length] from h.symm)]; exact ⟨_, rfl⟩
    | mat m =>
      rcases h with h | ⟨x, h⟩ | h
      · simp [h] at h0
      · cases h
      · simp only; rw [if_pos (show out = m.shape from h.symm)]; exact ⟨_, rfl⟩

/-! ## IndexAssign -/

/-- How the assignment ends before or with the stores. -/
inductive Planned (data : List α) (shape : List Nat) (dim n : Nat) (o : Nat → Nat) (val : Nat → Option α) : R (R (Ed α)) → Prop where
  | err (m : String) : Planned data shape dim n o val (.err m)
  | crash : Planned data shape dim n o val .crash
  | ok (e : Ed α) (h : Wrote data (addrOf o (vol (shape.drop dim))) val (fun w => w < n * vol (shape.drop dim)) e) :
      Planned data shape dim n o val (.ok (.ok e))

theorem wrote_val {data : List α} {addr : Nat → Nat} {val val' : Nat → Option α} {W : Nat → Prop} {e : Ed α} (h : Wrote data addr val W e)
    (hv : ∀ w, W w → val w = val' w) : Wrote data addr val' W e := by
  obtain ⟨l, h1, h2, h3⟩ := h
  refine ⟨l, h1, h2, fun p hp => ?_⟩
  rcases h3 p hp with ⟨w, a, b, c⟩ | h
  · exact .inl ⟨w, a, b, by rw [← hv w a]; exact c⟩
  · exact .inr h

theorem plan_plain {S : Sched} {origin : Nat} {toElem : V α → α} {lhs y : V α} {data : List α} {ixs : List Ix} {ks : List (List Nat)}
    (hv : ∀ x, lhs ≠ .elem x) (hok : lhs.Ok) (hy : y.Ok) (hw : ∀ ix ∈ ixs, ix.Ok) (h : Denote origin ixs lhs.shape ks) (hl : data.length = vol lhs.shape) :
    Planned data lhs.shape ixs.length (vol (ks.map List.length)) (plainOff lhs.shape ixs.length ks) (storedVal (codeShape ixs lhs.shape) toElem y)
      (assignPlan S origin toElem lhs (edit data) ixs y) := by
  have hno := denote_noOther h
  have hvol : vol (codeShape ixs lhs.shape) = vol (ks.map List.length) * vol (lhs.shape.drop ixs.length) := by
    rw [vol_codeShape h.1, selShape, vol_append, vol_flatten, (denote_lens hw h).1]
  unfold assignPlan
  rw [ixInit_eq hv hno (denote_not_vec h) h.1 (dims_small hok)]
  rcases size_total (codeShape ixs lhs.shape) with ⟨r, hr⟩ | ⟨e, he⟩
  · have := size_inv hr
    subst this
    rw [hr, bind_ok, checkAll_ok _ _ _ _ hno h, bind_ok, bind_ok]
    simp only
    rcases rhsOf_total (codeShape ixs lhs.shape) toElem y with ⟨r, hr⟩ | ⟨e, he⟩
    · rw [hr, bind_ok]
      obtain ⟨g1, g2, g3⟩ := rhsOf_val hy hr
      have := stores_plain (S := S) hw h hl g1 g2
      generalize storeAll S origin _ r (edit data) = q at this ⊢
      cases this with
      | err m h => exact .err m
      | crash h => exact .crash
      | ok e h => exact .ok e (wrote_val h fun w hw => g3 w (by rw [hvol]; exact hw))
    · rw [he]; exact .err e
  · rw [he]; exact .err e

theorem plan_plain_ok {S : Sched} {origin : Nat} {toElem : V α → α} {lhs y : V α} {data : List α} {ixs : List Ix} {ks : List (List Nat)}
    (hv : ∀ x, lhs ≠ .elem x) (hok : lhs.Ok) (hy : y.Ok) (hw : ∀ ix ∈ ixs, ix.Ok) (h : Denote origin ixs lhs.shape ks) (hl : data.length = vol lhs.shape)
    (hc : 0 < vol (lhs.shape.drop ixs.length)) (hcm : vol (lhs.shape.drop ixs.length) ≤ maxInt)
    (hf : Fits (codeShape ixs lhs.shape)) (hd : ∀ d ∈ codeShape ixs lhs.shape, d ≤ maxInt)
    (ha : codeShape ixs lhs.shape = [] ∨ (∃ x, y = .elem x) ∨ y.shape = codeShape ixs lhs.shape) :
    ∃ e, assignPlan S origin toElem lhs (edit data) ixs y = .ok (.ok e) := by
  have hno := denote_noOther h
  unfold assignPlan
  rw [ixInit_eq hv hno (denote_not_vec h) h.1 (dims_small hok), size_allowed hf hd, bind_ok, checkAll_ok _ _ _ _ hno h, bind_ok, bind_ok]
  simp only
  obtain ⟨r, hr⟩ := rhsOf_accepts (toElem := toElem) ha
  rw [hr, bind_ok]
  obtain ⟨g1, g2, g3⟩ := rhsOf_val hy hr
  have := stores_plain (S := S) hw h hl g1 g2
  generalize storeAll S origin _ r (edit data) = q at this ⊢
  cases this with
  | err m h => exact absurd ⟨hc, hcm⟩ h
  | crash h => omega
  | ok e h => exact ⟨e, rfl⟩

theorem plan_vecs {S : Sched} {origin : Nat} {toElem : V α → α} {lhs y : V α} {data : List α} {ix : Ix} {n : Nat} {ps : List (List Nat)}
    (hv : ∀ x, lhs ≠ .elem x) (hy : y.Ok) (h : Vecs origin ix lhs.shape n ps) (hl : data.length = vol lhs.shape) :
    Planned data lhs.shape n ps.length (vecOff lhs.shape n ps) (storedVal (ix.shape 0 ++ lhs.shape.drop n) toElem y)
      (assignPlan S origin toElem lhs (edit data) [ix] y) := by
  have hvol : vol (ix.shape 0 ++ lhs.shape.drop n) = ps.length * vol (lhs.shape.drop n) := by rw [vol_append, h.num]
  unfold assignPlan
  rw [ixInit_vecs hv h]
  rcases size_total (ix.shape 0 ++ lhs.shape.drop n) with ⟨r, hr⟩ | ⟨e, he⟩
  · have := size_inv hr
    subst this
    rw [hr, bind_ok, bind_ok]
    simp only
    rcases rhsOf_total (ix.shape 0 ++ lhs.shape.drop n) toElem y with ⟨r, hr⟩ | ⟨e, he⟩
    · rw [hr, bind_ok]
      obtain ⟨g1, g2, g3⟩ := rhsOf_val hy hr
      have := stores_vecs (S := S) (origin := origin) h hl g1
      generalize storeAll S origin _ r (edit data) = q at this ⊢
      cases this with
      | err m h => exact .err m
      | crash h => exact .crash
      | ok e h => exact .ok e (wrote_val h fun w hw => g3 w (by rw [hvol]; exact hw))
    · rw [he]; exact .err e
  · rw [he]; exact .err e

/-- The value with other elements. -/
def V.put (v : V α) (l : List α) : V α :=
  match v with
  | .elem x => .elem x
  | .vec _ => .vec l
  | .mat m => .mat ⟨m.shape, l⟩

/-- The elements a variable holds now. -/
theorem var_read {x : Var α} (h : x.Ok) : ∃ l, x.editor = edit l ∧ l.length = x.value.data.length ∧ ∃ x', x.read = .ok (x', x.value.put l) := by
  obtain ⟨v, e⟩ := x
  obtain ⟨h1, h2⟩ := h
  rcases h2 with h2 | ⟨l, h2, h3, h4⟩
  · simp only at h2; subst h2
    refine ⟨v.data, rfl, rfl, ⟨v, none⟩, ?_⟩
    cases v <;> rfl
  · simp only at h2 h3 h4; subst h2
    refine ⟨l, rfl, h3, ?_⟩
    cases v with
    | elem a => exact absurd rfl (h4 a)
    | vec l' => exact ⟨⟨.vec l, none⟩, by simp [Var.read, V.put, edit, publish_edit]⟩
    | mat m => exact ⟨⟨.mat ⟨m.shape, l⟩, none⟩, by simp [Var.read, V.put, edit, publish_edit]⟩

theorem put_shape {v : V α} {l : List α} (hv : ∀ x, v ≠ .elem x) (hl : l.length = v.data.length) : (v.put l).shape = v.shape ∧ (v.put l).data = l ∧ ∀ x, v.put l ≠ .elem x := by
  cases v with
  | elem x => exact absurd rfl (hv x)
  | vec l' => exact ⟨by simp [V.put, V.shape]; exact hl, rfl, by simp [V.put]⟩
  | mat m => exact ⟨rfl, rfl, by simp [V.put]⟩

theorem put_Ok {v : V α} {l : List α} (h : v.Ok) (hl : l.length = v.data.length) : (v.put l).Ok := by
  cases v with
  | elem x => trivial
  | vec l' => simp only [V.data] at hl; simp only [V.put, V.Ok, hl]; exact h
  | mat m =>
    simp only [V.data] at hl
    exact ⟨⟨⟨h.1.rank, by simp only; rw [hl]; exact h.1.len⟩, h.1.fits⟩, by simp only; rw [hl]; exact h.2.1, h.2.2⟩

theorem gather_lhs {origin : Nat} {lhs : V α} {ixs : List Ix} {e : String} (h : ((gather ixs).bind fun _ => lhsShape lhs) = .err e) :
    ∃ e, ixInit origin lhs ixs = .err e := by
  unfold ixInit
  cases hg : gather ixs with
  | ok g => rw [hg, bind_ok] at h; rw [bind_ok]; simp only; rw [h]; exact ⟨e, rfl⟩
  | err m => exact ⟨m, rfl⟩
  | crash => rw [hg] at h; cases h
  | hang => rw [hg] at h; cases h

theorem gather_total (ixs : List Ix) (lhs : V α) : (∃ s, ((gather ixs).bind fun _ => lhsShape lhs) = .ok s) ∨ ∃ e, ((gather ixs).bind fun _ => lhsShape lhs) = .err e := by
  by_cases hno : NoOther ixs
  · obtain ⟨upd, h1, -⟩ := gather_ok ixs hno
    rw [h1, bind_ok]
    cases lhs with
    | elem x => exact .inr ⟨_, rfl⟩
    | vec l => exact .inl ⟨_, rfl⟩
    | mat m => exact .inl ⟨_, rfl⟩
  · obtain ⟨e, he⟩ := gather_other ixs hno
    rw [he]; exact .inr ⟨e, rfl⟩

theorem gather_elem {ixs : List Ix} {lhs : V α} {s : List Nat} (h : ((gather ixs).bind fun _ => lhsShape lhs) = .ok s) : ∀ x, lhs ≠ .elem x := by
  rintro x rfl
  obtain ⟨g, -, h2⟩ := bind_eq_ok.mp h
  cases h2

/-- The plan never fails after the first store. -/
theorem plan_cases {S : Sched} {origin : Nat} {toElem : V α → α} {lhs y : V α} {data : List α} {ixs : List Ix}
    (hok : lhs.Ok) (hy : y.Ok) (hw : ∀ ix ∈ ixs, ix.Ok) (hl : data.length = vol lhs.shape) :
    (∃ e, assignPlan S origin toElem lhs (edit data) ixs y = .err e) ∨ assignPlan S origin toElem lhs (edit data) ixs y = .crash ∨
    ∃ l, l.length = data.length ∧ assignPlan S origin toElem lhs (edit data) ixs y = .ok (.ok (edit l)) := by
  rcases ixInit_cases (origin := origin) hok hw with ⟨ks, hv, h⟩ | ⟨ix, n, ps, hv, rfl, h⟩ | ⟨e, he⟩
  · have := plan_plain (S := S) (toElem := toElem) hv hok hy hw h hl
    generalize assignPlan S origin toElem lhs (edit data) ixs y = q at this ⊢
    cases this with
    | err m => exact .inl ⟨m, rfl⟩
    | crash => exact .inr (.inl rfl)
    | ok e h => obtain ⟨l, rfl, h2, -⟩ := h; exact .inr (.inr ⟨l, h2, rfl⟩)
  · have := plan_vecs (S := S) (toElem := toElem) hv hy h hl
    generalize assignPlan S origin toElem lhs (edit data) [ix] y = q at this ⊢
    cases this with
    | err m => exact .inl ⟨m, rfl⟩
    | crash => exact .inr (.inl rfl)
    | ok e h => obtain ⟨l, rfl, h2, -⟩ := h; exact .inr (.inr ⟨l, h2, rfl⟩)
  · left; unfold assignPlan; rw [he]; exact ⟨e, rfl⟩

/-- What `IndexAssign` does to a variable. -/
theorem assign_cases {S : Sched} {origin : Nat} {toElem : V α → α} {x : Var α} {y : V α} {ixs : List Ix} (hx : x.Ok) (hy : y.Ok) (hw : ∀ ix ∈ ixs, ix.Ok)
    {data : List α} (hd : x.editor = edit data) (hl : data.length = x.value.data.length) :
    (∃ x', indexAssign S origin toElem x ixs y = (x', .ok ()) ∧ (∀ a, x.value ≠ .elem a) ∧ ∃ l, x' = ⟨x.value, some (edit l)⟩ ∧ l.length = data.length ∧
      assignPlan S origin toElem x.value (edit data) ixs y = .ok (.ok (edit l))) ∨
    (∃ x' r, indexAssign S origin toElem x ixs y = (x', r) ∧ (r = .crash ∨ ∃ e, r = .err e) ∧ (x' = x ∨ (x' = ⟨x.value, some (edit data)⟩ ∧ ∀ a, x.value ≠ .elem a))) := by
  have hl' : data.length = vol x.value.shape := by rw [hl, data_length hx.1]
  rcases gather_total ixs x.value with ⟨s, hg⟩ | ⟨e, hg⟩
  · have hv := gather_elem hg
    rcases plan_cases (S := S) (origin := origin) (toElem := toElem) hx.1 hy hw hl' with ⟨e, h⟩ | h | ⟨l, h1, h2⟩
    · right
      refine ⟨⟨x.value, some (edit data)⟩, .err e, ?_, .inr ⟨e, rfl⟩, .inr ⟨rfl, hv⟩⟩
      unfold indexAssign
      simp only [hg, hd, h]
    · right
      refine ⟨⟨x.value, some (edit data)⟩, .crash, ?_, .inl rfl, .inr ⟨rfl, hv⟩⟩
      unfold indexAssign
      simp only [hg, hd, h]
    · left
      refine ⟨⟨x.value, some (edit l)⟩, ?_, hv, l, rfl, h1, h2⟩
      unfold indexAssign
      simp only [hg, hd, h2]
  · right
    refine ⟨x, .err e, ?_, .inr ⟨e, rfl⟩, .inl rfl⟩
    unfold indexAssign
    rw [hg]

/-! ## In terms of coordinates -/

theorem at_data {v : V α} {c : List Nat} (h : InB v.shape c) : v.at c = v.data[ravel v.shape c]? := by unfold V.at; rw [if_pos h]

/-- Where the selection with coordinates `cs` of the indexes is. -/
theorem sel_addr {origin : Nat} {ixs : List Ix} {shape : List Nat} {ks cs : List (List Nat)} {rest : List Nat} (hw : ∀ ix ∈ ixs, ix.Ok)
    (h : Denote origin ixs shape ks) (hcs : InBs (ixShapes ixs shape) cs) (hr : InB (shape.drop ixs.length) rest) :
    ∃ i, i < vol (ks.map List.length) ∧ InB shape (pickAll ks (ixShapes ixs shape) cs ++ rest) ∧
      ravel (selShape ixs shape) (cs.flatten ++ rest) = i * vol (shape.drop ixs.length) + ravel (shape.drop ixs.length) rest ∧
      ravel shape (pickAll ks (ixShapes ixs shape) cs ++ rest) = plainOff shape ixs.length ks i * vol (shape.drop ixs.length) + ravel (shape.drop ixs.length) rest ∧
      InB (selShape ixs shape) (cs.flatten ++ rest) := by
  obtain ⟨f1, f2, f3⟩ := ravel_flatten hcs
  obtain ⟨l1, l2, l3⟩ := denote_lens hw h
  rw [pickAll_eq hcs]
  rw [← l1] at f2 f3
  have hp := l2 _ f2
  refine ⟨ravel (ks.map List.length) (List.zipWith ravel (ixShapes ixs shape) cs), ravel_lt f2, ?_, ?_, ?_, inB_append f1 hr⟩
  · have := inB_append hp hr
    rwa [List.take_append_drop] at this
  · unfold selShape
    rw [ravel_append _ _ _ _ (inB_length f1), f3]
  · have := ravel_append (shape.take ixs.length) (shape.drop ixs.length) (pickAt ks (List.zipWith ravel (ixShapes ixs shape) cs)) rest (inB_length hp)
    rw [List.take_append_drop] at this
    rw [this]
    unfold plainOff
    rw [unravel_ravel f2]

/-- Every number of a selection is that of some coordinates. -/
theorem sel_coords : ∀ {ss : List (List Nat)} {c : List Nat}, InB ss.flatten c → ∃ cs, InBs ss cs ∧ c = cs.flatten
  | [], [], _ => ⟨[], trivial, rfl⟩
  | [], _ :: _, h => by simp [InB] at h
  | s :: ss, c, h => by
    simp only [List.flatten_cons] at h
    have hsplit : ∀ {s t c : List Nat}, InB (s ++ t) c → InB s (c.take s.length) ∧ InB t (c.drop s.length) := by
      intro s
      induction s with
      | nil => intro t c h; exact ⟨by simp; trivial, by simpa using h⟩
      | cons d s ih =>
        intro t c h
        cases c with
        | nil => simp [InB] at h
        | cons i c =>
          have h : i < d ∧ InB (s ++ t) c := h
          exact ⟨⟨h.1, (ih h.2).1⟩, (ih h.2).2⟩
    obtain ⟨h1, h2⟩ := hsplit h
    obtain ⟨cs, h3, h4⟩ := sel_coords h2
    exact ⟨c.take s.length :: cs, ⟨h1, h3⟩, by simp only [List.flatten_cons, ← h4, List.take_append_drop]⟩

end Verif.Arr
