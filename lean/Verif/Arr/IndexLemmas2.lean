import Verif.Arr.IndexLemmas

/-! # Lemmas about indexing: the places and the loops -/

namespace Verif.Arr
variable {α : Type}

/-! ## The check of the indexes -/

theorem checkIx_ok (origin d : Nat) : ∀ (l : List IxElem) (ks : List Nat), l.mapM (IxElem.place origin d) = some ks →
    checkIx origin d l = .ok (ks.map fun k : Nat => ((k + origin : Nat) : Int))
  | [], ks, h => by simp at h; subst h; rfl
  | x :: l, ks, h => by
    rw [List.mapM_cons] at h
    cases hx : IxElem.place origin d x with
    | none => simp [hx] at h
    | some a =>
      cases hl : l.mapM (IxElem.place origin d) with
      | none => simp [hx, hl] at h
      | some as =>
        simp [hx, hl] at h
        subst h
        cases x with
        | int k =>
          simp only [IxElem.place] at hx
          split at hx
          · rename_i hk
            cases hx
            unfold checkIx
            rw [if_neg (by omega), checkIx_ok origin d l as hl, bind_ok]
            simp only [List.map_cons]
            congr 2
            omega
          · cases hx
        | vec v => simp [IxElem.place] at hx
        | other => simp [IxElem.place] at hx

theorem checkIx_err (origin d : Nat) : ∀ (l : List IxElem), l.mapM (IxElem.place origin d) = none → ∃ e, checkIx origin d l = .err e
  | [], h => by simp at h
  | x :: l, h => by
    rw [List.mapM_cons] at h
    cases x with
    | int k =>
      unfold checkIx
      split
      · exact ⟨_, rfl⟩
      · rename_i hk
        have hx : IxElem.place origin d (.int k) = some (k - origin).toNat := by simp only [IxElem.place]; rw [if_pos (by omega)]
        cases hl : l.mapM (IxElem.place origin d) with
        | none =>
          obtain ⟨e, he⟩ := checkIx_err origin d l hl
          exact ⟨e, by rw [he]; rfl⟩
        | some as => simp [hx, hl] at h
    | vec v => exact ⟨_, rfl⟩
    | other => exact ⟨_, rfl⟩

theorem mapM_iota (origin d : Nat) : ∀ (l : List Nat), (∀ i ∈ l, i < d) →
    (l.map fun i => IxElem.int ((origin + i : Nat) : Int)).mapM (IxElem.place origin d) = some l
  | [], _ => rfl
  | i :: l, h => by
    rw [List.map_cons, List.mapM_cons, mapM_iota origin d l fun j hj => h j (by simp [hj])]
    have := h i (by simp)
    have hx : IxElem.place origin d (.int ((origin + i : Nat) : Int)) = some i := by
      simp only [IxElem.place]
      rw [if_pos (by omega)]
      congr 1; omega
    rw [hx]; rfl

theorem places_full (origin d : Nat) {ix : Ix} (h : ix ≠ .other) : (ix.full origin d).mapM (IxElem.place origin d) = ix.places origin d := by
  cases ix with
  | other => exact absurd rfl h
  | missing => exact mapM_iota origin d _ (fun i hi => List.mem_range.mp hi)
  | int k => rfl
  | vec l => rfl
  | mat m => rfl

/-- The integers of the index vectors. -/
def shiftAll (origin : Nat) (ks : List (List Nat)) : List (List Int) := ks.map fun l => l.map fun k : Nat => ((k + origin : Nat) : Int)

theorem checkAll_ok (origin : Nat) : ∀ (ixs : List Ix) (shape : List Nat) (ks : List (List Nat)), NoOther ixs → Denote origin ixs shape ks →
    checkAll origin (List.zipWith (fun ix d => ix.full origin d) ixs shape) shape = .ok (shiftAll origin ks)
  | [], shape, ks, _, h => by
    have : ks = [] := by simpa using h.2.symm
    subst this; simp [checkAll, shiftAll]
  | ix :: ixs, [], ks, _, h => by simp [Denote] at h
  | ix :: ixs, d :: ds, ks, ho, h => by
    obtain ⟨hl, hz⟩ := h
    cases ks with
    | nil => simp at hz
    | cons k ks =>
      simp only [List.zipWith_cons_cons, List.map_cons, List.cons.injEq] at hz
      have hix : ix ≠ .other := ho ix (by simp)
      have h1 := checkIx_ok origin d _ _ (by rw [places_full origin d hix]; exact hz.1)
      have h2 := checkAll_ok origin ixs ds ks (fun x hx => ho x (by simp [hx])) ⟨by simpa using hl, hz.2⟩
      simp only [List.zipWith_cons_cons, checkAll, h1, h2, bind_ok]
      rfl

theorem checkAll_err (origin : Nat) : ∀ (ixs : List Ix) (shape : List Nat), NoOther ixs → ixs.length ≤ shape.length →
    (¬ ∃ ks, Denote origin ixs shape ks) →
    ∃ e, checkAll origin (List.zipWith (fun ix d => ix.full origin d) ixs shape) shape = .err e
  | [], shape, _, _, h => absurd ⟨[], by simp [Denote]⟩ h
  | ix :: ixs, [], _, hl, _ => by simp at hl
  | ix :: ixs, d :: ds, ho, hl, h => by
    have hix : ix ≠ .other := ho ix (by simp)
    simp only [List.zipWith_cons_cons, checkAll]
    cases hp : ix.places origin d with
    | none =>
      obtain ⟨e, he⟩ := checkIx_err origin d _ (by rw [places_full origin d hix]; exact hp)
      exact ⟨e, by rw [he]; rfl⟩
    | some k =>
      rw [checkIx_ok origin d _ _ (by rw [places_full origin d hix]; exact hp), bind_ok]
      by_cases hr : ∃ ks, Denote origin ixs ds ks
      · exfalso
        obtain ⟨ks, h1, h2⟩ := hr
        exact h ⟨k :: ks, by simpa using h1, by simp [hp, h2]⟩
      · obtain ⟨e, he⟩ := checkAll_err origin ixs ds (fun x hx => ho x (by simp [hx])) (by simpa using hl) hr
        exact ⟨e, by rw [he]; rfl⟩

theorem denote_noOther {origin : Nat} : ∀ {ixs : List Ix} {shape : List Nat} {ks : List (List Nat)}, Denote origin ixs shape ks → NoOther ixs
  | [], _, _, _ => fun x hx => by simp at hx
  | ix :: ixs, [], _, h => by simp [Denote] at h
  | ix :: ixs, d :: ds, ks, h => by
    obtain ⟨hl, hz⟩ := h
    cases ks with
    | nil => simp at hz
    | cons k ks =>
      simp only [List.zipWith_cons_cons, List.map_cons, List.cons.injEq] at hz
      intro x hx
      rcases List.mem_cons.mp hx with rfl | hx
      · rintro rfl; simp [Ix.places] at hz
      · exact denote_noOther (ixs := ixs) (shape := ds) (ks := ks) ⟨by simpa using hl, hz.2⟩ x hx

/-! ## init -/

/-- A single index that is a vector or matrix whose first element is a vector. -/
def VecIndex (ixs : List Ix) : Prop :=
  ∃ v r, ixs.map Ix.raw = [some (IxElem.vec v :: r)]

theorem initVectorIndex_none (origin : Nat) (shape : List Nat) (ixs : List Ix) (out : List Nat) (h : ¬ VecIndex ixs) :
    initVectorIndex origin shape (ixs.map Ix.raw) out = .ok none := by
  unfold initVectorIndex
  split
  · rename_i v r heq; exact absurd ⟨v, r, heq⟩ h
  · rfl

theorem denote_not_vec {origin : Nat} {ixs : List Ix} {shape : List Nat} {ks : List (List Nat)} (h : Denote origin ixs shape ks) : ¬ VecIndex ixs := by
  rintro ⟨v, r, hv⟩
  have hno := denote_noOther h
  cases ixs with
  | nil => simp at hv
  | cons ix ixs =>
    cases shape with
    | nil => simp [Denote] at h
    | cons d ds =>
      obtain ⟨hl, hz⟩ := h
      cases ks with
      | nil => simp at hz
      | cons k ks =>
        simp only [List.zipWith_cons_cons, List.map_cons, List.cons.injEq] at hz
        simp only [List.map_cons, List.cons.injEq] at hv
        have hp := places_full origin d (hno ix (by simp))
        rw [hz.1] at hp
        unfold Ix.full at hp
        rw [hv.1] at hp
        simp [IxElem.place] at hp

theorem lhsShape_ok {lhs : V α} (h : ∀ x, lhs ≠ .elem x) : lhsShape lhs = .ok lhs.shape := by
  cases lhs with
  | elem x => exact absurd rfl (h x)
  | vec l => rfl
  | mat m => rfl

theorem missingDims_mem : ∀ {ixs : List Ix} {shape : List Nat} {d : Nat}, d ∈ missingDims ixs shape → d ∈ shape
  | [], _, _, h => by simp [missingDims] at h
  | ix :: ixs, [], _, h => by cases ix <;> simp [missingDims] at h
  | ix :: ixs, e :: ds, d, h => by
    cases ix with
    | missing =>
      simp only [missingDims, List.mem_cons] at h ⊢
      exact h.imp id missingDims_mem
    | _ =>
      simp only [missingDims] at h
      exact List.mem_cons_of_mem _ (missingDims_mem h)

/-- The shape `init` computes. -/
def codeShape (ixs : List Ix) (shape : List Nat) : List Nat := fillOut ixs (missingDims ixs shape).reverse ++ shape.drop ixs.length

theorem size_total (s : List Nat) : (∃ r, size s = .ok r) ∨ ∃ e, size s = .err e := by
  have gen : ∀ (ds : List Nat) (n : Nat), (∃ r, sizeFrom n ds = .ok r) ∨ ∃ e, sizeFrom n ds = .err e := by
    intro ds
    induction ds with
    | nil => intro n; exact .inl ⟨n, rfl⟩
    | cons d ds ih =>
      intro n
      unfold sizeFrom
      split
      · exact .inr ⟨_, rfl⟩
      · exact ih _
  exact gen s 1

theorem ixInit_eq {origin : Nat} {lhs : V α} {ixs : List Ix} (hv : ∀ x, lhs ≠ .elem x) (hno : NoOther ixs) (hnv : ¬ VecIndex ixs)
    (hl : ixs.length ≤ lhs.shape.length) (hd : ∀ d ∈ lhs.shape, d ≤ maxInt) :
    ixInit origin lhs ixs = (size (codeShape ixs lhs.shape)).bind fun sz =>
      (checkAll origin (List.zipWith (fun ix d => ix.full origin d) ixs lhs.shape) lhs.shape).bind fun ks =>
      .ok ⟨lhs.shape, .inl ks, ixs.length, codeShape ixs lhs.shape, sz⟩ := by
  obtain ⟨upd, h1, h2, h3⟩ := gather_ok ixs hno
  unfold ixInit
  rw [h1, bind_ok]
  simp only
  rw [lhsShape_ok hv, bind_ok, initVectorIndex_none _ _ _ _ hnv, bind_ok]
  simp only [List.length_map, List.length_reverse, List.reverse_reverse]
  rw [if_neg (by omega), h3, fillMissing_ok origin ixs _ _ _ hl hno (fun d hdm => hd d (missingDims_mem hdm)) (by simp)
    (fun u hu => missPos_lt ixs u (by simpa using hu)), bind_ok, fill_shape hl hno]
  rfl

/-- Any indexes that do not denote places are refused. -/
theorem ixInit_err {origin : Nat} {lhs : V α} {ixs : List Ix} (hnv : ¬ VecIndex ixs) (hd : ∀ d ∈ lhs.shape, d ≤ maxInt)
    (h : ¬ ∃ ks, Denote origin ixs lhs.shape ks) : ∃ e, ixInit origin lhs ixs = .err e := by
  by_cases hno : NoOther ixs
  · by_cases hv : ∀ x, lhs ≠ .elem x
    · by_cases hl : ixs.length ≤ lhs.shape.length
      · rw [ixInit_eq hv hno hnv hl hd]
        rcases size_total (codeShape ixs lhs.shape) with ⟨r, hr⟩ | ⟨e, he⟩
        · rw [hr, bind_ok]
          obtain ⟨e, he⟩ := checkAll_err origin ixs lhs.shape hno hl h
          exact ⟨e, by rw [he]; rfl⟩
        · exact ⟨e, by rw [he]; rfl⟩
      · obtain ⟨upd, h1, h2, h3⟩ := gather_ok ixs hno
        unfold ixInit
        rw [h1, bind_ok]
        simp only
        rw [lhsShape_ok hv, bind_ok, initVectorIndex_none _ _ _ _ hnv, bind_ok]
        simp only [List.length_map]
        rw [if_pos (by omega)]
        exact ⟨_, rfl⟩
    · simp only [not_forall, not_not] at hv
      obtain ⟨x, rfl⟩ := hv
      obtain ⟨upd, h1, h2, h3⟩ := gather_ok ixs hno
      unfold ixInit
      rw [h1, bind_ok]
      exact ⟨_, rfl⟩
  · obtain ⟨e, he⟩ := gather_other ixs hno
    exact ⟨e, by unfold ixInit; rw [he]; rfl⟩

theorem vol_codeShape {ixs : List Ix} {shape : List Nat} (hl : ixs.length ≤ shape.length) : vol (codeShape ixs shape) = vol (selShape ixs shape) := by
  unfold codeShape selShape
  rw [vol_append, vol_append, ← fillOut_right ixs shape hl]
  congr 1
  have hlen := missingDims_length ixs shape hl
  exact vol_fillOut_perm ixs _ _ (List.reverse_perm _) (by simp [hlen])

/-! ## Coordinates -/

theorem ravel_append : ∀ (s t c d : List Nat), c.length = s.length → ravel (s ++ t) (c ++ d) = ravel s c * vol t + ravel t d
  | [], t, [], d, _ => by simp [ravel]
  | a :: s, t, i :: c, d, h => by
    simp only [List.cons_append, ravel, vol_append, ravel_append s t c d (by simpa using h)]
    ring
  | [], _, _ :: _, _, h => by simp at h
  | _ :: _, _, [], _, h => by simp at h

theorem inB_append : ∀ {s t c d : List Nat}, InB s c → InB t d → InB (s ++ t) (c ++ d)
  | [], _, [], _, _, h => h
  | _ :: _, _, _ :: _, _, h1, h2 => ⟨h1.1, inB_append h1.2 h2⟩

theorem ravel_flatten : ∀ {ss cs : List (List Nat)}, InBs ss cs →
    InB ss.flatten cs.flatten ∧ InB (ss.map vol) (List.zipWith ravel ss cs) ∧
    ravel ss.flatten cs.flatten = ravel (ss.map vol) (List.zipWith ravel ss cs)
  | [], [], _ => ⟨trivial, trivial, rfl⟩
  | s :: ss, c :: cs, h => by
    obtain ⟨h1, h2⟩ := h
    obtain ⟨i1, i2, i3⟩ := ravel_flatten h2
    refine ⟨inB_append h1 i1, ⟨ravel_lt h1, i2⟩, ?_⟩
    simp only [List.flatten_cons, ravel_append s _ c _ (inB_length h1), i3, List.map_cons, List.zipWith_cons_cons, ravel]
    congr 2
    clear * -
    induction ss with
    | nil => rfl
    | cons s ss ih => simp [vol_append, vol, ih]

theorem vol_flatten (ss : List (List Nat)) : vol ss.flatten = vol (ss.map vol) := by
  induction ss with
  | nil => rfl
  | cons s ss ih => simp [vol_append, vol, ih]

/-- The places at the given positions of the index vectors. -/
def pickAt (ks : List (List Nat)) (c : List Nat) : List Nat := List.zipWith (fun k i => k.getD i 0) ks c

theorem pickAll_eq : ∀ {ss cs ks : List (List Nat)}, InBs ss cs → pickAll ks ss cs = pickAt ks (List.zipWith ravel ss cs)
  | [], [], ks, _ => by cases ks <;> simp [pickAll, pickAt]
  | s :: ss, c :: cs, [], _ => by simp [pickAll, pickAt]
  | s :: ss, c :: cs, k :: ks, h => by
    simp only [pickAll, pickAt, List.zipWith_cons_cons, pickAll_eq (ks := ks) h.2]

theorem mapM_length {l : List IxElem} {ks : List Nat} {f : IxElem → Option Nat} (h : l.mapM f = some ks) : ks.length = l.length := by
  induction l generalizing ks with
  | nil => simp at h; subst h; rfl
  | cons x l ih =>
    rw [List.mapM_cons] at h
    cases hx : f x with
    | none => simp [hx] at h
    | some a =>
      cases hl : l.mapM f with
      | none => simp [hx, hl] at h
      | some as =>
        simp [hx, hl] at h; subst h
        simp [ih hl]

theorem mapM_lt {origin d : Nat} {l : List IxElem} {ks : List Nat} (h : l.mapM (IxElem.place origin d) = some ks) : ∀ k ∈ ks, k < d := by
  induction l generalizing ks with
  | nil => simp at h; subst h; simp
  | cons x l ih =>
    rw [List.mapM_cons] at h
    cases hx : IxElem.place origin d x with
    | none => simp [hx] at h
    | some a =>
      cases hl : l.mapM (IxElem.place origin d) with
      | none => simp [hx, hl] at h
      | some as =>
        simp [hx, hl] at h; subst h
        intro k hk
        rcases List.mem_cons.mp hk with rfl | hk
        · cases x with
          | int z =>
            simp only [IxElem.place] at hx
            split at hx
            · cases hx; omega
            · cases hx
          | _ => cases hx
        · exact ih hl k hk

theorem places_length {origin d : Nat} {ix : Ix} {ks : List Nat} (hw : ix.Ok) (h : ix.places origin d = some ks) : ks.length = vol (ix.shape d) := by
  cases ix with
  | missing => simp [Ix.places] at h; subst h; simp [Ix.shape, vol]
  | int k => have := mapM_length (show [IxElem.int k].mapM _ = some ks from h); simpa [Ix.shape, vol] using this
  | vec l => have := mapM_length (show l.mapM _ = some ks from h); simpa [Ix.shape, vol] using this
  | mat m =>
    have := mapM_length (show m.data.mapM _ = some ks from h)
    rw [this]; exact Mat.WF.len hw
  | other => simp [Ix.places] at h

theorem denote_lens {origin : Nat} : ∀ {ixs : List Ix} {shape : List Nat} {ks : List (List Nat)}, (∀ ix ∈ ixs, ix.Ok) →
    Denote origin ixs shape ks → ks.map List.length = (ixShapes ixs shape).map vol ∧ (∀ c, InB (ks.map List.length) c → InB (shape.take ixs.length) (pickAt ks c)) ∧
    ks.length = ixs.length
  | [], _, ks, _, h => by
    have : ks = [] := by simpa using h.2.symm
    subst this
    refine ⟨by simp [ixShapes], ?_, rfl⟩
    intro c hc
    cases c with
    | nil => simp [pickAt]; trivial
    | cons => simp [InB] at hc
  | ix :: ixs, [], _, _, h => by simp [Denote] at h
  | ix :: ixs, d :: ds, ks, hw, h => by
    obtain ⟨hl, hz⟩ := h
    cases ks with
    | nil => simp at hz
    | cons k ks =>
      have hno := denote_noOther (origin := origin) (ixs := ix :: ixs) (shape := d :: ds) (ks := k :: ks) ⟨hl, hz⟩
      simp only [List.zipWith_cons_cons, List.map_cons, List.cons.injEq] at hz
      obtain ⟨i1, i2, i3⟩ := denote_lens (fun x hx => hw x (by simp [hx])) (⟨by simpa using hl, hz.2⟩ : Denote origin ixs ds ks)
      have hpl := places_length (hw ix (by simp)) hz.1
      refine ⟨by simp [ixShapes] at i1 ⊢; exact ⟨hpl, i1⟩, ?_, by simp [i3]⟩
      intro c hc
      cases c with
      | nil => simp [InB] at hc
      | cons i c =>
        simp only [List.map_cons] at hc
        refine ⟨?_, i2 c hc.2⟩
        have := mapM_lt (by rw [places_full origin d (hno ix (by simp))]; exact hz.1) (k.getD i 0)
          (by rw [List.getD_eq_getElem?_getD, List.getElem?_eq_getElem hc.1, Option.getD_some]; exact List.getElem_mem _)
        exact this

theorem picks_ok (origin : Nat) : ∀ (ks : List (List Nat)) (c : List Nat), InB (ks.map List.length) c →
    picks (shiftAll origin ks) c = .ok ((pickAt ks c).map fun k : Nat => ((k + origin : Nat) : Int))
  | [], [], _ => rfl
  | k :: ks, i :: c, h => by
    obtain ⟨h1, h2⟩ := h
    have ih := picks_ok origin ks c h2
    unfold shiftAll at ih ⊢
    simp only [List.map_cons, picks]
    rw [vAt_lt (by simpa using h1), bind_ok, ih, bind_ok]
    simp [pickAt, List.getD_eq_getElem?_getD, List.getElem?_eq_getElem h1]

theorem offset_eq (origin : Nat) (p shape : List Nat) (h : p.length ≤ shape.length) :
    offset origin (p.map fun k : Nat => ((k + origin : Nat) : Int)) shape = ravel (shape.take p.length) p := by
  have gen : ∀ (p shape : List Nat) (o : Nat), p.length ≤ shape.length →
      ((p.map fun k : Nat => ((k + origin : Nat) : Int)).zip shape).foldl (fun (o : Int) q => o * q.2 + (q.1 - origin)) (o : Int) =
        ((o * vol (shape.take p.length) + ravel (shape.take p.length) p : Nat) : Int) := by
    intro p
    induction p with
    | nil => intro shape o _; simp [vol, ravel]
    | cons k p ih =>
      intro shape o h
      cases shape with
      | nil => simp at h
      | cons d ds =>
        simp only [List.map_cons, List.zip_cons_cons, List.foldl_cons]
        have e : (o : Int) * (d : Int) + (((k + origin : Nat) : Int) - origin) = ((o * d + k : Nat) : Int) := by push_cast; omega
        rw [e, ih ds (o * d + k) (by simpa using h)]
        simp only [List.length_cons, List.take_succ_cons, vol, ravel]
        congr 1; ring
  have := gen p shape 0 h
  unfold offset
  rw [show ((0 : Nat) : Int) = 0 from rfl] at this
  rw [this]
  simp

end Verif.Arr
