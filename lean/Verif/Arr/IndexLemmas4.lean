import Verif.Arr.IndexLemmas3

/-! # Lemmas about indexing: vectors of indexes, and assignment -/

namespace Verif.Arr
variable {α : Type}

/-- Coordinates with the origin added. -/
def shift (origin : Nat) (p : List Nat) : List Int := p.map fun k : Nat => ((k + origin : Nat) : Int)

theorem checkVec_ok (origin : Nat) : ∀ (p shape : List Nat), InB (shape.take p.length) p →
    checkVec origin (p.map fun k : Nat => some ((k + origin : Nat) : Int)) shape = .ok (shift origin p)
  | [], _, _ => by simp [checkVec, shift]
  | k :: p, [], h => by simp [InB] at h
  | k :: p, d :: ds, h => by
    have h' : k < d ∧ InB (ds.take p.length) p := by simpa [InB] using h
    simp only [List.map_cons, checkVec]
    rw [if_neg (by omega), checkVec_ok origin p ds h'.2, bind_ok]
    rfl

theorem checkVec_inv (origin : Nat) : ∀ (v : List Small) (shape : List Nat), v.length ≤ shape.length →
    (∃ p, v = (p.map fun k : Nat => some ((k + origin : Nat) : Int)) ∧ InB (shape.take p.length) p ∧ checkVec origin v shape = .ok (shift origin p)) ∨
    ∃ e, checkVec origin v shape = .err e
  | [], _, _ => .inl ⟨[], rfl, by simp; trivial, rfl⟩
  | none :: v, _, _ => .inr ⟨_, rfl⟩
  | some k :: v, [], h => by simp at h
  | some k :: v, d :: ds, h => by
    by_cases hk : k < origin ∨ k - origin ≥ d
    · right; unfold checkVec; rw [if_pos hk]; exact ⟨_, rfl⟩
    · rcases checkVec_inv origin v ds (by simpa using h) with ⟨p, h1, h2, h3⟩ | ⟨e, h1⟩
      · left
        have ek : ((k - origin).toNat + origin : Nat) = k := by omega
        refine ⟨(k - origin).toNat :: p, by simp only [List.map_cons, ek, h1], ?_, ?_⟩
        · show InB (d :: ds.take p.length) _
          exact ⟨by omega, h2⟩
        · unfold checkVec
          rw [if_neg hk, h3, bind_ok]
          simp only [shift, List.map_cons, ek]
      · right
        unfold checkVec
        rw [if_neg hk, h1]
        exact ⟨_, rfl⟩

theorem checkVecs_ok (origin n : Nat) (shape : List Nat) : ∀ (ps : List (List Nat)), (∀ p ∈ ps, p.length = n ∧ InB (shape.take n) p) →
    checkVecs origin n shape (ps.map fun p => IxElem.vec (p.map fun k : Nat => some ((k + origin : Nat) : Int))) = .ok (ps.map (shift origin))
  | [], _ => rfl
  | p :: ps, h => by
    have hp := h p (by simp)
    have ih := checkVecs_ok origin n shape ps fun q hq => h q (by simp [hq])
    simp only [List.map_cons, checkVecs]
    rw [if_neg (by simp [hp.1]), checkVec_ok origin p shape (by rw [hp.1]; exact hp.2), bind_ok, ih, bind_ok]

theorem checkVecs_inv (origin n : Nat) (shape : List Nat) (hn : n ≤ shape.length) : ∀ (l : List IxElem),
    (∃ ps : List (List Nat), l = ps.map (fun p => IxElem.vec (p.map fun k : Nat => some ((k + origin : Nat) : Int))) ∧ (∀ p ∈ ps, p.length = n ∧ InB (shape.take n) p)) ∨
    ∃ e, checkVecs origin n shape l = .err e
  | [] => .inl ⟨[], rfl, by simp⟩
  | .int k :: l => .inr ⟨_, rfl⟩
  | .other :: l => .inr ⟨_, rfl⟩
  | .vec v :: l => by
    by_cases hv : v.length ≠ n
    · right; unfold checkVecs; rw [if_pos hv]; exact ⟨_, rfl⟩
    · have hv' : v.length = n := by simpa using hv
      rcases checkVec_inv origin v shape (by omega) with ⟨p, h1, h2, h3⟩ | ⟨e, h1⟩
      · rcases checkVecs_inv origin n shape hn l with ⟨ps, g1, g2⟩ | ⟨e, g1⟩
        · left
          have hpl : p.length = n := by rw [← hv', h1]; simp
          refine ⟨p :: ps, by rw [g1, h1]; rfl, ?_⟩
          intro q hq
          rcases List.mem_cons.mp hq with rfl | hq
          · exact ⟨hpl, by rw [← hpl]; exact h2⟩
          · exact g2 q hq
        · right; unfold checkVecs; rw [if_neg hv, h3, bind_ok, g1]; exact ⟨_, rfl⟩
      · right; unfold checkVecs; rw [if_neg hv, h1]; exact ⟨_, rfl⟩

/-- The offsets of the selections of vectors of indexes. -/
def vecOff (shape : List Nat) (dim : Nat) (ps : List (List Nat)) (i : Nat) : Nat := ravel (shape.take dim) (ps.getD i [])

/-- `ix` is a vector or a matrix of vectors, all of length `n`, of places in `shape`. -/
structure Vecs (origin : Nat) (ix : Ix) (shape : List Nat) (n : Nat) (ps : List (List Nat)) : Prop where
  raw : ix.raw = some (ps.map fun p => IxElem.vec (p.map fun k : Nat => some ((k + origin : Nat) : Int)))
  ne : ps ≠ []
  le : n ≤ shape.length
  inB : ∀ p ∈ ps, p.length = n ∧ InB (shape.take n) p
  num : ps.length = vol (ix.shape 0)
  rank : ix.shape 0 ≠ []

theorem vecs_sel {origin : Nat} {ix : Ix} {shape : List Nat} {n : Nat} {ps : List (List Nat)} (h : Vecs origin ix shape n ps) :
    Sel shape n ps.length (vecOff shape n ps) := by
  refine ⟨h.le, fun i hi => ravel_lt ?_⟩
  rw [List.getD_eq_getElem?_getD, List.getElem?_eq_getElem hi, Option.getD_some]
  exact (h.inB _ (List.getElem_mem _)).2

theorem shape0_vec {ix : Ix} {l : List IxElem} (h : ix.raw = some l) (hr : ix.shape 0 ≠ []) : shape0 [ix] = ix.shape 0 := by
  cases ix with
  | missing => simp [Ix.raw] at h
  | other => simp [Ix.raw] at h
  | int k => simp [Ix.shape] at hr
  | vec l => simp [shape0, Ix.shape]
  | mat m => simp [shape0, Ix.shape]

theorem ixInit_vecs {origin : Nat} {lhs : V α} {ix : Ix} {n : Nat} {ps : List (List Nat)} (hv : ∀ x, lhs ≠ .elem x) (h : Vecs origin ix lhs.shape n ps) :
    ixInit origin lhs [ix] = (size (ix.shape 0 ++ lhs.shape.drop n)).bind fun sz =>
      .ok ⟨lhs.shape, .inr (ps.map (shift origin)), n, ix.shape 0 ++ lhs.shape.drop n, sz⟩ := by
  have hno : NoOther [ix] := by
    intro x hx
    simp at hx; subst hx
    rintro rfl
    have := h.raw
    simp [Ix.raw] at this
  obtain ⟨upd, h1, h2, h3⟩ := gather_ok [ix] hno
  unfold ixInit
  rw [h1, bind_ok]
  simp only
  rw [lhsShape_ok hv, bind_ok]
  simp only [List.map_cons, List.map_nil, h.raw, List.reverse_reverse, shape0_vec h.raw h.rank]
  cases ps with
  | nil => exact absurd rfl h.ne
  | cons p ps =>
    have hp := h.inB p (by simp)
    unfold initVectorIndex
    simp only [List.map_cons, List.length_map, hp.1]
    rw [if_neg (by have := h.le; omega)]
    have := checkVecs_ok origin n lhs.shape (p :: ps) h.inB
    simp only [List.map_cons] at this
    rw [this, bind_ok]
    rcases size_total (ix.shape 0 ++ lhs.shape.drop n) with ⟨r, hr⟩ | ⟨e, he⟩
    · rw [hr]; rfl
    · rw [he]; rfl

theorem offset_shift (origin : Nat) {p shape : List Nat} {n : Nat} (hp : p.length = n) (h : n ≤ shape.length) :
    offset origin (shift origin p) shape = ravel (shape.take n) p := by
  have := offset_eq origin p shape (by omega)
  rw [hp] at this; exact this

theorem loop_congr {σ : Type} {f g : Nat → σ → R σ} : ∀ {l : List Nat} {s : σ}, (∀ i ∈ l, ∀ s, f i s = g i s) → loop f l s = loop g l s
  | [], _, _ => rfl
  | i :: l, s, h => by
    simp only [loop, h i (by simp)]
    cases g i s with
    | ok s' => exact loop_congr fun j hj => h j (by simp [hj])
    | err => rfl
    | crash => rfl
    | hang => rfl

theorem vecLoop {origin : Nat} {ix : Ix} {shape : List Nat} {n : Nat} {ps : List (List Nat)} (h : Vecs origin ix shape n ps)
    (F : Nat → Nat → Ed α → R (Ed α)) (lo cnt : Nat) (e : Ed α) (hc : lo + cnt ≤ ps.length) :
    loop (fun i e => (vAt (ps.map (shift origin)) i).bind fun v => F i (offset origin v shape) e) (List.range' lo cnt) e =
      loop (fun i e => F i (vecOff shape n ps i) e) (List.range' lo cnt) e := by
  apply loop_congr
  intro i hi s
  rw [List.mem_range'] at hi
  obtain ⟨j, hj, rfl⟩ := hi
  have hlt : lo + 1 * j < ps.length := by omega
  rw [vAt_lt (by simpa using hlt), bind_ok]
  simp only [List.getElem_map]
  have hp := h.inB _ (List.getElem_mem hlt)
  rw [offset_shift origin hp.1 h.le]
  unfold vecOff
  rw [List.getD_eq_getElem?_getD, List.getElem?_eq_getElem hlt, Option.getD_some]

/-- The value `Index` computes for a vector of vectors of indexes. -/
theorem index_vecs {origin : Nat} {lhs : V α} {ix : Ix} {n : Nat} {ps : List (List Nat)} (hv : ∀ x, lhs ≠ .elem x) (hok : lhs.Ok)
    (h : Vecs origin ix lhs.shape n ps) (hc : 0 < vol (lhs.shape.drop n)) (hcm : vol (lhs.shape.drop n) ≤ maxInt)
    (hf : Fits (ix.shape 0 ++ lhs.shape.drop n)) (hd : ∀ d ∈ ix.shape 0 ++ lhs.shape.drop n, d ≤ maxInt) :
    ∃ r, index origin lhs [ix] = .ok r ∧ r.shape = ix.shape 0 ++ lhs.shape.drop n ∧ r.data.length = vol r.shape ∧
      ∀ i k, i < ps.length → k < vol (lhs.shape.drop n) →
        r.data[i * vol (lhs.shape.drop n) + k]? = lhs.data[vecOff lhs.shape n ps i * vol (lhs.shape.drop n) + k]? := by
  have hsel := vecs_sel h
  have hvol : vol (ix.shape 0 ++ lhs.shape.drop n) = ps.length * vol (lhs.shape.drop n) := by rw [vol_append, h.num]
  unfold index
  rw [ixInit_vecs hv h, size_allowed hf hd, bind_ok, bind_ok]
  simp only
  have h0 : ix.shape 0 ++ lhs.shape.drop n ≠ [] := fun e => h.rank (List.append_eq_nil_iff.mp e).1
  rw [if_neg (fun e => h0 (List.length_eq_zero_iff.mp e))]
  obtain ⟨e, d, h1, h2, h3, h4⟩ := copyAll hsel (data_length hok) hc
  have hloop : indexLoop origin lhs.data ⟨lhs.shape, .inr (ps.map (shift origin)), n, ix.shape 0 ++ lhs.shape.drop n, vol (ix.shape 0 ++ lhs.shape.drop n)⟩
      (vol (lhs.shape.drop n)) = .ok e := by
    unfold indexLoop
    simp only
    rw [hvol, List.length_map, range_eq]
    have := vecLoop h (fun i off e => copyOut lhs.data i off (vol (lhs.shape.drop n)) e) 0 ps.length (newEd (ps.length * vol (lhs.shape.drop n))) (by omega)
    rw [this, ← range_eq]; exact h1
  rw [size_of_pos hc hcm, bind_ok, if_neg (by omega), hloop, bind_ok, h2, bind_ok]
  obtain ⟨r, r1, r2, r3, -⟩ := wrap_ok h0 (by rw [h3, hvol]) hf
  refine ⟨r, r1, r2, by rw [r3, h3, r2, hvol], ?_⟩
  intro i k hi hk
  rw [r3]; exact h4 i k hi hk

/-- What `init` can return. -/
theorem ixInit_cases {origin : Nat} {lhs : V α} {ixs : List Ix} (hok : lhs.Ok) (hw : ∀ ix ∈ ixs, ix.Ok) :
    (∃ ks, (∀ x, lhs ≠ .elem x) ∧ Denote origin ixs lhs.shape ks) ∨
    (∃ ix n ps, (∀ x, lhs ≠ .elem x) ∧ ixs = [ix] ∧ Vecs origin ix lhs.shape n ps) ∨
    ∃ e, ixInit origin lhs ixs = .err e := by
  by_cases hvi : VecIndex ixs
  · obtain ⟨v, r, hvr⟩ := hvi
    cases ixs with
    | nil => simp at hvr
    | cons ix ixs =>
      simp only [List.map_cons, List.cons.injEq, List.map_eq_nil_iff] at hvr
      obtain ⟨hraw, rfl⟩ := hvr
      by_cases hv : ∀ x, lhs ≠ .elem x
      · have hno : NoOther [ix] := by
          intro x hx
          simp at hx; subst hx
          rintro rfl
          simp [Ix.raw] at hraw
        have hrank : ix.shape 0 ≠ [] := by
          cases ix with
          | missing => simp [Ix.shape]
          | int k => simp [Ix.raw] at hraw
          | vec l => simp [Ix.shape]
          | mat m => exact (show m.WF from hw (.mat m) (by simp)).rank
          | other => simp [Ix.raw] at hraw
        obtain ⟨upd, h1, h2, h3⟩ := gather_ok [ix] hno
        by_cases hle : v.length > lhs.shape.length
        · right; right
          unfold ixInit
          rw [h1, bind_ok]
          simp only
          rw [lhsShape_ok hv, bind_ok]
          simp only [List.map_cons, List.map_nil, hraw]
          unfold initVectorIndex
          simp only
          rw [if_pos hle]
          exact ⟨_, rfl⟩
        · rcases checkVecs_inv origin v.length lhs.shape (by omega) (.vec v :: r) with ⟨ps, g1, g2⟩ | ⟨e, g1⟩
          · right; left
            refine ⟨ix, v.length, ps, hv, rfl, by rw [hraw, g1], ?_, by omega, g2, ?_, hrank⟩
            · rintro rfl; simp at g1
            · have hl := congrArg List.length g1
              simp only [List.length_map] at hl
              cases ix with
              | missing => simp [Ix.raw] at hraw
              | int k => simp [Ix.raw] at hraw
              | vec l => simp only [Ix.raw, Option.some.injEq] at hraw; subst hraw; simp [Ix.shape, vol, ← hl]
              | mat m =>
                simp only [Ix.raw, Option.some.injEq] at hraw
                have := (show m.WF from hw (.mat m) (by simp)).len
                rw [hraw] at this
                simp only [Ix.shape]; omega
              | other => simp [Ix.raw] at hraw
          · right; right
            unfold ixInit
            rw [h1, bind_ok]
            simp only
            rw [lhsShape_ok hv, bind_ok]
            simp only [List.map_cons, List.map_nil, hraw]
            unfold initVectorIndex
            simp only
            rw [if_neg hle, g1]
            exact ⟨_, rfl⟩
      · simp only [not_forall, not_not] at hv
        obtain ⟨x, rfl⟩ := hv
        right; right
        by_cases hno : NoOther [ix]
        · obtain ⟨upd, h1, h2, h3⟩ := gather_ok [ix] hno
          unfold ixInit; rw [h1, bind_ok]; exact ⟨_, rfl⟩
        · obtain ⟨e, he⟩ := gather_other [ix] hno
          exact ⟨e, by unfold ixInit; rw [he]; rfl⟩
  · by_cases hv : ∀ x, lhs ≠ .elem x
    · by_cases hd : ∃ ks, Denote origin ixs lhs.shape ks
      · obtain ⟨ks, hd⟩ := hd
        exact .inl ⟨ks, hv, hd⟩
      · exact .inr (.inr (ixInit_err hvi (dims_small hok) hd))
    · simp only [not_forall, not_not] at hv
      obtain ⟨x, rfl⟩ := hv
      right; right
      by_cases hno : NoOther ixs
      · obtain ⟨upd, h1, h2, h3⟩ := gather_ok ixs hno
        unfold ixInit; rw [h1, bind_ok]; exact ⟨_, rfl⟩
      · obtain ⟨e, he⟩ := gather_other ixs hno
        exact ⟨e, by unfold ixInit; rw [he]; rfl⟩

/-! ## Stores -/

/-- After the writes `W` (of `val w` at `addr w`) into `data`. -/
def Wrote (data : List α) (addr : Nat → Nat) (val : Nat → Option α) (W : Nat → Prop) (e : Ed α) : Prop :=
  ∃ l : List α, e = edit l ∧ l.length = data.length ∧ ∀ p : Nat, p < data.length →
    (∃ w, W w ∧ addr w = p ∧ l[p]? = val w) ∨ ((∀ w, W w → addr w ≠ p) ∧ l[p]? = data[p]?)

theorem wrote_nil (data : List α) (addr : Nat → Nat) (val : Nat → Option α) : Wrote data addr val (fun _ => False) (edit data) :=
  ⟨data, rfl, rfl, fun _ _ => .inr ⟨by simp, rfl⟩⟩

theorem wrote_put {data : List α} {addr : Nat → Nat} {val : Nat → Option α} {W : Nat → Prop} {e : Ed α} (h : Wrote data addr val W e)
    {w : Nat} {x : α} (hx : val w = some x) (ha : addr w < data.length) :
    ∃ e', e.put (addr w) x = .ok e' ∧ Wrote data addr val (fun v => W v ∨ v = w) e' := by
  obtain ⟨l, rfl, hl, hp⟩ := h
  refine ⟨_, put_edit (by omega), l.set (addr w) x, rfl, by simp [hl], ?_⟩
  intro p hpl
  by_cases e : addr w = p
  · left
    refine ⟨w, .inr rfl, e, ?_⟩
    rw [List.getElem?_set, if_pos e, if_pos (by omega), hx]
  · rcases hp p hpl with ⟨v, h1, h2, h3⟩ | ⟨h1, h2⟩
    · exact .inl ⟨v, .inl h1, h2, by rw [List.getElem?_set, if_neg e]; exact h3⟩
    · refine .inr ⟨?_, by rw [List.getElem?_set, if_neg e]; exact h2⟩
      rintro v (hv | rfl)
      · exact h1 v hv
      · exact e

theorem wrote_iff {data : List α} {addr : Nat → Nat} {val : Nat → Option α} {W W' : Nat → Prop} {e : Ed α} (h : Wrote data addr val W e)
    (hw : ∀ i, W i ↔ W' i) : Wrote data addr val W' e := by
  have : W = W' := funext fun i => propext (hw i)
  rwa [← this]

/-- The value stored `w`-th. -/
def rhsVal (rhs : α ⊕ List α) (w : Nat) : Option α :=
  match rhs with
  | .inl x => some x
  | .inr l => l[w]?

/-- Where it is stored. -/
def addrOf (o : Nat → Nat) (cs w : Nat) : Nat := o (w / cs) * cs + w % cs

theorem storeIn_wrote {data : List α} {rhs : α ⊕ List α} {o : Nat → Nat} {i cs : Nat} (hc : 0 < cs)
    (hr : ∀ j, j < cs → (rhsVal rhs (i * cs + j)).isSome) (hd : ∀ j, j < cs → o i * cs + j < data.length) (W : Nat → Prop) (e : Ed α)
    (he : Wrote data (addrOf o cs) (rhsVal rhs) W e) :
    ∃ e', storeIn rhs i (o i) cs e = .ok e' ∧ Wrote data (addrOf o cs) (rhsVal rhs) (fun w => W w ∨ w / cs = i) e' := by
  have key : ∀ j, j < cs → (i * cs + j) / cs = i ∧ (i * cs + j) % cs = j := by
    intro j hj
    exact ⟨by rw [Nat.mul_comm, Nat.mul_add_div hc, Nat.div_eq_of_lt hj]; simp, by rw [Nat.mul_comm, Nat.mul_add_mod, Nat.mod_eq_of_lt hj]⟩
  obtain ⟨e', h1, h2⟩ := loop_acc (f := fun j e => (rhsAt rhs cs i j).bind fun x => e.put (o i * cs + j) x)
    (Wrote data (addrOf o cs) (rhsVal rhs)) (fun j w => w = i * cs + j) (List.range cs) W e he (by
      intro j hj W s hs
      have hj : j < cs := by simpa using hj
      obtain ⟨x, hx⟩ := Option.isSome_iff_exists.mp (hr j hj)
      have ha : addrOf o cs (i * cs + j) = o i * cs + j := by unfold addrOf; rw [(key j hj).1, (key j hj).2]
      have hx' : rhsAt rhs cs i j = .ok x := by
        cases rhs with
        | inl y => simp only [rhsVal, Option.some.injEq] at hx; subst hx; rfl
        | inr l => simp only [rhsVal] at hx; unfold rhsAt; simp only; rw [Nat.add_comm]; exact vAt_ok.mpr hx
      rw [hx', bind_ok, ← ha]
      exact wrote_put hs hx (by rw [ha]; exact hd j hj))
  refine ⟨e', h1, wrote_iff h2 ?_⟩
  intro w
  constructor
  · rintro (h | ⟨j, hj, rfl⟩)
    · exact .inl h
    · exact .inr (key j (by simpa using hj)).1
  · rintro (h | rfl)
    · exact .inl h
    · refine .inr ⟨w % cs, by simpa using Nat.mod_lt _ hc, ?_⟩
      rw [Nat.mul_comm]; exact (Nat.div_add_mod w cs).symm

/-- All the stores of a parallel loop. -/
theorem storePfor {data : List α} (S : Sched) {rhs : α ⊕ List α} {o : Nat → Nat} {n cs : Nat} (hc : 0 < cs)
    (hr : ∀ w, w < n * cs → (rhsVal rhs w).isSome) (hd : ∀ i j, i < n → j < cs → o i * cs + j < data.length)
    (f : Nat → Nat → Ed α → R (Ed α))
    (hf : ∀ lo cnt e, lo + cnt ≤ n → f lo (lo + cnt) e = loop (fun i e => storeIn rhs i (o i) cs e) (List.range' lo cnt) e)
    (hempty : ∀ lo hi e, hi ≤ lo → f lo hi e = .ok e) :
    ∃ e, pfor (S.ranges cs n) f (edit data) = .ok e ∧ Wrote data (addrOf o cs) (rhsVal rhs) (fun w => w < n * cs) e := by
  obtain ⟨e, h1, h2⟩ := loopOver_acc (f := fun r : Nat × Nat => f r.1 r.2) (Wrote data (addrOf o cs) (rhsVal rhs))
    (fun r w => r.1 ≤ w / cs ∧ w / cs < r.2) (S.ranges cs n) (fun _ => False) (edit data) (wrote_nil _ _ _) (by
      intro r hr' W s hs
      rcases Nat.lt_or_ge r.1 r.2 with hlt | hge
      · have hb := sched_bound S cs n hr' (k := r.2 - 1) (by omega) (by omega)
        have e1 : f r.1 r.2 s = loop (fun i e => storeIn rhs i (o i) cs e) (List.range' r.1 (r.2 - r.1)) s := by
          have := hf r.1 (r.2 - r.1) s (by omega)
          rwa [show r.1 + (r.2 - r.1) = r.2 by omega] at this
        obtain ⟨e', g1, g2⟩ := loop_acc (f := fun i e => storeIn rhs i (o i) cs e) (Wrote data (addrOf o cs) (rhsVal rhs)) (fun i w => w / cs = i)
          (List.range' r.1 (r.2 - r.1)) W s hs (by
            intro i hi W s hs
            rw [List.mem_range'] at hi
            obtain ⟨j, hj, rfl⟩ := hi
            exact storeIn_wrote hc (fun j hj => hr _ (off_lt (n := n) (by omega) hj rfl)) (fun j hj => hd _ j (by omega) hj) W s hs)
        refine ⟨e', by rw [← g1]; exact e1, wrote_iff g2 fun w => or_congr Iff.rfl ?_⟩
        constructor
        · rintro ⟨i, hi, rfl⟩
          rw [List.mem_range'] at hi
          obtain ⟨j, hj, hj'⟩ := hi
          omega
        · rintro ⟨a, b⟩
          exact ⟨w / cs, by rw [List.mem_range']; exact ⟨w / cs - r.1, by omega, by omega⟩, rfl⟩
      · refine ⟨s, hempty _ _ _ hge, wrote_iff hs fun w => ?_⟩
        constructor
        · exact .inl
        · rintro (h | h)
          · exact h
          · omega)
  refine ⟨e, h1, wrote_iff h2 fun w => ?_⟩
  constructor
  · rintro (h | ⟨r, hr', a, b⟩)
    · exact h.elim
    · have := sched_bound S cs n hr' a b
      rwa [Nat.div_lt_iff_lt_mul hc] at this
  · intro h
    rw [← Nat.div_lt_iff_lt_mul hc] at h
    obtain ⟨r, hr', a, b⟩ := sched_mem S cs n _ h
    exact .inr ⟨r, hr', a, b⟩

end Verif.Arr
