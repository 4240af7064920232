import Verif.Arr.IndexLemmas2
import Verif.Arr.Lemmas5

/-! # Lemmas about indexing: the loops of `Index` and `IndexAssign` -/

namespace Verif.Arr
variable {α : Type}

/-! ## Selections -/

/-- The coordinates that the index vectors (with the origin subtracted) denote, one vector for each selection. -/
def VecDenote (origin : Nat) (l : List IxElem) (shape : List Nat) (n : Nat) (ps : List (List Nat)) : Prop :=
  l = ps.map (fun p => IxElem.vec (p.map fun k : Nat => some ((k + origin : Nat) : Int))) ∧ ∀ p ∈ ps, InB (shape.take n) p

/-- A selection: `n` places, the offsets of which, in units of `cs`, are `o`. -/
structure Sel (shape : List Nat) (dim n : Nat) (o : Nat → Nat) : Prop where
  le : dim ≤ shape.length
  lt : ∀ i, i < n → o i < vol (shape.take dim)

theorem unravel_zero (s : List Nat) : unravel s 0 = List.replicate s.length 0 := by
  induction s with
  | nil => rfl
  | cons d s ih => simp [unravel, ih, List.replicate_succ]

theorem vol_split (s : List Nat) (k : Nat) : vol s = vol (s.take k) * vol (s.drop k) := by
  rw [← vol_append, List.take_append_drop]

/-- The offset, in units of what is copied, of selection `i`. -/
def plainOff (shape : List Nat) (dim : Nat) (ks : List (List Nat)) (i : Nat) : Nat :=
  ravel (shape.take dim) (pickAt ks (unravel (ks.map List.length) i))

theorem plain_sel {origin : Nat} {ixs : List Ix} {shape : List Nat} {ks : List (List Nat)} (hw : ∀ ix ∈ ixs, ix.Ok)
    (h : Denote origin ixs shape ks) : Sel shape ixs.length (vol (ks.map List.length)) (plainOff shape ixs.length ks) := by
  refine ⟨h.1, fun i hi => ravel_lt ((denote_lens hw h).2.1 _ (unravel_inB hi))⟩

/-- A loop over the coordinates. -/
def coordStep (origin : Nat) (shape : List Nat) (ixs : List (List Int)) (F : Nat → Nat → Ed α → R (Ed α)) (i : Nat) (s : List Nat × Ed α) : R (List Nat × Ed α) :=
  (picks ixs s.1).bind fun ks => (F i (offset origin ks shape) s.2).bind fun e => .ok ((tick (ixs.map List.length) s.1).1, e)

theorem shiftAll_lens (origin : Nat) (ks : List (List Nat)) : (shiftAll origin ks).map List.length = ks.map List.length := by
  simp [shiftAll, Function.comp_def]

theorem pickAt_length {ks : List (List Nat)} {c : List Nat} (h : InB (ks.map List.length) c) : (pickAt ks c).length = ks.length := by
  have := inB_length h
  simp [pickAt]; simp at this; omega

theorem coordLoop {origin : Nat} {ixs : List Ix} {shape : List Nat} {ks : List (List Nat)} (hw : ∀ ix ∈ ixs, ix.Ok)
    (h : Denote origin ixs shape ks) (F : Nat → Nat → Ed α → R (Ed α)) : ∀ (cnt lo : Nat) (e : Ed α), lo + cnt ≤ vol (ks.map List.length) →
    (loop (coordStep origin shape (shiftAll origin ks) F) (List.range' lo cnt) (unravel (ks.map List.length) (lo % vol (ks.map List.length)), e)).bind (fun s => .ok s.2) =
      loop (fun i e => F i (plainOff shape ixs.length ks i) e) (List.range' lo cnt) e := by
  intro cnt
  induction cnt with
  | zero => intro lo e _; rfl
  | succ n ih =>
    intro lo e hle
    have hlt : lo < vol (ks.map List.length) := by omega
    have hin := unravel_inB hlt
    have hk := (denote_lens hw h).2.2
    rw [List.range', loop, loop]
    have he : coordStep origin shape (shiftAll origin ks) F lo (unravel (ks.map List.length) (lo % vol (ks.map List.length)), e) =
      (F lo (plainOff shape ixs.length ks lo) e).bind fun e => .ok (unravel (ks.map List.length) ((lo + 1) % vol (ks.map List.length)), e) := by
      unfold coordStep
      simp only [Nat.mod_eq_of_lt hlt]
      rw [picks_ok origin ks _ hin, bind_ok, offset_eq origin _ shape (by rw [pickAt_length hin, hk]; exact h.1), pickAt_length hin, hk,
        shiftAll_lens, tick_unravel hlt]
      rfl
    rw [he]
    cases hF : F lo (plainOff shape ixs.length ks lo) e with
    | ok e' =>
      simp only [bind_ok]
      exact ih (lo + 1) e' (by omega)
    | err m => rfl
    | crash => rfl
    | hang => rfl

/-! ## Index -/

/-- The list of the elements at the given offsets. -/
def pickList (data : List α) (N : Nat) (g : Nat → Nat) (h : ∀ j, j < N → g j < data.length) : List α :=
  List.ofFn fun j : Fin N => data[g j.1]'(h j.1 j.2)

theorem pickList_get {data : List α} {N : Nat} {g : Nat → Nat} {h : ∀ j, j < N → g j < data.length} {j : Nat} (hj : j < N) :
    (pickList data N g h)[j]? = data[g j]? := by
  unfold pickList
  rw [List.getElem?_eq_getElem (by simpa using hj), List.getElem?_eq_getElem (h j hj)]
  simp

theorem pickList_length {data : List α} {N : Nat} {g : Nat → Nat} {h : ∀ j, j < N → g j < data.length} : (pickList data N g h).length = N := by
  simp [pickList]

theorem copyOut_toward {t data : List α} {i off cs : Nat} (hd : ∀ k, k < cs → off * cs + k < data.length)
    (ht : ∀ k, k < cs → t[i * cs + k]? = data[off * cs + k]?) (W : Nat → Prop) (e : Ed α) (he : Toward t W e) :
    ∃ e', copyOut data i off cs e = .ok e' ∧ Toward t (fun j => W j ∨ (i * cs ≤ j ∧ j < i * cs + cs)) e' := by
  obtain ⟨e', h1, h2⟩ := loop_toward (t := t) (f := fun k e => (vAt data (off * cs + k)).bind fun x => e.put (i * cs + k) x)
    (fun k j => j = i * cs + k) (List.range cs) (by
      intro k hk W e he
      have hk : k < cs := by simpa using hk
      rw [vAt_lt (hd k hk), bind_ok]
      exact toward_put he (by rw [ht k hk, List.getElem?_eq_getElem (hd k hk)])) he
  refine ⟨e', h1, toward_mono h2 ?_⟩
  rintro j _ (h | ⟨h, h'⟩)
  · exact .inl h
  · exact .inr ⟨j - i * cs, by simp; omega, by omega⟩

theorem off_lt {a b n cs k : Nat} (h : a < n) (hk : k < cs) (hb : b = n * cs) : a * cs + k < b := by
  subst hb
  calc a * cs + k < a * cs + cs := by omega
    _ = (a + 1) * cs := by ring
    _ ≤ n * cs := Nat.mul_le_mul_right _ h

/-- Copying the elements of all the selections. -/
theorem copyAll {data : List α} {shape : List Nat} {dim n : Nat} {o : Nat → Nat} (hs : Sel shape dim n o) (hl : data.length = vol shape)
    (hc : 0 < vol (shape.drop dim)) : ∃ e d, loop (fun i e => copyOut data i (o i) (vol (shape.drop dim)) e) (List.range n) (newEd (n * vol (shape.drop dim))) = .ok e ∧
      e.publish = .ok d ∧ d.length = n * vol (shape.drop dim) ∧
      ∀ i k, i < n → k < vol (shape.drop dim) → d[i * vol (shape.drop dim) + k]? = data[o i * vol (shape.drop dim) + k]? := by
  generalize hcs : vol (shape.drop dim) = cs at *
  have hv : vol shape = vol (shape.take dim) * cs := by rw [vol_split shape dim, hcs]
  have hb : ∀ i k, i < n → k < cs → o i * cs + k < data.length := fun i k hi hk => off_lt (hs.lt i hi) hk (by rw [hl, hv])
  have hg : ∀ j, j < n * cs → o (j / cs) * cs + j % cs < data.length := fun j hj =>
    hb _ _ (by rw [Nat.div_lt_iff_lt_mul hc]; exact hj) (Nat.mod_lt _ hc)
  have hget : ∀ i k, i < n → k < cs → (pickList data (n * cs) (fun j => o (j / cs) * cs + j % cs) hg)[i * cs + k]? = data[o i * cs + k]? := by
    intro i k hi hk
    rw [pickList_get (off_lt hi hk rfl)]
    have e1 : (i * cs + k) / cs = i := by rw [Nat.mul_comm, Nat.mul_add_div hc, Nat.div_eq_of_lt hk]; simp
    have e2 : (i * cs + k) % cs = k := by rw [Nat.mul_comm, Nat.mul_add_mod, Nat.mod_eq_of_lt hk]
    simp only [e1, e2]
  obtain ⟨e, h1, h2⟩ := loop_toward (t := pickList data (n * cs) (fun j => o (j / cs) * cs + j % cs) hg)
    (f := fun i e => copyOut data i (o i) cs e) (fun i j => i * cs ≤ j ∧ j < i * cs + cs) (List.range n) (by
      intro i hi W e he
      have hi : i < n := by simpa using hi
      exact copyOut_toward (hb i · hi) (fun k hk => hget i k hi hk) W e he) (toward_new _ (n := n * cs) (by rw [pickList_length]))
  refine ⟨e, _, h1, toward_publish h2 ?_, pickList_length, hget⟩
  intro j hj
  rw [pickList_length] at hj
  refine .inr ⟨j / cs, by simp; rw [Nat.div_lt_iff_lt_mul hc]; exact hj, ?_, ?_⟩
  · exact Nat.div_mul_le_self j cs
  · have := Nat.div_add_mod j cs
    have := Nat.mod_lt j hc
    rw [Nat.mul_comm (j / cs)]; omega

theorem data_length {v : V α} (h : v.Ok) : v.data.length = vol v.shape := by
  cases v with
  | elem x => rfl
  | vec l => simp [V.data, V.shape, vol]
  | mat m => exact h.1.len

theorem data_small {v : V α} (h : v.Ok) : v.data.length ≤ maxInt := by
  cases v with
  | elem x => simp [V.data, maxInt]
  | vec l => exact h
  | mat m => exact h.2.1

theorem dims_small {v : V α} (h : v.Ok) : ∀ d ∈ v.shape, d ≤ maxInt := by
  cases v with
  | elem x => simp [V.shape]
  | vec l => intro d hd; simp [V.shape] at hd; subst hd; exact h
  | mat m => exact h.2.2

/-- The results of `Index`, by the rank of the result. -/
def wrap (out : List Nat) (d : List α) : R (V α) :=
  if out.length = 1 then .ok (.vec d) else (newMatrix out d).bind fun m => .ok (.mat m)

theorem wrap_ok {out : List Nat} {d : List α} (h0 : out ≠ []) (hl : d.length = vol out) (hf : Fits out) :
    ∃ r, wrap out d = .ok r ∧ r.shape = out ∧ r.data = d ∧ ∀ x, r ≠ .elem x := by
  unfold wrap
  split
  · rename_i h
    refine ⟨.vec d, rfl, ?_, rfl, by simp⟩
    match out, h with
    | [n], _ => simp [V.shape, hl, vol]
  · rw [newMatrix_fits h0 hl hf]
    exact ⟨_, rfl, rfl, rfl, by simp⟩

/-- Shapes that can be. -/
theorem size_allowed {s : List Nat} (hf : Fits s) (hd : ∀ d ∈ s, d ≤ maxInt) : size s = .ok (vol s) := by
  refine size_ok fun k hk h1 => ?_
  rcases Nat.lt_or_ge k 2 with h | h
  · have : k = 1 := by omega
    subst this
    cases s with
    | nil => simp at hk
    | cons d s =>
      have := hd d (by simp)
      simp [vol, maxInt] at *; omega
  · have := hf k h hk
    omega

theorem range_eq (n : Nat) : List.range n = List.range' 0 n := List.range_eq_range'

/-- The value `Index` computes, with the shape it gives it. -/
theorem index_core {origin : Nat} {lhs : V α} {ixs : List Ix} {ks : List (List Nat)} (hv : ∀ x, lhs ≠ .elem x) (hok : lhs.Ok)
    (hw : ∀ ix ∈ ixs, ix.Ok) (h : Denote origin ixs lhs.shape ks) (hc : 0 < vol (lhs.shape.drop ixs.length))
    (hcm : vol (lhs.shape.drop ixs.length) ≤ maxInt) (hf : Fits (codeShape ixs lhs.shape)) (hd : ∀ d ∈ codeShape ixs lhs.shape, d ≤ maxInt) :
    ∃ r, index origin lhs ixs = .ok r ∧ r.shape = codeShape ixs lhs.shape ∧ r.data.length = vol r.shape ∧
      ∀ i k, i < vol (ks.map List.length) → k < vol (lhs.shape.drop ixs.length) →
        r.data[i * vol (lhs.shape.drop ixs.length) + k]? = lhs.data[plainOff lhs.shape ixs.length ks i * vol (lhs.shape.drop ixs.length) + k]? := by
  have hno := denote_noOther h
  have hsel := plain_sel hw h
  have hlen := denote_lens hw h
  have hvol : vol (codeShape ixs lhs.shape) = vol (ks.map List.length) * vol (lhs.shape.drop ixs.length) := by
    rw [vol_codeShape h.1, selShape, vol_append, vol_flatten, hlen.1]
  unfold index
  rw [ixInit_eq hv hno (denote_not_vec h) h.1 (dims_small hok), size_allowed hf hd, bind_ok, checkAll_ok _ _ _ _ hno h, bind_ok, bind_ok]
  simp only
  split
  · rename_i h0
    have h0 : codeShape ixs lhs.shape = [] := List.length_eq_zero_iff.mp h0
    have hd0 : lhs.shape.drop ixs.length = [] := by
      unfold codeShape at h0; exact (List.append_eq_nil_iff.mp h0).2
    have hn : vol (ks.map List.length) = 1 := by
      rw [h0, hd0] at hvol; simpa [vol] using hvol.symm
    have hz : (shiftAll origin ks).map (fun _ => 0) = unravel (ks.map List.length) 0 := by
      rw [unravel_zero]; simp [shiftAll, Function.comp_def]
    have hin : InB (ks.map List.length) (unravel (ks.map List.length) 0) := unravel_inB (by omega)
    rw [hz, picks_ok origin ks _ hin, bind_ok, offset_eq origin _ _ (by rw [pickAt_length hin, hlen.2.2]; exact h.1), pickAt_length hin, hlen.2.2]
    have hlt := hsel.lt 0 (by omega)
    have hb : plainOff lhs.shape ixs.length ks 0 < lhs.data.length := by
      rw [data_length hok, vol_split lhs.shape ixs.length, hd0]; simpa [vol] using hlt
    unfold plainOff at hb
    rw [vAt_lt hb, bind_ok]
    refine ⟨_, rfl, by rw [h0]; rfl, by simp [V.data, V.shape, vol], ?_⟩
    intro i k hi hk
    have : i = 0 := by omega
    subst this
    have : k = 0 := by rw [hd0] at hk; simpa [vol] using hk
    subst this
    rw [hd0]
    simp only [vol, Nat.zero_mul, Nat.add_zero, Nat.mul_one]
    rw [List.getElem?_eq_getElem (l := lhs.data) (i := plainOff lhs.shape ixs.length ks 0) hb]
    rfl
  · rename_i h0
    have h0 : codeShape ixs lhs.shape ≠ [] := fun h => h0 (by simp [h])
    obtain ⟨e, d, h1, h2, h3, h4⟩ := copyAll hsel (data_length hok) hc
    have hloop : indexLoop origin lhs.data ⟨lhs.shape, .inl (shiftAll origin ks), ixs.length, codeShape ixs lhs.shape, vol (codeShape ixs lhs.shape)⟩
        (vol (lhs.shape.drop ixs.length)) = .ok e := by
      unfold indexLoop
      simp only
      rw [hvol, Nat.mul_div_cancel _ hc]
      have := coordLoop hw h (fun i off e => copyOut lhs.data i off (vol (lhs.shape.drop ixs.length)) e) (vol (ks.map List.length)) 0
        (newEd (vol (ks.map List.length) * vol (lhs.shape.drop ixs.length))) (by omega)
      rw [Nat.zero_mod, unravel_zero, List.length_map, hlen.2.2, ← range_eq, h1] at this
      exact this
    rw [size_of_pos hc hcm, bind_ok, if_neg (by omega), hloop, bind_ok, h2, bind_ok]
    obtain ⟨r, r1, r2, r3, -⟩ := wrap_ok h0 (by rw [h3, hvol]) hf
    refine ⟨r, r1, r2, by rw [r3, h3, r2, hvol], ?_⟩
    intro i k hi hk
    rw [r3]; exact h4 i k hi hk

end Verif.Arr
