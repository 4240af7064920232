import Verif.Arr.SelLemmas2

/-!
# Helper lemmas on `sel` and `part` of matrices
-/

namespace Verif.Arr
variable {α σ : Type}

theorem loop_append {f : Nat → σ → R σ} : ∀ (a b : List Nat) (s : σ), loop f (a ++ b) s = (loop f a s).bind (loop f b)
  | [], b, s => rfl
  | k :: a, b, s => by
    simp only [List.cons_append, loop]
    cases f k s with
    | ok s' => exact loop_append a b s'
    | err m => rfl
    | crash => rfl
    | hang => rfl

theorem pick_take {w : List α} {n : Nat} {g : List Nat} (h : ∀ i ∈ g, i < n) : pick (w.take n) g = pick w g := by
  unfold pick
  apply List.filterMap_congr
  intro i hi
  rw [List.getElem?_take, if_pos (h i hi)]

/-- The loop of `doPartition` over the first rows. -/
theorem partRows {v : List α} {sc : List Nat} (hsc : 0 < sc.length) {gs : List (List Nat)} (hgs : Runs sc gs) :
    ∀ n, n * sc.length ≤ v.length →
    ∃ s, loop (partStep v (sc.map fun n : Nat => some (n : Int))) (List.range' 0 (n * sc.length)) ⟨[], [], -1, 0⟩ = .ok s ∧
      s.done = (List.range n).flatMap (fun r => gs.map (pick (v.drop (r * sc.length)))) ∧ (n = 0 → s.accum = []) ∧
      (gs = [] → s.accum = [] ∧ s.result = []) ∧
      (n ≤ 1 → s.dim = -1) ∧ (2 ≤ n → (sc.getD 0 0 ≠ 0 ∨ gs = []) → s.dim = gs.length)
  | 0, _ => ⟨⟨[], [], -1, 0⟩, by simp [loop], by simp [PartSt.done], fun _ => rfl, fun _ => ⟨rfl, rfl⟩, fun _ => rfl, by omega⟩
  | n + 1, hn => by
    rw [Nat.succ_mul] at hn
    obtain ⟨s, h1, h2, h3, h4, h5, h6⟩ := partRows (v := v) hsc hgs n (by omega)
    obtain ⟨s', e1, e2, e3, e4⟩ := partRow (s0 := s) hn h3 hsc hgs
    refine ⟨s', ?_, ?_, by omega, ?_, ?_, ?_⟩
    · rw [Nat.succ_mul, ← List.range'_append_1, loop_append, h1, bind_ok, Nat.zero_add]; exact e1
    · rw [e2, h2, List.range_succ, List.flatMap_append]; simp
    · intro hg
      rw [(e3 hg).1, (e3 hg).2]
      exact h4 hg
    · intro hn1
      rw [e4, if_neg (by omega)]
      exact h5 (by omega)
    · intro hn2 hc
      rw [e4]
      rcases Nat.lt_or_ge n 2 with hlt | hge
      · have : n = 1 := by omega
        subst this
        rw [h5 (by omega), if_pos ⟨by decide, by omega⟩]
        simp at h2
        by_cases h0 : sc.getD 0 0 ≠ 0
        · rw [rollDim, if_pos h0, h2]; simp
        · have hg := hc.resolve_left h0
          rw [rollDim, if_neg h0, (h4 hg).2, hg]; rfl
      · have := h6 hge hc
        rw [this, if_neg (by omega)]

theorem doPartition_eq {v : List α} {sc : List Nat} (hsc : 0 < sc.length) {gs : List (List Nat)} (hgs : Runs sc gs) {n : Nat} (hn : v.length = n * sc.length) :
    ∃ dim, doPartition v (sc.map fun n : Nat => some (n : Int)) = .ok ((List.range n).flatMap (fun r => gs.map (pick ((v.drop (r * sc.length)).take sc.length))), dim) ∧
      (2 ≤ n → (sc.getD 0 0 ≠ 0 ∨ gs = []) → dim = gs.length) := by
  obtain ⟨s, h1, h2, _, _, _, h6⟩ := partRows hsc hgs (v := v) n (by omega)
  refine ⟨s.dim, ?_, h6⟩
  have : ∀ r, gs.map (pick ((v.drop (r * sc.length)).take sc.length)) = gs.map (pick (v.drop (r * sc.length))) := by
    intro r
    apply List.map_congr_left
    intro g hg
    exact pick_take (fun i hi => runsK_mem (runsK_iff.mpr hgs) hg i hi)
  simp only [this, ← h2]
  rw [doPartition, hn, List.range_eq_range', h1, bind_ok]
  rfl

theorem partVec_eq {v : List α} {sc : List Nat} (hl : sc.length = v.length) {gs : List (List Nat)} (hgs : Runs sc gs) :
    partVec v (sc.map fun n : Nat => some (n : Int)) = .ok (gs.map (pick v)) := by
  unfold partVec
  rw [if_neg (by simpa using hl)]
  rcases Nat.eq_zero_or_pos sc.length with h | h
  · have hv : v = [] := List.length_eq_zero_iff.mp (by omega)
    have hs : sc = [] := List.length_eq_zero_iff.mp h
    subst hv hs
    have := runs_unique hgs (runsK_iff.mp (runsK_zero []))
    subst this
    rfl
  · obtain ⟨dim, h1, _⟩ := doPartition_eq h hgs (v := v) (n := 1) (by omega)
    rw [h1, bind_ok]
    simp [hl]

theorem prodCheckZ_nat : ∀ (ds : List Nat) (n : Nat), prodCheckZ n (ds.map fun d : Nat => (d : Int)) = (prodCheck n ds).bind fun p => .ok (p : Int)
  | [], n => rfl
  | d :: ds, n => by
    simp only [List.map_cons, prodCheckZ, prodCheck]
    by_cases h : n * d > maxInt
    · rw [if_pos h, if_pos (by exact_mod_cast h)]; rfl
    · rw [if_neg h, if_neg (by exact_mod_cast h)]
      exact_mod_cast prodCheckZ_nat ds (n * d)

theorem newMatrixZ_nat {shape : List Nat} {data : List α} (hs : shape ≠ []) {m : Mat α} (h : newMatrix shape data = .ok m) :
    newMatrixZ (shape.map fun d : Nat => (d : Int)) data = .ok (m.shape.map (fun d : Nat => (d : Int)), m.data) := by
  match shape, hs with
  | d :: ds, _ =>
    simp only [newMatrix, newMatrixZ, List.map_cons] at h ⊢
    obtain ⟨p, h1, h2⟩ := bind_eq_ok.mp h
    rw [prodCheckZ_nat, h1, bind_ok, bind_ok]
    split at h2
    · cases h2
    · next hp =>
      cases h2
      rw [if_neg (by simpa using hp)]
      rfl

/-- A matrix made of rows of the same length. -/
theorem rows_lines {s : List Nat} {w : Nat} {h : Nat → List α} (hw : ∀ i, i < vol s → (h i).length = w) :
    ((List.range (vol s)).flatMap h).length = vol (s ++ [w]) ∧
    ∀ c, InB s c → (V.mat ⟨s ++ [w], (List.range (vol s)).flatMap h⟩).lastLine w c = h (ravel s c) := by
  obtain ⟨h1, h2⟩ := blocks_flat (h := h) (vol s) hw
  refine ⟨by rw [h1, vol_append]; simp [vol], fun c hc => ?_⟩
  rw [lastLine_eq (s := s) rfl hc]
  exact h2 _ (ravel_lt hc)

theorem fits_snoc_le {s : List Nat} {d w : Nat} (h : Fits (s ++ [d])) (hw : w ≤ d) : Fits (s ++ [w]) := by
  intro k h2 hk
  have := h k h2 (by simpa using hk)
  refine Nat.le_trans ?_ this
  simp only [List.length_append, List.length_singleton] at hk
  rcases Nat.lt_or_ge s.length k with hlt | hge
  · have e : k = s.length + 1 := by omega
    subst e
    rw [List.take_of_length_le (by simp), List.take_of_length_le (by simp), vol_append, vol_append]
    simp only [vol, Nat.mul_one]
    exact Nat.mul_le_mul_left _ hw
  · rw [List.take_append_of_le_length hge, List.take_append_of_le_length hge]

theorem runs_count {sc : List Nat} {gs : List (List Nat)} (h : Runs sc gs) : gs.length ≤ sc.length := by
  have gen : ∀ l : List (List Nat), (∀ g ∈ l, g ≠ []) → l.length ≤ l.flatten.length := by
    intro l
    induction l with
    | nil => simp
    | cons g l ih =>
      intro hne
      have := ih (fun x hx => hne x (by simp [hx]))
      have := List.length_pos_iff.mpr (hne g (by simp))
      simp only [List.length_cons, List.flatten_cons, List.length_append]
      omega
  refine Nat.le_trans (gen gs h.ne) ?_
  rw [h.all]
  refine Nat.le_trans (List.length_filter_le _ _) ?_
  simp

/-- A vector of counts or a single one, seen by an operator whose other operand is a matrix. -/
theorem counts_toMat {u : V Small} {cs : List Int} (hu : u = .vec (cs.map some) ∨ ∃ n, cs = [n] ∧ u = .elem (some n)) :
    u.toMat = .ok ⟨[cs.length], cs.map some⟩ ∧ u.isMat = false := by
  rcases hu with rfl | ⟨n, rfl, rfl⟩
  · refine ⟨?_, rfl⟩
    simp [V.toMat, newMatrix, prodCheck, R.bind]
  · exact ⟨rfl, rfl⟩

theorem selMat_eq (z : α → α) {m : Mat α} (hm : (V.mat m).Ok) {s : List Nat} {d : Nat} (hs : m.shape = s ++ [d]) (hv : 0 < vol s)
    {cs : List Int} (hc : cs.length = 1 ∨ cs.length = d) (hf : Fits (s ++ [((spread d cs).map Int.natAbs).sum])) :
    ∃ r, selMat z ⟨[cs.length], cs.map some⟩ m = .ok r ∧ r.Ok ∧ r.shape = s ++ [((spread d cs).map Int.natAbs).sum] ∧
      ∀ c, InB s c → (V.mat r).lastLine (((spread d cs).map Int.natAbs).sum) c = repeats z (spread d cs) ((V.mat m).lastLine d c) := by
  have hlen : m.data.length = vol s * d := by rw [hm.1.len, hs, vol_append]; simp [vol]
  have hrow : ∀ i, i < vol s → ((m.data.drop (i * d)).take d).length = d := by
    intro i hi
    have : (i + 1) * d ≤ vol s * d := Nat.mul_le_mul_right _ hi
    rw [Nat.succ_mul] at this
    rw [List.length_take, List.length_drop]; omega
  obtain ⟨h1, h2⟩ := rows_lines (s := s) (w := ((spread d cs).map Int.natAbs).sum) (h := fun i => repeats z (spread d cs) ((m.data.drop (i * d)).take d))
    (fun i hi => repeats_length z _ _ (by rw [spread_len hc.symm, hrow i hi]))
  have hsz : size s = .ok (vol s) := by
    refine size_allowed (fits_prefix (t := [d]) (by rw [← hs]; exact hm.1.fits)) (fun x hx => hm.2.2 x (by rw [hs]; simp [hx]))
  have hdiv : (vol (s ++ [((spread d cs).map Int.natAbs).sum])) / vol s = ((spread d cs).map Int.natAbs).sum := by
    rw [vol_append]; simp [vol, Nat.mul_div_cancel_left _ hv]
  refine ⟨⟨s ++ [((spread d cs).map Int.natAbs).sum], (List.range (vol s)).flatMap fun i => repeats z (spread d cs) ((m.data.drop (i * d)).take d)⟩, ?_, ?_⟩
  · unfold selMat
    rw [if_neg (by simp), hs, (vAt_eq (x := d)).mpr (by simp), bind_ok]
    simp only
    rw [selVec_rows z hc hlen, bind_ok]
    simp only [List.length_append, List.length_singleton, Nat.add_sub_cancel, List.take_left]
    rw [hsz, bind_ok, if_neg (by omega), h1, hdiv, newMatrix_fits (by simp) h1 hf]
  · exact ⟨⟨⟨by simp, h1⟩, hf⟩, rfl, fun c hcc => by rw [h2 c hcc, lastLine_eq (v := V.mat m) hs hcc]; rfl⟩

theorem partMat_eq {m : Mat α} (hm : (V.mat m).Ok) {s : List Nat} {d : Nat} (hs : m.shape = s ++ [d]) (hv : 2 ≤ vol s) (hd : 0 < d)
    {cs : List Nat} (hc : cs.length = 1 ∨ cs.length = d) {gs : List (List Nat)} (hgs : Runs (spread d cs) gs)
    (h0 : (spread d cs).getD 0 0 ≠ 0 ∨ gs = []) :
    ∃ r : Mat (List α), partMat ⟨[cs.length], cs.map fun n : Nat => some (n : Int)⟩ m = .ok (r.shape.map (fun d : Nat => (d : Int)), r.data) ∧
      r.Ok ∧ r.shape = s ++ [gs.length] ∧
      ∀ c, InB s c → (V.mat r).lastLine gs.length c = gs.map (pick ((V.mat m).lastLine d c)) := by
  have hsl := spread_len hc.symm
  have hlen : m.data.length = vol s * (spread d cs).length := by rw [hm.1.len, hs, vol_append, hsl]; simp [vol]
  obtain ⟨dim, h1, h2⟩ := doPartition_eq (by omega) hgs hlen
  have hdim := h2 hv h0
  subst hdim
  rw [hsl] at h1
  obtain ⟨g1, g2⟩ := rows_lines (s := s) (w := gs.length) (h := fun r => gs.map (pick ((m.data.drop (r * d)).take d))) (fun i _ => by simp)
  have hf : Fits (s ++ [gs.length]) := fits_snoc_le (d := d) (by rw [← hs]; exact hm.1.fits) (by have := runs_count hgs; omega)
  have hn := newMatrixZ_nat (by simp) (newMatrix_fits (by simp) g1 hf)
  refine ⟨⟨s ++ [gs.length], (List.range (vol s)).flatMap fun r => gs.map (pick ((m.data.drop (r * d)).take d))⟩, ?_, ?_⟩
  · unfold partMat
    rw [if_neg (by simp), hs, (vAt_eq (x := d)).mpr (by simp), bind_ok, (vAt_eq (x := cs.length)).mpr (by simp), bind_ok]
    have hscore : (if cs.length = 1 then
        (uintAt (cs.map fun n : Nat => some (n : Int)) 0 "part: score").bind fun n => R.ok (List.replicate d (some (n : Int)))
        else R.ok (cs.map fun n : Nat => some (n : Int))) = R.ok ((spread d cs).map fun n : Nat => some (n : Int)) := by
      split
      · next h =>
        match cs, h with
        | [n], _ => rw [uintAt_map (by simp), bind_ok]; simp [spread]
      · next h =>
        match cs, h with
        | [], _ => rfl
        | [n], h => simp at h
        | a :: b :: cs, _ => rfl
    simp only [hscore, bind_ok, List.length_map, hsl]
    rw [if_neg (by simp), h1, bind_ok]
    simp only [List.length_append, List.length_singleton, Nat.add_sub_cancel, List.take_left]
    have e : (s.map fun d : Nat => (d : Int)) ++ [(gs.length : Int)] = (s ++ [gs.length]).map fun d : Nat => (d : Int) := by simp
    rw [e]
    exact hn
  · exact ⟨⟨⟨by simp, g1⟩, hf⟩, rfl, fun c hcc => by rw [g2 c hcc, lastLine_eq (v := V.mat m) hs hcc]; rfl⟩

end Verif.Arr
