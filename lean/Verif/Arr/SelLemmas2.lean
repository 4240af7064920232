import Verif.Arr.SelLemmas

/-!
# Helper lemmas on `part`
-/

namespace Verif.Arr
variable {α : Type}

/-- The runs among the first `k` positions. -/
structure RunsK (score : List Nat) (k : Nat) (gs : List (List Nat)) : Prop where
  all : gs.flatten = (List.range k).filter fun i => decide (score.getD i 0 ≠ 0)
  ne : ∀ g ∈ gs, g ≠ []
  inside : ∀ g ∈ gs, g.IsChain (Follows score)
  maximal : gs.IsChain fun g h => ∀ i j, g.getLast? = some i → h.head? = some j → ¬ Follows score i j

theorem runsK_iff {score : List Nat} {gs : List (List Nat)} : RunsK score score.length gs ↔ Runs score gs :=
  ⟨fun h => ⟨h.all, h.ne, h.inside, h.maximal⟩, fun h => ⟨h.all, h.ne, h.inside, h.maximal⟩⟩

instance (score : List Nat) (i j : Nat) : Decidable (Follows score i j) := inferInstanceAs (Decidable (_ ∧ _))

/-- There is only one way to split into runs. -/
theorem runs_split {score : List Nat} {gs : List (List Nat)} (h : Runs score gs) :
    gs = ((List.range score.length).filter fun i => decide (score.getD i 0 ≠ 0)).splitBy fun i j => decide (Follows score i j) := by
  symm
  rw [List.splitBy_eq_iff]
  refine ⟨h.all.symm, fun hm => h.ne _ hm rfl, fun m hm => ?_, ?_⟩
  · have := h.inside m hm
    simpa using this
  · have hm := h.maximal
    have hne := h.ne
    clear h
    induction gs with
    | nil => exact List.IsChain.nil
    | cons g gs ih =>
      cases gs with
      | nil => exact List.IsChain.singleton _
      | cons g' gs =>
        rw [List.isChain_cons_cons] at hm ⊢
        refine ⟨⟨hne g (by simp), hne g' (by simp), ?_⟩, ih hm.2 (fun x hx => hne x (by simp [hx]))⟩
        have := hm.1 _ _ (List.getLast?_eq_some_getLast (hne g (by simp))) (List.head?_eq_some_head (hne g' (by simp)))
        simpa using this

theorem runs_unique {score : List Nat} {gs hs : List (List Nat)} (h : Runs score gs) (h' : Runs score hs) : gs = hs :=
  (runs_split h).trans (runs_split h').symm

theorem runsK_zero (score : List Nat) : RunsK score 0 [] :=
  ⟨by simp, by simp, by simp, List.IsChain.nil⟩

theorem runsK_skip {score : List Nat} {k : Nat} {gs : List (List Nat)} (h : RunsK score k gs) (h0 : score.getD k 0 = 0) :
    RunsK score (k + 1) gs :=
  ⟨by rw [h.all, List.range_succ, List.filter_append, List.filter_cons, if_neg (by rw [h0]; simp)]; simp, h.ne, h.inside, h.maximal⟩

theorem runsK_new {score : List Nat} {k : Nat} {gs : List (List Nat)} (h : RunsK score k gs) (h0 : score.getD k 0 ≠ 0)
    (hn : ∀ g i, gs.getLast? = some g → g.getLast? = some i → ¬ Follows score i k) : RunsK score (k + 1) (gs ++ [[k]]) := by
  refine ⟨?_, ?_, ?_, ?_⟩
  · rw [List.flatten_append, h.all, List.range_succ, List.filter_append]
    simp only [List.flatten_cons, List.flatten_nil, List.append_nil]
    congr 1
    rw [List.filter_cons, if_pos (by simpa using h0), List.filter_nil]
  · intro g hg
    rcases List.mem_append.mp hg with hg | hg
    · exact h.ne g hg
    · simp at hg; subst hg; simp
  · intro g hg
    rcases List.mem_append.mp hg with hg | hg
    · exact h.inside g hg
    · simp at hg; subst hg; exact List.IsChain.singleton _
  · rw [List.isChain_append]
    refine ⟨h.maximal, List.IsChain.singleton _, ?_⟩
    intro g hg g' hg' i j hi hj
    simp at hg'
    subst hg'
    simp at hj
    subst hj
    exact hn g i hg hi

theorem runsK_last {score : List Nat} {k : Nat} {gs : List (List Nat)} (h : RunsK score k gs) {g : List Nat} {i : Nat} (hg : gs.getLast? = some g)
    (hi : g.getLast? = some i) : i < k ∧ (0 < k → score.getD (k - 1) 0 ≠ 0 → i = k - 1) := by
  have hl : gs.flatten.getLast? = some i := by
    obtain ⟨ps, rfl⟩ := List.getLast?_eq_some_iff.mp hg
    obtain ⟨qs, rfl⟩ := List.getLast?_eq_some_iff.mp hi
    simp
  rw [h.all] at hl
  have hm := List.mem_of_getLast? hl
  refine ⟨by simpa using (List.mem_filter.mp hm).1, fun hk hp => ?_⟩
  obtain ⟨k, rfl⟩ : ∃ n, k = n + 1 := ⟨k - 1, by omega⟩
  rw [List.range_succ, List.filter_append, List.filter_cons, if_pos (by simpa using hp)] at hl
  simpa using hl.symm

theorem runsK_none {score : List Nat} {k : Nat} (h : RunsK score k []) : ∀ i, i < k → score.getD i 0 = 0 := by
  intro i hi
  have := h.all
  simp only [List.flatten_nil] at this
  have h2 := List.filter_eq_nil_iff.mp this.symm i (List.mem_range.mpr hi)
  simpa using h2

theorem runsK_ext {score : List Nat} {k : Nat} {gs : List (List Nat)} {g : List Nat} (h : RunsK score k (gs ++ [g])) (hk : 0 < k)
    (h0 : score.getD k 0 ≠ 0) (hle : score.getD k 0 ≤ score.getD (k - 1) 0) : RunsK score (k + 1) (gs ++ [g ++ [k]]) := by
  have hg := h.ne g (by simp)
  have hlast := g.getLast?_eq_some_getLast hg
  have hl := (runsK_last h (g := g) (i := g.getLast hg) (by simp) hlast).2 hk (by omega)
  refine ⟨?_, ?_, ?_, ?_⟩
  · have := h.all
    rw [List.range_succ, List.filter_append, ← this]
    rw [List.filter_cons, if_pos (by simpa using h0), List.filter_nil]
    simp
  · intro g' hg'
    rcases List.mem_append.mp hg' with hg' | hg'
    · exact h.ne g' (by simp [hg'])
    · simp at hg'; subst hg'; simp
  · intro g' hg'
    rcases List.mem_append.mp hg' with hg' | hg'
    · exact h.inside g' (by simp [hg'])
    · simp at hg'; subst hg'
      rw [List.isChain_append]
      refine ⟨h.inside g (by simp), List.IsChain.singleton _, ?_⟩
      intro i hi j hj
      rw [hlast] at hi
      simp at hi hj
      subst hj
      refine ⟨by omega, ?_⟩
      rw [show i = k - 1 by omega]; exact hle
  · have hm := h.maximal
    rw [List.isChain_append] at hm ⊢
    refine ⟨hm.1, List.IsChain.singleton _, ?_⟩
    intro g1 h1 g2 h2 i j hi hj
    simp at h2
    subst h2
    refine hm.2.2 g1 h1 g (by simp) i j hi ?_
    cases g with
    | nil => exact absurd rfl hg
    | cons a g => simpa using hj

/-- The groups if the loop of `doPartition` ended now. -/
def PartSt.done (s : PartSt α) : List (List α) := if 0 < s.accum.length then s.result ++ [s.accum] else s.result

/-- The number of groups when the score rolls over. -/
def rollDim (sc : List Nat) (s0 : PartSt α) : Nat := if sc.getD 0 0 ≠ 0 then s0.done.length else s0.result.length

theorem uintAt_map {sc : List Nat} {i : Nat} {msg : String} (h : i < sc.length) :
    uintAt (sc.map fun n : Nat => some (n : Int)) i msg = .ok (sc.getD i 0) := by
  unfold uintAt
  rw [List.getElem?_map, List.getElem?_eq_getElem h]
  simp [List.getD_eq_getElem?_getD, h]

/-- Within a row that starts at `off`: either no position of it has been used, or its last run is being collected. -/
structure RowInv (v : List α) (sc : List Nat) (off : Nat) (s0 : PartSt α) (k : Nat) (gs : List (List Nat)) (s : PartSt α) : Prop where
  runs : RunsK sc k gs
  prev : 0 < k → s.prev = sc.getD (k - 1) 0
  empty : gs = [] → s.accum = s0.accum ∧ s.result = s0.result
  last : ∀ g, gs.getLast? = some g → s.accum = pick (v.drop off) g ∧ s.result = s0.done ++ gs.dropLast.map (pick (v.drop off))
  dim : s.dim = if 0 < k ∧ s0.dim < 0 ∧ 0 < off then (rollDim sc s0 : Int) else s0.dim

theorem pick_snoc {w : List α} {g : List Nat} {k : Nat} (h : k < w.length) : pick w (g ++ [k]) = pick w g ++ [w[k]] := by
  simp [pick, List.filterMap_append, h]

theorem pick_length {w : List α} : ∀ {g : List Nat}, (∀ i ∈ g, i < w.length) → (pick w g).length = g.length
  | [], _ => rfl
  | i :: g, h => by
    have := pick_length (w := w) (g := g) (fun j hj => h j (by simp [hj]))
    have hi := h i (by simp)
    simp only [pick] at this
    simp [pick, List.filterMap_cons, hi, this]

theorem runsK_mem {score : List Nat} {k : Nat} {gs : List (List Nat)} (h : RunsK score k gs) {g : List Nat} (hg : g ∈ gs) : ∀ i ∈ g, i < k := by
  intro i hi
  have : i ∈ gs.flatten := List.mem_flatten.mpr ⟨g, hg, hi⟩
  rw [h.all] at this
  simpa using (List.mem_filter.mp this).1

/-- One turn of the loop. -/
theorem partStep_inv {v : List α} {sc : List Nat} {r k : Nat} {s0 s : PartSt α} {gs : List (List Nat)}
    (hk : k < sc.length) (hv : r * sc.length + sc.length ≤ v.length) (hr : r = 0 → s0.accum = [])
    (h : RowInv v sc (r * sc.length) s0 k gs s) :
    ∃ gs' s', partStep v (sc.map fun n : Nat => some (n : Int)) (r * sc.length + k) s = .ok s' ∧ RowInv v sc (r * sc.length) s0 (k + 1) gs' s' := by
  have hmod : (r * sc.length + k) % sc.length = k := by
    rw [Nat.mul_comm, Nat.mul_add_mod, Nat.mod_eq_of_lt hk]
  have hin : r * sc.length + k < v.length := by omega
  have hin' : k < (v.drop (r * sc.length)).length := by rw [List.length_drop]; omega
  have hwk : (v.drop (r * sc.length))[k] = v[r * sc.length + k] := by simp
  have hoff : 0 < r * sc.length ↔ 0 < r := by
    constructor
    · intro h; exact Nat.pos_of_mul_pos_right h
    · intro h; exact Nat.mul_pos h (by omega)
  -- the dimension
  have hdim : ∀ acc res, (k = 0 → (res : List (List α)).length = rollDim sc s0) →
      (PartSt.mk (α := α) acc res (if s.dim < 0 ∧ 0 < r * sc.length + k ∧ k = 0 then res.length else s.dim) (sc.getD k 0)).dim =
      if 0 < k + 1 ∧ s0.dim < 0 ∧ 0 < r * sc.length then (rollDim sc s0 : Int) else s0.dim := by
    intro acc res hres
    show (if s.dim < 0 ∧ 0 < r * sc.length + k ∧ k = 0 then (res.length : Int) else s.dim) = _
    rcases Nat.eq_zero_or_pos k with hk0 | hk0
    · subst hk0
      have hd := h.dim
      rw [if_neg (by omega)] at hd
      rw [hd, hres rfl]
      by_cases hc : s0.dim < 0 ∧ 0 < r * sc.length
      · rw [if_pos ⟨hc.1, by omega, rfl⟩, if_pos ⟨by omega, hc⟩]
      · rw [if_neg (by omega), if_neg (by omega)]
    · rw [if_neg (by omega), h.dim]
      by_cases hc : s0.dim < 0 ∧ 0 < r * sc.length
      · rw [if_pos ⟨hk0, hc⟩, if_pos ⟨by omega, hc⟩]
      · rw [if_neg (by omega), if_neg (by omega)]
  simp only [partStep, List.length_map, hmod, uintAt_map hk, bind_ok]
  by_cases h0 : sc.getD k 0 = 0
  · rw [if_neg (by simpa using h0), bind_ok]
    refine ⟨gs, _, rfl, runsK_skip h.runs h0, fun _ => rfl, h.empty, h.last, hdim _ _ ?_⟩
    intro hk0
    subst hk0
    have : gs = [] := by
      rcases gs with _ | ⟨g, gs⟩
      · rfl
      · have := h.runs.all
        have hne := h.runs.ne g (by simp)
        simp at this
        exact absurd this.1 hne
    rw [(h.empty this).2, rollDim, if_neg (by rw [h0]; simp)]
  · rw [if_pos h0, vAt_eq.mpr (List.getElem?_eq_getElem hin), bind_ok]
    have hpk : pick (v.drop (r * sc.length)) [k] = [v[r * sc.length + k]] := by
      have := pick_snoc (g := []) hin'
      rw [List.nil_append] at this
      rw [this, hwk]; rfl
    by_cases hgs : gs = []
    · -- the first run of the row
      obtain ⟨ha, hre⟩ := h.empty hgs
      subst hgs
      refine ⟨[[k]], ?_⟩
      have key : ∃ ar, (if 0 < r * sc.length + k ∧ (s.prev < sc.getD k 0 ∨ k = 0) ∧ 0 < s.accum.length then R.ok ([v[r * sc.length + k]], s.result ++ [s.accum])
          else R.ok (s.accum ++ [v[r * sc.length + k]], s.result)) = R.ok ar ∧ ar.1 = [v[r * sc.length + k]] ∧ ar.2 = s0.done := by
        rw [ha, hre]
        by_cases hac : 0 < s0.accum.length
        · have hr0 : 0 < r := by
            rcases Nat.eq_zero_or_pos r with h | h
            · rw [hr h] at hac; simp at hac
            · exact h
          have hq : s.prev < sc.getD k 0 ∨ k = 0 := by
            rcases Nat.eq_zero_or_pos k with hk0 | hk0
            · exact .inr hk0
            · refine .inl ?_
              rw [h.prev hk0, runsK_none h.runs (k - 1) (by omega)]; omega
          rw [if_pos ⟨Nat.lt_of_lt_of_le (hoff.mpr hr0) (Nat.le_add_right _ _), hq, hac⟩]
          exact ⟨_, rfl, rfl, by rw [PartSt.done, if_pos hac]⟩
        · rw [if_neg (by omega)]
          have hnil : s0.accum = [] := List.length_eq_zero_iff.mp (by omega)
          exact ⟨_, rfl, by rw [hnil]; rfl, by rw [PartSt.done, if_neg hac]⟩
      obtain ⟨ar, e1, e2, e3⟩ := key
      rw [e1, bind_ok]
      refine ⟨_, rfl, ?_, fun _ => rfl, by simp, ?_, hdim _ _ ?_⟩
      · exact runsK_new (gs := []) h.runs h0 (by simp)
      · intro g hg
        simp at hg
        subst hg
        exact ⟨by rw [hpk]; exact e2, by simpa using e3⟩
      · intro hk0
        subst hk0
        rw [rollDim, if_pos h0, e3]
    · have hk0 : 0 < k := by
        rcases Nat.eq_zero_or_pos k with hk0 | hk0
        · subst hk0
          rcases gs with _ | ⟨g, gs⟩
          · exact absurd rfl hgs
          · have := h.runs.all
            have hne := h.runs.ne g (by simp)
            simp at this
            exact absurd this.1 hne
        · exact hk0
      obtain ⟨ps, g, rfl⟩ : ∃ ps g, gs = ps ++ [g] := ⟨gs.dropLast, gs.getLast hgs, (List.dropLast_append_getLast hgs).symm⟩
      obtain ⟨ha, hre⟩ := h.last g (by simp)
      rw [List.dropLast_concat] at hre
      have hgne := h.runs.ne g (by simp)
      have hlen : 0 < s.accum.length := by
        rw [ha, pick_length (fun i hi => by have := runsK_mem h.runs (g := g) (by simp) i hi; omega)]
        exact List.length_pos_iff.mpr hgne
      by_cases hp : s.prev < sc.getD k 0
      · rw [if_pos ⟨by omega, .inl hp, hlen⟩, bind_ok]
        refine ⟨(ps ++ [g]) ++ [[k]], _, rfl, ?_, fun _ => rfl, by simp, ?_, hdim _ _ (by omega)⟩
        · refine runsK_new h.runs h0 ?_
          intro g' i hg' hi hf
          have hl := (runsK_last h.runs hg' hi)
          have : i = k - 1 := by have := hf.1; omega
          have h2 := hf.2
          rw [this, ← h.prev hk0] at h2
          omega
        · intro g' hg'
          simp at hg'
          subst hg'
          refine ⟨hpk.symm, ?_⟩
          show s.result ++ [s.accum] = _
          rw [List.dropLast_concat, hre, ha, List.map_append, List.append_assoc]
          rfl
      · rw [if_neg (by omega), bind_ok]
        refine ⟨ps ++ [g ++ [k]], _, rfl, ?_, fun _ => rfl, by simp, ?_, hdim _ _ (by omega)⟩
        · exact runsK_ext h.runs hk0 h0 (by rw [← h.prev hk0]; omega)
        · intro g' hg'
          simp at hg'
          subst hg'
          refine ⟨?_, ?_⟩
          · show s.accum ++ [v[r * sc.length + k]] = _
            rw [pick_snoc hin', ha, hwk]
          · show s.result = _
            rw [List.dropLast_concat, hre]

/-- A part of a row. -/
theorem partRow_inv {v : List α} {sc : List Nat} {r : Nat} {s0 : PartSt α} (hv : r * sc.length + sc.length ≤ v.length) (hr : r = 0 → s0.accum = []) :
    ∀ (m k : Nat) (gs : List (List Nat)) (s : PartSt α), k + m = sc.length → RowInv v sc (r * sc.length) s0 k gs s →
    ∃ gs' s', loop (partStep v (sc.map fun n : Nat => some (n : Int))) (List.range' (r * sc.length + k) m) s = .ok s' ∧
      RowInv v sc (r * sc.length) s0 sc.length gs' s'
  | 0, k, gs, s, hk, h => ⟨gs, s, rfl, by
    have e : k = sc.length := hk
    subst e; exact h⟩
  | m + 1, k, gs, s, hk, h => by
    obtain ⟨gs1, s1, e1, h1⟩ := partStep_inv (by omega) hv hr h
    obtain ⟨gs2, s2, e2, h2⟩ := partRow_inv hv hr m (k + 1) gs1 s1 (by omega) h1
    refine ⟨gs2, s2, ?_, h2⟩
    rw [List.range'_succ, loop, e1, bind_ok]
    exact e2

/-- A row. -/
theorem partRow {v : List α} {sc : List Nat} {r : Nat} {s0 : PartSt α} (hv : r * sc.length + sc.length ≤ v.length) (hr : r = 0 → s0.accum = [])
    (hsc : 0 < sc.length) {gs : List (List Nat)} (hgs : Runs sc gs) :
    ∃ s', loop (partStep v (sc.map fun n : Nat => some (n : Int))) (List.range' (r * sc.length) sc.length) s0 = .ok s' ∧
      s'.done = s0.done ++ gs.map (pick (v.drop (r * sc.length))) ∧
      (gs = [] → s'.accum = s0.accum ∧ s'.result = s0.result) ∧
      s'.dim = if s0.dim < 0 ∧ 0 < r then (rollDim sc s0 : Int) else s0.dim := by
  obtain ⟨gs', s', e, h⟩ := partRow_inv (s0 := s0) hv hr sc.length 0 [] s0 (by omega)
    ⟨runsK_zero sc, by simp, fun _ => ⟨rfl, rfl⟩, by simp, by rw [if_neg (by omega)]⟩
  have := runs_unique (runsK_iff.mp h.runs) hgs
  subst this
  refine ⟨s', e, ?_, h.empty, ?_⟩
  · by_cases hg : gs' = []
    · obtain ⟨h1, h2⟩ := h.empty hg
      subst hg
      simp [PartSt.done, h1, h2]
    · obtain ⟨ps, g, rfl⟩ : ∃ ps g, gs' = ps ++ [g] := ⟨gs'.dropLast, gs'.getLast hg, (List.dropLast_append_getLast hg).symm⟩
      obtain ⟨ha, hre⟩ := h.last g (by simp)
      have hgne := h.runs.ne g (by simp)
      have hlen : 0 < s'.accum.length := by
        rw [ha, pick_length (fun i hi => by have := runsK_mem h.runs (g := g) (by simp) i hi; rw [List.length_drop]; omega)]
        exact List.length_pos_iff.mpr hgne
      rw [List.dropLast_concat] at hre
      rw [PartSt.done, if_pos hlen, hre, ha]
      simp
  · rw [h.dim]
    have hoff : 0 < r * sc.length ↔ 0 < r := by
      constructor
      · intro h; exact Nat.pos_of_mul_pos_right h
      · intro h; exact Nat.mul_pos h (by omega)
    by_cases hc : s0.dim < 0 ∧ 0 < r
    · rw [if_pos ⟨hsc, hc.1, hoff.mpr hc.2⟩, if_pos hc]
    · rw [if_neg (by rw [hoff]; omega), if_neg hc]

theorem exists_runs (sc : List Nat) : ∃ gs, Runs sc gs := by
  rcases Nat.eq_zero_or_pos sc.length with h | h
  · rw [List.length_eq_zero_iff] at h
    subst h
    exact ⟨[], runsK_iff.mp (runsK_zero [])⟩
  · obtain ⟨gs', s', e, h⟩ := partRow_inv (v := sc) (sc := sc) (r := 0) (s0 := ⟨[], [], -1, 0⟩) (by omega) (by simp) sc.length 0 [] ⟨[], [], -1, 0⟩ (by omega)
      ⟨runsK_zero sc, by simp, fun _ => ⟨rfl, rfl⟩, by simp, by rw [if_neg (by omega)]⟩
    exact ⟨gs', runsK_iff.mp h.runs⟩

end Verif.Arr
