import Verif.Arr.SelLemmas3
import Verif.Arr.IndexProps

/-!
# C32: `sel`, `fill` and `part`
-/

namespace Verif.Arr
open Verif.Order (Val)
variable {α : Type} [Wide α]

/-- C32, `sel` of a vector: element `i` is repeated `n[i]` times, or replaced `-n[i]` times when `n[i]` is negative; a single count
is used for all the elements. -/
theorem C32_sel (z : α → α) {u : V Small} {cs : List Int} {v : List α} (hu : u = .vec (cs.map some) ∨ ∃ n, cs = [n] ∧ u = .elem (some n))
    (hl : cs.length = 1 ∨ cs.length = v.length) : sel z u (.vec v) = .ok (.vec (repeats z (spread v.length cs) v)) := by
  have hv : u.toVec = .ok (cs.map some) := by
    rcases hu with rfl | ⟨n, rfl, rfl⟩ <;> rfl
  unfold sel
  rw [if_neg (by rw [(counts_toMat hu).2]; simp [V.isMat]), hv, bind_ok]
  simp only [V.toVec, bind_ok]
  rw [selVec_eq z hl, bind_ok]

example : sel (fun _ => (0 : Int)) (.vec [some 2, some 0, some (-1), some 1]) (.vec [5, 6, 7, 8]) = .ok (.vec [5, 5, 0, 8]) := by decide
example : sel (fun _ => (0 : Int)) (.elem (some 2)) (.vec [5, 6]) = .ok (.vec [5, 5, 6, 6]) := by decide

/-- C32, `sel` of a matrix: the same with every row. The counts must not make the matrix too large, and there must be a row. -/
theorem C32_sel_matrix (z : α → α) {u : V Small} {cs : List Int} {m : Mat α} (hm : (V.mat m).Ok) {s : List Nat} {d : Nat} (hs : m.shape = s ++ [d])
    (hu : u = .vec (cs.map some) ∨ ∃ n, cs = [n] ∧ u = .elem (some n)) (hl : cs.length = 1 ∨ cs.length = d) (hv : 0 < vol s)
    (hf : Fits (s ++ [((spread d cs).map Int.natAbs).sum])) :
    ∃ r, sel z u (.mat m) = .ok (.mat r) ∧ r.Ok ∧ r.shape = s ++ [((spread d cs).map Int.natAbs).sum] ∧
      ∀ c, InB s c → (V.mat r).lastLine (((spread d cs).map Int.natAbs).sum) c = repeats z (spread d cs) ((V.mat m).lastLine d c) := by
  obtain ⟨r, h1, h2⟩ := selMat_eq z hm hs hv hl hf
  refine ⟨r, ?_, h2⟩
  unfold sel
  rw [if_pos (by simp [V.isMat]), (counts_toMat hu).1, bind_ok]
  simp only [V.toMat, bind_ok]
  rw [h1, bind_ok]

example : sel (fun _ => (0 : Int)) (.vec [some 2, some 0, some (-1)]) (.mat ⟨[2, 3], [1, 2, 3, 4, 5, 6]⟩) =
    .ok (.mat ⟨[2, 3], [1, 1, 0, 4, 4, 0]⟩) := by decide
example : (V.mat (⟨[2, 3], [1, 2, 3, 4, 5, 6]⟩ : Mat Int)).Ok ∧ Fits ([2] ++ [((spread 3 [2, 0, -1]).map Int.natAbs).sum]) := by decide

/-- C32, `sel` with another number of counts: an error. -/
theorem C32_sel_refused (z : α → α) {cs : List Small} {v : List α} (h1 : cs.length ≠ 1) (h2 : cs.length ≠ v.length) :
    ∃ e, sel z (.vec cs) (.vec v) = .err e := by
  unfold sel
  rw [if_neg (by simp [V.isMat])]
  simp only [V.toVec, bind_ok, selVec]
  rw [if_pos ⟨h1, h2⟩]
  exact ⟨_, rfl⟩

example : [some (1 : Int), some 2].length ≠ 1 ∧ [some (1 : Int), some 2].length ≠ [5, 6, 7].length := by decide

/-- C32 does not hold for matrices without rows: `sel` divides by the number of rows. -/
theorem C32_sel_no_rows_violated : (V.mat (⟨[0, 3], []⟩ : Mat Int)).Ok ∧ sel (fun _ => (0 : Int)) (.elem (some 1)) (.mat ⟨[0, 3], []⟩) = .crash := by
  decide

/-- C32, what replaces an element: a value of the same structure, blanks for its characters and zeros for its numbers. -/
theorem C32_zeros (v : Val) : bones (allZeros v) = bones v ∧ scalars (allZeros v) = (scalars v).map zeroOf :=
  ⟨allZeros_bones v, allZeros_scalars v⟩

example : allZeros (.vec [.num (.int 3), .vec [.num (.char 65), .cplx (.int 1) (.int 2)]]) =
    .vec [.num (.int 0), .vec [.num (.char 32), .num (.int 0)]] := by rfl

/-- C32, `fill`: the elements are repeated as often as the positive counts say; a count of zero is a fill value, a negative one as many
fill values; blanks if all elements are characters. -/
theorem C32_fill (isChar : α → Bool) (blank zero : α) {cs : List Int} {v : List α} (hn : cs.countP (fun n => decide (0 < n)) = v.length)
    (hs : (cs.map fun n => max 1 n.natAbs).sum ≤ 100000000) :
    fill isChar blank zero (.vec (cs.map some)) (.vec v) = .ok (.vec (expand (if v.all isChar then blank else zero) cs v)) := by
  unfold fill
  rw [if_neg (by simp [V.isMat])]
  simp only [V.toVec, bind_ok]
  rw [fillVec_eq isChar blank zero hn hs, bind_ok]

example : fill (fun _ => false) (32 : Int) 0 (.vec [some 2, some 0, some (-2), some 1]) (.vec [5, 6]) = .ok (.vec [5, 5, 0, 0, 0, 6]) := by decide

/-- C32, `fill` otherwise: an error, if the counts are not small integers, if not as many are positive as there are elements, or if the
result is too large. No counts give an empty vector. -/
theorem C32_fill_refused (isChar : α → Bool) (blank zero : α) {us : List Small} {v : List α} (hne : us ≠ [])
    (h : none ∈ us ∨ ∃ cs : List Int, us = cs.map some ∧
      (cs.countP (fun n => decide (0 < n)) ≠ v.length ∨ 100000000 < (cs.map fun n => max 1 n.natAbs).sum)) :
    ∃ e, fill isChar blank zero (.vec us) (.vec v) = .err e := by
  unfold fill
  rw [if_neg (by simp [V.isMat])]
  simp only [V.toVec, bind_ok, fillVec]
  rw [if_neg (by simpa using hne)]
  rcases h with h | ⟨cs, rfl, h⟩
  · obtain ⟨e, he⟩ := fillCount_bad us (0, 0) h
    rw [he]; exact ⟨e, rfl⟩
  · rw [fillCount_eq, bind_ok]
    by_cases h1 : cs.countP (fun n => decide (0 < n)) = v.length
    · rw [if_neg (by simpa using h1), if_pos (by simpa using h.resolve_left (fun hh => hh h1))]
      exact ⟨_, rfl⟩
    · rw [if_pos (by simpa using h1)]
      exact ⟨_, rfl⟩

example : none ∈ [some (1 : Int), none] ∧ ([1, 0, 2] : List Int).countP (fun n => decide (0 < n)) ≠ [5, 6, 7].length := by decide

/-- C32, `fill` is the counterpart of `sel`: with the same zeros and ones, `fill` after `sel` keeps the elements selected where they
were, and fills the other places. -/
theorem C32_fill_sel (z : α → α) (isChar : α → Bool) (blank zero : α) {cs : List Int} {v : List α} (h01 : ∀ n ∈ cs, n = 0 ∨ n = 1)
    (hl : cs.length = v.length) (hb : v.length ≤ 100000000) :
    ∃ r, sel z (.vec (cs.map some)) (.vec v) = .ok (.vec r) ∧
      fill isChar blank zero (.vec (cs.map some)) (.vec r) = .ok (.vec (masked (if r.all isChar then blank else zero) cs v)) := by
  refine ⟨_, C32_sel z (.inl rfl) (.inr hl), ?_⟩
  rw [spread_self hl, C32_fill isChar blank zero (countP_repeats z cs v h01 hl), expand_repeats z _ cs v h01 hl]
  have : (cs.map fun n => max 1 n.natAbs) = List.replicate cs.length 1 := by
    rw [← List.map_const']
    apply List.map_congr_left
    intro n hn
    rcases h01 n hn with rfl | rfl <;> rfl
  rw [this]
  simp
  omega

example : (sel (fun _ => (0 : Int)) (.vec [some 1, some 0, some 1]) (.vec [5, 6, 7])).bind (fill (fun _ => false) 32 0 (.vec [some 1, some 0, some 1])) =
    .ok (.vec [5, 0, 7]) := by decide

/-- C32, and `sel` after `fill` gives the elements back. -/
theorem C32_sel_fill (z : α → α) (isChar : α → Bool) (blank zero : α) {cs : List Int} {v : List α} (h01 : ∀ n ∈ cs, n = 0 ∨ n = 1)
    (hn : cs.countP (fun n => decide (0 < n)) = v.length) (hb : cs.length ≤ 100000000) :
    ∃ r, fill isChar blank zero (.vec (cs.map some)) (.vec v) = .ok (.vec r) ∧ sel z (.vec (cs.map some)) (.vec r) = .ok (.vec v) := by
  have : (cs.map fun n => max 1 n.natAbs) = List.replicate cs.length 1 := by
    rw [← List.map_const']
    apply List.map_congr_left
    intro n hn
    rcases h01 n hn with rfl | rfl <;> rfl
  have key := fun zz => repeats_expand z zz cs v h01 hn
  refine ⟨_, C32_fill isChar blank zero hn (by rw [this]; simp; omega), ?_⟩
  rw [C32_sel z (.inl rfl) (.inr (key _).1.symm), spread_self (key _).1.symm, (key _).2]

example : (∀ n ∈ ([1, 0, 1] : List Int), n = 0 ∨ n = 1) ∧ ([1, 0, 1] : List Int).countP (fun n => decide (0 < n)) = [5, 6].length := by decide

/-- C32, `part` of a vector: the elements of the maximal runs of positive, non-increasing score, a vector for each run. -/
theorem C32_part {sc : List Nat} {v : List α} (hl : sc.length = v.length) :
    ∃ gs, Runs sc gs ∧ part (.vec (sc.map fun n : Nat => some (n : Int))) (.vec v) = .ok ([(gs.length : Int)], gs.map (pick v)) := by
  obtain ⟨gs, hgs⟩ := exists_runs sc
  refine ⟨gs, hgs, ?_⟩
  unfold part
  rw [if_neg (by simp [V.isMat])]
  simp only [V.toVec, bind_ok]
  rw [partVec_eq hl hgs, bind_ok]
  simp

/-- C32, the runs are determined by the scores. -/
theorem C32_part_runs_unique {sc : List Nat} {gs hs : List (List Nat)} (h : Runs sc gs) (h' : Runs sc hs) : gs = hs := runs_unique h h'

example : part (.vec [some 3, some 1, some 2, some 0, some 2, some 2]) (.vec [10, 11, 12, 13, 14, 15]) =
    .ok ([3], [[10, 11], [12], [14, 15]]) := by decide

/-- C32, `part` of a vector with another number of scores: an error. -/
theorem C32_part_refused {sc : List Small} {v : List α} (hl : sc.length ≠ v.length) : ∃ e, part (.vec sc) (.vec v) = .err e := by
  unfold part
  rw [if_neg (by simp [V.isMat])]
  simp only [V.toVec, bind_ok, partVec]
  rw [if_pos hl]
  exact ⟨_, rfl⟩

example : [some (1 : Int)].length ≠ [5, 6].length := by decide

/-- C32, `part` of a matrix: the same with every row, provided there are at least two rows, and the first score is positive or all
are zero. Missing: matrices of one row, of which the number of runs is never found out, and scores that start with zero. -/
theorem C32_part_matrix_partial {u : V Small} {cs : List Nat} {m : Mat α} (hm : (V.mat m).Ok) {s : List Nat} {d : Nat} (hs : m.shape = s ++ [d])
    (hu : u = .vec (cs.map fun n : Nat => some (n : Int)) ∨ ∃ n : Nat, cs = [n] ∧ u = .elem (some (n : Int))) (hl : cs.length = 1 ∨ cs.length = d)
    (hd : 0 < d) (hv : 2 ≤ vol s) (h0 : (spread d cs).getD 0 0 ≠ 0 ∨ ∀ n ∈ cs, n = 0) :
    ∃ (gs : List (List Nat)) (r : Mat (List α)), Runs (spread d cs) gs ∧
      part u (.mat m) = .ok (r.shape.map (fun d : Nat => (d : Int)), r.data) ∧ r.Ok ∧ r.shape = s ++ [gs.length] ∧
      ∀ c, InB s c → (V.mat r).lastLine gs.length c = gs.map (pick ((V.mat m).lastLine d c)) := by
  obtain ⟨gs, hgs⟩ := exists_runs (spread d cs)
  have h0' : (spread d cs).getD 0 0 ≠ 0 ∨ gs = [] := by
    refine h0.imp id fun hz => ?_
    have : ∀ i, (spread d cs).getD i 0 = 0 := by
      intro i
      rw [List.getD_eq_getElem?_getD]
      cases hx : (spread d cs)[i]? with
      | none => rfl
      | some x =>
        exact hz x (List.mem_of_getElem? (spread_get hl hx).2)
    have hall := hgs.all
    rw [List.filter_eq_nil_iff.mpr (by intro i _; rw [this i]; simp)] at hall
    match gs, hgs.ne with
    | [], _ => rfl
    | g :: gs, hne =>
      simp at hall
      exact absurd hall.1 (hne g (by simp))
  obtain ⟨r, h1, h2⟩ := partMat_eq hm hs hv hd hl hgs h0'
  refine ⟨gs, r, hgs, ?_, h2⟩
  have ht : u.toMat = .ok ⟨[cs.length], cs.map fun n : Nat => some (n : Int)⟩ := by
    have := (counts_toMat (u := u) (cs := cs.map fun n : Nat => (n : Int)) (by
      rcases hu with rfl | ⟨n, rfl, rfl⟩
      · left; simp
      · right; exact ⟨n, by simp, rfl⟩)).1
    rw [List.map_map, List.length_map] at this
    exact this
  unfold part
  rw [if_pos (by simp [V.isMat]), ht, bind_ok]
  simp only [V.toMat, bind_ok]
  exact h1

example : part (.vec [some 1, some 1, some 2]) (.mat ⟨[2, 3], [1, 2, 3, 4, 5, 6]⟩) = .ok ([2, 2], [[1, 2], [3], [4, 5], [6]]) := by decide

/-- C32 does not hold for `part` of a matrix with one row, or with a score that starts with zero; both are refused. Without rows, the
result has a negative dimension. -/
theorem C32_part_matrix_violated :
    ((V.mat (⟨[1, 2], [7, 8]⟩ : Mat Int)).Ok ∧ Runs [1, 1] [[0, 1]] ∧
      part (.vec [some 1, some 1]) (.mat ⟨[1, 2], [7, 8]⟩) = .err "inconsistent shape and data size") ∧
    ((V.mat (⟨[2, 2], [5, 6, 7, 8]⟩ : Mat Int)).Ok ∧ Runs [0, 1] [[1]] ∧
      part (.vec [some 0, some 1]) (.mat ⟨[2, 2], [5, 6, 7, 8]⟩) = .err "inconsistent shape and data size") ∧
    ((V.mat (⟨[0, 2], []⟩ : Mat Int)).Ok ∧ part (.vec [some 1, some 1]) (.mat (⟨[0, 2], []⟩ : Mat Int)) = .ok ([0, -1], [])) := by
  refine ⟨⟨by decide, ⟨by decide, by decide, ?_, List.IsChain.singleton _⟩, by decide⟩, ⟨by decide, ⟨by decide, by decide, ?_, List.IsChain.singleton _⟩, by decide⟩,
    ⟨by decide, by decide⟩⟩
  · intro g hg; simp at hg; subst hg; exact List.IsChain.cons_cons (by decide) (List.IsChain.singleton _)
  · intro g hg; simp at hg; subst hg; exact List.IsChain.singleton _

end Verif.Arr
