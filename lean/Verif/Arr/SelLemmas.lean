import Verif.Arr.SelSpec
import Verif.Arr.EvalLemmas5
import Verif.Arr.RadixLemmas3
import Mathlib.Data.List.SplitBy

/-!
# Helper lemmas on `sel`, `fill` and `part` of vectors
-/

namespace Verif.Arr
open Verif.Order (Val)
variable {α : Type}

theorem intAt_map {cs : List Int} {i : Nat} {c : Int} {msg : String} (h : cs[i]? = some c) : intAt (cs.map some) i msg = .ok c := by
  unfold intAt; rw [List.getElem?_map, h]; rfl

/-- The loop of `sel`, from position `k` on. -/
theorem selLoop_eq (z : α → α) (v : List α) (n : List Small) (cs : List Int) (hl : cs.length = v.length)
    (hc : ∀ (i : Nat) (c : Int), cs[i]? = some c → intAt n (i % n.length) "sel count" = .ok c) :
    ∀ (m k : Nat) (r : List α), k + m = v.length →
      loop (selStep z v n) (List.range' k m) r = .ok (r ++ repeats z (cs.drop k) (v.drop k))
  | 0, k, r, h => by
    rw [List.drop_eq_nil_of_le (by omega), List.drop_eq_nil_of_le (by omega)]
    simp [loop, repeats]
  | m + 1, k, r, h => by
    have hk : k < v.length := by omega
    have hk' : k < cs.length := by omega
    rw [List.range'_succ, loop, selStep, hc k cs[k] (List.getElem?_eq_getElem hk'), bind_ok, vAt_eq.mpr (List.getElem?_eq_getElem hk), bind_ok, bind_ok,
      selLoop_eq z v n cs hl hc m (k + 1) _ (by omega), List.drop_eq_getElem_cons hk, List.drop_eq_getElem_cons hk', repeats]
    by_cases h0 : cs[k] < 0
    · rw [if_pos h0, if_pos h0, List.append_assoc, show (-cs[k]).toNat = cs[k].natAbs by omega]
    · rw [if_neg h0, if_neg h0, List.append_assoc, show cs[k].toNat = cs[k].natAbs by omega]

theorem spread_get {β : Type} {n : Nat} {l : List β} (h : l.length = 1 ∨ l.length = n) {i : Nat} {x : β} (hx : (spread n l)[i]? = some x) :
    i < n ∧ l[i % l.length]? = some x := by
  match l, h with
  | [], h =>
    simp [spread] at hx
  | [a], h =>
    simp only [spread, List.getElem?_replicate] at hx
    split at hx
    · next hi => exact ⟨hi, by simpa [Nat.mod_one] using hx⟩
    · cases hx
  | a :: b :: l, h =>
    simp only [spread] at hx
    have hi := (List.getElem?_eq_some_iff.mp hx).1
    have : (a :: b :: l).length = n := h.resolve_left (by simp)
    rw [Nat.mod_eq_of_lt hi]
    exact ⟨by omega, hx⟩

theorem spread_self {β : Type} {n : Nat} {l : List β} (h : l.length = n) : spread n l = l := by
  match l, h with
  | [], _ => rfl
  | [a], h => simp at h; subst h; rfl
  | a :: b :: l, _ => rfl

/-- `sel` of a vector. -/
theorem selVec_eq (z : α → α) {v : List α} {cs : List Int} (h : cs.length = 1 ∨ cs.length = v.length) :
    selVec z v (cs.map some) v.length = .ok (repeats z (spread v.length cs) v) := by
  unfold selVec
  rw [if_neg (by rw [List.length_map]; omega), List.range_eq_range', selLoop_eq z v (cs.map some) (spread v.length cs) (spread_len h.symm) (fun i c hic => by
    rw [List.length_map]; exact intAt_map (spread_get h hic).2) _ 0 [] (by omega)]
  simp

theorem repeats_length (z : α → α) : ∀ (cs : List Int) (v : List α), cs.length = v.length → (repeats z cs v).length = (cs.map Int.natAbs).sum
  | [], [], _ => rfl
  | n :: ns, x :: xs, h => by simp [repeats, repeats_length z ns xs (by simpa using h)]
  | [], _ :: _, h => by simp at h
  | _ :: _, [], h => by simp at h

theorem repeats_append (z : α → α) : ∀ (cs ds : List Int) (u v : List α), cs.length = u.length →
    repeats z (cs ++ ds) (u ++ v) = repeats z cs u ++ repeats z ds v
  | [], _, [], _, _ => by simp [repeats]
  | n :: ns, ds, x :: xs, v, h => by simp [repeats, repeats_append z ns ds xs v (by simpa using h)]
  | [], _, _ :: _, _, h => by simp at h
  | _ :: _, _, [], _, h => by simp at h

/-- Repeating the counts for every row. -/
theorem repeats_rows (z : α → α) (cs : List Int) (v : List α) : ∀ n, v.length = n * cs.length →
    repeats z (List.flatten (List.replicate n cs)) v =
      (List.range n).flatMap fun i => repeats z cs ((v.drop (i * cs.length)).take cs.length)
  | 0, h => by cases cs <;> simp [repeats]
  | n + 1, h => by
    have h' : v.length = n * cs.length + cs.length := by rw [h, Nat.succ_mul]
    have e : v = v.take (n * cs.length) ++ v.drop (n * cs.length) := (List.take_append_drop _ _).symm
    have lt : (v.take (n * cs.length)).length = n * cs.length := by rw [List.length_take]; omega
    have ih := repeats_rows z cs (v.take (n * cs.length)) n lt
    rw [List.replicate_succ', List.flatten_append, List.range_succ, List.flatMap_append]
    conv => lhs; rw [e]
    rw [repeats_append z _ _ _ _ (by rw [lt]; simp), ih]
    congr 1
    · apply List.flatMap_congr
      intro i hi
      have hi := List.mem_range.mp hi
      have : (i + 1) * cs.length ≤ n * cs.length := Nat.mul_le_mul_right _ hi
      rw [Nat.succ_mul] at this
      rw [List.drop_take, List.take_take, Nat.min_eq_left (by omega)]
    · simp only [List.flatten_cons, List.flatten_nil, List.append_nil, List.flatMap_cons, List.flatMap_nil]
      rw [List.take_of_length_le (by rw [List.length_drop]; omega)]

/-- `sel` of the data of a matrix with rows of length `d`. -/
theorem selVec_rows (z : α → α) {v : List α} {cs : List Int} {d n : Nat} (h : cs.length = 1 ∨ cs.length = d) (hv : v.length = n * d) :
    selVec z v (cs.map some) d = .ok ((List.range n).flatMap fun i => repeats z (spread d cs) ((v.drop (i * d)).take d)) := by
  have hs := spread_len h.symm
  have key := repeats_rows z (spread d cs) v n (by rw [hs, hv])
  rw [hs] at key
  unfold selVec
  rw [if_neg (by rw [List.length_map]; omega), List.range_eq_range',
    selLoop_eq z v (cs.map some) (List.flatten (List.replicate n (spread d cs))) (by simp [hs, hv]) (fun i c hic => by
      rw [List.length_map]
      have hi : i < n * d := by
        have := (List.getElem?_eq_some_iff.mp hic).1
        simpa [hs] using this
      have hd : 0 < d := Nat.pos_of_mul_pos_left (Nat.lt_of_le_of_lt (Nat.zero_le _) hi)
      have e := (blocks_flat (h := fun _ => spread d cs) n (fun _ _ => hs)).2 (i / d) ((Nat.div_lt_iff_lt_mul hd).mpr hi)
      have e2 : List.flatten (List.replicate n (spread d cs)) = (List.range n).flatMap fun _ => spread d cs := by
        rw [List.flatMap_def, List.map_const', List.length_range]
      rw [e2] at hic
      have : (spread d cs)[i % d]? = some c := by
        rw [← e, List.getElem?_take, if_pos (Nat.mod_lt _ hd), List.getElem?_drop, Nat.mul_comm, Nat.div_add_mod]; exact hic
      have h3 := (spread_get h this).2
      refine intAt_map ?_
      rcases h with h | h
      · rw [h, Nat.mod_one] at h3 ⊢; exact h3
      · rw [h, Nat.mod_mod] at h3; rw [h]; exact h3) _ 0 [] (by omega)]
  simpa using key

/-- The first loop of `fill`. -/
theorem fillCount_eq : ∀ (cs : List Int) (s : Nat × Nat), fillCount (cs.map some) s =
    .ok (s.1 + (cs.map fun n => max 1 n.natAbs).sum, s.2 + cs.countP fun n => decide (0 < n))
  | [], s => by simp [fillCount]
  | n :: ns, s => by
    simp only [List.map_cons, fillCount, List.sum_cons, List.countP_cons]
    by_cases h0 : n = 0
    · rw [if_pos h0, fillCount_eq ns]
      subst h0
      simp; omega
    · rw [if_neg h0]
      by_cases h1 : n < 0
      · rw [if_pos h1, fillCount_eq ns, if_neg (by simp; omega), show max 1 n.natAbs = (-n).toNat by omega]
        simp; omega
      · rw [if_neg h1, fillCount_eq ns, if_pos (by simp; omega), show max 1 n.natAbs = n.toNat by omega]
        simp; omega

theorem fillCount_bad : ∀ (cs : List Small) (s : Nat × Nat), none ∈ cs → ∃ e, fillCount cs s = .err e
  | none :: r, s, _ => ⟨_, rfl⟩
  | some y :: r, s, h => by
    have hr : none ∈ r := by simpa using h
    simp only [fillCount]
    split
    · exact fillCount_bad r _ hr
    · split
      · exact fillCount_bad r _ hr
      · exact fillCount_bad r _ hr

/-- The second loop of `fill`. -/
theorem fillLoop_eq (zero : α) (j : List α) : ∀ (cs : List Int) (r : List α) (k : Nat),
    k + cs.countP (fun n => decide (0 < n)) = j.length →
    loopOver (fillStep zero j) (cs.map some) (r, k) = .ok (r ++ expand zero cs (j.drop k), j.length)
  | [], r, k, h => by simp at h; simp [loopOver, expand, h]
  | n :: ns, r, k, h => by
    rw [List.countP_cons] at h
    simp only [List.map_cons, loopOver, fillStep, expand]
    by_cases h0 : n = 0
    · subst h0
      rw [if_pos rfl, bind_ok, fillLoop_eq zero j ns _ k (by simpa using h), if_pos (by simp)]
      simp
    · rw [if_neg h0]
      by_cases h1 : n < 0
      · rw [if_pos h1, bind_ok, fillLoop_eq zero j ns _ k (by rw [if_neg (by simp; omega)] at h; omega), if_pos (by omega),
          show max 1 n.natAbs = (-n).toNat by omega, List.append_assoc]
      · rw [if_pos (by simp; omega)] at h
        have hk : k < j.length := by omega
        rw [if_neg h1, vAt_eq.mpr (List.getElem?_eq_getElem hk), bind_ok, bind_ok, fillLoop_eq zero j ns _ (k + 1) (by omega), if_neg (by omega),
          List.drop_eq_getElem_cons hk, show n.natAbs = n.toNat by omega, List.append_assoc]

/-- `fill` of vectors. -/
theorem fillVec_eq (isChar : α → Bool) (blank zero : α) {cs : List Int} {v : List α} (hn : cs.countP (fun n => decide (0 < n)) = v.length)
    (hs : (cs.map fun n => max 1 n.natAbs).sum ≤ 100000000) :
    fillVec isChar blank zero (cs.map some) v = .ok (expand (if v.all isChar then blank else zero) cs v) := by
  unfold fillVec
  by_cases h0 : cs = []
  · subst h0; simp [expand]
  · rw [if_neg (by simpa using h0), fillCount_eq, bind_ok, if_neg (by simpa using hn), if_neg (by simpa using hs),
      fillLoop_eq _ _ _ _ _ (by simpa using hn)]
    simp

/-- A mask of zeros and ones. -/
theorem expand_repeats (z : α → α) (zero : α) : ∀ (cs : List Int) (v : List α), (∀ n ∈ cs, n = 0 ∨ n = 1) → cs.length = v.length →
    expand zero cs (repeats z cs v) = masked zero cs v
  | [], [], _, _ => rfl
  | n :: ns, x :: xs, h, hl => by
    have ih := expand_repeats z zero ns xs (fun m hm => h m (by simp [hm])) (by simpa using hl)
    rcases h n (by simp) with rfl | rfl
    · simpa [expand, repeats, masked] using ih
    · simpa [expand, repeats, masked] using ih
  | [], _ :: _, _, h => by simp at h
  | _ :: _, [], _, h => by simp at h

theorem repeats_expand (z : α → α) (zero : α) : ∀ (cs : List Int) (v : List α), (∀ n ∈ cs, n = 0 ∨ n = 1) →
    cs.countP (fun n => decide (0 < n)) = v.length → (expand zero cs v).length = cs.length ∧ repeats z cs (expand zero cs v) = v
  | [], v, _, h => by simp at h; simp [expand, repeats, List.length_eq_zero_iff.mp h.symm]
  | n :: ns, v, h, hc => by
    rcases h n (by simp) with rfl | rfl
    · have ih := repeats_expand z zero ns v (fun m hm => h m (by simp [hm])) (by simpa using hc)
      constructor
      · simp [expand, ih.1]
      · simpa [expand, repeats] using ih.2
    · match v, hc with
      | [], hc => simp at hc
      | x :: xs, hc =>
        have ih := repeats_expand z zero ns xs (fun m hm => h m (by simp [hm])) (by simpa using hc)
        constructor
        · simp [expand, ih.1]
        · simpa [expand, repeats] using ih.2

theorem expand_pos (z : α → α) (zero : α) : ∀ (cs : List Int) (v : List α), (∀ n ∈ cs, 0 < n) → cs.length = v.length →
    expand zero cs v = repeats z cs v
  | [], [], _, _ => rfl
  | n :: ns, x :: xs, h, hl => by
    have ih := expand_pos z zero ns xs (fun m hm => h m (by simp [hm])) (by simpa using hl)
    have := h n (by simp)
    simp [expand, repeats, ih, show ¬ n ≤ 0 by omega, show ¬ n < 0 by omega]
  | [], _ :: _, _, h => by simp at h
  | _ :: _, [], _, h => by simp at h

theorem countP_repeats (z : α → α) : ∀ (cs : List Int) (v : List α), (∀ n ∈ cs, n = 0 ∨ n = 1) → cs.length = v.length →
    cs.countP (fun n => decide (0 < n)) = (repeats z cs v).length
  | [], [], _, _ => rfl
  | n :: ns, x :: xs, h, hl => by
    have ih := countP_repeats z ns xs (fun m hm => h m (by simp [hm])) (by simpa using hl)
    rcases h n (by simp) with rfl | rfl
    · simp [repeats, ih]
    · simp [repeats, ih]
  | [], _ :: _, _, h => by simp at h
  | _ :: _, [], _, h => by simp at h

mutual
theorem allZeros_scalars : ∀ v : Val, scalars (allZeros v) = (scalars v).map zeroOf
  | .num (.char _) => rfl
  | .num (.int _) => rfl
  | .num (.bigInt _) => rfl
  | .num (.bigRat _) => rfl
  | .cplx _ _ => rfl
  | .vec l => by simp only [allZeros, scalars]; exact allZerosList_scalars l
  | .mat _ l => by simp only [allZeros, scalars]; exact allZerosList_scalars l
theorem allZerosList_scalars : ∀ l : List Val, scalarsList (allZerosList l) = (scalarsList l).map zeroOf
  | [] => rfl
  | x :: xs => by simp only [allZerosList, scalarsList, List.map_append, allZeros_scalars x, allZerosList_scalars xs]
end

mutual
theorem allZeros_bones : ∀ v : Val, bones (allZeros v) = bones v
  | .num (.char _) => rfl
  | .num (.int _) => rfl
  | .num (.bigInt _) => rfl
  | .num (.bigRat _) => rfl
  | .cplx _ _ => rfl
  | .vec l => by simp only [allZeros, bones, allZerosList_bones l]
  | .mat _ l => by simp only [allZeros, bones, allZerosList_bones l]
theorem allZerosList_bones : ∀ l : List Val, bonesList (allZerosList l) = bonesList l
  | [] => rfl
  | x :: xs => by simp only [allZerosList, bonesList, allZeros_bones x, allZerosList_bones xs]
end

end Verif.Arr
