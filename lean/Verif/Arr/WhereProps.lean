import Verif.Arr.WhereLemmas

/-!
# C61: coordinates
-/

namespace Verif.Arr

theorem written_inj (origin : Nat) : ∀ {c d : List Nat}, written origin c = written origin d → c = d := by
  have inj : ∀ {c d : List Nat}, (c.map fun i => ((i + origin : Nat) : Int)) = d.map (fun i => ((i + origin : Nat) : Int)) → c = d := by
    intro c d h
    exact List.map_injective_iff.mpr (fun a b h => by simpa using h) h
  intro c d h
  match c, d, h with
  | [], [], _ => rfl
  | [i], [j], h => simp [written] at h; rw [h]
  | [], [_], h => simp [written] at h
  | [_], [], h => simp [written] at h
  | [], _ :: _ :: _, h => simp [written] at h
  | _ :: _ :: _, [], h => simp [written] at h
  | [_], _ :: _ :: _, h => simp [written] at h
  | _ :: _ :: _, [_], h => simp [written] at h
  | a :: b :: c, a' :: b' :: d, h =>
    simp only [written, V.vec.injEq] at h
    exact inj h

theorem writtenVec_inj (origin : Nat) {c d : List Nat} (h : writtenVec origin c = writtenVec origin d) : c = d := by
  simp only [writtenVec, V.vec.injEq] at h
  exact List.map_injective_iff.mpr (fun a b h => by simpa using h) h

/-- C61: `iota` of a vector of dimensions is the array of that shape which has at each place the coordinates of the place. -/
theorem C61_iota (origin : Nat) {s : List Nat} (hs : s ≠ []) (hd : ∀ d ∈ s, d ≤ 2147483647) (hf : Fits s) :
    ∃ r, iotaOp origin (.vec (s.map fun d : Nat => some (d : Int))) = .ok r ∧ r.shape = s ∧ ∀ c, InB s c → r.at c = some (written origin c) := by
  match s, hs with
  | [d], _ =>
    refine ⟨.vec ((List.range d).map fun i => .elem ((origin + i : Nat) : Int)), ?_, by simp [V.shape], ?_⟩
    · have := hd d (by simp)
      show iotaVec origin [some (d : Int)] = _
      unfold iotaVec
      rw [if_neg (by simp), if_pos (by simp)]
      show iotaList origin d = _
      unfold iotaList
      rw [if_neg (by simp [maxInt]; omega)]
      simp
    · intro c hc
      match c, hc with
      | [i], hc =>
        rw [at_data (by refine ⟨?_, trivial⟩; simpa using hc.1)]
        have hi : i < d := hc.1
        simp [V.shape, V.data, ravel, vol, written, hi, Nat.add_comm]
  | a :: b :: s, _ =>
    refine ⟨_, iotaVec_ok (by simp) hd hf, rfl, ?_⟩
    intro c hc
    have hr := ravel_lt hc
    rw [at_data (by exact hc)]
    simp only [V.shape, V.data]
    rw [List.getElem?_map, List.getElem?_range hr]
    simp only [Option.map_some, unravel_ravel hc]
    match c, hc with
    | _ :: _ :: _, _ => rfl

example : iotaOp 1 (.vec [some 2, some 2]) = .ok (.mat ⟨[2, 2], [.vec [1, 1], .vec [1, 2], .vec [2, 1], .vec [2, 2]]⟩) := by decide +kernel
example : ([2, 2] : List Nat) ≠ [] ∧ (∀ d ∈ ([2, 2] : List Nat), d ≤ 2147483647) ∧ Fits [2, 2] := by decide

/-- C61: `iota` of a number. -/
theorem C61_iota_number (origin n : Nat) (hn : n ≤ 2147483647) :
    ∃ r, iotaOp origin (.elem (some (n : Int))) = .ok r ∧ r.shape = [n] ∧ ∀ i, i < n → r.at [i] = some (.elem (i + origin : Nat)) := by
  refine ⟨.vec ((List.range n).map fun i => .elem ((origin + i : Nat) : Int)), ?_, by simp [V.shape], ?_⟩
  · show iotaList origin n = _
    unfold iotaList
    rw [if_neg (by simp [maxInt]; omega)]
    simp
  · intro i hi
    rw [at_data (by refine ⟨?_, trivial⟩; simpa using hi)]
    simp [V.shape, V.data, ravel, vol, hi, Nat.add_comm]

example : iotaOp 1 (.elem (some 3)) = .ok (.vec [.elem 1, .elem 2, .elem 3]) := by decide +kernel

/-- C61: other arguments are reported: a dimension that is not a small non-negative integer, or too many elements. -/
theorem C61_iota_refused (origin : Nat) :
    (∀ (v : List Small) x, x ∈ v → (¬ ∃ n : Nat, x = some (n : Int) ∧ n ≤ 2147483647) → ∃ e, iotaOp origin (.vec v) = .err e) ∧
    (∀ s : List Nat, (∀ d ∈ s, d ≤ 2147483647) → ¬ Fits s → ∃ e, iotaOp origin (.vec (s.map fun d : Nat => some (d : Int))) = .err e) ∧
    (∀ x : Small, (¬ ∃ n : Nat, x = some (n : Int) ∧ n ≤ 2147483647) → ∃ e, iotaOp origin (.elem x) = .err e) ∧
    ∀ m, ∃ e, iotaOp origin (.mat m) = .err e := by
  have one : ∀ x : Small, (¬ ∃ n : Nat, x = some (n : Int) ∧ n ≤ 2147483647) → ∃ e, iotaOp origin (.elem x) = .err e := by
    intro x hx
    cases x with
    | none => exact ⟨_, rfl⟩
    | some c =>
      refine ⟨"bad iota", ?_⟩
      show iotaList origin c = _
      unfold iotaList
      rw [if_pos]
      rcases lt_or_ge c 0 with h | h
      · exact .inl h
      · right
        rcases lt_or_ge (maxInt : Int) c with h2 | h2
        · exact h2
        · exact absurd ⟨c.toNat, by rw [Int.toNat_of_nonneg h], by simp only [maxInt] at h2; omega⟩ hx
  refine ⟨?_, ?_, one, fun m => ⟨_, rfl⟩⟩
  · intro v x hx hb
    show ∃ e, iotaVec origin v = .err e
    unfold iotaVec
    rw [if_neg (by intro h; rw [List.length_eq_zero_iff.mp h] at hx; simp at hx)]
    by_cases h1 : v.length = 1
    · rw [if_pos h1]
      obtain ⟨y, rfl⟩ := List.length_eq_one_iff.mp h1
      rw [List.mem_singleton] at hx
      subst hx
      cases x with
      | none => exact ⟨_, rfl⟩
      | some c => exact one _ hb
    · rw [if_neg h1]
      obtain ⟨e, he⟩ := iotaShape_bad hx hb
      exact ⟨e, by rw [he]; rfl⟩
  · intro s hd hf
    have h2 : 2 ≤ s.length := by
      rcases Nat.lt_or_ge s.length 2 with h | h
      · exact absurd (fun k a b => by omega) hf
      · exact h
    refine ⟨"shape too large in iota", ?_⟩
    show iotaVec origin _ = _
    unfold iotaVec
    rw [if_neg (by simp; intro h; simp [h] at h2), if_neg (by simp; omega), iotaShape_err hd hf]
    rfl

example : ¬ Fits [65536, 65536] ∧ ∀ d ∈ ([65536, 65536] : List Nat), d ≤ 2147483647 := by decide
example : ¬ ∃ n : Nat, (some (-1) : Small) = some (n : Int) ∧ n ≤ 2147483647 := by rintro ⟨n, h, _⟩; cases h

/-- The elements of `v` are non-negative integers. -/
theorem counts_of {v : V Small} (h : ∀ x ∈ v.data, ∃ n : Nat, x = some (n : Int)) : ∃ cnt : Nat → Nat, ∀ k, k < v.data.length → v.data[k]? = some (some (cnt k : Int)) := by
  have : ∀ k, ∃ n : Nat, k < v.data.length → v.data[k]? = some (some (n : Int)) := by
    intro k
    by_cases hk : k < v.data.length
    · obtain ⟨n, hn⟩ := h _ (List.getElem_mem hk)
      exact ⟨n, fun _ => by rw [List.getElem?_eq_getElem hk, hn]⟩
    · exact ⟨0, fun h => absurd h hk⟩
  exact ⟨fun k => (this k).choose, fun k => (this k).choose_spec⟩

/-- C61: `where` of a vector of counts gives the indexes of its elements in increasing order, each as often as the element says. -/
theorem C61_where_vector (origin : Nat) {l : List Small} (hl : (V.vec l).Ok) (h : ∀ x ∈ l, ∃ n : Nat, x = some (n : Int)) :
    ∃ r, whereOp origin (.vec l) = .ok (.vec r) ∧ Where (.vec l) (written origin) r := by
  obtain ⟨cnt, hc⟩ := counts_of (v := .vec l) h
  refine ⟨_, ?_, where_of hl hc (fun c d _ _ e => written_inj origin e)⟩
  show (whereVec origin l).bind _ = _
  rw [whereVec_ok (v := l) hc]
  rfl

example : whereOp 1 (.vec [some 0, some 2, some 1]) = .ok (.vec [.elem 2, .elem 2, .elem 3]) := by decide +kernel

/-- C61: `where` of a matrix of counts gives the coordinates of its elements in row-major order, each as often as the element says. -/
theorem C61_where_matrix (origin : Nat) {m : Mat Small} (hm : (V.mat m).Ok) (h : ∀ x ∈ m.data, ∃ n : Nat, x = some (n : Int)) :
    ∃ r, whereOp origin (.mat m) = .ok (.vec r) ∧ Where (.mat m) (writtenVec origin) r := by
  obtain ⟨cnt, hc⟩ := counts_of (v := .mat m) h
  refine ⟨_, ?_, where_of (v := .mat m) hm hc (fun c d _ _ e => writtenVec_inj origin e)⟩
  show (whereMat origin m).bind _ = _
  rw [whereMat_ok hm.1.len (m := m) hc]
  rfl

example : whereOp 1 (.mat ⟨[2, 2], [some 0, some 2, some 1, some 0]⟩) = .ok (.vec [.vec [1, 2], .vec [1, 2], .vec [2, 1]]) := by decide +kernel

theorem lexLe_antisymm : ∀ {a b : List Nat}, LexLe a b → LexLe b a → a = b
  | [], [], _, _ => rfl
  | [], _ :: _, _, h => h.elim
  | _ :: _, [], h, _ => h.elim
  | a :: as, b :: bs, h1, h2 => by
    rcases h1 with h1 | ⟨rfl, h1⟩
    · rcases h2 with h2 | ⟨h2, _⟩ <;> omega
    · rcases h2 with h2 | ⟨_, h2⟩
      · omega
      · rw [lexLe_antisymm h1 h2]

/-- C61: there is one list only with these properties. -/
theorem C61_where_unique {v : V Small} {wr : List Nat → V Int} (inj : ∀ {c d}, wr c = wr d → c = d) {r r' : List (V Int)} (h : Where v wr r) (h' : Where v wr r') : r = r' := by
  have hperm : r.Perm r' := by
    rw [List.perm_iff_count]
    intro a
    by_cases ha : ∃ c, InB v.shape c ∧ a = wr c
    · obtain ⟨c, hc, rfl⟩ := ha
      obtain ⟨n, a1, a2⟩ := h.times c hc
      obtain ⟨n', b1, b2⟩ := h'.times c hc
      rw [a1] at b1
      simp only [Option.some.injEq, Int.natCast_inj] at b1
      omega
    · rw [List.count_eq_zero.mpr (fun hm => ha (h.only a hm)), List.count_eq_zero.mpr (fun hm => ha (h'.only a hm))]
  obtain ⟨cs, rfl, s1⟩ := h.order
  obtain ⟨cs', rfl, s2⟩ := h'.order
  have hp : cs.Perm cs' := by
    rw [List.perm_iff_count] at hperm ⊢
    intro c
    have := hperm (wr c)
    rwa [List.count_map_of_injective _ _ (fun a b h => inj h), List.count_map_of_injective _ _ (fun a b h => inj h)] at this
  rw [hp.eq_of_pairwise (fun a b _ _ h1 h2 => lexLe_antisymm h1 h2) s1 s2]

/-- C61: a single value has no coordinates. -/
theorem C61_where_number (origin : Nat) (x : Small) : whereOp origin (.elem x) = .ok (.vec []) := rfl

/-- C61: counts which are not non-negative integers are reported. -/
theorem C61_where_refused (origin : Nat) {v : V Small} (hv : v.shape ≠ []) {x : Small} (hx : x ∈ v.data) (hb : ¬ ∃ n : Nat, x = some (n : Int)) :
    ∃ e, whereOp origin v = .err e := by
  obtain ⟨i, hi, rfl⟩ := List.mem_iff_getElem.mp hx
  have hb' : ¬ ∃ n : Nat, v.data[i]? = some (some (n : Int)) := by
    rintro ⟨n, hn⟩
    rw [List.getElem?_eq_getElem hi] at hn
    exact hb ⟨n, Option.some.inj hn⟩
  cases v with
  | elem x => simp [V.shape] at hv
  | vec l =>
    refine ⟨"where argument", ?_⟩
    show (whereVec origin l).bind _ = _
    rw [whereVec_err (v := l) hi hb']
    rfl
  | mat m =>
    refine ⟨"where argument", ?_⟩
    show (whereMat origin m).bind _ = _
    rw [whereMat_err (m := m) hi hb']
    rfl

example : whereOp 1 (.vec [some 0, some (-2)]) = .err "where argument" := by decide +kernel

end Verif.Arr
