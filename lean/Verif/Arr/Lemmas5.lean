import Verif.Arr.Lemmas4

/-! # Lemmas about unary transposition, take and drop -/

namespace Verif.Arr
variable {α : Type}

theorem vol_reverse (s : List Nat) : vol s.reverse = vol s := by
  rw [vol_prod, vol_prod, List.prod_reverse]

theorem oldCoords_reverse {n : Nat} {c : List Nat} (h : c.length = n) : oldCoords ((List.range n).map fun i => n - 1 - i) c = c.reverse := by
  subst h
  apply List.ext_getElem?
  intro i
  simp only [oldCoords, List.map_map]
  rcases Nat.lt_or_ge i c.length with h | h
  · rw [List.getElem?_reverse h]
    have h2 : c.length - 1 - i < c.length := by omega
    simp [List.getElem?_range h, List.getElem?_eq_getElem h2]
  · rw [List.getElem?_eq_none (by simpa using h), List.getElem?_eq_none (by simpa using h)]

theorem revRange_mem (n j : Nat) : j ∈ (List.range n).map (fun i => n - 1 - i) ↔ j < n := by
  simp only [List.mem_map, List.mem_range]
  constructor
  · rintro ⟨i, h, rfl⟩; omega
  · intro h; exact ⟨n - 1 - j, by omega, by omega⟩

theorem newShape_reverse {shape s' : List Nat}
    (h : NewShape ((List.range shape.length).map fun i => shape.length - 1 - i) shape s' shape.length) : s' = shape.reverse := by
  apply List.ext_getElem?
  intro j
  rcases Nat.lt_or_ge j shape.length with hj | hj
  · have hj' : j < s'.length := by rw [h.len]; exact hj
    obtain ⟨i, h1, h2⟩ := h.mem j s'[j] (List.getElem?_eq_getElem hj')
    have hi : i < shape.length := (List.getElem?_eq_some_iff.mp h2).1
    have : shape.length - 1 - i = j := by simpa [List.getElem?_range hi] using h1
    rw [List.getElem?_eq_getElem hj', List.getElem?_reverse hj, ← h2]
    congr 1; omega
  · rw [List.getElem?_eq_none (by rw [h.len]; exact hj), List.getElem?_eq_none (by simpa using hj)]

theorem inB_reverse {s c : List Nat} : InB s.reverse c.reverse ↔ InB s c := by
  rw [inB_iff, inB_iff]
  constructor
  · rintro ⟨h1, h2⟩
    have hl : c.length = s.length := by simpa using h1
    refine ⟨hl, ?_⟩
    intro i x d hx hd
    have hi : i < c.length := (List.getElem?_eq_some_iff.mp hx).1
    apply h2 (c.length - 1 - i) x d
    · rw [List.getElem?_reverse (by omega), ← hx]; congr 1; omega
    · rw [List.getElem?_reverse (by omega), ← hd]; congr 1; omega
  · rintro ⟨hl, h2⟩
    refine ⟨by simpa using hl, ?_⟩
    intro i x d hx hd
    have hi : i < c.length := by simpa using (List.getElem?_eq_some_iff.mp hx).1
    apply h2 (c.length - 1 - i) x d
    · rw [List.getElem?_reverse (by omega)] at hx; rw [← hx]
    · rw [List.getElem?_reverse (by omega)] at hd; rw [← hd]; congr 1; omega

/-- Unary `transp` reverses the axes. -/
theorem transpose_at (S : Sched) (origin : Nat) {m : Mat α} (hm : m.Ok) (h2 : 2 ≤ m.shape.length) (hne : 0 < m.data.length) :
    ∃ m', transpose S origin m = .ok m' ∧ m'.Ok ∧ m'.shape = m.shape.reverse ∧ ∀ c, InB m.shape c → m'.at c.reverse = m.at c := by
  have hv := vol_le hm h2
  have hvp : 0 < vol m.shape := by rw [← hm.len]; exact hne
  have hfits : Fits m.shape.reverse := fits_of_pos (by rw [vol_reverse]; exact hvp) (by rw [vol_reverse]; exact hv)
  by_cases hr : m.shape.length = 2
  · obtain ⟨a, b, hs⟩ : ∃ a b, m.shape = [a, b] := by
      match hsh : m.shape, hr with
      | [a, b], _ => exact ⟨a, b, rfl⟩
    have hl : m.data.length = a * b := by rw [hm.len, hs]; simp [vol]
    have hpos : 0 < a * b := by rw [← hl]; exact hne
    have ha : 0 < a := Nat.pos_of_mul_pos_right hpos
    have hb : 0 < b := Nat.pos_of_mul_pos_left hpos
    have hrev : m.shape.reverse = [b, a] := by rw [hs]; rfl
    refine ⟨⟨[b, a], transData m.data a b m.data[0]⟩, ?_, ⟨⟨by simp, ?_⟩, by rw [← hrev]; exact hfits⟩, hrev.symm, ?_⟩
    · unfold transpose
      simp only [hs]
      rw [transpose2_core S hb ha hl m.data[0]]
      exact newMatrix_fits (by simp) (by simp [transData, hl, vol, Nat.mul_comm]) (by rw [← hrev]; exact hfits)
    · simp [transData, hl, vol, Nat.mul_comm]
    · intro c hc
      have hcl := inB_length hc
      rw [hr] at hcl
      match c, hcl with
      | [i, j], _ =>
        rw [hs] at hc
        obtain ⟨hi, hj, _⟩ := hc
        rw [at_cons (s := [b]) (c := [j]) hs ⟨hj, trivial⟩ hi]
        show (Mat.mk [b, a] (transData m.data a b m.data[0])).at [j, i] = _
        rw [at_cons (d := b) (s := [a]) (c := [i]) rfl ⟨hi, trivial⟩ hj]
        simp only [vol, ravel, Nat.mul_one, Nat.add_zero]
        have hlt : j * a + i < m.data.length := by
          rw [hl]
          calc j * a + i < j * a + a := by omega
            _ = (j + 1) * a := by rw [Nat.succ_mul]
            _ ≤ b * a := Nat.mul_le_mul_right _ hj
            _ = a * b := Nat.mul_comm _ _
        have hlt2 : i * b + j < m.data.length := by
          rw [hl]
          calc i * b + j < i * b + b := by omega
            _ = (i + 1) * b := by rw [Nat.succ_mul]
            _ ≤ a * b := Nat.mul_le_mul_right _ hi
        have e1 : (j * a + i) % a = i := by rw [Nat.mul_comm, Nat.mul_add_mod, Nat.mod_eq_of_lt hi]
        have e2 : (j * a + i) / a = j := by rw [Nat.mul_comm, Nat.mul_add_div ha, Nat.div_eq_of_lt hi]; simp
        simp only [transData, List.getElem?_map, List.getElem?_range hlt, Option.map_some, e1, e2, List.getD_eq_getElem?_getD,
          List.getElem?_eq_getElem hlt2, Option.getD_some]
  · have htr : transpose S origin m = binaryTranspose S origin m
        (((List.range m.shape.length).map fun i => m.shape.length - 1 - i).map (fun j : Nat => some ((j + origin : Nat) : Int))) := by
      unfold transpose
      split
      · rename_i a b hs; rw [hs] at hr; simp at hr
      · rw [List.map_map]; rfl
    obtain ⟨s', hs', hok, _⟩ := binaryTranspose_at S origin hm (o := (List.range m.shape.length).map fun i => m.shape.length - 1 - i)
      (r := m.shape.length) (by simp) (revRange_mem _)
    have he := newShape_reverse hs'
    subst he
    obtain ⟨m', h1, h2, h3, h4⟩ := hok hfits
    refine ⟨m', by rw [htr, h1], h2, h3, ?_⟩
    intro c hc
    rw [h4 _ (inB_reverse.mpr hc), oldCoords_reverse (by simpa using inB_length hc), List.reverse_reverse]

/-! ## take -/

theorem inside_eq : ∀ (v : List Int) (s c : List Nat) (mi : Nat), v.length = s.length → InB (v.map Int.natAbs) c →
    inside (List.zipWith axis v s) c s (mi : Int) = .ok ((takeSrc v s c).map fun c' => mi * vol s + ravel s c')
  | [], [], [], mi, _, _ => by simp [inside, takeSrc, vol, ravel]
  | y :: v, d :: s, i :: c, mi, hl, hc => by
    obtain ⟨h1, h2⟩ := hc
    have ih := fun mi => inside_eq v s c mi (by simpa using hl) h2
    simp only [List.zipWith_cons_cons, inside]
    by_cases hy : y < 0
    · have ha : axis y d = ⟨y.natAbs, d - y.natAbs, d, (y.natAbs : Int) - d⟩ := by unfold axis; rw [if_pos hy]
      simp only [ha]
      by_cases hin : y.natAbs ≤ i + d
      · have e : (i : Int) - ((y.natAbs : Int) - d) = ((i + d - y.natAbs : Nat) : Int) := by omega
        rw [e, if_neg (by omega)]
        have e2 : (mi : Int) * (d : Int) + ((i + d - y.natAbs : Nat) : Int) = ((mi * d + (i + d - y.natAbs) : Nat) : Int) := by push_cast; rfl
        rw [e2, ih]
        simp only [takeSrc, takeSrc1, if_pos hy, if_pos hin]
        cases takeSrc v s c with
        | none => rfl
        | some js => simp [vol, ravel, Nat.add_mul, Nat.mul_assoc, Nat.add_assoc]
      · rw [if_pos (by omega)]
        simp only [takeSrc, takeSrc1, if_pos hy, if_neg hin]
        rfl
    · have ha : axis y d = ⟨y.toNat, 0, min d y.toNat, 0⟩ := by unfold axis; rw [if_neg hy]
      simp only [ha]
      have hyn : y.natAbs = y.toNat := by omega
      by_cases hin : i < d
      · rw [if_neg (by omega)]
        have e2 : (mi : Int) * (d : Int) + ((i : Int) - 0) = ((mi * d + i : Nat) : Int) := by push_cast; omega
        rw [e2, ih]
        simp only [takeSrc, takeSrc1, if_neg hy, if_pos hin]
        cases takeSrc v s c with
        | none => rfl
        | some js => simp [vol, ravel, Nat.add_mul, Nat.mul_assoc, Nat.add_assoc]
      · rw [if_pos (by omega)]
        simp only [takeSrc, takeSrc1, if_neg hy, if_neg hin]
        rfl
  | [], _ :: _, _, _, h, _ => by simp at h
  | _ :: _, [], _, _, h, _ => by simp at h
  | [], [], _ :: _, _, _, h => by simp [InB] at h
  | _ :: _, _ :: _, [], _, _, h => by simp [InB] at h

theorem takeSrc_inB : ∀ (v : List Int) (s c c' : List Nat), v.length = s.length → InB (v.map Int.natAbs) c → takeSrc v s c = some c' → InB s c'
  | [], [], [], c', _, _, h => by simp [takeSrc] at h; subst h; trivial
  | y :: v, d :: s, i :: c, c', hl, hc, h => by
    simp only [takeSrc] at h
    obtain ⟨h1, h2⟩ := hc
    cases hj : takeSrc1 y d i with
    | none => simp [hj] at h
    | some j =>
      cases hjs : takeSrc v s c with
      | none => simp [hj, hjs] at h
      | some js =>
        simp [hj, hjs] at h; subst h
        refine ⟨?_, takeSrc_inB v s c js (by simpa using hl) h2 hjs⟩
        unfold takeSrc1 at hj
        split at hj
        · split at hj
          · cases hj; omega
          · cases hj
        · split at hj
          · cases hj; assumption
          · cases hj
  | [], _ :: _, _, _, h, _, _ => by simp at h
  | _ :: _, [], _, _, h, _, _ => by simp at h
  | [], [], _ :: _, _, _, h, _ => by simp [InB] at h
  | _ :: _, _ :: _, [], _, _, h, _ => by simp [InB] at h

theorem axis_dim (v : List Int) (s : List Nat) (hl : v.length = s.length) : (List.zipWith axis v s).map (·.dim) = v.map Int.natAbs := by
  induction v generalizing s with
  | nil => rfl
  | cons y v ih =>
    cases s with
    | nil => simp at hl
    | cons d s =>
      simp only [List.zipWith_cons_cons, List.map_cons, ih s (by simpa using hl)]
      congr 1
      unfold axis
      split
      · rfl
      · show y.toNat = y.natAbs; omega

theorem wrap64_mul (a b : Int) : wrap64 (wrap64 a * b) = wrap64 (a * b) := by
  unfold wrap64
  have h : (a + 2 ^ 63) % 2 ^ 64 - 2 ^ 63 = a - 2 ^ 64 * ((a + 2 ^ 63) / 2 ^ 64) := by
    have := Int.mul_ediv_add_emod (a + 2 ^ 63) (2 ^ 64); omega
  rw [h]
  congr 1
  rw [Int.sub_mul, Int.mul_assoc, show a * b - 2 ^ 64 * ((a + 2 ^ 63) / 2 ^ 64 * b) + 2 ^ 63 = a * b + 2 ^ 63 + 2 ^ 64 * (-((a + 2 ^ 63) / 2 ^ 64 * b)) by
    rw [Int.mul_neg]; omega, Int.add_mul_emod_self_left]

theorem count_eq (s : List Nat) : ∀ a : Int, s.foldl (fun (c : Int) (y : Nat) => wrap64 (c * y)) (wrap64 a) = wrap64 (a * vol s) := by
  induction s with
  | nil => intro a; simp [vol]
  | cons d s ih =>
    intro a
    simp only [List.foldl_cons]
    rw [wrap64_mul, ih]
    simp [vol, mul_assoc]

theorem count_eq1 (s : List Nat) : s.foldl (fun (c : Int) (y : Nat) => wrap64 (c * y)) 1 = wrap64 (vol s) := by
  have h := count_eq s 1
  rw [Int.one_mul] at h
  exact h

/-- The value of a wrapped count that passed the test: it is at most the true count, and is it when that is small. -/
theorem wrap64_le (n : Nat) : (wrap64 n).toNat ≤ n ∧ (n ≤ maxInt → wrap64 n = n) := by
  unfold wrap64 maxInt
  constructor
  · have h1 := Int.mul_ediv_add_emod ((n : Int) + 2 ^ 63) (2 ^ 64)
    have h2 : 0 ≤ ((n : Int) + 2 ^ 63) / 2 ^ 64 := Int.ediv_nonneg (by omega) (by omega)
    omega
  · intro h
    rw [Int.emod_eq_of_lt (by omega) (by omega)]; omega

theorem allInts_ok (msg : String) : ∀ (v : List Small) (l : List Int), allInts msg v = .ok l ↔ v = l.map some
  | [], l => by
    simp only [allInts, R.ok.injEq]
    constructor
    · rintro rfl; rfl
    · intro h; simpa using h
  | none :: v, l => by
    simp only [allInts]
    constructor
    · intro h; cases h
    · intro h; cases l <;> simp at h
  | some d :: v, l => by
    simp only [allInts, bind_eq_ok]
    constructor
    · rintro ⟨t, h1, h2⟩
      cases h2
      rw [(allInts_ok msg v t).mp h1]; rfl
    · intro h
      cases l with
      | nil => simp at h
      | cons x s =>
        simp only [List.map_cons, List.cons.injEq, Option.some.injEq] at h
        exact ⟨s, (allInts_ok msg v s).mpr h.2, by rw [h.1]⟩

/-- The loop of `take`. -/
theorem take_loop (fill : α) {m : Mat α} (hm : m.WF) {v : List Int} (hl : v.length = m.shape.length) {n : Nat} (hn : n ≤ vol (v.map Int.natAbs)) :
    ∃ t : List α, t.length = n ∧
      (∀ k, k < n → t[k]? = match takeSrc v m.shape (unravel (v.map Int.natAbs) k) with | some c => m.at c | none => some fill) ∧
      ∃ s : List Nat × Ed α, (loop (fun i (s : List Nat × Ed α) =>
        (inside (List.zipWith axis v m.shape) s.1 m.shape 0).bind fun o =>
        (match o with
          | some mi => (vAt m.data mi).bind fun x => s.2.put i x
          | none => s.2.put i fill).bind fun e => .ok ((tick (v.map Int.natAbs) s.1).1, e))
      (List.range n) (List.replicate (v.map Int.natAbs).length 0, newEd n)) = .ok s ∧ s.2.publish = .ok t := by
  let g : Nat → α := fun k => match takeSrc v m.shape (unravel (v.map Int.natAbs) k) with | some c => (m.at c).getD fill | none => fill
  have hg : ∀ k, k < n → ((List.range n).map g)[k]? = match takeSrc v m.shape (unravel (v.map Int.natAbs) k) with | some c => m.at c | none => some fill := by
    intro k hk
    simp only [List.getElem?_map, List.getElem?_range hk, Option.map_some, g]
    cases h : takeSrc v m.shape (unravel (v.map Int.natAbs) k) with
    | none => rfl
    | some c =>
      obtain ⟨x, hx⟩ := at_some hm (takeSrc_inB v m.shape _ c hl (unravel_inB (by omega)) h)
      simp [hx]
  refine ⟨(List.range n).map g, by simp, hg, ?_⟩
  rcases Nat.eq_zero_or_pos n with h0 | h0
  · subst h0; exact ⟨_, rfl, rfl⟩
  obtain ⟨s, h1, h2, h3⟩ := loop_range0 (f := fun i (s : List Nat × Ed α) =>
        (inside (List.zipWith axis v m.shape) s.1 m.shape 0).bind fun o =>
        (match o with
          | some mi => (vAt m.data mi).bind fun x => s.2.put i x
          | none => s.2.put i fill).bind fun e => .ok ((tick (v.map Int.natAbs) s.1).1, e))
    (fun k s => s.1 = unravel (v.map Int.natAbs) (k % vol (v.map Int.natAbs)) ∧ Toward ((List.range n).map g) (fun i => i < k) s.2) n
    (List.replicate (v.map Int.natAbs).length 0, newEd n) (by
      refine ⟨?_, toward_mono (toward_new _ (by simp)) (fun i _ h => by omega)⟩
      rw [Nat.zero_mod]
      have : ∀ s : List Nat, List.replicate s.length 0 = unravel s 0 := by
        intro s
        induction s with
        | nil => rfl
        | cons d s ih => simp [unravel, ← ih, List.replicate_succ]
      exact this _) (by
      rintro k ⟨ix, e⟩ hk ⟨rfl, he⟩
      have hk' : k < vol (v.map Int.natAbs) := by omega
      simp only [Nat.mod_eq_of_lt hk']
      have hi := inside_eq v m.shape _ 0 hl (unravel_inB hk')
      rw [show ((0 : Nat) : Int) = 0 from rfl] at hi
      have hgk := hg k hk
      rw [hi, bind_ok]
      have fin : ∀ x, ((List.range n).map g)[k]? = some x → ∃ s', ((Ed.put e k x).bind fun e => R.ok ((tick (v.map Int.natAbs) (unravel (v.map Int.natAbs) k)).1, e)) = .ok s' ∧
          s'.1 = unravel (v.map Int.natAbs) ((k + 1) % vol (v.map Int.natAbs)) ∧ Toward ((List.range n).map g) (fun i => i < k + 1) s'.2 := by
        intro x hx
        obtain ⟨e', h4, h5⟩ := toward_put he hx
        rw [h4, bind_ok]
        exact ⟨_, rfl, tick_unravel hk', toward_mono h5 (fun i _ h => by omega)⟩
      cases h : takeSrc v m.shape (unravel (v.map Int.natAbs) k) with
      | none =>
        simp only [h] at hgk
        exact fin fill hgk
      | some c =>
        simp only [h] at hgk
        have hc := takeSrc_inB v m.shape _ c hl (unravel_inB hk') h
        have hlt := ravel_lt hc
        rw [← hm.len] at hlt
        simp only [Option.map_some, Nat.zero_mul, Nat.zero_add, vAt_lt hlt, bind_ok]
        apply fin
        rw [hgk]; unfold Mat.at; rw [if_pos hc, List.getElem?_eq_getElem hlt])
  exact ⟨s, h1, toward_publish h3 (fun i hi => by simpa using hi)⟩

theorem fullCounts_length {v : List Int} {shape : List Nat} (h : v.length ≤ shape.length) : (fullCounts v shape).length = shape.length := by
  simp [fullCounts]; omega

/-- `take` when the counts are not more than the axes. -/
theorem take_at (fill : α) {m : Mat α} (hm : m.Ok) {v : List Int} (hv : v.length ≤ m.shape.length) :
    let w := fullCounts v m.shape
    (vol (w.map Int.natAbs) ≤ maxInt → Fits (w.map Int.natAbs) → ∃ m', take fill m (v.map some) = .ok m' ∧ m'.Ok ∧ m'.shape = w.map Int.natAbs ∧
      ∀ c, InB (w.map Int.natAbs) c → m'.at c = match takeSrc w m.shape c with | some c' => m.at c' | none => some fill) ∧
    (¬ (vol (w.map Int.natAbs) ≤ maxInt ∧ Fits (w.map Int.natAbs)) → ∃ e, take fill m (v.map some) = .err e) := by
  intro w
  have hwl : w.length = m.shape.length := fullCounts_length hv
  have hne : w.map Int.natAbs ≠ [] := by
    intro h; have := congrArg List.length h; simp [hwl] at this; exact hm.rank this
  have red : take fill m (v.map some) =
      if wrap64 (vol (w.map Int.natAbs)) > maxInt then .err "take: result matrix too large" else
      (loop (fun i (s : List Nat × Ed α) =>
        (inside (List.zipWith axis w m.shape) s.1 m.shape 0).bind fun o =>
        (match o with
          | some mi => (vAt m.data mi).bind fun x => s.2.put i x
          | none => s.2.put i fill).bind fun e => .ok ((tick (w.map Int.natAbs) s.1).1, e))
      (List.range (wrap64 (vol (w.map Int.natAbs))).toNat) (List.replicate (w.map Int.natAbs).length 0, newEd (wrap64 (vol (w.map Int.natAbs))).toNat)).bind fun s =>
      s.2.publish.bind fun d => newMatrix (w.map Int.natAbs) d := by
    unfold take
    rw [(allInts_ok _ _ v).mpr rfl, bind_ok, if_neg (by omega), bind_ok]
    simp only
    rw [show v ++ (m.shape.drop v.length).map (fun d : Nat => (d : Int)) = w from rfl, axis_dim w m.shape hwl, count_eq1]
    rfl
  obtain ⟨hle, heq⟩ := wrap64_le (vol (w.map Int.natAbs))
  constructor
  · intro h1 h2
    have he := heq h1
    rw [red, if_neg (by omega)]
    obtain ⟨t, ht1, ht2, s, hs1, hs2⟩ := take_loop fill hm.toWF hwl hle
    rw [hs1, bind_ok, hs2, bind_ok]
    have hn : (wrap64 (vol (w.map Int.natAbs))).toNat = vol (w.map Int.natAbs) := by omega
    rw [hn] at ht1 ht2
    refine ⟨⟨w.map Int.natAbs, t⟩, newMatrix_fits hne ht1 h2, ⟨⟨hne, ht1⟩, h2⟩, rfl, ?_⟩
    intro c hc
    unfold Mat.at
    rw [if_pos hc]
    show t[ravel _ c]? = _
    rw [ht2 _ (ravel_lt hc), unravel_ravel hc]
    cases h : takeSrc w m.shape c with
    | none => rfl
    | some c' => rfl
  · intro hnot
    rw [red]
    split
    · exact ⟨_, rfl⟩
    · rename_i hcount
      obtain ⟨t, ht1, ht2, s, hs1, hs2⟩ := take_loop fill hm.toWF hwl hle
      rw [hs1, bind_ok, hs2, bind_ok]
      have tot : (∃ m', newMatrix (w.map Int.natAbs) t = .ok m') ∨ ∃ e, newMatrix (w.map Int.natAbs) t = .err e := by
        have total : ∀ (ds : List Nat) (n : Nat), (∃ p, prodCheck n ds = .ok p) ∨ ∃ e, prodCheck n ds = .err e := by
          intro ds
          induction ds with
          | nil => intro n; exact .inl ⟨_, rfl⟩
          | cons d ds ih =>
            intro n
            unfold prodCheck
            split
            · exact .inr ⟨_, rfl⟩
            · exact ih _
        cases hsh : w.map Int.natAbs with
        | nil => exact absurd hsh hne
        | cons d ds =>
          unfold newMatrix
          simp only
          rcases total ds d with ⟨p, hp⟩ | ⟨e, he⟩
          · rw [hp, bind_ok]
            split
            · exact .inr ⟨_, rfl⟩
            · exact .inl ⟨_, rfl⟩
          · exact .inr ⟨e, by rw [he]; rfl⟩
      rcases tot with ⟨m', h⟩ | h
      · exfalso
        obtain ⟨_, h2, h3⟩ := (newMatrix_ok hne).mp h
        apply hnot
        refine ⟨?_, h3⟩
        omega
      · exact h

theorem dropCount_abs (x : Int) (d : Nat) : (dropCount x d).natAbs = d - x.natAbs := by
  unfold dropCount
  split
  · simp; omega
  · split <;> omega

theorem takeSrc_drop : ∀ (w : List Int) (s c : List Nat), w.length = s.length → InB ((List.zipWith dropCount w s).map Int.natAbs) c →
    takeSrc (List.zipWith dropCount w s) s c = some (List.zipWith (fun (x : Int) (i : Nat) => i + x.toNat) w c)
  | [], [], [], _, _ => rfl
  | x :: w, d :: s, i :: c, hl, hc => by
    obtain ⟨h1, h2⟩ := hc
    have ih := takeSrc_drop w s c (by simpa using hl) h2
    simp only [List.zipWith_cons_cons, takeSrc, ih]
    have h1' : i < d - x.natAbs := by rw [← dropCount_abs]; exact h1
    have : takeSrc1 (dropCount x d) d i = some (i + x.toNat) := by
      have hd : dropCount x d = if x ≥ 0 then x - d else d + x := by unfold dropCount; rw [if_neg (by omega)]
      rw [hd]
      unfold takeSrc1
      by_cases hx : x ≥ 0
      · rw [if_pos hx, if_pos (by omega), if_pos (by omega)]; congr 1; omega
      · rw [if_neg hx, if_neg (by omega), if_pos (by omega)]; congr 1; omega
    rw [this]
  | [], _ :: _, _, h, _ => by simp at h
  | _ :: _, [], _, h, _ => by simp at h
  | [], [], _ :: _, _, h => by simp [InB] at h
  | _ :: _, _ :: _, [], _, h => by simp [InB] at h

theorem vol_mono : ∀ s t : List Nat, List.Forall₂ (· ≤ ·) s t → vol s ≤ vol t
  | [], [], _ => Nat.le_refl _
  | _ :: s, _ :: t, .cons h1 h2 => Nat.mul_le_mul h1 (vol_mono s t h2)

theorem forall2_take {s t : List Nat} (h : List.Forall₂ (· ≤ ·) s t) : ∀ k, List.Forall₂ (· ≤ ·) (s.take k) (t.take k) := by
  induction h with
  | nil => intro k; simp
  | cons h1 _ ih =>
    intro k
    cases k with
    | zero => simp
    | succ k => simpa using ⟨h1, ih k⟩

theorem fits_mono {s t : List Nat} (h : List.Forall₂ (· ≤ ·) s t) (ht : Fits t) : Fits s := by
  intro k h1 h2
  exact Nat.le_trans (vol_mono _ _ (forall2_take h k)) (ht k h1 (by rw [← h.length_eq]; exact h2))

theorem dropShape : ∀ (w : List Int) (s : List Nat), w.length = s.length →
    (List.zipWith dropCount w s).map Int.natAbs = List.zipWith (fun (x : Int) (d : Nat) => d - x.natAbs) w s
  | [], [], _ => rfl
  | x :: w, d :: s, h => by simp only [List.zipWith_cons_cons, List.map_cons, dropCount_abs, dropShape w s (by simpa using h)]
  | [], _ :: _, h => by simp at h
  | _ :: _, [], h => by simp at h

theorem dropShape_le : ∀ (w : List Int) (s : List Nat), w.length = s.length →
    List.Forall₂ (· ≤ ·) (List.zipWith (fun (x : Int) (d : Nat) => d - x.natAbs) w s) s
  | [], [], _ => .nil
  | x :: w, d :: s, h => .cons (Nat.sub_le _ _) (dropShape_le w s (by simpa using h))
  | [], _ :: _, h => by simp at h
  | _ :: _, [], h => by simp at h

theorem drop_at (fill : α) {m : Mat α} (hm : m.Ok) (hsz : m.data.length ≤ maxInt) {v : List Int} (hv : v.length ≤ m.shape.length) :
    ∃ m', drop fill m (v.map some) = .ok m' ∧ m'.Ok ∧
      m'.shape = List.zipWith (fun (x : Int) (d : Nat) => d - x.natAbs) (fullDrops v m.shape) m.shape ∧
      ∀ c, InB m'.shape c → m'.at c = m.at (List.zipWith (fun (x : Int) (i : Nat) => i + x.toNat) (fullDrops v m.shape) c) := by
  have hwl : (fullDrops v m.shape).length = m.shape.length := by simp [fullDrops]; omega
  have hzl : (List.zipWith dropCount (fullDrops v m.shape) m.shape).length = m.shape.length := by simp [hwl]
  have hfc : fullCounts (List.zipWith dropCount (fullDrops v m.shape) m.shape) m.shape = List.zipWith dropCount (fullDrops v m.shape) m.shape := by
    unfold fullCounts
    rw [hzl]; simp
  have ht := (take_at fill hm (v := List.zipWith dropCount (fullDrops v m.shape) m.shape) (by rw [hzl])).1
  rw [hfc, dropShape _ _ hwl] at ht
  have hle := dropShape_le _ _ hwl
  obtain ⟨m', h1, h2, h3, h4⟩ := ht (Nat.le_trans (vol_mono _ _ hle) (by rw [← hm.len]; exact hsz)) (fits_mono hle hm.fits)
  refine ⟨m', ?_, h2, h3, ?_⟩
  · unfold drop
    rw [if_neg (by simp; omega), (allInts_ok _ _ v).mpr rfl, bind_ok]
    exact h1
  · intro c hc
    rw [h3] at hc
    rw [h4 c hc, takeSrc_drop _ _ _ hwl (by rw [dropShape _ _ hwl]; exact hc)]

/-! ## take and drop of vectors -/

theorem takeVec_length (fill : α) (n : Int) (v : List α) : (takeVec fill n v).length = n.natAbs := by
  unfold takeVec
  simp only
  split
  · split <;> simp <;> omega
  · split
    · simp; omega
    · split <;> simp <;> omega

theorem takeVec_get (fill : α) (n : Int) (v : List α) (i : Nat) (hi : i < n.natAbs) :
    (takeVec fill n v)[i]? = match takeSrc1 n v.length i with | some j => v[j]? | none => some fill := by
  unfold takeVec takeSrc1
  simp only
  by_cases hn : n < 0
  · rw [if_pos hn, if_pos hn]
    by_cases h : n.natAbs > v.length
    · rw [if_pos h]
      by_cases hin : n.natAbs ≤ i + v.length
      · rw [if_pos hin, List.getElem?_append_right (by simp; omega)]
        simp only [List.length_replicate]
        congr 1; omega
      · rw [if_neg hin, List.getElem?_append_left (by simp; omega), List.getElem?_replicate, if_pos (by omega)]
    · rw [if_neg h, if_pos (by omega), List.getElem?_drop]
      congr 1; omega
  · rw [if_neg hn, if_neg hn, if_neg (by omega)]
    by_cases h : n.natAbs > v.length
    · rw [if_pos h]
      by_cases hin : i < v.length
      · rw [if_pos hin, List.getElem?_append_left hin]
      · rw [if_neg hin, List.getElem?_append_right (by omega), List.getElem?_replicate, if_pos (by omega)]
    · rw [if_neg h, if_pos (by omega), List.getElem?_take, if_pos hi]

theorem dropVec_length (n : Int) (v : List α) : (dropVec n v).length = v.length - n.natAbs := by
  unfold dropVec
  split
  · split <;> simp <;> omega
  · split
    · omega
    · split
      · simp; omega
      · simp

theorem dropVec_get (n : Int) (v : List α) (i : Nat) (hi : i < v.length - n.natAbs) : (dropVec n v)[i]? = v[i + n.toNat]? := by
  unfold dropVec
  by_cases hn : n < 0
  · rw [if_pos hn, if_neg (by omega), List.getElem?_take, if_pos (by omega)]
    congr 1; omega
  · rw [if_neg hn]
    by_cases h0 : n = 0
    · rw [if_pos h0]; subst h0; rfl
    · rw [if_neg h0, if_neg (by omega), List.getElem?_drop]
      congr 1; omega

theorem take_drop_vec (fill : α) (n : Int) (v : List α) (h : n.natAbs ≤ v.length) :
    (0 ≤ n → takeVec fill n v ++ dropVec n v = v) ∧ (n < 0 → dropVec n v ++ takeVec fill n v = v) := by
  unfold takeVec dropVec
  simp only
  constructor
  · intro hn
    have hn' : ¬ n < 0 := by omega
    have hb : ¬ n.natAbs > v.length := by omega
    by_cases h0 : n = 0
    · simp [h0]
    · simp only [if_neg hn', if_neg h0, if_neg hb, List.take_append_drop]
  · intro hn
    rw [if_pos hn, if_pos hn, if_neg (by omega), if_neg (by omega), List.take_append_drop]

end Verif.Arr
