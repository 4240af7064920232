import Verif.Arr.EachSpec
import Verif.Arr.EvalLemmas5

namespace Verif.Arr
variable {α β γ σ : Type}

theorem leadAts_eq {rest : List Char} (h : rest.head? ≠ some '@') : ∀ (n k : Nat), leadAts n (List.replicate k '@' ++ rest) = min n k
  | 0, k => by simp [leadAts]
  | n + 1, 0 => by
    cases rest with
    | nil => rfl
    | cons c r =>
      have : c ≠ '@' := by simpa using h
      simp [leadAts, this]
  | n + 1, k + 1 => by
    simp only [List.replicate_succ, List.cons_append, leadAts, if_true, leadAts_eq h n k]
    omega

theorem leadAts_all (n k : Nat) : leadAts n (List.replicate k '@') = min n k := by
  simpa using leadAts_eq (rest := []) (by simp) n k

theorem eachLoop_eq (g : V α → σ → R (β × σ)) : ∀ (xs : List (V α)) (acc : List β) (s : σ),
    eachLoop g (xs.map .ok) (acc, s) = (seqR g xs s).bind fun r => .ok (acc ++ r.1, r.2)
  | [], acc, s => by simp [eachLoop, seqR, R.bind]
  | x :: xs, acc, s => by
    simp only [List.map_cons, eachLoop, seqR, bind_ok, bind_assoc, eachLoop_eq g xs]
    congr 1; funext y; congr 1; funext r; simp

theorem seqR_append (g : α → σ → R (β × σ)) : ∀ (xs ys : List α) (s : σ),
    seqR g (xs ++ ys) s = (seqR g xs s).bind fun r => (seqR g ys r.2).bind fun t => .ok (r.1 ++ t.1, t.2)
  | [], ys, s => by
    simp only [List.nil_append, seqR, bind_ok]
    cases seqR g ys s <;> rfl
  | x :: xs, ys, s => by
    simp only [List.cons_append, seqR, bind_assoc, bind_ok, seqR_append g xs]

theorem seqR_map {α' : Type} (h : α' → α) (g : α → σ → R (β × σ)) : ∀ (xs : List α') (s : σ), seqR g (xs.map h) s = seqR (fun x => g (h x)) xs s
  | [], s => rfl
  | x :: xs, s => by simp only [List.map_cons, seqR, seqR_map h g xs]

theorem eachLoop2_eq (g : V α → V γ → σ → R (β × σ)) (ys : List (V γ)) : ∀ (xs : List (V α)) (acc : List β) (s : σ),
    eachLoop2 g (ys.map .ok) (xs.map .ok) (acc, s) = (seqR (fun p => g p.1 p.2) (allPairs xs ys) s).bind fun r => .ok (acc ++ r.1, r.2)
  | [], acc, s => by simp [eachLoop2, allPairs, seqR, R.bind]
  | x :: xs, acc, s => by
    simp only [List.map_cons, eachLoop2, bind_ok, eachLoop_eq, bind_assoc, eachLoop2_eq g ys xs, allPairs, List.flatMap_cons, seqR_append, seqR_map]
    congr 1; funext r; congr 1; funext t; simp

theorem seqR_length (g : α → σ → R (β × σ)) : ∀ {xs : List α} {s : σ} {r : List β × σ}, seqR g xs s = .ok r → r.1.length = xs.length
  | [], s, r, h => by cases h; rfl
  | x :: xs, s, r, h => by
    simp only [seqR] at h
    obtain ⟨y, h1, h2⟩ := bind_eq_ok.mp h
    obtain ⟨t, h3, h4⟩ := bind_eq_ok.mp h2
    cases h4
    simp [seqR_length g h3]

theorem eachSize_eq : ∀ {s : List Nat} {n : Nat}, (∀ d ∈ s, 0 < d) → eachSize (vol s * n) s = .ok n
  | [], n, _ => by simp [eachSize, vol]
  | d :: s, n, h => by
    have hd : 0 < d := h d (by simp)
    simp only [eachSize, vol]
    rw [if_neg (by omega), Nat.mul_assoc, Nat.mul_div_cancel_left _ hd]
    exact eachSize_eq (fun x hx => h x (by simp [hx]))

theorem vol_take_drop (s : List Nat) (d : Nat) : vol s = vol (s.take d) * vol (s.drop d) := by
  rw [← vol_append, List.take_append_drop]

theorem vol_ne_zero : ∀ {s : List Nat}, vol s ≠ 0 → ∀ d ∈ s, 0 < d
  | [], _, _, h => by simp at h
  | a :: s, h, d, hd => by
    simp only [vol] at h
    rcases List.mem_cons.mp hd with rfl | hd
    · exact Nat.pos_of_ne_zero fun h0 => h (by rw [h0, Nat.zero_mul])
    · exact vol_ne_zero (fun h0 => h (by rw [h0, Nat.mul_zero])) d hd

theorem fits_drop {s : List Nat} (hf : Fits s) (d : Nat) (h : vol s ≠ 0) : Fits (s.drop d) := by
  intro k h2 hk
  rw [List.length_drop] at hk
  have h1 := hf (d + k) (by omega) (by omega)
  have e : s.take (d + k) = s.take d ++ (s.drop d).take k := List.take_add ..
  rw [e, vol_append] at h1
  have : 0 < vol (s.take d) := Nat.pos_of_ne_zero fun h0 => h (by rw [vol_take_drop s d, h0, Nat.zero_mul])
  exact Nat.le_trans (Nat.le_mul_of_pos_left _ this) h1

theorem fits_take {s : List Nat} (hf : Fits s) (d : Nat) : Fits (s.take d) := by
  intro k h2 hk
  rw [List.length_take] at hk
  rw [List.take_take]
  exact hf _ (by omega) (by omega)

/-- The parts of a matrix. -/
theorem eachMatrix_items {m : Mat α} (hm : (V.mat m).Ok) {d : Nat} (hd0 : 0 < d) (hd : d ≤ m.shape.length) (hg : NoGap (.mat m) d) :
    ∃ xs, eachMatrix m d = .ok (xs.map .ok) ∧ Items (.mat m) d xs := by
  have hlen := hm.1.len
  have hvs : (V.mat m).shape = m.shape := rfl
  unfold eachMatrix
  by_cases he : d = m.shape.length
  · rw [if_pos he]
    refine ⟨m.data.map .elem, by simp, ⟨by rw [hvs, he, List.take_length]; simpa using hlen, ?_⟩⟩
    intro c hc
    rw [hvs, he, List.take_length] at hc ⊢
    have hb := ravel_lt hc
    rw [← hlen] at hb
    refine ⟨.elem m.data[ravel m.shape c], by simp [hb], ⟨trivial, by simp [V.Plain, V.isMat, V.shape], ?_, ?_⟩⟩
    · rw [inB_length hc]; simp [V.shape]
    · intro j
      cases j with
      | nil => rw [List.append_nil, at_data (v := .mat m) hc]; simp [V.at, V.shape, InB, V.data, ravel, hb]
      | cons a j =>
        have h1 : (V.mat m).at (c ++ a :: j) = none := by
          unfold V.at
          rw [if_neg]
          intro h
          have := inB_length h
          rw [hvs] at this
          have h2 := inB_length hc
          simp at this
          omega
        rw [h1]; simp [V.at, V.shape, InB]
  · rw [if_neg he]
    by_cases h0 : vol m.shape = 0
    · have hz : m.data.length = 0 := by rw [hlen, h0]
      rw [if_neg (by omega), bind_ok, if_neg (by omega), hz]
      refine ⟨[], by simp, ?_, ?_⟩
      · have : vol ((V.mat m).shape.take d) = 0 := by
          rcases Nat.eq_zero_or_pos (vol ((V.mat m).shape.take d)) with h | h
          · exact h
          · exact absurd h0 (hg (by omega))
        rw [this]; rfl
      · intro c hc
        have h1 := ravel_lt hc
        have : vol ((V.mat m).shape.take d) ≠ 0 := by omega
        exact absurd h0 (hg this)
    · have hpos : 0 < m.data.length := by rw [hlen]; omega
      have hvd := vol_take_drop m.shape d
      have hsz : 0 < vol (m.shape.drop d) := Nat.pos_of_ne_zero fun h => h0 (by rw [hvd, h, Nat.mul_zero])
      rw [if_pos hpos]
      have he1 : eachSize m.data.length (m.shape.take d) = .ok (vol (m.shape.drop d)) := by
        rw [hlen, hvd]
        exact eachSize_eq (fun x hx => vol_ne_zero h0 x (List.mem_of_mem_take hx))
      rw [he1, bind_ok, if_neg (by omega)]
      generalize hn : vol (m.shape.take d) = n at *
      generalize hw : vol (m.shape.drop d) = w at *
      have hln : m.data.length = n * w := by rw [hlen, hvd]
      have hcount : (m.data.length + w - 1) / w = n := by
        rw [hln, Nat.add_sub_assoc (by omega), Nat.mul_comm, Nat.mul_add_div hsz, Nat.div_eq_of_lt (by omega)]; omega
      rw [hcount]
      let s := fun k => if d = m.shape.length - 1 then V.vec ((m.data.drop (k * w)).take w) else V.mat ⟨m.shape.drop d, (m.data.drop (k * w)).take w⟩
      have hslice : ∀ k, k < n → ((m.data.drop (k * w)).take w).length = w := by
        intro k hk
        have : (k + 1) * w ≤ n * w := Nat.mul_le_mul_right w (by omega)
        rw [Nat.add_mul] at this
        simp only [List.length_take, List.length_drop]
        omega
      have hle : ∀ k, k < n → k * w + w ≤ m.data.length := by
        intro k hk
        have : (k + 1) * w ≤ n * w := Nat.mul_le_mul_right w (by omega)
        rw [Nat.add_mul] at this
        omega
      have hfd := fits_drop hm.1.fits d h0
      have hnil : m.shape.drop d ≠ [] := by
        intro h
        have := congrArg List.length h
        simp at this
        omega
      have hpart : ∀ k, k < n → eachPart m d (k * w) w = .ok (s k) := by
        intro k hk
        unfold eachPart
        rw [if_neg (by have := hle k hk; omega)]
        by_cases h1 : d = m.shape.length - 1
        · simp only [s]; rw [if_pos h1, if_pos h1]
        · simp only [s]; rw [if_neg h1, if_neg h1, newMatrix_fits hnil (by rw [hslice k hk, hw]) hfd, bind_ok]
      have hwl : w ≤ m.data.length := by
        rcases Nat.eq_zero_or_pos n with h | h
        · rw [hln, h, Nat.zero_mul] at hpos; omega
        · rw [hln]; exact Nat.le_mul_of_pos_left w h
      refine ⟨(List.range n).map s, ?_, ?_⟩
      · congr 1
        rw [List.map_map]
        apply List.map_congr_left
        intro k hk
        exact hpart k (List.mem_range.mp hk)
      · refine ⟨by simp [hvs, hn], ?_⟩
        intro c hc
        rw [hvs] at hc ⊢
        have hb := ravel_lt hc
        rw [hn] at hb
        have hcl : c.length = d := by rw [inB_length hc, List.length_take]; omega
        generalize hk : ravel (m.shape.take d) c = k at hb
        refine ⟨s k, by simp [hb], ?_⟩
        have hsh : (s k).shape = m.shape.drop d := by
          by_cases h1 : d = m.shape.length - 1
          · simp only [s]; rw [if_pos h1]
            have hl1 : (m.shape.drop d).length = 1 := by rw [List.length_drop]; omega
            match hmd : m.shape.drop d, hl1 with
            | [a], _ =>
              rw [hmd] at hw
              simp [vol] at hw
              simp only [V.shape, hslice k hb, hw]
          · simp only [s]; rw [if_neg h1]; rfl
        have hdt : (s k).data = (m.data.drop (k * w)).take w := by
          by_cases h1 : d = m.shape.length - 1
          · simp only [s]; rw [if_pos h1]; rfl
          · simp only [s]; rw [if_neg h1]; rfl
        refine ⟨?_, ?_, by rw [hcl, hvs, hsh], ?_⟩
        · by_cases h1 : d = m.shape.length - 1
          · simp only [s]; rw [if_pos h1]
            simp only [V.Ok, hslice k hb]
            exact Nat.le_trans hwl hm.2.1
          · simp only [s]; rw [if_neg h1]
            exact ⟨⟨⟨hnil, by rw [hw]; exact hslice k hb⟩, hfd⟩, by
              show ((m.data.drop (k * w)).take w).length ≤ _
              rw [hslice k hb]; exact Nat.le_trans hwl hm.2.1, fun x hx => hm.2.2 x (List.mem_of_mem_drop hx)⟩
        · unfold V.Plain
          rw [hsh, List.length_drop]
          by_cases h1 : d = m.shape.length - 1
          · simp only [s]; rw [if_pos h1]; simp [V.isMat]; omega
          · simp only [s]; rw [if_neg h1]; simp [V.isMat]; omega
        · intro j
          have hiff : InB (m.shape.drop d) j ↔ InB m.shape (c ++ j) := by
            constructor
            · intro h
              have := inB_append hc h
              rwa [List.take_append_drop] at this
            · intro h
              have h' : InB (m.shape.take d ++ m.shape.drop d) (c ++ j) := by rw [List.take_append_drop]; exact h
              obtain ⟨a, b, h1, h2, h3⟩ := inB_split2 h'
              have : a.length = c.length := by rw [inB_length h2, inB_length hc]
              obtain ⟨rfl, rfl⟩ := List.append_inj h1 this.symm
              exact h3
          by_cases hj : InB (m.shape.drop d) j
          · have hj2 := hiff.mp hj
            rw [at_data (v := s k) (by rw [hsh]; exact hj), at_data (v := .mat m) hj2, hdt, hsh]
            show _ = m.data[ravel m.shape (c ++ j)]?
            have : ravel m.shape (c ++ j) = k * w + ravel (m.shape.drop d) j := by
              have := ravel_append (m.shape.take d) (m.shape.drop d) c j (inB_length hc)
              rw [List.take_append_drop] at this
              rw [this, hk, hw]
            have hjl := ravel_lt hj
            rw [hw] at hjl
            rw [this, List.getElem?_take, if_pos hjl, List.getElem?_drop]
          · unfold V.at
            rw [if_neg (by rw [hsh]; exact hj), hvs, if_neg (fun h => hj (hiff.mpr h))]

/-- The parts of any value but a single one. -/
theorem eachValue_items {v : V α} (hv : v.Ok) (hp : v.Plain) {d : Nat} (hd : d ≤ v.shape.length) (hg : NoGap v d) :
    ∃ xs, eachValue v d = .ok (xs.map .ok) ∧ Items v d xs := by
  unfold eachValue
  by_cases h0 : d = 0
  · rw [if_pos h0]
    subst h0
    refine ⟨[v], rfl, by simp [vol], ?_⟩
    intro c hc
    match c, hc with
    | [], _ => exact ⟨v, by simp [ravel], hv, hp, by simp, by simp⟩
  · rw [if_neg h0]
    cases v with
    | elem x => simp [V.shape] at hd; omega
    | vec l =>
      have h1 : d = 1 := by simp [V.shape] at hd; omega
      subst h1
      refine ⟨l.map .elem, by simp, by simp [V.shape, vol], ?_⟩
      intro c hc
      match c, hc with
      | [i], ⟨hi, _⟩ =>
        refine ⟨.elem l[i], by simp [V.shape, ravel, vol, hi], trivial, by simp [V.Plain, V.isMat, V.shape], by simp [V.shape], ?_⟩
        intro j
        cases j with
        | nil => simp [V.at, V.shape, InB, V.data, ravel, vol, hi]
        | cons a j => simp [V.at, V.shape, InB]
    | mat m =>
      have hd' : d ≤ m.shape.length := hd
      show ∃ xs, (if d > m.shape.length then R.crash else eachMatrix m d) = _ ∧ _
      rw [if_neg (by omega)]
      exact eachMatrix_items hv (by omega) hd' hg

theorem toMat_shape [Wide α] {v : V α} (h : v.Ok) (hs : v.shape ≠ []) : ∃ m, v.toMat = .ok m ∧ m.shape = v.shape := by
  obtain ⟨m, h1, _, _, h2, _⟩ := toMat_any h
  refine ⟨m, h1, ?_⟩
  rcases h2 with h2 | h2
  · rw [h2]
    cases v with
    | elem x => simp [V.shape] at hs
    | vec l => rfl
    | mat m => rfl
  · exact absurd h2.1 hs

theorem items_length {v : V α} {d : Nat} {xs : List (V α)} (h : Items v d xs) : xs.length = vol (v.shape.take d) := h.len

theorem each_eq [Wide α] (f : List Char → V α → σ → R (β × σ)) {v : V α} (hv : v.Ok) (hp : v.Plain) (hs : v.shape ≠ []) {name : List Char}
    (hn : name.getLast? ≠ some '@') {k : Nat} (hk : 1 ≤ k) (hg : NoGap v (min v.shape.length k)) (s : σ) :
    ∃ xs, Items v (min v.shape.length k) xs ∧ Each f (name ++ List.replicate k '@') v s =
      (seqR (f (name ++ List.replicate (k - v.shape.length) '@')) xs s).bind fun r => .ok (arrange (v.shape.take k) r.1, r.2) := by
  obtain ⟨m, h1, h2⟩ := toMat_shape hv hs
  obtain ⟨xs, h3, h4⟩ := eachValue_items hv hp (Nat.min_le_left _ _) hg
  refine ⟨xs, h4, ?_⟩
  have hpos : 0 < v.shape.length := List.length_pos_iff.mpr hs
  have hd : leadAts m.shape.length (name ++ List.replicate k '@').reverse = min v.shape.length k := by
    rw [List.reverse_append, List.reverse_replicate, h2]
    exact leadAts_eq (by rw [List.head?_reverse]; exact hn) _ _
  have hname : (name ++ List.replicate k '@').take ((name ++ List.replicate k '@').length - min v.shape.length k) =
      name ++ List.replicate (k - v.shape.length) '@' := by
    rw [List.take_append, List.take_of_length_le (by simp; omega), List.take_replicate]
    congr 2
    simp
    omega
  unfold Each
  rw [h1, bind_ok]
  simp only [hd, hname]
  rw [if_neg (by omega), h3, bind_ok, eachLoop_eq, bind_assoc]
  simp only [bind_ok, List.nil_append]
  have htk : v.shape.take k = v.shape.take (min v.shape.length k) := by
    rw [Nat.min_comm, ← List.take_take, List.take_length]
  rw [htk, h2]
  cases hr : seqR (f (name ++ List.replicate (k - v.shape.length) '@')) xs s with
  | ok r =>
    simp only [bind_ok]
    have hl := seqR_length _ hr
    unfold arrange
    have hlt : (v.shape.take (min v.shape.length k)).length = min v.shape.length k := by rw [List.length_take]; omega
    rw [hlt]
    by_cases hd1 : min v.shape.length k = 1
    · rw [if_pos hd1, if_pos hd1]
    · rw [if_neg hd1, if_neg hd1, newMatrix_fits (by
        intro h; rw [h] at hlt; simp at hlt; omega) (by rw [hl, h4.len]) (fits_take (by
          cases v with
          | elem x => simp [V.shape] at hs
          | vec l => intro k h2 hk; simp [V.shape] at hk; omega
          | mat m => exact hv.1.fits) _), bind_ok]
  | err e => rfl
  | crash => rfl
  | hang => rfl

theorem allPairs_length (xs : List α) (ys : List γ) : (allPairs xs ys).length = xs.length * ys.length := by
  induction xs with
  | nil => simp [allPairs]
  | cons x xs ih =>
    have : (allPairs (x :: xs) ys) = ys.map (fun y => (x, y)) ++ allPairs xs ys := rfl
    rw [this, List.length_append, ih, List.length_map, List.length_cons, Nat.add_mul]; omega

theorem allPairs_get (xs : List α) (ys : List γ) : ∀ (i j : Nat), j < ys.length → (allPairs xs ys)[i * ys.length + j]? =
    (xs[i]?).bind fun x => (ys[j]?).map fun y => (x, y) := by
  induction xs with
  | nil => intro i j _; simp [allPairs]
  | cons x xs ih =>
    intro i j hj
    have : (allPairs (x :: xs) ys) = ys.map (fun y => (x, y)) ++ allPairs xs ys := rfl
    rw [this]
    cases i with
    | zero => rw [List.getElem?_append_left (by simpa using hj)]; simp
    | succ i =>
      rw [List.getElem?_append_right (by simp [Nat.add_mul]; omega), List.length_map,
        show (i + 1) * ys.length + j - ys.length = i * ys.length + j by rw [Nat.add_mul]; omega, ih i j hj]
      simp

theorem toMat_take [Wide α] {v : V α} (h : v.Ok) {k : Nat} (hs : 1 ≤ k → v.shape ≠ []) : ∃ m, v.toMat = .ok m ∧ min m.shape.length k = min v.shape.length k ∧
    m.shape.take (min v.shape.length k) = v.shape.take k := by
  rcases Nat.eq_zero_or_pos k with rfl | hk
  · obtain ⟨m, h1, _⟩ := toMat_any h
    exact ⟨m, h1, by simp, by simp⟩
  · obtain ⟨m, h1, h2⟩ := toMat_shape h (hs hk)
    refine ⟨m, h1, by rw [h2], ?_⟩
    rw [h2, Nat.min_comm, ← List.take_take, List.take_length]

theorem binaryEach_eq [Wide α] [Wide γ] (f : List Char → V α → V γ → σ → R (β × σ)) {u : V α} {v : V γ} (hu : u.Ok) (hv : v.Ok) (pu : u.Plain) (pv : v.Plain)
    {name : List Char} (hn : name ≠ []) (hn1 : name.head? ≠ some '@') (hn2 : name.getLast? ≠ some '@') {k j : Nat} (hkj : 1 ≤ k + j)
    (hku : 1 ≤ k → u.shape ≠ []) (hjv : 1 ≤ j → v.shape ≠ []) (gu : NoGap u (min u.shape.length k)) (gv : NoGap v (min v.shape.length j))
    (hf : Fits (u.shape.take k ++ v.shape.take j)) (s : σ) :
    ∃ xs ys, Items u (min u.shape.length k) xs ∧ Items v (min v.shape.length j) ys ∧
      BinaryEach f (List.replicate k '@' ++ name ++ List.replicate j '@') u v s =
      (seqR (fun p => f (List.replicate (k - u.shape.length) '@' ++ name ++ List.replicate (j - v.shape.length) '@') p.1 p.2) (allPairs xs ys) s).bind
        fun r => .ok (arrange (u.shape.take k ++ v.shape.take j) r.1, r.2) := by
  obtain ⟨l, l1, l2, l3⟩ := toMat_take hu hku
  obtain ⟨r, r1, r2, r3⟩ := toMat_take hv hjv
  obtain ⟨xs, x1, x2⟩ := eachValue_items hu pu (Nat.min_le_left _ k) gu
  obtain ⟨ys, y1, y2⟩ := eachValue_items hv pv (Nat.min_le_left _ j) gv
  refine ⟨xs, ys, x2, y2, ?_⟩
  have hld : leadAts l.shape.length (List.replicate k '@' ++ name ++ List.replicate j '@') = min u.shape.length k := by
    rw [List.append_assoc, leadAts_eq, l2]
    cases name with
    | nil => exact absurd rfl hn
    | cons c t => simpa using hn1
  have hrd : leadAts r.shape.length (List.replicate k '@' ++ name ++ List.replicate j '@').reverse = min v.shape.length j := by
    rw [List.reverse_append, List.reverse_replicate, leadAts_eq, r2]
    rw [List.head?_reverse, List.getLast?_append]
    cases hl : name.getLast? with
    | none => exact absurd (List.getLast?_eq_none_iff.mp hl) hn
    | some c => rw [hl] at hn2; simpa using hn2
  have hlen : (List.replicate k '@' ++ name ++ List.replicate j '@').length = k + name.length + j := by simp; omega
  have hposk : 1 ≤ k → 0 < u.shape.length := fun h => List.length_pos_iff.mpr (hku h)
  have hposj : 1 ≤ j → 0 < v.shape.length := fun h => List.length_pos_iff.mpr (hjv h)
  have hname : ((List.replicate k '@' ++ name ++ List.replicate j '@').take (k + name.length + j - min v.shape.length j)).drop (min u.shape.length k) =
      List.replicate (k - u.shape.length) '@' ++ name ++ List.replicate (j - v.shape.length) '@' := by
    rw [List.take_append, List.take_of_length_le (by simp; omega), List.take_replicate, List.append_assoc, List.drop_append,
      List.drop_replicate, List.drop_append]
    simp only [List.length_replicate, List.length_append]
    rw [show min u.shape.length k - k = 0 by omega]
    simp only [List.drop_zero, Nat.zero_sub, List.append_assoc]
    congr 2
    · omega
    · congr 2
      omega
  unfold BinaryEach
  rw [l1, bind_ok]
  simp only [hld]
  rw [if_neg (by
    rintro ⟨h0, h1⟩
    rcases Nat.eq_zero_or_pos k with hk | hk
    · subst hk
      cases name with
      | nil => exact hn rfl
      | cons c t => simp at h1 hn1; exact hn1 h1
    · have := hposk hk; omega), x1, bind_ok, r1, bind_ok]
  simp only [hrd]
  rw [if_neg (by
    rintro ⟨h0, h1⟩
    rcases Nat.eq_zero_or_pos j with hk | hk
    · subst hk
      rw [List.replicate_zero, List.append_nil, List.getLast?_append] at h1
      cases hl : name.getLast? with
      | none => exact hn (List.getLast?_eq_none_iff.mp hl)
      | some c => rw [hl] at hn2 h1; simp at h1 hn2; exact hn2 h1
    · have := hposj hk; omega), y1, bind_ok, if_neg (by rw [hlen]; omega), hlen, hname, eachLoop2_eq, bind_assoc, l3, r3]
  simp only [bind_ok, List.nil_append]
  cases hr : seqR (fun p => f (List.replicate (k - u.shape.length) '@' ++ name ++ List.replicate (j - v.shape.length) '@') p.1 p.2) (allPairs xs ys) s with
  | ok r =>
    simp only [bind_ok]
    have hl := seqR_length _ hr
    unfold arrange
    have hlt : (u.shape.take k ++ v.shape.take j).length = min u.shape.length k + min v.shape.length j := by simp; omega
    rw [hlt]
    by_cases hd1 : min u.shape.length k + min v.shape.length j = 1
    · rw [if_pos hd1, if_pos hd1]
    · have ht1 : u.shape.take (min u.shape.length k) = u.shape.take k := by rw [Nat.min_comm, ← List.take_take, List.take_length]
      have ht2 : v.shape.take (min v.shape.length j) = v.shape.take j := by rw [Nat.min_comm, ← List.take_take, List.take_length]
      rw [if_neg hd1, if_neg hd1, newMatrix_fits (by
        intro h; rw [h] at hlt; simp at hlt
        omega) (by rw [hl, allPairs_length, x2.len, y2.len, vol_append, ht1, ht2]) hf, bind_ok]
  | err e => rfl
  | crash => rfl
  | hang => rfl

/-- Results of an operator without state. -/
theorem seqR_pure (g : α → R β) : ∀ {xs : List α} {ys : List β}, seqR (fun x (_ : Unit) => (g x).bind fun y => .ok (y, ())) xs () = .ok (ys, ()) →
    ∀ (i : Nat) (x : α), xs[i]? = some x → ∃ y, g x = .ok y ∧ ys[i]? = some y
  | [], ys, h, i, x, hi => by simp at hi
  | a :: xs, ys, h, i, x, hi => by
    simp only [seqR, bind_assoc, bind_ok] at h
    obtain ⟨y, h1, h2⟩ := bind_eq_ok.mp h
    obtain ⟨t, h3, h4⟩ := bind_eq_ok.mp h2
    cases h4
    cases i with
    | zero => simp at hi; subst hi; exact ⟨y, h1, by simp⟩
    | succ i => simp at hi; simpa using seqR_pure g h3 i x hi

theorem seqR_pure_ok (g : α → R β) : ∀ {xs : List α}, (∀ x ∈ xs, ∃ y, g x = .ok y) →
    ∃ ys, seqR (fun x (_ : Unit) => (g x).bind fun y => .ok (y, ())) xs () = .ok (ys, ())
  | [], _ => ⟨[], rfl⟩
  | a :: xs, h => by
    obtain ⟨y, hy⟩ := h a (by simp)
    obtain ⟨ys, hys⟩ := seqR_pure_ok g (xs := xs) (fun x hx => h x (by simp [hx]))
    exact ⟨y :: ys, by simp only [seqR, hy, bind_ok, hys]⟩

theorem arrange_shape {s : List Nat} {l : List β} (h : l.length = vol s) : (arrange s l).shape = s := by
  unfold arrange
  split
  · next h1 =>
    match s, h1 with
    | [n], _ => simp [vol] at h; simp [V.shape, h]
  · rfl

theorem arrange_data (s : List Nat) (l : List β) : (arrange s l).data = l := by
  unfold arrange; split <;> rfl

theorem arrange_at {s : List Nat} {l : List β} (h : l.length = vol s) {c : List Nat} (hc : InB s c) : (arrange s l).at c = l[ravel s c]? := by
  rw [at_data (by rw [arrange_shape h]; exact hc), arrange_shape h, arrange_data]

end Verif.Arr
