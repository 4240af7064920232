import Verif.Arr.MixLemmas

/-!
# C62: split and mix
-/

namespace Verif.Arr
variable {α : Type}

/-! ## Split -/

theorem shrink_shape (m : Mat α) (hm : m.data.length = vol m.shape) : m.shrink.shape = m.shape ∧ m.shrink.data = m.data := by
  unfold Mat.shrink
  by_cases h : m.shape.length = 1
  · rw [if_pos h]
    obtain ⟨d, hd⟩ := List.length_eq_one_iff.mp h
    refine ⟨?_, rfl⟩
    rw [hd] at hm ⊢
    simp [V.shape, hm, vol]
  · rw [if_neg h]
    exact ⟨rfl, rfl⟩

/-- C62: `split` of an array of rank two or more has its last axis moved into the elements. -/
theorem C62_split {m : Mat α} (hm : (V.mat m).Ok) {s : List Nat} {n : Nat} (hs : s ≠ []) (hsh : m.shape = s ++ [n]) :
    ∃ r, split m = .ok r ∧ r.shape = s ∧ ∀ c, InB s c → ∃ row, r.at c = some (.vec row) ∧ row.length = n ∧ ∀ i, i < n → row[i]? = m.at (c ++ [i]) := by
  have hd : ∀ d ∈ s, d ≤ maxInt := fun d hd => hm.2.2 d (by rw [hsh]; simp [hd])
  have hl : m.data.length = vol s * n := by rw [hm.1.len, hsh, vol_snoc']
  obtain ⟨e1, e2⟩ := shrink_shape (⟨s, (List.range (vol s)).map fun i => V.vec ((m.data.drop (i * n)).take n)⟩ : Mat (V α)) (by simp)
  refine ⟨_, split_ok hm.1 hs hsh hd, e1, ?_⟩
  intro c hc
  have hr := ravel_lt hc
  have hle : (ravel s c + 1) * n ≤ vol s * n := Nat.mul_le_mul_right n hr
  rw [Nat.succ_mul] at hle
  refine ⟨(m.data.drop (ravel s c * n)).take n, ?_, ?_, ?_⟩
  · rw [at_data (by rw [e1]; exact hc), e1, e2]
    simp [hr]
  · simp; omega
  · intro i hi
    unfold Mat.at
    rw [hsh, if_pos ((inB_snoc _ _ _ _).mpr ⟨hc, hi⟩), ravel_snoc _ _ _ _ (inB_length hc), List.getElem?_take, if_pos hi, List.getElem?_drop]

example : split (⟨[2, 3], [1, 2, 3, 4, 5, 6]⟩ : Mat Nat) = .ok (.vec [.vec [1, 2, 3], .vec [4, 5, 6]]) := by decide +kernel

/-- C62: `split` of rank one is refused. -/
theorem C62_split_refused {m : Mat α} (h : m.shape.length < 2) : ∃ e, split m = .err e := ⟨_, by unfold split; rw [if_pos h]⟩

example : (⟨[2], [1, 2]⟩ : Mat Nat).shape.length < 2 := by decide

/-! ## Mix -/

/-- C62 in full, for `mix` of a matrix or vector whose elements are arrays of any shapes. -/
def C62_statement : Prop :=
  ∀ (v : V (V Nat)), v.Ok → v.shape ≠ [] → (∀ e ∈ v.data, e.Ok) → Fits (v.shape ++ topShape (topRank v.data) v.data) →
    ∃ r, mixOp (fun _ => 0) v = .ok r ∧ Mixed (fun _ => 0) v (topShape (topRank v.data) v.data) r

/-- The full statement fails: of a vector of 5 mixed with a 2 by 3 matrix two elements are lost. -/
theorem C62_violated : ¬ C62_statement := by
  intro h
  obtain ⟨r, h1, h2⟩ := h (.vec [.vec [1, 2, 3, 4, 5], .mat ⟨[2, 3], [6, 7, 8, 9, 10, 11]⟩]) (by decide) (by decide) (by decide) (by decide)
  have h3 : mixOp (fun _ => 0) (.vec [.vec [1, 2, 3, 4, 5], .mat ⟨[2, 3], [6, 7, 8, 9, 10, 11]⟩]) =
      (.ok (.mat ⟨[2, 5, 3], [1, 2, 3, 0, 0, 0, 0, 0, 0, 0, 0, 0, 0, 0, 0, 6, 7, 8, 9, 10, 11, 0, 0, 0, 0, 0, 0, 0, 0, 0]⟩) : R (V Nat)) := by decide +kernel
  rw [h3] at h1
  cases h1
  have := h2.shape
  revert this
  decide

/-- The loss, directly: 4 and 5 are not in the result. -/
theorem C62_lost_violated : ∃ r, mixOp (fun _ => 0) (.vec [.vec [1, 2, 3, 4, 5], .mat ⟨[2, 3], [6, 7, 8, 9, 10, 11]⟩]) = (.ok (.mat r) : R (V Nat)) ∧ 4 ∉ r.data ∧ 5 ∉ r.data := by
  refine ⟨⟨[2, 5, 3], [1, 2, 3, 0, 0, 0, 0, 0, 0, 0, 0, 0, 0, 0, 0, 6, 7, 8, 9, 10, 11, 0, 0, 0, 0, 0, 0, 0, 0, 0]⟩, ?_, ?_, ?_⟩ <;> decide +kernel

/-- The result depends on the order of the elements in more than their order: exchanged, the shape of the result is another one. -/
theorem C62_order_violated :
    mixOp (fun _ => 0) (.vec [.mat ⟨[2, 3], [6, 7, 8, 9, 10, 11]⟩, .vec [1, 2, 3, 4, 5]]) =
      (.ok (.mat ⟨[2, 2, 5], [6, 7, 8, 0, 0, 9, 10, 11, 0, 0, 1, 2, 3, 4, 5, 0, 0, 0, 0, 0]⟩) : R (V Nat)) := by decide +kernel

/-- It fails in another way: matrices of one element are not extended, so there is an error with larger ones. -/
theorem C62_ones_violated : mixOp (fun _ => 0) (.vec [.mat ⟨[1, 1], [5]⟩, .mat ⟨[2, 2], [1, 2, 3, 4]⟩]) = (.err "inconsistent shape and data size" : R (V Nat)) := by decide +kernel

theorem topRank_le : ∀ {l : List (V α)} {e : V α}, e ∈ l → e.shape.length ≤ topRank l
  | x :: l, e, h => by
    simp only [topRank, List.foldr_cons]
    rcases List.mem_cons.mp h with rfl | h
    · exact Nat.le_max_left _ _
    · exact Nat.le_trans (topRank_le h) (Nat.le_max_right _ _)

theorem topRank_pos : ∀ {l : List (V α)}, 1 ≤ topRank l → ∃ e ∈ l, e.shape ≠ []
  | [], h => by simp [topRank] at h
  | x :: l, h => by
    simp only [topRank, List.foldr_cons] at h
    by_cases hx : x.shape = []
    · rw [hx] at h
      obtain ⟨e, h1, h2⟩ := topRank_pos (l := l) (by unfold topRank; simpa using h)
      exact ⟨e, by simp [h1], h2⟩
    · exact ⟨x, by simp, hx⟩

theorem inB_mono {p s : List Nat} (h : List.Forall₂ (· ≤ ·) p s) : ∀ d, InB p d → InB s d := by
  induction h with
  | nil => exact fun d h => h
  | cons hab _ ih =>
    intro d h
    cases d with
    | nil => exact h.elim
    | cons i d => exact ⟨Nat.lt_of_lt_of_le h.1 hab, ih d h.2⟩

theorem prodCheck_total : ∀ (l : List Nat) (n : Nat), (∃ r, prodCheck n l = .ok r) ∨ ∃ e, prodCheck n l = .err e
  | [], n => .inl ⟨n, rfl⟩
  | d :: l, n => by
    simp only [prodCheck]
    split
    · exact .inr ⟨_, rfl⟩
    · exact prodCheck_total l _

theorem newMatrix_not_crash {β : Type} (s : List Nat) (d : List β) : newMatrix s d ≠ .crash ∧ newMatrix s d ≠ .hang := by
  unfold newMatrix
  cases s with
  | nil => simp only [bind_ok]; split <;> simp
  | cons a s =>
    simp only
    rcases prodCheck_total s a with ⟨r, h⟩ | ⟨e, h⟩
    · rw [h, bind_ok]; split <;> simp
    · rw [h]; simp [R.bind]

/-- The rank of what is given to `mix` as a matrix. -/
theorem mixOp_mat (fill : List α → α) {v : V (V α)} (hv : v.Ok) (hs : v.shape ≠ []) : ∃ m : Mat (V α), m.Ok ∧ m.shape = v.shape ∧ m.data = v.data ∧
    ∀ r : Mat α, mix fill m = .ok r → r.shape ≠ [] → r.data.length = vol r.shape → ∃ r', mixOp fill v = .ok r' ∧ r'.shape = r.shape ∧ r'.data = r.data := by
  cases v with
  | elem x => exact absurd rfl hs
  | vec l =>
    refine ⟨⟨[l.length], l⟩, ⟨⟨by simp, by simp [vol]⟩, by intro k a b; simp at b; omega⟩, rfl, rfl, ?_⟩
    intro r hr _ hl
    obtain ⟨e1, e2⟩ := shrink_shape r hl
    refine ⟨r.shrink, ?_, e1, e2⟩
    simp only [mixOp]
    rw [newMatrix_fits (by simp) (by simp [vol]) (by intro k a b; simp at b; omega), bind_ok, hr, bind_ok]
  | mat m =>
    refine ⟨m, hv.1, rfl, rfl, ?_⟩
    intro r hr _ hl
    exact ⟨.mat r, by simp only [mixOp]; rw [hr, bind_ok], rfl, rfl⟩

/-- C62 for `mix` when all elements have one rank (single values may be among vectors), and matrices of one element are not among larger ones. -/
theorem C62_mix_partial (fill : List α → α) {v : V (V α)} (hv : v.Ok) (hs : v.shape ≠ []) (ho : ∀ e ∈ v.data, e.Ok) (hsr : SameRank (topRank v.data) v.data)
    (h1 : ∀ x, V.mat x ∈ v.data → (∀ d ∈ x.shape, d = 1) → ∀ d ∈ topShape (topRank v.data) v.data, d = 1)
    (hf : Fits (v.shape ++ topShape (topRank v.data) v.data)) :
    ∃ r, mixOp fill v = .ok r ∧ Mixed fill v (topShape (topRank v.data) v.data) r := by
  obtain ⟨m, m1, m2, m3, m4⟩ := mixOp_mat fill hv hs
  have hslen := topShape_length (topRank v.data) v.data (fun e he => topRank_le he)
  by_cases hr : 1 ≤ topRank v.data
  · obtain ⟨e0, z1, z2⟩ := topRank_pos hr
    rw [← m2, ← m3] at hf
    rw [← m3] at ho hsr h1 z1 hslen hr
    obtain ⟨t, t1, t2, t3⟩ := mix_ok fill m1 ho hr hsr z1 z2 h1 hf
    have hdl : t.data.length = vol t.shape := by
      unfold mix at t1
      rw [allScalars_none z1 z2] at t1
      dsimp only at t1
      obtain ⟨s', b1, b2⟩ := R.bind_eq_ok.1 t1
      obtain ⟨d', b3, b4⟩ := R.bind_eq_ok.1 b2
      have := newMatrix_Ok (by simp [m1.rank]) b4
      exact this.1.len
    obtain ⟨r, r1, r2, r3⟩ := m4 t t1 (by rw [t2]; simp [m1.rank]) hdl
    rw [← m3]
    refine ⟨r, r1, by rw [r2, t2, m2], ?_⟩
    intro c hc
    have hc' : InB m.shape c := by rw [m2]; exact hc
    have hcl := ravel_lt hc'
    rw [← m1.len] at hcl
    have hrat : ∀ d, InB (topShape (topRank m.data) m.data) d → r.at (c ++ d) = t.data[ravel t.shape (c ++ d)]? := by
      intro d hd
      rw [at_data (by rw [r2, t2]; exact inB_append hc' hd), r2, r3]
    generalize hE : m.data[ravel m.shape c] = e
    have hE' : m.data[ravel m.shape c]? = some e := by rw [List.getElem?_eq_getElem hcl, hE]
    have heM : e ∈ m.data := by rw [← hE]; exact List.getElem_mem hcl
    have hle := topRank_le heM
    refine ⟨e, by rw [at_data hc, ← m3, ← m2, hE'], ?_, ?_⟩
    · intro d hd
      have hp : InB (padShape (topRank m.data) e) (List.replicate (topRank m.data - e.shape.length) 0 ++ d) := inB_append (inB_zeros _) hd
      have hin : InB (topShape (topRank m.data) m.data) (List.replicate (topRank m.data - e.shape.length) 0 ++ d) := by
        have hall := pad_le_top (topRank m.data) m.data (fun e he => topRank_le he) e heM
        exact inB_mono hall _ hp
      rw [hslen, hrat _ hin]
      obtain ⟨e', q1, q2⟩ := t3 c _ hc' hin
      rw [hE'] at q1
      cases q1
      rw [q2, if_pos hp, at_data hd]
      unfold padShape
      rw [ravel_append _ _ _ _ (by simp), ravel_zeros, Nat.zero_mul, Nat.zero_add]
    · intro d hd hno
      rw [hrat d hd]
      obtain ⟨e', q1, q2⟩ := t3 c d hc' hd
      rw [hE'] at q1
      cases q1
      rw [q2, if_neg]
      intro hp
      obtain ⟨d', g1, g2⟩ := inB_pad_elim _ hp
      exact hno ⟨d', g1, by rw [hslen]; exact g2⟩
  · have h0 : topRank v.data = 0 := by omega
    have hall : ∀ e ∈ m.data, e.shape = [] := by
      intro e he
      rw [m3] at he
      have := topRank_le he
      rw [h0] at this
      exact List.length_eq_zero_iff.mp (by omega)
    obtain ⟨xs, x1, x2⟩ := allScalars_some (fun e he => ho e (by rw [← m3]; exact he)) hall
    have hts : topShape (topRank v.data) v.data = [] := List.length_eq_zero_iff.mp (by rw [hslen, h0])
    have hxl : xs.length = vol m.shape := by rw [← m1.len, x1]; simp
    obtain ⟨r, r1, r2, r3⟩ := m4 ⟨m.shape, xs⟩ (by unfold mix; rw [x2]) m1.rank hxl
    rw [hts]
    dsimp only at r2 r3
    refine ⟨r, r1, by rw [r2, m2]; simp, ?_⟩
    intro c hc
    have hc' : InB m.shape c := by rw [m2]; exact hc
    have hcl := ravel_lt hc'
    rw [← hxl] at hcl
    refine ⟨.elem xs[ravel m.shape c], ?_, ?_, ?_⟩
    · rw [at_data hc, ← m3, ← m2, x1, List.getElem?_map, List.getElem?_eq_getElem hcl]; rfl
    · intro d hd
      cases d with
      | cons _ _ => exact hd.elim
      | nil =>
        simp only [V.shape, List.length_nil, Nat.sub_self, List.replicate_zero, List.append_nil]
        rw [at_data (by rw [r2]; exact hc'), r2, r3, List.getElem?_eq_getElem hcl]
        rfl
    · intro d hd hno
      cases d with
      | cons _ _ => exact hd.elim
      | nil => exact absurd ⟨[], trivial, rfl⟩ hno

example : mixOp (fun _ => 0) (.vec [.vec [1, 2], .elem 3, .vec [4, 5, 6]]) = (.ok (.mat ⟨[3, 3], [1, 2, 0, 3, 0, 0, 4, 5, 6]⟩) : R (V Nat)) := by decide +kernel
example : topRank [V.vec [1, 2], .elem 3, .vec [4, 5, 6]] = 1 ∧ topShape 1 [V.vec [1, 2], .elem 3, .vec [4, 5, 6]] = [3] := by decide
example : SameRank 1 [V.vec [1, 2], .elem 3, .vec [4, 5, 6]] := by unfold SameRank; decide

/-- C62: a result too large is reported. -/
theorem C62_mix_refused (fill : List α → α) {v : V (V α)} (hv : v.Ok) (hs : v.shape ≠ []) (ho : ∀ e ∈ v.data, e.Ok) (hsr : SameRank (topRank v.data) v.data)
    (hf : ¬ Fits (v.shape ++ topShape (topRank v.data) v.data)) : ∃ e, mixOp fill v = .err e := by
  have hslen := topShape_length (topRank v.data) v.data (fun e he => topRank_le he)
  have hvf : Fits v.shape := by
    cases v with
    | elem x => exact absurd rfl hs
    | vec l => intro k a b; simp [V.shape] at b; omega
    | mat m => exact hv.1.fits
  have hr : 1 ≤ topRank v.data := by
    rcases Nat.eq_zero_or_pos (topRank v.data) with h | h
    · rw [List.length_eq_zero_iff.mp (hslen.trans h), List.append_nil] at hf
      exact absurd hvf hf
    · exact h
  obtain ⟨e0, z1, z2⟩ := topRank_pos hr
  have hne : v.data ≠ [] := by intro h; rw [h] at z1; simp at z1
  have main : ∀ m : Mat (V α), m.shape = v.shape → m.data = v.data → ∃ e, mix fill m = .err e := by
    intro m h1 h2
    unfold mix
    rw [h2, allScalars_none z1 z2]
    dsimp only
    rw [mixShape_eq hr hne ho hsr, bind_ok]
    rcases mixData_total (mixOne fill (topShape (topRank v.data) v.data)) v.data [] (fun e he => mixOne_total fill hr hslen (ho e he) (hsr e he)) with ⟨x, hx⟩ | ⟨e, he⟩
    · rw [hx, bind_ok, h1]
      cases hn : newMatrix (v.shape ++ topShape (topRank v.data) v.data) x with
      | ok r => exact absurd ((newMatrix_ok (by simp [hs])).mp hn).2.2 hf
      | err e => exact ⟨e, rfl⟩
      | crash => exact absurd hn (newMatrix_not_crash _ _).1
      | hang => exact absurd hn (newMatrix_not_crash _ _).2
    · rw [he]; exact ⟨e, rfl⟩
  cases v with
  | elem x => exact absurd rfl hs
  | vec l =>
    obtain ⟨e, he⟩ := main ⟨[l.length], l⟩ rfl rfl
    refine ⟨e, ?_⟩
    simp only [mixOp]
    rw [newMatrix_fits (by simp) (by simp [vol]) (by intro k a b; simp at b; omega), bind_ok, he]
    rfl
  | mat m =>
    obtain ⟨e, he⟩ := main m rfl rfl
    exact ⟨e, by simp only [mixOp]; rw [he]; rfl⟩

example : (∀ e ∈ [V.mat (⟨[0, 50000], []⟩ : Mat Nat), .mat ⟨[50000, 0], []⟩], e.Ok) ∧
    ¬ Fits ([2] ++ topShape 2 [V.mat (⟨[0, 50000], []⟩ : Mat Nat), .mat ⟨[50000, 0], []⟩]) := by decide +kernel

/-- C62: `mix` undoes `split`, if there is any row. -/
theorem C62_mix_split (fill : List α → α) {m : Mat α} (hm : (V.mat m).Ok) (h2 : 2 ≤ m.shape.length) (hne : vol (m.shape.take (m.shape.length - 1)) ≠ 0) :
    (split m).bind (mixOp fill) = .ok (.mat m) := by
  obtain ⟨s, n, hsh⟩ : ∃ s n, m.shape = s ++ [n] := by
    have hx : m.shape ≠ [] := hm.1.rank
    exact ⟨m.shape.dropLast, m.shape.getLast hx, (List.dropLast_concat_getLast hx).symm⟩
  have hs : s ≠ [] := by intro h; rw [hsh, h] at h2; simp at h2
  have hvs : 0 < vol s := by rw [hsh] at hne; simp at hne; omega
  have hd : ∀ d ∈ s, d ≤ maxInt := fun d hd => hm.2.2 d (by rw [hsh]; simp [hd])
  have hl : m.data.length = vol s * n := by rw [hm.1.len, hsh, vol_snoc']
  generalize hrows : ((List.range (vol s)).map fun i => V.vec ((m.data.drop (i * n)).take n)) = rows
  have hrl : rows.length = vol s := by rw [← hrows]; simp
  have hrow : ∀ i, i < vol s → rows[i]? = some (.vec ((m.data.drop (i * n)).take n)) := by
    intro i hi; rw [← hrows]; simp [hi]
  have hmem : ∀ e ∈ rows, ∃ l : List α, e = .vec l ∧ l.length = n := by
    intro e he
    rw [← hrows] at he
    obtain ⟨i, hi, rfl⟩ := List.mem_map.mp he
    have hi' := List.mem_range.mp hi
    have hle : (i + 1) * n ≤ vol s * n := Nat.mul_le_mul_right n hi'
    rw [Nat.succ_mul] at hle
    exact ⟨_, rfl, by simp; omega⟩
  have hn : n ≤ maxInt := hm.2.2 n (by rw [hsh]; simp)
  have hM : (⟨s, rows⟩ : Mat (V α)).Ok := by
    refine ⟨⟨hs, hrl⟩, ?_⟩
    intro k a b
    have := hm.1.fits k a (by rw [hsh]; simp at b ⊢; omega)
    rwa [hsh, List.take_append_of_le_length b] at this
  have hts : ∀ l : List (V α), l ≠ [] → (∀ e ∈ l, ∃ x : List α, e = .vec x ∧ x.length = n) → topShape 1 l = [n] := by
    intro l
    induction l with
    | nil => intro h; exact absurd rfl h
    | cons e l ih =>
      intro _ h
      obtain ⟨x, rfl, hx⟩ := h e (by simp)
      by_cases hl0 : l = []
      · subst hl0; simp [topShape, padShape, V.shape, hx]
      · have := ih hl0 (fun y hy => h y (by simp [hy]))
        simp only [topShape, List.foldr_cons] at this ⊢
        rw [this]
        simp [padShape, V.shape, hx]
  have hrne : rows ≠ [] := by intro h; rw [h] at hrl; simp at hrl; omega
  have hT := hts rows hrne hmem
  have hsr : SameRank 1 rows := by
    intro e he
    obtain ⟨l, rfl, _⟩ := hmem e he
    exact .inl rfl
  obtain ⟨e0, h0⟩ := List.exists_mem_of_ne_nil _ hrne
  obtain ⟨t, t1, t2, t3⟩ := mix_ok fill hM (fun e he => by obtain ⟨l, rfl, h⟩ := hmem e he; show l.length ≤ 2147483647; rw [h]; exact hn) (Nat.le_refl 1) hsr h0
    (by obtain ⟨l, rfl, _⟩ := hmem e0 h0; simp [V.shape]) (fun x hx => by obtain ⟨l, h, _⟩ := hmem _ hx; cases h) (by rw [hT, ← hsh]; exact hm.1.fits)
  dsimp only at t2 t3
  rw [hT] at t2 t3
  have htl : t.data.length = vol t.shape := by
    unfold mix at t1
    rw [allScalars_none h0 (by obtain ⟨l, rfl, _⟩ := hmem e0 h0; simp [V.shape])] at t1
    dsimp only at t1
    obtain ⟨s', b1, b2⟩ := R.bind_eq_ok.1 t1
    obtain ⟨d', b3, b4⟩ := R.bind_eq_ok.1 b2
    exact (newMatrix_Ok (by simp [hs]) b4).1.len
  have htm : t = m := by
    have e1 : t.shape = m.shape := by rw [t2, hsh]
    have e2 : t.data = m.data := by
      apply List.ext_getElem?
      intro k
      by_cases hk : k < vol (s ++ [n])
      · obtain ⟨c, d, hc, hd, hcd⟩ : ∃ c d, InB s c ∧ d < n ∧ unravel (s ++ [n]) k = c ++ [d] := by
          have hin := unravel_inB hk
          generalize unravel (s ++ [n]) k = u at hin
          have hul := inB_length hin
          have hu : u ≠ [] := by intro h; rw [h] at hul; simp at hul
          have hu' := (List.dropLast_concat_getLast hu).symm
          refine ⟨u.dropLast, u.getLast hu, ?_, ?_, hu'⟩
          · rw [hu'] at hin
            exact ((inB_snoc _ _ _ _).mp hin).1
          · rw [hu'] at hin
            exact ((inB_snoc _ _ _ _).mp hin).2
        have hkk : k = ravel s c * n + d := by
          have := ravel_unravel hk
          rw [hcd, ravel_snoc _ _ _ _ (inB_length hc)] at this
          exact this.symm
        obtain ⟨e, q1, q2⟩ := t3 c [d] hc ⟨hd, trivial⟩
        rw [hrow _ (ravel_lt hc)] at q1
        cases q1
        have hlen : ((m.data.drop (ravel s c * n)).take n).length = n := by
          have hle : (ravel s c + 1) * n ≤ vol s * n := Nat.mul_le_mul_right n (ravel_lt hc)
          rw [Nat.succ_mul] at hle
          simp; omega
        rw [t2, ravel_snoc _ _ _ _ (inB_length hc), ← hkk] at q2
        rw [q2, if_pos (by simp only [padShape, V.shape]; rw [hlen]; exact ⟨hd, trivial⟩)]
        simp only [padShape, V.shape, V.data, List.length_cons, List.length_nil, Nat.sub_self, List.replicate_zero, List.nil_append, hlen, ravel, vol]
        rw [Nat.mul_one, Nat.add_zero, List.getElem?_take, if_pos hd, List.getElem?_drop, hkk]
      · rw [List.getElem?_eq_none (by rw [htl, t2]; omega), List.getElem?_eq_none (by rw [hl]; rw [vol_snoc'] at hk; omega)]
    cases t; cases m; simp_all
  rw [split_ok hm.1 hs hsh hd, hrows, bind_ok]
  subst htm
  unfold Mat.shrink
  dsimp only
  by_cases h1 : s.length = 1
  · rw [if_pos h1]
    obtain ⟨d, rfl⟩ := List.length_eq_one_iff.mp h1
    have hrl' : rows.length = d := by rw [hrl]; simp [vol]
    simp only [mixOp]
    rw [newMatrix_fits (by simp) (by simp [vol]) (by intro k a b; simp at b; omega), bind_ok, hrl', t1, bind_ok, Mat.shrink, if_neg (by rw [t2]; simp)]
  · rw [if_neg h1]
    simp only [mixOp]
    rw [t1, bind_ok]

example : (V.mat (⟨[2, 3], [1, 2, 3, 4, 5, 6]⟩ : Mat Nat)).Ok ∧ vol ([2, 3].take 1) ≠ 0 := by decide

/-- Without rows it does not: the number of columns is lost. -/
theorem C62_mix_split_violated : (split (⟨[0, 3], []⟩ : Mat Nat)).bind (mixOp fun _ => 0) = .ok (.vec []) := by decide +kernel

end Verif.Arr
