import Verif.Arr.CatSpec
import Verif.Arr.EvalLemmas4

namespace Verif.Arr
variable {α : Type}

/-- A list whose elements are given by number. -/
theorem exists_list (g : Nat → Option α) : ∀ N, (∀ p, p < N → ∃ a, g p = some a) → ∃ t : List α, t.length = N ∧ ∀ p, p < N → t[p]? = g p
  | 0, _ => ⟨[], rfl, by omega⟩
  | N + 1, h => by
    obtain ⟨t, h1, h2⟩ := exists_list g N (fun p hp => h p (by omega))
    obtain ⟨a, ha⟩ := h N (by omega)
    refine ⟨t ++ [a], by simp [h1], ?_⟩
    intro p hp
    by_cases hq : p < N
    · rw [List.getElem?_append_left (by omega), h2 p hq]
    · have : p = N := by omega
      subst this
      rw [List.getElem?_append_right (by omega), h1, ha]; simp

theorem copyRun_toward {t src : List α} {off dst n : Nat} (h : ∀ k, k < n → ∃ a, src[off + k]? = some a ∧ t[dst + k]? = some a) {W : Nat → Prop} {e : Ed α}
    (he : Toward t W e) : ∃ e', copyRun src off dst n e = .ok e' ∧ Toward t (fun p => W p ∨ (dst ≤ p ∧ p < dst + n)) e' := by
  obtain ⟨e', h1, h2⟩ := loop_toward (t := t) (f := fun k e => (vAt src (off + k)).bind fun a => e.put (dst + k) a) (fun k p => p = dst + k) (List.range n) (by
    intro k hk W e he
    obtain ⟨a, h1, h2⟩ := h k (List.mem_range.mp hk)
    rw [vAt_ok.mpr h1, bind_ok]
    exact toward_put he h2) he
  refine ⟨e', h1, toward_mono h2 ?_⟩
  rintro p _ (hp | ⟨hp, hq⟩)
  · exact .inl hp
  · exact .inr ⟨p - dst, List.mem_range.mpr (by omega), by omega⟩

theorem copyElems_ok {t x y : List α} {nL aL nR aR nrows : Nat} (hlen : t.length = nrows * (nL + nR))
    (hx : ∀ r, r < nrows → ∀ k, k < nL → ∃ a, x[r * aL + k]? = some a ∧ t[r * (nL + nR) + k]? = some a)
    (hy : ∀ r, r < nrows → ∀ k, k < nR → ∃ a, y[r * aR + k]? = some a ∧ t[r * (nL + nR) + nL + k]? = some a) :
    ∃ e, copyElems x y nL aL nR aR nrows (newEd t.length) = .ok e ∧ e.publish = .ok t := by
  unfold copyElems
  obtain ⟨s, h1, _, _, _, h2⟩ := loop_range0 (f := fun _ (s : Nat × Nat × Nat × Ed α) =>
    (copyRun x s.2.1 s.1 nL s.2.2.2).bind fun e =>
    (copyRun y s.2.2.1 (s.1 + nL) nR e).bind fun e =>
    .ok (s.1 + nL + nR, s.2.1 + aL, s.2.2.1 + aR, e))
    (fun i s => s.1 = i * (nL + nR) ∧ s.2.1 = i * aL ∧ s.2.2.1 = i * aR ∧ Toward t (fun p => p < i * (nL + nR)) s.2.2.2) nrows (0, 0, 0, newEd t.length)
    ⟨by simp, by simp, by simp, toward_mono (toward_new t rfl) (by intro i _ h; simp at h)⟩ (by
      rintro r ⟨di, li, ri, e⟩ hr ⟨a1, a2, a3, a4⟩
      simp only at a1 a2 a3 a4
      subst a1 a2 a3
      obtain ⟨e1, b1, b2⟩ := copyRun_toward (hx r hr) a4
      obtain ⟨e2, c1, c2⟩ := copyRun_toward (hy r hr) b2
      refine ⟨_, by simp only; rw [b1, bind_ok, c1, bind_ok], ?_, ?_, ?_, ?_⟩
      · simp only; rw [Nat.succ_mul]; omega
      · simp only; rw [Nat.succ_mul]
      · simp only; rw [Nat.succ_mul]
      · refine toward_mono c2 ?_
        intro p _ hp
        rw [Nat.succ_mul] at hp
        omega)
  refine ⟨s.2.2.2, by rw [h1, bind_ok], toward_publish h2 ?_⟩
  intro i hi
  omega

theorem row_bound {i k n N : Nat} (hi : i < N) (hk : k < n) : i * n + k < N * n := by
  calc i * n + k < i * n + n := by omega
    _ = (i + 1) * n := by rw [Nat.succ_mul]
    _ ≤ N * n := Nat.mul_le_mul_right _ hi

theorem catRows_ok {s : List Nat} {x y : List α} {nL aL nR aR len : Nat} (hlen : len = vol s * (nL + nR))
    (hx : ∀ r, r < vol s → ∀ k, k < nL → r * aL + k < x.length) (hy : ∀ r, r < vol s → ∀ k, k < nR → r * aR + k < y.length) (hf : Fits (s ++ [nL + nR])) :
    ∃ m : Mat α, catRows s (nL + nR) x y len nL aL nR aR (vol s) = .ok m ∧ m.shape = s ++ [nL + nR] ∧ m.data.length = vol (s ++ [nL + nR]) ∧
      ∀ r, r < vol s → (∀ k, k < nL → m.data[r * (nL + nR) + k]? = x[r * aL + k]?) ∧ ∀ k, k < nR → m.data[r * (nL + nR) + (nL + k)]? = y[r * aR + k]? := by
  obtain ⟨t, h1, h2⟩ := exists_list (fun p => if p % (nL + nR) < nL then x[p / (nL + nR) * aL + p % (nL + nR)]? else y[p / (nL + nR) * aR + (p % (nL + nR) - nL)]?)
    (vol s * (nL + nR)) (by
      intro p hp
      have hpos : 0 < nL + nR := by
        rcases Nat.eq_zero_or_pos (nL + nR) with h | h
        · rw [h] at hp; simp at hp
        · exact h
      have hr : p / (nL + nR) < vol s := Nat.div_lt_of_lt_mul (by rw [Nat.mul_comm]; exact hp)
      have hm := Nat.mod_lt p hpos
      split
      · next h => exact ⟨_, List.getElem?_eq_getElem (hx _ hr _ h)⟩
      · next h => exact ⟨_, List.getElem?_eq_getElem (hy _ hr _ (by omega))⟩)
  have hxt : ∀ r, r < vol s → ∀ k, k < nL → t[r * (nL + nR) + k]? = x[r * aL + k]? := by
    intro r hr k hk
    rw [h2 _ (row_bound hr (by omega)), Nat.mul_comm r (nL + nR), Nat.mul_add_mod, Nat.mul_add_div (by omega), Nat.mod_eq_of_lt (by omega),
      Nat.div_eq_of_lt (show k < nL + nR by omega), if_pos hk, Nat.add_zero]
  have hyt : ∀ r, r < vol s → ∀ k, k < nR → t[r * (nL + nR) + (nL + k)]? = y[r * aR + k]? := by
    intro r hr k hk
    rw [h2 _ (row_bound hr (by omega)), Nat.mul_comm r (nL + nR), Nat.mul_add_mod, Nat.mul_add_div (by omega), Nat.mod_eq_of_lt (by omega),
      Nat.div_eq_of_lt (show nL + k < nL + nR by omega), if_neg (by omega), Nat.add_zero, Nat.add_sub_cancel_left]
  obtain ⟨e, h3, h4⟩ := copyElems_ok (x := x) (y := y) (aL := aL) (aR := aR) h1
    (fun r hr k hk => ⟨_, List.getElem?_eq_getElem (hx r hr k hk), by rw [hxt r hr k hk]; exact List.getElem?_eq_getElem (hx r hr k hk)⟩)
    (fun r hr k hk => ⟨_, List.getElem?_eq_getElem (hy r hr k hk), by rw [Nat.add_assoc, hyt r hr k hk]; exact List.getElem?_eq_getElem (hy r hr k hk)⟩)
  have hv : vol (s ++ [nL + nR]) = vol s * (nL + nR) := by rw [vol_append]; simp [vol]
  refine ⟨⟨s ++ [nL + nR], t⟩, ?_, rfl, by rw [hv, h1], fun r hr => ⟨hxt r hr, hyt r hr⟩⟩
  unfold catRows
  rw [hlen, ← h1, h3, bind_ok, h4, bind_ok]
  exact newMatrix_fits (by simp) (by rw [hv, h1]) hf

/-- Elements along the last axis. -/
theorem at_last {m : Mat α} {s : List Nat} {d : Nat} (hs : m.shape = s ++ [d]) {c : List Nat} {i : Nat} (hc : InB s c) (hi : i < d) :
    (V.mat m).at (c ++ [i]) = m.data[ravel s c * d + i]? := by
  unfold V.at
  simp only [V.shape, V.data, hs]
  rw [if_pos ((inB_snoc _ _ _ _).mpr ⟨hc, hi⟩), ravel_snoc _ _ _ _ (inB_length hc)]

/-- Elements along the first axis. -/
theorem at_first {m : Mat α} {s : List Nat} {d : Nat} (hs : m.shape = d :: s) {c : List Nat} {i : Nat} (hc : InB s c) (hi : i < d) :
    (V.mat m).at (i :: c) = m.data[i * vol s + ravel s c]? := by
  unfold V.at
  simp only [V.shape, V.data, hs]
  rw [if_pos ⟨hi, hc⟩]
  rfl

theorem size_lead {s : List Nat} {n : Nat} (hf : Fits (s ++ [n])) (hd : ∀ d ∈ s, d ≤ maxInt) : size s = .ok (vol s) := by
  apply size_ok
  intro k hk h1
  rcases Nat.lt_or_ge k 2 with h | h
  · have : k = 1 := by omega
    subst this
    cases s with
    | nil => simp at hk
    | cons d s =>
      have := hd d (by simp)
      simp only [List.take_succ_cons, List.take_zero, vol, maxInt] at this ⊢
      omega
  · have := fits_prefix hf k h hk
    omega

theorem size_tail {s : List Nat} {n : Nat} (hf : Fits ((n + 1) :: s)) : size s = .ok (vol s) := by
  apply size_ok
  intro k hk h1
  have := hf (k + 1) (by omega) (by simp; omega)
  simp only [List.take_succ_cons, vol] at this
  have h2 : 1 * vol (s.take k) ≤ (n + 1) * vol (s.take k) := Nat.mul_le_mul_right _ (by omega)
  omega

/-- With no other axes: the elements one after the other. -/
theorem lines_nil {last : Bool} {u : V α} {n : Nat} {f : List Nat → Nat → Option α} (h : Lines last [] u n f) (hu : u.Ok) (hp : u.Plain) :
    u.isMat = false ∧ u.data.length = n ∧ ∀ i, i < n → f [] i = u.data[i]? := by
  have hl := data_length hu
  have hm : u.shape.length < 2 → u.isMat = false := by
    intro h2
    cases h3 : u.isMat with
    | false => rfl
    | true => have := hp.mp h3; omega
  cases h with
  | list h =>
    have h : u.shape = [n] := by cases last <;> simpa using h
    refine ⟨hm (by rw [h]; simp), by rw [hl, h]; simp [vol], ?_⟩
    intro i hi
    have e : (if last then ([] : List Nat) ++ [i] else [i]) = [i] := by cases last <;> rfl
    show u.at (if last then ([] : List Nat) ++ [i] else [i]) = _
    rw [e, at_data (by rw [h]; exact ⟨hi, trivial⟩), h]
    simp [ravel, vol]
  | elem h =>
    refine ⟨hm (by rw [h]; simp), by rw [hl, h]; simp [vol], ?_⟩
    intro i hi
    have : i = 0 := by omega
    subst this
    dsimp only
    rw [at_data (by rw [h]; trivial), h]
    simp [ravel]
  | single h =>
    refine ⟨hm (by rw [h]; simp), by rw [hl, h]; simp [vol], ?_⟩
    intro i hi
    have : i = 0 := by omega
    subst this
    dsimp only
    rw [at_data (by rw [h]; trivial), h]
    simp [ravel]
  | one h =>
    refine ⟨hm (by rw [h]; simp), by rw [hl, h]; simp [vol], ?_⟩
    intro i hi
    have : i = 0 := by omega
    subst this
    dsimp only
    rw [at_data (by rw [h]; exact ⟨by omega, trivial⟩), h]
    simp [ravel]

theorem toMat_lines [Wide α] {u : V α} (hu : u.Ok) (hw : u.Narrow) : ∃ x, u.toMat = .ok x ∧ x.data = u.data ∧ x.shape = (if u.shape = [] then [1] else u.shape) := by
  obtain ⟨x, h1, _, h2, h3, _⟩ := toMat_eq hu hw
  refine ⟨x, h1, h3, ?_⟩
  rw [h2]
  cases u with
  | elem y => simp [V.promote, V.shape]
  | vec l => simp [V.promote, V.shape]
  | mat m => rw [if_neg (by exact hu.1.rank)]; rfl

/-- With other axes: the matrix the operand becomes. -/
theorem lines_mat {last : Bool} {s : List Nat} {u : V α} {n : Nat} {f : List Nat → Nat → Option α} (h : Lines last s u n f) (hu : u.Ok) (hs : s ≠ []) {x : Mat α}
    (hd : x.data = u.data) (hx : x.shape = if u.shape = [] then [1] else u.shape) :
    (u.shape = (if last then s ++ [n] else n :: s) ∧ x.shape = (if last then s ++ [n] else n :: s) ∧ x.data.length = vol s * n ∧
      ∀ c i, InB s c → i < n → f c i = x.data[if last then ravel s c * n + i else i * vol s + ravel s c]?) ∨
    (u.shape.length ≤ s.length ∧ n = 1 ∧ x.shape = s ∧ (u.shape = s ∨ s = [1]) ∧ x.data.length = vol s ∧ ∀ c i, InB s c → f c i = x.data[ravel s c]?) ∨
    (u.shape.length ≤ s.length ∧ n = 1 ∧ x.shape = [1] ∧ s ≠ [1] ∧ x.data.length = 1 ∧ ∀ c i, f c i = x.data[0]?) := by
  have hl : x.data.length = vol u.shape := by rw [hd, data_length hu]
  have hpos : 0 < s.length := List.length_pos_iff.mpr hs
  have one : u.shape = [] ∨ u.shape = [1] → x.shape = [1] ∧ x.data.length = 1 := by
    rintro (h | h)
    · rw [hx, hl, h]; exact ⟨rfl, rfl⟩
    · rw [hx, hl, h]; exact ⟨rfl, rfl⟩
  cases h with
  | list h =>
    refine .inl ⟨h, ?_, ?_, ?_⟩
    · rw [hx, if_neg (by rw [h]; cases last <;> simp), h]
    · rw [hl, h]
      cases last
      · simp [vol, Nat.mul_comm]
      · simp [vol_append, vol]
    · intro c i hc hi
      cases last
      · simp only [Bool.false_eq_true, if_false] at h ⊢
        rw [at_data (by rw [h]; exact ⟨hi, hc⟩), h, hd]; rfl
      · simp only [if_true] at h ⊢
        rw [at_data (by rw [h]; exact (inB_snoc _ _ _ _).mpr ⟨hc, hi⟩), h, hd, ravel_snoc _ _ _ _ (inB_length hc)]
  | elem h =>
    refine .inr (.inl ⟨by rw [h], rfl, by rw [hx, if_neg (by rw [h]; exact hs), h], .inl h, by rw [hl, h], ?_⟩)
    intro c i hc
    dsimp only
    rw [at_data (by rw [h]; exact hc), h, hd]
  | single h =>
    obtain ⟨h1, h2⟩ := one (.inl h)
    have h3 : u.at [] = x.data[0]? := by rw [at_data (by rw [h]; trivial), h, hd]; simp [ravel]
    by_cases e : s = [1]
    · subst e
      refine .inr (.inl ⟨by rw [h]; simp, rfl, h1, .inr rfl, by rw [h2]; rfl, ?_⟩)
      intro c i hc
      rw [h3]
      match c, hc with
      | [j], hc => have := hc.1; rw [show j = 0 by omega]; simp [ravel]
    · exact .inr (.inr ⟨by rw [h]; simp, rfl, h1, e, h2, fun c i => h3⟩)
  | one h =>
    obtain ⟨h1, h2⟩ := one (.inr h)
    have h3 : u.at [0] = x.data[0]? := by rw [at_data (by rw [h]; exact ⟨by omega, trivial⟩), h, hd]; simp [ravel]
    by_cases e : s = [1]
    · subst e
      refine .inr (.inl ⟨by rw [h], rfl, h1, .inr rfl, by rw [h2]; rfl, ?_⟩)
      intro c i hc
      rw [h3]
      match c, hc with
      | [j], hc => have := hc.1; rw [show j = 0 by omega]; simp [ravel]
    · exact .inr (.inr ⟨by rw [h]; exact hpos, rfl, h1, e, h2, fun c i => h3⟩)

theorem vAt_last (s : List Nat) (n : Nat) : vAt (s ++ [n]) ((s ++ [n]).length - 1) = .ok n := by
  apply vAt_ok.mpr; simp

theorem take_last (s : List Nat) (n : Nat) : (s ++ [n]).take ((s ++ [n]).length - 1) = s := by simp

/-- `catenate` of matrices, by the shapes: both have another axis, or one of them has not, or is a single element. -/
theorem catenate_ok {s : List Nat} (hs : s ≠ []) (hd : ∀ d ∈ s, d ≤ maxInt) {x y : Mat α} {n m : Nat} (hf : Fits (s ++ [n + m])) {aL aR : Nat}
    (h : (x.shape = s ++ [n] ∧ x.data.length = vol s * n ∧ aL = n ∧ y.shape = s ++ [m] ∧ y.data.length = vol s * m ∧ aR = m) ∨
      (x.shape = s ++ [n] ∧ x.data.length = vol s * n ∧ aL = n ∧ vol s ≠ 0 ∧ m = 1 ∧ y.shape = s ∧ y.data.length = vol s ∧ aR = 1) ∨
      (x.shape = s ++ [n] ∧ x.data.length = vol s * n ∧ aL = n ∧ m = 1 ∧ y.shape = [1] ∧ s ≠ [1] ∧ y.data.length = 1 ∧ aR = 0) ∨
      (vol s ≠ 0 ∧ n = 1 ∧ x.shape = s ∧ x.data.length = vol s ∧ aL = 1 ∧ y.shape = s ++ [m] ∧ y.data.length = vol s * m ∧ aR = m) ∨
      (n = 1 ∧ x.shape = [1] ∧ s ≠ [1] ∧ x.data.length = 1 ∧ aL = 0 ∧ y.shape = s ++ [m] ∧ y.data.length = vol s * m ∧ aR = m)) :
    ∃ r : Mat α, catenate x y = .ok r ∧ r.shape = s ++ [n + m] ∧
      ∀ c, InB s c → (∀ k, k < n → r.data[ravel s c * (n + m) + k]? = x.data[ravel s c * aL + k]?) ∧
        ∀ k, k < m → r.data[ravel s c * (n + m) + (n + k)]? = y.data[ravel s c * aR + k]? := by
  have hsz := size_lead hf hd
  have hpos : 0 < s.length := List.length_pos_iff.mpr hs
  rcases h with ⟨h1, h2, rfl, h3, h4, rfl⟩ | ⟨h1, h2, rfl, hz, rfl, h3, h4, rfl⟩ | ⟨h1, h2, rfl, rfl, h3, h5, h4, rfl⟩ | ⟨hz, rfl, h1, h2, rfl, h3, h4, rfl⟩ |
    ⟨rfl, h1, h5, h2, rfl, h3, h4, rfl⟩
  · obtain ⟨r, r1, r2, _, r3⟩ := catRows_ok (x := x.data) (y := y.data) (len := x.data.length + y.data.length) (aL := aL) (aR := aR) (by rw [h2, h4, Nat.mul_add])
      (fun i hi k hk => by rw [h2]; exact row_bound hi hk) (fun i hi k hk => by rw [h4]; exact row_bound hi hk) hf
    refine ⟨r, ?_, r2, fun c hc => r3 _ (ravel_lt hc)⟩
    unfold catenate
    rw [h1, h3, if_neg (by simp), vAt_last, vAt_last, bind_ok, bind_ok]
    simp only [take_last]
    rw [if_pos ⟨by simp, trivial⟩, hsz, bind_ok, r1]
  · obtain ⟨r, r1, r2, _, r3⟩ := catRows_ok (x := x.data) (y := y.data) (len := x.data.length + y.data.length) (aL := aL) (aR := 1) (by rw [h2, h4, Nat.mul_add, Nat.mul_one])
      (fun i hi k hk => by rw [h2]; exact row_bound hi hk) (fun i hi k hk => by omega) hf
    refine ⟨r, ?_, r2, fun c hc => r3 _ (ravel_lt hc)⟩
    unfold catenate
    obtain ⟨yl, hyl⟩ : ∃ yl, vAt s (s.length - 1) = .ok yl := ⟨_, vAt_lt (by omega)⟩
    rw [h1, h3, if_neg (by simp; omega), vAt_last, hyl, bind_ok, bind_ok]
    simp only [take_last]
    rw [if_neg (by simp), if_pos ⟨by simp, trivial⟩, hsz, bind_ok, bind_ok, if_neg hz, Nat.div_self (by omega), r1]
  · obtain ⟨r, r1, r2, _, r3⟩ := catRows_ok (x := x.data) (y := y.data) (len := x.data.length + vol s) (aL := aL) (aR := 0) (by rw [h2, Nat.mul_add, Nat.mul_one])
      (fun i hi k hk => by rw [h2]; exact row_bound hi hk) (fun i hi k hk => by omega) hf
    refine ⟨r, ?_, r2, fun c hc => r3 _ (ravel_lt hc)⟩
    unfold catenate
    rw [h1, h3, if_neg (by simp), vAt_last, show vAt [1] (([1] : List Nat).length - 1) = .ok 1 from rfl, bind_ok, bind_ok]
    simp only [take_last]
    rw [if_neg (by simp; omega), if_neg (by simp [h5]), if_neg (by simp), if_neg (by simp), if_pos (by simp; omega), hsz, bind_ok, r1]
  · obtain ⟨r, r1, r2, _, r3⟩ := catRows_ok (x := x.data) (y := y.data) (len := y.data.length + x.data.length) (aL := 1) (aR := aR)
      (by rw [h2, h4, Nat.mul_add, Nat.mul_one, Nat.add_comm]) (fun i hi k hk => by omega) (fun i hi k hk => by rw [h4]; exact row_bound hi hk) hf
    refine ⟨r, ?_, r2, fun c hc => r3 _ (ravel_lt hc)⟩
    unfold catenate
    obtain ⟨xl, hxl⟩ : ∃ xl, vAt s (s.length - 1) = .ok xl := ⟨_, vAt_lt (by omega)⟩
    rw [h1, h3, if_neg (by simp; omega), vAt_last, hxl, bind_ok, bind_ok]
    simp only [take_last]
    rw [if_neg (by simp), if_neg (by simp; omega), if_pos ⟨by simp, trivial⟩, hsz, bind_ok, bind_ok, if_neg hz, Nat.div_self (by omega), Nat.add_comm aR 1, r1]
  · obtain ⟨r, r1, r2, _, r3⟩ := catRows_ok (x := x.data) (y := y.data) (len := y.data.length + vol s) (aL := 0) (aR := aR)
      (by rw [h4, Nat.mul_add, Nat.mul_one, Nat.add_comm]) (fun i hi k hk => by omega) (fun i hi k hk => by rw [h4]; exact row_bound hi hk) hf
    refine ⟨r, ?_, r2, fun c hc => r3 _ (ravel_lt hc)⟩
    unfold catenate
    rw [h1, h3, if_neg (by simp), vAt_last, show vAt [1] (([1] : List Nat).length - 1) = .ok 1 from rfl, bind_ok, bind_ok]
    simp only [take_last]
    rw [if_neg (by simp; omega), if_neg (by simp), if_neg (by simp [Ne.symm h5]), if_pos (by simp; omega), hsz, bind_ok, Nat.add_comm aR 1, r1]

/-- `catenateFirst` of matrices: the blocks one after the other. -/
theorem catenateFirst_ok {s : List Nat} (hs : s ≠ []) {x y : Mat α} {n m : Nat} (hf : Fits ((n + m) :: s))
    (h : (x.shape = n :: s ∧ x.data.length = vol s * n ∧ y.shape = m :: s ∧ y.data.length = vol s * m) ∨
      (x.shape = n :: s ∧ x.data.length = vol s * n ∧ m = 1 ∧ y.shape = s ∧ y.data.length = vol s) ∨
      (x.shape = n :: s ∧ x.data.length = vol s * n ∧ m = 1 ∧ y.shape = [1] ∧ s ≠ [1] ∧ y.data.length = 1) ∨
      (n = 1 ∧ x.shape = s ∧ x.data.length = vol s ∧ y.shape = m :: s ∧ y.data.length = vol s * m) ∨
      (n = 1 ∧ x.shape = [1] ∧ s ≠ [1] ∧ x.data.length = 1 ∧ y.shape = m :: s ∧ y.data.length = vol s * m)) :
    ∃ r : Mat α, catenateFirst x y = .ok r ∧ r.shape = (n + m) :: s ∧
      ∃ a b : List α, r.data = a ++ b ∧ a.length = n * vol s ∧ b.length = m * vol s ∧
        (a = x.data ∨ x.shape = [1] ∧ s ≠ [1] ∧ ∀ i, i < n * vol s → a[i]? = x.data[0]?) ∧ (b = y.data ∨ y.shape = [1] ∧ s ≠ [1] ∧ ∀ i, i < m * vol s → b[i]? = y.data[0]?) := by
  have hpos : 0 < s.length := List.length_pos_iff.mpr hs
  have fin : ∀ a b : List α, a.length = n * vol s → b.length = m * vol s → newMatrix ((n + m) :: s) (a ++ b) = .ok ⟨(n + m) :: s, a ++ b⟩ := by
    intro a b ha hb
    exact newMatrix_fits (by simp) (by simp [vol, ha, hb, Nat.add_mul]) hf
  rcases h with ⟨h1, h2, h3, h4⟩ | ⟨h1, h2, rfl, h3, h4⟩ | ⟨h1, h2, rfl, h3, h5, h4⟩ | ⟨rfl, h1, h2, h3, h4⟩ | ⟨rfl, h1, h5, h2, h3, h4⟩
  · have ha : x.data.length = n * vol s := by rw [h2, Nat.mul_comm]
    have hb : y.data.length = m * vol s := by rw [h4, Nat.mul_comm]
    refine ⟨⟨(_ + _) :: s, _ ++ _⟩, ?_, rfl, x.data, y.data, rfl, ha, hb, .inl rfl, .inl rfl⟩
    unfold catenateFirst
    rw [h1, h3, if_neg (by simp)]
    simp only [vAt, List.getElem?_cons_zero, bind_ok]
    rw [if_pos (by simp)]
    exact fin _ _ ha hb
  · have ha : x.data.length = n * vol s := by rw [h2, Nat.mul_comm]
    have hb : y.data.length = 1 * vol s := by rw [h4, Nat.one_mul]
    refine ⟨⟨(_ + _) :: s, _ ++ _⟩, ?_, rfl, x.data, y.data, rfl, ha, hb, .inl rfl, .inl rfl⟩
    unfold catenateFirst
    obtain ⟨y0, hy0⟩ : ∃ y0, vAt s 0 = .ok y0 := ⟨_, vAt_lt hpos⟩
    rw [h1, h3, if_neg (by simp; exact hs), hy0]
    simp only [vAt, List.getElem?_cons_zero, bind_ok]
    rw [if_neg (by simp), if_pos (by simp)]
    exact fin _ _ ha hb
  · have ha : x.data.length = n * vol s := by rw [h2, Nat.mul_comm]
    obtain ⟨b, hb⟩ : ∃ b, y.data = [b] := List.length_eq_one_iff.mp h4
    have hbl : (List.replicate (vol s) b).length = 1 * vol s := by simp
    refine ⟨⟨(_ + _) :: s, _ ++ _⟩, ?_, rfl, x.data, List.replicate (vol s) b, rfl, ha, hbl, .inl rfl, .inr ⟨h3, h5, ?_⟩⟩
    · unfold catenateFirst
      rw [h1, h3, if_neg (by simp)]
      simp only [vAt, List.getElem?_cons_zero, bind_ok, List.drop_succ_cons, List.drop_zero, hb]
      rw [if_neg (by simp; omega), if_neg (by simp [h5]), if_neg (by simp), if_neg (by simp), if_pos (by simp; omega), size_tail hf, bind_ok]
      exact fin _ _ ha hbl
    · intro i hi
      rw [hb, List.getElem?_replicate, if_pos (by omega)]; rfl
  · have ha : x.data.length = 1 * vol s := by rw [h2, Nat.one_mul]
    have hb : y.data.length = m * vol s := by rw [h4, Nat.mul_comm]
    refine ⟨⟨(_ + _) :: s, _ ++ _⟩, ?_, rfl, x.data, y.data, rfl, ha, hb, .inl rfl, .inl rfl⟩
    unfold catenateFirst
    obtain ⟨x0, hx0⟩ : ∃ x0, vAt s 0 = .ok x0 := ⟨_, vAt_lt hpos⟩
    rw [h1, h3, if_neg (by simp; exact hs), hx0]
    simp only [vAt, List.getElem?_cons_zero, bind_ok]
    rw [if_neg (by simp), if_neg (by simp; omega), if_pos (by simp), Nat.add_comm m 1]
    exact fin _ _ ha hb
  · have hb : y.data.length = m * vol s := by rw [h4, Nat.mul_comm]
    obtain ⟨a, ha⟩ : ∃ a, x.data = [a] := List.length_eq_one_iff.mp h2
    have hal : (List.replicate (vol s) a).length = 1 * vol s := by simp
    have hf' : Fits ((m + 1) :: s) := by rw [Nat.add_comm]; exact hf
    refine ⟨⟨(_ + _) :: s, _ ++ _⟩, ?_, rfl, List.replicate (vol s) a, y.data, rfl, hal, hb, .inr ⟨h1, h5, ?_⟩, .inl rfl⟩
    · unfold catenateFirst
      rw [h1, h3, if_neg (by simp)]
      simp only [vAt, List.getElem?_cons_zero, bind_ok, List.drop_succ_cons, List.drop_zero, ha]
      rw [if_neg (by simp; omega), if_neg (by simp), if_neg (by simp [Ne.symm h5]), if_pos (by simp; omega), size_tail hf', bind_ok, Nat.add_comm m 1]
      exact fin _ _ hal hb
    · intro i hi
      rw [ha, List.getElem?_replicate, if_pos (by omega)]; rfl

end Verif.Arr
