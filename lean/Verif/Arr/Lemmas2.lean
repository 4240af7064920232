import Verif.Arr.Lemmas

/-! # Lemmas about rho, rot and flip -/

namespace Verif.Arr
variable {α : Type}

/-! ## rho -/

theorem shapeOf_ok : ∀ (A : List Small) (n : Nat) (s : List Nat) (p : Nat), shapeOf A n = .ok (s, p) ↔
    A = s.map (fun d : Nat => some (d : Int)) ∧ (∀ d ∈ s, d ≤ maxInt) ∧ p = n * vol s ∧
    ∀ k, 1 ≤ k → k ≤ s.length → n * vol (s.take k) ≤ maxInt
  | [], n, s, p => by
    simp only [shapeOf, R.ok.injEq, Prod.mk.injEq]
    constructor
    · rintro ⟨rfl, rfl⟩; simp [vol]; omega
    · rintro ⟨h1, _, h3, _⟩
      have : s = [] := by simpa using h1.symm
      subst this; simp [h3, vol]
  | none :: r, n, s, p => by
    simp only [shapeOf]
    constructor
    · intro h; cases h
    · rintro ⟨h1, _⟩; cases s <;> simp at h1
  | some d :: r, n, s, p => by
    unfold shapeOf
    by_cases h1 : d < 0 ∨ (maxInt : Int) < d
    · rw [if_pos h1]
      constructor
      · intro h; cases h
      · rintro ⟨e, h2, _⟩
        cases s with
        | nil => simp at e
        | cons x s =>
          simp only [List.map_cons, List.cons.injEq, Option.some.injEq] at e
          have := h2 x (by simp)
          omega
    · rw [if_neg h1]
      by_cases h2 : n * d.toNat > maxInt
      · rw [if_pos h2]
        constructor
        · intro h; cases h
        · rintro ⟨e, _, _, h4⟩
          cases s with
          | nil => simp at e
          | cons x s =>
            simp only [List.map_cons, List.cons.injEq, Option.some.injEq] at e
            have := h4 1 (by omega) (by simp)
            simp only [List.take_succ_cons, List.take_zero, vol, Nat.mul_one] at this
            have e2 : d.toNat = x := by omega
            rw [e2] at h2; omega
      · rw [if_neg h2, bind_eq_ok]
        constructor
        · rintro ⟨⟨s', p'⟩, ha, hb⟩
          cases hb
          obtain ⟨e1, e2, e3, e4⟩ := (shapeOf_ok r _ _ _).mp ha
          refine ⟨?_, ?_, ?_, ?_⟩
          · rw [e1]; simp; omega
          · intro x hx
            rcases List.mem_cons.mp hx with rfl | hx
            · omega
            · exact e2 x hx
          · rw [e3]; simp [vol, Nat.mul_assoc]
          · intro k hk1 hk2
            match k, hk1 with
            | 1, _ => simp [vol]; omega
            | k + 2, _ =>
              have := e4 (k + 1) (by omega) (by simpa using hk2)
              simpa [vol, Nat.mul_assoc] using this
        · rintro ⟨e, h2, h3, h4⟩
          cases s with
          | nil => simp at e
          | cons x s =>
            simp only [List.map_cons, List.cons.injEq, Option.some.injEq] at e
            have hx : d.toNat = x := by omega
            refine ⟨(s, p), (shapeOf_ok r _ _ _).mpr ⟨e.2, fun y hy => h2 y (by simp [hy]), ?_, ?_⟩, by simp [hx]⟩
            · rw [h3, hx]; simp [vol, Nat.mul_assoc]
            · intro k hk1 hk2
              have := h4 (k + 1) (by omega) (by simpa using hk2)
              simpa [vol, Nat.mul_assoc, hx] using this

theorem shapeOf_total : ∀ (A : List Small) (n : Nat), (∃ r, shapeOf A n = .ok r) ∨ ∃ e, shapeOf A n = .err e
  | [], n => .inl ⟨_, rfl⟩
  | none :: _, _ => .inr ⟨_, rfl⟩
  | some d :: r, n => by
    unfold shapeOf
    split
    · exact .inr ⟨_, rfl⟩
    · split
      · exact .inr ⟨_, rfl⟩
      · rcases shapeOf_total r (n * d.toNat) with ⟨p, h⟩ | ⟨e, h⟩
        · exact .inl ⟨_, by rw [h]; rfl⟩
        · exact .inr ⟨e, by rw [h]; rfl⟩

/-- The data of a vector or matrix. -/
def V.elems : V α → List α
  | .elem x => [x]
  | .vec l => l
  | .mat m => m.data

/-- Element `k` of the source, repeated. -/
def cyc (zero : α) (B : List α) (k : Nat) : α := (if B.length = 0 then [zero] else B).getD (k % (if B.length = 0 then [zero] else B).length) zero

theorem cyc_get (zero : α) (B : List α) (k : Nat) :
    (if B.length = 0 then [zero] else B)[k % (if B.length = 0 then [zero] else B).length]? = some (cyc zero B k) := by
  have h : k % (if B.length = 0 then [zero] else B).length < (if B.length = 0 then [zero] else B).length := by
    apply Nat.mod_lt
    split
    · simp
    · omega
  simp only [cyc]
  rw [List.getD_eq_getElem?_getD, List.getElem?_eq_getElem h]; rfl

theorem reshape_core (zero : α) {A : List Small} {B : List α} {s : List Nat} (hA : A ≠ [])
    (h : shapeOf A 1 = .ok (s, vol s)) :
    reshape zero A B = if A.length = 1 then .ok (.vec ((List.range (vol s)).map (cyc zero B)))
      else (newMatrix s ((List.range (vol s)).map (cyc zero B))).bind fun m => .ok (.mat m) := by
  unfold reshape
  have hA0 : ¬ A.length = 0 := by simpa using hA
  simp only [if_neg hA0, h, bind_ok]
  have hget := cyc_get zero B
  generalize hB' : (if B.length = 0 then [zero] else B) = B' at *
  have hpos : 0 < B'.length := by subst hB'; split <;> simp_all; exact Nat.pos_of_ne_zero (by simpa using ‹B ≠ []›)
  generalize hn : vol s = n
  have hT : ∀ k, k < n → ((List.range n).map (cyc zero B))[k]? = some (cyc zero B k) := by
    intro k hk; simp [List.getElem?_range hk]
  generalize hTt : (List.range n).map (cyc zero B) = t at *
  have hlen : t.length = n := by rw [← hTt]; simp
  obtain ⟨e1, l1, p1⟩ := loop_toward (t := t) (f := fun i t => (vAt B' i).bind fun x => Ed.put t i x) (fun k i => i = k)
    (List.range (min B'.length n)) (by
      intro k hk W e he
      simp only [List.mem_range] at hk
      have hk1 : k < n := by omega
      have hk2 : k < B'.length := by omega
      have e0 := hget k
      rw [Nat.mod_eq_of_lt hk2] at e0
      rw [vAt_ok.mpr e0]
      exact toward_put he (hT k hk1)) (toward_new t hlen.symm)
  rw [l1, bind_ok]
  have p1' : Toward t (fun i => i < B'.length) e1 := toward_mono p1 (fun i hi h => .inr ⟨i, by simp; omega, rfl⟩)
  obtain ⟨e2, l2, p2⟩ := loop_range (f := fun i t => (Ed.get t (i - B'.length)).bind fun x => Ed.put t i x)
    (fun k e => Toward t (fun i => i < k) e) B'.length (n - B'.length) e1 p1' (by
      intro k e h1 h2 he
      have hk : k < n := by omega
      have e0 : t[k - B'.length]? = some (cyc zero B k) := by
        rw [hT (k - B'.length) (by omega)]
        have : k % B'.length = (k - B'.length) % B'.length := by rw [Nat.mod_eq_sub_mod h1]
        have a := hget k
        rw [this, hget (k - B'.length)] at a
        exact a
      rw [get_put he (by omega : k - B'.length < k) e0]
      obtain ⟨e', h3, h4⟩ := toward_put he (hT k hk)
      exact ⟨e', h3, toward_mono h4 (fun i _ hi => by omega)⟩)
  rw [l2, bind_ok, toward_publish p2 (fun i hi => by omega), bind_ok]

/-! ## rot and flip -/

theorem wrapMod_eq (n : Int) {d : Nat} (hd : 0 < d) : (wrapMod n d : Int) = n % d := by
  unfold wrapMod
  have h1 := Int.tmod_eq_emod (a := n) (b := d)
  have h2 := Int.emod_nonneg n (by omega : (d : Int) ≠ 0)
  have h3 := Int.emod_lt_of_pos n (by omega : (0 : Int) < d)
  simp only
  rw [h1]
  split <;> split <;> simp_all <;> omega

theorem wrapMod_lt (n : Int) {d : Nat} (hd : 0 < d) : wrapMod n d < d := by
  have h1 := wrapMod_eq n hd
  have h3 := Int.emod_lt_of_pos n (by omega : (0 : Int) < d)
  omega

/-- `doRotate` writes the `n` elements from `i`. -/
theorem doRotate_toward {t src : List α} {i n j off : Nat}
    (h : ∀ k, k < n → ∃ x, src[j + (off + k) % n]? = some x ∧ t[i + k]? = some x) {W : Nat → Prop} {e : Ed α} (he : Toward t W e) :
    ∃ e', doRotate e i n src j off = .ok e' ∧ Toward t (fun p => W p ∨ i ≤ p ∧ p < i + n) e' := by
  obtain ⟨e', l, p⟩ := loop_toward (t := t) (f := fun k dst => (vAt src (j + (off + k) % n)).bind fun x => Ed.put dst (i + k) x)
    (fun k p => p = i + k) (List.range n) (by
      intro k hk W e he
      obtain ⟨x, h1, h2⟩ := h k (by simpa using hk)
      rw [vAt_ok.mpr h1]
      exact toward_put he h2) he
  refine ⟨e', l, toward_mono p ?_⟩
  rintro p _ (h | h)
  · exact .inl h
  · exact .inr ⟨p - i, by simp; omega, by omega⟩

/-- The target of `rotate`. -/
def rotData (m : Mat α) (dim off : Nat) (d : α) : List α :=
  (List.range m.data.length).map fun p => m.data.getD (p / dim * dim + (off + p) % dim) d

theorem toward_edit (l : List α) {t : List α} (h : l.length = t.length) : Toward t (fun _ => False) (edit l) :=
  ⟨by simp [edit, h], fun i hi => hi.elim⟩

theorem row_lt {p dim len : Nat} (hd : 0 < dim) (hdvd : dim ∣ len) (hp : p < len) {k : Nat} (hk : k < dim) : p / dim * dim + k < len := by
  obtain ⟨c, rfl⟩ := hdvd
  have : p / dim < c := (Nat.div_lt_iff_lt_mul hd).mpr (by rw [Nat.mul_comm]; exact hp)
  calc p / dim * dim + k < p / dim * dim + dim := by omega
    _ = (p / dim + 1) * dim := by rw [Nat.succ_mul]
    _ ≤ c * dim := Nat.mul_le_mul_right _ this
    _ = dim * c := Nat.mul_comm _ _

theorem rotate_core (S : Sched) (m : Mat α) {dim : Nat} (hl : m.shape.getLast? = some dim) (hd : 0 < dim)
    (hdvd : dim ∣ m.data.length) (n : Int) (x : α) : rotate S m n = newMatrix m.shape (rotData m dim (wrapMod n dim) x) := by
  unfold rotate
  simp only [hl]
  rw [if_neg (by omega)]
  have hlen : (rotData m dim (wrapMod n dim) x).length = m.data.length := by simp [rotData]
  obtain ⟨e, h1, h2⟩ := pfor_each (t := rotData m dim (wrapMod n dim) x) S dim (m.data.length / dim)
    (fun i e => doRotate e (i * dim) dim m.data (i * dim) (wrapMod n dim)) (fun i p => i * dim ≤ p ∧ p < i * dim + dim) (by
      intro i hi W e he
      apply doRotate_toward _ he
      intro k hk
      have hlt : i * dim + k < m.data.length := by
        obtain ⟨c, hc⟩ := hdvd
        rw [hc, Nat.mul_div_cancel_left _ hd] at hi
        rw [hc]
        calc i * dim + k < i * dim + dim := by omega
          _ = (i + 1) * dim := by rw [Nat.succ_mul]
          _ ≤ c * dim := Nat.mul_le_mul_right _ hi
          _ = dim * c := Nat.mul_comm _ _
      have e1 : (i * dim + k) / dim = i := by
        rw [Nat.mul_comm, Nat.mul_add_div hd, Nat.div_eq_of_lt hk]; simp
      have e2 : (wrapMod n dim + (i * dim + k)) % dim = (wrapMod n dim + k) % dim := by
        rw [show wrapMod n dim + (i * dim + k) = (wrapMod n dim + k) + dim * i by rw [Nat.mul_comm i dim]; omega, Nat.add_mul_mod_self_left]
      have h3 : i * dim + (wrapMod n dim + k) % dim < m.data.length := by
        have := row_lt hd hdvd hlt (Nat.mod_lt (wrapMod n dim + k) hd)
        rwa [e1] at this
      refine ⟨m.data[i * dim + (wrapMod n dim + k) % dim], List.getElem?_eq_getElem h3, ?_⟩
      simp [rotData, List.getElem?_range hlt, e1, e2, List.getElem?_eq_getElem h3]) hlen.symm (by
      intro p hp
      rw [hlen] at hp
      refine ⟨p / dim, ?_, Nat.div_mul_le_self _ _, ?_⟩
      · exact Nat.div_lt_div_of_lt_of_dvd hdvd hp
      · have := Nat.lt_div_mul_add hd (a := p); omega)
  rw [h1, bind_ok, h2, bind_ok]

/-- The target of `vrotate`. -/
def vrotData (data : List α) (d0 dim off : Nat) (x : α) : List α :=
  (List.range data.length).map fun p => data.getD ((off + p / dim) % d0 * dim + p % dim) x

theorem wrapMod_mul (n : Int) {dim d0 : Nat} (hd : 0 < dim) (h0 : 0 < d0) : wrapMod (n * dim) (d0 * dim) = wrapMod n d0 * dim := by
  have h1 := wrapMod_eq (n * dim) (Nat.mul_pos h0 hd)
  have h2 := wrapMod_eq n h0
  have h3 : (n * dim) % ((d0 * dim : Nat) : Int) = n % d0 * dim := by
    rw [Int.natCast_mul, Int.mul_comm n, Int.mul_comm (d0 : Int), Int.mul_emod_mul_of_pos _ _ (by omega), Int.mul_comm]
  rw [h3, ← h2] at h1
  exact_mod_cast h1

theorem vrotate_core (S : Sched) (m : Mat α) {d0 d1 : Nat} {ds : List Nat} (hs : m.shape = d0 :: d1 :: ds) {dim : Nat} (hd : 0 < dim) (h0 : 0 < d0)
    (hl : m.data.length = d0 * dim) (n : Int) (x : α) : vrotate S m n = newMatrix m.shape (vrotData m.data d0 dim (wrapMod n d0) x) := by
  unfold vrotate
  have hpos : 0 < d0 * dim := Nat.mul_pos h0 hd
  have e1 : m.data.length / d0 = dim := by rw [hl, Nat.mul_div_cancel_left _ h0]
  have e2 : m.data.length / dim = d0 := by rw [hl, Nat.mul_div_cancel _ hd]
  simp only [hs, e1]
  rw [if_neg (by omega), if_neg (by omega), if_neg (by omega), e2]
  have hlen : (vrotData m.data d0 dim (wrapMod n d0) x).length = m.data.length := by simp [vrotData]
  obtain ⟨e, h1, h2⟩ := pfor_each (t := vrotData m.data d0 dim (wrapMod n d0) x) S dim d0 (fun i e =>
        let j := i * dim
        let n := (wrapMod (n * dim) m.data.length + j) % m.data.length
        loop (fun k e => (vAt m.data (n + k)).bind fun x => Ed.put e (j + k) x) (List.range dim) e)
      (fun i p => i * dim ≤ p ∧ p < i * dim + dim) (by
      intro i hi W e he
      obtain ⟨e', h3, h4⟩ := loop_toward (t := vrotData m.data d0 dim (wrapMod n d0) x)
        (f := fun k e => (vAt m.data ((wrapMod (n * dim) m.data.length + i * dim) % m.data.length + k)).bind fun x => Ed.put e (i * dim + k) x)
        (fun k p => p = i * dim + k) (List.range dim) (by
          intro k hk W e he
          have hk : k < dim := by simpa using hk
          have hq : (wrapMod (n * dim) m.data.length + i * dim) % m.data.length = (wrapMod n d0 + i) % d0 * dim := by
            rw [hl, wrapMod_mul n hd h0, ← Nat.add_mul, Nat.mul_mod_mul_right]
          have hr : ∀ r, r < d0 → r * dim + k < m.data.length := by
            intro r hr
            rw [hl]
            calc r * dim + k < r * dim + dim := by omega
              _ = (r + 1) * dim := by rw [Nat.succ_mul]
              _ ≤ d0 * dim := Nat.mul_le_mul_right _ hr
          have h5 := hr _ (Nat.mod_lt (wrapMod n d0 + i) h0)
          rw [hq, vAt_lt h5, bind_ok]
          apply toward_put he
          have e3 : (i * dim + k) / dim = i := by rw [Nat.mul_comm, Nat.mul_add_div hd, Nat.div_eq_of_lt hk]; simp
          have e4 : (i * dim + k) % dim = k := by rw [Nat.mul_comm, Nat.mul_add_mod, Nat.mod_eq_of_lt hk]
          simp only [vrotData, List.getElem?_map, List.getElem?_range (hr i hi), Option.map_some, e3, e4, List.getD_eq_getElem?_getD,
            List.getElem?_eq_getElem h5, Option.getD_some]) he
      refine ⟨e', h3, toward_mono h4 ?_⟩
      rintro p _ (h | h)
      · exact .inl h
      · exact .inr ⟨p - i * dim, by simp; omega, by omega⟩) hlen.symm (by
      intro p hp
      rw [hlen, hl] at hp
      refine ⟨p / dim, ?_, Nat.div_mul_le_self _ _, ?_⟩
      · exact (Nat.div_lt_iff_lt_mul hd).mpr hp
      · have := Nat.lt_div_mul_add hd (a := p); omega)
  rw [h1, bind_ok, h2, bind_ok]

/-! ## Coordinates at either end -/

theorem ravel_snoc : ∀ (s c : List Nat) (d i : Nat), c.length = s.length → ravel (s ++ [d]) (c ++ [i]) = ravel s c * d + i
  | [], [], d, i, _ => by simp [ravel, vol]
  | [], _ :: _, _, _, h => by simp at h
  | _ :: _, [], _, _, h => by simp at h
  | a :: s, b :: c, d, i, h => by
    simp only [List.cons_append, ravel, vol_append, vol, Nat.mul_one]
    rw [ravel_snoc s c d i (by simpa using h), Nat.add_mul, Nat.mul_assoc, Nat.add_assoc]

theorem inB_snoc : ∀ (s c : List Nat) (d i : Nat), InB (s ++ [d]) (c ++ [i]) ↔ InB s c ∧ i < d
  | [], [], d, i => by simp [InB]
  | [], b :: c, d, i => by
    simp only [List.nil_append, List.cons_append, InB]
    cases c <;> simp [InB]
  | a :: s, [], d, i => by
    simp only [List.cons_append, List.nil_append, InB]
    cases s <;> simp [InB]
  | a :: s, b :: c, d, i => by
    simp only [List.cons_append, InB, inB_snoc s c d i, and_assoc]

theorem inB_split {s c : List Nat} {d : Nat} (h : InB (s ++ [d]) c) : ∃ c' i, c = c' ++ [i] ∧ InB s c' ∧ i < d := by
  have hl := inB_length h
  rcases List.eq_nil_or_concat c with rfl | ⟨c', i, rfl⟩
  · simp at hl
  · exact ⟨c', i, by simp, (inB_snoc s c' d i).mp (by simpa using h)⟩

theorem at_row {m : Mat α} {s : List Nat} {d : Nat} (hs : m.shape = s ++ [d]) {c : List Nat} {i : Nat} (hc : InB s c) (hi : i < d) :
    m.at (c ++ [i]) = m.data[ravel s c * d + i]? := by
  unfold Mat.at
  rw [hs, if_pos ((inB_snoc s c d i).mpr ⟨hc, hi⟩), ravel_snoc s c d i (inB_length hc)]

theorem at_cons {m : Mat α} {s : List Nat} {d : Nat} (hs : m.shape = d :: s) {c : List Nat} {i : Nat} (hc : InB s c) (hi : i < d) :
    m.at (i :: c) = m.data[i * vol s + ravel s c]? := by
  unfold Mat.at
  rw [hs, if_pos (show InB (d :: s) (i :: c) from ⟨hi, hc⟩)]; rfl

theorem row_index {s c : List Nat} {d i len : Nat} (hc : InB s c) (hi : i < d) (hl : len = vol (s ++ [d])) : ravel s c * d + i < len := by
  have := ravel_lt hc
  rw [hl, vol_append]
  simp only [vol, Nat.mul_one]
  calc ravel s c * d + i < ravel s c * d + d := by omega
    _ = (ravel s c + 1) * d := by rw [Nat.succ_mul]
    _ ≤ vol s * d := Nat.mul_le_mul_right _ this

theorem toNat_mod (n : Int) (i : Nat) {d : Nat} (hd : 0 < d) : (wrapMod n d + i) % d = ((i + n) % (d : Int)).toNat := by
  have h1 := wrapMod_eq n hd
  have h2 : (((wrapMod n d + i) % d : Nat) : Int) = (i + n) % d := by
    rw [Int.natCast_emod, Int.natCast_add, h1, Int.emod_add_emod, Int.add_comm]
  omega

theorem rotate_at (S : Sched) {m : Mat α} (hm : m.Ok) {s : List Nat} {d : Nat} (hs : m.shape = s ++ [d]) (hd : 0 < d) (n : Int) :
    ∃ m', rotate S m n = .ok m' ∧ m'.Ok ∧ m'.shape = m.shape ∧
      ∀ c i, InB s c → i < d → m'.at (c ++ [i]) = m.at (c ++ [((i + n) % (d : Int)).toNat]) := by
  have hg : m.shape.getLast? = some d := by rw [hs]; simp
  have hdvd : d ∣ m.data.length := by rw [hm.len, hs, vol_append]; exact ⟨vol s, by simp [vol, Nat.mul_comm]⟩
  have hdata : ∀ x, rotate S m n = .ok ⟨m.shape, rotData m d (wrapMod n d) x⟩ := by
    intro x
    rw [rotate_core S m hg hd hdvd n x]
    exact newMatrix_fits hm.rank (by simp [rotData, hm.len]) hm.fits
  have hmem : ∀ c i, InB s c → i < d → ∃ x, m.data[ravel s c * d + i]? = some x := by
    intro c i hc hi
    have := row_index hc hi (hm.len.trans (by rw [hs]))
    exact ⟨_, List.getElem?_eq_getElem this⟩
  rcases Nat.eq_zero_or_pos m.data.length with h0 | h0
  · -- no elements: the same empty matrix
    have he : m.data = [] := List.eq_nil_of_length_eq_zero h0
    refine ⟨⟨m.shape, []⟩, ?_, ⟨⟨hm.rank, by rw [← hm.len, h0]; rfl⟩, hm.fits⟩, rfl, ?_⟩
    · rw [show rotate S m n = newMatrix m.shape [] from ?_]
      · exact newMatrix_fits hm.rank (by rw [← hm.len, h0]; rfl) hm.fits
      · unfold rotate
        simp only [hg, if_neg (show ¬ d = 0 by omega), he, List.length_nil, Nat.zero_div, S.small d 0 (by omega)]
        rfl
    · intro c i hc hi
      obtain ⟨x, hx⟩ := hmem c i hc hi
      rw [he] at hx; simp at hx
  · refine ⟨_, hdata (m.data[0]), ⟨⟨hm.rank, by simp [rotData, hm.len]⟩, hm.fits⟩, rfl, ?_⟩
    intro c i hc hi
    have hlt := row_index hc hi (hm.len.trans (by rw [hs]))
    have hlt2 : ((i + n) % (d : Int)).toNat < d := by
      have := Int.emod_lt_of_pos (i + n) (by omega : (0 : Int) < d); omega
    rw [at_row hs hc hlt2, at_row (m := ⟨m.shape, rotData m d (wrapMod n d) m.data[0]⟩) hs hc hi]
    have e1 : (ravel s c * d + i) / d = ravel s c := by rw [Nat.mul_comm, Nat.mul_add_div hd, Nat.div_eq_of_lt hi]; simp
    have e2 : (wrapMod n d + (ravel s c * d + i)) % d = ((i + n) % (d : Int)).toNat := by
      rw [← toNat_mod n i hd, show wrapMod n d + (ravel s c * d + i) = (wrapMod n d + i) + d * ravel s c by rw [Nat.mul_comm d]; omega,
        Nat.add_mul_mod_self_left]
    have hlt3 := row_index hc hlt2 (hm.len.trans (by rw [hs]))
    simp only [rotData, List.getElem?_map, List.getElem?_range hlt, Option.map_some, e1, e2, List.getD_eq_getElem?_getD,
      List.getElem?_eq_getElem hlt3, Option.getD_some]

theorem vrotate_at (S : Sched) {m : Mat α} (hm : m.Ok) {s : List Nat} {d : Nat} (hs : m.shape = d :: s) (hr : s ≠ []) (hne : 0 < m.data.length) (n : Int) :
    ∃ m', vrotate S m n = .ok m' ∧ m'.Ok ∧ m'.shape = m.shape ∧
      ∀ c i, InB s c → i < d → m'.at (i :: c) = m.at (((i + n) % (d : Int)).toNat :: c) := by
  have hl : m.data.length = d * vol s := by rw [hm.len, hs]; rfl
  have hd : 0 < d := by
    rcases Nat.eq_zero_or_pos d with h | h
    · rw [h, Nat.zero_mul] at hl; omega
    · exact h
  have hv : 0 < vol s := by
    rcases Nat.eq_zero_or_pos (vol s) with h | h
    · rw [h, Nat.mul_zero] at hl; omega
    · exact h
  obtain ⟨d1, ds, rfl⟩ : ∃ d1 ds, s = d1 :: ds := by
    cases s with
    | nil => exact absurd rfl hr
    | cons a b => exact ⟨a, b, rfl⟩
  refine ⟨⟨m.shape, vrotData m.data d (vol (d1 :: ds)) (wrapMod n d) m.data[0]⟩, ?_, ⟨⟨hm.rank, by simp [vrotData, hm.len]⟩, hm.fits⟩, rfl, ?_⟩
  · rw [vrotate_core S m hs hv hd hl n m.data[0]]
    exact newMatrix_fits hm.rank (by simp [vrotData, hm.len]) hm.fits
  · intro c i hc hi
    have hlt2 : ((i + n) % (d : Int)).toNat < d := by
      have := Int.emod_lt_of_pos (i + n) (by omega : (0 : Int) < d); omega
    rw [at_cons hs hc hlt2, at_cons (m := ⟨m.shape, vrotData m.data d (vol (d1 :: ds)) (wrapMod n d) m.data[0]⟩) hs hc hi]
    have hk := ravel_lt hc
    have hrow : ∀ r, r < d → r * vol (d1 :: ds) + ravel (d1 :: ds) c < m.data.length := by
      intro r hr
      rw [hl]
      calc r * vol (d1 :: ds) + ravel (d1 :: ds) c < r * vol (d1 :: ds) + vol (d1 :: ds) := by omega
        _ = (r + 1) * vol (d1 :: ds) := by rw [Nat.succ_mul]
        _ ≤ d * vol (d1 :: ds) := Nat.mul_le_mul_right _ hr
    have e1 : (i * vol (d1 :: ds) + ravel (d1 :: ds) c) / vol (d1 :: ds) = i := by
      rw [Nat.mul_comm, Nat.mul_add_div hv, Nat.div_eq_of_lt hk]; simp
    have e2 : (i * vol (d1 :: ds) + ravel (d1 :: ds) c) % vol (d1 :: ds) = ravel (d1 :: ds) c := by
      rw [Nat.mul_comm, Nat.mul_add_mod, Nat.mod_eq_of_lt hk]
    simp only [vrotData, List.getElem?_map, List.getElem?_range (hrow i hi), Option.map_some, e1, e2, toNat_mod n i hd, List.getD_eq_getElem?_getD,
      List.getElem?_eq_getElem (hrow _ hlt2), Option.getD_some]

/-- Rotation of a vector of two or more elements. -/
theorem vecRotate_get {v : List α} (hv : 2 ≤ v.length) (n : Int) :
    ∃ l, vecRotate v n = .ok (.vec l) ∧ l.length = v.length ∧ ∀ i, i < v.length → l[i]? = v[((i + n) % (v.length : Int)).toNat]? := by
  have hp : 0 < v.length := by omega
  let t := (List.range v.length).map fun i => v.getD ((wrapMod n v.length + i) % v.length) v[0]
  have hlen : v.length = t.length := by simp [t]
  obtain ⟨e, h1, h2⟩ := doRotate_toward (t := t) (src := v) (i := 0) (n := v.length) (j := 0) (off := wrapMod n v.length) (by
    intro k hk
    have h3 := Nat.mod_lt (wrapMod n v.length + k) hp
    refine ⟨v[(wrapMod n v.length + k) % v.length], by simp [List.getElem?_eq_getElem h3], ?_⟩
    simp only [t, Nat.zero_add, List.getElem?_map, List.getElem?_range hk, Option.map_some, List.getD_eq_getElem?_getD, List.getElem?_eq_getElem h3, Option.getD_some])
    (toward_edit v hlen)
  refine ⟨t, ?_, hlen.symm, ?_⟩
  · unfold vecRotate
    match v, hv with
    | a :: b :: r, _ =>
      simp only
      rw [h1, bind_ok, toward_publish h2 (fun i hi => .inr (by omega)), bind_ok]
  · intro i hi
    have h3 := Nat.mod_lt (wrapMod n v.length + i) hp
    rw [← toNat_mod n i hp]
    simp only [t, List.getElem?_map, List.getElem?_range hi, Option.map_some, List.getD_eq_getElem?_getD, List.getElem?_eq_getElem h3, Option.getD_some]

end Verif.Arr
