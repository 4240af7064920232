import Verif.Arr.MixSpec
import Verif.Arr.WhereLemmas

namespace Verif.Arr
variable {α : Type}

/-! ## Split -/

theorem split_ok {m : Mat α} (hm : m.Ok) {s : List Nat} {n : Nat} (hs : s ≠ []) (hsh : m.shape = s ++ [n]) (hd : ∀ d ∈ s, d ≤ maxInt) :
    split m = .ok (Mat.shrink ⟨s, (List.range (vol s)).map fun i => .vec ((m.data.drop (i * n)).take n)⟩) := by
  have hpos : 0 < s.length := List.length_pos_iff.mpr hs
  have hl : m.data.length = vol s * n := by rw [hm.len, hsh, vol_snoc']
  have hf : Fits s := by
    intro k h1 h2
    have := hm.fits k h1 (by rw [hsh]; simp; omega)
    rwa [hsh, List.take_append_of_le_length h2] at this
  have hlen : ((List.range (vol s)).map fun i => V.vec ((m.data.drop (i * n)).take n)).length = vol s := by simp
  obtain ⟨e, h1, h2⟩ := loop_toward (t := (List.range (vol s)).map fun i => V.vec ((m.data.drop (i * n)).take n))
    (f := fun i e => (sliceV m.data (i * n) ((i + 1) * n)).bind fun row => e.put i (.vec row)) (fun k i => i = k) (List.range (vol s)) (by
      intro k hk W e he
      have hk' : k < vol s := List.mem_range.mp hk
      obtain ⟨e', a1, a2⟩ := toward_put he (i := k) (x := .vec ((m.data.drop (k * n)).take n)) (by simp [hk'])
      refine ⟨e', ?_, a2⟩
      have hle : (k + 1) * n ≤ vol s * n := Nat.mul_le_mul_right n hk'
      unfold sliceV
      rw [if_pos ⟨Nat.mul_le_mul_right n (by omega), by omega⟩, bind_ok, show (k + 1) * n - k * n = n by rw [Nat.succ_mul]; omega]
      exact a1) (toward_new _ hlen.symm)
  unfold split
  rw [if_neg (by rw [hsh]; simp; omega)]
  dsimp only
  have e1 : m.shape.take (m.shape.length - 1) = s := by rw [hsh]; simp
  have e2 : vAt m.shape (m.shape.length - 1) = .ok n := by rw [hsh]; simp [vAt]
  rw [e1, e2, bind_ok, size_allowed hf hd, bind_ok, h1, bind_ok, toward_publish h2 (by intro i hi; rw [hlen] at hi; exact .inr ⟨i, List.mem_range.mpr hi, rfl⟩), bind_ok,
    newMatrix_fits hs hlen hf, bind_ok]

/-! ## The shape of a mix -/

theorem padShape_length {r : Nat} {e : V α} (h : e.shape.length ≤ r) : (padShape r e).length = r := by
  simp [padShape]; omega

theorem topShape_length (r : Nat) : ∀ (l : List (V α)), (∀ e ∈ l, e.shape.length ≤ r) → (topShape r l).length = r
  | [], _ => by simp [topShape]
  | e :: l, h => by
    have ih := topShape_length r l (fun x hx => h x (by simp [hx]))
    have := padShape_length (h e (by simp))
    simp only [topShape, List.foldr_cons, List.length_zipWith]
    rw [show (List.foldr (fun e s => List.zipWith max (padShape r e) s) (List.replicate r 0) l).length = r from ih, this]
    simp

theorem zip_assoc : ∀ (a b c : List Nat), List.zipWith max a (List.zipWith max b c) = List.zipWith max (List.zipWith max a b) c
  | [], _, _ => by simp
  | _ :: _, [], _ => by simp
  | _ :: _, _ :: _, [] => by simp
  | x :: a, y :: b, z :: c => by
    simp only [List.zipWith_cons_cons, zip_assoc a b c, List.cons.injEq, and_true]
    omega

theorem zip_zero : ∀ (t : List Nat), List.zipWith max (List.replicate t.length 0) t = t
  | [] => by simp
  | x :: t => by
    rw [List.length_cons, List.replicate_succ, List.zipWith_cons_cons, zip_zero t]
    simp

theorem zip_zero' : ∀ (t : List Nat), List.zipWith max t (List.replicate t.length 0) = t
  | [] => by simp
  | x :: t => by
    rw [List.length_cons, List.replicate_succ, List.zipWith_cons_cons, zip_zero' t]
    simp

theorem maxInto_eq : ∀ (a d : List Nat), a.length = d.length → maxInto a d = .ok (List.zipWith max a d)
  | [], [], _ => rfl
  | x :: a, y :: d, h => by
    simp only [maxInto, maxInto_eq a d (by simpa using h), bind_ok, List.zipWith_cons_cons]
    congr 2
    split <;> omega
  | [], _ :: _, h => by simp at h
  | _ :: _, [], h => by simp at h

theorem mixStep_eq {r : Nat} (hr : 1 ≤ r) {e : V α} (hok : e.Ok) (he : e.shape.length = r ∨ (r = 1 ∧ e.shape = [])) {s : List Nat} (hs : s.length = r) :
    mixStep e s = .ok (List.zipWith max s (padShape r e)) := by
  cases e with
  | elem x =>
    have h1 : r = 1 := by
      rcases he with h | h
      · simp [V.shape] at h; omega
      · exact h.1
    subst h1
    match s, hs with
    | [y], _ =>
      simp only [mixStep, padShape, V.shape, vAt]
      simp
      split <;> simp <;> omega
  | vec l =>
    have h1 : r = 1 := by
      rcases he with h | h
      · simpa [V.shape] using h.symm
      · exact h.1
    subst h1
    match s, hs with
    | [y], _ =>
      simp only [mixStep, padShape, V.shape, vAt]
      simp
      split <;> simp <;> omega
  | mat m =>
    have h1 : m.shape.length = r := by
      rcases he with h | ⟨_, h⟩
      · exact h
      · exact absurd h hok.1.rank
    simp only [mixStep, padShape, V.shape]
    rw [h1, hs, Nat.sub_self, List.replicate_zero, List.replicate_zero, List.append_nil, List.nil_append]
    exact maxInto_eq _ _ (by omega)

theorem mixLoop_eq {r : Nat} (hr : 1 ≤ r) : ∀ (l : List (V α)), (∀ e ∈ l, e.Ok) → SameRank r l → ∀ s : List Nat, s.length = r →
    loopOver mixStep l s = .ok (List.zipWith max s (topShape r l))
  | [], _, _, s, hs => by
    subst hs
    simp only [loopOver, topShape, List.foldr_nil]
    rw [zip_zero']
  | e :: l, ho, h, s, hs => by
    have he := h e (by simp)
    have hle : e.shape.length ≤ r := by
      rcases he with h | ⟨_, h⟩
      · omega
      · rw [h]; simp
    have hl : (List.zipWith max s (padShape r e)).length = r := by rw [List.length_zipWith, padShape_length hle, hs]; simp
    simp only [loopOver]
    rw [mixStep_eq hr (ho e (by simp)) he hs, bind_ok, mixLoop_eq hr l (fun x hx => ho x (by simp [hx])) (fun x hx => h x (by simp [hx])) _ hl]
    simp only [topShape, List.foldr_cons, zip_assoc]

theorem sameRank_le {r : Nat} {l : List (V α)} (h : SameRank r l) : ∀ e ∈ l, e.shape.length ≤ r := by
  intro e he
  rcases h e he with h | ⟨_, h⟩
  · omega
  · rw [h]; simp

/-- The loop starts with one axis only, which is enough. -/
theorem mixShape_eq {r : Nat} (hr : 1 ≤ r) {l : List (V α)} (hne : l ≠ []) (ho : ∀ e ∈ l, e.Ok) (h : SameRank r l) :
    loopOver mixStep l [0] = .ok (topShape r l) := by
  have hlen := topShape_length r l (sameRank_le h)
  have key : loopOver mixStep l [0] = loopOver mixStep l (List.replicate r 0) := by
    by_cases h1 : r = 1
    · subst h1; rfl
    · match l, hne with
      | e :: l, _ =>
        have he : e.shape.length = r := (h e (by simp)).resolve_right (fun h => h1 h.1)
        cases e with
        | elem x => simp [V.shape] at he; omega
        | vec l => simp [V.shape] at he; omega
        | mat m =>
          simp only [loopOver, mixStep]
          simp only [V.shape] at he
          have e1 : [0] ++ List.replicate (m.shape.length - [0].length) 0 = List.replicate r 0 := by
            rw [he, show ([0] : List Nat) = List.replicate 1 0 from rfl, List.replicate_append_replicate]
            congr 1
            simp; omega
          rw [e1, List.length_replicate, he, Nat.sub_self, List.replicate_zero, List.append_nil]
  rw [key, mixLoop_eq hr l ho h _ (by simp)]
  have := zip_zero (topShape r l)
  rw [hlen] at this
  rw [this]

/-- All elements fit into the shape. -/
theorem pad_le_top (r : Nat) : ∀ (l : List (V α)), (∀ e ∈ l, e.shape.length ≤ r) → ∀ e ∈ l, List.Forall₂ (· ≤ ·) (padShape r e) (topShape r l)
  | e :: l, h, x, hx => by
    have h1 := padShape_length (h e (by simp))
    have h2 := topShape_length r l (fun y hy => h y (by simp [hy]))
    have gen : ∀ (a b : List Nat), a.length = b.length → List.Forall₂ (· ≤ ·) a (List.zipWith max a b) ∧ List.Forall₂ (· ≤ ·) b (List.zipWith max a b) := by
      intro a
      induction a with
      | nil => intro b hb; cases b <;> simp at *
      | cons u a ih =>
        intro b hb
        cases b with
        | nil => simp at hb
        | cons v b =>
          obtain ⟨i1, i2⟩ := ih b (by simpa using hb)
          exact ⟨.cons (by omega) i1, .cons (by omega) i2⟩
    have trans : ∀ {a b c : List Nat}, List.Forall₂ (· ≤ ·) a b → List.Forall₂ (· ≤ ·) b c → List.Forall₂ (· ≤ ·) a c := by
      intro a b c hab
      induction hab generalizing c with
      | nil => intro h; cases h; exact .nil
      | cons h _ ih => intro h'; cases h' with | cons h1 h2 => exact .cons (Nat.le_trans h h1) (ih h2)
    obtain ⟨g1, g2⟩ := gen (padShape r e) (topShape r l) (by omega)
    rcases List.mem_cons.mp hx with rfl | hx
    · exact g1
    · exact trans (pad_le_top r l (fun y hy => h y (by simp [hy])) x hx) g2

/-! ## Placing an element -/

theorem takeSrc_pos : ∀ (s p d : List Nat), s.length = p.length → d.length = s.length → takeSrc (s.map fun d : Nat => (d : Int)) p d = if InB p d then some d else none
  | [], [], [], _, _ => by simp [takeSrc, InB]
  | x :: s, y :: p, i :: d, h1, h2 => by
    simp only [List.map_cons, takeSrc, takeSrc_pos s p d (by simpa using h1) (by simpa using h2), takeSrc1]
    rw [if_neg (by omega)]
    by_cases hi : i < y
    · rw [if_pos hi]
      by_cases hd : InB p d
      · rw [if_pos hd, if_pos (show InB (y :: p) (i :: d) from ⟨hi, hd⟩)]
      · rw [if_neg hd, if_neg (fun h : InB (y :: p) (i :: d) => hd h.2)]
    · rw [if_neg hi, if_neg (fun h : InB (y :: p) (i :: d) => hi h.1)]

/-- Taking with non-negative counts for all axes. -/
theorem take_pos (fill : α) {p s : List Nat} {data : List α} (hm : (Mat.mk p data).Ok) (hl : s.length = p.length) (hv : vol s ≤ maxInt) (hf : Fits s) :
    ∃ r, take fill ⟨p, data⟩ (s.map fun d : Nat => some (d : Int)) = .ok r ∧ r.data.length = vol s ∧
      ∀ d, InB s d → r.data[ravel s d]? = if InB p d then data[ravel p d]? else some fill := by
  have h := take_at fill hm (v := s.map fun d : Nat => (d : Int)) (by simp [hl])
  dsimp only at h
  have e1 : fullCounts (s.map fun d : Nat => (d : Int)) p = s.map fun d : Nat => (d : Int) := by
    unfold fullCounts
    rw [List.length_map, hl, List.drop_length]
    simp
  have e2 : (s.map fun d : Nat => (d : Int)).map Int.natAbs = s := by simp [Function.comp_def]
  rw [e1, e2] at h
  obtain ⟨r, h1, h2, h3, h4⟩ := h.1 hv hf
  refine ⟨r, ?_, by rw [h2.len, h3], ?_⟩
  · rw [List.map_map] at h1
    exact h1
  · intro d hd
    have := h4 d hd
    unfold Mat.at at this
    rw [h3, if_pos hd, takeSrc_pos s p d hl (inB_length hd)] at this
    rw [this]
    by_cases hp : InB p d
    · rw [if_pos hp, if_pos hp]
      dsimp only
      rw [if_pos hp]
    · rw [if_neg hp, if_neg hp]

theorem take_pos_err (fill : α) {p s : List Nat} {data : List α} (hm : (Mat.mk p data).Ok) (hl : s.length = p.length) (h0 : ¬ (vol s ≤ maxInt ∧ Fits s)) :
    ∃ e, take fill ⟨p, data⟩ (s.map fun d : Nat => some (d : Int)) = .err e := by
  have h := take_at fill hm (v := s.map fun d : Nat => (d : Int)) (by simp [hl])
  dsimp only at h
  have e1 : fullCounts (s.map fun d : Nat => (d : Int)) p = s.map fun d : Nat => (d : Int) := by
    unfold fullCounts
    rw [List.length_map, hl, List.drop_length]
    simp
  have e2 : (s.map fun d : Nat => (d : Int)).map Int.natAbs = s := by simp [Function.comp_def]
  rw [e1, e2] at h
  obtain ⟨e, h1⟩ := h.2 h0
  rw [List.map_map] at h1
  exact ⟨e, h1⟩

/-- An element as a matrix of full rank. -/
theorem pad_ok {r : Nat} (hr : 1 ≤ r) {e : V α} (ho : e.Ok) (he : e.shape.length = r ∨ (r = 1 ∧ e.shape = [])) :
    newMatrix (padShape r e) e.data = .ok ⟨padShape r e, e.data⟩ ∧ (Mat.mk (padShape r e) e.data).Ok := by
  have hle : e.shape.length ≤ r := by
    rcases he with h | ⟨_, h⟩
    · omega
    · rw [h]; simp
  have hne : padShape r e ≠ [] := by
    intro h
    have := padShape_length hle
    rw [h] at this; simp at this; omega
  have hlen : e.data.length = vol (padShape r e) := by
    rw [data_length ho, padShape, vol_append]
    have : vol (List.replicate (r - e.shape.length) 1) = 1 := by rw [vol_prod]; simp
    rw [this, Nat.one_mul]
  have hf : Fits (padShape r e) := by
    by_cases h1 : r = 1
    · intro k a b
      rw [padShape_length hle] at b
      omega
    · have h2 : e.shape.length = r := he.resolve_right (fun h => h1 h.1)
      have : padShape r e = e.shape := by simp [padShape, h2]
      rw [this]
      cases e with
      | elem x => simp [V.shape] at h2; omega
      | vec l => simp [V.shape] at h2; omega
      | mat m => exact ho.1.fits
  exact ⟨newMatrix_fits hne hlen hf, ⟨⟨hne, hlen⟩, hf⟩⟩

/-- What an element contributes. -/
theorem mixOne_ok (fill : List α → α) {r : Nat} (hr : 1 ≤ r) {s : List Nat} (hs : s.length = r) {e : V α} (ho : e.Ok) (he : e.shape.length = r ∨ (r = 1 ∧ e.shape = []))
    (hle : List.Forall₂ (· ≤ ·) (padShape r e) s) (h1 : ∀ m, e = .mat m → (∀ d ∈ m.shape, d = 1) → ∀ d ∈ s, d = 1) (hv : vol s ≤ maxInt) (hf : Fits s) :
    ∃ x, mixOne fill s e = .ok x ∧ x.length = vol s ∧ ∀ d, InB s d → x[ravel s d]? = if InB (padShape r e) d then e.data[ravel (padShape r e) d]? else some (fill e.data) := by
  have hle' : e.shape.length ≤ r := by
    rcases he with h | ⟨_, h⟩
    · omega
    · rw [h]; simp
  obtain ⟨p1, p2⟩ := pad_ok hr ho he
  obtain ⟨t, t1, t2, t3⟩ := take_pos (fill e.data) p2 (s := s) (by rw [padShape_length hle']; exact hs) hv hf
  have fin : ∀ q, q = padShape r e → (newMatrix q e.data).bind (fun m => (take (fill m.data) m (s.map fun d : Nat => some (d : Int))).bind fun r => .ok r.data) = .ok t.data := by
    rintro q rfl
    rw [p1, bind_ok, t1, bind_ok]
  cases e with
  | elem x =>
    exact ⟨t.data, fin _ (by simp [padShape, V.shape, hs]), t2, t3⟩
  | vec l =>
    have hr1 : r = 1 := by
      rcases he with h | h
      · simpa [V.shape] using h.symm
      · exact h.1
    subst hr1
    exact ⟨t.data, fin _ (by rw [hs]; simp [padShape, V.shape]), t2, t3⟩
  | mat m =>
    have hmr : m.shape.length = r := by
      rcases he with h | ⟨_, h⟩
      · exact h
      · exact absurd h ho.1.rank
    have hp : padShape r (V.mat m) = m.shape := by simp [padShape, V.shape, hmr]
    simp only [mixOne]
    by_cases hone : ∀ d ∈ m.shape, d = 1
    · rw [if_pos ⟨by omega, hone⟩]
      have hs1 : s = m.shape := by
        rw [hp] at hle
        have a1 : s = List.replicate r 1 := List.eq_replicate_iff.mpr ⟨hs, h1 m rfl hone⟩
        have a2 : m.shape = List.replicate r 1 := List.eq_replicate_iff.mpr ⟨hmr, hone⟩
        rw [a1, a2]
      refine ⟨m.data, rfl, ?_, ?_⟩
      · rw [hs1]; exact ho.1.len
      · intro d hd
        rw [hp, ← hs1, if_pos hd]
        rfl
    · rw [if_neg (fun h => hone h.2)]
      refine ⟨t.data, fin _ ?_, t2, t3⟩
      rw [hs, hmr]; simp [hp]

theorem mixOne_total (fill : List α → α) {r : Nat} (hr : 1 ≤ r) {s : List Nat} (hs : s.length = r) {e : V α} (ho : e.Ok) (he : e.shape.length = r ∨ (r = 1 ∧ e.shape = [])) :
    (∃ x, mixOne fill s e = .ok x) ∨ ∃ m, mixOne fill s e = .err m := by
  have hle' : e.shape.length ≤ r := by
    rcases he with h | ⟨_, h⟩
    · omega
    · rw [h]; simp
  obtain ⟨p1, p2⟩ := pad_ok hr ho he
  have fin : ∀ q, q = padShape r e → (∃ x, (newMatrix q e.data).bind (fun m => (take (fill m.data) m (s.map fun d : Nat => some (d : Int))).bind fun r => .ok r.data) = .ok x) ∨
      ∃ x, (newMatrix q e.data).bind (fun m => (take (fill m.data) m (s.map fun d : Nat => some (d : Int))).bind fun r => .ok r.data) = .err x := by
    rintro q rfl
    rw [p1, bind_ok]
    dsimp only
    by_cases h : vol s ≤ maxInt ∧ Fits s
    · obtain ⟨t, t1, _⟩ := take_pos (fill e.data) p2 (s := s) (by rw [padShape_length hle']; exact hs) h.1 h.2
      rw [t1]; exact .inl ⟨_, rfl⟩
    · obtain ⟨t, t1⟩ := take_pos_err (fill e.data) p2 (s := s) (by rw [padShape_length hle']; exact hs) h
      rw [t1]; exact .inr ⟨_, rfl⟩
  cases e with
  | elem x => exact fin _ (by simp [padShape, V.shape, hs])
  | vec l =>
    have hr1 : r = 1 := by
      rcases he with h | h
      · simpa [V.shape] using h.symm
      · exact h.1
    subst hr1
    exact fin _ (by rw [hs]; simp [padShape, V.shape])
  | mat m =>
    have hmr : m.shape.length = r := by
      rcases he with h | ⟨_, h⟩
      · exact h
      · exact absurd h ho.1.rank
    have hp : padShape r (V.mat m) = m.shape := by simp [padShape, V.shape, hmr]
    simp only [mixOne]
    split
    · exact .inl ⟨_, rfl⟩
    · exact fin _ (by rw [hs, hmr]; simp [hp])

/-! ## The whole -/

theorem allScalars_none : ∀ {l : List (V α)} {e : V α}, e ∈ l → e.shape ≠ [] → allScalars l = none
  | x :: l, e, h, he => by
    cases x with
    | elem y =>
      rcases List.mem_cons.mp h with rfl | h
      · exact absurd rfl he
      · simp [allScalars, allScalars_none h he]
    | vec _ => rfl
    | mat _ => rfl

theorem allScalars_some : ∀ {l : List (V α)}, (∀ e ∈ l, e.Ok) → (∀ e ∈ l, e.shape = []) → ∃ xs, l = xs.map .elem ∧ allScalars l = some xs
  | [], _, _ => ⟨[], rfl, rfl⟩
  | e :: l, ho, h => by
    obtain ⟨xs, h1, h2⟩ := allScalars_some (l := l) (fun x hx => ho x (by simp [hx])) (fun x hx => h x (by simp [hx]))
    have he := h e (by simp)
    cases e with
    | elem y => exact ⟨y :: xs, by rw [h1]; rfl, by simp [allScalars, h2]⟩
    | vec l => simp [V.shape] at he
    | mat m => exact absurd he (ho (.mat m) (by simp)).1.rank

theorem flatMap_at {β : Type} {n : Nat} (f : α → List β) : ∀ (t : List α), (∀ x ∈ t, (f x).length = n) → ∀ (i j : Nat),
    j < n → (t.flatMap f)[i * n + j]? = (t[i]?).bind fun x => (f x)[j]?
  | [], _, i, j, _ => by simp
  | x :: t, h, i, j, hj => by
    have hr := h x (by simp)
    cases i with
    | zero =>
      rw [List.flatMap_cons, List.getElem?_append_left (by rw [hr]; omega)]
      simp
    | succ i =>
      have e : (i + 1) * n + j = n + (i * n + j) := by rw [Nat.succ_mul]; omega
      rw [List.flatMap_cons, e, List.getElem?_append_right (by rw [hr]; omega), hr, Nat.add_sub_cancel_left,
        flatMap_at f t (fun r hr' => h r (by simp [hr'])) i j hj]
      simp

theorem flatMap_length' {β : Type} {n : Nat} (f : α → List β) : ∀ (t : List α), (∀ x ∈ t, (f x).length = n) → (t.flatMap f).length = t.length * n
  | [], _ => by simp
  | x :: t, h => by
    rw [List.flatMap_cons, List.length_append, h x (by simp), flatMap_length' f t (fun r hr' => h r (by simp [hr'])), List.length_cons, Nat.succ_mul]
    omega

theorem mixData (g : V α → List α) (F : V α → R (List α)) : ∀ (l : List (V α)) (acc : List α), (∀ e ∈ l, F e = .ok (g e)) →
    loopOver (fun e (d : List α) => (F e).bind fun x => .ok (d ++ x)) l acc = .ok (acc ++ l.flatMap g)
  | [], acc, _ => by simp [loopOver]
  | e :: l, acc, h => by
    simp only [loopOver]
    rw [h e (by simp), bind_ok, bind_ok, mixData g F l _ (fun x hx => h x (by simp [hx]))]
    simp

theorem mixData_total (F : V α → R (List α)) : ∀ (l : List (V α)) (acc : List α), (∀ e ∈ l, (∃ x, F e = .ok x) ∨ ∃ m, F e = .err m) →
    (∃ x, loopOver (fun e (d : List α) => (F e).bind fun x => .ok (d ++ x)) l acc = .ok x) ∨ ∃ m, loopOver (fun e (d : List α) => (F e).bind fun x => .ok (d ++ x)) l acc = .err m
  | [], acc, _ => .inl ⟨acc, rfl⟩
  | e :: l, acc, h => by
    simp only [loopOver]
    rcases h e (by simp) with ⟨x, hx⟩ | ⟨m, hm⟩
    · rw [hx, bind_ok, bind_ok]
      exact mixData_total F l _ (fun x hx => h x (by simp [hx]))
    · rw [hm]
      exact .inr ⟨m, rfl⟩

theorem ravel_zeros (n : Nat) : ravel (List.replicate n 1) (List.replicate n 0) = 0 := by
  induction n with
  | zero => rfl
  | succ n ih => simp [List.replicate_succ, ravel, ih]

theorem inB_zeros (n : Nat) : InB (List.replicate n 1) (List.replicate n 0) := by
  induction n with
  | zero => trivial
  | succ n ih => exact ⟨by omega, ih⟩

theorem inB_pad_elim : ∀ (n : Nat) {s d : List Nat}, InB (List.replicate n 1 ++ s) d → ∃ d', InB s d' ∧ d = List.replicate n 0 ++ d'
  | 0, s, d, h => ⟨d, by simpa using h, by simp⟩
  | n + 1, s, d, h => by
    rw [List.replicate_succ, List.cons_append] at h
    cases d with
    | nil => exact h.elim
    | cons i d =>
      obtain ⟨d', h1, h2⟩ := inB_pad_elim n h.2
      refine ⟨d', h1, ?_⟩
      have : i = 0 := by have := h.1; omega
      rw [List.replicate_succ, this, h2]; rfl

theorem fits_tail {a s : List Nat} (ha : a ≠ []) (hp : 0 < vol a) (hs : s ≠ []) (hf : Fits (a ++ s)) : vol s ≤ maxInt ∧ Fits s := by
  have hal : 0 < a.length := List.length_pos_iff.mpr ha
  have hsl : 0 < s.length := List.length_pos_iff.mpr hs
  have key : ∀ k, 1 ≤ k → k ≤ s.length → vol (s.take k) ≤ maxInt := by
    intro k h1 h2
    have := hf (a.length + k) (by omega) (by simp; omega)
    rw [List.take_append, List.take_of_length_le (by omega), Nat.add_sub_cancel_left, vol_append] at this
    exact Nat.le_trans (Nat.le_mul_of_pos_left _ hp) this
  refine ⟨?_, fun k h1 h2 => key k (by omega) h2⟩
  have := key s.length hsl (Nat.le_refl _)
  rwa [List.take_length] at this

/-- `mix` of elements of one rank. -/
theorem mix_ok (fill : List α → α) {m : Mat (V α)} (hm : m.Ok) (ho : ∀ e ∈ m.data, e.Ok) {r : Nat} (hr : 1 ≤ r) (hsr : SameRank r m.data) {e0 : V α} (h0 : e0 ∈ m.data) (h0' : e0.shape ≠ [])
    (h1 : ∀ x, V.mat x ∈ m.data → (∀ d ∈ x.shape, d = 1) → ∀ d ∈ topShape r m.data, d = 1) (hf : Fits (m.shape ++ topShape r m.data)) :
    ∃ t, mix fill m = .ok t ∧ t.shape = m.shape ++ topShape r m.data ∧ ∀ c d, InB m.shape c → InB (topShape r m.data) d → ∃ e, m.data[ravel m.shape c]? = some e ∧
      t.data[ravel t.shape (c ++ d)]? = if InB (padShape r e) d then e.data[ravel (padShape r e) d]? else some (fill e.data) := by
  have hne : m.data ≠ [] := by intro h; rw [h] at h0; simp at h0
  have hs := topShape_length r m.data (sameRank_le hsr)
  generalize hS : topShape r m.data = s at *
  have hpos : 0 < vol m.shape := by rw [← hm.len]; exact List.length_pos_iff.mpr hne
  have hsne : s ≠ [] := by intro h; rw [h] at hs; simp at hs; omega
  obtain ⟨hv, hfs⟩ := fits_tail hm.rank hpos hsne hf
  have key : ∀ e, e ∈ m.data → ∃ x, mixOne fill s e = .ok x ∧ x.length = vol s ∧
      ∀ d, InB s d → x[ravel s d]? = if InB (padShape r e) d then e.data[ravel (padShape r e) d]? else some (fill e.data) := by
    intro e he
    refine mixOne_ok fill hr hs (ho e he) (hsr e he) ?_ ?_ hv hfs
    · rw [← hS]; exact pad_le_top r m.data (sameRank_le hsr) e he
    · rintro x rfl hx
      exact h1 x he hx
  let g : V α → List α := fun e => match mixOne fill s e with | .ok x => x | _ => []
  have hg : ∀ e ∈ m.data, mixOne fill s e = .ok (g e) := by
    intro e he
    obtain ⟨x, hx, _⟩ := key e he
    show _ = R.ok (match mixOne fill s e with | .ok x => x | _ => [])
    rw [hx]
  have hgl : ∀ e ∈ m.data, (g e).length = vol s := by
    intro e he
    obtain ⟨x, hx, hl, _⟩ := key e he
    rw [hg e he] at hx
    cases hx
    exact hl
  have hlen : (m.data.flatMap g).length = vol (m.shape ++ s) := by rw [flatMap_length' g m.data hgl, vol_append, hm.len]
  refine ⟨⟨m.shape ++ s, m.data.flatMap g⟩, ?_, rfl, ?_⟩
  · unfold mix
    rw [allScalars_none h0 h0']
    dsimp only
    rw [mixShape_eq hr hne ho hsr, hS, bind_ok, mixData g (mixOne fill s) m.data [] hg, bind_ok, List.nil_append]
    exact newMatrix_fits (by simp [hm.rank]) hlen hf
  · intro c d hc hd
    have hcl := ravel_lt hc
    rw [← hm.len] at hcl
    refine ⟨_, List.getElem?_eq_getElem hcl, ?_⟩
    dsimp only
    rw [ravel_append _ _ _ _ (inB_length hc), flatMap_at g m.data hgl _ _ (ravel_lt hd), List.getElem?_eq_getElem hcl, Option.bind_some]
    obtain ⟨x, hx, _, hx2⟩ := key _ (List.getElem_mem hcl)
    rw [hg _ (List.getElem_mem hcl)] at hx
    cases hx
    exact hx2 d hd

end Verif.Arr
