import Verif.Arr.InvLemmas3
import Verif.Arr.EvalProps
import Mathlib.LinearAlgebra.Matrix.Notation
import Mathlib.Tactic.NormNum

/-!
# C48: matrix inverse

In full: if `inv m` succeeds on a square matrix of exact numbers then `m +.* inv m` is the identity matrix, and it is refused
just if `m` is singular.

The first part holds (`C48_inverse`, `C48_product`).  Of the second only one half does: singular matrices are refused
(`C48_singular`), but so are others (`C48_violated`).  `C48_accepted_partial` says which matrices are accepted: those all of
whose leading minors are not zero, because the element on the diagonal is used as the pivot without exchange of rows.
-/

namespace Verif.Arr
open Num (Num)

/-- If `inv m` gives a value it is the inverse from both sides.  Any limit on the size of numbers. -/
theorem C48_inverse {maxBits n : Nat} {m : Mat Num} {r : V Num} (hm : m.Ok) (hs : m.shape = [n, n]) (hP : ∀ a ∈ m.data, a.Small)
    (h : inv (numOps maxBits) (.mat m) = .ok r) :
    ∃ m', r = .mat m' ∧ m'.Ok ∧ m'.shape = [n, n] ∧ (∀ a ∈ m'.data, a.Small) ∧
      asMatrix Num.val n m.data * asMatrix Num.val n m'.data = 1 ∧ asMatrix Num.val n m'.data * asMatrix Num.val n m.data = 1 := by
  obtain ⟨m', h1, h2⟩ := R.bind_eq_ok.1 h
  cases h2
  obtain ⟨a, b, c, d, _⟩ := matInverse_ok (numOps_exact maxBits) hm hs hP h1
  exact ⟨m', rfl, b, a, c, mul_eq_one_comm.1 d, d⟩

/-- The matrix used in the examples, of 2 and 4 over 6 and 3. -/
def exInv : Mat Num := ⟨[2, 2], [.int 2, .int 4, .int 6, .int 3]⟩

example : exInv.Ok ∧ ∀ a ∈ exInv.data, a.Small := by
  refine ⟨by decide, ?_⟩
  simp [exInv, Num.Small]

example : inv (numOps 0) (.mat exInv) = .ok (.mat ⟨[2, 2], [.bigRat (-1 / 6), .bigRat (2 / 9), .bigRat (1 / 3), .bigRat (-1 / 9)]⟩) := by
  decide +kernel

/-- The same seen by a user: `m +.* inv m` and `(inv m) +.* m` are matrices with ones on the diagonal and zeros elsewhere. -/
theorem C48_product (S : Sched) {n : Nat} (hn : 0 < n) {m : Mat Num} {r : V Num} (hm : m.Ok) (hs : m.shape = [n, n])
    (hP : ∀ a ∈ m.data, a.Small) (h : inv (numOps 0) (.mat m) = .ok r) :
    (∃ p, inner S (numOp 0 .add) (numOp 0 .mul) (.mat m) r = .ok p ∧ p.shape = [n, n] ∧
      ∀ i j, i < n → j < n → ∃ y, p.at [i, j] = some y ∧ y.val = if i = j then 1 else 0) ∧
    (∃ p, inner S (numOp 0 .add) (numOp 0 .mul) r (.mat m) = .ok p ∧ p.shape = [n, n] ∧
      ∀ i j, i < n → j < n → ∃ y, p.at [i, j] = some y ∧ y.val = if i = j then 1 else 0) := by
  obtain ⟨m', rfl, h1, h2, h3, h4, h5⟩ := C48_inverse hm hs hP h
  have one : ∀ i j : Fin n, (1 : Matrix (Fin n) (Fin n) ℚ) i j = if (i : Nat) = j then 1 else 0 := by
    intro i j
    rw [Matrix.one_apply]
    by_cases hij : i = j
    · rw [if_pos hij, if_pos (by rw [hij])]
    · rw [if_neg hij, if_neg (fun e => hij (Fin.ext e))]
  constructor
  · obtain ⟨p, p1, p2, p3⟩ := inner_square S (numOps_exact 0) numOps_total hn hm h1 hs h2 hP h3
    refine ⟨p, p1, p2, ?_⟩
    intro i j hi hj
    obtain ⟨y, y1, y2⟩ := p3 ⟨i, hi⟩ ⟨j, hj⟩
    refine ⟨y, y1, ?_⟩
    rw [y2, h4, one]
  · obtain ⟨p, p1, p2, p3⟩ := inner_square S (numOps_exact 0) numOps_total hn h1 hm h2 hs h3 hP
    refine ⟨p, p1, p2, ?_⟩
    intro i j hi hj
    obtain ⟨y, y1, y2⟩ := p3 ⟨i, hi⟩ ⟨j, hj⟩
    refine ⟨y, y1, ?_⟩
    rw [y2, h5, one]

example : inner exS (numOp 0 .add) (numOp 0 .mul) (.mat exInv)
      (.mat ⟨[2, 2], [.bigRat (-1 / 6), .bigRat (2 / 9), .bigRat (1 / 3), .bigRat (-1 / 9)]⟩) =
    .ok (.mat ⟨[2, 2], [.int 1, .int 0, .int 0, .int 1]⟩) := by decide +kernel

/-- Singular matrices are refused, with the right message. -/
theorem C48_singular {n : Nat} {m : Mat Num} (hm : m.Ok) (hs : m.shape = [n, n]) (hP : ∀ a ∈ m.data, a.Small)
    (hd : (asMatrix Num.val n m.data).det = 0) : inv (numOps 0) (.mat m) = .err "inverse of non-invertible matrix" := by
  rcases (matInverse_total (numOps_exact 0) numOps_total hm hs hP).2 with ⟨m', h⟩ | h
  · have := (matInverse_ok (numOps_exact 0) hm hs hP h).2.2.2.1
    have e := congrArg Matrix.det this
    rw [Matrix.det_mul, hd, mul_zero, Matrix.det_one] at e
    exact absurd e (by norm_num)
  · show (matInverse (numOps 0) m).bind _ = _
    rw [h]; rfl

example : (Mat.mk [2, 2] [Num.int 1, .int 2, .int 2, .int 4]).Ok ∧
    (asMatrix Num.val 2 [Num.int 1, .int 2, .int 2, .int 4]).det = 0 := by
  refine ⟨by decide, ?_⟩
  rw [Matrix.det_fin_two]
  simp [asMatrix, Num.val]; norm_num

/-- Which matrices are accepted: those whose first `k` rows and columns are not singular for any `k`.  Of the others, the
invertible ones are missing. -/
theorem C48_accepted_partial {n : Nat} {m : Mat Num} (hm : m.Ok) (hs : m.shape = [n, n]) (hP : ∀ a ∈ m.data, a.Small) :
    ((∃ r, inv (numOps 0) (.mat m) = .ok r) ↔ ∀ k (h : k ≤ n), (leading (asMatrix Num.val n m.data) k h).det ≠ 0) ∧
    ((∃ r, inv (numOps 0) (.mat m) = .ok r) ∨ inv (numOps 0) (.mat m) = .err "inverse of non-invertible matrix") := by
  obtain ⟨t1, t2⟩ := matInverse_total (numOps_exact 0) numOps_total hm hs hP
  refine ⟨⟨?_, ?_⟩, ?_⟩
  · rintro ⟨r, hr⟩ k hk
    obtain ⟨m', h1, _⟩ := R.bind_eq_ok.1 hr
    by_cases h0 : k = 0
    · subst h0
      rw [Matrix.det_fin_zero]; exact one_ne_zero
    · exact (minor_leading hk m.data).1 ((matInverse_ok (numOps_exact 0) hm hs hP h1).2.2.2.2 k (by omega) hk)
  · intro h
    obtain ⟨m', h1⟩ := t1 (fun k _ hk => (minor_leading hk m.data).2 (h k hk))
    exact ⟨.mat m', by show (matInverse (numOps 0) m).bind _ = _; rw [h1]; rfl⟩
  · rcases t2 with ⟨m', h⟩ | h
    · exact .inl ⟨.mat m', by show (matInverse (numOps 0) m).bind _ = _; rw [h]; rfl⟩
    · exact .inr (by show (matInverse (numOps 0) m).bind _ = _; rw [h]; rfl)

/-- The code violates C48: `inv 2 2 rho 0 1 1 0` is refused as not invertible, though the matrix is its own inverse. -/
theorem C48_violated : inv (numOps 0) (.mat ⟨[2, 2], [.int 0, .int 1, .int 1, .int 0]⟩) = .err "inverse of non-invertible matrix" ∧
    (asMatrix Num.val 2 [Num.int 0, .int 1, .int 1, .int 0]).det ≠ 0 := by
  refine ⟨by decide +kernel, ?_⟩
  rw [Matrix.det_fin_two]
  simp [asMatrix, Num.val]

/-- Matrices that are not square, and cubes, are refused. -/
theorem C48_shapes {α : Type} (o : Ops α) (m : Mat α) :
    (∀ a b, m.shape = [a, b] → a ≠ b → inv o (.mat m) = .err "inverse of non-square matrix") ∧
    (∀ a b c, m.shape = [a, b, c] → inv o (.mat m) = .err "cannot compute inverse of matrix with dimension > 2") := by
  refine ⟨?_, ?_⟩
  · intro a b h hab
    simp only [inv, matInverse, h]
    rw [if_pos (Ne.symm hab)]; rfl
  · intro a b c h
    simp only [inv, matInverse, h]; rfl

example : inv (numOps 0) (.mat ⟨[1, 2], [.int 1, .int 2]⟩) = .err "inverse of non-square matrix" := by decide +kernel

/-- The check for more than two dimensions is one for three: with four `inv` goes on, and ends the program if there is no element
(`inv 2 2 0 0 rho 1`). -/
theorem C48_rank_four_violated : inv (numOps 0) (.mat ⟨[2, 2, 0, 0], []⟩) = .crash ∧
    (Mat.mk [2, 2, 0, 0] ([] : List Num)).Ok := by decide +kernel

/-- The inverse of a vector of two or more numbers that are not all zero: the vector divided by the sum of its squares, so that the sum
of products with it is one.  A vector of zeros is refused. -/
theorem C48_vector {v : List Num} (hv : 2 ≤ v.length) (hP : ∀ a ∈ v, a.Small) :
    ((∃ a ∈ v, a.val ≠ 0) → ∃ l, inv (numOps 0) (.vec v) = .ok (.vec l) ∧ (∀ a ∈ l, a.Small) ∧
      l.map Num.val = v.map (fun a => a.val / (v.map fun b => b.val * b.val).sum) ∧
      (List.zipWith (fun a b => a.val * b.val) v l).sum = 1) ∧
    ((∀ a ∈ v, a.val = 0) → inv (numOps 0) (.vec v) = .err "inverse of zero vector") := by
  have e := conjAll_ok (numOps_exact 0) (fun a => rfl) v hP
  obtain ⟨w, w1, w2, w3⟩ := magnitude_ok (numOps_exact 0) numOps_total (v.zip v) Num.zero (numOps_exact 0).zero.1 (by
    intro p hp
    have := List.of_mem_zip (a := p.1) (b := p.2) hp
    exact ⟨hP _ this.1, hP _ this.2⟩)
  have ez : (v.zip v).map (fun p => p.1.val * p.2.val) = v.map fun b => b.val * b.val := by
    rw [List.zip, List.zipWith_self, List.map_map]; rfl
  have wz : w.val = (v.map fun b => b.val * b.val).sum := by
    rw [w3, ez, show Num.zero.val = 0 from (numOps_exact 0).zero.2, zero_add]
  have un : vecInverse (numOps 0) v = if (numOps 0).isZero w then .err "inverse of zero vector" else divideAll (numOps 0) w v := by
    unfold vecInverse
    rw [if_neg (by omega), if_neg (by omega), e, bind_ok, show (numOps 0).zero = Num.zero from rfl, w1, bind_ok]
  constructor
  · rintro ⟨a, ha, h0⟩
    have hpos : 0 < w.val := by
      rw [wz]
      apply lt_of_lt_of_le (mul_self_pos.2 h0)
      exact List.single_le_sum (by intro x hx; obtain ⟨b, _, rfl⟩ := List.mem_map.1 hx; exact mul_self_nonneg _) _
        (List.mem_map.2 ⟨a, ha, rfl⟩)
    have hw : ¬ ((numOps 0).isZero w = true) := fun h => absurd (((numOps_exact 0).isZero w w2).1 h) (ne_of_gt hpos)
    obtain ⟨l, l1, l2, l3⟩ := divideAll_ok (numOps_exact 0) numOps_total w2 (ne_of_gt hpos) v hP
    rw [wz] at l3
    refine ⟨l, ?_, l2, l3, ?_⟩
    · show (vecInverse (numOps 0) v).bind _ = _
      rw [un, if_neg hw, l1]; rfl
    · have h1 : List.zipWith (fun a b => a.val * b.val) v l =
          v.map fun a => a.val * a.val * ((v.map fun b => b.val * b.val).sum)⁻¹ := by
        have : List.zipWith (fun a b : Num => a.val * b.val) v l = List.zipWith (fun (a : Num) (b : ℚ) => a.val * b) v (l.map Num.val) := by
          rw [List.zipWith_map_right]
        rw [this, l3, List.zipWith_map_right, List.zipWith_self]
        apply List.map_congr_left
        intro a _
        rw [div_eq_mul_inv, mul_assoc]
      rw [h1, List.sum_map_mul_right, ← wz, mul_inv_cancel₀ (ne_of_gt hpos)]
  · intro h
    have hw : w.val = 0 := by
      rw [wz]
      apply List.sum_eq_zero
      intro x hx
      obtain ⟨b, hb, rfl⟩ := List.mem_map.1 hx
      rw [h b hb, mul_zero]
    show (vecInverse (numOps 0) v).bind _ = _
    rw [un, if_pos (((numOps_exact 0).isZero w w2).2 hw)]; rfl

example : inv (numOps 0) (.vec [.int 1, .int 3]) = .ok (.vec [.bigRat (1 / 10), .bigRat (3 / 10)]) := by decide +kernel

/-- Vectors of one element have no inverse, whatever the element: `inv 1 rho 2` is an error where `inv 2` is 1/2. -/
theorem C48_vector_one_refused {α : Type} (o : Ops α) (x : α) : inv o (.vec [x]) = .err "inverse of non-scalar" := rfl

end Verif.Arr
