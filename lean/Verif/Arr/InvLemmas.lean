import Verif.Arr.InvSpec
import Mathlib.LinearAlgebra.Matrix.NonsingularInverse
import Mathlib.LinearAlgebra.Matrix.ToLinearEquiv
import Mathlib.LinearAlgebra.Matrix.Block
import Mathlib.Tactic.Linarith
import Mathlib.Tactic.FieldSimp
import Mathlib.Tactic.Ring

/-!
# Gaussian elimination on numbers

The double-wide matrix as a function of row and column.
-/

namespace Verif.Arr
open Finset
variable {K : Type} [Field K]

/-- What the body of the loops does to the numbers. -/
def KStep (n x y : Nat) (T T' : Nat → Nat → K) : Prop :=
  (∀ i, i < n → i ≠ y → ∀ j, j < 2 * n → T' i j = T i j) ∧
  ((y = x ∧ T x x ≠ 0 ∧ ∀ j, j < 2 * n → T' y j = T y j / T x x) ∨
   (y ≠ x ∧ T y x = 0 ∧ ∀ j, j < 2 * n → T' y j = T y j) ∨
   (y ≠ x ∧ T y x ≠ 0 ∧ ∃ r, x ≤ r ∧ r < n ∧ r ≠ y ∧ T r x ≠ 0 ∧ (∀ r', x ≤ r' → r' < r → r' ≠ y → T r' x = 0) ∧
      ∀ j, j < 2 * n → T' y j = T y j - T y x / T r x * T r j))

/-- One. -/
def δ (i j : Nat) : K := if i = j then 1 else 0

theorem δ_self (i : Nat) : (δ i i : K) = 1 := by simp [δ]

theorem δ_ne {i j : Nat} (h : i ≠ j) : (δ i j : K) = 0 := by simp [δ, h]

/-- The left half is the right half times the given matrix. -/
def Lin (n : Nat) (M : Nat → Nat → K) (T : Nat → Nat → K) : Prop :=
  ∀ i, i < n → ∀ j, j < n → T i j = ∑ k ∈ range n, T i (n + k) * M k j

/-- The first `x` columns, and of the next one `y` elements, are as they should be. -/
def Done (n x y : Nat) (T : Nat → Nat → K) : Prop :=
  ∀ i, i < n → ∀ j, j < n → (j < x ∨ (j = x ∧ i < y)) → T i j = δ i j

/-- The right half is still the identity from column `c` on. -/
def Rest (n c : Nat) (T : Nat → Nat → K) : Prop :=
  ∀ i, i < n → ∀ j, j < n → c ≤ j → T i (n + j) = δ i j

theorem Lin.step {n x y : Nat} {M T T' : Nat → Nat → K} (hy : y < n) (h : Lin n M T) (hs : KStep n x y T T') :
    Lin n M T' := by
  intro i hi j hj
  by_cases hiy : i = y
  · subst hiy
    rcases hs.2 with ⟨_, _, h3⟩ | ⟨_, _, h3⟩ | ⟨_, _, r, _, h5, _, _, _, h3⟩
    · rw [h3 j (by omega), h i hi j hj, div_eq_mul_inv, Finset.sum_mul]
      apply Finset.sum_congr rfl
      intro k hk
      rw [h3 (n + k) (by have := mem_range.1 hk; omega)]
      ring
    · rw [h3 j (by omega), h i hi j hj]
      apply Finset.sum_congr rfl
      intro k hk
      rw [h3 (n + k) (by have := mem_range.1 hk; omega)]
    · rw [h3 j (by omega), h i hi j hj, h r h5 j hj, Finset.mul_sum, ← Finset.sum_sub_distrib]
      apply Finset.sum_congr rfl
      intro k hk
      rw [h3 (n + k) (by have := mem_range.1 hk; omega)]
      ring
  · rw [hs.1 i hi hiy j (by omega), h i hi j hj]
    apply Finset.sum_congr rfl
    intro k hk
    rw [hs.1 i hi hiy (n + k) (by have := mem_range.1 hk; omega)]

/-- One element of a column. -/
theorem Done.step {n x y : Nat} {T T' : Nat → Nat → K} (hx : x < n) (hy : y < n) (h : Done n x y T)
    (hs : KStep n x y T T') : Done n x (y + 1) T' := by
  intro i hi j hj hc
  by_cases hiy : i = y
  · subst hiy
    rcases hs.2 with ⟨h1, h2, h3⟩ | ⟨h1, h2, h3⟩ | ⟨h1, h2, r, h4, h5, h6, h7, _, h3⟩
    · rw [h3 j (by omega)]
      subst h1
      rcases hc with hc | ⟨hc, _⟩
      · rw [h i hi j hj (.inl hc), δ_ne (by omega), zero_div]
      · subst hc; rw [div_self h2, δ_self]
    · rw [h3 j (by omega)]
      rcases hc with hc | ⟨hc, _⟩
      · exact h i hi j hj (.inl hc)
      · subst hc; rw [h2, δ_ne h1]
    · rw [h3 j (by omega)]
      rcases hc with hc | ⟨hc, _⟩
      · rw [h r h5 j hj (.inl hc), h i hi j hj (.inl hc), δ_ne (i := r) (by omega), mul_zero, sub_zero]
      · subst hc; rw [div_mul_cancel₀ _ h7, sub_self, δ_ne h1]
  · rw [hs.1 i hi hiy j (by omega)]
    exact h i hi j hj (hc.imp id fun hc => ⟨hc.1, by omega⟩)

theorem Rest.mono {n c d : Nat} {T : Nat → Nat → K} (h : Rest n c T) (hcd : c ≤ d) : Rest n d T :=
  fun i hi j hj hd => h i hi j hj (by omega)

/-- The pivot: in the row of the pivot until it is one. -/
theorem Rest.step {n x y : Nat} {T T' : Nat → Nat → K} (hx : x < n) (hy : y < n) (hp : T x x ≠ 0) (h : Rest n (x + 1) T)
    (hs : KStep n x y T T') : Rest n (x + 1) T' := by
  intro i hi j hj hc
  by_cases hiy : i = y
  · subst hiy
    rcases hs.2 with ⟨h1, h2, h3⟩ | ⟨h1, h2, h3⟩ | ⟨h1, h2, r, h4, h5, h6, h7, h8, h3⟩
    · rw [h3 _ (by omega), h i hi j hj hc, δ_ne (by omega), zero_div]
    · rw [h3 _ (by omega), h i hi j hj hc]
    · have hr : r = x := by
        by_contra hrx
        exact hp (h8 x (Nat.le_refl _) (by omega) (fun e => h1 e.symm))
      subst hr
      rw [h3 _ (by omega), h i hi j hj hc, h r h5 j hj hc, δ_ne (i := r) (by omega), mul_zero, sub_zero]
  · rw [hs.1 i hi hiy _ (by omega), h i hi j hj hc]

/-- What holds before column `x`. -/
structure KInv (n x : Nat) (M T : Nat → Nat → K) : Prop where
  lin : Lin n M T
  done : Done n x 0 T
  rest : Rest n x T

/-- The steps of one column. -/
def Col (n x : Nat) (seq : Nat → Nat → Nat → K) (c : Nat) : Prop := ∀ y, y < c → KStep n x y (seq y) (seq (y + 1))

theorem Col.before {n x c : Nat} {seq : Nat → Nat → Nat → K} (h : Col n x seq c) (hx : x < n) : ∀ y, y ≤ x → y ≤ c →
    ∀ j, j < 2 * n → seq y x j = seq 0 x j
  | 0, _, _, _, _ => rfl
  | y + 1, h1, h2, j, hj => by
    rw [(h y (by omega)).1 x hx (by omega) j hj]
    exact h.before hx y (by omega) (by omega) j hj

/-- In the middle of a column whose pivot is not zero. -/
theorem Col.mid {n x c : Nat} {M : Nat → Nat → K} {seq : Nat → Nat → Nat → K} (h : Col n x seq c) (hx : x < n)
    (hi : KInv n x M (seq 0)) (hp : seq 0 x x ≠ 0) : ∀ y, y ≤ c → y ≤ n →
    Lin n M (seq y) ∧ Done n x y (seq y) ∧ Rest n (x + 1) (seq y) ∧ seq y x x ≠ 0
  | 0, _, _ => ⟨hi.lin, hi.done, hi.rest.mono (by omega), hp⟩
  | y + 1, h1, h2 => by
    obtain ⟨a, b, r, p⟩ := h.mid hx hi hp y (by omega) (by omega)
    have s := h y (by omega)
    have b' := b.step hx (by omega) s
    refine ⟨a.step (by omega) s, b', r.step hx (by omega) p s, ?_⟩
    by_cases hyx : y < x
    · rw [h.before hx (y + 1) (by omega) h1 x (by omega)]; exact hp
    · rw [b' x hx x hx (.inr ⟨rfl, by omega⟩), δ_self]; exact one_ne_zero

theorem Col.pivot {n x : Nat} {seq : Nat → Nat → Nat → K} (h : Col n x seq n) (hx : x < n) : seq 0 x x ≠ 0 := by
  rw [← h.before hx x (Nat.le_refl _) (by omega) x (by omega)]
  rcases (h x hx).2 with ⟨_, h2, _⟩ | ⟨h1, _⟩ | ⟨h1, _⟩
  · exact h2
  · exact absurd rfl h1
  · exact absurd rfl h1

theorem Col.inv {n x : Nat} {M : Nat → Nat → K} {seq : Nat → Nat → Nat → K} (h : Col n x seq n) (hx : x < n)
    (hi : KInv n x M (seq 0)) : KInv n (x + 1) M (seq n) := by
  obtain ⟨a, b, r, _⟩ := h.mid hx hi (h.pivot hx) n (Nat.le_refl _) (Nat.le_refl _)
  refine ⟨a, ?_, r⟩
  intro i hi' j hj hc
  refine b i hi' j hj ?_
  rcases hc with hc | ⟨_, hc⟩
  · by_cases h : j < x
    · exact .inl h
    · exact .inr ⟨by omega, hi'⟩
  · omega

/-- The pivot is zero just if the leading matrix is singular. -/
theorem pivot_iff {n x : Nat} {M T : Nat → Nat → K} (hx : x < n) (h : KInv n x M T) :
    T x x ≠ 0 ↔ Matrix.det (fun i j : Fin (x + 1) => M i j) ≠ 0 := by
  let A : Matrix (Fin (x + 1)) (Fin (x + 1)) K := fun i j => T i (n + j)
  let N : Matrix (Fin (x + 1)) (Fin (x + 1)) K := fun i j => M i j
  let B : Matrix (Fin (x + 1)) (Fin (x + 1)) K := fun i j => T i j
  have hAN : A * N = B := by
    ext i j
    show ∑ k : Fin (x + 1), T i (n + k) * M k j = T i j
    rw [h.lin i (by omega) j (by omega), Fin.sum_univ_eq_sum_range (fun k => T i (n + k) * M k j) (x + 1)]
    rw [← Finset.sum_range_add_sum_Ico _ (show x + 1 ≤ n by omega)]
    rw [Finset.sum_eq_zero (s := Finset.Ico (x + 1) n), add_zero]
    intro k hk
    have := Finset.mem_Ico.1 hk
    rw [h.rest i (by omega) k (by omega) (by omega), δ_ne (by omega), zero_mul]
  have hB : B.det = T x x := by
    rw [Matrix.det_of_isUpperTriangular]
    · rw [Fin.prod_univ_castSucc]
      rw [Finset.prod_eq_one, one_mul]
      · rfl
      · intro i _
        show T i i = 1
        rw [h.done i (by omega) i (by omega) (.inl (by omega)), δ_self]
    · intro i j hij
      show T i j = 0
      have hij : j < i := hij
      rw [h.done i (by omega) j (by omega) (.inl (by omega)), δ_ne (by omega)]
  have hdet : A.det * N.det = T x x := by rw [← Matrix.det_mul, hAN, hB]
  constructor
  · intro hp hn
    apply hp
    rw [← hdet]
    have : N.det = 0 := hn
    rw [this, mul_zero]
  · intro hn hp
    have hN : N.det ≠ 0 := hn
    have hA : A.det = 0 := by
      rw [hp] at hdet
      exact (mul_eq_zero.1 hdet).resolve_right hN
    obtain ⟨v, hv, hvA⟩ := Matrix.exists_vecMul_eq_zero_iff.2 hA
    apply hv
    have hvB : Matrix.vecMul v B = 0 := by rw [← hAN, ← Matrix.vecMul_vecMul, hvA, Matrix.zero_vecMul]
    ext j
    by_cases hj : (j : Nat) < x
    · have e : Matrix.vecMul v B j = 0 := by rw [hvB]; rfl
      rw [Matrix.vecMul, dotProduct] at e
      rw [Finset.sum_eq_single j] at e
      · rw [show B j j = T j j from rfl, h.done j (by omega) j (by omega) (.inl hj), δ_self, mul_one] at e
        exact e
      · intro i _ hij
        rw [show B i j = T i j from rfl, h.done i (by omega) j (by omega) (.inl hj), δ_ne (fun e => hij (Fin.ext e)), mul_zero]
      · intro hc; exact absurd (Finset.mem_univ j) hc
    · have hjx : (j : Nat) = x := by omega
      have e : Matrix.vecMul v A j = 0 := by rw [hvA]; rfl
      rw [Matrix.vecMul, dotProduct] at e
      rw [Finset.sum_eq_single j] at e
      · rw [show A j j = T j (n + j) from rfl, h.rest j (by omega) j (by omega) (by omega), δ_self, mul_one] at e
        exact e
      · intro i _ hij
        rw [show A i j = T i (n + j) from rfl, h.rest i (by omega) j (by omega) (by omega),
          δ_ne (fun e => hij (Fin.ext e)), mul_zero]
      · intro hc; exact absurd (Finset.mem_univ j) hc

/-- At the end. -/
theorem KInv.end {n : Nat} {M T : Nat → Nat → K} (h : KInv n n M T) :
    Matrix.of (fun i j : Fin n => T i (n + j)) * Matrix.of (fun i j : Fin n => M i j) = 1 := by
  ext i j
  show ∑ k : Fin n, T i (n + k) * M k j = _
  rw [Fin.sum_univ_eq_sum_range (fun k => T i (n + k) * M k j) n, ← h.lin i i.2 j j.2, h.done i i.2 j j.2 (.inl j.2)]
  by_cases hij : i = j
  · subst hij; rw [δ_self, Matrix.one_apply_eq]
  · rw [δ_ne (fun e => hij (Fin.ext e)), Matrix.one_apply_ne hij]

end Verif.Arr
