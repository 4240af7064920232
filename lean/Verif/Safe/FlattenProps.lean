import Verif.Safe.CharProps
import Verif.Arr.Props

/-!
# C93: `flatten`, `,`, `rho`, `count`, `first` and `box` of nested values

`At`, `Scalar` and `IsLeaf` are the specification: an element of a nested value is named by the positions that lead to it.
-/

namespace Verif.Safe
open Verif.Arr Verif.Num
open Verif.Order (Val)

/-! ## Specification -/

/-- What is found in a value by going to the element of each position, in the order of the elements (rows first), one after the other. -/
def At : Val → List Nat → Option Val
  | v, [] => some v
  | .vec l, i :: p => (l[i]?).bind fun x => At x p
  | .mat _ l, i :: p => (l[i]?).bind fun x => At x p
  | _, _ :: _ => none

/-- A single number or character. -/
def Scalar : Val → Prop
  | .num _ => True
  | .cplx _ _ => True
  | _ => False

/-- These positions lead to a single number or character. -/
def IsLeaf (v : Val) (p : List Nat) : Prop := ∃ x, At v p = some x ∧ Scalar x

/-- The positions `ps` are those of all leaves, in order: the first position that differs decides. -/
structure AllLeaves (v : Val) (ps : List (List Nat)) : Prop where
  leaf : ∀ p, p ∈ ps ↔ IsLeaf v p
  sorted : ps.Pairwise (· < ·)

/-! ## Lemmas -/

mutual
/-- The positions of the leaves. Used in proofs only. -/
def leafPaths : Val → List (List Nat)
  | .num _ => [[]]
  | .cplx _ _ => [[]]
  | .vec l => leafPathsFrom 0 l
  | .mat _ l => leafPathsFrom 0 l

/-- The positions of the leaves in the elements from the `i`-th on. Used in proofs only. -/
def leafPathsFrom : Nat → List Val → List (List Nat)
  | _, [] => []
  | i, x :: xs => (leafPaths x).map (i :: ·) ++ leafPathsFrom (i + 1) xs
end

theorem mem_from (i : Nat) : ∀ (l : List Val) (k : Nat) (p : List Nat), p ∈ leafPathsFrom k l ↔ ∃ j x q, l[j]? = some x ∧ q ∈ leafPaths x ∧ p = (k + j) :: q
  | [], k, p => by simp [leafPathsFrom]
  | x :: xs, k, p => by
    rw [leafPathsFrom, List.mem_append, mem_from i xs (k + 1) p, List.mem_map]
    constructor
    · rintro (⟨q, hq, rfl⟩ | ⟨j, y, q, h1, h2, rfl⟩)
      · exact ⟨0, x, q, rfl, hq, by simp⟩
      · exact ⟨j + 1, y, q, by simpa using h1, h2, by rw [show k + 1 + j = k + (j + 1) by omega]⟩
    · rintro ⟨j, y, q, h1, h2, rfl⟩
      cases j with
      | zero =>
        left
        simp at h1
        subst h1
        exact ⟨q, h2, by simp⟩
      | succ j => exact .inr ⟨j, y, q, by simpa using h1, h2, by rw [show k + 1 + j = k + (j + 1) by omega]⟩

mutual
theorem leaf_iff : ∀ (v : Val) (p : List Nat), p ∈ leafPaths v ↔ IsLeaf v p
  | .num n, p => by
    cases p with
    | nil => simp [leafPaths, IsLeaf, At, Scalar]
    | cons i p => simp [leafPaths, IsLeaf, At]
  | .cplx a b, p => by
    cases p with
    | nil => simp [leafPaths, IsLeaf, At, Scalar]
    | cons i p => simp [leafPaths, IsLeaf, At]
  | .vec l, p => by
    rw [leafPaths, mem_from 0]
    cases p with
    | nil => simp [IsLeaf, At, Scalar]
    | cons i p =>
      have := fun x hx q => leaf_iff_mem l x hx q
      constructor
      · rintro ⟨j, x, q, h1, h2, h3⟩
        rw [Nat.zero_add] at h3
        cases h3
        obtain ⟨y, h4, h5⟩ := (this x (List.mem_of_getElem? h1) p).1 h2
        exact ⟨y, by rw [At, h1]; exact h4, h5⟩
      · rintro ⟨y, h4, h5⟩
        rw [At] at h4
        obtain ⟨x, h1, h2⟩ := Option.bind_eq_some_iff.1 h4
        exact ⟨i, x, p, h1, (this x (List.mem_of_getElem? h1) p).2 ⟨y, h2, h5⟩, by rw [Nat.zero_add]⟩
  | .mat s l, p => by
    rw [leafPaths, mem_from 0]
    cases p with
    | nil => simp [IsLeaf, At, Scalar]
    | cons i p =>
      have := fun x hx q => leaf_iff_mem l x hx q
      constructor
      · rintro ⟨j, x, q, h1, h2, h3⟩
        rw [Nat.zero_add] at h3
        cases h3
        obtain ⟨y, h4, h5⟩ := (this x (List.mem_of_getElem? h1) p).1 h2
        exact ⟨y, by rw [At, h1]; exact h4, h5⟩
      · rintro ⟨y, h4, h5⟩
        rw [At] at h4
        obtain ⟨x, h1, h2⟩ := Option.bind_eq_some_iff.1 h4
        exact ⟨i, x, p, h1, (this x (List.mem_of_getElem? h1) p).2 ⟨y, h2, h5⟩, by rw [Nat.zero_add]⟩

theorem leaf_iff_mem : ∀ (l : List Val) (x : Val), x ∈ l → ∀ p, p ∈ leafPaths x ↔ IsLeaf x p
  | y :: ys, x, h => by
    rcases List.mem_cons.1 h with h | h
    · rw [h]; exact leaf_iff y
    · exact leaf_iff_mem ys x h
end

mutual
theorem paths_sorted : ∀ v : Val, (leafPaths v).Pairwise (· < ·)
  | .num _ => by simp [leafPaths]
  | .cplx _ _ => by simp [leafPaths]
  | .vec l => by rw [leafPaths]; exact from_sorted l 0
  | .mat _ l => by rw [leafPaths]; exact from_sorted l 0

theorem from_sorted : ∀ (l : List Val) (k : Nat), (leafPathsFrom k l).Pairwise (· < ·)
  | [], k => by simp [leafPathsFrom]
  | x :: xs, k => by
    rw [leafPathsFrom, List.pairwise_append]
    refine ⟨?_, from_sorted xs (k + 1), ?_⟩
    · rw [List.pairwise_map]
      exact (paths_sorted x).imp fun h => List.cons_lt_cons_iff.2 (.inr ⟨rfl, h⟩)
    · intro a ha b hb
      obtain ⟨q, -, rfl⟩ := List.mem_map.1 ha
      obtain ⟨j, y, r, -, -, rfl⟩ := (mem_from 0 xs (k + 1) b).1 hb
      exact List.cons_lt_cons_iff.2 (.inl (by omega))
end

mutual
theorem flatten_paths : ∀ v : Val, (leafPaths v).map (At v) = (flattenV v).map some
  | .num _ => by simp [leafPaths, flattenV, At]
  | .cplx _ _ => by simp [leafPaths, flattenV, At]
  | .vec l => by
    rw [leafPaths, flattenV, ← flatten_from l (.vec l) 0 (fun i p => by rw [Nat.zero_add]; rfl)]
  | .mat s l => by
    rw [leafPaths, flattenV, ← flatten_from l (.mat s l) 0 (fun i p => by rw [Nat.zero_add]; rfl)]

theorem flatten_from : ∀ (l : List Val) (v : Val) (k : Nat), (∀ i p, At v ((k + i) :: p) = (l[i]?).bind fun x => At x p) →
    (leafPathsFrom k l).map (At v) = (flattenL l).map some
  | [], v, k, _ => by simp [leafPathsFrom, flattenL]
  | x :: xs, v, k, h => by
    rw [leafPathsFrom, flattenL, List.map_append, List.map_append, ← flatten_paths x, List.map_map,
      flatten_from xs v (k + 1) (fun i p => by rw [show k + 1 + i = k + (i + 1) by omega, h]; rfl)]
    congr 1
    apply List.map_congr_left
    intro p _
    have := h 0 p
    simpa using this
end

theorem sorted_unique {ps qs : List (List Nat)} (h1 : ps.Pairwise (· < ·)) (h2 : qs.Pairwise (· < ·)) (h : ∀ p, p ∈ ps ↔ p ∈ qs) : ps = qs := by
  have hp : ps.Perm qs := by
    rw [List.perm_ext_iff_of_nodup]
    · exact h
    · exact h1.imp fun h e => by subst e; exact absurd h (List.lt_irrefl _)
    · exact h2.imp fun h e => by subst e; exact absurd h (List.lt_irrefl _)
  exact hp.eq_of_pairwise (fun a b _ _ h1 h2 => absurd (List.lt_trans h1 h2) (List.lt_irrefl _)) h1 h2

/-! ## The property -/

/-- C93: `flatten` of any value is the vector of its leaves, all of them, in order. -/
theorem C93_flatten (c : Conf) (v : Val) :
    ∃ ps r, AllLeaves v ps ∧ F1.eval c .flatten v = .ok (.vec r) ∧ r.map some = ps.map (At v) :=
  ⟨leafPaths v, flattenV v, ⟨leaf_iff v, paths_sorted v⟩, rfl, (flatten_paths v).symm⟩

/-- C93: there is one list of positions only that `AllLeaves` allows, so `C93_flatten` determines the result. -/
theorem C93_unique (v : Val) (ps qs : List (List Nat)) (h1 : AllLeaves v ps) (h2 : AllLeaves v qs) : ps = qs :=
  sorted_unique h1.sorted h2.sorted fun p => (h1.leaf p).trans (h2.leaf p).symm

/-- C93: `first` is the first element, or zero if there is none; `first box x` is `x`. -/
theorem C93_first (c : Conf) (v : Val) :
    (¬ Scalar v → F1.eval c .first v = .ok ((At v [0]).getD zeroV)) ∧ (Scalar v → F1.eval c .first v = .ok v) ∧
    (∃ b, F1.eval c .box v = .ok b ∧ F1.eval c .first b = .ok v) := by
  refine ⟨fun h => ?_, fun h => ?_, ⟨_, rfl, rfl⟩⟩
  · cases v with
    | num n => exact absurd trivial h
    | cplx a b => exact absurd trivial h
    | vec l => cases l <;> rfl
    | mat s l => cases l <;> rfl
  · cases v with
    | num n => rfl
    | cplx a b => rfl
    | vec l => exact h.elim
    | mat s l => exact h.elim

theorem dim_le : ∀ {s : List Nat}, 0 < vol s → ∀ d ∈ s, d ≤ vol s
  | e :: s, h, d, hd => by
    have h : 0 < e * vol s := h
    have he : 0 < e := Nat.pos_of_mul_pos_right h
    have hv : 0 < vol s := Nat.pos_of_mul_pos_left h
    show d ≤ e * vol s
    rcases List.mem_cons.1 hd with rfl | hd
    · exact Nat.le_mul_of_pos_right _ hv
    · exact (dim_le hv d hd).trans (Nat.le_mul_of_pos_left _ he)

theorem wrap_nat {n : Nat} (h : n ≤ 2147483647) : Num.wrap64 (n : Int) = n := wrap64_small (by omega) (by omega)

/-- C93: an array is what `rho` makes of its shape and its elements: `(rho x) rho , x` is `x`. -/
theorem C93_rebuild (c : Conf) (v : Val) (hs : ¬ Scalar v) (hm : Made v) (h0 : At v [0] ≠ none) (hl : At v [2147483647] = none)
    (hr : ∀ s l, v = .mat s l → s.length ≠ 1) :
    ∃ s r, F1.eval c .rho v = .ok s ∧ F1.eval c .ravel v = .ok r ∧ F2.eval c .rho s r = .ok v := by
  cases v with
  | num n => exact absurd trivial hs
  | cplx a b => exact absurd trivial hs
  | vec l =>
    refine ⟨_, _, rfl, rfl, ?_⟩
    have hlen : l.length ≤ 2147483647 := by
      by_contra h
      simp [At] at hl
      omega
    have hpos : l ≠ [] := by
      rintro rfl
      simp [At] at h0
    obtain ⟨t, h1, h2, h3⟩ := C23_rho_vec zeroV l l.length hlen
    have : t = l := by
      apply List.ext_getElem h2
      intro i hi hi'
      have := h3 i hi'
      rw [if_neg hpos, Nat.mod_eq_of_lt hi', List.getElem?_eq_getElem hi, List.getElem?_eq_getElem hi'] at this
      exact Option.some.inj this
    subst this
    show rhoOp (.vec [intVal t.length]) (.vec t) = _
    simp only [rhoOp, toV, V.isMat, V.toVec, bind_ok, intVal, wrap_nat hlen, List.map_cons, List.map_nil, small]
    simp [back, h1, bind_ok, ofV]
  | mat s l =>
    refine ⟨_, _, rfl, rfl, ?_⟩
    have hlen : l.length ≤ 2147483647 := by
      by_contra h
      simp [At] at hl
      omega
    have hpos : l ≠ [] := by
      rintro rfl
      simp [At] at h0
    have hvol : l.length = vol s := hm.1.len
    have hv0 : 0 < vol s := by rw [← hvol]; exact List.length_pos_iff.2 hpos
    have hne : s ≠ [] := hm.1.rank
    have hdim : ∀ d ∈ s, d ≤ 2147483647 := fun d hd => (dim_le hv0 d hd).trans (by omega)
    have h2 : s.length ≠ 1 := hr s l rfl
    have h1 : shapeOf (s.map fun d : Nat => some (d : Int)) 1 = .ok (s, vol s) :=
      (shapeOf_ok _ 1 s _).mpr ⟨rfl, hdim, by simp, fun k _ _ => by
        have := vol_take_le hv0 k
        simp only [Nat.one_mul, Arr.maxInt]
        omega⟩
    have hcyc : (List.range (vol s)).map (cyc zeroV l) = l := by
      apply List.ext_getElem (by simp [hvol])
      intro i hi hi'
      have := cyc_get zeroV l i
      rw [if_neg (by simpa using hpos), Nat.mod_eq_of_lt hi', List.getElem?_eq_getElem hi'] at this
      rw [List.getElem_map, List.getElem_range]
      exact (Option.some.inj this).symm
    have hmap : (s.map fun d : Nat => intVal d).map small = s.map fun d : Nat => some (d : Int) := by
      rw [List.map_map]
      apply List.map_congr_left
      intro d hd
      simp only [Function.comp, intVal, small, wrap_nat (hdim d hd)]
    have hsh : shapeOp (.mat s l) = .vec (s.map fun d : Nat => intVal d) := by
      simp [shapeOp, List.map_eq_flatMap, List.flatMap_assoc]
    show rhoOp (shapeOp (.mat s l)) (.vec l) = _
    rw [hsh]
    have hrho : rhoOp (.vec (s.map fun d : Nat => intVal d)) (.vec l) =
        back (reshape zeroV ((s.map fun d : Nat => intVal d).map small) l) := rfl
    rw [hrho, hmap, reshape_core zeroV (by simpa using hne) h1, if_neg (by simpa using h2), hcyc, newMatrix_fits hne hvol hm.1.fits]
    simp [back, bind_ok, ofV]

/-- C93: `count` is the number of elements along the first axis: the first number of `rho`, and for a vector as many as can be found. -/
theorem C93_count (c : Conf) (v : Val) (hs : ¬ Scalar v) (hr : ∀ l, v ≠ .mat [] l) :
    ∃ s, F1.eval c .rho v = .ok s ∧ F1.eval c .count v = F1.eval c .first s ∧
      ∀ l, v = .vec l → ∃ n : Nat, F1.eval c .count v = .ok (intVal n) ∧ ∀ i, At v [i] ≠ none ↔ i < n := by
  cases v with
  | num n => exact absurd trivial hs
  | cplx a b => exact absurd trivial hs
  | vec l =>
    refine ⟨_, rfl, rfl, fun m hm => ⟨l.length, rfl, fun i => ?_⟩⟩
    simp [At]
  | mat s l =>
    refine ⟨_, rfl, ?_, fun m hm => by cases hm⟩
    cases s with
    | nil => exact absurd rfl (hr l)
    | cons d s => rfl

/-- `flatten 1 (2 (3 4))`: what `C93_flatten` says about it. -/
def nestedEx : Val := .vec [.num (.int 1), .vec [.num (.int 2), .vec [.num (.int 3), .num (.int 4)]]]

example (c : Conf) : F1.eval c .flatten nestedEx = .ok (.vec [.num (.int 1), .num (.int 2), .num (.int 3), .num (.int 4)]) := rfl
example : AllLeaves nestedEx [[0], [1, 0], [1, 1, 0], [1, 1, 1]] :=
  ⟨fun p => by rw [← leaf_iff]; rfl, paths_sorted nestedEx⟩
example : At nestedEx [1, 1, 0] = some (.num (.int 3)) := rfl
/-- The shape and the elements of a matrix of two rows and columns. -/
example : ¬ Scalar (.mat [2, 2] (List.replicate 4 zeroV)) ∧ Made (.mat [2, 2] (List.replicate 4 zeroV)) ∧
    At (.mat [2, 2] (List.replicate 4 zeroV)) [0] ≠ none ∧ At (.mat [2, 2] (List.replicate 4 zeroV)) [2147483647] = none := by
  refine ⟨fun h => h, ⟨⟨⟨by simp, rfl⟩, ?_⟩, trivial, trivial, trivial, trivial, trivial⟩, by simp [At], by simp [At]⟩
  intro k h2 hk
  have : k = 2 := by simp at hk; omega
  subst this
  decide

end Verif.Safe
