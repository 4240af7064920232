import Verif.Arr.MdivModel
import Verif.Arr.InvProps
import Verif.Arr.InvCProps

/-!
# C94: `mdiv` solves systems of linear equations

`valAt` and `Solves` are the specification. The theorems are for exact real numbers (`numOps`) and exact complex numbers (`cOps`).
-/

namespace Verif.Arr
open Num (Num CNum)
variable {α K : Type} [Field K]

/-! ## Specification -/

/-- The number at the given coordinates. -/
def valAt (val : α → K) (v : V α) (c : List Nat) : K :=
  match v.at c with
  | some a => val a
  | none => 0

/-- Every column of `r` solves the `n` equations of which the coefficients are the rows of `m` and the right side is the same column of `u`. -/
def Solves (val : α → K) (n : Nat) (t : List Nat) (m r u : V α) : Prop :=
  r.shape = u.shape ∧ ∀ c, InB t c → ∀ i, i < n → ∑ k ∈ Finset.range n, valAt val m [i, k] * valAt val r (k :: c) = valAt val u (i :: c)

/-! ## Lemmas -/

variable {o : Ops α} {P : α → Prop} {val : α → K}

theorem at_mem {v : V α} {c : List Nat} {a : α} (h : v.at c = some a) : a ∈ v.data := by
  unfold V.at at h
  split at h
  · exact List.mem_of_getElem? h
  · cases h

theorem at_there {v : V α} (hv : v.Ok) {c : List Nat} (hc : InB v.shape c) : ∃ a, v.at c = some a := by
  rw [at_data hc]
  have : ravel v.shape c < v.data.length := by rw [data_length hv]; exact ravel_lt hc
  exact ⟨_, List.getElem?_eq_getElem this⟩

theorem inB_one {n : Nat} {c : List Nat} (hc : InB [n] c) : ∃ i, i < n ∧ c = [i] := by
  match c, hc with
  | [i], hc => exact ⟨i, hc.1, rfl⟩
  | _ :: _ :: _, hc => exact absurd hc.2 (by simp [InB])

theorem square_ok {n : Nat} (hn : 0 < n) {m : Mat α} (hm : m.Ok) (hs : m.shape = [n, n]) : (V.mat m).Ok := by
  have hf := hm.fits 2 (Nat.le_refl _) (by rw [hs]; rfl)
  rw [hs] at hf
  simp only [List.take, vol, mul_one] at hf
  refine ⟨hm, by rw [hm.len, hs]; simpa [vol] using hf, ?_⟩
  intro d hd
  rw [hs] at hd
  have : d = n := by simpa using hd
  subst this
  exact Nat.le_trans (Nat.le_mul_of_pos_left d hn) hf

theorem valAt_square {n : Nat} {m : Mat α} (hs : m.shape = [n, n]) (i j : Fin n) :
    valAt val (.mat m) [(i : Nat), (j : Nat)] = asMatrix val n m.data i j := by
  unfold valAt asMatrix
  have : (V.mat m).at [(i : Nat), (j : Nat)] = m.data[(i : Nat) * n + j]? := by
    unfold V.at
    rw [if_pos (by show InB m.shape _; rw [hs]; exact ⟨i.2, j.2, trivial⟩)]
    show m.data[ravel m.shape _]? = _
    rw [hs]
    simp [ravel, vol]
  rw [this]
  split <;> rename_i h <;> rw [h]

/-- The product of a square matrix and another value: each number is the sum of products. -/
theorem inner_left [Wide α] (S : Sched) (ho : o.Exact P val) (hto : o.Total P val) {n : Nat} (hn : 0 < n) {t : List Nat} {w : Mat α} {u : V α}
    (hw : w.Ok) (hs : w.shape = [n, n]) (hP : ∀ a ∈ w.data, P a) (hu : u.Ok) (pu : u.Plain) (us : u.shape = n :: t) (hPu : ∀ a ∈ u.data, P a) :
    ∃ r, inner S o.add o.mul (.mat w) u = .ok r ∧ r.shape = n :: t ∧ r.Ok ∧
      ∀ i c, i < n → InB t c → valAt val r (i :: c) = ∑ k ∈ Finset.range n, valAt val (.mat w) [i, k] * valAt val u (k :: c) := by
  have hpro : u.promote = u := by
    cases u with
    | elem x => simp [V.shape] at us
    | vec l => rfl
    | mat m => rfl
  have cells : ∀ i c, i < n → InB t c → ∃ xs y, allR (List.zipWith o.mul ((V.mat w).promote.lastLine n [i]) (u.promote.firstLine n c)) = .ok xs ∧
      foldR o.add xs = .ok y ∧ P y ∧ val y = ∑ k ∈ Finset.range n, valAt val (.mat w) [i, k] * valAt val u (k :: c) := by
    intro i c hi hc
    have h1 : ∀ k, ∃ a, k < n → (V.mat w).at [i, k] = some a := by
      intro k
      by_cases hk : k < n
      · obtain ⟨a, h⟩ := at_there (square_ok hn hw hs) (c := [i, k]) (by show InB w.shape _; rw [hs]; exact ⟨hi, hk, trivial⟩)
        exact ⟨a, fun _ => h⟩
      · exact ⟨o.zero, fun h => absurd h hk⟩
    have h2 : ∀ k, ∃ a, k < n → u.at (k :: c) = some a := by
      intro k
      by_cases hk : k < n
      · obtain ⟨a, h⟩ := at_there hu (c := k :: c) (by rw [us]; exact ⟨hk, hc⟩)
        exact ⟨a, fun _ => h⟩
      · exact ⟨o.zero, fun h => absurd h hk⟩
    choose f hf using h1
    choose g hg using h2
    have e1 : (V.mat w).promote.lastLine n [i] = (List.range n).map f := by
      unfold V.lastLine
      rw [← List.filterMap_eq_map]
      apply List.filterMap_congr
      intro k hk
      exact hf k (List.mem_range.1 hk)
    have e2 : u.promote.firstLine n c = (List.range n).map g := by
      unfold V.firstLine
      rw [← List.filterMap_eq_map, hpro]
      apply List.filterMap_congr
      intro k hk
      exact hg k (List.mem_range.1 hk)
    obtain ⟨zs, y, a1, a2, a3, a4⟩ := dot_total ho hto ((List.range n).map f) ((List.range n).map g) (by simp) (by simp; omega)
      (by intro a ha; obtain ⟨k, hk, rfl⟩ := List.mem_map.1 ha; exact hP _ (at_mem (hf k (List.mem_range.1 hk))))
      (by intro a ha; obtain ⟨k, hk, rfl⟩ := List.mem_map.1 ha; exact hPu _ (at_mem (hg k (List.mem_range.1 hk))))
    refine ⟨zs, y, by rw [e1, e2]; exact a1, a2, a3, ?_⟩
    rw [a4, dot_range]
    apply Finset.sum_congr rfl
    intro k hk
    unfold valAt
    rw [hf k (Finset.mem_range.1 hk), hg k (Finset.mem_range.1 hk)]
  have narrow : u.Narrow := by
    cases u with
    | elem x => simp [V.shape] at us
    | vec l => trivial
    | mat m => trivial
  have plain : (V.mat w).Plain := by
    show (_ = true ↔ 2 ≤ w.shape.length)
    rw [hs]; simp [V.isMat]
  have fits : Fits ([n] ++ t) := by
    cases u with
    | elem x => simp [V.shape] at us
    | vec l =>
      have : t = [] := by simp [V.shape] at us; exact us.2
      subst this
      intro k h2 hk
      simp at hk
      omega
    | mat m =>
      have us : m.shape = n :: t := us
      have := hu.1.fits
      rw [us] at this
      exact this
  have hin := inner_eq S o.add o.mul (u := .mat w) (v := u) (s := [n]) (t := t) (n := n) (square_ok hn hw hs) hu plain pu
    ⟨fun _ => narrow, fun _ => trivial⟩ (by exact hs) (by rw [hpro]; exact us) hn
  obtain ⟨r, hr⟩ := hin.2 fits (by
    intro c1 c2 h1 h2
    obtain ⟨i, hi, rfl⟩ := inB_one h1
    obtain ⟨xs, y, a1, a2, _⟩ := cells i c2 hi h2
    exact ⟨xs, y, a1, a2⟩)
  obtain ⟨q1, q0, _, q2⟩ := hin.1 r hr
  refine ⟨r, hr, q1, q0, ?_⟩
  intro i c hi hc
  obtain ⟨xs, y, b1, b2, b3⟩ := q2 [i] c ⟨hi, trivial⟩ hc
  obtain ⟨xs', y', a1, a2, a3, a4⟩ := cells i c hi hc
  rw [a1] at b1; cases b1
  rw [a2] at b2; cases b2
  rw [← a4]
  unfold valAt
  rw [show i :: c = [i] ++ c from rfl, b3]

/-- With the inverse at hand there is a solution. -/
theorem mdiv_of_inverse [Wide α] (S : Sched) (real : α → Bool) (ho : o.Exact P val) (hto : o.Total P val) {n : Nat} (hn : 0 < n) {t : List Nat}
    {m w : Mat α} {u : V α} (hm : m.Ok) (hs : m.shape = [n, n]) (hP : ∀ a ∈ m.data, P a) (hu : u.Ok) (pu : u.Plain) (us : u.shape = n :: t)
    (hPu : ∀ a ∈ u.data, P a) (h : matInverse o m = .ok w) :
    ∃ r, mdiv S o real u (.mat m) = .ok r ∧ Solves val n t (.mat m) r u := by
  obtain ⟨w1, w2, w3, w4, _⟩ := matInverse_ok ho hm hs hP h
  obtain ⟨r, r1, r2, r3, r4⟩ := inner_left S ho hto hn w2 w1 w3 hu pu us hPu
  obtain ⟨um, e1, _⟩ := toMat_any hu
  refine ⟨r, ?_, by rw [r2, us], ?_⟩
  · unfold mdiv
    rw [if_pos (Or.inr (by rfl)), e1, bind_ok]
    show (matInverse o m).bind _ = _
    rw [h, bind_ok]
    unfold inner at r1
    rw [if_pos (Or.inl (by rfl)), e1] at r1
    exact r1
  · intro c hc i hi
    have hMW : asMatrix val n m.data * asMatrix val n w.data = 1 := mul_eq_one_comm.1 w4
    have step : ∀ k ∈ Finset.range n, valAt val (.mat m) [i, k] * valAt val r (k :: c) =
        ∑ j ∈ Finset.range n, valAt val (.mat m) [i, k] * valAt val (.mat w) [k, j] * valAt val u (j :: c) := by
      intro k hk
      rw [r4 k c (Finset.mem_range.1 hk) hc, Finset.mul_sum]
      exact Finset.sum_congr rfl fun j _ => by ring
    rw [Finset.sum_congr rfl step, Finset.sum_comm]
    have col : ∀ j ∈ Finset.range n, ∑ k ∈ Finset.range n, valAt val (.mat m) [i, k] * valAt val (.mat w) [k, j] * valAt val u (j :: c) =
        if i = j then valAt val u (j :: c) else 0 := by
      intro j hj
      have hj := Finset.mem_range.1 hj
      have := congrFun (congrFun hMW ⟨i, hi⟩) ⟨j, hj⟩
      rw [Matrix.mul_apply, Matrix.one_apply] at this
      rw [← Finset.sum_mul, ← Fin.sum_univ_eq_sum_range (fun k => valAt val (.mat m) [i, k] * valAt val (.mat w) [k, j]) n]
      have e : ∀ k : Fin n, valAt val (.mat m) [i, (k : Nat)] * valAt val (.mat w) [(k : Nat), j] =
          asMatrix val n m.data ⟨i, hi⟩ k * asMatrix val n w.data k ⟨j, hj⟩ := by
        intro k
        rw [← valAt_square hs, ← valAt_square w1]
      rw [Finset.sum_congr rfl fun k _ => e k, this]
      by_cases hij : i = j
      · subst hij; simp
      · rw [if_neg (fun h => hij (by simpa using h)), if_neg hij, zero_mul]
    rw [Finset.sum_congr rfl col, Finset.sum_ite_eq, if_pos (Finset.mem_range.2 hi)]

/-- And without it there is none. -/
theorem mdiv_of_err [Wide α] (S : Sched) (real : α → Bool) {m : Mat α} {u : V α} (hu : u.Ok) {e : String} (h : matInverse o m = .err e) :
    mdiv S o real u (.mat m) = .err e := by
  obtain ⟨um, e1, _⟩ := toMat_any hu
  unfold mdiv
  rw [if_pos (Or.inr (by rfl)), e1, bind_ok]
  show (matInverse o m).bind _ = _
  rw [h]
  rfl

theorem mdiv_any [Wide α] (S : Sched) (real : α → Bool) (ho : o.Exact P val) (hto : o.Total P val) {n : Nat} (hn : 0 < n) {t : List Nat}
    {m : Mat α} {u : V α} (hm : m.Ok) (hs : m.shape = [n, n]) (hP : ∀ a ∈ m.data, P a) (hu : u.Ok) (pu : u.Plain) (us : u.shape = n :: t)
    (hPu : ∀ a ∈ u.data, P a) :
    ((∀ k (h : k ≤ n), (leading (asMatrix val n m.data) k h).det ≠ 0) → ∃ r, mdiv S o real u (.mat m) = .ok r ∧ Solves val n t (.mat m) r u) ∧
    ((¬ ∀ k (h : k ≤ n), (leading (asMatrix val n m.data) k h).det ≠ 0) → mdiv S o real u (.mat m) = .err "inverse of non-invertible matrix") := by
  obtain ⟨t1, t2⟩ := matInverse_total ho hto hm hs hP
  constructor
  · intro h
    obtain ⟨w, hw⟩ := t1 (fun k _ hk => (minor_leading hk m.data).2 (h k hk))
    exact mdiv_of_inverse S real ho hto hn hm hs hP hu pu us hPu hw
  · intro h
    rcases t2 with ⟨w, hw⟩ | hw
    · exfalso
      apply h
      intro k hk
      by_cases h0 : k = 0
      · subst h0
        rw [Matrix.det_fin_zero]; exact one_ne_zero
      · exact (minor_leading hk m.data).1 ((matInverse_ok ho hm hs hP hw).2.2.2.2 k (by omega) hk)
    · exact mdiv_of_err S real hu hw

/-! ## The property -/

/-- C94 for exact real numbers, without a limit on their size: if no leading minor of the matrix is zero, `u mdiv m` is a solution of the equations; otherwise it is
refused. Missing: matrices that have an inverse though a leading minor is zero, which C48 shows to be refused (`C94_violated`). -/
theorem C94_solve_partial (S : Sched) (real : Num → Bool) {n : Nat} (hn : 0 < n) {t : List Nat} {m : Mat Num} {u : V Num} (hm : m.Ok) (hs : m.shape = [n, n])
    (hP : ∀ a ∈ m.data, a.Small) (hu : u.Ok) (pu : u.Plain) (us : u.shape = n :: t) (hPu : ∀ a ∈ u.data, a.Small) :
    ((∀ k (h : k ≤ n), (leading (asMatrix Num.val n m.data) k h).det ≠ 0) →
      ∃ r, mdiv S (numOps 0) real u (.mat m) = .ok r ∧ Solves Num.val n t (.mat m) r u) ∧
    ((¬ ∀ k (h : k ≤ n), (leading (asMatrix Num.val n m.data) k h).det ≠ 0) →
      mdiv S (numOps 0) real u (.mat m) = .err "inverse of non-invertible matrix") :=
  mdiv_any S real (numOps_exact 0) numOps_total hn hm hs hP hu pu us hPu

/-- C94 for exact complex numbers. Missing as before. -/
theorem C94_complex_partial [Wide CNum] (S : Sched) (real : CNum → Bool) {n : Nat} (hn : 0 < n) {t : List Nat} {m : Mat CNum} {u : V CNum} (hm : m.Ok) (hs : m.shape = [n, n])
    (hP : ∀ a ∈ m.data, a.Good) (hu : u.Ok) (pu : u.Plain) (us : u.shape = n :: t) (hPu : ∀ a ∈ u.data, a.Good) :
    ((∀ k (h : k ≤ n), (leading (asMatrix CNum.val n m.data) k h).det ≠ 0) →
      ∃ r, mdiv S (cOps 0) real u (.mat m) = .ok r ∧ Solves CNum.val n t (.mat m) r u) ∧
    ((¬ ∀ k (h : k ≤ n), (leading (asMatrix CNum.val n m.data) k h).det ≠ 0) →
      mdiv S (cOps 0) real u (.mat m) = .err "inverse of non-invertible matrix") :=
  mdiv_any S real (cOps_exact 0) cOps_total hn hm hs hP hu pu us hPu

/-- C94 fails for a matrix that only exchanges the unknowns: `1 2 mdiv 2 2 rho 0 1 1 0` is refused, though 2 and 1 are the solution. -/
theorem C94_violated (S : Sched) (real : Num → Bool) :
    mdiv S (numOps 0) real (.vec [.int 1, .int 2]) (.mat ⟨[2, 2], [.int 0, .int 1, .int 1, .int 0]⟩) = .err "inverse of non-invertible matrix" ∧
    Solves Num.val 2 [] (.mat ⟨[2, 2], [.int 0, .int 1, .int 1, .int 0]⟩) (.vec [.int 2, .int 1]) (.vec [.int 1, .int 2]) := by
  refine ⟨mdiv_of_err S real (by simp [V.Ok]) ?_, rfl, ?_⟩
  · decide +kernel
  · intro c hc i hi
    match c, hc with
    | [], _ =>
      rw [Finset.sum_range_succ, Finset.sum_range_one]
      match i, hi with
      | 0, _ => simp [valAt, V.at, V.shape, V.data, InB, ravel, vol, Num.Num.val]
      | 1, _ => simp [valAt, V.at, V.shape, V.data, InB, ravel, vol, Num.Num.val]

/-- The sum of the products of the elements of two vectors. -/
def dotNum (u v : List Num) : ℚ := (List.zipWith (fun a b => a.val * b.val) u v).sum

/-- C94, vectors of exact real numbers: `u mdiv v` is how often `v` is in `u`, so that what is left of `u` is orthogonal to `v`. -/
theorem C94_project [Wide Num] (S : Sched) {u v : List Num} (hl : u.length = v.length) (hPu : ∀ a ∈ u, a.Small) (hPv : ∀ a ∈ v, a.Small)
    (h0 : ∃ a ∈ v, a.val ≠ 0) :
    ∃ x, mdiv S (numOps 0) (fun _ => true) (.vec u) (.vec v) = .ok (.elem x) ∧ x.val * dotNum v v = dotNum u v ∧
      (List.zipWith (fun a b : Num => (a.val - x.val * b.val) * b.val) u v).sum = 0 := by
  have hne : v ≠ [] := by rintro rfl; obtain ⟨a, ha, _⟩ := h0; cases ha
  have hne' : u ≠ [] := by rintro rfl; exact hne (List.length_eq_zero_iff.1 hl.symm)
  have hv : 0 < v.length := List.length_pos_iff.2 hne
  have one : ∀ a b : List Num, a.length = b.length → a ≠ [] → (∀ x ∈ a, x.Small) → (∀ x ∈ b, x.Small) →
      ∃ y, innerVec (numOps 0).add (numOps 0).mul a b = .ok (.elem y) ∧ y.Small ∧ y.val = dotNum a b := by
    intro a b hab ha pa pb
    obtain ⟨zs, y, a1, a2, a3, a4⟩ := dot_total (numOps_exact 0) numOps_total a b hab ha pa pb
    refine ⟨y, ?_, a3, a4⟩
    have hn : 0 < a.length := List.length_pos_iff.2 ha
    have := (innerAcc_eq (numOps 0).add (numOps 0).mul (u := a) (v := b) (p := id) (q := id) hn (fun k hk => hk) (fun k hk => by rw [← hab]; exact hk) (y := y)).2
      ⟨zs, by
        have e := filterMap_range_getElem b
        rw [← hab] at e
        simp only [id]
        rw [filterMap_range_getElem a, e]; exact a1, a2⟩
    unfold innerVec
    rw [if_neg (by simp [hab]), if_neg (by omega), this, bind_ok]
  have real : ∀ l : List (Num × Num), allReal (fun _ => true) l = .ok () := by
    intro l
    induction l with
    | nil => rfl
    | cons p l ih => simp [allReal, ih]
  obtain ⟨x, x1, x2, x3⟩ := one u v hl hne' hPu hPv
  obtain ⟨d, d1, d2, d3⟩ := one v v rfl hne hPv hPv
  have hd : dotNum v v ≠ 0 := by
    obtain ⟨a, ha, hz⟩ := h0
    have e : dotNum v v = (v.map fun b => b.val * b.val).sum := by unfold dotNum; rw [List.zipWith_self]
    have := List.single_le_sum (l := v.map fun b => b.val * b.val) (by
      intro y hy
      obtain ⟨b, _, rfl⟩ := List.mem_map.1 hy
      exact mul_self_nonneg _) _ (List.mem_map.2 ⟨a, ha, rfl⟩)
    rw [e]
    exact (lt_of_lt_of_le (mul_self_pos.2 hz) this).ne'
  obtain ⟨r, hr⟩ := numOps_total.div x d x2 d2 (by rw [d3]; exact hd)
  have hr' := (numOps_exact 0).div x d r x2 d2 hr
  have main : r.val * dotNum v v = dotNum u v := by rw [← d3, ← x3]; exact hr'.2
  refine ⟨r, ?_, main, ?_⟩
  · unfold mdiv
    rw [if_neg (by simp [V.isMat])]
    simp only [V.toVec, bind_ok, mdivVec]
    rw [if_neg (by simp [hl]), real, bind_ok, x1, bind_ok, d1, bind_ok]
    simp only [hr, bind_ok]
  · have : ∀ a b : List Num, (List.zipWith (fun a b : Num => (a.val - r.val * b.val) * b.val) a b).sum = dotNum a b - r.val * dotNum (b.take a.length) (b.take a.length) := by
      intro a
      induction a with
      | nil => intro b; simp [dotNum]
      | cons x a ih =>
        intro b
        cases b with
        | nil => simp [dotNum]
        | cons y b =>
          have := ih b
          simp only [dotNum] at this ⊢
          simp only [List.zipWith_cons_cons, List.sum_cons, this, List.length_cons, List.take_succ_cons]
          ring
    rw [this, hl, List.take_length, main, sub_self]

/-- C94, what is refused without matrices: two single elements, vectors of different lengths, and elements that are not real numbers, in whichever operand. -/
theorem C94_refused [Wide α] (S : Sched) (o : Ops α) (real : α → Bool) :
    (∀ x y, mdiv S o real (.elem x) (.elem y) = .err "binary mdiv not implemented") ∧
    (∀ u v : List α, u.length ≠ v.length → mdiv S o real (.vec u) (.vec v) = .err "mismatched lengths in vector mdiv") ∧
    (∀ u v : List α, u.length = v.length → (∃ a, (a ∈ u ∨ a ∈ v) ∧ real a = false) →
      mdiv S o real (.vec u) (.vec v) = .err "non-real element in vector mdiv") := by
  refine ⟨fun x y => rfl, fun u v h => ?_, fun u v h h2 => ?_⟩
  · show mdivVec o real u v = _
    unfold mdivVec
    rw [if_pos h]
  · have key : ∀ l : List (α × α), (∃ p ∈ l, real p.1 = false ∨ real p.2 = false) → allReal real l = .err "non-real element in vector mdiv" := by
      intro l
      induction l with
      | nil => rintro ⟨p, hp, _⟩; cases hp
      | cons q l ih =>
        rintro ⟨p, hp, hr⟩
        obtain ⟨a, b⟩ := q
        unfold allReal
        by_cases hq : real a = false ∨ real b = false
        · rw [if_pos hq]
        · rw [if_neg hq]
          rcases List.mem_cons.1 hp with rfl | hp
          · exact absurd hr hq
          · exact ih ⟨p, hp, hr⟩
    have e : allReal real (u.zip v) = .err "non-real element in vector mdiv" := by
      apply key
      obtain ⟨a, ha, hr⟩ := h2
      rcases ha with ha | ha
      · obtain ⟨i, hi, rfl⟩ := List.getElem_of_mem ha
        exact ⟨(u[i], v[i]'(by omega)), List.mem_iff_getElem.2 ⟨i, by simp; omega, by simp⟩, .inl hr⟩
      · obtain ⟨i, hi, rfl⟩ := List.getElem_of_mem ha
        exact ⟨(u[i]'(by omega), v[i]), List.mem_iff_getElem.2 ⟨i, by simp; omega, by simp⟩, .inr hr⟩
    show mdivVec o real u v = _
    unfold mdivVec
    rw [if_neg (by simp [h]), e]
    rfl

/-- `4 8 mdiv 2 2 rho 2 4 6 3`: the hypotheses of `C94_solve_partial`, and the result. -/
example : exInv.Ok ∧ exInv.shape = [2, 2] ∧ (V.vec [Num.int 4, .int 8]).Ok ∧ (V.vec [Num.int 4, .int 8]).Plain ∧ (V.vec [Num.int 4, .int 8]).shape = [2] := by decide
example : ∀ k (h : k ≤ 2), (leading (asMatrix Num.val 2 exInv.data) k h).det ≠ 0 := by
  intro k h
  match k, h with
  | 0, _ => rw [Matrix.det_fin_zero]; exact one_ne_zero
  | 1, _ => rw [Matrix.det_fin_one]; simp [leading, asMatrix, exInv, Num.Num.val]
  | 2, _ => rw [Matrix.det_fin_two]; simp [leading, asMatrix, exInv, Num.Num.val]; norm_num
example : mdiv exS (numOps 0) (fun _ => true) (.vec [.int 4, .int 8]) (.mat exInv) = .ok (.vec [.bigRat (10 / 9), .bigRat (4 / 9)]) := by decide +kernel
example : exCInv.Ok ∧ exCInv.shape = [2, 2] := by decide
example : mdiv exS (numOps 0) (fun x => x != .int 3) (.vec [.int 3, .int 4]) (.vec [.int 1, .int 2]) = .err "non-real element in vector mdiv" := by decide +kernel
/-- `3 4 mdiv 1 2`. -/
example : mdiv exS (numOps 0) (fun _ => true) (.vec [.int 3, .int 4]) (.vec [.int 1, .int 2]) = .ok (.elem (.bigRat (11 / 5))) := by decide +kernel

end Verif.Arr
