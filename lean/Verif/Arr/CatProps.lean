import Verif.Arr.CatLemmas
import Verif.Arr.EvalNum

/-!
# C60: catenation
-/

namespace Verif.Arr
variable {α : Type}

/-- C60 in full, for `,`: whenever both operands can be taken as lines over the same axes `s`, and one of them has another axis, the result is one after the other
along the last axis. -/
def C60_statement : Prop :=
  ∀ (u v : V Num.Num), u.Ok → v.Ok → u.Plain → v.Plain → ∀ (s : List Nat) (n m : Nat) (f g : List Nat → Nat → Option Num.Num),
    Lines true s u n f → Lines true s v m g → Grows true s u v → Fits (s ++ [n + m]) → ∃ r, catOp u v = .ok r ∧ Abuts true s n m f g r

/-- The full statement fails: an empty vector catenated to a matrix without rows ends the program. -/
theorem C60_violated : ¬ C60_statement := by
  intro h
  obtain ⟨r, h1, _⟩ := h (.mat ⟨[0, 3], []⟩) (.vec []) (by decide) (by decide) (by decide) (by decide) [0] 3 1 _ _ (.list rfl) (.elem rfl) (.inr (.inl ⟨3, rfl⟩)) (by decide)
  have h2 : catOp (.mat ⟨[0, 3], []⟩) (.vec []) = (.crash : R (V Num.Num)) := by decide +kernel
  rw [h2] at h1
  cases h1

/-- It fails in another way: a fraction cannot be catenated to a matrix, though an integer can. -/
theorem C60_fraction_violated :
    catOp (.elem (.bigRat (1 / 2))) (.mat ⟨[2, 2], [.int 1, .int 2, .int 3, .int 4]⟩) = (.err "catenate shape mismatch" : R (V Num.Num)) ∧
    catFirstOp (.elem (.bigRat (1 / 2))) (.mat ⟨[2, 2], [.int 1, .int 2, .int 3, .int 4]⟩) = (.err "catenateFirst shape mismatch" : R (V Num.Num)) ∧
    catOp (.elem (.int 5)) (.mat ⟨[2, 2], [.int 1, .int 2, .int 3, .int 4]⟩) =
      (.ok (.mat ⟨[2, 3], [.int 5, .int 1, .int 2, .int 5, .int 3, .int 4]⟩) : R (V Num.Num)) := by
  refine ⟨?_, ?_, ?_⟩ <;> decide +kernel

/-- One of the operands is a matrix if there are other axes. -/
theorem grows_mat {last : Bool} {s : List Nat} (hs : s ≠ []) {u v : V α} (pu : u.Plain) (pv : v.Plain) (hg : Grows last s u v) : u.isMat = true ∨ v.isMat = true := by
  have hpos : 0 < s.length := List.length_pos_iff.mpr hs
  have key : ∀ n : Nat, 2 ≤ (if last then s ++ [n] else n :: s).length := by
    intro n; cases last <;> simp <;> omega
  rcases hg with h | ⟨n, h⟩ | ⟨n, h⟩
  · exact absurd h hs
  · exact .inl (pu.mpr (by rw [h]; exact key n))
  · exact .inr (pv.mpr (by rw [h]; exact key n))

/-- With no other axes: vectors. -/
theorem vec_follows {last : Bool} {u v : V α} (hu : u.Ok) (hv : v.Ok) (pu : u.Plain) (pv : v.Plain) {n m : Nat} {f g : List Nat → Nat → Option α}
    (lu : Lines last [] u n f) (lv : Lines last [] v m g) : u.isMat = false ∧ v.isMat = false ∧ Abuts last [] n m f g (.vec (u.data ++ v.data)) := by
  obtain ⟨a1, a2, a3⟩ := lines_nil lu hu pu
  obtain ⟨b1, b2, b3⟩ := lines_nil lv hv pv
  have hat : ∀ i, i < n + m → (V.vec (u.data ++ v.data)).at [i] = (u.data ++ v.data)[i]? := by
    intro i hi
    rw [at_data (by refine ⟨?_, trivial⟩; simp [a2, b2]; omega)]
    simp [V.shape, V.data, ravel, vol]
  refine ⟨a1, b1, ?_, ?_, ?_⟩
  · cases last <;> simp [V.shape, a2, b2]
  · intro c i hc hi
    match c, hc with
    | [], _ =>
      have : (if last then ([] : List Nat) ++ [i] else i :: []) = [i] := by cases last <;> rfl
      rw [this, hat i (by omega), List.getElem?_append_left (by omega), a3 i hi]
  · intro c i hc hi
    match c, hc with
    | [], _ =>
      have : (if last then ([] : List Nat) ++ [n + i] else (n + i) :: []) = [n + i] := by cases last <;> rfl
      rw [this, hat (n + i) (by omega), List.getElem?_append_right (by omega), a2, Nat.add_sub_cancel_left, b3 i hi]

/-- C60 for `,`, except where an operand without the last axis meets one without rows, and single fractions and complex numbers meet matrices. -/
theorem C60_last_partial [Wide α] {u v : V α} (hu : u.Ok) (hv : v.Ok) (pu : u.Plain) (pv : v.Plain) (hw : Joins u v) {s : List Nat} {n m : Nat}
    {f g : List Nat → Nat → Option α} (lu : Lines true s u n f) (lv : Lines true s v m g) (hg : Grows true s u v)
    (hz : vol s = 0 → u.shape ≠ s ∧ v.shape ≠ s) (hf : Fits (s ++ [n + m])) : ∃ r, catOp u v = .ok r ∧ Abuts true s n m f g r := by
  by_cases hs : s = []
  · subst hs
    obtain ⟨h1, h2, h3⟩ := vec_follows hu hv pu pv lu lv
    refine ⟨_, ?_, h3⟩
    unfold catOp
    rw [if_neg (by simp [h1, h2]), (toVec_eq (by simp [h1])).1, (toVec_eq (by simp [h2])).1]
    rfl
  · have hm := grows_mat hs pu pv hg
    obtain ⟨nu, nv⟩ := joins_narrow hw hm
    obtain ⟨x, x1, x2, x3⟩ := toMat_lines hu nu
    obtain ⟨y, y1, y2, y3⟩ := toMat_lines hv nv
    have hpos : 0 < s.length := List.length_pos_iff.mpr hs
    have hdims : ∀ d ∈ s, d ≤ maxInt := by
      rcases hg with h | ⟨k, h⟩ | ⟨k, h⟩
      · exact absurd h hs
      · intro d hd; exact dims_small hu d (by rw [h]; simp [hd])
      · intro d hd; exact dims_small hv d (by rw [h]; simp [hd])
    have fin : ∀ (aL aR : Nat), (∀ c i, InB s c → i < n → f c i = x.data[ravel s c * aL + i]?) → (∀ c i, InB s c → i < m → g c i = y.data[ravel s c * aR + i]?) →
        (∃ r : Mat α, catenate x y = .ok r ∧ r.shape = s ++ [n + m] ∧
          ∀ c, InB s c → (∀ k, k < n → r.data[ravel s c * (n + m) + k]? = x.data[ravel s c * aL + k]?) ∧
            ∀ k, k < m → r.data[ravel s c * (n + m) + (n + k)]? = y.data[ravel s c * aR + k]?) → ∃ r, catOp u v = .ok r ∧ Abuts true s n m f g r := by
      rintro aL aR h1 h2 ⟨r, r1, r2, r3⟩
      refine ⟨.mat r, ?_, r2, ?_, ?_⟩
      · unfold catOp
        rw [if_pos hm, x1, y1, bind_ok, bind_ok, r1, bind_ok]
      · intro c i hc hi
        rw [if_pos rfl, at_last r2 hc (by omega), (r3 c hc).1 i hi, h1 c i hc hi]
      · intro c i hc hi
        rw [if_pos rfl, at_last r2 hc (by omega), (r3 c hc).2 i hi, h2 c i hc hi]
    have nolist : ∀ w : V α, w.shape.length ≤ s.length → ∀ k, w.shape ≠ s ++ [k] := by
      intro w hw k h
      rw [h] at hw
      simp at hw
    have hnz : (u.shape = s ∨ s = [1]) ∨ (v.shape = s ∨ s = [1]) → vol s ≠ 0 := by
      intro h h0
      obtain ⟨z1, z2⟩ := hz h0
      rcases h with (h | h) | (h | h)
      · exact z1 h
      · rw [h] at h0; simp [vol] at h0
      · exact z2 h
      · rw [h] at h0; simp [vol] at h0
    rcases lines_mat lu hu hs x2 x3 with ⟨_, a1, a2, a3⟩ | ⟨a0, rfl, a1, a4, a2, a3⟩ | ⟨a0, rfl, a1, a4, a2, a3⟩
    · simp only [if_true] at a1 a3
      rcases lines_mat lv hv hs y2 y3 with ⟨_, b1, b2, b3⟩ | ⟨_, rfl, b1, b4, b2, b3⟩ | ⟨_, rfl, b1, b4, b2, b3⟩
      · simp only [if_true] at b1 b3
        exact fin n m a3 b3 (catenate_ok hs hdims hf (.inl ⟨a1, a2, rfl, b1, b2, rfl⟩))
      · refine fin n 1 a3 ?_ (catenate_ok hs hdims hf (.inr (.inl ⟨a1, a2, rfl, hnz (.inr b4), rfl, b1, b2, rfl⟩)))
        intro c i hc hi
        rw [b3 c i hc, show ravel s c * 1 + i = ravel s c by omega]
      · refine fin n 0 a3 ?_ (catenate_ok hs hdims hf (.inr (.inr (.inl ⟨a1, a2, rfl, rfl, b1, b4, b2, rfl⟩))))
        intro c i hc hi
        rw [b3 c i, show ravel s c * 0 + i = 0 by omega]
    · have hvl : ∃ k, v.shape = s ++ [k] := by
        rcases hg with h | ⟨k, h⟩ | h
        · exact absurd h hs
        · exact absurd h (nolist u a0 k)
        · exact h
      rcases lines_mat lv hv hs y2 y3 with ⟨_, b1, b2, b3⟩ | ⟨b0, _⟩ | ⟨b0, _⟩
      · simp only [if_true] at b1 b3
        refine fin 1 m ?_ b3 (catenate_ok hs hdims hf (.inr (.inr (.inr (.inl ⟨hnz (.inl a4), rfl, a1, a2, rfl, b1, b2, rfl⟩)))))
        intro c i hc hi
        rw [a3 c i hc, show ravel s c * 1 + i = ravel s c by omega]
      · obtain ⟨k, hk⟩ := hvl; exact absurd hk (nolist v b0 k)
      · obtain ⟨k, hk⟩ := hvl; exact absurd hk (nolist v b0 k)
    · have hvl : ∃ k, v.shape = s ++ [k] := by
        rcases hg with h | ⟨k, h⟩ | h
        · exact absurd h hs
        · exact absurd h (nolist u a0 k)
        · exact h
      rcases lines_mat lv hv hs y2 y3 with ⟨_, b1, b2, b3⟩ | ⟨b0, _⟩ | ⟨b0, _⟩
      · simp only [if_true] at b1 b3
        refine fin 0 m ?_ b3 (catenate_ok hs hdims hf (.inr (.inr (.inr (.inr ⟨rfl, a1, a4, a2, rfl, b1, b2, rfl⟩)))))
        intro c i hc hi
        rw [a3 c i, show ravel s c * 0 + i = 0 by omega]
      · obtain ⟨k, hk⟩ := hvl; exact absurd hk (nolist v b0 k)
      · obtain ⟨k, hk⟩ := hvl; exact absurd hk (nolist v b0 k)

/-- C60 for `,%`, except where single fractions and complex numbers meet matrices. -/
theorem C60_first_partial [Wide α] {u v : V α} (hu : u.Ok) (hv : v.Ok) (pu : u.Plain) (pv : v.Plain) (hw : Joins u v) {s : List Nat} {n m : Nat}
    {f g : List Nat → Nat → Option α} (lu : Lines false s u n f) (lv : Lines false s v m g) (hg : Grows false s u v)
    (hf : Fits ((n + m) :: s)) : ∃ r, catFirstOp u v = .ok r ∧ Abuts false s n m f g r := by
  by_cases hs : s = []
  · subst hs
    obtain ⟨h1, h2, h3⟩ := vec_follows hu hv pu pv lu lv
    refine ⟨_, ?_, h3⟩
    unfold catFirstOp
    rw [if_neg (by simp [h1, h2]), (toVec_eq (by simp [h1])).1, (toVec_eq (by simp [h2])).1]
    rfl
  · have hm := grows_mat hs pu pv hg
    obtain ⟨nu, nv⟩ := joins_narrow hw hm
    obtain ⟨x, x1, x2, x3⟩ := toMat_lines hu nu
    obtain ⟨y, y1, y2, y3⟩ := toMat_lines hv nv
    have hpos : 0 < s.length := List.length_pos_iff.mpr hs
    have nolist : ∀ w : V α, w.shape.length ≤ s.length → ∀ k, w.shape ≠ k :: s := by
      intro w hw k h
      rw [h] at hw
      simp at hw
    have h2l : ∀ k, k :: s ≠ [1] := by intro k h; simp [hs] at h
    have fin : (∀ c i, InB s c → i < n → (x.shape = [1] ∧ s ≠ [1] → f c i = x.data[0]?) ∧ (¬ (x.shape = [1] ∧ s ≠ [1]) → f c i = x.data[i * vol s + ravel s c]?)) →
        (∀ c i, InB s c → i < m → (y.shape = [1] ∧ s ≠ [1] → g c i = y.data[0]?) ∧ (¬ (y.shape = [1] ∧ s ≠ [1]) → g c i = y.data[i * vol s + ravel s c]?)) →
        (x.shape = [1] ∧ s ≠ [1] → x.data.length = 1) → (y.shape = [1] ∧ s ≠ [1] → y.data.length = 1) →
        (∃ r : Mat α, catenateFirst x y = .ok r ∧ r.shape = (n + m) :: s ∧
          ∃ a b : List α, r.data = a ++ b ∧ a.length = n * vol s ∧ b.length = m * vol s ∧
            (a = x.data ∨ x.shape = [1] ∧ s ≠ [1] ∧ ∀ i, i < n * vol s → a[i]? = x.data[0]?) ∧ (b = y.data ∨ y.shape = [1] ∧ s ≠ [1] ∧ ∀ i, i < m * vol s → b[i]? = y.data[0]?)) →
        ∃ r, catFirstOp u v = .ok r ∧ Abuts false s n m f g r := by
      rintro h1 h2 k1 k2 ⟨r, r1, r2, a, b, r3, la, lb, r4, r5⟩
      have bnd : ∀ N c i, InB s c → i < N → i * vol s + ravel s c < N * vol s := fun N c i hc hi => row_bound hi (ravel_lt hc)
      refine ⟨.mat r, ?_, r2, ?_, ?_⟩
      · unfold catFirstOp
        rw [if_pos hm, x1, y1, bind_ok, bind_ok, r1, bind_ok]
      · intro c i hc hi
        have hb := bnd n c i hc hi
        rw [if_neg (by simp), at_first r2 hc (by omega), r3, List.getElem?_append_left (by rw [la]; exact hb)]
        by_cases e : x.shape = [1] ∧ s ≠ [1]
        · rw [(h1 c i hc hi).1 e]
          rcases r4 with rfl | ⟨_, _, r4⟩
          · have hl := k1 e
            rw [la] at hl
            rw [show i * vol s + ravel s c = 0 by omega]
          · exact r4 _ hb
        · rw [(h1 c i hc hi).2 e]
          rcases r4 with rfl | ⟨q1, q2, _⟩
          · rfl
          · exact absurd ⟨q1, q2⟩ e
      · intro c i hc hi
        have hb := bnd m c i hc hi
        rw [if_neg (by simp), at_first r2 hc (by omega), r3, List.getElem?_append_right (by rw [la, Nat.add_mul]; omega), la, Nat.add_mul,
          show n * vol s + i * vol s + ravel s c - n * vol s = i * vol s + ravel s c by omega]
        by_cases e : y.shape = [1] ∧ s ≠ [1]
        · rw [(h2 c i hc hi).1 e]
          rcases r5 with rfl | ⟨_, _, r5⟩
          · have hl := k2 e
            rw [lb] at hl
            rw [show i * vol s + ravel s c = 0 by omega]
          · exact r5 _ hb
        · rw [(h2 c i hc hi).2 e]
          rcases r5 with rfl | ⟨q1, q2, _⟩
          · rfl
          · exact absurd ⟨q1, q2⟩ e
    rcases lines_mat lu hu hs x2 x3 with ⟨_, a1, a2, a3⟩ | ⟨a0, rfl, a1, _, a2, a3⟩ | ⟨a0, rfl, a1, a4, a2, a3⟩
    · simp only [Bool.false_eq_true, if_false] at a1 a3
      have hx1 : ¬ (x.shape = [1] ∧ s ≠ [1]) := by rw [a1]; exact fun h => h2l n h.1
      rcases lines_mat lv hv hs y2 y3 with ⟨_, b1, b2, b3⟩ | ⟨_, rfl, b1, _, b2, b3⟩ | ⟨_, rfl, b1, b4, b2, b3⟩
      · simp only [Bool.false_eq_true, if_false] at b1 b3
        have hy1 : ¬ (y.shape = [1] ∧ s ≠ [1]) := by rw [b1]; exact fun h => h2l m h.1
        exact fin (fun c i hc hi => ⟨fun h => absurd h hx1, fun _ => a3 c i hc hi⟩) (fun c i hc hi => ⟨fun h => absurd h hy1, fun _ => b3 c i hc hi⟩)
          (fun h => absurd h hx1) (fun h => absurd h hy1) (catenateFirst_ok hs hf (.inl ⟨a1, a2, b1, b2⟩))
      · have hy1 : ¬ (y.shape = [1] ∧ s ≠ [1]) := by rw [b1]; exact fun h => h.2 h.1
        refine fin (fun c i hc hi => ⟨fun h => absurd h hx1, fun _ => a3 c i hc hi⟩) (fun c i hc hi => ⟨fun h => absurd h hy1, fun _ => ?_⟩)
          (fun h => absurd h hx1) (fun h => absurd h hy1) (catenateFirst_ok hs hf (.inr (.inl ⟨a1, a2, rfl, b1, b2⟩)))
        rw [b3 c i hc, show i = 0 by omega, Nat.zero_mul, Nat.zero_add]
      · exact fin (fun c i hc hi => ⟨fun h => absurd h hx1, fun _ => a3 c i hc hi⟩) (fun c i hc hi => ⟨fun h => b3 c i, fun h => absurd ⟨b1, b4⟩ h⟩)
          (fun h => absurd h hx1) (fun _ => b2) (catenateFirst_ok hs hf (.inr (.inr (.inl ⟨a1, a2, rfl, b1, b4, b2⟩))))
    · have hx1 : ¬ (x.shape = [1] ∧ s ≠ [1]) := by rw [a1]; exact fun h => h.2 h.1
      have hvl : ∃ k, v.shape = k :: s := by
        rcases hg with h | ⟨k, h⟩ | h
        · exact absurd h hs
        · exact absurd h (nolist u a0 k)
        · exact h
      rcases lines_mat lv hv hs y2 y3 with ⟨_, b1, b2, b3⟩ | ⟨b0, _⟩ | ⟨b0, _⟩
      · simp only [Bool.false_eq_true, if_false] at b1 b3
        have hy1 : ¬ (y.shape = [1] ∧ s ≠ [1]) := by rw [b1]; exact fun h => h2l m h.1
        refine fin (fun c i hc hi => ⟨fun h => absurd h hx1, fun _ => ?_⟩) (fun c i hc hi => ⟨fun h => absurd h hy1, fun _ => b3 c i hc hi⟩)
          (fun h => absurd h hx1) (fun h => absurd h hy1) (catenateFirst_ok hs hf (.inr (.inr (.inr (.inl ⟨rfl, a1, a2, b1, b2⟩)))))
        rw [a3 c i hc, show i = 0 by omega, Nat.zero_mul, Nat.zero_add]
      · obtain ⟨k, hk⟩ := hvl; exact absurd hk (nolist v b0 k)
      · obtain ⟨k, hk⟩ := hvl; exact absurd hk (nolist v b0 k)
    · have hvl : ∃ k, v.shape = k :: s := by
        rcases hg with h | ⟨k, h⟩ | h
        · exact absurd h hs
        · exact absurd h (nolist u a0 k)
        · exact h
      rcases lines_mat lv hv hs y2 y3 with ⟨_, b1, b2, b3⟩ | ⟨b0, _⟩ | ⟨b0, _⟩
      · simp only [Bool.false_eq_true, if_false] at b1 b3
        have hy1 : ¬ (y.shape = [1] ∧ s ≠ [1]) := by rw [b1]; exact fun h => h2l m h.1
        exact fin (fun c i hc hi => ⟨fun h => a3 c i, fun h => absurd ⟨a1, a4⟩ h⟩) (fun c i hc hi => ⟨fun h => absurd h hy1, fun _ => b3 c i hc hi⟩)
          (fun _ => a2) (fun h => absurd h hy1) (catenateFirst_ok hs hf (.inr (.inr (.inr (.inr ⟨rfl, a1, a4, a2, b1, b2⟩)))))
      · obtain ⟨k, hk⟩ := hvl; exact absurd hk (nolist v b0 k)
      · obtain ⟨k, hk⟩ := hvl; exact absurd hk (nolist v b0 k)

/-- A value that is not a single one becomes a matrix of its own shape. -/
theorem toMat_own [Wide α] {u : V α} (hu : u.Ok) (h : u.shape ≠ []) : ∃ x, u.toMat = .ok x ∧ x.shape = u.shape := by
  cases u with
  | elem y => exact absurd rfl h
  | vec l =>
    obtain ⟨x, h1, _, h2, _⟩ := toMat_eq (v := V.vec l) hu trivial
    exact ⟨x, h1, h2⟩
  | mat m => exact ⟨m, rfl, rfl⟩

theorem split_last {s : List Nat} (h : s ≠ []) : ∃ t n, s = t ++ [n] := ⟨s.dropLast, s.getLast h, (List.dropLast_append_getLast h).symm⟩

/-- C60, the refusal: arrays that do not go together, one of them a matrix, are an error, along the last axis. -/
theorem C60_last_refused [Wide α] {u v : V α} (hu : u.Ok) (hv : v.Ok) (hm : u.isMat = true ∨ v.isMat = true)
    (h : ∀ s n m f g, ¬ (Lines true s u n f ∧ Lines true s v m g ∧ Grows true s u v)) : ∃ e, catOp u v = .err e := by
  have key : ∀ w : V α, w.Ok → w.isMat = true → w.shape ≠ [] := by
    intro w hw hm
    cases w with
    | elem y => simp [V.isMat] at hm
    | vec l => simp [V.isMat] at hm
    | mat m => exact hw.1.rank
  have hun : u.shape ≠ [] := by
    intro h0
    rcases hm with hm | hm
    · exact key u hu hm h0
    · obtain ⟨t, n, ht⟩ := split_last (key v hv hm)
      exact h t 1 n _ _ ⟨.single h0, .list (by simpa using ht), .inr (.inr ⟨n, by simpa using ht⟩)⟩
  have hvn : v.shape ≠ [] := by
    intro h0
    rcases hm with hm | hm
    · obtain ⟨t, n, ht⟩ := split_last (key u hu hm)
      exact h t n 1 _ _ ⟨.list (by simpa using ht), .single h0, .inr (.inl ⟨n, by simpa using ht⟩)⟩
    · exact key v hv hm h0
  obtain ⟨x, x1, x2⟩ := toMat_own hu hun
  obtain ⟨y, y1, y2⟩ := toMat_own hv hvn
  obtain ⟨s, n, hs⟩ := split_last hun
  obtain ⟨t, m, ht⟩ := split_last hvn
  refine ⟨"catenate shape mismatch", ?_⟩
  have hlu : Lines true s u n _ := .list (by simpa using hs)
  have hlv : Lines true t v m _ := .list (by simpa using ht)
  have gu : Grows true s u v := .inr (.inl ⟨n, by simpa using hs⟩)
  have gv : Grows true t u v := .inr (.inr ⟨m, by simpa using ht⟩)
  have one : ∀ w : V α, w.shape.length = 1 → w.shape.head? = some 1 → w.shape = [1] := by
    intro w h1 h2
    match hw : w.shape, h1 with
    | [d], _ => rw [hw] at h2; simp at h2; rw [h2]
  unfold catOp
  rw [if_pos hm, x1, y1, bind_ok, bind_ok]
  unfold catenate
  rw [x2, y2, if_neg (by simp [hun, hvn])]
  have e1 : vAt u.shape (u.shape.length - 1) = .ok n := by rw [hs]; exact vAt_last s n
  have e2 : vAt v.shape (v.shape.length - 1) = .ok m := by rw [ht]; exact vAt_last t m
  have e3 : u.shape.take (u.shape.length - 1) = s := by rw [hs]; exact take_last s n
  have e4 : v.shape.take (v.shape.length - 1) = t := by rw [ht]; exact take_last t m
  rw [e1, e2, bind_ok, bind_ok]
  simp only [e3, e4]
  rw [if_neg, if_neg, if_neg, if_neg, if_neg]
  · rfl
  · rintro ⟨_, h1, h2⟩; exact h s n 1 _ _ ⟨hlu, .one (one v h1 h2), gu⟩
  · rintro ⟨h1, h2, _⟩; exact h t 1 m _ _ ⟨.one (one u h1 h2), hlv, gv⟩
  · rintro ⟨_, h1⟩; exact h t 1 m _ _ ⟨.elem h1, hlv, gv⟩
  · rintro ⟨_, h1⟩; exact h s n 1 _ _ ⟨hlu, .elem h1.symm, gu⟩
  · rintro ⟨_, h1⟩; subst h1; exact h s n m _ _ ⟨hlu, hlv, gu⟩

/-- C60, the refusal, along the first axis. -/
theorem C60_first_refused [Wide α] {u v : V α} (hu : u.Ok) (hv : v.Ok) (hm : u.isMat = true ∨ v.isMat = true)
    (h : ∀ s n m f g, ¬ (Lines false s u n f ∧ Lines false s v m g ∧ Grows false s u v)) : ∃ e, catFirstOp u v = .err e := by
  have key : ∀ w : V α, w.Ok → w.isMat = true → w.shape ≠ [] := by
    intro w hw hm
    cases w with
    | elem y => simp [V.isMat] at hm
    | vec l => simp [V.isMat] at hm
    | mat m => exact hw.1.rank
  have cons : ∀ w : V α, w.shape ≠ [] → ∃ t n, w.shape = n :: t := by
    intro w hw
    cases hs : w.shape with
    | nil => exact absurd hs hw
    | cons n t => exact ⟨t, n, rfl⟩
  have hun : u.shape ≠ [] := by
    intro h0
    rcases hm with hm | hm
    · exact key u hu hm h0
    · obtain ⟨t, n, ht⟩ := cons v (key v hv hm)
      exact h t 1 n _ _ ⟨.single h0, .list (by simpa using ht), .inr (.inr ⟨n, by simpa using ht⟩)⟩
  have hvn : v.shape ≠ [] := by
    intro h0
    rcases hm with hm | hm
    · obtain ⟨t, n, ht⟩ := cons u (key u hu hm)
      exact h t n 1 _ _ ⟨.list (by simpa using ht), .single h0, .inr (.inl ⟨n, by simpa using ht⟩)⟩
    · exact key v hv hm h0
  obtain ⟨x, x1, x2⟩ := toMat_own hu hun
  obtain ⟨y, y1, y2⟩ := toMat_own hv hvn
  obtain ⟨s, n, hs⟩ := cons u hun
  obtain ⟨t, m, ht⟩ := cons v hvn
  refine ⟨"catenateFirst shape mismatch", ?_⟩
  have hlu : Lines false s u n _ := .list (by simpa using hs)
  have hlv : Lines false t v m _ := .list (by simpa using ht)
  have gu : Grows false s u v := .inr (.inl ⟨n, by simpa using hs⟩)
  have gv : Grows false t u v := .inr (.inr ⟨m, by simpa using ht⟩)
  unfold catFirstOp
  rw [if_pos hm, x1, y1, bind_ok, bind_ok]
  unfold catenateFirst
  rw [x2, y2, if_neg (by simp [hun, hvn]), hs, ht]
  simp only [vAt, List.getElem?_cons_zero, bind_ok, List.drop_succ_cons, List.drop_zero]
  rw [if_neg, if_neg, if_neg, if_neg, if_neg]
  · rfl
  · rintro ⟨_, h1, h2⟩
    have : t = [] := by simpa using h1
    exact h s n 1 _ _ ⟨hlu, .one (by rw [ht, this, h2]), gu⟩
  · rintro ⟨h1, h2, _⟩
    have : s = [] := by simpa using h1
    exact h t 1 m _ _ ⟨.one (by rw [hs, this, h2]), hlv, gv⟩
  · rintro ⟨_, h1⟩; exact h t 1 m _ _ ⟨.elem (by rw [hs, h1]), hlv, gv⟩
  · rintro ⟨_, h1⟩; exact h s n 1 _ _ ⟨hlu, .elem (by rw [ht, h1]), gu⟩
  · rintro ⟨_, h1⟩; subst h1; exact h s n m _ _ ⟨hlu, hlv, gu⟩

/-- The matrix with rows `1 2 3` and `4 5 6`. -/
def ex23 : V Int := .mat ⟨[2, 3], [1, 2, 3, 4, 5, 6]⟩

example : ex23.Ok ∧ ex23.Plain ∧ Joins ex23 (.vec [7, 8]) ∧ Lines true [2] ex23 3 (fun c i => ex23.at (if true then c ++ [i] else i :: c)) ∧
    Lines true [2] (.vec [7, 8] : V Int) 1 (fun c _ => (V.vec [7, 8]).at c) ∧ Grows true [2] ex23 (.vec [7, 8]) ∧ vol [2] ≠ 0 ∧ Fits ([2] ++ [3 + 1]) :=
  ⟨by decide, by decide, by decide, .list rfl, .elem rfl, .inr (.inl ⟨3, rfl⟩), by decide, by decide⟩
example : catOp ex23 (.vec [7, 8]) = .ok (.mat ⟨[2, 4], [1, 2, 3, 7, 4, 5, 6, 8]⟩) := by decide +kernel
example : catOp (.vec [0]) ex23 = .ok (.mat ⟨[2, 4], [0, 1, 2, 3, 0, 4, 5, 6]⟩) := by decide +kernel
example : catFirstOp ex23 (.vec [7, 8, 9]) = .ok (.mat ⟨[3, 3], [1, 2, 3, 4, 5, 6, 7, 8, 9]⟩) := by decide +kernel
example : catFirstOp ex23 (.elem 0) = .ok (.mat ⟨[3, 3], [1, 2, 3, 4, 5, 6, 0, 0, 0]⟩) := by decide +kernel
example : catOp ex23 (.vec [7, 8, 9]) = .err "catenate shape mismatch" := by decide +kernel

end Verif.Arr
