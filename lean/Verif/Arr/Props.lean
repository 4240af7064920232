import Verif.Arr.Lemmas5
import Verif.Par.Lemmas

/-! # Properties C23 to C26 -/

namespace Verif.Arr
variable {α : Type}

/-- The schedules `pfor` makes (`value/eval.go:202-235`), for any number of processors and any minimal work. -/
def pforSched (procs minWork : Nat) (hp : 0 < procs) (hw : 0 < minWork) : Sched where
  ranges size n := Par.ranges true procs minWork size n
  cover size n := by rw [Par.ranges_flat hp hw]
  small size n h := by
    unfold Par.ranges
    rw [if_neg]
    unfold Par.parallel
    simp [h]

/-! ## C23 -/

/-- C23: `A rho B` with dimensions that are small, non-negative integers of a product at most 2^31-1: the result has the
shape `A`, and its element at any coordinates is that of `B`, repeated, at the row-major position. `B` empty stands for
a single zero. -/
theorem C23_rho (zero : α) (B : List α) (s : List Nat) (hs : 2 ≤ s.length) (hf : ∀ k, 1 ≤ k → k ≤ s.length → vol (s.take k) ≤ 2147483647)
    (hd : ∀ d ∈ s, d ≤ 2147483647) :
    ∃ m, reshape zero (s.map fun d : Nat => some (d : Int)) B = .ok (.mat m) ∧ m.Ok ∧ m.shape = s ∧ m.data.length = vol s ∧
      ∀ c, InB s c → m.at c = (if B = [] then [zero] else B)[ravel s c % (if B = [] then [zero] else B).length]? := by
  have hne : s ≠ [] := by intro h; subst h; simp at hs
  have h1 : shapeOf (s.map fun d : Nat => some (d : Int)) 1 = .ok (s, vol s) :=
    (shapeOf_ok _ 1 s _).mpr ⟨rfl, hd, by simp, by simpa [maxInt] using hf⟩
  have hfit : Fits s := fun k h2 hk => hf k (by omega) hk
  refine ⟨⟨s, (List.range (vol s)).map (cyc zero B)⟩, ?_, ⟨⟨hne, by simp⟩, hfit⟩, rfl, by simp, ?_⟩
  · rw [reshape_core zero (by simpa using hne) h1, if_neg (by simp; omega), newMatrix_fits hne (by simp) hfit, bind_ok]
  · intro c hc
    unfold Mat.at
    rw [if_pos hc]
    have hb : ∀ n, (if B.length = 0 then n else B) = if B = [] then n else B := by
      intro n; cases B <;> simp
    have h := cyc_get zero B (ravel s c)
    rw [hb] at h
    rw [h]
    simp [List.getElem?_range (ravel_lt hc)]

example : reshape 0 [some 2, some 3] [7, 8] = .ok (.mat ⟨[2, 3], [7, 8, 7, 8, 7, 8]⟩) := by decide

/-- C23: with a single dimension the result is a vector of that length. -/
theorem C23_rho_vec (zero : α) (B : List α) (n : Nat) (hn : n ≤ 2147483647) :
    ∃ l, reshape zero [some (n : Int)] B = .ok (.vec l) ∧ l.length = n ∧
      ∀ k, k < n → l[k]? = (if B = [] then [zero] else B)[k % (if B = [] then [zero] else B).length]? := by
  have h1 : shapeOf [some (n : Int)] 1 = .ok ([n], vol [n]) :=
    (shapeOf_ok _ 1 [n] _).mpr ⟨rfl, by simpa [maxInt] using hn, by simp, by
      intro k h1 h2
      have : k = 1 := by simp at h2; omega
      subst this; simpa [vol, maxInt] using hn⟩
  refine ⟨(List.range (vol [n])).map (cyc zero B), ?_, by simp [vol], ?_⟩
  · rw [reshape_core zero (by simp) h1, if_pos (by rfl)]
  · intro k hk
    have hb : ∀ n, (if B.length = 0 then n else B) = if B = [] then n else B := by
      intro n; cases B <;> simp
    have h := cyc_get zero B k
    rw [hb] at h
    rw [h]
    have : k < vol [n] := by simpa [vol] using hk
    simp [List.getElem?_range this]

example : reshape 0 [some 5] [7, 8] = .ok (.vec [7, 8, 7, 8, 7]) := by decide

/-- C23: every other shape is refused: a dimension that is not a small integer, is negative, or makes the product too large. -/
theorem C23_rho_refused (zero : α) (A : List Small) (B : List α) (hA : A ≠ [])
    (h : ¬ ∃ s : List Nat, A = s.map (fun d : Nat => some (d : Int)) ∧ ∀ k, 1 ≤ k → k ≤ s.length → vol (s.take k) ≤ 2147483647 ∧ ∀ d ∈ s, d ≤ 2147483647) :
    ∃ e, reshape zero A B = .err e := by
  have hA0 : ¬ A.length = 0 := by simpa using hA
  rcases shapeOf_total A 1 with ⟨⟨s, p⟩, hr⟩ | ⟨e, he⟩
  · exfalso
    obtain ⟨h1, h2, h3, h4⟩ := (shapeOf_ok A 1 s p).mp hr
    exact h ⟨s, h1, fun k hk1 hk2 => ⟨by simpa [maxInt] using h4 k hk1 hk2, h2⟩⟩
  · refine ⟨e, ?_⟩
    unfold reshape
    rw [if_neg hA0, he]; rfl

example : reshape 0 [some 2, some (-1)] [7] = .err "bad shape for rho" ∧
    reshape 0 [some 65536, some 65536] [7] = .err "rho has too many elements" ∧
    reshape 0 [some 2, none] [7] = .err "bad shape for rho" := by decide

/-- C23: `rho rho` : the shape of the result is the shape asked for. -/
theorem C23_rho_rho (zero : α) (B : List α) (s : List Nat) (r : V α)
    (h : reshape zero (s.map fun d : Nat => some (d : Int)) B = .ok r) (hs : s ≠ []) : rho r = s := by
  have hA0 : ¬ (s.map fun d : Nat => some (d : Int)).length = 0 := by simpa using hs
  rcases shapeOf_total (s.map fun d : Nat => some (d : Int)) 1 with ⟨⟨s', p⟩, hr⟩ | ⟨e, he⟩
  · obtain ⟨h1, h2, h3, h4⟩ := (shapeOf_ok _ 1 s' p).mp hr
    have hss : s = s' := by
      have inj : Function.Injective fun d : Nat => (some (d : Int) : Small) := by intro a b hab; simpa using hab
      exact List.map_injective_iff.mpr inj h1
    subst hss
    rw [Nat.one_mul] at h3; subst h3
    rw [reshape_core zero (by simpa using hs) hr] at h
    split at h
    · cases h
      rename_i hl
      match s, hl with
      | [n], _ => simp [rho, vol]
    · rw [bind_eq_ok] at h
      obtain ⟨m, hm, h⟩ := h
      cases h
      rw [((newMatrix_ok hs).mp hm).1]; rfl
  · exfalso
    unfold reshape at h
    rw [if_neg hA0, he] at h
    cases h

example : reshape 0 [some 2, some 0] [7, 8] = .ok (.mat ⟨[2, 0], []⟩) := by decide

theorem bind_newMatrix_Ok {s : List Nat} (hs : s ≠ []) {x : R (List α)} {m : Mat α} (h : (x.bind fun d => newMatrix s d) = .ok m) : m.Ok := by
  rw [bind_eq_ok] at h
  obtain ⟨d, _, h⟩ := h
  exact (newMatrix_Ok hs h).1

theorem binaryTranspose_Ok {S : Sched} {origin : Nat} {m m' : Mat α} (hm : m.Ok) {v : List Small} (h : binaryTranspose S origin m v = .ok m') : m'.Ok := by
  unfold binaryTranspose at h
  split at h
  · cases h
  · rename_i hl
    rw [bind_eq_ok] at h
    obtain ⟨o, h1, h⟩ := h
    rw [bind_eq_ok] at h
    obtain ⟨s, h2, h⟩ := h
    rw [bind_eq_ok] at h
    obtain ⟨e, _, h⟩ := h
    refine bind_newMatrix_Ok ?_ h
    have h3 := (noMissing_ok _ _).mp h2
    have h4 := congrArg List.length h3
    rw [newShape_length, List.length_map] at h4
    have hv := ((axes_ok _ _ v o).mp h1).1
    have ho : o ≠ [] := by
      intro h0; subst h0; subst hv
      simp at hl
      exact hm.rank (List.length_eq_zero_iff.mp hl.symm)
    have pos : 0 < newRank o := by
      cases o with
      | nil => exact absurd rfl ho
      | cons a o =>
        unfold newRank
        rw [List.foldl_cons, if_pos (Nat.zero_le _)]
        have mono : ∀ (o : List Nat) (r : Nat), 0 < r → 0 < o.foldl (fun r vi => if r ≤ vi then vi + 1 else r) r := by
          intro o
          induction o with
          | nil => intro r hr; exact hr
          | cons b o ih => intro r hr; rw [List.foldl_cons]; apply ih; split <;> omega
        exact mono o _ (by omega)
    intro h0; subst h0; simp at h4; omega

theorem take_Ok {fill : α} {m m' : Mat α} (hm : m.Ok) {v : List Small} (h : take fill m v = .ok m') : m'.Ok := by
  unfold take at h
  rw [bind_eq_ok] at h
  obtain ⟨w, _, h⟩ := h
  rw [bind_eq_ok] at h
  obtain ⟨m1, hm1, h⟩ := h
  have hr : m1.shape ≠ [] := by
    split at hm1
    · rename_i hlen
      rw [bind_eq_ok] at hm1
      obtain ⟨sz, _, hm1⟩ := hm1
      split at hm1
      · cases hm1
      · have hne : List.replicate w.length 1 ≠ [] := by
          intro h0; have := congrArg List.length h0; simp at this; subst this; simp at hlen
        rw [((newMatrix_ok hne).mp hm1).1]
        exact hne
    · cases hm1; exact hm.rank
  simp only at h
  split at h
  · cases h
  · rw [bind_eq_ok] at h
    obtain ⟨s, _, h⟩ := h
    refine bind_newMatrix_Ok ?_ h
    intro h0
    have h1 := congrArg List.length h0
    simp at h1
    rcases h1 with ⟨h1, h2⟩ | h1
    · subst h1; simp at h2; exact hr h2
    · exact hr h1

/-- C23: every matrix these operations make has exactly as many elements as the product of its dimensions. -/
theorem C23_well_formed (S : Sched) (zero fill : α) (origin : Nat) (n : Int) (A v : List Small) (B : List α) {m m' : Mat α} (hm : m.Ok) :
    (reshape zero A B = .ok (.mat m') → m'.Ok) ∧
    (rotate S m n = .ok m' → m'.Ok) ∧ (vrotate S m n = .ok m' → m'.Ok) ∧
    (rotRows m = .ok m' → m'.Ok) ∧ (flipRows m = .ok m' → m'.Ok) ∧
    (transpose S origin m = .ok m' → m'.Ok) ∧ (binaryTranspose S origin m v = .ok m' → m'.Ok) ∧
    (take fill m v = .ok m' → m'.Ok) ∧ (drop fill m v = .ok m' → m'.Ok) := by
  refine ⟨?_, ?_, ?_, ?_, ?_, ?_, binaryTranspose_Ok hm, take_Ok hm, ?_⟩
  · intro h
    unfold reshape at h
    simp only at h
    split at h
    · cases h
    · rename_i hA
      rw [bind_eq_ok] at h
      obtain ⟨⟨s, p⟩, h1, h⟩ := h
      rw [bind_eq_ok] at h; obtain ⟨_, _, h⟩ := h
      rw [bind_eq_ok] at h; obtain ⟨_, _, h⟩ := h
      rw [bind_eq_ok] at h; obtain ⟨d, _, h⟩ := h
      split at h
      · cases h
      · rw [bind_eq_ok] at h
        obtain ⟨m1, h2, h⟩ := h
        cases h
        have hs : s ≠ [] := by
          intro h0; subst h0
          have := ((shapeOf_ok A 1 [] p).mp h1).1
          subst this; simp at hA
        exact (newMatrix_Ok hs h2).1
  · intro h
    unfold rotate at h
    split at h
    · rename_i hg; exact absurd (List.getLast?_eq_none_iff.mp hg) hm.rank
    · split at h
      · cases h
      · rw [bind_eq_ok] at h
        obtain ⟨e, _, h⟩ := h
        exact bind_newMatrix_Ok hm.rank h
  · intro h
    unfold vrotate at h
    split at h
    · rename_i hg; exact absurd hg hm.rank
    · cases h; exact hm
    · simp only at h
      split at h
      · cases h
      · split at h
        · cases h
        · split at h
          · cases h
          · rw [bind_eq_ok] at h
            obtain ⟨e, _, h⟩ := h
            exact bind_newMatrix_Ok hm.rank h
  · intro h
    rcases Nat.eq_zero_or_pos m.data.length with h0 | h0
    · unfold rotRows at h
      split at h
      · cases h; exact hm
      · rename_i ncols _
        split at h
        · cases h
        · rw [bind_eq_ok] at h
          obtain ⟨sz, hsz, h⟩ := h
          have : sz = 0 := by rw [size_inv hsz, ← hm.len, h0]
          subst this
          rcases Nat.eq_zero_or_pos ncols with hc | hc
          · subst hc
            have : rotLoop 0 0 (0 + 2) 0 (edit m.data) = (R.hang : R (Ed α)) := rfl
            rw [this] at h; cases h
          · have : rotLoop 0 ncols (0 + 2) 0 (edit m.data) = .ok (edit m.data) := by
              show (if 0 + ncols ≤ 0 then _ else R.ok (edit m.data)) = _
              rw [if_neg (by omega)]
            rw [this, bind_ok, edit, publish_edit, bind_ok] at h
            cases h; exact hm
    · rcases List.eq_nil_or_concat m.shape with h1 | ⟨s, d, h1⟩
      · exact absurd h1 hm.rank
      · rw [List.concat_eq_append] at h1
        rcases eq_or_ne s [] with hs | hs
        · subst hs
          unfold rotRows at h
          rw [h1] at h; simp at h
        · obtain ⟨m1, h2, h3, _⟩ := rotRows_at hm h1 hs h0
          rw [h2] at h; cases h; exact h3
  · intro h
    rcases Nat.eq_zero_or_pos m.data.length with h0 | h0
    · unfold flipRows at h
      split at h
      · cases h; exact hm
      · cases h
      · rw [bind_eq_ok] at h
        obtain ⟨es, hes, h⟩ := h
        rw [bind_eq_ok] at h
        obtain ⟨sz, hsz, h⟩ := h
        have : sz = 0 := by rw [size_inv hsz, ← hm.len, h0]
        subst this
        have : flipLoop es (0 + 1) 0 (((0 : Nat) : Int) - es) (edit m.data) = .ok (edit m.data) := by
          show (if (((0 : Nat) : Int) < _) then _ else R.ok (edit m.data)) = _
          rw [if_neg (by omega)]
        rw [this, bind_ok, edit, publish_edit, bind_ok] at h
        cases h; exact hm
    · rcases hsh : m.shape with _ | ⟨d, s⟩
      · exact absurd hsh hm.rank
      · rcases eq_or_ne s [] with hs | hs
        · subst hs
          unfold flipRows at h
          rw [hsh] at h; cases h
        · obtain ⟨m1, h2, h3, _⟩ := flipRows_at hm hsh hs h0
          rw [h2] at h; cases h; exact h3
  · intro h
    unfold transpose at h
    split at h
    · unfold transpose2 at h
      rw [bind_eq_ok] at h
      obtain ⟨e, _, h⟩ := h
      exact bind_newMatrix_Ok (by simp) h
    · exact binaryTranspose_Ok hm h
  · intro h
    unfold drop at h
    split at h
    · cases h
    · rw [bind_eq_ok] at h
      obtain ⟨w, _, h⟩ := h
      exact take_Ok hm h

example : (⟨[2, 3], [1, 2, 3, 4, 5, 6]⟩ : Mat Nat).Ok := by decide

/-! ## C24 -/

/-- C24, for vectors, as stated: rotating keeps the shape, rotations add up, and a multiple of the length is the identity. -/
def C24_vec_statement : Prop :=
  ∀ (v : List Nat) (a b : Int), ∃ l1 l2, rotVec [some a] v = .ok (.vec l1) ∧ rotVec [some b] l1 = .ok (.vec l2) ∧
    rotVec [some (a + b)] v = .ok (.vec l2) ∧ l1.length = v.length ∧ rotVec [some (a * v.length)] v = .ok (.vec v)

/-- C24 is violated: rotating a vector of one element gives not that vector but its element (`value/vector.go:418-420`). -/
theorem C24_vec_violated : ¬ C24_vec_statement := by
  intro h
  obtain ⟨l1, l2, h1, _⟩ := h [7] 1 0
  cases h1

/-- C24, partial: the laws hold for all vectors but those of length one, for which they are false. -/
theorem C24_rotate_vec_partial (v : List α) (hv : v.length ≠ 1) (a b : Int) :
    ∃ l1 l2, rotVec [some a] v = .ok (.vec l1) ∧ rotVec [some b] l1 = .ok (.vec l2) ∧
      rotVec [some (a + b)] v = .ok (.vec l2) ∧ l1.length = v.length ∧ rotVec [some (a * v.length)] v = .ok (.vec v) := by
  have red : ∀ (n : Int) (w : List α), rotVec [some n] w = vecRotate w n := fun n w => rfl
  rcases Nat.lt_or_ge v.length 2 with h | h
  · have : v = [] := by
      cases v with
      | nil => rfl
      | cons x v => simp only [List.length_cons] at h hv; omega
    subst this
    exact ⟨[], [], rfl, rfl, rfl, rfl, rfl⟩
  · obtain ⟨l1, h1, h2, h3⟩ := vecRotate_get h a
    obtain ⟨l2, h4, h5, h6⟩ := vecRotate_get (v := l1) (by omega) b
    obtain ⟨l3, h7, h8, h9⟩ := vecRotate_get h (a + b)
    obtain ⟨l4, h10, h11, h12⟩ := vecRotate_get h (a * v.length)
    have hp : (0 : Int) < v.length := by omega
    refine ⟨l1, l2, h1, h4, ?_, h2, ?_⟩
    · rw [red, h7]
      congr 2
      apply List.ext_getElem?
      intro i
      rcases Nat.lt_or_ge i v.length with hi | hi
      · rw [h9 i hi, h6 i (by omega), h2]
        have hb := Int.emod_lt_of_pos ((i : Int) + b) hp
        have hn := Int.emod_nonneg ((i : Int) + b) (by omega : (v.length : Int) ≠ 0)
        rw [h3 _ (by omega)]
        congr 2
        rw [Int.toNat_of_nonneg hn, Int.emod_add_emod]
        congr 1; omega
      · rw [List.getElem?_eq_none (by omega), List.getElem?_eq_none (by omega)]
    · rw [red, h10]
      congr 2
      apply List.ext_getElem?
      intro i
      rcases Nat.lt_or_ge i v.length with hi | hi
      · rw [h12 i hi, Int.add_mul_emod_self_right, Int.emod_eq_of_lt (by omega) (by omega), Int.toNat_natCast]
      · rw [List.getElem?_eq_none (by omega), List.getElem?_eq_none (by omega)]

example : rotVec [some (-1)] [1, 2, 3] = .ok (.vec [3, 1, 2]) := by decide

/-- C24: what a rotation of a vector does: it moves each element by the count to the left, around the end. -/
theorem C24_rotate_vec_meaning (v : List α) (hv : 2 ≤ v.length) (n : Int) :
    ∃ l, rotVec [some n] v = .ok (.vec l) ∧ l.length = v.length ∧ ∀ i, i < v.length → l[i]? = v[((i + n) % (v.length : Int)).toNat]? :=
  vecRotate_get hv n

example : rotVec [some 1] [1, 2, 3] = .ok (.vec [2, 3, 1]) := by decide

/-- C24: rotation of a matrix along the last axis: what it does, that rotations add up, and that a multiple of the
length is the identity. -/
theorem C24_rotate_mat (S : Sched) {m : Mat α} (hm : m.Ok) {s : List Nat} {d : Nat} (hs : m.shape = s ++ [d]) (hd : 0 < d) (a b : Int) :
    ∃ m1 m2, rotMat S ⟨[1], [some a]⟩ m = .ok m1 ∧ rotMat S ⟨[1], [some b]⟩ m1 = .ok m2 ∧ rotMat S ⟨[1], [some (a + b)]⟩ m = .ok m2 ∧
      m1.shape = m.shape ∧ rotMat S ⟨[1], [some (a * d)]⟩ m = .ok m ∧
      ∀ c i, InB s c → i < d → m1.at (c ++ [i]) = m.at (c ++ [((i + a) % (d : Int)).toNat]) := by
  have red : ∀ (n : Int) (w : Mat α), rotMat S ⟨[1], [some n]⟩ w = rotate S w n := fun n w => rfl
  obtain ⟨m1, h1, h2, h3, h4⟩ := rotate_at S hm hs hd a
  obtain ⟨m2, h5, h6, h7, h8⟩ := rotate_at S h2 (h3.trans hs) hd b
  obtain ⟨m3, h9, h10, h11, h12⟩ := rotate_at S hm hs hd (a + b)
  obtain ⟨m4, h13, h14, h15, h16⟩ := rotate_at S hm hs hd (a * d)
  refine ⟨m1, m2, h1, h5, ?_, h3, ?_, h4⟩
  · rw [red, h9]
    congr 1
    apply mat_ext h10.toWF h6.toWF (by rw [h11, h7, h3])
    intro c hc
    rw [h11, hs] at hc
    obtain ⟨c', i, rfl, hc', hi⟩ := inB_split hc
    have hp : (0 : Int) < d := by omega
    have hb := Int.emod_lt_of_pos ((i : Int) + b) hp
    have hn := Int.emod_nonneg ((i : Int) + b) (by omega : (d : Int) ≠ 0)
    rw [h12 c' i hc' hi, h8 c' i hc' hi, h4 c' _ hc' (by omega)]
    congr 4
    rw [Int.toNat_of_nonneg hn, Int.emod_add_emod]
    congr 1; omega
  · rw [red, h13]
    congr 1
    apply mat_ext h14.toWF hm.toWF h15
    intro c hc
    rw [h15, hs] at hc
    obtain ⟨c', i, rfl, hc', hi⟩ := inB_split hc
    rw [h16 c' i hc' hi, Int.add_mul_emod_self_right, Int.emod_eq_of_lt (by omega) (by omega), Int.toNat_natCast]

example (S : Sched) : ∃ m1, rotMat S ⟨[1], [some 1]⟩ (⟨[2, 3], [1, 2, 3, 4, 5, 6]⟩ : Mat Nat) = .ok m1 :=
  have ⟨m1, _, h, _⟩ := C24_rotate_mat S (m := ⟨[2, 3], [1, 2, 3, 4, 5, 6]⟩) (by decide) (s := [2]) (d := 3) rfl (by decide) 1 0
  ⟨m1, h⟩

example : rotMat (pforSched 4 100 (by decide) (by decide)) ⟨[1], [some 1]⟩ (⟨[2, 3], [1, 2, 3, 4, 5, 6]⟩ : Mat Nat) = .ok ⟨[2, 3], [2, 3, 1, 5, 6, 4]⟩ := by
  decide

/-- C24: rotation of a matrix along the first axis, likewise. -/
theorem C24_vrotate_mat (S : Sched) {m : Mat α} (hm : m.Ok) {s : List Nat} {d : Nat} (hs : m.shape = d :: s) (hr : s ≠ []) (hne : 0 < m.data.length) (a b : Int) :
    ∃ m1 m2, flipMat S ⟨[1], [some a]⟩ m = .ok m1 ∧ flipMat S ⟨[1], [some b]⟩ m1 = .ok m2 ∧ flipMat S ⟨[1], [some (a + b)]⟩ m = .ok m2 ∧
      m1.shape = m.shape ∧ flipMat S ⟨[1], [some (a * d)]⟩ m = .ok m ∧
      ∀ c i, InB s c → i < d → m1.at (i :: c) = m.at (((i + a) % (d : Int)).toNat :: c) := by
  have red : ∀ (n : Int) (w : Mat α), flipMat S ⟨[1], [some n]⟩ w = vrotate S w n := fun n w => rfl
  obtain ⟨m1, h1, h2, h3, h4⟩ := vrotate_at S hm hs hr hne a
  have hne1 : 0 < m1.data.length := by rw [h2.len, h3, ← hm.len]; exact hne
  obtain ⟨m2, h5, h6, h7, h8⟩ := vrotate_at S h2 (h3.trans hs) hr hne1 b
  obtain ⟨m3, h9, h10, h11, h12⟩ := vrotate_at S hm hs hr hne (a + b)
  obtain ⟨m4, h13, h14, h15, h16⟩ := vrotate_at S hm hs hr hne (a * d)
  have hd : 0 < d := by
    rcases Nat.eq_zero_or_pos d with h | h
    · rw [hm.len, hs, h] at hne; simp [vol] at hne
    · exact h
  refine ⟨m1, m2, h1, h5, ?_, h3, ?_, h4⟩
  · rw [red, h9]
    congr 1
    apply mat_ext h10.toWF h6.toWF (by rw [h11, h7, h3])
    intro c hc
    rw [h11, hs] at hc
    match c, hc with
    | i :: c, ⟨hi, hc⟩ =>
      have hp : (0 : Int) < d := by omega
      have hb := Int.emod_lt_of_pos ((i : Int) + b) hp
      have hn := Int.emod_nonneg ((i : Int) + b) (by omega : (d : Int) ≠ 0)
      rw [h12 c i hc hi, h8 c i hc hi, h4 c _ hc (by omega)]
      congr 3
      rw [Int.toNat_of_nonneg hn, Int.emod_add_emod]
      congr 1; omega
  · rw [red, h13]
    congr 1
    apply mat_ext h14.toWF hm.toWF h15
    intro c hc
    rw [h15, hs] at hc
    match c, hc with
    | i :: c, ⟨hi, hc⟩ =>
      rw [h16 c i hc hi, Int.add_mul_emod_self_right, Int.emod_eq_of_lt (by omega) (by omega), Int.toNat_natCast]

example : flipMat (pforSched 4 100 (by decide) (by decide)) ⟨[1], [some 1]⟩ (⟨[3, 2], [1, 2, 3, 4, 5, 6]⟩ : Mat Nat) = .ok ⟨[3, 2], [3, 4, 5, 6, 1, 2]⟩ := by
  decide

/-- C24: reversing a vector, which unary `rot` and `flip` do, twice restores it. -/
theorem C24_reverse_vec (v : List α) :
    Verif.Arr.reverse v = .ok v.reverse ∧ (Verif.Arr.reverse v).bind Verif.Arr.reverse = .ok v := by
  refine ⟨reverse_ok v, ?_⟩
  rw [reverse_ok, bind_ok, reverse_ok, List.reverse_reverse]

example : Verif.Arr.reverse [1, 2, 3] = .ok [3, 2, 1] := by decide

/-- C24: unary `rot` and `flip` of a matrix with elements reverse the last and the first axis, and undo themselves. -/
theorem C24_reverse_mat {m : Mat α} (hm : m.Ok) (hr : 2 ≤ m.shape.length) (hne : 0 < m.data.length) :
    (∃ m1, rotRows m = .ok m1 ∧ m1.shape = m.shape ∧ rotRows m1 = .ok m ∧
      ∀ s d c i, m.shape = s ++ [d] → InB s c → i < d → m1.at (c ++ [i]) = m.at (c ++ [d - 1 - i])) ∧
    ∃ m2, flipRows m = .ok m2 ∧ m2.shape = m.shape ∧ flipRows m2 = .ok m ∧
      ∀ s d c i, m.shape = d :: s → InB s c → i < d → m2.at (i :: c) = m.at ((d - 1 - i) :: c) := by
  constructor
  · rcases List.eq_nil_or_concat m.shape with h1 | ⟨s, d, h1⟩
    · exact absurd h1 hm.rank
    · rw [List.concat_eq_append] at h1
      have hs : s ≠ [] := by intro h; subst h; rw [h1] at hr; simp at hr
      obtain ⟨m1, h2, h3, h4, h5⟩ := rotRows_at hm h1 hs hne
      obtain ⟨m2, h6, h7, h8, h9⟩ := rotRows_at h3 (h4.trans h1) hs (by rw [h3.len, h4, ← hm.len]; exact hne)
      refine ⟨m1, h2, h4, ?_, ?_⟩
      · rw [h6]
        congr 1
        apply mat_ext h7.toWF hm.toWF (by rw [h8, h4])
        intro c hc
        rw [h8, h4, h1] at hc
        obtain ⟨c', i, rfl, hc', hi⟩ := inB_split hc
        rw [h9 c' i hc' hi, h5 c' _ hc' (by omega)]
        congr 3; omega
      · intro s' d' c i he hc hi
        have := he.symm.trans h1
        obtain ⟨rfl, h0⟩ := List.append_inj' this rfl
        cases h0
        exact h5 c i hc hi
  · rcases hsh : m.shape with _ | ⟨d, s⟩
    · exact absurd hsh hm.rank
    · have hs : s ≠ [] := by intro h; subst h; rw [hsh] at hr; simp at hr
      obtain ⟨m1, h2, h3, h4, h5⟩ := flipRows_at hm hsh hs hne
      obtain ⟨m2, h6, h7, h8, h9⟩ := flipRows_at h3 (h4.trans hsh) hs (by rw [h3.len, h4, ← hm.len]; exact hne)
      refine ⟨m1, h2, by rw [h4, hsh], ?_, ?_⟩
      · rw [h6]
        congr 1
        apply mat_ext h7.toWF hm.toWF (by rw [h8, h4])
        intro c hc
        rw [h8, h4, hsh] at hc
        match c, hc with
        | i :: c, ⟨hi, hc⟩ =>
          rw [h9 c i hc hi, h5 c _ hc (by omega)]
          congr 2; omega
      · intro s' d' c i he hc hi
        cases he
        exact h5 c i hc hi

example : rotRows (⟨[2, 3], [1, 2, 3, 4, 5, 6]⟩ : Mat Nat) = .ok ⟨[2, 3], [3, 2, 1, 6, 5, 4]⟩ ∧
    flipRows (⟨[2, 3], [1, 2, 3, 4, 5, 6]⟩ : Mat Nat) = .ok ⟨[2, 3], [4, 5, 6, 1, 2, 3]⟩ := by decide

/-- C24 and C45 are violated by matrices without columns: `rot` by a count divides by zero, `rot` alone does not end. -/
theorem C24_no_columns_violated (S : Sched) :
    rotate S (⟨[2, 0], []⟩ : Mat Nat) 1 = .crash ∧ vrotate S (⟨[2, 0], []⟩ : Mat Nat) 1 = .crash ∧ rotRows (⟨[2, 0], []⟩ : Mat Nat) = .hang ∧
    (⟨[2, 0], []⟩ : Mat Nat).Ok := ⟨rfl, rfl, rfl, by decide⟩

/-- The hang of `rot` on matrices without columns is no matter of how long one waits: the loop never ends. -/
theorem C24_rot_hangs (e : Ed α) (fuel : Nat) : rotLoop 0 0 fuel 0 e = .hang := by
  induction fuel generalizing e with
  | zero => rfl
  | succ n ih => exact ih e

example : rotLoop 0 0 5 0 (edit [1, 2]) = .hang := by decide

/-! ## C25 -/

/-- C25: `transp` reverses the axes, and transposing twice restores the matrix. -/
theorem C25_transp (S S' : Sched) (origin origin' : Nat) {m : Mat α} (hm : m.Ok) (h2 : 2 ≤ m.shape.length) (hne : 0 < m.data.length) :
    ∃ m', transp S origin m = .ok m' ∧ m'.shape = m.shape.reverse ∧ (∀ c, InB m.shape c → m'.at c.reverse = m.at c) ∧
      transp S' origin' m' = .ok m := by
  obtain ⟨m', h3, h4, h5, h6⟩ := transpose_at S origin hm h2 hne
  have hl : 2 ≤ m'.shape.length := by rw [h5]; simpa using h2
  obtain ⟨m2, h7, h8, h9, h10⟩ := transpose_at S' origin' h4 hl (by rw [h4.len, h5, vol_reverse, ← hm.len]; exact hne)
  refine ⟨m', ?_, h5, h6, ?_⟩
  · unfold transp; rw [if_neg (by omega), h3]
  · unfold transp; rw [if_neg (by omega), h7]
    congr 1
    have hs : m2.shape = m.shape := by rw [h9, h5, List.reverse_reverse]
    apply mat_ext h8.toWF hm.toWF hs
    intro c hc
    rw [hs] at hc
    rw [← h6 c hc, ← h10 c.reverse (by rw [h5]; exact inB_reverse.mpr hc), List.reverse_reverse]

example : transp (pforSched 4 100 (by decide) (by decide)) 1 (⟨[2, 3], [1, 2, 3, 4, 5, 6]⟩ : Mat Nat) = .ok ⟨[3, 2], [1, 4, 2, 5, 3, 6]⟩ := by decide

/-- C25: `p transp m` when `p` gives every axis `i` a position `o[i]`, all the positions up to some `r` being used: the
element at `c` is the old one whose coordinate `i` is `c[o[i]]`, so that equal entries select diagonals; the new
dimensions are the least of those moved to a position.  Only a result too large is refused. -/
theorem C25_transp_by (S : Sched) (origin : Nat) {m : Mat α} (hm : m.Ok) {o : List Nat} {r : Nat} (hl : o.length = m.shape.length)
    (ho : ∀ j, j ∈ o ↔ j < r) :
    ∃ s', NewShape o m.shape s' r ∧
    (Fits s' → ∃ m', transpBy S origin (o.map (fun j : Nat => some ((j + origin : Nat) : Int))) m = .ok (if s'.length ≤ 1 then .vec m'.data else .mat m') ∧
      m'.Ok ∧ m'.shape = s' ∧ ∀ c, InB s' c → m'.at c = m.at (oldCoords o c)) ∧
    (¬ Fits s' → ∃ e, transpBy S origin (o.map (fun j : Nat => some ((j + origin : Nat) : Int))) m = .err e) := by
  obtain ⟨s', h1, h2, h3⟩ := binaryTranspose_at S origin hm hl ho
  refine ⟨s', h1, ?_, ?_⟩
  · intro hf
    obtain ⟨m', h4, h5, h6, h7⟩ := h2 hf
    refine ⟨m', ?_, h5, h6, h7⟩
    unfold transpBy
    rw [h4, bind_ok, h6]
    split <;> rfl
  · intro hf
    obtain ⟨e, he⟩ := h3 hf
    exact ⟨e, by unfold transpBy; rw [he]; rfl⟩

example : transpBy (pforSched 4 100 (by decide) (by decide)) 1 [some 1, some 1] (⟨[2, 3], [1, 2, 3, 4, 5, 6]⟩ : Mat Nat) = .ok (.vec [1, 5]) := by decide

example : transpBy (pforSched 4 100 (by decide) (by decide)) 1 [some 2, some 1, some 3] (⟨[2, 3, 1], [1, 2, 3, 4, 5, 6]⟩ : Mat Nat) =
    .ok (.mat ⟨[3, 2, 1], [1, 4, 2, 5, 3, 6]⟩) := by decide

/-- C25: any other left operand of `transp` is refused. -/
theorem C25_transp_by_refused (S : Sched) (origin : Nat) (m : Mat α) (v : List Small)
    (h : ¬ ∃ (o : List Nat) (r : Nat), v = o.map (fun j : Nat => some ((j + origin : Nat) : Int)) ∧ o.length = m.shape.length ∧ ∀ j, j ∈ o ↔ j < r) :
    ∃ e, transpBy S origin v m = .err e := by
  unfold transpBy binaryTranspose
  split
  · exact ⟨_, rfl⟩
  · rename_i hl
    simp only [ne_eq, not_not] at hl
    rcases axes_total origin m.shape.length v with ⟨o, ho⟩ | ⟨e, he⟩
    · obtain ⟨hv, hlt⟩ := (axes_ok _ _ v o).mp ho
      rw [ho, bind_ok]
      have hol : o.length = m.shape.length := by rw [← hl, hv, List.length_map]
      have gen : ∀ (o : List Nat) (a : Nat), (∀ j ∈ o, j < o.foldl (fun r vi => if r ≤ vi then vi + 1 else r) a) ∧
          a ≤ o.foldl (fun r vi => if r ≤ vi then vi + 1 else r) a := by
        intro o
        induction o with
        | nil => intro a; simp
        | cons b o ih =>
          intro a
          rw [List.foldl_cons]
          obtain ⟨h1, h2⟩ := ih (if a ≤ b then b + 1 else a)
          refine ⟨?_, ?_⟩
          · intro j hj
            rcases List.mem_cons.mp hj with rfl | hj
            · have : j < (if a ≤ j then j + 1 else a) := by split <;> omega
              omega
            · exact h1 j hj
          · have : a ≤ (if a ≤ b then b + 1 else a) := by split <;> omega
            omega
      have hall := (gen o 0).1
      by_cases hmiss : ∃ j, j < newRank o ∧ j ∉ o
      · obtain ⟨j, hj, hj2⟩ := hmiss
        obtain ⟨e, he⟩ := noMissing_missing (shape := m.shape) hj hj2
        rw [he]; exact ⟨e, rfl⟩
      · exfalso
        apply h
        refine ⟨o, newRank o, hv, hol, fun j => ⟨fun hj => hall j hj, fun hj => ?_⟩⟩
        by_contra hc
        exact hmiss ⟨j, hj, hc⟩
    · rw [he]; exact ⟨e, rfl⟩

example : transpBy (pforSched 4 100 (by decide) (by decide)) 1 [some 1, some 3] (⟨[2, 3], [1, 2, 3, 4, 5, 6]⟩ : Mat Nat) = .err "transp: out-of-range index" ∧
    transpBy (pforSched 4 100 (by decide) (by decide)) 1 [some 2, some 2] (⟨[2, 3], [1, 2, 3, 4, 5, 6]⟩ : Mat Nat) = .err "transp: partial index" := by decide

/-- C25 and C45 are violated by two-dimensional matrices without columns: `transp` divides by zero. -/
theorem C25_no_columns_violated :
    transp (pforSched 4 100 (by decide) (by decide)) 1 (⟨[2, 0], []⟩ : Mat Nat) = .crash ∧ (⟨[2, 0], []⟩ : Mat Nat).Ok := by decide

/-! ## C26 -/

/-- C26: `n take v` has `|n|` elements: the first `n`, or the last `-n`, and the fill value where `v` has none. -/
theorem C26_take_vec (fill : List α → α) (n : Int) (v : List α) :
    ∃ l, takeOp fill [some n] (.vec v) = .ok (.vec l) ∧ l.length = n.natAbs ∧
      ∀ i, i < n.natAbs → l[i]? = match takeSrc1 n v.length i with | some j => v[j]? | none => some (fill v) :=
  ⟨takeVec (fill v) n v, rfl, takeVec_length _ n v, takeVec_get _ n v⟩

example : takeOp (fun _ => 0) [some 4] (.vec [1, 2, 3]) = .ok (.vec [1, 2, 3, 0]) ∧ takeOp (fun _ => 0) [some (-2)] (.vec [1, 2, 3]) = .ok (.vec [2, 3]) := by decide

/-- C26: `n drop v` leaves out the first `n` elements, or the last `-n`. -/
theorem C26_drop_vec (fill : List α → α) (n : Int) (v : List α) :
    ∃ l, dropOp fill [some n] (.vec v) = .ok (.vec l) ∧ l.length = v.length - n.natAbs ∧ ∀ i, i < l.length → l[i]? = v[i + n.toNat]? :=
  ⟨dropVec n v, rfl, dropVec_length n v, fun i hi => dropVec_get n v i (by rwa [dropVec_length] at hi)⟩

example : dropOp (fun _ => 0) [some 1] (.vec [1, 2, 3]) = .ok (.vec [2, 3]) ∧ dropOp (fun _ => 0) [some (-5)] (.vec [1, 2, 3]) = .ok (.vec []) := by decide

/-- C26: the taken and the dropped part together are the vector. -/
theorem C26_take_drop_vec (fill : List α → α) (n : Int) (v : List α) (h : n.natAbs ≤ v.length) :
    ∃ t d, takeOp fill [some n] (.vec v) = .ok (.vec t) ∧ dropOp fill [some n] (.vec v) = .ok (.vec d) ∧
      (0 ≤ n → t ++ d = v) ∧ (n < 0 → d ++ t = v) :=
  ⟨_, _, rfl, rfl, (take_drop_vec (fill v) n v h).1, (take_drop_vec (fill v) n v h).2⟩

example : ((-2 : Int)).natAbs ≤ [1, 2, 3].length := by decide

/-- C26: `take` of a matrix, any number of the leading axes being counted: the same along each axis. Only a result too
large is refused. -/
theorem C26_take_mat (fill : List α → α) {m : Mat α} (hm : m.Ok) {v : List Int} (hv : v.length ≤ m.shape.length) :
    (vol ((fullCounts v m.shape).map Int.natAbs) ≤ 2147483647 → Fits ((fullCounts v m.shape).map Int.natAbs) →
      ∃ m', takeOp fill (v.map some) (.mat m) = .ok (.mat m') ∧ m'.Ok ∧ m'.shape = (fullCounts v m.shape).map Int.natAbs ∧
        ∀ c, InB m'.shape c → m'.at c = match takeSrc (fullCounts v m.shape) m.shape c with | some c' => m.at c' | none => some (fill m.data)) ∧
    (¬ (vol ((fullCounts v m.shape).map Int.natAbs) ≤ 2147483647 ∧ Fits ((fullCounts v m.shape).map Int.natAbs)) →
      ∃ e, takeOp fill (v.map some) (.mat m) = .err e) := by
  obtain ⟨h1, h2⟩ := take_at (fill m.data) hm hv
  constructor
  · intro h3 h4
    obtain ⟨m', h5, h6, h7, h8⟩ := h1 h3 h4
    refine ⟨m', ?_, h6, h7, fun c hc => h8 c (by rw [← h7]; exact hc)⟩
    show (take (fill m.data) m (v.map some)).bind _ = _
    rw [h5]; rfl
  · intro h3
    obtain ⟨e, he⟩ := h2 h3
    refine ⟨e, ?_⟩
    show (take (fill m.data) m (v.map some)).bind _ = _
    rw [he]; rfl

example : takeOp (fun _ => 0) [some 3, some (-2)] (.mat ⟨[2, 3], [1, 2, 3, 4, 5, 6]⟩) = .ok (.mat ⟨[3, 2], [2, 3, 5, 6, 0, 0]⟩) := by decide +kernel

/-- C26: `drop` of a matrix, any number of the leading axes being counted: the same along each axis. -/
theorem C26_drop_mat (fill : List α → α) {m : Mat α} (hm : m.Ok) (hsz : m.data.length ≤ 2147483647) {v : List Int} (hv : v.length ≤ m.shape.length) :
    ∃ m', dropOp fill (v.map some) (.mat m) = .ok (.mat m') ∧ m'.Ok ∧
      m'.shape = List.zipWith (fun (x : Int) (d : Nat) => d - x.natAbs) (fullDrops v m.shape) m.shape ∧
      ∀ c, InB m'.shape c → m'.at c = m.at (List.zipWith (fun (x : Int) (i : Nat) => i + x.toNat) (fullDrops v m.shape) c) := by
  obtain ⟨m', h1, h2, h3, h4⟩ := drop_at (fill m.data) hm hsz hv
  refine ⟨m', ?_, h2, h3, h4⟩
  show (drop (fill m.data) m (v.map some)).bind _ = _
  rw [h1]; rfl

example : dropOp (fun _ => 0) [some 1, some (-1)] (.mat ⟨[2, 3], [1, 2, 3, 4, 5, 6]⟩) = .ok (.mat ⟨[1, 2], [4, 5]⟩) := by decide +kernel

end Verif.Arr
