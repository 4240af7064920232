import Verif.Safe.Hoare
import Verif.Arr.Lemmas5

/-!
# Reshape, rotate, reverse, transpose, take and drop end
-/

namespace Verif.Safe
open Verif.Arr
variable {α : Type} {P : α → Prop}

theorem gives_shapeOf : ∀ (A : List Small) (n : Nat), Gives (fun p => p.1.length = A.length) (shapeOf A n)
  | [], _ => by simp [shapeOf, Gives]
  | none :: _, _ => trivial
  | some d :: r, n => by
    unfold shapeOf
    split
    · trivial
    split
    · trivial
    refine gives_bind (gives_shapeOf r _) fun p hp => ?_
    simpa [Gives] using hp

theorem gives_reshape {zero : α} (hz : P zero) {A : List Small} {B : List α} (hB : ∀ x ∈ B, P x) : Gives (GoodV P) (reshape zero A B) := by
  unfold reshape
  extract_lets B' blen
  have hB' : ∀ x ∈ B', P x := by
    intro x hx
    simp only [B'] at hx
    split at hx
    · rw [List.mem_singleton.1 hx]; exact hz
    · exact hB x hx
  have hpos : 0 < B'.length := by
    simp only [B']
    split
    · exact Nat.one_pos
    · omega
  have hb : B'.length = blen := rfl
  clear_value blen B'
  split
  · intro x hx; cases hx
  refine gives_bind (gives_shapeOf A 1) fun p hp => ?_
  generalize hn : p.2 = nelems
  dsimp only
  refine gives_bind (P := Fl P nelems fun j => j < blen) ?_ fun t ht => ?_
  · refine gives_mono (fl_loop (fun k j => j = k) (List.range (min blen nelems)) fl_new fun k hk D e he => ?_) fun e he => fl_mono he fun i hn hi => ?_
    · have := List.mem_range.1 hk
      exact gives_bind (gives_vAt hB' (by omega)) fun x hx => fl_put he (by omega) hx
    · exact .inr ⟨i, List.mem_range.2 (by omega), rfl⟩
  refine gives_bind (P := Fl P nelems fun j => j < blen + (nelems - blen)) ?_ fun t ht => ?_
  · refine gives_range (fun k e => Fl P nelems (fun j => j < k) e) blen (nelems - blen) ht fun k e h1 h2 he => ?_
    refine gives_bind (fl_get he (by omega) (by omega)) fun x hx => ?_
    exact gives_mono (fl_put he (by omega) hx) fun e he => fl_mono he fun i _ hi => by omega
  refine gives_bind (fl_publish ht fun i hi => by omega) fun l hl => ?_
  split
  · exact hl.2
  · refine gives_matV ?_ hl.2
    intro h
    rw [h] at hp
    simp at hp
    omega

theorem gives_doRotate {n N : Nat} {e : Ed α} {D : Nat → Prop} (he : Fl P N D e) {src : List α} (hs : ∀ x ∈ src, P x) {i j off : Nat} (hi : i + n ≤ N)
    (hj : j + n ≤ src.length) : Gives (Fl P N fun q => D q ∨ (i ≤ q ∧ q < i + n)) (doRotate e i n src j off) := by
  unfold doRotate
  refine gives_mono (fl_loop (fun k q => q = i + k) (List.range n) he fun k hk D e he => ?_) fun e he => fl_mono he fun q _ hq => ?_
  · have hk := List.mem_range.1 hk
    have := Nat.mod_lt (off + k) (show n > 0 by omega)
    exact gives_bind (gives_vAt hs (by omega)) fun x hx => fl_put he (by omega) hx
  · rcases hq with hq | hq
    · exact .inl hq
    · exact .inr ⟨q - i, List.mem_range.2 (by omega), by omega⟩

theorem gives_vecRotate {v : List α} (hv : ∀ x ∈ v, P x) (n : Int) : Gives (GoodV P) (vecRotate v n) := by
  unfold vecRotate
  split
  · exact hv
  · exact hv _ (List.mem_singleton.2 rfl)
  · exact gives_bind (gives_doRotate (fl_edit hv) hv (by omega) (by omega)) fun e he =>
      gives_bind (fl_publish he fun _ _ => .inl trivial) fun l hl => hl.2

theorem gives_rotVec {c : List Small} {v : List α} (hv : ∀ x ∈ v, P x) : Gives (GoodV P) (rotVec c v) := by
  unfold rotVec
  split
  · trivial
  · exact gives_bind (gives_intAt (by omega)) fun n _ => gives_vecRotate hv n

theorem vol_pos_of_mem {s : List Nat} (h : 0 < vol s) {d : Nat} (hd : d ∈ s) : 0 < d := by
  induction s with
  | nil => cases hd
  | cons x s ih =>
    have h' : 0 < x * vol s := h
    rcases List.mem_cons.1 hd with rfl | hd
    · exact Nat.pos_of_mul_pos_right h'
    · exact ih (Nat.pos_of_mul_pos_left h') hd

theorem split_snoc {s : List Nat} (h : s ≠ []) : ∃ t d, s = t ++ [d] := ⟨s.dropLast, s.getLast h, (List.dropLast_append_getLast h).symm⟩

theorem gives_rotate (S : Sched) {m : Mat α} (hm : GoodM P m) (hne : 0 < m.data.length) (n : Int) : Gives (fun r => GoodM P r ∧ r.shape = m.shape) (rotate S m n) := by
  obtain ⟨⟨hr, hl⟩, hp⟩ := hm
  obtain ⟨t, d, hs⟩ := split_snoc hr
  have hv : m.data.length = vol t * d := by rw [hl, hs, vol_append]; simp [vol]
  have hd : 0 < d := Nat.pos_of_ne_zero fun h => by rw [h, Nat.mul_zero] at hv; omega
  unfold rotate
  rw [hs, List.getLast?_append]
  simp only [List.getLast?_singleton, Option.some_or]
  rw [if_neg (by omega), hv, Nat.mul_div_cancel _ hd]
  refine gives_bind (fl_each (P := P) S d (vol t) (fun k j => k * d ≤ j ∧ j < k * d + d) fl_new fun k hk D e he => ?_) fun e he => ?_
  · have : (k + 1) * d ≤ vol t * d := Nat.mul_le_mul_right d hk
    rw [Nat.add_mul, Nat.one_mul] at this
    exact gives_doRotate he hp this (by omega)
  · refine gives_bind (fl_publish he fun i hi => .inr ⟨i / d, Nat.div_lt_of_lt_mul (by rw [Nat.mul_comm]; exact hi), Nat.div_mul_le_self i d, ?_⟩) fun l hl' => gives_mat (by simp) hl'.2
    have := Nat.lt_div_mul_add (a := i) hd
    omega

theorem gives_vrotate (S : Sched) {m : Mat α} (hm : GoodM P m) (hne : 0 < m.data.length) (n : Int) : Gives (fun r => GoodM P r ∧ r.shape = m.shape) (vrotate S m n) := by
  obtain ⟨⟨hr, hl⟩, hp⟩ := hm
  unfold vrotate
  split
  · exact absurd ‹m.shape = []› hr
  · exact ⟨⟨⟨hr, hl⟩, hp⟩, rfl⟩
  · rename_i d0 ds _ hs
    have hv : m.data.length = d0 * vol ds := by rw [hl, hs]; rfl
    have h0 : 0 < d0 := Nat.pos_of_ne_zero fun h => by rw [h, Nat.zero_mul] at hv; omega
    have hd : 0 < vol ds := Nat.pos_of_ne_zero fun h => by rw [h, Nat.mul_zero] at hv; omega
    rw [if_neg (by omega)]
    extract_lets dim n'
    have hdim : dim = vol ds := by simp only [dim]; rw [hv, Nat.mul_comm, Nat.mul_div_cancel _ h0]
    rw [if_neg (by omega)]
    have hn' : n' % dim = 0 ∧ n' < m.data.length := by
      simp only [n']
      rw [hdim, hv, wrapMod_mul n hd h0]
      exact ⟨Nat.mul_mod_left _ _, by exact (Nat.mul_lt_mul_right hd).2 (wrapMod_lt n h0)⟩
    clear_value n' dim
    rw [if_neg (by omega)]
    have hcnt : m.data.length / dim = d0 := by rw [hdim, hv, Nat.mul_div_cancel _ hd]
    rw [hcnt, hs]
    refine gives_bind (fl_each (P := P) S dim d0 (fun k j => k * dim ≤ j ∧ j < k * dim + dim) fl_new fun k hk D e he => ?_) fun e he => ?_
    · extract_lets j q
      have hj : j + dim ≤ m.data.length := by
        have : (k + 1) * dim ≤ d0 * dim := Nat.mul_le_mul_right dim hk
        rw [Nat.add_mul, Nat.one_mul] at this
        rw [hv, ← hdim]; exact this
      have hq : q + dim ≤ m.data.length := by
        have h1 : q < d0 * dim := by
          have := Nat.mod_lt (n' + j) hne
          simp only [q]; rw [hv, ← hdim] at this ⊢; exact this
        have h2 : q % dim = 0 := by
          simp only [q, j]
          rw [hv, ← hdim, Nat.mod_mul_left_mod, Nat.add_mul_mod_self_right]
          exact hn'.1
        obtain ⟨c, hc⟩ := Nat.dvd_of_mod_eq_zero h2
        rw [hc, Nat.mul_comm] at h1 ⊢
        have h3 : c < d0 := Nat.lt_of_mul_lt_mul_right h1
        have : (c + 1) * dim ≤ d0 * dim := Nat.mul_le_mul_right dim h3
        rw [Nat.add_mul, Nat.one_mul] at this
        rw [hv, ← hdim]; exact this
      clear_value q
      refine gives_mono (fl_loop (fun k q => q = j + k) (List.range dim) he fun k hk D e he => ?_) fun e he => fl_mono he fun q _ hq => ?_
      · have hk := List.mem_range.1 hk
        exact gives_bind (gives_vAt hp (by omega)) fun x hx => fl_put he (by omega) hx
      · rcases hq with hq | hq
        · exact .inl hq
        · exact .inr ⟨q - j, List.mem_range.2 (by omega), by omega⟩
    · have hdp : 0 < dim := by omega
      refine gives_bind (fl_publish he fun i hi => .inr ⟨i / dim, Nat.div_lt_of_lt_mul (by rw [Nat.mul_comm, hdim, ← hv]; exact hi), Nat.div_mul_le_self i dim, ?_⟩) fun l hl' =>
        gives_mat (by simp) hl'.2
      have := Nat.lt_div_mul_add (a := i) hdp
      omega

theorem gives_rotMat (S : Sched) {c : Mat Small} {m : Mat α} (hm : GoodM P m) (hne : 0 < m.data.length) : Gives (fun r => GoodM P r ∧ r.shape = m.shape) (rotMat S c m) := by
  unfold rotMat
  split
  · trivial
  · exact gives_bind (gives_intAt (by omega)) fun n _ => gives_rotate S hm hne n

theorem gives_flipMat (S : Sched) {c : Mat Small} {m : Mat α} (hm : GoodM P m) (hne : 0 < m.data.length) : Gives (fun r => GoodM P r ∧ r.shape = m.shape) (flipMat S c m) := by
  unfold flipMat
  split
  · trivial
  · exact gives_bind (gives_intAt (by omega)) fun n _ => gives_vrotate S hm hne n

theorem gives_reverse {v : List α} (hv : ∀ x ∈ v, P x) : Gives (fun l => l.length = v.length ∧ ∀ x ∈ l, P x) (Verif.Arr.reverse v) := by
  rw [reverse_ok]
  exact ⟨by simp, fun x hx => hv x (List.mem_reverse.1 hx)⟩

theorem gives_swap {N : Nat} {e : Ed α} (he : Fl P N (fun _ => True) e) {i j : Nat} (hi : i < N) (hj : j < N) : Gives (Fl P N fun _ => True) (e.swap i j) := by
  unfold Ed.swap
  refine gives_bind (fl_get he hi trivial) fun x hx => gives_bind (fl_get he hj trivial) fun y hy => gives_bind (fl_put he hi hy) fun e he => ?_
  exact gives_mono (fl_put he hj hx) fun e he => fl_mono he fun _ _ _ => .inl (.inl trivial)

theorem gives_swapLoop {N : Nat} {e : Ed α} (he : Fl P N (fun _ => True) e) {off n : Nat} (h : off + n ≤ N) : Gives (Fl P N fun _ => True) (swapLoop off n e) := by
  unfold swapLoop
  refine gives_loop _ _ he fun k hk e he => ?_
  have := List.mem_range.1 hk
  exact gives_swap he (by omega) (by omega)

theorem gives_rotLoop {N nc : Nat} (hn : 0 < nc) : ∀ (fuel index : Nat) {e : Ed α}, Fl P N (fun _ => True) e → index ≤ N → N < fuel + index → Gives (Fl P N fun _ => True) (rotLoop N nc fuel index e)
  | 0, index, e, he, hi, hf => by
    exact absurd hf (by omega)
  | fuel + 1, index, e, he, hi, hf => by
    unfold rotLoop
    split
    · exact gives_bind (gives_swapLoop he ‹_›) fun e he => gives_rotLoop hn fuel (index + nc) he ‹_› (by omega)
    · exact he

theorem gives_rotRows {m : Mat α} (hm : GoodM P m) (hne : 0 < m.data.length) : Gives (fun r => GoodM P r ∧ r.shape = m.shape) (rotRows m) := by
  obtain ⟨⟨hr, hl⟩, hp⟩ := hm
  obtain ⟨t, d, hs⟩ := split_snoc hr
  have hv : m.data.length = vol t * d := by rw [hl, hs, vol_append]; simp [vol]
  have hd : 0 < d := Nat.pos_of_ne_zero fun h => by rw [h, Nat.mul_zero] at hv; omega
  unfold rotRows
  have e1 : m.shape.getLast? = some d := by rw [hs, List.getLast?_append]; rfl
  rw [e1]
  dsimp only
  split
  · trivial
  refine gives_bind (gives_size m.shape) fun sz hsz => ?_
  rw [← hl] at hsz
  rw [hsz]
  refine gives_bind (gives_rotLoop hd _ 0 (fl_edit hp) (by omega) (by omega)) fun e he => gives_bind (fl_publish he fun _ _ => trivial) fun l hl' => ?_
  exact ⟨⟨⟨hr, by rw [hl'.1, hl]⟩, hl'.2⟩, rfl⟩

theorem gives_flipLoop {N es : Nat} : ∀ (fuel lo : Nat) (hi : Int) {e : Ed α}, Fl P N (fun _ => True) e → (0 < es ∨ hi ≤ 0) → hi + es ≤ N → 0 < fuel →
    hi < fuel + lo → Gives (Fl P N fun _ => True) (flipLoop es fuel lo hi e)
  | 0, lo, hi, e, he, h1, h3, h4, h5 => absurd h4 (by omega)
  | fuel + 1, lo, hi, e, he, h1, h3, h4, h5 => by
    unfold flipLoop
    split
    · refine gives_bind (gives_loop _ _ he fun k hk e he => ?_) fun e he => gives_flipLoop fuel (lo + es) (hi - es) he (by omega) (by omega) (by omega) (by omega)
      have hk := List.mem_range.1 hk
      exact gives_swap he (by omega) (by omega)
    · exact he

theorem gives_flipRows {m : Mat α} (hm : GoodM P m) : Gives (fun r => GoodM P r ∧ r.shape = m.shape) (flipRows m) := by
  obtain ⟨⟨hr, hl⟩, hp⟩ := hm
  unfold flipRows
  split
  · exact absurd ‹m.shape = []› hr
  · trivial
  · rename_i d ds _ hs
    refine gives_bind (gives_size _) fun es hes => gives_bind (gives_size _) fun sz hsz => ?_
    have h1 : sz = d * es := by rw [hsz, hs, hes]; rfl
    have h2 : m.data.length = sz := by rw [hsz, hl]
    refine gives_bind (gives_flipLoop (N := m.data.length) _ 0 _ (fl_edit hp) ?_ (by omega) (by omega) (by omega)) fun e he =>
      gives_bind (fl_publish he fun _ _ => trivial) fun l hl' => ?_
    · rcases Nat.eq_zero_or_pos es with h | h
      · right; rw [h1, h]; simp
      · exact .inl h
    · exact ⟨⟨⟨by simp [hs], by rw [hl'.1, hl, hs]⟩, hl'.2⟩, rfl⟩

/-! ## transp -/

theorem gives_transpose2 (S : Sched) {x y : Nat} (hy : 0 < y) {data : List α} (hp : ∀ a ∈ data, P a) (hl : data.length = x * y) :
    Gives (fun r => GoodM P r ∧ r.shape = [y, x]) (transpose2 S x y data) := by
  unfold transpose2
  refine gives_bind (fl_pfor (P := P) S 1 data.length (fun k j => j = k % y * x + k / y) fl_new fun lo hi hb D e he => ?_) fun e he => ?_
  · rw [if_neg (by omega)]
    refine gives_bind (P := fun s => Fl P data.length (fun j => D j ∨ ∃ k, lo ≤ k ∧ k < lo + (hi - lo) ∧ j = k % y * x + k / y) s.2.2) ?_ fun s hs =>
      fl_mono hs fun i _ hi' => hi'.imp id fun ⟨k, h1, h2, h3⟩ => ⟨k, h1, by omega, h3⟩
    refine gives_mono (gives_range (fun q s => s.1 = q / y ∧ s.2.1 = q % y ∧ Fl P data.length (fun j => D j ∨ ∃ k, lo ≤ k ∧ k < q ∧ j = k % y * x + k / y) s.2.2) lo (hi - lo)
      ⟨rfl, rfl, fl_mono he fun i _ hi => hi.elim id fun ⟨k, h1, h2, _⟩ => absurd h1 (by omega)⟩ fun q s h1 h2 hs => ?_) fun s hs => hs.2.2
    obtain ⟨a, b, hs⟩ := hs
    have hq : q < data.length := hb q h1 (by omega)
    unfold transStep
    have hqx : q / y < x := Nat.div_lt_of_lt_mul (by rw [Nat.mul_comm, ← hl]; exact hq)
    have hqy : q % y < y := Nat.mod_lt _ hy
    have hin : q % y * x + q / y < data.length := by
      have : (q % y + 1) * x ≤ y * x := Nat.mul_le_mul_right x hqy
      rw [Nat.add_mul, Nat.one_mul, Nat.mul_comm y x, ← hl] at this
      omega
    refine gives_bind (gives_vAt hp hq) fun v hv => gives_bind (fl_put hs (by rw [a, b]; exact hin) hv) fun e he => ?_
    have he' : Fl P data.length (fun j => D j ∨ ∃ k, lo ≤ k ∧ k < q + 1 ∧ j = k % y * x + k / y) e := fl_mono he fun i _ hi => by
      rcases hi with hi | ⟨k, k1, k2, k3⟩
      · exact .inl (.inl hi)
      · rcases Nat.lt_or_ge k q with h | h
        · exact .inl (.inr ⟨k, k1, h, k3⟩)
        · right
          have : k = q := by omega
          rw [k3, this, a, b]
    have hd := Nat.div_add_mod q y
    split
    · refine ⟨?_, ?_, he'⟩
      · show s.1 + 1 = (q + 1) / y
        have : q + 1 = (q / y + 1) * y := by
          rw [Nat.add_mul, Nat.one_mul, Nat.mul_comm]; omega
        rw [this, Nat.mul_div_cancel _ hy, a]
      · show 0 = (q + 1) % y
        have : q + 1 = (q / y + 1) * y := by
          rw [Nat.add_mul, Nat.one_mul, Nat.mul_comm]; omega
        rw [this, Nat.mul_mod_left]
    · have e1 : q + 1 = (q % y + 1) + y * (q / y) := by omega
      have e2 : q % y + 1 < y := by omega
      refine ⟨?_, ?_, he'⟩
      · show s.1 = (q + 1) / y
        rw [a, e1, Nat.add_mul_div_left _ _ hy, Nat.div_eq_of_lt e2, Nat.zero_add]
      · show s.2.1 + 1 = (q + 1) % y
        rw [b, e1, Nat.add_mul_mod_self_left, Nat.mod_eq_of_lt e2]
  · refine gives_bind (fl_publish he fun i hi => .inr ⟨i % x * y + i / x, ?_, ?_⟩) fun l hl' => gives_mat (by simp) hl'.2
    all_goals
      have hx : 0 < x := Nat.pos_of_ne_zero fun h => by rw [h, Nat.zero_mul] at hl; omega
      have h1 : i / x < y := Nat.div_lt_of_lt_mul (by rw [← hl]; exact hi)
      have h2 : i % x < x := Nat.mod_lt _ hx
    · have : (i % x + 1) * y ≤ x * y := Nat.mul_le_mul_right y h2
      rw [Nat.add_mul, Nat.one_mul, ← hl] at this
      omega
    · rw [Nat.add_comm (i % x * y), Nat.add_mul_mod_self_right, Nat.mod_eq_of_lt h1, Nat.add_mul_div_right _ _ hy, Nat.div_eq_of_lt h1, Nat.zero_add, Nat.mul_comm]
      exact (Nat.div_add_mod i x).symm

theorem exists_rank : ∀ (o : List Nat), ∃ r, (∀ j, j ∈ o → j < r) ∧ (r = 0 ∨ r - 1 ∈ o)
  | [] => ⟨0, fun _ h => absurd h List.not_mem_nil, .inl rfl⟩
  | x :: o => by
    obtain ⟨r, h1, h2⟩ := exists_rank o
    rcases Nat.lt_or_ge x r with h | h
    · refine ⟨r, fun j hj => ?_, h2.imp id fun h => List.mem_cons_of_mem _ h⟩
      rcases List.mem_cons.1 hj with rfl | hj
      · exact h
      · exact h1 j hj
    · refine ⟨x + 1, fun j hj => ?_, .inr (by simp)⟩
      rcases List.mem_cons.1 hj with rfl | hj
      · omega
      · have := h1 j hj; omega

theorem gives_binaryTranspose (S : Sched) (origin : Nat) {m : Mat α} (hm : GoodM P m) (v : List Small) :
    Gives (GoodM P) (binaryTranspose S origin m v) := by
  by_cases hv : v.length = m.shape.length
  swap
  · unfold binaryTranspose; rw [if_pos hv]; trivial
  rcases axes_total origin m.shape.length v with ⟨o, ho⟩ | ⟨e, he⟩
  swap
  · unfold binaryTranspose; rw [if_neg (by omega), he]; trivial
  obtain ⟨e1, e2⟩ := (axes_ok origin _ v o).1 ho
  obtain ⟨r, h1, h2⟩ := exists_rank o
  have hr : newRank o = r := newRank_eq h1 h2
  rcases noMissing_total (newShape o m.shape r) with ⟨s', hs'⟩ | ⟨e, he⟩
  swap
  · unfold binaryTranspose; rw [if_neg (by omega), ho]; simp only [R.bind]; rw [hr, he]; trivial
  have hmem : ∀ j, j < r → j ∈ o := fun j hj => Decidable.byContradiction fun h => by
    obtain ⟨e, he⟩ := noMissing_missing (shape := m.shape) hj h
    rw [hs'] at he; cases he
  have hol : o.length = m.shape.length := by rw [← hv, e1]; simp
  obtain ⟨s'', h3, h4⟩ := newShape_spec (shape := m.shape) hol hmem
  have : s'' = s' := by rw [hs'] at h3; cases h3; rfl
  subst this
  have hrl : r ≤ m.shape.length := by
    rcases h2 with h2 | h2
    · omega
    · have := e2 _ h2; omega
  have hin : ∀ k, k < vol s'' → ravel m.shape (oldCoords o (unravel s'' k)) < m.data.length := fun k hk => by
    rw [hm.1.len]
    exact ravel_lt (oldCoords_inB hol h4 (fun j hj => h1 j hj) (unravel_inB hk))
  have hcore := binaryTranspose_core S origin hm.1 hol (fun j => ⟨h1 j, hmem j⟩) hrl h4 hs' (t := List.ofFn fun k : Fin (vol s'') => m.data[ravel m.shape (oldCoords o (unravel s'' k))]'(hin k k.2))
    (by simp) (fun k hk => by simp [hk, List.getElem?_eq_getElem (hin k hk)])
  rw [e1, hcore]
  refine gives_mono (gives_mat (P := P) ?_ ?_) fun m h => h.1
  · intro h
    rw [h] at h4
    have h5 := h4.len
    have : o = [] := List.eq_nil_iff_forall_not_mem.2 fun j hj => by
      have := h1 j hj
      simp at h5; omega
    rw [this] at hol
    exact hm.1.rank (List.length_eq_zero_iff.1 hol.symm)
  · intro x hx
    obtain ⟨k, rfl⟩ := (List.mem_ofFn' _ _).1 hx
    exact hm.2 _ (List.getElem_mem _)

theorem gives_transpose (S : Sched) (origin : Nat) {m : Mat α} (hm : GoodM P m) (h : ∀ x y, m.shape = [x, y] → 0 < y) : Gives (GoodM P) (transpose S origin m) := by
  unfold transpose
  split
  · rename_i x y hs
    exact gives_mono (gives_transpose2 S (h x y hs) hm.2 (by rw [hm.1.len, hs]; simp [vol])) fun m h => h.1
  · exact gives_binaryTranspose S origin hm _

theorem pos_of_data {m : Mat α} (hm : m.WF) (hne : 0 < m.data.length) {d : Nat} (h : d ∈ m.shape) : 0 < d := vol_pos_of_mem (by rw [← hm.len]; exact hne) h

theorem gives_transp (S : Sched) (origin : Nat) {m : Mat α} (hm : GoodM P m) (h : ∀ x y, m.shape = [x, y] → 0 < y) : Gives (GoodM P) (transp S origin m) := by
  unfold transp
  split
  · trivial
  · exact gives_transpose S origin hm h

theorem gives_transpBy (S : Sched) (origin : Nat) {m : Mat α} (hm : GoodM P m) (v : List Small) : Gives (GoodV P) (transpBy S origin v m) := by
  unfold transpBy
  refine gives_bind (gives_binaryTranspose S origin hm v) fun m hm => ?_
  split
  · exact hm.2
  · exact hm

/-! ## take and drop -/

theorem gives_allInts (msg : String) : ∀ (v : List Small), Gives (fun l => l.length = v.length) (allInts msg v)
  | [] => rfl
  | none :: _ => trivial
  | some n :: r => gives_bind (gives_allInts msg r) fun l hl => by simp [Gives, hl]

theorem gives_guarded {σ τ : Type} {Q : τ → Prop} {c : Prop} [Decidable c] {e : String} {x : R σ} {s : σ} {k : σ → R τ}
    (h : x = .ok s) (hk : Gives Q (k s)) : Gives Q (if c then .err e else x.bind k) := by
  split
  · trivial
  · rw [h]; exact hk

theorem gives_take {fill : α} (hf : P fill) {m : Mat α} (hm : GoodM P m) (v : List Small) : Gives (GoodM P) (take fill m v) := by
  unfold take
  refine gives_bind (gives_allInts _ v) fun v _ => ?_
  refine gives_bind (P := fun m' => GoodM P m' ∧ v.length ≤ m'.shape.length) ?_ fun m hm => ?_
  · split
    · refine gives_bind (gives_size _) fun sz _ => ?_
      split
      · trivial
      · refine gives_mono (gives_mat (s := List.replicate v.length 1) ?_ hm.2) fun m h => ⟨h.1, by rw [h.2]; simp⟩
        intro h
        have := congrArg List.length h
        simp only [List.length_replicate, List.length_nil] at this
        omega
    · exact ⟨hm, by omega⟩
  · obtain ⟨hm, hv⟩ := hm
    have hw := fullCounts_length hv
    dsimp only
    rw [show v ++ (m.shape.drop v.length).map (fun d : Nat => (d : Int)) = fullCounts v m.shape from rfl, axis_dim _ m.shape hw, count_eq1]
    generalize fullCounts v m.shape = w at hw
    have hle := (wrap64_le (vol (w.map Int.natAbs))).1
    generalize wrap64 (vol (w.map Int.natAbs)) = c at hle
    obtain ⟨t, h1, h2, s, h3, h4⟩ := take_loop fill hm.1 hw hle
    refine gives_guarded h3 ?_
    rw [h4]
    refine gives_mono (gives_mat ?_ fun x hx => ?_) fun m h => h.1
    · intro h
      have := congrArg List.length h
      simp [hw] at this
      exact hm.1.rank this
    · obtain ⟨i, hi, rfl⟩ := List.getElem_of_mem hx
      have := h2 i (by omega)
      rw [List.getElem?_eq_getElem hi] at this
      split at this
      · rename_i c hc
        unfold Mat.at at this
        split at this
        · exact hm.2 _ (List.mem_of_getElem? this.symm)
        · cases this
      · cases this; exact hf

theorem gives_drop {fill : α} (hf : P fill) {m : Mat α} (hm : GoodM P m) (v : List Small) : Gives (GoodM P) (drop fill m v) := by
  unfold drop
  split
  · trivial
  · exact gives_bind (gives_allInts _ v) fun v _ => gives_take hf hm _

theorem takeVec_all {fill : α} (hf : P fill) (n : Int) {v : List α} (hv : ∀ x ∈ v, P x) : ∀ x ∈ takeVec fill n v, P x := by
  intro x hx
  unfold takeVec at hx
  dsimp only at hx
  have hrep : ∀ k, x ∈ List.replicate k fill → P x := fun k h => by rw [(List.mem_replicate.1 h).2]; exact hf
  split at hx
  · split at hx
    · rcases List.mem_append.1 hx with h | h
      · exact hrep _ h
      · exact hv x h
    · exact hv x (List.mem_of_mem_drop hx)
  · split at hx
    · cases hx
    · split at hx
      · rcases List.mem_append.1 hx with h | h
        · exact hv x h
        · exact hrep _ h
      · exact hv x (List.mem_of_mem_take hx)

theorem dropVec_all (n : Int) {v : List α} (hv : ∀ x ∈ v, P x) : ∀ x ∈ dropVec n v, P x := by
  intro x hx
  unfold dropVec at hx
  repeat' split at hx
  all_goals first
    | cases hx; done
    | exact hv x hx
    | exact hv x (List.mem_of_mem_take hx)
    | exact hv x (List.mem_of_mem_drop hx)

theorem good_atLeastVec {v : V α} (hv : GoodV P v) : GoodV P v.atLeastVec := by
  cases v with
  | elem x => intro y hy; rw [List.mem_singleton.1 hy]; exact hv
  | vec l => exact hv
  | mat m => exact hv

theorem gives_takeOp {fill : List α → α} (hf : ∀ l, (∀ x ∈ l, P x) → P (fill l)) {u : List Small} {v : V α} (hv : GoodV P v) : Gives (GoodV P) (takeOp fill u v) := by
  unfold takeOp
  have h := good_atLeastVec hv
  split
  · rename_i x e; cases v <;> cases e
  · rename_i l e
    rw [e] at h
    split
    · refine gives_bind (gives_mat (s := [l.length]) (by simp) h) fun m hm => gives_bind (gives_take (hf _ h) hm.1 u) fun m hm => hm
    · exact gives_bind (gives_intAt (by omega)) fun n _ => takeVec_all (hf _ h) n h
  · rename_i m e
    rw [e] at h
    exact gives_bind (gives_take (hf _ h.2) h u) fun m hm => hm

theorem gives_dropOp {fill : List α → α} (hf : ∀ l, (∀ x ∈ l, P x) → P (fill l)) {u : List Small} {v : V α} (hv : GoodV P v) : Gives (GoodV P) (dropOp fill u v) := by
  unfold dropOp
  have h := good_atLeastVec hv
  split
  · rename_i x e; cases v <;> cases e
  · rename_i l e
    rw [e] at h
    split
    · trivial
    · exact gives_bind (gives_intAt (by omega)) fun n _ => dropVec_all n h
  · rename_i m e
    rw [e] at h
    exact gives_bind (gives_drop (hf _ h.2) h u) fun m hm => hm

end Verif.Safe
