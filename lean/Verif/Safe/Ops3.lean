import Verif.Safe.Ops2
import Verif.Arr.SelModel
import Verif.Arr.CatModel
import Verif.Arr.CatLemmas

/-!
# Selection, partition and catenation end
-/

namespace Verif.Safe
open Verif.Arr
variable {α : Type} {P : α → Prop}

/-! ## sel -/

theorem all_append_replicate {r : List α} (hr : ∀ x ∈ r, P x) (n : Nat) {y : α} (hy : P y) : ∀ x ∈ r ++ List.replicate n y, P x := by
  intro x hx
  rcases List.mem_append.1 hx with h | h
  · exact hr x h
  · rw [(List.mem_replicate.1 h).2]; exact hy

theorem gives_selVec {z : α → α} (hz : ∀ x, P x → P (z x)) {v : List α} (hv : ∀ x ∈ v, P x) {n : List Small} {c : Nat} (hc : 0 < v.length → 0 < c) :
    Gives (fun l => ∀ x ∈ l, P x) (selVec z v n c) := by
  unfold selVec
  split
  · trivial
  refine gives_loop (fun l => ∀ x ∈ l, P x) _ (by simp) fun i hi r hr => ?_
  have hi := List.mem_range.1 hi
  have := hc (by omega)
  refine gives_bind (gives_intAt (Nat.mod_lt _ (by omega))) fun count _ => gives_bind (gives_vAt hv hi) fun x hx => ?_
  show ∀ y ∈ _, P y
  split
  · exact all_append_replicate hr _ (hz x hx)
  · exact all_append_replicate hr _ hx

theorem gives_selMat {z : α → α} (hz : ∀ x, P x → P (z x)) {c : Mat Small} {m : Mat α} (hm : GoodM P m) (h0 : 0 < vol (m.shape.take (m.shape.length - 1))) :
    Gives (GoodM P) (selMat z c m) := by
  unfold selMat
  split
  · trivial
  refine gives_bind (gives_last hm.1.rank) fun d hd => gives_bind (gives_selVec hz hm.2 fun h => ?_) fun l hl => ?_
  · exact pos_of_data hm.1 h (by rw [hd]; simp)
  refine gives_bind (gives_size _) fun rows hr => ?_
  rw [if_neg (by omega)]
  exact gives_mono (gives_mat (by simp) hl) fun m h => h.1

theorem lead_pos [Wide α] {v : V α} (hv : GoodV P v) (h0 : ∀ m, v = .mat m → 0 < m.data.length) {m : Mat α} (h : v.toMat = .ok m) :
    0 < vol (m.shape.take (m.shape.length - 1)) := by
  cases v with
  | elem x =>
    have := gives_newMatrix (if Wide.wide x then [1, 1] else [1]) [x]
    rw [show newMatrix (if Wide.wide x then [1, 1] else [1]) [x] = .ok m from h] at this
    rw [this.1]
    split <;> decide
  | vec l =>
    have := gives_newMatrix [l.length] l
    rw [show newMatrix [l.length] l = .ok m from h] at this
    rw [this.1]
    exact Nat.one_pos
  | mat m' =>
    cases h
    have h := h0 m rfl
    obtain ⟨t, d, ht⟩ := split_snoc hv.1.rank
    rw [hv.1.len, ht, vol_snoc] at h
    rw [ht]
    simp
    exact Nat.pos_of_mul_pos_right h

theorem gives_toMat' [Wide α] {v : V α} (hv : GoodV P v) : Gives (fun m => GoodM P m ∧ v.toMat = .ok m) v.toMat := by
  have := gives_toMat hv
  cases h : v.toMat with
  | ok m => rw [h] at this; exact ⟨this.1, rfl⟩
  | err _ => trivial
  | crash => rw [h] at this; exact this
  | hang => rw [h] at this; exact this

theorem gives_toMat0 {β : Type} [Wide β] (v : V β) : Gives (fun _ => True) v.toMat := by
  cases v with
  | mat m => trivial
  | elem x => exact gives_mono (gives_newMatrix (if Wide.wide x then [1, 1] else [1]) [x]) fun _ _ => trivial
  | vec l => exact gives_mono (gives_newMatrix [l.length] l) fun _ _ => trivial

theorem gives_toVec0 {β : Type} (v : V β) : Gives (fun _ => True) v.toVec := by cases v <;> trivial

theorem gives_sel [Wide α] {z : α → α} (hz : ∀ x, P x → P (z x)) (u : V Small) {v : V α} (hv : GoodV P v) (h0 : ∀ m, v = .mat m → 0 < m.data.length) :
    Gives (GoodV P) (sel z u v) := by
  unfold sel
  split
  · exact gives_bind (gives_toMat0 u) fun c _ => gives_bind (gives_toMat' hv) fun m hm => gives_bind (gives_selMat hz hm.1 (lead_pos hv h0 hm.2)) fun r hr => hr
  · exact gives_bind (gives_toVec0 u) fun c _ => gives_bind (gives_toVec hv) fun l hl => gives_bind (gives_selVec hz hl fun h => h) fun r hr => hr

/-! ## fill -/

/-- The number of positive counts. -/
def posCount : List Small → Nat
  | [] => 0
  | some y :: r => (if 0 < y then 1 else 0) + posCount r
  | none :: r => posCount r

theorem gives_fillCount : ∀ (i : List Small) (s : Nat × Nat), Gives (fun r => r.2 = s.2 + posCount i ∧ none ∉ i) (fillCount i s)
  | [], s => ⟨rfl, by simp⟩
  | none :: _, _ => trivial
  | some y :: r, s => by
    unfold fillCount
    split
    · refine gives_mono (gives_fillCount r _) fun p hp => ⟨?_, by simpa using hp.2⟩
      rw [hp.1]; simp only [posCount]; split <;> omega
    split
    · refine gives_mono (gives_fillCount r _) fun p hp => ⟨?_, by simpa using hp.2⟩
      rw [hp.1]; simp only [posCount]; split <;> omega
    · refine gives_mono (gives_fillCount r _) fun p hp => ⟨?_, by simpa using hp.2⟩
      rw [hp.1]; simp only [posCount]; split <;> omega

theorem gives_fillLoop {zero : α} (hz : P zero) {j : List α} (hj : ∀ x ∈ j, P x) : ∀ (i : List Small) (s : List α × Nat), none ∉ i → (∀ x ∈ s.1, P x) → s.2 + posCount i ≤ j.length →
    Gives (fun r => ∀ x ∈ r.1, P x) (loopOver (fillStep zero j) i s)
  | [], s, _, hs, _ => hs
  | none :: _, _, h, _, _ => by simp at h
  | some y :: r, s, h, hs, hc => by
    have hr : none ∉ r := by simpa using h
    refine gives_bind (P := fun t => (∀ x ∈ t.1, P x) ∧ t.2 + posCount r ≤ j.length) ?_ fun t ht => gives_fillLoop hz hj r t hr ht.1 ht.2
    simp only [posCount] at hc
    unfold fillStep
    dsimp only
    split
    · exact ⟨all_append_replicate hs 1 hz, by show s.2 + _ ≤ _; omega⟩
    split
    · exact ⟨all_append_replicate hs _ hz, by show s.2 + _ ≤ _; omega⟩
    · rw [if_pos (by omega)] at hc
      exact gives_bind (gives_vAt hj (by omega)) fun x hx => ⟨all_append_replicate hs _ hx, by show s.2 + 1 + _ ≤ _; omega⟩

theorem gives_fill {isChar : α → Bool} {blank zero : α} (hb : P blank) (hz : P zero) (u : V Small) {v : V α} (hv : GoodV P v) : Gives (GoodV P) (fill isChar blank zero u v) := by
  unfold fill
  split
  · trivial
  refine gives_bind (gives_toVec0 u) fun i _ => gives_bind (gives_toVec hv) fun j hj => gives_bind (P := fun l => ∀ x ∈ l, P x) ?_ fun r hr => hr
  unfold fillVec
  split
  · exact fun x hx => by cases hx
  refine gives_bind (gives_fillCount i _) fun s hs => ?_
  split
  · trivial
  rename_i h1
  split
  · trivial
  refine gives_bind (gives_fillLoop (P := P) ?_ hj i _ hs.2 (by simp) ?_) fun r hr => hr
  · split
    · exact hb
    · exact hz
  · have := hs.1
    simp only at this ⊢
    omega

/-! ## part -/

theorem gives_doPartition {v : List α} (hv : ∀ x ∈ v, P x) {score : List Small} (hs : 0 < v.length → 0 < score.length) :
    Gives (fun r => ∀ l ∈ r.1, ∀ x ∈ l, P x) (doPartition v score) := by
  unfold doPartition
  refine gives_bind (gives_loop (fun s : PartSt α => (∀ x ∈ s.accum, P x) ∧ ∀ l ∈ s.result, ∀ x ∈ l, P x) _ ⟨by simp, by simp⟩ fun i hi s h => ?_) fun s h => ?_
  · have hi := List.mem_range.1 hi
    unfold partStep
    refine gives_bind (gives_uintAt (Nat.mod_lt _ (hs (by omega)))) fun sc _ => ?_
    refine gives_bind (P := fun ar : List α × List (List α) => (∀ x ∈ ar.1, P x) ∧ ∀ l ∈ ar.2, ∀ x ∈ l, P x) ?_ fun ar har => har
    split
    · refine gives_bind (gives_vAt hv hi) fun x hx => ?_
      have hone : ∀ y ∈ [x], P y := fun y hy => by rw [List.mem_singleton.1 hy]; exact hx
      split
      · refine ⟨hone, fun l hl => ?_⟩
        rcases List.mem_append.1 hl with h' | h'
        · exact h.2 l h'
        · rw [List.mem_singleton.1 h']; exact h.1
      · refine ⟨fun y hy => ?_, h.2⟩
        rcases List.mem_append.1 hy with h' | h'
        · exact h.1 y h'
        · exact hone y h'
    · exact h
  · show ∀ l ∈ _, _
    intro l hl
    dsimp only at hl
    split at hl
    · rcases List.mem_append.1 hl with h' | h'
      · exact h.2 l h'
      · rw [List.mem_singleton.1 h']; exact h.1
    · exact h.2 l hl

theorem gives_prodCheckZ : ∀ (s : List Int) (n : Int), Gives (fun r => r = n * s.prod) (prodCheckZ n s)
  | [], n => by simp [prodCheckZ, Gives]
  | d :: ds, n => by
    unfold prodCheckZ
    split
    · trivial
    · refine gives_mono (gives_prodCheckZ ds (n * d)) fun r hr => ?_
      rw [hr, List.prod_cons, Int.mul_assoc]

theorem gives_newMatrixZ {β : Type} {s : List Int} (hs : s ≠ []) (d : List β) : Gives (fun m => m.1 = s ∧ m.2 = d ∧ s.prod = d.length) (newMatrixZ s d) := by
  cases s with
  | nil => exact (hs rfl).elim
  | cons x xs =>
    unfold newMatrixZ
    refine gives_bind (gives_prodCheckZ xs x) fun n hn => ?_
    split
    · trivial
    · rename_i h
      refine ⟨rfl, rfl, ?_⟩
      rw [List.prod_cons, ← hn]
      exact Decidable.not_not.1 h

theorem prod_cast (s : List Nat) : (s.map (fun d : Nat => (d : Int))).prod = (vol s : Int) := by
  induction s with
  | nil => rfl
  | cons d s ih => rw [List.map_cons, List.prod_cons, ih]; simp [vol]

/-- The result of `part` is a vector or a matrix as it should be. -/
structure GoodPart (P : α → Prop) (r : List Int × List (List α)) : Prop where
  rank : r.1 ≠ []
  nonneg : ∀ d ∈ r.1, 0 ≤ d
  len : r.1.prod = r.2.length
  all : ∀ l ∈ r.2, ∀ x ∈ l, P x

theorem gives_partMat {c : Mat Small} (hc : c.WF) {m : Mat α} (hm : GoodM P m) (h0 : 0 < vol (m.shape.take (m.shape.length - 1))) : Gives (GoodPart P) (partMat c m) := by
  unfold partMat
  split
  · trivial
  rename_i hr
  have hr : c.shape.length = 1 := Decidable.not_not.1 hr
  refine gives_bind (gives_last hm.1.rank) fun d hd => gives_bind (gives_first hc.rank) fun n0 hn0 => ?_
  refine gives_bind (P := fun _ => True) ?_ fun score _ => ?_
  · split
    · rename_i h1
      refine gives_bind (gives_uintAt ?_) fun n _ => trivial
      have : c.shape.drop 1 = [] := by
        apply List.eq_nil_of_length_eq_zero; simp; omega
      rw [this, h1] at hn0
      rw [hc.len, hn0]
      exact Nat.one_pos
    · trivial
  split
  · trivial
  rename_i h1
  have h1 : score.length = d := Decidable.not_not.1 h1
  refine gives_bind (gives_doPartition hm.2 fun h => ?_) fun rd hrd => ?_
  · rw [h1]; exact pos_of_data hm.1 h (by rw [hd]; simp)
  refine gives_mono (gives_newMatrixZ (by simp) rd.1) fun r hr => ?_
  obtain ⟨e1, e2, e3⟩ := hr
  refine ⟨by rw [e1]; simp, ?_, by rw [e1, e3, e2], by rw [e2]; exact hrd⟩
  rw [e1]
  intro x hx
  rcases List.mem_append.1 hx with h | h
  · obtain ⟨y, _, rfl⟩ := List.mem_map.1 h
    exact Int.natCast_nonneg y
  · rw [List.mem_singleton.1 h]
    rw [List.prod_append, prod_cast, List.prod_singleton] at e3
    have h3 : (0 : Int) < vol (m.shape.take (m.shape.length - 1)) := by exact_mod_cast h0
    rcases Int.lt_or_le rd.2 0 with h | h
    · have := Int.mul_neg_of_pos_of_neg h3 h
      omega
    · exact h

theorem gives_part [Wide α] {u : V Small} (hu : GoodV (fun _ => True) u) {v : V α} (hv : GoodV P v) (h0 : ∀ m, v = .mat m → 0 < m.data.length) : Gives (GoodPart P) (part u v) := by
  unfold part
  split
  · exact gives_bind (gives_toMat hu) fun c hc => gives_bind (gives_toMat' hv) fun m hm => gives_partMat hc.1.1 hm.1 (lead_pos hv h0 hm.2)
  · refine gives_bind (gives_toVec0 u) fun c _ => gives_bind (gives_toVec hv) fun l hl => ?_
    refine gives_bind (P := fun r => ∀ l ∈ r, ∀ x ∈ l, P x) ?_ fun r hr => ⟨by simp, by simp, by simp, hr⟩
    unfold partVec
    split
    · trivial
    · rename_i h
      exact gives_bind (gives_doPartition hl fun h' => by omega) fun r hr => hr

/-! ## Catenation -/

theorem gives_copyRun {src : List α} (hs : ∀ x ∈ src, P x) {N off dst n : Nat} (h1 : n = 0 ∨ off + n ≤ src.length) (h2 : dst + n ≤ N) {D : Nat → Prop} {e : Ed α} (he : Fl P N D e) :
    Gives (Fl P N fun j => D j ∨ dst ≤ j ∧ j < dst + n) (copyRun src off dst n e) := by
  refine gives_mono (fl_loop (fun k j => j = dst + k) (List.range n) he fun k hk D e he => ?_) fun e he => fl_mono he fun i _ hi => ?_
  · have := List.mem_range.1 hk
    exact gives_bind (gives_vAt hs (by omega)) fun x hx => fl_put he (by omega) hx
  · exact hi.imp id fun h => ⟨i - dst, List.mem_range.2 (by omega), by omega⟩

theorem gives_catRows {lead : List Nat} {last : Nat} {x y : List α} (hx : ∀ a ∈ x, P a) (hy : ∀ a ∈ y, P a) {len nL aL nR aR nrows : Nat}
    (h1 : ∀ r, r < nrows → nL = 0 ∨ r * aL + nL ≤ x.length) (h2 : ∀ r, r < nrows → nR = 0 ∨ r * aR + nR ≤ y.length) (h3 : len = nrows * (nL + nR)) :
    Gives (GoodM P) (catRows lead last x y len nL aL nR aR nrows) := by
  unfold catRows
  refine gives_bind (P := fun e => Fl P len (fun _ => True) e) ?_ fun e he => gives_bind (fl_publish he fun _ _ => trivial) fun d hd => gives_mono (gives_mat (by simp) hd.2) fun m h => h.1
  unfold copyElems
  refine gives_bind (gives_range0 (fun k (s : Nat × Nat × Nat × Ed α) => s.1 = k * (nL + nR) ∧ s.2.1 = k * aL ∧ s.2.2.1 = k * aR ∧ Fl P len (fun j => j < k * (nL + nR)) s.2.2.2)
    nrows ⟨by simp, by simp, by simp, fl_mono fl_new fun i _ h => by simp at h⟩ fun k s hk h => ?_) fun s hs => fl_mono hs.2.2.2 fun i hi _ => by omega
  obtain ⟨e1, e2, e3, he⟩ := h
  have hb : (k + 1) * (nL + nR) ≤ nrows * (nL + nR) := Nat.mul_le_mul_right _ hk
  rw [Nat.succ_mul] at hb
  refine gives_bind (gives_copyRun hx (by rw [e2]; exact h1 k hk) (by omega) he) fun e he => gives_bind (gives_copyRun hy (by rw [e3]; exact h2 k hk) (by omega) he) fun e he => ?_
  refine ⟨?_, ?_, ?_, fl_mono he fun i _ hi => ?_⟩
  · rw [Nat.succ_mul]; show s.1 + nL + nR = _; omega
  · rw [Nat.succ_mul]; show s.2.1 + aL = _; omega
  · rw [Nat.succ_mul]; show s.2.2.1 + aR = _; omega
  · rw [Nat.succ_mul] at hi
    by_cases c1 : i < k * (nL + nR)
    · exact .inl (.inl c1)
    · by_cases c2 : i < s.1 + nL
      · exact .inl (.inr (by omega))
      · exact .inr (by omega)

theorem gives_catenate {x y : Mat α} (hx : GoodM P x) (hy : GoodM P y) (hx0 : 2 ≤ x.shape.length → 0 < x.data.length) (hy0 : 2 ≤ y.shape.length → 0 < y.data.length) :
    Gives (GoodM P) (catenate x y) := by
  have rowsle : ∀ {n r d : Nat}, r < n → r * d + d ≤ n * d := fun {n r d} h => by rw [← Nat.succ_mul]; exact Nat.mul_le_mul_right _ h
  unfold catenate
  split
  · trivial
  refine gives_bind (gives_last hx.1.rank) fun xl hxl => gives_bind (gives_last hy.1.rank) fun yl hyl => ?_
  extract_lets xs ys
  have lx : x.data.length = vol xs * xl := by rw [hx.1.len, hxl, vol_snoc]
  have ly : y.data.length = vol ys * yl := by rw [hy.1.len, hyl, vol_snoc]
  have hxs : xs.length = x.shape.length - 1 := by simp [xs]
  have hys : ys.length = y.shape.length - 1 := by simp [ys]
  clear_value xs ys
  split
  · rename_i h
    refine gives_bind (gives_size _) fun nrows hn => gives_catRows hx.2 hy.2 (fun r hr => .inr ?_) (fun r hr => .inr ?_) ?_
    · rw [lx, ← hn]; exact rowsle hr
    · rw [ly, ← h.2, ← hn]; exact rowsle hr
    · rw [lx, ly, ← h.2, hn, Nat.mul_add]
  split
  · rename_i h
    refine gives_bind (gives_size _) fun nrows hn => gives_bind (gives_size _) fun n hn' => ?_
    have e : n = nrows := by rw [hn, hn', h.2]
    have hr2 : 0 < y.shape.length := List.length_pos_iff.2 hy.1.rank
    have hp : 0 < nrows := by
      have := hx0 (by omega)
      rw [lx, ← hn] at this
      exact Nat.pos_of_mul_pos_right this
    have ly' : y.data.length = nrows := by rw [hy.1.len, hn, h.2]
    rw [if_neg (by omega), e, Nat.div_self hp]
    refine gives_catRows hx.2 hy.2 (fun r hr => .inr ?_) (fun r hr => .inr (by omega)) ?_
    · rw [lx, ← hn]; exact rowsle hr
    · rw [lx, ← hn, ly', Nat.mul_add, Nat.mul_one]
  split
  · rename_i h
    refine gives_bind (gives_size _) fun nrows hn => gives_bind (gives_size _) fun n hn' => ?_
    have e : n = nrows := by rw [hn, hn', h.2]
    have hr2 : 0 < x.shape.length := List.length_pos_iff.2 hx.1.rank
    have hp : 0 < nrows := by
      have := hy0 (by omega)
      rw [ly, ← hn] at this
      exact Nat.pos_of_mul_pos_right this
    have lx' : x.data.length = nrows := by rw [hx.1.len, hn, h.2]
    rw [if_neg (by omega), e, Nat.div_self hp]
    refine gives_catRows hx.2 hy.2 (fun r hr => .inr (by omega)) (fun r hr => .inr ?_) ?_
    · rw [ly, ← hn]; exact rowsle hr
    · rw [ly, ← hn, lx', Nat.mul_add, Nat.mul_one, Nat.add_comm]
  split
  · rename_i h
    have lx' : x.data.length = 1 := by
      have : x.shape = [1] := by
        match hs : x.shape, h.1, h.2.1 with
        | [a], _, h2 => simp at h2; rw [h2]
      rw [hx.1.len, this]; rfl
    refine gives_bind (gives_size _) fun nrows hn => gives_catRows hx.2 hy.2 (fun r hr => .inr (by omega)) (fun r hr => .inr ?_) ?_
    · rw [ly, ← hn]; exact rowsle hr
    · rw [ly, ← hn, Nat.mul_add, Nat.mul_one, Nat.add_comm]
  split
  · rename_i h
    have ly' : y.data.length = 1 := by
      have : y.shape = [1] := by
        match hs : y.shape, h.2.1, h.2.2 with
        | [a], _, h2 => simp at h2; rw [h2]
      rw [hy.1.len, this]; rfl
    refine gives_bind (gives_size _) fun nrows hn => gives_catRows hx.2 hy.2 (fun r hr => .inr ?_) (fun r hr => .inr (by omega)) ?_
    · rw [lx, ← hn]; exact rowsle hr
    · rw [lx, ← hn, Nat.mul_add, Nat.mul_one]
  · trivial

theorem gives_catenateFirst {x y : Mat α} (hx : GoodM P x) (hy : GoodM P y) : Gives (GoodM P) (catenateFirst x y) := by
  have app : ∀ {a b : List α}, (∀ p ∈ a, P p) → (∀ p ∈ b, P p) → ∀ p ∈ a ++ b, P p := fun ha hb p hp => (List.mem_append.1 hp).elim (ha p) (hb p)
  have rep : ∀ (n : Nat) {a : α}, P a → ∀ p ∈ List.replicate n a, P p := fun n a ha p hp => by rw [(List.mem_replicate.1 hp).2]; exact ha
  have mk : ∀ {a : Nat} {s : List Nat} {d : List α}, (∀ p ∈ d, P p) → Gives (GoodM P) (newMatrix (a :: s) d) := fun h => gives_mono (gives_mat (by simp) h) fun m h => h.1
  unfold catenateFirst
  split
  · trivial
  refine gives_bind (gives_first hx.1.rank) fun x0 hx0 => gives_bind (gives_first hy.1.rank) fun y0 hy0 => ?_
  split
  · exact mk (app hx.2 hy.2)
  split
  · exact mk (app hx.2 hy.2)
  split
  · exact mk (app hx.2 hy.2)
  split
  · rename_i h
    have : x.shape = [1] := by
      match hs : x.shape, h.1, hx0 with
      | [a], _, h2 => simp at h2; rw [h2, h.2.1]
    refine gives_bind (gives_vAt hx.2 (by rw [hx.1.len, this]; exact Nat.one_pos)) fun a ha => gives_bind (gives_size _) fun n _ => mk (app (rep n ha) hy.2)
  split
  · rename_i h
    have : y.shape = [1] := by
      match hs : y.shape, h.2.1, hy0 with
      | [a], _, h2 => simp at h2; rw [h2, h.2.2]
    refine gives_bind (gives_size _) fun n _ => gives_bind (gives_vAt hy.2 (by rw [hy.1.len, this]; exact Nat.one_pos)) fun a ha => mk (app hx.2 (rep n ha))
  · trivial

theorem toMat_solid [Wide α] {v : V α} (h0 : ∀ m, v = .mat m → 0 < m.data.length) {m : Mat α} (h : v.toMat = .ok m) : 2 ≤ m.shape.length → 0 < m.data.length := by
  cases v with
  | elem x =>
    have := gives_newMatrix (if Wide.wide x then [1, 1] else [1]) [x]
    rw [show newMatrix (if Wide.wide x then [1, 1] else [1]) [x] = .ok m from h] at this
    rw [this.2.1]
    exact fun _ => Nat.one_pos
  | vec l =>
    have := gives_newMatrix [l.length] l
    rw [show newMatrix [l.length] l = .ok m from h] at this
    rw [this.1]
    intro h; simp at h
  | mat m' => cases h; exact fun _ => h0 m rfl

theorem gives_catOp [Wide α] {u v : V α} (hu : GoodV P u) (hv : GoodV P v) (hu0 : ∀ m, u = .mat m → 0 < m.data.length) (hv0 : ∀ m, v = .mat m → 0 < m.data.length) :
    Gives (GoodV P) (catOp u v) := by
  unfold catOp
  split
  · exact gives_bind (gives_toMat' hu) fun x hx => gives_bind (gives_toMat' hv) fun y hy =>
      gives_bind (gives_catenate hx.1 hy.1 (toMat_solid hu0 hx.2) (toMat_solid hv0 hy.2)) fun r hr => hr
  · exact gives_bind (gives_toVec hu) fun x hx => gives_bind (gives_toVec hv) fun y hy => fun p hp => (List.mem_append.1 hp).elim (hx p) (hy p)

theorem gives_catFirstOp [Wide α] {u v : V α} (hu : GoodV P u) (hv : GoodV P v) : Gives (GoodV P) (catFirstOp u v) := by
  unfold catFirstOp
  split
  · exact gives_bind (gives_toMat' hu) fun x hx => gives_bind (gives_toMat' hv) fun y hy => gives_bind (gives_catenateFirst hx.1 hy.1) fun r hr => hr
  · exact gives_bind (gives_toVec hu) fun x hx => gives_bind (gives_toVec hv) fun y hy => fun p hp => (List.mem_append.1 hp).elim (hx p) (hy p)

end Verif.Safe
