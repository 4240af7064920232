import Verif.Safe.Ops3
import Verif.Arr.WhereModel
import Verif.Arr.MixModel
import Verif.Arr.InvModel

/-!
# `iota`, `where`, `split`, `mix` and the inverse end
-/

namespace Verif.Safe
open Verif.Arr
variable {α : Type} {P : α → Prop}

/-! ## iota and where -/

/-- Any value made of integers, of which the matrices are as they should be. -/
def GoodI : V (V Int) → Prop := GoodV (GoodV fun _ => True)

theorem gives_iotaList (origin : Nat) (n : Int) : Gives GoodI (iotaList origin n) := by
  unfold iotaList
  split
  · trivial
  · intro x hx
    obtain ⟨i, _, rfl⟩ := List.mem_map.1 hx
    trivial

theorem gives_iotaShape (v : List Small) : Gives (fun s => s.1.length = v.length) (iotaShape v) := by
  have gen : ∀ (v : List Small) (s : List Nat × Nat), Gives (fun t => t.1.length = s.1.length + v.length) (loopOver (fun x (s : List Nat × Nat) =>
    match x with
    | none => .err "bad coordinate in iota"
    | some c =>
      if c < 0 ∨ (maxInt : Int) < c then .err "bad coordinate in iota" else
      if s.2 * c.toNat > maxInt then .err "shape too large in iota" else .ok (s.1 ++ [c.toNat], s.2 * c.toNat)) v s) := by
    intro v
    induction v with
    | nil => intro s; rfl
    | cons x v ih =>
      intro s
      refine gives_bind (P := fun t => t.1.length = s.1.length + 1) ?_ fun t ht => gives_mono (ih t) fun r hr => by rw [hr, ht, List.length_cons]; omega
      cases x with
      | none => trivial
      | some c =>
        dsimp only
        split
        · trivial
        split
        · trivial
        · show (s.1 ++ [c.toNat]).length = _
          simp
  have := gen v ([], 1)
  exact gives_mono (by unfold iotaShape; exact this) fun r hr => by simpa using hr

theorem gives_iotaVec (origin : Nat) (v : List Small) : Gives GoodI (iotaVec origin v) := by
  unfold iotaVec
  split
  · intro x hx; cases hx
  split
  · exact gives_bind (gives_intAt (by omega)) fun n _ => gives_iotaList origin n
  refine gives_bind (gives_iotaShape v) fun s hs => ?_
  refine gives_bind (gives_range0 (fun k (t : List Int × Ed (V Int)) => Fl (GoodV fun _ => True) s.2 (fun j => j < k) t.2) s.2 (fl_mono fl_new fun i _ h => by simp at h)
    fun k t hk h => ?_) fun t ht => ?_
  · exact gives_bind (fl_put h hk (fun _ _ => trivial)) fun e he => fl_mono he fun i _ hi => by omega
  · refine gives_bind (fl_publish ht fun i hi => hi) fun d hd => gives_matV ?_ hd.2
    intro h
    rw [h] at hs
    simp at hs
    omega

theorem gives_iotaOp (origin : Nat) (v : V Small) : Gives GoodI (iotaOp origin v) := by
  match v with
  | .elem (some n) => exact gives_iotaList origin n
  | .elem none => trivial
  | .vec l => exact gives_iotaVec origin l
  | .mat _ => trivial

theorem gives_whereOp (origin : Nat) (v : V Small) : Gives GoodI (whereOp origin v) := by
  cases v with
  | elem x => intro y hy; cases hy
  | vec l =>
    refine gives_bind (gives_loop (fun r : List (V Int) => ∀ x ∈ r, GoodV (fun _ => True) x) _ (by simp) fun i hi r hr => ?_) fun r hr => hr
    exact gives_bind (gives_uintAt (List.mem_range.1 hi)) fun e _ => all_append_replicate hr _ trivial
  | mat m =>
    refine gives_bind (P := fun r : List (V Int) => ∀ x ∈ r, GoodV (fun _ => True) x) ?_ fun r hr => hr
    refine gives_bind (gives_loop (fun s : List Nat × List (V Int) => ∀ x ∈ s.2, GoodV (fun _ => True) x) _ (by simp) fun i hi s hs => ?_) fun s hs => hs
    exact gives_bind (gives_uintAt (List.mem_range.1 hi)) fun e _ => all_append_replicate hs _ (fun _ _ => trivial)

/-! ## split and mix -/

theorem good_shrink {m : Mat α} (hm : GoodM P m) : GoodV P m.shrink := by
  unfold Mat.shrink
  split
  · exact hm.2
  · exact hm

theorem gives_split {m : Mat α} (hm : GoodM P m) : Gives (GoodV (GoodV P)) (split m) := by
  unfold split
  split
  · trivial
  rename_i h2
  extract_lets shape
  refine gives_bind (gives_last hm.1.rank) fun n hn => gives_bind (gives_size _) fun sz hsz => ?_
  have hl : m.data.length = sz * n := by rw [hm.1.len, hn, vol_snoc, hsz]
  refine gives_bind (gives_range0 (fun k (e : Ed (V α)) => Fl (GoodV P) sz (fun j => j < k) e) sz (fl_mono fl_new fun i _ h => by simp at h) fun k e hk he => ?_) fun e he => ?_
  · refine gives_bind (P := fun r : List α => ∀ x ∈ r, P x) ?_ fun row hrow => ?_
    · unfold sliceV
      rw [if_pos ⟨Nat.mul_le_mul_right _ (by omega), by rw [hl]; exact Nat.mul_le_mul_right _ hk⟩]
      exact fun x hx => hm.2 x (List.mem_of_mem_drop (List.mem_of_mem_take hx))
    · exact gives_mono (fl_put (P := GoodV P) (x := .vec row) he hk hrow) fun e he => fl_mono he fun i _ hi => by omega
  · refine gives_bind (fl_publish he fun i hi => hi) fun d hd => gives_bind (gives_mat (P := GoodV P) ?_ hd.2) fun r hr => good_shrink hr.1
    intro h
    have := congrArg List.length h
    simp [shape] at this
    omega

theorem allScalars_good : ∀ {l : List (V α)} {r : List α}, (∀ x ∈ l, GoodV P x) → allScalars l = some r → r.length = l.length ∧ ∀ x ∈ r, P x
  | [], r, _, h => by cases h; simp
  | .elem x :: l, r, hl, h => by
    simp only [allScalars, Option.map_eq_some_iff] at h
    obtain ⟨t, ht, rfl⟩ := h
    obtain ⟨h1, h2⟩ := allScalars_good (fun y hy => hl y (List.mem_cons_of_mem _ hy)) ht
    refine ⟨by simp [h1], fun y hy => ?_⟩
    rcases List.mem_cons.1 hy with rfl | hy
    · exact hl (.elem y) (List.mem_cons_self ..)
    · exact h2 y hy
  | .vec _ :: _, _, _, h => by cases h
  | .mat _ :: _, _, _, h => by cases h

theorem gives_maxInto : ∀ (a d : List Nat), d.length ≤ a.length → Gives (fun r => r.length = a.length) (maxInto a d)
  | _, [], _ => by unfold maxInto; exact rfl
  | a :: as, d :: ds, h => gives_bind (gives_maxInto as ds (by simpa using h)) fun r hr => by simp [Gives, hr]
  | [], _ :: _, h => by simp at h

theorem gives_mixStep (e : V α) {s : List Nat} (hs : 0 < s.length) : Gives (fun r => s.length ≤ r.length) (mixStep e s) := by
  unfold mixStep
  cases e with
  | elem x => refine gives_bind (gives_vAt_eq (by omega)) fun x _ => ?_
              show s.length ≤ _
              split <;> simp
  | vec l => refine gives_bind (gives_vAt_eq (by omega)) fun x _ => ?_
             show s.length ≤ _
             split <;> simp
  | mat m => exact gives_mono (gives_maxInto _ _ (by simp; omega)) fun r hr => by rw [hr]; simp

theorem gives_mixOne {fill : List α → α} (hf : ∀ l, (∀ x ∈ l, P x) → P (fill l)) {s : List Nat} (hs : 0 < s.length) {e : V α} (he : GoodV P e) : Gives (fun l => ∀ x ∈ l, P x) (mixOne fill s e) := by
  have fin : ∀ {sh : List Nat} {d : List α}, sh ≠ [] → (∀ x ∈ d, P x) →
      Gives (fun l => ∀ x ∈ l, P x) ((newMatrix sh d).bind fun m => (take (fill m.data) m (s.map fun d : Nat => some (d : Int))).bind fun r => .ok r.data) := fun h hd =>
    gives_bind (gives_mat h hd) fun m hm => gives_bind (gives_take (hf _ hm.1.2) hm.1 _) fun r hr => hr.2
  have hne : List.replicate s.length 1 ≠ [] := by
    intro h; have := congrArg List.length h; simp at this; rw [this] at hs; simp at hs
  unfold mixOne
  cases e with
  | elem x => exact fin hne fun y hy => by rw [List.mem_singleton.1 hy]; exact he
  | vec l => exact fin (by intro h; have := congrArg List.length h; simp at this; rw [this] at hs; simp at hs) he
  | mat m =>
    dsimp only
    split
    · exact he.2
    · exact fin (fun h => he.1.rank (List.append_eq_nil_iff.1 h).2) he.2

theorem gives_mix {fill : List α → α} (hf : ∀ l, (∀ x ∈ l, P x) → P (fill l)) {m : Mat (V α)} (hm : GoodM (GoodV P) m) : Gives (GoodM P) (mix fill m) := by
  unfold mix
  split
  · rename_i l hl
    obtain ⟨h1, h2⟩ := allScalars_good hm.2 hl
    exact ⟨⟨hm.1.rank, by rw [h1]; exact hm.1.len⟩, h2⟩
  · refine gives_bind (gives_loopOver (fun s : List Nat => 0 < s.length) m.data (by simp) fun e he s hs => gives_mono (gives_mixStep e hs) fun r hr => by omega) fun s hs => ?_
    refine gives_bind (gives_loopOver (fun d : List α => ∀ x ∈ d, P x) m.data (by simp) fun e he d hd => ?_) fun d hd => ?_
    · exact gives_bind (gives_mixOne hf hs (hm.2 e he)) fun x hx => fun y hy => (List.mem_append.1 hy).elim (hd y) (hx y)
    · exact gives_mono (gives_mat (fun h => hm.1.rank (List.append_eq_nil_iff.1 h).1) hd) fun r hr => hr.1

theorem gives_mixOp {fill : List α → α} (hf : ∀ l, (∀ x ∈ l, P x) → P (fill l)) {v : V (V α)} (hv : GoodV (GoodV P) v) : Gives (GoodV P) (mixOp fill v) := by
  cases v with
  | elem _ => trivial
  | vec l => exact gives_bind (gives_mat (by simp) hv) fun m hm => gives_bind (gives_mix hf hm.1) fun r hr => good_shrink hr
  | mat m => exact gives_bind (gives_mix hf hv) fun r hr => hr

/-! ## The inverse -/

/-- The operators keep to good elements and end. -/
structure GoodOps (P : α → Prop) (o : Ops α) : Prop where
  one : P o.one
  zero : P o.zero
  recip : ∀ a, P a → Gives P (o.recip a)
  conj : ∀ a, P a → Gives P (o.conj a)
  add : ∀ a b, P a → P b → Gives P (o.add a b)
  mul : ∀ a b, P a → P b → Gives P (o.mul a b)
  sub : ∀ a b, P a → P b → Gives P (o.sub a b)
  div : ∀ a b, P a → P b → Gives P (o.div a b)

theorem gives_mapR {β : Type} {Q : β → Prop} {f : Nat → R β} : ∀ (ks : List Nat), (∀ k ∈ ks, Gives Q (f k)) → Gives (fun l => l.length = ks.length ∧ ∀ x ∈ l, Q x) (mapR f ks)
  | [], _ => ⟨rfl, by simp⟩
  | k :: ks, h => gives_bind (h k (List.mem_cons_self ..)) fun x hx => gives_bind (gives_mapR ks fun j hj => h j (List.mem_cons_of_mem _ hj)) fun l hl =>
    ⟨by simp [hl.1], fun y hy => by
      rcases List.mem_cons.1 hy with rfl | hy
      · exact hx
      · exact hl.2 y hy⟩

/-- A row of the double-wide matrix. -/
def GoodRow (P : α → Prop) (dim : Nat) (l : List α) : Prop := l.length = 2 * dim ∧ ∀ x ∈ l, P x

theorem gives_invTable {o : Ops α} (ho : GoodOps P o) {data : List α} (hd : ∀ x ∈ data, P x) {dim : Nat} (hl : dim * dim ≤ data.length) :
    Gives (fun t => t.length = dim ∧ ∀ l ∈ t, GoodRow P dim l) (invTable o data dim) := by
  refine gives_mono (gives_mapR (List.range dim) fun y hy => ?_) fun t ht => ⟨by rw [ht.1, List.length_range], ht.2⟩
  have hy := List.mem_range.1 hy
  refine gives_bind (gives_mapR (Q := P) (List.range dim) fun x hx => gives_vAt hd ?_) fun l hl => ?_
  · have := row_bound hy (List.mem_range.1 hx)
    omega
  · refine ⟨by simp [hl.1]; omega, fun x hx => ?_⟩
    rcases List.mem_append.1 hx with h | h
    · exact hl.2 x h
    · obtain ⟨i, _, rfl⟩ := List.mem_map.1 h
      split
      · exact ho.one
      · exact ho.zero

theorem gives_findRow {o : Ops α} {t : List (List α)} {dim x y : Nat} (ht : t.length = dim) (hr : ∀ l ∈ t, GoodRow P dim l) (hx : x < dim) : ∀ (rs : List Nat), (∀ r ∈ rs, r < dim) →
    Gives (fun o => ∀ r, o = some r → r < dim) (findRow o t x y rs)
  | [], _ => by intro r h; cases h
  | r :: rs, h => by
    have ih := gives_findRow (o := o) (y := y) ht hr hx rs fun r hr => h r (List.mem_cons_of_mem _ hr)
    unfold findRow
    split
    · exact ih
    refine gives_bind (gives_vAt hr (by rw [ht]; exact h r (List.mem_cons_self ..))) fun row hrow => gives_bind (gives_vAt hrow.2 (by rw [hrow.1]; omega)) fun v _ => ?_
    split
    · exact ih
    · intro r' h'; cases h'; exact h r (List.mem_cons_self ..)

theorem gives_invStep {o : Ops α} (ho : GoodOps P o) {t : List (List α)} {dim x y : Nat} (ht : t.length = dim) (hr : ∀ l ∈ t, GoodRow P dim l) (hx : x < dim) (hy : y < dim) :
    Gives (fun t => t.length = dim ∧ ∀ l ∈ t, GoodRow P dim l) (invStep o dim x y t) := by
  have hset : ∀ {row : List α}, GoodRow P dim row → (t.set y row).length = dim ∧ ∀ l ∈ t.set y row, GoodRow P dim l := fun {row} h =>
    ⟨by simp [ht], fun l hl => (List.mem_or_eq_of_mem_set hl).elim (hr l) fun e => by rw [e]; exact h⟩
  unfold invStep
  refine gives_bind (gives_vAt hr (by omega)) fun this hthis => gives_bind (gives_vAt hthis.2 (by rw [hthis.1]; omega)) fun val hval => ?_
  split
  · trivial
  split
  · split
    · trivial
    refine gives_bind (ho.recip _ hval) fun scale hsc => gives_bind (P := GoodRow P dim) ?_ fun row hrow => hset hrow
    refine gives_mono (gives_mapR (Q := P) _ fun i hi => ?_) fun l hl => ⟨by rw [hl.1, List.length_range], hl.2⟩
    have hi := List.mem_range.1 hi
    split
    · exact ho.one
    · exact gives_bind (gives_vAt hthis.2 (by rw [hthis.1]; exact hi)) fun v hv => ho.mul _ _ hv hsc
  split
  · exact ⟨ht, hr⟩
  refine gives_bind (gives_findRow ht hr hx _ fun r hr => by have := List.mem_range'_1.1 hr; omega) fun target htg => ?_
  cases target with
  | none => trivial
  | some r =>
    have hrd := htg r rfl
    refine gives_bind (gives_vAt hr (by omega)) fun row hrow => gives_bind (gives_vAt hrow.2 (by rw [hrow.1]; omega)) fun p hp => ?_
    refine gives_bind (ho.div _ _ hval hp) fun ratio hra => gives_bind (P := GoodRow P dim) ?_ fun row' hrow' => hset hrow'
    refine gives_mono (gives_mapR (Q := P) _ fun i hi => ?_) fun l hl => ⟨by rw [hl.1, List.length_range], hl.2⟩
    have hi := List.mem_range.1 hi
    split
    · exact ho.zero
    · refine gives_bind (gives_vAt hthis.2 (by rw [hthis.1]; exact hi)) fun a ha => gives_bind (gives_vAt hrow.2 (by rw [hrow.1]; exact hi)) fun b hb => ?_
      exact gives_bind (ho.mul _ _ hra hb) fun p hp => ho.sub _ _ ha hp

theorem gives_eliminate {o : Ops α} (ho : GoodOps P o) {t : List (List α)} {dim : Nat} (ht : t.length = dim ∧ ∀ l ∈ t, GoodRow P dim l) :
    Gives (fun t => t.length = dim ∧ ∀ l ∈ t, GoodRow P dim l) (eliminate o dim t) :=
  gives_loop _ _ ht fun _ hx _ ht => gives_loop _ _ ht fun _ hy _ ht => gives_invStep ho ht.1 ht.2 (List.mem_range.1 hx) (List.mem_range.1 hy)

theorem gives_conjAll {o : Ops α} (ho : GoodOps P o) : ∀ {l : List α}, (∀ x ∈ l, P x) → Gives (fun l => ∀ x ∈ l, P x) (conjAll o l)
  | [], _ => by intro x hx; cases hx
  | x :: xs, h => by
    unfold conjAll
    split
    · trivial
    refine gives_bind (ho.conj x (h x (List.mem_cons_self ..))) fun y hy => gives_bind (gives_conjAll ho fun z hz => h z (List.mem_cons_of_mem _ hz)) fun ys hys => ?_
    intro z hz
    rcases List.mem_cons.1 hz with rfl | hz
    · exact hy
    · exact hys z hz

theorem gives_magnitude {o : Ops α} (ho : GoodOps P o) : ∀ {l : List (α × α)} {mag : α}, P mag → (∀ p ∈ l, P p.1 ∧ P p.2) → Gives P (magnitude o mag l)
  | [], _, hm, _ => hm
  | (x, c) :: l, mag, hm, h => gives_bind (ho.mul _ _ (h (x, c) (List.mem_cons_self ..)).1 (h (x, c) (List.mem_cons_self ..)).2) fun p hp =>
    gives_bind (ho.add _ _ hm hp) fun m' hm' => gives_magnitude ho hm' fun q hq => h q (List.mem_cons_of_mem _ hq)

theorem gives_divideAll {o : Ops α} (ho : GoodOps P o) {mag : α} (hm : P mag) : ∀ {l : List α}, (∀ x ∈ l, P x) → Gives (fun l => ∀ x ∈ l, P x) (divideAll o mag l)
  | [], _ => by intro x hx; cases hx
  | x :: xs, h => gives_bind (ho.div _ _ (h x (List.mem_cons_self ..)) hm) fun y hy => gives_bind (gives_divideAll ho hm fun z hz => h z (List.mem_cons_of_mem _ hz)) fun ys hys => by
    intro z hz
    rcases List.mem_cons.1 hz with rfl | hz
    · exact hy
    · exact hys z hz

theorem gives_vecInverse {o : Ops α} (ho : GoodOps P o) {l : List α} (hl : ∀ x ∈ l, P x) : Gives (fun l => ∀ x ∈ l, P x) (vecInverse o l) := by
  unfold vecInverse
  split
  · trivial
  split
  · trivial
  refine gives_bind (gives_conjAll ho hl) fun c hc => gives_bind (gives_magnitude ho ho.zero fun p hp => ?_) fun mag hm => ?_
  · have := List.of_mem_zip hp
    exact ⟨hl _ this.1, hc _ this.2⟩
  split
  · trivial
  · exact gives_divideAll ho hm hc

theorem gives_matInverse {o : Ops α} (ho : GoodOps P o) {m : Mat α} (hm : GoodM P m) (h0 : 0 < m.data.length ∨ m.shape.length < 4) : Gives (GoodM P) (matInverse o m) := by
  unfold matInverse
  split
  · trivial
  · exact gives_bind (gives_vecInverse ho hm.2) fun l hl => gives_mono (gives_mat hm.1.rank hl) fun m h => h.1
  · trivial
  · rename_i dim dim' rest hne hs
    split
    · trivial
    rename_i hd
    have hd : dim' = dim := Decidable.not_not.1 hd
    subst hd
    refine gives_bind (gives_invTable ho hm.2 ?_) fun t ht => gives_bind (gives_eliminate ho ht) fun t' ht' => gives_mono (gives_mat hm.1.rank fun x hx => ?_) fun m h => h.1
    · rw [hm.1.len, hs]
      show dim' * dim' ≤ dim' * (dim' * vol rest)
      rw [← Nat.mul_assoc]
      apply Nat.le_mul_of_pos_right
      rcases h0 with h0 | h0
      · rw [hm.1.len, hs] at h0
        have h0 : 0 < dim' * (dim' * vol rest) := h0
        rw [← Nat.mul_assoc] at h0
        exact Nat.pos_of_mul_pos_left h0
      · rw [hs] at h0
        match rest, hne with
        | [], _ => exact Nat.one_pos
        | [a], hne => exact (hne a rfl).elim
        | _ :: _ :: _, _ => simp at h0; omega
    · obtain ⟨row, hrow, hx⟩ := List.mem_flatMap.1 hx
      exact (ht'.2 row hrow).2 x (List.mem_of_mem_drop hx)

theorem gives_inv {o : Ops α} (ho : GoodOps P o) {v : V α} (hv : GoodV P v) (h0 : ∀ m, v = .mat m → 0 < m.data.length) : Gives (GoodV P) (inv o v) := by
  cases v with
  | elem x => exact gives_bind (ho.recip x hv) fun y hy => hy
  | vec l => exact gives_bind (gives_vecInverse ho hv) fun y hy => hy
  | mat m => exact gives_bind (gives_matInverse ho hv (.inl (h0 m rfl))) fun y hy => hy

end Verif.Safe
