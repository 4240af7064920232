import Verif.Safe.Ops1
import Verif.Arr.EvalModel

/-!
# Reductions, scans, products and elementwise operators end
-/

namespace Verif.Safe
open Verif.Arr
variable {α : Type} {P : α → Prop} {f : α → α → R α}

theorem gives_accStep (hf : ∀ a b, P a → P b → Gives P (f a b)) {l : List α} (hl : ∀ x ∈ l, P x) {i : Nat} (hi : i < l.length) {acc : α} (ha : P acc) :
    Gives P (accStep f l i acc) := gives_bind (gives_vAt hl hi) fun x hx => hf x acc hx ha

theorem gives_reduceList (hf : ∀ a b, P a → P b → Gives P (f a b)) {l : List α} (hl : ∀ x ∈ l, P x) (hn : 0 < l.length) : Gives P (reduceList f l) := by
  refine gives_bind (gives_vAt hl (by omega)) fun acc ha => gives_loop P _ ha fun k hk acc ha => ?_
  have := List.mem_range.1 (List.mem_reverse.1 hk)
  exact gives_accStep hf hl (by omega) ha

theorem row_lt {stride i n len : Nat} (h : len = n * stride) (hi : i < n) : stride * i + stride ≤ len := by
  rw [h, Nat.mul_comm n, ← Nat.mul_succ]; exact Nat.mul_le_mul_left _ hi

theorem gives_reduceRow (hf : ∀ a b, P a → P b → Gives P (f a b)) {l : List α} (hl : ∀ x ∈ l, P x) {stride i : Nat} (hs : 0 < stride)
    (hi : stride * i + stride ≤ l.length) : Gives P (reduceRow f l stride i) := by
  refine gives_bind (gives_vAt hl (by omega)) fun acc ha => gives_loop P _ ha fun k hk acc ha => ?_
  have := List.mem_range'_1.1 hk
  exact gives_accStep hf hl (by omega) ha

theorem gives_last {s : List Nat} (h : s ≠ []) : Gives (fun d => s = s.take (s.length - 1) ++ [d]) (vAt s (s.length - 1)) := by
  obtain ⟨t, d, rfl⟩ := split_snoc h
  simp [vAt, Gives]

theorem vol_snoc (t : List Nat) (d : Nat) : vol (t ++ [d]) = vol t * d := by simp [vol_append, vol]

theorem gives_reduce (S : Sched) (num : α → Bool) (hf : ∀ a b, P a → P b → Gives P (f a b)) {v : V α} (hv : GoodV P v) : Gives (GoodV P) (reduce S num f v) := by
  cases v with
  | elem x => unfold reduce; dsimp only; split; exact hv; trivial
  | vec l =>
    unfold reduce
    dsimp only
    split
    · exact hv
    · exact gives_bind (gives_reduceList hf hv (by omega)) fun x hx => hx
  | mat m =>
    unfold reduce
    dsimp only
    split
    · trivial
    refine gives_bind (gives_last hv.1.rank) fun stride hs => ?_
    split
    · trivial
    refine gives_bind (gives_size _) fun n hn => ?_
    have hlen : m.data.length = n * stride := by rw [hv.1.len, hs, vol_snoc, hn]
    refine gives_bind (fl_each (P := P) S stride n (fun k j => j = k) fl_new fun k hk D e he => ?_) fun e he => ?_
    · exact gives_bind (gives_reduceRow hf hv.2 (by omega) (row_lt hlen hk)) fun x hx => fl_put he hk hx
    refine gives_bind (fl_publish he fun i hi => .inr ⟨i, hi, rfl⟩) fun d hd => ?_
    split
    · exact hd.2
    · refine gives_matV ?_ hd.2
      intro h
      have := congrArg List.length h
      simp at this
      omega

theorem gives_reduceCol (hf : ∀ a b, P a → P b → Gives P (f a b)) {l : List α} (hl : ∀ x ∈ l, P x) {stride i : Nat} (hi : i < stride) (hs : stride ≤ l.length) :
    Gives P (reduceCol f l stride i) := by
  refine gives_bind (gives_vAt hl (by omega)) fun acc ha => gives_loop P _ ha fun k hk acc ha => ?_
  obtain ⟨j, hj, rfl⟩ := List.mem_map.1 hk
  exact gives_accStep hf hl (by omega) ha

theorem gives_first {s : List Nat} (h : s ≠ []) : Gives (fun d => s = d :: s.drop 1) (vAt s 0) := by
  cases s with
  | nil => exact (h rfl).elim
  | cons d t => simp [vAt, Gives]

theorem gives_reduceFirst (S : Sched) (num : α → Bool) (hf : ∀ a b, P a → P b → Gives P (f a b)) {v : V α} (hv : GoodV P v) : Gives (GoodV P) (reduceFirst S num f v) := by
  cases v with
  | elem x => exact gives_reduce S num hf hv
  | vec l => exact gives_reduce S num hf hv
  | mat m =>
    unfold reduceFirst
    dsimp only
    split
    · trivial
    refine gives_bind (gives_first hv.1.rank) fun d0 hs => ?_
    split
    · trivial
    rename_i h0
    refine gives_bind (gives_size _) fun stride hn => ?_
    split
    · trivial
    refine gives_bind (gives_size _) fun n hn' => ?_
    have hlen : m.data.length = d0 * stride := by rw [hv.1.len, hn]; exact congrArg vol hs
    have hle : stride ≤ m.data.length := by rw [hlen]; exact Nat.le_mul_of_pos_left _ (by omega)
    refine gives_bind (fl_each (P := P) S stride n (fun k j => j = k) fl_new fun k hk D e he => ?_) fun e he => ?_
    · exact gives_bind (gives_reduceCol hf hv.2 (by omega) hle) fun x hx => fl_put he hk hx
    refine gives_bind (fl_publish he fun i hi => .inr ⟨i, hi, rfl⟩) fun d hd => ?_
    split
    · exact hd.2
    · refine gives_matV ?_ hd.2
      intro h
      have := congrArg List.length h
      simp at this
      omega

theorem gives_scanRow (assoc : Bool) (hf : ∀ a b, P a → P b → Gives P (f a b)) {data : List α} (hd : ∀ x ∈ data, P x) {index n N : Nat} (hn : 0 < n)
    (hi : index + n ≤ data.length) (hN : data.length = N) {D : Nat → Prop} {e : Ed α} (he : Fl P N D e) :
    Gives (Fl P N fun j => D j ∨ index ≤ j ∧ j < index + n) (scanRow assoc f data index n e) := by
  unfold scanRow
  refine gives_bind (gives_vAt hd (by omega)) fun x hx => gives_bind (fl_put he (by omega) hx) fun e he => ?_
  have h0 : Fl P N (fun j => D j ∨ index ≤ j ∧ j < index + 1) e := fl_mono he fun i _ h => h.imp id fun h => by omega
  have fin : ∀ e, Fl P N (fun j => D j ∨ index ≤ j ∧ j < index + (1 + (n - 1))) e → Fl P N (fun j => D j ∨ index ≤ j ∧ j < index + n) e :=
    fun e h => fl_mono h fun i _ hi => hi.imp id fun h => by omega
  split
  · refine gives_mono (gives_range (fun k e => Fl P N (fun j => D j ∨ index ≤ j ∧ j < index + k) e) 1 (n - 1) h0 fun k e h1 h2 he => ?_) fin
    refine gives_bind (fl_get he (by omega) (.inr (by omega))) fun a ha => gives_bind (gives_vAt hd (by omega)) fun x hx => ?_
    refine gives_bind (hf a x ha hx) fun y hy => gives_mono (fl_put he (by omega) hy) fun e he => fl_mono he fun i _ hi => ?_
    rcases hi with h | h
    · exact .inl (.inl h)
    · by_cases e : i = index + k
      · exact .inr e
      · exact .inl (.inr (by omega))
  · refine gives_mono (gives_range (fun k e => Fl P N (fun j => D j ∨ index ≤ j ∧ j < index + k) e) 1 (n - 1) h0 fun k e h1 h2 he => ?_) fin
    refine gives_bind (gives_reduceList hf (fun x hx => hd x (List.mem_of_mem_drop (List.mem_of_mem_take hx))) ?_) fun y hy => ?_
    · simp; omega
    refine gives_mono (fl_put he (by omega) hy) fun e he => fl_mono he fun i _ hi => ?_
    rcases hi with h | h
    · exact .inl (.inl h)
    · by_cases e : i = index + k
      · exact .inr e
      · exact .inl (.inr (by omega))

theorem gives_scan_mat (S : Sched) (num : α → Bool) (op : String) (hf : ∀ a b, P a → P b → Gives P (f a b)) {m : Mat α} (hm : GoodM P m) :
    Gives (fun v => ∃ r, v = .mat r ∧ GoodM P r ∧ r.shape = m.shape ∧ ∀ d, m.shape.getLast? = some d → 0 < d) (scan S num op f (.mat m)) := by
  unfold scan
  dsimp only
  split
  · trivial
  refine gives_bind (gives_last hm.1.rank) fun stride hs => ?_
  split
  · trivial
  rename_i h0
  refine gives_bind (gives_size _) fun n hn => ?_
  have hlen : m.data.length = n * stride := by rw [hm.1.len, hs, vol_snoc, hn]
  refine gives_bind (fl_each (P := P) (n := m.data.length) S stride n (fun k j => stride * k ≤ j ∧ j < stride * k + stride) fl_new fun k hk D e he => ?_) fun e he => ?_
  · rw [Nat.mul_comm k]
    exact gives_scanRow _ hf hm.2 (by omega) (row_lt hlen hk) rfl he
  refine gives_bind (fl_publish he fun i hi => .inr ⟨i / stride, ?_, ?_, ?_⟩) fun d hd => ?_
  · exact (Nat.div_lt_iff_lt_mul (by omega)).2 (by omega)
  · exact Nat.mul_div_le i stride
  · exact Nat.lt_mul_div_succ i (by omega)
  refine gives_bind (gives_mat hm.1.rank hd.2) fun r hr => ⟨r, rfl, hr.1, hr.2, fun d hd => ?_⟩
  rw [hs] at hd
  simp at hd
  omega

theorem gives_scan (S : Sched) (num : α → Bool) (op : String) (hf : ∀ a b, P a → P b → Gives P (f a b)) {v : V α} (hv : GoodV P v) : Gives (GoodV P) (scan S num op f v) := by
  cases v with
  | elem x => unfold scan; dsimp only; split; exact hv; trivial
  | vec l =>
    unfold scan
    dsimp only
    split
    · exact hv
    refine gives_bind (gives_scanRow (P := P) _ hf hv (by omega) (by omega) rfl fl_new) fun e he => ?_
    exact gives_bind (fl_publish he fun i hi => .inr ⟨by omega, by omega⟩) fun d hd => hd.2
  | mat m =>
    refine gives_mono (gives_scan_mat S num op hf hv) fun v h => ?_
    obtain ⟨r, rfl, h, _⟩ := h
    exact h

theorem gives_scanFirst (S : Sched) (origin : Nat) (num : α → Bool) (op : String) (hf : ∀ a b, P a → P b → Gives P (f a b)) {v : V α} (hv : GoodV P v) :
    Gives (GoodV P) (scanFirst S origin num op f v) := by
  cases v with
  | elem x => exact gives_scan S num op hf hv
  | vec l => exact gives_scan S num op hf hv
  | mat m =>
    unfold scanFirst
    dsimp only
    split
    · trivial
    refine gives_bind (gives_last hv.1.rank) fun stride hs => ?_
    split
    · trivial
    refine gives_bind (gives_transpose S origin hv fun x y h => ?_) fun t ht => ?_
    · rw [h] at hs; simp at hs; omega
    refine gives_bind (gives_scan_mat S num op hf ht) fun r hr => ?_
    obtain ⟨r, rfl, hr, hsh, hpos⟩ := hr
    refine gives_bind (gives_transpose S origin hr fun x y h => ?_) fun r' hr' => hr'
    exact hpos y (by rw [← hsh, h]; rfl)

/-! ## Products -/

theorem gives_toVec {v : V α} (hv : GoodV P v) : Gives (fun l => ∀ x ∈ l, P x) v.toVec := by
  cases v with
  | elem x => intro y hy; rw [List.mem_singleton.1 hy]; exact hv
  | vec l => exact hv
  | mat m => trivial

theorem gives_toMat [Wide α] {v : V α} (hv : GoodV P v) : Gives (fun m => GoodM P m ∧ ∀ m', v = .mat m' → m = m') v.toMat := by
  cases v with
  | elem x =>
    refine gives_mono (gives_mat (P := P) ?_ fun y hy => ?_) fun m h => ⟨h.1, nofun⟩
    · split <;> simp
    · rw [List.mem_singleton.1 hy]; exact hv
  | vec l => exact gives_mono (gives_mat (P := P) (s := [l.length]) (by simp) hv) fun m h => ⟨h.1, nofun⟩
  | mat m => exact ⟨hv, fun m' h => by cases h; rfl⟩

theorem gives_innerAcc {g : α → α → R α} (hf : ∀ a b, P a → P b → Gives P (f a b)) (hg : ∀ a b, P a → P b → Gives P (g a b)) {u v : List α} (hu : ∀ x ∈ u, P x)
    (hv : ∀ x ∈ v, P x) {p q : Nat → Nat} {n : Nat} (hn : 0 < n) (hp : ∀ k, k < n → p k < u.length) (hq : ∀ k, k < n → q k < v.length) :
    Gives P (innerAcc f g u v p q n) := by
  have one : ∀ k, k < n → Gives P ((vAt u (p k)).bind fun a => (vAt v (q k)).bind fun b => g a b) := fun k hk =>
    gives_bind (gives_vAt hu (hp k hk)) fun a ha => gives_bind (gives_vAt hv (hq k hk)) fun b hb => hg a b ha hb
  refine gives_bind (one _ (by omega)) fun acc ha => gives_loop P _ ha fun k hk acc ha => ?_
  have := List.mem_range.1 (List.mem_reverse.1 hk)
  exact gives_bind (one k (by omega)) fun x hx => hf x acc hx ha

theorem gives_innerVec {g : α → α → R α} (hf : ∀ a b, P a → P b → Gives P (f a b)) (hg : ∀ a b, P a → P b → Gives P (g a b)) {u v : List α} (hu : ∀ x ∈ u, P x)
    (hv : ∀ x ∈ v, P x) : Gives (GoodV P) (innerVec f g u v) := by
  unfold innerVec
  split
  · trivial
  split
  · trivial
  rename_i h1 h2
  exact gives_bind (gives_innerAcc hf hg hu hv (by omega) (fun k hk => hk) fun k hk => by have : u.length = v.length := Decidable.not_not.1 h1; simp; omega) fun x hx => hx

theorem gives_innerMat (S : Sched) {g : α → α → R α} (hf : ∀ a b, P a → P b → Gives P (f a b)) (hg : ∀ a b, P a → P b → Gives P (g a b)) {u v : Mat α} (hu : GoodM P u)
    (hv : GoodM P v) (h0 : ∀ d, v.shape.head? = some d → 0 < d) : Gives (GoodV P) (innerMat S f g u v) := by
  unfold innerMat
  split
  · trivial
  rename_i h1
  have h1 : u.shape.getLast? = v.shape.head? := by
    simp only [not_or, Decidable.not_not] at h1; exact h1.2.2
  refine gives_bind (gives_first hv.1.rank) fun n hn => ?_
  have hh : v.shape.head? = some n := by rw [hn]; rfl
  have hpos := h0 n hh
  rw [if_neg (by omega)]
  dsimp only
  obtain ⟨t, d, hu'⟩ := split_snoc hu.1.rank
  have hd : d = n := by rw [hu', hh] at h1; simpa using h1
  subst hd
  have hul : u.data.length = vol t * d := by rw [hu.1.len, hu', vol_snoc]
  have hvl : v.data.length = d * vol (v.shape.drop 1) := by rw [hv.1.len]; conv => lhs; rw [hn]
                                                            rfl
  have e1 : u.data.length / d = vol t := by rw [hul, Nat.mul_div_cancel _ hpos]
  have e2 : v.data.length / d = vol (v.shape.drop 1) := by rw [hvl, Nat.mul_div_cancel_left _ hpos]
  rw [e1, e2]
  generalize hta : vol t = a at *
  generalize hb : vol (v.shape.drop 1) = b at *
  refine gives_bind (fl_each (P := P) S 1 (a * b) (fun k j => j = k) fl_new fun k hk D e he => ?_) fun e he => ?_
  · have hbp : 0 < b := by
      rcases Nat.eq_zero_or_pos b with h | h
      · rw [h, Nat.mul_zero] at hk; omega
      · exact h
    have hka : k / b < a := (Nat.div_lt_iff_lt_mul hbp).2 hk
    have hkb : k % b < b := Nat.mod_lt _ hbp
    refine gives_bind (gives_innerAcc hf hg hu.2 hv.2 hpos ?_ ?_) fun x hx => fl_put he hk hx
    · intro j hj
      show k / b * d + j < u.data.length
      have : (k / b + 1) * d ≤ a * d := Nat.mul_le_mul_right _ hka
      rw [Nat.succ_mul] at this
      omega
    · intro j hj
      show k % b + j * b < v.data.length
      have : (j + 1) * b ≤ d * b := Nat.mul_le_mul_right _ hj
      rw [Nat.succ_mul] at this
      omega
  refine gives_bind (fl_publish he fun i hi => .inr ⟨i, hi, rfl⟩) fun l hl => ?_
  split
  · exact hl.2
  by_cases hnil : u.shape.take (u.shape.length - 1) ++ v.shape.drop 1 = []
  · have ht : t = [] := by
      have := (List.append_eq_nil_iff.1 hnil).1
      rw [hu'] at this
      simpa using this
    have hv0 := (List.append_eq_nil_iff.1 hnil).2
    have ha : a = 1 := by rw [← hta, ht]; rfl
    have hb1 : b = 1 := by rw [← hb, hv0]; rfl
    have : l.length = 1 := by rw [hl.1, ha, hb1]
    rw [hnil]
    unfold newMatrix
    dsimp only [R.bind]
    rw [if_pos (by omega)]
    trivial
  · exact gives_matV hnil hl.2

theorem gives_inner [Wide α] (S : Sched) {g : α → α → R α} (hf : ∀ a b, P a → P b → Gives P (f a b)) (hg : ∀ a b, P a → P b → Gives P (g a b)) {u v : V α} (hu : GoodV P u)
    (hv : GoodV P v) (hu0 : ∀ m, u = .mat m → 0 < m.data.length) (hv0 : ∀ m, v = .mat m → 0 < m.data.length) : Gives (GoodV P) (inner S f g u v) := by
  unfold inner
  split
  · rename_i hmat
    refine gives_bind (gives_toMat hu) fun mu hmu => gives_bind (gives_toMat hv) fun mv hmv => ?_
    by_cases hs : mu.shape.getLast? = mv.shape.head?
    · refine gives_innerMat S hf hg hmu.1 hmv.1 fun d hd => ?_
      rcases hmat with h | h
      · cases u with
        | mat m =>
          rw [hmu.2 m rfl] at hs hmu
          exact pos_of_data hmu.1.1 (hu0 m rfl) (List.mem_of_getLast? (hs.trans hd))
        | _ => cases h
      · cases v with
        | mat m =>
          rw [hmv.2 m rfl] at hd hmv
          exact pos_of_data hmv.1.1 (hv0 m rfl) (List.mem_of_head? hd)
        | _ => cases h
    · unfold innerMat
      rw [if_pos (.inr (.inr hs))]
      trivial
  · exact gives_bind (gives_toVec hu) fun u hu => gives_bind (gives_toVec hv) fun v hv => gives_innerVec hf hg hu hv

theorem gives_outerData (S : Sched) (hf : ∀ a b, P a → P b → Gives P (f a b)) {u v : List α} (hu : ∀ x ∈ u, P x) (hv : ∀ x ∈ v, P x) :
    Gives (fun l => ∀ x ∈ l, P x) (outerData S f u v) := by
  refine gives_mono (made_each S 1 (u.length * v.length) fun k hk D e he => ?_) fun l hl => hl.2
  have hp : 0 < v.length := by
    rcases Nat.eq_zero_or_pos v.length with h | h
    · rw [h, Nat.mul_zero] at hk; omega
    · exact h
  refine gives_bind (gives_vAt hu ((Nat.div_lt_iff_lt_mul hp).2 hk)) fun a ha => gives_bind (gives_vAt hv (Nat.mod_lt _ hp)) fun b hb => ?_
  exact gives_bind (hf a b ha hb) fun y hy => fl_put he hk hy

theorem gives_outer [Wide α] (S : Sched) (hf : ∀ a b, P a → P b → Gives P (f a b)) {u v : V α} (hu : GoodV P u) (hv : GoodV P v) : Gives (GoodV P) (outer S f u v) := by
  unfold outer
  split
  · refine gives_bind (gives_toMat hu) fun u hu => gives_bind (gives_toMat hv) fun v hv => ?_
    refine gives_bind (gives_outerData S hf hu.1.2 hv.1.2) fun d hd => gives_matV ?_ hd
    exact fun h => hu.1.1.rank (List.append_eq_nil_iff.1 h).1
  · refine gives_bind (gives_toVec hu) fun u hu => gives_bind (gives_toVec hv) fun v hv => ?_
    exact gives_bind (gives_outerData S hf hu hv) fun d hd => gives_matV (by simp) hd

/-! ## Elementwise operators -/

theorem gives_zipData (S : Sched) (hf : ∀ a b, P a → P b → Gives P (f a b)) {u v : List α} (hu : ∀ x ∈ u, P x) (hv : ∀ x ∈ v, P x) {p q : Nat → Nat} {n : Nat}
    (hp : ∀ k, k < n → p k < u.length) (hq : ∀ k, k < n → q k < v.length) : Gives (fun l => l.length = n ∧ ∀ x ∈ l, P x) (zipData S f u v p q n) :=
  made_each S 1 n fun k hk _ _ he => gives_bind (gives_vAt hu (hp k hk)) fun a ha => gives_bind (gives_vAt hv (hq k hk)) fun b hb =>
    gives_bind (hf a b ha hb) fun _ hy => fl_put he hk hy

theorem gives_binaryVec (S : Sched) (hf : ∀ a b, P a → P b → Gives P (f a b)) {u v : List α} (hu : ∀ x ∈ u, P x) (hv : ∀ x ∈ v, P x) :
    Gives (fun l => ∀ x ∈ l, P x) (binaryVec S f u v) := by
  unfold binaryVec
  split
  · exact gives_mono (gives_zipData S hf hu hv (fun k _ => by omega) fun k h => h) fun l h => h.2
  split
  · exact gives_mono (gives_zipData S hf hu hv (fun k h => h) fun k _ => by omega) fun l h => h.2
  split
  · trivial
  · exact gives_mono (gives_zipData S hf hu hv (fun k h => h) fun k h => by show k < v.length; omega) fun l h => h.2

theorem isScalar_vol : ∀ {s : List Nat}, isScalarShape s = true → vol s = 1
  | [], _ => rfl
  | d :: s, h => by
    simp only [isScalarShape, List.all_cons, Bool.and_eq_true, beq_iff_eq] at h
    show d * vol s = 1
    rw [h.1, isScalar_vol h.2]

theorem isVector_vol {u s : List Nat} (h : isVectorShape u s = true) : ∃ d t, u = d :: t ∧ vol u = d ∧ s.getLast? = some d := by
  cases u with
  | nil => simp [isVectorShape] at h
  | cons d t =>
    simp only [isVectorShape, Bool.and_eq_true, Bool.not_eq_true', Bool.or_eq_false_iff, List.drop_one, List.tail_cons, List.head?_cons] at h
    have h1 : vol t = 1 := isScalar_vol h.2
    refine ⟨d, t, rfl, ?_, ?_⟩
    · show d * vol t = d
      rw [h1, Nat.mul_one]
    · have := h.1.2
      simp at this
      exact this.symm

theorem isVector_lt {u v : Mat α} (hu : u.WF) (hv : v.WF) (h : isVectorShape u.shape v.shape = true) {k : Nat} (hk : k < v.data.length) :
    k % u.shape.headD 0 < u.data.length := by
  obtain ⟨d, t, h1, h2, h3⟩ := isVector_vol h
  rw [hu.len, h2, h1]
  refine Nat.mod_lt _ (vol_pos_of_mem (s := v.shape) (by rw [← hv.len]; omega) (List.mem_of_getLast? h3))

theorem gives_binaryMat (S : Sched) (hf : ∀ a b, P a → P b → Gives P (f a b)) {u v : Mat α} (hu : GoodM P u) (hv : GoodM P v) : Gives (GoodM P) (binaryMat S f u v) := by
  have fin : ∀ {r : R (List α)} {s : List Nat}, s ≠ [] → Gives (fun l => ∀ x ∈ l, P x) r → Gives (GoodM P) (r.bind (newMatrix s)) := fun hs hr =>
    gives_bind hr fun l hl => gives_mono (gives_mat hs hl) fun m h => h.1
  unfold binaryMat
  split
  · rename_i h
    refine fin hv.1.rank (gives_mono (gives_zipData S hf hu.2 hv.2 (fun k _ => ?_) fun k h => h) fun l h => h.2)
    rw [hu.1.len, isScalar_vol h]; exact Nat.one_pos
  split
  · rename_i h
    refine fin hu.1.rank (gives_mono (gives_zipData S hf hu.2 hv.2 (fun k h => h) fun k _ => ?_) fun l h => h.2)
    rw [hv.1.len, isScalar_vol h]; exact Nat.one_pos
  split
  · rename_i h
    exact fin hv.1.rank (gives_mono (gives_zipData S hf hu.2 hv.2 (fun k hk => isVector_lt hu.1 hv.1 h hk) fun k h => h) fun l h => h.2)
  split
  · rename_i h
    exact fin hu.1.rank (gives_mono (gives_zipData S hf hu.2 hv.2 (fun k h => h) fun k hk => isVector_lt hv.1 hu.1 h hk) fun l h => h.2)
  split
  · trivial
  · rename_i h
    refine fin hu.1.rank (gives_mono (gives_zipData S hf hu.2 hv.2 (fun k h => h) fun k hk => ?_) fun l h => h.2)
    show k < v.data.length
    rw [hv.1.len, ← Decidable.not_not.1 h, ← hu.1.len]
    exact hk

theorem gives_elementwise [Wide α] (S : Sched) (hf : ∀ a b, P a → P b → Gives P (f a b)) {u v : V α} (hu : GoodV P u) (hv : GoodV P v) :
    Gives (GoodV P) (elementwise S f u v) := by
  unfold elementwise
  split
  · exact gives_bind (hf _ _ hu hv) fun z hz => hz
  split
  · exact gives_bind (gives_toMat hu) fun u hu => gives_bind (gives_toMat hv) fun v hv => gives_bind (gives_binaryMat S hf hu.1 hv.1) fun r hr => hr
  · exact gives_bind (gives_toVec hu) fun u hu => gives_bind (gives_toVec hv) fun v hv => gives_bind (gives_binaryVec S hf hu hv) fun r hr => hr

theorem gives_mapData (S : Sched) {f : α → R α} {u : List α} (hf : ∀ a, a ∈ u → Gives P (f a)) : Gives (fun l => ∀ x ∈ l, P x) (mapData S f u) :=
  gives_mono (made_each S 1 u.length fun k hk _ _ he => gives_bind (gives_vAt (P := fun x => x ∈ u) (fun x h => h) hk) fun a ha =>
    gives_bind (hf a ha) fun _ hy => fl_put he hk hy) fun _ h => h.2

theorem gives_unaryElementwise (S : Sched) {f : α → R α} (hf : ∀ a, P a → Gives P (f a)) {v : V α} (hv : GoodV P v) : Gives (GoodV P) (unaryElementwise S f v) := by
  cases v with
  | elem x => exact gives_bind (hf x hv) fun y hy => hy
  | vec l => exact gives_bind (gives_mapData S fun a ha => hf a (hv a ha)) fun y hy => hy
  | mat m => exact gives_bind (gives_mapData S fun a ha => hf a (hv.2 a ha)) fun y hy => gives_matV hv.1.rank hy

end Verif.Safe
