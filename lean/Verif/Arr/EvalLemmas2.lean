import Verif.Arr.EvalLemmas

namespace Verif.Arr
variable {α σ τ : Type}

/-! ## Lines of a value -/

theorem slice_eq (l : List α) (off : Nat) : ∀ n, ((List.range n).filterMap fun k => l[off + k]?) = (l.drop off).take n
  | 0 => by simp
  | n + 1 => by
    rw [List.range_succ, List.filterMap_append, slice_eq l off n]
    rcases Nat.lt_or_ge (off + n) l.length with h | h
    · simp only [List.filterMap_cons, List.filterMap_nil, List.getElem?_eq_getElem h]
      rw [List.take_succ, List.getElem?_drop, List.getElem?_eq_getElem h]
      rfl
    · simp only [List.filterMap_cons, List.filterMap_nil, List.getElem?_eq_none h, List.append_nil]
      rw [List.take_of_length_le (by rw [List.length_drop]; omega), List.take_of_length_le (by rw [List.length_drop]; omega)]

theorem lastLine_eq {v : V α} {s : List Nat} {d : Nat} (hs : v.shape = s ++ [d]) {c : List Nat} (hc : InB s c) :
    v.lastLine d c = (v.data.drop (ravel s c * d)).take d := by
  rw [← slice_eq, V.lastLine]
  apply List.filterMap_congr
  intro k hk
  rw [List.mem_range] at hk
  have hin : InB v.shape (c ++ [k]) := by rw [hs]; exact (inB_snoc s c d k).mpr ⟨hc, hk⟩
  rw [at_data hin, hs, ravel_snoc s c d k (inB_length hc)]

theorem firstLine_eq {v : V α} {s : List Nat} {d : Nat} (hs : v.shape = d :: s) {c : List Nat} (hc : InB s c) :
    v.firstLine d c = (List.range d).filterMap fun k => v.data[k * vol s + ravel s c]? := by
  rw [V.firstLine]
  apply List.filterMap_congr
  intro k hk
  rw [List.mem_range] at hk
  have hin : InB v.shape (k :: c) := by rw [hs]; exact ⟨hk, hc⟩
  rw [at_data hin, hs]
  rfl

/-! ## Results -/

theorem small_vol {s : List Nat} (hs : s ≠ []) (hf : Fits s) (hd : ∀ d ∈ s, d ≤ maxInt) : vol s ≤ maxInt := by
  rcases Nat.lt_or_ge s.length 2 with h | h
  · match s, hs, h with
    | [d], _, _ => simpa [vol] using hd d (by simp)
  · have := hf s.length h (Nat.le_refl _)
    rwa [List.take_length] at this

theorem finish {s : List Nat} {t : List α} (hs : s ≠ []) (hl : t.length = vol s) (hf : Fits s) (hd : ∀ d ∈ s, d ≤ maxInt) :
    ∃ r, (if s.length = 1 then R.ok (V.vec t) else (newMatrix s t).bind fun r => R.ok (V.mat r)) = .ok r ∧
      r.shape = s ∧ r.data = t ∧ r.Ok ∧ r.Plain := by
  have hv := small_vol hs hf hd
  by_cases h1 : s.length = 1
  · rw [if_pos h1]
    match s, h1 with
    | [d], _ =>
      refine ⟨_, rfl, ?_, rfl, ?_, ?_⟩
      · simp [V.shape, hl, vol]
      · rw [V.Ok, hl]; exact hv
      · simp [V.Plain, V.isMat, V.shape]
  · rw [if_neg h1, newMatrix_fits hs hl hf]
    have : 0 < s.length := List.length_pos_iff.mpr hs
    refine ⟨_, rfl, rfl, rfl, ⟨⟨⟨hs, hl⟩, hf⟩, ?_, hd⟩, ?_⟩
    · show t.length ≤ _
      rw [hl]; exact hv
    · simp [V.Plain, V.isMat, V.shape]; omega

theorem fits_prefix {s t : List Nat} (h : Fits (s ++ t)) : Fits s := by
  intro k h2 hk
  have := h k h2 (by rw [List.length_append]; omega)
  rwa [List.take_append_of_le_length hk] at this

/-! ## Reduction along the last axis -/

theorem reduceRow_eq (f : α → α → R α) (l : List α) {stride i : Nat} (hs : 0 < stride) (hl : stride * i + stride ≤ l.length) :
    reduceRow f l stride i = foldR f ((l.drop (i * stride)).take stride) := by
  have := down_eq f l (fun j => stride * i + stride - 1 - j) 0 (List.range' 1 (stride - 1)) (by omega) (by
    intro k hk; omega)
  simp only [Nat.sub_zero] at this
  rw [reduceRow]
  refine this.trans ?_
  congr 1
  rw [← slice_eq, show (0 :: List.range' 1 (stride - 1)) = List.range stride by
    rw [List.range_eq_range']
    obtain ⟨n, rfl⟩ : ∃ n, stride = n + 1 := ⟨stride - 1, by omega⟩
    rw [List.range'_succ]; rfl]
  rw [show (List.range stride).reverse = (List.range stride).map (fun j => stride - 1 - j) by
    apply List.ext_getElem?
    intro j
    rcases Nat.lt_or_ge j stride with hj | hj
    · rw [List.getElem?_reverse (by simpa using hj), List.getElem?_map, List.length_range, List.getElem?_range hj, List.getElem?_range (by omega)]
      rfl
    · rw [List.getElem?_eq_none (by simpa using hj), List.getElem?_eq_none (by simpa using hj)]]
  rw [List.filterMap_map]
  apply List.filterMap_congr
  intro k hk
  rw [List.mem_range] at hk
  show l[stride * i + stride - 1 - (stride - 1 - k)]? = _
  rw [Nat.mul_comm stride i]
  congr 1
  have : stride * i + stride ≤ l.length := hl
  omega

theorem reduce_mat (S : Sched) (num : α → Bool) (f : α → α → R α) {m : Mat α} {s : List Nat} {d : Nat} (hm : (V.mat m).Ok)
    (hs : m.shape = s ++ [d]) (hne : s ≠ []) (hd : 0 < d) :
    (∀ r, reduce S num f (.mat m) = .ok r → r.shape = s ∧ r.Ok ∧ r.Plain ∧
      ∀ c, InB s c → ∃ y, foldR f ((V.mat m).lastLine d c) = .ok y ∧ r.at c = some y) ∧
    ((∀ c, InB s c → ∃ y, foldR f ((V.mat m).lastLine d c) = .ok y) → ∃ r, reduce S num f (.mat m) = .ok r) := by
  have hsl : 0 < s.length := List.length_pos_iff.mpr hne
  have hlen : m.shape.length = s.length + 1 := by simp [hs]
  have hdims : ∀ x ∈ s, x ≤ maxInt := fun x hx => hm.2.2 x (by rw [hs]; simp [hx])
  have hfit : Fits s := fits_prefix (t := [d]) (by rw [← hs]; exact hm.1.fits)
  have htake : m.shape.take (m.shape.length - 1) = s := by rw [hlen, hs]; simp
  have hlast : vAt m.shape (m.shape.length - 1) = .ok d := by
    rw [hlen, hs]; simp [vAt]
  have hdl : m.data.length = vol s * d := by rw [hm.1.len, hs, vol_append]; simp [vol]
  have hrow : ∀ i, i < vol s → reduceRow f m.data d i = foldR f ((m.data.drop (i * d)).take d) := by
    intro i hi
    refine reduceRow_eq f m.data hd ?_
    rw [hdl]
    have := Nat.mul_le_mul_right d (show i + 1 ≤ vol s from hi)
    rw [Nat.succ_mul] at this
    rw [Nat.mul_comm d i]; exact this
  have hline : ∀ c, InB s c → reduceRow f m.data d (ravel s c) = foldR f ((V.mat m).lastLine d c) := by
    intro c hc
    rw [hrow _ (ravel_lt hc), lastLine_eq (v := .mat m) (s := s) (d := d) hs hc]; rfl
  have hmodel : reduce S num f (.mat m) =
      ((pfor (S.ranges d (vol s)) (each fun i e => (reduceRow f m.data d i).bind fun x => e.put i x) (newEd (vol s))).bind fun e => e.publish).bind
        fun t => if s.length = 1 then R.ok (V.vec t) else (newMatrix s t).bind fun r => R.ok (V.mat r) := by
    simp only [reduce]
    rw [if_neg (by omega), hlast, bind_ok, if_neg (by omega), htake, size_allowed hfit hdims, bind_ok, bind_assoc]
  have hpf := fun t => pfor_map S d (vol s) (f := fun i e => (reduceRow f m.data d i).bind fun x => e.put i x)
    (g := fun i => reduceRow f m.data d i) (fun i e _ => rfl) (t := t)
  constructor
  · intro r hr
    rw [hmodel] at hr
    obtain ⟨t, ht, hr⟩ := bind_eq_ok.mp hr
    obtain ⟨h1, h2⟩ := (hpf t).mp ht
    obtain ⟨r', hr', h3, h4, h5, h6⟩ := finish hne h1 hfit hdims
    rw [hr'] at hr
    cases hr
    refine ⟨h3, h5, h6, ?_⟩
    intro c hc
    have hlt : ravel s c < t.length := by rw [h1]; exact ravel_lt hc
    refine ⟨t[ravel s c], ?_, ?_⟩
    · rw [← hline c hc]; exact h2 _ _ (List.getElem?_eq_getElem hlt)
    · rw [at_data (by rw [h3]; exact hc), h4, h3, List.getElem?_eq_getElem hlt]
  · intro hall
    obtain ⟨t, ht, h1, _⟩ := pfor_map_ok S d (vol s) (f := fun i e => (reduceRow f m.data d i).bind fun x => e.put i x)
      (g := fun i => reduceRow f m.data d i) (fun i e _ => rfl) (by
        intro i hi
        obtain ⟨y, hy⟩ := hall (unravel s i) (unravel_inB hi)
        refine ⟨y, ?_⟩
        rw [← hy, ← hline _ (unravel_inB hi), ravel_unravel hi])
    obtain ⟨r, hr, _⟩ := finish hne h1 hfit hdims
    exact ⟨r, by rw [hmodel, ht, bind_ok, hr]⟩

/-! ## Reduction along the first axis -/

theorem reduceCol_eq (f : α → α → R α) (l : List α) {d stride i : Nat} (hd : 0 < d) (hi : i < stride) (hl : l.length = d * stride) :
    reduceCol f l stride i = foldR f ((List.range d).filterMap fun k => l[k * stride + i]?) := by
  obtain ⟨n, rfl⟩ : ∃ n, d = n + 1 := ⟨d - 1, by omega⟩
  have hpos : i + l.length - stride = n * stride + i := by rw [hl, Nat.succ_mul]; omega
  have hdiv : (n * stride + i) / stride = n := by
    rw [Nat.add_comm, Nat.add_mul_div_right _ _ (by omega), Nat.div_eq_of_lt hi, Nat.zero_add]
  rw [reduceCol, hpos, hdiv]
  have hlt : ∀ k, k ≤ n → k * stride + i < l.length := by
    intro k hk
    have := Nat.mul_le_mul_right stride hk
    rw [hl, Nat.succ_mul]; omega
  have := down_eq f l id (n * stride + i) ((List.range n).map fun k => n * stride + i - stride * (k + 1)) (hlt n (Nat.le_refl _)) (by
    intro p hp
    obtain ⟨k, _, rfl⟩ := List.mem_map.mp hp
    have := hlt n (Nat.le_refl _)
    simp only [id]; omega)
  simp only [id] at this
  refine this.trans ?_
  congr 1
  have hlist : (n * stride + i) :: (List.range n).map (fun k => n * stride + i - stride * (k + 1)) =
      (List.range (n + 1)).map fun j => (n - j) * stride + i := by
    rw [List.range_succ_eq_map, List.map_cons, List.map_map]
    congr 1
    apply List.map_congr_left
    intro k hk
    rw [List.mem_range] at hk
    simp only [Function.comp]
    rw [Nat.sub_mul, Nat.mul_comm stride (k + 1)]
    have := Nat.mul_le_mul_right stride (show k + 1 ≤ n from hk)
    simp only [Nat.succ_eq_add_one]
    omega
  rw [hlist, ← List.map_reverse, show (List.range (n + 1)).reverse = (List.range (n + 1)).map (fun j => n - j) by
    apply List.ext_getElem?
    intro j
    rcases Nat.lt_or_ge j (n + 1) with hj | hj
    · rw [List.getElem?_reverse (by simpa using hj), List.getElem?_map, List.length_range, List.getElem?_range hj, List.getElem?_range (by omega)]
      simp
    · rw [List.getElem?_eq_none (by simpa using hj), List.getElem?_eq_none (by simpa using hj)]]
  rw [List.map_map, List.filterMap_map]
  apply List.filterMap_congr
  intro k hk
  rw [List.mem_range] at hk
  simp only [Function.comp]
  rw [show n - (n - k) = k by omega]

theorem reduceFirst_mat (S : Sched) (num : α → Bool) (f : α → α → R α) {m : Mat α} {s : List Nat} {d : Nat} (hm : (V.mat m).Ok)
    (hs : m.shape = d :: s) (hne : s ≠ []) (hd : 0 < d) (hv : 0 < vol s) :
    (∀ r, reduceFirst S num f (.mat m) = .ok r → r.shape = s ∧ r.Ok ∧ r.Plain ∧
      ∀ c, InB s c → ∃ y, foldR f ((V.mat m).firstLine d c) = .ok y ∧ r.at c = some y) ∧
    ((∀ c, InB s c → ∃ y, foldR f ((V.mat m).firstLine d c) = .ok y) → ∃ r, reduceFirst S num f (.mat m) = .ok r) := by
  have hsl : 0 < s.length := List.length_pos_iff.mpr hne
  have hdims : ∀ x ∈ s, x ≤ maxInt := fun x hx => hm.2.2 x (by rw [hs]; simp [hx])
  have hdl : m.data.length = d * vol s := by rw [hm.1.len, hs]; rfl
  have hvs : vol s ≤ maxInt := by
    have := hm.2.1
    rw [hdl] at this
    exact Nat.le_trans (Nat.le_mul_of_pos_left _ hd) this
  have hfit : Fits s := fits_of_pos hv hvs
  have hline : ∀ c, InB s c → reduceCol f m.data (vol s) (ravel s c) = foldR f ((V.mat m).firstLine d c) := by
    intro c hc
    rw [reduceCol_eq f m.data hd (ravel_lt hc) hdl, firstLine_eq (v := .mat m) (s := s) (d := d) hs hc]; rfl
  have hmodel : reduceFirst S num f (.mat m) =
      ((pfor (S.ranges (vol s) (vol s)) (each fun i e => (reduceCol f m.data (vol s) i).bind fun x => e.put i x) (newEd (vol s))).bind fun e => e.publish).bind
        fun t => if s.length = 1 then R.ok (V.vec t) else (newMatrix s t).bind fun r => R.ok (V.mat r) := by
    simp only [reduceFirst]
    rw [if_neg (by rw [hs, List.length_cons]; omega), show vAt m.shape 0 = .ok d by rw [hs]; rfl, bind_ok, if_neg (by omega),
      show m.shape.drop 1 = s by rw [hs]; rfl, size_allowed hfit hdims, bind_ok, if_neg (by omega), bind_ok, bind_assoc]
  have hpf := fun t => pfor_map S (vol s) (vol s) (f := fun i e => (reduceCol f m.data (vol s) i).bind fun x => e.put i x)
    (g := fun i => reduceCol f m.data (vol s) i) (fun i e _ => rfl) (t := t)
  constructor
  · intro r hr
    rw [hmodel] at hr
    obtain ⟨t, ht, hr⟩ := bind_eq_ok.mp hr
    obtain ⟨h1, h2⟩ := (hpf t).mp ht
    obtain ⟨r', hr', h3, h4, h5, h6⟩ := finish hne h1 hfit hdims
    rw [hr'] at hr
    cases hr
    refine ⟨h3, h5, h6, ?_⟩
    intro c hc
    have hlt : ravel s c < t.length := by rw [h1]; exact ravel_lt hc
    refine ⟨t[ravel s c], ?_, ?_⟩
    · rw [← hline c hc]; exact h2 _ _ (List.getElem?_eq_getElem hlt)
    · rw [at_data (by rw [h3]; exact hc), h4, h3, List.getElem?_eq_getElem hlt]
  · intro hall
    obtain ⟨t, ht, h1, _⟩ := pfor_map_ok S (vol s) (vol s) (f := fun i e => (reduceCol f m.data (vol s) i).bind fun x => e.put i x)
      (g := fun i => reduceCol f m.data (vol s) i) (fun i e _ => rfl) (by
        intro i hi
        obtain ⟨y, hy⟩ := hall (unravel s i) (unravel_inB hi)
        refine ⟨y, ?_⟩
        rw [← hy, ← hline _ (unravel_inB hi), ravel_unravel hi])
    obtain ⟨r, hr, _⟩ := finish hne h1 hfit hdims
    exact ⟨r, by rw [hmodel, ht, bind_ok, hr]⟩

/-! ## Scans -/

/-- The running values of the short way. -/
def scanA (f : α → α → R α) (last : α) : List α → R (List α)
  | [] => .ok []
  | x :: xs => (f last x).bind fun y => (scanA f y xs).bind fun l => .ok (y :: l)

/-- The values of `Scan` of a row that is not empty. -/
def scanVals (assoc : Bool) (f : α → α → R α) (row : List α) : R (List α) :=
  match row with
  | [] => .ok []
  | x :: xs =>
    if assoc then (scanA f x xs).bind fun l => .ok (x :: l)
    else (allR ((List.range' 1 xs.length).map fun j => reduceList f ((x :: xs).take (j + 1)))).bind fun l => .ok (x :: l)

theorem scanA_len (f : α → α → R α) : ∀ (xs : List α) (a : α) (l : List α), scanA f a xs = .ok l → l.length = xs.length
  | [], _, l, h => by cases h; rfl
  | x :: xs, a, l, h => by
    obtain ⟨y, _, h2⟩ := bind_eq_ok.mp h
    obtain ⟨l', h3, h4⟩ := bind_eq_ok.mp h2
    cases h4
    simp [scanA_len f xs y l' h3]

theorem allR_len : ∀ (rs : List (R α)) (l : List α), allR rs = .ok l → l.length = rs.length
  | [], l, h => by cases h; rfl
  | r :: rs, l, h => by
    obtain ⟨y, _, h2⟩ := bind_eq_ok.mp h
    obtain ⟨l', h3, h4⟩ := bind_eq_ok.mp h2
    cases h4
    simp [allR_len rs l' h3]

theorem allR_get : ∀ {rs : List (R α)} {l : List α}, allR rs = .ok l → ∀ (i : Nat) (x : α), l[i]? = some x → rs[i]? = some (R.ok x)
  | [], l, h => by cases h; simp
  | r :: rs, l, h => by
    obtain ⟨y, h1, h2⟩ := bind_eq_ok.mp h
    obtain ⟨l', h3, h4⟩ := bind_eq_ok.mp h2
    cases h4
    intro i x hx
    cases i with
    | zero => simp at hx; simp [h1, hx]
    | succ i => simpa using allR_get h3 i x (by simpa using hx)

theorem allR_ok : ∀ {rs : List (R α)}, (∀ r ∈ rs, ∃ x, r = .ok x) → ∃ l, allR rs = .ok l
  | [], _ => ⟨[], rfl⟩
  | r :: rs, h => by
    obtain ⟨x, hx⟩ := h r (by simp)
    obtain ⟨l, hl⟩ := allR_ok (rs := rs) (fun r hr => h r (by simp [hr]))
    exact ⟨x :: l, by simp only [allR, hx, bind_ok, hl]⟩

theorem scanVals_len (assoc : Bool) (f : α → α → R α) (row l : List α) (h : scanVals assoc f row = .ok l) : l.length = row.length := by
  unfold scanVals at h
  split at h
  · cases h; rfl
  · split at h
    · obtain ⟨l', h1, h2⟩ := bind_eq_ok.mp h
      cases h2
      simp [scanA_len _ _ _ _ h1]
    · obtain ⟨l', h1, h2⟩ := bind_eq_ok.mp h
      cases h2
      simp [allR_len _ _ h1]

theorem get_set_self {e : Ed α} {i : Nat} {x : α} (h : i < e.length) : Ed.get (e.set i (some x)) i = R.ok x := by
  simp [Ed.get, h]

/-- The loop of the short way. -/
theorem scanA_loop (f : α → α → R α) (data : List α) (index : Nat) : ∀ (xs : List α) (j : Nat) (a : α) (e : Ed α), 1 ≤ j →
    (∀ k x, xs[k]? = some x → data[index + j + k]? = some x) → e.get (index + j - 1) = .ok a → index + j + xs.length ≤ e.length →
    loop (fun j e => (e.get (index + j - 1)).bind fun a => (vAt data (index + j)).bind fun x =>
      (f a x).bind fun y => e.put (index + j) y) (List.range' j xs.length) e = (scanA f a xs).bind fun l => puts e (index + j) l
  | [], j, a, e, _, _, _, _ => rfl
  | x :: xs, j, a, e, hj, hx, hg, hl => by
    simp only [List.length_cons] at hl
    have h0 : data[index + j]? = some x := by simpa using hx 0 x (by simp)
    rw [List.length_cons, List.range'_succ, loop, hg, bind_ok, show vAt data (index + j) = .ok x by rw [vAt, h0], bind_ok, scanA, bind_assoc, bind_assoc]
    congr 1
    funext y
    rw [put_in (by omega), bind_ok, bind_assoc]
    rw [scanA_loop f data index xs (j + 1) y _ (by omega) (by
      intro k z hz
      have := hx (k + 1) z (by simpa using hz)
      rw [show index + (j + 1) + k = index + j + (k + 1) by omega]; exact this) (by
      rw [show index + (j + 1) - 1 = index + j by omega]; exact get_set_self (by omega)) (by simp; omega)]
    congr 1
    funext l
    rw [bind_ok, puts, put_in (by omega), bind_ok]
    rfl

/-- The loop that reduces each prefix. -/
theorem allR_loop (g : Nat → R α) (index : Nat) : ∀ (n j : Nat) (e : Ed α), index + j + n ≤ e.length →
    loop (fun j e => (g j).bind fun y => e.put (index + j) y) (List.range' j n) e =
      (allR ((List.range' j n).map g)).bind fun l => puts e (index + j) l
  | 0, j, e, _ => rfl
  | n + 1, j, e, hl => by
    rw [List.range'_succ, loop, List.map_cons, allR, bind_assoc, bind_assoc]
    congr 1
    funext y
    rw [put_in (by omega), bind_ok, bind_assoc, allR_loop g index n (j + 1) _ (by simp; omega)]
    congr 1
    funext l
    rw [bind_ok, puts, put_in (by omega), bind_ok]
    rfl

theorem scanRow_eq (assoc : Bool) (f : α → α → R α) (data : List α) {index n : Nat} (hn : 0 < n) {e : Ed α} (hd : index + n ≤ data.length)
    (hl : index + n ≤ e.length) : scanRow assoc f data index n e = (scanVals assoc f ((data.drop index).take n)).bind fun l => puts e index l := by
  obtain ⟨n, rfl⟩ : ∃ k, n = k + 1 := ⟨n - 1, by omega⟩
  have hi : index < data.length := by omega
  have hrow : (data.drop index).take (n + 1) = data[index] :: (data.drop (index + 1)).take n := by
    rw [List.drop_eq_getElem_cons hi, List.take_succ_cons]
  have hlen : ((data.drop (index + 1)).take n).length = n := by rw [List.length_take, List.length_drop]; omega
  rw [scanRow, show vAt data index = .ok data[index] by rw [vAt, List.getElem?_eq_getElem hi], bind_ok, put_in (by omega), bind_ok, hrow, scanVals]
  cases assoc with
  | true =>
    rw [if_pos rfl, if_pos rfl]
    have := scanA_loop f data index ((data.drop (index + 1)).take n) 1 data[index] (e.set index (some data[index])) (by omega) (by
      intro k x hx
      have hk := (List.getElem?_eq_some_iff.mp hx).1
      rw [hlen] at hk
      rw [List.getElem?_take_of_lt hk, List.getElem?_drop] at hx
      exact hx) (by rw [Nat.add_sub_cancel]; exact get_set_self (by omega)) (by rw [hlen, List.length_set]; omega)
    rw [hlen] at this
    rw [Nat.add_sub_cancel]
    refine this.trans ?_
    rw [bind_assoc]
    congr 1
    funext l
    rw [bind_ok, puts, put_in (by omega), bind_ok]
  | false =>
    simp only [Bool.false_eq_true, if_false]
    rw [Nat.add_sub_cancel, allR_loop (fun j => reduceList f ((data.drop index).take (j + 1))) index n 1 _ (by rw [List.length_set]; omega), bind_assoc, hlen]
    have hmap : (List.range' 1 n).map (fun j => reduceList f ((data.drop index).take (j + 1))) =
        (List.range' 1 n).map (fun j => reduceList f ((data[index] :: (data.drop (index + 1)).take n).take (j + 1))) := by
      apply List.map_congr_left
      intro j hj
      rw [List.mem_range'] at hj
      obtain ⟨k, hk, rfl⟩ := hj
      rw [← hrow, List.take_take, Nat.min_eq_left (by omega)]
    rw [hmap]
    congr 1
    funext l
    rw [bind_ok, puts, put_in (by omega), bind_ok]

end Verif.Arr
