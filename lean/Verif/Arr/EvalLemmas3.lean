import Verif.Arr.EvalLemmas2

namespace Verif.Arr
variable {α σ τ : Type}

/-! ## What the values of a scan are -/

theorem scanVals_get {f : α → α → R α} {row l : List α} (h : scanVals false f row = .ok l) :
    ∀ (k : Nat) (x : α), l[k]? = some x → foldR f (row.take (k + 1)) = .ok x := by
  cases row with
  | nil => cases h; simp
  | cons a xs =>
    simp only [scanVals, Bool.false_eq_true, if_false] at h
    obtain ⟨l', h1, h2⟩ := bind_eq_ok.mp h
    cases h2
    intro k x hx
    cases k with
    | zero => simp at hx; simp [foldR, hx]
    | succ k =>
      have h3 := allR_get h1 k x (by simpa using hx)
      have hk := (List.getElem?_eq_some_iff.mp h3).1
      rw [List.length_map, List.length_range'] at hk
      rw [List.getElem?_map, List.getElem?_range' hk] at h3
      simp only [Option.map_some, Option.some.injEq, Nat.one_mul] at h3
      rw [reduceList_eq f (by simp), Nat.add_comm 1 k] at h3
      exact h3

theorem scanVals_ok {f : α → α → R α} {row : List α} (h : ∀ k, k < row.length → ∃ y, foldR f (row.take (k + 1)) = .ok y) :
    ∃ l, scanVals false f row = .ok l := by
  cases row with
  | nil => exact ⟨[], rfl⟩
  | cons a xs =>
    simp only [scanVals, Bool.false_eq_true, if_false]
    obtain ⟨l, hl⟩ := allR_ok (rs := (List.range' 1 xs.length).map fun j => reduceList f ((a :: xs).take (j + 1))) (by
      intro r hr
      obtain ⟨j, hj, rfl⟩ := List.mem_map.mp hr
      rw [List.mem_range'] at hj
      obtain ⟨i, hi, rfl⟩ := hj
      obtain ⟨y, hy⟩ := h (1 + 1 * i) (by simp; omega)
      exact ⟨y, by rw [reduceList_eq f (by simp)]; exact hy⟩)
    exact ⟨_, by rw [hl, bind_ok]⟩

/-- With an associative operator, the short way and the reductions of the prefixes agree as far as both give values; `den` is
what an element stands for. -/
theorem foldR_den {M : Type} {f : α → α → R α} {P : α → Prop} {den : α → M} {mul : M → M → M} (hassoc : ∀ x y z, mul (mul x y) z = mul x (mul y z))
    (hf : ∀ x y z, P x → P y → f x y = .ok z → P z ∧ den z = mul (den x) (den y)) : ∀ (xs : List α) (x y : α), (∀ z ∈ x :: xs, P z) →
    foldR f (x :: xs) = .ok y → P y ∧ den y = (xs.map den).foldl mul (den x)
  | [], x, y, h, e => by cases e; exact ⟨h x (by simp), rfl⟩
  | a :: xs, x, y, h, e => by
    obtain ⟨b, h1, h2⟩ := bind_eq_ok.mp (show (foldR f (a :: xs)).bind (f x) = .ok y from e)
    obtain ⟨h3, h4⟩ := foldR_den hassoc hf xs a b (fun z hz => h z (by simp [hz])) h1
    obtain ⟨h5, h6⟩ := hf x b y (h x (by simp)) h3 h2
    refine ⟨h5, ?_⟩
    rw [h6, h4, List.map_cons, List.foldl_cons]
    have gen : ∀ (l : List M) (a b : M), mul a (l.foldl mul b) = l.foldl mul (mul a b) := by
      intro l
      induction l with
      | nil => intro a b; rfl
      | cons c l ih => intro a b; simp only [List.foldl_cons]; rw [ih, hassoc]
    exact gen _ _ _

theorem scanA_den {M : Type} {f : α → α → R α} {P : α → Prop} {den : α → M} {mul : M → M → M}
    (hf : ∀ x y z, P x → P y → f x y = .ok z → P z ∧ den z = mul (den x) (den y)) : ∀ (xs : List α) (x : α) (l : List α), P x → (∀ z ∈ xs, P z) →
    scanA f x xs = .ok l → ∀ (k : Nat) (z : α), l[k]? = some z → den z = ((xs.take (k + 1)).map den).foldl mul (den x)
  | [], _, l, _, _, e => by cases e; simp
  | a :: xs, x, l, hx, h, e => by
    obtain ⟨y, h1, h2⟩ := bind_eq_ok.mp (show (f x a).bind _ = .ok l from e)
    obtain ⟨l', h3, h4⟩ := bind_eq_ok.mp h2
    cases h4
    obtain ⟨h5, h6⟩ := hf x a y hx (h a (by simp)) h1
    intro k z hz
    cases k with
    | zero => simp at hz; simp [← hz, h6]
    | succ k =>
      have := scanA_den hf xs y l' h5 (fun z hz => h z (by simp [hz])) h3 k z (by simpa using hz)
      rw [this, h6, List.take_succ_cons, List.map_cons, List.foldl_cons]

theorem scanVals_den {M : Type} {f : α → α → R α} {P : α → Prop} {den : α → M} {mul : M → M → M} (hassoc : ∀ x y z, mul (mul x y) z = mul x (mul y z))
    (hf : ∀ x y z, P x → P y → f x y = .ok z → P z ∧ den z = mul (den x) (den y)) {row l : List α} (hP : ∀ z ∈ row, P z) {assoc : Bool}
    (h : scanVals assoc f row = .ok l) (k : Nat) (x y : α) (hx : l[k]? = some x) (hy : foldR f (row.take (k + 1)) = .ok y) : den x = den y := by
  cases assoc with
  | false =>
    have := scanVals_get h k x hx
    rw [this] at hy; cases hy; rfl
  | true =>
    cases row with
    | nil => cases h; simp at hx
    | cons a xs =>
      simp only [scanVals, if_true] at h
      obtain ⟨l', h1, h2⟩ := bind_eq_ok.mp h
      cases h2
      rw [List.take_succ_cons] at hy
      have h3 := (foldR_den hassoc hf (xs.take k) a y (by
        intro z hz
        rcases List.mem_cons.mp hz with rfl | hz
        · exact hP _ (by simp)
        · exact hP z (by simp [List.mem_of_mem_take hz])) hy).2
      cases k with
      | zero => simp at hx hy; rw [h3, ← hx]; rfl
      | succ k =>
        rw [h3]
        exact scanA_den hf xs a l' (hP a (by simp)) (fun z hz => hP z (by simp [hz])) h1 k x (by simpa using hx)

/-! ## Scans of values -/

theorem scan_vec (S : Sched) (num : α → Bool) (op : String) (f : α → α → R α) {l : List α} (hl : l ≠ []) :
    scan S num op f (.vec l) = (scanVals (knownAssoc op) f l).bind fun d => .ok (.vec d) := by
  have hp : 0 < l.length := List.length_pos_iff.mpr hl
  simp only [scan]
  rw [if_neg (by omega), scanRow_eq (knownAssoc op) f l hp (by omega) (by simp [newEd]), List.drop_zero, List.take_length, bind_assoc]
  have : ∀ d, scanVals (knownAssoc op) f l = .ok d → (puts (newEd l.length) 0 d).bind (fun e => e.publish.bind fun d => R.ok (V.vec d)) = .ok (.vec d) := by
    intro d hd
    have hlen := scanVals_len _ _ _ _ hd
    obtain ⟨e, h1, h2⟩ := puts_toward (t := d) (l := d) (k := 0) (toward_new d hlen.symm) (by intro j x hx; simpa using hx)
    rw [h1, bind_ok, toward_publish h2 (by intro i hi; right; omega), bind_ok]
  cases hs : scanVals (knownAssoc op) f l with
  | ok d => rw [bind_ok, bind_ok, this d hs]
  | err m => rfl
  | crash => rfl
  | hang => rfl

theorem scan_mat (S : Sched) (num : α → Bool) (op : String) (f : α → α → R α) {m : Mat α} {s : List Nat} {d : Nat} (hm : (V.mat m).Ok)
    (hs : m.shape = s ++ [d]) (hne : s ≠ []) (hd : 0 < d) :
    (∀ r, scan S num op f (.mat m) = .ok r → r.shape = m.shape ∧ r.Ok ∧ r.isMat = true ∧
      ∀ c, InB s c → ∃ l, scanVals (knownAssoc op) f ((V.mat m).lastLine d c) = .ok l ∧ ∀ k, k < d → r.at (c ++ [k]) = l[k]?) ∧
    ((∀ c, InB s c → ∃ l, scanVals (knownAssoc op) f ((V.mat m).lastLine d c) = .ok l) → ∃ r, scan S num op f (.mat m) = .ok r) := by
  have hsl : 0 < s.length := List.length_pos_iff.mpr hne
  have hlen : m.shape.length = s.length + 1 := by simp [hs]
  have hdims : ∀ x ∈ s, x ≤ maxInt := fun x hx => hm.2.2 x (by rw [hs]; simp [hx])
  have hfit : Fits s := fits_prefix (t := [d]) (by rw [← hs]; exact hm.1.fits)
  have htake : m.shape.take (m.shape.length - 1) = s := by rw [hlen, hs]; simp
  have hlast : vAt m.shape (m.shape.length - 1) = .ok d := by
    rw [hlen, hs]; simp [vAt]
  have hdl : m.data.length = vol s * d := by rw [hm.1.len, hs, vol_append]; simp [vol]
  have hend : ∀ i, i < vol s → i * d + d ≤ vol s * d := by
    intro i hi
    have := Nat.mul_le_mul_right d (show i + 1 ≤ vol s from hi)
    rwa [Nat.succ_mul] at this
  have hmodel : scan S num op f (.mat m) =
      ((pfor (S.ranges d (vol s)) (each fun i e => scanRow (knownAssoc op) f m.data (i * d) d e) (newEd m.data.length)).bind fun e => e.publish).bind
        fun t => (newMatrix m.shape t).bind fun r => R.ok (V.mat r) := by
    simp only [scan]
    rw [if_neg (by omega), hlast, bind_ok, if_neg (by omega), htake, size_allowed hfit hdims, bind_ok, bind_assoc]
  have hpf : ∀ t, _ := fun t => pfor_blocks S d (vol s) d (f := fun i e => scanRow (knownAssoc op) f m.data (i * d) d e)
    (g := fun i => scanVals (knownAssoc op) f ((m.data.drop (i * d)).take d)) (by
      intro i l hi h
      have := hend i hi
      rw [scanVals_len _ _ _ _ h, List.length_take, List.length_drop]; omega) (by
      intro i e hi he
      exact scanRow_eq (knownAssoc op) f m.data hd (by rw [hdl]; exact hend i hi) (by rw [he]; exact hend i hi)) hdl (t := t)
  have hline : ∀ c, InB s c → (V.mat m).lastLine d c = (m.data.drop (ravel s c * d)).take d := fun c hc =>
    lastLine_eq (v := .mat m) hs hc
  constructor
  · intro r hr
    rw [hmodel] at hr
    obtain ⟨t, ht, hr⟩ := bind_eq_ok.mp hr
    obtain ⟨h1, h2⟩ := (hpf t).mp ht
    obtain ⟨r', h3, h4⟩ := bind_eq_ok.mp hr
    cases h4
    obtain ⟨h5, rfl⟩ := newMatrix_Ok hm.1.rank h3
    refine ⟨rfl, ⟨h5, ?_, hm.2.2⟩, rfl, ?_⟩
    · show t.length ≤ _
      rw [h1, ← hdl]; exact hm.2.1
    · intro c hc
      refine ⟨_, by rw [hline c hc]; exact h2 _ (ravel_lt hc), ?_⟩
      intro k hk
      have hin : InB (V.mat (Mat.mk m.shape t)).shape (c ++ [k]) := by
        show InB m.shape _
        rw [hs]; exact (inB_snoc s c d k).mpr ⟨hc, hk⟩
      rw [at_data hin]
      show t[ravel m.shape (c ++ [k])]? = _
      rw [hs, ravel_snoc s c d k (inB_length hc), List.getElem?_take_of_lt hk, List.getElem?_drop]
  · intro hall
    have hok : ∀ i, i < vol s → ∃ l, scanVals (knownAssoc op) f ((m.data.drop (i * d)).take d) = .ok l := by
      intro i hi
      obtain ⟨l, hl⟩ := hall (unravel s i) (unravel_inB hi)
      rw [hline _ (unravel_inB hi), ravel_unravel hi] at hl
      exact ⟨l, hl⟩
    let hh : Nat → List α := fun i => match scanVals (knownAssoc op) f ((m.data.drop (i * d)).take d) with | .ok l => l | _ => []
    have hhg : ∀ i, i < vol s → scanVals (knownAssoc op) f ((m.data.drop (i * d)).take d) = .ok (hh i) := by
      intro i hi
      obtain ⟨l, hl⟩ := hok i hi
      simp only [hh, hl]
    obtain ⟨b1, b2⟩ := blocks_flat (w := d) (h := hh) (vol s) (fun i hi => by
      have := hend i hi
      rw [scanVals_len _ _ _ _ (hhg i hi), List.length_take, List.length_drop]; omega)
    have ht := (hpf ((List.range (vol s)).flatMap hh)).mpr ⟨b1, fun i hi => by rw [b2 i hi]; exact hhg i hi⟩
    refine ⟨.mat ⟨m.shape, (List.range (vol s)).flatMap hh⟩, ?_⟩
    rw [hmodel, ht, bind_ok, newMatrix_fits hm.1.rank (by rw [b1, hs, vol_append]; simp [vol]) hm.1.fits, bind_ok]

/-- The values of a scan for a value that is not a single element. -/
theorem scan_lines (S : Sched) (num : α → Bool) (op : String) (f : α → α → R α) {v : V α} {s : List Nat} {d : Nat} (hm : v.Ok) (hpl : v.Plain)
    (hs : v.shape = s ++ [d]) (hd : 0 < d) :
    (∀ r, scan S num op f v = .ok r → r.shape = v.shape ∧ r.Ok ∧ r.Plain ∧
      ∀ c, InB s c → ∃ l, scanVals (knownAssoc op) f (v.lastLine d c) = .ok l ∧ ∀ k, k < d → r.at (c ++ [k]) = l[k]?) ∧
    ((∀ c, InB s c → ∃ l, scanVals (knownAssoc op) f (v.lastLine d c) = .ok l) → ∃ r, scan S num op f v = .ok r) := by
  cases v with
  | elem x => simp [V.shape] at hs
  | vec l =>
    have h1 : s = [] := by
      rcases s with _ | ⟨a, s⟩
      · rfl
      · simp [V.shape] at hs
    subst h1
    have hdl : d = l.length := by simp [V.shape] at hs; exact hs.symm
    have hline : (V.vec l).lastLine d [] = l := by
      rw [lastLine_eq (v := .vec l) hs (c := []) trivial]; simp [ravel, V.data, hdl]
    have hne : l ≠ [] := List.length_pos_iff.mp (by omega)
    rw [scan_vec S num op f hne]
    constructor
    · intro r hr
      obtain ⟨t, h1, h2⟩ := bind_eq_ok.mp hr
      cases h2
      have hlen := scanVals_len _ _ _ _ h1
      refine ⟨by simp [V.shape, hlen], by rw [V.Ok, hlen]; exact hm, by simp [V.Plain, V.isMat, V.shape], ?_⟩
      intro c hc
      match c, hc with
      | [], _ =>
        refine ⟨t, by rw [hline]; exact h1, ?_⟩
        intro k hk
        have hin : InB (V.vec t).shape ([] ++ [k]) := by simp [V.shape, InB]; omega
        rw [at_data hin]
        simp [V.data, V.shape, ravel, vol]
    · intro h
      obtain ⟨t, ht⟩ := h [] trivial
      rw [hline] at ht
      exact ⟨_, by rw [ht, bind_ok]⟩
  | mat m =>
    have hne : s ≠ [] := by
      rintro rfl
      have := hpl.mp rfl
      rw [hs] at this; simp at this
    obtain ⟨h1, h2⟩ := scan_mat S num op f hm hs hne hd
    refine ⟨fun r hr => ?_, h2⟩
    obtain ⟨h3, h4, h5, h6⟩ := h1 r hr
    exact ⟨h3, h4, ⟨fun _ => by rw [h3]; exact hpl.mp rfl, fun _ => h5⟩, h6⟩

/-! ## Scans along the first axis -/

theorem transpose_Ok {S : Sched} {origin : Nat} {m : Mat α} (hm : (V.mat m).Ok) (h2 : 2 ≤ m.shape.length) (hne : 0 < m.data.length) :
    ∃ m', transpose S origin m = .ok m' ∧ (V.mat m').Ok ∧ m'.shape = m.shape.reverse ∧ 0 < m'.data.length ∧
      ∀ c, InB m.shape c → (V.mat m').at c.reverse = (V.mat m).at c := by
  obtain ⟨m', h3, h4, h5, h6⟩ := transpose_at S origin hm.1 h2 hne
  have hl : m'.data.length = m.data.length := by rw [h4.len, h5, vol_reverse, ← hm.1.len]
  refine ⟨m', h3, ⟨h4, by rw [hl]; exact hm.2.1, ?_⟩, h5, by omega, h6⟩
  intro d hd
  rw [h5, List.mem_reverse] at hd
  exact hm.2.2 d hd

theorem scanFirst_lines (S : Sched) (origin : Nat) (num : α → Bool) (op : String) (f : α → α → R α) {v : V α} {s : List Nat} {d : Nat} (hm : v.Ok)
    (hpl : v.Plain) (hs : v.shape = d :: s) (hd : 0 < vol v.shape) :
    (∀ r, scanFirst S origin num op f v = .ok r → r.shape = v.shape ∧ r.Ok ∧ r.Plain ∧
      ∀ c, InB s c → ∃ l, scanVals (knownAssoc op) f (v.firstLine d c) = .ok l ∧ ∀ k, k < d → r.at (k :: c) = l[k]?) ∧
    ((∀ c, InB s c → ∃ l, scanVals (knownAssoc op) f (v.firstLine d c) = .ok l) → ∃ r, scanFirst S origin num op f v = .ok r) := by
  have hpos : 0 < d := by rw [hs] at hd; exact Nat.pos_of_mul_pos_right hd
  cases v with
  | elem x => simp [V.shape] at hs
  | vec l =>
    have h1 : s = [] := by simp [V.shape] at hs; exact hs.2
    subst h1
    have hs' : (V.vec l).shape = [] ++ [d] := hs
    obtain ⟨h1, h2⟩ := scan_lines S num op f hm hpl hs' hpos
    simp only [scanFirst]
    refine ⟨fun r hr => ?_, fun h => ?_⟩
    · obtain ⟨h3, h4, h5, h6⟩ := h1 r hr
      refine ⟨h3, h4, h5, ?_⟩
      intro c hc
      match c, hc with
      | [], _ => exact h6 [] trivial
    · exact h2 (by
        intro c hc
        match c, hc with
        | [], _ => exact h [] trivial)
  | mat m =>
    have h2 : 2 ≤ m.shape.length := hpl.mp rfl
    have hne : 0 < m.data.length := by rw [hm.1.len]; exact hd
    obtain ⟨t, ht, tok, tsh, tne, tat⟩ := transpose_Ok (S := S) (origin := origin) hm h2 hne
    have hs0 : s ≠ [] := by
      rintro rfl
      rw [show m.shape = [d] from hs] at h2; simp at h2
    have tsh' : t.shape = s.reverse ++ [d] := by rw [tsh, show m.shape = d :: s from hs, List.reverse_cons]
    have hline : ∀ c, InB s c → (V.mat t).lastLine d c.reverse = (V.mat m).firstLine d c := by
      intro c hc
      unfold V.lastLine V.firstLine
      apply List.filterMap_congr
      intro k hk
      rw [List.mem_range] at hk
      have := tat (k :: c) (by rw [show m.shape = d :: s from hs]; exact ⟨hk, hc⟩)
      rw [List.reverse_cons] at this
      exact this
    obtain ⟨b1, b2⟩ := scan_mat S num op f tok tsh' (by simpa using hs0) hpos
    have hlast : ∃ e, vAt m.shape (m.shape.length - 1) = .ok e ∧ e ≠ 0 := by
      refine ⟨m.shape[m.shape.length - 1], by rw [vAt, List.getElem?_eq_getElem (by omega)], ?_⟩
      have := vol_pos.mp (show 0 < vol m.shape from hd) m.shape[m.shape.length - 1] (List.getElem_mem _)
      omega
    obtain ⟨e, he, he0⟩ := hlast
    have hmodel : scanFirst S origin num op f (.mat m) = (scan S num op f (.mat t)).bind fun r =>
        match r with
        | .mat r => (transpose S origin r).bind fun r => .ok (.mat r)
        | _ => .crash := by
      simp only [scanFirst]
      rw [if_neg (by omega), he, bind_ok, if_neg he0, ht, bind_ok]
      congr 1
    constructor
    · intro r hr
      rw [hmodel] at hr
      obtain ⟨q, hq, hr⟩ := bind_eq_ok.mp hr
      obtain ⟨h3, h4, h5, h6⟩ := b1 q hq
      cases q with
      | elem _ => simp [V.isMat] at h5
      | vec _ => simp [V.isMat] at h5
      | mat q =>
        obtain ⟨r', h7, h8⟩ := bind_eq_ok.mp (show (transpose S origin q).bind _ = _ from hr)
        cases h8
        have hqs : q.shape = t.shape := h3
        have hq2 : 2 ≤ q.shape.length := by rw [hqs, tsh, List.length_reverse]; exact h2
        have hqn : 0 < q.data.length := by rw [h4.1.len, hqs, ← tok.1.len]; exact tne
        obtain ⟨r2, h9, h10, h11, _, h12⟩ := transpose_Ok (S := S) (origin := origin) h4 hq2 hqn
        rw [h7] at h9
        cases h9
        have hsh : r'.shape = m.shape := by rw [h11, hqs, tsh, List.reverse_reverse]
        refine ⟨hsh, h10, ⟨fun _ => by rw [show (V.mat r').shape = m.shape from hsh]; exact h2, fun _ => rfl⟩, ?_⟩
        intro c hc
        obtain ⟨l, hl1, hl2⟩ := h6 c.reverse (inB_reverse.mpr hc)
        refine ⟨l, by rw [← hline c hc]; exact hl1, ?_⟩
        intro k hk
        rw [← hl2 k hk]
        have := h12 (c.reverse ++ [k]) (by rw [hqs, tsh']; exact (inB_snoc _ _ _ _).mpr ⟨inB_reverse.mpr hc, hk⟩)
        rw [List.reverse_append, List.reverse_reverse] at this
        exact this
    · intro hall
      obtain ⟨q, hq⟩ := b2 (by
        intro c hc
        have hc' : InB s c.reverse := by have := inB_reverse.mpr hc; rwa [List.reverse_reverse] at this
        have := hall c.reverse hc'
        rw [← hline _ hc', List.reverse_reverse] at this
        exact this)
      obtain ⟨h3, h4, h5, _⟩ := b1 q hq
      cases q with
      | elem _ => simp [V.isMat] at h5
      | vec _ => simp [V.isMat] at h5
      | mat q =>
        have hqs : q.shape = t.shape := h3
        have hq2 : 2 ≤ q.shape.length := by rw [hqs, tsh, List.length_reverse]; exact h2
        have hqn : 0 < q.data.length := by rw [h4.1.len, hqs, ← tok.1.len]; exact tne
        obtain ⟨r2, h9, _⟩ := transpose_Ok (S := S) (origin := origin) h4 hq2 hqn
        refine ⟨.mat r2, ?_⟩
        rw [hmodel, hq, bind_ok]
        show (transpose S origin q).bind _ = _
        rw [h9, bind_ok]

end Verif.Arr
