import Verif.Arr.EvalNum
import Verif.Arr.IndexProps

/-!
# C29, C30 and C52: reductions, scans, products and elementwise operators
-/

namespace Verif.Arr
variable {α : Type}

/-! ## C29 -/

/-- C29 for vectors in full: whatever `op` is, an operator of the user or built in, each element of `op\ l` is `op/` of a prefix. -/
def C29_statement : Prop :=
  ∀ (S : Sched) (user builtin : String → Option (Int → Int → R Int)) (op : String) (l r : List Int),
    scan S (fun _ => true) op (evalBinary user builtin op) (.vec l) = .ok (.vec r) → ∀ k, k < l.length →
      ∃ y, reduce S (fun _ => true) (evalBinary user builtin op) (.vec (l.take (k + 1))) = .ok (.elem y) ∧ r[k]? = some y

/-- The operator of the user `op a min b = a - b`. -/
def C29_user (op : String) : Option (Int → Int → R Int) := if op = "min" then some fun x y => .ok (x - y) else none

/-- The full statement fails: an operator of the user named `min` is taken to be associative. -/
theorem C29_violated : ¬ C29_statement := by
  intro h
  have := h exS C29_user (fun _ => none) "min" [5, 3, 1] [5, 2, 1] (by decide +kernel) 2 (by decide)
  obtain ⟨y, h1, h2⟩ := this
  have h3 : reduce exS (fun _ => true) (evalBinary C29_user (fun _ => none) "min") (.vec ([5, 3, 1].take 3)) = .ok (.elem 3) := by decide +kernel
  rw [h3] at h1
  cases h1
  simp at h2

/-- C29, reduction along the last axis: the result is `x1 f (x2 f (… xn))` for each line, and there is a result if all these
are there. -/
theorem C29_reduce (S : Sched) (num : α → Bool) (f : α → α → R α) {v : V α} (hv : v.Ok) (hp : v.Plain) {s : List Nat} {d : Nat}
    (hs : v.shape = s ++ [d]) (hd : 0 < d) :
    (∀ r, reduce S num f v = .ok r → r.shape = s ∧ r.Ok ∧ r.Plain ∧ ∀ c, InB s c → ∃ y, foldR f (v.lastLine d c) = .ok y ∧ r.at c = some y) ∧
    ((∀ c, InB s c → ∃ y, foldR f (v.lastLine d c) = .ok y) → ∃ r, reduce S num f v = .ok r) := by
  cases v with
  | elem x => simp [V.shape] at hs
  | vec l =>
    have h1 : s = [] := by
      rcases s with _ | ⟨a, s⟩
      · rfl
      · simp [V.shape] at hs
    subst h1
    have hdl : d = l.length := by simp [V.shape] at hs; exact hs.symm
    have hline : (V.vec l).lastLine d [] = l := by
      rw [lastLine_eq (v := .vec l) hs (c := []) trivial]; simp [ravel, V.data, hdl]
    have hne : l ≠ [] := List.length_pos_iff.mp (by omega)
    have hmodel : reduce S num f (.vec l) = (foldR f l).bind fun x => .ok (.elem x) := by
      simp only [reduce]; rw [if_neg (by omega), reduceList_eq f hne]
    rw [hmodel]
    constructor
    · intro r hr
      obtain ⟨y, hy, h2⟩ := bind_eq_ok.mp hr
      cases h2
      refine ⟨rfl, trivial, by simp [V.Plain, V.isMat, V.shape], ?_⟩
      intro c hc
      match c, hc with
      | [], _ => exact ⟨y, by rw [hline]; exact hy, rfl⟩
    · intro h
      obtain ⟨y, hy⟩ := h [] trivial
      rw [hline] at hy
      exact ⟨_, by rw [hy, bind_ok]⟩
  | mat m =>
    have hne : s ≠ [] := by
      rintro rfl
      have := hp.mp rfl
      rw [hs] at this; simp at this
    exact reduce_mat S num f hv hs hne hd

/-- C29, reduction along the first axis. -/
theorem C29_reduce_first (S : Sched) (num : α → Bool) (f : α → α → R α) {v : V α} (hv : v.Ok) (hp : v.Plain) {s : List Nat} {d : Nat}
    (hs : v.shape = d :: s) (hd : 0 < vol v.shape) :
    (∀ r, reduceFirst S num f v = .ok r → r.shape = s ∧ r.Ok ∧ r.Plain ∧ ∀ c, InB s c → ∃ y, foldR f (v.firstLine d c) = .ok y ∧ r.at c = some y) ∧
    ((∀ c, InB s c → ∃ y, foldR f (v.firstLine d c) = .ok y) → ∃ r, reduceFirst S num f v = .ok r) := by
  have hd0 : 0 < d := by rw [hs] at hd; exact Nat.pos_of_mul_pos_right hd
  have hv0 : 0 < vol s := by rw [hs] at hd; exact Nat.pos_of_mul_pos_left hd
  cases v with
  | elem x => simp [V.shape] at hs
  | vec l =>
    have h1 : s = [] := by simp [V.shape] at hs; exact hs.2
    subst h1
    obtain ⟨h1, h2⟩ := C29_reduce S num f (v := .vec l) hv hp (s := []) (d := d) hs hd0
    refine ⟨fun r hr => ?_, fun h => h2 ?_⟩
    · obtain ⟨h3, h4, h5, h6⟩ := h1 r hr
      refine ⟨h3, h4, h5, ?_⟩
      intro c hc
      match c, hc with
      | [], _ => exact h6 [] trivial
    · intro c hc
      match c, hc with
      | [], _ => exact h [] trivial
  | mat m =>
    have hne : s ≠ [] := by
      rintro rfl
      have := hp.mp rfl
      rw [hs] at this; simp at this
    exact reduceFirst_mat S num f hv hs hne hd0 hv0

/-- C29, scans with operators whose name is none of those known to be associative: element `k` of each line is the reduction of
the first `k + 1` elements. Missing for the full statement: operators of the user that shadow `min`, `max`, `or`, `and` or `xor`. -/
theorem C29_scan_partial (S : Sched) (num : α → Bool) (op : String) (f : α → α → R α) {v : V α} (hv : v.Ok) (hp : v.Plain) {s : List Nat} {d : Nat}
    (hs : v.shape = s ++ [d]) (hd : 0 < d) (hop : knownAssoc op = false) :
    (∀ r, scan S num op f v = .ok r → r.shape = v.shape ∧ r.Ok ∧ r.Plain ∧ ∀ c k, InB s c → k < d →
      ∃ y, foldR f ((v.lastLine d c).take (k + 1)) = .ok y ∧ r.at (c ++ [k]) = some y) ∧
    ((∀ c k, InB s c → k < d → ∃ y, foldR f ((v.lastLine d c).take (k + 1)) = .ok y) → ∃ r, scan S num op f v = .ok r) := by
  have hlen : ∀ c, InB s c → (v.lastLine d c).length = d := by
    intro c hc
    rw [lastLine_eq hs hc, List.length_take, List.length_drop, data_length hv, hs, vol_append]
    have := Nat.mul_le_mul_right d (show ravel s c + 1 ≤ vol s from ravel_lt hc)
    rw [Nat.succ_mul] at this
    simp only [vol, Nat.mul_one]; omega
  obtain ⟨h1, h2⟩ := scan_lines S num op f hv hp hs hd
  rw [hop] at h1 h2
  constructor
  · intro r hr
    obtain ⟨h3, h4, h5, h6⟩ := h1 r hr
    refine ⟨h3, h4, h5, ?_⟩
    intro c k hc hk
    obtain ⟨l, hl1, hl2⟩ := h6 c hc
    have hll : l.length = d := by rw [scanVals_len _ _ _ _ hl1, hlen c hc]
    have hk' : k < l.length := by omega
    exact ⟨l[k], scanVals_get hl1 k _ (List.getElem?_eq_getElem hk'), by rw [hl2 k hk, List.getElem?_eq_getElem hk']⟩
  · intro h
    exact h2 (fun c hc => scanVals_ok (fun k hk => h c k hc (by rw [hlen c hc] at hk; exact hk)))

/-- C29, scans along the first axis, likewise. -/
theorem C29_scan_first_partial (S : Sched) (origin : Nat) (num : α → Bool) (op : String) (f : α → α → R α) {v : V α} (hv : v.Ok) (hp : v.Plain)
    {s : List Nat} {d : Nat} (hs : v.shape = d :: s) (hd : 0 < vol v.shape) (hop : knownAssoc op = false) :
    (∀ r, scanFirst S origin num op f v = .ok r → r.shape = v.shape ∧ r.Ok ∧ r.Plain ∧ ∀ c k, InB s c → k < d →
      ∃ y, foldR f ((v.firstLine d c).take (k + 1)) = .ok y ∧ r.at (k :: c) = some y) ∧
    ((∀ c k, InB s c → k < d → ∃ y, foldR f ((v.firstLine d c).take (k + 1)) = .ok y) → ∃ r, scanFirst S origin num op f v = .ok r) := by
  have hlen : ∀ c, InB s c → (v.firstLine d c).length = d := by
    intro c hc
    rw [firstLine_eq hs hc]
    have hall : ∀ k ∈ List.range d, (v.data[k * vol s + ravel s c]?).isSome := by
      intro k hk
      rw [List.mem_range] at hk
      have h1 := Nat.mul_le_mul_right (vol s) (show k + 1 ≤ d from hk)
      rw [Nat.succ_mul] at h1
      have h2 := ravel_lt hc
      have h3 : v.data.length = d * vol s := by rw [data_length hv, hs]; rfl
      rw [List.getElem?_eq_getElem (by omega)]; rfl
    rw [List.length_filterMap_eq_countP, List.countP_eq_length.mpr hall, List.length_range]
  obtain ⟨h1, h2⟩ := scanFirst_lines S origin num op f hv hp hs hd
  rw [hop] at h1 h2
  constructor
  · intro r hr
    obtain ⟨h3, h4, h5, h6⟩ := h1 r hr
    refine ⟨h3, h4, h5, ?_⟩
    intro c k hc hk
    obtain ⟨l, hl1, hl2⟩ := h6 c hc
    have hll : l.length = d := by rw [scanVals_len _ _ _ _ hl1, hlen c hc]
    have hk' : k < l.length := by omega
    exact ⟨l[k], scanVals_get hl1 k _ (List.getElem?_eq_getElem hk'), by rw [hl2 k hk, List.getElem?_eq_getElem hk']⟩
  · intro h
    exact h2 (fun c hc => scanVals_ok (fun k hk => h c k hc (by rw [hlen c hc] at hk; exact hk)))

/-- C29, scans by the short way, for an operator that is associative on what the elements stand for (`den`): wherever both the
scan and the reduction of the prefix give values, they stand for the same. -/
theorem C29_scan_associative_partial {M : Type} (S : Sched) (num : α → Bool) (op : String) {f : α → α → R α} {P : α → Prop} {den : α → M} {mul : M → M → M}
    (hassoc : ∀ x y z, mul (mul x y) z = mul x (mul y z)) (hf : ∀ x y z, P x → P y → f x y = .ok z → P z ∧ den z = mul (den x) (den y))
    {v : V α} (hv : v.Ok) (hp : v.Plain) {s : List Nat} {d : Nat} (hs : v.shape = s ++ [d]) (hd : 0 < d) (hP : ∀ x ∈ v.data, P x)
    {r : V α} (hr : scan S num op f v = .ok r) :
    r.shape = v.shape ∧ ∀ c k, InB s c → k < d → ∃ x, r.at (c ++ [k]) = some x ∧ ∀ y, foldR f ((v.lastLine d c).take (k + 1)) = .ok y → den x = den y := by
  obtain ⟨h1, _⟩ := scan_lines S num op f hv hp hs hd
  obtain ⟨h3, h4, h5, h6⟩ := h1 r hr
  refine ⟨h3, ?_⟩
  intro c k hc hk
  obtain ⟨l, hl1, hl2⟩ := h6 c hc
  have hlen : (v.lastLine d c).length = d := by
    rw [lastLine_eq hs hc, List.length_take, List.length_drop, data_length hv, hs, vol_append]
    have := Nat.mul_le_mul_right d (show ravel s c + 1 ≤ vol s from ravel_lt hc)
    rw [Nat.succ_mul] at this
    simp only [vol, Nat.mul_one]; omega
  have hk' : k < l.length := by rw [scanVals_len _ _ _ _ hl1, hlen]; exact hk
  refine ⟨l[k], by rw [hl2 k hk, List.getElem?_eq_getElem hk'], ?_⟩
  intro y hy
  refine scanVals_den hassoc hf ?_ hl1 k _ y (List.getElem?_eq_getElem hk') hy
  intro z hz
  rw [lastLine_eq hs hc] at hz
  exact hP z (List.mem_of_mem_drop (List.mem_of_mem_take hz))

/-- C29, `+\`, `*\`, `min\`, `max\`, `or\`, `and\` and `xor\` as built in, on exact numbers: every element has the value of the
reduction of the prefix whenever that has one. -/
theorem C29_scan_numbers (S : Sched) (num : Num.Num → Bool) (maxBits : Nat) {op : Num.Op2} {name : String} (hop : shortName op = some name)
    {v : V Num.Num} (hv : v.Ok) (hp : v.Plain) {s : List Nat} {d : Nat} (hs : v.shape = s ++ [d]) (hd : 0 < d) (hP : ∀ x ∈ v.data, x.Small)
    {r : V Num.Num} (hr : scan S num name (numOp maxBits op) v = .ok r) :
    knownAssoc name = true ∧ r.shape = v.shape ∧ ∀ c k, InB s c → k < d → ∃ x, r.at (c ++ [k]) = some x ∧
      ∀ y, foldR (numOp maxBits op) ((v.lastLine d c).take (k + 1)) = .ok y → x.val = y.val := by
  refine ⟨?_, C29_scan_associative_partial S num name (shortMul_assoc op) (fun x y z hx hy h => numOp_short (by rw [hop]; simp) hx hy h) hv hp hs hd hP hr⟩
  cases op <;> simp only [shortName, Option.some.injEq, reduceCtorEq] at hop <;> subst hop <;> decide

/-- C29, likewise without a limit on the size of integers: scans and reductions never fail, and so they agree. -/
theorem C29_scan_numbers_total (S : Sched) (num : Num.Num → Bool) {op : Num.Op2} {name : String} (hop : shortName op = some name)
    {v : V Num.Num} (hv : v.Ok) (hp : v.Plain) {s : List Nat} {d : Nat} (hs : v.shape = s ++ [d]) (hd : 0 < d) (hP : ∀ x ∈ v.data, x.Small) :
    ∃ r, scan S num name (numOp 0 op) v = .ok r ∧ r.shape = v.shape ∧ ∀ c k, InB s c → k < d → ∃ x y, r.at (c ++ [k]) = some x ∧
      foldR (numOp 0 op) ((v.lastLine d c).take (k + 1)) = .ok y ∧ x.val = y.val := by
  have hop' : shortName op ≠ none := by rw [hop]; simp
  have hf : ∀ x y : Num.Num, x.Small → y.Small → ∃ z, numOp 0 op x y = .ok z ∧ z.Small := fun x y hx hy => numOp_total hop' hx hy
  have hline : ∀ c, InB s c → ∀ z ∈ v.lastLine d c, z.Small := by
    intro c hc z hz
    rw [lastLine_eq hs hc] at hz
    exact hP z (List.mem_of_mem_drop (List.mem_of_mem_take hz))
  have hka : knownAssoc name = true := by
    cases op <;> simp only [shortName, Option.some.injEq, reduceCtorEq] at hop <;> subst hop <;> decide
  obtain ⟨r, hr⟩ := (scan_lines S num name (numOp 0 op) hv hp hs hd).2 (by
    intro c hc
    have := hline c hc
    rw [hka]
    cases hl : v.lastLine d c with
    | nil => exact ⟨[], rfl⟩
    | cons a xs =>
      rw [hl] at this
      obtain ⟨l, h1⟩ := scanVals_total hf xs a (this a (by simp)) (fun w hw => this w (by simp [hw]))
      exact ⟨a :: l, by simp only [scanVals, if_true, h1, bind_ok]⟩)
  obtain ⟨_, h1, h2⟩ := C29_scan_numbers S num 0 hop hv hp hs hd hP hr
  refine ⟨r, hr, h1, ?_⟩
  intro c k hc hk
  obtain ⟨x, h3, h4⟩ := h2 c k hc hk
  have hne : (v.lastLine d c).take (k + 1) ≠ [] := by
    have hlen : (v.lastLine d c).length = d := by
      rw [lastLine_eq hs hc, List.length_take, List.length_drop, data_length hv, hs, vol_append]
      have := Nat.mul_le_mul_right d (show ravel s c + 1 ≤ vol s from ravel_lt hc)
      rw [Nat.succ_mul] at this
      simp only [vol, Nat.mul_one]; omega
    apply List.length_pos_iff.mp
    rw [List.length_take]; omega
  obtain ⟨y, h5, _⟩ := foldR_total hf _ hne (fun z hz => hline c hc z (List.mem_of_mem_take hz))
  exact ⟨x, y, h3, h5, h4 y h5⟩

/-- A 2 by 3 matrix. -/
def exE : V Int := .mat ⟨[2, 3], [1, 2, 3, 10, 20, 40]⟩

/-- Subtraction. -/
def exSub (x y : Int) : R Int := .ok (x - y)

/-- Division that fails on zero. -/
def exDiv (x y : Int) : R Int := if y = 0 then .err "division by zero" else .ok (x / y)

example : exE.Ok ∧ exE.Plain ∧ exE.shape = [2] ++ [3] ∧ 0 < vol exE.shape ∧ knownAssoc "-" = false := by decide
example : reduce exS (fun _ => true) exSub exE = .ok (.vec [2, 30]) := by decide +kernel
example : reduceFirst exS (fun _ => true) exSub exE = .ok (.vec [-9, -18, -37]) := by decide +kernel
example : scan exS (fun _ => true) "-" exSub exE = .ok (.mat ⟨[2, 3], [1, -1, 2, 10, -10, 30]⟩) := by decide +kernel
example : scanFirst exS 1 (fun _ => true) "-" exSub exE = .ok (.mat ⟨[2, 3], [1, 2, 3, -9, -18, -37]⟩) := by decide +kernel
example : reduce exS (fun _ => true) exDiv (.vec [8, 4, 0]) = .err "division by zero" := by decide +kernel
example : foldR exSub (exE.lastLine 3 [1]) = .ok 30 ∧ exE.firstLine 2 [2] = [3, 40] := by decide +kernel
/-- The running sum of integers, a big integer and a fraction. -/
example : shortName .add = some "+" ∧ (∀ x ∈ (V.vec [Num.Num.int 2147483647, .int 1, .bigRat (1 / 2)]).data, Num.Num.Small x) ∧
    scan exS (fun _ => true) "+" (numOp 0 .add) (.vec [Num.Num.int 2147483647, .int 1, .bigRat (1 / 2)]) =
      .ok (.vec [.int 2147483647, .bigInt 2147483648, .bigRat (4294967297 / 2)]) := by
  refine ⟨rfl, ?_, by decide +kernel⟩
  intro x hx
  simp only [V.data, List.mem_cons, List.not_mem_nil, or_false] at hx
  rcases hx with rfl | rfl | rfl
  · constructor <;> decide
  · constructor <;> decide
  · show (1 / 2 : Rat).den ≠ 1
    decide +kernel

/-! ## C30 -/

/-- C30, inner product, but for a single fraction or complex number paired with a matrix: the result has the shape of the left operand without the last axis followed by that of the right one
without the first; each element is `f/` of the elements of a line of the left with `g` applied to those of a line of the right. -/
theorem C30_inner_partial [Wide α] (S : Sched) (f g : α → α → R α) {u v : V α} (hu : u.Ok) (hv : v.Ok) (pu : u.Plain) (pv : v.Plain) (hw : Joins u v) {s t : List Nat} {n : Nat}
    (hus : u.promote.shape = s ++ [n]) (hvs : v.promote.shape = n :: t) (hn : 0 < n) :
    (∀ r, inner S f g u v = .ok r → r.shape = s ++ t ∧ r.Ok ∧ r.Plain ∧ ∀ c1 c2, InB s c1 → InB t c2 → ∃ xs y,
      allR (List.zipWith g (u.promote.lastLine n c1) (v.promote.firstLine n c2)) = .ok xs ∧ foldR f xs = .ok y ∧ r.at (c1 ++ c2) = some y) ∧
    (Fits (s ++ t) → (∀ c1 c2, InB s c1 → InB t c2 → ∃ xs y,
      allR (List.zipWith g (u.promote.lastLine n c1) (v.promote.firstLine n c2)) = .ok xs ∧ foldR f xs = .ok y) → ∃ r, inner S f g u v = .ok r) :=
  inner_eq S f g hu hv pu pv hw hus hvs hn

/-- C30, inner product of operands that do not fit: an error. -/
theorem C30_inner_refused [Wide α] (S : Sched) (f g : α → α → R α) {u v : V α} (hu : u.Ok) (hv : v.Ok) {s t : List Nat} {n n' : Nat}
    (hus : u.promote.shape = s ++ [n]) (hvs : v.promote.shape = n' :: t) (hn : n ≠ n') : ∃ e, inner S f g u v = .err e := by
  unfold inner
  by_cases hm : u.isMat = true ∨ v.isMat = true
  · rw [if_pos hm]
    obtain ⟨mu, e1, _, _, _, _, s1⟩ := toMat_any hu
    obtain ⟨mv, e2, _, _, _, s2, _⟩ := toMat_any hv
    rw [e1, bind_ok, e2, bind_ok]
    unfold innerMat
    rw [if_pos (by
      refine .inr (.inr ?_)
      rw [s1, s2, hus, hvs]; simp [hn])]
    exact ⟨_, rfl⟩
  · rw [if_neg hm]
    obtain ⟨e1, p1⟩ := toVec_eq (v := u) (fun h => hm (.inl h))
    obtain ⟨e2, p2⟩ := toVec_eq (v := v) (fun h => hm (.inr h))
    rw [e1, bind_ok, e2, bind_ok]
    rw [p1] at hus
    rw [p2] at hvs
    unfold innerVec
    rw [if_pos (by
      have h1 : u.data.length = n := by
        rcases s with _ | ⟨a, s⟩
        · simpa [V.shape] using hus
        · simp [V.shape] at hus
      have h2 : v.data.length = n' := by simp [V.shape] at hvs; exact hvs.1
      omega)]
    exact ⟨_, rfl⟩

/-- C30, outer product, but for a single fraction or complex number paired with a matrix, and with a single number counting as a vector of length
one: the shapes one after the other; each element is `f` of an element of the left and one of the right. -/
theorem C30_outer_partial [Wide α] (S : Sched) (f : α → α → R α) {u v : V α} (hu : u.Ok) (hv : v.Ok) (hw : Joins u v) :
    (∀ r, outer S f u v = .ok r → r.shape = u.promote.shape ++ v.promote.shape ∧ r.Ok ∧ r.isMat = true ∧
      ∀ c1 c2, InB u.promote.shape c1 → InB v.promote.shape c2 → ∃ a b y, u.promote.at c1 = some a ∧ v.promote.at c2 = some b ∧ f a b = .ok y ∧
        r.at (c1 ++ c2) = some y) ∧
    (Fits (u.promote.shape ++ v.promote.shape) → (∀ c1 c2 a b, u.promote.at c1 = some a → v.promote.at c2 = some b → ∃ y, f a b = .ok y) →
      ∃ r, outer S f u v = .ok r) := outer_eq S f hu hv hw

/-- C30 for outer products in full: the shape of the result is that of the left operand followed by that of the right one. -/
def C30_outer_statement : Prop :=
  ∀ (S : Sched) (f : Num.Num → Num.Num → R Num.Num) (u v : V Num.Num), u.Ok → v.Ok → u.Plain → v.Plain → ∀ r, outer S f u v = .ok r →
    r.shape = u.shape ++ v.shape

/-- The full statement fails: with a single number as operand there are axes of length one that neither operand has. -/
theorem C30_outer_violated : ¬ C30_outer_statement := by
  intro h
  have := h exS (numOp 0 .add) (.elem (.int 2)) (.elem (.int 3)) (by decide) (by decide) (by decide) (by decide) (.mat ⟨[1, 1], [.int 5]⟩) (by decide +kernel)
  revert this
  decide

/-- How many there are depends on the number: an outer product of a matrix with `2` has one more axis than the matrix, with `1/2` two
more; and a matrix of one column times `1/2` has as many axes as the matrix, times `2` one less. -/
theorem C30_fraction_violated :
    outer exS (numOp 0 .mul) (.mat ⟨[1, 2], [.int 4, .int 6]⟩) (.elem (.int 2)) = .ok (.mat ⟨[1, 2, 1], [.int 8, .int 12]⟩) ∧
    outer exS (numOp 0 .mul) (.mat ⟨[1, 2], [.int 4, .int 6]⟩) (.elem (.bigRat (1 / 2))) = .ok (.mat ⟨[1, 2, 1, 1], [.int 2, .int 3]⟩) ∧
    inner exS (numOp 0 .add) (numOp 0 .mul) (.mat ⟨[2, 1], [.int 4, .int 6]⟩) (.elem (.int 2)) = .ok (.vec [.int 8, .int 12]) ∧
    inner exS (numOp 0 .add) (numOp 0 .mul) (.mat ⟨[2, 1], [.int 4, .int 6]⟩) (.elem (.bigRat (1 / 2))) = .ok (.mat ⟨[2, 1], [.int 2, .int 3]⟩) := by
  decide +kernel

/-- Products of arrays whose inner axis is empty end the program: a division by zero. -/
theorem C30_empty_violated : inner exS exSub exSub (.mat ⟨[2, 0], []⟩) (.mat ⟨[0, 2], ([] : List Int)⟩) = .crash ∧
    (V.mat (Mat.mk [2, 0] ([] : List Int))).Ok ∧ (V.mat (Mat.mk [2, 0] ([] : List Int))).Plain := by decide +kernel

/-- Multiplication. -/
def exMul (x y : Int) : R Int := .ok (x * y)

/-- Addition. -/
def exAdd (x y : Int) : R Int := .ok (x + y)

example : Joins (.mat ⟨[1, 1], [.int 5]⟩) (.elem (.int 2 : Num.Num)) ∧ Joins (.vec [Num.Num.int 1]) (.elem (.bigRat (1 / 2))) ∧ Joins exE (.vec [1, 0, 2]) := by decide
example : exE.promote.shape = [2] ++ [3] ∧ (V.vec [1, 0, (2 : Int)]).promote.shape = 3 :: [] ∧ (V.vec [1, 0, (2 : Int)]).Ok ∧ (V.vec [1, 0, (2 : Int)]).Plain := by decide
example : inner exS exAdd exMul exE (.vec [1, 0, 2]) = .ok (.vec [7, 90]) := by decide +kernel
example : inner exS exSub exMul exE (.mat ⟨[3, 2], [1, 2, 3, 4, 5, 6]⟩) = .ok (.mat ⟨[2, 2], [10, 12, 150, 180]⟩) := by decide +kernel
example : inner exS exAdd exMul (.vec [1, 2]) (.vec [3, (4 : Int)]) = .ok (.elem 11) := by decide +kernel
example : outer exS exSub (.vec [10, 20]) (.vec [1, 2, (3 : Int)]) = .ok (.mat ⟨[2, 3], [9, 8, 7, 19, 18, 17]⟩) := by decide +kernel
example : outer exS exSub exE (.elem 1) = .ok (.mat ⟨[2, 3, 1], [0, 1, 2, 9, 19, 39]⟩) := by decide +kernel
example : ∃ e, inner exS exAdd exMul exE (.vec [1, 2]) = .err e := ⟨_, (by decide +kernel : inner exS exAdd exMul exE (.vec [1, 2]) = .err "inner product: mismatched shapes")⟩

/-! ## C52 -/

/-- C52 in full: operands that fit a shape give a result of this shape with the operator applied to corresponding elements, and
operands of more than one element that do not fit are refused. -/
def C52_statement : Prop :=
  ∀ (S : Sched) (f : Int → Int → R Int) (u v : V Int), u.Ok → v.Ok → u.Plain → v.Plain →
    (∀ s, u.Extends s → v.Extends s → (u.shape = s ∨ v.shape = s) → ∀ r, elementwise S f u v = .ok r → r.shape = s ∧
      ∀ c, InB s c → ∃ a b y, u.src c = some a ∧ v.src c = some b ∧ f a b = .ok y ∧ r.at c = some y) ∧
    (¬ Ones u.shape → ¬ Ones v.shape → ¬ u.Extends v.shape → ¬ v.Extends u.shape → ∃ e, elementwise S f u v = .err e)

/-- The full statement fails: a 1 by 1 matrix plus a number is an array of rank one. -/
theorem C52_violated : ¬ C52_statement := by
  intro h
  have := ((h exS exAdd (.mat ⟨[1, 1], [5]⟩) (.elem 7) (by decide) (by decide) (by decide) (by decide)).1 [1, 1] (.inl rfl) (.inr (.inl rfl))
    (.inl rfl) (.mat ⟨[1], [12]⟩) (by decide +kernel)).1
  revert this
  decide

/-- The other way it fails: a matrix of shape `3 1` is used as a vector of length three. -/
theorem C52_column_violated : elementwise exS exAdd (.mat ⟨[3, 1], [1, 2, 3]⟩) (.mat ⟨[2, 3], [10, 20, 30, 40, 50, 60]⟩) =
    .ok (.mat ⟨[2, 3], [11, 22, 33, 41, 52, 63]⟩) ∧
    elementwise exS exAdd (.mat ⟨[3, 1], [1, 2, 3]⟩) (.vec [10, 20, 30]) = .ok (.mat ⟨[3], [11, 22, 33]⟩) := by decide +kernel

/-- C52 but for a right operand used for a left operand that is a matrix with a single element. -/
theorem C52_elementwise_partial [Wide α] (S : Sched) (f : α → α → R α) {u v : V α} (hu : u.Ok) (hv : v.Ok) (pu : u.Plain) (pv : v.Plain) {s : List Nat}
    (eu : u.Extends s) (ev : v.Extends s) (hs : u.shape = s ∨ v.shape = s) (hbug : ¬ (v.shape ≠ s ∧ Ones u.shape ∧ 2 ≤ u.shape.length)) :
    (∀ r, elementwise S f u v = .ok r → r.shape = s ∧ r.Ok ∧ r.Plain ∧
      ∀ c, InB s c → ∃ a b y, u.src c = some a ∧ v.src c = some b ∧ f a b = .ok y ∧ r.at c = some y) ∧
    ((∀ c a b, InB s c → u.src c = some a → v.src c = some b → ∃ y, f a b = .ok y) → ∃ r, elementwise S f u v = .ok r) :=
  elementwise_eq S f hu hv pu pv eu ev hs hbug

/-- C52, other operands of more than one element are refused, unless one is a matrix of shape `n 1 … 1`. -/
theorem C52_refused_partial [Wide α] (S : Sched) (f : α → α → R α) {u v : V α} (hu : u.Ok) (hv : v.Ok) (pu : u.Plain) (pv : v.Plain)
    (hou : ¬ Ones u.shape) (hov : ¬ Ones v.shape) (eu : ¬ u.Extends v.shape) (ev : ¬ v.Extends u.shape)
    (hcu : 2 ≤ u.shape.length → ¬ Ones (u.shape.drop 1)) (hcv : 2 ≤ v.shape.length → ¬ Ones (v.shape.drop 1)) :
    ∃ e, elementwise S f u v = .err e :=
  elementwise_refused S f hu hv pu pv hou hov (fun h => eu (.inl h)) eu ev hcu hcv

/-- C52, unary operators. -/
theorem C52_unary [Wide α] (S : Sched) (f : α → R α) {v : V α} (hv : v.Ok) (pv : v.Plain) :
    (∀ r, unaryElementwise S f v = .ok r → r.shape = v.shape ∧ r.Ok ∧ r.Plain ∧ ∀ c, InB v.shape c → ∃ a y, v.at c = some a ∧ f a = .ok y ∧ r.at c = some y) ∧
    ((∀ c a, v.at c = some a → ∃ y, f a = .ok y) → ∃ r, unaryElementwise S f v = .ok r) := unary_eq S f hv pv

example : (V.vec [1, 2, (3 : Int)]).Extends exE.shape ∧ (V.elem (1 : Int)).Extends exE.shape ∧ exE.Extends exE.shape :=
  ⟨.inr (.inr ⟨rfl, [2], rfl⟩), .inr (.inl rfl), .inl rfl⟩
example : exE.src [1, 2] = some 40 ∧ (V.vec [7, 8, (9 : Int)]).src [1, 2] = some 9 ∧ (V.elem (5 : Int)).src [1, 2] = some 5 := by decide
example : elementwise exS exSub exE (.vec [1, 2, 3]) = .ok (.mat ⟨[2, 3], [0, 0, 0, 9, 18, 37]⟩) := by decide +kernel
example : elementwise exS exSub (.elem 1) exE = .ok (.mat ⟨[2, 3], [0, -1, -2, -9, -19, -39]⟩) := by decide +kernel
example : elementwise exS exDiv (.vec [1, 2]) (.vec [1, 0]) = .err "division by zero" := by decide +kernel
example : ¬ Ones exE.shape ∧ ¬ (V.vec [1, (2 : Int)]).Extends exE.shape ∧ ¬ exE.Extends [2] ∧ ¬ Ones (exE.shape.drop 1) := by
  refine ⟨by decide, ?_, ?_, by decide⟩
  · rintro (h | h | ⟨_, s0, h⟩)
    · simp [V.shape, exE] at h
    · simp [V.shape] at h
    · have := congrArg List.getLast? h
      simp [V.shape, exE] at this
  · rintro (h | h | ⟨h, _⟩)
    · simp [V.shape, exE] at h
    · simp [V.shape, exE] at h
    · simp [V.shape, exE] at h
example : elementwise exS exAdd exE (.vec [1, 2]) = .err "shape mismatch" := by decide +kernel
example : unaryElementwise exS (fun x => exSub 0 x) exE = .ok (.mat ⟨[2, 3], [-1, -2, -3, -10, -20, -40]⟩) := by decide +kernel

end Verif.Arr
