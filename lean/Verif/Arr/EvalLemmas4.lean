import Verif.Arr.EvalLemmas3

namespace Verif.Arr
variable {α σ τ : Type}

/-! ## Inner products -/

theorem vAt_eq {l : List α} {i : Nat} {x : α} : vAt l i = .ok x ↔ l[i]? = some x := by
  unfold vAt
  split
  · rename_i y h; rw [h]; simp
  · rename_i h; rw [h]; simp

/-- The loop of an inner product, when element `k` of the row and the column give `gk k`. -/
theorem acc_eq (f : α → α → R α) (gk : Nat → R α) {n : Nat} (hn : 0 < n) {y : α} :
    ((gk (n - 1)).bind fun acc => loop (fun k acc => (gk k).bind fun x => f x acc) (List.range (n - 1)).reverse acc) = .ok y ↔
      ∃ xs, allR ((List.range n).map gk) = .ok xs ∧ foldR f xs = .ok y := by
  have key : ∀ xs, allR ((List.range n).map gk) = .ok xs →
      ((gk (n - 1)).bind fun acc => loop (fun k acc => (gk k).bind fun x => f x acc) (List.range (n - 1)).reverse acc) = foldR f xs := by
    intro xs hxs
    have hlen : xs.length = n := by simpa using allR_len _ _ hxs
    have hget : ∀ k, k < n → gk k = vAt xs k := by
      intro k hk
      have h1 : k < xs.length := by omega
      have := allR_get hxs k xs[k] (List.getElem?_eq_getElem h1)
      rw [List.getElem?_map, List.getElem?_range hk] at this
      simp only [Option.map_some, Option.some.injEq] at this
      rw [this, vAt, List.getElem?_eq_getElem h1]
    have hne : xs ≠ [] := List.length_pos_iff.mp (by omega)
    rw [← reduceList_eq f hne, reduceList, hlen, hget (n - 1) (by omega)]
    congr 1
    funext acc
    apply loop_congr
    intro k hk acc
    rw [List.mem_reverse, List.mem_range] at hk
    rw [hget k (by omega)]
    rfl
  constructor
  · intro h
    have hall : ∀ k, k < n → ∃ x, gk k = .ok x := by
      obtain ⟨acc, h1, h2⟩ := bind_eq_ok.mp h
      have := (loop_all (fun _ => True) _ acc y trivial (fun _ _ _ _ _ _ => trivial) h2).2
      intro k hk
      rcases Nat.lt_or_ge k (n - 1) with hk' | hk'
      · obtain ⟨a, b, _, hb⟩ := this k (by rw [List.mem_reverse, List.mem_range]; exact hk')
        obtain ⟨x, hx, _⟩ := bind_eq_ok.mp hb
        exact ⟨x, hx⟩
      · rw [show k = n - 1 by omega]; exact ⟨acc, h1⟩
    obtain ⟨xs, hxs⟩ := allR_ok (rs := (List.range n).map gk) (by
      intro r hr
      obtain ⟨k, hk, rfl⟩ := List.mem_map.mp hr
      exact hall k (List.mem_range.mp hk))
    exact ⟨xs, hxs, by rw [← key xs hxs]; exact h⟩
  · rintro ⟨xs, h1, h2⟩
    rw [key xs h1]; exact h2

theorem zip_range {f : α → α → R α} {u v : List α} {p q : Nat → Nat} {n : Nat} (hp : ∀ k, k < n → p k < u.length) (hq : ∀ k, k < n → q k < v.length) :
    (List.range n).map (fun k => (vAt u (p k)).bind fun a => (vAt v (q k)).bind fun b => f a b) =
      List.zipWith f ((List.range n).filterMap fun k => u[p k]?) ((List.range n).filterMap fun k => v[q k]?) := by
  have gen : ∀ ks : List Nat, (∀ k ∈ ks, k < n) → ks.map (fun k => (vAt u (p k)).bind fun a => (vAt v (q k)).bind fun b => f a b) =
      List.zipWith f (ks.filterMap fun k => u[p k]?) (ks.filterMap fun k => v[q k]?) := by
    intro ks
    induction ks with
    | nil => intro _; rfl
    | cons k ks ih =>
      intro h
      have h1 := hp k (h k (by simp))
      have h2 := hq k (h k (by simp))
      rw [List.map_cons, ih (fun k hk => h k (by simp [hk])), List.filterMap_cons, List.filterMap_cons, List.getElem?_eq_getElem h1,
        List.getElem?_eq_getElem h2]
      simp only [List.zipWith_cons_cons, vAt, List.getElem?_eq_getElem h1, List.getElem?_eq_getElem h2, bind_ok]
  exact gen _ (fun k hk => List.mem_range.mp hk)

theorem innerAcc_eq (f g : α → α → R α) {u v : List α} {p q : Nat → Nat} {n : Nat} (hn : 0 < n) (hp : ∀ k, k < n → p k < u.length)
    (hq : ∀ k, k < n → q k < v.length) {y : α} : innerAcc f g u v p q n = .ok y ↔
      ∃ xs, allR (List.zipWith g ((List.range n).filterMap fun k => u[p k]?) ((List.range n).filterMap fun k => v[q k]?)) = .ok xs ∧ foldR f xs = .ok y := by
  rw [← zip_range hp hq]
  exact acc_eq f (fun k => (vAt u (p k)).bind fun a => (vAt v (q k)).bind fun b => g a b) hn

/-- An inner product with the sizes filled in. -/
theorem inner_elem (f g : α → α → R α) {u v : V α} (hu : u.Ok) (hv : v.Ok) {s t : List Nat} {n : Nat} (hus : u.shape = s ++ [n]) (hvs : v.shape = n :: t)
    (hn : 0 < n) {c1 c2 : List Nat} (h1 : InB s c1) (h2 : InB t c2) {y : α} :
    innerAcc f g u.data v.data (fun k => ravel s c1 * n + k) (fun k => ravel t c2 + k * vol t) n = .ok y ↔
      ∃ xs, allR (List.zipWith g (u.lastLine n c1) (v.firstLine n c2)) = .ok xs ∧ foldR f xs = .ok y := by
  have hul : u.data.length = vol s * n := by rw [data_length hu, hus, vol_append]; simp [vol]
  have hvl : v.data.length = n * vol t := by rw [data_length hv, hvs]; rfl
  rw [innerAcc_eq f g hn (by
    intro k hk
    have := ravel_lt h1
    have := Nat.mul_le_mul_right n (show ravel s c1 + 1 ≤ vol s from this)
    rw [Nat.succ_mul] at this
    rw [hul]; omega) (by
    intro k hk
    have := ravel_lt h2
    have := Nat.mul_le_mul_right (vol t) (show k + 1 ≤ n from hk)
    rw [Nat.succ_mul] at this
    rw [hvl]; omega)]
  rw [lastLine_eq hus h1, firstLine_eq hvs h2, ← slice_eq]
  have : ∀ k, ravel t c2 + k * vol t = k * vol t + ravel t c2 := fun k => Nat.add_comm _ _
  simp only [this]

theorem innerMat_eq (S : Sched) (f g : α → α → R α) {u v : Mat α} (hu : (V.mat u).Ok) (hv : (V.mat v).Ok) {s t : List Nat} {n : Nat}
    (hus : u.shape = s ++ [n]) (hvs : v.shape = n :: t) (hn : 0 < n) (hst : s ++ t ≠ []) :
    (∀ r, innerMat S f g u v = .ok r → r.shape = s ++ t ∧ r.Ok ∧ r.Plain ∧ ∀ c1 c2, InB s c1 → InB t c2 → ∃ xs y,
      allR (List.zipWith g ((V.mat u).lastLine n c1) ((V.mat v).firstLine n c2)) = .ok xs ∧ foldR f xs = .ok y ∧ r.at (c1 ++ c2) = some y) ∧
    (Fits (s ++ t) → (∀ c1 c2, InB s c1 → InB t c2 → ∃ xs y,
      allR (List.zipWith g ((V.mat u).lastLine n c1) ((V.mat v).firstLine n c2)) = .ok xs ∧ foldR f xs = .ok y) → ∃ r, innerMat S f g u v = .ok r) := by
  have hul : u.data.length / n = vol s := by
    rw [hu.1.len, hus, vol_append]; simp only [vol, Nat.mul_one]; exact Nat.mul_div_cancel _ hn
  have hvl : v.data.length / n = vol t := by
    rw [hv.1.len, hvs]; simp only [vol]; exact Nat.mul_div_cancel_left _ hn
  have hdims : ∀ x ∈ s ++ t, x ≤ maxInt := by
    intro x hx
    rcases List.mem_append.mp hx with h | h
    · exact hu.2.2 x (by rw [hus]; simp [h])
    · exact hv.2.2 x (by rw [hvs]; simp [h])
  have hsplit : ∀ x, x < vol s * vol t → InB s (unravel s (x / vol t)) ∧ InB t (unravel t (x % vol t)) ∧
      ravel s (unravel s (x / vol t)) = x / vol t ∧ ravel t (unravel t (x % vol t)) = x % vol t := by
    intro x hx
    have ht : 0 < vol t := by
      rcases Nat.eq_zero_or_pos (vol t) with h | h
      · rw [h, Nat.mul_zero] at hx; omega
      · exact h
    have h1 : x / vol t < vol s := (Nat.div_lt_iff_lt_mul ht).mpr hx
    have h2 : x % vol t < vol t := Nat.mod_lt _ ht
    exact ⟨unravel_inB h1, unravel_inB h2, ravel_unravel h1, ravel_unravel h2⟩
  have hmodel : innerMat S f g u v =
      ((pfor (S.ranges 1 (vol s * vol t)) (each fun x e =>
        (innerAcc f g u.data v.data (fun k => x / vol t * n + k) (fun k => x % vol t + k * vol t) n).bind fun y => e.put x y)
        (newEd (vol s * vol t))).bind fun e => e.publish).bind fun d =>
      if (s ++ t).length = 1 then .ok (.vec d) else (newMatrix (s ++ t) d).bind fun r => .ok (.mat r) := by
    unfold innerMat
    rw [if_neg (by
      rintro (h | h | h)
      · rw [hus] at h; simp at h
      · rw [hvs] at h; simp at h
      · rw [hus, hvs] at h; simp at h)]
    rw [show vAt v.shape 0 = .ok n by rw [hvs]; rfl, bind_ok, if_neg (by omega)]
    simp only [hul, hvl]
    rw [bind_assoc]
    rw [show u.shape.length + v.shape.length - 2 = (s ++ t).length by rw [hus, hvs]; simp; omega]
    rw [show u.shape.take (u.shape.length - 1) ++ v.shape.drop 1 = s ++ t by rw [hus, hvs]; simp]
  have hpf := fun d => pfor_map S 1 (vol s * vol t)
    (f := fun x e => (innerAcc f g u.data v.data (fun k => x / vol t * n + k) (fun k => x % vol t + k * vol t) n).bind fun y => e.put x y)
    (g := fun x => innerAcc f g u.data v.data (fun k => x / vol t * n + k) (fun k => x % vol t + k * vol t) n) (fun i e _ => rfl) (t := d)
  constructor
  · intro r hr
    rw [hmodel] at hr
    obtain ⟨d, hd, hr⟩ := bind_eq_ok.mp hr
    obtain ⟨h1, h2⟩ := (hpf d).mp hd
    have hvol : d.length = vol (s ++ t) := by rw [h1, vol_append]
    have hfit : Fits (s ++ t) := by
      by_cases hl : (s ++ t).length = 1
      · intro k h2 hk; omega
      · rw [if_neg hl] at hr
        obtain ⟨m, hm, _⟩ := bind_eq_ok.mp hr
        exact ((newMatrix_ok hst).mp hm).2.2
    obtain ⟨r', hr', h3, h4, h5, h6⟩ := finish hst hvol hfit hdims
    rw [hr'] at hr
    cases hr
    refine ⟨h3, h5, h6, ?_⟩
    intro c1 c2 hc1 hc2
    have hx : ravel (s ++ t) (c1 ++ c2) = ravel s c1 * vol t + ravel t c2 := ravel_append _ _ _ _ (inB_length hc1)
    have hin := inB_append hc1 hc2
    have hlt : ravel s c1 * vol t + ravel t c2 < d.length := by rw [← hx, hvol]; exact ravel_lt hin
    have hlt2 := ravel_lt hc2
    have hy := h2 _ _ (List.getElem?_eq_getElem hlt)
    have e1 : (ravel s c1 * vol t + ravel t c2) / vol t = ravel s c1 := by
      rw [Nat.add_comm, Nat.add_mul_div_right _ _ (by omega), Nat.div_eq_of_lt hlt2, Nat.zero_add]
    have e2 : (ravel s c1 * vol t + ravel t c2) % vol t = ravel t c2 := by
      rw [Nat.add_comm, Nat.add_mul_mod_self_right, Nat.mod_eq_of_lt hlt2]
    rw [e1, e2] at hy
    obtain ⟨xs, hxs, hxy⟩ := (inner_elem f g hu hv hus hvs hn hc1 hc2).mp hy
    refine ⟨xs, _, hxs, hxy, ?_⟩
    rw [at_data (by rw [h3]; exact hin), h4, h3, hx, List.getElem?_eq_getElem hlt]
  · intro hfit hall
    obtain ⟨d, hd, h1, _⟩ := pfor_map_ok S 1 (vol s * vol t)
      (f := fun x e => (innerAcc f g u.data v.data (fun k => x / vol t * n + k) (fun k => x % vol t + k * vol t) n).bind fun y => e.put x y)
      (g := fun x => innerAcc f g u.data v.data (fun k => x / vol t * n + k) (fun k => x % vol t + k * vol t) n) (fun i e _ => rfl) (by
        intro x hx
        obtain ⟨a1, a2, a3, a4⟩ := hsplit x hx
        obtain ⟨xs, y, hxs, hy⟩ := hall _ _ a1 a2
        refine ⟨y, ?_⟩
        have := (inner_elem f g hu hv hus hvs hn a1 a2).mpr ⟨xs, hxs, hy⟩
        rw [a3, a4] at this
        exact this)
    obtain ⟨r, hr, _⟩ := finish hst (show d.length = vol (s ++ t) by rw [h1, vol_append]) hfit hdims
    exact ⟨r, by rw [hmodel, hd, bind_ok, hr]⟩

theorem joins_narrow [Wide α] {u v : V α} (h : Joins u v) (hm : u.isMat = true ∨ v.isMat = true) : u.Narrow ∧ v.Narrow := by
  rcases hm with hm | hm
  · exact ⟨by cases u <;> simp_all [V.isMat, V.Narrow], h.1 hm⟩
  · exact ⟨h.2 hm, by cases v <;> simp_all [V.isMat, V.Narrow]⟩

theorem toMat_any [Wide α] {v : V α} (h : v.Ok) : ∃ m, v.toMat = .ok m ∧ (V.mat m).Ok ∧ m.data = v.data ∧
    (m.shape = v.promote.shape ∨ v.shape = [] ∧ m.shape = [1, 1]) ∧ m.shape.head? = v.promote.shape.head? ∧ m.shape.getLast? = v.promote.shape.getLast? := by
  have one : ∀ l : List α, l.length ≤ 2147483647 → (V.mat (Mat.mk [l.length] l)).Ok := by
    intro l hl
    refine ⟨⟨⟨by simp, by simp [vol]⟩, ?_⟩, hl, by intro d hd; simp at hd; omega⟩
    intro k h2 hk; simp at hk; omega
  cases v with
  | elem x =>
    simp only [V.toMat]
    split
    · have f : Fits [1, 1] := by decide
      refine ⟨⟨[1, 1], [x]⟩, newMatrix_fits (by simp) (by simp [vol]) f, ⟨⟨⟨by simp, by simp [vol]⟩, f⟩, by simp, ?_⟩, rfl, .inr ⟨rfl, rfl⟩, rfl, rfl⟩
      intro d hd; simp at hd; omega
    · refine ⟨⟨[1], [x]⟩, ?_, one [x] (by simp), rfl, .inl rfl, rfl, rfl⟩
      exact newMatrix_fits (by simp) (by simp [vol]) (one [x] (by simp)).1.fits
  | vec l =>
    refine ⟨⟨[l.length], l⟩, ?_, one l h, rfl, .inl rfl, rfl, rfl⟩
    exact newMatrix_fits (by simp) (by simp [vol]) (one l h).1.fits
  | mat m => exact ⟨m, rfl, h, rfl, .inl rfl, rfl, rfl⟩

theorem toMat_eq [Wide α] {v : V α} (h : v.Ok) (hw : v.Narrow) : ∃ m, v.toMat = .ok m ∧ (V.mat m).Ok ∧ m.shape = v.promote.shape ∧ m.data = v.data ∧
    ∀ c, (V.mat m).at c = v.promote.at c := by
  have one : ∀ l : List α, l.length ≤ 2147483647 → (V.mat (Mat.mk [l.length] l)).Ok := by
    intro l hl
    refine ⟨⟨⟨by simp, by simp [vol]⟩, ?_⟩, hl, by intro d hd; simp at hd; omega⟩
    intro k h2 hk; simp at hk; omega
  cases v with
  | elem x =>
    refine ⟨⟨[1], [x]⟩, ?_, one [x] (by simp), rfl, rfl, fun c => rfl⟩
    simp only [V.toMat]
    rw [if_neg (by rw [show Wide.wide x = false from hw]; simp)]
    exact newMatrix_fits (by simp) (by simp [vol]) (one [x] (by simp)).1.fits
  | vec l =>
    refine ⟨⟨[l.length], l⟩, ?_, one l h, rfl, rfl, fun c => rfl⟩
    exact newMatrix_fits (by simp) (by simp [vol]) (one l h).1.fits
  | mat m => exact ⟨m, rfl, h, rfl, rfl, fun c => rfl⟩

theorem promote_Ok {v : V α} (h : v.Ok) : v.promote.Ok := by
  cases v with
  | elem x => simp [V.promote, V.Ok]
  | vec l => exact h
  | mat m => exact h

theorem promote_plain {v : V α} (h : v.Plain) : v.promote.Plain := by
  cases v with
  | elem x => simp [V.promote, V.Plain, V.isMat, V.shape]
  | vec l => exact h
  | mat m => exact h

theorem promote_data (v : V α) : v.promote.data = v.data := by cases v <;> rfl

theorem lastLine_congr {u v : V α} (h : ∀ c, u.at c = v.at c) (n : Nat) (c : List Nat) : u.lastLine n c = v.lastLine n c := by
  unfold V.lastLine; simp only [h]

theorem firstLine_congr {u v : V α} (h : ∀ c, u.at c = v.at c) (n : Nat) (c : List Nat) : u.firstLine n c = v.firstLine n c := by
  unfold V.firstLine; simp only [h]

theorem toVec_eq {v : V α} (h : ¬ v.isMat = true) : v.toVec = .ok v.data ∧ v.promote = .vec v.data := by
  cases v with
  | elem x => exact ⟨rfl, rfl⟩
  | vec l => exact ⟨rfl, rfl⟩
  | mat m => exact absurd rfl h

theorem plain_mat {v : V α} (hp : v.Plain) (h : v.isMat = true) : 2 ≤ v.promote.shape.length := by
  cases v with
  | elem x => simp [V.isMat] at h
  | vec l => simp [V.isMat] at h
  | mat m => exact hp.mp rfl

theorem inner_eq [Wide α] (S : Sched) (f g : α → α → R α) {u v : V α} (hu : u.Ok) (hv : v.Ok) (pu : u.Plain) (pv : v.Plain) (hw : Joins u v) {s t : List Nat} {n : Nat}
    (hus : u.promote.shape = s ++ [n]) (hvs : v.promote.shape = n :: t) (hn : 0 < n) :
    (∀ r, inner S f g u v = .ok r → r.shape = s ++ t ∧ r.Ok ∧ r.Plain ∧ ∀ c1 c2, InB s c1 → InB t c2 → ∃ xs y,
      allR (List.zipWith g (u.promote.lastLine n c1) (v.promote.firstLine n c2)) = .ok xs ∧ foldR f xs = .ok y ∧ r.at (c1 ++ c2) = some y) ∧
    (Fits (s ++ t) → (∀ c1 c2, InB s c1 → InB t c2 → ∃ xs y,
      allR (List.zipWith g (u.promote.lastLine n c1) (v.promote.firstLine n c2)) = .ok xs ∧ foldR f xs = .ok y) → ∃ r, inner S f g u v = .ok r) := by
  unfold inner
  by_cases hm : u.isMat = true ∨ v.isMat = true
  · rw [if_pos hm]
    obtain ⟨mu, e1, o1, s1, _, a1⟩ := toMat_eq hu (joins_narrow hw hm).1
    obtain ⟨mv, e2, o2, s2, _, a2⟩ := toMat_eq hv (joins_narrow hw hm).2
    have hst : s ++ t ≠ [] := by
      intro h0
      obtain ⟨rfl, rfl⟩ := List.append_eq_nil_iff.mp h0
      rcases hm with h | h
      · have := plain_mat pu h; rw [hus] at this; simp at this
      · have := plain_mat pv h; rw [hvs] at this; simp at this
    rw [e1, bind_ok, e2, bind_ok]
    have := innerMat_eq S f g o1 o2 (s1.trans hus) (s2.trans hvs) hn hst
    simp only [lastLine_congr a1, firstLine_congr a2] at this
    exact this
  · rw [if_neg hm]
    have hm1 : ¬ u.isMat = true := fun h => hm (.inl h)
    have hm2 : ¬ v.isMat = true := fun h => hm (.inr h)
    obtain ⟨e1, p1⟩ := toVec_eq hm1
    obtain ⟨e2, p2⟩ := toVec_eq hm2
    rw [e1, bind_ok, e2, bind_ok]
    rw [p1] at hus
    rw [p2] at hvs
    have hs0 : s = [] := by
      rcases s with _ | ⟨a, s⟩
      · rfl
      · simp [V.shape] at hus
    subst hs0
    have hl1 : u.data.length = n := by simpa [V.shape] using hus
    have hl2 : v.data.length = n ∧ t = [] := by simpa [V.shape] using hvs
    obtain ⟨hl2, rfl⟩ := hl2
    have hok1 : (V.vec u.data).Ok := by rw [← p1]; exact promote_Ok hu
    have hok2 : (V.vec v.data).Ok := by rw [← p2]; exact promote_Ok hv
    have key : ∀ y, innerAcc f g u.data v.data id id u.data.length = .ok y ↔
        ∃ xs, allR (List.zipWith g (u.promote.lastLine n []) (v.promote.firstLine n [])) = .ok xs ∧ foldR f xs = .ok y := by
      intro y
      rw [p1, p2]
      have := inner_elem f g (u := .vec u.data) (v := .vec v.data) hok1 hok2 (s := []) (t := []) hus hvs hn (c1 := []) (c2 := []) trivial trivial (y := y)
      rw [← this, hl1]
      have h1 : (fun k => ravel [] [] * n + k) = id := by funext k; simp [ravel]
      have h2 : (fun k => ravel [] [] + k * vol []) = id := by funext k; simp [ravel, vol]
      rw [h1, h2]
      rfl
    unfold innerVec
    rw [if_neg (by omega), if_neg (by omega)]
    constructor
    · intro r hr
      obtain ⟨y, hy, h2⟩ := bind_eq_ok.mp hr
      cases h2
      refine ⟨rfl, trivial, by simp [V.Plain, V.isMat, V.shape], ?_⟩
      intro c1 c2 h1 h2
      match c1, c2, h1, h2 with
      | [], [], _, _ =>
        obtain ⟨xs, h3, h4⟩ := (key y).mp hy
        exact ⟨xs, y, h3, h4, rfl⟩
    · intro _ hall
      obtain ⟨xs, y, h3, h4⟩ := hall [] [] trivial trivial
      exact ⟨.elem y, by rw [(key y).mpr ⟨xs, h3, h4⟩, bind_ok]⟩

/-! ## Loops over two lists -/

theorem zipData_iff (S : Sched) (f : α → α → R α) (u v : List α) (p q : Nat → Nat) (n : Nat) {t : List α} :
    zipData S f u v p q n = .ok t ↔ t.length = n ∧ ∀ (i : Nat) (x : α), t[i]? = some x → ∃ a b, u[p i]? = some a ∧ v[q i]? = some b ∧ f a b = .ok x := by
  unfold zipData
  rw [pfor_map S 1 n (g := fun k => (vAt u (p k)).bind fun a => (vAt v (q k)).bind fun b => f a b) (fun i e _ => by
    rw [bind_assoc]; congr 1; funext a; rw [bind_assoc])]
  have : ∀ i x, ((vAt u (p i)).bind fun a => (vAt v (q i)).bind fun b => f a b) = .ok x ↔ ∃ a b, u[p i]? = some a ∧ v[q i]? = some b ∧ f a b = .ok x := by
    intro i x
    constructor
    · intro h
      obtain ⟨a, h1, h2⟩ := bind_eq_ok.mp h
      obtain ⟨b, h3, h4⟩ := bind_eq_ok.mp h2
      exact ⟨a, b, vAt_eq.mp h1, vAt_eq.mp h3, h4⟩
    · rintro ⟨a, b, h1, h2, h3⟩
      rw [vAt_eq.mpr h1, bind_ok, vAt_eq.mpr h2, bind_ok, h3]
  simp only [this]

theorem zipData_ok (S : Sched) (f : α → α → R α) (u v : List α) (p q : Nat → Nat) (n : Nat)
    (h : ∀ i, i < n → ∃ a b x, u[p i]? = some a ∧ v[q i]? = some b ∧ f a b = .ok x) : ∃ t, zipData S f u v p q n = .ok t := by
  obtain ⟨t, ht, _⟩ := pfor_map_ok S 1 n (g := fun k => (vAt u (p k)).bind fun a => (vAt v (q k)).bind fun b => f a b)
    (f := fun k e => (vAt u (p k)).bind fun a => (vAt v (q k)).bind fun b => (f a b).bind fun y => e.put k y) (fun i e _ => by
    rw [bind_assoc]; congr 1; funext a; rw [bind_assoc]) (by
    intro i hi
    obtain ⟨a, b, x, h1, h2, h3⟩ := h i hi
    exact ⟨x, by rw [vAt_eq.mpr h1, bind_ok, vAt_eq.mpr h2, bind_ok, h3]⟩)
  exact ⟨t, ht⟩

/-! ## Outer products -/

theorem outerData_zip (S : Sched) (f : α → α → R α) (u v : List α) :
    outerData S f u v = zipData S f u v (fun x => x / v.length) (fun x => x % v.length) (u.length * v.length) := rfl

theorem outer_eq [Wide α] (S : Sched) (f : α → α → R α) {u v : V α} (hu : u.Ok) (hv : v.Ok) (hw : Joins u v) :
    (∀ r, outer S f u v = .ok r → r.shape = u.promote.shape ++ v.promote.shape ∧ r.Ok ∧ r.isMat = true ∧
      ∀ c1 c2, InB u.promote.shape c1 → InB v.promote.shape c2 → ∃ a b y, u.promote.at c1 = some a ∧ v.promote.at c2 = some b ∧ f a b = .ok y ∧
        r.at (c1 ++ c2) = some y) ∧
    (Fits (u.promote.shape ++ v.promote.shape) → (∀ c1 c2 a b, u.promote.at c1 = some a → v.promote.at c2 = some b → ∃ y, f a b = .ok y) →
      ∃ r, outer S f u v = .ok r) := by
  have hmodel : outer S f u v = (outerData S f u.data v.data).bind fun d => (newMatrix (u.promote.shape ++ v.promote.shape) d).bind fun r => .ok (.mat r) := by
    unfold outer
    by_cases hm : u.isMat = true ∨ v.isMat = true
    · rw [if_pos hm]
      obtain ⟨mu, e1, _, s1, d1, _⟩ := toMat_eq hu (joins_narrow hw hm).1
      obtain ⟨mv, e2, _, s2, d2, _⟩ := toMat_eq hv (joins_narrow hw hm).2
      rw [e1, bind_ok, e2, bind_ok, s1, s2, d1, d2]
    · rw [if_neg hm]
      obtain ⟨e1, p1⟩ := toVec_eq (v := u) (fun h => hm (.inl h))
      obtain ⟨e2, p2⟩ := toVec_eq (v := v) (fun h => hm (.inr h))
      rw [e1, bind_ok, e2, bind_ok, p1, p2]
      rfl
  have hok1 := promote_Ok hu
  have hok2 := promote_Ok hv
  have l1 : u.data.length = vol u.promote.shape := by rw [← promote_data, data_length hok1]
  have l2 : v.data.length = vol v.promote.shape := by rw [← promote_data, data_length hok2]
  have hdims : ∀ x ∈ u.promote.shape ++ v.promote.shape, x ≤ maxInt := by
    intro x hx
    rcases List.mem_append.mp hx with h | h
    · exact dims_small hok1 x h
    · exact dims_small hok2 x h
  have hne : u.promote.shape ++ v.promote.shape ≠ [] := by
    cases u with
    | elem x => simp [V.promote, V.shape]
    | vec l => simp [V.promote, V.shape]
    | mat m => simp only [V.promote, V.shape]; intro h; exact hu.1.rank (List.append_eq_nil_iff.mp h).1
  have hne2 : ¬ (u.promote.shape ++ v.promote.shape).length = 1 := by
    have h1 : 0 < u.promote.shape.length := by
      cases u with
      | elem x => simp [V.promote, V.shape]
      | vec l => simp [V.promote, V.shape]
      | mat m => exact List.length_pos_iff.mpr hu.1.rank
    have h2 : 0 < v.promote.shape.length := by
      cases v with
      | elem x => simp [V.promote, V.shape]
      | vec l => simp [V.promote, V.shape]
      | mat m => exact List.length_pos_iff.mpr hv.1.rank
    rw [List.length_append]; omega
  constructor
  · intro r hr
    rw [hmodel] at hr
    obtain ⟨d, hd, hr⟩ := bind_eq_ok.mp hr
    rw [outerData_zip, zipData_iff] at hd
    obtain ⟨m, hm, h2⟩ := bind_eq_ok.mp hr
    cases h2
    obtain ⟨hmo, rfl⟩ := newMatrix_Ok hne hm
    have hlen : d.length = vol (u.promote.shape ++ v.promote.shape) := hmo.len
    refine ⟨rfl, ⟨hmo, ?_, hdims⟩, rfl, ?_⟩
    · show d.length ≤ _
      rw [hlen]; exact small_vol hne hmo.fits hdims
    · intro c1 c2 hc1 hc2
      have hx : ravel (u.promote.shape ++ v.promote.shape) (c1 ++ c2) = ravel u.promote.shape c1 * vol v.promote.shape + ravel v.promote.shape c2 :=
        ravel_append _ _ _ _ (inB_length hc1)
      have hin := inB_append hc1 hc2
      have hlt : ravel u.promote.shape c1 * vol v.promote.shape + ravel v.promote.shape c2 < d.length := by rw [← hx, hlen]; exact ravel_lt hin
      have hlt2 := ravel_lt hc2
      obtain ⟨a, b, ha, hb, hy⟩ := hd.2 _ _ (List.getElem?_eq_getElem hlt)
      rw [l2, Nat.add_comm, Nat.add_mul_div_right _ _ (by omega), Nat.div_eq_of_lt hlt2, Nat.zero_add] at ha
      rw [l2, Nat.add_comm, Nat.add_mul_mod_self_right, Nat.mod_eq_of_lt hlt2] at hb
      refine ⟨a, b, _, ?_, ?_, hy, ?_⟩
      · rw [at_data hc1, promote_data]; exact ha
      · rw [at_data hc2, promote_data]; exact hb
      · rw [at_data (v := .mat ⟨_, d⟩) hin]
        show d[ravel (u.promote.shape ++ v.promote.shape) (c1 ++ c2)]? = _
        rw [hx, List.getElem?_eq_getElem hlt]
  · intro hfit hall
    obtain ⟨d, hd⟩ := zipData_ok S f u.data v.data (fun x => x / v.data.length) (fun x => x % v.data.length) (u.data.length * v.data.length) (by
      intro x hx
      have hpos : 0 < v.data.length := by
        rcases Nat.eq_zero_or_pos v.data.length with h | h
        · rw [h, Nat.mul_zero] at hx; omega
        · exact h
      have h1 : x / v.data.length < u.data.length := (Nat.div_lt_iff_lt_mul hpos).mpr hx
      have h2 : x % v.data.length < v.data.length := Nat.mod_lt _ hpos
      obtain ⟨y, hy⟩ := hall (unravel u.promote.shape (x / v.data.length)) (unravel v.promote.shape (x % v.data.length)) u.data[x / v.data.length] v.data[x % v.data.length]
        (by rw [at_data (unravel_inB (by rw [← l1]; exact h1)), ravel_unravel (by rw [← l1]; exact h1), promote_data, List.getElem?_eq_getElem h1])
        (by rw [at_data (unravel_inB (by rw [← l2]; exact h2)), ravel_unravel (by rw [← l2]; exact h2), promote_data, List.getElem?_eq_getElem h2])
      exact ⟨_, _, y, List.getElem?_eq_getElem h1, List.getElem?_eq_getElem h2, hy⟩)
    have hlen := ((zipData_iff S f _ _ _ _ _).mp hd).1
    refine ⟨.mat ⟨u.promote.shape ++ v.promote.shape, d⟩, ?_⟩
    rw [hmodel, outerData_zip, hd, bind_ok, newMatrix_fits hne (by rw [hlen, l1, l2, vol_append]) hfit, bind_ok]

end Verif.Arr
