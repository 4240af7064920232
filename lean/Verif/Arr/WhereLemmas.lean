import Verif.Arr.WhereSpec
import Verif.Arr.CatLemmas
import Verif.Arr.InvLemmas2
import Verif.Arr.IndexLemmas3

namespace Verif.Arr

/-! ## Order of coordinates -/

theorem lexLe_refl : ∀ c : List Nat, LexLe c c
  | [] => trivial
  | _ :: c => .inr ⟨rfl, lexLe_refl c⟩

theorem unravel_mono : ∀ (s : List Nat) {k k' : Nat}, k ≤ k' → k' < vol s → LexLe (unravel s k) (unravel s k')
  | [], _, _, _, _ => trivial
  | d :: s, k, k', h, h' => by
    simp only [unravel, LexLe]
    have hle : k / vol s ≤ k' / vol s := Nat.div_le_div_right h
    rcases Nat.lt_or_eq_of_le hle with hlt | heq
    · exact .inl hlt
    · refine .inr ⟨heq, unravel_mono s ?_ ?_⟩
      · have e1 := Nat.div_add_mod k (vol s)
        have e2 := Nat.div_add_mod k' (vol s)
        rw [heq] at e1
        omega
      · have hp : 0 < vol s := by
          rcases Nat.eq_zero_or_pos (vol s) with h0 | h0
          · simp [vol, h0] at h'
          · exact h0
        exact Nat.mod_lt _ hp

/-- The coordinates of an array, each repeated. -/
def coordsOf (s : List Nat) (cnt : Nat → Nat) (n : Nat) : List (List Nat) := (List.range n).flatMap fun k => List.replicate (cnt k) (unravel s k)

theorem coordsOf_succ (s : List Nat) (cnt : Nat → Nat) (n : Nat) : coordsOf s cnt (n + 1) = coordsOf s cnt n ++ List.replicate (cnt n) (unravel s n) := by
  simp [coordsOf, List.range_succ, List.flatMap_append]

theorem coordsOf_mem {s : List Nat} {cnt : Nat → Nat} {n : Nat} {c : List Nat} (h : c ∈ coordsOf s cnt n) : ∃ k, k < n ∧ c = unravel s k := by
  simp only [coordsOf, List.mem_flatMap, List.mem_range, List.mem_replicate] at h
  obtain ⟨k, hk, _, hc⟩ := h
  exact ⟨k, hk, hc⟩

theorem coordsOf_sorted (s : List Nat) (cnt : Nat → Nat) : ∀ n, n ≤ vol s → (coordsOf s cnt n).Pairwise LexLe
  | 0, _ => by simp [coordsOf]
  | n + 1, h => by
    rw [coordsOf_succ, List.pairwise_append]
    refine ⟨coordsOf_sorted s cnt n (by omega), ?_, ?_⟩
    · rw [List.pairwise_replicate]
      exact .inr (lexLe_refl _)
    · intro a ha b hb
      obtain ⟨k, hk, rfl⟩ := coordsOf_mem ha
      rw [(List.mem_replicate.mp hb).2]
      exact unravel_mono s (by omega) (by omega)

theorem coordsOf_count (s : List Nat) (cnt : Nat → Nat) {wr : List Nat → V Int} (inj : ∀ c d, InB s c → InB s d → wr c = wr d → c = d) {k : Nat} (hk : k < vol s) :
    ∀ n, n ≤ vol s → ((coordsOf s cnt n).map wr).count (wr (unravel s k)) = if k < n then cnt k else 0
  | 0, _ => by simp [coordsOf]
  | n + 1, h => by
    rw [coordsOf_succ, List.map_append, List.count_append, coordsOf_count s cnt inj hk n (by omega), List.map_replicate, List.count_replicate]
    by_cases hkn : k = n
    · subst hkn
      simp
    · have hne : wr (unravel s n) ≠ wr (unravel s k) := by
        intro e
        have := inj _ _ (unravel_inB (by omega)) (unravel_inB hk) e
        have e2 := congrArg (ravel s) this
        rw [ravel_unravel (by omega), ravel_unravel hk] at e2
        omega
      have : (wr (unravel s n) == wr (unravel s k)) = false := by simpa using hne
      simp only [this]
      by_cases hlt : k < n
      · rw [if_pos hlt, if_pos (show k < n + 1 by omega)]; simp
      · rw [if_neg hlt, if_neg (show ¬ k < n + 1 by omega)]; simp

theorem where_of {v : V Small} (hv : v.Ok) {cnt : Nat → Nat} (h : ∀ k, k < v.data.length → v.data[k]? = some (some (cnt k : Int)))
    {wr : List Nat → V Int} (inj : ∀ c d, InB v.shape c → InB v.shape d → wr c = wr d → c = d) :
    Where v wr ((coordsOf v.shape cnt v.data.length).map wr) := by
  have hl : v.data.length = vol v.shape := data_length hv
  refine ⟨?_, ?_, ⟨_, rfl, coordsOf_sorted _ _ _ (by omega)⟩⟩
  · intro c hc
    have hr := ravel_lt hc
    refine ⟨cnt (ravel v.shape c), ?_, ?_⟩
    · rw [at_data hc]
      exact h _ (by omega)
    · have := coordsOf_count v.shape cnt inj hr v.data.length (by omega)
      rw [unravel_ravel hc, if_pos (by omega)] at this
      exact this
  · intro x hx
    obtain ⟨c, hc, rfl⟩ := List.mem_map.mp hx
    obtain ⟨k, hk, rfl⟩ := coordsOf_mem hc
    exact ⟨_, unravel_inB (by omega), rfl⟩

/-! ## The loops of `where` -/

theorem uintAt_ok {l : List Small} {i n : Nat} {msg : String} (h : l[i]? = some (some (n : Int))) : uintAt l i msg = .ok n := by
  unfold uintAt
  rw [h]
  show (if (n : Int) < 0 then _ else _) = _
  rw [if_neg (by omega)]
  simp

theorem uintAt_or (l : List Small) (i : Nat) (msg : String) (hi : i < l.length) :
    (∃ n : Nat, l[i]? = some (some (n : Int)) ∧ uintAt l i msg = .ok n) ∨ (uintAt l i msg = .err msg ∧ ¬ ∃ n : Nat, l[i]? = some (some (n : Int))) := by
  unfold uintAt
  rw [List.getElem?_eq_getElem hi]
  cases l[i] with
  | none => exact .inr ⟨rfl, by rintro ⟨n, h⟩; cases h⟩
  | some x =>
    dsimp only
    by_cases hx : x < 0
    · rw [if_pos hx]
      refine .inr ⟨rfl, ?_⟩
      rintro ⟨n, h⟩
      cases h
      omega
    · rw [if_neg hx]
      exact .inl ⟨x.toNat, by rw [Int.toNat_of_nonneg (by omega)], rfl⟩

theorem whereVec_ok {origin : Nat} {v : List Small} {cnt : Nat → Nat} (h : ∀ k, k < v.length → v[k]? = some (some (cnt k : Int))) :
    whereVec origin v = .ok ((coordsOf [v.length] cnt v.length).map (written origin)) := by
  obtain ⟨s', h1, h2⟩ := loop_range0 (f := fun i (result : List (V Int)) => (uintAt v i "where argument").bind fun e =>
      .ok (result ++ List.replicate e (.elem ((origin + i : Nat) : Int)))) (fun k r => r = (coordsOf [v.length] cnt k).map (written origin)) v.length []
      (by simp [coordsOf]) (by
        intro k s hk hs
        refine ⟨_, by rw [uintAt_ok (h k hk), bind_ok], ?_⟩
        rw [coordsOf_succ, List.map_append, List.map_replicate, hs]
        simp [unravel, vol, written, Nat.add_comm])
  unfold whereVec
  rw [h1, h2]

theorem whereMat_ok {origin : Nat} {m : Mat Small} (hm : m.data.length = vol m.shape) {cnt : Nat → Nat} (h : ∀ k, k < m.data.length → m.data[k]? = some (some (cnt k : Int))) :
    whereMat origin m = .ok ((coordsOf m.shape cnt m.data.length).map (writtenVec origin)) := by
  obtain ⟨s', h1, h2, h3⟩ := loop_range0 (f := fun i (s : List Nat × List (V Int)) =>
      (uintAt m.data i "where argument").bind fun e =>
      .ok ((tick m.shape s.1).1, s.2 ++ List.replicate e (.vec (s.1.map fun x => ((x + origin : Nat) : Int)))))
      (fun k s => s.1 = unravel m.shape (k % vol m.shape) ∧ s.2 = (coordsOf m.shape cnt k).map (writtenVec origin)) m.data.length
      (List.replicate m.shape.length 0, []) ⟨by rw [Nat.zero_mod, unravel_zero], by simp [coordsOf]⟩ (by
        rintro k ⟨c, r⟩ hk ⟨rfl, rfl⟩
        refine ⟨_, by rw [uintAt_ok (h k hk), bind_ok], ?_, ?_⟩
        · dsimp only
          rw [Nat.mod_eq_of_lt (by omega), tick_unravel (by omega)]
        · dsimp only
          rw [coordsOf_succ, List.map_append, List.map_replicate, Nat.mod_eq_of_lt (by omega)]
          rfl)
  unfold whereMat
  rw [h1, bind_ok, h3]

theorem whereVec_err {origin : Nat} {v : List Small} {i : Nat} (hi : i < v.length) (h : ¬ ∃ n : Nat, v[i]? = some (some (n : Int))) :
    whereVec origin v = .err "where argument" := by
  rcases loop_or (m := "where argument") (f := fun i (result : List (V Int)) => (uintAt v i "where argument").bind fun e =>
      .ok (result ++ List.replicate e (.elem ((origin + i : Nat) : Int)))) v.length [] (fun k _ => ¬ i < k) (by omega) (by
        intro y s hy hs
        rcases uintAt_or v y "where argument" hy with ⟨n, h1, h2⟩ | ⟨h1, _⟩
        · left
          refine ⟨_, by rw [h2, bind_ok], ?_⟩
          intro hlt
          have : y = i := by omega
          exact h ⟨n, this ▸ h1⟩
        · right; rw [h1]; rfl) with ⟨_, _, h2⟩ | h2
  · exact absurd hi h2
  · exact h2

theorem whereMat_err {origin : Nat} {m : Mat Small} {i : Nat} (hi : i < m.data.length) (h : ¬ ∃ n : Nat, m.data[i]? = some (some (n : Int))) :
    whereMat origin m = .err "where argument" := by
  rcases loop_or (m := "where argument") (f := fun i (s : List Nat × List (V Int)) =>
      (uintAt m.data i "where argument").bind fun e =>
      .ok ((tick m.shape s.1).1, s.2 ++ List.replicate e (.vec (s.1.map fun x => ((x + origin : Nat) : Int))))) m.data.length
      (List.replicate m.shape.length 0, []) (fun k _ => ¬ i < k) (by omega) (by
        intro y s hy hs
        rcases uintAt_or m.data y "where argument" hy with ⟨n, h1, h2⟩ | ⟨h1, _⟩
        · left
          refine ⟨_, by rw [h2, bind_ok], ?_⟩
          intro hlt
          have : y = i := by omega
          exact h ⟨n, this ▸ h1⟩
        · right; rw [h1]; rfl) with ⟨_, _, h2⟩ | h2
  · exact absurd hi h2
  · unfold whereMat
    rw [h2]; rfl

/-! ## `iota` -/

theorem tickFrom_eq (origin : Nat) : ∀ (s c : List Nat), tickFrom origin s (c.map fun i => ((i + origin : Nat) : Int)) =
    ((tick s c).1.map (fun i => ((i + origin : Nat) : Int)), (tick s c).2)
  | [], c => by simp [tickFrom, tick]
  | _ :: _, [] => by simp [tickFrom, tick]
  | d :: s, i :: c => by
    simp only [List.map_cons, tickFrom, tick, tickFrom_eq origin s c]
    cases (tick s c).2
    · simp
    · simp only [if_true]
      by_cases h : i + 1 < d
      · rw [if_pos h, if_pos (by omega)]
        simp; omega
      · rw [if_neg h, if_neg (by omega)]
        simp

theorem vol_snoc' (s : List Nat) (d : Nat) : vol (s ++ [d]) = vol s * d := by
  rw [vol_prod, vol_prod]; simp

open Classical in
/-- The loop over the coordinates, started after some. -/
theorem iotaShape_go (v : List Nat) : ∀ (done : List Nat), (∀ d ∈ v, d ≤ maxInt) → 
    loopOver (fun x (s : List Nat × Nat) =>
      match x with
      | none => .err "bad coordinate in iota"
      | some c =>
        if c < 0 ∨ (maxInt : Int) < c then R.err "bad coordinate in iota" else
        if s.2 * c.toNat > maxInt then .err "shape too large in iota" else .ok (s.1 ++ [c.toNat], s.2 * c.toNat)) (v.map fun d : Nat => some (d : Int)) (done, vol done) =
    if ∀ k, done.length < k → k ≤ done.length + v.length → vol ((done ++ v).take k) ≤ maxInt then .ok (done ++ v, vol (done ++ v)) else .err "shape too large in iota" := by
  induction v with
  | nil =>
    intro done _
    rw [if_pos (by intro k h1 h2; simp at h2; omega)]
    simp [loopOver]
  | cons d v ih =>
    intro done hd
    have h1 : d ≤ maxInt := hd d (by simp)
    have ht : (done ++ d :: v).take (done.length + 1) = done ++ [d] := by
      rw [List.take_append]; simp
    rw [List.map_cons]
    unfold loopOver
    dsimp only
    rw [if_neg (by omega), Int.toNat_natCast, ← vol_snoc']
    by_cases h2 : vol (done ++ [d]) > maxInt
    · rw [if_pos h2, if_neg]
      · rfl
      · intro h
        have := h (done.length + 1) (by omega) (by simp)
        rw [ht] at this
        omega
    · rw [if_neg h2, bind_ok, ih (done ++ [d]) (fun x hx => hd x (by simp [hx]))]
      simp only [List.append_assoc, List.singleton_append, List.length_append, List.length_cons, List.length_nil]
      by_cases h3 : ∀ k, done.length < k → k ≤ done.length + (v.length + 1) → vol ((done ++ d :: v).take k) ≤ maxInt
      · rw [if_pos h3, if_pos (fun k a b => h3 k (by omega) (by omega))]
      · rw [if_neg h3, if_neg]
        intro h4
        apply h3
        intro k a b
        rcases Nat.lt_or_ge (done.length + 1) k with h5 | h5
        · exact h4 k (by omega) (by omega)
        · rw [show k = done.length + 1 by omega, ht]
          omega

theorem iotaShape_ok {v : List Nat} (hd : ∀ d ∈ v, d ≤ maxInt) (hf : Fits v) : iotaShape (v.map fun d : Nat => some (d : Int)) = .ok (v, vol v) := by
  have h := iotaShape_go v [] hd
  rw [if_pos] at h
  · exact h
  · intro k a b
    simp only [List.length_nil, List.nil_append, Nat.zero_add] at *
    rcases Nat.lt_or_ge 1 k with h1 | h1
    · exact hf k (by omega) b
    · have : k = 1 := by omega
      subst this
      cases v with
      | nil => simp [vol, maxInt]
      | cons d v => simpa [vol] using hd d (by simp)

theorem iotaShape_err {v : List Nat} (hd : ∀ d ∈ v, d ≤ maxInt) (hf : ¬ Fits v) : iotaShape (v.map fun d : Nat => some (d : Int)) = .err "shape too large in iota" := by
  have h := iotaShape_go v [] hd
  rw [if_neg] at h
  · exact h
  · intro h0
    apply hf
    intro k a b
    have := h0 k (by simp; omega) (by simpa using b)
    exact this

theorem loopOver_fails {σ β : Type} {f : β → σ → R σ} (x : β) (hx : ∀ s, ∃ e, f x s = .err e) : ∀ (l : List β) (s : σ), x ∈ l → (∀ y ∈ l, ∀ s, (∃ s', f y s = .ok s') ∨ ∃ e, f y s = .err e) →
    ∃ e, loopOver f l s = .err e
  | [], _, h, _ => by simp at h
  | y :: l, s, h, hy => by
    simp only [loopOver]
    rcases hy y (by simp) s with ⟨s', h1⟩ | ⟨e, h1⟩
    · rcases List.mem_cons.mp h with h2 | h2
      · obtain ⟨e, he⟩ := hx s
        rw [h2, h1] at he; cases he
      · rw [h1, bind_ok]
        exact loopOver_fails x hx l s' h2 (fun y hy' => hy y (by simp [hy']))
    · exact ⟨e, by rw [h1]; rfl⟩

theorem iotaShape_bad {v : List Small} {x : Small} (hx : x ∈ v) (hbad : ¬ ∃ n : Nat, x = some (n : Int) ∧ n ≤ maxInt) : ∃ e, iotaShape v = .err e := by
  refine loopOver_fails x ?_ v _ hx ?_
  · intro s
    cases x with
    | none => exact ⟨_, rfl⟩
    | some c =>
      dsimp only
      rw [if_pos]
      · exact ⟨_, rfl⟩
      · rcases lt_or_ge c 0 with h | h
        · exact .inl h
        · right
          rcases lt_or_ge (maxInt : Int) c with h2 | h2
          · exact h2
          · exact absurd ⟨c.toNat, by rw [Int.toNat_of_nonneg h], by omega⟩ hbad
  · intro y _ s
    cases y with
    | none => exact .inr ⟨_, rfl⟩
    | some c =>
      dsimp only
      split
      · exact .inr ⟨_, rfl⟩
      · split
        · exact .inr ⟨_, rfl⟩
        · exact .inl ⟨_, rfl⟩

/-- The odometer of `iota` gives the coordinates in order. -/
theorem iotaVec_ok {origin : Nat} {v : List Nat} (h2 : 2 ≤ v.length) (hd : ∀ d ∈ v, d ≤ maxInt) (hf : Fits v) :
    iotaVec origin (v.map fun d : Nat => some (d : Int)) = .ok (.mat ⟨v, (List.range (vol v)).map fun k => writtenVec origin (unravel v k)⟩) := by
  have hne : v ≠ [] := by intro h; simp [h] at h2
  have hlen : ((List.range (vol v)).map fun k => writtenVec origin (unravel v k)).length = vol v := by simp
  obtain ⟨t, h3, _, h4⟩ := loop_range0 (f := fun i (t : List Int × Ed (V Int)) => (t.2.put i (.vec t.1)).bind fun e => .ok ((tickFrom origin v t.1).1, e))
    (fun k t => t.1 = (unravel v (k % vol v)).map (fun i => ((i + origin : Nat) : Int)) ∧
      Toward ((List.range (vol v)).map fun k => writtenVec origin (unravel v k)) (fun i => i < k) t.2) (vol v)
    (List.replicate v.length (origin : Int), newEd (vol v)) ⟨by rw [Nat.zero_mod, unravel_zero]; simp, toward_mono (toward_new _ hlen.symm) (by intro i _ h; omega)⟩ (by
      rintro k ⟨c, e⟩ hk ⟨rfl, he⟩
      dsimp only at he
      obtain ⟨e', h5, h6⟩ := toward_put he (i := k) (x := .vec ((unravel v (k % vol v)).map (fun i => ((i + origin : Nat) : Int)))) (by
        simp [hk, Nat.mod_eq_of_lt hk, writtenVec])
      refine ⟨_, by dsimp only; rw [h5, bind_ok], ?_, toward_mono h6 (by intro i _ h; omega)⟩
      dsimp only
      rw [tickFrom_eq, Nat.mod_eq_of_lt hk, tick_unravel hk])
  unfold iotaVec
  rw [if_neg (by simp; exact hne), if_neg (by simp; omega), iotaShape_ok hd hf, bind_ok]
  dsimp only
  rw [List.length_map, h3, bind_ok, toward_publish h4 (by intro i hi; rw [hlen] at hi; exact hi), bind_ok, newMatrix_fits hne hlen hf]
  rfl

end Verif.Arr
