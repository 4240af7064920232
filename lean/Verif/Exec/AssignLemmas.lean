import Verif.Exec.AssignSpec

/-!
# Assignment of several variables: lemmas
-/

namespace Verif.Exec
open Verif.Arr
variable {ν : Type} {S : Sem ν}

theorem SameBut.refl (c : Ctx ν) : SameBut c c := ⟨rfl, rfl, rfl, rfl, fun _ _ => rfl⟩

theorem SameBut.trans {a b c : Ctx ν} (h : SameBut a b) (k : SameBut b c) : SameBut a c :=
  ⟨by rw [k.env, h.env], by rw [k.len, h.len], by rw [k.frames, h.frames], by rw [k.peak, h.peak],
    fun j hj => by rw [k.above j (by rw [h.len]; exact hj), h.above j hj]⟩

theorem SameBut.has {c c' : Ctx ν} (h : SameBut c c') {k : Key} (hk : c.has k) : c'.has k := by
  cases k with
  | glob x => trivial
  | loc i => exact ⟨hk.1, by rw [h.len]; exact hk.2⟩

theorem names_mem : ∀ {l : List (Expr ν)} {i : Nat} {e : Expr ν} (_ : l[i]? = some e) {x : Key} (_ : x ∈ names e), x ∈ namesL l
  | [], _, _, h, _, _ => by simp at h
  | y :: l, 0, e, h, x, hx => by
    obtain rfl : y = e := by simpa using h
    simp [namesL, hx]
  | y :: l, i + 1, e, h, x, hx => by
    have := names_mem (l := l) (i := i) (by simpa using h) hx
    simp [namesL, this]

theorem binds_mem {e : Expr ν} {v : ν} {x : Key} {a : ν} (h : Binds S e v x a) : x ∈ names e := by
  induction h with
  | var => simp [names]
  | vec _ h2 _ _ ih =>
    simp only [names]
    exact names_mem h2 ih

/-- Assignment of one variable. -/
theorem setVar_works (x : String) (loc : Nat) (v : ν) (c : Ctx ν) (h : c.has (keyOf x loc)) :
    ∃ c', setVar x loc v c = (.ok (), c') ∧ SameBut c c' ∧ c'.holds (keyOf x loc) = some v ∧ ∀ k, c.has k → k ≠ keyOf x loc → c'.holds k = c.holds k := by
  unfold setVar
  unfold keyOf at h ⊢
  by_cases hl : 1 ≤ loc
  · rw [if_pos hl] at h ⊢
    rw [if_pos hl]
    have h2 : loc ≤ c.len := h.2
    refine ⟨{ c with slot := fun j => if j = c.len - loc then some v else c.slot j }, by rw [Ctx.setLocal, if_pos h2], ⟨rfl, rfl, rfl, rfl, fun j hj => ?_⟩, ?_, ?_⟩
    · show (if j = c.len - loc then some v else c.slot j) = _
      rw [if_neg (by omega)]
    · show (if c.len - loc = c.len - loc then some v else _) = _
      rw [if_pos rfl]
    · intro k hk hne
      cases k with
      | glob y => rfl
      | loc i =>
        have hi : 1 ≤ i ∧ i ≤ c.len := hk
        have : i ≠ loc := fun e => hne (by rw [e])
        show (if c.len - i = c.len - loc then some v else _) = _
        rw [if_neg (by omega)]
        rfl
  · rw [if_neg hl] at h ⊢
    rw [if_neg hl]
    refine ⟨_, rfl, ⟨rfl, rfl, rfl, rfl, fun _ _ => rfl⟩, ?_, ?_⟩
    · show (if x = x then some v else _) = _
      rw [if_pos rfl]
    · intro k _ hne
      cases k with
      | glob y =>
        have : y ≠ x := fun e => hne (by rw [e])
        show (if y = x then some v else _) = _
        rw [if_neg this]
        rfl
      | loc i => rfl

/-- What an assignment should do. -/
def Works (S : Sem ν) (ev : Expr ν → Ctx ν → Res ν ν) (e : Expr ν) (v : ν) : Prop :=
  ∀ c : Ctx ν, (∀ k ∈ names e, c.has k) → ∃ c', assignTo S ev e v c = (.ok (), c') ∧ SameBut c c' ∧ (∀ k, c.has k → k ∉ names e → c'.holds k = c.holds k) ∧
    ((names e).Nodup → ∀ k a, Binds S e v k a → c'.holds k = some a)

theorem assignRev_works (ev : Expr ν → Ctx ν → Res ν ν) : ∀ (l : List (Expr ν)) (vs : List ν), l.length = vs.length →
    (∀ (i : Nat) (e : Expr ν) (w : ν), l[i]? = some e → vs[i]? = some w → Works S ev e w) →
    ∀ c : Ctx ν, (∀ k ∈ namesL l, c.has k) → ∃ c', assignRev S ev l vs c = (.ok (), c') ∧ SameBut c c' ∧ (∀ k, c.has k → k ∉ namesL l → c'.holds k = c.holds k) ∧
      ((namesL l).Nodup → ∀ (i : Nat) (e : Expr ν) (w : ν) (k : Key) (a : ν), l[i]? = some e → vs[i]? = some w → Binds S e w k a → c'.holds k = some a)
  | [], [], _, _, c, _ => ⟨c, by simp [assignRev], .refl c, fun _ _ _ => rfl, fun _ i e w x a h => by simp at h⟩
  | [], _ :: _, h, _, _, _ => by simp at h
  | _ :: _, [], h, _, _, _ => by simp at h
  | e :: l, v :: vs, hl, hw, c, hc => by
    simp only [namesL, List.mem_append] at hc
    obtain ⟨c1, h1, hs1, h2, h3⟩ := assignRev_works ev l vs (by simpa using hl) (fun i e w he hw' => hw (i + 1) e w (by simpa using he) (by simpa using hw')) c
      fun k hk => hc k (.inr hk)
    obtain ⟨c', h4, hs2, h5, h6⟩ := hw 0 e v rfl rfl c1 fun k hk => hs1.has (hc k (.inl hk))
    refine ⟨c', ?_, hs1.trans hs2, ?_, ?_⟩
    · rw [assignRev, h1]
      simp only [andThen]
      rw [h4]
    · intro k hk hx
      simp only [namesL, List.mem_append, not_or] at hx
      rw [h5 k (hs1.has hk) hx.1]
      exact h2 k hk hx.2
    · intro hn i e' w k a he hv hb
      simp only [namesL, List.nodup_append] at hn
      cases i with
      | zero =>
        obtain rfl : e = e' := by simpa using he
        obtain rfl : v = w := by simpa using hv
        exact h6 hn.1 k a hb
      | succ i =>
        have he' : l[i]? = some e' := by simpa using he
        have hx : k ∈ namesL l := names_mem he' (binds_mem hb)
        rw [h5 k (hs1.has (hc k (.inr hx))) fun hm => hn.2.2 k hm k hx rfl]
        exact h3 hn.2.1 i e' w k a he' (by simpa using hv) hb

theorem works (ev : Expr ν → Ctx ν → Res ν ν) {e : Expr ν} {v : ν} (h : Fits S e v) : Works S ev e v := by
  induction h with
  | @var x loc v =>
    intro c hc
    obtain ⟨c', h1, h2, h3, h4⟩ := setVar_works x loc v c (hc _ (by simp [names]))
    refine ⟨c', by rw [assignTo, h1], h2, fun k hk hn => h4 k hk (by simpa [names] using hn), fun _ k a hb => ?_⟩
    cases hb
    exact h3
  | @vec l v vs h1 h2 _ ih =>
    intro c hc
    obtain ⟨c', h3, hs, h4, h5⟩ := assignRev_works ev l vs h2 ih c (by simpa only [names] using hc)
    refine ⟨c', ?_, hs, ?_, ?_⟩
    · rw [assignTo, h1]
      simp only
      rw [if_neg (by simp [h2]), h3]
    · simpa only [names] using h4
    · intro hn x a hb
      cases hb with
      | vec k1 k2 k3 k4 =>
        rw [h1] at k1
        cases k1
        simp only [names] at hn
        exact h5 hn _ _ _ x a k2 k3 k4

theorem andThen_ok {α β : Type} {p : Res ν α} {f : α → Ctx ν → Res ν β} {b : β} (h : (andThen p f).1 = .ok b) : ∃ a, p.1 = .ok a ∧ (f a p.2).1 = .ok b := by
  unfold andThen at h
  split at h
  · rename_i a ha
    exact ⟨a, ha, h⟩
  all_goals cases h

mutual
theorem fits_of_ok (ev : Expr ν → Ctx ν → Res ν ν) : ∀ (e : Expr ν) (v : ν) (c : Ctx ν), Targets e → (assignTo S ev e v c).1 = .ok () → Fits S e v
  | .var x loc, v, c, ht, _ => .var
  | .vec l, v, c, ht, h => by
    simp only [Targets] at ht
    rw [assignTo] at h
    cases hv : S.asVector v with
    | none => rw [hv] at h; cases h
    | some vs =>
      rw [hv] at h
      simp only at h
      by_cases hl : l.length = vs.length
      · rw [if_neg (by simp [hl])] at h
        exact .vec hv hl (fits_of_ok_list ev l vs c ht h)
      · rw [if_pos hl] at h
        cases h
  | .lit _, _, _, ht, _ => by simp [Targets] at ht
  | .hole, _, _, ht, _ => by simp [Targets] at ht
  | .unary _ _, _, _, ht, _ => by simp [Targets] at ht
  | .binary _ _ _, _, _, ht, _ => by simp [Targets] at ht
  | .cond _ _, _, _, ht, _ => by simp [Targets] at ht
  | .index _ _, _, _, ht, _ => by simp [Targets] at ht
theorem fits_of_ok_list (ev : Expr ν → Ctx ν → Res ν ν) : ∀ (l : List (Expr ν)) (vs : List ν) (c : Ctx ν), TargetsL l → (assignRev S ev l vs c).1 = .ok () →
    ∀ (i : Nat) (e : Expr ν) (w : ν), l[i]? = some e → vs[i]? = some w → Fits S e w
  | [], _, _, _, _, i, e, w, he, _ => by simp at he
  | _ :: _, [], _, _, _, i, e, w, _, hw => by simp at hw
  | e :: l, v :: vs, c, ht, h, i, e', w, he, hw => by
    simp only [TargetsL] at ht
    rw [assignRev] at h
    obtain ⟨_, h1, h2⟩ := andThen_ok h
    cases i with
    | zero =>
      obtain rfl : e = e' := by simpa using he
      obtain rfl : v = w := by simpa using hw
      exact fits_of_ok ev e v _ ht.1 h2
    | succ i => exact fits_of_ok_list ev l vs c ht.2 h1 i e' w (by simpa using he) (by simpa using hw)
end

end Verif.Exec
