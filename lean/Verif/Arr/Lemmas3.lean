import Verif.Arr.Lemmas2

/-! # Lemmas about reversal -/

namespace Verif.Arr
variable {α : Type}

theorem swap_edit {l : List α} {i j : Nat} (hi : i < l.length) (hj : j < l.length) :
    ∃ l', (edit l).swap i j = .ok (edit l') ∧ l'.length = l.length ∧
      ∀ p, l'[p]? = if p = i then l[j]? else if p = j then l[i]? else l[p]? := by
  refine ⟨(l.set i l[j]).set j l[i], ?_, by simp, ?_⟩
  · unfold Ed.swap
    rw [get_edit hi, bind_ok, get_edit hj, bind_ok, put_edit hi, bind_ok, put_edit (by simpa using hj)]
  · intro p
    rw [List.getElem?_set, List.getElem?_set]
    by_cases h1 : p = j
    · subst h1
      by_cases h2 : p = i
      · subst h2; simp [hi]
      · simp [h2, hi, hj]
    · have h1' : ¬ j = p := fun h => h1 h.symm
      by_cases h2 : p = i
      · subst h2; simp [h1', hi, hj]
      · have h2' : ¬ i = p := fun h => h2 h.symm
        simp [h1, h1', h2, h2']

theorem swapLoop_edit (l : List α) (off n : Nat) (h : off + n ≤ l.length) :
    ∃ l', swapLoop off n (edit l) = .ok (edit l') ∧ l'.length = l.length ∧
      ∀ p, l'[p]? = if off ≤ p ∧ p < off + n then l[off + (n - 1 - (p - off))]? else l[p]? := by
  obtain ⟨e, h1, l', rfl, h2, h3⟩ := loop_range0 (f := fun i e => Ed.swap e (off + i) (off + (n - 1 - i)))
    (fun k e => ∃ l', e = edit l' ∧ l'.length = l.length ∧
      ∀ p, l'[p]? = if off ≤ p ∧ p < off + n ∧ (p - off < k ∨ n - 1 - (p - off) < k) then l[off + (n - 1 - (p - off))]? else l[p]?)
    (n / 2) (edit l) ⟨l, rfl, rfl, by simp⟩ (by
      rintro k e hk ⟨l', rfl, hl, hp⟩
      obtain ⟨l2, e1, e2, e3⟩ := swap_edit (l := l') (i := off + k) (j := off + (n - 1 - k)) (by omega) (by omega)
      refine ⟨_, e1, l2, rfl, by omega, ?_⟩
      intro p
      rw [e3 p]
      by_cases h1 : p = off + k
      · subst h1
        rw [if_pos rfl, hp, if_neg (by omega), if_pos (by omega)]
        congr 1; omega
      · rw [if_neg h1]
        by_cases h2 : p = off + (n - 1 - k)
        · subst h2
          rw [if_pos rfl, hp, if_neg (by omega), if_pos (by omega)]
          congr 1; omega
        · rw [if_neg h2, hp]
          by_cases h3 : off ≤ p ∧ p < off + n ∧ (p - off < k ∨ n - 1 - (p - off) < k)
          · rw [if_pos h3, if_pos (by omega)]
          · rw [if_neg h3, if_neg (by omega)])
  refine ⟨l', h1, h2, ?_⟩
  intro p
  rw [h3 p]
  by_cases h4 : off ≤ p ∧ p < off + n
  · rw [if_pos h4]
    split
    · rfl
    · congr 1; omega
  · rw [if_neg h4, if_neg (by omega)]

theorem reverse_ok (v : List α) : Verif.Arr.reverse v = .ok v.reverse := by
  obtain ⟨l', h1, h2, h3⟩ := swapLoop_edit v 0 v.length (by omega)
  unfold Verif.Arr.reverse
  rw [h1, bind_ok, edit, publish_edit]
  congr 1
  apply List.ext_getElem?
  intro p
  rw [h3 p]
  by_cases hp : p < v.length
  · rw [if_pos (by omega), List.getElem?_reverse hp]
    congr 1; omega
  · rw [if_neg (by omega), List.getElem?_eq_none (by omega), List.getElem?_eq_none (by simp; omega)]

theorem rotLoop_edit (nc R : Nat) (hn : 0 < nc) : ∀ (fuel r : Nat) (l : List α), l.length = R * nc → r ≤ R → R - r < fuel →
    ∃ l', rotLoop (R * nc) nc fuel (r * nc) (edit l) = .ok (edit l') ∧ l'.length = l.length ∧
      ∀ p, l'[p]? = if r * nc ≤ p ∧ p < R * nc then l[p / nc * nc + (nc - 1 - p % nc)]? else l[p]? := by
  intro fuel
  induction fuel with
  | zero => intro r l _ _ h; omega
  | succ fuel ih =>
    intro r l hl hr hf
    unfold rotLoop
    by_cases hrR : r = R
    · subst hrR
      rw [if_neg (by omega)]
      exact ⟨l, rfl, rfl, fun p => by rw [if_neg (by omega)]⟩
    · have hle : r * nc + nc ≤ R * nc := by
        rw [← Nat.succ_mul]; exact Nat.mul_le_mul_right _ (by omega)
      rw [if_pos hle]
      obtain ⟨l1, e1, e2, e3⟩ := swapLoop_edit l (r * nc) nc (by omega)
      rw [e1, bind_ok]
      obtain ⟨l2, f1, f2, f3⟩ := ih (r + 1) l1 (by omega) (by omega) (by omega)
      rw [Nat.succ_mul] at f1 f3
      refine ⟨l2, f1, by omega, ?_⟩
      intro p
      rw [f3 p]
      by_cases h1 : r * nc + nc ≤ p ∧ p < R * nc
      · rw [if_pos h1, if_pos (by omega), e3, if_neg]
        have : r * nc + nc ≤ p / nc * nc := by
          rw [← Nat.succ_mul]
          exact Nat.mul_le_mul_right _ ((Nat.le_div_iff_mul_le hn).mpr (by rw [Nat.succ_mul]; omega))
        omega
      · rw [if_neg h1, e3]
        by_cases h2 : r * nc ≤ p ∧ p < r * nc + nc
        · rw [if_pos h2, if_pos (by omega)]
          have hd : p / nc = r := by
            rw [Nat.div_eq_iff hn]; constructor <;> omega
          have hm : p % nc = p - r * nc := by
            have := Nat.div_add_mod p nc
            rw [hd, Nat.mul_comm] at this; omega
          rw [hd, hm]
        · rw [if_neg h2, if_neg (by omega)]

theorem flipRow_edit (l : List α) (es lo hi : Nat) (h1 : lo + es ≤ hi) (h2 : hi + es ≤ l.length) :
    ∃ l', loop (fun i e => Ed.swap e (lo + i) (hi + i)) (List.range es) (edit l) = .ok (edit l') ∧ l'.length = l.length ∧
      ∀ p, l'[p]? = if lo ≤ p ∧ p < lo + es then l[p - lo + hi]? else if hi ≤ p ∧ p < hi + es then l[p - hi + lo]? else l[p]? := by
  obtain ⟨e, g1, l', rfl, g2, g3⟩ := loop_range0 (f := fun i e => Ed.swap e (lo + i) (hi + i))
    (fun k e => ∃ l', e = edit l' ∧ l'.length = l.length ∧
      ∀ p, l'[p]? = if lo ≤ p ∧ p < lo + k then l[p - lo + hi]? else if hi ≤ p ∧ p < hi + k then l[p - hi + lo]? else l[p]?)
    es (edit l) ⟨l, rfl, rfl, by intro p; rw [if_neg (by omega), if_neg (by omega)]⟩ (by
      rintro k e hk ⟨l', rfl, hl, hp⟩
      obtain ⟨l2, e1, e2, e3⟩ := swap_edit (l := l') (i := lo + k) (j := hi + k) (by omega) (by omega)
      refine ⟨_, e1, l2, rfl, by omega, ?_⟩
      intro p
      rw [e3 p]
      by_cases c1 : p = lo + k
      · subst c1
        rw [if_pos rfl, hp, if_neg (by omega), if_neg (by omega), if_pos (by omega)]
        congr 1; omega
      · rw [if_neg c1]
        by_cases c2 : p = hi + k
        · subst c2
          rw [if_pos rfl, hp, if_neg (by omega), if_neg (by omega), if_neg (by omega), if_pos (by omega)]
          congr 1; omega
        · rw [if_neg c2, hp]
          by_cases c3 : lo ≤ p ∧ p < lo + k
          · rw [if_pos c3, if_pos (by omega)]
          · rw [if_neg c3]
            by_cases c4 : hi ≤ p ∧ p < hi + k
            · rw [if_pos c4, if_neg (by omega), if_pos (by omega)]
            · rw [if_neg c4, if_neg (by omega), if_neg (by omega)])
  exact ⟨l', g1, g2, g3⟩

theorem flipLoop_edit (es R : Nat) (he : 0 < es) : ∀ (fuel r : Nat) (l : List α), l.length = R * es → r ≤ R → R - r < fuel →
    ∃ l', flipLoop es fuel (r * es) (((R * es : Nat) : Int) - es - ((r * es : Nat) : Int)) (edit l) = .ok (edit l') ∧ l'.length = l.length ∧
      ∀ p, l'[p]? = if r * es ≤ p ∧ p + r * es < R * es then l[(R - 1 - p / es) * es + p % es]? else l[p]? := by
  intro fuel
  induction fuel with
  | zero => intro r l _ _ h; omega
  | succ fuel ih =>
    intro r l hl hr hf
    unfold flipLoop
    by_cases hlt : r * es + es + r * es < R * es
    · rw [if_pos (by omega)]
      have h2r : 2 * r + 1 < R := by
        have : (2 * r + 1) * es < R * es := by
          rw [Nat.succ_mul, Nat.mul_assoc, Nat.two_mul]; omega
        exact Nat.lt_of_mul_lt_mul_right this
      have hsub : (R - 1 - r) * es = R * es - es - r * es := by rw [Nat.sub_mul, Nat.sub_mul, Nat.one_mul]
      have hmr : (r + 1) * es ≤ (R - 1 - r) * es := Nat.mul_le_mul_right _ (by omega)
      have hmR : (R - 1 - r + 1) * es ≤ R * es := Nat.mul_le_mul_right _ (by omega)
      rw [Nat.succ_mul] at hmr hmR
      have hhi : (((R * es : Nat) : Int) - es - ((r * es : Nat) : Int)).toNat = (R - 1 - r) * es := by omega
      rw [hhi]
      obtain ⟨l1, e1, e2, e3⟩ := flipRow_edit l es (r * es) ((R - 1 - r) * es) (by omega) (by omega)
      rw [e1, bind_ok]
      obtain ⟨l2, f1, f2, f3⟩ := ih (r + 1) l1 (by omega) (by omega) (by omega)
      rw [Nat.succ_mul] at f1 f3
      refine ⟨l2, ?_, by omega, ?_⟩
      · rw [← f1]; congr 1; omega
      · intro p
        rw [f3 p]
        have hdm := Nat.div_add_mod p es
        have hml := Nat.mod_lt p he
        rw [Nat.mul_comm] at hdm
        by_cases c1 : r * es + es ≤ p ∧ p + (r * es + es) < R * es
        · rw [if_pos c1, if_pos (by omega), e3]
          -- the mirrored row is strictly between
          have q1 : r + 1 ≤ p / es := (Nat.le_div_iff_mul_le he).mpr (by rw [Nat.succ_mul]; omega)
          have q2 : p / es < R - 1 - r := (Nat.div_lt_iff_lt_mul he).mpr (by omega)
          have q3 : (r + 1) * es ≤ (R - 1 - p / es) * es := Nat.mul_le_mul_right _ (by omega)
          have q4 : (R - 1 - p / es + 1) * es ≤ (R - 1 - r) * es := Nat.mul_le_mul_right _ (by omega)
          rw [Nat.succ_mul] at q3 q4
          rw [if_neg (by omega), if_neg (by omega)]
        · rw [if_neg c1, e3]
          by_cases c2 : r * es ≤ p ∧ p < r * es + es
          · rw [if_pos c2, if_pos (by omega)]
            have hd : p / es = r := by rw [Nat.div_eq_iff he]; constructor <;> omega
            rw [hd] at hdm ⊢
            congr 1; omega
          · rw [if_neg c2]
            by_cases c3 : (R - 1 - r) * es ≤ p ∧ p < (R - 1 - r) * es + es
            · rw [if_pos c3, if_pos (by omega)]
              have hd : p / es = R - 1 - r := by rw [Nat.div_eq_iff he]; constructor <;> omega
              rw [hd] at hdm ⊢
              rw [show R - 1 - (R - 1 - r) = r by omega]
              congr 1; omega
            · rw [if_neg c3, if_neg (by omega)]
    · rw [if_neg (by omega)]
      refine ⟨l, rfl, rfl, ?_⟩
      intro p
      split
      · rename_i hp
        -- at most the middle row is left
        have hd : R - 1 - p / es = p / es := by
          have hdm := Nat.div_add_mod p es
          have hml := Nat.mod_lt p he
          rw [Nat.mul_comm] at hdm
          have a1 : r ≤ p / es := (Nat.le_div_iff_mul_le he).mpr hp.1
          have a2 : R ≤ 2 * r + 1 := by
            have : R * es ≤ (2 * r + 1) * es := by rw [Nat.succ_mul, Nat.mul_assoc, Nat.two_mul]; omega
            exact Nat.le_of_mul_le_mul_right this he
          have a3 : p / es < R - r := (Nat.div_lt_iff_lt_mul he).mpr (by rw [Nat.sub_mul]; omega)
          omega
        rw [hd, Nat.mul_comm, Nat.div_add_mod]
      · rfl

theorem vol_le {m : Mat α} (hm : m.Ok) (h2 : 2 ≤ m.shape.length) : vol m.shape ≤ maxInt := by
  have := hm.fits m.shape.length h2 (Nat.le_refl _)
  rwa [List.take_length] at this

theorem size_of_pos {s : List Nat} (hp : 0 < vol s) (hm : vol s ≤ maxInt) : size s = .ok (vol s) :=
  size_ok fun k _ _ => Nat.lt_of_le_of_lt (Nat.le_trans (vol_take_le hp k) hm) (by decide)

/-- Unary `rot` reverses every row. -/
theorem rotRows_at {m : Mat α} (hm : m.Ok) {s : List Nat} {d : Nat} (hs : m.shape = s ++ [d]) (hr : s ≠ []) (hne : 0 < m.data.length) :
    ∃ m', rotRows m = .ok m' ∧ m'.Ok ∧ m'.shape = m.shape ∧
      ∀ c i, InB s c → i < d → m'.at (c ++ [i]) = m.at (c ++ [d - 1 - i]) := by
  have hv : vol m.shape = vol s * d := by rw [hs, vol_append]; simp [vol]
  have hd : 0 < d := by
    rcases Nat.eq_zero_or_pos d with h | h
    · rw [hm.len, hv, h] at hne; omega
    · exact h
  have hl2 : 2 ≤ m.shape.length := by
    rw [hs, List.length_append]
    have : 0 < s.length := List.length_pos_iff.mpr hr
    simp; omega
  have hsz : size m.shape = .ok (vol m.shape) := size_of_pos (by rw [← hm.len]; exact hne) (vol_le hm hl2)
  obtain ⟨l', h1, h2, h3⟩ := rotLoop_edit d (vol s) hd (vol m.shape + 2) 0 m.data (by rw [hm.len, hv]) (by omega)
    (by rw [hv]; have := Nat.le_mul_of_pos_right (vol s) hd; omega)
  rw [Nat.zero_mul, ← hv] at h1
  refine ⟨⟨m.shape, l'⟩, ?_, ⟨⟨hm.rank, by rw [← hm.len]; exact h2⟩, hm.fits⟩, rfl, ?_⟩
  · unfold rotRows
    have hg : m.shape.getLast? = some d := by rw [hs]; simp
    simp only [hg]
    rw [if_neg (by omega), hsz, bind_ok, h1, bind_ok, edit, publish_edit, bind_ok]
  · intro c i hc hi
    have hi' : d - 1 - i < d := by omega
    rw [at_row (m := ⟨m.shape, l'⟩) hs hc hi, at_row hs hc hi', h3]
    have hlt := row_index hc hi (hm.len.trans (by rw [hs]))
    have e1 : (ravel s c * d + i) / d = ravel s c := by rw [Nat.mul_comm, Nat.mul_add_div hd, Nat.div_eq_of_lt hi]; simp
    have e2 : (ravel s c * d + i) % d = i := by rw [Nat.mul_comm, Nat.mul_add_mod, Nat.mod_eq_of_lt hi]
    rw [if_pos (by rw [← hv, ← hm.len]; omega), e1, e2]

/-- Unary `flip` reverses the order of the rows. -/
theorem flipRows_at {m : Mat α} (hm : m.Ok) {s : List Nat} {d : Nat} (hs : m.shape = d :: s) (hr : s ≠ []) (hne : 0 < m.data.length) :
    ∃ m', flipRows m = .ok m' ∧ m'.Ok ∧ m'.shape = m.shape ∧
      ∀ c i, InB s c → i < d → m'.at (i :: c) = m.at ((d - 1 - i) :: c) := by
  have hv : vol m.shape = d * vol s := by rw [hs]; rfl
  have hpos : 0 < d * vol s := by rw [← hv, ← hm.len]; exact hne
  have hvs : 0 < vol s := Nat.pos_of_mul_pos_left hpos
  have hl2 : 2 ≤ m.shape.length := by
    rw [hs]
    have : 0 < s.length := List.length_pos_iff.mpr hr
    simp; omega
  have hle := vol_le hm hl2
  have hd : 0 < d := Nat.pos_of_mul_pos_right hpos
  have hles : vol s ≤ d * vol s := Nat.le_mul_of_pos_left _ hd
  have hsz : size m.shape = .ok (vol m.shape) := size_of_pos (by rw [hv]; exact hpos) hle
  have hsz2 : size s = .ok (vol s) := size_of_pos hvs (by omega)
  obtain ⟨l', h1, h2, h3⟩ := flipLoop_edit (vol s) d hvs (vol m.shape + 1) 0 m.data (by rw [hm.len, hv]) (by omega)
    (by rw [hv]; have := Nat.le_mul_of_pos_right d hvs; omega)
  rw [Nat.zero_mul, ← hv] at h1
  refine ⟨⟨m.shape, l'⟩, ?_, ⟨⟨hm.rank, by rw [← hm.len]; exact h2⟩, hm.fits⟩, rfl, ?_⟩
  · obtain ⟨d1, ds, rfl⟩ : ∃ d1 ds, s = d1 :: ds := by
      cases s with
      | nil => exact absurd rfl hr
      | cons a b => exact ⟨a, b, rfl⟩
    unfold flipRows
    rw [hs] at hsz h1 ⊢
    simp only [hsz2, hsz, bind_ok]
    rw [show ((vol (d :: d1 :: ds) : Nat) : Int) - (vol (d1 :: ds) : Nat) - ((0 : Nat) : Int) = (vol (d :: d1 :: ds) : Nat) - (vol (d1 :: ds) : Nat) by omega] at h1
    rw [h1, bind_ok, edit, publish_edit, bind_ok]
  · intro c i hc hi
    have hi' : d - 1 - i < d := by omega
    rw [at_cons (m := ⟨m.shape, l'⟩) hs hc hi, at_cons hs hc hi', h3]
    have hk := ravel_lt hc
    have hlt : i * vol s + ravel s c < d * vol s := by
      calc i * vol s + ravel s c < i * vol s + vol s := by omega
        _ = (i + 1) * vol s := by rw [Nat.succ_mul]
        _ ≤ d * vol s := Nat.mul_le_mul_right _ hi
    have e1 : (i * vol s + ravel s c) / vol s = i := by rw [Nat.mul_comm, Nat.mul_add_div hvs, Nat.div_eq_of_lt hk]; simp
    have e2 : (i * vol s + ravel s c) % vol s = ravel s c := by rw [Nat.mul_comm, Nat.mul_add_mod, Nat.mod_eq_of_lt hk]
    rw [if_pos (by omega), e1, e2]

end Verif.Arr
