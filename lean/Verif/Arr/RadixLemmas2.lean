import Verif.Arr.RadixLemmas

/-!
# The loops of `encode` and `decode`
-/

namespace Verif.Arr
open Verif.Num (Num)

theorem decodeLoop_eq {digit radix : Nat → R Num} {A D : List Num} (hA : ∀ a ∈ A, a.Small) (hD : ∀ d ∈ D, d.Small) (hl : D.length = A.length)
    (hd : ∀ (i : Nat) (d : Num), D[i]? = some d → digit i = .ok d) (ha : ∀ (i : Nat) (a : Num), A[i]? = some a → radix i = .ok a) :
    ∃ w : Num, decodeLoop 0 digit radix A.length = .ok w ∧ w.Small ∧ w.val = radixVal (A.map Num.Num.val) (D.map Num.Num.val) := by
  have key : ∀ k, k ≤ A.length → ∀ s : Num × Num, s.1.Small → s.2.Small →
      s.1.val = radixVal ((A.drop k).map Num.Num.val) ((D.drop k).map Num.Num.val) → s.2.val = prodQ ((A.drop k).map Num.Num.val) →
      ∃ s' : Num × Num, loop (fun i (s : Num × Num) => (digit i).bind fun d => (numOp 0 .mul s.2 d).bind fun p => (numOp 0 .add s.1 p).bind fun r =>
      (radix i).bind fun a => (numOp 0 .mul s.2 a).bind fun q => .ok (r, q)) (List.range k).reverse s = .ok s' ∧ s'.1.Small ∧
        s'.1.val = radixVal (A.map Num.Num.val) (D.map Num.Num.val) := by
    intro k
    induction k with
    | zero => intro _ s h1 _ h3 _; exact ⟨s, rfl, h1, by simpa using h3⟩
    | succ k ih =>
      intro hk s h1 h2 h3 h4
      have hkA : k < A.length := by omega
      have hkD : k < D.length := by omega
      rw [List.range_succ, List.reverse_append]
      simp only [List.reverse_cons, List.reverse_nil, List.nil_append, List.cons_append, loop]
      have sA : A[k].Small := hA _ (List.getElem_mem hkA)
      have sD : D[k].Small := hD _ (List.getElem_mem hkD)
      rw [hd k _ (List.getElem?_eq_getElem hkD), bind_ok]
      obtain ⟨p, e1, p1⟩ := numOp_total (op := .mul) (by simp [shortName]) h2 sD
      have p2 := (numOp_short (op := .mul) (by simp [shortName]) h2 sD e1).2
      obtain ⟨r, e2, r1⟩ := numOp_total (op := .add) (by simp [shortName]) h1 p1
      have r2 := (numOp_short (op := .add) (by simp [shortName]) h1 p1 e2).2
      obtain ⟨q, e3, q1⟩ := numOp_total (op := .mul) (by simp [shortName]) h2 sA
      have q2 := (numOp_short (op := .mul) (by simp [shortName]) h2 sA e3).2
      rw [e1, bind_ok, e2, bind_ok, ha k _ (List.getElem?_eq_getElem hkA), bind_ok, e3, bind_ok, bind_ok]
      refine ih (by omega) (r, q) r1 q1 ?_ ?_
      · show r.val = _
        rw [r2, List.drop_eq_getElem_cons hkA, List.drop_eq_getElem_cons hkD]
        simp only [List.map_cons, radixVal, shortMul]
        rw [p2, h3, ← h4]; simp only [shortMul]; ring
      · show q.val = _
        rw [q2, List.drop_eq_getElem_cons hkA]
        simp only [List.map_cons, prodQ, shortMul]
        rw [← h4]; ring
  obtain ⟨s', e, s1, s2⟩ := key A.length (Nat.le_refl _) (Num.zero, .int 1) (by constructor <;> decide) (by constructor <;> decide)
    (by rw [List.drop_length, List.drop_eq_nil_of_le (by omega)]; simp [radixVal, Num.zero, Num.Num.val]) (by simp [prodQ, Num.Num.val])
  exact ⟨s'.1, by unfold decodeLoop; rw [e, bind_ok], s1, s2⟩

theorem getOr_spread {l : List Num} {n : Nat} (h : l.length = n ∨ l.length = 1) (i : Nat) (x : Num) (hx : (spread n l)[i]? = some x) :
    getOr l i = .ok x := by
  unfold getOr
  match l with
  | [] => simp [spread] at hx
  | [y] =>
    rw [if_pos (by simp)]
    simp only [spread] at hx
    obtain ⟨_, h2⟩ := List.getElem?_eq_some_iff.mp hx
    rw [List.getElem_replicate] at h2
    subst h2; rfl
  | y :: z :: l =>
    rw [if_neg (by simp)]
    simp only [spread] at hx
    simp only [vAt, hx]

theorem spread_len {β : Type} {l : List β} {n : Nat} (h : l.length = n ∨ l.length = 1) : (spread n l).length = n := by
  match l, h with
  | [], h => simpa [spread] using h
  | [y], _ => simp [spread]
  | y :: z :: l, h => simpa [spread] using h

theorem spread_small {l : List Num} {n : Nat} (h : ∀ x ∈ l, x.Small) : ∀ x ∈ spread n l, x.Small := by
  match l with
  | [] => exact h
  | [y] => intro x hx; rw [List.eq_of_mem_replicate hx]; exact h y (by simp)
  | y :: z :: l => exact h

theorem allChars_small {A : List Num} (h : ∀ a ∈ A, a.Small) (hne : A ≠ []) : allChars A = false := by
  cases A with
  | nil => exact absurd rfl hne
  | cons a A =>
    have := h a (by simp)
    cases a with
    | char c => exact this.elim
    | int i => simp [allChars]
    | bigInt i => simp [allChars]
    | bigRat r => simp [allChars]

theorem decodeVec_eq {A B : List Num} (hA : ∀ a ∈ A, a.Small) (hB : ∀ d ∈ B, d.Small) (hA0 : A ≠ []) (hB0 : B ≠ [])
    (hl : A.length = 1 ∨ B.length = 1 ∨ A.length = B.length) :
    ∃ w : Num, decodeVec 0 A B = .ok w ∧ w.Small ∧
      w.val = radixVal ((spread (max A.length B.length) A).map Num.Num.val) ((spread (max A.length B.length) B).map Num.Num.val) := by
  have la := List.length_pos_iff.mpr hA0
  have lb := List.length_pos_iff.mpr hB0
  unfold decodeVec
  rw [if_neg (by omega), allChars_small hA hA0, if_neg (by simp), if_pos hl]
  have e1 := spread_len (l := A) (n := max A.length B.length) (by omega)
  have e2 := spread_len (l := B) (n := max A.length B.length) (by omega)
  have := decodeLoop_eq (digit := getOr B) (radix := getOr A) (spread_small (n := max A.length B.length) hA) (spread_small (n := max A.length B.length) hB)
    (by rw [e1, e2]) (getOr_spread (by omega)) (getOr_spread (by omega))
  rw [e1] at this
  exact this

theorem encodeCol_eq {A : List Num} (hA : ∀ a ∈ A, a.Small) (kA : ∀ a ∈ A, Kept a) {b : Num} (hb : b.Small) (kb : Kept b) (pos : Nat → Nat) {t : List Num} {W : Nat → Prop} {e : Ed Num}
    (he : Toward t W e) (ht : ∀ (i : Nat) (d : Num), (encD A b).1[i]? = some d → t[pos i]? = some d) :
    ∃ e', encodeCol A pos b e = .ok e' ∧ Toward t (fun j => W j ∨ ∃ i, i < A.length ∧ j = pos i) e' := by
  have key : ∀ k, k ≤ A.length → ∀ (e : Ed Num) (W : Nat → Prop), Toward t W e → ∃ s' : Ed Num × Num,
      loop (fun i (s : Ed Num × Num) => (vAt A i).bind fun a => (quoRemR s.2 a).bind fun qr => (s.1.put (pos i) qr.2).bind fun e => .ok (e, qr.1))
        (List.range k).reverse (e, (encD (A.drop k) b).2) = .ok s' ∧ Toward t (fun j => W j ∨ ∃ i, i < k ∧ j = pos i) s'.1 := by
    intro k
    induction k with
    | zero => intro _ e W he; exact ⟨(e, _), rfl, toward_mono he (by rintro i _ (h | ⟨_, h, _⟩); exact h; omega)⟩
    | succ k ih =>
      intro hk e W he
      have hkA : k < A.length := by omega
      have hAd : ∀ a ∈ A.drop (k + 1), a.Small := fun a ha => hA a (List.mem_of_mem_drop ha)
      have hq := (encD_small hAd hb).2.1
      rw [List.range_succ, List.reverse_append]
      simp only [List.reverse_cons, List.reverse_nil, List.nil_append, List.cons_append, loop]
      rw [vAt_eq.mpr (List.getElem?_eq_getElem hkA), bind_ok, quoRemR_eq hq (hA _ (List.getElem_mem hkA)) (encD_kept hAd hb kb) (kA _ (List.getElem_mem hkA)), bind_ok]
      have hcons : encD (A.drop k) b = ((qr (encD (A.drop (k + 1)) b).2 A[k]).2 :: (encD (A.drop (k + 1)) b).1, (qr (encD (A.drop (k + 1)) b).2 A[k]).1) := by
        rw [List.drop_eq_getElem_cons hkA]; rfl
      have hdrop : ∀ m, m ≤ A.length → (encD (A.drop m) b).1 = (encD A b).1.drop m := by
        intro m
        induction m with
        | zero => intro _; simp
        | succ m ihm =>
          intro hm
          have hmA : m < A.length := by omega
          have h1 := ihm (by omega)
          rw [List.drop_eq_getElem_cons hmA] at h1
          simp only [encD] at h1
          have := congrArg (List.drop 1) h1
          simpa [List.drop_drop, Nat.add_comm] using this
      have hget : (encD A b).1[k]? = some (qr (encD (A.drop (k + 1)) b).2 A[k]).2 := by
        have h1 := hdrop k (by omega)
        rw [hcons] at h1
        have := congrArg (fun l => l[0]?) h1
        simpa using this.symm
      obtain ⟨e1, h1, h2⟩ := toward_put he (ht k _ hget)
      rw [h1, bind_ok, bind_ok]
      obtain ⟨s', h3, h4⟩ := ih (by omega) e1 _ h2
      refine ⟨s', ?_, toward_mono h4 ?_⟩
      · rw [hcons] at h3; exact h3
      · rintro j _ (h | ⟨i, hi, rfl⟩)
        · exact .inl (.inl h)
        · rcases Nat.lt_or_ge i k with h | h
          · exact .inr ⟨i, h, rfl⟩
          · have : i = k := by omega
            subst this; exact .inl (.inr rfl)
  obtain ⟨s', h1, h2⟩ := key A.length (Nat.le_refl _) e W he
  rw [List.drop_length] at h1
  exact ⟨s'.1, by unfold encodeCol; rw [show (encD [] b).2 = b from rfl] at h1; rw [h1, bind_ok], h2⟩

/-- The digits of all the numbers `B`, those with the same place together. -/
def allDigits (A B : List Num) : List Num := (List.range A.length).flatMap fun i => B.map fun b => (encD A b).1.getD i Num.zero

theorem allDigits_get {A B : List Num} (hA : ∀ a ∈ A, a.Small) (hB : ∀ b ∈ B, b.Small) :
    (allDigits A B).length = A.length * B.length ∧ ∀ (i j : Nat) (b : Num), i < A.length → B[j]? = some b → (allDigits A B)[j + i * B.length]? = (encD A b).1[i]? := by
  obtain ⟨h1, h2⟩ := blocks_flat (w := B.length) (h := fun i => B.map fun b => (encD A b).1.getD i Num.zero) A.length (by simp)
  refine ⟨h1, ?_⟩
  intro i j b hi hj
  have h3 := h2 i hi
  have hjl := (List.getElem?_eq_some_iff.mp hj).1
  have h4 := congrArg (fun l => l[j]?) h3
  simp only [List.getElem?_take, List.getElem?_drop, hjl, if_true, List.getElem?_map, hj, Option.map_some] at h4
  rw [Nat.add_comm j]
  unfold allDigits
  rw [h4]
  have hb : b ∈ B := List.mem_of_getElem? hj
  have hlen := (encD_small hA (hB b hb)).2.2
  rw [List.getD_eq_getElem?_getD, List.getElem?_eq_getElem (by omega)]; rfl

/-- The loop over the columns. -/
theorem encodeCols_eq (S : Sched) {A B : List Num} (hA : ∀ a ∈ A, a.Small) (kA : ∀ a ∈ A, Kept a) (hB : ∀ b ∈ B, b.Small) (kB : ∀ b ∈ B, Kept b) :
    ∃ e, pfor (S.ranges A.length B.length) (each fun j e => (vAt B j).bind fun b => encodeCol A (fun i => j + i * B.length) b e)
      (newEd (A.length * B.length)) = .ok e ∧ e.publish = .ok (allDigits A B) := by
  obtain ⟨h1, h2⟩ := allDigits_get hA hB
  refine pfor_each S _ _ _ (fun j p => ∃ i, i < A.length ∧ p = j + i * B.length) ?_ h1.symm ?_
  · intro j hj W e he
    have hb := hB _ (List.getElem_mem hj)
    rw [vAt_eq.mpr (List.getElem?_eq_getElem hj), bind_ok]
    refine encodeCol_eq hA kA hb (kB _ (List.getElem_mem hj)) _ he ?_
    intro i d hd
    have hi : i < A.length := by rw [← (encD_small hA hb).2.2]; exact (List.getElem?_eq_some_iff.mp hd).1
    rw [h2 i j _ hi (List.getElem?_eq_getElem hj)]; exact hd
  · intro p hp
    rw [h1] at hp
    have hB0 : 0 < B.length := by
      rcases Nat.eq_zero_or_pos B.length with h | h
      · rw [h] at hp; omega
      · exact h
    exact ⟨p % B.length, Nat.mod_lt _ hB0, p / B.length, (Nat.div_lt_iff_lt_mul hB0).mpr hp, by rw [Nat.mod_add_div' ]⟩

end Verif.Arr
