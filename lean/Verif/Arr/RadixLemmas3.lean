import Verif.Arr.RadixLemmas2

/-!
# `encode` and `decode` of single numbers and of arrays
-/

namespace Verif.Arr
open Verif.Num (Num)

/-- A single number or vector. -/
def V.flat {α : Type} (l : List α) : V α :=
  match l with
  | [x] => .elem x
  | l => .vec l

theorem flat_data {α : Type} (l : List α) : (V.flat l).data = l := by
  unfold V.flat; split <;> rfl

theorem encode_one (S : Sched) {A : List Num} (hA : ∀ a ∈ A, a.Small) (kA : ∀ a ∈ A, Kept a) (hne : A ≠ []) {x : Num} (hx : x.Small) (kx : Kept x) :
    encode S (.vec A) (.elem x) = .ok (V.flat (encD A x).1) := by
  unfold encode
  simp only [V.toVec, bind_ok]
  unfold encodeVec
  rw [allChars_small hA hne, if_neg (by simp)]
  match A, hne with
  | [a], _ =>
    rw [if_pos (by simp)]
    simp only [vAt, List.getElem?_cons_zero, bind_ok]
    rw [quoRemR_eq hx (hA a (by simp)) kx (kA a (by simp))]; rfl
  | a :: a' :: A, _ =>
    rw [if_neg (by simp), if_pos (by simp)]
    simp only [vAt, List.getElem?_cons_zero, bind_ok]
    have hl := (encD_small hA hx).2.2
    obtain ⟨e, h1, h2⟩ := encodeCol_eq hA kA hx kx id (toward_new (encD (a :: a' :: A) x).1 (n := (a :: a' :: A).length) hl.symm) (fun i d h => h)
    rw [h1, bind_ok, toward_publish h2 (fun i hi => .inr ⟨i, by rw [hl] at hi; exact hi, rfl⟩), bind_ok]
    rfl

theorem decode_flat (S : Sched) {A D : List Num} (hA : ∀ a ∈ A, a.Small) (hD : ∀ d ∈ D, d.Small) (hne : A ≠ []) (hl : D.length = A.length) :
    ∃ w : Num, decode S 0 (.vec A) (V.flat D) = .ok (.elem w) ∧ w.Small ∧ w.val = radixVal (A.map Num.Num.val) (D.map Num.Num.val) := by
  have hD0 : D ≠ [] := by rintro rfl; exact hne (List.length_eq_zero_iff.mp (by simpa using hl.symm))
  obtain ⟨w, h1, h2, h3⟩ := decodeVec_eq hA hD hne hD0 (.inr (.inr hl.symm))
  have hsp : ∀ l : List Num, spread l.length l = l := by
    intro l
    match l with
    | [] => rfl
    | [x] => rfl
    | x :: y :: l => rfl
  rw [hl, Nat.max_self, hsp A, ← hl, hsp D] at h3
  refine ⟨w, ?_, h2, h3⟩
  unfold decode V.flat
  match D, h1 with
  | [], h1 => simp only [V.toVec, bind_ok, h1]
  | [d], h1 => simp only [V.toVec, bind_ok, h1]
  | d :: d' :: D, h1 => simp only [V.toVec, bind_ok, h1]

theorem encode_mat (S : Sched) {A : List Num} (hA : ∀ a ∈ A, a.Small) (kA : ∀ a ∈ A, Kept a) {m : Mat Num} (hm : m.WF) (hB : ∀ b ∈ m.data, b.Small)
    (kB : ∀ b ∈ m.data, Kept b)
    (hf : Fits (A.length :: m.shape)) :
    encode S (.vec A) (.mat m) = .ok (.mat ⟨A.length :: m.shape, allDigits A m.data⟩) := by
  unfold encode
  simp only [V.toVec, bind_ok]
  unfold encodeMat
  obtain ⟨e, h1, h2⟩ := encodeCols_eq S hA kA hB kB
  rw [h1, bind_ok, h2, bind_ok, newMatrix_fits (by simp) (by rw [(allDigits_get hA hB).1, hm.len]; rfl) hf, bind_ok]

theorem encode_vec (S : Sched) {A B : List Num} (hA : ∀ a ∈ A, a.Small) (kA : ∀ a ∈ A, Kept a) (hB : ∀ b ∈ B, b.Small) (kB : ∀ b ∈ B, Kept b) (h2 : 2 ≤ A.length) (h1 : B.length ≠ 1)
    (hf : Fits [A.length, B.length]) :
    encode S (.vec A) (.vec B) = .ok (.mat ⟨[A.length, B.length], allDigits A B⟩) := by
  unfold encode
  simp only [V.toVec, bind_ok]
  unfold encodeVec
  rw [allChars_small hA (by rintro rfl; simp at h2), if_neg (by simp), if_neg (by omega), if_neg h1, if_neg (by omega)]
  obtain ⟨e, h3, h4⟩ := encodeCols_eq S hA kA hB kB
  rw [h3, bind_ok, h4, bind_ok, newMatrix_fits (by simp) (by rw [(allDigits_get hA hB).1]; simp [vol]) hf, bind_ok]

theorem encode_each (S : Sched) {a : Num} {B : List Num} (ha : a.Small) (ka : Kept a) (hB : ∀ b ∈ B, b.Small) (kB : ∀ b ∈ B, Kept b) (h1 : B.length ≠ 1) :
    encode S (.vec [a]) (.vec B) = .ok (.vec (B.map fun b => (qr b a).2)) := by
  unfold encode
  simp only [V.toVec, bind_ok]
  unfold encodeVec
  rw [allChars_small (A := [a]) (by simpa using ha) (by simp), if_neg (by simp), if_neg (by simp [h1]), if_neg h1, if_pos (by simp)]
  rw [show vAt [a] 0 = .ok a from rfl, bind_ok]
  have key : ∀ (W : Nat → Prop) (e : Ed Num) (ks : List Nat), (∀ k ∈ ks, k < B.length) → Toward (B.map fun b => (qr b a).2) W e →
      ∃ e', loop (fun i e => (vAt B i).bind fun b => (quoRemR b a).bind fun qr => Ed.put e i qr.2) ks e = .ok e' ∧
        Toward (B.map fun b => (qr b a).2) (fun j => W j ∨ j ∈ ks) e' := by
    intro W e ks
    induction ks generalizing W e with
    | nil => intro _ he; exact ⟨e, rfl, toward_mono he (by simp)⟩
    | cons k ks ih =>
      intro hk he
      have hkB := hk k (by simp)
      simp only [loop]
      rw [vAt_eq.mpr (List.getElem?_eq_getElem hkB), bind_ok, quoRemR_eq (hB _ (List.getElem_mem hkB)) ha (kB _ (List.getElem_mem hkB)) ka, bind_ok]
      obtain ⟨e1, h2, h3⟩ := toward_put he (i := k) (x := (qr B[k] a).2) (by simp [List.getElem?_map, List.getElem?_eq_getElem hkB])
      rw [h2, bind_ok]
      obtain ⟨e2, h4, h5⟩ := ih _ e1 (fun k hk' => hk k (by simp [hk'])) h3
      refine ⟨e2, h4, toward_mono h5 ?_⟩
      intro i _ hi
      rcases hi with h | h
      · exact .inl (.inl h)
      · rcases List.mem_cons.mp h with rfl | h
        · exact .inl (.inr rfl)
        · exact .inr h
  obtain ⟨e, h2, h3⟩ := key (fun _ => False) (newEd B.length) (List.range B.length) (by simp) (toward_new _ (by simp))
  rw [h2, bind_ok, toward_publish h3 (fun i hi => .inr (by simpa using hi)), bind_ok]

/-- The elements at the same coordinates on the last axes. -/
theorem line_of_digits {A B : List Num} (hA : ∀ a ∈ A, a.Small) (hB : ∀ b ∈ B, b.Small) {s c : List Nat} (hl : B.length = vol s) (hc : InB s c) {b : Num}
    (hb : B[ravel s c]? = some b) : (V.mat ⟨A.length :: s, allDigits A B⟩).firstLine A.length c = (encD A b).1 := by
  rw [firstLine_eq (v := .mat ⟨A.length :: s, allDigits A B⟩) rfl hc]
  have hlen := (encD_small hA (hB b (List.mem_of_getElem? hb))).2.2
  conv_rhs => rw [← filterMap_range_getElem (encD A b).1, hlen]
  apply List.filterMap_congr
  intro k hk
  rw [List.mem_range] at hk
  show (allDigits A B)[_]? = _
  rw [Nat.add_comm, ← hl, (allDigits_get hA hB).2 k _ b hk hb]

theorem firstLine_get {α : Type} {v : V α} (hv : v.Ok) {s : List Nat} {d : Nat} (hs : v.shape = d :: s) {c : List Nat} (hc : InB s c) {k : Nat} (hk : k < d) :
    (v.firstLine d c).length = d ∧ (v.firstLine d c)[k]? = v.data[k * vol s + ravel s c]? := by
  rw [firstLine_eq hs hc]
  have hlt : ∀ i, i < d → i * vol s + ravel s c < v.data.length := by
    intro i hi
    have h1 := Nat.mul_le_mul_right (vol s) (show i + 1 ≤ d from hi)
    rw [Nat.succ_mul] at h1
    have h2 := ravel_lt hc
    have h3 : v.data.length = d * vol s := by rw [data_length hv, hs]; rfl
    omega
  have e : ((List.range d).filterMap fun k => v.data[k * vol s + ravel s c]?) = (List.range d).pmap (fun k (h : k < d) => v.data[k * vol s + ravel s c]'(hlt k h)) (by simp) := by
    apply List.ext_getElem?
    intro i
    have : ∀ (ks : List Nat) (h : ∀ k ∈ ks, k < d), (ks.filterMap fun k => v.data[k * vol s + ravel s c]?) = ks.pmap (fun k (h : k < d) => v.data[k * vol s + ravel s c]'(hlt k h)) h := by
      intro ks
      induction ks with
      | nil => intro _; rfl
      | cons k ks ih =>
        intro h
        rw [List.filterMap_cons, List.getElem?_eq_getElem (hlt k (h k (by simp))), List.pmap_cons, ← ih (fun k hk => h k (by simp [hk]))]
    rw [this]
  rw [e]
  refine ⟨by simp, ?_⟩
  rw [List.getElem?_eq_getElem (hlt k hk), List.getElem?_eq_getElem (by simpa using hk)]
  simp

/-- `decode` with a matrix on the right decodes its lines along the first axis. -/
theorem decode_mat (S : Sched) {A : List Num} (hA : ∀ a ∈ A, a.Small) (hne : A ≠ []) {m : Mat Num} (hm : (V.mat m).Ok) (hB : ∀ b ∈ m.data, b.Small)
    {n : Nat} {s : List Nat} (hs : m.shape = n :: s) (hs0 : s ≠ []) (hn : 0 < n) (hl : A.length = 1 ∨ n = 1 ∨ A.length = n) (hf : Fits s) :
    ∃ r, decode S 0 (.vec A) (.mat m) = .ok r ∧ r.shape = s ∧ r.Ok ∧ r.Plain ∧ ∀ c, InB s c →
      ∃ w, decodeVec 0 A ((V.mat m).firstLine n c) = .ok w ∧ r.at c = some w := by
  have la := List.length_pos_iff.mpr hne
  have hlen : m.data.length = n * vol s := by rw [hm.1.len, hs]; rfl
  have hdiv : m.data.length / n = vol s := by rw [hlen, Nat.mul_div_cancel_left _ hn]
  have hbound : ∀ i j, i < n → j < vol s → i * vol s + j < m.data.length := by
    intro i j hi hj
    have h1 := Nat.mul_le_mul_right (vol s) (show i + 1 ≤ n from hi)
    rw [Nat.succ_mul] at h1
    omega
  have hcol : ∀ j, j < vol s → ∃ w, decodeVec 0 A ((V.mat m).firstLine n (unravel s j)) = .ok w ∧
      decodeLoop 0 (fun i => vAt m.data (if n > 1 then j + i * vol s else j)) (getOr A) (max A.length n) = .ok w := by
    intro j hj
    have hc := unravel_inB hj
    have hrj := ravel_unravel hj
    have hfl := fun k (hk : k < n) => firstLine_get (v := .mat m) hm hs hc hk
    have hBl := (hfl 0 hn).1
    have hBs : ∀ b ∈ (V.mat m).firstLine n (unravel s j), b.Small := by
      intro b hb
      obtain ⟨k, hk⟩ := List.getElem?_of_mem hb
      have hkn : k < n := by rw [← hBl]; exact (List.getElem?_eq_some_iff.mp hk).1
      rw [(hfl k hkn).2] at hk
      exact hB b (List.mem_of_getElem? hk)
    have hBne : (V.mat m).firstLine n (unravel s j) ≠ [] := List.length_pos_iff.mp (by omega)
    obtain ⟨w, h1, _, _⟩ := decodeVec_eq hA hBs hne hBne (by rw [hBl]; omega)
    refine ⟨w, h1, ?_⟩
    rw [← h1]
    unfold decodeVec
    rw [if_neg (by omega), allChars_small hA hne, if_neg (by simp), if_pos (by rw [hBl]; omega), hBl]
    unfold decodeLoop
    congr 1
    apply loop_congr
    intro i hi s'
    rw [List.mem_reverse, List.mem_range] at hi
    congr 1
    unfold getOr
    rw [hBl]
    have hat : ∀ k, k < n → vAt ((V.mat m).firstLine n (unravel s j)) k = vAt m.data (k * vol s + j) := by
      intro k hk
      have := (hfl k hk).2
      rw [hrj] at this
      unfold vAt
      rw [this]; rfl
    by_cases hn1 : n = 1
    · rw [if_pos hn1, hat 0 hn]
      show vAt m.data (if n > 1 then j + i * vol s else j) = _
      rw [if_neg (by omega)]; simp
    · rw [if_neg hn1, hat i (by omega)]
      show vAt m.data (if n > 1 then j + i * vol s else j) = _
      rw [if_pos (by omega), Nat.add_comm]
  obtain ⟨t, h1, h2, h3⟩ := pfor_map_ok S (max A.length n) (vol s)
    (f := fun j e => (decodeLoop 0 (fun i => vAt m.data (if n > 1 then j + i * vol s else j)) (getOr A) (max A.length n)).bind fun x => e.put j x)
    (g := fun j => decodeLoop 0 (fun i => vAt m.data (if n > 1 then j + i * vol s else j)) (getOr A) (max A.length n))
    (fun i e _ => rfl) (fun j hj => by obtain ⟨w, _, h⟩ := hcol j hj; exact ⟨w, h⟩)
  obtain ⟨r, h4, h5, h6, h7, h8⟩ := finish hs0 h2 hf (fun d hd => hm.2.2 d (by rw [hs]; simp [hd]))
  refine ⟨r, ?_, h5, h7, h8, ?_⟩
  · unfold decode
    simp only [V.toVec, bind_ok]
    unfold decodeMat
    rw [hs]
    rw [show vAt (n :: s) 0 = .ok n from rfl, bind_ok, if_neg (by omega), if_neg (by omega)]
    simp only [hdiv]
    obtain ⟨e, h9, h10⟩ := bind_eq_ok.mp h1
    rw [h9, bind_ok, h10, bind_ok]
    exact h4
  · intro c hc
    have hr := ravel_lt hc
    obtain ⟨w, h9, h10⟩ := hcol (ravel s c) hr
    rw [unravel_ravel hc] at h9
    refine ⟨w, h9, ?_⟩
    rw [at_data (by rw [h5]; exact hc), h5, h6]
    have : ravel s c < t.length := by rw [h2]; exact hr
    have h11 := h3 _ _ (List.getElem?_eq_getElem this)
    rw [h10] at h11
    cases h11
    exact List.getElem?_eq_getElem this

end Verif.Arr
