import Verif.Arr.RadixLemmas3
import Verif.Arr.IndexProps

/-!
# C31: `encode` and `decode` are inverse to one another

`decode` computes with the limit on integers switched off (`maxbits 0`); a limit can only turn a result into an error.
Negative fractions, which `QuoRem` negates in place (C12), are left out of `encode`.
-/

namespace Verif.Arr
open Verif.Num (Num)

/-- C31, `decode` of vectors: the value of the digits in positional notation, one radix or one digit standing for all. -/
theorem C31_decode (S : Sched) {A B : List Num} (hA : ∀ a ∈ A, a.Small) (hB : ∀ d ∈ B, d.Small) (hA0 : A ≠ []) (hB0 : B ≠ [])
    (hl : A.length = 1 ∨ B.length = 1 ∨ A.length = B.length) :
    ∃ w : Num, decode S 0 (.vec A) (.vec B) = .ok (.elem w) ∧ w.Small ∧
      w.val = radixVal ((spread (max A.length B.length) A).map Num.Num.val) ((spread (max A.length B.length) B).map Num.Num.val) := by
  obtain ⟨w, h1, h2, h3⟩ := decodeVec_eq hA hB hA0 hB0 hl
  exact ⟨w, by unfold decode; simp only [V.toVec, bind_ok, h1], h2, h3⟩

/-- C31, `decode` of vectors of other lengths: an error. -/
theorem C31_decode_refused (S : Sched) (mb : Nat) {A B : List Num} (hA : ∀ a ∈ A, a.Small) (hA0 : A ≠ []) (hB0 : B ≠ [])
    (hl : ¬ (A.length = 1 ∨ B.length = 1 ∨ A.length = B.length)) : ∃ e, decode S mb (.vec A) (.vec B) = .err e := by
  have la := List.length_pos_iff.mpr hA0
  have lb := List.length_pos_iff.mpr hB0
  unfold decode
  simp only [V.toVec, bind_ok]
  unfold decodeVec
  rw [if_neg (by omega), allChars_small hA hA0, if_neg (by simp), if_neg hl]
  exact ⟨_, rfl⟩

/-- C31, `encode` of a number: as many digits as radices, each in the range of its radix; their value is the number up to a
multiple of the product of the radices. -/
theorem C31_encode (S : Sched) {A : List Num} (hA : ∀ a ∈ A, a.Small) (kA : ∀ a ∈ A, Kept a) (hne : A ≠ []) {x : Num} (hx : x.Small) (kx : Kept x) :
    ∃ (r : V Num) (q : Int), encode S (.vec A) (.elem x) = .ok r ∧ r.data.length = A.length ∧ (∀ d ∈ r.data, d.Small) ∧
      (∀ (i : Nat) (a d : Num), A[i]? = some a → r.data[i]? = some d → DigitFor a.val d.val) ∧
      x.val = radixVal (A.map Num.Num.val) (r.data.map Num.Num.val) + prodQ (A.map Num.Num.val) * q := by
  obtain ⟨h1, h2⟩ := encD_val hA hx
  obtain ⟨q, hq⟩ := h2 hne
  obtain ⟨h3, _, h5⟩ := encD_small hA hx
  refine ⟨_, q, encode_one S hA kA hne hx kx, ?_, ?_, ?_, ?_⟩
  · rw [flat_data, h5]
  · rw [flat_data]; exact h3
  · rw [flat_data]; exact encD_digit hA hx
  · rw [flat_data, ← hq]; exact h1

/-- C31: decoding what was encoded gives the number, if the radices are positive and the number is not negative and below their
product, or if one of the radices is zero. -/
theorem C31_decode_encode (S : Sched) {A : List Num} (hA : ∀ a ∈ A, a.Small) (kA : ∀ a ∈ A, Kept a) (hne : A ≠ []) {x : Num} (hx : x.Small) (kx : Kept x)
    (h : (∃ a ∈ A, a.val = 0) ∨ ((∀ a ∈ A, 0 < a.val) ∧ 0 ≤ x.val ∧ x.val < prodQ (A.map Num.Num.val))) :
    ∃ r w, encode S (.vec A) (.elem x) = .ok r ∧ decode S 0 (.vec A) r = .ok (.elem w) ∧ w.Small ∧ w.val = x.val := by
  obtain ⟨h3, _, h5⟩ := encD_small hA hx
  obtain ⟨w, h6, h7, h8⟩ := decode_flat S hA h3 hne h5
  refine ⟨_, w, encode_one S hA kA hne hx kx, h6, h7, ?_⟩
  rw [h8, (encD_val hA hx).1]
  rcases h with ⟨a, ha, h0⟩ | ⟨hp, hx0, hx1⟩
  · have : ∀ l : List Num, a ∈ l → prodQ (l.map Num.Num.val) = 0 := by
      intro l
      induction l with
      | nil => intro h; simp at h
      | cons b l ih =>
        intro h
        rcases List.mem_cons.mp h with rfl | h
        · simp [prodQ, h0]
        · simp [prodQ, ih h]
    rw [this A ha]; ring
  · rw [(encD_rest (fun a ha => ⟨hA a ha, hp a ha⟩) hx hx0 hx1).2 hne]; ring

/-- C31: encoding what was decoded gives the digits, if the radices are positive integers and the digits integers in range. -/
theorem C31_encode_decode (S : Sched) {A D : List Num} (hA : ∀ a ∈ A, a.Small ∧ IsInt a.val ∧ 0 < a.val) (hne : A ≠ []) (hl : D.length = A.length)
    (hD : ∀ d ∈ D, d.Small ∧ IsInt d.val) (hr : ∀ (i : Nat) (a d : Num), A[i]? = some a → D[i]? = some d → 0 ≤ d.val ∧ d.val < a.val) :
    ∃ w r, decode S 0 (.vec A) (.vec D) = .ok (.elem w) ∧ encode S (.vec A) (.elem w) = .ok r ∧ r.data.map Num.Num.val = D.map Num.Num.val := by
  have hA' : ∀ a ∈ A, a.Small := fun a ha => (hA a ha).1
  have hD' : ∀ d ∈ D, d.Small := fun a ha => (hD a ha).1
  have hD0 : D ≠ [] := by rintro rfl; exact hne (List.length_eq_zero_iff.mp (by simpa using hl.symm))
  obtain ⟨w, h1, h2, h3⟩ := C31_decode S hA' hD' hne hD0 (.inr (.inr hl.symm))
  have hsp : ∀ l : List Num, spread l.length l = l := by
    intro l
    match l with
    | [] => rfl
    | [x] => rfl
    | x :: y :: l => rfl
  rw [hl, Nat.max_self, hsp A, ← hl, hsp D] at h3
  refine ⟨w, _, h1, encode_one S hA' (fun a ha => kept_of_int (hA a ha).1 (hA a ha).2.1) hne h2 (kept_of_int h2 (by rw [h3]; exact (radixVal_int (by simpa using fun a ha => (hA a ha).2.1) (by simpa using fun a ha => (hD a ha).2)).1)), ?_⟩
  rw [flat_data]
  exact (encD_unique 0 hA hl (fun d hd => (hD d hd).2) hr h2 (by rw [h3]; simp)).1

/-- C31, `encode` of an array: a new first axis has the digits of every number. -/
theorem C31_encode_array (S : Sched) {A : List Num} (hA : ∀ a ∈ A, a.Small) (kA : ∀ a ∈ A, Kept a) (hne : A ≠ []) {v : V Num} (hv : v.Ok) (hB : ∀ b ∈ v.data, b.Small) (kB : ∀ b ∈ v.data, Kept b)
    (hmat : v.isMat = true ∨ (2 ≤ A.length ∧ v.shape ≠ [] ∧ v.shape ≠ [1])) (hf : Fits (A.length :: v.shape)) :
    ∃ r, encode S (.vec A) v = .ok r ∧ r.shape = A.length :: v.shape ∧ ∀ c, InB v.shape c → ∃ b digits, v.at c = some b ∧
      encode S (.vec A) (.elem b) = .ok digits ∧ r.firstLine A.length c = digits.data := by
  have core : ∀ {s : List Nat} {B : List Num}, (∀ b ∈ B, b.Small) → (∀ b ∈ B, Kept b) → B.length = vol s → ∀ c, InB s c → ∃ b digits, B[ravel s c]? = some b ∧
      encode S (.vec A) (.elem b) = .ok digits ∧ (V.mat ⟨A.length :: s, allDigits A B⟩).firstLine A.length c = digits.data := by
    intro s B hB kB hl c hc
    have hlt : ravel s c < B.length := by rw [hl]; exact ravel_lt hc
    refine ⟨B[ravel s c], _, List.getElem?_eq_getElem hlt, encode_one S hA kA hne (hB _ (List.getElem_mem hlt)) (kB _ (List.getElem_mem hlt)), ?_⟩
    rw [flat_data]
    exact line_of_digits hA hB hl hc (List.getElem?_eq_getElem hlt)
  cases v with
  | elem x => rcases hmat with h | ⟨_, h, _⟩; exact absurd h (by simp [V.isMat]); exact absurd rfl h
  | vec l =>
    rcases hmat with h | ⟨h2, _, h1⟩
    · exact absurd h (by simp [V.isMat])
    · refine ⟨_, encode_vec S hA kA hB kB h2 (fun h => h1 (by simp [V.shape, h])) hf, rfl, ?_⟩
      intro c hc
      obtain ⟨b, dg, h3, h4, h5⟩ := core (s := [l.length]) hB kB (by simp [vol, V.data]) c hc
      exact ⟨b, dg, by rw [at_data hc]; exact h3, h4, h5⟩
  | mat m =>
    refine ⟨_, encode_mat S hA kA hv.1.toWF hB kB hf, rfl, ?_⟩
    intro c hc
    obtain ⟨b, dg, h3, h4, h5⟩ := core (s := m.shape) hB kB hv.1.len c hc
    exact ⟨b, dg, by rw [at_data hc]; exact h3, h4, h5⟩

/-- C31, `encode` of a vector with a single radix: the remainders, in a vector. -/
theorem C31_encode_residues (S : Sched) {a : Num} {B : List Num} (ha : a.Small) (ka : Kept a) (hB : ∀ b ∈ B, b.Small) (kB : ∀ b ∈ B, Kept b) (h1 : B.length ≠ 1) :
    ∃ l, encode S (.vec [a]) (.vec B) = .ok (.vec l) ∧ l.length = B.length ∧ ∀ (i : Nat) (b : Num), B[i]? = some b →
      ∃ d : Num, l[i]? = some d ∧ encode S (.vec [a]) (.elem b) = .ok (.elem d) := by
  refine ⟨_, encode_each S ha ka hB kB h1, by simp, ?_⟩
  intro i b hb
  refine ⟨(qr b a).2, by simp [List.getElem?_map, hb], ?_⟩
  rw [encode_one S (by simpa using ha) (by simpa using ka) (by simp) (hB b (List.mem_of_getElem? hb)) (kB b (List.mem_of_getElem? hb))]
  rfl

/-- C31, `decode` of a matrix: its lines along the first axis are decoded. -/
theorem C31_decode_matrix (S : Sched) {A : List Num} (hA : ∀ a ∈ A, a.Small) (hne : A ≠ []) {m : Mat Num} (hm : (V.mat m).Ok) (hB : ∀ b ∈ m.data, b.Small)
    {n : Nat} {s : List Nat} (hs : m.shape = n :: s) (hs0 : s ≠ []) (hn : 0 < n) (hl : A.length = 1 ∨ n = 1 ∨ A.length = n) :
    ∃ r, decode S 0 (.vec A) (.mat m) = .ok r ∧ r.shape = s ∧ r.Ok ∧ r.Plain ∧ ∀ c, InB s c →
      ∃ w, decode S 0 (.vec A) (.vec ((V.mat m).firstLine n c)) = .ok (.elem w) ∧ r.at c = some w := by
  obtain ⟨r, h1, h2, h3, h4, h5⟩ := decode_mat S hA hne hm hB hs hs0 hn hl (by
    intro k h2 hk
    have h := hm.1.fits (k + 1) (by omega) (by rw [hs]; simpa using hk)
    rw [hs, List.take_succ_cons, vol] at h
    exact Nat.le_trans (Nat.le_mul_of_pos_left _ hn) h)
  refine ⟨r, h1, h2, h3, h4, ?_⟩
  intro c hc
  obtain ⟨w, h6, h7⟩ := h5 c hc
  exact ⟨w, by unfold decode; simp only [V.toVec, bind_ok, h6], h7⟩

/-- C31 for arrays: decoding the encoded array gives the same numbers at the same coordinates. -/
theorem C31_decode_encode_array (S : Sched) {A : List Num} (hA : ∀ a ∈ A, a.Small) (kA : ∀ a ∈ A, Kept a) (hne : A ≠ []) {v : V Num} (hv : v.Ok) (hB : ∀ b ∈ v.data, b.Small) (kB : ∀ b ∈ v.data, Kept b)
    (hsh : v.shape ≠ []) (hmat : v.isMat = true ∨ (2 ≤ A.length ∧ v.shape ≠ [1])) (hf : Fits (A.length :: v.shape)) (hsz : A.length * v.data.length ≤ 2147483647)
    (hAl : A.length ≤ 2147483647)
    (h : (∃ a ∈ A, a.val = 0) ∨ ((∀ a ∈ A, 0 < a.val) ∧ ∀ x ∈ v.data, 0 ≤ x.val ∧ x.val < prodQ (A.map Num.Num.val))) :
    ∃ r w, encode S (.vec A) v = .ok r ∧ decode S 0 (.vec A) r = .ok w ∧ w.shape = v.shape ∧ ∀ c, InB v.shape c →
      ∃ x y : Num, v.at c = some x ∧ w.at c = some y ∧ y.val = x.val := by
  obtain ⟨m, hm1, hm2, hm3⟩ : ∃ m : Mat Num, encode S (.vec A) v = .ok (.mat m) ∧ m = ⟨A.length :: v.shape, allDigits A v.data⟩ ∧ v.data.length = vol v.shape := by
    refine ⟨_, ?_, rfl, data_length hv⟩
    cases v with
    | elem x => exact absurd rfl hsh
    | vec l =>
      rcases hmat with h' | ⟨h2, h1⟩
      · exact absurd h' (by simp [V.isMat])
      · exact encode_vec S hA kA hB kB h2 (fun h => h1 (by simp [V.shape, h])) hf
    | mat m => exact encode_mat S hA kA hv.1.toWF hB kB hf
  have hlen := (allDigits_get hA hB).1
  have hmok : (V.mat m).Ok := by
    subst hm2
    refine ⟨⟨⟨by simp, by simp only [hlen, vol, hm3]⟩, hf⟩, by simpa only [hlen] using hsz, ?_⟩
    intro d hd
    rcases List.mem_cons.mp hd with rfl | hd
    · exact hAl
    · exact dims_small hv d hd
  have hms : ∀ b ∈ m.data, b.Small := by
    subst hm2
    intro d hd
    obtain ⟨i, hi, hd⟩ := List.mem_flatMap.mp hd
    obtain ⟨b, hb, rfl⟩ := List.mem_map.mp hd
    rw [List.mem_range] at hi
    have hs := encD_small hA (hB b hb)
    rw [List.getD_eq_getElem?_getD, List.getElem?_eq_getElem (by omega)]
    exact hs.1 _ (List.getElem_mem _)
  obtain ⟨w, h1, h2, h3, h4, h5⟩ := C31_decode_matrix S hA hne hmok hms (n := A.length) (s := v.shape) (by rw [hm2]) hsh (List.length_pos_iff.mpr hne) (.inr (.inr rfl))
  refine ⟨.mat m, w, hm1, h1, h2, ?_⟩
  intro c hc
  obtain ⟨y, h6, h7⟩ := h5 c hc
  have hlt : ravel v.shape c < v.data.length := by rw [hm3]; exact ravel_lt hc
  have hxm := List.getElem_mem hlt
  refine ⟨v.data[ravel v.shape c], y, by rw [at_data hc]; exact List.getElem?_eq_getElem hlt, h7, ?_⟩
  rw [hm2, line_of_digits hA hB hm3 hc (List.getElem?_eq_getElem hlt)] at h6
  obtain ⟨r', w', e1, e2, _, e4⟩ := C31_decode_encode S hA kA hne (hB _ hxm) (kB _ hxm) (h.imp id (fun h => ⟨h.1, h.2 _ hxm⟩))
  rw [encode_one S hA kA hne (hB _ hxm) (kB _ hxm)] at e1
  cases e1
  have : decode S 0 (.vec A) (V.flat (encD A v.data[ravel v.shape c]).1) = decode S 0 (.vec A) (.vec (encD A v.data[ravel v.shape c]).1) := by
    generalize (encD A v.data[ravel v.shape c]).1 = D
    match D with
    | [] => rfl
    | [d] => rfl
    | d :: d' :: D => rfl
  rw [this, h6] at e2
  cases e2
  exact e4

/-- What C31 asks fails for a single radix and several numbers by design of `encode`: the residues come as a vector, which
`decode` reads as the digits of one number. -/
theorem C31_single_radix : (encode exS (.vec [.int 10]) (.vec [.int 1, .int 2, .int 3])).bind (decode exS 0 (.vec [.int 10])) = .ok (.elem (.int 123)) := by
  decide +kernel

/-- `decode` of a matrix without rows ends the program: a division by zero. -/
theorem C31_no_rows_violated : decode exS 0 (.vec [.int 2]) (.mat ⟨[0, 3], []⟩) = .crash ∧ (V.mat (Mat.mk [0, 3] ([] : List Num))).Ok := by
  decide +kernel

/-- Days, hours, minutes, seconds. -/
def exTime : List Num := [.int 0, .int 24, .int 60, .int 60]

theorem exTime_small : ∀ a ∈ exTime, a.Small := by
  intro a ha
  simp only [exTime, List.mem_cons, List.not_mem_nil, or_false] at ha
  rcases ha with rfl | rfl | rfl | rfl <;> constructor <;> decide

example : ∀ a ∈ exTime, Kept a := by decide
example : exTime ≠ [] ∧ (Num.Num.int 1254057).Small ∧ ∃ a ∈ exTime, a.val = 0 :=
  ⟨by decide, ⟨by decide, by decide⟩, .int 0, by simp [exTime], by simp [Num.Num.val]⟩
example : encode exS (.vec exTime) (.elem (.int 1254057)) = .ok (.vec [.int 14, .int 12, .int 20, .int 57]) := by decide +kernel
example : decode exS 0 (.vec exTime) (.vec [.int 14, .int 12, .int 20, .int 57]) = .ok (.elem (.int 1254057)) := by decide +kernel
/-- Three digits of base ten for a fraction. -/
example : encode exS (.vec [.int 10, .int 10, .int 10]) (.elem (.bigRat (251 / 2))) = .ok (.vec [.int 1, .int 2, .bigRat (11 / 2)]) := by decide +kernel
example : (∀ a ∈ [Num.Num.int 10, .int 10, .int 10], 0 < a.val) ∧ (0 : Rat) ≤ (Num.Num.bigRat (251 / 2)).val ∧
    (Num.Num.bigRat (251 / 2)).val < prodQ ([Num.Num.int 10, .int 10, .int 10].map Num.Num.val) := by
  refine ⟨by simp [Num.Num.val], ?_, ?_⟩
  · simp only [Num.Num.val]; decide +kernel
  · simp only [Num.Num.val, List.map, prodQ]; decide +kernel
example : ∀ a ∈ [Num.Num.int 7, .int 3], a.Small ∧ IsInt a.val ∧ 0 < a.val := by
  intro a ha
  simp only [List.mem_cons, List.not_mem_nil, or_false] at ha
  rcases ha with rfl | rfl
  · exact ⟨⟨by decide, by decide⟩, ⟨7, rfl⟩, by simp [Num.Num.val]⟩
  · exact ⟨⟨by decide, by decide⟩, ⟨3, rfl⟩, by simp [Num.Num.val]⟩
example : encode exS (.vec [.int 2, .int 2]) (.vec [.int 1, .int 2, .int 3]) = .ok (.mat ⟨[2, 3], [.int 0, .int 1, .int 1, .int 1, .int 0, .int 1]⟩) := by decide +kernel
example : decode exS 0 (.vec [.int 10]) (.mat ⟨[2, 3], [.int 0, .int 1, .int 1, .int 1, .int 0, .int 1]⟩) = .ok (.vec [.int 1, .int 10, .int 11]) := by decide +kernel
example : encode exS (.vec [.int 3]) (.vec [.int 1, .int 2, .int 3]) = .ok (.vec [.int 1, .int 2, .int 0]) := by decide +kernel
example : ∃ e, decode exS 0 (.vec [.int 1, .int 2]) (.vec [.int 1, .int 2, .int 3]) = .err e :=
  C31_decode_refused exS 0 (by intro a ha; simp only [List.mem_cons, List.not_mem_nil, or_false] at ha; rcases ha with rfl | rfl <;> constructor <;> decide)
    (by simp) (by simp) (by decide)
example : Fits (exTime.length :: (V.mat (Mat.mk [2, 2] [Num.Num.int 5, .int 6, .int 7, .bigRat (1 / 2)])).shape) ∧
    (V.mat (Mat.mk [2, 2] [Num.Num.int 5, .int 6, .int 7, .bigRat (1 / 2)])).Ok := by decide

end Verif.Arr
