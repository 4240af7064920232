import Verif.Safe.Ops1
import Verif.Safe.Ops2
import Verif.Safe.Nums
import Verif.Arr.RadixModel
import Verif.Arr.EachModel

/-!
# `decode`, `encode` and `@`
-/

namespace Verif.Safe
open Verif.Arr
open Verif.Num (Num)
variable {α β γ σ : Type}

theorem tidy_small {i : Int} (h : -100 ≤ i ∧ i ≤ 100) : Tidy (.int i) := ⟨by omega, by omega⟩

theorem gives_numOp (mb : Nat) (op : Num.Op2) {x y : Num} (hx : Tidy x) (hy : Tidy y) : Gives Tidy (numOp mb op x y) := by
  have h := op2_sound mb op hx hy
  unfold numOp
  generalize (op.impl mb).eval x y = r at h
  cases r with
  | ok z => exact h
  | err => trivial
  | crash => exact h
  | float => trivial

theorem gives_quoRemR {a b : Num} (ha : Tidy a) (hb : Tidy b) : Gives (fun r => Tidy r.1 ∧ Tidy r.2) (quoRemR a b) := by
  have h := quoRem_sound ha hb
  unfold quoRemR
  split
  · trivial
  · generalize Num.quoRem a b = r at h
    cases r with
    | ok z => exact h
    | err => trivial
    | crash => exact h
    | float => trivial

theorem gives_getOr {P : Num → Prop} {l : List Num} (hl : ∀ x ∈ l, P x) {i : Nat} (h : l.length = 1 ∨ i < l.length) : Gives P (getOr l i) := by
  unfold getOr
  split
  · exact gives_vAt hl (by omega)
  · exact gives_vAt hl (by omega)

theorem gives_decodeLoop (mb : Nat) {digit radix : Nat → R Num} {n : Nat} (hd : ∀ i, i < n → Gives Tidy (digit i)) (hr : ∀ i, i < n → Gives Tidy (radix i)) :
    Gives Tidy (decodeLoop mb digit radix n) := by
  unfold decodeLoop
  refine gives_bind (P := fun s : Num × Num => Tidy s.1 ∧ Tidy s.2) (gives_loop _ _ ⟨tidy_small (by omega), tidy_small (by omega)⟩ fun k hk s hs => ?_) fun s hs => hs.1
  have hk : k < n := by simpa using hk
  refine gives_bind (hd k hk) fun d hd => gives_bind (gives_numOp mb _ hs.2 hd) fun p hp => gives_bind (gives_numOp mb _ hs.1 hp) fun r hr' =>
    gives_bind (hr k hk) fun a ha => gives_bind (gives_numOp mb _ hs.2 ha) fun q hq => ⟨hr', hq⟩

theorem gives_decodeVec (mb : Nat) {A B : List Num} (hA : ∀ x ∈ A, Tidy x) (hB : ∀ x ∈ B, Tidy x) : Gives Tidy (decodeVec mb A B) := by
  unfold decodeVec
  split
  · exact tidy_small (by omega)
  · split
    · trivial
    · split
      · exact gives_decodeLoop mb (fun i hi => gives_getOr hB (by omega)) fun i hi => gives_getOr hA (by omega)
      · trivial

/-- What `decode` needs of a matrix on the right: two axes, at least one row, and, if there is just one row and there are columns, something on the left. -/
def Decodable (A : List Num) (B : Mat Num) : Prop := 2 ≤ B.shape.length ∧ B.shape.head? ≠ some 0 ∧ (B.shape.head? = some 1 → B.data ≠ [] → A ≠ [])

theorem gives_decodeMat (S : Sched) (mb : Nat) {A : List Num} (hA : ∀ x ∈ A, Tidy x) {B : Mat Num} (hB : GoodM Tidy B) (hd : Decodable A B) :
    Gives (GoodV Tidy) (decodeMat S mb A B) := by
  obtain ⟨shape, data⟩ := B
  obtain ⟨h2, h0, h1⟩ := hd
  match shape, h2 with
  | rows :: c :: t, _ =>
  have hlen : data.length = rows * vol (c :: t) := hB.1.len
  unfold decodeMat
  simp only [List.head?_cons, ne_eq, Option.some.injEq] at h0 h1
  change Gives _ (if A.length ≠ 1 ∧ rows ≠ 1 ∧ A.length ≠ rows then _ else _)
  rw [if_neg h0]
  split
  · trivial
  · rename_i hc
    have hl : data.length / rows = vol (c :: t) := by rw [hlen, Nat.mul_div_cancel_left _ (by omega)]
    dsimp only
    rw [hl]
    refine gives_bind (fl_each (P := Tidy) S _ (vol (c :: t)) (fun k j => j = k) fl_new fun j hj D e he => ?_) fun e he =>
      gives_bind (fl_publish he fun i hi => .inr ⟨i, hi, rfl⟩) fun d hd => ?_
    · have hne : data ≠ [] := by
        intro h
        rw [h] at hlen
        have := Nat.mul_pos (by omega : 0 < rows) (by omega : 0 < vol (c :: t))
        simp at hlen
        omega
      refine gives_bind (gives_decodeLoop mb (fun i hi => gives_vAt hB.2 ?_) fun i hi => gives_getOr hA ?_) fun x hx => fl_put he hj hx
      · show _ < data.length
        rw [hlen]
        split
        · rename_i hr
          have hi' : i < rows := by
            by_cases h : A.length = 1
            · omega
            · have : A.length = rows := by
                by_cases h' : A.length = rows
                · exact h'
                · exact absurd ⟨h, by omega, h'⟩ hc
              omega
          calc j + i * vol (c :: t) < vol (c :: t) + i * vol (c :: t) := by omega
            _ = (i + 1) * vol (c :: t) := by rw [Nat.add_mul]; omega
            _ ≤ rows * vol (c :: t) := Nat.mul_le_mul_right _ hi'
        · rw [show rows = 1 by omega]; omega
      · by_cases hr : rows = 1
        · have := List.length_pos_iff.2 (h1 hr hne)
          omega
        · by_cases h : A.length = 1
          · exact .inl h
          · have : A.length = rows := by
              by_cases h' : A.length = rows
              · exact h'
              · exact absurd ⟨h, hr, h'⟩ hc
            right; omega
    · split
      · exact hd.2
      · exact gives_matV (by simp) hd.2

theorem gives_decode (S : Sched) (mb : Nat) {u v : V Num} (hu : GoodV Tidy u) (hv : GoodV Tidy v)
    (hd : ∀ A B, u.toVec = .ok A → v = .mat B → Decodable A B) : Gives (GoodV Tidy) (decode S mb u v) := by
  unfold decode
  refine gives_bind (P := fun A => u.toVec = .ok A ∧ ∀ x ∈ A, Tidy x) ?_ fun A hA => ?_
  · have h := gives_toVec hu
    generalize u.toVec = r at h
    cases r with
    | ok A => exact ⟨rfl, h⟩
    | err m => trivial
    | crash => exact h
    | hang => exact h
  · cases v with
    | mat B => exact gives_decodeMat S mb hA.2 hv (hd A B hA.1 rfl)
    | elem x => exact gives_bind (gives_toVec hv) fun B hB => gives_bind (gives_decodeVec mb hA.2 hB) fun x (hx : Tidy x) => hx
    | vec l => exact gives_bind (gives_toVec hv) fun B hB => gives_bind (gives_decodeVec mb hA.2 hB) fun x (hx : Tidy x) => hx

theorem encodeCol_loop {A : List Num} (hA : ∀ x ∈ A, Tidy x) {pos : Nat → Nat} {n : Nat} (hp : ∀ i, i < A.length → pos i < n) : ∀ (ks : List Nat),
    (∀ k ∈ ks, k < A.length) → ∀ {D : Nat → Prop} {s : Ed Num × Num}, Fl Tidy n D s.1 → Tidy s.2 →
    Gives (fun s : Ed Num × Num => Fl Tidy n (fun j => D j ∨ ∃ i ∈ ks, j = pos i) s.1)
      (loop (fun i (s : Ed Num × Num) => (vAt A i).bind fun a => (quoRemR s.2 a).bind fun qr => (s.1.put (pos i) qr.2).bind fun e => .ok (e, qr.1)) ks s)
  | [], _, _, _, he, _ => fl_mono he fun i _ hi => hi.elim id fun ⟨_, hk, _⟩ => (List.not_mem_nil hk).elim
  | k :: ks, hk, D, s, he, hs => by
    have hk0 := hk k (List.mem_cons_self ..)
    refine gives_bind (P := fun s : Ed Num × Num => Fl Tidy n (fun j => D j ∨ j = pos k) s.1 ∧ Tidy s.2) ?_ fun s hs => ?_
    · exact gives_bind (gives_vAt hA hk0) fun a ha => gives_bind (gives_quoRemR hs ha) fun qr hq => gives_bind (fl_put he (hp k hk0) hq.2) fun e he => ⟨he, hq.1⟩
    · refine gives_mono (encodeCol_loop hA hp ks (fun j hj => hk j (List.mem_cons_of_mem _ hj)) hs.1 hs.2) fun s hs => fl_mono hs fun i _ hi => ?_
      rcases hi with hi | ⟨j, hj, hw⟩
      · exact .inl (.inl hi)
      · rcases List.mem_cons.1 hj with rfl | hj
        · exact .inl (.inr hw)
        · exact .inr ⟨j, hj, hw⟩

theorem gives_encodeCol {A : List Num} (hA : ∀ x ∈ A, Tidy x) {pos : Nat → Nat} {n : Nat} (hp : ∀ i, i < A.length → pos i < n) {b : Num} (hb : Tidy b) {D : Nat → Prop}
    {e : Ed Num} (he : Fl Tidy n D e) : Gives (Fl Tidy n fun j => D j ∨ ∃ i, i < A.length ∧ j = pos i) (encodeCol A pos b e) := by
  unfold encodeCol
  refine gives_bind (encodeCol_loop hA hp (List.range A.length).reverse (fun k hk => by simpa using hk) (s := (e, b)) he hb) fun s hs => ?_
  exact fl_mono hs fun i _ hi => hi.imp id fun ⟨k, h1, h2⟩ => ⟨k, by simpa using h1, h2⟩

theorem gives_encodeAll (S : Sched) {A B : List Num} (hA : ∀ x ∈ A, Tidy x) (hB : ∀ x ∈ B, Tidy x) :
    Gives (fun l : List Num => ∀ x ∈ l, Tidy x) ((pfor (S.ranges A.length B.length) (each fun j e => (vAt B j).bind fun b => encodeCol A (fun i => j + i * B.length) b e)
      (newEd (A.length * B.length))).bind fun e => e.publish) := by
  refine gives_bind (fl_each S _ B.length (fun j k => ∃ i, i < A.length ∧ k = j + i * B.length) fl_new fun j hj D e he => ?_) fun e he =>
    gives_mono (fl_publish he fun i hi => ?_) fun l hl => hl.2
  · refine gives_bind (gives_vAt hB hj) fun b hb => gives_encodeCol hA (fun i hi => ?_) hb he
    calc j + i * B.length < B.length + i * B.length := by omega
      _ = (i + 1) * B.length := by rw [Nat.add_mul]; omega
      _ ≤ A.length * B.length := Nat.mul_le_mul_right _ hi
  · have hb : 0 < B.length := by
      rcases Nat.eq_zero_or_pos B.length with h | h
      · rw [h] at hi; simp at hi
      · exact h
    refine .inr ⟨i % B.length, Nat.mod_lt _ hb, i / B.length, (Nat.div_lt_iff_lt_mul hb).2 hi, ?_⟩
    rw [Nat.mul_comm]; exact (Nat.mod_add_div i B.length).symm

theorem bind_pub {e : R (Ed α)} {f : List α → R β} : (e.bind fun e => e.publish.bind f) = (e.bind fun e => e.publish).bind f := by
  cases e <;> rfl

theorem gives_encodeVec (S : Sched) {A B : List Num} (hA : ∀ x ∈ A, Tidy x) (hB : ∀ x ∈ B, Tidy x) : Gives (GoodV Tidy) (encodeVec S A B) := by
  unfold encodeVec
  split
  · trivial
  split
  · exact gives_bind (gives_vAt hB (by omega)) fun b hb => gives_bind (gives_vAt hA (by omega)) fun a ha => gives_bind (gives_quoRemR hb ha) fun qr hq => hq.2
  split
  · refine gives_bind (gives_vAt hB (by omega)) fun b hb => gives_bind (gives_encodeCol hA (pos := id) (n := A.length) (fun i hi => hi) hb fl_new) fun e he =>
      gives_bind (fl_publish he fun i hi => .inr ⟨i, hi, rfl⟩) fun d hd => hd.2
  split
  · refine gives_bind (gives_vAt hA (by omega)) fun a ha => gives_bind (fl_loop (fun k j => j = k) _ fl_new fun k hk D e he => ?_) fun e he =>
      gives_bind (fl_publish he fun i hi => .inr ⟨i, by simpa using hi, rfl⟩) fun d hd => hd.2
    have hk : k < B.length := by simpa using hk
    exact gives_bind (gives_vAt hB hk) fun b hb => gives_bind (gives_quoRemR hb ha) fun qr hq => fl_put he hk hq.2
  · rw [bind_pub]
    exact gives_bind (gives_encodeAll S hA hB) fun d hd => gives_matV (by simp) hd

theorem gives_encode (S : Sched) {u v : V Num} (hu : GoodV Tidy u) (hv : GoodV Tidy v) : Gives (GoodV Tidy) (encode S u v) := by
  unfold encode
  refine gives_bind (gives_toVec hu) fun A hA => ?_
  cases v with
  | mat B =>
    show Gives _ (encodeMat S A B)
    unfold encodeMat
    rw [bind_pub]
    exact gives_bind (gives_encodeAll S hA hv.2) fun d hd => gives_matV (by simp) hd
  | elem x => exact gives_bind (gives_toVec hv) fun B hB => gives_encodeVec S hA hB
  | vec l => exact gives_bind (gives_toVec hv) fun B hB => gives_encodeVec S hA hB

/-! ## `@` -/

theorem leadAts_le : ∀ (n : Nat) (l : List Char), leadAts n l ≤ n
  | 0, _ => Nat.le_refl _
  | n + 1, [] => Nat.zero_le _
  | n + 1, c :: r => by
    unfold leadAts
    split
    · have := leadAts_le n r; omega
    · omega

/-- The first characters counted are all `@`. -/
theorem leadAts_ats : ∀ (n : Nat) (l : List Char) (i : Nat), i < leadAts n l → l[i]? = some '@'
  | 0, _, _, h => by simp [leadAts] at h
  | n + 1, [], _, h => by simp [leadAts] at h
  | n + 1, c :: r, i, h => by
    unfold leadAts at h
    split at h
    · rename_i hc
      cases i with
      | zero => simp [hc]
      | succ i => simpa using leadAts_ats n r i (by omega)
    · omega

/-- If some character is not `@`, those counted from both ends leave it. -/
theorem leadAts_kept {op : List Char} (h : ∃ c ∈ op, c ≠ '@') (n k : Nat) :
    leadAts n op + leadAts k op.reverse ≤ op.length ∧ ∃ c ∈ (op.take (op.length - leadAts k op.reverse)).drop (leadAts n op), c ≠ '@' := by
  obtain ⟨c, hc, hne⟩ := h
  obtain ⟨i, hi, rfl⟩ := List.getElem_of_mem hc
  have h1 : leadAts n op ≤ i := by
    by_cases hlt : i < leadAts n op
    · have := leadAts_ats n op i hlt
      rw [List.getElem?_eq_getElem hi] at this
      exact absurd (Option.some.inj this) hne
    · omega
  have h2 : leadAts k op.reverse ≤ op.length - 1 - i := by
    by_cases hlt : op.length - 1 - i < leadAts k op.reverse
    · have := leadAts_ats k op.reverse _ hlt
      rw [List.getElem?_reverse (by omega), show op.length - 1 - (op.length - 1 - i) = i by omega, List.getElem?_eq_getElem hi] at this
      exact absurd (Option.some.inj this) hne
    · omega
  refine ⟨by omega, op[i], List.mem_iff_getElem?.2 ⟨i - leadAts n op, ?_⟩, hne⟩
  rw [List.getElem?_drop, List.getElem?_take_of_lt (by omega), show leadAts n op + (i - leadAts n op) = i by omega, List.getElem?_eq_getElem hi]

theorem gives_eachSize : ∀ (s : List Nat) (n : Nat), (∀ d ∈ s, d ≠ 0) → Gives (fun r => r = n / vol s) (eachSize n s)
  | [], n, _ => by simp [eachSize, Gives, vol]
  | d :: ds, n, h => by
    unfold eachSize
    rw [if_neg (h d (List.mem_cons_self ..))]
    refine gives_mono (gives_eachSize ds (n / d) fun x hx => h x (List.mem_cons_of_mem _ hx)) fun r hr => ?_
    rw [hr, Nat.div_div_eq_div_mul]; rfl

variable {P : α → Prop}

theorem gives_eachMatrix {m : Mat α} (hm : GoodM P m) {dim : Nat} (hd : dim ≤ m.shape.length) (h1 : 1 ≤ dim) :
    Gives (fun xs => ∀ x ∈ xs, Gives (GoodV P) x) (eachMatrix m dim) := by
  unfold eachMatrix
  split
  · intro x hx
    obtain ⟨y, hy, rfl⟩ := List.mem_map.1 hx
    exact hm.2 y hy
  rename_i hne
  have hv : vol m.shape = vol (m.shape.take dim) * vol (m.shape.drop dim) := by rw [← vol_append, List.take_append_drop]
  have hl : m.data.length = vol m.shape := hm.1.len
  by_cases h0 : 0 < m.data.length
  · rw [if_pos h0]
    have hpos : 0 < vol (m.shape.take dim) ∧ 0 < vol (m.shape.drop dim) := by
      rw [hl, hv] at h0
      exact ⟨Nat.pos_of_mul_pos_right h0, Nat.pos_of_mul_pos_left h0⟩
    refine gives_bind (gives_eachSize _ _ fun d hd => ?_) fun size hsize => ?_
    · have := vol_pos_of_mem hpos.1 hd
      omega
    · rw [hl, hv, Nat.mul_div_cancel_left _ hpos.1] at hsize
      rw [if_neg (by omega)]
      intro x hx
      obtain ⟨k, hk, rfl⟩ := List.mem_map.1 hx
      have hk : k < (m.data.length + size - 1) / size := by simpa using hk
      have hk' : k < vol (m.shape.take dim) := by
        rw [hl, hv, ← hsize] at hk
        have : (vol (m.shape.take dim) * size + size - 1) / size = vol (m.shape.take dim) := by
          rw [Nat.add_sub_assoc (by omega), Nat.mul_comm, Nat.mul_add_div (by omega), Nat.div_eq_of_lt (a := size - 1) (by omega)]; rfl
        rwa [this] at hk
      have hb : k * size + size ≤ m.data.length := by
        rw [hl, hv, ← hsize, ← Nat.succ_mul]
        exact Nat.mul_le_mul_right _ hk'
      have hall : ∀ x ∈ (m.data.drop (k * size)).take size, P x := fun x hx => hm.2 x (List.mem_of_mem_drop (List.mem_of_mem_take hx))
      unfold eachPart
      rw [if_neg (by omega)]
      split
      · exact hall
      · refine gives_matV ?_ hall
        intro h
        have : (m.shape.drop dim).length = 0 := by rw [h]; rfl
        rw [List.length_drop] at this
        omega
  · rw [if_neg h0]
    show Gives _ (if 0 = 0 ∧ 0 < m.data.length then _ else _)
    rw [if_neg (by omega)]
    intro x hx
    simp at hx

theorem gives_eachValue {v : V α} (hv : GoodV P v) {dim : Nat} (hd : ∀ l, v = .vec l → dim ≤ 1) (hm : ∀ m, v = .mat m → dim ≤ m.shape.length) :
    Gives (fun xs => ∀ x ∈ xs, Gives (GoodV P) x) (eachValue v dim) := by
  unfold eachValue
  split
  · intro x hx; rw [List.mem_singleton.1 hx]; exact hv
  · rename_i hne
    cases v with
    | elem x => intro y hy; rw [List.mem_singleton.1 hy]; exact hv
    | vec l =>
      have := hd l rfl
      dsimp only
      rw [if_neg (by omega)]
      intro x hx
      obtain ⟨y, hy, rfl⟩ := List.mem_map.1 hx
      exact hv y hy
    | mat m =>
      have := hm m rfl
      dsimp only
      rw [if_neg (by omega)]
      exact gives_eachMatrix hv this (by omega)

variable {Q : β → Prop} {T : γ → Prop} {J : σ → Prop}

theorem gives_eachLoop {g : V α → σ → R (β × σ)} (hg : ∀ x s, GoodV P x → J s → Gives (fun r => Q r.1 ∧ J r.2) (g x s)) : ∀ (xs : List (R (V α))), (∀ x ∈ xs, Gives (GoodV P) x) →
    ∀ {s : List β × σ}, (∀ y ∈ s.1, Q y) → J s.2 → Gives (fun s : List β × σ => (∀ y ∈ s.1, Q y) ∧ J s.2) (eachLoop g xs s)
  | [], _, _, h1, h2 => ⟨h1, h2⟩
  | x :: xs, hx, s, h1, h2 => by
    refine gives_bind (hx x (List.mem_cons_self ..)) fun x hx' => gives_bind (hg x s.2 hx' h2) fun y hy =>
      gives_eachLoop hg xs (fun z hz => hx z (List.mem_cons_of_mem _ hz)) ?_ hy.2
    intro z hz
    rcases List.mem_append.1 hz with hz | hz
    · exact h1 z hz
    · rw [List.mem_singleton.1 hz]; exact hy.1

theorem gives_eachLoop2 {g : V α → V γ → σ → R (β × σ)} (hg : ∀ x y s, GoodV P x → GoodV T y → J s → Gives (fun r => Q r.1 ∧ J r.2) (g x y s)) {rhs : List (R (V γ))}
    (hr : ∀ x ∈ rhs, Gives (GoodV T) x) : ∀ (xs : List (R (V α))), (∀ x ∈ xs, Gives (GoodV P) x) →
    ∀ {s : List β × σ}, (∀ y ∈ s.1, Q y) → J s.2 → Gives (fun s : List β × σ => (∀ y ∈ s.1, Q y) ∧ J s.2) (eachLoop2 g rhs xs s)
  | [], _, _, h1, h2 => ⟨h1, h2⟩
  | x :: xs, hx, s, h1, h2 =>
    gives_bind (hx x (List.mem_cons_self ..)) fun x hx' => gives_bind (gives_eachLoop (fun y s hy hs => hg x y s hx' hy hs) rhs hr h1 h2) fun _ hs =>
      gives_eachLoop2 hg hr xs (fun z hz => hx z (List.mem_cons_of_mem _ hz)) hs.1 hs.2

theorem toMat_vec [Wide α] {v : V α} : Gives (fun m : Mat α => (∀ l, v = .vec l → m.shape.length ≤ 1) ∧ ∀ m', v = .mat m' → m = m') v.toMat := by
  cases v with
  | elem x => exact gives_mono (gives_newMatrix _ _) fun m h => ⟨nofun, nofun⟩
  | vec l => exact gives_mono (gives_newMatrix [l.length] l) fun m h => ⟨fun _ _ => by rw [h.1]; simp, nofun⟩
  | mat m => exact ⟨nofun, fun m' h => by cases h; rfl⟩

theorem gives_and {P Q : σ → Prop} {r : R σ} (h1 : Gives P r) (h2 : Gives Q r) : Gives (fun x => P x ∧ Q x) r := by
  cases r with
  | ok a => exact ⟨h1, h2⟩
  | err m => trivial
  | crash => exact h1
  | hang => exact h1

/-- `@` on the right ends, if the operator does. -/
theorem gives_Each [Wide α] {f : List Char → V α → σ → R (β × σ)} {op : List Char}
    (hf : ∀ n x s, n.length < op.length → GoodV P x → J s → Gives (fun r => Q r.1 ∧ J r.2) (f n x s)) {v : V α} (hv : GoodV P v) {s : σ} (hs : J s) (hop : op ≠ []) :
    Gives (fun r => GoodV Q r.1 ∧ J r.2) (Each f op v s) := by
  unfold Each
  refine gives_bind (gives_and (gives_toMat hv) toMat_vec) fun m hm => ?_
  have hle := leadAts_le m.shape.length op.reverse
  generalize leadAts m.shape.length op.reverse = d at hle
  dsimp only
  split
  · trivial
  · rename_i hd
    refine gives_bind (gives_eachValue hv (dim := d) (fun l hl => by have := hm.2.1 l hl; omega) fun m' hm' => by rw [← hm.1.2 m' hm']; exact hle) fun items hi => ?_
    have hn : (op.take (op.length - d)).length < op.length := by
      have := List.length_pos_iff.2 hop
      rw [List.length_take]; omega
    refine gives_bind (gives_eachLoop (fun x s hx hs => hf _ x s hn hx hs) items hi (s := ([], s)) (by simp) hs) fun r hr => ?_
    split
    · exact hr
    · refine gives_bind (gives_mat ?_ hr.1) fun m' hm' => ⟨hm'.1, hr.2⟩
      have := hm.1.1.1.rank
      intro h
      rcases List.take_eq_nil_iff.1 h with h | h
      · omega
      · exact this h

/-- `@` with two operands ends, if the operator does. -/
theorem gives_BinaryEach [Wide α] [Wide γ] {f : List Char → V α → V γ → σ → R (β × σ)} {op : List Char} (hop : ∃ c ∈ op, c ≠ '@')
    (hat : op.head? = some '@' ∨ op.getLast? = some '@')
    (hf : ∀ n x y s, n.length < op.length → (∃ c ∈ n, c ≠ '@') → GoodV P x → GoodV T y → J s → Gives (fun r => Q r.1 ∧ J r.2) (f n x y s)) {u : V α} {v : V γ} (hu : GoodV P u) (hv : GoodV T v)
    {s : σ} (hs : J s) : Gives (fun r => GoodV Q r.1 ∧ J r.2) (BinaryEach f op u v s) := by
  unfold BinaryEach
  refine gives_bind (gives_and (gives_toMat hu) toMat_vec) fun l hl => ?_
  have hle := leadAts_le l.shape.length op
  dsimp only
  split
  · trivial
  rename_i h1
  refine gives_bind (gives_eachValue hu (fun l' h => by have := hl.2.1 l' h; omega) fun m' hm' => by rw [← hl.1.2 m' hm']; exact hle) fun lhs hlhs => ?_
  refine gives_bind (gives_and (gives_toMat hv) toMat_vec) fun r hr => ?_
  have hre := leadAts_le r.shape.length op.reverse
  split
  · trivial
  rename_i h2
  refine gives_bind (gives_eachValue hv (fun l' h => by have := hr.2.1 l' h; omega) fun m' hm' => by rw [← hr.1.2 m' hm']; exact hre) fun rhs hrhs => ?_
  obtain ⟨hap, hke⟩ := leadAts_kept hop l.shape.length r.shape.length
  generalize leadAts l.shape.length op = ld at *
  generalize leadAts r.shape.length op.reverse = rd at *
  rw [if_neg (by omega)]
  have hpos : 0 < ld + rd := by
    rcases hat with h | h
    · by_cases hz : ld = 0
      · exact absurd ⟨hz, h⟩ h1
      · omega
    · by_cases hz : rd = 0
      · exact absurd ⟨hz, h⟩ h2
      · omega
  have hn : ((op.take (op.length - rd)).drop ld).length < op.length := by
    obtain ⟨c, hc, _⟩ := hop
    have := List.length_pos_of_mem hc
    rw [List.length_drop, List.length_take]; omega
  refine gives_bind (gives_eachLoop2 (fun x y s hx hy hs => hf _ x y s hn hke hx hy hs) hrhs lhs hlhs (s := ([], s)) (by simp) hs) fun res hres => ?_
  split
  · exact hres
  · refine gives_bind (gives_mat ?_ hres.1) fun m' hm' => ⟨hm'.1, hres.2⟩
    have a := hl.1.1.1.rank
    have b := hr.1.1.1.rank
    intro h
    rcases List.append_eq_nil_iff.1 h with ⟨h1, h2⟩
    rcases List.take_eq_nil_iff.1 h1 with h | h
    · rcases List.take_eq_nil_iff.1 h2 with h' | h'
      · omega
      · exact b h'
    · exact a h

end Verif.Safe
