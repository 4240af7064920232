import Verif.Arr.InvLemmas2
import Verif.Arr.EvalNum

/-!
# The inverse of matrices and vectors of exact numbers
-/

namespace Verif.Arr
variable {α β K : Type} [Field K]

/-- Rows of equal length one after the other. -/
theorem flatMap_get {n : Nat} (f : List α → List α) : ∀ (t : List (List α)), (∀ row ∈ t, (f row).length = n) → ∀ (i j : Nat),
    j < n → (t.flatMap f)[i * n + j]? = (t[i]?).bind fun row => (f row)[j]?
  | [], _, i, j, _ => by simp
  | row :: t, h, i, j, hj => by
    have hr := h row (by simp)
    cases i with
    | zero =>
      rw [List.flatMap_cons, List.getElem?_append_left (by rw [hr]; omega)]
      simp
    | succ i =>
      have e : (i + 1) * n + j = n + (i * n + j) := by ring
      rw [List.flatMap_cons, e, List.getElem?_append_right (by rw [hr]; omega), hr, Nat.add_sub_cancel_left,
        flatMap_get f t (fun r hr' => h r (by simp [hr'])) i j hj]
      simp

theorem flatMap_len {n : Nat} (f : List α → List α) : ∀ (t : List (List α)), (∀ row ∈ t, (f row).length = n) →
    (t.flatMap f).length = t.length * n
  | [], _ => by simp
  | row :: t, h => by
    rw [List.flatMap_cons, List.length_append, h row (by simp), flatMap_len f t (fun r hr' => h r (by simp [hr'])), List.length_cons]
    ring

variable {o : Ops α} {P : α → Prop} {val : α → K}

/-- The numbers in the list. -/
def numAt (val : α → K) (n : Nat) (data : List α) (i j : Nat) : K :=
  match data[i * n + j]? with
  | some a => val a
  | none => 0

theorem minor_leading {n k : Nat} (h : k ≤ n) (data : List α) :
    MinorOk (numAt val n data) k ↔ (leading (asMatrix val n data) k h).det ≠ 0 := Iff.rfl

/-- The inverse of a square matrix. -/
theorem matInverse_ok (ho : o.Exact P val) {n : Nat} {m m' : Mat α} (hm : m.Ok) (hs : m.shape = [n, n]) (hP : ∀ a ∈ m.data, P a)
    (h : matInverse o m = .ok m') :
    m'.shape = [n, n] ∧ m'.Ok ∧ (∀ a ∈ m'.data, P a) ∧ asMatrix val n m'.data * asMatrix val n m.data = 1 ∧
      ∀ k, 1 ≤ k → k ≤ n → MinorOk (numAt val n m.data) k := by
  have hl : m.data.length = n * n := by rw [hm.len, hs]; simp [vol]
  obtain ⟨t, t1, t2, t3⟩ := invTable_ok ho hl hP
  unfold matInverse at h
  rw [hs] at h
  simp only [ne_eq, not_true_eq_false, if_false, t1, bind_ok] at h
  obtain ⟨t', h1, h2⟩ := R.bind_eq_ok.1 h
  obtain ⟨g1, g2, g3⟩ := eliminate_ok ho t2 t3 h1
  obtain ⟨k1, k2⟩ := newMatrix_Ok (by simp) h2
  subst k2
  have hrow : ∀ row ∈ t', (row.drop n).length = n := by
    intro row hr
    have := (g1.2 row hr).1
    simp [this]; omega
  refine ⟨rfl, k1, ?_, ?_, g3⟩
  · intro a ha
    obtain ⟨row, hr, ha⟩ := List.mem_flatMap.1 ha
    exact (g1.2 row hr).2 a (List.mem_of_mem_drop ha)
  · have e := g2.end
    have e1 : asMatrix val n (t'.flatMap fun row => row.drop n) = Matrix.of (fun i j : Fin n => ent val t' i (n + j)) := by
      ext i j
      show (match (t'.flatMap fun row => row.drop n)[(i : Nat) * n + j]? with | some a => val a | none => 0) = ent val t' i (n + j)
      rw [flatMap_get _ t' hrow i j j.2]
      unfold ent
      rcases t'[(i : Nat)]? with _ | row
      · rfl
      · show (match (row.drop n)[(j : Nat)]? with | some a => val a | none => 0) = _
        rw [List.getElem?_drop]
        rfl
    rw [e1]
    exact e

theorem matInverse_total (ho : o.Exact P val) (hto : o.Total P val) {n : Nat} {m : Mat α} (hm : m.Ok) (hs : m.shape = [n, n])
    (hP : ∀ a ∈ m.data, P a) :
    ((∀ k, 1 ≤ k → k ≤ n → MinorOk (numAt val n m.data) k) → ∃ m', matInverse o m = .ok m') ∧
    ((∃ m', matInverse o m = .ok m') ∨ matInverse o m = .err nonInvertible) := by
  have hl : m.data.length = n * n := by rw [hm.len, hs]; simp [vol]
  obtain ⟨t, t1, t2, t3⟩ := invTable_ok ho hl hP
  have key : ∀ t', eliminate o n t = .ok t' → ∃ m', matInverse o m = .ok m' := by
    intro t' h1
    have g1 := (eliminate_ok ho t2 t3 h1).1
    have hrow : ∀ row ∈ t', (row.drop n).length = n := by
      intro row hr
      have := (g1.2 row hr).1
      simp [this]; omega
    unfold matInverse
    rw [hs]
    simp only [ne_eq, not_true_eq_false, if_false, t1, bind_ok, h1]
    exact ⟨_, newMatrix_fits (by simp) (by rw [flatMap_len _ t' hrow, g1.1]; simp [vol]) (hs ▸ hm.fits)⟩
  constructor
  · intro hk
    obtain ⟨t', h1⟩ := eliminate_total ho hto t2 t3 hk
    exact key t' h1
  · rcases eliminate_or ho hto t2 with ⟨t', h1⟩ | h1
    · exact .inl (key t' h1)
    · right
      unfold matInverse
      rw [hs]
      simp only [ne_eq, not_true_eq_false, if_false, t1, bind_ok, h1, bind_err]

/-- The sum of the products of the elements of two lists. -/
def dot (val : α → K) (xs ys : List α) : K := (List.zipWith (fun a b => val a * val b) xs ys).sum

theorem dot_total (ho : o.Exact P val) (hto : o.Total P val) : ∀ (xs ys : List α), xs.length = ys.length → xs ≠ [] →
    (∀ a ∈ xs, P a) → (∀ a ∈ ys, P a) →
    ∃ zs y, allR (List.zipWith o.mul xs ys) = .ok zs ∧ foldR o.add zs = .ok y ∧ P y ∧ val y = dot val xs ys
  | [], _, _, h, _, _ => absurd rfl h
  | [x], [y], _, _, hx, hy => by
    obtain ⟨z, hz⟩ := hto.mul x y (hx x (by simp)) (hy y (by simp))
    have := ho.mul x y z (hx x (by simp)) (hy y (by simp)) hz
    exact ⟨[z], z, by simp [allR, hz, R.bind], rfl, this.1, by simp [dot, this.2]⟩
  | x :: x' :: xs, y :: y' :: ys, hl, _, hx, hy => by
    obtain ⟨zs, s, h1, h2, h3, h4⟩ := dot_total ho hto (x' :: xs) (y' :: ys) (by simpa using hl) (by simp)
      (fun a ha => hx a (by simp at ha ⊢; tauto)) (fun a ha => hy a (by simp at ha ⊢; tauto))
    obtain ⟨z, hz⟩ := hto.mul x y (hx x (by simp)) (hy y (by simp))
    have hzP := ho.mul x y z (hx x (by simp)) (hy y (by simp)) hz
    obtain ⟨w, hw⟩ := hto.add z s hzP.1 h3
    have hwP := ho.add z s w hzP.1 h3 hw
    refine ⟨z :: zs, w, ?_, ?_, hwP.1, ?_⟩
    · rw [List.zipWith_cons_cons, allR, hz, bind_ok, h1]; rfl
    · cases zs with
      | nil => simp [foldR] at h2
      | cons z' zs => rw [foldR, h2]; exact hw
    · rw [hwP.2, hzP.2, h4]; simp [dot]
  | [_], [], hl, _, _, _ => by simp at hl
  | [_], _ :: _ :: _, hl, _, _, _ => by simp at hl
  | _ :: _ :: _, [], hl, _, _, _ => by simp at hl
  | _ :: _ :: _, [_], hl, _, _, _ => by simp at hl

theorem dot_range (val : α → K) {f g : Nat → α} (n : Nat) :
    dot val ((List.range n).map f) ((List.range n).map g) = ∑ k ∈ Finset.range n, val (f k) * val (g k) := by
  unfold dot
  rw [List.zipWith_map, List.zipWith_self]
  induction n with
  | zero => simp
  | succ n ih => rw [List.range_succ, List.map_append, List.sum_append, ih, Finset.sum_range_succ]; simp

/-- What multiplying and adding two square matrices gives. -/
theorem inner_square [Wide α] (S : Sched) (ho : o.Exact P val) (hto : o.Total P val) {n : Nat} (hn : 0 < n) {m m' : Mat α} (hm : m.Ok) (hm' : m'.Ok)
    (hs : m.shape = [n, n]) (hs' : m'.shape = [n, n]) (hP : ∀ a ∈ m.data, P a) (hP' : ∀ a ∈ m'.data, P a) :
    ∃ p, inner S o.add o.mul (.mat m) (.mat m') = .ok p ∧ p.shape = [n, n] ∧
      ∀ i j : Fin n, ∃ y, p.at [(i : Nat), (j : Nat)] = some y ∧ val y = (asMatrix val n m.data * asMatrix val n m'.data) i j := by
  have get : ∀ {m : Mat α}, m.Ok → m.shape = [n, n] → ∀ i j, i < n → j < n → ∃ a, (V.mat m).at [i, j] = some a ∧ a ∈ m.data ∧
      numAt val n m.data i j = val a := by
    intro m hm hs i j hi hj
    have hb : i * n + j < m.data.length := by
      rw [hm.len, hs]
      simp only [vol, mul_one]
      calc i * n + j < i * n + n := by omega
        _ = (i + 1) * n := by ring
        _ ≤ n * n := Nat.mul_le_mul_right n hi
    refine ⟨m.data[i * n + j], ?_, List.getElem_mem hb, ?_⟩
    · show m.at [i, j] = _
      unfold Mat.at
      rw [hs, if_pos ⟨hi, hj, trivial⟩]
      simp [ravel, vol, List.getElem?_eq_getElem hb]
    · unfold numAt; rw [List.getElem?_eq_getElem hb]
  have cells : ∀ i j, i < n → j < n → ∃ xs y, allR (List.zipWith o.mul ((V.mat m).promote.lastLine n [i]) ((V.mat m').promote.firstLine n [j])) = .ok xs ∧
      foldR o.add xs = .ok y ∧ P y ∧ val y = ∑ k ∈ Finset.range n, numAt val n m.data i k * numAt val n m'.data k j := by
    intro i j hi hj
    have h1 : ∀ k, ∃ a, k < n → (V.mat m).at [i, k] = some a ∧ a ∈ m.data ∧ numAt val n m.data i k = val a := by
      intro k
      by_cases hk : k < n
      · obtain ⟨a, h⟩ := get hm hs i k hi hk; exact ⟨a, fun _ => h⟩
      · obtain ⟨a, _⟩ := get hm hs i i hi hi; exact ⟨a, fun h => absurd h hk⟩
    have h2 : ∀ k, ∃ a, k < n → (V.mat m').at [k, j] = some a ∧ a ∈ m'.data ∧ numAt val n m'.data k j = val a := by
      intro k
      by_cases hk : k < n
      · obtain ⟨a, h⟩ := get hm' hs' k j hk hj; exact ⟨a, fun _ => h⟩
      · obtain ⟨a, _⟩ := get hm' hs' i i hi hi; exact ⟨a, fun h => absurd h hk⟩
    choose f hf using h1
    choose g hg using h2
    have e1 : (V.mat m).promote.lastLine n [i] = (List.range n).map f := by
      unfold V.lastLine
      rw [← List.filterMap_eq_map]
      apply List.filterMap_congr
      intro k hk
      exact (hf k (List.mem_range.1 hk)).1
    have e2 : (V.mat m').promote.firstLine n [j] = (List.range n).map g := by
      unfold V.firstLine
      rw [← List.filterMap_eq_map]
      apply List.filterMap_congr
      intro k hk
      exact (hg k (List.mem_range.1 hk)).1
    obtain ⟨zs, y, a1, a2, a3, a4⟩ := dot_total ho hto ((List.range n).map f) ((List.range n).map g) (by simp) (by simp; omega)
      (by intro a ha; obtain ⟨k, hk, rfl⟩ := List.mem_map.1 ha; exact hP _ (hf k (List.mem_range.1 hk)).2.1)
      (by intro a ha; obtain ⟨k, hk, rfl⟩ := List.mem_map.1 ha; exact hP' _ (hg k (List.mem_range.1 hk)).2.1)
    refine ⟨zs, y, by rw [e1, e2]; exact a1, a2, a3, ?_⟩
    rw [a4, dot_range]
    apply Finset.sum_congr rfl
    intro k hk
    rw [(hf k (Finset.mem_range.1 hk)).2.2, (hg k (Finset.mem_range.1 hk)).2.2]
  have inB1 : ∀ c, InB [n] c → ∃ i, i < n ∧ c = [i] := by
    intro c hc
    match c, hc with
    | [i], hc => exact ⟨i, hc.1, rfl⟩
    | _ :: _ :: _, hc => exact absurd hc.2 (by simp [InB])
  have plain : ∀ {m : Mat α}, m.shape = [n, n] → (V.mat m).Plain := by
    intro m hs
    show (_ = true ↔ 2 ≤ m.shape.length)
    rw [hs]; simp [V.isMat]
  have vok : ∀ {m : Mat α}, m.Ok → m.shape = [n, n] → (V.mat m).Ok := by
    intro m hm hs
    have hf := hm.fits 2 (Nat.le_refl _) (by rw [hs]; rfl)
    rw [hs] at hf
    simp only [List.take, vol, mul_one] at hf
    refine ⟨hm, by rw [hm.len, hs]; simpa [vol] using hf, ?_⟩
    intro d hd
    rw [hs] at hd
    have : d = n := by simpa using hd
    subst this
    exact Nat.le_trans (Nat.le_mul_of_pos_left d hn) hf
  have hin := inner_eq S o.add o.mul (u := .mat m) (v := .mat m') (s := [n]) (t := [n]) (n := n) (vok hm hs) (vok hm' hs') (plain hs) (plain hs')
    ⟨fun _ => trivial, fun _ => trivial⟩ (by exact hs) (by exact hs') hn
  obtain ⟨p, hp⟩ := hin.2 (by have := hm.fits; rw [hs] at this; exact this) (by
    intro c1 c2 h1 h2
    obtain ⟨i, hi, rfl⟩ := inB1 c1 h1
    obtain ⟨j, hj, rfl⟩ := inB1 c2 h2
    obtain ⟨xs, y, a1, a2, _⟩ := cells i j hi hj
    exact ⟨xs, y, a1, a2⟩)
  obtain ⟨q1, _, _, q2⟩ := hin.1 p hp
  refine ⟨p, hp, q1, ?_⟩
  intro i j
  obtain ⟨xs, y, b1, b2, b3⟩ := q2 [(i : Nat)] [(j : Nat)] ⟨i.2, trivial⟩ ⟨j.2, trivial⟩
  obtain ⟨xs', y', a1, a2, a3, a4⟩ := cells i j i.2 j.2
  rw [a1] at b1; cases b1
  rw [a2] at b2; cases b2
  refine ⟨y, b3, ?_⟩
  rw [a4]
  show _ = ∑ k : Fin n, numAt val n m.data i k * numAt val n m'.data k j
  rw [Fin.sum_univ_eq_sum_range (fun k => numAt val n m.data i k * numAt val n m'.data k j) n]

/-- The operators of the model of numbers. -/
def numUn (op : Num.Op1) (x : Num.Num) : R Num.Num :=
  match op.impl.eval x with
  | .ok z => .ok z
  | .err => .err "number"
  | .crash => .crash
  | .float => .err "float"

/-- Elements that are exact numbers: `value/eval.go:761-763, 790-804`. -/
def numOps (maxBits : Nat) : Ops Num.Num where
  scalar := fun _ => true
  isZero := fun
    | .int i => i == 0
    | .char _ => false
    | .bigInt i => i == 0
    | .bigRat r => r == 0
  one := Num.one
  zero := Num.zero
  recip := numUn .recip
  conj := R.ok
  add := numOp maxBits .add
  mul := numOp maxBits .mul
  sub := numOp maxBits .sub
  div := numOp maxBits .quo

theorem numOp_ok {mb : Nat} {op : Num.Op2} {x y z : Num.Num} (h : numOp mb op x y = .ok z) : (op.impl mb).eval x y = .ok z := by
  unfold numOp at h
  split at h <;> first | (cases h; assumption) | cases h

theorem numUn_ok {op : Num.Op1} {x z : Num.Num} (h : numUn op x = .ok z) : op.impl.eval x = .ok z := by
  unfold numUn at h
  split at h <;> first | (cases h; assumption) | cases h

theorem numOps_exact (mb : Nat) : (numOps mb).Exact Num.Num.Small Num.Num.val where
  scalar := fun _ _ => rfl
  isZero := by
    intro a ha
    cases a with
    | int i => simp [numOps, Num.Num.val]
    | char c => exact ha.elim
    | bigInt i => simp [numOps, Num.Num.val]
    | bigRat r => simp [numOps, Num.Num.val]
  one := ⟨by show -(2 ^ 31) ≤ (1 : Int) ∧ (1 : Int) ≤ 2 ^ 31; decide, by simp [numOps, Num.one, Num.Num.val]⟩
  zero := ⟨by show -(2 ^ 31) ≤ (0 : Int) ∧ (0 : Int) ≤ 2 ^ 31; decide, by simp [numOps, Num.zero, Num.Num.val]⟩
  recip := fun a b ha h => (Num.recip_ok ha).2 b (numUn_ok h)
  add := fun a b c ha hb h => (Num.add_ok ha hb).2 c (numOp_ok h)
  mul := fun a b c ha hb h => (Num.mul_ok ha hb).2 c (numOp_ok h)
  sub := fun a b c ha hb h => (Num.sub_ok ha hb).2 c (numOp_ok h)
  div := fun a b c ha hb h => ⟨((Num.divide_ok ha hb).2 c (numOp_ok h)).1, ((Num.divide_ok ha hb).2 c (numOp_ok h)).2.2⟩

theorem numOps_total : (numOps 0).Total Num.Num.Small Num.Num.val where
  recip := by
    intro a ha h
    obtain ⟨w, hw⟩ := Num.recip_some ha h
    exact ⟨w, by show numUn .recip a = _; unfold numUn; rw [show (Num.Op1.recip).impl.eval a = .ok w from hw]⟩
  add := by
    intro a b ha hb
    obtain ⟨w, hw⟩ := Num.add_some ha.isNum hb.isNum
    exact ⟨w, by show numOp 0 .add a b = _; unfold numOp; rw [show (Num.Op2.add.impl 0).eval a b = .ok w from hw]⟩
  mul := by
    intro a b ha hb
    obtain ⟨w, hw⟩ := Num.mul_some ha.isNum hb.isNum
    exact ⟨w, by show numOp 0 .mul a b = _; unfold numOp; rw [show (Num.Op2.mul.impl 0).eval a b = .ok w from hw]⟩
  sub := by
    intro a b ha hb
    obtain ⟨w, hw⟩ := Num.sub_some ha.isNum hb.isNum
    exact ⟨w, by show numOp 0 .sub a b = _; unfold numOp; rw [show (Num.Op2.sub.impl 0).eval a b = .ok w from hw]⟩
  div := by
    intro a b ha hb h
    obtain ⟨w, hw⟩ := Num.divide_some ha.isNum hb.isNum h
    exact ⟨w, by show numOp 0 .quo a b = _; unfold numOp; rw [show (Num.Op2.quo.impl 0).eval a b = .ok w from hw]⟩

/-- The vector of conjugates of numbers that are not complex. -/
theorem conjAll_ok (ho : o.Exact P val) (hc : ∀ a, o.conj a = .ok a) : ∀ (v : List α), (∀ a ∈ v, P a) → conjAll o v = .ok v
  | [], _ => rfl
  | x :: xs, h => by
    rw [conjAll, if_neg (by simp [ho.scalar x (h x (by simp))]), hc, bind_ok, conjAll_ok ho hc xs (fun a ha => h a (by simp [ha]))]
    rfl

theorem magnitude_ok (ho : o.Exact P val) (hto : o.Total P val) : ∀ (l : List (α × α)) (mag : α), P mag → (∀ p ∈ l, P p.1 ∧ P p.2) →
    ∃ w, magnitude o mag l = .ok w ∧ P w ∧ val w = val mag + (l.map fun p => val p.1 * val p.2).sum
  | [], mag, hm, _ => ⟨mag, rfl, hm, by simp⟩
  | (x, c) :: l, mag, hm, h => by
    have hx := h (x, c) (by simp)
    obtain ⟨p, hp⟩ := hto.mul x c hx.1 hx.2
    have hpP := ho.mul x c p hx.1 hx.2 hp
    obtain ⟨s, hs⟩ := hto.add mag p hm hpP.1
    have hsP := ho.add mag p s hm hpP.1 hs
    obtain ⟨w, h1, h2, h3⟩ := magnitude_ok ho hto l s hsP.1 (fun q hq => h q (by simp [hq]))
    exact ⟨w, by simp only [magnitude, hp, bind_ok, hs, h1], h2, by rw [h3, hsP.2, hpP.2]; simp [add_assoc]⟩

theorem divideAll_ok (ho : o.Exact P val) (hto : o.Total P val) {mag : α} (hm : P mag) (h0 : val mag ≠ 0) : ∀ (v : List α),
    (∀ a ∈ v, P a) → ∃ l, divideAll o mag v = .ok l ∧ (∀ a ∈ l, P a) ∧ l.map val = v.map fun a => val a / val mag
  | [], _ => ⟨[], rfl, by simp, rfl⟩
  | x :: xs, h => by
    obtain ⟨y, hy⟩ := hto.div x mag (h x (by simp)) hm h0
    have hyP := ho.div x mag y (h x (by simp)) hm hy
    obtain ⟨l, h1, h2, h3⟩ := divideAll_ok ho hto hm h0 xs (fun a ha => h a (by simp [ha]))
    refine ⟨y :: l, by simp only [divideAll, hy, bind_ok, h1], ?_, ?_⟩
    · intro a ha
      rcases List.mem_cons.1 ha with e | e
      · rw [e]; exact hyP.1
      · exact h2 a e
    · rw [List.map_cons, List.map_cons, h3]
      congr 1
      rw [eq_div_iff h0]; exact hyP.2

end Verif.Arr
