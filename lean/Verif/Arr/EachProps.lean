import Verif.Arr.EachLemmas
import Verif.Arr.EvalNum

/-!
# C53: each
-/

namespace Verif.Arr
variable {α β γ σ : Type}

/-- C53 in full, for an operator on one side that neither changes anything nor fails: `f@@… v`, with `k` signs `@`, is an array whose shape is the first `k`
dimensions of `v`, and whose elements are `f` (with the signs left over, if there are more than axes) of the parts of `v`; a single value is refused. -/
def C53_statement : Prop :=
  ∀ (f : List Char → V Num.Num → Nat) (v : V Num.Num) (name : List Char) (k : Nat), v.Ok → v.Plain → 1 ≤ k → name ≠ [] → name.getLast? ≠ some '@' →
    (v.shape = [] → ∃ e, Each (fun n x (_ : Unit) => .ok (f n x, ())) (name ++ List.replicate k '@') v () = .err e) ∧
    (v.shape ≠ [] → ∃ r, Each (fun n x (_ : Unit) => .ok (f n x, ())) (name ++ List.replicate k '@') v () = .ok (r, ()) ∧ r.shape = v.shape.take k ∧
      ∀ c, InB (v.shape.take k) c → ∃ s, IsSub v c s ∧ r.at c = some (f (name ++ List.replicate (k - v.shape.length) '@') s))

/-- The full statement fails: each row of a matrix of two empty rows gives no results, not two. -/
theorem C53_violated : ¬ C53_statement := by
  intro h
  obtain ⟨r, h1, h2, _⟩ := (h (fun _ v => v.data.length) (.mat ⟨[2, 0], []⟩) ['f'] 1 (by decide) (by decide) (by decide) (by decide) (by decide)).2 (by decide)
  have h3 : Each (fun n x (_ : Unit) => .ok ((fun _ (v : V Num.Num) => v.data.length) n x, ())) (['f'] ++ List.replicate 1 '@') (.mat ⟨[2, 0], []⟩) () = .ok (.vec [], ()) := by
    decide +kernel
  rw [h3] at h1
  cases h1
  revert h2
  decide

/-- With more signs an error. -/
theorem C53_empty_violated : Each (fun _ (v : V Num.Num) (_ : Unit) => .ok (v.data.length, ())) ['f', '@', '@'] (.mat ⟨[2, 3, 0], []⟩) () =
    .err "inconsistent shape and data size" ∧ (V.mat (Mat.mk [2, 3, 0] ([] : List Num.Num))).Ok := by decide +kernel

/-- Single values are not refused, although the code means to (`value/eval.go:633-635`), and how many axes there are depends on the number:
`f@@ 2` is a vector, its elements `f@ 2`; `f@@ 1/2` is a matrix, its elements `f 1/2`. -/
theorem C53_scalar_violated :
    Each (fun n (_ : V Num.Num) (_ : Unit) => .ok (n, ())) ['f', '@', '@'] (.elem (.int 2)) () = .ok (.vec [['f', '@']], ()) ∧
    Each (fun n (_ : V Num.Num) (_ : Unit) => .ok (n, ())) ['f', '@', '@'] (.elem (.bigRat (1 / 2))) () = .ok (.mat ⟨[1, 1], [['f']]⟩, ()) := by
  decide +kernel

/-- C53, one operand, but for single values and for arrays with coordinates on the first axes and no elements: the parts of the operand are gone through in
row-major order, the operator is applied to one after the other, in the state the one before left, and the first that fails ends it. The results are arranged
by the first dimensions. -/
theorem C53_each_order_partial [Wide α] (f : List Char → V α → σ → R (β × σ)) {v : V α} (hv : v.Ok) (hp : v.Plain) (hs : v.shape ≠ []) {name : List Char}
    (hn : name.getLast? ≠ some '@') {k : Nat} (hk : 1 ≤ k) (hg : NoGap v (min v.shape.length k)) (s : σ) :
    ∃ xs, Items v (min v.shape.length k) xs ∧ Each f (name ++ List.replicate k '@') v s =
      (seqR (f (name ++ List.replicate (k - v.shape.length) '@')) xs s).bind fun r => .ok (arrange (v.shape.take k) r.1, r.2) :=
  each_eq f hv hp hs hn hk hg s

theorem take_min (s : List Nat) (k : Nat) : s.take (min s.length k) = s.take k := by rw [Nat.min_comm, ← List.take_take, List.take_length]

/-- C53, one operand, of an operator that changes nothing. -/
theorem C53_each_partial [Wide α] (f : List Char → V α → R β) {v : V α} (hv : v.Ok) (hp : v.Plain) (hs : v.shape ≠ []) {name : List Char}
    (hn : name.getLast? ≠ some '@') {k : Nat} (hk : 1 ≤ k) (hg : NoGap v (min v.shape.length k)) :
    (∀ r, Each (fun n x (_ : Unit) => (f n x).bind fun y => .ok (y, ())) (name ++ List.replicate k '@') v () = .ok (r, ()) →
      r.shape = v.shape.take k ∧ ∀ c, InB (v.shape.take k) c → ∃ s y, IsSub v c s ∧ f (name ++ List.replicate (k - v.shape.length) '@') s = .ok y ∧ r.at c = some y) ∧
    ((∀ c s, InB (v.shape.take k) c → IsSub v c s → ∃ y, f (name ++ List.replicate (k - v.shape.length) '@') s = .ok y) →
      ∃ r, Each (fun n x (_ : Unit) => (f n x).bind fun y => .ok (y, ())) (name ++ List.replicate k '@') v () = .ok (r, ())) := by
  obtain ⟨xs, h1, h2⟩ := each_eq (fun n x (_ : Unit) => (f n x).bind fun y => .ok (y, ())) hv hp hs hn hk hg ()
  rw [h2]
  have hlen := h1.len
  have hsub := h1.sub
  rw [take_min] at hlen hsub
  constructor
  · intro r hr
    obtain ⟨t, h3, h4⟩ := bind_eq_ok.mp hr
    cases h4
    have hl := seqR_length _ h3
    rw [hlen] at hl
    refine ⟨arrange_shape hl, ?_⟩
    intro c hc
    obtain ⟨s, h5, h6⟩ := hsub c hc
    obtain ⟨y, h7, h8⟩ := seqR_pure _ h3 _ _ h5
    exact ⟨s, y, h6, h7, by rw [arrange_at hl hc, h8]⟩
  · intro hall
    obtain ⟨ys, hys⟩ := seqR_pure_ok (f (name ++ List.replicate (k - v.shape.length) '@')) (xs := xs) (by
      intro x hx
      obtain ⟨i, hi, rfl⟩ := List.getElem_of_mem hx
      rw [hlen] at hi
      obtain ⟨s, h5, h6⟩ := hsub _ (unravel_inB hi)
      rw [ravel_unravel hi, List.getElem?_eq_getElem (by rw [hlen]; exact hi)] at h5
      cases h5
      exact hall _ _ (unravel_inB hi) h6)
    exact ⟨_, by rw [hys, bind_ok]⟩

/-- C53, two operands: all parts of the left operand with all parts of the right one, in row-major order. An operand without signs `@` on its side can be a single
value. -/
theorem C53_binary_order_partial [Wide α] [Wide γ] (f : List Char → V α → V γ → σ → R (β × σ)) {u : V α} {v : V γ} (hu : u.Ok) (hv : v.Ok) (pu : u.Plain) (pv : v.Plain)
    {name : List Char} (hn : name ≠ []) (hn1 : name.head? ≠ some '@') (hn2 : name.getLast? ≠ some '@') {k j : Nat} (hkj : 1 ≤ k + j)
    (hku : 1 ≤ k → u.shape ≠ []) (hjv : 1 ≤ j → v.shape ≠ []) (gu : NoGap u (min u.shape.length k)) (gv : NoGap v (min v.shape.length j))
    (hf : Fits (u.shape.take k ++ v.shape.take j)) (s : σ) :
    ∃ xs ys, Items u (min u.shape.length k) xs ∧ Items v (min v.shape.length j) ys ∧
      BinaryEach f (List.replicate k '@' ++ name ++ List.replicate j '@') u v s =
      (seqR (fun p => f (List.replicate (k - u.shape.length) '@' ++ name ++ List.replicate (j - v.shape.length) '@') p.1 p.2) (allPairs xs ys) s).bind
        fun r => .ok (arrange (u.shape.take k ++ v.shape.take j) r.1, r.2) :=
  binaryEach_eq f hu hv pu pv hn hn1 hn2 hkj hku hjv gu gv hf s

/-- C53, two operands, of an operator that changes nothing. -/
theorem C53_binary_partial [Wide α] [Wide γ] (f : List Char → V α → V γ → R β) {u : V α} {v : V γ} (hu : u.Ok) (hv : v.Ok) (pu : u.Plain) (pv : v.Plain)
    {name : List Char} (hn : name ≠ []) (hn1 : name.head? ≠ some '@') (hn2 : name.getLast? ≠ some '@') {k j : Nat} (hkj : 1 ≤ k + j)
    (hku : 1 ≤ k → u.shape ≠ []) (hjv : 1 ≤ j → v.shape ≠ []) (gu : NoGap u (min u.shape.length k)) (gv : NoGap v (min v.shape.length j))
    (hf : Fits (u.shape.take k ++ v.shape.take j)) :
    (∀ r, BinaryEach (fun n x y (_ : Unit) => (f n x y).bind fun z => .ok (z, ())) (List.replicate k '@' ++ name ++ List.replicate j '@') u v () = .ok (r, ()) →
      r.shape = u.shape.take k ++ v.shape.take j ∧ ∀ c d, InB (u.shape.take k) c → InB (v.shape.take j) d → ∃ a b z, IsSub u c a ∧ IsSub v d b ∧
        f (List.replicate (k - u.shape.length) '@' ++ name ++ List.replicate (j - v.shape.length) '@') a b = .ok z ∧ r.at (c ++ d) = some z) ∧
    ((∀ c d a b, InB (u.shape.take k) c → InB (v.shape.take j) d → IsSub u c a → IsSub v d b →
        ∃ z, f (List.replicate (k - u.shape.length) '@' ++ name ++ List.replicate (j - v.shape.length) '@') a b = .ok z) →
      ∃ r, BinaryEach (fun n x y (_ : Unit) => (f n x y).bind fun z => .ok (z, ())) (List.replicate k '@' ++ name ++ List.replicate j '@') u v () = .ok (r, ())) := by
  obtain ⟨xs, ys, h1, h1', h2⟩ := binaryEach_eq (fun n x y (_ : Unit) => (f n x y).bind fun z => .ok (z, ())) hu hv pu pv hn hn1 hn2 hkj hku hjv gu gv hf ()
  rw [h2]
  have hlen := h1.len
  have hsub := h1.sub
  have hlen' := h1'.len
  have hsub' := h1'.sub
  rw [take_min] at hlen hsub hlen' hsub'
  constructor
  · intro r hr
    obtain ⟨t, h3, h4⟩ := bind_eq_ok.mp hr
    cases h4
    have hl := seqR_length _ h3
    rw [allPairs_length, hlen, hlen', ← vol_append] at hl
    refine ⟨arrange_shape hl, ?_⟩
    intro c d hc hd
    obtain ⟨a, h5, h6⟩ := hsub c hc
    obtain ⟨b, h5', h6'⟩ := hsub' d hd
    have hg := allPairs_get xs ys (ravel (u.shape.take k) c) (ravel (v.shape.take j) d) (by rw [hlen']; exact ravel_lt hd)
    rw [h5, h5'] at hg
    obtain ⟨z, h7, h8⟩ := seqR_pure (fun p : V α × V γ => f (List.replicate (k - u.shape.length) '@' ++ name ++ List.replicate (j - v.shape.length) '@') p.1 p.2) h3 _ _ hg
    refine ⟨a, b, z, h6, h6', h7, ?_⟩
    rw [arrange_at hl (inB_append hc hd), ravel_append _ _ _ _ (inB_length hc), ← hlen', h8]
  · intro hall
    obtain ⟨zs, hzs⟩ := seqR_pure_ok (fun p : V α × V γ => f (List.replicate (k - u.shape.length) '@' ++ name ++ List.replicate (j - v.shape.length) '@') p.1 p.2)
      (xs := allPairs xs ys) (by
      rintro ⟨a, b⟩ hx
      obtain ⟨a', ha, hx⟩ := List.mem_flatMap.mp hx
      obtain ⟨b', hb, he⟩ := List.mem_map.mp hx
      cases he
      obtain ⟨i, hi, rfl⟩ := List.getElem_of_mem ha
      obtain ⟨i', hi', rfl⟩ := List.getElem_of_mem hb
      rw [hlen] at hi
      rw [hlen'] at hi'
      obtain ⟨s, h5, h6⟩ := hsub _ (unravel_inB hi)
      obtain ⟨s', h5', h6'⟩ := hsub' _ (unravel_inB hi')
      rw [ravel_unravel hi, List.getElem?_eq_getElem (by rw [hlen]; exact hi)] at h5
      rw [ravel_unravel hi', List.getElem?_eq_getElem (by rw [hlen']; exact hi')] at h5'
      cases h5
      cases h5'
      exact hall _ _ _ _ (unravel_inB hi) (unravel_inB hi') h6 h6')
    exact ⟨_, by rw [hzs, bind_ok]⟩

/-- A 2 by 3 by 2 array for examples. -/
def exEach : V Nat := .mat ⟨[2, 3, 2], [1, 2, 3, 4, 5, 6, 7, 8, 9, 10, 11, 12]⟩

example : exEach.Ok ∧ exEach.Plain ∧ exEach.shape ≠ [] ∧ (['f'] : List Char).getLast? ≠ some '@' ∧ NoGap exEach (min exEach.shape.length 2) ∧
    Fits (exEach.shape.take 1 ++ [2]) := by decide
example : Each (fun n (v : V Nat) (s : Nat) => .ok ((n, v.data), s + 1)) ['f', '@', '@'] exEach 0 =
    .ok (.mat ⟨[2, 3], [(['f'], [1, 2]), (['f'], [3, 4]), (['f'], [5, 6]), (['f'], [7, 8]), (['f'], [9, 10]), (['f'], [11, 12])]⟩, 6) := by decide +kernel
example : Each (fun n (v : V Nat) (s : Nat) => .ok ((n, v), s + 1)) ['f', '@', '@'] (.vec [7, 8]) 0 =
    .ok (.vec [(['f', '@'], .elem 7), (['f', '@'], .elem 8)], 2) := by decide +kernel
example : BinaryEach (fun _ (u v : V Nat) (s : Nat) => .ok (u.data.length * 100 + v.data.sum, s + 1)) ['@', ',', '@'] exEach (.vec [7, 8]) 0 =
    .ok (.mat ⟨[2, 2], [607, 608, 607, 608]⟩, 4) := by decide +kernel
example : BinaryEach (fun _ (u v : V Nat) (s : Nat) => .ok (u.data.length * 100 + v.data.sum, s + 1)) [',', '@'] (.elem 3) (.vec [7, 8]) 0 =
    .ok (.vec [107, 108], 2) := by decide +kernel
example : Each (fun _ (v : V Nat) (s : Nat) => if v.data.sum = 8 then .err "eight" else .ok (v.data.sum, s)) ['f', '@'] (.vec [7, 8, 9]) 0 = .err "eight" := by
  decide +kernel

end Verif.Arr
