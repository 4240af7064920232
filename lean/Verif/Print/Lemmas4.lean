import Verif.Print.Lemmas3

/-! # Printing: helper lemmas on boxes side by side -/

namespace Verif.Print
open Verif.Arr

/-! ## Lines of a text -/

theorem splitNl_cons {c : Nat} (r : Str) (h : c ≠ 10) : splitNl (c :: r) = match splitNl r with
    | [] => [[c]]
    | l :: ls => (c :: l) :: ls := by
  rw [splitNl]
  · rfl
  · exact h

theorem splitNl_one : ∀ {s : Str}, 10 ∉ s → splitNl s = [s]
  | [], _ => rfl
  | x :: s, h => by
    simp only [List.mem_cons, not_or] at h
    rw [splitNl_cons s (fun e => h.1 e.symm), splitNl_one h.2]

theorem splitNl_line : ∀ {l : Str} (r : Str), 10 ∉ l → splitNl (l ++ 10 :: r) = l :: splitNl r
  | [], r, _ => by simp [splitNl]
  | x :: l, r, h => by
    simp only [List.mem_cons, not_or] at h
    rw [List.cons_append, splitNl_cons _ (fun e => h.1 e.symm), splitNl_line r h.2]

theorem splitNl_join : ∀ {ls : List Str}, ls ≠ [] → (∀ l ∈ ls, 10 ∉ l) → splitNl (List.intercalate [10] ls) = ls
  | [s], _, h => by rw [intercalate_one, splitNl_one (h s (by simp))]
  | s :: t :: r, _, h => by
    rw [intercalate_cons (by simp), List.append_assoc, List.singleton_append, splitNl_line _ (h s (by simp)),
      splitNl_join (ls := t :: r) (by simp) fun l hl => h l (List.mem_cons_of_mem _ hl)]

theorem Rect.lines {e : Elem} {ls : List Str} {w : Nat} (h : Rect e ls w) : splitNl e.text = ls := by
  rw [h.text]
  exact splitNl_join h.some fun l hl => (h.line l hl).1

/-! ## One element -/

/-- Texts at the ends of the first lines. -/
def zipPut : List Str → List Row → List Row
  | [], rows => rows
  | _ :: _, [] => []
  | s :: ss, l :: rows => put s l :: zipPut ss rows

theorem zipPut_append : ∀ (P : List Str) (R1 : List Row) (q : Str) (l : Row) (R2 : List Row), R1.length = P.length →
    zipPut (P ++ [q]) (R1 ++ l :: R2) = zipPut P R1 ++ put q l :: R2
  | [], [], q, l, R2, _ => rfl
  | s :: P, r :: R1, q, l, R2, h => by
    simp only [List.cons_append, zipPut]
    rw [zipPut_append P R1 q l R2 (by simpa using h)]
  | [], _ :: _, _, _, _, h => by simp at h
  | _ :: _, [], _, _, _, h => by simp at h

/-- What is written on the lines of an element. -/
def mids (paren : Bool) : Bool → List Str → List Str
  | _, [] => []
  | first, s :: ss => ((if paren && !first then [124] else []) ++ s ++ (if paren && !ss.isEmpty then [124] else [])) :: mids paren false ss

theorem writeLines_eq (paren isMat : Bool) : ∀ (first : Bool) (strs : List Str) (rows : List Row), strs.length ≤ rows.length →
    (∀ s ∈ strs, s ≠ []) → writeLines paren isMat first strs rows = .ok (zipPut (mids paren first strs) rows)
  | first, [], rows, _, _ => rfl
  | first, s :: ss, [], h, _ => by simp at h
  | first, s :: ss, l :: rows, h, hne => by
    simp only [writeLines, mids, zipPut]
    rw [writeLines_eq paren isMat false ss rows (by simpa using h) fun t ht => hne t (List.mem_cons_of_mem _ ht)]
    simp only [bind_ok]
    rw [if_neg (fun e => hne s (by simp) e.1)]

theorem mids_scalar : ∀ (first : Bool) (ls : List Str), mids false first ls = ls
  | _, [] => rfl
  | _, s :: ls => by simp [mids, mids_scalar false ls]

/-- A box is what is written, with the last parenthesis. -/
theorem boxRest_split : ∀ {ls : List Str}, ls ≠ [] → ∃ P q, mids true false ls = P ++ [q] ∧ boxRest ls = P ++ [q ++ [41]] ∧ P.length + 1 = ls.length
  | [s], _ => ⟨[], [124] ++ s, by simp [mids], by simp [boxRest], rfl⟩
  | s :: t :: r, _ => by
    obtain ⟨P, q, h1, h2, h3⟩ := boxRest_split (ls := t :: r) (by simp)
    refine ⟨([124] ++ s ++ [124]) :: P, q, ?_, ?_, by simpa using h3⟩
    · rw [mids, h1]; simp
    · rw [boxRest, h2]; simp
      simp

theorem box_split {s : Str} {r : List Str} : ∃ P q, ([40] ++ (mids true true (s :: r)).headD []) :: (mids true true (s :: r)).tail = P ++ [q] ∧
    box (s :: r) = P ++ [q ++ [41]] ∧ P.length = r.length := by
  cases r with
  | nil => exact ⟨[], [40] ++ s, by simp [mids], by simp [box], rfl⟩
  | cons t r =>
    obtain ⟨P, q, h1, h2, h3⟩ := boxRest_split (ls := t :: r) (by simp)
    refine ⟨([40] ++ s ++ [124]) :: P, q, ?_, ?_, by simpa using h3⟩
    · rw [mids, h1]; simp
    · rw [box, h2]; simp
      simp

theorem boxRest_length {w : Nat} : ∀ {ls : List Str}, (∀ l ∈ ls, l.length = w) → ∀ b ∈ boxRest ls, b.length = w + 2
  | [], _, b, hb => by simp [boxRest] at hb
  | [s], h, b, hb => by
    simp only [boxRest, List.mem_singleton] at hb
    subst hb
    simp [h s (by simp)]
  | s :: t :: r, h, b, hb => by
    rw [boxRest] at hb
    · simp only [List.mem_cons] at hb
      rcases hb with rfl | hb
      · simp [h s (by simp)]
      · exact boxRest_length (ls := t :: r) (fun l hl => h l (List.mem_cons_of_mem _ hl)) b hb
    · simp

theorem box_length {w : Nat} {ls : List Str} (h : ∀ l ∈ ls, l.length = w) : ∀ b ∈ box ls, b.length = w + 2 := by
  match ls with
  | [] => intro b hb; simp [box] at hb
  | [s] =>
    intro b hb
    simp only [box, List.mem_singleton] at hb
    subst hb
    simp [h s (by simp)]
  | s :: t :: r =>
    intro b hb
    rw [box] at hb
    · simp only [List.mem_cons] at hb
      rcases hb with rfl | hb
      · simp [h s (by simp)]
      · exact boxRest_length (ls := t :: r) (fun l hl => h l (List.mem_cons_of_mem _ hl)) b hb
    · simp

theorem box_count (ls : List Str) : (box ls).length = ls.length := by
  cases ls with
  | nil => rfl
  | cons s r =>
    obtain ⟨P, q, _, h2, h3⟩ := box_split (s := s) (r := r)
    rw [h2]; simp [h3]

/-- A rectangle of width `w`. -/
structure Box (b : List Str) (w : Nat) : Prop where
  some : b ≠ []
  line : ∀ l ∈ b, l.length = w
  pos : 0 < w
  nl : ∀ l ∈ b, 10 ∉ l

theorem boxRest_nl : ∀ {ls : List Str}, (∀ l ∈ ls, 10 ∉ l) → ∀ b ∈ boxRest ls, 10 ∉ b
  | [], _, b, hb => by simp [boxRest] at hb
  | [s], h, b, hb => by
    simp only [boxRest, List.mem_singleton] at hb
    subst hb
    simp [h s (by simp)]
  | s :: t :: r, h, b, hb => by
    rw [boxRest] at hb
    · simp only [List.mem_cons] at hb
      rcases hb with rfl | hb
      · simp [h s (by simp)]
      · exact boxRest_nl (ls := t :: r) (fun l hl => h l (List.mem_cons_of_mem _ hl)) b hb
    · simp

theorem box_nl {ls : List Str} (h : ∀ l ∈ ls, 10 ∉ l) : ∀ b ∈ box ls, 10 ∉ b := by
  match ls with
  | [] => intro b hb; simp [box] at hb
  | [s] =>
    intro b hb
    simp only [box, List.mem_singleton] at hb
    subst hb
    simp [h s (by simp)]
  | s :: t :: r =>
    intro b hb
    rw [box] at hb
    · simp only [List.mem_cons] at hb
      rcases hb with rfl | hb
      · simp [h s (by simp)]
      · exact boxRest_nl (ls := t :: r) (fun l hl => h l (List.mem_cons_of_mem _ hl)) b hb
    · simp

theorem shown_box {e : Elem} {ls : List Str} {w : Nat} (h : Rect e ls w) : ∃ w', Box (shown e.scalar ls) w' := by
  unfold shown
  obtain ⟨l, hl⟩ : ∃ l, l ∈ ls := by
    cases ls with
    | nil => exact absurd rfl h.some
    | cons l r => exact ⟨l, by simp⟩
  cases e.scalar
  · refine ⟨w + 2, ?_, box_length fun l hl => (h.line l hl).2.1, by omega, box_nl fun l hl => (h.line l hl).1⟩
    simp only [Bool.false_eq_true, if_false]
    intro hb
    have := box_count ls
    rw [hb] at this
    exact h.some (List.length_eq_zero_iff.mp this.symm)
  · refine ⟨w, h.some, fun l hl => (h.line l hl).2.1, ?_, fun l hl => (h.line l hl).1⟩
    have := h.line l hl
    rw [← this.2.1]
    exact List.length_pos_iff.mpr this.2.2

theorem put_put (s t : Str) (l : Row) : put t (put s l) = put (s ++ t) l := by simp [put]

/-- The lines once an element is written on them. -/
def attach (b : List Str) (w : Nat) (rows : List Row) : List Row :=
  zipPut b (rows.take b.length) ++ (rows.drop b.length).map fun l => (l.1 ++ List.replicate w 32, l.2)

theorem fillBelow_eq {k col M : Nat} {A : List Row} {B : List Row} (hk : A.length = k) (hB : ∀ l ∈ B, l.1.length = M) (hM : M ≤ col) :
    fillBelow k col (A ++ B) = .ok (A ++ B.map fun l => (l.1 ++ List.replicate (col - M) 32, l.2)) := by
  unfold fillBelow
  by_cases hb : B = []
  · subst hb
    rw [if_neg (by simp; omega)]
    simp
  · have : 0 < B.length := List.length_pos_iff.mpr hb
    rw [if_pos (by simp; omega), List.getLast?_append]
    cases hl : B.getLast? with
    | none => simp [hb] at hl
    | some l =>
      simp only [Option.some_or]
      rw [hB l (List.mem_of_getLast? hl), blanks_nat _ _ hM]
      simp only [bind_ok]
      rw [← hk, List.take_left', List.drop_left']
      · rfl
      · rfl

theorem zipPut_length : ∀ (P : List Str) (R : List Row), P.length ≤ R.length → (zipPut P R).length = R.length
  | [], R, _ => rfl
  | s :: P, [], h => by simp at h
  | s :: P, l :: R, h => by
    simp only [zipPut, List.length_cons]
    rw [zipPut_length P R (by simpa using h)]

theorem grow_length (n : Nat) (rows : List Row) : (grow n rows).length = max rows.length n := by
  unfold grow
  split
  · rw [List.length_append, List.length_map, List.length_range']
    omega
  · omega

theorem head_length {b : List Str} {w : Nat} (h : Box b w) : wide b = w := by
  cases b with
  | nil => exact absurd rfl h.some
  | cons l r => exact h.line l (by simp)

theorem addElem_box {spaces first : Bool} {e : Elem} {ls : List Str} {w M : Nat} {rows R : List Row} (hr : Rect e ls w)
    (hs : e.scalar = true → ls.length = 1) (ht : e.scalar = false → ls.length = 1 → rows.length ≤ 1)
    (hR : R = if (spaces && !first) = true then spaceAll (grow ls.length rows) else grow ls.length rows) (hM : ∀ l ∈ R, l.1.length = M) :
    addElem spaces first e rows = .ok (attach (shown e.scalar ls) (wide (shown e.scalar ls)) R, M + wide (shown e.scalar ls)) := by
  have hlen : R.length = max rows.length ls.length := by
    rw [hR]
    split
    · simp [spaceAll, grow_length]
    · exact grow_length _ _
  unfold addElem
  rw [hr.lines]
  dsimp only
  rw [← hR]
  have hnil : ∀ s ∈ ls, s ≠ [] := fun s h => (hr.line s h).2.2
  cases hsc : e.scalar with
  | true =>
    have h1 := hs hsc
    match ls, h1 with
    | [t], _ =>
      simp only [shown, if_true, bind_ok, Bool.not_true]
      rw [writeLines_eq _ _ _ _ _ (by rw [hlen]; omega) hnil, mids_scalar]
      cases R with
      | nil => simp at hlen; omega
      | cons l R2 =>
        simp only [bind_ok, zipPut, List.head?_cons]
        have hl := hM l (by simp)
        rw [show put t l :: R2 = [put t l] ++ R2 from rfl, fillBelow_eq (k := [t].length) (A := [put t l]) (M := M) rfl (fun x hx => hM x (List.mem_cons_of_mem _ hx)) (by simp only [put, List.length_append]; omega)]
        simp only [bind_ok, attach, wide, List.length_singleton, List.take_succ_cons, List.take_zero, List.drop_succ_cons, List.drop_zero, zipPut,
          List.head?_cons, Option.getD_some]
        have : (put t l).1.length = M + t.length := by simp [put, hl]
        rw [this]
        simp
  | false =>
    match ls, hr.some with
    | s :: r, _ =>
      obtain ⟨P, q, h1, h2, h3⟩ := box_split (s := s) (r := r)
      have hbl : ∀ b ∈ box (s :: r), b.length = w + 2 := box_length fun l hl => (hr.line l hl).2.1
      have hq : q.length + 1 = w + 2 := by
        have := hbl (q ++ [41]) (by rw [h2]; simp)
        simpa using this
      have hwide : wide (box (s :: r)) = w + 2 := by
        have := box_count (s :: r)
        cases hb : box (s :: r) with
        | nil => rw [hb] at this; simp at this
        | cons x y => exact hbl x (by rw [hb]; simp)
      have hle : r.length + 1 ≤ R.length := by rw [hlen]; simp; omega
      simp only [shown, Bool.false_eq_true, if_false, Bool.not_false]
      rw [hwide]
      -- the lines: those above the last, the last, and those below
      have hsplit : ∃ R1 l R2, R = R1 ++ l :: R2 ∧ R1.length = P.length := by
        refine ⟨R.take r.length, R[r.length]'(by omega), R.drop (r.length + 1), ?_, by simp; omega⟩
        rw [← List.drop_eq_getElem_cons]
        exact (List.take_append_drop _ _).symm
      obtain ⟨R1, l, R2, hsp, hl1⟩ := hsplit
      have hrows : ((openParen R).bind fun rows => writeLines true (e.kind == .matrix) true (s :: r) rows) = .ok (zipPut P R1 ++ put q l :: R2) := by
        cases hRc : R with
        | nil => rw [hRc] at hle; simp at hle
        | cons r0 R' =>
          simp only [openParen, bind_ok]
          rw [writeLines_eq _ _ _ _ _ (by rw [hRc] at hle; simpa using hle) hnil]
          have : zipPut (mids true true (s :: r)) (put [40] r0 :: R') = zipPut (P ++ [q]) (r0 :: R') := by
            rw [← h1]
            simp only [mids, zipPut, List.headD_cons, List.tail_cons]
            rw [put_put]
          rw [this, ← hRc, hsp, zipPut_append _ _ _ _ _ hl1]
      have hassoc : ∀ (X : Arr.R (List Row)) (f : List Row → Arr.R (List Row)) (g : List Row → Arr.R (List Row × Nat)), (X.bind fun a => (f a).bind g) = (X.bind f).bind g := by
        intro X f g; cases X <;> rfl
      rw [hassoc, hrows]
      simp only [bind_ok]
      -- the first of the lines
      have hhead : ∃ x, (zipPut P R1 ++ put q l :: R2).head? = some x ∧ x.1.length = M + (if r = [] then w + 1 else w + 2) := by
        cases P with
        | nil =>
          have : r = [] := List.length_eq_zero_iff.mp h3.symm
          cases R1 with
          | nil =>
            refine ⟨_, rfl, ?_⟩
            rw [if_pos this]
            simp only [put, List.length_append]
            have := hM l (by rw [hsp]; simp)
            omega
          | cons _ _ => simp at hl1
        | cons p P =>
          cases R1 with
          | nil => simp at hl1
          | cons r1 R1 =>
            refine ⟨_, rfl, ?_⟩
            have : r ≠ [] := by rintro rfl; simp at h3
            rw [if_neg this]
            simp only [put, List.length_append]
            have h4 := hM r1 (by rw [hsp]; simp)
            have h5 := hbl p (by rw [h2]; simp)
            omega
      obtain ⟨x, hx1, hx2⟩ := hhead
      rw [hx1]
      simp only
      have hA : (zipPut P R1 ++ [put q l]).length = (s :: r).length := by
        simp [zipPut_length P R1 (by omega), hl1, h3]
      have hB : ∀ y ∈ R2, y.1.length = M := fun y hy => hM y (by rw [hsp]; simp [hy])
      have happ : zipPut P R1 ++ put q l :: R2 = (zipPut P R1 ++ [put q l]) ++ R2 := by simp
      rw [happ, fillBelow_eq hA hB (by rw [hx2]; omega)]
      simp only [bind_ok, closeParen]
      have hidx : ∀ X : List Row, ((zipPut P R1 ++ [put q l]) ++ X)[(s :: r).length - 1]? = some (put q l) := by
        intro X
        have : (s :: r).length - 1 = (zipPut P R1).length := by rw [zipPut_length P R1 (by omega)]; simp; omega
        rw [this]
        simp
      have hset : ∀ X : List Row, ((zipPut P R1 ++ [put q l]) ++ X).set ((s :: r).length - 1) (put [41] (put q l)) = zipPut P R1 ++ put (q ++ [41]) l :: X := by
        intro X
        have : (s :: r).length - 1 = (zipPut P R1).length := by rw [zipPut_length P R1 (by omega)]; simp; omega
        rw [this, put_put]
        simp
      rw [hidx]
      simp only [bind_ok]
      rw [hset]
      have hql : (put q l).1.length = M + w + 1 := by
        simp only [put, List.length_append]
        have := hM l (by rw [hsp]; simp)
        omega
      rw [hql, hx2]
      have hbc : (box (s :: r)).length = R1.length + 1 := by rw [box_count]; simp; omega
      have hatt : attach (box (s :: r)) (w + 2) R = zipPut P R1 ++ put (q ++ [41]) l :: R2.map fun l => (l.1 ++ List.replicate (w + 2) 32, l.2) := by
        unfold attach
        rw [hbc, hsp]
        have e1 : (R1 ++ l :: R2).take (R1.length + 1) = R1 ++ l :: [] := by
          rw [List.take_append, List.take_of_length_le (by omega)]
          simp
        have e2 : (R1 ++ l :: R2).drop (R1.length + 1) = R2 := by
          rw [List.drop_append, List.drop_of_length_le (by omega)]
          simp
        rw [e1, e2, h2, zipPut_append _ _ _ _ _ hl1]
        simp
      rw [hatt]
      by_cases hrn : r = []
      · have hR2 : R2 = [] := by
          have := ht hsc (by simp [hrn])
          have h6 := congrArg List.length hsp
          rw [hlen] at h6
          simp [hrn] at h6
          exact List.length_eq_zero_iff.mp (by omega)
        subst hR2
        simp only [hrn, if_true]
        rw [if_pos (by omega)]
        simp
        omega
      · simp only [if_neg hrn]
        rw [if_neg (by omega)]
        simp

end Verif.Print
