import Verif.Save.Spec
import Verif.Save.LemmasScan
import Verif.Scan.Props
import Verif.Syn.Lemmas5
import Verif.Arr.Lemmas2
/-
Helper lemmas: reading what `put` writes.
-/
namespace Verif.Save
open Verif.Scan
open Verif.Syn (Reads Operand Elements Element Brackets Admits)
open Verif.Arr (R bind_ok)
open Verif.Num (CNum Cx)
open Verif.Exec (Expr)
variable {U : Uni} {C : Ctx} {Γ : Syn.Names}

theorem means_map (l : List Val) : means l = l.map mean := by
  induction l with
  | nil => rfl
  | cons v l ih => simp [means, ih]

theorem wfAll_iff (l : List Val) : WfAll l ↔ ∀ v ∈ l, Wf v := by
  induction l with
  | nil => simp [WfAll]
  | cons v l ih => simp [WfAll, ih]

theorem innerAll_iff (l : List Val) : InnerAll l ↔ ∀ v ∈ l, Inner v := by
  induction l with
  | nil => simp [InnerAll]
  | cons v l ih => simp [InnerAll, ih]

/-- Characters as values. -/
def charVal (c : Char) : Val := .scal (.num (.char c.toNat))

theorem charsOf_chars : ∀ {l : List Val} {cs : List Char}, WfAll l → charsOf l = some cs → means (cs.map charVal) = means l ∧ cs.length = l.length := by
  intro l
  induction l with
  | nil => intro cs _ h; cases h; exact ⟨rfl, rfl⟩
  | cons v l ih =>
    intro cs hw h
    unfold charsOf at h
    split at h
    · rename_i heq; cases heq
    · rename_i c l' heq
      cases heq
      cases hc : charsOf l with
      | none => rw [hc] at h; cases h
      | some ds =>
        rw [hc] at h
        cases h
        obtain ⟨h1, h2⟩ := ih hw.2 hc
        have hok : 0 ≤ c ∧ c.toNat.isValidChar := hw.1
        refine ⟨?_, by simp [h2]⟩
        rw [List.map_cons]
        simp only [means, h1]
        congr 1
        simp only [charVal, mean, meanScal, meanNum]
        congr 1
        have : (Char.ofNat c.toNat).toNat = c.toNat := by
          unfold Char.ofNat
          rw [dif_pos hok.2]
          simp [Char.toNat, Char.ofNatAux]
        omega
    · cases h

theorem charsOf_some {l : List Val} (h : ∀ v ∈ l, IsChar v) : ∃ cs, charsOf l = some cs := by
  induction l with
  | nil => exact ⟨[], rfl⟩
  | cons v l ih =>
    obtain ⟨cs, hcs⟩ := ih fun v hv => h v (by simp [hv])
    have hv := h v (by simp)
    match v, hv with
    | .scal (.num (.char c)), _ => exact ⟨Char.ofNat c.toNat :: cs, by simp [charsOf, hcs]⟩

theorem charsOf_none {l : List Val} (h : ∃ v ∈ l, ¬ IsChar v) : charsOf l = none := by
  induction l with
  | nil => obtain ⟨v, hv, _⟩ := h; cases hv
  | cons v l ih =>
    unfold charsOf
    split
    · rename_i heq; cases heq
    · rename_i c l' heq
      cases heq
      rw [ih]
      · rfl
      · obtain ⟨w, hw, hn⟩ := h
        rcases List.mem_cons.1 hw with rfl | hw
        · exact absurd trivial hn
        · exact ⟨w, hw, hn⟩
    · rfl

/-! ## Evaluating -/

theorem evalAll_lits (f : Option (Val → Val → R Val)) (l : List CNum) : evalAll f (l.map .lit) = .ok (l.map .scal) := by
  induction l with
  | nil => simp [evalAll]
  | cons x l ih => simp [evalAll, ih, bind_ok, eval]

theorem eval_vector (f : Option (Val → Val → R Val)) {es : List (Expr CNum)} {ws : List Val} (h : evalAll f es = .ok ws) :
    ∃ w, eval f (Syn.vector es) = .ok w ∧ (es.length ≠ 1 → w = .vec ws) ∧ (es.length = 1 → ws = [w]) := by
  match es with
  | [] => exact ⟨.vec ws, by simp [Syn.vector, eval, h, bind_ok], fun _ => rfl, by simp⟩
  | [e] =>
    simp only [evalAll, bind_ok] at h
    cases he : eval f e with
    | ok v =>
      rw [he, bind_ok] at h
      cases h
      exact ⟨v, he, by simp, fun _ => rfl⟩
    | err m => rw [he] at h; cases h
    | crash => rw [he] at h; cases h
    | hang => rw [he] at h; cases h
  | e :: e' :: es => exact ⟨.vec ws, by simp only [Syn.vector, eval, h, bind_ok], fun _ => rfl, by simp⟩

theorem elems_scals (f : Option (Val → Val → R Val)) (l : List CNum) :
    ∃ w, eval f (Syn.vector (l.map .lit)) = .ok w ∧ elems w = l.map .scal ∧ (l.length ≠ 1 → w = .vec (l.map .scal)) ∧ (l ≠ [] → ∀ s d, w ≠ .mat s d) := by
  obtain ⟨w, h1, h2, h3⟩ := eval_vector f (evalAll_lits f l)
  rw [List.length_map] at h2 h3
  refine ⟨w, h1, ?_, h2, ?_⟩
  · by_cases hl : l.length = 1
    · have := h3 hl
      match l, hl with
      | [x], _ => simp at this; subst this; rfl
    · rw [h2 hl]; rfl
  · intro hne s d hm
    by_cases hl : l.length = 1
    · have := h3 hl
      match l, hl with
      | [x], _ => simp at this; rw [hm] at this; cases this
    · rw [h2 hl] at hm; cases hm

theorem cyc_all (z : Val) (l : List Val) : (List.range l.length).map (Arr.cyc z l) = l := by
  apply List.ext_getElem?
  intro k
  rw [List.getElem?_map]
  by_cases hk : k < l.length
  · rw [List.getElem?_range hk, Option.map_some, ← Arr.cyc_get]
    rw [if_neg (by omega), Nat.mod_eq_of_lt hk]
  · rw [List.getElem?_eq_none (by simpa using hk), List.getElem?_eq_none (by simpa using hk)]
    rfl

theorem rho_ok {s : List Nat} (hs : ShapeOk s) {w v : Val} (hw : elems w = s.map fun d : Nat => .scal (.num (.int d))) (hm : ∀ a b, w ≠ .mat a b)
    (hl : (elems v).length = Arr.vol s) : ∃ r, rho w v = .ok r ∧ mean r = .arr s (means (elems v)) := by
  obtain ⟨h1, h2, h3⟩ := hs
  have hr : rho w v = (Arr.reshape (.scal (.num (.int 0))) (s.map fun d : Nat => some (d : Int)) (elems v)).bind fun r => .ok (ofV r) := by
    have : (s.map fun d : Nat => some (d : Int)) = (elems w).map small := by
      rw [hw, List.map_map]; rfl
    rw [this]
    cases w with
    | scal x => rfl
    | vec l => rfl
    | mat a b => exact absurd rfl (hm a b)
  have hsh : Arr.shapeOf (s.map fun d : Nat => some (d : Int)) 1 = .ok (s, Arr.vol s) :=
    (Arr.shapeOf_ok _ 1 s _).mpr ⟨rfl, h2, by simp, by simpa [Arr.maxInt] using h3⟩
  rw [hr, Arr.reshape_core _ (by simpa using h1) hsh, ← hl, cyc_all]
  split
  · rename_i h
    match s, h with
    | [n], _ =>
      refine ⟨.vec (elems v), rfl, ?_⟩
      simp [mean, hl, Arr.vol]
  · rw [Arr.newMatrix_fits h1 hl (fun k h2 hk => h3 k (by omega) hk)]
    exact ⟨.mat s (elems v), rfl, rfl⟩

theorem mean_scal {w : Val} {x : CNum} (h : mean w = mean (.scal x)) : ∃ y, w = .scal y := by
  cases w with
  | scal y => exact ⟨y, rfl⟩
  | vec l =>
    exfalso
    cases x with
    | num n => cases n <;> cases h
    | cx c => cases h
  | mat s d =>
    exfalso
    cases x with
    | num n => cases n <;> cases h
    | cx c => cases h

/-! ## Elements -/

/-- The text is one element of a vector, of that meaning. -/
def AsElement (U : Uni) (C : Ctx) (Γ : Syn.Names) (t : List Char) (m : Mean) : Prop :=
  ∀ p rest, Before p → After rest → ∃ ts p' e w, Scans U C p (t ++ rest) ts p' rest ∧ ts ≠ [] ∧
    Element Γ false (ts.map tokOf) e ∧ (∀ b, Admits Γ b (ts.map tokOf)) ∧ eval none e = .ok w ∧ mean w = m

/-- The text is an expression of that meaning. -/
def AsExpr (U : Uni) (C : Ctx) (Γ : Syn.Names) (t : List Char) (m : Mean) : Prop :=
  ∀ p rest, Before p → After rest → ∃ ts p' e w, Scans U C p (t ++ rest) ts p' rest ∧ ts ≠ [] ∧
    Reads Γ (ts.map tokOf) e ∧ eval none e = .ok w ∧ mean w = m

/-- The text is the elements of a vector. -/
def AsElements (U : Uni) (C : Ctx) (Γ : Syn.Names) (t : List Char) (l : List Mean) : Prop :=
  ∀ p rest, Before p → After rest → ∃ ts p' es ws, Scans U C p (t ++ rest) ts p' rest ∧ ts ≠ [] ∧
    (∀ b, Elements Γ b false (ts.map tokOf) es) ∧ evalAll none es = .ok ws ∧ means ws = l ∧ es.length = ws.length

theorem After.space (s : List Char) : After (' ' :: s) := ⟨' ', s, rfl, Or.inl rfl⟩

theorem AsElement.elements {t m} (h : AsElement U C Γ t m) : AsElements U C Γ t [m] := by
  intro p rest hp hr
  obtain ⟨ts, p', e, w, h1, h2, h3, h4, h5, h6⟩ := h p rest hp hr
  refine ⟨ts, p', [e], [w], h1, h2, fun b => .one h3 (h4 b), ?_, ?_, rfl⟩
  · simp [evalAll, h5, bind_ok]
  · simp [means, h6]

theorem AsElements.cons {t m s l} (h : AsElement U C Γ t m) (g : AsElements U C Γ s l) : AsElements U C Γ (t ++ ' ' :: s) (m :: l) := by
  intro p rest hp hr
  obtain ⟨ts, p', e, w, h1, h2, h3, h4, h5, h6⟩ := h p (' ' :: (s ++ rest)) hp (After.space _)
  obtain ⟨us, p'', es, ws, g1, g2, g3, g4, g5, g6⟩ := g (some ' ') rest (Or.inl rfl) hr
  have g1' : Scans U C p' (' ' :: (s ++ rest)) us p'' rest := by
    cases us with
    | nil => exact absurd rfl g2
    | cons t us => exact g1.space
  refine ⟨ts ++ us, p'', e :: es, w :: ws, ?_, by simp [h2], ?_, ?_, ?_, by simp [g6]⟩
  · have e1 : t ++ ' ' :: s ++ rest = t ++ ' ' :: (s ++ rest) := by simp
    rw [e1]
    exact h1.trans g1'
  · intro b
    rw [List.map_append]
    exact .more h3 (h4 b) (g3 false)
  · simp [evalAll, g4, h5, bind_ok]
  · simp [means, g5, h6]

theorem AsElement.expr {t m} (h : AsElement U C Γ t m) : AsExpr U C Γ t m := by
  intro p rest hp hr
  obtain ⟨ts, p', e, w, h1, h2, h3, h4, h5, h6⟩ := h p rest hp hr
  refine ⟨ts, p', e, w, h1, h2, .operand ?_, h5, h6⟩
  have := Operand.mk (us := []) (Elements.one h3 (h4 true)) (Brackets.none (Γ := Γ) (e := e)) (Or.inl rfl)
  simpa using this

theorem AsExpr.paren (hU : U.Ok) {t m} (h : AsExpr U C Γ t m) : AsElement U C Γ ('(' :: t ++ [')']) m := by
  intro p rest hp hr
  obtain ⟨ts, p', e, w, h1, h2, h3, h4, h5⟩ := h (some '(') (')' :: rest) (Or.inr rfl) ⟨')', rest, rfl, Or.inr (Or.inl rfl)⟩
  refine ⟨⟨.leftParen, ['(']⟩ :: ts ++ [⟨.rightParen, [')']⟩], some ')', e, w, ?_, by simp, ?_, ?_, h4, h5⟩
  · have e1 : '(' :: t ++ [')'] ++ rest = '(' :: (t ++ ')' :: rest) := by simp
    rw [e1, List.cons_append]
    exact .cons (next_paren hU p _).1 (by decide) (h1.trans (.one (next_paren hU p' rest).2 (by decide)))
  · have := Element.paren h3
    simpa [tokOf] using this
  · intro b; simp [Admits, tokOf]

/-- A scalar is one element. -/
theorem scal_element (hU : U.Ok) (hb : C.base = 10) {x : CNum} (hx : ScalOk x) : AsElement U C Γ (putScal U x) (meanScal x) := by
  have hnum : ∀ {x : CNum}, (match x with | .num n => n.isNum | .cx c => c.re.isNum ∧ c.im.isNum) → NumText (putScal U x) → AsElement U C Γ (putScal U x) (meanScal x) := by
    intro x hx ht p rest hp hr
    obtain ⟨p', hn⟩ := next_num hU hb ht hp hr
    obtain ⟨y, hy, hm⟩ := parseNumber_putScal (U := U) x hx
    refine ⟨[⟨.number, putScal U x⟩], p', .lit y, .scal y, .one hn (by simp), by simp, ?_, ?_, ?_, hm⟩
    · simp only [List.map_cons, List.map_nil, tokOf, hy]
      exact .num
    · intro b; simp [Admits, tokOf]
    · simp [eval]
  match x, hx with
  | .num (.char c), hx =>
    intro p rest hp hr
    obtain ⟨p', hn⟩ := next_quote (C := C) hU (q := '\'') (Or.inl rfl) [Char.ofNat c.toNat] p rest
    have hch : charsOf [.scal (.num (.char c))] = some [Char.ofNat c.toNat] := rfl
    have hme := (charsOf_chars (l := [.scal (.num (.char c))]) ⟨hx, trivial⟩ hch).1
    refine ⟨[⟨.string, quote U '\'' [Char.ofNat c.toNat]⟩], p', .lit (.num (.char (Char.ofNat c.toNat).toNat)), charVal (Char.ofNat c.toNat), .one hn (by simp), by simp, ?_, ?_, ?_, ?_⟩
    · simp only [List.map_cons, List.map_nil, tokOf]
      rw [parseString_quote hU (Or.inl rfl)]
      exact Element.str
    · intro b; simp [Admits, tokOf]
    · simp [eval, charVal]
    · simp only [List.map_cons, List.map_nil, means, List.cons.injEq, and_true] at hme
      exact hme
  | .num (.int i), _ => exact hnum (x := .num (.int i)) trivial (Or.inl (putNum_real (U := U) (.int i) trivial))
  | .num (.bigInt i), _ => exact hnum (x := .num (.bigInt i)) trivial (Or.inl (putNum_real (U := U) (.bigInt i) trivial))
  | .num (.bigRat i), _ => exact hnum (x := .num (.bigRat i)) trivial (Or.inl (putNum_real (U := U) (.bigRat i) trivial))
  | .cx c, hx => exact hnum hx (Or.inr ⟨_, _, rfl, putNum_real _ hx.1, putNum_real _ hx.2⟩)

/-- A text is one element. -/
theorem text_element (hU : U.Ok) (cs : List Char) (p : Option Char) (rest : List Char) :
    ∃ ts p' e w, Scans U C p (quote U '"' cs ++ rest) ts p' rest ∧ ts ≠ [] ∧ Element Γ false (ts.map tokOf) e ∧ (∀ b, Admits Γ b (ts.map tokOf)) ∧
      eval none e = .ok w ∧ elems w = cs.map charVal ∧ (cs.length ≠ 1 → w = .vec (cs.map charVal)) := by
  obtain ⟨p', hn⟩ := next_quote (C := C) hU (q := '"') (Or.inr rfl) cs p rest
  obtain ⟨w, h1, h2, h3, _⟩ := elems_scals none (cs.map fun c => .num (.char c.toNat))
  refine ⟨[⟨.string, quote U '"' cs⟩], p', _, w, .one hn (by simp), by simp, ?_, ?_, h1, ?_, ?_⟩
  · simp only [List.map_cons, List.map_nil, tokOf]
    rw [parseString_quote hU (Or.inr rfl)]
    exact Element.str
  · intro b; simp [Admits, tokOf]
  · rw [h2, List.map_map]; rfl
  · intro h
    rw [h3 (by simpa using h), List.map_map]; rfl

/-- The dimensions of a matrix are an operand. -/
theorem shape_elements (hU : U.Ok) (hb : C.base = 10) : ∀ {s : List Nat}, s ≠ [] → (∀ d ∈ s, d ≤ 2147483647) → ∀ p rest, Before p → After rest →
    ∃ ts p', Scans U C p (putShape s ++ rest) ts p' rest ∧ ts ≠ [] ∧ ∀ b, Elements Γ b false (ts.map tokOf) (s.map fun d : Nat => .lit (.num (.int d))) := by
  have one : ∀ {d : Nat}, d ≤ 2147483647 → ∀ p rest, Before p → After rest → ∃ t p', next U C p (intText d ++ rest) = .tok t p' rest ∧ t.ty = .number ∧
      tokOf t = .num (some (.num (.int d))) := by
    intro d hd p rest hp hr
    have ht : NumText (intText d) := Or.inl (putNum_real (U := U) (.int d) trivial)
    obtain ⟨p', hn⟩ := next_num hU hb ht hp hr
    refine ⟨_, p', hn, rfl, ?_⟩
    simp only [tokOf, Syn.Tok.num.injEq]
    unfold parseNumber
    rw [if_neg (by have := intText_no d (c := 'j') (by decide) (by decide); simpa using this)]
    unfold parseReal
    rw [if_neg (by have := intText_no d (c := '/') (by decide) (by decide); simpa using this), parseInt_small hd]
    rfl
  intro s
  induction s with
  | nil => intro h; exact absurd rfl h
  | cons d s ih =>
    intro _ hd p rest hp hr
    cases s with
    | nil =>
      obtain ⟨t, p', h1, h2, h3⟩ := one (hd d (by simp)) p rest hp hr
      refine ⟨[t], p', .one h1 (by rw [h2]; simp), by simp, ?_⟩
      intro b
      simp only [List.map_cons, List.map_nil, h3]
      exact .one .num (by simp [Admits])
    | cons d' s =>
      have e1 : putShape (d :: d' :: s) ++ rest = intText d ++ ' ' :: (putShape (d' :: s) ++ rest) := by simp [putShape]
      obtain ⟨t, p', h1, h2, h3⟩ := one (hd d (by simp)) p (' ' :: (putShape (d' :: s) ++ rest)) hp (After.space _)
      obtain ⟨ts, p'', g1, g2, g3⟩ := ih (by simp) (fun x hx => hd x (by simp [hx])) (some ' ') rest (Or.inl rfl) hr
      refine ⟨t :: ts, p'', ?_, by simp, ?_⟩
      · rw [e1]
        refine .cons h1 (by rw [h2]; simp) ?_
        cases ts with
        | nil => exact absurd rfl g2
        | cons t ts => exact g1.space
      · intro b
        rw [List.map_cons, List.map_cons, h3]
        exact .more (ts := [_]) .num (by simp [Admits]) (g3 false)

/-- The data of a matrix, read: its elements. -/
def AsData (U : Uni) (C : Ctx) (Γ : Syn.Names) (t : List Char) (l : List Mean) : Prop :=
  ∀ p rest, Before p → After rest → ∃ ts p' e w, Scans U C p (t ++ rest) ts p' rest ∧ ts ≠ [] ∧
    Reads Γ (ts.map tokOf) e ∧ eval none e = .ok w ∧ means (elems w) = l

theorem mat_expr (hU : U.Ok) (hb : C.base = 10) (hrho : C.predefined "rho".toList = true ∧ C.binary "rho".toList = true ∧ Γ.binary "rho" = true)
    {s : List Nat} (hs : ShapeOk s) {t : List Char} {l : List Mean} (hl : l.length = Arr.vol s) (h : AsData U C Γ t l) :
    AsExpr U C Γ (putShape s ++ " rho ".toList ++ t) (.arr s l) := by
  intro p rest hp hr
  obtain ⟨us, p3, e, w, g1, g2, g3, g4, g5⟩ := h (some ' ') rest (Or.inl rfl) hr
  have e1 : putShape s ++ " rho ".toList ++ t ++ rest = putShape s ++ ' ' :: 'r' :: 'h' :: 'o' :: ' ' :: (t ++ rest) := by simp
  obtain ⟨ts, p1, h1, h2, h3⟩ := shape_elements (Γ := Γ) hU hb hs.1 hs.2.1 p (' ' :: 'r' :: 'h' :: 'o' :: ' ' :: (t ++ rest)) hp (After.space _)
  obtain ⟨p2, hn⟩ := next_rho (C := C) hU hrho.1 (some ' ') (t ++ rest)
  obtain ⟨v, v1, v2, _, v4⟩ := elems_scals none (s.map fun d : Nat => .num (.int d))
  rw [List.map_map] at v1 v2
  have hv := v4 (by simpa using hs.1)
  have hlen : (elems w).length = Arr.vol s := by rw [← hl, ← g5, means_map, List.length_map]
  obtain ⟨r, r1, r2⟩ := rho_ok (w := v) hs v2 hv hlen
  refine ⟨ts ++ ⟨.identifier, "rho".toList⟩ :: us, p3, .binary "rho" (Syn.vector (s.map fun d : Nat => .lit (.num (.int d)))) e, r, ?_, by simp, ?_, ?_, ?_⟩
  · rw [e1]
    refine h1.trans (.cons (by rw [next_space]; exact hn) (by simp) ?_)
    cases us with
    | nil => exact absurd rfl g2
    | cons t us => exact g1.space
  · rw [List.map_append, List.map_cons]
    refine .binary ?_ (Or.inr ⟨rfl, hrho.2.2⟩) g3
    have := Operand.mk (us := []) (h3 true) (Brackets.none (Γ := Γ)) (Or.inl rfl)
    simpa using this
  · simp only [eval, if_true, g4, bind_ok]
    have v1' : eval none (Syn.vector (s.map fun d : Nat => .lit (.num (.int d)))) = .ok v := v1
    rw [v1', bind_ok]
    exact r1
  · rw [r2, g5]

theorem text_data (hU : U.Ok) {d : List Val} (hw : WfAll d) {cs : List Char} (hc : charsOf d = some cs) : AsData U C Γ (quote U '"' cs) (means d) := by
  intro p rest hp hr
  obtain ⟨ts, p', e, w, h1, h2, h3, h4, h5, h6, _⟩ := text_element (C := C) (Γ := Γ) hU cs p rest
  refine ⟨ts, p', e, w, h1, h2, .operand ?_, h5, ?_⟩
  · have := Operand.mk (us := []) (Elements.one h3 (h4 true)) (Brackets.none (Γ := Γ) (e := e)) (Or.inl rfl)
    simpa using this
  · rw [h6, (charsOf_chars hw hc).1]

theorem elems_data {t : List Char} {l : List Mean} (h : AsElements U C Γ t l) (hl : 2 ≤ l.length ∨ ∃ x, l = [meanScal x]) : AsData U C Γ t l := by
  intro p rest hp hr
  obtain ⟨ts, p', es, ws, h1, h2, h3, h4, h5, h6⟩ := h p rest hp hr
  obtain ⟨w, w1, w2, w3⟩ := eval_vector none h4
  have hlen : ws.length = l.length := by rw [← h5, means_map, List.length_map]
  refine ⟨ts, p', Syn.vector es, w, h1, h2, .operand ?_, w1, ?_⟩
  · have := Operand.mk (us := []) (h3 true) (Brackets.none (Γ := Γ)) (Or.inl rfl)
    simpa using this
  · rcases hl with hl | ⟨x, rfl⟩
    · rw [w2 (by omega)]
      exact h5
    · have hw := w3 (by rw [h6, hlen]; rfl)
      subst hw
      simp only [means, List.cons.injEq, and_true] at h5
      obtain ⟨y, rfl⟩ := mean_scal (x := x) h5
      simp [elems, means]
      exact h5

theorem elems_expr {t : List Char} {l : List Mean} (h : AsElements U C Γ t l) (hl : 2 ≤ l.length) : AsExpr U C Γ t (.arr [l.length] l) := by
  intro p rest hp hr
  obtain ⟨ts, p', es, ws, h1, h2, h3, h4, h5, h6⟩ := h p rest hp hr
  obtain ⟨w, w1, w2, _⟩ := eval_vector none h4
  have hlen : ws.length = l.length := by rw [← h5, means_map, List.length_map]
  refine ⟨ts, p', Syn.vector es, w, h1, h2, .operand ?_, w1, ?_⟩
  · have := Operand.mk (us := []) (h3 true) (Brackets.none (Γ := Γ)) (Or.inl rfl)
    simpa using this
  · rw [w2 (by omega), mean, hlen, h5]

/-! ## Values -/

/-- The parentheses round an element which is no scalar. -/
theorem put_paren (v : Val) (hn : ¬ IsScal v) (hi : Inner v) : put U true v = '(' :: put U false v ++ [')'] := by
  cases v with
  | scal x => exact absurd trivial hn
  | vec l =>
    simp only [put]
    simp only [Inner] at hi
    rw [charsOf_none hi.2.1]
    simp
  | mat s d => simp [put]

theorem putElems_cons (v v' : Val) (l : List Val) : putElems U (v :: v' :: l) = putElems U [v] ++ ' ' :: putElems U (v' :: l) := by
  simp [putElems, putRest]

theorem put_elem (hU : U.Ok) {v : Val} (hi : Inner v) (he : AsExpr U C Γ (put U false v) (mean v)) (hs : ∀ x, v = .scal x → AsElement U C Γ (putScal U x) (meanScal x)) :
    AsElement U C Γ (putElems U [v]) (mean v) := by
  cases v with
  | scal x =>
    have := hs x rfl
    simpa [putElems, put, putRest, mean] using this
  | vec l =>
    have e : putElems U [.vec l] = put U true (.vec l) := by simp [putElems, putRest]
    rw [e, put_paren _ (by simp [IsScal]) hi]
    exact he.paren hU
  | mat s d =>
    have e : putElems U [.mat s d] = put U true (.mat s d) := by simp [putElems, putRest]
    rw [e, put_paren _ (by simp [IsScal]) hi]
    exact he.paren hU

mutual
theorem put_expr (hU : U.Ok) (hb : C.base = 10) (hrho : C.predefined "rho".toList = true ∧ C.binary "rho".toList = true ∧ Γ.binary "rho" = true) :
    ∀ (v : Val), Wf v → Inner v → AsExpr U C Γ (put U false v) (mean v)
  | .scal x, hw, _ => by
    have := (scal_element (Γ := Γ) hU hb (x := x) hw).expr
    simpa [put, mean] using this
  | .vec l, hw, hi => by
    simp only [Inner] at hi
    simp only [Wf] at hw
    have hne : l ≠ [] := by rintro rfl; simp at hi
    have h := elems_expr (put_elements hU hb hrho l hne hw hi.2.2) (by rw [means_map, List.length_map]; exact hi.1)
    simp only [put, charsOf_none hi.2.1, mean]
    rw [means_map, List.length_map, ← means_map] at h
    simpa using h
  | .mat s d, hw, hi => by
    simp only [Inner] at hi
    simp only [Wf] at hw
    have hl : (means d).length = Arr.vol s := by rw [means_map, List.length_map]; exact hw.2.1
    cases hc : charsOf d with
    | some cs =>
      have h := mat_expr hU hb hrho hw.1 hl (text_data (C := C) (Γ := Γ) hU hw.2.2 hc)
      simpa [put, hc, mean] using h
    | none =>
      have hne : d ≠ [] := by rintro rfl; simp [charsOf] at hc
      have hall : InnerAll d := by
        rcases hi with hi | ⟨_, hi⟩ | ⟨v, rfl, hv⟩
        · obtain ⟨cs, h⟩ := charsOf_some hi
          rw [hc] at h; cases h
        · exact hi
        · cases v with
          | scal x => simp [InnerAll, Inner]
          | vec l => exact absurd hv id
          | mat s d => exact absurd hv id
      have hlen : 2 ≤ (means d).length ∨ ∃ x, means d = [meanScal x] := by
        rcases hi with hi | ⟨h2, _⟩ | ⟨v, rfl, hv⟩
        · obtain ⟨cs, h⟩ := charsOf_some hi
          rw [hc] at h; cases h
        · left; rw [means_map, List.length_map]; exact h2
        · right
          cases v with
          | scal x => exact ⟨x, by simp [means, mean]⟩
          | vec l => exact absurd hv id
          | mat s d => exact absurd hv id
      have h := mat_expr hU hb hrho hw.1 hl (elems_data (put_elements hU hb hrho d hne hw.2.2 hall) hlen)
      simpa [put, hc, mean] using h
theorem put_elements (hU : U.Ok) (hb : C.base = 10) (hrho : C.predefined "rho".toList = true ∧ C.binary "rho".toList = true ∧ Γ.binary "rho" = true) :
    ∀ (l : List Val), l ≠ [] → WfAll l → InnerAll l → AsElements U C Γ (putElems U l) (means l)
  | [], h, _, _ => absurd rfl h
  | [v], _, hw, hi => by
    simp only [WfAll] at hw
    simp only [InnerAll] at hi
    have he := put_elem hU hi.1 (put_expr hU hb hrho v hw.1 hi.1) (by rintro x rfl; exact scal_element hU hb hw.1)
    simpa [means] using he.elements
  | v :: v' :: l, _, hw, hi => by
    rw [WfAll] at hw
    rw [InnerAll] at hi
    have he := put_elem hU hi.1 (put_expr hU hb hrho v hw.1 hi.1) (by rintro x rfl; exact scal_element hU hb hw.1)
    have hr := put_elements hU hb hrho (v' :: l) (by simp) hw.2 hi.2
    rw [putElems_cons]
    exact AsElements.cons he hr
end

/-! ## The line -/

/-- A text is an expression. -/
theorem text_expr (hU : U.Ok) {l : List Val} (hw : WfAll l) (hl : l.length ≠ 1) (hc : ∀ x ∈ l, IsChar x) : AsExpr U C Γ (put U false (.vec l)) (mean (.vec l)) := by
  obtain ⟨cs, hcs⟩ := charsOf_some hc
  obtain ⟨hm, hlen⟩ := charsOf_chars hw hcs
  intro p rest hp hr
  obtain ⟨ts, p', e, w, h1, h2, h3, h4, h5, _, h7⟩ := text_element (C := C) (Γ := Γ) hU cs p rest
  have e1 : put U false (.vec l) = quote U '"' cs := by simp [put, hcs]
  rw [e1]
  refine ⟨ts, p', e, w, h1, h2, .operand ?_, h5, ?_⟩
  · have := Operand.mk (us := []) (Elements.one h3 (h4 true)) (Brackets.none (Γ := Γ) (e := e)) (Or.inl rfl)
    simpa using this
  · rw [h7 (by omega), mean, mean, hm, List.length_map, hlen]

theorem savable_expr {x : List Char} (hset : Setting U C Γ x) {v : Val} (hw : Wf v) (hs : Savable v) : AsExpr U C Γ (put U false v) (mean v) := by
  rcases hs with h | ⟨l, rfl, h1, h2⟩
  · exact put_expr hset.uni hset.base hset.rho v hw h
  · exact text_expr hset.uni (by simpa [Wf] using hw) h1 h2

theorem quote_nocr (hU : U.Ok) {q : Char} (hq : IsQuote q) (cs : List Char) : '\r' ∉ quote U q cs := by
  unfold quote
  intro h
  rcases List.mem_append.1 h with h | h
  · rcases List.mem_cons.1 h with h | h
    · rcases hq with rfl | rfl <;> exact absurd h (by decide)
    · obtain ⟨c, _, hc⟩ := List.mem_flatMap.1 h
      exact (escape_noctl hU hq).2 hc
  · rw [List.mem_singleton] at h
    rcases hq with rfl | rfl <;> exact absurd h (by decide)

theorem putNum_nocr (hU : U.Ok) (n : Num.Num) : '\r' ∉ putNum U n := by
  cases n with
  | char c => exact quote_nocr hU (Or.inl rfl) _
  | int i => intro h; rcases putNum_chars (U := U) (.int i) trivial _ h with h | h | h <;> exact absurd h (by decide)
  | bigInt i => intro h; rcases putNum_chars (U := U) (.bigInt i) trivial _ h with h | h | h <;> exact absurd h (by decide)
  | bigRat i => intro h; rcases putNum_chars (U := U) (.bigRat i) trivial _ h with h | h | h <;> exact absurd h (by decide)

theorem putShape_nocr : ∀ s : List Nat, '\r' ∉ putShape s
  | [] => by decide
  | [d] => intText_no _ (by decide) (by decide)
  | d :: d' :: s => by
    have h1 := intText_no d (c := '\r') (by decide) (by decide)
    have h2 := putShape_nocr (d' :: s)
    simp [putShape, h1] at h2 ⊢
    exact h2

mutual
theorem put_nocr (hU : U.Ok) (b : Bool) : ∀ v : Val, '\r' ∉ put U b v
  | .scal (.num n) => by
    have := putNum_nocr hU n
    cases b <;> simp [put, putScal, this]
  | .scal (.cx c) => by
    have h1 := putNum_nocr hU c.re
    have h2 := putNum_nocr hU c.im
    cases b <;> simp [put, putScal, h1, h2]
  | .vec l => by
    have h1 := putElems_nocr hU l
    simp only [put]
    split
    · rename_i cs _
      have := quote_nocr hU (q := '"') (Or.inr rfl) cs
      cases b <;> simp [this]
    · cases b <;> simp [h1]
  | .mat s d => by
    have h1 := putElems_nocr hU d
    have h2 := putShape_nocr s
    simp only [put]
    cases hc : charsOf d with
    | some cs =>
      have := quote_nocr hU (q := '"') (Or.inr rfl) cs
      cases b <;> simp [h2, this]
    | none => cases b <;> simp [h1, h2]
theorem putElems_nocr (hU : U.Ok) : ∀ l : List Val, '\r' ∉ putElems U l
  | [] => by simp [putElems]
  | v :: l => by
    have h1 := fun b => put_nocr hU b v
    have h2 := putRest_nocr hU l
    simp [putElems, h1, h2]
theorem putRest_nocr (hU : U.Ok) : ∀ l : List Val, '\r' ∉ putRest U l
  | [] => by simp [putRest]
  | v :: l => by
    have h1 := fun b => put_nocr hU b v
    have h2 := putRest_nocr hU l
    simp [putRest, h1, h2]
end

theorem trimAt_none {x : List Char} (h : '@' ∉ x) : Syn.trimAt (String.ofList x) = String.ofList x := by
  have hd : ∀ l : List Char, '@' ∉ l → l.dropWhile (· == '@') = l := by
    intro l hl
    cases l with
    | nil => rfl
    | cons c l =>
      rw [List.dropWhile_cons, if_neg]
      intro hc
      simp at hc hl
      exact hl.1 hc.symm
  unfold Syn.trimAt
  rw [String.toList_ofList, hd x h, hd x.reverse (by simpa using h), List.reverse_reverse]

theorem back_of_expr {x : List Char} (hset : Setting U C Γ x) {v : Val} (h : AsExpr U C Γ (put U false v) (mean v)) : Back U C Γ none x v := by
  obtain ⟨ts, p', e, w, h1, h2, h3, h4, h5⟩ := h (some ' ') ['\n'] (Or.inl rfl) ⟨'\n', [], rfl, Or.inr (Or.inr rfl)⟩
  have halnum := hset.word.2.1
  have hcr : '\r' ∉ x := by
    intro hm
    have hp := hset.uni.letter '\r' (by decide)
    have hq := hset.uni.digit '\r' (by decide)
    have := halnum _ hm
    unfold isAlphaNumeric at this
    rw [hp, hq] at this
    exact absurd this (by decide)
  have hat : '@' ∉ x := fun hm => alnum_plain hset.uni (halnum _ hm) (by decide)
  have hload : loadText (saveLine U x v) = x ++ ' ' :: '=' :: ' ' :: (put U false v ++ ['\n']) := by
    have e0 : saveLine U x v = x ++ ' ' :: '=' :: ' ' :: (put U false v ++ ['\n']) := by simp [saveLine]
    rw [e0, loadText, List.filter_eq_self]
    intro c hc
    have hput := put_nocr (U := U) hset.uni false v
    simp at hc ⊢
    rintro rfl
    rcases hc with hc | hc | hc | hc | hc | hc
    · exact hcr hc
    · exact absurd hc (by decide)
    · exact absurd hc (by decide)
    · exact absurd hc (by decide)
    · exact hput hc
    · exact absurd hc (by decide)
  obtain ⟨p0, hx⟩ := C56_name_partial (C := C) hset.uni (prev := none) (w := x) (rest := ' ' :: '=' :: ' ' :: (put U false v ++ ['\n'])) (by rw [hset.base]; decide) hset.word
    (by
      intro c hc
      simp at hc
      subst hc
      exact ⟨Or.inl rfl, not_alnum hset.uni (by decide), by decide⟩) hset.free
    (by
      obtain ⟨c, hc, h1, h2⟩ := hset.name
      refine ⟨c, hc, h1, ?_⟩
      rw [hset.base]
      rintro (h | ⟨h, _⟩)
      · rw [h2] at h; cases h
      · omega)
  have hscan : Scans U C none (loadText (saveLine U x v)) (⟨.identifier, x⟩ :: ⟨.assign, ['=']⟩ :: ts) p' ['\n'] := by
    rw [hload]
    refine .cons hx (by simp) (.cons (by rw [next_space]; exact next_assign _ _) (by simp) ?_)
    cases ts with
    | nil => exact absurd rfl h2
    | cons t ts => exact h1.space
  have hnl : readLine U C 1 p' ['\n'] = some ([], []) := rfl
  have hlen := hscan.length
  have hread := readLine_scans hscan 1
  rw [hnl] at hread
  have hread' := readLine_mono _ ((saveLine U x v).length + 1) _ _ _ hread (by
    have : (loadText (saveLine U x v)).length ≤ (saveLine U x v).length := List.length_filter_le _ _
    simp at hlen ⊢
    omega)
  have hparse : Syn.parseLine Γ ((⟨.identifier, x⟩ :: ⟨.assign, ['=']⟩ :: ts : List Tok).map tokOf) = .ok [.binary "=" (.var (String.ofList x) 0) e] := by
    rw [Syn.parseLine_iff]
    refine .last (.expr ?_)
    have hel : Element Γ true [Syn.Tok.id (String.ofList x)] (.var (String.ofList x) 0 : Expr CNum) := .var .none
    have hop : Operand Γ [Syn.Tok.id (String.ofList x)] (.var (String.ofList x) 0 : Expr CNum) :=
      Operand.mk (us := []) (Elements.one hel (by
        simp only [Admits, if_true]
        rw [trimAt_none hat]
        exact hset.noOp.1)) Brackets.none (Or.inl rfl)
    exact Reads.assign hop (.var _ _) h3
  refine ⟨w, ?_, h5⟩
  unfold load
  rw [hread']
  dsimp only
  simp only [List.append_nil]
  rw [hparse, bind_ok]
  dsimp only
  rw [if_pos rfl, h4, bind_ok]

end Verif.Save
