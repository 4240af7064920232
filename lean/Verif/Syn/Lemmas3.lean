import Verif.Syn.Lemmas2

/-!
# Syntax: printing and reading back
-/

namespace Verif.Syn
open Verif.Arr (R)
open Verif.Exec (Expr Fn Env Sem)
variable {ν : Type} {Γ : Names} {W : Print ν}

mutual
/-- The form of an expression as the parser makes it. -/
def Shape (W : Print ν) (Γ : Names) : Expr ν → Prop
  | .lit _ => True
  | .var _ n => n = 0
  | .unary x r => UnaryTok Γ (W.opTok x) x ∧ Shape W Γ r
  | .binary x l r =>
    ((x = "=" ∧ Assignable l) ∨ (x ≠ "=" ∧ BinaryTok Γ (W.opTok x) x)) ∧ Shape W Γ l ∧ Shape W Γ r
  | .cond _ _ => False
  | .vec es => es.length ≠ 1 ∧ ShapeAll W Γ es
  | .index l is => Shape W Γ l ∧ is ≠ [] ∧ ShapeIdx W Γ is
  | .hole => False

/-- All of them. -/
def ShapeAll (W : Print ν) (Γ : Names) : List (Expr ν) → Prop
  | [] => True
  | e :: es => Shape W Γ e ∧ ShapeAll W Γ es

/-- All of them, or left out. -/
def ShapeIdx (W : Print ν) (Γ : Names) : List (Expr ν) → Prop
  | [] => True
  | e :: es => (e = .hole ∨ Shape W Γ e) ∧ ShapeIdx W Γ es
end

theorem unaryTok_print {t : Tok ν} {x : String} (h : UnaryTok Γ t x) (hs : W.Scanned t) : UnaryTok Γ (W.opTok x) x := by
  rcases h with rfl | ⟨rfl, h⟩
  · left; simp only [Print.Scanned] at hs; simp [Print.opTok, hs.1]
  · right; simp only [Print.Scanned] at hs; simp [Print.opTok, hs.1, h]

theorem binaryTok_print {t : Tok ν} {x : String} (h : BinaryTok Γ t x) (hs : W.Scanned t) :
    x ≠ "=" ∧ BinaryTok Γ (W.opTok x) x := by
  rcases h with rfl | ⟨rfl, h⟩
  · simp only [Print.Scanned] at hs; exact ⟨hs.2, Or.inl (by simp [Print.opTok, hs.1])⟩
  · simp only [Print.Scanned] at hs; exact ⟨hs.2, Or.inr ⟨by simp [Print.opTok, hs.1], h⟩⟩

theorem shape_vector {es : List (Expr ν)} (h : ShapeAll W Γ es) : Shape W Γ (vector es) := by
  match es, h with
  | [], h => simpa [vector, Shape] using h
  | [_], h => exact h.1
  | _ :: _ :: _, h => exact ⟨by simp, h⟩

theorem shapeAll_lits (cs : List ν) : ShapeAll W Γ (cs.map Expr.lit) := by
  induction cs with
  | nil => trivial
  | cons c cs ih => exact ⟨trivial, ih⟩

mutual
theorem Reads.shape : ∀ {ts : List (Tok ν)} {e : Expr ν}, Reads Γ ts e → (∀ t ∈ ts, W.Scanned t) → Shape W Γ e
  | _, _, .operand h, hs => Operand.shape h hs
  | _, _, .unary hx h, hs =>
    ⟨unaryTok_print hx (hs _ (by simp)), Reads.shape h (fun t ht => hs t (by simp [ht]))⟩
  | _, _, .binary hl hx hr, hs =>
    ⟨Or.inr (binaryTok_print hx (hs _ (by simp))), Operand.shape hl (fun t ht => hs t (by simp [ht])),
      Reads.shape hr (fun t ht => hs t (by simp [ht]))⟩
  | _, _, .assign hl hx hr, hs =>
    ⟨Or.inl ⟨rfl, hx⟩, Operand.shape hl (fun t ht => hs t (by simp [ht])),
      Reads.shape hr (fun t ht => hs t (by simp [ht]))⟩

theorem Operand.shape : ∀ {ts : List (Tok ν)} {e : Expr ν}, Operand Γ ts e → (∀ t ∈ ts, W.Scanned t) → Shape W Γ e
  | _, _, .mk h hb _, hs =>
    Brackets.shape hb (fun t ht => hs t (by simp [ht])) (shape_vector (Elements.shape h (fun t ht => hs t (by simp [ht]))))

theorem Elements.shape : ∀ {a v : Bool} {ts : List (Tok ν)} {es : List (Expr ν)}, Elements Γ a v ts es →
    (∀ t ∈ ts, W.Scanned t) → ShapeAll W Γ es
  | _, _, _, _, .one h _, hs => ⟨Element.shape h hs, trivial⟩
  | _, _, _, _, .more h _ hm, hs =>
    ⟨Element.shape h (fun t ht => hs t (by simp [ht])), Elements.shape hm (fun t ht => hs t (by simp [ht]))⟩

theorem Element.shape : ∀ {v : Bool} {ts : List (Tok ν)} {e : Expr ν}, Element Γ v ts e →
    (∀ t ∈ ts, W.Scanned t) → Shape W Γ e
  | _, _, _, .num, _ => trivial
  | _, _, _, .str, _ => shape_vector (shapeAll_lits _)
  | _, _, _, .var hb, hs => Brackets.shape hb (fun t ht => hs t (by simp [ht])) rfl
  | _, _, _, .paren hr, hs => Reads.shape hr (fun t ht => hs t (by simp [ht]))

theorem Brackets.shape : ∀ {ts : List (Tok ν)} {e e' : Expr ν}, Brackets Γ ts e e' → (∀ t ∈ ts, W.Scanned t) →
    Shape W Γ e → Shape W Γ e'
  | _, _, _, .none, _, he => he
  | _, _, _, .more hi hb, hs, he =>
    have h := Indexes.shape hi (fun t ht => hs t (by simp [ht]))
    Brackets.shape hb (fun t ht => hs t (by simp [ht])) ⟨he, h.1, h.2⟩

theorem Indexes.shape : ∀ {ts : List (Tok ν)} {l : List (Expr ν)}, Indexes Γ ts l → (∀ t ∈ ts, W.Scanned t) →
    l ≠ [] ∧ ShapeIdx W Γ l
  | _, _, .lastNone, _ => ⟨by simp, Or.inl rfl, trivial⟩
  | _, _, .last h, hs => ⟨by simp, Or.inr (Reads.shape h hs), trivial⟩
  | _, _, .none h, hs => ⟨by simp, Or.inl rfl, (Indexes.shape h (fun t ht => hs t (by simp [ht]))).2⟩
  | _, _, .more hr h, hs =>
    ⟨by simp, Or.inr (Reads.shape hr (fun t ht => hs t (by simp [ht]))),
      (Indexes.shape h (fun t ht => hs t (by simp [ht]))).2⟩
end

/-- Tokens of an expression that needs no parentheses: a constant or a variable, with its indexes. -/
def Simple (Γ : Names) (ts : List (Tok ν)) (e : Expr ν) : Prop :=
  ∃ t us b, ts = t :: us ∧ Brackets Γ us b e ∧
    (((∃ v, b = .lit v) ∧ Element Γ false [t] b ∧ Admits Γ true [t] ∧ Admits Γ false [t] ∧ ((us = [] ∧ e = b) ∨ constIndexed e = true)) ∨
     ∃ x, t = .id x ∧ b = .var x 0 ∧ Γ.op x = false ∧ Γ.unary (trimAt x) = false)

theorem Brackets.snoc : ∀ {ts : List (Tok ν)} {e e' : Expr ν}, Brackets Γ ts e e' → ∀ {is : List (Tok ν)}
    {l : List (Expr ν)}, Indexes Γ is l → Brackets Γ (ts ++ .lbrack :: is ++ [.rbrack]) e (.index e' l)
  | _, _, _, .none, is, _, hi => .more hi .none
  | _, _, _, .more (is := is0) (ts := ts) hi0 hb, is, _, hi => by
    have := Brackets.more hi0 (Brackets.snoc hb hi)
    simpa using this

theorem Simple.operand {ts : List (Tok ν)} {e : Expr ν} (h : Simple Γ ts e) : Operand Γ ts e := by
  obtain ⟨t, us, b, rfl, hb, h | ⟨x, rfl, rfl, hx1, hx2⟩⟩ := h
  · have := Operand.mk (Elements.one h.2.1 h.2.2.1) hb (Or.inr rfl)
    simpa using this
  · have := Operand.mk (Elements.one (Element.var hb) (by simpa [Admits] using hx2)) (.none (e := e)) (Or.inl rfl)
    simpa using this

theorem paren_element {ts : List (Tok ν)} {e : Expr ν} (h : Reads Γ ts e) : Element Γ false (paren true ts) e := by
  simpa [paren] using Element.paren h

theorem paren_operand {ts : List (Tok ν)} {e : Expr ν} (h : Reads Γ ts e) : Operand Γ (paren true ts) e := by
  have := Operand.mk (Elements.one (paren_element h) (by simp [paren, Admits])) (.none (e := e)) (Or.inl rfl)
  simpa using this

/-- What printing gives for a single expression. -/
def Printed (W : Print ν) (Γ : Names) (e : Expr ν) : Prop :=
  ∃ ts, print W e = .ok ts ∧ Reads Γ ts e ∧ (isCompound e = false → Simple Γ ts e)

theorem Printed.operand {e : Expr ν} (h : Printed W Γ e) :
    ∃ ts, print W e = .ok ts ∧ Operand Γ (paren (isCompound e) ts) e := by
  obtain ⟨ts, h1, h2, h3⟩ := h
  refine ⟨ts, h1, ?_⟩
  cases hc : isCompound e with
  | false => simpa [paren] using (h3 hc).operand
  | true => exact paren_operand h2

theorem constIndexed_index {l : Expr ν} {is : List (Expr ν)} (h : constIndexed l = true) :
    constIndexed (.index l is) = true := by
  cases l <;> simp_all [constIndexed]

theorem Printed.element {e : Expr ν} (h : Printed W Γ e) (hi : constIndexed e = false) :
    ∃ ts v, print W e = .ok ts ∧ Element Γ v (paren (isCompound e) ts) e ∧
      ∀ a, Admits Γ a (paren (isCompound e) ts) := by
  obtain ⟨ts, h1, h2, h3⟩ := h
  cases hc : isCompound e with
  | true => exact ⟨ts, false, h1, paren_element h2, fun a => by simp [paren, Admits]⟩
  | false =>
    obtain ⟨t, us, b, rfl, hb, h | ⟨x, rfl, rfl, hx1, hx2⟩⟩ := h3 hc
    · obtain ⟨-, h4, h5, h6, ⟨rfl, rfl⟩ | h7⟩ := h
      · exact ⟨[t], false, h1, by simpa [paren] using h4, fun a => by cases a <;> simpa [paren]⟩
      · rw [h7] at hi; simp at hi
    · exact ⟨_, true, h1, by simpa [paren] using Element.var hb, fun a => by cases a <;> simp [paren, Admits, hx1, hx2]⟩

theorem readable_element {v : ν} (h : W.Readable v) :
    ∃ t, W.value v = .ok [t] ∧ Element Γ false [t] (.lit v) ∧ ∀ a, Admits Γ a [t] := by
  rcases h with ⟨h, -⟩ | ⟨h, -⟩
  · exact ⟨_, h, .num, fun _ => trivial⟩
  · exact ⟨_, h, by simpa [vector] using Element.str (Γ := Γ) (cs := [v]), fun _ => trivial⟩

theorem allChars_some : ∀ {es : List (Expr ν)} {cs : List ν}, allChars W es = some cs → es = cs.map .lit := by
  intro es
  induction es with
  | nil => intro cs h; simp only [allChars, Option.some.injEq] at h; subst h; rfl
  | cons e es ih =>
    intro cs h
    cases e with
    | lit v =>
      simp only [allChars] at h
      split at h
      · obtain ⟨ds, h1, rfl⟩ := Option.map_eq_some_iff.1 h
        rw [ih h1]; rfl
      · simp at h
    | _ => simp [allChars] at h

mutual
theorem print_reads : ∀ e : Expr ν, Shape W Γ e → Tidy W Γ e → Printed W Γ e
  | .lit v, _, ht => by
    obtain ⟨t, h1, h2, h3⟩ := readable_element (Γ := Γ) ht
    have hsim : Simple Γ [t] (.lit v) := ⟨t, [], .lit v, rfl, .none, Or.inl ⟨⟨v, rfl⟩, h2, h3 _, h3 _, Or.inl ⟨rfl, rfl⟩⟩⟩
    exact ⟨[t], by simpa [print] using h1, .operand hsim.operand, fun _ => hsim⟩
  | .var x n, hs, ht => by
    simp only [Shape] at hs
    subst hs
    have hsim : Simple (ν := ν) Γ [.id x] (.var x 0) := ⟨.id x, [], .var x 0, rfl, .none, Or.inr ⟨x, rfl, rfl, ht.1, ht.2⟩⟩
    exact ⟨[.id x], rfl, .operand hsim.operand, fun _ => hsim⟩
  | .unary x r, hs, ht => by
    obtain ⟨ts, h1, h2, -⟩ := print_reads r hs.2 ht
    exact ⟨W.opTok x :: ts, by simp [print, h1], .unary hs.1 h2, fun h => by simp [isCompound] at h⟩
  | .binary x l r, hs, ht => by
    obtain ⟨ls, hl1, hl2⟩ := (print_reads l hs.2.1 ht.1).operand
    obtain ⟨rs, hr1, hr2, -⟩ := print_reads r hs.2.2 ht.2
    refine ⟨paren (isCompound l) ls ++ (if x = "=" then Tok.assign else W.opTok x) :: rs,
      by simp [print, hl1, hr1], ?_, fun h => by simp [isCompound] at h⟩
    rcases hs.1 with ⟨rfl, ha⟩ | ⟨hx, hb⟩
    · exact .assign hl2 ha hr2
    · rw [if_neg hx]; exact .binary hl2 hb hr2
  | .cond _ _, hs, _ => by simp [Shape] at hs
  | .hole, hs, _ => by simp [Shape] at hs
  | .vec es, hs, ht => by
    cases hc : allChars W es with
    | some cs =>
      have he := allChars_some hc
      refine ⟨[.str (some cs)], by simp [print, hc], ?_, fun h => by simp [isCompound] at h⟩
      have h1 : Element Γ false [.str (some cs)] (.vec es) := by
        have := Element.str (Γ := Γ) (cs := cs)
        rwa [← he, vector_eq es hs.1] at this
      have := Operand.mk (Elements.one h1 trivial) (.none (e := .vec es)) (Or.inl rfl)
      exact .operand (by simpa using this)
    | none =>
      have hne : es ≠ [] := by rintro rfl; simp [allChars] at hc
      obtain ⟨ts, v, h1, h2⟩ := printAll_reads es hs.2 ht.1 ht.2 hne true
      refine ⟨ts, by simp [print, hc, h1], ?_, fun h => by simp [isCompound] at h⟩
      have hb : Brackets Γ [] (vector es) (.vec es) := by rw [vector_eq es hs.1]; exact .none
      exact .operand (by simpa using Operand.mk h2 hb (Or.inl rfl))
  | .index l is, hs, ht => by
    obtain ⟨it, hi1, hi2⟩ := printIndex_reads is hs.2.2 ht.2 hs.2.1
    obtain ⟨ls, hl1, hl2, hl3⟩ := print_reads l hs.1 ht.1
    refine ⟨paren (isCompound l) ls ++ .lbrack :: it ++ [.rbrack], by simp [print, hl1, hi1], ?_⟩
    cases hc : isCompound l with
    | true =>
      refine ⟨?_, fun h => by simp [isCompound, hc] at h⟩
      have := Operand.mk (Elements.one (paren_element hl2) (by simp [paren, Admits]))
        (Brackets.more hi2 .none) (Or.inr rfl)
      exact .operand (by simpa [vector] using this)
    | false =>
      have hsim : Simple Γ (paren false ls ++ .lbrack :: it ++ [.rbrack]) (.index l is) := by
        obtain ⟨t, us, b, rfl, hb, h⟩ := hl3 hc
        refine ⟨t, us ++ .lbrack :: it ++ [.rbrack], b, by simp [paren], hb.snoc hi2, ?_⟩
        rcases h with ⟨⟨v, rfl⟩, h4, h5, h6, h7⟩ | h
        · refine Or.inl ⟨⟨v, rfl⟩, h4, h5, h6, Or.inr ?_⟩
          rcases h7 with ⟨-, rfl⟩ | h7
          · rfl
          · exact constIndexed_index h7
        · exact Or.inr h
      exact ⟨.operand hsim.operand, fun _ => hsim⟩

theorem printAll_reads : ∀ es : List (Expr ν), ShapeAll W Γ es → TidyAll W Γ es → (∀ e ∈ es, constIndexed e = false) →
    es ≠ [] → ∀ a, ∃ ts v, printAll W es = .ok ts ∧ Elements Γ a v ts es
  | [], _, _, _, h, _ => absurd rfl h
  | e :: es, hs, ht, hi, _, a => by
    obtain ⟨ts, v, h1, h2, h3⟩ := (print_reads e hs.1 ht.1).element (hi e (by simp))
    by_cases hes : es = []
    · subst hes
      exact ⟨paren (isCompound e) ts, v, by simp [printAll, h1], .one h2 (h3 a)⟩
    · obtain ⟨us, w, h4, h5⟩ := printAll_reads es hs.2 ht.2 (fun e he => hi e (by simp [he])) hes false
      exact ⟨paren (isCompound e) ts ++ us, w, by simp [printAll, h1, h4], .more h2 (h3 a) h5⟩

theorem printIndex_reads : ∀ is : List (Expr ν), ShapeIdx W Γ is → TidyAll W Γ is → is ≠ [] →
    ∃ ts, printIndex W is = .ok ts ∧ Indexes Γ ts is
  | [], _, _, h => absurd rfl h
  | [e], hs, ht, _ => by
    rcases hs.1 with rfl | hs1
    · exact ⟨[], by simp [printIndex, print], .lastNone⟩
    · obtain ⟨ts, h1, h2, -⟩ := print_reads e hs1 ht.1
      exact ⟨ts, by simp [printIndex, h1], .last h2⟩
  | e :: f :: es, hs, ht, _ => by
    obtain ⟨us, h3, h4⟩ := printIndex_reads (f :: es) hs.2 ht.2 (by simp)
    rcases hs.1 with rfl | hs1
    · exact ⟨.semi :: us, by simp [printIndex, print, h3], .none h4⟩
    · obtain ⟨ts, h1, h2, -⟩ := print_reads e hs1 ht.1
      exact ⟨ts ++ .semi :: us, by simp [printIndex, h1, h3], .more h2 h4⟩
end

end Verif.Syn
