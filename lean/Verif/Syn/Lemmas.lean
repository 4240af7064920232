import Verif.Syn.Spec

/-!
# Syntax: the parser accepts what the grammar describes, and nothing else
-/

namespace Verif.Syn
open Verif.Arr (R)
open Verif.Exec (Expr Fn Env Sem)
variable {ν : Type} {Γ : Names}

/-- The tokens that can follow an expression. -/
def Closes : List (Tok ν) → Prop
  | [] => True
  | .rparen :: _ => True
  | .rbrack :: _ => True
  | .semi :: _ => True
  | .colon :: _ => True
  | _ => False

/-- No bracket follows. -/
def NoBrack : List (Tok ν) → Prop
  | .lbrack :: _ => False
  | _ => True

/-- The token begins an element. -/
def Begins : Tok ν → Prop
  | .num _ => True
  | .str _ => True
  | .id _ => True
  | .lparen => True
  | _ => False

theorem R.bind_ok {α β : Type} {r : R α} {f : α → R β} {b : β} :
    r.bind f = R.ok b ↔ ∃ a, r = R.ok a ∧ f a = R.ok b := by
  cases r <;> simp [R.bind]

@[simp] theorem R.ok_bind {α β : Type} (a : α) (f : α → R β) : (R.ok a).bind f = f a := rfl

theorem vector_eq (es : List (Expr ν)) (h : es.length ≠ 1) : vector es = .vec es := by
  match es, h with
  | [], _ => rfl
  | [_], h => simp at h
  | _ :: _ :: _, _ => rfl

theorem evalString_eq (cs : List ν) : evalString cs = vector (cs.map .lit) := by
  match cs with
  | [] => rfl
  | [_] => rfl
  | _ :: _ :: _ => rfl

theorem Element.begins {v : Bool} {ts : List (Tok ν)} {e : Expr ν} (h : Element Γ v ts e) :
    ∃ t us, ts = t :: us ∧ Begins t := by
  cases h with
  | num => exact ⟨_, _, rfl, trivial⟩
  | str => exact ⟨_, _, rfl, trivial⟩
  | var h => exact ⟨_, _, rfl, trivial⟩
  | paren h => exact ⟨_, _, rfl, trivial⟩

theorem Elements.begins {a v : Bool} {ts : List (Tok ν)} {es : List (Expr ν)} (h : Elements Γ a v ts es) :
    ∃ t us, ts = t :: us ∧ Begins t := by
  cases h with
  | one h _ => exact h.begins
  | more h _ _ =>
    obtain ⟨t, us, rfl, ht⟩ := h.begins
    exact ⟨t, _, rfl, ht⟩

theorem Operand.begins {ts : List (Tok ν)} {e : Expr ν} (h : Operand Γ ts e) :
    ∃ t us, ts = t :: us ∧ Begins t := by
  cases h with
  | mk h _ _ =>
    obtain ⟨t, us, rfl, ht⟩ := h.begins
    exact ⟨t, _, rfl, ht⟩

/-- An expression begins with an element or an operator. -/
theorem Reads.begins {ts : List (Tok ν)} {e : Expr ν} (h : Reads Γ ts e) :
    ∃ t us, ts = t :: us ∧ (Begins t ∨ ∃ x, t = .op x) := by
  cases h with
  | operand h => obtain ⟨t, us, rfl, ht⟩ := h.begins; exact ⟨t, _, rfl, Or.inl ht⟩
  | unary h _ =>
    refine ⟨_, _, rfl, ?_⟩
    rcases h with rfl | ⟨rfl, _⟩
    · exact Or.inr ⟨_, rfl⟩
    · exact Or.inl trivial
  | binary h _ _ => obtain ⟨t, us, rfl, ht⟩ := h.begins; exact ⟨t, _, rfl, Or.inl ht⟩
  | assign h _ _ => obtain ⟨t, us, rfl, ht⟩ := h.begins; exact ⟨t, _, rfl, Or.inl ht⟩

theorem Reads.not_closes {ts : List (Tok ν)} {e : Expr ν} (h : Reads Γ ts e) (rest : List (Tok ν)) :
    ¬ Closes (ts ++ rest) := by
  obtain ⟨t, us, rfl, ht⟩ := h.begins
  rcases ht with ht | ⟨x, rfl⟩
  · cases t <;> simp_all [Begins, Closes]
  · simp [Closes]

theorem Reads.length_pos {ts : List (Tok ν)} {e : Expr ν} (h : Reads Γ ts e) : 0 < ts.length := by
  obtain ⟨t, us, rfl, _⟩ := h.begins; simp

mutual
theorem checkAssign_iff : ∀ e : Expr ν, checkAssign e = .ok () ↔ Assignable e
  | .var x n => by simp only [checkAssign, true_iff]; exact .var x n
  | .lit v => by simp only [checkAssign, reduceCtorEq, false_iff]; intro h; cases h
  | .hole => by simp only [checkAssign, reduceCtorEq, false_iff]; intro h; cases h
  | .unary _ _ => by simp only [checkAssign, reduceCtorEq, false_iff]; intro h; cases h
  | .binary _ _ _ => by simp only [checkAssign, reduceCtorEq, false_iff]; intro h; cases h
  | .cond _ _ => by simp only [checkAssign, reduceCtorEq, false_iff]; intro h; cases h
  | .vec es => by
    simp only [checkAssign]
    rw [checkAssigns_iff es]
    constructor
    · intro h; exact .vec es h
    · intro h; cases h with | vec _ h => exact h
  | .index l is => by
    by_cases hl : ∃ a b, l = .index a b
    · obtain ⟨a, b, rfl⟩ := hl
      simp only [checkAssign, reduceCtorEq, false_iff]
      intro h; cases h with | index _ _ h => exact h _ _ rfl
    · have : checkAssign (.index l is) = .ok () := by
        cases l <;> simp_all [checkAssign]
      simp only [this, true_iff]
      exact .index l is (fun a b h => hl ⟨a, b, h⟩)

theorem checkAssigns_iff : ∀ es : List (Expr ν), checkAssigns es = .ok () ↔ ∀ e ∈ es, Assignable e
  | [] => by simp [checkAssigns]
  | e :: es => by
    simp only [checkAssigns, R.bind_ok, checkAssigns_iff es, List.mem_cons, forall_eq_or_imp]
    constructor
    · rintro ⟨_, h1, h2⟩; exact ⟨(checkAssign_iff e).1 h1, h2⟩
    · rintro ⟨h1, h2⟩; exact ⟨(), (checkAssign_iff e).2 h1, h2⟩
end

/-! ## Soundness -/

/-- What `ex` reads is an expression, followed by something that can follow one. -/
def Sound (Γ : Names) (ex : List (Tok ν) → P ν (Expr ν)) : Prop :=
  ∀ ts e rest, ex ts = .ok (e, rest) → ∃ pre, ts = pre ++ rest ∧ Reads Γ pre e ∧ Closes rest

theorem indexLoop_sound {ex : List (Tok ν) → P ν (Expr ν)} (hs : Sound Γ ex) :
    ∀ (n : Nat) (seen : Bool) (ts : List (Tok ν)) (l : List (Expr ν)) (rest : List (Tok ν)),
      (seen = true → Closes ts) → indexLoop ex n seen ts = .ok (l, rest) →
      (∃ r, rest = .rbrack :: r) ∧
      (if seen then (l = [] ∧ ts = rest) ∨ ∃ pre, ts = .semi :: pre ++ rest ∧ Indexes Γ pre l
       else ∃ pre, ts = pre ++ rest ∧ Indexes Γ pre l) := by
  intro n
  induction n with
  | zero => intro seen ts l rest _ h; simp [indexLoop] at h
  | succ n ih =>
    intro seen ts l rest hc h
    have dflt : (∀ r, ts ≠ .rbrack :: r) → (∀ r, ts ≠ .semi :: r) →
        (ex ts).bind (fun p => (indexLoop ex n true p.2).bind fun q => .ok (p.1 :: q.1, q.2)) = .ok (l, rest) →
        (∃ r, rest = .rbrack :: r) ∧
        (if seen then (l = [] ∧ ts = rest) ∨ ∃ pre, ts = .semi :: pre ++ rest ∧ Indexes Γ pre l
          else ∃ pre, ts = pre ++ rest ∧ Indexes Γ pre l) := by
      intro _ _ h
      replace h := R.bind_ok.1 h
      obtain ⟨⟨e, ts1⟩, h1, h⟩ := h
      replace h := R.bind_ok.1 h
      obtain ⟨⟨es, ts2⟩, h2, h⟩ := h
      simp only [R.ok.injEq, Prod.mk.injEq] at h
      obtain ⟨rfl, rfl⟩ := h
      obtain ⟨pre, rfl, hr, hc1⟩ := hs _ _ _ h1
      cases seen with
      | true => exact absurd (hc rfl) (hr.not_closes _)
      | false =>
        replace h2 := ih true ts1 es ts2 (fun _ => hc1) h2
        obtain ⟨hr2, h2⟩ := h2
        refine ⟨hr2, ?_⟩
        simp only [if_true] at h2
        simp only [Bool.false_eq_true, if_false]
        rcases h2 with ⟨rfl, rfl⟩ | ⟨pre2, rfl, h2⟩
        · exact ⟨pre, rfl, .last hr⟩
        · exact ⟨pre ++ .semi :: pre2, by simp, .more hr h2⟩
    match ts, hc, h, dflt with
    | .rbrack :: ts, _, h, _ =>
      simp only [indexLoop, R.ok.injEq, Prod.mk.injEq] at h
      obtain ⟨rfl, rfl⟩ := h
      refine ⟨⟨_, rfl⟩, ?_⟩
      cases seen
      · exact ⟨[], rfl, .lastNone⟩
      · exact Or.inl ⟨rfl, rfl⟩
    | .semi :: ts, _, h, _ =>
      simp only [indexLoop] at h
      replace h := R.bind_ok.1 h
      obtain ⟨⟨es, ts1⟩, h1, h⟩ := h
      simp only [R.ok.injEq, Prod.mk.injEq] at h
      obtain ⟨rfl, rfl⟩ := h
      replace h1 := ih false ts es ts1 (by simp) h1
      obtain ⟨hr, h1⟩ := h1
      simp only [Bool.false_eq_true, if_false] at h1
      obtain ⟨pre, rfl, h1⟩ := h1
      refine ⟨hr, ?_⟩
      cases seen
      · exact ⟨.semi :: pre, rfl, .none h1⟩
      · exact Or.inr ⟨pre, rfl, by simpa using h1⟩
    | [], _, h, dflt => exact dflt (by simp) (by simp) (by simpa only [indexLoop] using h)
    | .num _ :: _, _, h, dflt => exact dflt (by simp) (by simp) (by simpa only [indexLoop] using h)
    | .str _ :: _, _, h, dflt => exact dflt (by simp) (by simp) (by simpa only [indexLoop] using h)
    | .id _ :: _, _, h, dflt => exact dflt (by simp) (by simp) (by simpa only [indexLoop] using h)
    | .op _ :: _, _, h, dflt => exact dflt (by simp) (by simp) (by simpa only [indexLoop] using h)
    | .assign :: _, _, h, dflt => exact dflt (by simp) (by simp) (by simpa only [indexLoop] using h)
    | .lparen :: _, _, h, dflt => exact dflt (by simp) (by simp) (by simpa only [indexLoop] using h)
    | .rparen :: _, _, h, dflt => exact dflt (by simp) (by simp) (by simpa only [indexLoop] using h)
    | .lbrack :: _, _, h, dflt => exact dflt (by simp) (by simp) (by simpa only [indexLoop] using h)
    | .colon :: _, _, h, dflt => exact dflt (by simp) (by simp) (by simpa only [indexLoop] using h)
    | .other _ :: _, _, h, dflt => exact dflt (by simp) (by simp) (by simpa only [indexLoop] using h)

theorem indexOn_stop (ex : List (Tok ν) → P ν (Expr ν)) (n : Nat) (e : Expr ν) (ts : List (Tok ν)) (h : NoBrack ts) :
    indexOn ex (n + 1) e ts = .ok (e, ts) := by
  match ts, h with
  | [], _ => rfl
  | t :: ts, h => cases t <;> first | rfl | exact absurd h (by simp [NoBrack])

theorem indexOn_sound {ex : List (Tok ν) → P ν (Expr ν)} (hs : Sound Γ ex) :
    ∀ (n : Nat) (e : Expr ν) (ts : List (Tok ν)) (e' : Expr ν) (rest : List (Tok ν)),
      indexOn ex n e ts = .ok (e', rest) → NoBrack rest ∧ ∃ pre, ts = pre ++ rest ∧ Brackets Γ pre e e' := by
  intro n
  induction n with
  | zero => intro e ts e' rest h; simp [indexOn] at h
  | succ n ih =>
    intro e ts e' rest h
    by_cases hb : NoBrack ts
    · rw [indexOn_stop ex n e ts hb] at h
      simp only [R.ok.injEq, Prod.mk.injEq] at h
      obtain ⟨rfl, rfl⟩ := h
      exact ⟨hb, [], rfl, .none⟩
    · match ts, hb with
      | [], hb => exact absurd trivial hb
      | t :: ts, hb =>
        have ht : t = .lbrack := by cases t <;> simp_all [NoBrack]
        subst ht
        simp only [indexOn] at h
        replace h := R.bind_ok.1 h
        obtain ⟨⟨l, ts1⟩, h1, h⟩ := h
        obtain ⟨⟨r, hr⟩, h2⟩ := indexLoop_sound hs _ false ts l ts1 (by simp) h1
        simp only [Bool.false_eq_true, if_false] at h2
        obtain ⟨pre, rfl, hi⟩ := h2
        subst hr
        simp only at h
        obtain ⟨hb', pre2, rfl, hb2⟩ := ih _ _ _ _ h
        exact ⟨hb', .lbrack :: pre ++ .rbrack :: pre2, by simp, .more hi hb2⟩

theorem number_sound {ex : List (Tok ν) → P ν (Expr ν)} (hs : Sound Γ ex) {t : Tok ν} {ts : List (Tok ν)} {e : Expr ν}
    {rest : List (Tok ν)} (h : number ex t ts = .ok (e, rest)) :
    ∃ v pre, ts = pre ++ rest ∧ Element Γ v (t :: pre) e ∧ (v = true → NoBrack rest) := by
  cases t with
  | id x =>
    simp only [number] at h
    obtain ⟨hb, pre, rfl, hp⟩ := indexOn_sound hs _ _ _ _ _ h
    exact ⟨true, pre, rfl, .var hp, fun _ => hb⟩
  | str cs =>
    cases cs with
    | none => simp [number] at h
    | some cs =>
      simp only [number, R.ok.injEq, Prod.mk.injEq] at h
      obtain ⟨rfl, rfl⟩ := h
      exact ⟨false, [], rfl, by rw [evalString_eq]; exact .str, by simp⟩
  | num v =>
    cases v with
    | none => simp [number] at h
    | some v =>
      simp only [number, R.ok.injEq, Prod.mk.injEq] at h
      obtain ⟨rfl, rfl⟩ := h
      exact ⟨false, [], rfl, .num, by simp⟩
  | lparen =>
    simp only [number] at h
    replace h := R.bind_ok.1 h
    obtain ⟨⟨e1, ts1⟩, h1, h⟩ := h
    obtain ⟨pre, rfl, hr, -⟩ := hs _ _ _ h1
    split at h
    · rename_i ts' heq
      simp only [R.ok.injEq, Prod.mk.injEq] at h
      obtain ⟨rfl, rfl⟩ := h
      simp only at heq
      subst heq
      exact ⟨false, pre ++ [.rparen], by simp, by simpa using Element.paren hr, by simp⟩
    · simp at h
  | _ => simp [number] at h

theorem continues_admits {t : Tok ν} {ts : List (Tok ν)} (h : continues Γ (t :: ts) = true) (pre : List (Tok ν)) :
    Admits Γ false (t :: pre) := by
  cases t <;> simp_all [continues, Admits]

theorem elements_sound {ex : List (Tok ν) → P ν (Expr ν)} (hs : Sound Γ ex) :
    ∀ (n : Nat) (ts : List (Tok ν)) (es : List (Expr ν)) (rest : List (Tok ν)),
      elements Γ ex n ts = .ok (es, rest) → continues Γ rest = false ∧
      ((es = [] ∧ ts = rest) ∨
        ∃ v pre, ts = pre ++ rest ∧ Elements Γ false v pre es ∧ (v = true → NoBrack rest)) := by
  intro n
  induction n with
  | zero => intro ts es rest h; simp [elements] at h
  | succ n ih =>
    intro ts es rest h
    simp only [elements] at h
    by_cases hc : continues Γ ts = true
    · rw [if_pos hc] at h
      match ts, hc, h with
      | [], hc, _ => simp [continues] at hc
      | t :: ts, hc, h =>
        simp only at h
        replace h := R.bind_ok.1 h
        obtain ⟨⟨e, ts1⟩, h1, h⟩ := h
        replace h := R.bind_ok.1 h
        obtain ⟨⟨es1, ts2⟩, h2, h⟩ := h
        simp only [R.ok.injEq, Prod.mk.injEq] at h
        obtain ⟨rfl, rfl⟩ := h
        obtain ⟨v, pre, rfl, he, hb⟩ := number_sound hs h1
        replace h2 := ih _ _ _ h2
        obtain ⟨hcr, h2⟩ := h2
        refine ⟨hcr, Or.inr ?_⟩
        have ha := continues_admits hc pre
        rcases h2 with ⟨h21, h22⟩ | ⟨w, pre2, h21, h22, h23⟩
        · simp only at h21 h22
          subst h21 h22
          exact ⟨v, t :: pre, rfl, .one he ha, hb⟩
        · simp only at h21
          subst h21
          exact ⟨w, (t :: pre) ++ pre2, by simp, .more he ha h22, h23⟩
    · rw [if_neg hc] at h
      simp only [R.ok.injEq, Prod.mk.injEq] at h
      obtain ⟨rfl, rfl⟩ := h
      exact ⟨by simpa using hc, Or.inl ⟨rfl, rfl⟩⟩

theorem numberOrVector_sound {ex : List (Tok ν) → P ν (Expr ν)} (hs : Sound Γ ex) {t : Tok ν} {ts : List (Tok ν)}
    {e : Expr ν} {rest : List (Tok ν)} (ha : Admits Γ true (t :: ts))
    (h : numberOrVector Γ ex t ts = .ok (e, rest)) :
    ∃ v pre es, ts = pre ++ rest ∧ Elements Γ true v (t :: pre) es ∧ e = vector es ∧ (v = true → NoBrack rest) ∧
      continues Γ rest = false := by
  simp only [numberOrVector] at h
  replace h := R.bind_ok.1 h
  obtain ⟨⟨e1, ts1⟩, h1, h⟩ := h
  replace h := R.bind_ok.1 h
  obtain ⟨⟨es, ts2⟩, h2, h⟩ := h
  simp only [R.ok.injEq, Prod.mk.injEq] at h
  obtain ⟨h3, rfl⟩ := h
  obtain ⟨v, pre, rfl, he, hb⟩ := number_sound hs h1
  replace h2 := elements_sound hs _ _ _ _ h2
  obtain ⟨hcr, h2⟩ := h2
  have ha' : ∀ pre : List (Tok ν), Admits Γ true (t :: pre) := by
    intro pre; cases t <;> simp_all [Admits]
  rcases h2 with ⟨h21, h22⟩ | ⟨w, pre2, h21, h22, h23⟩
  · simp only at h21 h22
    subst h21 h22
    exact ⟨v, pre, [e1], rfl, .one he (ha' _), h3.symm, hb, hcr⟩
  · simp only at h21
    subst h21
    refine ⟨w, pre ++ pre2, e1 :: es, by simp, ?_, ?_, h23, hcr⟩
    · have := Elements.more he (ha' _) h22
      simpa using this
    · rw [← h3]
      cases h22 <;> rfl

theorem closes_noBrack {ts : List (Tok ν)} (h : Closes ts) : NoBrack ts := by
  match ts, h with
  | [], _ => trivial
  | t :: _, h => cases t <;> simp_all [Closes, NoBrack]

/-- What `operand` reads, if it is no unary operator. -/
theorem operand_vec {ex : List (Tok ν) → P ν (Expr ν)} (hs : Sound Γ ex) {t : Tok ν} {ts : List (Tok ν)}
    {e : Expr ν} {rest : List (Tok ν)} (ha : Admits Γ true (t :: ts))
    (h : ((numberOrVector Γ ex t ts).bind fun p => index ex p.1 p.2) = .ok (e, rest)) :
    ∃ pre, ts = pre ++ rest ∧ Operand Γ (t :: pre) e := by
  replace h := R.bind_ok.1 h
  obtain ⟨⟨e1, ts1⟩, h1, h⟩ := h
  obtain ⟨v, pre, es, rfl, he, rfl, hb, hc⟩ := numberOrVector_sound hs ha h1
  obtain ⟨hb', pre2, h2, h3⟩ := indexOn_sound hs _ _ _ _ _ h
  simp only at h2 h3
  subst h2
  refine ⟨pre ++ pre2, by simp, ?_⟩
  have := Operand.mk he h3 (by
    cases v with
    | false => exact Or.inr rfl
    | true =>
      left
      have := hb rfl
      cases h3 with
      | none => rfl
      | more _ _ => simp [NoBrack] at this)
  simpa using this

theorem operand_sound {ex : List (Tok ν) → P ν (Expr ν)} (hs : Sound Γ ex) {t : Tok ν} {ts : List (Tok ν)}
    {e : Expr ν} {rest : List (Tok ν)} (h : operand Γ ex t ts = .ok (e, rest)) :
    ∃ pre, ts = pre ++ rest ∧
      (Operand Γ (t :: pre) e ∨ (Closes rest ∧ ∃ x r, e = .unary x r ∧ UnaryTok Γ t x ∧ Reads Γ pre r)) := by
  have un : ∀ x, UnaryTok Γ t x → ((ex ts).bind fun p => index ex (.unary x p.1) p.2) = .ok (e, rest) →
      ∃ pre, ts = pre ++ rest ∧
        (Operand Γ (t :: pre) e ∨ (Closes rest ∧ ∃ x r, e = .unary x r ∧ UnaryTok Γ t x ∧ Reads Γ pre r)) := by
    intro x hx hq
    replace hq := R.bind_ok.1 hq
    obtain ⟨⟨r, ts1⟩, h1, hq⟩ := hq
    obtain ⟨pre, rfl, hr, hc⟩ := hs _ _ _ h1
    simp only [index] at hq
    rw [indexOn_stop ex _ _ _ (closes_noBrack hc)] at hq
    simp only [R.ok.injEq, Prod.mk.injEq] at hq
    obtain ⟨rfl, rfl⟩ := hq
    exact ⟨pre, rfl, Or.inr ⟨hc, x, r, rfl, hx, hr⟩⟩
  have vec : Admits Γ true (t :: ts) → ((numberOrVector Γ ex t ts).bind fun p => index ex p.1 p.2) = .ok (e, rest) →
      ∃ pre, ts = pre ++ rest ∧
        (Operand Γ (t :: pre) e ∨ (Closes rest ∧ ∃ x r, e = .unary x r ∧ UnaryTok Γ t x ∧ Reads Γ pre r)) := by
    intro ha h
    obtain ⟨pre, h1, h2⟩ := operand_vec hs ha h
    exact ⟨pre, h1, Or.inl h2⟩
  cases t with
  | op x => exact un x (Or.inl rfl) h
  | id x =>
    simp only [operand] at h
    by_cases hx : Γ.unary (trimAt x) = true
    · rw [if_pos hx] at h
      exact un x (Or.inr ⟨rfl, hx⟩) h
    · rw [if_neg hx] at h
      exact vec (by simpa [Admits] using hx) h
  | num v => exact vec trivial h
  | str v => exact vec trivial h
  | lparen => exact vec trivial h
  | _ => simp [operand] at h

theorem after_sound {ex : List (Tok ν) → P ν (Expr ν)} (hs : Sound Γ ex) {l e : Expr ν} {ts rest : List (Tok ν)}
    (h : after Γ ex l ts = .ok (e, rest)) :
    (Closes ts ∧ e = l ∧ rest = ts) ∨
      (Closes rest ∧ ∃ t pre x r, ts = t :: pre ++ rest ∧ Reads Γ pre r ∧ e = .binary x l r ∧
        (BinaryTok Γ t x ∨ (t = .assign ∧ x = "=" ∧ Assignable l))) := by
  have bin : ∀ t x ts', (BinaryTok Γ t x ∨ (t = .assign ∧ x = "=" ∧ Assignable l)) →
      ((ex ts').bind fun p => .ok (.binary x l p.1, p.2)) = R.ok (e, rest) →
      (Closes rest ∧ ∃ t' pre x' r, t :: ts' = t' :: pre ++ rest ∧ Reads Γ pre r ∧ e = .binary x' l r ∧
        (BinaryTok Γ t' x' ∨ (t' = .assign ∧ x' = "=" ∧ Assignable l))) := by
    intro t x ts' hx h
    replace h := R.bind_ok.1 h
    obtain ⟨⟨r, ts1⟩, h1, h⟩ := h
    simp only [R.ok.injEq, Prod.mk.injEq] at h
    obtain ⟨rfl, rfl⟩ := h
    obtain ⟨pre, rfl, hr, hc⟩ := hs _ _ _ h1
    exact ⟨hc, t, pre, x, r, rfl, hr, rfl, hx⟩
  match ts with
  | [] => simp only [after, R.ok.injEq, Prod.mk.injEq] at h; exact Or.inl ⟨trivial, h.1.symm, h.2.symm⟩
  | t :: ts' =>
    cases t with
    | rparen => simp only [after, R.ok.injEq, Prod.mk.injEq] at h; exact Or.inl ⟨trivial, h.1.symm, h.2.symm⟩
    | rbrack => simp only [after, R.ok.injEq, Prod.mk.injEq] at h; exact Or.inl ⟨trivial, h.1.symm, h.2.symm⟩
    | semi => simp only [after, R.ok.injEq, Prod.mk.injEq] at h; exact Or.inl ⟨trivial, h.1.symm, h.2.symm⟩
    | colon => simp only [after, R.ok.injEq, Prod.mk.injEq] at h; exact Or.inl ⟨trivial, h.1.symm, h.2.symm⟩
    | id x =>
      simp only [after] at h
      by_cases hx : Γ.binary x = true
      · rw [if_pos hx] at h; exact Or.inr (bin _ x ts' (Or.inl (Or.inr ⟨rfl, hx⟩)) h)
      · rw [if_neg hx] at h; simp at h
    | op x => exact Or.inr (bin _ x ts' (Or.inl (Or.inl rfl)) h)
    | assign =>
      simp only [after] at h
      replace h := R.bind_ok.1 h
      obtain ⟨_, ha, h⟩ := h
      exact Or.inr (bin _ "=" ts' (Or.inr ⟨rfl, rfl, (checkAssign_iff l).1 ha⟩) h)
    | _ => simp [after] at h

theorem expr_sound (n : Nat) : Sound Γ (expr (ν := ν) Γ n) := by
  induction n with
  | zero => intro ts e rest h; simp [expr] at h
  | succ n ih =>
    intro ts e rest h
    match ts, h with
    | [], h => simp [expr] at h
    | t :: ts, h =>
      simp only [expr] at h
      replace h := R.bind_ok.1 h
      obtain ⟨⟨l, ts1⟩, h1, h⟩ := h
      replace h1 := operand_sound ih h1
      obtain ⟨pre, rfl, h1⟩ := h1
      simp only at h
      rcases after_sound ih h with ⟨hc, rfl, rfl⟩ | ⟨hc, t', pre2, x, r, h2, hr, rfl, hx⟩
      · refine ⟨t :: pre, by simp, ?_, hc⟩
        rcases h1 with h1 | ⟨-, x, r, rfl, hx, hr⟩
        · exact .operand h1
        · exact .unary hx hr
      · rcases h1 with h1 | ⟨hc1, x', r', -, -, -⟩
        · subst h2
          refine ⟨(t :: pre) ++ t' :: pre2, by simp, ?_, hc⟩
          rcases hx with hx | ⟨rfl, rfl, hx⟩
          · exact .binary h1 hx hr
          · exact .assign h1 hx hr
        · exfalso
          subst h2
          rcases hx with (rfl | ⟨rfl, _⟩) | ⟨rfl, _⟩ <;> simp [Closes] at hc1

/-! ## Completeness -/

theorem continues_admits' {t : Tok ν} {us : List (Tok ν)} (hb : Begins t) (ha : Admits Γ false (t :: us)) :
    ∀ rest, continues Γ (t :: rest) = true := by
  intro rest
  cases t <;> simp_all [continues, Admits, Begins]

theorem closes_continues {ts : List (Tok ν)} (h : Closes ts) : continues Γ ts = false := by
  match ts, h with
  | [], _ => rfl
  | t :: _, h => cases t <;> simp_all [Closes, continues]

theorem begins_noBrack {t : Tok ν} {ts : List (Tok ν)} (h : Begins t) : NoBrack (t :: ts) := by
  cases t <;> simp_all [Begins, NoBrack]

theorem after_closes {ex : List (Tok ν) → P ν (Expr ν)} {e : Expr ν} {rest : List (Tok ν)} (h : Closes rest) :
    after Γ ex e rest = .ok (e, rest) := by
  match rest, h with
  | [], _ => rfl
  | t :: _, h => cases t <;> first | rfl | exact absurd h (by simp [Closes])

theorem operand_id_vec {ex : List (Tok ν) → P ν (Expr ν)} {t : Tok ν} {us ts : List (Tok ν)} (hb : Begins t)
    (ha : Admits Γ true (t :: us)) :
    operand Γ ex t ts = (numberOrVector Γ ex t ts).bind fun p => index ex p.1 p.2 := by
  cases t <;> simp_all [operand, Begins, Admits]

theorem indexLoop_expr {ex : List (Tok ν) → P ν (Expr ν)} {n : Nat} {seen : Bool} {ts rest : List (Tok ν)} {e : Expr ν}
    (h : Reads Γ ts e) : indexLoop ex (n + 1) seen (ts ++ rest) =
      (ex (ts ++ rest)).bind fun p => (indexLoop ex n true p.2).bind fun q => .ok (p.1 :: q.1, q.2) := by
  obtain ⟨t, us, rfl, ht⟩ := h.begins
  rcases ht with ht | ⟨x, rfl⟩
  · cases t <;> first | rfl | exact absurd ht (by simp [Begins])
  · rfl

mutual
theorem Reads.complete : ∀ {ts : List (Tok ν)} {e : Expr ν}, Reads Γ ts e → ∀ n, ts.length ≤ n → ∀ rest, Closes rest →
    expr Γ n (ts ++ rest) = .ok (e, rest)
  | _, _, .operand h, n, hn, rest, hc => by
    obtain ⟨t, us, rfl, hh⟩ := Operand.complete h
    match n, hn with
    | n + 1, hn =>
      simp only [List.cons_append, expr]
      rw [hh n (by simpa using hn) rest (closes_noBrack hc) (closes_continues hc)]
      exact after_closes hc
  | _, _, .unary (t := t) (x := x) (ts := ts) (e := r) hx h, n, hn, rest, hc => by
    match n, hn with
    | n + 1, hn =>
      have hr := Reads.complete h n (by simpa using hn) rest hc
      have : operand Γ (expr Γ n) t (ts ++ rest) = .ok (.unary x r, rest) := by
        have key : ((expr Γ n (ts ++ rest)).bind fun p => index (expr Γ n) (.unary x p.1) p.2) =
            .ok (.unary x r, rest) := by
          rw [hr]; exact indexOn_stop _ _ _ _ (closes_noBrack hc)
        rcases hx with rfl | ⟨rfl, hx⟩
        · exact key
        · simp only [operand]; rw [if_pos hx]; exact key
      simp only [List.cons_append, expr]
      rw [this]
      exact after_closes hc
  | _, _, .binary (t := t) (x := x) (rs := rs) (r := r) hl hx hr, n, hn, rest, hc => by
    have ihR := Reads.complete hr
    obtain ⟨t0, us, rfl, hh⟩ := Operand.complete hl
    match n, hn with
    | n + 1, hn =>
      simp only [List.cons_append, List.append_assoc, expr]
      simp only [List.cons_append, List.length_cons, List.length_append] at hn
      have hr := ihR n (by omega) rest hc
      rw [hh n (by omega) (t :: (rs ++ rest)) (by rcases hx with rfl | ⟨rfl, _⟩ <;> trivial)
        (by rcases hx with rfl | ⟨rfl, hx⟩
            · rfl
            · simp [continues, Names.op, hx])]
      simp only [R.ok_bind]
      rcases hx with rfl | ⟨rfl, hx⟩
      · simp only [after]; rw [hr]; rfl
      · simp only [after]; rw [if_pos hx, hr]; rfl
  | _, _, .assign (l := l) (rs := rs) (r := r) hl hx hr, n, hn, rest, hc => by
    have ihR := Reads.complete hr
    obtain ⟨t0, us, rfl, hh⟩ := Operand.complete hl
    match n, hn with
    | n + 1, hn =>
      simp only [List.cons_append, List.append_assoc, expr]
      simp only [List.cons_append, List.length_cons, List.length_append] at hn
      have hr := ihR n (by omega) rest hc
      rw [hh n (by omega) (.assign :: (rs ++ rest)) trivial rfl]
      simp only [R.ok_bind, after, (checkAssign_iff l).2 hx, hr]

theorem Operand.complete : ∀ {ts : List (Tok ν)} {e : Expr ν}, Operand Γ ts e → ∃ t us, ts = t :: us ∧
    ∀ n, us.length ≤ n → ∀ rest, NoBrack rest → continues Γ rest = false →
      operand Γ (expr Γ n) t (us ++ rest) = .ok (e, rest)
  | _, e, .mk (v := v) (ts := ts) (es := es) (us := us) h hb hv => by
    have ihB := Brackets.complete hb
    obtain ⟨t, ts', e1, es', rfl, rfl, hbt, ha, hh⟩ := Elements.complete h
    refine ⟨t, ts' ++ us, rfl, ?_⟩
    intro n hn rest hnb hcr
    rw [operand_id_vec hbt ha, List.append_assoc]
    have hus : (v = true → NoBrack (us ++ rest)) ∧ continues Γ (us ++ rest) = false := by
      cases hb with
      | none => exact ⟨fun _ => hnb, hcr⟩
      | more _ _ =>
        refine ⟨fun h => ?_, rfl⟩
        rcases hv with hv | hv
        · simp at hv
        · rw [hv] at h; simp at h
    simp only [List.length_append] at hn
    obtain ⟨mid, h1, h2⟩ := hh n (by omega) (us ++ rest) hus.1 hus.2
    have h3 : numberOrVector Γ (expr Γ n) t (ts' ++ (us ++ rest)) = .ok (vector (e1 :: es'), us ++ rest) := by
      simp only [numberOrVector, h1, R.ok_bind, h2 (mid.length + 1) (by omega)]
      cases es' <;> rfl
    rw [h3]
    exact ihB n (by omega) _ (by simp; omega) rest hnb

theorem Elements.complete : ∀ {a v : Bool} {ts : List (Tok ν)} {es : List (Expr ν)}, Elements Γ a v ts es →
    ∃ t us e es', ts = t :: us ∧ es = e :: es' ∧ Begins t ∧ Admits Γ a (t :: us) ∧
    ∀ n, us.length ≤ n → ∀ rest, (v = true → NoBrack rest) → continues Γ rest = false →
      ∃ mid, number (expr Γ n) t (us ++ rest) = .ok (e, mid) ∧
        ∀ k, mid.length < k → elements Γ (expr Γ n) k mid = .ok (es', rest)
  | a, v, _, _, .one (e := e) h ha => by
    obtain ⟨t, us, rfl, hbt, hh⟩ := Element.complete h
    refine ⟨t, us, e, [], rfl, rfl, hbt, ha, ?_⟩
    intro n hn rest hnb hc
    refine ⟨rest, hh n hn rest hnb, ?_⟩
    intro k hk
    match k, hk with
    | k + 1, _ => simp [elements, hc]
  | a, w, _, _, .more (v := v) (ts := ts) (e := e) (us := us) (es := es) h ha hs => by
    have ihS := Elements.complete hs
    obtain ⟨t, ts', rfl, hbt, hh⟩ := Element.complete h
    obtain ⟨t2, us', e2, es2, rfl, rfl, hbt2, ha2, hh2⟩ := ihS
    refine ⟨t, ts' ++ t2 :: us', e, e2 :: es2, rfl, rfl, hbt, by cases t <;> simp_all [Admits], ?_⟩
    intro n hn rest hnb hc
    simp only [List.length_append, List.length_cons] at hn
    refine ⟨t2 :: (us' ++ rest), ?_, ?_⟩
    · rw [List.append_assoc, List.cons_append]
      exact hh n (by omega) _ (fun _ => begins_noBrack hbt2)
    · intro k hk
      obtain ⟨mid, h1, h2⟩ := hh2 n (by omega) rest hnb hc
      match k, hk with
      | k + 1, hk =>
        have hlen : mid.length ≤ (us' ++ rest).length := by
          obtain ⟨_, pre, hp, -, -⟩ := number_sound (expr_sound (Γ := Γ) n) h1
          rw [hp]; simp
        simp only [elements, continues_admits' hbt2 ha2, if_true, h1, R.ok_bind]
        rw [h2 k (by simp only [List.length_cons] at hk; omega)]
        rfl

theorem Element.complete : ∀ {v : Bool} {ts : List (Tok ν)} {e : Expr ν}, Element Γ v ts e →
    ∃ t us, ts = t :: us ∧ Begins t ∧ ∀ n, us.length ≤ n → ∀ rest, (v = true → NoBrack rest) →
      number (expr Γ n) t (us ++ rest) = .ok (e, rest)
  | _, _, _, .num => ⟨_, [], rfl, trivial, fun _ _ _ _ => rfl⟩
  | _, _, _, .str (cs := cs) =>
    ⟨_, [], rfl, trivial, fun _ _ _ _ => by simp only [number, evalString_eq, List.nil_append]⟩
  | _, _, _, .var (ts := ts) hb => by
    refine ⟨_, ts, rfl, trivial, ?_⟩
    intro n hn rest hnb
    exact Brackets.complete hb n hn _ (by simp; omega) rest (hnb rfl)
  | _, _, _, .paren (ts := ts) hr => by
    refine ⟨.lparen, ts ++ [.rparen], rfl, trivial, ?_⟩
    intro n hn rest _
    simp only [List.length_append] at hn
    have := Reads.complete hr n (by omega) (.rparen :: rest) trivial
    simp only [number, List.append_assoc, List.singleton_append, this, R.ok_bind]

theorem Brackets.complete : ∀ {ts : List (Tok ν)} {e e' : Expr ν}, Brackets Γ ts e e' → ∀ n, ts.length ≤ n →
    ∀ k, ts.length < k → ∀ rest, NoBrack rest → indexOn (expr Γ n) k e (ts ++ rest) = .ok (e', rest)
  | _, _, _, .none, n, hn, k, hk, rest, hnb => by
    match k, hk with
    | k + 1, _ => exact indexOn_stop _ _ _ _ hnb
  | _, _, _, .more (is := is) (l := l) (ts := ts) hi hb, n, hn, k, hk, rest, hnb => by
    match k, hk with
    | k + 1, hk =>
      simp only [List.cons_append, List.length_cons, List.length_append] at hn hk
      have h1 := Indexes.complete hi n (by omega) (ts ++ rest)
      simp only [List.cons_append, List.append_assoc, indexOn, indexList]
      rw [h1 _ (by simp; omega)]
      exact Brackets.complete hb n (by omega) k (by omega) rest hnb

theorem Indexes.complete : ∀ {ts : List (Tok ν)} {l : List (Expr ν)}, Indexes Γ ts l → ∀ n, ts.length ≤ n →
    ∀ rest k, ts.length < k → indexLoop (expr Γ n) k false (ts ++ .rbrack :: rest) = .ok (l, .rbrack :: rest)
  | _, _, .lastNone, n, hn, rest, k, hk => by
    match k, hk with
    | k + 1, _ => rfl
  | _, _, .last (ts := ts) (e := e) hr, n, hn, rest, k, hk => by
    have h1 := Reads.complete hr n hn (.rbrack :: rest) trivial
    have hp := hr.length_pos
    match k, hk with
    | k + 2, hk => rw [indexLoop_expr hr, h1]; rfl
    | 1, hk => omega
  | _, _, .none (us := us) (es := es) h, n, hn, rest, k, hk => by
    match k, hk with
    | k + 1, hk =>
      simp only [List.length_cons] at hn hk
      have := Indexes.complete h n (by omega) rest k (by omega)
      simp only [List.cons_append, indexLoop]
      rw [this]; rfl
  | _, _, .more (ts := ts) (e := e) (us := us) (es := es) hr h, n, hn, rest, k, hk => by
    simp only [List.length_append, List.length_cons] at hn hk
    have hp := hr.length_pos
    match k, hk with
    | k + 2, hk =>
      have h1 := Reads.complete hr n (by omega) (.semi :: (us ++ .rbrack :: rest)) trivial
      have h2 := Indexes.complete h n (by omega) rest k (by omega)
      rw [List.append_assoc, List.cons_append, indexLoop_expr hr, h1]
      simp only [R.ok_bind, indexLoop]
      rw [h2]; rfl
    | 1, hk => omega
    | 0, hk => omega
end

end Verif.Syn
