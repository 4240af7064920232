import Verif.Syn.Lemmas

/-!
# Syntax: reading always ends, and lines
-/

namespace Verif.Syn
open Verif.Arr (R)
open Verif.Exec (Expr Fn Env Sem)
variable {ν : Type} {Γ : Names}

/-- A value or an Ivy error. -/
def Fine {α : Type} (r : R α) : Prop := r ≠ .hang ∧ r ≠ .crash

theorem Fine.ok {α : Type} (a : α) : Fine (R.ok a) := ⟨by simp, by simp⟩
theorem Fine.err {α : Type} (m : String) : Fine (R.err m : R α) := ⟨by simp, by simp⟩

theorem Fine.bind {α β : Type} {r : R α} {f : α → R β} (h : Fine r) (hf : ∀ a, r = .ok a → Fine (f a)) :
    Fine (r.bind f) := by
  cases r with
  | ok a => exact hf a rfl
  | err m => exact Fine.err m
  | crash => exact absurd rfl h.2
  | hang => exact absurd rfl h.1

/-- `ex` ends on fewer than `L` tokens. -/
def Ends (L : Nat) (ex : List (Tok ν) → P ν (Expr ν)) : Prop := ∀ ts, ts.length < L → Fine (ex ts)

theorem Sound.shorter {ex : List (Tok ν) → P ν (Expr ν)} (hs : Sound Γ ex) {ts : List (Tok ν)} {p : Expr ν × List (Tok ν)}
    (h : ex ts = .ok p) : p.2.length < ts.length := by
  obtain ⟨pre, rfl, hr, -⟩ := hs ts p.1 p.2 h
  have := hr.length_pos
  simp; omega

theorem indexLoop_fine {ex : List (Tok ν) → P ν (Expr ν)} (hs : Sound Γ ex) {L : Nat} (hf : Ends L ex) :
    ∀ (k : Nat) (seen : Bool) (ts : List (Tok ν)), ts.length < k → ts.length < L → Fine (indexLoop ex k seen ts) := by
  intro k
  induction k with
  | zero => intro seen ts h; omega
  | succ k ih =>
    intro seen ts hk hL
    have dflt : Fine ((ex ts).bind (fun p => (indexLoop ex k true p.2).bind fun q => .ok (p.1 :: q.1, q.2))) := by
      refine (hf ts hL).bind fun p hp => ?_
      have := hs.shorter hp
      exact (ih true p.2 (by omega) (by omega)).bind fun q _ => Fine.ok _
    match ts with
    | [] => exact dflt
    | t :: ts =>
      simp only [List.length_cons] at hk hL
      cases t with
      | rbrack => exact Fine.ok _
      | semi => exact (ih false ts (by omega) (by omega)).bind fun q _ => Fine.ok _
      | _ => exact dflt

theorem indexLoop_shorter {ex : List (Tok ν) → P ν (Expr ν)} (hs : Sound Γ ex) {k : Nat} {ts : List (Tok ν)}
    {p : List (Expr ν) × List (Tok ν)} (h : indexLoop ex k false ts = .ok p) :
    p.2.length ≤ ts.length ∧ ∃ r, p.2 = .rbrack :: r := by
  obtain ⟨h1, h2⟩ := indexLoop_sound hs k false ts p.1 p.2 (by simp) h
  simp only [Bool.false_eq_true, if_false] at h2
  obtain ⟨pre, rfl, -⟩ := h2
  exact ⟨by simp, h1⟩

theorem indexOn_fine {ex : List (Tok ν) → P ν (Expr ν)} (hs : Sound Γ ex) {L : Nat} (hf : Ends L ex) :
    ∀ (k : Nat) (e : Expr ν) (ts : List (Tok ν)), ts.length < k → ts.length ≤ L → Fine (indexOn ex k e ts) := by
  intro k
  induction k with
  | zero => intro e ts h; omega
  | succ k ih =>
    intro e ts hk hL
    match ts with
    | [] => exact Fine.ok _
    | t :: ts =>
      simp only [List.length_cons] at hk hL
      cases t with
      | lbrack =>
        refine (indexLoop_fine hs hf (ts.length + 1) false ts (by omega) (by omega)).bind fun p hp => ?_
        obtain ⟨h1, r, h2⟩ := indexLoop_shorter hs hp
        rw [h2] at h1 ⊢
        simp only [List.length_cons] at h1
        exact ih _ r (by omega) (by omega)
      | _ => exact Fine.ok _

theorem number_fine {ex : List (Tok ν) → P ν (Expr ν)} (hs : Sound Γ ex) {L : Nat} (hf : Ends L ex) {t : Tok ν}
    (hb : Begins t) {ts : List (Tok ν)} (hL : ts.length < L) : Fine (number ex t ts) := by
  cases t with
  | id x => exact indexOn_fine hs hf _ _ _ (by omega) (by omega)
  | str cs => cases cs <;> first | exact Fine.ok _ | exact Fine.err _
  | num cs => cases cs <;> first | exact Fine.ok _ | exact Fine.err _
  | lparen =>
    refine (hf ts hL).bind fun p _ => ?_
    split <;> first | exact Fine.ok _ | exact Fine.err _
  | _ => exact absurd hb (by simp [Begins])

theorem number_shorter {ex : List (Tok ν) → P ν (Expr ν)} (hs : Sound Γ ex) {t : Tok ν} {ts : List (Tok ν)}
    {p : Expr ν × List (Tok ν)} (h : number ex t ts = .ok p) : p.2.length ≤ ts.length := by
  obtain ⟨v, pre, rfl, -, -⟩ := number_sound hs (e := p.1) (rest := p.2) h
  simp

theorem elements_fine {ex : List (Tok ν) → P ν (Expr ν)} (hs : Sound Γ ex) {L : Nat} (hf : Ends L ex) :
    ∀ (k : Nat) (ts : List (Tok ν)), ts.length < k → ts.length ≤ L → Fine (elements Γ ex k ts) := by
  intro k
  induction k with
  | zero => intro ts h; omega
  | succ k ih =>
    intro ts hk hL
    simp only [elements]
    by_cases hc : continues Γ ts = true
    · rw [if_pos hc]
      match ts, hc with
      | [], hc => simp [continues] at hc
      | t :: ts, hc =>
        simp only [List.length_cons] at hk hL
        have hb : Begins t := by cases t <;> simp_all [continues, Begins]
        refine (number_fine hs hf hb (by omega)).bind fun p hp => ?_
        have := number_shorter hs hp
        exact (ih p.2 (by omega) (by omega)).bind fun q _ => Fine.ok _
    · rw [if_neg hc]; exact Fine.ok _

theorem elements_shorter {ex : List (Tok ν) → P ν (Expr ν)} (hs : Sound Γ ex) {k : Nat} {ts : List (Tok ν)}
    {p : List (Expr ν) × List (Tok ν)} (h : elements Γ ex k ts = .ok p) : p.2.length ≤ ts.length := by
  obtain ⟨-, h⟩ := elements_sound hs k ts p.1 p.2 h
  rcases h with ⟨-, rfl⟩ | ⟨v, pre, rfl, -, -⟩ <;> simp

theorem numberOrVector_fine {ex : List (Tok ν) → P ν (Expr ν)} (hs : Sound Γ ex) {L : Nat} (hf : Ends L ex) {t : Tok ν}
    (hb : Begins t) {ts : List (Tok ν)} (hL : ts.length < L) :
    Fine ((numberOrVector Γ ex t ts).bind fun p => index ex p.1 p.2) := by
  refine Fine.bind ?_ fun p hp => ?_
  · refine (number_fine hs hf hb hL).bind fun p hp => ?_
    have := number_shorter hs hp
    exact (elements_fine hs hf _ _ (by omega) (by omega)).bind fun q _ => Fine.ok _
  · simp only [numberOrVector] at hp
    replace hp := R.bind_ok.1 hp
    obtain ⟨a, h1, hp⟩ := hp
    replace hp := R.bind_ok.1 hp
    obtain ⟨b, h2, hp⟩ := hp
    simp only [R.ok.injEq] at hp
    subst hp
    have := number_shorter hs h1
    have := elements_shorter hs h2
    exact indexOn_fine hs hf _ _ _ (by omega) (by dsimp only; omega)

theorem operand_fine {ex : List (Tok ν) → P ν (Expr ν)} (hs : Sound Γ ex) {L : Nat} (hf : Ends L ex) (t : Tok ν)
    {ts : List (Tok ν)} (hL : ts.length < L) : Fine (operand Γ ex t ts) := by
  have un : ∀ x, Fine ((ex ts).bind fun p => index ex (.unary x p.1) p.2) := by
    intro x
    refine (hf ts hL).bind fun p hp => ?_
    have := hs.shorter hp
    exact indexOn_fine hs hf _ _ _ (by omega) (by omega)
  have vec : Begins t → Fine ((numberOrVector Γ ex t ts).bind fun p => index ex p.1 p.2) :=
    fun hb => numberOrVector_fine hs hf hb hL
  cases t with
  | op x => exact un x
  | id x =>
    simp only [operand]
    split
    · exact un x
    · exact vec trivial
  | num v => exact vec trivial
  | str v => exact vec trivial
  | lparen => exact vec trivial
  | _ => exact Fine.err _

theorem checkAssign_fine : ∀ e : Expr ν, Fine (checkAssign e) := by
  apply Expr.rec (motive_1 := fun e => Fine (checkAssign e)) (motive_2 := fun es => Fine (checkAssigns es))
  · intro v; exact Fine.err _
  · intro x n; exact Fine.ok _
  · intro x r _; exact Fine.err _
  · intro x l r _ _; exact Fine.err _
  · intro l r _ _; exact Fine.err _
  · intro l ih; exact ih
  · intro l is _ _
    cases l <;> first | exact Fine.ok _ | exact Fine.err _
  · exact Fine.err _
  · exact Fine.ok _
  · intro e es h1 h2
    exact h1.bind fun _ _ => h2

theorem after_fine {ex : List (Tok ν) → P ν (Expr ν)} {L : Nat} (hf : Ends L ex) (e : Expr ν)
    {ts : List (Tok ν)} (hL : ts.length ≤ L) : Fine (after Γ ex e ts) := by
  have bin : ∀ x ts', ts'.length < L → Fine ((ex ts').bind fun p => .ok (Expr.binary x e p.1, p.2)) :=
    fun x ts' h => (hf ts' h).bind fun p _ => Fine.ok _
  match ts, hL with
  | [], _ => exact Fine.ok _
  | t :: ts, hL =>
    simp only [List.length_cons] at hL
    cases t with
    | id x =>
      simp only [after]
      split
      · exact bin x ts (by omega)
      · exact Fine.err _
    | op x => exact bin x ts (by omega)
    | assign => exact (checkAssign_fine e).bind fun _ _ => bin "=" ts (by omega)
    | _ => first | exact Fine.ok _ | exact Fine.err _

theorem operand_shorter {ex : List (Tok ν) → P ν (Expr ν)} (hs : Sound Γ ex) {t : Tok ν} {ts : List (Tok ν)}
    {p : Expr ν × List (Tok ν)} (h : operand Γ ex t ts = .ok p) : p.2.length ≤ ts.length := by
  obtain ⟨pre, rfl, -⟩ := operand_sound hs (e := p.1) (rest := p.2) h
  simp

theorem expr_fine : ∀ (n : Nat), Ends n (expr (ν := ν) Γ n) := by
  intro n
  induction n with
  | zero => intro ts h; omega
  | succ n ih =>
    intro ts hn
    match ts, hn with
    | [], _ => exact Fine.err _
    | t :: ts, hn =>
      simp only [List.length_cons] at hn
      refine (operand_fine (expr_sound n) ih t (by omega)).bind fun p hp => ?_
      have := operand_shorter (expr_sound n) hp
      exact after_fine ih p.1 (by omega)

theorem parseExpr_fine (ts : List (Tok ν)) : Fine (parseExpr Γ ts) := expr_fine _ ts (by omega)

theorem parseExpr_sound {ts : List (Tok ν)} {e : Expr ν} {rest : List (Tok ν)} (h : parseExpr Γ ts = .ok (e, rest)) :
    ∃ pre, ts = pre ++ rest ∧ Reads Γ pre e ∧ Closes rest := expr_sound _ _ _ _ h

theorem parseExpr_complete {ts : List (Tok ν)} {e : Expr ν} (h : Reads Γ ts e) {rest : List (Tok ν)} (hc : Closes rest) :
    parseExpr Γ (ts ++ rest) = .ok (e, rest) := h.complete _ (by simp; omega) rest hc

/-! ## Statements and lines -/

theorem statement_sound {ts : List (Tok ν)} {e : Expr ν} {rest : List (Tok ν)} (h : statement Γ ts = .ok (e, rest)) :
    ∃ pre, ts = pre ++ rest ∧ Statement Γ pre e := by
  simp only [statement] at h
  replace h := R.bind_ok.1 h
  obtain ⟨⟨e1, ts1⟩, h1, h⟩ := h
  obtain ⟨pre, rfl, hr, hc⟩ := parseExpr_sound h1
  by_cases hcol : ∃ ts', ts1 = .colon :: ts'
  · obtain ⟨ts', rfl⟩ := hcol
    simp only at h
    replace h := R.bind_ok.1 h
    obtain ⟨⟨e2, ts2⟩, h2, h⟩ := h
    simp only [R.ok.injEq, Prod.mk.injEq] at h
    obtain ⟨rfl, rfl⟩ := h
    obtain ⟨pre2, rfl, hr2, -⟩ := parseExpr_sound h2
    exact ⟨pre ++ .colon :: pre2, by simp, .cond hr hr2⟩
  · have : R.ok (e1, ts1) = R.ok (e, rest) := by
      rw [← h]
      match ts1 with
      | [] => rfl
      | t :: ts1 => cases t <;> first | rfl | exact absurd ⟨_, rfl⟩ hcol
    simp only [R.ok.injEq, Prod.mk.injEq] at this
    obtain ⟨rfl, rfl⟩ := this
    exact ⟨pre, rfl, .expr hr⟩

theorem statement_complete {ts : List (Tok ν)} {e : Expr ν} (h : Statement Γ ts e) {rest : List (Tok ν)}
    (hrest : rest = [] ∨ ∃ r, rest = .semi :: r) : statement Γ (ts ++ rest) = .ok (e, rest) := by
  have hc : Closes rest := by rcases hrest with rfl | ⟨r, rfl⟩ <;> trivial
  cases h with
  | expr h =>
    simp only [statement, parseExpr_complete h hc, R.ok_bind]
    rcases hrest with rfl | ⟨r, rfl⟩ <;> rfl
  | cond h1 h2 =>
    rw [List.append_assoc, List.cons_append]
    simp only [statement]
    rw [parseExpr_complete h1 (by trivial)]
    simp only [R.ok_bind, parseExpr_complete h2 hc]

theorem Statement.length_pos {ts : List (Tok ν)} {e : Expr ν} (h : Statement Γ ts e) : 0 < ts.length := by
  cases h with
  | expr h => exact h.length_pos
  | cond h _ => have := h.length_pos; simp; omega

theorem statementList_sound : ∀ (n : Nat) (ts : List (Tok ν)) (es : List (Expr ν)) (rest : List (Tok ν)),
    statementList Γ n ts = .ok (es, rest) → ∃ pre, ts = pre ++ rest ∧ Line Γ pre es := by
  intro n
  induction n with
  | zero => intro ts es rest h; simp [statementList] at h
  | succ n ih =>
    intro ts es rest h
    simp only [statementList] at h
    replace h := R.bind_ok.1 h
    obtain ⟨⟨e1, ts1⟩, h1, h⟩ := h
    obtain ⟨pre, rfl, hs⟩ := statement_sound h1
    by_cases hsem : ∃ ts', ts1 = .semi :: ts'
    · obtain ⟨ts', rfl⟩ := hsem
      simp only at h
      replace h := R.bind_ok.1 h
      obtain ⟨⟨e2, ts2⟩, h2, h⟩ := h
      simp only [R.ok.injEq, Prod.mk.injEq] at h
      obtain ⟨rfl, rfl⟩ := h
      obtain ⟨pre2, rfl, hr2⟩ := ih _ _ _ h2
      exact ⟨pre ++ .semi :: pre2, by simp, .more hs hr2⟩
    · have : R.ok ([e1], ts1) = R.ok (es, rest) := by
        rw [← h]
        match ts1 with
        | [] => rfl
        | t :: ts1 => cases t <;> first | rfl | exact absurd ⟨_, rfl⟩ hsem
      simp only [R.ok.injEq, Prod.mk.injEq] at this
      obtain ⟨rfl, rfl⟩ := this
      exact ⟨pre, rfl, .last hs⟩

theorem statementList_complete {ts : List (Tok ν)} {es : List (Expr ν)} (h : Line Γ ts es) :
    ∀ n, ts.length < n → statementList Γ n ts = .ok (es, []) := by
  induction h with
  | last h =>
    intro n hn
    match n, hn with
    | n + 1, _ =>
      have := statement_complete h (Or.inl rfl)
      rw [List.append_nil] at this
      simp only [statementList, this, R.ok_bind]
  | @more ts e us es h _ ih =>
    intro n hn
    simp only [List.length_append, List.length_cons] at hn
    match n, hn with
    | n + 1, hn =>
      have h1 := statement_complete h (rest := .semi :: us) (Or.inr ⟨_, rfl⟩)
      simp only [statementList, h1, R.ok_bind, ih n (by omega)]

theorem parseLine_iff {ts : List (Tok ν)} {es : List (Expr ν)} : parseLine Γ ts = .ok es ↔ Line Γ ts es := by
  constructor
  · intro h
    simp only [parseLine] at h
    replace h := R.bind_ok.1 h
    obtain ⟨⟨e1, ts1⟩, h1, h⟩ := h
    obtain ⟨pre, rfl, hs⟩ := statementList_sound _ _ _ _ h1
    match ts1 with
    | [] =>
      simp only [R.ok.injEq] at h
      subst h
      simpa using hs
    | _ :: _ => simp at h
  · intro h
    simp only [parseLine, statementList_complete h _ (Nat.lt_succ_self _), R.ok_bind]

theorem statement_fine (ts : List (Tok ν)) : Fine (statement Γ ts) := by
  refine (parseExpr_fine ts).bind fun p _ => ?_
  split
  · exact (parseExpr_fine _).bind fun _ _ => Fine.ok _
  · exact Fine.ok _

theorem statementList_fine : ∀ (n : Nat) (ts : List (Tok ν)), ts.length < n → Fine (statementList Γ n ts) := by
  intro n
  induction n with
  | zero => intro ts h; omega
  | succ n ih =>
    intro ts hn
    refine (statement_fine ts).bind fun p hp => ?_
    split
    · rename_i ts' heq
      obtain ⟨pre, h1, h2⟩ := statement_sound (e := p.1) (rest := p.2) hp
      have := h2.length_pos
      rw [h1, heq] at hn
      simp only [List.length_append, List.length_cons] at hn
      exact (ih ts' (by omega)).bind fun _ _ => Fine.ok _
    · exact Fine.ok _

theorem parseLine_fine (ts : List (Tok ν)) : Fine (parseLine Γ ts) := by
  refine (statementList_fine _ ts (Nat.lt_succ_self _)).bind fun p _ => ?_
  split
  · exact Fine.ok _
  · exact Fine.err _

end Verif.Syn
