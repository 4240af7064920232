import Verif.Syn.Lemmas3
import Verif.Exec.Lemmas4

/-!
# Syntax: operator definitions, printed and read back
-/

namespace Verif.Syn
open Verif.Arr (R)
open Verif.Exec (Expr Fn Env Sem walk walkRev walkBody Scope funcVars)
variable {ν : Type} {Γ : Names} {W : Print ν}

/-! ## Resolving variables does not change what is printed -/

theorem isCompound_walk : ∀ (e : Expr ν) (a : Bool) (s : Scope), isCompound (walk e a s).1 = isCompound e
  | .lit _, _, _ => rfl
  | .hole, _, _ => rfl
  | .var _ _, _, _ => rfl
  | .unary _ _, _, _ => rfl
  | .binary _ _ _, _, _ => rfl
  | .cond _ _, _, _ => rfl
  | .vec _, _, _ => rfl
  | .index l is, a, s => by
    simp only [walk, isCompound]
    exact isCompound_walk l _ _

theorem allChars_walkRev : ∀ (es : List (Expr ν)) (a : Bool) (s : Scope),
    allChars W (walkRev es a s).1 = allChars W es
  | [], _, _ => rfl
  | e :: es, a, s => by
    have ih := allChars_walkRev es a s
    cases e <;> simp_all [walkRev, walk, allChars]

mutual
theorem print_walk : ∀ (e : Expr ν) (a : Bool) (s : Scope), print W (walk e a s).1 = print W e
  | .lit _, _, _ => rfl
  | .hole, _, _ => rfl
  | .var _ _, _, _ => rfl
  | .unary x r, a, s => by simp only [walk, print]; rw [print_walk r]
  | .binary x l r, a, s => by simp only [walk, print]; rw [print_walk r, print_walk l, isCompound_walk]
  | .cond l r, a, s => by simp only [walk, print]; rw [print_walk r, print_walk l, isCompound_walk]
  | .vec es, a, s => by simp only [walk, print]; rw [allChars_walkRev, printAll_walk es]
  | .index l is, a, s => by simp only [walk, print]; rw [print_walk l, printIndex_walk is, isCompound_walk]

theorem printAll_walk : ∀ (es : List (Expr ν)) (a : Bool) (s : Scope), printAll W (walkRev es a s).1 = printAll W es
  | [], _, _ => rfl
  | e :: es, a, s => by
    simp only [walkRev, printAll]; rw [print_walk e, printAll_walk es, isCompound_walk]

theorem printIndex_walk : ∀ (es : List (Expr ν)) (a : Bool) (s : Scope),
    printIndex W (walkRev es a s).1 = printIndex W es
  | [], _, _ => rfl
  | [e], a, s => by simp only [walkRev, printIndex]; exact print_walk e _ _
  | e :: f :: es, a, s => by
    have ih := printIndex_walk (f :: es) a s
    simp only [walkRev, printIndex] at ih ⊢
    rw [print_walk e, ih]
end

theorem printLines_walk : ∀ (es : List (Expr ν)) (s : Scope), printLines W (walkBody es s).1 = printLines W es
  | [], _ => rfl
  | e :: es, s => by simp only [walkBody, printLines]; rw [print_walk e, printLines_walk es]

mutual
theorem printArg_walk : ∀ (e : Expr ν) (a : Bool) (s : Scope), printArg (walk e a s).1 = printArg e
  | .lit _, _, _ => rfl
  | .hole, _, _ => rfl
  | .var _ _, _, _ => rfl
  | .unary x r, a, s => rfl
  | .binary x l r, a, s => rfl
  | .cond l r, a, s => rfl
  | .vec es, a, s => by simp only [walk, printArg]; rw [printArgs_walk es]
  | .index l is, a, s => rfl

theorem printArgs_walk : ∀ (es : List (Expr ν)) (a : Bool) (s : Scope), printArgs (walkRev es a s).1 = printArgs es
  | [], _, _ => rfl
  | e :: es, a, s => by simp only [walkRev, printArgs]; rw [printArg_walk e, printArgs_walk es]
end

theorem printBody_walk (hd : List (Tok ν)) (b : Option (List (Expr ν))) (s : Scope) :
    printBody W hd (Exec.walkBodyOpt b s).1 = printBody W hd b := by
  match b with
  | none => rfl
  | some [] => rfl
  | some [e] => simp only [Exec.walkBodyOpt, walkBody, printBody]; rw [print_walk e]
  | some (e :: e2 :: es) =>
    have := printLines_walk (W := W) (e :: e2 :: es) s
    simp only [walkBody] at this
    simp only [Exec.walkBodyOpt, walkBody, printBody]
    rw [this]

/-- Printing a function does not depend on how its variables were resolved. -/
theorem printFn_funcVars (f : Fn ν) : printFn W (funcVars f) = printFn W f := by
  have hl : (printLeft (funcVars f).left : R (List (Tok ν))) = printLeft f.left := by
    simp only [funcVars]
    cases f.left with
    | none => rfl
    | some l => simp only [Exec.walkOpt, printLeft]; exact printArg_walk l _ _
  have hr : (printArg (funcVars f).right : R (List (Tok ν))) = printArg f.right := printArg_walk f.right _ _
  have hn : (funcVars f).name = f.name := rfl
  have hb : ∀ hd : List (Tok ν), printBody W hd (funcVars f).body = printBody W hd f.body :=
    fun hd => printBody_walk hd f.body _
  unfold printFn
  rw [hl, hr, hn]
  simp only [hb]

/-! ## Parameters -/

mutual
/-- A parameter: a name, or a list of parameters in parentheses. -/
def Arg : Expr ν → Prop
  | .var _ n => n = 0
  | .vec es => Args es
  | _ => False

/-- A list of them. -/
def Args : List (Expr ν) → Prop
  | [] => True
  | e :: es => Arg e ∧ Args es
end

theorem funcArg_arg (n : Nat) : (∀ (ts : List (Tok ν)) p, funcArg n ts = .ok p → Arg p.1) ∧
    (∀ (ts : List (Tok ν)) p, funcArgs n ts = .ok p → Args p.1) := by
  induction n with
  | zero => exact ⟨by intro ts p h; simp [funcArg] at h, by intro ts p h; simp [funcArgs] at h⟩
  | succ n ih =>
    constructor
    · intro ts p h
      match ts with
      | [] => simp [funcArg] at h
      | t :: ts =>
        cases t with
        | id x => simp only [funcArg, R.ok.injEq] at h; subst h; rfl
        | lparen =>
          simp only [funcArg] at h
          obtain ⟨q, h1, h2⟩ := R.bind_ok.1 h
          simp only [R.ok.injEq] at h2; subst h2
          exact ih.2 _ _ h1
        | _ => simp [funcArg] at h
    · intro ts p h
      have dflt : ((funcArg n ts).bind fun p => (funcArgs n p.2).bind fun q => .ok (p.1 :: q.1, q.2)) = .ok p →
          Args p.1 := by
        intro h
        obtain ⟨q, h1, h2⟩ := R.bind_ok.1 h
        obtain ⟨r, h3, h4⟩ := R.bind_ok.1 h2
        simp only [R.ok.injEq] at h4; subst h4
        exact ⟨ih.1 _ _ h1, ih.2 _ _ h3⟩
      match ts with
      | [] => exact dflt h
      | t :: ts =>
        cases t with
        | rparen => simp only [funcArgs, R.ok.injEq] at h; subst h; trivial
        | _ => exact dflt h

theorem funcArgs_step {n : Nat} {t : Tok ν} {ts : List (Tok ν)} (h : t ≠ .rparen) : funcArgs (n + 1) (t :: ts) =
    (funcArg n (t :: ts)).bind fun p => (funcArgs n p.2).bind fun q => .ok (p.1 :: q.1, q.2) := by
  cases t <;> first | rfl | exact absurd rfl h

mutual
theorem printArg_reads : ∀ e : Expr ν, Arg e → ∃ t us, printArg e = .ok (t :: us) ∧ (t = .lparen ∨ ∃ x, t = .id x) ∧
    ∀ n rest, 2 * us.length < n → funcArg n (t :: us ++ rest) = .ok (e, rest)
  | .var x n, h => by
    simp only [Arg] at h
    subst h
    refine ⟨.id x, [], rfl, Or.inr ⟨x, rfl⟩, ?_⟩
    intro n rest hn
    match n, hn with
    | n + 1, _ => rfl
  | .vec es, h => by
    obtain ⟨us, h1, h2⟩ := printArgs_reads es h
    refine ⟨.lparen, us ++ [.rparen], by simp [printArg, h1], Or.inl rfl, ?_⟩
    intro n rest hn
    simp only [List.length_append, List.length_singleton] at hn
    match n, hn with
    | n + 1, hn =>
      have := h2 n rest (by omega)
      simp only [List.cons_append, List.append_assoc, List.nil_append, funcArg]
      rw [this]; rfl
  | .lit _, h => absurd h (by simp [Arg])
  | .hole, h => absurd h (by simp [Arg])
  | .unary _ _, h => absurd h (by simp [Arg])
  | .binary _ _ _, h => absurd h (by simp [Arg])
  | .cond _ _, h => absurd h (by simp [Arg])
  | .index _ _, h => absurd h (by simp [Arg])

theorem printArgs_reads : ∀ es : List (Expr ν), Args es → ∃ us, printArgs es = .ok us ∧
    ∀ n rest, 2 * us.length < n → funcArgs n (us ++ .rparen :: rest) = .ok (es, rest)
  | [], _ => by
    refine ⟨[], rfl, ?_⟩
    intro n rest hn
    match n, hn with
    | n + 1, _ => rfl
  | e :: es, h => by
    obtain ⟨t, us, h1, ht, h2⟩ := printArg_reads e h.1
    obtain ⟨vs, h3, h4⟩ := printArgs_reads es h.2
    refine ⟨t :: us ++ vs, by simp [printArgs, h1, h3], ?_⟩
    intro n rest hn
    simp only [List.length_append, List.length_cons] at hn
    match n, hn with
    | n + 1, hn =>
      have a := h2 n (vs ++ .rparen :: rest) (by omega)
      have b := h4 n rest (by omega)
      rw [List.append_assoc, List.cons_append, funcArgs_step (by rcases ht with rfl | ⟨x, rfl⟩ <;> simp)]
      rw [List.cons_append] at a
      rw [a]
      simp only [R.ok_bind]
      rw [b]; rfl
end

theorem parseArg_print {e : Expr ν} (h : Arg e) : ∃ t us, printArg e = .ok (t :: us) ∧
    (t = .lparen ∨ ∃ x, t = .id x) ∧ ∀ rest, parseArg (t :: us ++ rest) = .ok (e, rest) := by
  obtain ⟨t, us, h1, ht, h2⟩ := printArg_reads e h
  refine ⟨t, us, h1, ht, fun rest => ?_⟩
  exact h2 _ rest (by simp; omega)

theorem parseArg_arg {ts : List (Tok ν)} {p : Expr ν × List (Tok ν)} (h : parseArg ts = .ok p) : Arg p.1 :=
  (funcArg_arg _).1 _ _ h

/-- A header as `header` makes it. -/
def Header (f : Fn ν) : Prop :=
  f.body = none ∧ f.locals = [] ∧ Arg f.right ∧
    ((f.isBinary = true ∧ ∃ l, f.left = some l ∧ Arg l) ∨ (f.isBinary = false ∧ f.left = none))

theorem header_ok {ts : List (Tok ν)} {p : Fn ν × List (Tok ν)} (h : header ts = .ok p) : Header p.1 := by
  simp only [header] at h
  obtain ⟨a, h1, h⟩ := R.bind_ok.1 h
  obtain ⟨b, h2, h⟩ := R.bind_ok.1 h
  have three : ((parseArg b.2).bind fun r => (match b.1 with
      | .var x _ => R.ok (⟨true, x, some a.1, r.1, none, []⟩, r.2)
      | _ => R.err "invalid function name" : P ν (Fn ν))) = R.ok p → Header p.1 := by
    intro h
    obtain ⟨c, h3, h⟩ := R.bind_ok.1 h
    split at h
    · simp only [R.ok.injEq] at h
      subst h
      exact ⟨rfl, rfl, parseArg_arg h3, Or.inl ⟨rfl, a.1, rfl, parseArg_arg h1⟩⟩
    · simp at h
  split at h
  · exact three h
  · exact three h
  · split at h
    · simp only [R.ok.injEq] at h
      subst h
      exact ⟨rfl, rfl, parseArg_arg h2, Or.inr ⟨rfl, rfl⟩⟩
    · simp at h

/-- The header printed for `f` reads back as `f` without its body. -/
theorem header_print {f : Fn ν} (h : Header f) : ∃ l r,
    printLeft f.left = R.ok l ∧ printArg f.right = .ok r ∧
      ∀ rest, header (l ++ .id f.name :: r ++ .assign :: rest) = .ok (f, .assign :: rest) := by
  obtain ⟨hb, hlo, hr, h⟩ := h
  obtain ⟨tr, ur, hr1, hr2, hr3⟩ := parseArg_print hr
  have hname : ∀ rest : List (Tok ν), parseArg (.id f.name :: rest) = .ok (.var f.name 0, rest) := fun rest => rfl
  rcases h with ⟨hbin, l, hl, hla⟩ | ⟨hbin, hl⟩
  · obtain ⟨tl, ul, hl1, hl2, hl3⟩ := parseArg_print hla
    refine ⟨tl :: ul, tr :: ur, by rw [hl]; exact hl1, hr1, ?_⟩
    intro rest
    have e1 : (tl :: ul) ++ Tok.id f.name :: (tr :: ur) ++ Tok.assign :: rest =
        tl :: ul ++ (Tok.id f.name :: (tr :: ur ++ Tok.assign :: rest)) := by simp
    have e2 : f = ⟨true, f.name, some l, f.right, none, []⟩ := by
      cases f; simp_all
    rw [e1]
    simp only [header]
    rw [hl3]
    simp only [R.ok_bind]
    rw [hname]
    simp only [R.ok_bind]
    have key : ((parseArg (tr :: ur ++ Tok.assign :: rest)).bind fun r =>
        (R.ok (⟨true, f.name, some l, r.1, none, []⟩, r.2) : P ν (Fn ν))) = .ok (f, .assign :: rest) := by
      rw [hr3]
      simp only [R.ok_bind]
      rw [← e2]
    rcases hr2 with rfl | ⟨x, rfl⟩
    · exact key
    · exact key
  · refine ⟨[], tr :: ur, by rw [hl]; rfl, hr1, ?_⟩
    intro rest
    have e2 : f = ⟨false, f.name, none, f.right, none, []⟩ := by
      cases f; simp_all
    simp only [header, List.nil_append, List.cons_append]
    rw [hname]
    simp only [R.ok_bind]
    have := hr3 (.assign :: rest)
    simp only [List.cons_append] at this
    rw [this]
    simp only [R.ok_bind]
    rw [← e2]

end Verif.Syn
