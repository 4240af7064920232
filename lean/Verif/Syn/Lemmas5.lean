import Verif.Syn.Lemmas4
import Verif.Syn.Lemmas2

/-!
# Syntax: operator definitions, printed and read back (continued)
-/

namespace Verif.Syn
open Verif.Arr (R)
open Verif.Exec (Expr Fn Env Sem walk walkRev walkBody Scope funcVars params declareAll definition noVar)
variable {ν : Type} {Γ : Names} {W : Print ν}

/-! ## Statements and bodies -/

theorem statement_print {ts : List (Tok ν)} {e : Expr ν} (h : Statement Γ ts e) (hs : ∀ t ∈ ts, W.Scanned t)
    (ht : Tidy W Γ e) : ∃ us, print W e = .ok us ∧ us ≠ [] ∧ Statement Γ us e := by
  have pos : ∀ {us : List (Tok ν)} {e : Expr ν}, Reads Γ us e → us ≠ [] := by
    intro us e h; have := h.length_pos; intro hn; subst hn; simp at this
  cases h with
  | expr h =>
    obtain ⟨us, h1, h2, -⟩ := print_reads e (h.shape hs) ht
    exact ⟨us, h1, pos h2, .expr h2⟩
  | @cond ts e us f h1 h2 =>
    simp only [Tidy] at ht
    obtain ⟨vs, p1, p2⟩ := (print_reads e (h1.shape (fun t ht => hs t (by simp [ht]))) ht.1).operand
    obtain ⟨ws, q1, q2, -⟩ := print_reads f (h2.shape (fun t ht => hs t (by simp [ht]))) ht.2
    exact ⟨_, by simp [print, p1, q1], by simp, .cond (.operand p2) q2⟩

/-- What is known of a statement that was read. -/
def Said (W : Print ν) (Γ : Names) (e : Expr ν) : Prop := ∃ ts, Statement Γ ts e ∧ ∀ t ∈ ts, W.Scanned t

theorem Line.said {ts : List (Tok ν)} {es : List (Expr ν)} (h : Line Γ ts es) (hs : ∀ t ∈ ts, W.Scanned t) :
    ∀ e ∈ es, Said W Γ e := by
  induction h with
  | last h => intro e he; simp only [List.mem_singleton] at he; subst he; exact ⟨_, h, hs⟩
  | more h _ ih =>
    intro e he
    simp only [List.mem_cons] at he
    rcases he with rfl | he
    · exact ⟨_, h, fun t ht => hs t (by simp [ht])⟩
    · exact ih (fun t ht => hs t (by simp [ht])) e he

theorem bodyLines_said : ∀ (ls : List (List (Tok ν))) (es : List (Expr ν)), bodyLines Γ ls = .ok es →
    (∀ l ∈ ls, ∀ t ∈ l, W.Scanned t) → ∀ e ∈ es, Said W Γ e
  | [], es, h, _ => by simp only [bodyLines, R.ok.injEq] at h; subst h; intro e he; simp at he
  | l :: ls, es, h, hs => by
    simp only [bodyLines] at h
    obtain ⟨a, h1, h2⟩ := R.bind_ok.1 h
    obtain ⟨b, h3, h4⟩ := R.bind_ok.1 h2
    simp only [R.ok.injEq] at h4
    subst h4
    intro e he
    rw [List.mem_append] at he
    rcases he with he | he
    · exact (parseLine_iff.1 h1).said (hs l (by simp)) e he
    · exact bodyLines_said ls b h3 (fun l hl => hs l (by simp [hl])) e he

theorem bodyOf_said {ts : List (Tok ν)} {more : List (List (Tok ν))} {es : List (Expr ν)}
    (h : bodyOf Γ ts more = .ok (some es)) (hs : ∀ t ∈ ts, W.Scanned t) (hm : ∀ l ∈ more, ∀ t ∈ l, W.Scanned t) :
    es ≠ [] ∧ ∀ e ∈ es, Said W Γ e := by
  simp only [bodyOf] at h
  have key : ∀ r : R (List (Expr ν)),
      (r.bind fun es => if es.isEmpty then R.err "missing function body" else R.ok (some es)) = R.ok (some es) →
      r = .ok es ∧ es ≠ [] := by
    intro r hr
    obtain ⟨a, h1, h2⟩ := R.bind_ok.1 hr
    split at h2
    · simp at h2
    · rename_i hne
      simp only [R.ok.injEq, Option.some.injEq] at h2
      subst h2
      exact ⟨h1, by simpa using hne⟩
  split at h
  · simp at h
  · obtain ⟨h1, h2⟩ := key _ h
    exact ⟨h2, bodyLines_said more es h1 hm⟩
  · obtain ⟨h1, h2⟩ := key _ h
    exact ⟨h2, (parseLine_iff.1 h1).said (fun t ht => hs t (by simp [ht]))⟩
  · simp at h

theorem printLines_read : ∀ es : List (Expr ν), (∀ e ∈ es, Said W Γ e) → (∀ e ∈ es, Tidy W Γ e) →
    ∃ ls, printLines W es = .ok ls ∧ bodyLines Γ ls = .ok es
  | [], _, _ => ⟨[], rfl, rfl⟩
  | e :: es, hs, ht => by
    obtain ⟨ls, h1, h2⟩ := printLines_read es (fun e he => hs e (by simp [he])) (fun e he => ht e (by simp [he]))
    obtain ⟨ts, h3, h4⟩ := hs e (by simp)
    obtain ⟨us, h5, -, h6⟩ := statement_print h3 h4 (ht e (by simp))
    refine ⟨us :: ls, by simp [printLines, h1, h5], ?_⟩
    simp [bodyLines, parseLine_iff.2 (.last h6), h2]

/-- A body that was read prints to something that reads the same. -/
theorem body_print {es : List (Expr ν)} (hne : es ≠ []) (hs : ∀ e ∈ es, Said W Γ e) (ht : ∀ e ∈ es, Tidy W Γ e)
    (hd : List (Tok ν)) : ∃ us ls, printBody W (hd ++ [.assign]) (some es) = .ok (hd ++ .assign :: us, ls) ∧
      bodyOf Γ (.assign :: us) ls = .ok (some es) := by
  match es, hne with
  | [e], _ =>
    obtain ⟨ts, h3, h4⟩ := hs e (by simp)
    obtain ⟨us, h5, h6, h7⟩ := statement_print h3 h4 (ht e (by simp))
    refine ⟨us, [], by simp [printBody, h5], ?_⟩
    match us, h6 with
    | u :: us, _ => simp [bodyOf, parseLine_iff.2 (.last h7)]
  | e :: e2 :: es, _ =>
    obtain ⟨ls, h1, h2⟩ := printLines_read _ hs ht
    exact ⟨[], ls, by simp [printBody, h1], by simp [bodyOf, h2]⟩

/-! ## Definitions in two contexts -/

theorem declareAll_ok (fn : String) : ∀ (xs seen : List String) (g g1 : Env ν),
    declareAll fn xs seen g = (.ok (), g1) →
    ∀ h : Env ν, declareAll fn xs seen h = (.ok (), { h with declared := h.declared ++ xs })
  | [], _, _, _, _, h => by simp [declareAll]
  | x :: xs, seen, g, g1, hg, h => by
    unfold declareAll at hg ⊢
    split
    · rename_i hc; rw [if_pos hc] at hg; simp at hg
    · rename_i hc
      rw [if_neg hc] at hg
      split
      · rename_i hc2; rw [if_pos hc2] at hg; simp at hg
      · rename_i hc2
        rw [if_neg hc2] at hg
        have := declareAll_ok fn xs (x :: seen) _ g1 hg { h with declared := h.declared ++ [x] }
        rw [this]
        simp

theorem define_accepts {S : Sem ν} {g g' h : Env ν} {f f' : Fn ν} (hg : g.define S f = (.ok (), g'))
    (hn : f'.name = f.name) (hz : ∀ v, h.globals f.name = some v → S.isZero v = true) :
    ∃ h', h.define S f' = (.ok (), h') := by
  have hname : ¬ (f.name = "_" ∨ f.name = "pi" ∨ f.name = "e") := by
    intro hc
    unfold Env.define noVar at hg
    rw [if_pos hc] at hg
    simp at hg
  unfold Env.define
  rw [hn]
  have : ∃ h1, noVar S h f.name = (.ok (), h1) := by
    unfold noVar
    rw [if_neg hname]
    split
    · exact ⟨_, rfl⟩
    · rename_i v hv
      rw [if_pos (hz v hv)]
      exact ⟨_, rfl⟩
  obtain ⟨h1, e⟩ := this
  rw [e]
  exact ⟨_, rfl⟩

/-- The context in which the body is read. -/
theorem namesOf_inBody {builtin : Names} {S : Sem ν} {g g1 g2 : Env ν} {f : Fn ν}
    (hd : declareAll f.name (params f) [] g = (.ok (), g1)) (hg : g.declared = []) {f0 : Fn ν} (hn : f0.name = f.name)
    (hb : f0.isBinary = f.isBinary) (h2 : g1.define S f0 = (.ok (), g2)) :
    namesOf builtin g2 = inBody builtin g f.name f.isBinary (params f) := by
  have e1 := declareAll_ok _ _ _ _ _ hd g
  rw [hd] at e1
  simp only [Prod.mk.injEq, true_and] at e1
  obtain ⟨-, d, -, -, -, l⟩ := Exec.define_effect h2
  have lu : ∀ x, g2.unaryFn x = g2.lookup x false := fun x => rfl
  have lb : ∀ x, g2.binaryFn x = g2.lookup x true := fun x => rfl
  have gu : ∀ x, g1.lookup x false = g.unaryFn x := by intro x; rw [e1]; rfl
  have gb : ∀ x, g1.lookup x true = g.binaryFn x := by intro x; rw [e1]; rfl
  have dd : g2.declared = params f := by rw [d, e1]; simp [hg]
  unfold namesOf inBody
  simp only [Names.mk.injEq, dd]
  refine ⟨funext fun x => ?_, funext fun x => ?_⟩
  · rw [lu, l, gu, hn, hb]
    by_cases hx : x ∈ params f
    · simp [hx]
    · simp only [hx, List.contains_eq_mem, decide_false, Bool.not_false, Bool.true_and, if_false]
      by_cases hc : x = f.name ∧ false = f.isBinary
      · rw [if_pos hc]; simp [hc.1, ← hc.2]
      · rw [if_neg hc]
        by_cases h1 : x = f.name
        · have : f.isBinary = true := by
            cases hfb : f.isBinary
            · exact absurd ⟨h1, hfb.symm⟩ hc
            · rfl
          simp [this]
        · have hb : (x == f.name) = false := by simpa using h1
          rw [hb]; rfl
  · rw [lb, l, gb, hn, hb]
    by_cases hx : x ∈ params f
    · simp [hx]
    · simp only [hx, List.contains_eq_mem, decide_false, Bool.not_false, Bool.true_and, if_false]
      by_cases hc : x = f.name ∧ true = f.isBinary
      · rw [if_pos hc]; simp [hc.1, ← hc.2]
      · rw [if_neg hc]
        by_cases h1 : x = f.name
        · have : f.isBinary = false := by
            cases hfb : f.isBinary
            · rfl
            · exact absurd ⟨h1, hfb.symm⟩ hc
          simp [this]
        · have hb : (x == f.name) = false := by simpa using h1
          rw [hb]; rfl

theorem inBody_same {builtin : Names} {g h : Env ν} (hs : SameOps g h) (n : String) (b : Bool) (ps : List String) :
    inBody builtin h n b ps = inBody builtin g n b ps := by
  have hu : ∀ x, (h.unaryFn x).isSome = (g.unaryFn x).isSome := fun x => hs x false
  have hb : ∀ x, (h.binaryFn x).isSome = (g.binaryFn x).isSome := fun x => hs x true
  unfold inBody
  simp only [hu, hb]

/-- A successful definition: how the body was read, and that any other way to read the same body, in any other context
with the same operators, succeeds and stores the same function. -/
theorem definition_again {builtin : Names} {S : Sem ν} {g g' : Env ν} {f : Fn ν} {ts : List (Tok ν)}
    {more : List (List (Tok ν))} (hg : g.declared = [])
    (h : definition S g f (fun g => bodyOf (namesOf builtin g) ts more) = (.ok (), g')) :
    ∃ body, bodyOf (inBody builtin g f.name f.isBinary (params f)) ts more = .ok body ∧
      (∀ x b, g'.lookup x b =
        if x = f.name ∧ b = f.isBinary then some (funcVars { f with body := body }) else g.lookup x b) ∧
      ∀ (k : Env ν) (us : List (Tok ν)) (ls : List (List (Tok ν))), SameOps g k → k.declared = [] →
        (∀ v, k.globals f.name = some v → S.isZero v = true) →
        bodyOf (inBody builtin g f.name f.isBinary (params f)) us ls = .ok body →
        ∃ k', definition S k f (fun g => bodyOf (namesOf builtin g) us ls) = (.ok (), k') ∧
          ∀ x b, k'.lookup x b =
            if x = f.name ∧ b = f.isBinary then some (funcVars { f with body := body }) else k.lookup x b := by
  have full := h
  unfold definition at h
  split at h
  · simp at h
  · rename_i ho
    split at h
    · rename_i u g1 heq
      dsimp only at h
      split at h
      · rename_i u2 g2 heq2
        have hbody := namesOf_inBody (builtin := builtin) (S := S) (g2 := g2) (f := f) (by rw [heq]) hg
          (f0 := { f with body := none, locals := [] }) rfl rfl (by rw [heq2])
        split at h
        · rename_i body hb
          split at h
          · rename_i u3 g3 heq3
            rw [hbody] at hb
            refine ⟨body, hb, ?_, ?_⟩
            · obtain ⟨-, -, -, -, -, body', ⟨g4, hb'⟩, hl⟩ := Exec.definition_effect full
              have : g' = g3.forgetAll := by
                simp only [Prod.mk.injEq, true_and] at h; exact h.symm
              obtain ⟨-, -, -, -, -, l3⟩ := Exec.define_effect (S := S) (g := g2) (g' := g3) (by rw [heq3])
              obtain ⟨-, -, -, -, -, l2⟩ := Exec.define_effect (S := S) (g := g1) (g' := g2) (by rw [heq2])
              have l1 := Exec.declareAll_lookup (ν := ν) f.name (params f) [] g
              rw [heq] at l1
              intro x b
              rw [this]
              show g3.lookup x b = _
              rw [l3 x b, l2 x b, l1 x b]
              show (if x = f.name ∧ b = f.isBinary then _ else if x = f.name ∧ b = f.isBinary then _ else _) = _
              by_cases hc : x = f.name ∧ b = f.isBinary
              · rw [if_pos hc, if_pos hc]
              · rw [if_neg hc, if_neg hc, if_neg hc]
            · intro k us ls hs hk hz hread
              have k1 := declareAll_ok f.name (params f) [] g g1 (by rw [heq]) k
              have hz1 : ∀ v, ({ k with declared := k.declared ++ params f } : Env ν).globals f.name = some v →
                  S.isZero v = true := hz
              obtain ⟨k2, e2⟩ := define_accepts (g' := g2) (S := S) (g := g1)
                (f := { f with body := none, locals := [] }) (f' := { f with body := none, locals := [] })
                (h := { k with declared := k.declared ++ params f }) (by rw [heq2]) rfl hz1
              obtain ⟨-, -, gl2, -, -, lk2⟩ := Exec.define_effect e2
              have names : namesOf builtin k2 = inBody builtin g f.name f.isBinary (params f) := by
                rw [namesOf_inBody k1 hk (f0 := { f with body := none, locals := [] }) rfl rfl e2, inBody_same hs]
              obtain ⟨k3, e3⟩ := define_accepts (g' := g2) (S := S) (g := g1)
                (f := { f with body := none, locals := [] }) (f' := funcVars { f with body := body })
                (h := k2) (by rw [heq2]) rfl (by intro v hv; have := gl2; simp only at this hv; rw [this] at hv; cases hv)
              obtain ⟨-, -, -, -, -, lk3⟩ := Exec.define_effect e3
              refine ⟨k3.forgetAll, ?_, ?_⟩
              · unfold definition
                rw [if_neg ho, k1]
                dsimp only
                rw [e2]
                dsimp only
                rw [names, hread]
                dsimp only
                rw [e3]
              · intro x b
                show k3.lookup x b = _
                rw [lk3 x b, lk2 x b]
                show (if x = f.name ∧ b = f.isBinary then _ else if x = f.name ∧ b = f.isBinary then _ else _) = _
                by_cases hc : x = f.name ∧ b = f.isBinary
                · rw [if_pos hc, if_pos hc]
                · rw [if_neg hc, if_neg hc, if_neg hc]
                  rfl
          · rename_i r3 g3 hne heq3
            simp only [Prod.mk.injEq] at h
            exact absurd h.1 (hne ())
        · simp at h
        · simp at h
        · simp at h
      · rename_i r2 g2 hne heq2
        simp only [Prod.mk.injEq] at h
        exact absurd h.1 (hne ())
    · rename_i r1 g1 hne heq
      simp only [Prod.mk.injEq] at h
      exact absurd h.1 (hne ())

/-! ## Resolving variables does not change `Tidy` -/

theorem constIndexed_walk : ∀ (e : Expr ν) (a : Bool) (s : Scope), constIndexed (walk e a s).1 = constIndexed e
  | .lit _, _, _ => rfl
  | .hole, _, _ => rfl
  | .var _ _, _, _ => rfl
  | .unary _ _, _, _ => rfl
  | .binary _ _ _, _, _ => rfl
  | .cond _ _, _, _ => rfl
  | .vec _, _, _ => rfl
  | .index l is, a, s => by
    have ih := constIndexed_walk l false (walkRev is false s).2
    cases l <;> simp_all [walk, constIndexed]

theorem constIndexed_walkRev : ∀ (es : List (Expr ν)) (a : Bool) (s : Scope),
    (∀ e ∈ (walkRev es a s).1, constIndexed e = false) ↔ ∀ e ∈ es, constIndexed e = false
  | [], _, _ => Iff.rfl
  | e :: es, a, s => by
    simp only [walkRev, List.forall_mem_cons]
    rw [constIndexed_walk, constIndexed_walkRev es]

mutual
theorem tidy_walk : ∀ (e : Expr ν) (a : Bool) (s : Scope), Tidy W Γ (walk e a s).1 ↔ Tidy W Γ e
  | .lit _, _, _ => Iff.rfl
  | .hole, _, _ => Iff.rfl
  | .var _ _, _, _ => Iff.rfl
  | .unary x r, a, s => by simp only [walk, Tidy]; rw [tidy_walk r]
  | .binary x l r, a, s => by simp only [walk, Tidy]; rw [tidy_walk r, tidy_walk l]
  | .cond l r, a, s => by simp only [walk, Tidy]; rw [tidy_walk r, tidy_walk l]
  | .vec es, a, s => by simp only [walk, Tidy]; rw [tidyAll_walk es, constIndexed_walkRev]
  | .index l is, a, s => by simp only [walk, Tidy]; rw [tidy_walk l, tidyAll_walk is]

theorem tidyAll_walk : ∀ (es : List (Expr ν)) (a : Bool) (s : Scope), TidyAll W Γ (walkRev es a s).1 ↔ TidyAll W Γ es
  | [], _, _ => Iff.rfl
  | e :: es, a, s => by simp only [walkRev, TidyAll]; rw [tidy_walk e, tidyAll_walk es]
end

theorem tidy_walkBody : ∀ (es : List (Expr ν)) (s : Scope),
    (∀ e ∈ (walkBody es s).1, Tidy W Γ e) ↔ ∀ e ∈ es, Tidy W Γ e
  | [], _ => Iff.rfl
  | e :: es, s => by
    simp only [walkBody, List.forall_mem_cons]
    rw [tidy_walk, tidy_walkBody es]

mutual
theorem paramNames_walk : ∀ (e : Expr ν) (a : Bool) (s : Scope), Exec.paramNames (walk e a s).1 = Exec.paramNames e
  | .lit _, _, _ => rfl
  | .hole, _, _ => rfl
  | .var _ _, _, _ => rfl
  | .unary _ _, _, _ => rfl
  | .binary _ _ _, _, _ => rfl
  | .cond _ _, _, _ => rfl
  | .vec es, a, s => by simp only [walk, Exec.paramNames]; rw [paramNamesRev_walk es]
  | .index _ _, _, _ => rfl

theorem paramNamesRev_walk : ∀ (es : List (Expr ν)) (a : Bool) (s : Scope),
    Exec.paramNamesRev (walkRev es a s).1 = Exec.paramNamesRev es
  | [], _, _ => rfl
  | e :: es, a, s => by simp only [walkRev, Exec.paramNamesRev]; rw [paramNames_walk e, paramNamesRev_walk es]
end

theorem params_funcVars (f : Fn ν) : params (funcVars f) = params f := by
  unfold params funcVars
  simp only
  rw [paramNames_walk]
  cases f.left with
  | none => rfl
  | some l => simp only [Exec.walkOpt]; rw [paramNames_walk]

theorem funcArg_tail (n : Nat) : (∀ (ts : List (Tok ν)) p, funcArg n ts = .ok p → ∀ t ∈ p.2, t ∈ ts) ∧
    (∀ (ts : List (Tok ν)) p, funcArgs n ts = .ok p → ∀ t ∈ p.2, t ∈ ts) := by
  induction n with
  | zero => exact ⟨by intro ts p h; simp [funcArg] at h, by intro ts p h; simp [funcArgs] at h⟩
  | succ n ih =>
    constructor
    · intro ts p h
      match ts with
      | [] => simp [funcArg] at h
      | t :: ts =>
        cases t with
        | id x => simp only [funcArg, R.ok.injEq] at h; subst h; intro t ht; simp [ht]
        | lparen =>
          simp only [funcArg] at h
          obtain ⟨q, h1, h2⟩ := R.bind_ok.1 h
          simp only [R.ok.injEq] at h2; subst h2
          intro t ht
          exact List.mem_cons_of_mem _ (ih.2 _ _ h1 t ht)
        | _ => simp [funcArg] at h
    · intro ts p h
      have dflt : ((funcArg n ts).bind fun p => (funcArgs n p.2).bind fun q => .ok (p.1 :: q.1, q.2)) = .ok p →
          ∀ t ∈ p.2, t ∈ ts := by
        intro h
        obtain ⟨q, h1, h2⟩ := R.bind_ok.1 h
        obtain ⟨r, h3, h4⟩ := R.bind_ok.1 h2
        simp only [R.ok.injEq] at h4; subst h4
        intro t ht
        exact ih.1 _ _ h1 t (ih.2 _ _ h3 t ht)
      match ts with
      | [] => exact dflt h
      | t :: ts =>
        cases t with
        | rparen => simp only [funcArgs, R.ok.injEq] at h; subst h; intro t ht; simp [ht]
        | _ => exact dflt h

theorem header_tail {ts : List (Tok ν)} {p : Fn ν × List (Tok ν)} (h : header ts = .ok p) : ∀ t ∈ p.2, t ∈ ts := by
  have arg : ∀ {ts : List (Tok ν)} {p}, parseArg ts = .ok p → ∀ t ∈ p.2, t ∈ ts := fun h => (funcArg_tail _).1 _ _ h
  simp only [header] at h
  obtain ⟨a, h1, h⟩ := R.bind_ok.1 h
  obtain ⟨b, h2, h⟩ := R.bind_ok.1 h
  have three : ((parseArg b.2).bind fun r => (match b.1 with
      | .var x _ => R.ok (⟨true, x, some a.1, r.1, none, []⟩, r.2)
      | _ => R.err "invalid function name" : P ν (Fn ν))) = R.ok p → ∀ t ∈ p.2, t ∈ ts := by
    intro h
    obtain ⟨c, h3, h⟩ := R.bind_ok.1 h
    split at h
    · simp only [R.ok.injEq] at h
      subst h
      intro t ht
      exact arg h1 t (arg h2 t (arg h3 t ht))
    · simp at h
  split at h
  · exact three h
  · exact three h
  · split at h
    · simp only [R.ok.injEq] at h
      subst h
      intro t ht
      exact arg h1 t (arg h2 t ht)
    · simp at h

/-- A definition that was accepted, printed and read again in any context with the same operators. -/
theorem define_again {builtin : Names} {S : Sem ν} {g g' : Env ν} {ts : List (Tok ν)} {more : List (List (Tok ν))}
    (hg : g.declared = []) (hs : ∀ t ∈ ts, W.Scanned t) (hm : ∀ l ∈ more, ∀ t ∈ l, W.Scanned t)
    (h : define builtin S g ts more = (.ok (), g')) :
    ∃ f, g'.lookup f.name f.isBinary = some f ∧ (∀ x b, (x, b) ≠ (f.name, f.isBinary) → g'.lookup x b = g.lookup x b) ∧
      ∀ es, f.body = some es → (∀ e ∈ es, Tidy W (inBody builtin g f.name f.isBinary (params f)) e) →
        ∃ us ls, printFn W f = .ok (us, ls) ∧
          ∀ k : Env ν, SameOps g k → k.declared = [] → (∀ v, k.globals f.name = some v → S.isZero v = true) →
            ∃ k', define builtin S k us ls = (.ok (), k') ∧
              ∀ x b, k'.lookup x b = if x = f.name ∧ b = f.isBinary then some f else k.lookup x b := by
  unfold define at h
  split at h
  · rename_i f0 rest hh
    have hhead := header_ok hh
    obtain ⟨body, hb, hl, hagain⟩ := definition_again hg h
    refine ⟨funcVars { f0 with body := body }, ?_, ?_, ?_⟩
    · rw [hl]; exact if_pos ⟨rfl, rfl⟩
    · intro x b hne
      rw [hl]
      exact if_neg (fun hc => hne (by rw [hc.1, hc.2]; rfl))
    · intro es hes hT
      have hbody : ∃ es0, body = some es0 := by
        cases body with
        | none => simp [funcVars, Exec.walkBodyOpt] at hes
        | some es0 => exact ⟨es0, rfl⟩
      obtain ⟨es0, rfl⟩ := hbody
      have hes' : ∃ s, es = (walkBody es0 s).1 := by
        simp only [funcVars, Exec.walkBodyOpt, Option.some.injEq] at hes
        exact ⟨_, hes.symm⟩
      obtain ⟨s, rfl⟩ := hes'
      have hp : params (funcVars { f0 with body := some es0 }) = params f0 := params_funcVars _
      rw [hp, tidy_walkBody] at hT
      obtain ⟨hne, hsaid⟩ := bodyOf_said hb (fun t ht => hs t (header_tail hh t ht)) hm
      obtain ⟨l, r, p1, p2, p3⟩ := header_print hhead
      obtain ⟨us, ls, q1, q2⟩ := body_print hne hsaid hT (l ++ Tok.id f0.name :: r)
      refine ⟨l ++ Tok.id f0.name :: r ++ .assign :: us, ls, ?_, ?_⟩
      · rw [printFn_funcVars]
        unfold printFn
        simp only [p1, p2, R.ok_bind]
        exact q1
      · intro k hk1 hk2 hk3
        obtain ⟨k', e1, e2⟩ := hagain k (.assign :: us) ls hk1 hk2 hk3 q2
        refine ⟨k', ?_, e2⟩
        unfold define
        rw [p3 us]
        exact e1
  · simp at h
  · simp at h
  · simp at h

end Verif.Syn
