import Verif.Exec.Spec

/-! # Execution: lemmas on scopes, frames and the call stack -/

namespace Verif.Exec
open Verif.Arr (R)
variable {ν : Type}

mutual
theorem Expr.Scoped.mono {m n : Nat} (h : m ≤ n) : ∀ (e : Expr ν), e.Scoped m → e.Scoped n
  | .lit _, _ => by simp [Expr.Scoped]
  | .hole, _ => by simp [Expr.Scoped]
  | .var _ _, h1 => by simp only [Expr.Scoped] at *; omega
  | .unary _ r, h1 => by simp only [Expr.Scoped] at *; exact Expr.Scoped.mono h r h1
  | .binary _ l r, h1 => by
    simp only [Expr.Scoped] at *; exact ⟨Expr.Scoped.mono h l h1.1, Expr.Scoped.mono h r h1.2⟩
  | .cond l r, h1 => by
    simp only [Expr.Scoped] at *; exact ⟨Expr.Scoped.mono h l h1.1, Expr.Scoped.mono h r h1.2⟩
  | .vec es, h1 => by simp only [Expr.Scoped] at *; exact ScopedAll.mono h es h1
  | .index l is, h1 => by
    simp only [Expr.Scoped] at *; exact ⟨Expr.Scoped.mono h l h1.1, ScopedAll.mono h is h1.2⟩

theorem ScopedAll.mono {m n : Nat} (h : m ≤ n) : ∀ (es : List (Expr ν)), ScopedAll m es → ScopedAll n es
  | [], _ => by simp [ScopedAll]
  | e :: es, h1 => by
    simp only [ScopedAll] at *; exact ⟨Expr.Scoped.mono h e h1.1, ScopedAll.mono h es h1.2⟩
end

/-- Every index known is that of a local. -/
def Scope.Good (s : Scope) : Prop := ∀ x n, s.known x = some n → n ≤ s.locals.length

theorem Scope.visit_good {s : Scope} (h : s.Good) (x : String) (a : Bool) :
    (s.visit x a).2.Good ∧ s.locals.length ≤ (s.visit x a).2.locals.length ∧
      (s.visit x a).1 ≤ (s.visit x a).2.locals.length := by
  unfold Scope.visit
  split
  · rename_i n hn
    exact ⟨h, Nat.le_refl _, h x n hn⟩
  · split
    · refine ⟨?_, by simp, by simp⟩
      intro y n hy
      simp only [update] at hy
      split at hy
      · simp only [Option.some.injEq] at hy; simp; omega
      · have := h y n hy; simp; omega
    · refine ⟨?_, by simp, by simp⟩
      intro y n hy
      simp only [update] at hy
      split at hy
      · simp only [Option.some.injEq] at hy; simp; omega
      · exact h y n hy

mutual
theorem walk_good : ∀ (e : Expr ν) (a : Bool) (s : Scope), s.Good →
    (walk e a s).2.Good ∧ s.locals.length ≤ (walk e a s).2.locals.length ∧
      (walk e a s).1.Scoped (walk e a s).2.locals.length
  | .lit _, a, s, h => by simp only [walk, Expr.Scoped]; exact ⟨h, Nat.le_refl _, trivial⟩
  | .hole, a, s, h => by simp only [walk, Expr.Scoped]; exact ⟨h, Nat.le_refl _, trivial⟩
  | .var x _, a, s, h => by simp only [walk, Expr.Scoped]; exact Scope.visit_good h x a
  | .unary _ r, a, s, h => by simp only [walk, Expr.Scoped]; exact walk_good r false s h
  | .binary op l r, a, s, h => by
    simp only [walk, Expr.Scoped]
    have h1 := walk_good r false s h
    have h2 := walk_good l (op == "=") _ h1.1
    exact ⟨h2.1, by omega, h2.2.2, Expr.Scoped.mono h2.2.1 _ h1.2.2⟩
  | .cond l r, a, s, h => by
    simp only [walk, Expr.Scoped]
    have h1 := walk_good r false s h
    have h2 := walk_good l false _ h1.1
    exact ⟨h2.1, by omega, h2.2.2, Expr.Scoped.mono h2.2.1 _ h1.2.2⟩
  | .vec es, a, s, h => by simp only [walk, Expr.Scoped]; exact walkRev_good es a s h
  | .index l is, a, s, h => by
    simp only [walk, Expr.Scoped]
    have h1 := walkRev_good is false s h
    have h2 := walk_good l false _ h1.1
    exact ⟨h2.1, by omega, h2.2.2, ScopedAll.mono h2.2.1 _ h1.2.2⟩

theorem walkRev_good : ∀ (es : List (Expr ν)) (a : Bool) (s : Scope), s.Good →
    (walkRev es a s).2.Good ∧ s.locals.length ≤ (walkRev es a s).2.locals.length ∧
      ScopedAll (walkRev es a s).2.locals.length (walkRev es a s).1
  | [], a, s, h => by simp only [walkRev, ScopedAll]; exact ⟨h, Nat.le_refl _, trivial⟩
  | e :: es, a, s, h => by
    simp only [walkRev, ScopedAll]
    have h1 := walkRev_good es a s h
    have h2 := walk_good e a _ h1.1
    exact ⟨h2.1, by omega, h2.2.2, ScopedAll.mono h2.2.1 _ h1.2.2⟩
end

theorem walkBody_good : ∀ (es : List (Expr ν)) (s : Scope), s.Good →
    (walkBody es s).2.Good ∧ s.locals.length ≤ (walkBody es s).2.locals.length ∧
      ScopedAll (walkBody es s).2.locals.length (walkBody es s).1
  | [], s, h => by simp only [walkBody, ScopedAll]; exact ⟨h, Nat.le_refl _, trivial⟩
  | e :: es, s, h => by
    simp only [walkBody, ScopedAll]
    have h1 := walk_good e false s h
    have h2 := walkBody_good es _ h1.1
    exact ⟨h2.1, by omega, Expr.Scoped.mono h2.2.1 _ h1.2.2, h2.2.2⟩

theorem walkOpt_good (e : Option (Expr ν)) (s : Scope) (h : s.Good) :
    (walkOpt e s).2.Good ∧ s.locals.length ≤ (walkOpt e s).2.locals.length ∧
      ∀ x, (walkOpt e s).1 = some x → x.Scoped (walkOpt e s).2.locals.length := by
  cases e with
  | none => exact ⟨h, Nat.le_refl _, by simp [walkOpt]⟩
  | some e =>
    have := walk_good e true s h
    simp only [walkOpt, Option.some.injEq]
    exact ⟨this.1, this.2.1, fun x hx => hx ▸ this.2.2⟩

/-- `funcVars` numbers the local variables of an operator within its frame. -/
theorem funcVars_ok (f : Fn ν) : (funcVars f).Ok := by
  intro body hb
  have h0 : (⟨[], fun _ => none⟩ : Scope).Good := by intro x n h; simp at h
  have h1 := walkOpt_good f.left _ h0
  have h2 := walk_good f.right true _ h1.1
  simp only [funcVars] at hb ⊢
  cases hbody : f.body with
  | none => rw [hbody] at hb; simp [walkBodyOpt] at hb
  | some es =>
    rw [hbody] at hb
    simp only [walkBodyOpt, Option.some.injEq] at hb ⊢
    have h3 := walkBody_good es _ h2.1
    refine ⟨fun l hl => ?_, ?_, ?_⟩
    · exact Expr.Scoped.mono (by omega) _ (h1.2.2 l hl)
    · exact Expr.Scoped.mono h3.2.1 _ h2.2.2
    · rw [← hb]; exact h3.2.2

/-! ## Definitions keep the operators well numbered -/

theorem Env.lookup_install (g : Env ν) (n : String) (b : Bool) (f : Option (Fn ν)) (n' : String) (b' : Bool) :
    (g.install n b f).lookup n' b' = if n' = n ∧ b' = b then f else g.lookup n' b' := by
  unfold Env.install Env.lookup update
  cases b <;> cases b' <;> simp <;> grind

theorem Env.Ok.install {g : Env ν} (h : g.Ok) (n : String) (b : Bool) (f : Option (Fn ν))
    (hf : ∀ x, f = some x → x.Ok) : (g.install n b f).Ok := by
  intro n' b' x hx
  rw [Env.lookup_install] at hx
  split at hx
  · exact hf x hx
  · exact h n' b' x hx

/-- Two states with the same operators. -/
theorem Env.Ok.same {g g' : Env ν} (h : g.Ok) (hl : ∀ n b, g'.lookup n b = g.lookup n b) : g'.Ok := by
  intro n b f hf
  rw [hl] at hf
  exact h n b f hf

theorem noVar_lookup (S : Sem ν) (g : Env ν) (x : String) (n : String) (b : Bool) :
    (noVar S g x).2.lookup n b = g.lookup n b := by
  unfold noVar
  split
  · rfl
  · split
    · rfl
    · split <;> rfl

theorem Env.define_ok (S : Sem ν) {g : Env ν} (h : g.Ok) (f : Fn ν) (hf : f.Ok) : (g.define S f).2.Ok := by
  have hn := noVar_lookup S g f.name
  unfold Env.define
  split
  · rename_i g1 heq
    rw [heq] at hn
    have h1 : g1.Ok := h.same hn
    exact (h1.install f.name f.isBinary (some f) (by intro x hx; cases hx; exact hf)).same (fun _ _ => rfl)
  · rename_i r g1 heq
    rw [heq] at hn
    exact h.same hn

theorem Env.undefine_ok {g : Env ν} (h : g.Ok) (n : String) (b : Bool) : (g.undefine n b).2.Ok := by
  unfold Env.undefine
  split
  · exact (h.install n b none (by simp)).same (fun _ _ => rfl)
  · exact h

theorem declareAll_lookup (fname : String) : ∀ (xs seen : List String) (g : Env ν) (n : String) (b : Bool),
    (declareAll fname xs seen g).2.lookup n b = g.lookup n b
  | [], _, _, _, _ => rfl
  | x :: xs, seen, g, n, b => by
    unfold declareAll
    split
    · rfl
    · split
      · rfl
      · rw [declareAll_lookup]; rfl

theorem Env.Ok.forgetAll {g : Env ν} (h : g.Ok) : g.forgetAll.Ok := h.same (fun _ _ => rfl)

theorem definition_ok (S : Sem ν) {g : Env ν} (h : g.Ok) (f : Fn ν) (p : Env ν → R (Option (List (Expr ν)))) :
    (definition S g f p).2.Ok := by
  unfold definition
  split
  · exact h
  · have hd := declareAll_lookup (ν := ν) f.name (params f) [] g
    split
    · rename_i g1 heq
      rw [heq] at hd
      have h1 : g1.Ok := h.same hd
      have hprev : ∀ x, g1.lookup f.name f.isBinary = some x → x.Ok := h1 f.name f.isBinary
      have h2 := Env.define_ok S h1 { f with body := none, locals := [] } (by intro b hb; simp at hb)
      dsimp only
      split
      · rename_i g2 heq2
        rw [heq2] at h2
        split
        · rename_i body hbody
          have h3 := Env.define_ok S h2 (funcVars { f with body := body }) (funcVars_ok _)
          split
          · rename_i g3 heq3
            rw [heq3] at h3
            exact h3.forgetAll
          · rename_i r g3 heq3
            rw [heq3] at h3
            exact (h3.install _ _ _ hprev).forgetAll
        · exact (h2.install _ _ _ hprev).forgetAll
        · exact (h2.install _ _ _ hprev).forgetAll
        · exact h2
      · rename_i r g2 heq2
        rw [heq2] at h2
        exact h2
    · rename_i r g1 heq
      rw [heq] at hd
      exact h.same hd

/-! ## Frames -/

/-- `c'` has the same frames as `c`, the same contents below slot `k`, well-numbered operators, and the number of
frames has stayed within `M` on the way (unless it was larger before). -/
structure Keeps (M k : Nat) (c c' : Ctx ν) : Prop where
  env : c'.env.Ok
  frames : c'.frames = c.frames
  len : c'.len = c.len
  slot : ∀ i, i < k → c'.slot i = c.slot i
  peak : c'.peak ≤ max c.peak M

theorem Keeps.refl {M k : Nat} {c : Ctx ν} (h : c.env.Ok) : Keeps M k c c :=
  ⟨h, rfl, rfl, fun _ _ => rfl, by omega⟩

theorem Keeps.trans {M k : Nat} {a b c : Ctx ν} (h1 : Keeps M k a b) (h2 : Keeps M k b c) : Keeps M k a c :=
  ⟨h2.env, h2.frames.trans h1.frames, h2.len.trans h1.len, fun i hi => (h2.slot i hi).trans (h1.slot i hi),
    by have := h1.peak; have := h2.peak; omega⟩

theorem Keeps.mono {M k k' : Nat} {a b : Ctx ν} (hk : k' ≤ k) (h : Keeps M k a b) : Keeps M k' a b :=
  ⟨h.env, h.frames, h.len, fun i hi => h.slot i (by omega), h.peak⟩

theorem Keeps.setEnv {M k : Nat} {c : Ctx ν} {g : Env ν} (h : g.Ok) : Keeps M k c { c with env := g } :=
  ⟨h, rfl, rfl, fun _ _ => rfl, by show c.peak ≤ _; omega⟩

theorem Keeps.andThen {M k : Nat} {α β : Type} {c : Ctx ν} {p : Res ν α} {f : α → Ctx ν → Res ν β}
    (h : Keeps M k c p.2) (hf : ∀ a, Keeps M k c p.2 → Keeps M k c (f a p.2).2) : Keeps M k c (andThen p f).2 := by
  unfold Exec.andThen
  split
  · exact hf _ h
  · exact h
  · exact h
  · exact h

/-- An evaluator that keeps everything below the frame of the expression it evaluates. -/
def EvKeeps (M : Nat) (ev : Expr ν → Ctx ν → Res ν ν) : Prop :=
  ∀ (e : Expr ν) (n : Nat) (c : Ctx ν), c.env.Ok → e.Scoped n → n ≤ c.len → Keeps M (c.len - n) c (ev e c).2

section
variable {M : Nat} {S : Sem ν} {ev : Expr ν → Ctx ν → Res ν ν}

theorem EvKeeps.step {n : Nat} {c c1 : Ctx ν} (hev : EvKeeps M ev) {e : Expr ν} (he : e.Scoped n) (hn : n ≤ c.len)
    (h : Keeps M (c.len - n) c c1) : Keeps M (c.len - n) c (ev e c1).2 := by
  have := hev e n c1 h.env he (by rw [h.len]; exact hn)
  rw [h.len] at this
  exact h.trans this

theorem readVar_ctx (x : String) (loc : Nat) (c : Ctx ν) : (readVar x loc c).2 = c := by
  unfold readVar; split <;> split <;> rfl

theorem indexTarget_ctx (x : String) (loc : Nat) (c : Ctx ν) : (indexTarget x loc c).2 = c := by
  unfold indexTarget; split <;> split <;> rfl

theorem setVar_keeps {n : Nat} {x : String} {loc : Nat} {v : ν} {c : Ctx ν} (h : c.env.Ok) (hl : loc ≤ n)
    (hn : n ≤ c.len) : Keeps M (c.len - n) c (setVar x loc v c).2 := by
  unfold setVar
  split
  · unfold Ctx.setLocal
    split
    · refine ⟨h, rfl, rfl, fun i hi => ?_, by show c.peak ≤ _; omega⟩
      show (if i = c.len - loc then some v else c.slot i) = c.slot i
      rw [if_neg (by omega)]
    · exact Keeps.refl h
  · exact Keeps.setEnv (h.same (fun _ _ => rfl))

theorem evalRev_keeps (hev : EvKeeps M ev) {n : Nat} {c : Ctx ν} (hc : c.env.Ok) (hn : n ≤ c.len) :
    ∀ (es : List (Expr ν)), ScopedAll n es → Keeps M (c.len - n) c (evalRev ev es c).2
  | [], _ => Keeps.refl hc
  | e :: es, hs => by
    simp only [ScopedAll] at hs
    simp only [evalRev]
    exact (evalRev_keeps hev hc hn es hs.2).andThen fun vs h1 =>
      (hev.step hs.1 hn h1).andThen fun _ h2 => h2

theorem evalIdx1_keeps (hev : EvKeeps M ev) {n : Nat} {c c1 : Ctx ν} (hn : n ≤ c.len) {e : Expr ν} (he : e.Scoped n)
    (h : Keeps M (c.len - n) c c1) : Keeps M (c.len - n) c (evalIdx1 S ev e c1).2 := by
  unfold evalIdx1
  split
  · exact h
  · refine (hev.step he hn h).andThen fun v h1 => ?_
    split <;> exact h1

theorem evalIdx_keeps (hev : EvKeeps M ev) {n : Nat} {c : Ctx ν} (hc : c.env.Ok) (hn : n ≤ c.len) :
    ∀ (es : List (Expr ν)), ScopedAll n es → Keeps M (c.len - n) c (evalIdx S ev es c).2
  | [], _ => Keeps.refl hc
  | e :: es, hs => by
    simp only [ScopedAll] at hs
    simp only [evalIdx]
    exact (evalIdx_keeps hev hc hn es hs.2).andThen fun vs h1 =>
      (evalIdx1_keeps hev hn hs.1 h1).andThen fun _ h2 => h2

theorem setVar_step {n : Nat} {x : String} {loc : Nat} {v : ν} {c c1 : Ctx ν} (hl : loc ≤ n) (hn : n ≤ c.len)
    (h : Keeps M (c.len - n) c c1) : Keeps M (c.len - n) c (setVar x loc v c1).2 := by
  have := setVar_keeps (M := M) (x := x) (v := v) h.env hl (by rw [h.len]; exact hn)
  rw [h.len] at this
  exact h.trans this

theorem indexAssign_keeps (hev : EvKeeps M ev) {n : Nat} {c : Ctx ν} (hc : c.env.Ok) (hn : n ≤ c.len) {x : String}
    {loc : Nat} {is : List (Expr ν)} {v : ν} (hl : loc ≤ n) (his : ScopedAll n is) :
    Keeps M (c.len - n) c (indexAssign S ev x loc is v c).2 := by
  unfold indexAssign
  refine (evalIdx_keeps hev hc hn is his).andThen fun ivs h1 => ?_
  have h2 : Keeps M (c.len - n) c (indexTarget x loc (evalIdx S ev is c).2).2 := by
    rw [indexTarget_ctx]; exact h1
  refine h2.andThen fun old h3 => ?_
  split
  · exact setVar_step hl hn h3
  · exact h3
  · exact h3
  · exact h3

mutual
theorem assignTo_keeps (hev : EvKeeps M ev) {n : Nat} : ∀ (e : Expr ν) (v : ν) (c : Ctx ν), c.env.Ok → n ≤ c.len →
    e.Scoped n → Keeps M (c.len - n) c (assignTo S ev e v c).2
  | .var x loc, v, c, hc, hn, he => by
    simp only [assignTo]
    exact setVar_keeps hc (by simpa [Expr.Scoped] using he) hn
  | .lit _, v, c, hc, hn, he => by simp only [assignTo]; exact Keeps.refl hc
  | .hole, v, c, hc, hn, he => by simp only [assignTo]; exact Keeps.refl hc
  | .unary _ _, v, c, hc, hn, he => by simp only [assignTo]; exact Keeps.refl hc
  | .binary _ _ _, v, c, hc, hn, he => by simp only [assignTo]; exact Keeps.refl hc
  | .cond _ _, v, c, hc, hn, he => by simp only [assignTo]; exact Keeps.refl hc
  | .vec es, v, c, hc, hn, he => by
    simp only [assignTo]
    split
    · exact Keeps.refl hc
    · split
      · exact Keeps.refl hc
      · exact assignRev_keeps hev es _ c hc hn (by simpa [Expr.Scoped] using he)
  | .index l is, v, c, hc, hn, he => by
    simp only [Expr.Scoped] at he
    cases l with
    | var x loc =>
      simp only [assignTo]
      exact indexAssign_keeps hev hc hn (by simpa [Expr.Scoped] using he.1) he.2
    | _ => simp only [assignTo]; exact Keeps.refl hc

theorem assignRev_keeps (hev : EvKeeps M ev) {n : Nat} : ∀ (es : List (Expr ν)) (vs : List ν) (c : Ctx ν), c.env.Ok →
    n ≤ c.len → ScopedAll n es → Keeps M (c.len - n) c (assignRev S ev es vs c).2
  | [], vs, c, hc, hn, he => by simp only [assignRev]; exact Keeps.refl hc
  | e :: es, [], c, hc, hn, he => by simp only [assignRev]; exact Keeps.refl hc
  | e :: es, v :: vs, c, hc, hn, he => by
    simp only [ScopedAll] at he
    simp only [assignRev]
    refine (assignRev_keeps hev es vs c hc hn he.2).andThen fun _ h1 => ?_
    have := assignTo_keeps hev e v _ h1.env (by rw [h1.len]; exact hn) he.1
    rw [h1.len] at this
    exact h1.trans this
end

theorem evalBody_keeps (hev : EvKeeps M ev) {n : Nat} : ∀ (es : List (Expr ν)) (last : Option ν) (c : Ctx ν),
    c.env.Ok → n ≤ c.len → ScopedAll n es → Keeps M (c.len - n) c (evalBody S ev es last c).2
  | [], last, c, hc, hn, hs => Keeps.refl hc
  | e :: es, last, c, hc, hn, hs => by
    simp only [ScopedAll] at hs
    have rest : ∀ last (c1 : Ctx ν), Keeps M (c.len - n) c c1 → Keeps M (c.len - n) c (evalBody S ev es last c1).2 := by
      intro last c1 h1
      have := evalBody_keeps hev es last c1 h1.env (by rw [h1.len]; exact hn) hs.2
      rw [h1.len] at this
      exact h1.trans this
    have plain : Keeps M (c.len - n) c (andThen (ev e c) fun v c1 => evalBody S ev es (some v) c1).2 :=
      (hev e n c hc hs.1 hn).andThen fun v h1 => rest _ _ h1
    cases e with
    | cond l r =>
      simp only [Expr.Scoped] at hs
      simp only [evalBody]
      refine (hev l n c hc hs.1.1 hn).andThen fun v h1 => ?_
      split
      · exact (hev.step hs.1.2 hn h1).andThen fun w h2 => h2
      · exact rest _ _ h1
      · exact h1
      · exact h1
      · exact h1
    | _ => simp only [evalBody]; exact plain

theorem runFn_keeps (hev : EvKeeps M ev) {f : Fn ν} {body : List (Expr ν)} {args : Option ν × ν} {c : Ctx ν}
    (hc : c.env.Ok) (hn : f.locals.length ≤ c.len) (hf : f.Ok) (hb : f.body = some body) :
    Keeps M (c.len - f.locals.length) c (runFn S ev f body args c).2 := by
  obtain ⟨hl, hr, hbody⟩ := hf body hb
  unfold runFn
  have h0 : Keeps M (c.len - f.locals.length) c (match f.left, args.1 with
    | some p, some v => assignTo S ev p v c
    | _, _ => (R.ok (), c)).2 := by
    split
    · rename_i p v hp _
      exact assignTo_keeps hev p v c hc hn (hl p hp)
    · exact Keeps.refl hc
  refine h0.andThen fun _ h1 => ?_
  have h2 := assignTo_keeps (S := S) hev f.right args.2 _ h1.env (by rw [h1.len]; exact hn) hr
  rw [h1.len] at h2
  refine (h1.trans h2).andThen fun _ h3 => ?_
  have h4 := evalBody_keeps (S := S) hev body none _ h3.env (by rw [h3.len]; exact hn) hbody
  rw [h3.len] at h4
  refine (h3.trans h4).andThen fun r h5 => ?_
  split <;> exact h5

theorem callFn_keeps (hev : EvKeeps M ev) {f : Fn ν} {args : Option ν × ν} {c : Ctx ν} (hc : c.env.Ok) (hf : f.Ok) :
    Keeps M c.len c (callFn S M ev f args c).2 := by
  unfold callFn
  split
  · exact Keeps.refl hc
  · rename_i body hb
    split
    · exact Keeps.refl hc
    · rename_i hM
      have hp : (c.push f).len = c.len + f.locals.length := rfl
      have h := runFn_keeps (S := S) (args := args) (c := c.push f) hev hc (by rw [hp]; omega) hf hb
      have hfr : (runFn S ev f body args (c.push f)).2.frames = f.locals.length :: c.frames := h.frames
      have hln : (runFn S ev f body args (c.push f)).2.len = c.len + f.locals.length := h.len
      have hpk : (runFn S ev f body args (c.push f)).2.peak ≤ max (max c.peak (c.frames.length + 1)) M := h.peak
      show Keeps M c.len c (runFn S ev f body args (c.push f)).2.pop
      unfold Ctx.pop
      rw [hfr]
      refine ⟨h.env, rfl, ?_, ?_, ?_⟩
      · show (runFn S ev f body args (c.push f)).2.len - f.locals.length = c.len
        omega
      · intro i hi
        exact h.slot i (by rw [hp]; omega)
      · show (runFn S ev f body args (c.push f)).2.peak ≤ _
        omega
end

/-- The local variables a task mentions have an index of at most `n`. -/
def Task.Scoped (n : Nat) : Task ν → Prop
  | .expr e => e.Scoped n
  | .unary _ _ => True
  | .binary _ _ _ => True
  | .act a => a.Ok

/-- What an expression leaves alone: everything below its frame; an operator: everything. -/
def Task.own (n : Nat) : Task ν → Nat
  | .expr _ => n
  | _ => 0

theorem run_keeps {S : Sem ν} (hS : S.Ok) (M : Nat) : ∀ (fuel : Nat) (t : Task ν) (n : Nat) (c : Ctx ν), c.env.Ok →
    t.Scoped n → n ≤ c.len → Keeps M (c.len - t.own n) c (run S M fuel t c).2
  | 0, t, n, c, hc, ht, hn => Keeps.refl hc
  | fuel + 1, t, n, c, hc, ht, hn => by
    have ih := run_keeps hS M fuel
    have hev : EvKeeps M (fun e c => run S M fuel (.expr e) c) := fun e n c h1 h2 h3 => ih (.expr e) n c h1 h2 h3
    have tail : ∀ (t : Task ν) (k : Nat) (c1 : Ctx ν), k ≤ c.len → t.Scoped 0 → Keeps M k c c1 →
        Keeps M k c (run S M fuel t c1).2 := by
      intro t k c1 hk ht h1
      have h2 := ih t 0 c1 h1.env ht (by omega)
      have h3 : t.own 0 = 0 := by cases t <;> rfl
      rw [h1.len, h3] at h2
      exact h1.trans (h2.mono (by omega))
    unfold run
    cases t with
    | expr e =>
      simp only [Task.Scoped] at ht
      simp only [Task.own]
      show Keeps M (c.len - n) c (evalExpr S (run S M fuel) e c).2
      unfold evalExpr
      cases e with
      | lit v => exact Keeps.refl hc
      | hole => exact Keeps.refl hc
      | var x loc => show Keeps M (c.len - n) c (readVar x loc c).2; rw [readVar_ctx]; exact Keeps.refl hc
      | unary op r =>
        exact (hev r n c hc ht hn).andThen fun v h1 => tail (.unary op (S.inner v)) _ _ (by omega) trivial h1
      | binary op l r =>
        simp only [Expr.Scoped] at ht
        dsimp only
        split
        · refine (hev r n c hc ht.2 hn).andThen fun v h1 => ?_
          have h2 := assignTo_keeps (S := S) hev l (S.inner v) _ h1.env (by rw [h1.len]; exact hn) ht.1
          rw [h1.len] at h2
          exact (h1.trans h2).andThen fun _ h3 => h3
        · exact (hev r n c hc ht.2 hn).andThen fun v h1 =>
            (hev.step ht.1 hn h1).andThen fun u h2 => tail (.binary u op (S.inner v)) _ _ (by omega) trivial h2
      | cond l r =>
        simp only [Expr.Scoped] at ht
        exact (hev r n c hc ht.2 hn).andThen fun v h1 =>
            (hev.step ht.1 hn h1).andThen fun u h2 => tail (.binary u ":" (S.inner v)) _ _ (by omega) trivial h2
      | vec es =>
        simp only [Expr.Scoped] at ht
        exact (evalRev_keeps hev hc hn es ht).andThen fun _ h1 => h1
      | index l is =>
        simp only [Expr.Scoped] at ht
        exact (evalIdx_keeps hev hc hn is ht.2).andThen fun ivs h1 =>
          (hev.step ht.1 hn h1).andThen fun u h2 => h2
    | unary op v =>
      show Keeps M c.len c (evalUnary S M (run S M fuel) op v c).2
      unfold evalUnary
      split
      · rename_i p hp
        exact tail (.act (p v)) _ _ (Nat.le_refl _) (hS.unaryDerived op p v hp) (Keeps.refl hc)
      · split
        · rename_i f hf
          exact callFn_keeps hev hc (hc op false f hf)
        · split
          · rename_i p hp
            exact tail (.act (p v)) _ _ (Nat.le_refl _) (hS.unary op p v hp) (Keeps.refl hc)
          · exact Keeps.refl hc
    | binary l op r =>
      show Keeps M c.len c (evalBinary S M (run S M fuel) l op r c).2
      unfold evalBinary
      split
      · rename_i p hp
        exact tail (.act p) _ _ (Nat.le_refl _) (hS.binaryDerived l op r p hp) (Keeps.refl hc)
      · split
        · rename_i f hf
          exact callFn_keeps hev hc (hc op true f hf)
        · split
          · rename_i p hp
            exact tail (.act (p l r)) _ _ (Nat.le_refl _) (hS.binary op p l r hp) (Keeps.refl hc)
          · exact Keeps.refl hc
    | act a =>
      simp only [Task.Scoped] at ht
      show Keeps M c.len c (evalAct S (run S M fuel) a c).2
      unfold evalAct
      cases ht with
      | done r => exact Keeps.refl hc
      | unary op v k hk =>
        exact tail (.act _) _ _ (Nat.le_refl _) (hk _)
          (tail (.unary op v) _ _ (Nat.le_refl _) trivial (Keeps.refl hc))
      | binary l op r k hk =>
        exact tail (.act _) _ _ (Nat.le_refl _) (hk _)
          (tail (.binary l op r) _ _ (Nat.le_refl _) trivial (Keeps.refl hc))
      | eval e k he hk =>
        exact tail (.act _) _ _ (Nat.le_refl _) (hk _) (tail (.expr e) _ _ (Nat.le_refl _) he (Keeps.refl hc))
      | look k hk => exact tail (.act _) _ _ (Nat.le_refl _) (hk _) (Keeps.refl hc)
      | assign x v k hk =>
        exact tail (.act k) _ _ (Nat.le_refl _) hk (Keeps.setEnv (hc.same (fun _ _ => rfl)))
      | define f p k hk =>
        exact tail (.act _) _ _ (Nat.le_refl _) (hk _) (Keeps.setEnv (definition_ok S hc f p))
      | undefine nm b k hk =>
        exact tail (.act _) _ _ (Nat.le_refl _) (hk _) (Keeps.setEnv (Env.undefine_ok hc nm b))

end Verif.Exec
