import Verif.Exec.Lemmas

/-! # Execution: operators that assign before they read do not see what was in their frame -/

namespace Verif.Exec
open Verif.Arr (R)
variable {ν : Type}

theorem Env.Definite.install {g : Env ν} (h : g.Definite) (n : String) (b : Bool) (f : Option (Fn ν))
    (hf : ∀ x, f = some x → x.Definite b) : (g.install n b f).Definite := by
  intro n' b' x hx
  rw [Env.lookup_install] at hx
  split at hx
  · rename_i hb; rw [hb.2]; exact hf x hx
  · exact h n' b' x hx

theorem Env.Definite.same {g g' : Env ν} (h : g.Definite) (hl : ∀ n b, g'.lookup n b = g.lookup n b) :
    g'.Definite := by
  intro n b f hf
  rw [hl] at hf
  exact h n b f hf

theorem Env.define_definite (S : Sem ν) {g : Env ν} (h : g.Definite) (f : Fn ν) (hf : f.Definite f.isBinary) :
    (g.define S f).2.Definite := by
  have hn := noVar_lookup S g f.name
  unfold Env.define
  split
  · rename_i g1 heq
    rw [heq] at hn
    have h1 : g1.Definite := h.same hn
    exact (h1.install f.name f.isBinary (some f) (by intro x hx; cases hx; exact hf)).same (fun _ _ => rfl)
  · rename_i r g1 heq
    rw [heq] at hn
    exact h.same hn

theorem Env.undefine_definite {g : Env ν} (h : g.Definite) (n : String) (b : Bool) : (g.undefine n b).2.Definite := by
  unfold Env.undefine
  split
  · exact (h.install n b none (by simp)).same (fun _ _ => rfl)
  · exact h

theorem definition_definite (S : Sem ν) {g : Env ν} (h : g.Definite) (f : Fn ν)
    (p : Env ν → R (Option (List (Expr ν))))
    (hp : ∀ g body, p g = .ok body → (funcVars { f with body := body }).Definite f.isBinary) :
    (definition S g f p).2.Definite := by
  unfold definition
  split
  · exact h
  · have hd := declareAll_lookup (ν := ν) f.name (params f) [] g
    split
    · rename_i g1 heq
      rw [heq] at hd
      have h1 : g1.Definite := h.same hd
      have hprev : ∀ x, g1.lookup f.name f.isBinary = some x → x.Definite f.isBinary := h1 f.name f.isBinary
      have h2 := Env.define_definite S h1 { f with body := none, locals := [] } (by intro b hb; simp at hb)
      dsimp only
      split
      · rename_i g2 heq2
        rw [heq2] at h2
        split
        · rename_i body hbody
          have h3 := Env.define_definite S h2 (funcVars { f with body := body }) (hp g2 body hbody)
          split
          · rename_i g3 heq3
            rw [heq3] at h3
            exact h3.same (fun _ _ => rfl)
          · rename_i r g3 heq3
            rw [heq3] at h3
            exact (h3.install _ _ _ hprev).same (fun _ _ => rfl)
        · exact (h2.install _ _ _ hprev).same (fun _ _ => rfl)
        · exact (h2.install _ _ _ hprev).same (fun _ _ => rfl)
        · exact h2
      · rename_i r g2 heq2
        rw [heq2] at h2
        exact h2
    · rename_i r g1 heq
      rw [heq] at hd
      exact h.same hd

/-- Two contexts with the same global state, at the same depth of calls. -/
structure Base (c c' : Ctx ν) : Prop where
  env : c.env = c'.env
  depth : c.frames.length = c'.frames.length
  ok : c.env.Ok
  definite : c.env.Definite

/-- ... which agree on the local variables in `A`. -/
structure Rel (n : Nat) (A : List Nat) (c c' : Ctx ν) : Prop extends Base c c' where
  left : n ≤ c.len
  right : n ≤ c'.len
  agree : ∀ loc, loc ∈ A → 1 ≤ loc → loc ≤ n → c.slot (c.len - loc) = c'.slot (c'.len - loc)

/-- Two evaluations with the same outcome. -/
structure SimRes {α : Type} (n : Nat) (B : List Nat) (p p' : Res ν α) : Prop where
  same : p.1 = p'.1
  base : Base p.2 p'.2
  rel : ∀ a, p.1 = .ok a → Rel n B p.2 p'.2

theorem SimRes.andThen {α β : Type} {n : Nat} {B C : List Nat} {p p' : Res ν α} {f : α → Ctx ν → Res ν β}
    (h : SimRes n B p p') (hf : ∀ a, Rel n B p.2 p'.2 → SimRes n C (f a p.2) (f a p'.2)) :
    SimRes n C (andThen p f) (andThen p' f) := by
  have h1 := h.same
  have h2 := h.base
  have h3 := h.rel
  unfold Exec.andThen
  rw [← h1]
  cases hp : p.1 with
  | ok a => exact hf a (h3 a hp)
  | err m => exact ⟨rfl, h2, by intro a ha; cases ha⟩
  | crash => exact ⟨rfl, h2, by intro a ha; cases ha⟩
  | hang => exact ⟨rfl, h2, by intro a ha; cases ha⟩

theorem SimRes.pure {α : Type} {n : Nat} {B : List Nat} {c c' : Ctx ν} (h : Rel n B c c') (r : R α) :
    SimRes n B (r, c) (r, c') :=
  ⟨rfl, h.toBase, fun _ _ => h⟩

theorem SimRes.fail {α : Type} {n : Nat} {B : List Nat} {c c' : Ctx ν} (h : Base c c') (r : R α)
    (hr : ∀ a, r ≠ .ok a) : SimRes n B (r, c) (r, c') :=
  ⟨rfl, h, fun a ha => absurd ha (hr a)⟩

theorem Rel.sub {n : Nat} {A B : List Nat} {c c' : Ctx ν} (h : Rel n A c c') (hs : ∀ x, x ∈ B → x ∈ A) :
    Rel n B c c' :=
  ⟨h.toBase, h.left, h.right, fun loc hl => h.agree loc (hs loc hl)⟩

section
variable {M : Nat} {S : Sem ν} {ev : Expr ν → Ctx ν → Res ν ν}

/-- An evaluator whose outcome depends only on the variables certainly assigned. -/
def EvSim (ev : Expr ν → Ctx ν → Res ν ν) : Prop :=
  ∀ (e : Expr ν) (n : Nat) (A B : List Nat) (c c' : Ctx ν), Rel n A c c' → e.Scoped n → e.assigned A = some B →
    SimRes n B (ev e c) (ev e c')

theorem readVar_sim {n : Nat} {A : List Nat} {c c' : Ctx ν} (h : Rel n A c c') {x : String} {loc : Nat}
    (hl : loc ≤ n) (ha : loc = 0 ∨ loc ∈ A) : SimRes n A (readVar x loc c) (readVar x loc c') := by
  unfold readVar
  split
  · rename_i h1
    have hA : loc ∈ A := by rcases ha with h0 | h0; omega; exact h0
    have := h.agree loc hA h1 hl
    have l1 := h.left
    have l2 := h.right
    have hg : c'.getLocal loc = c.getLocal loc := by
      unfold Ctx.getLocal
      rw [if_pos (by omega), if_pos (by omega), this]
    rw [hg]
    split
    · exact SimRes.pure h _
    · exact SimRes.pure h _
    · exact SimRes.pure h _
  · rw [← h.env]
    split
    · exact SimRes.pure h _
    · exact SimRes.pure h _

theorem indexTarget_sim {n : Nat} {A : List Nat} {c c' : Ctx ν} (h : Rel n A c c') {x : String} {loc : Nat}
    (hl : loc ≤ n) (ha : loc = 0 ∨ loc ∈ A) : SimRes n A (indexTarget x loc c) (indexTarget x loc c') := by
  unfold indexTarget
  split
  · rename_i h1
    have hA : loc ∈ A := by rcases ha with h0 | h0; omega; exact h0
    have := h.agree loc hA h1 hl
    have l1 := h.left
    have l2 := h.right
    have hg : c'.getLocal loc = c.getLocal loc := by
      unfold Ctx.getLocal
      rw [if_pos (by omega), if_pos (by omega), this]
    rw [hg]
    split
    · exact SimRes.pure h _
    · exact SimRes.pure h _
  · rw [← h.env]
    split
    · exact SimRes.pure h _
    · exact SimRes.pure h _

theorem setVar_sim {n : Nat} {A : List Nat} {c c' : Ctx ν} (h : Rel n A c c') {x : String} {loc : Nat} {v : ν}
    (hl : loc ≤ n) : SimRes n (loc :: A) (setVar x loc v c) (setVar x loc v c') := by
  have l1 := h.left
  have l2 := h.right
  unfold setVar
  split
  · unfold Ctx.setLocal
    rw [if_pos (by omega), if_pos (by omega)]
    refine ⟨rfl, ⟨h.env, h.depth, h.ok, h.definite⟩, fun a _ => ⟨⟨h.env, h.depth, h.ok, h.definite⟩, h.left, h.right, ?_⟩⟩
    intro k hk k1 kn
    show (if c.len - k = c.len - loc then some v else c.slot (c.len - k)) =
      (if c'.len - k = c'.len - loc then some v else c'.slot (c'.len - k))
    by_cases hkl : k = loc
    · rw [if_pos (by omega), if_pos (by omega)]
    · rw [if_neg (by omega), if_neg (by omega)]
      rw [List.mem_cons] at hk
      rcases hk with hk | hk
      · exact absurd hk hkl
      · exact h.agree k hk k1 kn
  · rename_i h0
    have hb : Base { c with env := c.env.assign x v } { c' with env := c'.env.assign x v } :=
      ⟨by show c.env.assign x v = c'.env.assign x v; rw [h.env], h.depth, h.ok.same (fun _ _ => rfl),
        h.definite.same (fun _ _ => rfl)⟩
    refine ⟨rfl, hb, fun a _ => ⟨hb, h.left, h.right, ?_⟩⟩
    intro k hk k1 kn
    rw [List.mem_cons] at hk
    rcases hk with hk | hk
    · omega
    · exact h.agree k hk k1 kn

theorem evalRev_sim (hev : EvSim ev) {n : Nat} : ∀ (es : List (Expr ν)) (A B : List Nat) (c c' : Ctx ν),
    Rel n A c c' → ScopedAll n es → assignedRev es A = some B → SimRes n B (evalRev ev es c) (evalRev ev es c')
  | [], A, B, c, c', h, _, ha => by
    simp only [assignedRev, Option.some.injEq] at ha
    subst ha
    exact SimRes.pure h _
  | e :: es, A, B, c, c', h, hs, ha => by
    simp only [ScopedAll] at hs
    simp only [assignedRev, Option.bind_eq_some_iff] at ha
    obtain ⟨C, h1, h2⟩ := ha
    simp only [evalRev]
    exact (evalRev_sim hev es A C c c' h hs.2 h1).andThen fun vs r1 =>
      (hev e n C B _ _ r1 hs.1 h2).andThen fun v r2 => SimRes.pure r2 _

theorem evalIdx1_sim (hev : EvSim ev) {n : Nat} {A B : List Nat} {c c' : Ctx ν} {e : Expr ν} (h : Rel n A c c')
    (hs : e.Scoped n) (ha : e.assigned A = some B) : SimRes n B (evalIdx1 S ev e c) (evalIdx1 S ev e c') := by
  unfold evalIdx1
  split
  · simp only [Expr.assigned, Option.some.injEq] at ha
    subst ha
    exact SimRes.pure h _
  · refine (hev _ n A B c c' h hs ha).andThen fun v r1 => ?_
    split <;> exact SimRes.pure r1 _

theorem evalIdx_sim (hev : EvSim ev) {n : Nat} : ∀ (es : List (Expr ν)) (A B : List Nat) (c c' : Ctx ν),
    Rel n A c c' → ScopedAll n es → assignedRev es A = some B → SimRes n B (evalIdx S ev es c) (evalIdx S ev es c')
  | [], A, B, c, c', h, _, ha => by
    simp only [assignedRev, Option.some.injEq] at ha
    subst ha
    exact SimRes.pure h _
  | e :: es, A, B, c, c', h, hs, ha => by
    simp only [ScopedAll] at hs
    simp only [assignedRev, Option.bind_eq_some_iff] at ha
    obtain ⟨C, h1, h2⟩ := ha
    simp only [evalIdx]
    exact (evalIdx_sim hev es A C c c' h hs.2 h1).andThen fun vs r1 =>
      (evalIdx1_sim hev r1 hs.1 h2).andThen fun v r2 => SimRes.pure r2 _

theorem indexAssign_sim (hev : EvSim ev) {n : Nat} {A B : List Nat} {c c' : Ctx ν} {x : String} {loc : Nat}
    {is : List (Expr ν)} {v : ν} (h : Rel n A c c') (hl : loc ≤ n) (his : ScopedAll n is)
    (ha : assignedRev is A = some B) (hloc : loc = 0 ∨ loc ∈ B) :
    SimRes n B (indexAssign S ev x loc is v c) (indexAssign S ev x loc is v c') := by
  unfold indexAssign
  refine (evalIdx_sim hev is A B c c' h his ha).andThen fun ivs r1 => ?_
  refine (indexTarget_sim r1 hl hloc).andThen fun old r2 => ?_
  cases S.setIndex old ivs v with
  | ok new =>
    have := setVar_sim (x := x) (v := new) r2 hl
    exact ⟨this.same, this.base, fun a ha => (this.rel a ha).sub fun y hy => List.mem_cons_of_mem _ hy⟩
  | err m => exact SimRes.pure r2 _
  | crash => exact SimRes.pure r2 _
  | hang => exact SimRes.pure r2 _

mutual
theorem assignTo_sim (hev : EvSim ev) {n : Nat} : ∀ (e : Expr ν) (v : ν) (A B : List Nat) (c c' : Ctx ν),
    Rel n A c c' → e.Scoped n → e.target A = some B → SimRes n B (assignTo S ev e v c) (assignTo S ev e v c')
  | .var x loc, v, A, B, c, c', h, hs, ht => by
    simp only [Expr.target, Option.some.injEq] at ht
    subst ht
    simp only [assignTo]
    exact setVar_sim h (by simpa [Expr.Scoped] using hs)
  | .lit _, v, A, B, c, c', h, hs, ht => by simp only [assignTo]; exact SimRes.fail h.toBase _ (by simp)
  | .hole, v, A, B, c, c', h, hs, ht => by simp only [assignTo]; exact SimRes.fail h.toBase _ (by simp)
  | .unary _ _, v, A, B, c, c', h, hs, ht => by simp only [assignTo]; exact SimRes.fail h.toBase _ (by simp)
  | .binary _ _ _, v, A, B, c, c', h, hs, ht => by simp only [assignTo]; exact SimRes.fail h.toBase _ (by simp)
  | .cond _ _, v, A, B, c, c', h, hs, ht => by simp only [assignTo]; exact SimRes.fail h.toBase _ (by simp)
  | .vec es, v, A, B, c, c', h, hs, ht => by
    simp only [Expr.target] at ht
    simp only [Expr.Scoped] at hs
    simp only [assignTo]
    cases S.asVector v with
    | none => exact SimRes.fail h.toBase _ (by simp)
    | some vs =>
      dsimp only
      by_cases hlen : es.length ≠ vs.length
      · rw [if_pos hlen, if_pos hlen]; exact SimRes.fail h.toBase _ (by simp)
      · rw [if_neg hlen, if_neg hlen]
        exact assignRev_sim hev es vs A B c c' h hs ht (by omega)
  | .index l is, v, A, B, c, c', h, hs, ht => by
    simp only [Expr.target, Option.bind_eq_some_iff] at ht
    simp only [Expr.Scoped] at hs
    obtain ⟨C, h1, h2⟩ := ht
    cases l with
    | var x loc =>
      simp only [Expr.assigned] at h2
      by_cases hloc : loc = 0 ∨ loc ∈ C
      · rw [if_pos hloc, Option.some.injEq] at h2
        subst h2
        simp only [assignTo]
        exact indexAssign_sim hev h (by simpa [Expr.Scoped] using hs.1) hs.2 h1 hloc
      · rw [if_neg hloc] at h2; cases h2
    | _ => simp only [assignTo]; exact SimRes.fail h.toBase _ (by simp)

theorem assignRev_sim (hev : EvSim ev) {n : Nat} : ∀ (es : List (Expr ν)) (vs : List ν) (A B : List Nat)
    (c c' : Ctx ν), Rel n A c c' → ScopedAll n es → targetRev es A = some B → es.length = vs.length →
    SimRes n B (assignRev S ev es vs c) (assignRev S ev es vs c')
  | [], vs, A, B, c, c', h, hs, ht, hl => by
    simp only [targetRev, Option.some.injEq] at ht
    subst ht
    simp only [assignRev]
    exact SimRes.pure h _
  | e :: es, [], A, B, c, c', h, hs, ht, hl => by simp at hl
  | e :: es, v :: vs, A, B, c, c', h, hs, ht, hl => by
    simp only [ScopedAll] at hs
    simp only [targetRev, Option.bind_eq_some_iff] at ht
    obtain ⟨C, h1, h2⟩ := ht
    simp only [assignRev]
    exact (assignRev_sim hev es vs A C c c' h hs.2 h1 (by simpa using hl)).andThen fun _ r1 =>
      assignTo_sim hev e v C B _ _ r1 hs.1 h2
end

theorem Rel.nil {n : Nat} {A : List Nat} {c c' : Ctx ν} (h : Rel n A c c') : Rel n [] c c' := h.sub (by simp)

theorem SimRes.nil {α : Type} {n : Nat} {A : List Nat} {p p' : Res ν α} (h : SimRes n A p p') : SimRes n [] p p' :=
  ⟨h.same, h.base, fun a ha => (h.rel a ha).nil⟩

theorem evalBody_sim (hev : EvSim ev) {n : Nat} : ∀ (es : List (Expr ν)) (last : Option ν) (A : List Nat)
    (c c' : Ctx ν), Rel n A c c' → ScopedAll n es → bodyDefinite es A →
    SimRes n [] (evalBody S ev es last c) (evalBody S ev es last c')
  | [], last, A, c, c', h, hs, hd => SimRes.pure h.nil _
  | e :: es, last, A, c, c', h, hs, hd => by
    simp only [ScopedAll] at hs
    have plain : (∃ B, e.assigned A = some B ∧ bodyDefinite es B) →
        SimRes n [] (andThen (ev e c) fun v c1 => evalBody S ev es (some v) c1)
          (andThen (ev e c') fun v c1 => evalBody S ev es (some v) c1) := by
      rintro ⟨B, h1, h2⟩
      exact (hev e n A B c c' h hs.1 h1).andThen fun v r1 => evalBody_sim hev es _ B _ _ r1 hs.2 h2
    cases e with
    | cond l r =>
      simp only [Expr.Scoped] at hs
      simp only [bodyDefinite] at hd
      obtain ⟨B, h1, ⟨D, h2⟩, h3⟩ := hd
      simp only [evalBody]
      refine (hev l n A B c c' h hs.1.1 h1).andThen fun v r1 => ?_
      cases S.isTrue v with
      | ok b =>
        cases b with
        | true => exact ((hev r n B D _ _ r1 hs.1.2 h2).nil).andThen fun w r2 => SimRes.pure r2 _
        | false => exact evalBody_sim hev es _ B _ _ r1 hs.2 h3
      | err m => exact SimRes.pure r1.nil _
      | crash => exact SimRes.pure r1.nil _
      | hang => exact SimRes.pure r1.nil _
    | _ => simp only [bodyDefinite] at hd; simp only [evalBody]; exact plain hd

theorem runFn_sim (hev : EvSim ev) {f : Fn ν} {body : List (Expr ν)} {args : Option ν × ν} {c c' : Ctx ν}
    (h : Rel f.locals.length [] c c') (hf : f.Ok) (hd : f.Definite args.1.isSome) (hb : f.body = some body) :
    SimRes f.locals.length [] (runFn S ev f body args c) (runFn S ev f body args c') := by
  obtain ⟨hl, hr, hbody⟩ := hf body hb
  obtain ⟨A, hA, hdef⟩ := hd body hb
  simp only [Fn.entry, Option.bind_eq_some_iff] at hA
  obtain ⟨B, hB, hAB⟩ := hA
  unfold runFn
  have h0 : SimRes f.locals.length B
      (match f.left, args.1 with | some p, some v => assignTo S ev p v c | _, _ => (R.ok (), c))
      (match f.left, args.1 with | some p, some v => assignTo S ev p v c' | _, _ => (R.ok (), c')) := by
    cases hfl : f.left with
    | none =>
      rw [hfl] at hB
      cases hargs : args.1 <;> (rw [hargs] at hB; simp at hB; subst hB; exact SimRes.pure h _)
    | some p =>
      rw [hfl] at hB
      cases hargs : args.1 with
      | none => rw [hargs] at hB; simp at hB; subst hB; exact SimRes.pure h _
      | some v =>
        rw [hargs] at hB
        exact assignTo_sim hev p v [] B c c' h (hl p hfl) hB
  refine h0.andThen fun _ r1 => ?_
  refine (assignTo_sim hev f.right args.2 B A _ _ r1 hr hAB).andThen fun _ r2 => ?_
  refine (evalBody_sim hev body none A _ _ r2 hbody hdef).andThen fun r r3 => ?_
  cases r with
  | none => exact SimRes.pure r3 _
  | some v => exact SimRes.pure r3 _

/-- Two evaluations at the same depth with the same outcome and the same effect on the global state. -/
structure SameRes {α : Type} (p p' : Res ν α) : Prop where
  same : p.1 = p'.1
  base : Base p.2 p'.2

theorem callFn_sim (hev : EvSim ev) (hk : EvKeeps M ev) {f : Fn ν} {args : Option ν × ν} {c c' : Ctx ν}
    (h : Base c c') (hf : f.Ok) (hd : f.Definite args.1.isSome) :
    SameRes (callFn S M ev f args c) (callFn S M ev f args c') := by
  unfold callFn
  cases hb : f.body with
  | none => exact ⟨rfl, h⟩
  | some body =>
    dsimp only
    by_cases hM : M ≤ c.frames.length
    · rw [if_pos hM, if_pos (by rw [← h.depth]; exact hM)]; exact ⟨rfl, h⟩
    · rw [if_neg hM, if_neg (by rw [← h.depth]; exact hM)]
      have hr : Rel f.locals.length [] (c.push f) (c'.push f) :=
        ⟨⟨h.env, by show c.frames.length + 1 = c'.frames.length + 1; rw [h.depth], h.ok, h.definite⟩,
          by show _ ≤ c.len + _; omega, by show _ ≤ c'.len + _; omega, by simp⟩
      have hs := runFn_sim (S := S) hev hr hf hd hb
      have k1 := (runFn_keeps (M := M) (S := S) (args := args) (c := c.push f) hk h.ok
        (by show _ ≤ c.len + _; omega) hf hb).frames
      have k2 := (runFn_keeps (M := M) (S := S) (args := args) (c := c'.push f) hk (by
        show c'.env.Ok; rw [← h.env]; exact h.ok) (by show _ ≤ c'.len + _; omega) hf hb).frames
      refine ⟨hs.same, ?_⟩
      have b := hs.base
      show Base (runFn S ev f body args (c.push f)).2.pop (runFn S ev f body args (c'.push f)).2.pop
      unfold Ctx.pop
      rw [show (runFn S ev f body args (c.push f)).2.frames = f.locals.length :: c.frames from k1,
        show (runFn S ev f body args (c'.push f)).2.frames = f.locals.length :: c'.frames from k2]
      exact ⟨b.env, h.depth, b.ok, b.definite⟩

theorem Rel.keep {n : Nat} {A : List Nat} {c c' d d' : Ctx ν} (h : Rel n A c c') (hb : Base d d')
    (k1 : Keeps M c.len c d) (k2 : Keeps M c'.len c' d') : Rel n A d d' := by
  have l1 := h.left
  have l2 := h.right
  refine ⟨hb, by rw [k1.len]; exact l1, by rw [k2.len]; exact l2, fun loc hl h1 hn => ?_⟩
  rw [k1.len, k2.len, k1.slot _ (by omega), k2.slot _ (by omega)]
  exact h.agree loc hl h1 hn
end

/-- A task without local variables which defines only operators that assign before they read. -/
def Task.Plain : Task ν → Prop
  | .expr _ => False
  | .unary _ _ => True
  | .binary _ _ _ => True
  | .act a => a.Ok ∧ a.Definite

mutual
theorem assigned_global : ∀ (e : Expr ν) (A : List Nat), e.Scoped 0 → ∃ B, e.assigned A = some B
  | .lit _, A, _ => ⟨A, rfl⟩
  | .hole, A, _ => ⟨A, rfl⟩
  | .var _ loc, A, h => by
    simp only [Expr.Scoped] at h
    exact ⟨A, by simp only [Expr.assigned]; rw [if_pos (by left; omega)]⟩
  | .unary _ r, A, h => by simp only [Expr.Scoped] at h; simp only [Expr.assigned]; exact assigned_global r A h
  | .binary op l r, A, h => by
    simp only [Expr.Scoped] at h
    obtain ⟨B, hB⟩ := assigned_global r A h.2
    simp only [Expr.assigned, hB, Option.bind_some]
    split
    · exact target_global l B h.1
    · exact assigned_global l B h.1
  | .cond l r, A, h => by
    simp only [Expr.Scoped] at h
    obtain ⟨B, hB⟩ := assigned_global r A h.2
    simp only [Expr.assigned, hB, Option.bind_some]
    exact assigned_global l B h.1
  | .vec es, A, h => by
    simp only [Expr.Scoped] at h
    simp only [Expr.assigned]
    exact assignedRev_global es A h
  | .index l is, A, h => by
    simp only [Expr.Scoped] at h
    obtain ⟨B, hB⟩ := assignedRev_global is A h.2
    simp only [Expr.assigned, hB, Option.bind_some]
    exact assigned_global l B h.1

theorem assignedRev_global : ∀ (es : List (Expr ν)) (A : List Nat), ScopedAll 0 es → ∃ B, assignedRev es A = some B
  | [], A, _ => ⟨A, rfl⟩
  | e :: es, A, h => by
    simp only [ScopedAll] at h
    obtain ⟨B, hB⟩ := assignedRev_global es A h.2
    simp only [assignedRev, hB, Option.bind_some]
    exact assigned_global e B h.1

theorem target_global : ∀ (e : Expr ν) (A : List Nat), e.Scoped 0 → ∃ B, e.target A = some B
  | .lit _, A, _ => ⟨A, rfl⟩
  | .hole, A, _ => ⟨A, rfl⟩
  | .var _ loc, A, h => ⟨loc :: A, rfl⟩
  | .unary _ r, A, h => by simp only [Expr.Scoped] at h; simp only [Expr.target]; exact assigned_global r A h
  | .binary op l r, A, h => by
    simp only [Expr.Scoped] at h
    obtain ⟨B, hB⟩ := assigned_global r A h.2
    simp only [Expr.target, hB, Option.bind_some]
    split
    · exact target_global l B h.1
    · exact assigned_global l B h.1
  | .cond l r, A, h => by
    simp only [Expr.Scoped] at h
    obtain ⟨B, hB⟩ := assigned_global r A h.2
    simp only [Expr.target, hB, Option.bind_some]
    exact assigned_global l B h.1
  | .vec es, A, h => by
    simp only [Expr.Scoped] at h
    simp only [Expr.target]
    exact targetRev_global es A h
  | .index l is, A, h => by
    simp only [Expr.Scoped] at h
    obtain ⟨B, hB⟩ := assignedRev_global is A h.2
    simp only [Expr.target, hB, Option.bind_some]
    exact assigned_global l B h.1

theorem targetRev_global : ∀ (es : List (Expr ν)) (A : List Nat), ScopedAll 0 es → ∃ B, targetRev es A = some B
  | [], A, _ => ⟨A, rfl⟩
  | e :: es, A, h => by
    simp only [ScopedAll] at h
    obtain ⟨B, hB⟩ := targetRev_global es A h.2
    simp only [targetRev, hB, Option.bind_some]
    exact target_global e B h.1
end

/-- The outcome of every task depends only on the global state, the depth of calls and the local variables certainly
assigned. -/
theorem run_sim {S : Sem ν} (hS : S.Ok) (hSd : S.Definite) (M : Nat) : ∀ (fuel : Nat),
    EvSim (fun e c => run S M fuel (.expr e) c) ∧
      ∀ (t : Task ν) (c c' : Ctx ν), t.Plain → Base c c' → SameRes (run S M fuel t c) (run S M fuel t c')
  | 0 => ⟨fun e n A B c c' h _ _ => SimRes.fail h.toBase _ (by simp), fun t c c' _ h => ⟨rfl, h⟩⟩
  | fuel + 1 => by
    obtain ⟨hev, ih⟩ := run_sim hS hSd M fuel
    have hk : EvKeeps M (fun e c => run S M fuel (.expr e) c) :=
      fun e n c h1 h2 h3 => run_keeps hS M fuel (.expr e) n c h1 h2 h3
    constructor
    · intro e n A B c c' h hs ha
      have tail : ∀ (t : Task ν) (C : List Nat) (d d' : Ctx ν), t.Plain → Rel n C d d' →
          SimRes n C (run S M fuel t d) (run S M fuel t d') := by
        intro t C d d' ht hr
        have h1 := ih t d d' ht hr.toBase
        have hts : t.Scoped 0 := by cases t <;> simp_all [Task.Scoped, Task.Plain]
        have ho : t.own 0 = 0 := by cases t <;> rfl
        have k1 := run_keeps hS M fuel t 0 d hr.ok hts (Nat.zero_le _)
        have k2 := run_keeps hS M fuel t 0 d' (by rw [← hr.env]; exact hr.ok) hts (Nat.zero_le _)
        rw [ho, Nat.sub_zero] at k1 k2
        exact ⟨h1.same, h1.base, fun _ _ => hr.keep h1.base k1 k2⟩
      show SimRes n B (evalExpr S (run S M fuel) e c) (evalExpr S (run S M fuel) e c')
      unfold evalExpr
      cases e with
      | lit v =>
        simp only [Expr.assigned, Option.some.injEq] at ha
        subst ha
        exact SimRes.pure h _
      | hole => exact SimRes.fail h.toBase _ (by simp)
      | var x loc =>
        simp only [Expr.assigned] at ha
        by_cases hloc : loc = 0 ∨ loc ∈ A
        · rw [if_pos hloc, Option.some.injEq] at ha
          subst ha
          exact readVar_sim h (by simpa [Expr.Scoped] using hs) hloc
        · rw [if_neg hloc] at ha; cases ha
      | unary op r =>
        simp only [Expr.assigned] at ha
        simp only [Expr.Scoped] at hs
        exact (hev r n A B c c' h hs ha).andThen fun v r1 => tail (.unary op (S.inner v)) B _ _ trivial r1
      | binary op l r =>
        simp only [Expr.assigned, Option.bind_eq_some_iff] at ha
        simp only [Expr.Scoped] at hs
        obtain ⟨C, h1, h2⟩ := ha
        dsimp only
        by_cases hop : op = "="
        · rw [if_pos hop] at h2
          rw [if_pos hop, if_pos hop]
          exact (hev r n A C c c' h hs.2 h1).andThen fun v r1 =>
            (assignTo_sim hev l (S.inner v) C B _ _ r1 hs.1 h2).andThen fun _ r2 => SimRes.pure r2 _
        · rw [if_neg hop] at h2
          rw [if_neg hop, if_neg hop]
          exact (hev r n A C c c' h hs.2 h1).andThen fun v r1 =>
            (hev l n C B _ _ r1 hs.1 h2).andThen fun u r2 => tail (.binary u op (S.inner v)) B _ _ trivial r2
      | cond l r =>
        simp only [Expr.assigned, Option.bind_eq_some_iff] at ha
        simp only [Expr.Scoped] at hs
        obtain ⟨C, h1, h2⟩ := ha
        exact (hev r n A C c c' h hs.2 h1).andThen fun v r1 =>
            (hev l n C B _ _ r1 hs.1 h2).andThen fun u r2 => tail (.binary u ":" (S.inner v)) B _ _ trivial r2
      | vec es =>
        simp only [Expr.assigned] at ha
        simp only [Expr.Scoped] at hs
        exact (evalRev_sim hev es A B c c' h hs ha).andThen fun vs r1 => SimRes.pure r1 _
      | index l is =>
        simp only [Expr.assigned, Option.bind_eq_some_iff] at ha
        simp only [Expr.Scoped] at hs
        obtain ⟨C, h1, h2⟩ := ha
        exact (evalIdx_sim hev is A C c c' h hs.2 h1).andThen fun ivs r1 =>
          (hev l n C B _ _ r1 hs.1 h2).andThen fun u r2 => SimRes.pure r2 _
    · intro t c c' ht h
      cases t with
      | expr e => exact absurd ht (by simp [Task.Plain])
      | unary op v =>
        show SameRes (evalUnary S M (run S M fuel) op v c) (evalUnary S M (run S M fuel) op v c')
        unfold evalUnary
        rw [← h.env]
        cases hp : S.unaryDerived op with
        | some p => exact ih (.act (p v)) c c' ⟨hS.unaryDerived op p v hp, hSd.unaryDerived op p v hp⟩ h
        | none =>
          dsimp only
          cases hf : c.env.unaryFn op with
          | some f => exact callFn_sim hev hk h (h.ok op false f hf) (h.definite op false f hf)
          | none =>
            dsimp only
            cases hq : S.unary op with
            | some p => exact ih (.act (p v)) c c' ⟨hS.unary op p v hq, hSd.unary op p v hq⟩ h
            | none => exact ⟨rfl, h⟩
      | binary l op r =>
        show SameRes (evalBinary S M (run S M fuel) l op r c) (evalBinary S M (run S M fuel) l op r c')
        unfold evalBinary
        rw [← h.env]
        cases hp : S.binaryDerived l op r with
        | some p => exact ih (.act p) c c' ⟨hS.binaryDerived l op r p hp, hSd.binaryDerived l op r p hp⟩ h
        | none =>
          dsimp only
          cases hf : c.env.binaryFn op with
          | some f => exact callFn_sim hev hk h (h.ok op true f hf) (h.definite op true f hf)
          | none =>
            dsimp only
            cases hq : S.binary op with
            | some p => exact ih (.act (p l r)) c c' ⟨hS.binary op p l r hq, hSd.binary op p l r hq⟩ h
            | none => exact ⟨rfl, h⟩
      | act a =>
        obtain ⟨hok, hdf⟩ := ht
        show SameRes (evalAct S (run S M fuel) a c) (evalAct S (run S M fuel) a c')
        unfold evalAct
        cases a with
        | done r => exact ⟨rfl, h⟩
        | unary op v k =>
          cases hok with | unary _ _ _ hk1 =>
          cases hdf with | unary _ _ _ hk2 =>
          have h1 := ih (.unary op v) c c' trivial h
          dsimp only
          rw [← h1.same]
          exact ih _ _ _ ⟨hk1 _, hk2 _⟩ h1.base
        | binary l op r k =>
          cases hok with | binary _ _ _ _ hk1 =>
          cases hdf with | binary _ _ _ _ hk2 =>
          have h1 := ih (.binary l op r) c c' trivial h
          dsimp only
          rw [← h1.same]
          exact ih _ _ _ ⟨hk1 _, hk2 _⟩ h1.base
        | eval e k =>
          cases hok with | eval _ _ he hk1 =>
          cases hdf with | eval _ _ hk2 =>
          obtain ⟨B, hB⟩ := assigned_global e [] he
          have h1 := hev e 0 [] B c c' ⟨h, Nat.zero_le _, Nat.zero_le _, by simp⟩ he hB
          dsimp only
          rw [← h1.same]
          exact ih _ _ _ ⟨hk1 _, hk2 _⟩ h1.base
        | look k =>
          cases hok with | look _ hk1 =>
          cases hdf with | look _ hk2 =>
          dsimp only
          rw [← h.env]
          exact ih _ _ _ ⟨hk1 _, hk2 _⟩ h
        | assign x v k =>
          cases hok with | assign _ _ _ hk1 =>
          cases hdf with | assign _ _ _ hk2 =>
          refine ih _ _ _ ⟨hk1, hk2⟩ ⟨?_, h.depth, h.ok.same (fun _ _ => rfl), h.definite.same (fun _ _ => rfl)⟩
          show c.env.assign x v = c'.env.assign x v
          rw [h.env]
        | define f p k =>
          cases hok with | define _ _ _ hk1 =>
          cases hdf with | define _ _ _ hp hk2 =>
          dsimp only
          rw [← h.env]
          exact ih _ _ _ ⟨hk1 _, hk2 _⟩ ⟨rfl, h.depth, definition_ok S h.ok f p, definition_definite S h.definite f p hp⟩
        | undefine nm b k =>
          cases hok with | undefine _ _ _ hk1 =>
          cases hdf with | undefine _ _ _ hk2 =>
          dsimp only
          rw [← h.env]
          exact ih _ _ _ ⟨hk1 _, hk2 _⟩ ⟨rfl, h.depth, Env.undefine_ok h.ok nm b, Env.undefine_definite h.definite nm b⟩

end Verif.Exec
