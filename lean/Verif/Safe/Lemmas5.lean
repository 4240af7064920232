import Verif.Safe.Lemmas4
import Verif.Exec.Lemmas4

/-!
# Definitions, lines and sessions do not fault
-/

namespace Verif.Safe
open Verif.Arr (R)
open Verif.Exec
open Verif.Order (Val)

theorem wellIs_cons {e : Expr Val} {es : List (Expr Val)} : WellIs (e :: es) ↔ (e = .hole ∨ WellE e) ∧ WellIs es := by
  cases e <;> simp [WellIs, WellE]

theorem walkRev_nil {es : List (Expr Val)} {a : Bool} {s : Scope} (h : es ≠ []) : (walkRev es a s).1 ≠ [] := by
  cases es with
  | nil => exact (h rfl).elim
  | cons e es => simp [walkRev]

mutual
theorem walk_wellE : ∀ (e : Expr Val) (a : Bool) (s : Scope), WellE e → WellE (walk e a s).1
  | .lit v, a, s, h => h
  | .hole, a, s, h => h
  | .var x l, a, s, h => trivial
  | .unary op r, a, s, h => by
    simp only [walk, WellE] at h ⊢
    exact walk_wellE r _ _ h
  | .binary op l r, a, s, h => by
    simp only [walk, WellE] at h ⊢
    refine ⟨walk_wellE r _ _ h.1, ?_⟩
    have h2 := h.2
    split
    · rename_i e; rw [if_pos e] at h2; exact walk_wellT l _ _ h2
    · rename_i e; rw [if_neg e] at h2; exact walk_wellE l _ _ h2
  | .cond l r, a, s, h => by
    simp only [walk, WellE] at h ⊢
    exact ⟨walk_wellE l _ _ h.1, walk_wellE r _ _ h.2⟩
  | .vec es, a, s, h => by
    simp only [walk, WellE] at h ⊢
    exact walkRev_wellEs es _ _ h
  | .index l is, a, s, h => by
    simp only [walk, WellE] at h ⊢
    exact ⟨walk_wellE l _ _ h.1, walkRev_nil h.2.1, walkRev_wellIs is _ _ h.2.2⟩
theorem walkRev_wellEs : ∀ (es : List (Expr Val)) (a : Bool) (s : Scope), WellEs es → WellEs (walkRev es a s).1
  | [], _, _, _ => trivial
  | e :: es, a, s, h => by
    simp only [walkRev, WellEs] at h ⊢
    exact ⟨walk_wellE e _ _ h.1, walkRev_wellEs es _ _ h.2⟩
theorem walkRev_wellIs : ∀ (es : List (Expr Val)) (a : Bool) (s : Scope), WellIs es → WellIs (walkRev es a s).1
  | [], _, _, _ => trivial
  | e :: es, a, s, h => by
    rw [wellIs_cons] at h
    simp only [walkRev]
    rw [wellIs_cons]
    refine ⟨?_, walkRev_wellIs es _ _ h.2⟩
    rcases h.1 with h | h
    · left; rw [h]; simp only [walk]
    · right; exact walk_wellE e _ _ h
theorem walk_wellT : ∀ (e : Expr Val) (a : Bool) (s : Scope), WellT e → WellT (walk e a s).1
  | .lit _, _, _, _ => trivial
  | .hole, _, _, _ => trivial
  | .var _ _, _, _, _ => trivial
  | .unary _ _, _, _, _ => by simp only [walk, WellT]
  | .binary _ _ _, _, _, _ => by simp only [walk, WellT]
  | .cond _ _, _, _, _ => by simp only [walk, WellT]
  | .vec es, a, s, h => by
    simp only [walk, WellT] at h ⊢
    exact walkRev_wellTs es _ _ h
  | .index l is, a, s, h => by
    cases l with
    | var x loc =>
      simp only [walk, WellT] at h ⊢
      exact ⟨walkRev_nil h.1, walkRev_wellIs is _ _ h.2⟩
    | lit _ => simp only [walk, WellT]
    | hole => simp only [walk, WellT]
    | unary _ _ => simp only [walk, WellT]
    | binary _ _ _ => simp only [walk, WellT]
    | cond _ _ => simp only [walk, WellT]
    | vec _ => simp only [walk, WellT]
    | index _ _ => simp only [walk, WellT]
theorem walkRev_wellTs : ∀ (es : List (Expr Val)) (a : Bool) (s : Scope), WellTs es → WellTs (walkRev es a s).1
  | [], _, _, _ => trivial
  | e :: es, a, s, h => by
    simp only [walkRev, WellTs] at h ⊢
    exact ⟨walk_wellT e _ _ h.1, walkRev_wellTs es _ _ h.2⟩
end

theorem walkBody_well : ∀ (es : List (Expr Val)) (s : Scope), WellEs es → WellEs (walkBody es s).1
  | [], _, _ => trivial
  | e :: es, s, h => by
    simp only [walkBody, WellEs] at h ⊢
    exact ⟨walk_wellE e _ _ h.1, walkBody_well es _ h.2⟩

theorem funcVars_well {f : Fn Val} (h : WellFn f) : WellFn (funcVars f) := by
  refine ⟨fun l e => ?_, ?_, fun b e => ?_⟩
  · change (walkOpt f.left ⟨[], fun _ => none⟩).1 = some l at e
    cases el : f.left with
    | none => rw [el] at e; cases e
    | some p =>
      rw [el] at e
      simp only [walkOpt, Option.some.injEq] at e
      subst e
      exact walk_wellT p _ _ (h.left p el)
  · exact walk_wellT _ _ _ h.right
  · unfold funcVars at e
    dsimp only at e
    cases eb : f.body with
    | none => rw [eb] at e; cases e
    | some p =>
      rw [eb] at e
      simp only [walkBodyOpt, Option.some.injEq] at e
      subst e
      exact walkBody_well p _ (h.body p eb)

/-! ## Lines typed outside of operators -/

mutual
theorem sure_top : ∀ (e : Expr Val) (a : List Nat), e.Scoped 0 → (sure e a).isSome = true
  | .lit _, a, _ => rfl
  | .hole, a, _ => rfl
  | .var _ _, a, _ => rfl
  | .unary _ r, a, h => sure_top r a h
  | .binary op l r, a, h => by
    simp only [Expr.Scoped] at h
    obtain ⟨b, hb⟩ := Option.isSome_iff_exists.1 (sure_top r a h.2)
    simp only [sure, hb, Option.bind_some]
    split
    · exact sureT_top l b h.1
    · exact sure_top l b h.1
  | .cond l r, a, h => by
    simp only [Expr.Scoped] at h
    obtain ⟨b, hb⟩ := Option.isSome_iff_exists.1 (sure_top r a h.2)
    simp only [sure, hb, Option.bind_some]
    exact sure_top l b h.1
  | .vec es, a, h => sureRev_top es a h
  | .index l is, a, h => by
    simp only [Expr.Scoped] at h
    obtain ⟨b, hb⟩ := Option.isSome_iff_exists.1 (sureRev_top is a h.2)
    simp only [sure, hb, Option.bind_some]
    exact sure_top l b h.1
theorem sureRev_top : ∀ (es : List (Expr Val)) (a : List Nat), ScopedAll 0 es → (sureRev es a).isSome = true
  | [], _, _ => rfl
  | e :: es, a, h => by
    obtain ⟨b, hb⟩ := Option.isSome_iff_exists.1 (sureRev_top es a h.2)
    simp only [sureRev, hb, Option.bind_some]
    exact sure_top e b h.1
theorem sureT_top : ∀ (e : Expr Val) (a : List Nat), e.Scoped 0 → (sureT e a).isSome = true
  | .lit _, a, _ => rfl
  | .hole, a, _ => rfl
  | .var _ _, a, _ => rfl
  | .unary _ r, a, h => sure_top r a h
  | .binary op l r, a, h => by
    simp only [Expr.Scoped] at h
    obtain ⟨b, hb⟩ := Option.isSome_iff_exists.1 (sure_top r a h.2)
    simp only [sureT, hb, Option.bind_some]
    split
    · exact sureT_top l b h.1
    · exact sure_top l b h.1
  | .cond l r, a, h => by
    simp only [Expr.Scoped] at h
    obtain ⟨b, hb⟩ := Option.isSome_iff_exists.1 (sure_top r a h.2)
    simp only [sureT, hb, Option.bind_some]
    exact sure_top l b h.1
  | .vec es, a, h => sureTRev_top es a h
  | .index l is, a, h => by
    cases l with
    | var x loc =>
      simp only [Expr.Scoped] at h
      obtain ⟨b, hb⟩ := Option.isSome_iff_exists.1 (sureRev_top is a h.2)
      simp only [sureT, hb, Option.bind_some]
      rw [if_pos (Or.inl (by omega))]
      rfl
    | _ =>
      obtain ⟨b, hb⟩ := Option.isSome_iff_exists.1 (sureRev_top is a h.2)
      simp only [sureT, hb, Option.bind_some]
      exact sure_top _ b h.1
theorem sureTRev_top : ∀ (es : List (Expr Val)) (a : List Nat), ScopedAll 0 es → (sureTRev es a).isSome = true
  | [], _, _ => rfl
  | e :: es, a, h => by
    obtain ⟨b, hb⟩ := Option.isSome_iff_exists.1 (sureTRev_top es a h.2)
    simp only [sureTRev, hb, Option.bind_some]
    exact sureT_top e b h.1
end

theorem evalAll_goes {c : Conf} (hc : c.guard = true) (M fuel : Nat) : ∀ (es : List (Expr Val)) (s : Ctx Val), WellCtx s → WellEs es → ScopedAll 0 es →
    Goes (fun vs _ => Wells vs) s (evalAll c M fuel es s)
  | [], s, hs, _, _ => goes_ret hs trivial
  | e :: es, s, hs, hw, ho => by
    unfold evalAll
    have h := run_goes (safe_ivy hc) M fuel (.expr e) 0 [] s hs ⟨hw.1, ho.1, sure_top e [] ho.1⟩ (by omega) (fun i hi => by simp at hi)
    refine goes_andThen h fun v s1 hv hs1 k1 => ?_
    refine goes_andThen (evalAll_goes hc M fuel es s1 hs1 hw.2 ho.2) fun vs s2 hvs hs2 k2 => ?_
    exact goes_ret hs2 ⟨hv.1, hvs⟩

/-! ## Definitions -/

/-- Of the operators: well-formed, and no element assigned of a local variable without value. -/
def FnFine (bin : Bool) (f : Fn Val) : Prop := WellFn f ∧ sureFn f bin = true

theorem wellEnv_same {g g' : Env Val} (h : WellEnv g) (hl : ∀ n b, g'.lookup n b = g.lookup n b) (hg : ∀ x v, g'.globals x = some v → g.globals x = some v) : WellEnv g' :=
  ⟨fun x v e => h.globals x v (hg x v e), fun n b f e => h.fns n b f (by rw [← hl]; exact e), h.ok.same hl⟩

theorem wellEnv_install {g : Env Val} (h : WellEnv g) (n : String) (b : Bool) (f : Option (Fn Val)) (hf : ∀ x, f = some x → FnFine b x ∧ x.Ok) :
    WellEnv (g.install n b f) := by
  refine ⟨fun x v e => h.globals x v ?_, fun n' b' x e => ?_, h.ok.install n b f fun x hx => (hf x hx).2⟩
  · rw [(install_rest g n b f).2.1] at e; exact e
  · rw [Env.lookup_install] at e
    split at e
    · rename_i hb; rw [hb.2]; exact (hf x e).1
    · exact h.fns n' b' x e

theorem noVar_fine (S : Sem Val) {g : Env Val} (h : WellEnv g) (x : String) : WellEnv (noVar S g x).2 ∧ (noVar S g x).1 ≠ .crash := by
  unfold noVar
  split
  · exact ⟨h, by simp⟩
  · split
    · exact ⟨h, by simp⟩
    · split
      · refine ⟨wellEnv_same h (fun _ _ => rfl) fun y v e => ?_, by simp⟩
        change update g.globals x none y = some v at e
        unfold update at e
        split at e
        · cases e
        · exact e
      · exact ⟨h, by simp⟩

theorem define_fine (S : Sem Val) {g : Env Val} (h : WellEnv g) {f : Fn Val} (hf : FnFine f.isBinary f) (ho : f.Ok) : WellEnv (g.define S f).2 ∧ (g.define S f).1 ≠ .crash := by
  have hn := noVar_fine S h f.name
  unfold Env.define
  split
  · rename_i g1 heq
    rw [heq] at hn
    refine ⟨?_, by simp⟩
    exact wellEnv_same (wellEnv_install hn.1 f.name f.isBinary (some f) fun x e => by cases e; exact ⟨hf, ho⟩) (fun _ _ => rfl) fun _ _ e => e
  · rename_i r g1 hne heq
    rw [heq] at hn
    exact hn

theorem declareAll_fine (fname : String) : ∀ (xs seen : List String) (g : Env Val), WellEnv g →
    WellEnv (declareAll fname xs seen g).2 ∧ (declareAll fname xs seen g).1 ≠ .crash
  | [], _, g, h => ⟨h, by simp [declareAll]⟩
  | x :: xs, seen, g, h => by
    unfold declareAll
    split
    · exact ⟨h, by simp⟩
    · split
      · exact ⟨h, by simp⟩
      · exact declareAll_fine fname xs _ _ (wellEnv_same h (fun _ _ => rfl) fun _ _ e => e)

theorem definition_fine (S : Sem Val) {g : Env Val} (h : WellEnv g) {f : Fn Val} {p : Env Val → R (Option (List (Expr Val)))} (hp : ∀ g, p g ≠ .crash)
    (hl : ∀ l, f.left = some l → WellT l) (hr : WellT f.right) (hb : ∀ g body, p g = .ok body → FnFine f.isBinary (funcVars { f with body := body })) :
    WellEnv (definition S g f p).2 ∧ (definition S g f p).1 ≠ .crash := by
  unfold definition
  split
  · exact ⟨h, by simp⟩
  · have hd := declareAll_fine f.name (params f) [] g h
    split
    · rename_i g1 heq
      rw [heq] at hd
      have hprev : ∀ x, g1.lookup f.name f.isBinary = some x → FnFine f.isBinary x ∧ x.Ok := fun x e => ⟨hd.1.fns _ _ x e, hd.1.ok _ _ x e⟩
      have h2 := define_fine S hd.1 (f := { f with body := none, locals := [] }) ⟨⟨hl, hr, by simp⟩, rfl⟩ (by intro b hb; simp at hb)
      dsimp only
      split
      · rename_i g2 heq2
        rw [heq2] at h2
        have back : ∀ g3 : Env Val, WellEnv g3 → WellEnv (g3.install f.name f.isBinary (g1.lookup f.name f.isBinary)).forgetAll := fun g3 h3 =>
          wellEnv_same (wellEnv_install h3 _ _ _ hprev) (fun _ _ => rfl) fun _ _ e => e
        split
        · rename_i body hbody
          have h3 := define_fine S h2.1 (f := funcVars { f with body := body }) (hb g2 body hbody) (funcVars_ok _)
          split
          · rename_i g3 heq3
            rw [heq3] at h3
            exact ⟨wellEnv_same h3.1 (fun _ _ => rfl) fun _ _ e => e, by simp⟩
          · rename_i r g3 hne heq3
            rw [heq3] at h3
            exact ⟨back g3 h3.1, h3.2⟩
        · exact ⟨back g2 h2.1, by simp⟩
        · rename_i e
          exact (hp g2 e).elim
        · exact ⟨h2.1, by simp⟩
      · rename_i r g2 hne heq2
        rw [heq2] at h2
        exact h2
    · rename_i r g1 hne heq
      rw [heq] at hd
      exact hd

theorem wells_last : ∀ {vs : List Val} {v : Val}, Wells vs → vs.getLast? = some v → Well v := by
  intro vs v h e
  rw [wells_iff] at h
  exact h v (List.mem_of_getLast? e)

theorem runLine_fine {c : Conf} (hc : c.guard = true) (M fuel : Nat) {l : Line} {s : Ctx Val} (hs : WellCtx s) (hl : WellLine l) (hk : SureLine l) :
    WellCtx (runLine c M fuel l s).2 ∧ Fine Wells (runLine c M fuel l s).1 := by
  unfold runLine
  cases l with
  | exprs es =>
    have h := evalAll_goes hc M fuel es s hs hl.1 hl.2
    dsimp only
    generalize evalAll c M fuel es s = q at h
    obtain ⟨r, s1⟩ := q
    obtain ⟨h1, h2, h3⟩ := h
    unfold andThen
    cases r with
    | ok vs =>
      dsimp only
      cases e : vs.getLast? with
      | none => exact ⟨h1, h3⟩
      | some v => exact ⟨⟨wellEnv_assign h1.env _ (wells_last h3 e), h1.slots⟩, h3⟩
    | err m => exact ⟨h1, trivial⟩
    | crash => exact h3.elim
    | hang => exact ⟨h1, trivial⟩
  | define f body =>
    have h := definition_fine (ivy c) hs.env (f := f) (p := bodyOf body) (by intro g; cases body <;> simp [bodyOf]) hl.1 hl.2.1 (by
        intro g b e
        cases body with
        | none => cases e
        | some b' =>
          cases e
          exact ⟨funcVars_well ⟨hl.1, hl.2.1, fun b e => by cases e; exact hl.2.2 b' rfl⟩, hk⟩)
    dsimp only
    generalize definition (ivy c) s.env f (bodyOf body) = q at h ⊢
    obtain ⟨r, g⟩ := q
    refine ⟨⟨h.1, hs.slots⟩, ?_⟩
    cases r with
    | ok u => trivial
    | err m => trivial
    | crash => exact h.2 rfl
    | hang => trivial
  | declare f =>
    have h := definition_fine (ivy c) hs.env (f := f) (p := fun _ => .ok none) (by simp) hl.1 hl.2 (by
      intro g b e
      cases e
      exact ⟨funcVars_well ⟨hl.1, hl.2, fun b e => by cases e⟩, rfl⟩)
    dsimp only
    generalize definition (ivy c) s.env f (fun _ => .ok none) = q at h ⊢
    obtain ⟨r, g⟩ := q
    refine ⟨⟨h.1, hs.slots⟩, ?_⟩
    cases r with
    | ok u => trivial
    | err m => trivial
    | crash => exact h.2 rfl
    | hang => trivial

theorem session_fine {c : Conf} (hc : c.guard = true) (M fuel : Nat) : ∀ {ls : List Line} {s : Ctx Val}, WellCtx s → (∀ l ∈ ls, WellLine l ∧ SureLine l) →
    (session c M fuel ls s).length = ls.length ∧ ∀ r ∈ session c M fuel ls s, Fine Wells r
  | [], s, hs, hl => ⟨rfl, by simp [session]⟩
  | l :: ls, s, hs, hl => by
    have h := runLine_fine hc M fuel hs (hl l List.mem_cons_self).1 (hl l List.mem_cons_self).2
    unfold session
    generalize runLine c M fuel l s = q at h
    obtain ⟨r, s1⟩ := q
    have ih := session_fine hc M fuel h.1 fun k hk => hl k (List.mem_cons_of_mem _ hk)
    have : ∀ (r : R (List Val)), Fine Wells r → ((r :: session c M fuel ls s1).length = (l :: ls).length ∧ ∀ x ∈ r :: session c M fuel ls s1, Fine Wells x) := by
      intro r hr
      refine ⟨by simp [ih.1], fun x hx => ?_⟩
      rcases List.mem_cons.1 hx with rfl | hx
      · exact hr
      · exact ih.2 x hx
    cases r with
    | ok a => exact this _ h.2
    | err m => exact this _ h.2
    | crash => exact h.2.elim
    | hang => exact this _ h.2

theorem start_well : WellCtx startCtx :=
  ⟨⟨by simp [startCtx], fun n b f e => by simp [startCtx, Env.lookup] at e, fun n b f e => by simp [startCtx, Env.lookup] at e⟩, by simp [startCtx]⟩

/-! ## Operators without conditional assignments -/

mutual
theorem sure_assigned : ∀ (e : Expr Val) (a b a' : List Nat), e.assigned a = some b → a ⊆ a' → ∃ b', sure e a' = some b' ∧ b ⊆ b'
  | .lit _, a, b, a', h, k => ⟨a', rfl, by cases h; exact k⟩
  | .hole, a, b, a', h, k => ⟨a', rfl, by cases h; exact k⟩
  | .var _ loc, a, b, a', h, k => by
    simp only [Expr.assigned] at h
    split at h
    · cases h; exact ⟨loc :: a', rfl, fun i hi => List.mem_cons_of_mem _ (k hi)⟩
    · cases h
  | .unary _ r, a, b, a', h, k => sure_assigned r a b a' h k
  | .binary op l r, a, b, a', h, k => by
    simp only [Expr.assigned, Option.bind_eq_some_iff] at h
    obtain ⟨b1, h1, h2⟩ := h
    obtain ⟨c1, k1, k2⟩ := sure_assigned r a b1 a' h1 k
    simp only [sure, k1, Option.bind_some]
    split
    · rename_i e; rw [if_pos e] at h2; exact sureT_target l b1 b c1 h2 k2
    · rename_i e; rw [if_neg e] at h2; exact sure_assigned l b1 b c1 h2 k2
  | .cond l r, a, b, a', h, k => by
    simp only [Expr.assigned, Option.bind_eq_some_iff] at h
    obtain ⟨b1, h1, h2⟩ := h
    obtain ⟨c1, k1, k2⟩ := sure_assigned r a b1 a' h1 k
    simp only [sure, k1, Option.bind_some]
    exact sure_assigned l b1 b c1 h2 k2
  | .vec es, a, b, a', h, k => sureRev_assigned es a b a' h k
  | .index l is, a, b, a', h, k => by
    simp only [Expr.assigned, Option.bind_eq_some_iff] at h
    obtain ⟨b1, h1, h2⟩ := h
    obtain ⟨c1, k1, k2⟩ := sureRev_assigned is a b1 a' h1 k
    simp only [sure, k1, Option.bind_some]
    exact sure_assigned l b1 b c1 h2 k2
theorem sureRev_assigned : ∀ (es : List (Expr Val)) (a b a' : List Nat), assignedRev es a = some b → a ⊆ a' → ∃ b', sureRev es a' = some b' ∧ b ⊆ b'
  | [], a, b, a', h, k => ⟨a', rfl, by cases h; exact k⟩
  | e :: es, a, b, a', h, k => by
    simp only [assignedRev, Option.bind_eq_some_iff] at h
    obtain ⟨b1, h1, h2⟩ := h
    obtain ⟨c1, k1, k2⟩ := sureRev_assigned es a b1 a' h1 k
    simp only [sureRev, k1, Option.bind_some]
    exact sure_assigned e b1 b c1 h2 k2
theorem sureT_target : ∀ (e : Expr Val) (a b a' : List Nat), e.target a = some b → a ⊆ a' → ∃ b', sureT e a' = some b' ∧ b ⊆ b'
  | .lit _, a, b, a', h, k => ⟨a', rfl, by cases h; exact k⟩
  | .hole, a, b, a', h, k => ⟨a', rfl, by cases h; exact k⟩
  | .var _ loc, a, b, a', h, k => by
    cases h
    exact ⟨loc :: a', rfl, fun i hi => by
      rcases List.mem_cons.1 hi with rfl | hi
      · exact List.mem_cons_self
      · exact List.mem_cons_of_mem _ (k hi)⟩
  | .unary _ r, a, b, a', h, k => sure_assigned r a b a' h k
  | .binary op l r, a, b, a', h, k => by
    simp only [Expr.target, Option.bind_eq_some_iff] at h
    obtain ⟨b1, h1, h2⟩ := h
    obtain ⟨c1, k1, k2⟩ := sure_assigned r a b1 a' h1 k
    simp only [sureT, k1, Option.bind_some]
    split
    · rename_i e; rw [if_pos e] at h2; exact sureT_target l b1 b c1 h2 k2
    · rename_i e; rw [if_neg e] at h2; exact sure_assigned l b1 b c1 h2 k2
  | .cond l r, a, b, a', h, k => by
    simp only [Expr.target, Option.bind_eq_some_iff] at h
    obtain ⟨b1, h1, h2⟩ := h
    obtain ⟨c1, k1, k2⟩ := sure_assigned r a b1 a' h1 k
    simp only [sureT, k1, Option.bind_some]
    exact sure_assigned l b1 b c1 h2 k2
  | .vec es, a, b, a', h, k => sureTRev_target es a b a' h k
  | .index l is, a, b, a', h, k => by
    simp only [Expr.target, Option.bind_eq_some_iff] at h
    obtain ⟨b1, h1, h2⟩ := h
    obtain ⟨c1, k1, k2⟩ := sureRev_assigned is a b1 a' h1 k
    cases l with
    | var x loc =>
      simp only [Expr.assigned] at h2
      split at h2
      · rename_i hl
        cases h2
        simp only [sureT, k1, Option.bind_some]
        rw [if_pos (hl.imp id fun h => k2 h)]
        exact ⟨c1, rfl, k2⟩
      · cases h2
    | _ =>
      simp only [sureT, k1, Option.bind_some]
      exact sure_assigned _ b1 b c1 h2 k2
theorem sureTRev_target : ∀ (es : List (Expr Val)) (a b a' : List Nat), targetRev es a = some b → a ⊆ a' → ∃ b', sureTRev es a' = some b' ∧ b ⊆ b'
  | [], a, b, a', h, k => ⟨a', rfl, by cases h; exact k⟩
  | e :: es, a, b, a', h, k => by
    simp only [targetRev, Option.bind_eq_some_iff] at h
    obtain ⟨b1, h1, h2⟩ := h
    obtain ⟨c1, k1, k2⟩ := sureTRev_target es a b1 a' h1 k
    simp only [sureTRev, k1, Option.bind_some]
    exact sureT_target e b1 b c1 h2 k2
end

theorem bodySure_definite : ∀ (es : List (Expr Val)) (a a' : List Nat), bodyDefinite es a → a ⊆ a' → bodySure es a' = true
  | [], _, _, _, _ => rfl
  | e :: es, a, a', h, k => by
    cases e with
    | cond l r =>
      simp only [bodyDefinite] at h
      obtain ⟨b, h1, ⟨d, h2⟩, h3⟩ := h
      obtain ⟨b', k1, k2⟩ := sure_assigned l a b a' h1 k
      obtain ⟨d', k3, _⟩ := sure_assigned r b d b' h2 k2
      simp only [bodySure, k1, k3, Option.isSome_some, Bool.true_and]
      exact bodySure_definite es b b' h3 k2
    | _ =>
      simp only [bodyDefinite] at h
      obtain ⟨b, h1, h3⟩ := h
      obtain ⟨b', k1, k2⟩ := sure_assigned _ a b a' h1 k
      simp only [bodySure, k1]
      exact bodySure_definite es b b' h3 k2

theorem sureFn_definite {f : Fn Val} {bin : Bool} (h : f.Definite bin) : sureFn f bin = true := by
  unfold sureFn
  cases hb : f.body with
  | none => rfl
  | some body =>
    obtain ⟨a, h1, h2⟩ := h body hb
    unfold Fn.entry at h1
    obtain ⟨a0, e0, e1⟩ := Option.bind_eq_some_iff.1 h1
    have key : ∃ b, sureLeft f bin = some b ∧ a0 ⊆ b := by
      unfold sureLeft
      cases bin with
      | false => cases e0; exact ⟨[], rfl, fun _ h => h⟩
      | true =>
        cases el : f.left with
        | none => rw [el] at e0; cases e0; exact ⟨[], rfl, fun _ h => h⟩
        | some l =>
          rw [el] at e0
          exact sureT_target l [] a0 [] e0 fun _ h => h
    obtain ⟨b, k1, k2⟩ := key
    obtain ⟨b', k3, k4⟩ := sureT_target f.right a0 a b e1 k2
    dsimp only
    rw [k1, Option.bind_some, k3]
    exact bodySure_definite body a b' h2 k4

theorem sure_of_plain {l : Line} (h : PlainLine l) : SureLine l := by
  cases l with
  | exprs es => trivial
  | declare f => trivial
  | define f body =>
    cases body with
    | none => trivial
    | some b => exact sureFn_definite (funcVars_definite { f with body := some b } h.2 fun body e => by cases e; exact h.1)

end Verif.Safe
