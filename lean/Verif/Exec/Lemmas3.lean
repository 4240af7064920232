import Verif.Exec.Lemmas2

/-! # Execution: which operators assign before they read -/

namespace Verif.Exec
variable {ν : Type}

/-- From more assigned variables, still defined, with more assigned in the end. -/
def Grows (f : List Nat → Option (List Nat)) : Prop :=
  ∀ A B, f A = some B → (∀ x, x ∈ A → x ∈ B) ∧
    ∀ A', (∀ x, x ∈ A → x ∈ A') → ∃ B', f A' = some B' ∧ ∀ x, x ∈ B → x ∈ B'

theorem Grows.id : Grows (fun a => some a) := by
  intro A B h
  simp only [Option.some.injEq] at h
  subst h
  exact ⟨fun x hx => hx, fun A' hA => ⟨A', rfl, hA⟩⟩

theorem Grows.bind {f g : List Nat → Option (List Nat)} (hf : Grows f) (hg : Grows g) :
    Grows (fun a => (f a).bind fun b => g b) := by
  intro A C h
  simp only [Option.bind_eq_some_iff] at h
  obtain ⟨B, h1, h2⟩ := h
  obtain ⟨e1, m1⟩ := hf A B h1
  obtain ⟨e2, m2⟩ := hg B C h2
  refine ⟨fun x hx => e2 x (e1 x hx), fun A' hA => ?_⟩
  obtain ⟨B', h3, h4⟩ := m1 A' hA
  obtain ⟨C', h5, h6⟩ := m2 B' h4
  exact ⟨C', by simp only [h3, Option.bind_some, h5], h6⟩

mutual
theorem assigned_grows : ∀ (e : Expr ν), Grows e.assigned
  | .lit _ => Grows.id
  | .hole => Grows.id
  | .var _ loc => by
    intro A B h
    simp only [Expr.assigned] at h
    split at h
    · rename_i hl
      simp only [Option.some.injEq] at h
      subst h
      refine ⟨fun x hx => hx, fun A' hA => ⟨A', ?_, hA⟩⟩
      simp only [Expr.assigned]
      rw [if_pos]
      rcases hl with hl | hl
      · exact Or.inl hl
      · exact Or.inr (hA _ hl)
    · cases h
  | .unary _ r => by simp only [Expr.assigned]; exact assigned_grows r
  | .binary op l r => by
    have : (Expr.binary op l r).assigned =
        fun a => (r.assigned a).bind fun b => if op = "=" then l.target b else l.assigned b := by
      funext a; simp only [Expr.assigned]
    rw [this]
    refine (assigned_grows r).bind ?_
    split
    · exact target_grows l
    · exact assigned_grows l
  | .cond l r => by
    have : (Expr.cond l r).assigned = fun a => (r.assigned a).bind fun b => l.assigned b := by
      funext a; simp only [Expr.assigned]
    rw [this]
    exact (assigned_grows r).bind (assigned_grows l)
  | .vec es => by
    have : (Expr.vec es).assigned = assignedRev es := by funext a; simp only [Expr.assigned]
    rw [this]
    exact assignedRev_grows es
  | .index l is => by
    have : (Expr.index l is).assigned = fun a => (assignedRev is a).bind fun b => l.assigned b := by
      funext a; simp only [Expr.assigned]
    rw [this]
    exact (assignedRev_grows is).bind (assigned_grows l)

theorem assignedRev_grows : ∀ (es : List (Expr ν)), Grows (assignedRev es)
  | [] => Grows.id
  | e :: es => by
    have : assignedRev (e :: es) = fun a => (assignedRev es a).bind fun b => e.assigned b := by
      funext a; simp only [assignedRev]
    rw [this]
    exact (assignedRev_grows es).bind (assigned_grows e)

theorem target_grows : ∀ (e : Expr ν), Grows e.target
  | .lit _ => Grows.id
  | .hole => Grows.id
  | .var _ loc => by
    intro A B h
    simp only [Expr.target, Option.some.injEq] at h
    subst h
    exact ⟨fun x hx => List.mem_cons_of_mem _ hx, fun A' hA => ⟨loc :: A', rfl, fun x hx => by
      rw [List.mem_cons] at hx ⊢
      rcases hx with hx | hx
      · exact Or.inl hx
      · exact Or.inr (hA _ hx)⟩⟩
  | .unary _ r => by
    have : (Expr.unary ‹_› r).target = r.assigned := by funext a; simp only [Expr.target]
    rw [this]; exact assigned_grows r
  | .binary op l r => by
    have : (Expr.binary op l r).target =
        fun a => (r.assigned a).bind fun b => if op = "=" then l.target b else l.assigned b := by
      funext a; simp only [Expr.target]
    rw [this]
    refine (assigned_grows r).bind ?_
    split
    · exact target_grows l
    · exact assigned_grows l
  | .cond l r => by
    have : (Expr.cond l r).target = fun a => (r.assigned a).bind fun b => l.assigned b := by
      funext a; simp only [Expr.target]
    rw [this]
    exact (assigned_grows r).bind (assigned_grows l)
  | .vec es => by
    have : (Expr.vec es).target = targetRev es := by funext a; simp only [Expr.target]
    rw [this]
    exact targetRev_grows es
  | .index l is => by
    have : (Expr.index l is).target = fun a => (assignedRev is a).bind fun b => l.assigned b := by
      funext a; simp only [Expr.target]
    rw [this]
    exact (assignedRev_grows is).bind (assigned_grows l)

theorem targetRev_grows : ∀ (es : List (Expr ν)), Grows (targetRev es)
  | [] => Grows.id
  | e :: es => by
    have : targetRev (e :: es) = fun a => (targetRev es a).bind fun b => e.target b := by
      funext a; simp only [targetRev]
    rw [this]
    exact (targetRev_grows es).bind (target_grows e)
end

/-! ## Without assignments nothing is assigned -/

mutual
theorem assigned_same : ∀ (e : Expr ν) (A B : List Nat), e.assigns = false → e.assigned A = some B → B = A
  | .lit _, A, B, _, h => by simp only [Expr.assigned, Option.some.injEq] at h; exact h.symm
  | .hole, A, B, _, h => by simp only [Expr.assigned, Option.some.injEq] at h; exact h.symm
  | .var _ loc, A, B, _, h => by
    simp only [Expr.assigned] at h
    split at h
    · simp only [Option.some.injEq] at h; exact h.symm
    · cases h
  | .unary _ r, A, B, hn, h => by
    simp only [Expr.assigns] at hn; simp only [Expr.assigned] at h; exact assigned_same r A B hn h
  | .binary op l r, A, B, hn, h => by
    simp only [Expr.assigns, Bool.or_eq_false_iff, beq_eq_false_iff_ne] at hn
    simp only [Expr.assigned, Option.bind_eq_some_iff] at h
    obtain ⟨C, h1, h2⟩ := h
    rw [if_neg hn.1.1] at h2
    have := assigned_same r A C hn.2 h1
    subst this
    exact assigned_same l _ B hn.1.2 h2
  | .cond l r, A, B, hn, h => by
    simp only [Expr.assigns, Bool.or_eq_false_iff] at hn
    simp only [Expr.assigned, Option.bind_eq_some_iff] at h
    obtain ⟨C, h1, h2⟩ := h
    have := assigned_same r A C hn.2 h1
    subst this
    exact assigned_same l _ B hn.1 h2
  | .vec es, A, B, hn, h => by
    simp only [Expr.assigns] at hn; simp only [Expr.assigned] at h; exact assignedRev_same es A B hn h
  | .index l is, A, B, hn, h => by
    simp only [Expr.assigns, Bool.or_eq_false_iff] at hn
    simp only [Expr.assigned, Option.bind_eq_some_iff] at h
    obtain ⟨C, h1, h2⟩ := h
    have := assignedRev_same is A C hn.2 h1
    subst this
    exact assigned_same l _ B hn.1 h2

theorem assignedRev_same : ∀ (es : List (Expr ν)) (A B : List Nat), assignsAny es = false →
    assignedRev es A = some B → B = A
  | [], A, B, _, h => by simp only [assignedRev, Option.some.injEq] at h; exact h.symm
  | e :: es, A, B, hn, h => by
    simp only [assignsAny, Bool.or_eq_false_iff] at hn
    simp only [assignedRev, Option.bind_eq_some_iff] at h
    obtain ⟨C, h1, h2⟩ := h
    have := assignedRev_same es A C hn.2 h1
    subst this
    exact assigned_same e _ B hn.1 h2
end

mutual
theorem walk_assigns : ∀ (e : Expr ν) (a : Bool) (s : Scope), (walk e a s).1.assigns = e.assigns
  | .lit _, a, s => by simp only [walk]
  | .hole, a, s => by simp only [walk]
  | .var _ _, a, s => by simp only [walk, Expr.assigns]
  | .unary _ r, a, s => by simp only [walk, Expr.assigns]; exact walk_assigns r _ _
  | .binary op l r, a, s => by
    simp only [walk, Expr.assigns]; rw [walk_assigns r, walk_assigns l]
  | .cond l r, a, s => by simp only [walk, Expr.assigns]; rw [walk_assigns r, walk_assigns l]
  | .vec es, a, s => by simp only [walk, Expr.assigns]; exact walkRev_assigns es _ _
  | .index l is, a, s => by simp only [walk, Expr.assigns]; rw [walkRev_assigns is, walk_assigns l]

theorem walkRev_assigns : ∀ (es : List (Expr ν)) (a : Bool) (s : Scope), assignsAny (walkRev es a s).1 = assignsAny es
  | [], a, s => by simp only [walkRev]
  | e :: es, a, s => by simp only [walkRev, assignsAny]; rw [walkRev_assigns es, walk_assigns e]
end

/-! ## The walk of `funcVars` follows the order of evaluation -/

/-- Every variable known to be local has been assigned. -/
def Tracks (s : Scope) (A : List Nat) : Prop := ∀ x n, s.known x = some n → n = 0 ∨ n ∈ A

theorem visit_read {s : Scope} {A : List Nat} (h : Tracks s A) (x : String) :
    ((s.visit x false).1 = 0 ∨ (s.visit x false).1 ∈ A) ∧ Tracks (s.visit x false).2 A := by
  unfold Scope.visit
  split
  · rename_i n hn
    exact ⟨h x n hn, h⟩
  · simp only [Bool.false_eq_true, if_false]
    refine ⟨Or.inl (by simp), ?_⟩
    intro y n hy
    simp only [update] at hy
    split at hy
    · simp only [Option.some.injEq] at hy; left; omega
    · exact h y n hy

theorem visit_assign {s : Scope} {A : List Nat} (h : Tracks s A) (x : String) :
    Tracks (s.visit x true).2 ((s.visit x true).1 :: A) := by
  unfold Scope.visit
  split
  · rename_i n hn
    intro y m hy
    rcases h y m hy with h1 | h1
    · exact Or.inl h1
    · exact Or.inr (List.mem_cons_of_mem _ h1)
  · simp only [if_true]
    intro y m hy
    simp only [update] at hy
    split at hy
    · simp only [Option.some.injEq] at hy; subst hy; exact Or.inr (by simp)
    · rcases h y m hy with h1 | h1
      · exact Or.inl h1
      · exact Or.inr (List.mem_cons_of_mem _ h1)

mutual
theorem walk_tracks : ∀ (e : Expr ν) (s : Scope) (A : List Nat), Tracks s A →
    ∃ B, (walk e false s).1.assigned A = some B ∧ Tracks (walk e false s).2 B
  | .lit _, s, A, h => ⟨A, by simp only [walk, Expr.assigned], by simp only [walk]; exact h⟩
  | .hole, s, A, h => ⟨A, by simp only [walk, Expr.assigned], by simp only [walk]; exact h⟩
  | .var x _, s, A, h => by
    have := visit_read h x
    simp only [walk, Expr.assigned]
    rw [if_pos this.1]
    exact ⟨A, rfl, this.2⟩
  | .unary _ r, s, A, h => by simp only [walk, Expr.assigned]; exact walk_tracks r s A h
  | .binary op l r, s, A, h => by
    obtain ⟨B, h1, h2⟩ := walk_tracks r s A h
    simp only [walk, Expr.assigned, h1, Option.bind_some]
    by_cases hop : op = "="
    · rw [if_pos hop, show (op == "=") = true by simpa using hop]
      exact walk_target l _ B h2
    · rw [if_neg hop, show (op == "=") = false by simpa using hop]
      exact walk_tracks l _ B h2
  | .cond l r, s, A, h => by
    obtain ⟨B, h1, h2⟩ := walk_tracks r s A h
    simp only [walk, Expr.assigned, h1, Option.bind_some]
    exact walk_tracks l _ B h2
  | .vec es, s, A, h => by simp only [walk, Expr.assigned]; exact walkRev_tracks es s A h
  | .index l is, s, A, h => by
    obtain ⟨B, h1, h2⟩ := walkRev_tracks is s A h
    simp only [walk, Expr.assigned, h1, Option.bind_some]
    exact walk_tracks l _ B h2

theorem walkRev_tracks : ∀ (es : List (Expr ν)) (s : Scope) (A : List Nat), Tracks s A →
    ∃ B, assignedRev (walkRev es false s).1 A = some B ∧ Tracks (walkRev es false s).2 B
  | [], s, A, h => ⟨A, by simp only [walkRev, assignedRev], by simp only [walkRev]; exact h⟩
  | e :: es, s, A, h => by
    obtain ⟨B, h1, h2⟩ := walkRev_tracks es s A h
    simp only [walkRev, assignedRev, h1, Option.bind_some]
    exact walk_tracks e _ B h2

theorem walk_target : ∀ (e : Expr ν) (s : Scope) (A : List Nat), Tracks s A →
    ∃ B, (walk e true s).1.target A = some B ∧ Tracks (walk e true s).2 B
  | .lit _, s, A, h => ⟨A, by simp only [walk, Expr.target], by simp only [walk]; exact h⟩
  | .hole, s, A, h => ⟨A, by simp only [walk, Expr.target], by simp only [walk]; exact h⟩
  | .var x _, s, A, h => by
    simp only [walk, Expr.target]
    exact ⟨_, rfl, visit_assign h x⟩
  | .unary _ r, s, A, h => by simp only [walk, Expr.target]; exact walk_tracks r s A h
  | .binary op l r, s, A, h => by
    obtain ⟨B, h1, h2⟩ := walk_tracks r s A h
    simp only [walk, Expr.target, h1, Option.bind_some]
    by_cases hop : op = "="
    · rw [if_pos hop, show (op == "=") = true by simpa using hop]
      exact walk_target l _ B h2
    · rw [if_neg hop, show (op == "=") = false by simpa using hop]
      exact walk_tracks l _ B h2
  | .cond l r, s, A, h => by
    obtain ⟨B, h1, h2⟩ := walk_tracks r s A h
    simp only [walk, Expr.target, h1, Option.bind_some]
    exact walk_tracks l _ B h2
  | .vec es, s, A, h => by simp only [walk, Expr.target]; exact walkRev_target es s A h
  | .index l is, s, A, h => by
    obtain ⟨B, h1, h2⟩ := walkRev_tracks is s A h
    simp only [walk, Expr.target, h1, Option.bind_some]
    exact walk_tracks l _ B h2

theorem walkRev_target : ∀ (es : List (Expr ν)) (s : Scope) (A : List Nat), Tracks s A →
    ∃ B, targetRev (walkRev es true s).1 A = some B ∧ Tracks (walkRev es true s).2 B
  | [], s, A, h => ⟨A, by simp only [walkRev, targetRev], by simp only [walkRev]; exact h⟩
  | e :: es, s, A, h => by
    obtain ⟨B, h1, h2⟩ := walkRev_target es s A h
    simp only [walkRev, targetRev, h1, Option.bind_some]
    exact walk_target e _ B h2
end

theorem walkBody_definite : ∀ (es : List (Expr ν)) (s : Scope) (A : List Nat), Tracks s A → NoCondAssign es →
    bodyDefinite (walkBody es s).1 A
  | [], s, A, h, hn => by simp only [walkBody, bodyDefinite]
  | e :: es, s, A, h, hn => by
    have plain : NoCondAssign es → ∃ b, (walk e false s).1.assigned A = some b ∧
        bodyDefinite (walkBody es (walk e false s).2).1 b := by
      intro hn
      obtain ⟨B, h1, h2⟩ := walk_tracks e s A h
      exact ⟨B, h1, walkBody_definite es _ B h2 hn⟩
    cases e with
    | cond l r =>
      simp only [NoCondAssign] at hn
      simp only [walkBody, walk, bodyDefinite]
      obtain ⟨A', r1, r2⟩ := walk_tracks r s A h
      have hA : A' = A := assigned_same _ A A' (by rw [walk_assigns]; exact hn.1) r1
      subst hA
      obtain ⟨B, l1, l2⟩ := walk_tracks l _ A' r2
      obtain ⟨sub, -⟩ := assigned_grows _ A' B l1
      obtain ⟨D, hD, -⟩ := (assigned_grows _ A' A' r1).2 B sub
      exact ⟨B, l1, ⟨D, hD⟩, walkBody_definite es _ B l2 hn.2⟩
    | _ => simp only [NoCondAssign] at hn; simp only [walkBody, bodyDefinite, walk] at plain ⊢; exact plain hn

/-- Operators none of whose conditional statements assigns on the right of the colon assign before they read.  The
left parameter must be there exactly when the operator is binary. -/
theorem funcVars_definite (f : Fn ν) (hl : f.isBinary = false → f.left = none)
    (h : ∀ body, f.body = some body → NoCondAssign body) : (funcVars f).Definite f.isBinary := by
  intro body hb
  have h0 : Tracks (⟨[], fun _ => none⟩ : Scope) [] := by intro x n h; simp at h
  simp only [funcVars] at hb
  have key : ∀ A0 s0, Tracks s0 A0 → (walkOpt f.left ⟨[], fun _ => none⟩).2 = s0 →
      ∃ A, (walk f.right true s0).1.target A0 = some A ∧ bodyDefinite body A := by
    intro A0 s0 ht hs
    obtain ⟨B, h1, h2⟩ := walk_target f.right s0 A0 ht
    refine ⟨B, h1, ?_⟩
    cases hbody : f.body with
    | none => rw [hbody] at hb; simp [walkBodyOpt] at hb
    | some es =>
      rw [hbody] at hb
      simp only [walkBodyOpt, Option.some.injEq] at hb
      rw [← hb, hs]
      exact walkBody_definite es _ B h2 (h es hbody)
  cases hfl : f.left with
  | none =>
    obtain ⟨A, h1, h2⟩ := key [] _ h0 (by rw [hfl]; rfl)
    refine ⟨A, ?_, h2⟩
    simp only [Fn.entry, funcVars, hfl, walkOpt]
    cases f.isBinary <;> simpa using h1
  | some l =>
    have hbin : f.isBinary = true := by
      cases hb' : f.isBinary with
      | true => rfl
      | false => rw [hl hb'] at hfl; cases hfl
    obtain ⟨A0, t1, t2⟩ := walk_target l _ [] h0
    obtain ⟨A, h1, h2⟩ := key A0 _ t2 (by rw [hfl]; rfl)
    refine ⟨A, ?_, h2⟩
    simp only [Fn.entry, funcVars, hfl, walkOpt, hbin, t1, Option.bind_some]
    exact h1

end Verif.Exec
