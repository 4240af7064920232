import Verif.Safe.Lemmas3

/-!
# The evaluator with guarded operators: no expression faults
-/

namespace Verif.Safe
open Verif.Arr (R)
open Verif.Exec
open Verif.Order (Val)

/-- A built-in operator that gives well-formed values or errors; it may look at the state. -/
inductive SafeAct : Act Val → Prop where
  | done (r) : Gives Well r → SafeAct (.done r)
  | look (k) : (∀ g, SafeAct (k g)) → SafeAct (.look k)

/-- All that the evaluator asks of values is given, or an error, as long as the values are well-formed. -/
structure SafeSem (S : Sem Val) : Prop where
  inner : ∀ v, Well v → Well (S.inner v)
  quiet : ∀ v, Well v → Well (S.quiet v)
  ofList : ∀ l, Wells l → Well (S.ofList l)
  asVector : ∀ v l, Well v → S.asVector v = some l → Wells l
  isTrue : ∀ v, Gives (fun _ => True) (S.isTrue v)
  index : ∀ u is, Well u → is ≠ [] → (∀ i ∈ is, ∀ v, i = some v → Well v) → Gives Well (S.index u is)
  setIndex : ∀ u is w, Well u → Well w → is ≠ [] → (∀ i ∈ is, ∀ v, i = some v → Well v) → Gives Well (S.setIndex u is w)
  unaryDerived : ∀ op p v, S.unaryDerived op = some p → Well v → SafeAct (p v)
  binaryDerived : ∀ l op r p, S.binaryDerived l op r = some p → Well l → Well r → SafeAct p
  unary : ∀ op p v, S.unary op = some p → Well v → SafeAct (p v)
  binary : ∀ op p l r, S.binary op = some p → Well l → Well r → SafeAct (p l r)

theorem safe_ivy {c : Conf} (hc : c.guard = true) : SafeSem (ivy c) where
  inner := fun _ h => h
  quiet := fun _ h => h
  ofList := fun _ h => h
  asVector := fun v l hv e => by
    cases v with
    | vec m => cases e; exact hv
    | num n => cases e
    | cplx a b => cases e
    | mat s d => cases e
  isTrue := gives_isTrueV
  index := fun u is hu hi hw => gives_indexVal hc hu hi hw
  setIndex := fun u is w hu hw hi his => gives_setIndexVal hc hu hw hi his
  unaryDerived := fun op p v e hv => by
    unfold ivy at e
    dsimp only at e
    split at e
    · cases e
      exact .look _ fun g => .done _ (gives_F1 hc _ (parse1_ok _ _ _ _) v hv)
    · cases e
  binaryDerived := fun l op r p e hl hr => by
    unfold ivy at e
    dsimp only at e
    split at e
    · cases e
      exact .look _ fun g => .done _ (gives_F2 hc _ (parse2_ok _ _ _) l r hl hr)
    · cases e
  unary := fun op p v e hv => by
    unfold ivy at e
    dsimp only at e
    obtain ⟨f, hf, rfl⟩ := Option.map_eq_some_iff.1 e
    exact .done _ (gives_F1 hc f (table1_ok hf) v hv)
  binary := fun op p l r e hl hr => by
    unfold ivy at e
    dsimp only at e
    obtain ⟨f, hf, rfl⟩ := Option.map_eq_some_iff.1 e
    exact .done _ (gives_F2 hc f (table2_ok hf) l r hl hr)

/-! ## What an evaluation leaves -/

/-- The frames are the same, and no local variable has lost its value. -/
structure After (c c1 : Ctx Val) : Prop where
  len : c1.len = c.len
  frames : c1.frames = c.frames
  mono : ∀ i, (c.slot i).isSome = true → (c1.slot i).isSome = true

theorem After.refl (c : Ctx Val) : After c c := ⟨rfl, rfl, fun _ h => h⟩

theorem After.trans {a b c : Ctx Val} (h : After a b) (k : After b c) : After a c :=
  ⟨k.len.trans h.len, k.frames.trans h.frames, fun i hi => k.mono i (h.mono i hi)⟩

/-- No fault; a value, if there is one, has the property. -/
def Fine {α : Type} (P : α → Prop) : R α → Prop
  | .ok a => P a
  | .crash => False
  | _ => True

theorem fine_of {α : Type} {P : α → Prop} {r : R α} (h : Gives P r) : Fine P r := by
  cases r with
  | ok a => exact h
  | err m => trivial
  | crash => exact h
  | hang => exact h.elim

/-- An evaluation does not fault, and leaves the state well-formed and the frames as they were. -/
structure Goes {α : Type} (P : α → Ctx Val → Prop) (c : Ctx Val) (p : Res Val α) : Prop where
  ctx : WellCtx p.2
  after : After c p.2
  val : Fine (fun a => P a p.2) p.1

theorem goes_andThen {α β : Type} {P : α → Ctx Val → Prop} {Q : β → Ctx Val → Prop} {c : Ctx Val} {p : Res Val α} {f : α → Ctx Val → Res Val β}
    (h : Goes P c p) (hf : ∀ a c1, P a c1 → WellCtx c1 → After c c1 → Goes Q c1 (f a c1)) : Goes Q c (andThen p f) := by
  obtain ⟨r, c1⟩ := p
  obtain ⟨h1, h2, h3⟩ := h
  unfold andThen
  cases r with
  | ok a =>
    have := hf a c1 h3 h1 h2
    exact ⟨this.ctx, h2.trans this.after, this.val⟩
  | err m => exact ⟨h1, h2, trivial⟩
  | crash => exact h3.elim
  | hang => exact ⟨h1, h2, trivial⟩

theorem goes_mono {α : Type} {P Q : α → Ctx Val → Prop} {c : Ctx Val} {p : Res Val α} (h : Goes P c p) (hq : ∀ a c1, After c c1 → P a c1 → Q a c1) : Goes Q c p := by
  refine ⟨h.ctx, h.after, ?_⟩
  have h3 := h.val
  cases e : p.1 with
  | ok a => rw [e] at h3; exact hq a _ h.after h3
  | err m => trivial
  | crash => rw [e] at h3; exact h3.elim
  | hang => trivial

theorem goes_ret {α : Type} {P : α → Ctx Val → Prop} {c : Ctx Val} (hc : WellCtx c) {r : R α} (h : Fine (fun a => P a c) r) : Goes P c (r, c) :=
  ⟨hc, After.refl c, h⟩

/-- The local variables of a list have values. -/
def Known (a : List Nat) (c : Ctx Val) : Prop := ∀ i ∈ a, 1 ≤ i → (c.slot (c.len - i)).isSome = true

theorem known_after {a : List Nat} {c c1 : Ctx Val} (h : Known a c) (k : After c c1) : Known a c1 := fun i hi h1 => by
  rw [k.len]
  exact k.mono _ (h i hi h1)

/-- A value, and local variables with values. -/
def Val1 (b : List Nat) (v : Val) (c : Ctx Val) : Prop := Well v ∧ Known b c

/-- The same for an assignment, which has no value. -/
def Val0 (b : List Nat) (_ : Unit) (c : Ctx Val) : Prop := Known b c

/-- An evaluator that does not fault. -/
def EvGoes (ev : Expr Val → Ctx Val → Res Val Val) : Prop :=
  ∀ (e : Expr Val) (n : Nat) (a b : List Nat) (c : Ctx Val), WellCtx c → WellE e → e.Scoped n → n ≤ c.len → Known a c → sure e a = some b → Goes (Val1 b) c (ev e c)

theorem readVar_goes {x : String} {loc : Nat} {c : Ctx Val} (hc : WellCtx c) (hl : loc ≤ c.len) {a : List Nat} (ha : Known a c) :
    Goes (Val1 (loc :: a)) c (readVar x loc c) := by
  unfold readVar
  split
  · rename_i h1
    unfold Ctx.getLocal
    rw [if_pos hl]
    cases e : c.slot (c.len - loc) with
    | none => exact goes_ret hc trivial
    | some v =>
      refine goes_ret hc ⟨hc.slots _ _ e, fun i hi h2 => ?_⟩
      rcases List.mem_cons.1 hi with rfl | hi
      · rw [e]; rfl
      · exact ha i hi h2
  · cases e : c.env.globals x with
    | none => exact goes_ret hc trivial
    | some v =>
      refine goes_ret hc ⟨hc.env.globals _ _ e, fun i hi h2 => ?_⟩
      rcases List.mem_cons.1 hi with rfl | hi
      · omega
      · exact ha i hi h2

theorem wellEnv_assign {g : Env Val} (hg : WellEnv g) (x : String) {v : Val} (hv : Well v) : WellEnv (g.assign x v) := by
  refine ⟨fun y w e => ?_, hg.fns, hg.ok⟩
  change update g.globals x (some v) y = some w at e
  unfold update at e
  split at e
  · cases e; exact hv
  · exact hg.globals y w e

theorem setVar_goes {x : String} {loc : Nat} {c : Ctx Val} (hc : WellCtx c) (hl : loc ≤ c.len) {a : List Nat} (ha : Known a c) {v : Val} (hv : Well v) :
    Goes (Val0 (loc :: a)) c (setVar x loc v c) := by
  unfold setVar
  split
  · rename_i h1
    unfold Ctx.setLocal
    rw [if_pos hl]
    have hm : ∀ i, (c.slot i).isSome = true → (if i = c.len - loc then some v else c.slot i).isSome = true := by
      intro i hi
      split
      · rfl
      · exact hi
    refine ⟨⟨hc.env, fun i w e => ?_⟩, ⟨rfl, rfl, hm⟩, fun i hi h2 => ?_⟩
    · change (if i = c.len - loc then some v else c.slot i) = some w at e
      split at e
      · cases e; exact hv
      · exact hc.slots i w e
    · show (if c.len - i = c.len - loc then some v else c.slot (c.len - i)).isSome = true
      rcases List.mem_cons.1 hi with rfl | hi
      · rw [if_pos rfl]; rfl
      · exact hm _ (ha i hi h2)
  · refine ⟨⟨wellEnv_assign hc.env x hv, hc.slots⟩, ⟨rfl, rfl, fun _ h => h⟩, fun i hi h2 => ?_⟩
    rcases List.mem_cons.1 hi with rfl | hi
    · omega
    · exact ha i hi h2

section
variable {S : Sem Val} {ev : Expr Val → Ctx Val → Res Val Val}

theorem evalRev_goes (hev : EvGoes ev) {n : Nat} : ∀ (es : List (Expr Val)) (a b : List Nat) (c : Ctx Val), WellCtx c → WellEs es → ScopedAll n es → n ≤ c.len → Known a c →
    sureRev es a = some b → Goes (fun vs c1 => Wells vs ∧ Known b c1) c (evalRev ev es c)
  | [], a, b, c, hc, hw, hs, hn, ha, e => by
    cases e
    exact goes_ret hc ⟨trivial, ha⟩
  | x :: xs, a, b, c, hc, hw, hs, hn, ha, e => by
    simp only [sureRev, Option.bind_eq_some_iff] at e
    obtain ⟨a1, e1, e2⟩ := e
    refine goes_andThen (evalRev_goes hev xs a a1 c hc hw.2 hs.2 hn ha e1) fun vs c1 h1 hc1 k1 => ?_
    refine goes_andThen (hev x n a1 b c1 hc1 hw.1 hs.1 (by rw [k1.len]; exact hn) h1.2 e2) fun v c2 h2 hc2 k2 => ?_
    exact goes_ret hc2 ⟨⟨h2.1, h1.1⟩, h2.2⟩

theorem evalIdx_goes (hS : SafeSem S) (hev : EvGoes ev) {n : Nat} : ∀ (es : List (Expr Val)) (a b : List Nat) (c : Ctx Val), WellCtx c → WellIs es → ScopedAll n es → n ≤ c.len →
    Known a c → sureRev es a = some b → Goes (fun vs c1 => (vs.length = es.length ∧ ∀ i ∈ vs, ∀ v, i = some v → Well v) ∧ Known b c1) c (evalIdx S ev es c)
  | [], a, b, c, hc, hw, hs, hn, ha, e => by
    cases e
    exact goes_ret hc ⟨⟨rfl, by simp⟩, ha⟩
  | x :: xs, a, b, c, hc, hw, hs, hn, ha, e => by
    simp only [sureRev, Option.bind_eq_some_iff] at e
    obtain ⟨a1, e1, e2⟩ := e
    have hw' : WellIs xs ∧ (x ≠ .hole → WellE x) := by
      cases x <;> simp only [WellIs] at hw <;> first | exact ⟨hw, fun h => (h rfl).elim⟩ | exact ⟨hw.2, fun _ => hw.1⟩
    refine goes_andThen (evalIdx_goes hS hev xs a a1 c hc hw'.1 hs.2 hn ha e1) fun vs c1 h1 hc1 k1 => ?_
    have key : Goes (fun o c2 => (∀ v, o = some v → Well v) ∧ Known b c2) c1 (evalIdx1 S ev x c1) := by
      unfold evalIdx1
      split
      · cases e2
        exact goes_ret hc1 ⟨by simp, h1.2⟩
      · rename_i hx
        refine goes_andThen (hev x n a1 b c1 hc1 (hw'.2 hx) hs.1 (by rw [k1.len]; exact hn) h1.2 e2) fun v c2 h2 hc2 k2 => ?_
        split
        · exact goes_ret hc2 ⟨fun w hw => by cases hw; exact hS.inner _ h2.1, h2.2⟩
        · exact goes_ret hc2 trivial
    refine goes_andThen key fun v c2 h2 hc2 k2 => goes_ret hc2 ⟨⟨by simp [h1.1.1], ?_⟩, h2.2⟩
    intro i hi w hw
    rcases List.mem_cons.1 hi with rfl | hi
    · exact h2.1 w hw
    · exact h1.1.2 i hi w hw

theorem indexAssign_goes (hS : SafeSem S) (hev : EvGoes ev) {n : Nat} {x : String} {loc : Nat} {is : List (Expr Val)} {a b : List Nat} {c : Ctx Val} {v : Val} (hc : WellCtx c)
    (hw : is ≠ [] ∧ WellIs is) (hs : ScopedAll n is) (hl : loc ≤ n) (hn : n ≤ c.len) (ha : Known a c) (hv : Well v)
    (e : sureT (.index (.var x loc) is) a = some b) : Goes (Val0 b) c (indexAssign S ev x loc is v c) := by
  simp only [sureT, Option.bind_eq_some_iff] at e
  obtain ⟨a1, e1, e2⟩ := e
  split at e2
  · cases e2
    rename_i hloc
    refine goes_andThen (evalIdx_goes hS hev is a b c hc hw.2 hs hn ha e1) fun ivs c1 h1 hc1 k1 => ?_
    have hlen : loc ≤ c1.len := by rw [k1.len]; omega
    have key : Goes (fun old c2 => Well old ∧ c2 = c1) c1 (indexTarget x loc c1) := by
      unfold indexTarget
      split
      · rename_i hpos
        unfold Ctx.getLocal
        rw [if_pos hlen]
        have := h1.2 loc (hloc.resolve_left (by omega)) hpos
        cases e : c1.slot (c1.len - loc) with
        | none => rw [e] at this; cases this
        | some w => exact goes_ret hc1 ⟨hc1.slots _ _ e, rfl⟩
      · cases e : c1.env.globals x with
        | none => exact goes_ret hc1 trivial
        | some w => exact goes_ret hc1 ⟨hc1.env.globals _ _ e, rfl⟩
    refine goes_andThen key fun old c2 h2 hc2 k2 => ?_
    have hne : ivs ≠ [] := by
      intro h
      have := h1.1.1
      rw [h] at this
      exact hw.1 (List.eq_nil_of_length_eq_zero this.symm)
    have hg := hS.setIndex old ivs v h2.1 hv hne h1.1.2
    have hlen2 : loc ≤ c2.len := by rw [k2.len]; exact hlen
    cases er : S.setIndex old ivs v with
    | ok new =>
      rw [er] at hg
      have hset : Goes (Val0 (loc :: b)) c2 (setVar x loc new c2) := setVar_goes hc2 hlen2 (known_after h1.2 k2) hg
      exact goes_mono hset fun _ c3 _ h i hi => h i (List.mem_cons_of_mem _ hi)
    | err m => exact goes_ret hc2 trivial
    | crash => rw [er] at hg; exact hg.elim
    | hang => exact goes_ret hc2 trivial
  · cases e2

mutual
theorem assignTo_goes (hS : SafeSem S) (hev : EvGoes ev) {n : Nat} : ∀ (e : Expr Val) (v : Val) (a b : List Nat) (c : Ctx Val), WellCtx c → WellT e → e.Scoped n → n ≤ c.len →
    Known a c → Well v → sureT e a = some b → Goes (Val0 b) c (assignTo S ev e v c)
  | .var x loc, v, a, b, c, hc, hw, hs, hn, ha, hv, e => by
    simp only [sureT, Option.some.injEq] at e
    subst e
    simp only [Expr.Scoped] at hs
    simp only [assignTo]
    exact setVar_goes hc (by omega) ha hv
  | .vec es, v, a, b, c, hc, hw, hs, hn, ha, hv, e => by
    simp only [sureT] at e
    simp only [assignTo]
    split
    · exact goes_ret hc trivial
    · rename_i vs ev
      split
      · exact goes_ret hc trivial
      · rename_i hlen
        exact assignRev_goes hS hev es vs a b c hc hw hs hn ha (hS.asVector v vs hv ev) (Decidable.not_not.1 hlen) e
  | .index l is, v, a, b, c, hc, hw, hs, hn, ha, hv, e => by
    cases l with
    | var x loc =>
      simp only [assignTo]
      simp only [Expr.Scoped] at hs
      exact indexAssign_goes hS hev hc hw hs.2 hs.1 hn ha hv e
    | lit _ => simp only [assignTo]; exact goes_ret hc trivial
    | hole => simp only [assignTo]; exact goes_ret hc trivial
    | unary _ _ => simp only [assignTo]; exact goes_ret hc trivial
    | binary _ _ _ => simp only [assignTo]; exact goes_ret hc trivial
    | cond _ _ => simp only [assignTo]; exact goes_ret hc trivial
    | vec _ => simp only [assignTo]; exact goes_ret hc trivial
    | index _ _ => simp only [assignTo]; exact goes_ret hc trivial
  | .lit _, v, a, b, c, hc, hw, hs, hn, ha, hv, e => by simp only [assignTo]; exact goes_ret hc trivial
  | .hole, v, a, b, c, hc, hw, hs, hn, ha, hv, e => by simp only [assignTo]; exact goes_ret hc trivial
  | .unary _ _, v, a, b, c, hc, hw, hs, hn, ha, hv, e => by simp only [assignTo]; exact goes_ret hc trivial
  | .binary _ _ _, v, a, b, c, hc, hw, hs, hn, ha, hv, e => by simp only [assignTo]; exact goes_ret hc trivial
  | .cond _ _, v, a, b, c, hc, hw, hs, hn, ha, hv, e => by simp only [assignTo]; exact goes_ret hc trivial
theorem assignRev_goes (hS : SafeSem S) (hev : EvGoes ev) {n : Nat} : ∀ (es : List (Expr Val)) (vs : List Val) (a b : List Nat) (c : Ctx Val), WellCtx c → WellTs es →
    ScopedAll n es → n ≤ c.len → Known a c → Wells vs → es.length = vs.length → sureTRev es a = some b → Goes (Val0 b) c (assignRev S ev es vs c)
  | [], vs, a, b, c, hc, hw, hs, hn, ha, hv, hl, e => by
    cases e
    simp only [assignRev]
    exact goes_ret hc ha
  | e :: es, [], a, b, c, hc, hw, hs, hn, ha, hv, hl, h => by simp at hl
  | e :: es, v :: vs, a, b, c, hc, hw, hs, hn, ha, hv, hl, h => by
    simp only [sureTRev, Option.bind_eq_some_iff] at h
    obtain ⟨a1, e1, e2⟩ := h
    simp only [assignRev]
    refine goes_andThen (assignRev_goes hS hev es vs a a1 c hc hw.2 hs.2 hn ha hv.2 (by simpa using hl) e1) fun _ c1 h1 hc1 k1 => ?_
    exact assignTo_goes hS hev e v a1 b c1 hc1 hw.1 hs.1 (by rw [k1.len]; exact hn) h1 hv.1 e2
end

theorem evalBody_goes (hS : SafeSem S) (hev : EvGoes ev) {n : Nat} : ∀ (es : List (Expr Val)) (last : Option Val) (a : List Nat) (c : Ctx Val), WellCtx c → WellEs es →
    ScopedAll n es → n ≤ c.len → Known a c → (∀ v, last = some v → Well v) → bodySure es a = true →
    Goes (fun r _ => ∀ v, r = some v → Well v) c (evalBody S ev es last c)
  | [], last, a, c, hc, hw, hs, hn, ha, hl, h => goes_ret hc hl
  | e :: es, last, a, c, hc, hw, hs, hn, ha, hl, h => by
    have plain : (∃ b, sure e a = some b ∧ bodySure es b = true) →
        Goes (fun r _ => ∀ v, r = some v → Well v) c (andThen (ev e c) fun v c1 => evalBody S ev es (some v) c1) := by
      intro ⟨b, h1, h2⟩
      refine goes_andThen (hev e n a b c hc hw.1 hs.1 hn ha h1) fun v c1 hv hc1 k1 => ?_
      exact evalBody_goes hS hev es (some v) b c1 hc1 hw.2 hs.2 (by rw [k1.len]; exact hn) hv.2 (fun w hw => by cases hw; exact hv.1) h2
    have other : (match sure e a with | some b => bodySure es b | none => false) = true → ∃ b, sure e a = some b ∧ bodySure es b = true := by
      intro h
      cases e1 : sure e a with
      | none => rw [e1] at h; cases h
      | some b => rw [e1] at h; exact ⟨b, rfl, h⟩
    cases e with
    | cond l r =>
      simp only [bodySure] at h
      cases e1 : sure l a with
      | none => rw [e1] at h; cases h
      | some b =>
        rw [e1, Bool.and_eq_true] at h
        obtain ⟨h2, h3⟩ := h
        obtain ⟨d, h2⟩ := Option.isSome_iff_exists.1 h2
        simp only [evalBody]
        have hwe := hw.1
        simp only [WellE] at hwe
        have hse := hs.1
        simp only [Expr.Scoped] at hse
        refine goes_andThen (hev l n a b c hc hwe.1 hse.1 hn ha e1) fun v c1 hv hc1 k1 => ?_
        have ht := hS.isTrue v
        cases et : S.isTrue v with
        | ok t =>
          cases t with
          | true =>
            refine goes_andThen (hev r n b d c1 hc1 hwe.2 hse.2 (by rw [k1.len]; exact hn) hv.2 h2) fun w c2 hw hc2 k2 => ?_
            exact goes_ret hc2 fun x hx => by cases hx; exact hw.1
          | false => exact evalBody_goes hS hev es last b c1 hc1 hw.2 hs.2 (by rw [k1.len]; exact hn) hv.2 hl h3
        | err m => exact goes_ret hc1 trivial
        | crash => rw [et] at ht; exact ht.elim
        | hang => exact goes_ret hc1 trivial
    | lit _ => exact plain (other h)
    | hole => exact plain (other h)
    | var _ _ => exact plain (other h)
    | unary _ _ => exact plain (other h)
    | binary _ _ _ => exact plain (other h)
    | vec _ => exact plain (other h)
    | index _ _ => exact plain (other h)

theorem runFn_goes (hS : SafeSem S) (hev : EvGoes ev) {f : Fn Val} {body : List (Expr Val)} {args : Option Val × Val} {c : Ctx Val} (hc : WellCtx c) (hf : WellFn f)
    (hb : f.body = some body) (hs : f.Ok) (hsure : sureFn f args.1.isSome = true) (hn : f.locals.length ≤ c.len) (h1 : ∀ v, args.1 = some v → Well v) (h2 : Well args.2) :
    Goes (fun v _ => Well v) c (runFn S ev f body args c) := by
  obtain ⟨s1, s2, s3⟩ := hs body hb
  unfold sureFn at hsure
  rw [hb] at hsure
  dsimp only at hsure
  cases eb : (sureLeft f args.1.isSome).bind (sureT f.right) with
  | none => rw [eb] at hsure; cases hsure
  | some a =>
    rw [eb] at hsure
    obtain ⟨a0, e0, e1⟩ := Option.bind_eq_some_iff.1 eb
    unfold sureLeft at e0
    unfold runFn
    have hk : Known [] c := fun i hi => by simp at hi
    refine goes_andThen (P := Val0 a0) ?_ fun _ c1 k1 hc1 m1 => ?_
    · cases el : f.left with
      | none =>
        rw [el] at e0
        cases ea : args.1 <;> rw [ea] at e0 <;> cases e0 <;> exact goes_ret hc hk
      | some p =>
        rw [el] at e0
        cases ea : args.1 with
        | none => rw [ea] at e0; cases e0; exact goes_ret hc hk
        | some v =>
          rw [ea] at e0
          exact assignTo_goes hS hev p v [] a0 c hc (hf.left p el) (s1 p el) hn hk (h1 v ea) e0
    refine goes_andThen (assignTo_goes hS hev f.right args.2 a0 a c1 hc1 hf.right s2 (by rw [m1.len]; exact hn) k1 h2 e1) fun _ c2 k2 hc2 m2 => ?_
    refine goes_andThen (evalBody_goes hS hev body none a c2 hc2 (hf.body body hb) s3 (by rw [m2.len, m1.len]; exact hn) k2 (by simp) hsure) fun r c3 hr hc3 m3 => ?_
    cases r with
    | some v => exact goes_ret hc3 (hr v rfl)
    | none => exact goes_ret hc3 trivial

theorem callFn_goes (hS : SafeSem S) (hev : EvGoes ev) {M : Nat} {f : Fn Val} {args : Option Val × Val} {c : Ctx Val} (hc : WellCtx c) (hf : WellFn f) (hs : f.Ok)
    (hsure : sureFn f args.1.isSome = true) (h1 : ∀ v, args.1 = some v → Well v) (h2 : Well args.2) : Goes (fun v _ => Well v) c (callFn S M ev f args c) := by
  unfold callFn
  cases hb : f.body with
  | none => exact goes_ret hc trivial
  | some body =>
    dsimp only
    split
    · exact goes_ret hc trivial
    · have hp : WellCtx (c.push f) := ⟨hc.env, hc.slots⟩
      have := runFn_goes hS hev (args := args) (c := c.push f) hp hf hb hs hsure (by show _ ≤ c.len + _; omega) h1 h2
      obtain ⟨g1, g2, g3⟩ := this
      generalize runFn S ev f body args (c.push f) = q at g1 g2 g3
      have hfr : q.2.frames = f.locals.length :: c.frames := g2.frames
      have hlen : q.2.len = c.len + f.locals.length := g2.len
      have hpop : q.2.pop = { q.2 with len := q.2.len - f.locals.length, frames := c.frames } := by
        unfold Ctx.pop
        rw [hfr]
      refine ⟨?_, ?_, g3⟩
      · show WellCtx q.2.pop
        rw [hpop]
        exact ⟨g1.env, g1.slots⟩
      · show After c q.2.pop
        rw [hpop]
        exact ⟨by show q.2.len - _ = _; omega, rfl, g2.mono⟩
end

/-- What a task needs not to fault. -/
def TaskFine (n : Nat) (a : List Nat) : Exec.Task Val → Prop
  | .expr e => WellE e ∧ e.Scoped n ∧ (sure e a).isSome = true
  | .unary _ v => Well v
  | .binary l _ r => Well l ∧ Well r
  | .act p => SafeAct p

/-- The local variables that have values after a task. -/
def taskKnown (a : List Nat) : Exec.Task Val → List Nat
  | .expr e => (sure e a).getD []
  | _ => []

theorem run_goes {S : Sem Val} (hS : SafeSem S) (M : Nat) : ∀ (fuel : Nat) (t : Exec.Task Val) (n : Nat) (a : List Nat) (c : Ctx Val), WellCtx c → TaskFine n a t → n ≤ c.len →
    Known a c → Goes (Val1 (taskKnown a t)) c (run S M fuel t c)
  | 0, t, n, a, c, hc, ht, hn, ha => goes_ret hc trivial
  | fuel + 1, t, n, a, c, hc, ht, hn, ha => by
    have ih := run_goes hS M fuel
    have hev : EvGoes (fun e c => run S M fuel (.expr e) c) := fun e n a b c h1 h2 h3 h4 h5 h6 => by
      have := ih (.expr e) n a c h1 ⟨h2, h3, by rw [h6]; rfl⟩ h4 h5
      simpa [taskKnown, h6] using this
    have nil : ∀ {c : Ctx Val}, Known [] c := fun {c} i hi => by simp at hi
    have more : ∀ {c : Ctx Val} {p : Res Val Val} (b : List Nat), Known b c → Goes (Val1 []) c p → Goes (Val1 b) c p := fun b hb h =>
      goes_mono h fun v c1 k h => ⟨h.1, known_after hb k⟩
    have un : ∀ (op : String) (v : Val) (c : Ctx Val), WellCtx c → Well v → Goes (Val1 []) c (run S M fuel (.unary op v) c) := fun op v c h1 h2 =>
      ih (.unary op v) 0 [] c h1 h2 (by omega) nil
    have bi : ∀ (l : Val) (op : String) (r : Val) (c : Ctx Val), WellCtx c → Well l → Well r → Goes (Val1 []) c (run S M fuel (.binary l op r) c) := fun l op r c h1 h2 h3 =>
      ih (.binary l op r) 0 [] c h1 ⟨h2, h3⟩ (by omega) nil
    have ac : ∀ (p : Act Val) (c : Ctx Val), WellCtx c → SafeAct p → Goes (Val1 []) c (run S M fuel (.act p) c) := fun p c h1 h2 =>
      ih (.act p) 0 [] c h1 h2 (by omega) nil
    have plain : ∀ {c : Ctx Val} {p : Res Val Val}, Goes (fun v _ => Well v) c p → Goes (Val1 []) c p := fun h => goes_mono h fun v c1 _ h => ⟨h, nil⟩
    unfold run
    cases t with
    | expr e =>
      obtain ⟨hw, hs, hsu⟩ := ht
      obtain ⟨b, hb⟩ := Option.isSome_iff_exists.1 hsu
      simp only [taskKnown, hb, Option.getD_some]
      show Goes (Val1 b) c (evalExpr S (run S M fuel) e c)
      unfold evalExpr
      cases e with
      | lit v =>
        simp only [sure, Option.some.injEq] at hb
        subst hb
        exact goes_ret hc ⟨hw, ha⟩
      | hole => exact hw.elim
      | var x loc =>
        simp only [sure, Option.some.injEq] at hb
        subst hb
        simp only [Expr.Scoped] at hs
        exact readVar_goes hc (by omega) ha
      | unary op r =>
        simp only [sure] at hb
        refine goes_andThen (hev r n a b c hc hw hs hn ha hb) fun v c1 hv hc1 k1 => ?_
        exact more b hv.2 (un op _ c1 hc1 (hS.inner _ hv.1))
      | binary op l r =>
        simp only [sure, Option.bind_eq_some_iff] at hb
        obtain ⟨a1, e1, e2⟩ := hb
        simp only [WellE] at hw
        simp only [Expr.Scoped] at hs
        dsimp only
        split
        · rename_i heq
          rw [if_pos heq] at e2
          rw [if_pos heq] at hw
          refine goes_andThen (hev r n a a1 c hc hw.1 hs.2 hn ha e1) fun v c1 hv hc1 k1 => ?_
          refine goes_andThen (assignTo_goes hS hev l _ a1 b c1 hc1 hw.2 hs.1 (by rw [k1.len]; exact hn) hv.2 (hS.inner _ hv.1) e2) fun _ c2 h2 hc2 k2 => ?_
          exact goes_ret hc2 ⟨hS.quiet _ (hS.inner _ hv.1), h2⟩
        · rename_i hne
          rw [if_neg hne] at e2
          rw [if_neg hne] at hw
          refine goes_andThen (hev r n a a1 c hc hw.1 hs.2 hn ha e1) fun v c1 hv hc1 k1 => ?_
          refine goes_andThen (hev l n a1 b c1 hc1 hw.2 hs.1 (by rw [k1.len]; exact hn) hv.2 e2) fun u c2 hu hc2 k2 => ?_
          exact more b hu.2 (bi _ op _ c2 hc2 hu.1 (hS.inner _ hv.1))
      | cond l r =>
        simp only [sure, Option.bind_eq_some_iff] at hb
        obtain ⟨a1, e1, e2⟩ := hb
        simp only [WellE] at hw
        simp only [Expr.Scoped] at hs
        refine goes_andThen (hev r n a a1 c hc hw.2 hs.2 hn ha e1) fun v c1 hv hc1 k1 => ?_
        refine goes_andThen (hev l n a1 b c1 hc1 hw.1 hs.1 (by rw [k1.len]; exact hn) hv.2 e2) fun u c2 hu hc2 k2 => ?_
        exact more b hu.2 (bi _ ":" _ c2 hc2 hu.1 (hS.inner _ hv.1))
      | vec es =>
        simp only [sure] at hb
        simp only [WellE] at hw
        simp only [Expr.Scoped] at hs
        refine goes_andThen (evalRev_goes hev es a b c hc hw hs hn ha hb) fun vs c1 h1 hc1 k1 => ?_
        exact goes_ret hc1 ⟨hS.ofList _ h1.1, h1.2⟩
      | index l is =>
        simp only [sure, Option.bind_eq_some_iff] at hb
        obtain ⟨a1, e1, e2⟩ := hb
        simp only [WellE] at hw
        simp only [Expr.Scoped] at hs
        refine goes_andThen (evalIdx_goes hS hev is a a1 c hc hw.2.2 hs.2 hn ha e1) fun ivs c1 h1 hc1 k1 => ?_
        refine goes_andThen (hev l n a1 b c1 hc1 hw.1 hs.1 (by rw [k1.len]; exact hn) h1.2 e2) fun u c2 hu hc2 k2 => ?_
        have hne : ivs ≠ [] := by
          intro h
          have := h1.1.1
          rw [h] at this
          exact hw.2.1 (List.eq_nil_of_length_eq_zero this.symm)
        exact goes_ret hc2 (fine_of (gives_mono (hS.index u ivs hu.1 hne h1.1.2) fun v hv => ⟨hv, hu.2⟩))
    | unary op v =>
      show Goes (Val1 []) c (evalUnary S M (run S M fuel) op v c)
      unfold evalUnary
      split
      · rename_i p hp
        exact ac _ c hc (hS.unaryDerived op p v hp ht)
      · split
        · rename_i f hf
          obtain ⟨h1, h2⟩ := hc.env.fns op false f hf
          exact plain (callFn_goes hS hev hc h1 (hc.env.ok op false f hf) h2 (by simp) ht)
        · split
          · rename_i p hp
            exact ac _ c hc (hS.unary op p v hp ht)
          · exact goes_ret hc trivial
    | binary l op r =>
      show Goes (Val1 []) c (evalBinary S M (run S M fuel) l op r c)
      unfold evalBinary
      split
      · rename_i p hp
        exact ac _ c hc (hS.binaryDerived l op r p hp ht.1 ht.2)
      · split
        · rename_i f hf
          obtain ⟨h1, h2⟩ := hc.env.fns op true f hf
          exact plain (callFn_goes hS hev hc h1 (hc.env.ok op true f hf) h2 (fun v e => by cases e; exact ht.1) ht.2)
        · split
          · rename_i p hp
            exact ac _ c hc (hS.binary op p l r hp ht.1 ht.2)
          · exact goes_ret hc trivial
    | act p =>
      show Goes (Val1 []) c (evalAct S (run S M fuel) p c)
      cases ht with
      | done r h => exact goes_ret hc (fine_of (gives_mono h fun v hv => ⟨hv, nil⟩))
      | look k h => exact ac _ c hc (h c.env)

end Verif.Safe
