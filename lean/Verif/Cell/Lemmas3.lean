import Verif.Cell.Lemmas2

/-!
# Lemmas: expressions and sessions
-/

namespace Verif.Cell
open Verif.Arr (R)
open Verif.Flt

theorem PS.shrink_flt {x : Fl} : (PS.flt x).shrink = .exact x.val ∨ (PS.flt x).shrink = .flt x := by
  simp only [PS.shrink, shrinkF]
  split
  · exact .inl rfl
  · exact .inr rfl

theorem shrinkS_spec {h : Heap} {s : Sc} {x : PS} (r : ReadsS h s x) : ∃ s', shrinkS s h = .ok (s', h) ∧ ReadsS h s' x.shrink ∧ (s' = s ∨ ∃ q, s' = .exact q) := by
  unfold shrinkS
  rw [bind_ok (readS_ok r)]
  cases x with
  | exact q =>
    exact ⟨.exact q, rfl, rfl, .inr ⟨q, rfl⟩⟩
  | flt x =>
    rcases PS.shrink_flt (x := x) with hx | hx
    · rw [hx]; exact ⟨.exact x.val, rfl, rfl, .inr ⟨_, rfl⟩⟩
    · rw [hx]; exact ⟨s, rfl, r, .inl rfl⟩

theorem NewS.shrink {n : Nat} {s s' : Sc} (h : NewS n s) (hs : s' = s ∨ ∃ q, s' = .exact q) : NewS n s' := by
  rcases hs with rfl | ⟨q, rfl⟩
  · exact h
  · trivial

theorem shrinkV_sim {h : Heap} {s t : Sc} {x y : PS} (rs : ReadsS h s x) (rt : ReadsS h t y) :
    Sim (shrinkV s t h) (.ok (shrinkC x y)) (fun v z h' => h' = h ∧ Reads h v z ∧ ∀ n, NewV n (.cplx s t) → NewV n v) := by
  obtain ⟨s', h1, h2, h3⟩ := shrinkS_spec rs
  obtain ⟨t', h1', h2', h3'⟩ := shrinkS_spec rt
  unfold shrinkV shrinkC
  refine Sim.left h1 (Sim.left h1' (Sim.left (readS_ok h2') ?_))
  by_cases hz : y.shrink.val = 0
  · rw [if_pos hz, if_pos hz]
    exact ⟨rfl, h2, fun n hn => hn.1.shrink h3⟩
  · rw [if_neg hz, if_neg hz]
    refine ⟨rfl, ⟨h2, h2'⟩, fun n hn => ⟨hn.1.shrink h3, hn.2.1.shrink h3', ?_⟩⟩
    rintro a rfl rfl
    rcases h3 with rfl | ⟨q, hq⟩
    · rcases h3' with h3' | ⟨q, hq⟩
      · exact hn.2.2 a rfl h3'.symm
      · cases hq
    · cases hq

/-- The constants have their values. -/
def Good (c : Ctx) (h : Heap) : Prop := h[piBy2]? = some ⟨c.p, rnd c.p (c.pi / 2)⟩ ∧ h[minusPiBy2]? = some ⟨c.p, -rnd c.p (c.pi / 2)⟩

theorem Good.keep {c : Ctx} {h h' : Heap} (g : Good c h) {n : Nat} (hn : h.length ≤ n) (k : Keep n h h') : Good c h' :=
  ⟨(k.2 _ (Nat.lt_of_lt_of_le (lt_of_some g.1) hn)).trans g.1, (k.2 _ (Nat.lt_of_lt_of_le (lt_of_some g.2) hn)).trans g.2⟩

theorem newS_sim {n : Nat} {h : Heap} (hn : n ≤ h.length) (x : PS) : Sim (newS x h) (.ok x) (fun s y h' => ReadsS h' s y ∧ Keep n h h' ∧ NewS n s) := by
  obtain ⟨s, l, h1, h2, h3, _⟩ := newS_spec x h
  rw [h1]
  exact ⟨h2, Keep.alloc hn l, h3.mono hn⟩

theorem phaseC_sim (c : Ctx) (fuel : Nat) {n : Nat} {h : Heap} (g : Good c h) (hn : n ≤ h.length) {s t : Sc} {x y : PS} (rs : ReadsS h s x) (rt : ReadsS h t y) :
    Sim (phaseC c fuel s t h) (Spec.phaseC c fuel x y) (fun s y h' => ReadsS h' s y ∧ Keep n h h' ∧ Keep h.length h h') := by
  unfold phaseC Spec.phaseC
  refine Sim.left (readS_ok rs) (Sim.left (readS_ok rt) ?_)
  by_cases h1 : y.val = 0
  · rw [if_pos h1, if_pos h1]
    exact (newS_sim (Nat.le_refl _) _).mono fun _ _ _ hq => ⟨hq.1, ⟨hq.2.1.1, fun i hi => hq.2.1.2 i (by omega)⟩, hq.2.1⟩
  · rw [if_neg h1, if_neg h1]
    by_cases h2 : x.val = 0
    · rw [if_pos h2, if_pos h2]
      refine ⟨?_, Keep.refl _ _, Keep.refl _ _⟩
      by_cases h3 : y.val < 0
      · rw [if_pos h3, if_pos h3]; exact g.2
      · rw [if_neg h3, if_neg h3]; exact g.1
    · rw [if_neg h2, if_neg h2]
      refine Sim.bind_left (sim_lift _ _) ?_
      rintro a b _ ⟨rfl, rfl⟩
      exact (newS_sim (Nat.le_refl _) _).mono fun _ _ _ hq => ⟨hq.1, ⟨hq.2.1.1, fun i hi => hq.2.1.2 i (by omega)⟩, hq.2.1⟩

/-- The result of an operator: its contents, what has not changed, and whether it is new. -/
def UnPost (n : Nat) (h : Heap) (isNew : Prop) (v : Val) (x : PV) (h' : Heap) : Prop := Reads h' v x ∧ Keep n h h' ∧ (isNew → NewV n v)

theorem NewPost.un {n : Nat} {h : Heap} {p : Prop} {v : Val} {x : PV} {h' : Heap} (q : NewPost n h v x h') : UnPost n h p v x h' := ⟨q.1, q.2.1, fun _ => q.2.2⟩

theorem float_sim (c : Ctx) {n : Nat} {h : Heap} (hn : n ≤ h.length) {v : Val} {x : PV} (r : Reads h v x) :
    Sim (float c v h) (Spec.unary c fuel .float x) (UnPost n h (NewV n v)) := by
  cases v with
  | real s =>
    cases x with
    | cplx _ _ => exact r.elim
    | real x =>
      obtain ⟨a, l, h1, h2, h3, _⟩ := floatSelf_spec (n := n) c r
      simp only [float]
      refine Sim.left h1 ?_
      exact ⟨h2, Keep.alloc hn l, fun hs => h3 hs hn⟩
  | cplx s t =>
    cases x with
    | real _ => exact r.elim
    | cplx x y =>
      obtain ⟨r1, r2⟩ := r
      obtain ⟨a, l, h1, h2, h3, h4⟩ := floatSelf_spec (n := n) c r1
      obtain ⟨b, l', h1', h2', h3', h4'⟩ := floatSelf_spec (n := n) c (r2.keep (Keep.alloc (Nat.le_refl _) l) (Nat.le_refl _))
      have ha : (h ++ l ++ l')[a]? = some (x.float c) := by rw [List.getElem?_append_left (lt_of_some h2)]; exact h2
      simp only [float]
      refine Sim.left h1 (Sim.left h1' ?_)
      refine ⟨⟨ha, h2'⟩, by rw [List.append_assoc]; exact Keep.alloc hn _, fun hs => ?_⟩
      obtain ⟨a', b', m, m', e1, e2, _, _, e5, e6, e7⟩ := floatSelf2_spec c n hn ⟨r1, r2⟩ hs
      rw [h1] at e1
      injection e1 with e1
      injection e1 with e1 e1'
      rw [← e1', h1'] at e2
      injection e2 with e2
      injection e2 with e2 e2'
      rw [← e1] at e5 e7
      rw [← e2] at e6 e7
      refine ⟨e5, e6, ?_⟩
      rintro i hi hj
      injection hi with hi
      injection hj with hj
      exact e7 (hi.trans hj.symm)

theorem logn_sim (c : Ctx) (fuel : Nat) {n : Nat} {h : Heap} (g : Good c h) (hn : n ≤ h.length) {v : Val} {x : PV} (r : Reads h v x) :
    Sim (logn c fuel v h) (Spec.log c fuel x) (UnPost n h False) := by
  have main : ∀ {s t : Sc} {x y : PS}, ReadsS h s x → ReadsS h t y →
      Sim (((readS s).bind fun r => (readS t).bind fun i =>
        if i.val ≠ 0 ∨ r.val < 0 then (complexLog c fuel s t).bind fun l => shrinkV l.1 l.2 else
          (lift (realLog c fuel r)).bind fun l => new (.real l)) h)
        (if y.val ≠ 0 ∨ x.val < 0 then
          (cAbs c fuel (x, y)).bind fun a => (Spec.phaseC c fuel x y).bind fun ph => (realLog c fuel a).bind fun l => .ok (shrinkC l ph)
        else (realLog c fuel x).bind fun l => .ok (.real l)) (UnPost n h False) := by
    intro s t x y rs rt
    refine Sim.left (readS_ok rs) (Sim.left (readS_ok rt) ?_)
    by_cases h1 : y.val ≠ 0 ∨ x.val < 0
    · rw [if_pos h1, if_pos h1]
      have hl : Sim (complexLog c fuel s t h) ((cAbs c fuel (x, y)).bind fun a => (Spec.phaseC c fuel x y).bind fun ph => (realLog c fuel a).bind fun l => .ok (l, ph))
          (fun l p h' => ReadsS h' l.1 p.1 ∧ ReadsS h' l.2 p.2 ∧ Keep n h h') := by
        refine Sim.left (readS_ok rs) (Sim.left (readS_ok rt) (Sim.bind (sim_lift _ _) ?_))
        rintro a _ _ ⟨rfl, rfl⟩
        refine Sim.bind (phaseC_sim c fuel g hn rs rt) ?_
        rintro ph q H ⟨rp, k, _⟩
        refine Sim.bind (sim_lift _ _) ?_
        rintro l _ _ ⟨rfl, rfl⟩
        obtain ⟨l', m, e1, e2, _⟩ := newS_spec l ‹Heap›
        refine Sim.left e1 ?_
        exact ⟨e2, rp.keep (Keep.alloc (Nat.le_refl _) m) (Nat.le_refl _), k.trans (Keep.alloc (Nat.le_trans hn k.1) m) (Nat.le_refl _)⟩
      have : ((cAbs c fuel (x, y)).bind fun a => (Spec.phaseC c fuel x y).bind fun ph => (realLog c fuel a).bind fun l => R.ok (shrinkC l ph)) =
          ((cAbs c fuel (x, y)).bind fun a => (Spec.phaseC c fuel x y).bind fun ph => (realLog c fuel a).bind fun l => R.ok (l, ph)).bind
            fun p => R.ok (shrinkC p.1 p.2) := by
        cases cAbs c fuel (x, y) with
        | ok a =>
          cases Spec.phaseC c fuel x y with
          | ok ph => simp only [R.bind]; cases realLog c fuel a <;> rfl
          | err m => rfl
          | crash => rfl
          | hang => rfl
        | err m => rfl
        | crash => rfl
        | hang => rfl
      rw [this]
      refine Sim.bind hl ?_
      rintro l p H ⟨r1, r2, k⟩
      refine (shrinkV_sim r1 r2).mono ?_
      rintro v z _ ⟨rfl, hv, _⟩
      exact ⟨hv, k, False.elim⟩
    · rw [if_neg h1, if_neg h1]
      refine Sim.bind (sim_lift _ _) ?_
      rintro l _ _ ⟨rfl, rfl⟩
      exact (new_sim hn _).mono fun _ _ _ q => q.un
  cases v with
  | real s =>
    cases x with
    | cplx _ _ => exact r.elim
    | real x => exact main r (t := .exact 0) (y := .exact 0) rfl
  | cplx s t =>
    cases x with
    | real _ => exact r.elim
    | cplx x y => exact main r.1 r.2

theorem phase_sim (c : Ctx) (fuel : Nat) {n : Nat} {h : Heap} (g : Good c h) (hn : n ≤ h.length) {v : Val} {x : PV} (r : Reads h v x) :
    Sim (phase c fuel v h) (Spec.phase c fuel x) (UnPost n h False) := by
  cases v with
  | real s =>
    cases x with
    | cplx _ _ => exact r.elim
    | real x =>
      simp only [phase]
      refine Sim.left (readS_ok r) ?_
      obtain ⟨l', m, e1, e2, _⟩ := newS_spec (realPhase c x) h
      refine Sim.left e1 ?_
      exact ⟨e2, Keep.alloc hn m, False.elim⟩
  | cplx s t =>
    cases x with
    | real _ => exact r.elim
    | cplx x y =>
      simp only [phase, Spec.phase]
      refine Sim.bind (phaseC_sim c fuel g hn r.1 r.2) ?_
      rintro ph q H ⟨rp, k, _⟩
      obtain ⟨s', e1, e2, _⟩ := shrinkS_spec rp
      refine Sim.left e1 ?_
      exact ⟨e2, k, False.elim⟩

/-- The result of an operator is new. -/
def opNew : Un → Prop → Prop
  | .plus, p | .real, p | .imag, p | .float, p => p
  | .phase, _ | .log, _ => False
  | _, _ => True

theorem unary_sim (c : Ctx) (fuel : Nat) (op : Un) {n : Nat} {h : Heap} (g : Good c h) (hn : n ≤ h.length) {v : Val} {x : PV} (r : Reads h v x)
    (hc : Spec.changes op = true → NewV n v) : Sim (unary c fuel op v h) (Spec.unary c fuel op x) (UnPost n h (opNew op (NewV n v))) := by
  have up : ∀ {m : R (Val × Heap)} {s : R PV} {p : Prop}, Sim m s (NewPost n h) → Sim m s (UnPost n h p) := fun hs => hs.mono fun _ _ _ q => q.un
  cases op with
  | plus => exact ⟨r, Keep.refl _ _, fun q => q⟩
  | minus => exact up (fresh1_sim hn _ r)
  | abs => exact up (fresh1_sim hn _ r)
  | sqrt => exact up (fresh1_sim hn _ r)
  | real =>
    cases v <;> cases x <;> first | exact r.elim | skip
    · exact ⟨r, Keep.refl _ _, fun q => q⟩
    · exact ⟨r.1, Keep.refl _ _, fun q => q.1⟩
  | imag =>
    cases v <;> cases x <;> first | exact r.elim | skip
    · exact ⟨rfl, Keep.refl _ _, fun _ => trivial⟩
    · exact ⟨r.2, Keep.refl _ _, fun q => q.2.1⟩
  | float => exact float_sim c hn r
  | phase => exact phase_sim c fuel g hn r
  | log => exact logn_sim c fuel g hn r
  | sin => exact up (trig_sim c (realSim_at sinAt_sim) hn r (hc rfl) fun r' n' => complexSin_sim c fuel hn r' n')
  | cos => exact up (trig_sim c (realSim_at cosAt_sim) hn r (hc rfl) fun r' n' => complexCos_sim c fuel hn r' n')
  | tan => exact up (trig_sim c (realSim_at tanAt_sim) hn r (hc rfl) fun r' n' => complexTan_sim c fuel hn r' n')
  | sinh => exact up (trig_sim c (realSim_read _) hn r (hc rfl) fun r' n' => complexSinh_sim c fuel hn r' n')
  | cosh => exact up (trig_sim c (realSim_read _) hn r (hc rfl) fun r' n' => complexCosh_sim c fuel hn r' n')
  | tanh => exact up (trig_sim c (realSim_read _) hn r (hc rfl) fun r' n' => complexTanh_sim c fuel hn r' n')
  | exp => exact up (trig_sim c (realSim_read _) hn r (hc rfl) fun r' n' => expComplex_sim c fuel hn r' n')

/-- Variables with objects and variables with values. -/
def EnvReads (h : Heap) : Env → List (String × PV) → Prop
  | [], [] => True
  | a :: l, b :: m => a.1 = b.1 ∧ Reads h a.2 b.2 ∧ EnvReads h l m
  | _, _ => False

theorem EnvReads.keep {h h' : Heap} (k : Keep h.length h h') : ∀ {env : Env} {vals : List (String × PV)}, EnvReads h env vals → EnvReads h' env vals
  | [], [], _ => trivial
  | _ :: _, _ :: _, e => ⟨e.1, e.2.1.keep k (Nat.le_refl _), EnvReads.keep k e.2.2⟩

theorem EnvReads.lookup {h : Heap} (x : String) : ∀ {env : Env} {vals : List (String × PV)}, EnvReads h env vals →
    (env.lookup x = none ∧ vals.lookup x = none) ∨ ∃ v p, env.lookup x = some v ∧ vals.lookup x = some p ∧ Reads h v p
  | [], [], _ => .inl ⟨rfl, rfl⟩
  | (y, v) :: l, (z, p) :: m, e => by
    obtain ⟨e1, e2, e3⟩ := e
    simp only at e1 e2
    subst e1
    simp only [List.lookup_cons]
    cases x == y with
    | true => exact .inr ⟨v, p, rfl, rfl, e2⟩
    | false => exact EnvReads.lookup x e3

theorem joinJ_sim (c : Ctx) {n : Nat} {h : Heap} (hn : n ≤ h.length) {u v : Val} {x y : PV} (ru : Reads h u x) (rv : Reads h v y)
    {m : Nat} (hv : ∀ s, v = .real s → ∀ a, s = .cell a → a < m) :
    Sim (joinJ c u v h) (Spec.join c x y) (UnPost n h (NewV m u ∧ n ≤ m ∧ m ≤ h.length ∧ NewV n v)) := by
  have main : ∀ {s t : Sc} {x y : PS}, u = .real s → v = .real t → ReadsS h s x → ReadsS h t y →
      Sim (((floatSelf c s).bind fun a => (floatSelf c t).bind fun b => shrinkV (.cell a) (.cell b)) h)
        (.ok (shrinkC (.flt (x.float c)) (.flt (y.float c)))) (UnPost n h (NewV m u ∧ n ≤ m ∧ m ≤ h.length ∧ NewV n v)) := by
    intro s t x y hu hv' rs rt
    obtain ⟨a, l, h1, h2, h3, h4⟩ := floatSelf_spec (n := m) c rs
    obtain ⟨b, l', h1', h2', h3', h4'⟩ := floatSelf_spec (n := n) c (rt.keep (Keep.alloc (Nat.le_refl _) l) (Nat.le_refl _))
    have ha : (h ++ l ++ l')[a]? = some (x.float c) := by rw [List.getElem?_append_left (lt_of_some h2)]; exact h2
    refine Sim.left h1 (Sim.left h1' ((shrinkV_sim (s := .cell a) (t := .cell b) (x := .flt (x.float c)) (y := .flt (y.float c)) ha h2').mono ?_))
    rintro w z _ ⟨rfl, hw, hnew⟩
    refine ⟨hw, by rw [List.append_assoc]; exact Keep.alloc hn _, fun ⟨q1, q2, q3, q4⟩ => hnew n ?_⟩
    subst hu hv'
    have b1 := h3 q1 q3
    refine ⟨Nat.le_trans q2 b1, h3' q4 (by simp; omega), ?_⟩
    rintro i hi hj
    injection hi with hi
    injection hj with hj
    have al := lt_of_some h2
    rcases h4' with ⟨h6, h7⟩ | ⟨_, h6⟩
    · have := hv t rfl b h6
      omega
    · omega
  cases u with
  | real s =>
    cases x with
    | cplx _ _ => exact ru.elim
    | real x =>
      cases v with
      | real t =>
        cases y with
        | cplx _ _ => exact rv.elim
        | real y =>
          cases s with
          | cell a =>
            cases x with
            | exact _ => exact ru.elim
            | flt x =>
              have := main (x := .flt x) (y := y) rfl rfl ru rv
              cases t <;> cases y <;> first | exact rv.elim | exact this
          | exact a =>
            cases x with
            | flt _ => exact ru.elim
            | exact a' =>
              cases t with
              | cell b =>
                cases y with
                | exact _ => exact rv.elim
                | flt y => exact main (x := .exact a') (y := .flt y) rfl rfl ru rv
              | exact b =>
                cases y with
                | flt _ => exact rv.elim
                | exact b' =>
                  refine (shrinkV_sim (s := .exact a) (t := .exact b) (x := .exact a') (y := .exact b') ru rv).mono ?_
                  rintro w z _ ⟨rfl, hw, hnew⟩
                  exact ⟨hw, Keep.refl _ _, fun _ => hnew n ⟨trivial, trivial, fun i hi => by cases hi⟩⟩
      | cplx t t' =>
        cases y with
        | real _ => exact rv.elim
        | cplx y y' =>
          cases s <;> cases x <;> rfl
  | cplx s s' =>
    cases x with
    | real _ => exact ru.elim
    | cplx x x' =>
      cases v <;> cases y <;> rfl

theorem reads_lt {h : Heap} {v : Val} {y : PV} (r : Reads h v y) : ∀ s, v = .real s → ∀ a, s = .cell a → a < h.length := by
  rintro s rfl a rfl
  cases y with
  | cplx _ _ => exact r.elim
  | real y =>
    cases y with
    | exact _ => exact r.elim
    | flt y => exact lt_of_some r

/-- Evaluating a careful expression gives its value, and leaves all objects as they are. -/
theorem eval_sim (c : Ctx) (fuel : Nat) (env : Env) (vals : List (String × PV)) : ∀ (e : Ex) (h : Heap), Spec.careful e = true → Good c h → EnvReads h env vals →
    Sim (eval c fuel env e h) (Spec.value c fuel vals e) (UnPost h.length h (Spec.isNew e = true))
  | .num re im, h, _, _, _ => by
    unfold eval Spec.value
    by_cases hi : im = 0
    · rw [if_pos hi, if_pos hi]; exact ⟨rfl, Keep.refl _ _, fun _ => trivial⟩
    · rw [if_neg hi, if_neg hi]; exact ⟨⟨rfl, rfl⟩, Keep.refl _ _, fun _ => ⟨trivial, trivial, fun a ha => by cases ha⟩⟩
  | .var x, h, _, _, he => by
    unfold eval Spec.value
    rcases he.lookup x with ⟨h1, h2⟩ | ⟨v, p, h1, h2, h3⟩
    · rw [h1, h2]; rfl
    · rw [h1, h2]; exact ⟨h3, Keep.refl _ _, fun hn => by cases hn⟩
  | .un op e, h, hc, hg, he => by
    unfold eval Spec.value
    simp only [Spec.careful, Bool.and_eq_true, Bool.or_eq_true, Bool.not_eq_true'] at hc
    refine Sim.bind (eval_sim c fuel env vals e h hc.1 hg he) ?_
    rintro v x H ⟨r, k, hn⟩
    refine (unary_sim c fuel op (hg.keep (Nat.le_refl _) k) k.1 r (fun hch => hn ?_)).mono ?_
    · rcases hc.2 with h1 | h1
      · rw [h1] at hch; cases hch
      · exact h1
    · rintro w z H' ⟨r', k', hn'⟩
      refine ⟨r', k.trans k' (Nat.le_refl _), fun hx => hn' ?_⟩
      cases op <;> simp only [Spec.isNew] at hx <;> first | exact hn hx | trivial | cases hx
  | .bin op l r, h, hc, hg, he => by
    unfold eval Spec.value
    simp only [Spec.careful, Bool.and_eq_true] at hc
    refine Sim.bind (eval_sim c fuel env vals r h hc.2 hg he) ?_
    rintro v y H ⟨rv, k, _⟩
    refine Sim.bind (eval_sim c fuel env vals l H hc.1 (hg.keep (Nat.le_refl _) k) (he.keep k)) ?_
    rintro u x H' ⟨ru, k', _⟩
    refine (fresh2_sim (n := h.length) (Nat.le_trans k.1 k'.1) _ ru (rv.keep k' (Nat.le_refl _))).mono ?_
    rintro w z H'' ⟨rw', kw, hn⟩
    exact ⟨rw', (k.trans k' k.1).trans kw (Nat.le_refl _), fun _ => hn⟩
  | .j l r, h, hc, hg, he => by
    unfold eval Spec.value
    simp only [Spec.careful, Bool.and_eq_true] at hc
    refine Sim.bind (eval_sim c fuel env vals r h hc.2 hg he) ?_
    rintro v y H ⟨rv, k, hnv⟩
    refine Sim.bind (eval_sim c fuel env vals l H hc.1 (hg.keep (Nat.le_refl _) k) (he.keep k)) ?_
    rintro u x H' ⟨ru, k', hnu⟩
    refine (joinJ_sim c (n := h.length) (m := H.length) (Nat.le_trans k.1 k'.1) ru (rv.keep k' (Nat.le_refl _)) (reads_lt rv)).mono ?_
    rintro w z H'' ⟨rw', kw, hn⟩
    refine ⟨rw', (k.trans k' k.1).trans kw (Nat.le_refl _), fun hx => ?_⟩
    simp only [Spec.isNew, Bool.and_eq_true] at hx
    exact hn ⟨hnu hx.1, k.1, k'.1, hnv hx.2⟩

theorem session_eq (c : Ctx) (fuel : Nat) : ∀ (ls : List Line) (env : Env) (vals : List (String × PV)) (h : Heap), (∀ l ∈ ls, Spec.careful (Spec.lineExpr l) = true) →
    Good c h → EnvReads h env vals → session c fuel ls env h = Spec.session c fuel ls vals
  | [], _, _, _, _, _, _ => rfl
  | .assign x e :: ls, env, vals, h, hc, hg, he => by
    unfold session Spec.session
    have := eval_sim c fuel env vals e h (hc _ (List.mem_cons_self ..)) hg he
    cases h1 : eval c fuel env e h <;> cases h2 : Spec.value c fuel vals e <;> rw [h1, h2] at this <;> first | exact this.elim | skip
    · obtain ⟨r, k, _⟩ := this
      exact session_eq c fuel ls _ _ _ (fun l hl => hc l (List.mem_cons_of_mem _ hl)) (hg.keep (Nat.le_refl _) k) ⟨rfl, r, he.keep k⟩
    · cases this; rfl
    · rfl
    · rfl
  | .show e :: ls, env, vals, h, hc, hg, he => by
    unfold session Spec.session
    have := eval_sim c fuel env vals e h (hc _ (List.mem_cons_self ..)) hg he
    cases h1 : eval c fuel env e h <;> cases h2 : Spec.value c fuel vals e <;> rw [h1, h2] at this <;> first | exact this.elim | skip
    · rename_i a b
      obtain ⟨r, k, _⟩ := this
      have ih := session_eq c fuel ls env vals a.2 (fun l hl => hc l (List.mem_cons_of_mem _ hl)) (hg.keep (Nat.le_refl _) k) (he.keep k)
      simp only [R.bind, read_ok r, ih]
    · cases this; rfl
    · rfl
    · rfl

end Verif.Cell
