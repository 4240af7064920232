import Verif.Cell.Lemmas

/-!
# Lemmas: the functions of one scalar
-/

namespace Verif.Cell
open Verif.Arr (R)
open Verif.Flt

theorem new_keep {n : Nat} {h H : Heap} (hn : n ≤ h.length) (k : Keep n h H) (x : PV) : Sim (new x H) (.ok x) (NewPost n h) :=
  (new_sim (Nat.le_trans hn k.1) x).mono fun _ _ _ hq => ⟨hq.1, k.trans hq.2.1 (Nat.le_refl n), hq.2.2⟩

theorem sinAt_sim {c : Ctx} {fuel a : Nat} {h : Heap} {x : Fl} (hx : h[a]? = some x) :
    Sim (sinAt c fuel a h) (floatSin c fuel x) (fun z r h' => z = r.1 ∧ h' = h.set a r.2) := at_sim hx

theorem cosAt_sim {c : Ctx} {fuel a : Nat} {h : Heap} {x : Fl} (hx : h[a]? = some x) :
    Sim (cosAt c fuel a h) (floatCos c fuel x) (fun z r h' => z = r.1 ∧ h' = h.set a r.2) := at_sim hx

theorem tanAt_sim {c : Ctx} {fuel a : Nat} {h : Heap} {x : Fl} (hx : h[a]? = some x) :
    Sim (tanAt c fuel a h) (floatTan c fuel x) (fun z r h' => z = r.1 ∧ h' = h.set a r.2) := at_sim hx

/-- What holds while a function of two objects runs. -/
structure Two (n : Nat) (h H : Heap) (a b : Nat) (x y : Fl) : Prop where
  keep : Keep n h H
  ha : H[a]? = some x
  hb : H[b]? = some y
  na : n ≤ a
  nb : n ≤ b
  ne : a ≠ b

theorem Two.setA {n : Nat} {h H : Heap} {a b : Nat} {x y : Fl} (t : Two n h H a b x y) (x' : Fl) : Two n h (H.set a x') a b x' y :=
  ⟨t.keep.trans (Keep.set t.na x') (Nat.le_refl n), getElem?_set_self' t.ha, by rw [List.getElem?_set_ne t.ne]; exact t.hb, t.na, t.nb, t.ne⟩

theorem Two.setB {n : Nat} {h H : Heap} {a b : Nat} {x y : Fl} (t : Two n h H a b x y) (y' : Fl) : Two n h (H.set b y') a b x y' :=
  ⟨t.keep.trans (Keep.set t.nb y') (Nat.le_refl n), by rw [List.getElem?_set_ne t.ne.symm]; exact t.ha, getElem?_set_self' t.hb, t.na, t.nb, t.ne⟩

theorem two_sim (c : Ctx) {n : Nat} {h : Heap} {s t : Sc} {x y : PS} (hn : n ≤ h.length) (r : Reads h (.cplx s t) (.cplx x y)) (hnew : NewV n (.cplx s t))
    {f : Nat → Nat → M Val} {g : R PV} (hf : ∀ a b H, Two n h H a b (x.float c) (y.float c) → Sim (f a b H) g (NewPost n h)) :
    Sim (((floatSelf c s).bind fun a => (floatSelf c t).bind fun b => f a b) h) g (NewPost n h) := by
  obtain ⟨a, b, l, l', h1, h2, h3, h4, h5, h6, h7⟩ := floatSelf2_spec c n hn r hnew
  refine Sim.left h1 (Sim.left h2 (hf _ _ _ ⟨?_, h3, h4, h5, h6, h7⟩))
  rw [List.append_assoc]
  exact Keep.alloc hn _

theorem complexSin_sim (c : Ctx) (fuel : Nat) {n : Nat} {h : Heap} {s t : Sc} {x y : PS} (hn : n ≤ h.length) (r : Reads h (.cplx s t) (.cplx x y)) (hnew : NewV n (.cplx s t)) :
    Sim (complexSin c fuel s t h) (Spec.complexSin c fuel (x.float c) (y.float c)) (NewPost n h) := by
  refine two_sim c hn r hnew fun a b H t => ?_
  refine Sim.bind (sinAt_sim t.ha) ?_
  rintro _ r1 _ ⟨rfl, rfl⟩
  replace t := t.setA r1.2
  refine Sim.bind (readAt_sim t.hb) ?_
  rintro z _ _ ⟨rfl, rfl⟩
  refine Sim.bind (cosAt_sim t.ha) ?_
  rintro _ r2 _ ⟨rfl, rfl⟩
  replace t := t.setA r2.2
  refine Sim.bind (readAt_sim t.hb) ?_
  rintro z _ _ ⟨rfl, rfl⟩
  exact new_keep hn t.keep _

theorem complexCos_sim (c : Ctx) (fuel : Nat) {n : Nat} {h : Heap} {s t : Sc} {x y : PS} (hn : n ≤ h.length) (r : Reads h (.cplx s t) (.cplx x y)) (hnew : NewV n (.cplx s t)) :
    Sim (complexCos c fuel s t h) (Spec.complexCos c fuel (x.float c) (y.float c)) (NewPost n h) := by
  refine two_sim c hn r hnew fun a b H t => ?_
  refine Sim.bind (cosAt_sim t.ha) ?_
  rintro _ r1 _ ⟨rfl, rfl⟩
  replace t := t.setA r1.2
  refine Sim.bind (readAt_sim t.hb) ?_
  rintro z _ _ ⟨rfl, rfl⟩
  refine Sim.bind (sinAt_sim t.ha) ?_
  rintro _ r2 _ ⟨rfl, rfl⟩
  replace t := t.setA r2.2
  refine Sim.bind (readAt_sim t.hb) ?_
  rintro z _ _ ⟨rfl, rfl⟩
  exact new_keep hn t.keep _

theorem complexSinh_sim (c : Ctx) (fuel : Nat) {n : Nat} {h : Heap} {s t : Sc} {x y : PS} (hn : n ≤ h.length) (r : Reads h (.cplx s t) (.cplx x y)) (hnew : NewV n (.cplx s t)) :
    Sim (complexSinh c fuel s t h) (Spec.complexSinh c fuel (x.float c) (y.float c)) (NewPost n h) := by
  refine two_sim c hn r hnew fun a b H t => ?_
  refine Sim.bind (readAt_sim t.ha) ?_
  rintro z _ _ ⟨rfl, rfl⟩
  refine Sim.bind (cosAt_sim t.hb) ?_
  rintro _ r1 _ ⟨rfl, rfl⟩
  replace t := t.setB r1.2
  refine Sim.bind (readAt_sim t.ha) ?_
  rintro z _ _ ⟨rfl, rfl⟩
  refine Sim.bind (sinAt_sim t.hb) ?_
  rintro _ r2 _ ⟨rfl, rfl⟩
  replace t := t.setB r2.2
  exact new_keep hn t.keep _

theorem complexCosh_sim (c : Ctx) (fuel : Nat) {n : Nat} {h : Heap} {s t : Sc} {x y : PS} (hn : n ≤ h.length) (r : Reads h (.cplx s t) (.cplx x y)) (hnew : NewV n (.cplx s t)) :
    Sim (complexCosh c fuel s t h) (Spec.complexCosh c fuel (x.float c) (y.float c)) (NewPost n h) := by
  refine two_sim c hn r hnew fun a b H t => ?_
  refine Sim.bind (readAt_sim t.ha) ?_
  rintro z _ _ ⟨rfl, rfl⟩
  refine Sim.bind (cosAt_sim t.hb) ?_
  rintro _ r1 _ ⟨rfl, rfl⟩
  replace t := t.setB r1.2
  refine Sim.bind (readAt_sim t.ha) ?_
  rintro z _ _ ⟨rfl, rfl⟩
  refine Sim.bind (sinAt_sim t.hb) ?_
  rintro _ r2 _ ⟨rfl, rfl⟩
  replace t := t.setB r2.2
  exact new_keep hn t.keep _

theorem double_ok {c : Ctx} {a : Nat} {H : Heap} {x : Fl} (hx : H[a]? = some x) : double c a H = .ok ((), H.set a (Spec.twice c x)) := by
  unfold double
  rw [bind_ok (get_some hx)]
  rfl

theorem quotients_sim (c : Ctx) {n : Nat} {h H : Heap} (hn : n ≤ h.length) (k : Keep n h H) (re im den : Rat) :
    Sim ((if den = 0 then lift (.err "tangent is infinite") else
      (lift (quo c.p re den)).bind fun r => (lift (quo c.p im den)).bind fun i => result c r i) H) (Spec.quotients c re im den) (NewPost n h) := by
  unfold Spec.quotients
  split
  · rfl
  · refine Sim.bind (sim_lift _ _) ?_
    rintro r1 _ _ ⟨rfl, rfl⟩
    refine Sim.bind (sim_lift _ _) ?_
    rintro r2 _ _ ⟨rfl, rfl⟩
    exact new_keep hn k _

theorem complexTan_sim (c : Ctx) (fuel : Nat) {n : Nat} {h : Heap} {s t : Sc} {x y : PS} (hn : n ≤ h.length) (r : Reads h (.cplx s t) (.cplx x y)) (hnew : NewV n (.cplx s t)) :
    Sim (complexTan c fuel s t h) (Spec.complexTan c fuel (x.float c) (y.float c)) (NewPost n h) := by
  refine two_sim c hn r hnew fun a b H t => ?_
  refine Sim.left (double_ok t.ha) ?_
  replace t := t.setA (Spec.twice c (x.float c))
  refine Sim.left (double_ok t.hb) ?_
  replace t := t.setB (Spec.twice c (y.float c))
  refine Sim.bind (sinAt_sim t.ha) ?_
  rintro _ r1 _ ⟨rfl, rfl⟩
  replace t := t.setA r1.2
  refine Sim.bind (readAt_sim t.hb) ?_
  rintro z _ _ ⟨rfl, rfl⟩
  refine Sim.bind (cosAt_sim t.ha) ?_
  rintro _ r2 _ ⟨rfl, rfl⟩
  replace t := t.setA r2.2
  refine Sim.bind (readAt_sim t.hb) ?_
  rintro z _ _ ⟨rfl, rfl⟩
  exact quotients_sim c hn t.keep _ _ _

theorem complexTanh_sim (c : Ctx) (fuel : Nat) {n : Nat} {h : Heap} {s t : Sc} {x y : PS} (hn : n ≤ h.length) (r : Reads h (.cplx s t) (.cplx x y)) (hnew : NewV n (.cplx s t)) :
    Sim (complexTanh c fuel s t h) (Spec.complexTanh c fuel (x.float c) (y.float c)) (NewPost n h) := by
  refine two_sim c hn r hnew fun a b H t => ?_
  refine Sim.left (double_ok t.ha) ?_
  replace t := t.setA (Spec.twice c (x.float c))
  refine Sim.left (double_ok t.hb) ?_
  replace t := t.setB (Spec.twice c (y.float c))
  refine Sim.bind (readAt_sim t.ha) ?_
  rintro z _ _ ⟨rfl, rfl⟩
  refine Sim.bind (sinAt_sim t.hb) ?_
  rintro _ r1 _ ⟨rfl, rfl⟩
  replace t := t.setB r1.2
  refine Sim.bind (readAt_sim t.ha) ?_
  rintro z _ _ ⟨rfl, rfl⟩
  refine Sim.bind (cosAt_sim t.hb) ?_
  rintro _ r2 _ ⟨rfl, rfl⟩
  replace t := t.setB r2.2
  exact quotients_sim c hn t.keep _ _ _

theorem expComplex_sim (c : Ctx) (fuel : Nat) {n : Nat} {h : Heap} {s t : Sc} {x y : PS} (hn : n ≤ h.length) (r : Reads h (.cplx s t) (.cplx x y)) (hnew : NewV n (.cplx s t)) :
    Sim (expComplex c fuel s t h) (Spec.expComplex c fuel (x.float c) (y.float c)) (NewPost n h) := by
  refine two_sim c hn r hnew fun a b H t => ?_
  refine Sim.bind (readAt_sim t.ha) ?_
  rintro z _ _ ⟨rfl, rfl⟩
  refine Sim.bind (cosAt_sim t.hb) ?_
  rintro _ r1 _ ⟨rfl, rfl⟩
  replace t := t.setB r1.2
  refine Sim.bind (sinAt_sim t.hb) ?_
  rintro _ r2 _ ⟨rfl, rfl⟩
  replace t := t.setB r2.2
  exact new_keep hn t.keep _

/-- What a function of one object does: it gives the value of the function, and changes no other object. -/
def RealSim (f : Nat → M Rat) (g : Fl → R Rat) : Prop :=
  ∀ (h : Heap) (a : Nat) (x : Fl), h[a]? = some x → Sim (f a h) (g x) (fun z r h' => z = r ∧ Keep a h h')

theorem realSim_at {f : Fl → R (Rat × Fl)} {m : Nat → M Rat}
    (hm : ∀ {a : Nat} {h : Heap} {x : Fl}, h[a]? = some x → Sim (m a h) (f x) (fun z r h' => z = r.1 ∧ h' = h.set a r.2)) :
    RealSim m (fun x => Spec.fst (f x)) := by
  intro h a x hx
  have := hm hx
  show Sim (m a h) (Spec.fst (f x)) _
  generalize f x = r at this ⊢
  generalize m a h = s at this ⊢
  cases r <;> cases s <;> first | exact this.elim | exact this | skip
  exact ⟨this.1, by rw [this.2]; exact Keep.set (Nat.le_refl _) _⟩

theorem realSim_read (f : Rat → R Rat) : RealSim (readAt f) (fun x => f x.val) :=
  fun _ _ _ hx => (readAt_sim hx).mono fun _ _ _ hq => ⟨hq.1, by rw [hq.2]; exact Keep.refl _ _⟩

theorem trig_sim (c : Ctx) {real : Nat → M Rat} {g : Fl → R Rat} (hr : RealSim real g) {complex : Sc → Sc → M Val} {k : Fl → Fl → R PV} {n : Nat} {h : Heap} {v : Val} {x : PV}
    (hn : n ≤ h.length) (r : Reads h v x) (hnew : NewV n v)
    (hc : ∀ {s t : Sc} {x y : PS}, Reads h (.cplx s t) (.cplx x y) → NewV n (.cplx s t) → Sim (complex s t h) (k (x.float c) (y.float c)) (NewPost n h)) :
    Sim (trig c real complex v h) (Spec.trig c g k x) (NewPost n h) := by
  have hreal : ∀ {s : Sc} {x : PS}, ReadsS h s x → NewS n s →
      Sim (((floatSelf c s).bind fun a => (real a).bind fun r => new (.real (shrinkF ⟨c.p, r⟩))) h)
        ((g (x.float c)).bind fun r => .ok (.real (shrinkF ⟨c.p, r⟩))) (NewPost n h) := by
    intro s x r hnew
    obtain ⟨a, l, h1, h2, h3, _⟩ := floatSelf_spec (n := n) c r
    refine Sim.left h1 (Sim.bind (hr _ _ _ h2) ?_)
    rintro z _ H ⟨rfl, hk⟩
    exact new_keep hn ((Keep.alloc hn l).trans hk (h3 hnew hn)) _
  cases v with
  | real s =>
    cases x with
    | cplx _ _ => exact r.elim
    | real x =>
      unfold Spec.trig
      simp only [PV.parts, PS.val, ne_eq, not_true, if_false]
      exact hreal r hnew
  | cplx s t =>
    cases x with
    | real _ => exact r.elim
    | cplx x y =>
      simp only [trig]
      refine Sim.left (readS_ok r.2) ?_
      by_cases hy : y.val ≠ 0
      · have hs : Spec.trig c g k (.cplx x y) = k (x.float c) (y.float c) := if_pos hy
        rw [if_pos hy, hs]; exact hc r hnew
      · have hs : Spec.trig c g k (.cplx x y) = (g (x.float c)).bind fun r => .ok (.real (shrinkF ⟨c.p, r⟩)) := if_neg hy
        rw [if_neg hy, hs]; exact hreal r.1 hnew.1

end Verif.Cell
