import Verif.Exec.Lemmas3

/-! # Execution: the list of definitions -/

namespace Verif.Exec
open Verif.Arr (R)
variable {ν : Type}

theorem dropDef_filter (d : String × Bool) : ∀ (l : List (String × Bool)), l.Nodup →
    dropDef d l = l.filter (fun x => decide (x ≠ d))
  | [], _ => rfl
  | e :: es, h => by
    rw [List.nodup_cons] at h
    unfold dropDef
    split
    · rename_i he
      subst he
      rw [List.filter_cons, if_neg (by simp)]
      symm
      rw [List.filter_eq_self]
      intro a ha
      simp only [ne_eq, decide_eq_true_eq]
      rintro rfl
      exact h.1 ha
    · rename_i he
      rw [List.filter_cons, if_pos (by simpa using he), dropDef_filter d es h.2]

theorem addDef_filter (d : String × Bool) (l : List (String × Bool)) (h : l.Nodup) :
    addDef d l = l.filter (fun x => decide (x ≠ d)) ++ [d] := by
  unfold addDef
  split
  · rename_i hl
    rw [List.getLast?_eq_some_iff] at hl
    obtain ⟨ys, rfl⟩ := hl
    rw [List.nodup_append] at h
    rw [List.filter_append]
    have : ys.filter (fun x => decide (x ≠ d)) = ys := by
      rw [List.filter_eq_self]
      intro a ha
      simp only [ne_eq, decide_eq_true_eq]
      exact h.2.2 a ha d (by simp)
    rw [this]
    simp
  · rw [dropDef_filter d l h]

theorem addDef_addDef (d : String × Bool) (l : List (String × Bool)) : addDef d (addDef d l) = addDef d l := by
  have : (addDef d l).getLast? = some d := by
    unfold addDef
    split
    · assumption
    · simp
  generalize addDef d l = m at this
  unfold addDef
  rw [if_pos this]

theorem noVar_ok {S : Sem ν} {g g' : Env ν} {x : String} (h : noVar S g x = (.ok (), g')) :
    g'.defs = g.defs ∧ g'.declared = g.declared ∧ g'.globals x = none ∧ (∀ y, y ≠ x → g'.globals y = g.globals y) ∧
      (∀ v, g.globals x = some v → S.isZero v = true) := by
  unfold noVar at h
  split at h
  · simp at h
  · split at h
    · rename_i hx
      simp only [Prod.mk.injEq, true_and] at h
      subst h
      exact ⟨rfl, rfl, hx, fun _ _ => rfl, by intro v hv; rw [hx] at hv; cases hv⟩
    · rename_i v hv
      split at h
      · rename_i hz
        simp only [Prod.mk.injEq, true_and] at h
        subst h
        refine ⟨rfl, rfl, by simp [update], fun y hy => by simp [update, hy], ?_⟩
        intro w hw
        rw [hv] at hw
        cases hw
        exact hz
      · simp at h

theorem noVar_refused {S : Sem ν} {g g' : Env ν} {x : String} {r : R Unit} (h : noVar S g x = (r, g'))
    (hr : r ≠ .ok ()) : g' = g := by
  unfold noVar at h
  split at h
  · simp only [Prod.mk.injEq] at h; exact h.2.symm
  · split at h
    · simp only [Prod.mk.injEq] at h; exact h.2.symm
    · split at h
      · simp only [Prod.mk.injEq] at h; exact absurd h.1.symm hr
      · simp only [Prod.mk.injEq] at h; exact h.2.symm

theorem install_rest (g : Env ν) (n : String) (b : Bool) (f : Option (Fn ν)) :
    (g.install n b f).defs = g.defs ∧ (g.install n b f).globals = g.globals ∧
      (g.install n b f).declared = g.declared := by
  unfold Env.install
  split <;> exact ⟨rfl, rfl, rfl⟩

/-- What a successful `Define` does. -/
theorem define_effect {S : Sem ν} {g g' : Env ν} {f : Fn ν} (h : g.define S f = (.ok (), g')) :
    g'.defs = addDef (f.name, f.isBinary) g.defs ∧ g'.declared = g.declared ∧ g'.globals f.name = none ∧
      (∀ y, y ≠ f.name → g'.globals y = g.globals y) ∧
      (∀ v, g.globals f.name = some v → S.isZero v = true) ∧
      ∀ n b, g'.lookup n b = if n = f.name ∧ b = f.isBinary then some f else g.lookup n b := by
  unfold Env.define at h
  have hl := noVar_lookup S g f.name
  split at h
  · rename_i u g1 heq
    rw [heq] at hl
    obtain ⟨n1, n2, n3, n4, n5⟩ := noVar_ok (S := S) (g := g) (g' := g1) (x := f.name) (by rw [heq])
    obtain ⟨i1, i2, i3⟩ := install_rest g1 f.name f.isBinary (some f)
    simp only [Prod.mk.injEq, true_and] at h
    subst h
    refine ⟨by rw [i1, n1], by rw [← n2, ← i3], by rw [← n3, ← i2], fun y hy => by rw [← n4 y hy, ← i2], n5, ?_⟩
    intro n b
    have := Env.lookup_install g1 f.name f.isBinary (some f) n b
    rw [hl] at this
    exact this
  · rename_i r g1 hne heq
    simp only [Prod.mk.injEq] at h
    exact absurd h.1 (hne ())

theorem define_refused {S : Sem ν} {g g' : Env ν} {f : Fn ν} {r : R Unit} (h : g.define S f = (r, g'))
    (hr : r ≠ .ok ()) : g' = g := by
  unfold Env.define at h
  split at h
  · simp only [Prod.mk.injEq] at h
    exact absurd h.1.symm hr
  · rename_i r' g1 hne heq
    simp only [Prod.mk.injEq] at h
    obtain ⟨h1, h2⟩ := h
    subst h1 h2
    exact noVar_refused heq hr

theorem declareAll_rest (fname : String) : ∀ (xs seen : List String) (g : Env ν),
    (declareAll fname xs seen g).2.defs = g.defs ∧ (declareAll fname xs seen g).2.globals = g.globals
  | [], _, _ => ⟨rfl, rfl⟩
  | x :: xs, seen, g => by
    unfold declareAll
    split
    · exact ⟨rfl, rfl⟩
    · split
      · exact ⟨rfl, rfl⟩
      · exact declareAll_rest fname xs _ _

/-- What a successful definition does. -/
theorem definition_effect {S : Sem ν} {g g' : Env ν} {f : Fn ν} {p : Env ν → R (Option (List (Expr ν)))}
    (h : definition S g f p = (.ok (), g')) :
    g'.defs = addDef (f.name, f.isBinary) g.defs ∧ g'.declared = [] ∧ g'.globals f.name = none ∧
      (∀ y, y ≠ f.name → g'.globals y = g.globals y) ∧
      (∀ v, g.globals f.name = some v → S.isZero v = true) ∧
      ∃ body, (∃ g2, p g2 = .ok body) ∧
        ∀ n b, g'.lookup n b =
          if n = f.name ∧ b = f.isBinary then some (funcVars { f with body := body }) else g.lookup n b := by
  unfold definition at h
  have hd := declareAll_lookup (ν := ν) f.name (params f) [] g
  have hr := declareAll_rest (ν := ν) f.name (params f) [] g
  split at h
  · simp at h
  · split at h
    · rename_i u g1 heq
      rw [heq] at hd hr
      dsimp only at h
      split at h
      · rename_i u2 g2 heq2
        obtain ⟨a1, a2, a3, a4, a5, a6⟩ := define_effect (S := S) (g := g1) (g' := g2) (by rw [heq2])
        split at h
        · rename_i body hb
          split at h
          · rename_i u3 g3 heq3
            obtain ⟨b1, b2, b3, b4, b5, b6⟩ := define_effect (S := S) (g := g2) (g' := g3) (by rw [heq3])
            simp only [Prod.mk.injEq, true_and] at h
            subst h
            refine ⟨?_, rfl, b3, ?_, ?_, body, ⟨g2, hb⟩, ?_⟩
            · show g3.defs = _
              rw [b1, a1, hr.1]
              exact addDef_addDef _ _
            · intro y hy
              show g3.globals y = _
              rw [b4 y hy, a4 y hy, hr.2]
            · intro v hv
              exact a5 v (by rw [hr.2]; exact hv)
            · intro n b
              show g3.lookup n b = _
              rw [b6 n b, a6 n b, hd n b]
              show (if n = f.name ∧ b = f.isBinary then _ else if n = f.name ∧ b = f.isBinary then _ else _) = _
              by_cases hc : n = f.name ∧ b = f.isBinary
              · rw [if_pos hc, if_pos hc]
              · rw [if_neg hc, if_neg hc, if_neg hc]
          · rename_i r3 g3 hne heq3
            simp only [Prod.mk.injEq] at h
            exact absurd h.1 (hne ())
        · simp at h
        · simp at h
        · simp at h
      · rename_i r2 g2 hne heq2
        simp only [Prod.mk.injEq] at h
        exact absurd h.1 (hne ())
    · rename_i r1 g1 hne heq
      simp only [Prod.mk.injEq] at h
      exact absurd h.1 (hne ())

/-- What a definition that fails can do at most. -/
theorem definition_failed {S : Sem ν} {g g' : Env ν} {f : Fn ν} {p : Env ν → R (Option (List (Expr ν)))} {r : R Unit}
    (h : definition S g f p = (r, g')) (hr : r ≠ .ok ()) (hh : r ≠ .hang) :
    (∀ n b, g'.lookup n b = g.lookup n b) ∧
      (∀ y, g'.globals y = g.globals y ∨
        (y = f.name ∧ g'.globals y = none ∧ ∃ v, g.globals y = some v ∧ S.isZero v = true)) ∧
      (g'.defs = g.defs ∨ g'.defs = addDef (f.name, f.isBinary) g.defs) := by
  unfold definition at h
  have hd := declareAll_lookup (ν := ν) f.name (params f) [] g
  have hrest := declareAll_rest (ν := ν) f.name (params f) [] g
  split at h
  · simp only [Prod.mk.injEq] at h
    rw [← h.2]
    exact ⟨fun _ _ => rfl, fun _ => Or.inl rfl, Or.inl rfl⟩
  · split at h
    · rename_i u g1 heq
      rw [heq] at hd hrest
      dsimp only at h
      split at h
      · rename_i u2 g2 heq2
        obtain ⟨a1, a2, a3, a4, a5, a6⟩ := define_effect (S := S) (g := g1) (g' := g2) (by rw [heq2])
        have restored : ∀ (g3 : Env ν), (∀ n b, g3.lookup n b =
            if n = f.name ∧ b = f.isBinary then g3.lookup n b else g.lookup n b) →
            ∀ n b, (g3.install f.name f.isBinary (g1.lookup f.name f.isBinary)).forgetAll.lookup n b
              = g.lookup n b := by
          intro g3 h3 n b
          show (g3.install f.name f.isBinary (g1.lookup f.name f.isBinary)).lookup n b = _
          rw [Env.lookup_install]
          split
          · rename_i hc; rw [hc.1, hc.2, hd]
          · rename_i hc; rw [h3 n b, if_neg hc]
        have glob : ∀ (g3 : Env ν), g3.globals f.name = none → (∀ y, y ≠ f.name → g3.globals y = g.globals y) →
            ∀ y, g3.globals y = g.globals y ∨
              (y = f.name ∧ g3.globals y = none ∧ ∃ v, g.globals y = some v ∧ S.isZero v = true) := by
          intro g3 h1 h2 y
          by_cases hy : y = f.name
          · subst hy
            cases hv : g.globals f.name with
            | none => left; exact h1
            | some v =>
              right
              exact ⟨rfl, h1, v, rfl, a5 v (by rw [hrest.2]; exact hv)⟩
          · left; exact h2 y hy
        have l2 : ∀ n b, g2.lookup n b = if n = f.name ∧ b = f.isBinary then g2.lookup n b else g.lookup n b := by
          intro n b
          split
          · rfl
          · rename_i hc
            rw [a6 n b, if_neg hc, hd]
        have gl2 : ∀ y, y ≠ f.name → g2.globals y = g.globals y := by
          intro y hy; rw [a4 y hy, hrest.2]
        have failed : ∀ (q : R Unit), (q, (g2.install f.name f.isBinary (g1.lookup f.name f.isBinary)).forgetAll)
            = (r, g') → (∀ n b, g'.lookup n b = g.lookup n b) ∧
      (∀ y, g'.globals y = g.globals y ∨
        (y = f.name ∧ g'.globals y = none ∧ ∃ v, g.globals y = some v ∧ S.isZero v = true)) ∧
      (g'.defs = g.defs ∨ g'.defs = addDef (f.name, f.isBinary) g.defs) := by
          intro q hq
          simp only [Prod.mk.injEq] at hq
          obtain ⟨i1, i2, i3⟩ := install_rest g2 f.name f.isBinary (g1.lookup f.name f.isBinary)
          rw [← hq.2]
          refine ⟨restored g2 l2, ?_, Or.inr ?_⟩
          · have := glob (g2.install f.name f.isBinary (g1.lookup f.name f.isBinary)) (by rw [i2]; exact a3)
              (by intro y hy; rw [i2]; exact gl2 y hy)
            exact this
          · show (g2.install f.name f.isBinary (g1.lookup f.name f.isBinary)).defs = _
            rw [i1, a1, hrest.1]
        split at h
        · rename_i body hb
          split at h
          · simp only [Prod.mk.injEq] at h
            exact absurd h.1.symm hr
          · rename_i r3 g3 hne heq3
            have h3 : g3 = g2 := define_refused heq3 (by
              simp only [Prod.mk.injEq] at h
              rw [h.1]; exact hr)
            subst h3
            exact failed _ h
        · exact failed _ h
        · exact failed _ h
        · simp only [Prod.mk.injEq] at h
          exact absurd h.1.symm hh
      · rename_i r2 g2 hne heq2
        simp only [Prod.mk.injEq] at h
        have h2 : g2 = g1 := define_refused heq2 (by rw [h.1]; exact hr)
        rw [← h.2, h2]
        exact ⟨hd, fun y => Or.inl (by rw [hrest.2]), Or.inl hrest.1⟩
    · rename_i r1 g1 hne heq
      rw [heq] at hd hrest
      simp only [Prod.mk.injEq] at h
      rw [← h.2]
      exact ⟨hd, fun y => Or.inl (by rw [hrest.2]), Or.inl hrest.1⟩

/-! ## Histories -/

theorem definedAt_snoc (h : List (Event ν)) (e : Event ν) (d : String × Bool) (i : Nat) :
    DefinedAt (h ++ [e]) d i ↔
      (i = h.length ∧ e.defines d) ∨ (DefinedAt h d i ∧ ¬ e.defines d ∧ ¬ e.deletes d) := by
  unfold DefinedAt
  constructor
  · rintro ⟨⟨e', h1, h2⟩, h3⟩
    by_cases hi : i < h.length
    · right
      rw [List.getElem?_append_left hi] at h1
      refine ⟨⟨⟨e', h1, h2⟩, fun j e'' hj he => h3 j e'' hj ?_⟩, h3 h.length e hi (by simp)⟩
      have : j < h.length := (List.getElem?_eq_some_iff.mp he).1
      rw [List.getElem?_append_left this]
      exact he
    · left
      have hlen : i < (h ++ [e]).length := (List.getElem?_eq_some_iff.mp h1).1
      simp only [List.length_append, List.length_cons, List.length_nil] at hlen
      have : i = h.length := by omega
      subst this
      refine ⟨rfl, ?_⟩
      simp only [List.getElem?_concat_length, Option.some.injEq] at h1
      rw [h1]; exact h2
  · rintro (⟨rfl, h1⟩ | ⟨⟨⟨e', h1, h2⟩, h3⟩, h4, h5⟩)
    · refine ⟨⟨e, by simp, h1⟩, fun j e' hj he => ?_⟩
      rw [List.getElem?_eq_none (by simp; omega)] at he
      cases he
    · have hi : i < h.length := (List.getElem?_eq_some_iff.mp h1).1
      refine ⟨⟨e', by rw [List.getElem?_append_left hi]; exact h1, h2⟩, fun j e'' hj he => ?_⟩
      by_cases hj' : j < h.length
      · rw [List.getElem?_append_left hj'] at he
        exact h3 j e'' hj he
      · have hlen : j < (h ++ [e]).length := (List.getElem?_eq_some_iff.mp he).1
        simp only [List.length_append, List.length_cons, List.length_nil] at hlen
        have : j = h.length := by omega
        subst this
        simp only [List.getElem?_concat_length, Option.some.injEq] at he
        rw [← he]; exact ⟨h4, h5⟩

theorem definedAt_lt {h : List (Event ν)} {d : String × Bool} {i : Nat} (hd : DefinedAt h d i) : i < h.length := by
  obtain ⟨⟨e, h1, _⟩, _⟩ := hd
  exact (List.getElem?_eq_some_iff.mp h1).1

/-- The invariant of the list of definitions. -/
structure DefsOk (h : List (Event ν)) (g : Env ν) : Prop where
  nodup : g.defs.Nodup
  mem : ∀ d, d ∈ g.defs ↔ ∃ i, DefinedAt h d i
  order : g.defs.Pairwise fun a b => ∀ i j, DefinedAt h a i → DefinedAt h b j → i < j
  table : ∀ n b, (g.lookup n b).isSome ↔ (n, b) ∈ g.defs

theorem DefsOk.delete {h : List (Event ν)} {g g' : Env ν} (hok : DefsOk h g) (d : String × Bool) (e : Event ν)
    (he : ∀ x, e.defines x ↔ False) (hdel : ∀ x, e.deletes x ↔ x = d)
    (hdefs : g'.defs = g.defs.filter (fun x => decide (x ≠ d)))
    (hl : ∀ n b, (g'.lookup n b).isSome ↔ (g.lookup n b).isSome ∧ (n, b) ≠ d) : DefsOk (h ++ [e]) g' := by
  have hmem : ∀ x, x ∈ g'.defs ↔ x ∈ g.defs ∧ x ≠ d := by
    intro x; rw [hdefs]; simp
  refine ⟨?_, ?_, ?_, ?_⟩
  · rw [hdefs]; exact hok.nodup.filter _
  · intro x
    rw [hmem, hok.mem]
    constructor
    · rintro ⟨⟨i, hi⟩, hx⟩
      exact ⟨i, (definedAt_snoc h e x i).mpr (Or.inr ⟨hi, by simp [he], by rw [hdel]; exact hx⟩)⟩
    · rintro ⟨i, hi⟩
      rcases (definedAt_snoc h e x i).mp hi with h1 | h1
      · exact absurd h1.2 (by simp [he])
      · exact ⟨⟨i, h1.1⟩, fun hx => h1.2.2 ((hdel x).mpr hx)⟩
  · rw [hdefs]
    refine (hok.order.filter _).imp ?_
    intro a b hab i j hi hj
    rcases (definedAt_snoc h e a i).mp hi with h1 | h1
    · exact absurd h1.2 (by simp [he])
    · rcases (definedAt_snoc h e b j).mp hj with h2 | h2
      · exact absurd h2.2 (by simp [he])
      · exact hab i j h1.1 h2.1
  · intro n b
    rw [hl, hmem, hok.table]

theorem reaches_defs {S : Sem ν} {h : List (Event ν)} {g : Env ν} (hr : Reaches S h g) : DefsOk h g := by
  induction hr with
  | start g hl hd =>
    refine ⟨by rw [hd]; simp, ?_, by rw [hd]; simp, ?_⟩
    · intro d
      rw [hd]
      constructor
      · intro h; simp at h
      · rintro ⟨i, hi⟩
        have := definedAt_lt hi
        simp at this
    · intro n b; rw [hl, hd]; simp
  | define h g f p g' _ hdef ih =>
    obtain ⟨h1, -, -, -, -, body, -, h6⟩ := definition_effect hdef
    have hdefs : g'.defs = g.defs.filter (fun x => decide (x ≠ (f.name, f.isBinary))) ++ [(f.name, f.isBinary)] := by
      rw [h1, addDef_filter _ _ ih.nodup]
    have hdf : ∀ x, Event.defines x (Event.define f p) ↔ x = (f.name, f.isBinary) := by
      intro x; simp only [Event.defines]; exact eq_comm
    have hdl : ∀ x, Event.deletes x (Event.define f p) ↔ False := by intro x; simp [Event.deletes]
    refine ⟨?_, ?_, ?_, ?_⟩
    · rw [hdefs, List.nodup_append]
      refine ⟨ih.nodup.filter _, by simp, ?_⟩
      intro a ha b hb
      simp only [List.mem_filter, decide_eq_true_eq] at ha
      simp only [List.mem_singleton] at hb
      rw [hb]; exact ha.2
    · intro x
      rw [hdefs]
      simp only [List.mem_append, List.mem_filter, decide_eq_true_eq, List.mem_singleton]
      rw [ih.mem]
      constructor
      · rintro (⟨⟨i, hi⟩, hx⟩ | hx)
        · exact ⟨i, (definedAt_snoc h _ x i).mpr (Or.inr ⟨hi, by rw [hdf]; exact hx, by simp [hdl]⟩)⟩
        · exact ⟨h.length, (definedAt_snoc h _ x _).mpr (Or.inl ⟨rfl, by rw [hdf]; exact hx⟩)⟩
      · rintro ⟨i, hi⟩
        rcases (definedAt_snoc h _ x i).mp hi with h2 | h2
        · right; exact (hdf x).mp h2.2
        · left; exact ⟨⟨i, h2.1⟩, fun hx => h2.2.1 ((hdf x).mpr hx)⟩
    · rw [hdefs, List.pairwise_append]
      refine ⟨(ih.order.filter _).imp_of_mem ?_, by simp, ?_⟩
      · intro a b ha hb hab i j hi hj
        simp only [List.mem_filter, decide_eq_true_eq] at ha hb
        rcases (definedAt_snoc h _ a i).mp hi with h2 | h2
        · exact absurd ((hdf a).mp h2.2) ha.2
        · rcases (definedAt_snoc h _ b j).mp hj with h3 | h3
          · exact absurd ((hdf b).mp h3.2) hb.2
          · exact hab i j h2.1 h3.1
      · intro a ha b hb i j hi hj
        simp only [List.mem_filter, decide_eq_true_eq] at ha
        simp only [List.mem_singleton] at hb
        rcases (definedAt_snoc h _ a i).mp hi with h2 | h2
        · exact absurd ((hdf a).mp h2.2) ha.2
        · rcases (definedAt_snoc h _ b j).mp hj with h3 | h3
          · have := definedAt_lt h2.1
            omega
          · exact absurd (show Event.defines b _ by rw [hdf]; exact hb) h3.2.1
    · intro n b
      rw [h6, hdefs]
      simp only [List.mem_append, List.mem_filter, decide_eq_true_eq, List.mem_singleton, ← ih.table, Prod.mk.injEq]
      by_cases hc : n = f.name ∧ b = f.isBinary
      · rw [if_pos hc]; simp [hc]
      · rw [if_neg hc]; simp [hc]
  | undefine h g n b _ ih =>
    by_cases hin : (n, b) ∈ g.defs
    · refine ih.delete (n, b) _ (by simp [Event.defines]) (by intro x; simp only [Event.deletes]; exact eq_comm) ?_ ?_
      · unfold Env.undefine
        rw [if_pos hin]
        show dropDef (n, b) (g.install n b none).defs = _
        rw [(install_rest g n b none).1, dropDef_filter _ _ ih.nodup]
      · intro n' b'
        unfold Env.undefine
        rw [if_pos hin]
        show ((g.install n b none).lookup n' b').isSome ↔ _
        rw [Env.lookup_install]
        by_cases hc : n' = n ∧ b' = b
        · rw [if_pos hc]; simp [hc]
        · rw [if_neg hc]; simp only [ne_eq, Prod.mk.injEq, hc, not_false_eq_true, and_true]
    · have hg : (g.undefine n b).2 = g := by unfold Env.undefine; rw [if_neg hin]
      rw [hg]
      refine ih.delete (n, b) _ (by simp [Event.defines]) (by intro x; simp only [Event.deletes]; exact eq_comm) ?_ ?_
      · symm
        rw [List.filter_eq_self]
        intro a ha
        simp only [ne_eq, decide_eq_true_eq]
        rintro rfl
        exact hin ha
      · intro n' b'
        constructor
        · intro hs
          refine ⟨hs, ?_⟩
          intro heq
          rw [ih.table, heq] at hs
          exact hin hs
        · exact fun hs => hs.1
  | assign h g x v _ ih =>
    have hno : ∀ d, ¬ (Event.assign x v).defines d ∧ ¬ (Event.assign x v).deletes d := by
      intro d; simp [Event.defines, Event.deletes]
    have hda : ∀ d i, DefinedAt (h ++ [Event.assign x v]) d i ↔ DefinedAt h d i := by
      intro d i
      rw [definedAt_snoc]
      simp [(hno d).1, (hno d).2]
    refine ⟨ih.nodup, ?_, ?_, ih.table⟩
    · intro d; simp only [hda]; exact ih.mem d
    · simp only [hda]; exact ih.order

end Verif.Exec
