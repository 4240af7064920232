import Verif.Rand.Lemmas
/-
Properties C47 and C63: a seed determines what follows, and random numbers lie in their range.
-/
namespace Verif.Rand
open Verif.Num Verif.Par
variable {σ : Type}

example : counter.Ok := ⟨fun i s h => Nat.mod_lt _ h, fun b s h => Nat.mod_lt _ h, fun n s => List.Perm.refl _⟩
example : topmost.Ok := ⟨fun i s h => by simp [topmost]; omega, fun b s h => by simp [topmost]; omega, fun n s => List.Perm.refl _⟩

/-! ### C47: after `)seed n` a session shows what it showed before -/

/-- C47 as a user would state it. -/
def C47_statement : Prop := ∀ (σ : Type) (G : Gen σ), G.Ok → ∀ (procs minWork prec : Nat) (origin : Int) (cs : List Cmd),
  0 < procs → 0 < minWork → Reproducible G procs minWork prec origin cs

/-- The first goroutine before the second. -/
def C47_first : Run Nat := (Run.start (randRanges 2 100 200) 200 0).steps counter 256 (List.replicate 200 1)
  (List.replicate 100 0 ++ List.replicate 100 1)

/-- The second before the first. -/
def C47_second : Run Nat := (Run.start (randRanges 2 100 200) 200 0).steps counter 256 (List.replicate 200 1)
  (List.replicate 100 1 ++ List.replicate 100 0)

theorem C47_first_result : C47_first.todo = [[], []] ∧ C47_first.bad = false ∧ C47_first.out.head? = some (some 0) := by decide +kernel

theorem C47_second_result : C47_second.todo = [[], []] ∧ C47_second.bad = false ∧
    C47_second.out.head? = some (some (25 / 2 ^ 254)) := by decide +kernel

/-- C47 is violated: `rand` is not among the operators kept out of parallel loops (eval.go:176-180), so with two
processors the 200 numbers of `)seed 0` and `rand 200 rho 1` depend on which goroutine runs first. -/
theorem C47_violated : ¬ C47_statement := by
  intro h
  have h1 := h Nat counter ⟨fun i s h => Nat.mod_lt _ h, fun b s h => Nat.mod_lt _ h, fun n s => List.Perm.refl _⟩
    2 100 256 1 [.rand (List.replicate 200 1)] (by decide) (by decide)
  obtain ⟨a1, a2, a3⟩ := C47_first_result
  obtain ⟨b1, b2, b3⟩ := C47_second_result
  have s1 : Session counter 2 100 256 1 [.seed 0, .rand (List.replicate 200 1)] 0 [.quiet, .rand (some C47_first.out)] C47_first.gen :=
    .cons .seed (.cons (.rand ⟨List.replicate 100 0 ++ List.replicate 100 1,
      (fun w hw => by
        have hw : w ∈ C47_first.todo := hw
        rw [a1] at hw; simpa using hw),
      (show C47_first.result = _ by unfold Run.result; rw [a2]; rfl), rfl⟩) .nil)
  have s2 : Session counter 2 100 256 1 [.seed 0, .rand (List.replicate 200 1)] 0 [.quiet, .rand (some C47_second.out)] C47_second.gen :=
    .cons .seed (.cons (.rand ⟨List.replicate 100 1 ++ List.replicate 100 0,
      (fun w hw => by
        have hw : w ∈ C47_second.todo := hw
        rw [b1] at hw; simpa using hw),
      (show C47_second.result = _ by unfold Run.result; rw [b2]; rfl), rfl⟩) .nil)
  have h2 := (h1 0 0 0 _ _ _ _ s1 s2).1
  simp only [List.cons.injEq, Out.rand.injEq, Option.some.injEq, and_true, true_and] at h2
  rw [h2] at a3
  rw [a3] at b3
  norm_num at b3

/-- C47, what holds: for every generator and every session whose `rand`s are each of fewer than `2 * minWork`
numbers (200, eval.go:191), or with one processor, the seed determines all that is shown and the generator
afterwards, whatever the state before. There is no condition on `?`, unary or binary. Missing: longer `rand`s, for
which it is false. -/
theorem C47_reproducible_partial (G : Gen σ) (procs minWork prec : Nat) (origin : Int) (cs : List Cmd)
    (h : procs = 1 ∨ ∀ l, Cmd.rand l ∈ cs → l.length < 2 * minWork) : Reproducible G procs minWork prec origin cs := by
  have hn : ∀ l, Cmd.rand l ∈ cs → parallel true procs minWork 1 l.length = false :=
    fun l hl => not_parallel (h.imp id fun h => h l hl)
  intro n s s' os os' t t' h1 h2
  cases h1 with
  | cons a1 a2 =>
    cases a1
    cases h2 with
    | cons b1 b2 =>
      cases b1
      obtain ⟨rfl, rfl⟩ := session_det hn a2 b2
      exact ⟨rfl, rfl⟩

example : Reproducible counter 8 100 256 1 [.roll (.arr [.num (.int 6), .num (.int 6)]), .rand [1, 2], .deal 3 10] :=
  C47_reproducible_partial _ _ _ _ _ _ (Or.inr (by intro l hl; simp at hl; subst hl; decide))

/-- C47: without `)seed` the state of the generator decides, in the same cases. -/
theorem C47_state_partial (G : Gen σ) (procs minWork prec : Nat) (origin : Int) (cs : List Cmd) (s t t' : σ) (os os' : List Out)
    (h : procs = 1 ∨ ∀ l, Cmd.rand l ∈ cs → l.length < 2 * minWork) (h1 : Session G procs minWork prec origin cs s os t)
    (h2 : Session G procs minWork prec origin cs s os' t') : os = os' ∧ t = t' := by
  exact session_det (fun l hl => not_parallel (h.imp id fun h => h l hl)) h1 h2

/-- C47: every session can be run to its end (the goroutines never wait for one another forever), so the theorems above
are not about nothing. -/
theorem C47_runs (G : Gen σ) (procs minWork prec : Nat) (origin : Int) (cs : List Cmd) :
    ∀ s : σ, ∃ os t, Session G procs minWork prec origin cs s os t ∧ os.length = cs.length := by
  induction cs with
  | nil => exact fun s => ⟨[], s, .nil, rfl⟩
  | cons c cs ih =>
    intro s
    have : ∃ o t, Step G procs minWork prec origin c s o t := by
      cases c with
      | seed n => exact ⟨_, _, .seed⟩
      | roll x => exact ⟨_, _, .roll rfl⟩
      | deal a b => exact ⟨_, _, .deal rfl⟩
      | rand l =>
        obtain ⟨out, t, h⟩ := rands_exist G procs minWork prec l s
        exact ⟨_, _, .rand h⟩
    obtain ⟨o, t, h⟩ := this
    obtain ⟨os, t', h', hl⟩ := ih t
    exact ⟨o :: os, t', .cons h h', by simp [hl]⟩

/-- C47: whether `rand` of an array fails does not depend on the schedule, however long the array. -/
theorem C47_fails_alike (G : Gen σ) (hG : G.Ok) (procs minWork prec : Nat) (hp : 0 < procs) (hw : 0 < minWork) (l : List Rat) (s t : σ)
    (out : Option (List (Option Rat))) (h : Rands G procs minWork prec l s out t) : out = none ↔ ∃ f ∈ l, f < 0 := by
  rcases rands_good hG hp hw h with ⟨h1, h2⟩ | ⟨ys, h1, h2, h3⟩
  · exact ⟨fun _ => h2, fun _ => h1⟩
  · constructor
    · intro h; rw [h1] at h; cases h
    · rintro ⟨f, hf, hneg⟩
      obtain ⟨i, hi, rfl⟩ := List.getElem_of_mem hf
      have := (h3 i hi).1
      rw [List.getD_eq_getElem _ _ hi] at this
      linarith

example : ∃ out t, Rands counter 2 100 256 (List.replicate 199 1 ++ [-1]) 0 out t ∧ out = none := by
  obtain ⟨out, t, h⟩ := rands_exist counter 2 100 256 (List.replicate 199 1 ++ [-1]) 0
  exact ⟨out, t, h, (C47_fails_alike counter ⟨fun i s h => Nat.mod_lt _ h, fun b s h => Nat.mod_lt _ h, fun n s => List.Perm.refl _⟩
    2 100 256 (by decide) (by decide) _ _ _ _ h).2 ⟨-1, List.mem_append_right _ (List.mem_singleton.2 rfl), by norm_num⟩⟩

/-- C47: different seeds (of 64 bits) give the source different seeds of 32 bytes. -/
theorem C47_seeds (a b : Nat) (ha : a < 2 ^ 64) (hb : b < 2 ^ 64) (h : makeSeed a = makeSeed b) : a = b := by
  apply seedWord_inj ha hb
  have hl : ∀ n, (seedWord n).length = 8 := fun n => by simp [seedWord]
  unfold makeSeed at h
  simp only [List.replicate, List.flatten_cons] at h
  exact (List.append_inj h (by rw [hl, hl])).1

example : makeSeed 258 ≠ makeSeed 513 ∧ (makeSeed 258).length = 32 := by decide

/-! ### C63: random numbers lie in their range -/

/-- C63 as the documentation states it: a roll of `n` is one of the `n` integers from the origin on; `rand x` is at least
zero and less than `x` (and for deals, C63_deal below). -/
def C63_statement : Prop := ∀ (σ : Type) (G : Gen σ), G.Ok →
  (∀ (origin : Int) (x y : T) (s : σ), (roll G origin x s).1 = some y → T.Rolled origin x y) ∧
  ∀ (prec : Nat) (f y : Rat) (s : σ), 0 < f → (rand1 G prec f s).1 = some y → 0 ≤ y ∧ y < f

/-- C63 is violated: `? 2**40` can give 0 though the origin is 1, since the result for a big integer is not moved by
the origin (unary.go:55-67). -/
theorem C63_violated : ¬ C63_statement := by
  intro h
  have h1 := (h Nat counter ⟨fun i s h => Nat.mod_lt _ h, fun b s h => Nat.mod_lt _ h, fun n s => List.Perm.refl _⟩).1
    1 (.num (.bigInt (2 ^ 40))) (.num (.int 0)) 0 (by rfl)
  simp only [T.Rolled, Num.Rolled] at h1
  obtain ⟨n, h2, h3, k, h4, h5, h6⟩ := h1
  simp at h4
  omega

/-- C63: and `rand 1` can give 1, since the number drawn can be the largest one, and the quotient is rounded
(unary.go:148-158). -/
theorem C63_rand_violated : (rand1 topmost 256 1 0).1 = some 1 := by decide +kernel

/-- C63: `rand 18014398509481987` can even give a larger number, since the product has 53 bits only (unary.go:157-160). -/
theorem C63_above_violated : (rand1 topmost 256 18014398509481987 0).1 = some 18014398509481988 := by decide +kernel

/-- C63, what holds of `?`: a roll of an array, nested or not, succeeds exactly if all its numbers are positive
integers; and if the origin is 0 or no number is a big integer, every result is in its range. Missing: big
integers with another origin, for which it is false. -/
theorem C63_roll_partial (G : Gen σ) (hG : G.Ok) (origin : Int) (x : T) (s : σ) :
    ((roll G origin x s).1.isSome = true ↔ x.All fun x => ∃ n : Int, (x = .int n ∨ x = .bigInt n) ∧ 0 < n) ∧
    ∀ y, (origin = 0 ∨ x.All fun x => ∀ n, x ≠ .bigInt n) → (roll G origin x s).1 = some y → T.Rolled origin x y := by
  refine ⟨roll_some x s, fun y ho h => roll_range hG x y s ?_ h⟩
  rcases ho with rfl | ho
  · exact all_of (fun _ => Or.inl rfl) x
  · exact all_mono (fun _ h => Or.inr h) x ho

example : (T.arr [.num (.int 6), .arr [.num (.int 2)]]).All (fun x => ∀ n, x ≠ .bigInt n) ∧
    (roll counter 1 (.arr [.num (.int 6), .arr [.num (.int 2)]]) 9).1 = some (.arr [.num (.int 4), .arr [.num (.int 1)]]) := by
  refine ⟨by simp [T.All, T.AllIn], by rfl⟩

/-- C63: a roll of a big integer is from zero on, whatever the origin. -/
theorem C63_roll_big (G : Gen σ) (hG : G.Ok) (origin n : Int) (s : σ) (hn : 0 < n) :
    ∃ y, (roll1 G origin (.bigInt n) s).1 = some y ∧ Num.Rolled 0 n y := by
  have h1 : (roll1 G origin (.bigInt n) s).1 = (roll1 G 0 (.bigInt n) s).1 := rfl
  have h2 : (roll1 G 0 (.bigInt n) s).1.isSome = true := roll1_some.2 ⟨n, Or.inr rfl, hn⟩
  obtain ⟨y, hy⟩ := Option.isSome_iff_exists.1 h2
  refine ⟨y, h1.trans hy, ?_⟩
  obtain ⟨m, hm, _, h3⟩ := roll1_range hG hy (Or.inl rfl)
  simp at hm
  rwa [hm]

example : (roll1 topmost 1 (.bigInt (2 ^ 40)) 0).1 = some (.bigInt 1099511627775) := by rfl

/-- C63: a deal succeeds exactly for `0 ≤ a ≤ b`, with `b` at most the largest machine integer, and then gives `a` different
integers, each one of the `b` from the origin on. -/
theorem C63_deal (G : Gen σ) (hG : G.Ok) (origin a b : Int) (s : σ) :
    ((deal G origin a b s).1.isSome = true ↔ 0 ≤ a ∧ a ≤ b ∧ b ≤ maxInt) ∧
    ∀ ys, (deal G origin a b s).1 = some ys → ∃ ks : List Int, ys = ks.map Num.int ∧ (ks.length : Int) = a ∧ ks.Nodup ∧
      ∀ k ∈ ks, origin ≤ k ∧ k < origin + b := by
  unfold deal
  split
  · rename_i h
    refine ⟨⟨fun h => by simp at h, fun h' => by exfalso; omega⟩, fun ys h => by simp at h⟩
  · rename_i h
    split
    · rename_i h'
      refine ⟨⟨fun h => by simp at h, fun h' => by exfalso; omega⟩, fun ys h => by simp at h⟩
    · rename_i h'
      refine ⟨⟨fun _ => by omega, fun _ => rfl⟩, fun ys hy => ?_⟩
      simp only [Option.some.injEq] at hy
      have hp := hG.perm b.toNat s
      have hlen : (G.perm b.toNat s).1.length = b.toNat := by rw [hp.length_eq]; simp
      have hnd : (G.perm b.toNat s).1.Nodup := hp.nodup_iff.2 List.nodup_range
      refine ⟨(List.range a.toNat).map fun i => ((G.perm b.toNat s).1.getD i 0 : Int) + origin, ?_, by simp; omega, ?_, ?_⟩
      · rw [← hy, List.map_map]; rfl
      · refine List.Nodup.map_on ?_ List.nodup_range
        intro i hi j hj hij
        rw [List.mem_range] at hi hj
        have e : (G.perm b.toNat s).1.getD i 0 = (G.perm b.toNat s).1.getD j 0 := by omega
        rw [List.getD_eq_getElem _ _ (by omega), List.getD_eq_getElem _ _ (by omega)] at e
        exact (List.Nodup.getElem_inj_iff hnd).1 e
      · intro k hk
        simp only [List.mem_map, List.mem_range] at hk
        obtain ⟨i, hi, rfl⟩ := hk
        have : (G.perm b.toNat s).1.getD i 0 ∈ (G.perm b.toNat s).1 := by
          rw [List.getD_eq_getElem _ _ (by omega)]
          exact List.getElem_mem _
        have := List.mem_range.1 (hp.mem_iff.1 this)
        omega

example : (deal counter 1 2 5 0).1 = some [.int 1, .int 2] := by rfl

/-- C63: a deal of all the numbers is a rearrangement of them. -/
theorem C63_deal_all (G : Gen σ) (hG : G.Ok) (origin b : Int) (s : σ) (hb : 0 ≤ b) (hm : b ≤ maxInt) :
    ∃ ks : List Int, (deal G origin b b s).1 = some (ks.map Num.int) ∧ ks.Perm ((List.range b.toNat).map fun i : Nat => (i : Int) + origin) := by
  have hp := hG.perm b.toNat s
  have hlen : (G.perm b.toNat s).1.length = b.toNat := by rw [hp.length_eq]; simp
  refine ⟨(G.perm b.toNat s).1.map fun i : Nat => (i : Int) + origin, ?_, hp.map _⟩
  unfold deal
  rw [if_neg (by omega), if_neg (by omega)]
  simp only [Option.some.injEq]
  apply List.ext_getElem
  · simp [hlen]
  · intro i h1 h2
    simp at h1
    simp only [List.getElem_map, List.getElem_range]
    rw [List.getD_eq_getElem _ _ (by omega)]

example : (0 : Int) ≤ 5 ∧ (5 : Int) ≤ maxInt := by decide

/-- C63, what holds of `rand`: under every schedule, of every number of goroutines, each element of an array gets a number
of its own which is at least zero, has 53 bits, and is at most the element if that has at most 53 bits. Missing: that
it is less than the element, which is false. -/
theorem C63_rand_partial (G : Gen σ) (hG : G.Ok) (procs minWork prec : Nat) (hp : 0 < procs) (hw : 0 < minWork) (l : List Rat) (s t : σ)
    (out : Option (List (Option Rat))) (h : Rands G procs minWork prec l s out t) (hl : ∀ f ∈ l, 0 ≤ f) :
    ∃ ys, out = some ys ∧ ys.length = l.length ∧ ∀ (i : Nat) (f : Rat), l[i]? = some f →
      ∃ y, ys[i]? = some (some y) ∧ 0 ≤ y ∧ Bits 53 y ∧ (Bits 53 f → y ≤ f) := by
  rcases rands_good hG hp hw h with ⟨h1, f, h2, h3⟩ | ⟨ys, h1, h2, h3⟩
  · have := hl f h2; linarith
  · refine ⟨ys, h1, h2, fun i f hf => ?_⟩
    obtain ⟨hi, hfe⟩ := List.getElem?_eq_some_iff.1 hf
    obtain ⟨h0, m, hm, hy⟩ := h3 i hi
    have hgd : l.getD i 0 = f := by rw [List.getD_eq_getElem _ _ hi]; exact hfe
    rw [hgd] at h0 hy
    obtain ⟨r1, r2⟩ := scale_range hm h0
    exact ⟨_, hy, r1, rnd_bits (by decide) _, r2⟩

example : Bits 53 1 ∧ Bits 53 (3 / 4) ∧ ∀ f ∈ List.replicate 200 (1 : Rat), 0 ≤ f :=
  ⟨⟨1, 0, by norm_num, by norm_num⟩, ⟨3, -2, by norm_num, by norm_num⟩, fun f hf => by rw [List.eq_of_mem_replicate hf]; norm_num⟩

end Verif.Rand
