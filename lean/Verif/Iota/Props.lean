import Verif.Iota.Lemmas

/-!
# The numbers of iota when several goroutines ask for them

`slice` and `Wanted` are the specification, with `run` (the executions) and `init` (where they begin).
-/

namespace Verif.Iota

/-- The elements `[o : o+n]` of an array, as the caller sees them. -/
def slice (s : State) (r o n : Nat) : List (Option Nat) := ((s.heap.getD r []).drop o).take n

/-- What `iota n` promises: the `n` numbers from `o` on. -/
def Wanted (o n : Nat) : List (Option Nat) := (List.range n).map fun i => some (o + i)

theorem slice_full {s : State} {r o n : Nat} (h : Full (s.arr r)) (hl : o + n ≤ (s.arr r).length) : slice s r o n = Wanted o n := by
  show ((s.arr r).drop o).take n = _
  apply List.ext_getElem?
  intro i
  by_cases hi : i < n
  · rw [List.getElem?_take_of_lt hi, List.getElem?_drop, h (o + i) (by omega)]
    simp [Wanted, hi]
  · rw [List.getElem?_eq_none (by simp; omega), List.getElem?_eq_none (by simp [Wanted]; omega)]

/-- C95: whatever calls are made at a time and however they are interleaved, what a call has returned is, then and at any later time, the numbers it was asked for. -/
theorem C95_right (calls : List (Nat × Nat)) {l : List Nat} {s : State} (h : run (init calls) l = some s) {i : Nat} {t : Thread} (ht : s.threads[i]? = some t)
    {r : Nat} (hd : t.pc = .done r) : slice s r t.origin t.n = Wanted t.origin t.n := by
  have hok := (run_inv (init_inv calls) h).ok t (List.mem_of_getElem? ht)
  unfold Ok at hok
  rw [hd] at hok
  exact slice_full hok.2.1 hok.2.2

/-- C95: there are no races. While a goroutine sets elements of an array, that array is neither the shared one nor one that was handed out, no other goroutine sets
elements, and none looks at the shared array. -/
theorem C95_alone (calls : List (Nat × Nat)) {l : List Nat} {s : State} (h : run (init calls) l = some s) {i : Nat} {t : Thread} (ht : s.threads[i]? = some t)
    {r k : Nat} (hf : t.pc = .filling r k) :
    r ≠ s.static ∧ (∀ t' ∈ s.threads, t'.pc ≠ .got r ∧ t'.pc ≠ .done r ∧ t'.pc ≠ .reading) ∧
    ∀ j t' r' k', s.threads[j]? = some t' → t'.pc = .filling r' k' → j = i := by
  have hi := run_inv (init_inv calls) h
  have hw : isWriter t = true := by simp [isWriter, hf]
  have hok := hi.ok t (List.mem_of_getElem? ht)
  unfold Ok at hok
  rw [hf] at hok
  refine ⟨by have := hok.2.1; omega, ?_, ?_⟩
  · intro t' h'
    have hok' := hi.ok t' h'
    refine ⟨fun e => ?_, fun e => ?_, fun e => ?_⟩
    · unfold Ok at hok'
      rw [e] at hok'
      have := hok'.1
      have := hok.2.1
      omega
    · unfold Ok at hok'
      rw [e] at hok'
      have := hok'.1
      have := hok.2.1
      omega
    · obtain ⟨j, hj⟩ := List.getElem?_of_mem h'
      have := readers_pos hi hj (by simp [isReader, e])
      have : s.readers = 0 := hok.2.2.2.2.2.2
      omega
  · intro j t' r' k' hj he
    exact writer_unique hi hj ht (by simp [isWriter, he]) hw

/-- C95: nobody waits for ever. As long as some call has not returned, some goroutine can take a step, although a waiting writer keeps new readers out. -/
theorem C95_nodeadlock (calls : List (Nat × Nat)) {l : List Nat} {s : State} (h : run (init calls) l = some s) (hstuck : ∀ i, step s i = none) :
    ∀ t ∈ s.threads, ∃ r, t.pc = .done r := by
  have hi := run_inv (init_inv calls) h
  have hst : ∀ t ∈ s.threads, ∃ i, next s i t = none := by
    intro t ht
    obtain ⟨i, hj⟩ := List.getElem?_of_mem ht
    have := hstuck i
    unfold step at this
    rw [hj] at this
    exact ⟨i, this⟩
  have hr : s.readers = 0 := by
    refine Decidable.byContradiction fun e => ?_
    have hp : 0 < s.threads.countP isReader := by rw [← hi.rd]; omega
    obtain ⟨t, ht, hp⟩ := List.countP_pos_iff.1 hp
    obtain ⟨i, hn⟩ := hst t ht
    obtain ⟨o, n, pc⟩ := t
    cases pc <;> simp [isReader] at hp <;> simp only [next] at hn <;> (try split at hn) <;> cases hn
  have hw : s.writer = false := by
    cases e : s.writer with
    | false => rfl
    | true =>
      have hp : 0 < s.threads.countP isWriter := by rw [hi.wr, e]; decide
      obtain ⟨t, ht, hp⟩ := List.countP_pos_iff.1 hp
      obtain ⟨i, hn⟩ := hst t ht
      obtain ⟨o, n, pc⟩ := t
      cases pc <;> simp [isWriter] at hp <;> simp only [next, hr] at hn <;> (try split at hn) <;> first | (rename_i hc; exact absurd rfl hc) | cases hn
  intro t ht
  obtain ⟨i, hn⟩ := hst t ht
  obtain ⟨o, n, pc⟩ := t
  cases pc with
  | done r => exact ⟨r, rfl⟩
  | start => simp [next, hw] at hn
  | asking => simp [next, hw] at hn
  | waiting => simp [next, hr] at hn
  | _ => simp only [next] at hn <;> (try split at hn) <;> cases hn

/-- C95: every execution ends. However the goroutines are scheduled, they take no more than `origin + n + 43` steps for each call, all calls together. -/
theorem C95_ends (calls : List (Nat × Nat)) {l : List Nat} {s : State} (h : run (init calls) l = some s) :
    l.length ≤ (calls.map fun c => c.1 + c.2 + 43).sum := by
  have h1 := run_less (init_inv calls) h
  have h2 : (((init calls).threads).map (weight (init calls))).sum ≤ (calls.map fun c => c.1 + c.2 + 43).sum := by
    show ((calls.map _).map (weight (init calls))).sum ≤ _
    rw [List.map_map]
    generalize init calls = s0
    clear h h1
    induction calls with
    | nil => simp
    | cons c l ih =>
      simp only [List.map_cons, List.sum_cons, Function.comp_apply]
      have : weight s0 { origin := c.1, n := c.2, pc := .start } ≤ c.1 + c.2 + 43 := by
        simp only [weight]
        split <;> omega
      omega
  omega

/-- C95, all together: there is a last state of every execution, however it is continued, and there every call has returned the numbers it was asked for. -/
theorem C95_total (calls : List (Nat × Nat)) {l : List Nat} {s : State} (h : run (init calls) l = some s) (hlast : ∀ i, step s i = none) (i : Nat) (c : Nat × Nat)
    (hc : calls[i]? = some c) : ∃ t r, s.threads[i]? = some t ∧ t.pc = .done r ∧ slice s r c.1 c.2 = Wanted c.1 c.2 := by
  have ha := run_args h
  have hci : (s.threads.map fun t => (t.origin, t.n))[i]? = some c := by
    rw [ha]
    simp only [init, List.map_map, Function.comp_def]
    simpa using hc
  rw [List.getElem?_map, Option.map_eq_some_iff] at hci
  obtain ⟨t, ht, rfl⟩ := hci
  obtain ⟨r, hr⟩ := C95_nodeadlock calls h hlast t (List.mem_of_getElem? ht)
  exact ⟨t, r, ht, hr, C95_right calls h ht hr⟩

/-- Two calls, `iota 2` with origin 1 and `iota 3` with origin 0, that both find the slice too short before either makes a new one: the second to get the lock finds
the array of the first. -/
def exSched : List Nat := [0, 1, 0, 1, 0, 1, 0, 0, 0] ++ List.replicate 36 0 ++ [0, 1, 1, 1, 1, 1, 1, 1, 0, 0, 0]
example : (run (init [(1, 2), (0, 3)]) exSched).map (fun s => s.threads.map (·.pc)) = some [.done 1, .done 1] := by decide +kernel
example : (run (init [(1, 2), (0, 3)]) exSched).map (fun s => (slice s 1 1 2, slice s 1 0 3)) = some ([some 1, some 2], [some 0, some 1, some 2]) := by decide +kernel
/-- The second has to wait while the first has the lock. -/
example : (run (init [(1, 2), (0, 3)]) [0, 1, 0, 1, 0, 1, 0, 0, 0, 0]).map (fun s => (s.threads.map (·.pc), step s 1)) = some ([.filling 1 1, .asking], none) := by
  decide +kernel

/-- A writer (goroutine 0) that waits for a reader keeps a third goroutine out. -/
example : (run (init [(1, 2), (0, 3), (0, 1)]) [0, 0, 1, 0, 0]).map (fun s => (s.threads.map (·.pc), step s 0, step s 2)) =
    some ([.waiting, .reading, .start], none, none) := by decide +kernel

end Verif.Iota
