import Verif.Blanks.Lemmas

/-!
# The shared blanks when several goroutines print

The specification is `List.replicate`, with `run` (the executions) and `init` (where they begin).
-/

namespace Verif.Blanks

/-- C101: whatever calls are made at a time and however they are interleaved, a call `blanks(n)` that has returned has returned `n` blanks. -/
theorem C101_right (calls : List Nat) {l : List Nat} {s : State} (h : run (init calls) l = some s) {t : Thread} (ht : t ∈ s.threads)
    {r : List Char} (hd : t.pc = .done r) : r = List.replicate t.n ' ' := by
  have hok := (run_inv (init_inv calls) h).ok t ht
  unfold Ok at hok
  rw [hd] at hok
  exact hok

/-- C101: there are no races. While a goroutine may set the shared string, no other one may set it, and none looks at it. -/
theorem C101_alone (calls : List Nat) {l : List Nat} {s : State} (h : run (init calls) l = some s) {i : Nat} {t : Thread} (ht : s.threads[i]? = some t)
    (hf : t.pc = .writing) : ∀ j t', s.threads[j]? = some t' → t'.pc ≠ .reading ∧ (t'.pc = .writing → j = i) := by
  have hi := run_inv (init_inv calls) h
  have hok := hi.ok t (List.mem_of_getElem? ht)
  unfold Ok at hok
  rw [hf] at hok
  intro j t' hj
  refine ⟨fun e => ?_, fun e => writer_unique hi hj ht (by simp [isWriter, e]) (by simp [isWriter, hf])⟩
  have := readers_pos hi (List.mem_of_getElem? hj) (by simp [isReader, e])
  have : s.readers = 0 := hok
  omega

/-- C101: nobody waits for ever. As long as some call has not returned, some goroutine can take a step, although a waiting writer keeps new readers out. -/
theorem C101_nodeadlock (calls : List Nat) {l : List Nat} {s : State} (h : run (init calls) l = some s) (hstuck : ∀ i, step s i = none) :
    ∀ t ∈ s.threads, ∃ r, t.pc = .done r := by
  have hi := run_inv (init_inv calls) h
  have hst : ∀ t ∈ s.threads, ∃ i, next s i t = none := by
    intro t ht
    obtain ⟨i, hj⟩ := List.getElem?_of_mem ht
    have := hstuck i
    unfold step at this
    rw [hj] at this
    exact ⟨i, this⟩
  have hr : s.readers = 0 := by
    refine Decidable.byContradiction fun e => ?_
    have hp : 0 < s.threads.countP isReader := by rw [← hi.rd]; omega
    obtain ⟨t, ht, hp⟩ := List.countP_pos_iff.1 hp
    obtain ⟨i, hn⟩ := hst t ht
    obtain ⟨n, pc⟩ := t
    cases pc <;> simp [isReader] at hp <;> simp only [next] at hn <;> (try split at hn) <;> cases hn
  have hw : s.writer = false := by
    cases e : s.writer with
    | false => rfl
    | true =>
      have hp : 0 < s.threads.countP isWriter := by rw [hi.wr, e]; decide
      obtain ⟨t, ht, hp⟩ := List.countP_pos_iff.1 hp
      obtain ⟨i, hn⟩ := hst t ht
      obtain ⟨n, pc⟩ := t
      cases pc <;> simp [isWriter] at hp <;> simp only [next, hr] at hn <;> (try split at hn) <;> first | (rename_i hc; exact absurd rfl hc) | cases hn
  intro t ht
  obtain ⟨i, hn⟩ := hst t ht
  obtain ⟨n, pc⟩ := t
  cases pc with
  | done r => exact ⟨r, rfl⟩
  | start => simp [next, hw] at hn
  | asking => simp [next, hw] at hn
  | waiting => simp [next, hr] at hn
  | _ => simp only [next] at hn <;> (try split at hn) <;> cases hn

/-- C101: every execution ends. However the goroutines are scheduled, they take no more than ten steps for each call, all calls together. -/
theorem C101_ends (calls : List Nat) {l : List Nat} {s : State} (h : run (init calls) l = some s) : l.length ≤ 10 * calls.length := by
  have h1 := run_less (init_inv calls) h
  have h2 : (((init calls).threads).map (weight (init calls))).sum ≤ 10 * calls.length := by
    show ((calls.map _).map (weight (init calls))).sum ≤ _
    rw [List.map_map]
    generalize init calls = s0
    clear h h1
    induction calls with
    | nil => simp
    | cons c l ih =>
      simp only [List.map_cons, List.sum_cons, Function.comp_apply, List.length_cons]
      have : weight s0 { n := c, pc := .start } ≤ 10 := by
        simp only [weight]
        split <;> omega
      omega
  omega

/-- C101, all together: in the last state of every execution every call has returned as many blanks as it was asked for. -/
theorem C101_total (calls : List Nat) {l : List Nat} {s : State} (h : run (init calls) l = some s) (hlast : ∀ i, step s i = none) :
    s.threads.map (·.pc) = calls.map fun n => .done (List.replicate n ' ') := by
  have ha : s.threads.map (·.n) = calls := by
    rw [run_args h]
    simp [init, Function.comp_def]
  have hd : ∀ t ∈ s.threads, t.pc = .done (List.replicate t.n ' ') := by
    intro t ht
    obtain ⟨r, hr⟩ := C101_nodeadlock calls h hlast t ht
    rw [hr, C101_right calls h ht hr]
  rw [← ha, List.map_map]
  exact List.map_congr_left hd

/-! Two calls, of 2 and 40 blanks, that both find the string too short. The second gets the lock first; when the first gets it, the string is long enough. -/
/-- A waiting writer (goroutine 0) keeps a new reader (goroutine 1, after its turn) out until it has released the lock. -/
example : (run (init [2, 40]) [0, 0, 1, 1, 0, 1, 1, 1, 1, 1, 0]).map (fun s => (s.threads.map (·.pc), step s 1)) = some ([.waiting, .start], none) := by decide +kernel
example : (run (init [2, 40]) ([0, 0, 1, 1, 0, 1, 1, 1, 1, 1, 0] ++ [0, 0, 0, 0, 0, 0, 1, 1, 1])).map (fun s => s.threads.map (·.pc)) =
    some [.done [' ', ' '], .done (List.replicate 40 ' ')] := by decide +kernel
/-- A writer waits for a reader that still has the lock. -/
example : (run (init [2, 40]) [0, 0, 1, 0, 0]).map (fun s => (s.threads.map (·.pc), step s 0)) = some ([.waiting, .reading], none) := by decide +kernel

end Verif.Blanks
