import Verif.Num.FacModel
import Mathlib.Data.Nat.Choose.Factorization
import Mathlib.Data.Nat.Prime.Basic
/-
Helper lemmas for C15: the sieve returns the primes in order, swing is n!/⌊n/2⌋!², factorial is n!.
-/
namespace Verif.Num
open Nat

theorem mark_spec (n i : Nat) (hi : 0 < i) (c : Nat) (j : Nat) (hj : j = c * i) (marked : Nat → Bool) (k : Nat) (hk : k ≤ n) :
    mark n i j marked k = (marked k || decide (i ∣ k ∧ j ≤ k)) := by
  fun_induction mark n i j marked generalizing c with
  | case1 j marked h ih =>
    rw [ih (c + 1) (by rw [hj, Nat.add_mul, Nat.one_mul])]
    show (setMark j marked k || _) = _
    unfold setMark
    by_cases e : k = j
    · subst e
      have : i ∣ k := ⟨c, by rw [hj, Nat.mul_comm]⟩
      simp [this]
    · by_cases d : i ∣ k
      · obtain ⟨m, hm⟩ := d
        have h1 : (j + i ≤ k) ↔ (j ≤ k) := by
          subst hm; subst hj
          constructor
          · omega
          · intro h2
            have h3 : c * i ≠ i * m := fun h => e h.symm
            have h4 : c ≤ m := by
              rw [Nat.mul_comm] at h2
              exact Nat.le_of_mul_le_mul_left h2 hi
            have h5 : c ≠ m := fun h => h3 (by rw [h, Nat.mul_comm])
            have h6 : c + 1 ≤ m := by omega
            calc c * i + i = i * (c + 1) := by rw [Nat.mul_add, Nat.mul_comm, Nat.mul_one]
              _ ≤ i * m := Nat.mul_le_mul_left _ h6
        simp [e, h1]
      · simp [e, d]
  | case2 j marked h =>
    have : ¬ j ≤ k := by omega
    simp [this]

/-- The sieve has marked the multiples of the primes below `d`. -/
def Sieved (n d : Nat) (g : Gen) : Prop :=
  2 ≤ d ∧ (g.i = d ∨ (g.i + 1 = d ∧ Nat.Prime g.i)) ∧
    ∀ k, 1 ≤ k → k ≤ n → (g.marked k = true ↔ ∃ p, Nat.Prime p ∧ p < d ∧ p ∣ k)

theorem prime_iff_unmarked {k : Nat} (hk : 2 ≤ k) : (∃ p, Nat.Prime p ∧ p < k ∧ p ∣ k) ↔ ¬ Nat.Prime k := by
  constructor
  · rintro ⟨p, hp, hlt, hd⟩ hk2
    rcases (Nat.dvd_prime hk2).1 hd with h | h
    · exact hp.one_lt.ne' h
    · omega
  · intro h
    refine ⟨k.minFac, Nat.minFac_prime (by omega), ?_, Nat.minFac_dvd k⟩
    have := (Nat.not_prime_iff_minFac_lt hk).1 h
    exact this

theorem next_spec (n : Nat) (g : Gen) (d : Nat) (h : Sieved n d g) :
    ((g.next n).1 = 0 ∧ ∀ p, Nat.Prime p → d ≤ p → n < p) ∨
    (∃ p, (g.next n).1 = p ∧ Nat.Prime p ∧ d ≤ p ∧ p ≤ n ∧ (∀ q, Nat.Prime q → d ≤ q → p ≤ q) ∧ Sieved n (p + 1) (g.next n).2) := by
  fun_induction Gen.next n g generalizing d with
  | case1 g hle hm ih =>
    obtain ⟨h2, h3, h4⟩ := h
    rcases h3 with h3 | ⟨h3, h5⟩
    · have hnp : ¬ Nat.Prime g.i := by
        have := (h4 g.i (by omega) hle).1 hm
        rw [← h3] at this
        exact (prime_iff_unmarked (by omega)).1 this
      have hs : Sieved n (d + 1) ⟨g.marked, g.i + 1⟩ := by
        refine ⟨by omega, Or.inl (by simp [h3]), fun k hk1 hk => ?_⟩
        rw [h4 k hk1 hk]
        constructor
        · rintro ⟨p, hp, hlt, hd⟩
          exact ⟨p, hp, by omega, hd⟩
        · rintro ⟨p, hp, hlt, hd⟩
          refine ⟨p, hp, ?_, hd⟩
          rcases Nat.lt_or_ge p d with h | h
          · exact h
          · have : p = g.i := by omega
            rw [this] at hp
            exact absurd hp hnp
      have key : ∀ p, Nat.Prime p → d ≤ p → d + 1 ≤ p := fun p hp hdp => by
        rcases Nat.eq_or_lt_of_le hdp with h | h
        · rw [← h, ← h3] at hp; exact absurd hp hnp
        · omega
      rcases ih (d + 1) hs with ⟨h6, h7⟩ | ⟨p, h6, h7, h8, h9, h10, h11⟩
      · exact Or.inl ⟨h6, fun p hp hdp => h7 p hp (key p hp hdp)⟩
      · exact Or.inr ⟨p, h6, h7, by omega, h9, fun q hq hdq => h10 q hq (key q hq hdq), h11⟩
    · have hs : Sieved n d ⟨g.marked, g.i + 1⟩ := ⟨h2, Or.inl h3, h4⟩
      exact ih d hs
  | case2 g hle hm =>
    obtain ⟨h2, h3, h4⟩ := h
    right
    rcases h3 with h3 | ⟨h3, h5⟩
    · have hp : Nat.Prime g.i := by
        by_contra hnp
        have := (prime_iff_unmarked (k := g.i) (by omega)).2 hnp
        rw [h3] at this
        have := (h4 d (by omega) (by omega)).2 this
        rw [← h3] at this
        exact hm this
      refine ⟨g.i, rfl, hp, by omega, hle, fun q hq hdq => by omega, by omega, Or.inr ⟨rfl, hp⟩, fun k hk1 hk => ?_⟩
      show mark n g.i g.i g.marked k = true ↔ _
      rw [mark_spec n g.i hp.pos 1 g.i (by omega) _ k hk]
      simp only [Bool.or_eq_true, decide_eq_true_eq]
      rw [h4 k hk1 hk]
      constructor
      · rintro (⟨p, hp, hlt, hd⟩ | ⟨hd, hle⟩)
        · exact ⟨p, hp, by omega, hd⟩
        · exact ⟨g.i, hp, by omega, hd⟩
      · rintro ⟨p, hp, hlt, hd⟩
        rcases Nat.lt_or_ge p g.i with h | h
        · exact Or.inl ⟨p, hp, by omega, hd⟩
        · have : p = g.i := by omega
          subst this
          exact Or.inr ⟨hd, Nat.le_of_dvd hk1 hd⟩
    · exfalso
      apply hm
      exact (h4 g.i (by have := h5.two_le; omega) hle).2 ⟨g.i, h5, by omega, dvd_rfl⟩
  | case3 g hle =>
    left
    refine ⟨rfl, fun p hp hdp => ?_⟩
    obtain ⟨h2, h3, h4⟩ := h
    omega

theorem init_sieved (n : Nat) : Sieved n 2 Gen.init := by
  refine ⟨by omega, Or.inl rfl, fun k hk1 hk => ?_⟩
  simp only [Gen.init, Bool.false_eq_true, false_iff]
  rintro ⟨p, hp, hlt, -⟩
  have := hp.two_le
  omega

/-- The exponent of `p` in swing n: how many of n/p, n/p², … are odd. -/
def oddQuots (p n : Nat) : Nat := if h : n ≠ 0 ∧ 2 ≤ p then n / p % 2 + oddQuots p (n / p) else 0
termination_by n
decreasing_by exact Nat.div_lt_self (by omega) (by omega)

theorem pow_oddQuots_le {p n : Nat} (hp : 2 ≤ p) (hn : 0 < n) : p ^ oddQuots p n ≤ n := by
  fun_induction oddQuots p n with
  | case1 n h ih =>
    by_cases h0 : n / p = 0
    · rw [h0]
      have : oddQuots p 0 = 0 := by rw [oddQuots]; simp
      rw [this]; simp; omega
    · have h1 := ih (Nat.pos_of_ne_zero h0)
      have h2 : n / p * p ≤ n := Nat.div_mul_le_self n p
      rcases Nat.mod_two_eq_zero_or_one (n / p) with h3 | h3
      · rw [h3, Nat.zero_add]
        have := Nat.div_le_self n p
        omega
      · rw [h3, Nat.add_comm, Nat.pow_succ]
        calc _ ≤ n / p * p := Nat.mul_le_mul_right _ h1
          _ ≤ n := h2
  | case2 n h => omega

theorem wrap64_small {x : Int} (h1 : -2 ^ 63 ≤ x) (h2 : x < 2 ^ 63) : wrap64 x = x := by
  unfold wrap64
  rw [Int.bmod_def]
  split <;> omega

theorem swingPow_acc {p n : Nat} (hp : 2 ≤ p) (hn : n < 2 ^ 63) (a : Nat) (ha : a * p ^ oddQuots p n < 2 ^ 63) :
    swingPow p n a = ((a * p ^ oddQuots p n : Nat) : Int) := by
  generalize hq : (a : Int) = q
  fun_induction swingPow p n q generalizing a with
  | case1 n q h ih =>
    rw [oddQuots, dif_pos h] at ha ⊢
    by_cases h3 : n / p % 2 = 1
    · rw [h3] at ha
      simp only [h3, if_true] at ih ⊢
      have e : a * p ^ (1 + oddQuots p (n / p)) = a * p * p ^ oddQuots p (n / p) := by
        rw [Nat.pow_add, Nat.pow_one, Nat.mul_assoc]
      rw [e] at ha ⊢
      have h5 : a * p < 2 ^ 63 := by
        have : 1 ≤ p ^ oddQuots p (n / p) := Nat.one_le_pow _ _ (by omega)
        calc a * p = a * p * 1 := by omega
          _ ≤ a * p * p ^ oddQuots p (n / p) := Nat.mul_le_mul_left _ this
          _ < _ := ha
      refine ih (by have := Nat.div_le_self n p; omega) (a * p) ha ?_
      subst hq
      rw [wrap64_small]
      · push_cast; rfl
      · have : (0 : Int) ≤ (a : Int) * p := by positivity
        omega
      · exact_mod_cast h5
    · have h4 : n / p % 2 = 0 := by omega
      rw [h4, Nat.zero_add] at ha ⊢
      simp only [h3, if_false] at ih ⊢
      exact ih (by have := Nat.div_le_self n p; omega) a ha hq
  | case2 n q h =>
    rw [oddQuots, dif_neg h, Nat.pow_zero, Nat.mul_one]
    exact hq.symm

theorem swingPow_eq {p n : Nat} (hp : 2 ≤ p) (hn0 : 0 < n) (hn : n < 2 ^ 63) :
    swingPow p n 1 = ((p ^ oddQuots p n : Nat) : Int) := by
  have := swingPow_acc hp hn 1 (by
    rw [Nat.one_mul]
    exact Nat.lt_of_le_of_lt (pow_oddQuots_le hp hn0) hn)
  rw [Nat.one_mul] at this
  exact this

theorem product1_eq (f : List Int) : product1 f = f.prod := by
  fun_induction product1 f with
  | case1 => rfl
  | case2 a => simp
  | case3 a b f l ih1 ih2 =>
    rw [ih1, ih2, ← List.prod_append, List.take_append_drop]

theorem product_eq (f : List Int) : product f = f.prod := by
  unfold product
  split
  · rfl
  · simp
  · rw [product1_eq, product1_eq, ← List.prod_append, List.take_append_drop]

theorem swingLoop_prod {n : Nat} (hn0 : 0 < n) (hn : n < 2 ^ 63) (fuel : Nat) (g : Gen) (d : Nat) (h : Sieved n d g) (hf : n + 2 ≤ fuel + d) (hf0 : 0 < fuel) :
    ∃ fs, swingLoop n fuel g = some fs ∧
      fs.prod = ∏ p ∈ (Finset.range (n + 1)).filter (fun p => d ≤ p ∧ Nat.Prime p), ((p ^ oddQuots p n : Nat) : Int) := by
  induction fuel generalizing g d with
  | zero => omega
  | succ fuel ih =>
    simp only [swingLoop]
    rcases next_spec n g d h with ⟨h1, h2⟩ | ⟨p, h1, hp, hdp, hpn, hmin, hs⟩
    · rw [if_pos h1]
      refine ⟨[], rfl, ?_⟩
      rw [Finset.filter_eq_empty_iff.2]
      · simp
      · rintro p hp ⟨h3, h4⟩
        have := h2 p h4 h3
        rw [Finset.mem_range] at hp
        omega
    · rw [if_neg (by rw [h1]; exact hp.pos.ne')]
      rw [h1]
      have hset : (Finset.range (n + 1)).filter (fun q => d ≤ q ∧ Nat.Prime q) =
          insert p ((Finset.range (n + 1)).filter (fun q => p + 1 ≤ q ∧ Nat.Prime q)) := by
        ext q
        simp only [Finset.mem_filter, Finset.mem_range, Finset.mem_insert]
        constructor
        · rintro ⟨h3, h4, h5⟩
          have := hmin q h5 h4
          by_cases e : q = p
          · exact Or.inl e
          · exact Or.inr ⟨h3, by omega, h5⟩
        · rintro (rfl | ⟨h3, h4, h5⟩)
          · exact ⟨by omega, hdp, hp⟩
          · exact ⟨h3, by omega, h5⟩
      have hnot : p ∉ (Finset.range (n + 1)).filter (fun q => p + 1 ≤ q ∧ Nat.Prime q) := by
        simp
      rw [hset, Finset.prod_insert hnot]
      by_cases hz : fuel = 0
      · exfalso
        omega
      obtain ⟨fs, e1, e2⟩ := ih (g.next n).2 (p + 1) hs (by omega) (by omega)
      rw [e1]
      refine ⟨_, rfl, ?_⟩
      rw [swingPow_eq hp.two_le hn0 hn, ← e2]
      split
      · rw [List.prod_cons]
      · rename_i h5
        have : 1 ≤ p ^ oddQuots p n := Nat.one_le_pow _ _ hp.pos
        have h6 : p ^ oddQuots p n = 1 := by
          have : ¬ (1 < p ^ oddQuots p n) := by
            intro h; apply h5; exact_mod_cast h
          omega
        rw [h6]; simp

theorem oddQuots_sum {p : Nat} (hp : 2 ≤ p) (b n : Nat) (h : n < p ^ (b + 1)) :
    oddQuots p n = ∑ i ∈ Finset.Ico 1 (b + 1), n / p ^ i % 2 := by
  rw [Finset.sum_Ico_eq_sum_range, Nat.add_sub_cancel]
  induction b generalizing n with
  | zero =>
    rw [oddQuots]
    split
    · rename_i h1
      have : n / p = 0 := Nat.div_eq_of_lt (by simpa using h)
      rw [this, oddQuots]; simp
    · simp
  | succ b ih =>
    rw [oddQuots]
    split
    · rename_i h1
      rw [ih (n / p) (by
        rw [Nat.div_lt_iff_lt_mul (by omega)]
        rw [Nat.pow_succ] at h; exact h)]
      rw [Finset.sum_range_succ', Nat.add_comm]
      congr 1
      · apply Finset.sum_congr rfl
        intro i _
        rw [Nat.div_div_eq_div_mul]
        congr 2
        rw [Nat.add_comm i 1, Nat.pow_add p 1 (1 + i), Nat.pow_one]
      · simp
    · have : n = 0 := by omega
      subst this; simp

theorem fact_half {p : Nat} (hp : Nat.Prime p) (n : Nat) :
    (n !).factorization p = oddQuots p n + 2 * ((n / 2)!).factorization p := by
  obtain ⟨b, hb⟩ : ∃ b, b = Nat.log p n := ⟨_, rfl⟩
  rw [Nat.factorization_factorial hp (n := n) (b := b + 1) (by omega),
    Nat.factorization_factorial hp (n := n / 2) (b := b + 1) (by
      have := Nat.log_mono_right (b := p) (Nat.div_le_self n 2)
      omega)]
  rw [oddQuots_sum hp.two_le b n (by
    have := Nat.lt_pow_succ_log_self hp.one_lt n
    rw [hb]; exact this)]
  rw [Finset.mul_sum, ← Finset.sum_add_distrib]
  apply Finset.sum_congr rfl
  intro i _
  rw [Nat.div_div_eq_div_mul, Nat.mul_comm 2 (p ^ i), ← Nat.div_div_eq_div_mul]
  omega

theorem swing_prod {n : Nat} (hn0 : 0 < n) :
    (∏ p ∈ (Finset.range (n + 1)).filter (fun p => 2 ≤ p ∧ Nat.Prime p), p ^ oddQuots p n) * ((n / 2)! * (n / 2)!) = n ! := by
  have hne : ∀ p ∈ (Finset.range (n + 1)).filter (fun p => 2 ≤ p ∧ Nat.Prime p), p ^ oddQuots p n ≠ 0 := by
    intro p hp
    simp only [Finset.mem_filter] at hp
    exact pow_ne_zero _ hp.2.2.ne_zero
  have hne2 := Finset.prod_ne_zero_iff.2 hne
  have hf : (n / 2)! ≠ 0 := Nat.factorial_ne_zero _
  refine Nat.eq_of_factorization_eq (mul_ne_zero hne2 (mul_ne_zero hf hf)) (Nat.factorial_ne_zero _) fun q => ?_
  by_cases hq : Nat.Prime q
  · rw [Nat.factorization_mul hne2 (mul_ne_zero hf hf), Nat.factorization_mul hf hf, Nat.factorization_prod hne]
    simp only [Finsupp.add_apply, Finsupp.coe_finset_sum, Finset.sum_apply]
    rw [fact_half hq n]
    have : ∑ c ∈ (Finset.range (n + 1)).filter (fun p => 2 ≤ p ∧ Nat.Prime p), (c ^ oddQuots c n).factorization q = oddQuots q n := by
      have h1 : ∀ c ∈ (Finset.range (n + 1)).filter (fun p => 2 ≤ p ∧ Nat.Prime p),
          (c ^ oddQuots c n).factorization q = if c = q then oddQuots q n else 0 := by
        intro c hc
        simp only [Finset.mem_filter] at hc
        rw [Nat.Prime.factorization_pow hc.2.2, Finsupp.single_apply]
        split
        · rename_i h; rw [h]
        · rfl
      rw [Finset.sum_congr rfl h1, Finset.sum_ite_eq']
      split
      · rfl
      · rename_i h
        have : n < q := by
          by_contra h2
          apply h
          simp only [Finset.mem_filter, Finset.mem_range]
          exact ⟨by omega, hq.two_le, hq⟩
        rw [oddQuots]
        split
        · rw [Nat.div_eq_of_lt this, oddQuots]; simp
        · rfl
    rw [this]; omega
  · rw [Nat.factorization_eq_zero_of_not_prime _ hq, Nat.factorization_eq_zero_of_not_prime _ hq]

theorem swing_eq {n : Nat} (hn0 : 0 < n) (hn : n < 2 ^ 63) :
    ∃ s : Nat, swing n = some (s : Int) ∧ s * ((n / 2)! * (n / 2)!) = n ! := by
  obtain ⟨fs, h1, h2⟩ := swingLoop_prod hn0 hn (n + 1) Gen.init 2 (init_sieved n) (by omega) (by omega)
  refine ⟨∏ p ∈ (Finset.range (n + 1)).filter (fun p => 2 ≤ p ∧ Nat.Prime p), p ^ oddQuots p n, ?_, swing_prod hn0⟩
  unfold swing
  rw [h1]
  simp only
  rw [product_eq, h2]
  push_cast
  rfl

theorem factorialNat_eq (n : Nat) (hn : n < 2 ^ 63) : factorialNat n = some ((n ! : Nat) : Int) := by
  fun_induction factorialNat n with
  | case1 n h =>
    have : n = 0 ∨ n = 1 := by omega
    rcases this with rfl | rfl <;> rfl
  | case2 n h s f2 h1 h2 ih =>
    obtain ⟨t, h3, h4⟩ := swing_eq (n := n) (by omega) hn
    rw [h3] at h2
    rw [ih (by omega)] at h1
    cases h1; cases h2
    rw [← h4]
    push_cast
    congr 1
    ring
  | case3 n h h1 ih =>
    obtain ⟨t, h3, h4⟩ := swing_eq (n := n) (by omega) hn
    exact absurd (ih (by omega)) (h1 _ _ h3)

theorem factorial_eq (n : Nat) (hn : n < 2 ^ 63) : factorial (n : Int) = .ok ((n ! : Nat) : Int) := by
  unfold factorial
  rw [if_neg (by omega), Int.toNat_natCast, factorialNat_eq n hn]

end Verif.Num
