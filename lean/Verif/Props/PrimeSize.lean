import Verif.Props.PrimeValues
import Mathlib.NumberTheory.Primorial
import Mathlib.Data.Nat.Choose.Factorization
/-
C14: all the tabulated values have the right size and parity, by Chebyshev's bounds for the number of primes.
-/
namespace SM.Props
open SM SM.Alg BMap Finset

/-- The primes up to `n`. -/
def primesTo (n : Nat) : Finset Nat := (range (n + 1)).filter Nat.Prime

theorem mem_primesTo {n p : Nat} : p ∈ primesTo n ↔ p.Prime ∧ p ≤ n := by
  simp [primesTo, and_comm]

theorem primesTo_mono {m n : Nat} (h : m ≤ n) : primesTo m ⊆ primesTo n := fun p hp => by
  rw [mem_primesTo] at hp ⊢
  exact ⟨hp.1, hp.2.trans h⟩

theorem primeCount_le_self (n : Nat) : primeCount n ≤ n := by
  have : (range (n + 1)).filter Nat.Prime ⊆ Ioc 0 n := fun p hp => by
    rw [mem_filter, mem_range] at hp
    exact mem_Ioc.2 ⟨hp.2.pos, by omega⟩
  simpa [primeCount] using card_le_card this

/-- From above: the product of the primes up to `n` is at most `4 ^ n`. -/
theorem primeCount_upper (n j : Nat) : j * primeCount n ≤ 2 * n + j * 2 ^ j := by
  have h1 : (2 ^ j) ^ (primesTo n \ primesTo (2 ^ j)).card ≤ 4 ^ n := by
    calc (2 ^ j) ^ (primesTo n \ primesTo (2 ^ j)).card = ∏ _p ∈ primesTo n \ primesTo (2 ^ j), 2 ^ j := by rw [prod_const]
      _ ≤ ∏ p ∈ primesTo n \ primesTo (2 ^ j), p := by
        refine prod_le_prod' fun p hp => ?_
        rw [mem_sdiff, mem_primesTo, mem_primesTo] at hp
        exact (Nat.lt_of_not_le fun h => hp.2 ⟨hp.1.1, h⟩).le
      _ ≤ ∏ p ∈ primesTo n, p := by
        refine prod_le_prod_of_subset_of_one_le' sdiff_subset fun p hp _ => ?_
        exact (mem_primesTo.1 hp).1.pos
      _ = primorial n := rfl
      _ ≤ 4 ^ n := primorial_le_four_pow n
  rw [← Nat.pow_mul, show (4 : Nat) = 2 ^ 2 from rfl, ← Nat.pow_mul] at h1
  have h2 := (Nat.pow_le_pow_iff_right (by decide)).1 h1
  have h3 : primeCount n ≤ (primesTo n \ primesTo (2 ^ j)).card + 2 ^ j := by
    have := card_le_card_sdiff_add_card (t := primesTo (2 ^ j)) (s := primesTo n)
    have h4 := primeCount_le_self (2 ^ j)
    change (primesTo (2 ^ j)).card ≤ _ at h4
    change (primesTo n).card ≤ _
    omega
  have h5 := Nat.mul_le_mul_left j h3
  rw [Nat.mul_add] at h5
  omega

/-- From below: `2 ^ n` is at most `n` times the middle binomial coefficient, which has only prime powers up to `n`. -/
theorem primeCount_lower {m j : Nat} (hm : 4 ≤ m) (hj : 2 * m ≤ 2 ^ j) : 2 * m ≤ j * (primeCount (2 * m) + 1) := by
  have h1 : m.centralBinom ≤ (2 * m) ^ primeCount (2 * m) := by
    rw [← Nat.prod_pow_factorization_centralBinom m]
    have h2 : ∏ p ∈ range (2 * m + 1), p ^ m.centralBinom.factorization p =
        ∏ p ∈ (range (2 * m + 1)).filter Nat.Prime, p ^ m.centralBinom.factorization p := by
      rw [prod_filter]
      refine prod_congr rfl fun p _ => ?_
      split
      · rfl
      · rename_i hp
        rw [Nat.factorization_eq_zero_of_not_prime _ hp, Nat.pow_zero]
    rw [h2, primeCount, ← prod_const]
    refine prod_le_prod' fun p _ => ?_
    exact Nat.pow_factorization_choose_le (by omega)
  have h3 := Nat.four_pow_lt_mul_centralBinom m hm
  have h4 : 2 ^ (2 * m) ≤ (2 * m) ^ (primeCount (2 * m) + 1) := by
    rw [Nat.pow_succ, Nat.pow_mul]
    have : m * m.centralBinom ≤ 2 * m * (2 * m) ^ primeCount (2 * m) := Nat.mul_le_mul (by omega) h1
    rw [Nat.mul_comm _ (2 * m)]
    exact h3.le.trans this
  have h5 : 2 ^ (2 * m) ≤ 2 ^ (j * (primeCount (2 * m) + 1)) := by
    rw [Nat.pow_mul 2 j]
    exact h4.trans (Nat.pow_le_pow_left hj _)
  exact (Nat.pow_le_pow_iff_right (by decide)).1 h5

/-- The sum is at most the number of primes times the greatest. -/
theorem primeSum_upper (n : Nat) : primeSum n ≤ n * primeCount n := by
  rw [primeSum, primeCount, Nat.mul_comm, ← smul_eq_mul]
  refine sum_le_card_nsmul _ _ _ fun p hp => ?_
  rw [mem_filter, mem_range] at hp
  omega

/-- In layers: each prime is at least `d` for each multiple of `d` below it. -/
theorem primeSum_lower (n d B : Nat) :
    ∑ i ∈ range B, d * (primeCount n - primeCount (d * (i + 1))) ≤ primeSum n := by
  have h1 : ∀ i, primeCount n - primeCount (d * (i + 1)) ≤ ∑ p ∈ primesTo n, if d * (i + 1) < p then 1 else 0 := by
    intro i
    rw [← card_filter]
    have h2 : primesTo n \ primesTo (d * (i + 1)) ⊆ (primesTo n).filter (d * (i + 1) < ·) := fun p hp => by
      rw [mem_sdiff, mem_primesTo, mem_primesTo] at hp
      rw [mem_filter, mem_primesTo]
      exact ⟨hp.1, Nat.lt_of_not_le fun h => hp.2 ⟨hp.1.1, h⟩⟩
    have h3 := card_le_card h2
    have h4 := card_le_card_sdiff_add_card (t := primesTo (d * (i + 1))) (s := primesTo n)
    change (primesTo n).card - (primesTo (d * (i + 1))).card ≤ _
    omega
  calc ∑ i ∈ range B, d * (primeCount n - primeCount (d * (i + 1)))
      ≤ ∑ i ∈ range B, d * ∑ p ∈ primesTo n, (if d * (i + 1) < p then 1 else 0) :=
        sum_le_sum fun i _ => Nat.mul_le_mul_left d (h1 i)
    _ = ∑ p ∈ primesTo n, ∑ i ∈ range B, (if d * (i + 1) < p then d else 0) := by
        rw [sum_comm]
        refine sum_congr rfl fun i _ => ?_
        rw [mul_sum]
        refine sum_congr rfl fun p _ => ?_
        split <;> simp
    _ ≤ ∑ p ∈ primesTo n, p := by
        refine sum_le_sum fun p _ => ?_
        induction B with
        | zero => simp
        | succ B ih =>
          rw [sum_range_succ]
          split
          · rename_i h
            have : ∑ i ∈ range B, (if d * (i + 1) < p then d else 0) ≤ ∑ i ∈ range B, d :=
              sum_le_sum fun i _ => by split <;> omega
            rw [sum_const, card_range, smul_eq_mul] at this
            have h6 : d * (B + 1) = B * d + d := by ring
            omega
          · simpa using ih
    _ = primeSum n := rfl

/-- All primes are odd except one. -/
theorem primes_parity {n : Nat} (hn : 2 ≤ n) : (primeCount n + primeSum n) % 2 = 1 := by
  have h1 : primeCount n + primeSum n = ∑ p ∈ primesTo n, (1 + p) := by
    rw [sum_add_distrib]
    simp [primeCount, primeSum, primesTo]
  have h2 : 2 ∈ primesTo n := mem_primesTo.2 ⟨Nat.prime_two, hn⟩
  rw [h1, ← add_sum_erase _ _ h2]
  have h3 : 2 ∣ ∑ p ∈ (primesTo n).erase 2, (1 + p) := by
    refine dvd_sum fun p hp => ?_
    rw [mem_erase, mem_primesTo] at hp
    have := hp.2.1.eq_two_or_odd
    omega
  omega

/-- Whether `v` is within a factor of two of the bounds for the number of primes up to `n`. -/
def countFits (n v : Nat) : Bool :=
  (List.range 100).any (fun j => 2 * n + j * 2 ^ j ≤ 2 * j * v && 0 < j) &&
    (List.range 100).any (fun j => n ≤ 2 ^ j && v * j + 2 * j ≤ 2 * n)

theorem countFits_sound {n v : Nat} (he : n % 2 = 0) (hn : 8 ≤ n) (h : countFits n v = true) :
    v ≤ 2 * primeCount n ∧ primeCount n ≤ 2 * v := by
  simp only [countFits, Bool.and_eq_true, List.any_eq_true, decide_eq_true_eq] at h
  obtain ⟨⟨j, -, h1, h0⟩, i, -, h2, h3⟩ := h
  obtain ⟨m, rfl⟩ : ∃ m, n = 2 * m := ⟨n / 2, by omega⟩
  have h4 := primeCount_upper (2 * m) j
  have h5 := primeCount_lower (m := m) (by omega) h2
  constructor
  · have : v * i ≤ 2 * primeCount (2 * m) * i := by
      rw [Nat.mul_add, Nat.mul_one] at h5
      have : 2 * primeCount (2 * m) * i = 2 * (i * primeCount (2 * m)) := by ring
      omega
    have h6 : 0 < i := Nat.pos_of_ne_zero fun e => by subst e; omega
    exact Nat.le_of_mul_le_mul_right this h6
  · have : j * primeCount (2 * m) ≤ j * (2 * v) := by
      have : 2 * j * v = j * (2 * v) := by ring
      omega
    exact Nat.le_of_mul_le_mul_left this h0

/-- A lower bound for the number of primes. -/
def countLow (n : Nat) : Nat := n / (Nat.log2 n + 1) - 1

/-- An upper bound for the number of primes. -/
def countHigh (n : Nat) : Nat := 2 * n / (Nat.log2 n - Nat.log2 (Nat.log2 n) - 2) + 2 ^ (Nat.log2 n - Nat.log2 (Nat.log2 n) - 2)

theorem countLow_le {n : Nat} (he : n % 2 = 0) (hn : 8 ≤ n) : countLow n ≤ primeCount n := by
  obtain ⟨m, rfl⟩ : ∃ m, n = 2 * m := ⟨n / 2, by omega⟩
  have h1 := primeCount_lower (m := m) (j := Nat.log2 (2 * m) + 1) (by omega) (Nat.lt_log2_self).le
  have h2 : 2 * m / (Nat.log2 (2 * m) + 1) ≤ primeCount (2 * m) + 1 := Nat.div_le_of_le_mul h1
  unfold countLow
  omega

theorem le_countHigh {n : Nat} (hj : 0 < Nat.log2 n - Nat.log2 (Nat.log2 n) - 2) : primeCount n ≤ countHigh n := by
  unfold countHigh
  generalize Nat.log2 n - Nat.log2 (Nat.log2 n) - 2 = j at hj ⊢
  have h1 := primeCount_upper n j
  rw [← Nat.add_mul_div_left _ _ hj, Nat.le_div_iff_mul_le hj, Nat.mul_comm]
  exact h1

/-- Whether `v` is at most four times too small and six times too large for the sum of the primes up to `n`. -/
def sumFits (n v : Nat) : Bool :=
  (List.range 100).any (fun j => n * (2 * n + j * 2 ^ j) ≤ 4 * j * v && 0 < j) &&
    (List.range 8).all (fun i => 0 < Nat.log2 (n / 24 * (i + 1)) - Nat.log2 (Nat.log2 (n / 24 * (i + 1))) - 2) &&
    v ≤ 6 * ∑ i ∈ range 8, n / 24 * (countLow n - countHigh (n / 24 * (i + 1)))

theorem sumFits_sound {n v : Nat} (he : n % 2 = 0) (hn : 8 ≤ n) (h : sumFits n v = true) :
    v ≤ 6 * primeSum n ∧ primeSum n ≤ 4 * v := by
  simp only [sumFits, Bool.and_eq_true, List.any_eq_true, List.all_eq_true, decide_eq_true_eq, List.mem_range] at h
  obtain ⟨⟨⟨j, -, h1, h0⟩, h2⟩, h3⟩ := h
  constructor
  · refine h3.trans (Nat.mul_le_mul_left 6 (le_trans (sum_le_sum fun i hi => ?_) (primeSum_lower n (n / 24) 8)))
    refine Nat.mul_le_mul_left _ ?_
    have h4 := countLow_le he hn
    have h5 := le_countHigh (h2 i (mem_range.1 hi))
    omega
  · have h4 := primeSum_upper n
    have h5 := Nat.mul_le_mul_left n (primeCount_upper n j)
    have h6 : j * primeSum n ≤ j * (4 * v) := by
      have := Nat.mul_le_mul_left j h4
      have e1 : j * (n * primeCount n) = n * (j * primeCount n) := by ring
      have e2 : 4 * j * v = j * (4 * v) := by ring
      omega
    exact Nat.le_of_mul_le_mul_left h6 h0

theorem count_entry {k : Nat} {v : Int} (h : ((10 : Int) ^ k, v) ∈ primeCountTable) : primeCountI (10 ^ k) = .ok v := by
  unfold primeCountI
  rw [(table_get primeCountTable_nodup _ v).2 h]

theorem sum_entry {chk : Bool} {k : Nat} {v : Int} (h : ((10 : Int) ^ k, v) ∈ primeSumTable) : primeSumI chk (10 ^ k) = .ok v := by
  unfold primeSumI
  rw [(table_get primeSumTable_nodup _ v).2 h]

/-- The value of an entry. -/
def entry (t : List (Int × Int)) (k : Nat) : Nat := (t.getD k (0, 0)).2.toNat

theorem count_entries : ∀ k < 28, ((10 : Int) ^ k, (entry primeCountTable k : Int)) ∈ primeCountTable := by decide +kernel

theorem sum_entries : ∀ k < 26, ((10 : Int) ^ k, (entry primeSumTable k : Int)) ∈ primeSumTable := by decide +kernel

theorem counts_fit : ∀ k < 28, 8 ≤ k → countFits (10 ^ k) (entry primeCountTable k) = true := by decide +kernel

theorem sums_fit : ∀ k < 26, 8 ≤ k → sumFits (10 ^ k) (entry primeSumTable k) = true := by decide +kernel

theorem entries_parity : ∀ k < 26, 1 ≤ k → (entry primeCountTable k + entry primeSumTable k) % 2 = 1 := by decide +kernel

theorem ten_pow_even {k : Nat} (hk : 8 ≤ k) : 10 ^ k % 2 = 0 ∧ 8 ≤ 10 ^ k := by
  obtain ⟨i, rfl⟩ := Nat.exists_eq_add_of_le hk
  rw [Nat.pow_add]
  have := Nat.one_le_pow i 10 (by decide)
  omega

/-- **C14**.  Every tabulated count is within a factor of two of the number of primes. -/
theorem C14_prime_count_size (k : Nat) (hk : k < 28) :
    ∃ v : Nat, primeCountI (10 ^ k) = .ok (v : Int) ∧ v ≤ 2 * primeCount (10 ^ k) ∧ primeCount (10 ^ k) ≤ 2 * v := by
  by_cases h : k ≤ 7
  · refine ⟨primeCount (10 ^ k), ?_, by omega, by omega⟩
    exact_mod_cast C14_prime_count_values_partial k h
  · have h8 : 8 ≤ k := by omega
    exact ⟨_, count_entry (count_entries k hk), countFits_sound (ten_pow_even h8).1 (ten_pow_even h8).2 (counts_fit k hk h8)⟩

/-- **C14**.  Every tabulated sum is at most six times and at least a quarter of the sum of the primes. -/
theorem C14_prime_sum_size (chk : Bool) (k : Nat) (hk : k < 26) :
    ∃ v : Nat, primeSumI chk (10 ^ k) = .ok (v : Int) ∧ v ≤ 6 * primeSum (10 ^ k) ∧ primeSum (10 ^ k) ≤ 4 * v := by
  by_cases h : k ≤ 7
  · refine ⟨primeSum (10 ^ k), ?_, by omega, by omega⟩
    exact_mod_cast C14_prime_sum_values_partial chk k h
  · have h8 : 8 ≤ k := by omega
    exact ⟨_, sum_entry (sum_entries k hk), sumFits_sound (ten_pow_even h8).1 (ten_pow_even h8).2 (sums_fit k hk h8)⟩

/-- **C14**.  The parity of a tabulated sum is right if and only if the parity of the tabulated count is. -/
theorem C14_parity (chk : Bool) (k : Nat) (hk : k < 26) :
    ∃ c s : Nat, primeCountI (10 ^ k) = .ok (c : Int) ∧ primeSumI chk (10 ^ k) = .ok (s : Int) ∧
      (c % 2 = primeCount (10 ^ k) % 2 ↔ s % 2 = primeSum (10 ^ k) % 2) := by
  by_cases h : k ≤ 7
  · refine ⟨primeCount (10 ^ k), primeSum (10 ^ k), ?_, ?_, by simp⟩
    · exact_mod_cast C14_prime_count_values_partial k h
    · exact_mod_cast C14_prime_sum_values_partial chk k h
  · refine ⟨_, _, count_entry (count_entries k (by omega)), sum_entry (sum_entries k hk), ?_⟩
    have h1 := entries_parity k hk (by omega)
    have h2 := primes_parity (n := 10 ^ k) (by have := (ten_pow_even (k := k) (by omega)).2; omega)
    omega

-- Concrete cases: the last entries of the tables.
example : ∃ v : Nat, primeCountI (10 ^ 27) = .ok (v : Int) ∧ v ≤ 2 * primeCount (10 ^ 27) ∧ primeCount (10 ^ 27) ≤ 2 * v :=
  C14_prime_count_size 27 (by decide)
example : countFits (10 ^ 27) 16352460426841680446427399 = true ∧ countFits (10 ^ 27) 1699246750872437141327603 = false := by
  decide +kernel
example : sumFits (10 ^ 25) 876268031750623105684911815303505535704119354853 = true ∧
    sumFits (10 ^ 25) 9131187511156941634384410084928380134453142199 = false := by decide +kernel

end SM.Props
