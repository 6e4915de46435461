import Verif.Props.PrimeUpto10
/-
C14: the tabulated values at 1, 10, ..., 10^7 are the true number and sum of the primes.
-/
namespace SM.Props
open SM SM.Alg BMap

/-- A tabulated count. -/
theorem count_of_table {n c s : Nat} (u : Upto n c s) (h : ((n : Int), (c : Int)) ∈ primeCountTable) :
    primeCountI n = .ok (primeCount n : Int) := by
  unfold primeCountI
  rw [(table_get primeCountTable_nodup n c).2 h, u.count]

/-- A tabulated sum. -/
theorem sum_of_table {n c s : Nat} (u : Upto n c s) (h : ((n : Int), (s : Int)) ∈ primeSumTable) (chk : Bool) :
    primeSumI chk n = .ok (primeSum n : Int) := by
  unfold primeSumI
  rw [(table_get primeSumTable_nodup n s).2 h, u.sum]

/-- The counts and sums in the tables, up to `10^7`. -/
theorem upto_table (k : Nat) (hk : k ≤ 7) : ∃ c s, Upto (10 ^ k) c s ∧
    (((10 ^ k : Nat) : Int), (c : Int)) ∈ primeCountTable ∧ (((10 ^ k : Nat) : Int), (s : Int)) ∈ primeSumTable := by
  match k, hk with
  | 0, _ => exact ⟨_, _, upto_ten_0, by decide +kernel, by decide +kernel⟩
  | 1, _ => exact ⟨_, _, upto_ten_1, by decide +kernel, by decide +kernel⟩
  | 2, _ => exact ⟨_, _, upto_ten_2, by decide +kernel, by decide +kernel⟩
  | 3, _ => exact ⟨_, _, upto_ten_3, by decide +kernel, by decide +kernel⟩
  | 4, _ => exact ⟨_, _, upto_ten_4, by decide +kernel, by decide +kernel⟩
  | 5, _ => exact ⟨_, _, upto_ten_5, by decide +kernel, by decide +kernel⟩
  | 6, _ => exact ⟨_, _, upto_1, by decide +kernel, by decide +kernel⟩
  | 7, _ => exact ⟨_, _, upto_10, by decide +kernel, by decide +kernel⟩

/-- C14: the tabulated counts are the number of primes. Missing: the entries `10^8, ..., 10^27`, which the model holds as
in the source, but whose values are not compared with the number of primes. -/
theorem C14_prime_count_values_partial (k : Nat) (hk : k ≤ 7) :
    primeCountI ((10 ^ k : Nat) : Int) = .ok (primeCount (10 ^ k) : Int) := by
  obtain ⟨c, s, u, h, _⟩ := upto_table k hk
  exact count_of_table u h

/-- C14: the tabulated sums are the sum of the primes. Missing: the entries `10^8, ..., 10^25`. -/
theorem C14_prime_sum_values_partial (chk : Bool) (k : Nat) (hk : k ≤ 7) :
    primeSumI chk ((10 ^ k : Nat) : Int) = .ok (primeSum (10 ^ k) : Int) := by
  obtain ⟨c, s, u, _, h⟩ := upto_table k hk
  exact sum_of_table u h chk

-- Concrete cases.
example : primeCountI 1000000 = .ok 78498 :=
  (C14_prime_count_values_partial 6 (by decide)).trans (congrArg (fun c : Nat => Out.ok (c : Int)) upto_1.count)
example : primeSumI true 10000000 = .ok 3203324994356 :=
  (C14_prime_sum_values_partial true 7 (by decide)).trans (congrArg (fun s : Nat => Out.ok (s : Int)) upto_10.sum)

end SM.Props
