import Mathlib.Data.Nat.Prime.Basic
import Mathlib.Algebra.BigOperators.Intervals
import Mathlib.Algebra.BigOperators.Ring.Finset
import Mathlib.Algebra.Order.BigOperators.Group.Finset
import Mathlib.Tactic.Ring
/-
The mathematics behind the prime-sum routine, independent of the code: sums over the integers
that survive sieving by all primes up to p.
-/
namespace SM.Props
open Finset

/-- The integers in `2..v` that are prime or have no factor `<= p`. -/
def sieved (v p : Nat) : Finset Nat := (Finset.Icc 2 v).filter (fun k => k.Prime ∨ p < k.minFac)

/-- Sum of a weight over the sieved integers. -/
def S (f : Nat → Nat) (v p : Nat) : Nat := ∑ k ∈ sieved v p, f k

/-- The specification: the sum of all primes up to n. -/
def primeSum (n : Nat) : Nat := ∑ p ∈ (Finset.range (n + 1)).filter Nat.Prime, p

/-- The specification: the number of primes up to n. -/
def primeCount (n : Nat) : Nat := ((Finset.range (n + 1)).filter Nat.Prime).card

theorem mem_sieved {v p k : Nat} :
    k ∈ sieved v p ↔ (2 ≤ k ∧ k ≤ v) ∧ (k.Prime ∨ p < k.minFac) := by
  simp [sieved]

theorem sieved_eq_of_not_prime {v p : Nat} (hp : ¬ p.Prime) : sieved v p = sieved v (p - 1) := by
  ext k
  rw [mem_sieved, mem_sieved]
  refine and_congr_right fun hk => or_congr_right ?_
  constructor
  · intro h; omega
  · intro h
    have hm : k.minFac.Prime := Nat.minFac_prime (by omega)
    have : k.minFac ≠ p := fun h => hp (h ▸ hm)
    omega

theorem sieved_eq_of_lt_sq {v p : Nat} (h : v < p * p) : sieved v p = sieved v (p - 1) := by
  ext k
  rw [mem_sieved, mem_sieved]
  refine and_congr_right fun hk => ?_
  constructor
  · rintro (h1 | h1)
    · exact Or.inl h1
    · right; omega
  · rintro (h1 | h1)
    · exact Or.inl h1
    · by_cases hpk : k.Prime
      · exact Or.inl hpk
      · right
        have hsq := Nat.minFac_sq_le_self (by omega) hpk
        by_contra hc
        have hm : k.minFac = p := by omega
        rw [hm, pow_two] at hsq
        omega

/-- Removing the multiples of the prime `p`. -/
theorem sieved_split {v p : Nat} (hp : p.Prime) :
    sieved v (p - 1) = sieved v p ∪
      ((sieved (v / p) (p - 1) \ sieved (p - 1) (p - 1)).image (fun j => p * j)) := by
  have hp2 := hp.two_le
  ext k
  rw [mem_union, mem_sieved, mem_sieved, mem_image]
  constructor
  · rintro ⟨hk, h1⟩
    by_cases hpk : k.Prime
    · exact Or.inl ⟨hk, Or.inl hpk⟩
    · have hle : p ≤ k.minFac := by
        rcases h1 with h1 | h1
        · exact absurd h1 hpk
        · omega
      rcases Nat.lt_or_ge p k.minFac with hlt | hge
      · exact Or.inl ⟨hk, Or.inr hlt⟩
      · right
        have hm : k.minFac = p := by omega
        have hd : p ∣ k := hm ▸ Nat.minFac_dvd k
        obtain ⟨j, rfl⟩ := hd
        refine ⟨j, ?_, rfl⟩
        have hj1 : j ≠ 1 := by rintro rfl; simp at hpk; exact hpk hp
        have hj0 : j ≠ 0 := by rintro rfl; omega
        have hmj : p ≤ j.minFac := by
          have := Nat.minFac_le_of_dvd (Nat.minFac_prime hj1).two_le
            (Dvd.dvd.mul_left (Nat.minFac_dvd j) p)
          omega
        have hjp : p ≤ j := le_trans hmj (Nat.minFac_le (by omega))
        rw [mem_sdiff, mem_sieved, mem_sieved]
        refine ⟨⟨⟨by omega, ?_⟩, Or.inr (by omega)⟩, by omega⟩
        rw [Nat.le_div_iff_mul_le (by omega), Nat.mul_comm]
        exact hk.2
  · rintro (⟨hk, h1⟩ | ⟨j, hj, rfl⟩)
    · refine ⟨hk, ?_⟩
      rcases h1 with h1 | h1
      · exact Or.inl h1
      · right; omega
    · rw [mem_sdiff, mem_sieved, mem_sieved] at hj
      obtain ⟨⟨⟨hj2, hjv⟩, hj3⟩, hj4⟩ := hj
      have hjp : p ≤ j := by
        by_contra hc
        exact hj4 ⟨⟨hj2, by omega⟩, hj3⟩
      rw [Nat.le_div_iff_mul_le (by omega), Nat.mul_comm] at hjv
      have : 2 * 2 ≤ p * j := Nat.mul_le_mul hp2 hj2
      refine ⟨⟨by omega, hjv⟩, Or.inr ?_⟩
      have hmp : (p * j).minFac.Prime := Nat.minFac_prime (by omega)
      rcases (Nat.Prime.dvd_mul hmp).1 (Nat.minFac_dvd (p * j)) with hd | hd
      · have := (Nat.prime_dvd_prime_iff_eq hmp hp).1 hd
        omega
      · rcases hj3 with hj3 | hj3
        · have := (Nat.prime_dvd_prime_iff_eq hmp hj3).1 hd
          omega
        · have := Nat.minFac_le_of_dvd hmp.two_le hd
          omega

theorem sieved_disjoint {v p : Nat} (hp : p.Prime) :
    Disjoint (sieved v p)
      ((sieved (v / p) (p - 1) \ sieved (p - 1) (p - 1)).image (fun j => p * j)) := by
  have hp2 := hp.two_le
  rw [Finset.disjoint_left]
  intro k hk hk'
  rw [mem_image] at hk'
  obtain ⟨j, hj, rfl⟩ := hk'
  rw [mem_sdiff, mem_sieved] at hj
  obtain ⟨⟨⟨hj2, hjv⟩, -⟩, -⟩ := hj
  rw [mem_sieved] at hk
  have hnp : ¬ (p * j).Prime := Nat.not_prime_mul (by omega) (by omega)
  rcases hk.2 with h | h
  · exact hnp h
  · have := Nat.minFac_le_of_dvd hp2 (Dvd.intro j rfl)
    omega

theorem sieved_mono {u v p : Nat} (h : u ≤ v) : sieved u p ⊆ sieved v p := by
  intro k hk
  rw [mem_sieved] at hk ⊢
  exact ⟨by omega, hk.2⟩

theorem S_mono {f : Nat → Nat} {u v p : Nat} (h : u ≤ v) : S f u p ≤ S f v p :=
  Finset.sum_le_sum_of_subset (sieved_mono h)

/-- The recurrence of the sieve for a completely multiplicative weight. -/
theorem S_step {f : Nat → Nat} (hf : ∀ a b, f (a * b) = f a * f b) {v p : Nat} (hp : p.Prime)
    (h : p * p ≤ v) :
    S f v (p - 1) = S f v p + f p * (S f (v / p) (p - 1) - S f (p - 1) (p - 1)) := by
  have hp2 := hp.two_le
  unfold S
  rw [sieved_split hp, sum_union (sieved_disjoint hp), sum_image]
  · congr 1
    simp only [hf]
    rw [← mul_sum]
    congr 1
    have hsub : sieved (p - 1) (p - 1) ⊆ sieved (v / p) (p - 1) := by
      apply sieved_mono
      have : p ≤ v / p := (Nat.le_div_iff_mul_le (by omega)).2 h
      omega
    have := Finset.sum_sdiff (f := f) hsub
    omega
  · intro a _ b _ hab
    exact Nat.eq_of_mul_eq_mul_left (by omega : 0 < p) hab

theorem S_of_not_prime {f : Nat → Nat} {v p : Nat} (hp : ¬ p.Prime) : S f v p = S f v (p - 1) := by
  unfold S; rw [sieved_eq_of_not_prime hp]

theorem S_of_lt_sq {f : Nat → Nat} {v p : Nat} (h : v < p * p) : S f v p = S f v (p - 1) := by
  unfold S; rw [sieved_eq_of_lt_sq h]

/-- The primality test used by the sieve. -/
theorem S_test {f : Nat → Nat} (hpos : ∀ k, 2 ≤ k → 0 < f k) {p : Nat} (hp2 : 2 ≤ p) :
    S f (p - 1) (p - 1) < S f p (p - 1) ↔ p.Prime := by
  have hiff : p ∈ sieved p (p - 1) ↔ p.Prime := by
    rw [mem_sieved]
    constructor
    · rintro ⟨-, h | h⟩
      · exact h
      · have h1 := Nat.minFac_le (n := p) (by omega)
        have : p.minFac = p := by omega
        exact this ▸ Nat.minFac_prime (by omega)
    · intro h; exact ⟨⟨hp2, le_refl _⟩, Or.inl h⟩
  constructor
  · intro h
    by_contra hc
    have : sieved p (p - 1) = sieved (p - 1) (p - 1) := by
      apply Finset.Subset.antisymm
      · intro k hk
        have hne : k ≠ p := by rintro rfl; exact hc (hiff.1 hk)
        rw [mem_sieved] at hk ⊢
        exact ⟨by omega, hk.2⟩
      · exact sieved_mono (by omega)
    unfold S at h
    rw [this] at h
    omega
  · intro h
    unfold S
    have hsub : sieved (p - 1) (p - 1) ⊆ sieved p (p - 1) := sieved_mono (by omega)
    refine Finset.sum_lt_sum_of_subset hsub (hiff.2 h) ?_ (hpos p hp2) (fun _ _ _ => Nat.zero_le _)
    rw [mem_sieved]; omega

/-- After sieving up to the square root only primes are left. -/
theorem sieved_sqrt {n r : Nat} (h : n < (r + 1) * (r + 1)) :
    sieved n r = (Finset.range (n + 1)).filter Nat.Prime := by
  ext k
  rw [mem_sieved, mem_filter, mem_range]
  constructor
  · rintro ⟨hk, h1 | h1⟩
    · exact ⟨by omega, h1⟩
    · refine ⟨by omega, ?_⟩
      by_contra hc
      have hsq := Nat.minFac_sq_le_self (by omega) hc
      rw [pow_two] at hsq
      have := Nat.mul_le_mul (show r + 1 ≤ k.minFac by omega) (show r + 1 ≤ k.minFac by omega)
      omega
  · rintro ⟨hk, h1⟩
    exact ⟨⟨h1.two_le, by omega⟩, Or.inl h1⟩

theorem sieved_one (v : Nat) : sieved v 1 = Finset.Icc 2 v := by
  ext k
  rw [mem_sieved, mem_Icc]
  constructor
  · exact fun h => h.1
  · intro h
    exact ⟨h, Or.inr (Nat.minFac_prime (by omega)).one_lt⟩

theorem S_init (v : Nat) (h : 1 ≤ v) : S id v 1 + 1 = (v + 1) * v / 2 := by
  unfold S
  rw [sieved_one]
  have h1 : ∑ k ∈ Finset.Icc 2 v, id k + 1 = ∑ k ∈ Finset.range (v + 1), k := by
    induction v with
    | zero => omega
    | succ v ih =>
      rcases Nat.eq_zero_or_pos v with rfl | hv
      · decide
      · rw [Finset.sum_range_succ, ← ih hv, ← Finset.insert_Icc_right_eq_Icc_add_one (by omega),
          Finset.sum_insert (by simp)]
        simp only [id]; omega
  rw [h1, Finset.sum_range_id]
  congr 1

theorem S_le (v p : Nat) : S id v p + 1 ≤ (v + 1) * v / 2 + 1 := by
  rcases Nat.eq_zero_or_pos v with rfl | hv
  · have : sieved 0 p = ∅ := by ext k; rw [mem_sieved]; simp; omega
    unfold S; rw [this]; simp
  · have := S_init v hv
    have h2 : S id v p ≤ S id v 1 := by
      unfold S
      apply Finset.sum_le_sum_of_subset
      intro k hk
      rw [sieved_one, mem_Icc]
      exact (mem_sieved.1 hk).1
    omega

theorem S_final {n r : Nat} (h : n < (r + 1) * (r + 1)) : S id n r = primeSum n := by
  unfold S primeSum; rw [sieved_sqrt h]; rfl

theorem S_final_count {n r : Nat} (h : n < (r + 1) * (r + 1)) :
    S (fun _ => 1) n r = primeCount n := by
  unfold S primeCount; rw [sieved_sqrt h]; simp

end SM.Props
