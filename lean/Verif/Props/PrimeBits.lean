import Verif.Props.PrimeTable
import Mathlib.Algebra.Order.Ring.GeomSum
import Mathlib.Data.Nat.Bitwise
/-
C14: tabulated values, checked by a sieve on binary numbers that the kernel can run: bit `i` of one number says whether
`i` is left, sieving crosses out all multiples of a prime at once, and bits are counted by adding neighbouring fields.
-/
namespace SM.Props
open Finset

/-- A one in each of the bits `0, s, 2 s, ..., (m - 1) s`. -/
def ones (s m : Nat) : Nat := (2 ^ (s * m) - 1) / (2 ^ s - 1)

theorem ones_zero (s : Nat) : ones s 0 = 0 := by simp [ones]

theorem ones_sum {s : Nat} (hs : 0 < s) (m : Nat) : ones s m = ∑ i ∈ range m, (2 ^ s) ^ i := by
  rw [ones, Nat.pow_mul, Nat.geomSum_eq (by
    calc 2 = 2 ^ 1 := rfl
      _ ≤ 2 ^ s := Nat.pow_le_pow_right (by decide) hs)]

theorem ones_succ {s : Nat} (hs : 0 < s) (m : Nat) : ones s (m + 1) = 2 ^ s * ones s m + 1 := by
  rw [ones_sum hs, ones_sum hs, sum_range_succ', mul_sum]
  simp [pow_succ, Nat.mul_comm]

theorem testBit_ones {s : Nat} (hs : 0 < s) (m k : Nat) :
    (ones s m).testBit k = true ↔ ∃ i, i < m ∧ k = s * i := by
  induction m generalizing k with
  | zero => simp [ones_zero]
  | succ m ih =>
    rw [ones_succ hs, Nat.testBit_two_pow_mul_add _ (Nat.one_lt_two_pow (by omega))]
    split
    · rename_i hk
      rw [Nat.testBit_one_eq_true_iff_self_eq_zero]
      constructor
      · rintro rfl
        exact ⟨0, by omega, by simp⟩
      · rintro ⟨i, _, rfl⟩
        rcases Nat.eq_zero_or_pos i with rfl | h
        · simp
        · have := Nat.mul_le_mul_left s h
          omega
    · rename_i hk
      rw [ih]
      constructor
      · rintro ⟨i, h1, h2⟩
        exact ⟨i + 1, by omega, by rw [Nat.mul_add]; omega⟩
      · rintro ⟨i, h1, h2⟩
        rcases Nat.eq_zero_or_pos i with rfl | h
        · simp at h2
          omega
        · exact ⟨i - 1, by omega, by rw [Nat.mul_sub]; omega⟩

/-- The multiples `2 p, 3 p, ...` up to `n`. -/
def multiples (n p : Nat) : Nat := ones p (n / p - 1) <<< (2 * p)

theorem testBit_multiples {n p : Nat} (hp : 0 < p) (k : Nat) :
    (multiples n p).testBit k = true ↔ ∃ j, 2 ≤ j ∧ p * j ≤ n ∧ k = p * j := by
  rw [multiples, Nat.testBit_shiftLeft]
  simp only [Bool.and_eq_true, decide_eq_true_eq]
  rw [testBit_ones hp]
  constructor
  · rintro ⟨h1, i, hi, h2⟩
    have : i + 2 ≤ n / p := by omega
    refine ⟨i + 2, by omega, ?_, ?_⟩
    · exact (Nat.mul_le_mul_left p this).trans (Nat.mul_div_le n p)
    · rw [Nat.mul_add]
      omega
  · rintro ⟨j, h1, h2, rfl⟩
    have hj : j ≤ n / p := by
      rw [Nat.le_div_iff_mul_le hp, Nat.mul_comm]
      exact h2
    have := Nat.mul_le_mul_left p h1
    refine ⟨by omega, j - 2, by omega, ?_⟩
    rw [Nat.mul_sub]
    omega

/-- The numbers up to `n` with a proper divisor in `ps`. -/
def crossed (n : Nat) : List Nat → Nat
  | [] => 0
  | p :: ps => crossed n ps ||| multiples n p

theorem testBit_crossed {n : Nat} {ps : List Nat} (hp : ∀ p ∈ ps, 0 < p) (k : Nat) :
    (crossed n ps).testBit k = true ↔ ∃ p ∈ ps, ∃ j, 2 ≤ j ∧ p * j ≤ n ∧ k = p * j := by
  induction ps with
  | nil => simp [crossed]
  | cons p ps ih =>
    rw [crossed, Nat.testBit_or, Bool.or_eq_true, ih fun q hq => hp q (by simp [hq]),
      testBit_multiples (hp p (by simp))]
    simp only [List.mem_cons]
    constructor
    · rintro (⟨q, hq, h⟩ | h)
      · exact ⟨q, .inr hq, h⟩
      · exact ⟨p, .inl rfl, h⟩
    · rintro ⟨q, rfl | hq, h⟩
      · exact .inr h
      · exact .inl ⟨q, hq, h⟩

/-- The primes up to `n`. -/
def primeBits (n : Nat) (ps : List Nat) : Nat := (ones 1 (n - 1) <<< 2) ^^^ crossed n ps

/-- The list has all primes whose square is at most `n`. -/
def Enough (n : Nat) (ps : List Nat) : Prop := (∀ p ∈ ps, 2 ≤ p) ∧ ∀ p, p.Prime → p * p ≤ n → p ∈ ps

theorem testBit_primeBits {n : Nat} {ps : List Nat} (h : Enough n ps) (k : Nat) :
    (primeBits n ps).testBit k = true ↔ k.Prime ∧ k ≤ n := by
  have hfull : (ones 1 (n - 1) <<< 2).testBit k = true ↔ 2 ≤ k ∧ k ≤ n := by
    rw [Nat.testBit_shiftLeft]
    simp only [Bool.and_eq_true, decide_eq_true_eq]
    rw [testBit_ones (by decide)]
    constructor
    · rintro ⟨h1, i, hi, h2⟩
      omega
    · rintro ⟨h1, h2⟩
      exact ⟨h1, k - 2, by omega, by omega⟩
  have hs := testBit_crossed (n := n) (ps := ps) (fun p hp => by have := h.1 p hp; omega) k
  have hc : (crossed n ps).testBit k = true ↔ 2 ≤ k ∧ k ≤ n ∧ ¬ k.Prime := by
    rw [hs]
    constructor
    · rintro ⟨p, hp, j, h1, h2, rfl⟩
      have h3 := h.1 p hp
      refine ⟨?_, h2, Nat.not_prime_mul (by omega) (by omega)⟩
      calc 2 ≤ 2 * 2 := by decide
        _ ≤ p * j := Nat.mul_le_mul h3 h1
    · rintro ⟨h1, h2, h3⟩
      have h4 := Nat.minFac_sq_le_self (by omega) h3
      have h5 : k.minFac.Prime := Nat.minFac_prime (by omega)
      obtain ⟨j, hj⟩ := Nat.minFac_dvd k
      refine ⟨k.minFac, h.2 _ h5 (by rw [pow_two] at h4; omega), j, ?_, by omega, hj⟩
      by_contra hlt
      have : j = 0 ∨ j = 1 := by omega
      rcases this with rfl | rfl
      · omega
      · rw [Nat.mul_one] at hj
        rw [← hj] at h5
        exact h3 h5
  rw [primeBits, Nat.testBit_xor]
  cases hA : (ones 1 (n - 1) <<< 2).testBit k <;> cases hB : (crossed n ps).testBit k <;> rw [hA] at hfull <;>
    rw [hB] at hc <;> simp at hfull hc ⊢
  · intro hp
    exact hfull hp.two_le
  · omega
  · exact ⟨hc hfull.1 hfull.2, hfull.2⟩
  · intro hp
    exact absurd hp hc.2.2

/-- The field `i` of width `s`. -/
def field (s V i : Nat) : Nat := V >>> (s * i) % 2 ^ s

/-- The sum of the first `n` fields of width `s`. -/
def fieldSum (s V n : Nat) : Nat := ∑ i ∈ range n, field s V i

theorem fieldSum_succ (s V n : Nat) : fieldSum s V (n + 1) = V % 2 ^ s + fieldSum s (V >>> s) n := by
  rw [fieldSum, sum_range_succ', Nat.add_comm]
  have h0 : field s V 0 = V % 2 ^ s := by simp [field]
  rw [h0, fieldSum]
  congr 1
  apply sum_congr rfl
  intro i _
  rw [field, field, ← Nat.shiftRight_add, Nat.mul_add, Nat.mul_one, Nat.add_comm]

/-- Adding each two neighbouring fields. -/
def pairUp (s M V : Nat) : Nat := (V &&& M) + ((V >>> s) &&& M)

/-- The mask of every other field of width `s`. -/
def everyOther (s m : Nat) : Nat := (2 ^ s - 1) * ones (2 * s) m

theorem everyOther_succ {s : Nat} (hs : 0 < s) (m : Nat) :
    everyOther s (m + 1) = 2 ^ (2 * s) * everyOther s m + (2 ^ s - 1) := by
  rw [everyOther, ones_succ (by omega), everyOther, Nat.mul_add, Nat.mul_one, Nat.mul_left_comm]

theorem and_split {k a c : Nat} (ha : a < 2 ^ k) (hc : c < 2 ^ k) (b d : Nat) :
    (2 ^ k * b + a) &&& (2 ^ k * d + c) = 2 ^ k * (b &&& d) + (a &&& c) := by
  apply Nat.eq_of_testBit_eq
  intro i
  rw [Nat.testBit_and, Nat.testBit_two_pow_mul_add _ ha, Nat.testBit_two_pow_mul_add _ hc,
    Nat.testBit_two_pow_mul_add _ (lt_of_le_of_lt Nat.and_le_left ha)]
  split <;> simp

theorem and_mask {s : Nat} (hs : 0 < s) (V m : Nat) :
    V &&& everyOther s (m + 1) = 2 ^ (2 * s) * ((V >>> (2 * s)) &&& everyOther s m) + V % 2 ^ s := by
  have hb : 2 ^ s - 1 < 2 ^ (2 * s) := by
    have : 2 ^ s ≤ 2 ^ (2 * s) := Nat.pow_le_pow_right (by decide) (by omega)
    have := Nat.two_pow_pos s
    omega
  have hV : V = 2 ^ (2 * s) * (V >>> (2 * s)) + V % 2 ^ (2 * s) := by
    rw [Nat.shiftRight_eq_div_pow, Nat.div_add_mod]
  have hm : V % 2 ^ (2 * s) < 2 ^ (2 * s) := Nat.mod_lt _ (Nat.two_pow_pos _)
  conv => lhs; rw [hV]
  rw [everyOther_succ hs, and_split hm hb, Nat.and_two_pow_sub_one_eq_mod,
    Nat.mod_mod_of_dvd _ (Nat.pow_dvd_pow 2 (by omega))]

theorem fieldSum_pairUp {s : Nat} (hs : 0 < s) (m V : Nat) :
    fieldSum (2 * s) (pairUp s (everyOther s m) V) m = fieldSum s V (2 * m) := by
  induction m generalizing V with
  | zero => simp [fieldSum]
  | succ m ih =>
    have hp : pairUp s (everyOther s (m + 1)) V =
        2 ^ (2 * s) * pairUp s (everyOther s m) (V >>> (2 * s)) + (V % 2 ^ s + V >>> s % 2 ^ s) := by
      rw [pairUp, and_mask hs, and_mask hs, pairUp, ← Nat.shiftRight_add, ← Nat.shiftRight_add, Nat.add_comm s (2 * s),
        Nat.mul_add]
      omega
    have hlt : V % 2 ^ s + V >>> s % 2 ^ s < 2 ^ (2 * s) := by
      have h1 := Nat.mod_lt V (Nat.two_pow_pos s)
      have h2 := Nat.mod_lt (V >>> s) (Nat.two_pow_pos s)
      have h3 : 2 ^ (s + 1) ≤ 2 ^ (2 * s) := Nat.pow_le_pow_right (by decide) (by omega)
      rw [Nat.pow_succ] at h3
      omega
    rw [show 2 * (m + 1) = 2 * m + 1 + 1 from rfl, fieldSum_succ, fieldSum_succ, fieldSum_succ, ← Nat.shiftRight_add,
      show s + s = 2 * s by omega, ← ih, hp, Nat.mul_add_mod, Nat.mod_eq_of_lt hlt, Nat.shiftRight_eq_div_pow _ (2 * s),
      Nat.mul_add_div (Nat.two_pow_pos _), Nat.div_eq_of_lt hlt, Nat.add_zero, Nat.add_assoc]

/-- Counting the bits below `2 ^ (j + k)`, in fields of width `2 ^ j`. -/
def countBits : (j k V : Nat) → Nat
  | _, 0, V => V
  | j, k + 1, V => countBits (j + 1) k (pairUp (2 ^ j) (everyOther (2 ^ j) (2 ^ k)) V)

theorem pairUp_lt {s : Nat} (hs : 0 < s) (m V : Nat) : pairUp s (everyOther s m) V < 2 ^ (2 * s * m) := by
  induction m generalizing V with
  | zero => simp [pairUp, everyOther, ones_zero]
  | succ m ih =>
    have hp : pairUp s (everyOther s (m + 1)) V =
        2 ^ (2 * s) * pairUp s (everyOther s m) (V >>> (2 * s)) + (V % 2 ^ s + V >>> s % 2 ^ s) := by
      rw [pairUp, and_mask hs, and_mask hs, pairUp, ← Nat.shiftRight_add, ← Nat.shiftRight_add, Nat.add_comm s (2 * s),
        Nat.mul_add]
      omega
    have hlt : V % 2 ^ s + V >>> s % 2 ^ s < 2 ^ (2 * s) := by
      have h1 := Nat.mod_lt V (Nat.two_pow_pos s)
      have h2 := Nat.mod_lt (V >>> s) (Nat.two_pow_pos s)
      have h3 : 2 ^ (s + 1) ≤ 2 ^ (2 * s) := Nat.pow_le_pow_right (by decide) (by omega)
      rw [Nat.pow_succ] at h3
      omega
    have h := ih (V >>> (2 * s))
    rw [hp, Nat.mul_add, Nat.pow_add, Nat.mul_one, Nat.mul_comm (2 ^ (2 * s * m))]
    calc _ < 2 ^ (2 * s) * pairUp s (everyOther s m) (V >>> (2 * s)) + 2 ^ (2 * s) := by omega
      _ = 2 ^ (2 * s) * (pairUp s (everyOther s m) (V >>> (2 * s)) + 1) := by rw [Nat.mul_add, Nat.mul_one]
      _ ≤ _ := Nat.mul_le_mul_left _ h

theorem countBits_eq (k : Nat) : ∀ (j V : Nat), V < 2 ^ 2 ^ (j + k) → countBits j k V = fieldSum (2 ^ j) V (2 ^ k) := by
  induction k with
  | zero =>
    intro j V h
    simp only [countBits, fieldSum, pow_zero, range_one, sum_singleton, field]
    simp only [Nat.add_zero] at h
    simp [Nat.mod_eq_of_lt h]
  | succ k ih =>
    intro j V h
    rw [countBits, ih]
    · rw [show 2 ^ (j + 1) = 2 * 2 ^ j by rw [pow_succ, Nat.mul_comm], fieldSum_pairUp (Nat.two_pow_pos j),
        show 2 ^ (k + 1) = 2 * 2 ^ k by rw [pow_succ, Nat.mul_comm]]
    · have := pairUp_lt (Nat.two_pow_pos j) (2 ^ k) V
      rw [show 2 * 2 ^ j * 2 ^ k = 2 ^ (j + 1 + k) by rw [pow_add, pow_succ]; ring] at this
      exact this

theorem countBits_bits {k V : Nat} (h : V < 2 ^ 2 ^ k) :
    countBits 0 k V = ((range (2 ^ k)).filter fun i => V.testBit i = true).card := by
  rw [countBits_eq k 0 V (by simpa using h), fieldSum, card_filter]
  apply sum_congr rfl
  intro i _
  rw [field, pow_zero, Nat.one_mul, pow_one, Nat.testBit_eq_decide_div_mod_eq, ← Nat.shiftRight_eq_div_pow]
  have := Nat.mod_lt (V >>> i) (show 2 > 0 by decide)
  simp only [decide_eq_true_eq]
  split <;> omega

theorem testBit_everyOther {s : Nat} (hs : 0 < s) (m k : Nat) :
    (everyOther s m).testBit k = true ↔ k < 2 * s * m ∧ k % (2 * s) < s := by
  induction m generalizing k with
  | zero => simp [everyOther, ones_zero]
  | succ m ih =>
    have hb : 2 ^ s - 1 < 2 ^ (2 * s) := by
      have : 2 ^ s ≤ 2 ^ (2 * s) := Nat.pow_le_pow_right (by decide) (by omega)
      have := Nat.two_pow_pos s
      omega
    rw [everyOther_succ hs, Nat.testBit_two_pow_mul_add _ hb]
    split
    · rename_i hk
      rw [Nat.testBit_two_pow_sub_one, decide_eq_true_eq, Nat.mod_eq_of_lt hk, Nat.mul_add]
      omega
    · rename_i hk
      rw [ih, ← Nat.mod_eq_sub_mod (by omega), Nat.mul_add]
      omega

/-- The mask of the numbers below `2 ^ K` whose bit `j` is set. -/
def bitMask (K j : Nat) : Nat := everyOther (2 ^ j) (2 ^ (K - (j + 1))) <<< 2 ^ j

theorem testBit_bitMask {K j i : Nat} (hj : j < K) (hi : i < 2 ^ K) :
    (bitMask K j).testBit i = true ↔ i.testBit j = true := by
  have hs := Nat.two_pow_pos j
  have hK : 2 * 2 ^ j * 2 ^ (K - (j + 1)) = 2 ^ K := by
    rw [← Nat.pow_succ', ← Nat.pow_add]
    congr 1
    omega
  rw [bitMask, Nat.testBit_shiftLeft, Bool.and_eq_true, decide_eq_true_eq, testBit_everyOther hs, hK,
    Nat.testBit_eq_decide_div_mod_eq, decide_eq_true_eq]
  have h1 := Nat.div_add_mod i (2 ^ j)
  have h2 := Nat.mod_lt i hs
  have h3 := Nat.div_add_mod (i / 2 ^ j) 2
  have h4 := Nat.mod_lt (i / 2 ^ j) (show 2 > 0 by decide)
  generalize i / 2 ^ j / 2 = q at *
  generalize i / 2 ^ j % 2 = b at *
  generalize i % 2 ^ j = r at *
  rw [← h3] at h1
  have e : i = 2 * 2 ^ j * q + (2 ^ j * b + r) := by
    rw [← h1]
    ring
  have hb : b = 0 ∨ b = 1 := by omega
  rcases hb with rfl | rfl
  · simp only [Nat.mul_zero, Nat.zero_add] at e
    rcases Nat.eq_zero_or_pos q with rfl | hq
    · omega
    · have : i - 2 ^ j = 2 * 2 ^ j * (q - 1) + (2 ^ j + r) := by
        obtain ⟨q, rfl⟩ := Nat.exists_eq_add_of_lt hq
        rw [e]
        simp only [Nat.zero_add, Nat.add_sub_cancel, Nat.mul_add, Nat.mul_one]
        omega
      rw [this, Nat.mul_add_mod, Nat.mod_eq_of_lt (by omega)]
      omega
  · have : i - 2 ^ j = 2 * 2 ^ j * q + r := by omega
    rw [this, Nat.mul_add_mod, Nat.mod_eq_of_lt (by omega)]
    omega

theorem sum_of_bits (K i : Nat) : i % 2 ^ K = ∑ j ∈ range K, 2 ^ j * (if i.testBit j then 1 else 0) := by
  induction K with
  | zero => simp [Nat.mod_one]
  | succ K ih =>
    rw [sum_range_succ, ← ih, Nat.mod_pow_succ, Nat.testBit_eq_decide_div_mod_eq]
    have := Nat.mod_lt (i / 2 ^ K) (show 2 > 0 by decide)
    congr 2
    simp only [decide_eq_true_eq]
    split <;> omega

/-- The sum of the positions of the bits below `2 ^ K`. -/
def sumBits (K V : Nat) : Nat → Nat
  | 0 => 0
  | j + 1 => sumBits K V j + 2 ^ j * countBits 0 K (V &&& bitMask K j)

theorem sumBits_eq {K V : Nat} (h : V < 2 ^ 2 ^ K) (n : Nat) (hn : n ≤ K) :
    sumBits K V n = ∑ i ∈ (range (2 ^ K)).filter (fun i => V.testBit i = true), i % 2 ^ n := by
  induction n with
  | zero => simp [sumBits, Nat.mod_one]
  | succ n ih =>
    rw [sumBits, ih (by omega), countBits_bits (lt_of_le_of_lt Nat.and_le_left h)]
    have : ∀ i, i % 2 ^ (n + 1) = i % 2 ^ n + 2 ^ n * (if i.testBit n then 1 else 0) := by
      intro i
      rw [sum_of_bits, sum_range_succ, ← sum_of_bits]
    rw [sum_congr rfl fun i _ => this i, sum_add_distrib, ← mul_sum, ← card_filter, filter_filter]
    congr 3
    apply filter_congr
    intro i hi
    rw [Nat.testBit_and, Bool.and_eq_true, testBit_bitMask (by omega) (mem_range.1 hi)]

theorem sumBits_bits {K V : Nat} (h : V < 2 ^ 2 ^ K) :
    sumBits K V K = ∑ i ∈ (range (2 ^ K)).filter (fun i => V.testBit i = true), i := by
  rw [sumBits_eq h K (le_refl K)]
  apply sum_congr rfl
  intro i hi
  exact Nat.mod_eq_of_lt (mem_range.1 (mem_filter.1 hi).1)

theorem primeBits_lt {n K : Nat} {ps : List Nat} (h : Enough n ps) (hn : n < 2 ^ K) :
    primeBits n ps < 2 ^ 2 ^ K := by
  apply Nat.lt_pow_two_of_testBit
  intro i hi
  by_contra hc
  rw [Bool.not_eq_false, testBit_primeBits h] at hc
  omega

theorem primeBits_filter {n K : Nat} {ps : List Nat} (h : Enough n ps) (hn : n < 2 ^ K) :
    (range (2 ^ K)).filter (fun i => (primeBits n ps).testBit i = true) = (range (n + 1)).filter Nat.Prime := by
  ext i
  simp only [mem_filter, mem_range, testBit_primeBits h]
  constructor
  · rintro ⟨_, h1, h2⟩
    exact ⟨by omega, h1⟩
  · rintro ⟨h1, h2⟩
    exact ⟨by omega, h2, by omega⟩

theorem count_by_bits {n K : Nat} {ps : List Nat} (h : Enough n ps) (hn : n < 2 ^ K) :
    countBits 0 K (primeBits n ps) = primeCount n := by
  rw [countBits_bits (primeBits_lt h hn), primeBits_filter h hn, primeCount]

theorem sum_by_bits {n K : Nat} {ps : List Nat} (h : Enough n ps) (hn : n < 2 ^ K) :
    sumBits K (primeBits n ps) K = primeSum n := by
  rw [sumBits_bits (primeBits_lt h hn), primeBits_filter h hn, primeSum]

/-- The number with the bits in the list. -/
def bitsOf : List Nat → Nat
  | [] => 0
  | p :: ps => 2 ^ p ||| bitsOf ps

theorem testBit_bitsOf {ps : List Nat} (k : Nat) : (bitsOf ps).testBit k = true ↔ k ∈ ps := by
  induction ps with
  | nil => simp [bitsOf]
  | cons p ps ih =>
    rw [bitsOf, Nat.testBit_or, Bool.or_eq_true, ih, Nat.testBit_two_pow, decide_eq_true_eq, List.mem_cons]
    exact or_congr eq_comm Iff.rfl

/-- Primes up to the root of `n` are enough. -/
theorem enough_of {n r : Nat} {ps qs : List Nat} (h : Enough r qs) (he : bitsOf ps = primeBits r qs)
    (hn : n < (r + 1) * (r + 1)) : Enough n ps := by
  have hm : ∀ p, p ∈ ps ↔ p.Prime ∧ p ≤ r := fun p => by
    rw [← testBit_bitsOf, he, testBit_primeBits h]
  refine ⟨fun p hp => ((hm p).1 hp).1.two_le, fun p hp hs => (hm p).2 ⟨hp, ?_⟩⟩
  by_contra hlt
  have : (r + 1) * (r + 1) ≤ p * p := Nat.mul_le_mul (by omega) (by omega)
  omega

theorem enough_three : Enough 3 [] := by
  refine ⟨by simp, fun p hp h => ?_⟩
  have := Nat.mul_le_mul hp.two_le hp.two_le
  omega

theorem Enough.mono {m n : Nat} {ps : List Nat} (h : Enough n ps) (hm : m ≤ n) : Enough m ps :=
  ⟨h.1, fun p hp hs => h.2 p hp (hs.trans hm)⟩

/-- The multiples of `p` among `a, ..., a + l - 1`; bit `i` stands for `a + i`. -/
def multiplesIn (a l p : Nat) : Nat := ones p ((l + p - 1 - (p - a % p) % p) / p) <<< ((p - a % p) % p)

theorem testBit_multiplesIn {a l p : Nat} (hp : 0 < p) (k : Nat) :
    (multiplesIn a l p).testBit k = true ↔ k < l ∧ p ∣ a + k := by
  have ho : (p - a % p) % p < p := Nat.mod_lt _ hp
  have hd : p ∣ a + (p - a % p) % p := by
    apply Nat.dvd_of_mod_eq_zero
    rw [Nat.add_mod_mod, ← Nat.mod_add_mod, ← Nat.add_sub_assoc (Nat.mod_lt _ hp).le, Nat.add_sub_cancel_left,
      Nat.mod_self]
  rw [multiplesIn, Nat.testBit_shiftLeft]
  generalize (p - a % p) % p = o at *
  simp only [Bool.and_eq_true, decide_eq_true_eq]
  rw [testBit_ones hp]
  constructor
  · rintro ⟨h1, i, hi, h2⟩
    rw [Nat.lt_iff_add_one_le, Nat.le_div_iff_mul_le hp, Nat.add_mul, Nat.mul_comm] at hi
    refine ⟨by omega, ?_⟩
    rw [show a + k = a + o + p * i by omega]
    exact Nat.dvd_add hd (Nat.dvd_mul_right p i)
  · rintro ⟨h1, h2⟩
    have hle : o ≤ k := by
      by_contra hlt
      have := (Nat.dvd_sub hd h2)
      rw [show a + o - (a + k) = o - k by omega] at this
      have := Nat.le_of_dvd (by omega) this
      omega
    have hko := Nat.dvd_sub h2 hd
    rw [show a + k - (a + o) = k - o by omega] at hko
    obtain ⟨i, hi⟩ := hko
    refine ⟨hle, i, ?_, hi⟩
    rw [Nat.lt_iff_add_one_le, Nat.le_div_iff_mul_le hp, Nat.add_mul, Nat.mul_comm]
    omega

/-- The numbers among `a, ..., a + l - 1` with a divisor in `ps`. -/
def crossedIn (a l : Nat) : List Nat → Nat
  | [] => 0
  | p :: ps => crossedIn a l ps ||| multiplesIn a l p

theorem testBit_crossedIn {a l : Nat} {ps : List Nat} (hp : ∀ p ∈ ps, 0 < p) (k : Nat) :
    (crossedIn a l ps).testBit k = true ↔ k < l ∧ ∃ p ∈ ps, p ∣ a + k := by
  induction ps with
  | nil => simp [crossedIn]
  | cons p ps ih =>
    rw [crossedIn, Nat.testBit_or, Bool.or_eq_true, ih fun q hq => hp q (by simp [hq]),
      testBit_multiplesIn (hp p (by simp))]
    simp only [List.mem_cons]
    constructor
    · rintro (⟨hk, q, hq, h⟩ | ⟨hk, h⟩)
      · exact ⟨hk, q, .inr hq, h⟩
      · exact ⟨hk, p, .inl rfl, h⟩
    · rintro ⟨hk, q, rfl | hq, h⟩
      · exact .inr ⟨hk, h⟩
      · exact .inl ⟨hk, q, hq, h⟩

/-- The primes among `a, ..., a + l - 1`. -/
def primeBitsIn (a l : Nat) (ps : List Nat) : Nat := ones 1 l ^^^ crossedIn a l ps

theorem testBit_primeBitsIn {a l : Nat} {ps : List Nat} (ha : 2 ≤ a) (h : Enough (a + l) ps) (hs : ∀ p ∈ ps, p < a)
    (k : Nat) : (primeBitsIn a l ps).testBit k = true ↔ k < l ∧ (a + k).Prime := by
  have hfull : (ones 1 l).testBit k = true ↔ k < l := by
    rw [testBit_ones (by decide)]
    simp
  have hc : (crossedIn a l ps).testBit k = true ↔ k < l ∧ ¬ (a + k).Prime := by
    rw [testBit_crossedIn fun p hp => by have := h.1 p hp; omega]
    refine and_congr_right fun hk => ⟨?_, ?_⟩
    · rintro ⟨p, hp, hd⟩ hP
      have h1 := h.1 p hp
      have h2 := hs p hp
      rcases (Nat.dvd_prime hP).1 hd with h3 | h3 <;> omega
    · intro hn
      have h4 := Nat.minFac_sq_le_self (by omega) hn
      have h5 : (a + k).minFac.Prime := Nat.minFac_prime (by omega)
      exact ⟨_, h.2 _ h5 (by rw [pow_two] at h4; omega), Nat.minFac_dvd _⟩
  rw [primeBitsIn, Nat.testBit_xor]
  cases hA : (ones 1 l).testBit k <;> cases hB : (crossedIn a l ps).testBit k <;> rw [hA] at hfull <;>
    rw [hB] at hc <;> simp at hfull hc ⊢
  · omega
  · omega
  · exact ⟨hfull, hc hfull⟩
  · intro _
    exact hc.2

/-- Number and sum of the primes up to `n`. -/
structure Upto (n c s : Nat) : Prop where
  count : primeCount n = c
  sum : primeSum n = s

/-- The first window. -/
theorem Upto.first {n c s K : Nat} {ps : List Nat} (h : Enough n ps) (hn : n < 2 ^ K)
    (hc : countBits 0 K (primeBits n ps) = c) (hs : sumBits K (primeBits n ps) K = s) : Upto n c s :=
  ⟨by rw [← hc, count_by_bits h hn], by rw [← hs, sum_by_bits h hn]⟩

/-- The primes up to `n + l` are those up to `n` and those in the window after `n`. -/
theorem primes_window (n l : Nat) : (range (n + l + 1)).filter Nat.Prime =
    (range (n + 1)).filter Nat.Prime ∪
      ((range l).filter fun i => (n + 1 + i).Prime).map (addLeftEmbedding (n + 1)) := by
  ext i
  simp only [mem_filter, mem_range, mem_union, mem_map, addLeftEmbedding_apply]
  constructor
  · rintro ⟨h1, h2⟩
    rcases Nat.lt_or_ge i (n + 1) with h | h
    · exact .inl ⟨h, h2⟩
    · have : n + 1 + (i - (n + 1)) = i := by omega
      exact .inr ⟨i - (n + 1), ⟨by omega, by rw [this]; exact h2⟩, this⟩
  · rintro (⟨h1, h2⟩ | ⟨j, ⟨h1, h2⟩, rfl⟩)
    · exact ⟨by omega, h2⟩
    · exact ⟨by omega, h2⟩

theorem primes_window_disjoint (n l : Nat) : Disjoint ((range (n + 1)).filter Nat.Prime)
    (((range l).filter fun i => (n + 1 + i).Prime).map (addLeftEmbedding (n + 1))) := by
  rw [disjoint_left]
  intro i h1 h2
  simp only [mem_filter, mem_range, mem_map, addLeftEmbedding_apply] at h1 h2
  obtain ⟨j, _, rfl⟩ := h2
  omega

/-- Whether the window after `n` has the primes that lead from one count and sum to the next. -/
def windowOk (K n l : Nat) (ps : List Nat) (c s c' s' : Nat) : Bool :=
  c + countBits 0 K (primeBitsIn (n + 1) l ps) == c' &&
    s + (n + 1) * countBits 0 K (primeBitsIn (n + 1) l ps) + sumBits K (primeBitsIn (n + 1) l ps) K == s'

/-- Another window. -/
theorem Upto.next {n c s : Nat} (u : Upto n c s) {K l c' s' : Nat} {ps : List Nat} (h : Enough (n + 1 + l) ps)
    (hps : ∀ p ∈ ps, p ≤ n) (hn : 1 ≤ n) (hl : l ≤ 2 ^ K) (hw : windowOk K n l ps c s c' s' = true) :
    Upto (n + l) c' s' := by
  have hbit := testBit_primeBitsIn (a := n + 1) (l := l) (by omega) h fun p hp => by have := hps p hp; omega
  have hlt : primeBitsIn (n + 1) l ps < 2 ^ 2 ^ K := by
    apply Nat.lt_pow_two_of_testBit
    intro i hi
    by_contra hc
    rw [Bool.not_eq_false, hbit] at hc
    omega
  have hf : (range (2 ^ K)).filter (fun i => (primeBitsIn (n + 1) l ps).testBit i = true) =
      (range l).filter fun i => (n + 1 + i).Prime := by
    ext i
    simp only [mem_filter, mem_range, hbit]
    constructor
    · rintro ⟨_, h1, h2⟩
      exact ⟨h1, h2⟩
    · rintro ⟨h1, h2⟩
      exact ⟨by omega, h1, h2⟩
  rw [windowOk, countBits_bits hlt, sumBits_bits hlt, hf, Bool.and_eq_true, beq_iff_eq, beq_iff_eq] at hw
  obtain ⟨h1, h2⟩ := hw
  constructor
  · rw [primeCount, primes_window, card_union_of_disjoint (primes_window_disjoint n l), card_map, ← primeCount, u.count, h1]
  · rw [primeSum, primes_window, sum_union (primes_window_disjoint n l), sum_map, ← primeSum, u.sum]
    simp only [addLeftEmbedding_apply]
    rw [sum_add_distrib, sum_const_nat (m := n + 1) fun _ _ => rfl, Nat.mul_comm, ← Nat.add_assoc, h2]

end SM.Props
