import Verif.Props.PrimeSum
/-
C13, C14: dispatch of the integer prime-sum and prime-count functions.
-/
namespace SM.Props
open SM SM.Alg BMap

/-- Looking up in a table with distinct keys. -/
theorem table_get {t : List (Int × Int)} (h : (t.map Prod.fst).Nodup) (k v : Int) :
    BMap.get intCmp k (BMap.ofList intCmp t) = some v ↔ (k, v) ∈ t := by
  rw [get_ofList intCmp_lawful]
  constructor
  · intro hv
    rw [Option.map_eq_some_iff] at hv
    obtain ⟨e, he, rfl⟩ := hv
    have hk := List.find?_some he
    have hm := List.mem_of_find?_eq_some he
    simp at hk hm
    subst hk
    exact hm
  · intro hm
    rw [Option.map_eq_some_iff]
    cases hf : t.reverse.find? (fun e => decide (intCmp k e.1 = .eq)) with
    | none =>
      rw [List.find?_eq_none] at hf
      have := hf (k, v) (by simpa using hm)
      simp at this
    | some e =>
      refine ⟨e, rfl, ?_⟩
      have hk := List.find?_some hf
      have hm' := List.mem_of_find?_eq_some hf
      simp at hk hm'
      have := List.inj_on_of_nodup_map h hm' hm hk.symm
      rw [this]

theorem table_get_none {t : List (Int × Int)} (h : (t.map Prod.fst).Nodup) (k : Int) :
    BMap.get intCmp k (BMap.ofList intCmp t) = none ↔ ∀ v, (k, v) ∉ t := by
  cases hg : BMap.get intCmp k (BMap.ofList intCmp t) with
  | none =>
    simp only [true_iff]
    intro v hv
    rw [(table_get h k v).2 hv] at hg
    simp at hg
  | some v =>
    simp only [reduceCtorEq, false_iff, not_forall, not_not]
    exact ⟨v, (table_get h k v).1 hg⟩

theorem primeSumTable_nodup : (primeSumTable.map Prod.fst).Nodup := by decide +kernel
theorem primeCountTable_nodup : (primeCountTable.map Prod.fst).Nodup := by decide +kernel

/-- The tabulated arguments are exactly the powers of ten `10^0 .. 10^25`. -/
theorem primeSumTable_keys :
    primeSumTable.map Prod.fst = (List.range 26).map (fun (k : Nat) => (10 : Int) ^ k) := by
  decide +kernel

/-- The tabulated arguments are exactly the powers of ten `10^0 .. 10^27`. -/
theorem primeCountTable_keys :
    primeCountTable.map Prod.fst = (List.range 28).map (fun (k : Nat) => (10 : Int) ^ k) := by
  decide +kernel

theorem mem_keys_iff {t : List (Int × Int)} {N : Nat}
    (h : t.map Prod.fst = (List.range N).map (fun (k : Nat) => (10 : Int) ^ k)) (n : Int) :
    (∃ v, (n, v) ∈ t) ↔ ∃ k, k < N ∧ n = 10 ^ k := by
  have : (∃ v, (n, v) ∈ t) ↔ n ∈ t.map Prod.fst := by simp
  rw [this, h]
  simp only [List.mem_map, List.mem_range]
  constructor
  · rintro ⟨k, hk, rfl⟩; exact ⟨k, hk, rfl⟩
  · rintro ⟨k, hk, rfl⟩; exact ⟨k, hk, rfl⟩

/-- C14: prime-count answers exactly for the powers of ten up to `10^27`. -/
theorem C14_prime_count_domain (n : Int) :
    (∃ v, primeCountI n = .ok v) ↔ ∃ k, k < 28 ∧ n = 10 ^ k := by
  rw [← mem_keys_iff primeCountTable_keys]
  unfold primeCountI
  cases hg : BMap.get intCmp n (BMap.ofList intCmp primeCountTable) with
  | some s =>
    simp only [Out.ok.injEq, exists_eq', true_iff]
    exact ⟨s, (table_get primeCountTable_nodup n s).1 hg⟩
  | none =>
    have hn := (table_get_none primeCountTable_nodup n).1 hg
    constructor
    · rintro ⟨v, hv⟩
      simp only at hv
      split at hv
      · simp at hv
      · split at hv <;> simp at hv
    · rintro ⟨v, hv⟩; exact absurd hv (hn v)

/-- C14: every other argument is rejected, negatives with `Undefined`, the rest with
`Unimplemented`. -/
theorem C14_prime_count_rejects (n : Int) (h : ∀ k, k < 28 → n ≠ 10 ^ k) :
    primeCountI n = if n < 0 then .err (.undefined "wrong def".toList) else .err .unimplemented := by
  have hn : BMap.get intCmp n (BMap.ofList intCmp primeCountTable) = none := by
    rw [table_get_none primeCountTable_nodup]
    intro v hv
    obtain ⟨k, hk, hkn⟩ := (mem_keys_iff primeCountTable_keys n).1 ⟨v, hv⟩
    exact h k hk hkn
  unfold primeCountI
  rw [hn]
  simp only
  split
  · rfl
  · split <;> rfl

theorem primeSum_get_none {n : Int} (h : ∀ k, k < 26 → n ≠ 10 ^ k) :
    BMap.get intCmp n (BMap.ofList intCmp primeSumTable) = none := by
  rw [table_get_none primeSumTable_nodup]
  intro v hv
  obtain ⟨k, hk, hkn⟩ := (mem_keys_iff primeSumTable_keys n).1 ⟨v, hv⟩
  exact h k hk hkn

/-- C13: negative arguments are undefined. -/
theorem C13_prime_sum_negative (chk : Bool) (n : Int) (h : n < 0) :
    primeSumI chk n = .err (.undefined "wrong def".toList) := by
  have hn := primeSum_get_none (n := n) (by
    intro k _ hk
    have : (0 : Int) < 10 ^ k := Int.pow_pos (by decide)
    omega)
  unfold primeSumI
  rw [hn]
  simp [h]

/-- C13: untabulated arguments from 2^64 on are unimplemented. -/
theorem C13_prime_sum_huge (chk : Bool) (n : Int) (h : 2 ^ 64 ≤ n) (ht : ∀ k, k < 26 → n ≠ 10 ^ k) :
    primeSumI chk n = .err .unimplemented := by
  unfold primeSumI
  rw [primeSum_get_none ht]
  have : toU64 n = none := by unfold toU64; rw [if_neg (by omega)]
  simp only [this]
  rw [if_neg (by omega)]

theorem primeSumI_untabulated (chk : Bool) (n : Nat) (hn : n < 2 ^ 64)
    (ht : ∀ k, k < 26 → (n : Int) ≠ 10 ^ k) :
    primeSumI chk n = (fun (x : Nat) => (x : Int)) <$> primeSumU64 chk n := by
  unfold primeSumI
  rw [primeSum_get_none ht]
  have : toU64 (n : Int) = some n := by
    unfold toU64; rw [if_pos ⟨by omega, by omega⟩]; rfl
  simp only [this]
  rw [if_neg (by omega)]

/-- C13: the untabulated arguments `1 <= n < 2^32` get the exact sum. -/
theorem C13_prime_sum_untabulated (chk : Bool) (n : Nat) (h1 : 1 ≤ n) (hn : n < 2 ^ 32)
    (ht : ∀ k, k < 26 → (n : Int) ≠ 10 ^ k) : primeSumI chk n = .ok (primeSum n : Int) := by
  rw [primeSumI_untabulated chk n (by omega) ht, C12_prime_sum chk n h1 hn]; rfl

/-- C13, violation: zero panics. -/
theorem C13_prime_sum_i_zero (chk : Bool) : primeSumI chk 0 = .panic := by
  have := primeSumI_untabulated chk 0 (by decide) (by
    intro k _ hk
    have : (0 : Int) < 10 ^ k := Int.pow_pos (by decide)
    omega)
  rw [(C13_prime_sum_zero chk).1] at this
  exact this

/-- C13, violation: with overflow checks every untabulated `2^32 <= n < 2^64` panics. -/
theorem C13_prime_sum_i_checked (n : Nat) (h : 2 ^ 32 ≤ n) (hn : n < 2 ^ 64)
    (ht : ∀ k, k < 26 → (n : Int) ≠ 10 ^ k) : primeSumI true n = .panic := by
  rw [primeSumI_untabulated true n hn ht, C13_prime_sum_checked_overflow n h hn]; rfl

-- Concrete cases meeting the hypotheses.
example : primeSumI true (-5) = .err (.undefined "wrong def".toList) :=
  C13_prime_sum_negative true (-5) (by decide)
example : primeSumI true (12345 : Nat) = .ok (primeSum 12345 : Int) :=
  C13_prime_sum_untabulated true 12345 (by decide) (by decide) (by decide +kernel)
example : primeSumI true (5000000000 : Nat) = .panic :=
  C13_prime_sum_i_checked 5000000000 (by decide) (by decide) (by decide +kernel)
example : primeCountI 12 = .err .unimplemented := by
  rw [C14_prime_count_rejects 12 (by decide +kernel)]; rfl

end SM.Props
