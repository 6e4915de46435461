import Verif.Props.PrimeSum
import Mathlib.Analysis.Real.Sqrt
import Mathlib.Data.Nat.Cast.Order.Field
/-
C77: the work of summing primes.
-/
namespace SM.Props
open SM SM.Alg BMap

/-! ### The loops, with a count of how often their bodies are entered -/

/-- `primeSumInner` with a count. -/
def primeSumInnerC (chk : Bool) (p sp p2 : Nat) : List Nat → BMap Nat Nat → Res (BMap Nat Nat × Nat)
  | [], s => .ok (s, 0)
  | ve :: v, s =>
    if ve < p2 then .ok (s, 1)
    else do
      let a ← mapIndex s (ve / p)
      let b ← u64Sub chk a sp
      let c ← u64Mul chk p b
      let d ← mapIndex s ve
      let e ← u64Sub chk d c
      let (s, k) ← primeSumInnerC chk p sp p2 v (BMap.insert BMap.natCmp ve e s)
      pure (s, k + 1)

/-- `primeSumOuter` with a count. -/
def primeSumOuterC (chk : Bool) (v : List Nat) : List Nat → BMap Nat Nat → Res (BMap Nat Nat × Nat)
  | [], s => .ok (s, 0)
  | p :: ps, s => do
    let a ← mapIndex s p
    let sp ← mapIndex s (p - 1)
    if a > sp then
      let p2 ← u64Mul chk p p
      let (s, k) ← primeSumInnerC chk p sp p2 v s
      let (s, l) ← primeSumOuterC chk v ps s
      pure (s, k + l + 1)
    else
      let (s, l) ← primeSumOuterC chk v ps s
      pure (s, l + 1)

/-- `primeSumU64` with a count. -/
def primeSumU64C (chk : Bool) (n : Nat) : Res (Nat × Nat) := do
  let r := Nat.sqrt n
  let rr ← u64Mul chk r r
  let r1 ← u64Add chk r 1
  let rr1 ← u64Mul chk r1 r1
  if rr ≤ n ∧ rr1 > n then
    let v ← primeSumKeys n r
    let es ← primeSumEntries chk v
    let (s, k) ← primeSumOuterC chk v (List.range' 2 (r - 1)) (BMap.ofList BMap.natCmp es)
    let x ← mapIndex s n
    pure (x, k)
  else .panic

/-- Counting does not change the computation. -/
theorem primeSumInnerC_erase (chk : Bool) (p sp p2 : Nat) (v : List Nat) : ∀ s,
    Prod.fst <$> primeSumInnerC chk p sp p2 v s = primeSumInner chk p sp p2 v s := by
  induction v with
  | nil => intro s; rfl
  | cons ve v ih =>
    intro s
    unfold primeSumInnerC primeSumInner
    by_cases h : ve < p2
    · simp [h]
    · simp only [h, if_false, map_bind]
      refine bind_congr fun a => bind_congr fun b => bind_congr fun c => bind_congr fun d => bind_congr fun e => ?_
      rw [← ih]
      rcases primeSumInnerC chk p sp p2 v _ with ⟨s, k⟩ | e | _ <;> rfl

theorem primeSumOuterC_erase (chk : Bool) (v ps : List Nat) : ∀ s,
    Prod.fst <$> primeSumOuterC chk v ps s = primeSumOuter chk v ps s := by
  induction ps with
  | nil => intro s; rfl
  | cons p ps ih =>
    intro s
    unfold primeSumOuterC primeSumOuter
    simp only [map_bind]
    refine bind_congr fun a => bind_congr fun sp => ?_
    by_cases h : a > sp
    · simp only [h, if_true, map_bind]
      refine bind_congr fun p2 => ?_
      rw [← primeSumInnerC_erase]
      rcases primeSumInnerC chk p sp p2 v s with ⟨s, k⟩ | e | _
      · simp only [Out.ok_bind, Out.ok_map]
        rw [← ih]
        rcases primeSumOuterC chk v ps s with ⟨s, l⟩ | e | _ <;> rfl
      · rfl
      · rfl
    · simp only [h, if_false]
      rw [← ih]
      rcases primeSumOuterC chk v ps s with ⟨s, l⟩ | e | _ <;> rfl

theorem primeSumU64C_erase (chk : Bool) (n : Nat) : Prod.fst <$> primeSumU64C chk n = primeSumU64 chk n := by
  unfold primeSumU64C primeSumU64
  simp only [map_bind]
  refine bind_congr fun rr => bind_congr fun r1 => bind_congr fun rr1 => ?_
  by_cases h : rr ≤ n ∧ rr1 > n
  · simp only [h, and_self, if_true, map_bind]
    refine bind_congr fun v => bind_congr fun es => ?_
    rw [← primeSumOuterC_erase]
    rcases primeSumOuterC chk v _ _ with ⟨s, l⟩ | e | _
    · simp only [Out.ok_bind, Out.ok_map]
      cases mapIndex s n <;> rfl
    · rfl
    · rfl
  · simp only [h, if_false]; rfl

/-! ### Counting -/

theorem inner_count {chk : Bool} {p sp p2 : Nat} (v : List Nat) : ∀ {s s' : BMap Nat Nat} {k : Nat},
    primeSumInnerC chk p sp p2 v s = .ok (s', k) → k ≤ v.countP (fun x => decide (p2 ≤ x)) + 1 := by
  induction v with
  | nil => intro s s' k h; cases h; simp
  | cons ve v ih =>
    intro s s' k h
    unfold primeSumInnerC at h
    by_cases hv : ve < p2
    · simp only [hv, if_true] at h; cases h; omega
    · simp only [hv, if_false] at h
      rw [List.countP_cons, if_pos (by simpa using hv)]
      cases h1 : mapIndex s (ve / p) with
      | ok a =>
        rw [h1, Out.ok_bind] at h
        cases h2 : u64Sub chk a sp with
        | ok b =>
          rw [h2, Out.ok_bind] at h
          cases h3 : u64Mul chk p b with
          | ok c =>
            rw [h3, Out.ok_bind] at h
            cases h4 : mapIndex s ve with
            | ok d =>
              rw [h4, Out.ok_bind] at h
              cases h5 : u64Sub chk d c with
              | ok e =>
                rw [h5, Out.ok_bind] at h
                cases h6 : primeSumInnerC chk p sp p2 v (BMap.insert BMap.natCmp ve e s) with
                | ok q =>
                  rw [h6, Out.ok_bind] at h
                  cases h
                  have := ih h6
                  omega
                | err e => rw [h6] at h; cases h
                | panic => rw [h6] at h; cases h
              | err e => rw [h5] at h; cases h
              | panic => rw [h5] at h; cases h
            | err e => rw [h4] at h; cases h
            | panic => rw [h4] at h; cases h
          | err e => rw [h3] at h; cases h
          | panic => rw [h3] at h; cases h
        | err e => rw [h2] at h; cases h
        | panic => rw [h2] at h; cases h
      | err e => rw [h1] at h; cases h
      | panic => rw [h1] at h; cases h

theorem outer_count {chk : Bool} {v : List Nat} (ps : List Nat) (hp : ∀ p ∈ ps, p * p < 2 ^ 64) : ∀ {s s' : BMap Nat Nat} {k : Nat},
    primeSumOuterC chk v ps s = .ok (s', k) → k ≤ (ps.map fun p => v.countP (fun x => decide (p * p ≤ x)) + 2).sum := by
  induction ps with
  | nil => intro s s' k h; cases h; simp
  | cons p ps ih =>
    intro s s' k h
    have ih := fun {s s' k} => ih (fun q hq => hp q (by simp [hq])) (s := s) (s' := s') (k := k)
    unfold primeSumOuterC at h
    rw [List.map_cons, List.sum_cons]
    cases h1 : mapIndex s p with
    | ok a =>
      rw [h1, Out.ok_bind] at h
      cases h2 : mapIndex s (p - 1) with
      | ok sp =>
        rw [h2, Out.ok_bind] at h
        by_cases hv : a > sp
        · simp only [hv, if_true] at h
          rw [u64Mul_ok chk (hp p (by simp)), Out.ok_bind] at h
          cases h3 : primeSumInnerC chk p sp (p * p) v s with
          | ok q =>
            rw [h3, Out.ok_bind] at h
            obtain ⟨s1, k1⟩ := q
            simp only at h
            cases h4 : primeSumOuterC chk v ps s1 with
            | ok q =>
              rw [h4, Out.ok_bind] at h
              cases h
              have h5 := inner_count v h3
              have h6 := ih h4
              omega
            | err e => rw [h4] at h; cases h
            | panic => rw [h4] at h; cases h
          | err e => rw [h3] at h; cases h
          | panic => rw [h3] at h; cases h
        · simp only [hv, if_false] at h
          cases h4 : primeSumOuterC chk v ps s with
          | ok q =>
            rw [h4, Out.ok_bind] at h
            cases h
            have h6 := ih h4
            omega
          | err e => rw [h4] at h; cases h
          | panic => rw [h4] at h; cases h
      | err e => rw [h2] at h; cases h
      | panic => rw [h2] at h; cases h
    | err e => rw [h1] at h; cases h
    | panic => rw [h1] at h; cases h

/-- The numbers from 2 whose square is at most `x`. -/
theorem count_roots (x m : Nat) : (List.range' 2 m).countP (fun p => decide (p * p ≤ x)) ≤ Nat.sqrt x - 1 := by
  induction m with
  | zero => simp
  | succ m ih =>
    rw [List.range'_1_concat, List.countP_append, List.countP_singleton]
    by_cases h : (2 + m) * (2 + m) ≤ x
    · have h1 : 2 + m ≤ Nat.sqrt x := Nat.le_sqrt.2 h
      have h2 := List.countP_le_length (p := fun p => decide (p * p ≤ x)) (l := List.range' 2 m)
      rw [List.length_range'] at h2
      simp only [h, decide_true, if_true]
      omega
    · simp only [h, decide_false]
      simpa using ih

theorem double_count (ps v : List Nat) :
    (ps.map fun p => v.countP (fun x => decide (p * p ≤ x))).sum = (v.map fun x => ps.countP (fun p => decide (p * p ≤ x))).sum := by
  induction v with
  | nil => simp
  | cons x v ih =>
    rw [List.map_cons, List.sum_cons, ← ih, show ps.countP (fun p => decide (p * p ≤ x))
      = (ps.map fun p => if p * p ≤ x then 1 else 0).sum by
        clear ih
        induction ps with
        | nil => rfl
        | cons p ps ih => rw [List.countP_cons, List.map_cons, List.sum_cons, ih]; simp [Nat.add_comm], ← List.sum_map_add]
    refine congrArg List.sum (List.map_congr_left fun p _ => ?_)
    rw [List.countP_cons]
    simp [Nat.add_comm]

/-! ### Bounds -/

/-- The sum of the reciprocal square roots. -/
theorem sum_inv_sqrt (r : Nat) : ((List.range' 1 r).map fun i : ℕ => 1 / Real.sqrt (i : ℝ)).sum ≤ 2 * Real.sqrt r := by
  induction r with
  | zero => simp
  | succ r ih =>
    rw [List.range'_1_concat, List.map_append, List.sum_append, List.map_singleton, List.sum_singleton]
    have h1 : Real.sqrt (r : ℝ) ^ 2 = r := Real.sq_sqrt (by positivity)
    have h2 : Real.sqrt ((1 + r : Nat) : ℝ) ^ 2 = 1 + r := by rw [Real.sq_sqrt (by positivity)]; push_cast; ring
    have h3 : 0 < Real.sqrt ((1 + r : Nat) : ℝ) := Real.sqrt_pos.2 (by positivity)
    have h4 : 0 ≤ Real.sqrt (r : ℝ) := Real.sqrt_nonneg _
    have h5 : 1 / Real.sqrt ((1 + r : Nat) : ℝ) ≤ 2 * (Real.sqrt ((1 + r : Nat) : ℝ) - Real.sqrt r) := by
      rw [div_le_iff₀ h3]
      nlinarith [sq_nonneg (Real.sqrt ((1 + r : Nat) : ℝ) - Real.sqrt r)]
    rw [show ((r + 1 : Nat) : ℝ) = ((1 + r : Nat) : ℝ) by push_cast; ring]
    linarith

theorem natSqrt_le (x : Nat) : (Nat.sqrt x : ℝ) ≤ Real.sqrt x :=
  Real.le_sqrt_of_sq_le (by exact_mod_cast Nat.sqrt_le' x)

/-- The large keys. -/
theorem large_keys (n r : Nat) : (((List.range' 1 r).map fun i => Nat.sqrt (n / i)).sum : ℝ) ≤ 2 * (Real.sqrt n * Real.sqrt r) := by
  have h : (((List.range' 1 r).map fun i => Nat.sqrt (n / i)).sum : ℝ) ≤
      Real.sqrt n * ((List.range' 1 r).map fun i : ℕ => 1 / Real.sqrt (i : ℝ)).sum := by
    rw [← List.sum_map_mul_left, Nat.cast_list_sum, List.map_map]
    refine List.sum_le_sum (M := ℝ) fun i hi => ?_
    have hi : 1 ≤ i := (List.mem_range'_1.1 hi).1
    refine (natSqrt_le _).trans ?_
    rw [mul_one_div, ← Real.sqrt_div' _ (by positivity)]
    exact Real.sqrt_le_sqrt Nat.cast_div_le
  have := mul_le_mul_of_nonneg_left (sum_inv_sqrt r) (Real.sqrt_nonneg (n : ℝ))
  linarith

/-- The small keys. -/
theorem small_keys {K : Nat} (m : Nat) (h : ∀ j < m, Nat.sqrt j - 1 ≤ K) :
    ((List.range m).map fun j => Nat.sqrt j - 1).sum ≤ (m - 4) * K := by
  induction m with
  | zero => simp
  | succ m ih =>
    rw [List.range_succ, List.map_append, List.sum_append, List.map_singleton, List.sum_singleton]
    have h1 := ih fun j hj => h j (by omega)
    by_cases h4 : m < 4
    · have : Nat.sqrt m < 2 := Nat.sqrt_lt.2 (by omega)
      have h0 : m - 4 = 0 := by omega
      rw [h0] at h1
      omega
    · have h2 := h m (by omega)
      rw [show m + 1 - 4 = (m - 4) + 1 by omega, Nat.add_mul, Nat.one_mul]
      omega

/-- All loops together, for any count of the kind above. -/
theorem total_count {n r k : Nat} (hr : 2 ≤ r) (h1 : r * r ≤ n) (h2 : n < (r + 1) * (r + 1))
    (hk : k ≤ ((List.range' 2 (r - 1)).map fun p => (keyList n r).countP (fun x => decide (p * p ≤ x)) + 2).sum) :
    (k : ℝ) ≤ 3 * (Real.sqrt n * Real.sqrt (Real.sqrt n)) := by
  have hm : n / r ≤ r + 2 := Nat.lt_succ_iff.1 (Nat.div_lt_of_lt_mul (by nlinarith))
  rw [List.sum_map_add, double_count] at hk
  have e2 : ((List.range' 2 (r - 1)).map fun _ => 2).sum = 2 * (r - 1) := by
    rw [List.map_const', List.sum_replicate, List.length_range']; simp [Nat.mul_comm]
  have e1 : ((keyList n r).map fun x => (List.range' 2 (r - 1)).countP (fun p => decide (p * p ≤ x))).sum ≤
      ((keyList n r).map fun x => Nat.sqrt x - 1).sum := List.sum_le_sum fun x _ => count_roots x _
  have e3 : ((keyList n r).map fun x => Nat.sqrt x - 1).sum =
      ((List.range' 1 r).map fun i => Nat.sqrt (n / i) - 1).sum + ((List.range (n / r)).map fun j => Nat.sqrt j - 1).sum := by
    rw [keyList, List.map_append, List.sum_append, List.map_map, List.map_reverse, List.sum_reverse]
    rfl
  have e4 : ((List.range' 1 r).map fun i => Nat.sqrt (n / i) - 1).sum + r = ((List.range' 1 r).map fun i => Nat.sqrt (n / i)).sum := by
    have : ((List.range' 1 r).map fun _ => 1).sum = r := by simp
    conv_lhs => arg 2; rw [← this]
    rw [← List.sum_map_add]
    refine congrArg List.sum (List.map_congr_left fun i hi => ?_)
    obtain ⟨i1, i2⟩ := List.mem_range'_1.1 hi
    have : 0 < Nat.sqrt (n / i) := Nat.sqrt_pos.2 (Nat.div_pos (by nlinarith) i1)
    omega
  have e5 : ((List.range (n / r)).map fun j => Nat.sqrt j - 1).sum ≤ (n / r - 4) * (Nat.sqrt (r + 1) - 1) :=
    small_keys _ fun j hj => Nat.sub_le_sub_right (Nat.sqrt_le_sqrt (by omega)) 1
  have e6 : (n / r - 4) * (Nat.sqrt (r + 1) - 1) ≤ (r - 2) * (Nat.sqrt (r + 1) - 1) := Nat.mul_le_mul_right _ (by omega)
  have e7 : (r - 2) * (Nat.sqrt (r + 1) - 1) + (r - 2) = (r - 2) * Nat.sqrt (r + 1) := by
    have : 0 < Nat.sqrt (r + 1) := Nat.sqrt_pos.2 (by omega)
    conv_rhs => rw [show Nat.sqrt (r + 1) = (Nat.sqrt (r + 1) - 1) + 1 by omega, Nat.mul_add]
    omega
  have e8 : k ≤ ((List.range' 1 r).map fun i => Nat.sqrt (n / i)).sum + (r - 2) * Nat.sqrt (r + 1) := by omega
  have e9 : (((r - 2) * Nat.sqrt (r + 1) : Nat) : ℝ) ≤ r * Real.sqrt r := by
    have a1 : ((r - 2) * Nat.sqrt (r + 1)) ^ 2 ≤ r ^ 2 * r := by
      have b1 := Nat.sqrt_le' (r + 1)
      obtain ⟨q, rfl⟩ : ∃ q, r = q + 2 := ⟨r - 2, by omega⟩
      rw [Nat.mul_pow, Nat.add_sub_cancel]
      refine (Nat.mul_le_mul_left _ b1).trans ?_
      nlinarith
    have a2 : ((r : ℝ) * Real.sqrt r) ^ 2 = (r : ℝ) ^ 2 * r := by rw [mul_pow, Real.sq_sqrt (by positivity)]
    refine le_of_sq_le_sq ?_ (by positivity)
    rw [a2]
    exact_mod_cast a1
  have r1 : (r : ℝ) ≤ Real.sqrt n := Real.le_sqrt_of_sq_le (by rw [pow_two]; exact_mod_cast h1)
  have r2 : Real.sqrt (r : ℝ) ≤ Real.sqrt (Real.sqrt n) := Real.sqrt_le_sqrt r1
  have l1 := large_keys n r
  have l2 : Real.sqrt n * Real.sqrt r ≤ Real.sqrt n * Real.sqrt (Real.sqrt n) := mul_le_mul_of_nonneg_left r2 (Real.sqrt_nonneg _)
  have l3 : (r : ℝ) * Real.sqrt r ≤ Real.sqrt n * Real.sqrt (Real.sqrt n) := mul_le_mul r1 r2 (Real.sqrt_nonneg _) (Real.sqrt_nonneg _)
  have e8' : (k : ℝ) ≤ (((List.range' 1 r).map fun i => Nat.sqrt (n / i)).sum : ℝ) + (((r - 2) * Nat.sqrt (r + 1) : Nat) : ℝ) := by
    exact_mod_cast e8
  linarith

/-- **C77**.  Summing the primes up to `n` enters the bodies of the two loops at most `3 n^(3/4)` times together (here
without roots), whatever the overflow checks and whether or not the sum is right. -/
theorem C77_work (chk : Bool) {n x k : Nat} (hn : n < 2 ^ 64) (h : primeSumU64C chk n = .ok (x, k)) :
    primeSumU64 chk n = .ok x ∧ k ^ 4 ≤ 81 * n ^ 3 := by
  refine ⟨by rw [← primeSumU64C_erase, h]; rfl, ?_⟩
  have hrr : Nat.sqrt n * Nat.sqrt n < 2 ^ 64 := (Nat.sqrt_le n).trans_lt hn
  unfold primeSumU64C at h
  dsimp only at h
  rw [u64Mul_ok chk hrr, Out.ok_bind] at h
  cases h1 : u64Add chk (Nat.sqrt n) 1 with
  | err e => rw [h1] at h; cases h
  | panic => rw [h1] at h; cases h
  | ok r1 =>
    rw [h1, Out.ok_bind] at h
    cases h2 : u64Mul chk r1 r1 with
    | err e => rw [h2] at h; cases h
    | panic => rw [h2] at h; cases h
    | ok rr1 =>
      rw [h2, Out.ok_bind] at h
      split at h
      swap
      · cases h
      by_cases hr : Nat.sqrt n = 0
      · simp only [hr, primeSumKeys] at h
        cases h
      rw [primeSumKeys_eq (by omega), Out.ok_bind] at h
      cases h3 : primeSumEntries chk (keyList n (Nat.sqrt n)) with
      | err e => rw [h3] at h; cases h
      | panic => rw [h3] at h; cases h
      | ok es =>
        rw [h3, Out.ok_bind] at h
        cases h4 : primeSumOuterC chk (keyList n (Nat.sqrt n)) (List.range' 2 (Nat.sqrt n - 1)) (BMap.ofList BMap.natCmp es) with
        | err e => rw [h4] at h; cases h
        | panic => rw [h4] at h; cases h
        | ok q =>
          obtain ⟨s, k'⟩ := q
          rw [h4, Out.ok_bind] at h
          simp only at h
          cases h5 : mapIndex s n with
          | err e => rw [h5] at h; cases h
          | panic => rw [h5] at h; cases h
          | ok y =>
            rw [h5] at h
            cases h
            have hk := outer_count _ (fun p hp => by
              have := (List.mem_range'_1.1 hp).2
              have hp : p ≤ Nat.sqrt n := by omega
              exact (Nat.mul_le_mul hp hp).trans_lt hrr) h4
            by_cases hr2 : Nat.sqrt n = 1
            · rw [hr2] at hk
              have : k = 0 := by simpa using hk
              rw [this]; exact Nat.zero_le _
            · have hb := total_count (by omega) (Nat.sqrt_le n) (Nat.lt_succ_sqrt n) hk
              have h1 : Real.sqrt (n : ℝ) ^ 2 = n := Real.sq_sqrt (by positivity)
              have h2 : Real.sqrt (Real.sqrt (n : ℝ)) ^ 2 = Real.sqrt n := Real.sq_sqrt (Real.sqrt_nonneg _)
              have h3 : (k : ℝ) ^ 4 ≤ (3 * (Real.sqrt n * Real.sqrt (Real.sqrt n))) ^ 4 := pow_le_pow_left₀ (by positivity) hb 4
              have h4 : (3 * (Real.sqrt (n : ℝ) * Real.sqrt (Real.sqrt n))) ^ 4 = 81 * (n : ℝ) ^ 3 := by
                rw [show (3 * (Real.sqrt (n : ℝ) * Real.sqrt (Real.sqrt n))) ^ 4 =
                  81 * ((Real.sqrt (n : ℝ) ^ 2) ^ 2 * (Real.sqrt (Real.sqrt (n : ℝ)) ^ 2) ^ 2) by ring, h2, h1]
                ring
              rw [h4] at h3
              exact_mod_cast h3

/-- **C77**.  The table has at most `2 √n + 2` entries. -/
theorem C77_table {n : Nat} (hn : 1 ≤ n) : ∃ v, primeSumKeys n (Nat.sqrt n) = .ok v ∧ v.length ≤ 2 * Nat.sqrt n + 2 := by
  have hr : 1 ≤ Nat.sqrt n := Nat.sqrt_pos.2 hn
  refine ⟨_, primeSumKeys_eq hr, ?_⟩
  have hm : n / Nat.sqrt n ≤ Nat.sqrt n + 2 := by
    have := Nat.lt_succ_sqrt n
    exact Nat.lt_succ_iff.1 (Nat.div_lt_of_lt_mul (by simp only [Nat.succ_eq_add_one] at *; nlinarith))
  simp only [keyList, List.length_append, List.length_map, List.length_range', List.length_reverse, List.length_range]
  omega

/-- Ten million: the loops are entered at most 534 thousand times, and the sum is the right one. -/
example (chk : Bool) : ∃ k, primeSumU64C chk (10 ^ 7) = .ok (primeSum (10 ^ 7), k) ∧ k ≤ 533484 := by
  obtain ⟨n, hn⟩ : ∃ n, n = 10 ^ 7 := ⟨_, rfl⟩
  rw [← hn]
  have h := C12_prime_sum chk n (by omega) (by omega)
  have e := primeSumU64C_erase chk n
  rw [h] at e
  cases hq : primeSumU64C chk n with
  | err _ => rw [hq] at e; cases e
  | panic => rw [hq] at e; cases e
  | ok q =>
    rw [hq] at e
    obtain ⟨x, k⟩ := q
    cases e
    refine ⟨k, rfl, ?_⟩
    by_contra hk
    have := (C77_work chk (by omega) hq).2
    rw [hn] at this
    have h2 : 533485 ^ 4 ≤ k ^ 4 := Nat.pow_le_pow_left (by omega) 4
    exact absurd (h2.trans this) (by decide)

end SM.Props
