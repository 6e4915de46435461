import Verif.Alg.Fibonacci
import Verif.Props.Factorial
import Mathlib.Data.Nat.Fib.Basic
import Mathlib.Data.Nat.Log
import Mathlib.Data.List.Nodup
import Mathlib.Tactic.Ring
import Mathlib.Data.Finset.Card
import Mathlib.Data.Finset.Union
import Mathlib.Algebra.Order.BigOperators.Group.Finset
/-
C02-C04: Fibonacci.
-/
namespace SM.Props
open SM SM.Alg BMap

theorem fib_fold_aux (n : Nat) : ∀ k : Nat,
    ((List.range' k n).foldl (fun (x : Nat × Nat) _ => (x.1 + x.2, x.1))
      (Nat.fib (k + 1), Nat.fib k)) = (Nat.fib (k + n + 1), Nat.fib (k + n)) := by
  induction n with
  | zero => intro k; simp
  | succ n ih =>
    intro k
    rw [List.range'_succ, List.foldl_cons]
    have h : (Nat.fib (k + 1) + Nat.fib k, Nat.fib (k + 1))
        = (Nat.fib (k + 1 + 1), Nat.fib (k + 1)) := by
      rw [Nat.fib_add_two (n := k), Nat.add_comm]
    simp only [h]
    rw [ih (k + 1)]
    have e1 : k + 1 + n + 1 = k + (n + 1) + 1 := by omega
    have e2 : k + 1 + n = k + (n + 1) := by omega
    rw [e1, e2]

/-- C02: the linear fold computes the n-th Fibonacci number. -/
theorem C02_fibonacci_fold (n : Nat) : fibonacciFoldU n = Nat.fib n := by
  unfold fibonacciFoldU
  cases n with
  | zero => simp
  | succ n =>
    rw [List.range_eq_range', List.range'_succ, List.foldl_cons]
    have := fib_fold_aux n 1
    simp only [Nat.reduceAdd] at this
    have h2 : Nat.fib 2 = 1 := rfl
    have h1 : Nat.fib 1 = 1 := rfl
    rw [h2, h1] at this
    -- after the first step the state is `(1, 0)`: one step behind
    cases n with
    | zero => simp
    | succ n =>
      have h := fib_fold_aux (n + 1) 0
      simp only [Nat.fib_zero, Nat.zero_add, h1] at h
      simp only [Nat.zero_add]
      have e : ∀ (k m : Nat) (x : Nat × Nat),
          (List.range' k m).foldl (fun (x : Nat × Nat) _ => (x.1 + x.2, x.1)) x
          = (List.range' 0 m).foldl (fun (x : Nat × Nat) _ => (x.1 + x.2, x.1)) x := by
        intro k m
        induction m generalizing k with
        | zero => intro x; simp
        | succ m ih =>
          intro x
          rw [List.range'_succ, List.range'_succ, List.foldl_cons, List.foldl_cons]
          rw [ih (k + 1), ih (0 + 1)]
      rw [e 1 (n + 1)]
      rw [h]

/-- The memo-map invariant: sorted, correct, and seeded. -/
structure MemoOk (m : BMap Nat Nat) : Prop where
  sorted : BMap.Sorted (cmp := natCmp) m
  correct : ∀ k v, BMap.get natCmp k m = some v → v = Nat.fib k
  seed0 : BMap.get natCmp 0 m = some 0
  seed1 : BMap.get natCmp 1 m = some 1
  seed2 : BMap.get natCmp 2 m = some 1

theorem memoInit_ok : MemoOk memoInit where
  sorted := by
    unfold memoInit
    exact insert_sorted natCmp_lawful _ _ _ (insert_sorted natCmp_lawful _ _ _
      (insert_sorted natCmp_lawful _ _ _ sorted_nil))
  correct k v h := by
    have s1 := insert_sorted natCmp_lawful 0 0 ([] : BMap Nat Nat) sorted_nil
    have s2 := insert_sorted natCmp_lawful 1 1 _ s1
    unfold memoInit at h
    rw [get_insert_nat _ _ _ _ s2, get_insert_nat _ _ _ _ s1, get_insert_nat _ _ _ _ sorted_nil]
      at h
    split at h
    · subst_vars; simp at h; subst h; rfl
    · split at h
      · subst_vars; simp at h; subst h; rfl
      · split at h
        · subst_vars; simp at h; subst h; rfl
        · simp [BMap.get] at h
  seed0 := by decide
  seed1 := by decide
  seed2 := by decide

theorem MemoOk.insert {m : BMap Nat Nat} (h : MemoOk m) (n : Nat) (hn : 3 ≤ n) :
    MemoOk (BMap.insert natCmp n (Nat.fib n) m) where
  sorted := insert_sorted natCmp_lawful _ _ _ h.sorted
  correct k v hk := by
    rw [get_insert_nat _ _ _ _ h.sorted] at hk
    split at hk
    · subst_vars; simpa using hk.symm
    · exact h.correct k v hk
  seed0 := by rw [get_insert_nat _ _ _ _ h.sorted, if_neg (by omega)]; exact h.seed0
  seed1 := by rw [get_insert_nat _ _ _ _ h.sorted, if_neg (by omega)]; exact h.seed1
  seed2 := by rw [get_insert_nat _ _ _ _ h.sorted, if_neg (by omega)]; exact h.seed2

theorem fib_even_step (k : Nat) : Nat.fib k ≤ Nat.fib (k + 1) * 2 ∧
    Nat.fib k * (Nat.fib (k + 1) * 2 - Nat.fib k) = Nat.fib (2 * k) := by
  constructor
  · have := Nat.fib_le_fib_succ (n := k); omega
  · rw [Nat.fib_two_mul, Nat.mul_comm 2]

theorem fib_odd_step (k : Nat) :
    Nat.fib (k + 1) * Nat.fib (k + 1) + Nat.fib k * Nat.fib k = Nat.fib (2 * k + 1) := by
  rw [Nat.fib_two_mul_add_one]; ring

/-- Keys that the recursion for `N` can touch: at depth `i` only `N / 2^i + {0,1,2}`. -/
def NearKey (N k : Nat) : Prop := ∃ i, i ≤ Nat.log 2 N ∧ N / 2 ^ i ≤ k ∧ k ≤ N / 2 ^ i + 2

def KeysNear (N : Nat) (m : BMap Nat Nat) : Prop := ∀ e ∈ m, e.1 ≤ 2 ∨ NearKey N e.1

theorem nearKey_half {N k : Nat} (hk3 : 3 ≤ k) (h : NearKey N k) :
    (k / 2 ≤ 2 ∨ NearKey N (k / 2)) ∧ (k / 2 + 1 ≤ 2 ∨ NearKey N (k / 2 + 1)) := by
  obtain ⟨i, hi, h1, h2⟩ := h
  have hdiv : N / 2 ^ (i + 1) = N / 2 ^ i / 2 := by
    rw [pow_succ, Nat.div_div_eq_div_mul]
  by_cases hlt : i < Nat.log 2 N
  · refine ⟨Or.inr ⟨i + 1, hlt, ?_, ?_⟩, Or.inr ⟨i + 1, hlt, ?_, ?_⟩⟩ <;> rw [hdiv] <;> omega
  · have hiN : i = Nat.log 2 N := by omega
    have hq : N / 2 ^ i ≤ 1 := by
      have := Nat.lt_pow_succ_log_self (b := 2) (by decide) N
      rw [← hiN] at this
      have : N / 2 ^ i < 2 := by
        rw [Nat.div_lt_iff_lt_mul (Nat.pow_pos (by decide))]
        rw [pow_succ] at this; omega
      omega
    constructor
    · left; omega
    · left; omega

theorem memo_get_small {m : BMap Nat Nat} (h : MemoOk m) {n : Nat}
    (hn : BMap.get natCmp n m = none) : 3 ≤ n := by
  rcases Nat.lt_or_ge n 3 with h3 | h3
  · have : n = 0 ∨ n = 1 ∨ n = 2 := by omega
    rcases this with rfl | rfl | rfl
    · rw [h.seed0] at hn; simp at hn
    · rw [h.seed1] at hn; simp at hn
    · rw [h.seed2] at hn; simp at hn
  · exact h3

theorem keysNear_insert {N n v : Nat} {m : BMap Nat Nat} (hm : KeysNear N m)
    (hn : n ≤ 2 ∨ NearKey N n) : KeysNear N (BMap.insert natCmp n v m) := by
  intro e he
  rcases mem_insert_key he with h | ⟨e', he', h⟩
  · rw [h]; exact hn
  · rw [← h]; exact hm e' he'

/-- The recursion computes F(n), never panics or runs out of depth `n + 1`, and keeps the
invariant. -/
theorem memoization_spec (N fuel : Nat) : ∀ (n : Nat) (m : BMap Nat Nat), n + 1 ≤ fuel →
    MemoOk m → KeysNear N m → (n ≤ 2 ∨ NearKey N n) →
    ∃ m', memoization fuel n m = .ok (Nat.fib n, m') ∧ MemoOk m' ∧ KeysNear N m' := by
  induction fuel with
  | zero => intro n m h; omega
  | succ fuel ih =>
    intro n m hf hm hk hn
    unfold memoization
    cases hg : BMap.get natCmp n m with
    | some s =>
      have := hm.correct n s hg
      subst this
      exact ⟨m, rfl, hm, hk⟩
    | none =>
      have h3 := memo_get_small hm hg
      have hn' : NearKey N n := by
        rcases hn with h | h
        · omega
        · exact h
      have hnear := nearKey_half h3 hn'
      by_cases hev : n % 2 = 0
      · obtain ⟨m1, e1, hm1, hk1⟩ := ih (n / 2) m (by omega) hm hk hnear.1
        obtain ⟨m2, e2, hm2, hk2⟩ := ih (n / 2 + 1) m1 (by omega) hm1 hk1 hnear.2
        have hs := fib_even_step (n / 2)
        have h2n : 2 * (n / 2) = n := by omega
        rw [h2n] at hs
        refine ⟨BMap.insert natCmp n (Nat.fib n) m2, ?_, hm2.insert n h3,
          keysNear_insert hk2 (Or.inr hn')⟩
        simp only [hev, if_true, e1, e2, Out.ok_bind, bigSub, hs.1, Out.pure_eq, hs.2]
      · obtain ⟨m1, e1, hm1, hk1⟩ := ih (n / 2 + 1) m (by omega) hm hk hnear.2
        obtain ⟨m2, e2, hm2, hk2⟩ := ih (n / 2) m1 (by omega) hm1 hk1 hnear.1
        have hs := fib_odd_step (n / 2)
        have h2n : 2 * (n / 2) + 1 = n := by omega
        rw [h2n] at hs
        refine ⟨BMap.insert natCmp n (Nat.fib n) m2, ?_, hm2.insert n h3,
          keysNear_insert hk2 (Or.inr hn')⟩
        simp only [hev, if_false, e1, e2, Out.ok_bind, Out.pure_eq, hs]

theorem fastRun_spec (n : Nat) : ∃ m', fibonacciFastRun n = .ok (Nat.fib n, m') ∧ MemoOk m' ∧
    KeysNear n m' := by
  refine memoization_spec n (n + 1) n memoInit (Nat.le_refl _) memoInit_ok ?_ ?_
  · intro e he
    left
    have : ∀ e ∈ memoInit, e.1 ≤ 2 := by decide
    exact this e he
  · right; exact ⟨0, by omega, by simp, by simp⟩

/-- C02: the memoised fast-doubling routine computes F(n) for every index, without panicking. -/
theorem C02_fibonacci_fast (n : Nat) : fibonacciFastU n = .ok (Nat.fib n) := by
  obtain ⟨m', h, -⟩ := fastRun_spec n
  simp [fibonacciFastU, h]

/-- C02: both unsigned routines agree everywhere. -/
theorem C02_fast_eq_fold (n : Nat) : fibonacciFastU n = .ok (fibonacciFoldU n) := by
  rw [C02_fibonacci_fast, C02_fibonacci_fold]

/-- C02: `fibonacci_i` is exact on every non-negative `isize`. -/
theorem C02_fibonacci_value (w : Width) (n : Nat) (h : (n : Int) < 2 ^ (w.bits - 1)) :
    fibonacciI w n = .ok (Nat.fib n : Int) := by
  have h1 : -(2 ^ (w.bits - 1) : Int) ≤ n := by
    have : (0 : Int) ≤ 2 ^ (w.bits - 1) := Int.le_of_lt (Int.pow_pos (by decide))
    omega
  have h3 : asUsize w (n : Int) = n := by
    have := asUsize_nonneg (w := w) (n := (n : Int)) (by omega) h
    omega
  rw [fibonacciI, toIsize_some h1 h]
  simp only [h3, C02_fibonacci_fast]
  rw [if_neg (by omega)]

/-- C02/C03: arguments outside `isize` give `OverFlow`. -/
theorem C02_fibonacci_overflow (w : Width) (n : Int)
    (h : n < -(2 ^ (w.bits - 1) : Int) ∨ (2 ^ (w.bits - 1) : Int) ≤ n) :
    fibonacciI w n = .err .overFlow := by
  rw [fibonacciI, toIsize_none h]

/-- Fibonacci numbers at negative indices, the mathematical extension
`F(-n) = (-1)^(n+1) F(n)`: the specification that C03 compares with. -/
def fibInt : Int → Int
  | .ofNat n => Nat.fib n
  | .negSucc n => if (n + 1) % 2 = 0 then -(Nat.fib (n + 1) : Int) else Nat.fib (n + 1)

/-- `fibInt` is the unique extension: it satisfies the recurrence at every integer. -/
theorem fibInt_rec (n : Int) : fibInt (n + 2) = fibInt (n + 1) + fibInt n := by
  obtain ⟨k, rfl | rfl⟩ := Int.eq_nat_or_neg n
  · show ((Nat.fib (k + 2) : Nat) : Int) = Nat.fib (k + 1) + Nat.fib k
    rw [Nat.fib_add_two]; push_cast; ring
  · match k with
    | 0 => decide
    | 1 => decide
    | k + 2 =>
      have e1 : (-((k + 2 : Nat) : Int)) = Int.negSucc (k + 1) := by omega
      have e2 : (-((k + 2 : Nat) : Int)) + 1 = Int.negSucc k := by omega
      rw [e2, e1]
      match k with
      | 0 => decide
      | k + 1 =>
        have e3 : Int.negSucc (k + 1 + 1) + 2 = Int.negSucc k := by omega
        rw [e3]
        have hf : Nat.fib (k + 1 + 1 + 1) = Nat.fib (k + 1) + Nat.fib (k + 1 + 1) :=
          Nat.fib_add_two
        show (if (k + 1) % 2 = 0 then -(Nat.fib (k + 1) : Int) else Nat.fib (k + 1))
          = (if (k + 1 + 1) % 2 = 0 then -(Nat.fib (k + 1 + 1) : Int) else Nat.fib (k + 1 + 1))
          + (if (k + 1 + 1 + 1) % 2 = 0 then -(Nat.fib (k + 1 + 1 + 1) : Int)
              else Nat.fib (k + 1 + 1 + 1))
        rw [hf]
        push_cast
        rcases Nat.mod_two_eq_zero_or_one (k + 1) with h | h
        · have h2 : (k + 1 + 1) % 2 = 1 := by omega
          have h3 : (k + 1 + 1 + 1) % 2 = 0 := by omega
          simp [h, h2, h3]
        · have h2 : (k + 1 + 1) % 2 = 0 := by omega
          have h3 : (k + 1 + 1 + 1) % 2 = 1 := by omega
          simp [h, h2, h3]

/-- C03, what the code does on negative indices: an even one panics. -/
theorem C03_fibonacci_negative_even (w : Width) (n : Int) (h0 : n < 0) (hev : n % 2 = 0)
    (h : -(2 ^ (w.bits - 1) : Int) ≤ n) : fibonacciI w n = .panic := by
  have h2 : n < (2 ^ (w.bits - 1) : Int) :=
    Int.lt_of_lt_of_le h0 (Int.le_of_lt (Int.pow_pos (by decide)))
  rw [fibonacciI, toIsize_some h h2]
  simp only [C02_fibonacci_fast]
  simp [h0, hev]

theorem asUsize_neg {w : Width} {k : Nat} (hk : 0 < k) (h : (k : Int) ≤ 2 ^ (w.bits - 1)) :
    asUsize w (-(k : Int)) = 2 ^ w.bits - k := by
  unfold asUsize
  cases w <;> simp only [Width.bits] at h ⊢ <;> norm_num at h ⊢ <;> omega

/-- C03, what the code does on negative indices: an odd one returns F(2^w - |n|). -/
theorem C03_fibonacci_negative_odd (w : Width) (k : Nat) (hodd : k % 2 = 1)
    (h : (k : Int) ≤ 2 ^ (w.bits - 1)) :
    fibonacciI w (-(k : Int)) = .ok (Nat.fib (2 ^ w.bits - k) : Int) := by
  have hpos : (0 : Int) < 2 ^ (w.bits - 1) := Int.pow_pos (by decide)
  rw [fibonacciI, toIsize_some (by omega) (by omega)]
  simp only [asUsize_neg (by omega) h, C02_fibonacci_fast]
  rw [if_neg (by omega)]

/-- C03 is violated: at no negative `isize` index does the code return the right value. -/
theorem C03_fibonacci_negative_wrong (w : Width) (n : Int) (h0 : n < 0)
    (h : -(2 ^ (w.bits - 1) : Int) ≤ n) : fibonacciI w n ≠ .ok (fibInt n) := by
  rcases Int.emod_two_eq_zero_or_one n with hev | hodd
  · rw [C03_fibonacci_negative_even w n h0 hev h]; simp
  · obtain ⟨k, rfl⟩ : ∃ k : Nat, n = -(k : Int) := ⟨n.natAbs, by omega⟩
    rw [C03_fibonacci_negative_odd w k (by omega) (by omega)]
    obtain ⟨j, rfl⟩ : ∃ j, k = j + 1 := ⟨k - 1, by omega⟩
    have e : (-((j + 1 : Nat) : Int)) = Int.negSucc j := by omega
    rw [e]
    have hf : fibInt (Int.negSucc j) = Nat.fib (j + 1) := by
      show (if (j + 1) % 2 = 0 then -(Nat.fib (j + 1) : Int) else Nat.fib (j + 1)) = _
      rw [if_neg (by omega)]
    rw [hf]
    have hlt : Nat.fib (j + 1) < Nat.fib (2 ^ w.bits - (j + 1)) := by
      have h2 : 2 ^ (w.bits - 1) + (j + 1) + 1 ≤ 2 ^ w.bits ∧ 2 ≤ 2 ^ (w.bits - 1) ∧
          j + 1 < 2 ^ (w.bits - 1) ∧ 2 ^ (w.bits - 1) < 2 ^ w.bits - (j + 1) := by
        cases w <;> simp only [Width.bits] at h ⊢ <;> norm_num at h ⊢ <;> omega
      calc Nat.fib (j + 1) ≤ Nat.fib (2 ^ (w.bits - 1)) := Nat.fib_mono (by omega)
        _ < Nat.fib (2 ^ w.bits - (j + 1)) := by
            apply (Nat.fib_lt_fib h2.2.1).2
            omega
    simp only [ne_eq, Out.ok.injEq]
    omega

/-- C03: the value it should return at -2 is -1, the code panics (a concrete witness). -/
theorem C03_witness : fibonacciI .w64 (-2) = .panic ∧ fibInt (-2) = -1 :=
  ⟨C03_fibonacci_negative_even .w64 (-2) (by decide) (by decide) (by decide), by decide⟩

theorem keys_nodup {m : BMap Nat Nat} (h : BMap.Sorted (cmp := natCmp) m) :
    (m.map Prod.fst).Nodup := by
  rw [List.nodup_iff_pairwise_ne, List.pairwise_map]
  refine List.Pairwise.imp ?_ h
  intro a b hab he
  rw [he, natCmp_lawful.refl] at hab
  simp at hab

/-- C04: the memo map never holds more than `3 * log2 n + 6` entries, for every index `n`
(termination is part of `C02_fibonacci_fast`). -/
theorem C04_fibonacci_work (n : Nat) : ∃ v m, fibonacciFastRun n = .ok (v, m) ∧
    m.length ≤ 3 * Nat.log 2 n + 6 := by
  obtain ⟨m, h, hm, hk⟩ := fastRun_spec n
  refine ⟨_, m, h, ?_⟩
  have hnd := keys_nodup hm.sorted
  let F : Finset Nat := {0, 1, 2} ∪
    (Finset.range (Nat.log 2 n + 1)).biUnion
      (fun i => {n / 2 ^ i, n / 2 ^ i + 1, n / 2 ^ i + 2})
  have hsub : (m.map Prod.fst).toFinset ⊆ F := by
    intro k hkm
    simp only [List.mem_toFinset, List.mem_map] at hkm
    obtain ⟨e, he, rfl⟩ := hkm
    simp only [F, Finset.mem_union, Finset.mem_insert, Finset.mem_singleton, Finset.mem_biUnion,
      Finset.mem_range]
    rcases hk e he with h' | ⟨i, hi, h1, h2⟩
    · left; omega
    · right; exact ⟨i, by omega, by omega⟩
  have hcard := Finset.card_le_card hsub
  rw [List.toFinset_card_of_nodup hnd, List.length_map] at hcard
  refine Nat.le_trans hcard ?_
  have hu := Finset.card_union_le ({0, 1, 2} : Finset Nat)
    ((Finset.range (Nat.log 2 n + 1)).biUnion
      (fun i => {n / 2 ^ i, n / 2 ^ i + 1, n / 2 ^ i + 2}))
  have hb : ((Finset.range (Nat.log 2 n + 1)).biUnion
      (fun i => ({n / 2 ^ i, n / 2 ^ i + 1, n / 2 ^ i + 2} : Finset Nat))).card
      ≤ (Finset.range (Nat.log 2 n + 1)).card * 3 :=
    Finset.card_biUnion_le_card_mul _ _ 3 (fun i _ => Finset.card_le_three)
  rw [Finset.card_range] at hb
  have h3 : ({0, 1, 2} : Finset Nat).card ≤ 3 := Finset.card_le_three
  calc F.card ≤ _ := hu
    _ ≤ _ := by omega

/-- `memoization` instrumented with the number of calls made (itself included). -/
def memoizationC : Nat → Nat → BMap Nat Nat → Out Unit ((Nat × BMap Nat Nat) × Nat)
  | 0, _, _ => .err ()
  | fuel + 1, n, m =>
    match BMap.get BMap.natCmp n m with
    | some s => .ok ((s, m), 1)
    | none => do
      let ((result, m), c) ←
        if n % 2 = 0 then do
          let ((a, m), c1) ← memoizationC fuel (n / 2) m
          let ((b, m), c2) ← memoizationC fuel (n / 2 + 1) m
          let d ← bigSub (b * 2) a
          pure ((a * d, m), c1 + c2)
        else do
          let ((a, m), c1) ← memoizationC fuel (n / 2 + 1) m
          let ((b, m), c2) ← memoizationC fuel (n / 2) m
          pure ((a * a + b * b, m), c1 + c2)
      pure ((result, BMap.insert BMap.natCmp n result m), c + 1)

/-- The instrumentation does not change the computation. -/
theorem memoizationC_erase (fuel : Nat) : ∀ n m,
    Prod.fst <$> memoizationC fuel n m = memoization fuel n m := by
  induction fuel with
  | zero => intros; rfl
  | succ fuel ih =>
    intro n m
    unfold memoizationC memoization
    cases BMap.get natCmp n m with
    | some s => rfl
    | none =>
      by_cases hev : n % 2 = 0
      · simp only [hev, if_true]
        rw [← ih (n / 2) m]
        rcases memoizationC fuel (n / 2) m with ⟨⟨a, m1⟩, c1⟩ | e | _ <;> simp
        rw [← ih (n / 2 + 1) m1]
        rcases memoizationC fuel (n / 2 + 1) m1 with ⟨⟨b, m2⟩, c2⟩ | e | _ <;> simp
      · simp only [hev, if_false]
        rw [← ih (n / 2 + 1) m]
        rcases memoizationC fuel (n / 2 + 1) m with ⟨⟨a, m1⟩, c1⟩ | e | _ <;> simp
        rw [← ih (n / 2) m1]
        rcases memoizationC fuel (n / 2) m1 with ⟨⟨b, m2⟩, c2⟩ | e | _ <;> simp

/-- Every call is either a hit or stores one new entry after two calls. -/
theorem memoizationC_count (fuel : Nat) : ∀ n m v m' c, MemoOk m →
    memoizationC fuel n m = .ok ((v, m'), c) →
    c + 2 * m.length = 2 * m'.length + 1 ∧ MemoOk m' ∧ v = Nat.fib n ∧
      ∀ k, n < k → 3 ≤ k → BMap.get natCmp k m' = BMap.get natCmp k m := by
  induction fuel with
  | zero => intro n m v m' c _ h; simp [memoizationC] at h
  | succ fuel ih =>
    intro n m v m' c hm h
    unfold memoizationC at h
    cases hg : BMap.get natCmp n m with
    | some s =>
      simp only [hg, Out.ok.injEq, Prod.mk.injEq] at h
      obtain ⟨⟨rfl, rfl⟩, rfl⟩ := h
      exact ⟨by omega, hm, hm.correct n _ hg, fun _ _ _ => rfl⟩
    | none =>
      have h3 := memo_get_small hm hg
      simp only [hg] at h
      have fin : ∀ (m1 m2 : BMap Nat Nat) (c1 c2 : Nat), MemoOk m2 →
          c1 + 2 * m.length = 2 * m1.length + 1 → c2 + 2 * m1.length = 2 * m2.length + 1 →
          (∀ k, n / 2 + 1 < k → 3 ≤ k → BMap.get natCmp k m1 = BMap.get natCmp k m) →
          (∀ k, n / 2 + 1 < k → 3 ≤ k → BMap.get natCmp k m2 = BMap.get natCmp k m1) →
          v = Nat.fib n → BMap.insert natCmp n v m2 = m' → c1 + c2 + 1 = c →
          c + 2 * m.length = 2 * m'.length + 1 ∧ MemoOk m' ∧ v = Nat.fib n ∧
            ∀ k, n < k → 3 ≤ k → BMap.get natCmp k m' = BMap.get natCmp k m := by
        intro m1 m2 c1 c2 hm2 hc1 hc2 hk1 hk2 hv hm' hc
        have hnone : BMap.get natCmp n m2 = none := by
          rw [hk2 n (by omega) h3, hk1 n (by omega) h3, hg]
        subst hm'
        refine ⟨?_, hv ▸ hm2.insert n h3, hv, ?_⟩
        · rw [length_insert_of_get_none hnone]; omega
        · intro k hk hk3
          rw [get_insert_nat _ _ _ _ hm2.sorted, if_neg (by omega), hk2 k (by omega) hk3,
            hk1 k (by omega) hk3]
      by_cases hev : n % 2 = 0
      · simp only [hev, if_true] at h
        cases e1 : memoizationC fuel (n / 2) m with
        | err e => rw [e1] at h; simp at h
        | panic => rw [e1] at h; simp at h
        | ok r1 =>
          obtain ⟨⟨a, m1⟩, c1⟩ := r1
          rw [e1] at h
          simp only [Out.ok_bind] at h
          obtain ⟨hc1, hm1, ha, hk1⟩ := ih _ _ _ _ _ hm e1
          cases e2 : memoizationC fuel (n / 2 + 1) m1 with
          | err e => rw [e2] at h; simp at h
          | panic => rw [e2] at h; simp at h
          | ok r2 =>
            obtain ⟨⟨b, m2⟩, c2⟩ := r2
            rw [e2] at h
            obtain ⟨hc2, hm2, hb, hk2⟩ := ih _ _ _ _ _ hm1 e2
            have hs := fib_even_step (n / 2)
            have h2n : 2 * (n / 2) = n := by omega
            rw [h2n] at hs
            subst ha hb
            simp only [Out.ok_bind, bigSub, hs.1, if_true, Out.pure_eq, hs.2, Out.ok.injEq,
              Prod.mk.injEq] at h
            obtain ⟨⟨hv, hm'⟩, hc⟩ := h
            exact fin m1 m2 c1 c2 hm2 hc1 hc2 (fun k hk h3 => hk1 k (by omega) h3) hk2 hv.symm
              (by rw [← hv]; exact hm') hc
      · simp only [hev, if_false] at h
        cases e1 : memoizationC fuel (n / 2 + 1) m with
        | err e => rw [e1] at h; simp at h
        | panic => rw [e1] at h; simp at h
        | ok r1 =>
          obtain ⟨⟨a, m1⟩, c1⟩ := r1
          rw [e1] at h
          simp only [Out.ok_bind] at h
          obtain ⟨hc1, hm1, ha, hk1⟩ := ih _ _ _ _ _ hm e1
          cases e2 : memoizationC fuel (n / 2) m1 with
          | err e => rw [e2] at h; simp at h
          | panic => rw [e2] at h; simp at h
          | ok r2 =>
            obtain ⟨⟨b, m2⟩, c2⟩ := r2
            rw [e2] at h
            obtain ⟨hc2, hm2, hb, hk2⟩ := ih _ _ _ _ _ hm1 e2
            have hs := fib_odd_step (n / 2)
            have h2n : 2 * (n / 2) + 1 = n := by omega
            rw [h2n] at hs
            subst ha hb
            simp only [Out.ok_bind, Out.pure_eq, hs, Out.ok.injEq, Prod.mk.injEq] at h
            obtain ⟨⟨hv, hm'⟩, hc⟩ := h
            exact fin m1 m2 c1 c2 hm2 hc1 hc2 hk1 (fun k hk h3 => hk2 k (by omega) h3) hv.symm
              (by rw [← hv]; exact hm') hc

/-- C04: the number of recursive calls is at most `6 * log2 n + 7`. -/
theorem C04_fibonacci_calls (n : Nat) : ∃ r c, memoizationC (n + 1) n memoInit = .ok (r, c) ∧
    fibonacciFastRun n = .ok r ∧ c ≤ 6 * Nat.log 2 n + 7 := by
  obtain ⟨v, m, h, hl⟩ := C04_fibonacci_work n
  have he := memoizationC_erase (n + 1) n memoInit
  have hr : memoization (n + 1) n memoInit = .ok (v, m) := h
  rw [hr] at he
  cases hc : memoizationC (n + 1) n memoInit with
  | err e => rw [hc] at he; simp at he
  | panic => rw [hc] at he; simp at he
  | ok rc =>
    obtain ⟨⟨v', m'⟩, c⟩ := rc
    rw [hc] at he
    simp only [Out.ok_map, Out.ok.injEq, Prod.mk.injEq] at he
    obtain ⟨rfl, rfl⟩ := he
    have := (memoizationC_count _ _ _ _ _ _ memoInit_ok hc).1
    have hi : memoInit.length = 3 := by decide
    exact ⟨_, c, rfl, h, by omega⟩

-- Concrete cases meeting the hypotheses.
example : fibonacciI .w64 (100 : Nat) = .ok 354224848179261915075 := by
  rw [C02_fibonacci_value .w64 100 (by decide)]; rfl
example : fibonacciI .w64 (-(3 : Nat)) = .ok (Nat.fib (2 ^ 64 - 3) : Int) :=
  C03_fibonacci_negative_odd .w64 3 (by decide) (by decide)
example : (∃ v m, fibonacciFastRun 1000 = .ok (v, m) ∧ m.length ≤ 33) :=
  C04_fibonacci_work 1000

end SM.Props
