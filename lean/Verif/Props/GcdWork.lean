import Verif.Props.Crt
import Mathlib.Data.Nat.Fib.Basic
/-
C78: the work of the extended Euclidean algorithm and of the Chinese remainder theorem.
-/
namespace SM.Props
open SM SM.Alg

/-! ### The loops, with a count of the divisions -/

/-- `egcdLoop` with a count of its divisions. -/
def egcdLoopC (r0 r1 s0 s1 t0 t1 : Int) : (Int × Int × Int) × Nat :=
  if _h : r0 = 0 then ((r1, s1, t1), 0)
  else
    let q := r1.tdiv r0
    let (res, k) := egcdLoopC (r1 - q * r0) r0 (s1 - q * s0) s0 (t1 - q * t0) t0
    (res, k + 1)
termination_by r0.natAbs
decreasing_by
  have hq : r1 - r1.tdiv r0 * r0 = r1.tmod r0 := by
    have := Int.tmod_def r1 r0
    rw [this, Int.mul_comm]
  show (r1 - r1.tdiv r0 * r0).natAbs < r0.natAbs
  rw [hq, Int.natAbs_tmod]
  exact Nat.mod_lt _ (Int.natAbs_pos.2 _h)

/-- `extendedGcd` with a count. -/
def extendedGcdC (a b : Int) : (Int × Int × Int) × Nat :=
  let ((g, x, y), k) := egcdLoopC b a 0 1 1 0
  (if g ≥ 0 then (g, x, y) else (0 - g, 0 - x, 0 - y), k)

/-- `moduloInverse` with a count. -/
def moduloInverseC (a m : Int) : Option Int × Nat :=
  let ((g, x, _), k) := extendedGcdC a m
  (if g = 1 then some (x + m) else none, k)

/-- `crtProd` with a count: one remainder for every factor. -/
def crtProdC (mi : Int) : List Int → Int → Out Unit (Int × Nat)
  | [], p => .ok (p, 0)
  | v :: l, p => do
    let q ← bigRem (p * v) mi
    let (r, k) ← crtProdC mi l q
    pure (r, k + 1)

/-- `crtT` with a count: one remainder for every digit. -/
def crtTC (mi : Int) : List (Int × Int) → Out Unit (Int × Nat)
  | [] => .ok (0, 0)
  | (vj, mj) :: l => do
    let (t, k) ← crtTC mi l
    let r ← bigRem vj mi
    pure (mj * t + r, k + 1)

/-- `crtLoop` with a count of all the divisions and remainders. -/
def crtLoopC : List (Int × Int) → (done v : List Int) → Out Unit (Option (List Int) × Nat)
  | [], _, v => .ok (some v, 0)
  | (ui, mi) :: rest, done, v => do
    let (p, k₁) ← crtProdC mi done 1
    match moduloInverseC p mi with
    | (none, k₂) => pure (none, k₁ + k₂)
    | (some ci, k₂) =>
      let (t, k₃) ← crtTC mi (v.zip done)
      let d ← bigRem ((ui - t) * ci) mi
      let (res, k₄) ← crtLoopC rest (done ++ [mi]) (v ++ [d])
      pure (res, k₁ + k₂ + k₃ + 1 + k₄)

/-- `chineseRemainder` with a count. -/
def chineseRemainderC (u m : List Int) : Out Unit (Option Int × Nat) :=
  if u.length ≠ m.length then .ok (none, 0)
  else do
    match ← crtLoopC (u.zip m) [] [] with
    | (none, k) => pure (none, k)
    | (some v, k) => do
      let r ← crtFinish v m
      pure (some r, k)

/-! ### Counting changes nothing -/

theorem egcdLoopC_erase (r0 r1 s0 s1 t0 t1 : Int) :
    (egcdLoopC r0 r1 s0 s1 t0 t1).1 = egcdLoop r0 r1 s0 s1 t0 t1 := by
  fun_induction egcdLoop r0 r1 s0 s1 t0 t1 with
  | case1 r1 s0 s1 t0 t1 => unfold egcdLoopC; simp
  | case2 r0 r1 s0 s1 t0 t1 h q ih =>
    rw [egcdLoopC, dif_neg h]
    exact ih

theorem extendedGcdC_erase (a b : Int) : (extendedGcdC a b).1 = extendedGcd a b := by
  unfold extendedGcdC extendedGcd
  rw [← egcdLoopC_erase]

theorem moduloInverseC_erase (a m : Int) : (moduloInverseC a m).1 = moduloInverse a m := by
  unfold moduloInverseC moduloInverse
  rw [← extendedGcdC_erase]

theorem crtProdC_erase (mi : Int) (l : List Int) : ∀ p, Prod.fst <$> crtProdC mi l p = crtProd mi l p := by
  induction l with
  | nil => intro p; rfl
  | cons v l ih =>
    intro p
    unfold crtProdC crtProd
    cases bigRem (p * v) mi with
    | ok q =>
      simp only [Out.ok_bind]
      rw [← ih q]
      cases crtProdC mi l q <;> rfl
    | err e => rfl
    | panic => rfl

theorem crtTC_erase (mi : Int) (l : List (Int × Int)) : Prod.fst <$> crtTC mi l = crtT mi l := by
  induction l with
  | nil => rfl
  | cons v l ih =>
    obtain ⟨vj, mj⟩ := v
    unfold crtTC crtT
    rw [← ih]
    cases crtTC mi l with
    | ok t => simp only [Out.ok_bind, Out.ok_map]; cases bigRem vj mi <;> rfl
    | err e => rfl
    | panic => rfl

theorem crtLoopC_erase (l : List (Int × Int)) : ∀ done v,
    Prod.fst <$> crtLoopC l done v = crtLoop l done v := by
  induction l with
  | nil => intro done v; rfl
  | cons e l ih =>
    obtain ⟨ui, mi⟩ := e
    intro done v
    unfold crtLoopC crtLoop
    rw [← crtProdC_erase]
    cases crtProdC mi done 1 with
    | err e => rfl
    | panic => rfl
    | ok pk =>
      obtain ⟨p, k₁⟩ := pk
      simp only [Out.ok_bind, Out.ok_map]
      rw [← moduloInverseC_erase]
      rcases moduloInverseC p mi with ⟨_ | ci, k₂⟩
      · rfl
      · dsimp only
        rw [← crtTC_erase]
        cases crtTC mi (v.zip done) with
        | err e => rfl
        | panic => rfl
        | ok tk =>
          obtain ⟨t, k₃⟩ := tk
          simp only [Out.ok_bind, Out.ok_map]
          cases bigRem ((ui - t) * ci) mi with
          | err e => rfl
          | panic => rfl
          | ok d =>
            simp only [Out.ok_bind]
            rw [← ih]
            cases crtLoopC l (done ++ [mi]) (v ++ [d]) <;> rfl

theorem chineseRemainderC_erase (u m : List Int) :
    Prod.fst <$> chineseRemainderC u m = chineseRemainder u m := by
  unfold chineseRemainderC chineseRemainder
  by_cases h : u.length ≠ m.length
  · rw [if_pos h, if_pos h]; rfl
  · rw [if_neg h, if_neg h, ← crtLoopC_erase]
    cases crtLoopC (u.zip m) [] [] with
    | err e => rfl
    | panic => rfl
    | ok r =>
      rcases r with ⟨_ | v, k⟩
      · rfl
      · simp only [Out.ok_bind, Out.ok_map]
        cases crtFinish v m <;> rfl

/-! ### Divisions of the Euclidean algorithm -/

theorem egcd_next (r0 r1 : Int) : (r1 - r1.tdiv r0 * r0).natAbs = r1.natAbs % r0.natAbs := by
  have : r1 - r1.tdiv r0 * r0 = r1.tmod r0 := by rw [Int.tmod_def, Int.mul_comm]
  rw [this, Int.natAbs_tmod]

/-- The count depends on the two remainders only, and is that of the Euclidean algorithm. -/
theorem egcdLoopC_step (r0 r1 s0 s1 t0 t1 : Int) (h : r0 ≠ 0) : (egcdLoopC r0 r1 s0 s1 t0 t1).2 =
    (egcdLoopC (r1 - r1.tdiv r0 * r0) r0 (s1 - r1.tdiv r0 * s0) s0 (t1 - r1.tdiv r0 * t0) t0).2 + 1 := by
  rw [egcdLoopC, dif_neg h]

/-- `k` divisions need a divisor at least as large as a Fibonacci number. -/
theorem egcdLoopC_fib (k : Nat) : ∀ (r0 r1 s0 s1 t0 t1 : Int),
    (egcdLoopC r0 r1 s0 s1 t0 t1).2 = k + 1 → Nat.fib (k + 2) ≤ r0.natAbs := by
  induction k using Nat.strong_induction_on with
  | _ k ih =>
    intro r0 r1 s0 s1 t0 t1 hk
    have h0 : r0 ≠ 0 := by
      rintro rfl
      rw [egcdLoopC, dif_pos rfl] at hk
      simp at hk
    rw [egcdLoopC_step _ _ _ _ _ _ h0] at hk
    have hk := Nat.succ.inj hk
    have hlt : (r1 - r1.tdiv r0 * r0).natAbs < r0.natAbs := by
      rw [egcd_next]; exact Nat.mod_lt _ (Int.natAbs_pos.2 h0)
    match k, ih, hk with
    | 0, _, _ => exact Int.natAbs_pos.2 h0
    | 1, ih, hk =>
      have := ih 0 (by omega) _ _ _ _ _ _ hk
      have e1 : Nat.fib (0 + 2) = 1 := rfl
      have e2 : Nat.fib (1 + 2) = 2 := rfl
      omega
    | k + 2, ih, hk =>
      have h1 := ih (k + 1) (by omega) _ _ _ _ _ _ hk
      have hne : r1 - r1.tdiv r0 * r0 ≠ 0 := by
        intro h
        rw [h, egcdLoopC, dif_pos rfl] at hk
        simp at hk
      rw [egcdLoopC_step _ _ _ _ _ _ hne] at hk
      have h2 := ih k (by omega) _ _ _ _ _ _ (Nat.succ.inj hk)
      rw [egcd_next] at h2
      have h3 : r0.natAbs % (r1 - r1.tdiv r0 * r0).natAbs + (r1 - r1.tdiv r0 * r0).natAbs ≤ r0.natAbs := by
        have hd := Nat.div_add_mod r0.natAbs (r1 - r1.tdiv r0 * r0).natAbs
        have hq : 1 ≤ r0.natAbs / (r1 - r1.tdiv r0 * r0).natAbs :=
          Nat.div_pos hlt.le (Int.natAbs_pos.2 hne)
        have := Nat.mul_le_mul_left (r1 - r1.tdiv r0 * r0).natAbs hq
        omega
      have := Nat.fib_add_two (n := k + 2)
      have e : k + 2 + 1 = k + 1 + 2 := by omega
      rw [e] at this
      omega

/-- C78: if the extended Euclidean algorithm on `a` and `b` divides `k` times, for some `k` above
zero, then `|b|` is at least the Fibonacci number `k + 1`. -/
theorem C78_fib (a b : Int) {k : Nat} (h : (extendedGcdC a b).2 = k) (hk : 1 ≤ k) :
    Nat.fib (k + 1) ≤ b.natAbs := by
  obtain ⟨j, rfl⟩ : ∃ j, k = j + 1 := ⟨k - 1, by omega⟩
  exact egcdLoopC_fib j b a 0 1 1 0 h

theorem fib_five (n : Nat) : 10 * Nat.fib (n + 2) ≤ Nat.fib (n + 7) := by
  have h1 := Nat.fib_add_two (n := n + 1)
  have h2 := Nat.fib_add_two (n := n + 2)
  have h3 := Nat.fib_add_two (n := n + 3)
  have h4 := Nat.fib_add_two (n := n + 4)
  have h5 := Nat.fib_add_two (n := n + 5)
  have h6 := Nat.fib_add_two (n := n)
  have h7 : Nat.fib n ≤ Nat.fib (n + 1) := Nat.fib_le_fib_succ
  simp only [Nat.add_assoc, Nat.reduceAdd] at *
  omega

theorem fib_digits (d : Nat) : 10 ^ d ≤ Nat.fib (5 * d + 2) := by
  induction d with
  | zero => exact le_refl _
  | succ d ih =>
    have := fib_five (5 * d)
    have e : 5 * (d + 1) + 2 = 5 * d + 7 := by omega
    rw [e, pow_succ]
    omega

/-- C78: Lamé's bound: at most five divisions for every decimal digit of the second argument. -/
theorem C78_digits (a b : Int) {d : Nat} (h : b.natAbs < 10 ^ d) : (extendedGcdC a b).2 ≤ 5 * d := by
  by_contra hc
  push Not at hc
  have h1 := C78_fib a b rfl (by omega)
  have h2 := fib_digits d
  have h3 := Nat.fib_mono (show 5 * d + 2 ≤ (extendedGcdC a b).2 + 1 by omega)
  omega

/-- The count of divisions on two consecutive Fibonacci numbers. -/
theorem egcdLoopC_worst (n : Nat) : ∀ s0 s1 t0 t1 : Int,
    (egcdLoopC (Nat.fib (n + 2)) (Nat.fib (n + 3)) s0 s1 t0 t1).2 = n + 1 := by
  induction n with
  | zero =>
    intro s0 s1 t0 t1
    rw [egcdLoopC_step _ _ _ _ _ _ (by decide)]
    have : ((Nat.fib (0 + 3) : Nat) : Int) - ((Nat.fib (0 + 3) : Nat) : Int).tdiv (Nat.fib (0 + 2) : Nat) * (Nat.fib (0 + 2) : Nat) = 0 := by decide
    rw [this, egcdLoopC, dif_pos rfl]
  | succ n ih =>
    intro s0 s1 t0 t1
    have hp : 0 < Nat.fib (n + 3) := Nat.fib_pos.2 (by omega)
    rw [show n + 1 + 2 = n + 3 by omega, show n + 1 + 3 = n + 4 by omega,
      egcdLoopC_step _ _ _ _ _ _ (by exact_mod_cast hp.ne')]
    have hf : Nat.fib (n + 4) = Nat.fib (n + 2) + Nat.fib (n + 3) := Nat.fib_add_two (n := n + 2)
    have hl : Nat.fib (n + 2) < Nat.fib (n + 3) := Nat.fib_lt_fib_succ (by omega)
    have hq : ((Nat.fib (n + 4) : Nat) : Int).tdiv (Nat.fib (n + 3) : Nat) = 1 := by
      rw [← Int.ofNat_tdiv]
      have : Nat.fib (n + 4) / Nat.fib (n + 3) = 1 := by
        rw [hf, Nat.add_div_right _ hp, Nat.div_eq_of_lt hl]
      rw [this]; rfl
    rw [hq]
    have hr : ((Nat.fib (n + 4) : Nat) : Int) - 1 * (Nat.fib (n + 3) : Nat) = (Nat.fib (n + 2) : Nat) := by
      rw [hf]; push_cast; ring
    rw [hr, ih]

/-- C78: the bound is attained: on consecutive Fibonacci numbers. -/
theorem C78_worst (n : Nat) : (extendedGcdC (Nat.fib (n + 3)) (Nat.fib (n + 2))).2 = n + 1 :=
  egcdLoopC_worst n 0 1 1 0

/-- C78: the inverse of `a` modulo `m` is found with at most five divisions for every decimal digit
of the modulus, and so is found that there is none. -/
theorem C78_inverse (a m : Int) {d : Nat} (h : m.natAbs < 10 ^ d) :
    (moduloInverseC a m).1 = moduloInverse a m ∧ (moduloInverseC a m).2 ≤ 5 * d :=
  ⟨moduloInverseC_erase a m, C78_digits a m h⟩

/-! ### The Chinese remainder theorem -/

theorem crtProdC_count {mi : Int} {l : List Int} : ∀ {p r : Int} {k : Nat},
    crtProdC mi l p = .ok (r, k) → k = l.length := by
  induction l with
  | nil => intro p r k h; injection h with h; injection h with _ h; exact h.symm
  | cons v l ih =>
    intro p r k h
    unfold crtProdC at h
    cases hb : bigRem (p * v) mi with
    | ok q =>
      rw [hb, Out.ok_bind] at h
      cases hc : crtProdC mi l q with
      | ok x =>
        rw [hc] at h
        injection h with h; injection h with _ h
        have := ih (k := x.2) hc
        simp only [List.length_cons]; omega
      | err e => rw [hc] at h; nomatch h
      | panic => rw [hc] at h; nomatch h
    | err e => rw [hb] at h; nomatch h
    | panic => rw [hb] at h; nomatch h

theorem crtTC_count {mi : Int} {l : List (Int × Int)} : ∀ {r : Int} {k : Nat},
    crtTC mi l = .ok (r, k) → k = l.length := by
  induction l with
  | nil => intro r k h; injection h with h; injection h with _ h; exact h.symm
  | cons v l ih =>
    obtain ⟨vj, mj⟩ := v
    intro r k h
    unfold crtTC at h
    cases hc : crtTC mi l with
    | ok x =>
      rw [hc, Out.ok_bind] at h
      have := ih (k := x.2) hc
      cases hb : bigRem vj mi with
      | ok q =>
        rw [hb] at h
        injection h with h; injection h with _ h
        simp only [List.length_cons]; omega
      | err e => rw [hb] at h; nomatch h
      | panic => rw [hb] at h; nomatch h
    | err e => rw [hc] at h; nomatch h
    | panic => rw [hc] at h; nomatch h

theorem crtLoopC_count {d : Nat} (l : List (Int × Int)) : ∀ {done v : List Int} {r : Option (List Int)} {k : Nat},
    (∀ e ∈ l, e.2.natAbs < 10 ^ d) → crtLoopC l done v = .ok (r, k) →
    k ≤ l.length * (2 * done.length + l.length + 5 * d) := by
  induction l with
  | nil => intro done v r k _ h; injection h with h; injection h with _ h; omega
  | cons e l ih =>
    obtain ⟨ui, mi⟩ := e
    intro done v r k hm h
    unfold crtLoopC at h
    cases hp : crtProdC mi done 1 with
    | err e => rw [hp] at h; nomatch h
    | panic => rw [hp] at h; nomatch h
    | ok pk =>
      obtain ⟨p, k₁⟩ := pk
      have e₁ := crtProdC_count hp
      rw [hp, Out.ok_bind] at h
      have e₂ := (C78_inverse p mi (hm _ List.mem_cons_self)).2
      dsimp only at h
      have hn : l.length * (2 * (done.length + 1) + l.length + 5 * d) +
          (2 * done.length + 1 + 5 * d) = (l.length + 1) * (2 * done.length + (l.length + 1) + 5 * d) := by ring
      rw [List.length_cons, ← hn]
      rcases hi : moduloInverseC p mi with ⟨_ | ci, k₂⟩ <;> rw [hi] at h e₂ <;> dsimp only at h e₂
      · injection h with h; injection h with _ h
        have := Nat.zero_le (l.length * (2 * (done.length + 1) + l.length + 5 * d))
        omega
      · cases ht : crtTC mi (v.zip done) with
        | err e => rw [ht] at h; nomatch h
        | panic => rw [ht] at h; nomatch h
        | ok tk =>
          obtain ⟨t, k₃⟩ := tk
          have e₃ := crtTC_count ht
          rw [ht, Out.ok_bind] at h
          dsimp only at h
          cases hb : bigRem ((ui - t) * ci) mi with
          | err e => rw [hb] at h; nomatch h
          | panic => rw [hb] at h; nomatch h
          | ok dd =>
            rw [hb, Out.ok_bind] at h
            cases hc : crtLoopC l (done ++ [mi]) (v ++ [dd]) with
            | err e => rw [hc] at h; nomatch h
            | panic => rw [hc] at h; nomatch h
            | ok x =>
              obtain ⟨res, k₄⟩ := x
              rw [hc] at h
              injection h with h; injection h with _ h
              have e₄ := ih (fun e he => hm e (List.mem_cons_of_mem _ he)) hc
              have e₅ : (v.zip done).length ≤ done.length := by rw [List.length_zip]; exact Nat.min_le_right _ _
              rw [List.length_append, List.length_singleton] at e₄
              omega

/-- C78: the Chinese remainder theorem for `n` moduli of at most `d` decimal digits divides (or
takes a remainder) at most `n² + 5 n d` times, whether or not there is a solution. -/
theorem C78_crt (u m : List Int) {d k : Nat} {r : Option Int} (hd : ∀ x ∈ m, x.natAbs < 10 ^ d)
    (h : chineseRemainderC u m = .ok (r, k)) :
    chineseRemainder u m = .ok r ∧ k ≤ m.length ^ 2 + 5 * m.length * d := by
  refine ⟨by rw [← chineseRemainderC_erase, h]; rfl, ?_⟩
  unfold chineseRemainderC at h
  by_cases hl : u.length ≠ m.length
  · rw [if_pos hl] at h
    injection h with h; injection h with _ h
    omega
  · rw [if_neg hl] at h
    push Not at hl
    cases hc : crtLoopC (u.zip m) [] [] with
    | err e => rw [hc] at h; nomatch h
    | panic => rw [hc] at h; nomatch h
    | ok x =>
      obtain ⟨r', k'⟩ := x
      have hb := crtLoopC_count (u.zip m) (fun e he => hd _ (List.of_mem_zip (a := e.1) (b := e.2) he).2) hc
      have hk : k = k' := by
        rw [hc, Out.ok_bind] at h
        cases r' with
        | none => injection h with h; injection h with _ h; exact h.symm
        | some v =>
          dsimp only at h
          cases hf : crtFinish v m with
          | err e => rw [hf] at h; nomatch h
          | panic => rw [hf] at h; nomatch h
          | ok y => rw [hf] at h; injection h with h; injection h with _ h; exact h.symm
      rw [List.length_zip, hl, Nat.min_self] at hb
      simp only [List.length_nil, Nat.mul_zero, Nat.zero_add] at hb
      calc k = k' := hk
        _ ≤ _ := hb
        _ = _ := by ring

-- 314 and 271 (test_extend_gcd): at most fifteen divisions.
example : (extendedGcdC 314 271).2 ≤ 15 := C78_digits 314 271 (d := 3) (by decide)
-- 987 and 610, the Fibonacci numbers 16 and 15: fourteen divisions.
example : (extendedGcdC 987 610).2 = 14 := C78_worst 13
-- The system of test_crt.
example : ∃ r, chineseRemainderC [2, 3, 2] [3, 5, 7] = .ok r ∧ r.2 ≤ 24 := by
  obtain ⟨r, h⟩ := (C11_crt_complete [2, 3, 2] [3, 5, 7] rfl (by decide) (by decide)).1.2 (by decide)
  rw [← chineseRemainderC_erase] at h
  cases hc : chineseRemainderC [2, 3, 2] [3, 5, 7] with
  | ok x => exact ⟨x, rfl, (C78_crt [2, 3, 2] [3, 5, 7] (d := 1) (by decide) hc).2⟩
  | err e => rw [hc] at h; nomatch h
  | panic => rw [hc] at h; nomatch h

end SM.Props
