import Verif.Alg.Basic
import Mathlib.Data.Int.ModEq
import Mathlib.Data.Int.GCD
import Mathlib.Tactic.Ring
import Mathlib.Tactic.Linarith
import Mathlib.RingTheory.Coprime.Lemmas
/-
C05-C09: powers, extended gcd and modular arithmetic.
-/
namespace SM.Props
open SM SM.Alg

/-! ## C05 power -/

/-- C05: exact for exponents `2 <= b < 2^32`. -/
theorem C05_power_value (a : Int) (b : Nat) (h2 : 2 ≤ b) (h : b < 2 ^ 32) :
    powerIU a b = .ok (a ^ b) := by
  unfold powerIU
  by_cases ha : a = 0
  · subst ha
    rw [if_neg (by omega), if_pos (by simp), Int.zero_pow (by omega)]
  · rw [if_neg (by omega), if_neg (by omega)]
    by_cases h1 : a = 1
    · subst h1; simp
    · rw [if_neg h1, if_neg (by omega)]
      have : toU32 b = some b := by unfold toU32; rw [if_pos h]
      simp [this]

/-- C05: bases 0 and 1 are exact for every exponent `>= 1`, however large. -/
theorem C05_power_trivial_base (a : Int) (b : Nat) (ha : a = 0 ∨ a = 1) (hb : 1 ≤ b) :
    powerIU a b = .ok (a ^ b) := by
  unfold powerIU
  rcases ha with rfl | rfl
  · rw [if_neg (by omega), if_pos (by simp), Int.zero_pow (by omega)]
  · rw [if_neg (by omega), if_neg (by omega)]; simp

/-- C05: `0^0` is indeterminate. -/
theorem C05_power_zero_zero : powerIU 0 0 = .err .indeterminate := by
  simp [powerIU]

/-- C05: exponents that do not fit 32 bits overflow, for every base except 0 and 1. -/
theorem C05_power_overflow (a : Int) (b : Nat) (h0 : a ≠ 0) (h1 : a ≠ 1) (h : 2 ^ 32 ≤ b) :
    powerIU a b = .err .overFlow := by
  unfold powerIU
  rw [if_neg (by omega), if_neg (by omega), if_neg h1, if_neg (by omega)]
  have : toU32 b = none := by unfold toU32; rw [if_neg (by omega)]
  simp [this]

/-- C05, violation: every `a^0` with `a ≠ 0` is answered 0. -/
theorem C05_power_zero_exponent (a : Int) (h0 : a ≠ 0) :
    powerIU a 0 = .ok 0 ∧ a ^ 0 ≠ 0 := by
  constructor
  · unfold powerIU; rw [if_neg (by omega), if_pos (by simp)]
  · simp

/-- C05, violation: every `a^1` with `a ≠ 0` is answered 1. -/
theorem C05_power_one_exponent (a : Int) (h0 : a ≠ 0) : powerIU a 1 = .ok 1 := by
  unfold powerIU
  rw [if_neg (by omega), if_neg (by omega)]
  by_cases h1 : a = 1 <;> simp [h1]

/-- C05: the exact set of arguments on which the answer is the true power. -/
theorem C05_power_correct_iff (a : Int) (b : Nat) :
    powerIU a b = .ok (a ^ b) ↔
      (a = 0 ∧ 1 ≤ b) ∨ (a = 1 ∧ 1 ≤ b) ∨ (2 ≤ b ∧ b < 2 ^ 32) := by
  constructor
  · intro h
    by_cases hb0 : b = 0
    · subst hb0
      by_cases ha : a = 0
      · subst ha; simp [C05_power_zero_zero] at h
      · rw [(C05_power_zero_exponent a ha).1] at h; simp at h
    · by_cases hb1 : b = 1
      · subst hb1
        by_cases ha : a = 0
        · left; exact ⟨ha, by omega⟩
        · rw [C05_power_one_exponent a ha] at h
          simp at h
          right; left; exact ⟨h.symm, by omega⟩
      · by_cases hb : b < 2 ^ 32
        · right; right; omega
        · by_cases ha : a = 0
          · left; omega
          · by_cases h1 : a = 1
            · right; left; omega
            · rw [C05_power_overflow a b ha h1 (by omega)] at h; simp at h
  · rintro (⟨ha, hb⟩ | ⟨ha, hb⟩ | ⟨h2, h⟩)
    · exact C05_power_trivial_base a b (Or.inl ha) hb
    · exact C05_power_trivial_base a b (Or.inr ha) hb
    · exact C05_power_value a b h2 h

example : powerIU (-2) 16 = .ok 65536 := by
  rw [C05_power_value (-2) 16 (by decide) (by decide)]; rfl
example : powerIU 7 (2 ^ 40) = .err .overFlow :=
  C05_power_overflow 7 (2 ^ 40) (by decide) (by decide) (by decide)
example : powerIU 5 0 = .ok 0 := (C05_power_zero_exponent 5 (by decide)).1

/-! ## C06 extended gcd -/

theorem egcdLoop_bezout (a b : Int) (r0 r1 s0 s1 t0 t1 : Int) :
    r0 = a * s0 + b * t0 → r1 = a * s1 + b * t1 →
    (egcdLoop r0 r1 s0 s1 t0 t1).1 =
      a * (egcdLoop r0 r1 s0 s1 t0 t1).2.1 + b * (egcdLoop r0 r1 s0 s1 t0 t1).2.2 := by
  fun_induction egcdLoop r0 r1 s0 s1 t0 t1 with
  | case1 r1 s0 s1 t0 t1 => intro _ h; exact h
  | case2 r0 r1 s0 s1 t0 t1 h q ih =>
    intro h0 h1
    apply ih
    · rw [h0, h1]; ring
    · exact h0

theorem egcdLoop_gcd (r0 r1 s0 s1 t0 t1 : Int) :
    (egcdLoop r0 r1 s0 s1 t0 t1).1.natAbs = Int.gcd r0 r1 := by
  fun_induction egcdLoop r0 r1 s0 s1 t0 t1 with
  | case1 r1 s0 s1 t0 t1 => simp
  | case2 r0 r1 s0 s1 t0 t1 h q ih =>
    rw [ih, Int.gcd_sub_mul_right_left, Int.gcd_comm]

theorem extendedGcd_gcd (a b : Int) : (extendedGcd a b).1 = (Int.gcd a b : Int) := by
  have h := egcdLoop_gcd b a 0 1 1 0
  rw [Int.gcd_comm] at h
  unfold extendedGcd
  generalize egcdLoop b a 0 1 1 0 = r at h
  obtain ⟨g, x, y⟩ := r
  simp only at h ⊢
  split <;> simp only <;> omega

theorem extendedGcd_bezout (a b : Int) :
    (extendedGcd a b).1 = a * (extendedGcd a b).2.1 + b * (extendedGcd a b).2.2 := by
  have h := egcdLoop_bezout a b b a 0 1 1 0 (by ring) (by ring)
  unfold extendedGcd
  generalize egcdLoop b a 0 1 1 0 = r at h
  obtain ⟨g, x, y⟩ := r
  simp only at h ⊢
  split
  · exact h
  · simp only; rw [h]; ring

/-- C06: `extended_gcd2` returns the gcd and two Bezout coefficients.  (The loop is defined by
well-founded recursion, so termination for all arguments is part of the definition.) -/
theorem C06_extended_gcd (a b : Int) : ∃ x y, extendedGcd2 a b = ((Int.gcd a b : Int), [x, y]) ∧
    a * x + b * y = (Int.gcd a b : Int) := by
  refine ⟨(extendedGcd a b).2.1, (extendedGcd a b).2.2, ?_, ?_⟩
  · rw [← extendedGcd_gcd]; rfl
  · rw [← extendedGcd_gcd, ← extendedGcd_bezout]

theorem tdiv_mul_self_nonneg (r1 r0 : Int) : 0 ≤ r1.tdiv r0 * r0 * (r1 - r1.tdiv r0 * r0) := by
  have hq : r1 - r1.tdiv r0 * r0 = r1.tmod r0 := by
    rw [Int.tmod_def, Int.mul_comm]
  rw [hq]
  rcases le_total 0 r1 with h | h
  · have h1 : 0 ≤ r1.tmod r0 := Int.tmod_nonneg _ h
    have h2 : 0 ≤ r1.tdiv r0 * r0 := by
      rcases le_total 0 r0 with h3 | h3
      · exact mul_nonneg (Int.tdiv_nonneg h h3) h3
      · have : r1.tdiv r0 ≤ 0 := Int.tdiv_nonpos_of_nonneg_of_nonpos h h3
        exact mul_nonneg_of_nonpos_of_nonpos this h3
    exact mul_nonneg h2 h1
  · have h1 : r1.tmod r0 ≤ 0 := by
      have := Int.tmod_nonneg r0 (a := -r1) (by omega)
      rw [Int.neg_tmod] at this; omega
    have h2 : r1.tdiv r0 * r0 ≤ 0 := by
      have e : r1.tdiv r0 * r0 = -((-r1).tdiv r0 * r0) := by rw [Int.neg_tdiv]; ring
      rw [e]
      rcases le_total 0 r0 with h3 | h3
      · have := mul_nonneg (Int.tdiv_nonneg (a := -r1) (by omega) h3) h3
        omega
      · have h4 : (-r1).tdiv r0 ≤ 0 := Int.tdiv_nonpos_of_nonneg_of_nonpos (by omega) h3
        have := mul_nonneg_of_nonpos_of_nonpos h4 h3
        omega
    exact mul_nonneg_of_nonpos_of_nonpos h2 h1

theorem tmod_sign (r1 r0 : Int) : 0 ≤ r1 * (r1 - r1.tdiv r0 * r0) := by
  have hq : r1 - r1.tdiv r0 * r0 = r1.tmod r0 := by
    rw [Int.tmod_def, Int.mul_comm]
  rw [hq]
  rcases le_total 0 r1 with h | h
  · exact mul_nonneg h (Int.tmod_nonneg _ h)
  · have h1 : r1.tmod r0 ≤ 0 := by
      have := Int.tmod_nonneg r0 (a := -r1) (by omega)
      rw [Int.neg_tmod] at this; omega
    exact mul_nonneg_of_nonpos_of_nonpos h h1

theorem sign_step (r0 r1 s0 s1 : Int) (h : r1 * s0 * (r0 * s1) ≤ 0) :
    r0 * (s1 - r1.tdiv r0 * s0) * ((r1 - r1.tdiv r0 * r0) * s0) ≤ 0 := by
  have hA := tdiv_mul_self_nonneg r1 r0
  have hB := tmod_sign r1 r0
  have hzero : r1 = 0 → r1.tdiv r0 = 0 := by rintro rfl; exact Int.zero_tdiv r0
  generalize r1.tdiv r0 = q at *
  by_cases hr : r1 = 0
  · have := hzero hr; subst this hr; simp
  · have h1 : 0 < r1 * r1 := mul_self_pos.2 hr
    have h2 : (r1 * s0 * (r0 * s1)) * (r1 * (r1 - q * r0)) ≤ 0 :=
      mul_nonpos_of_nonpos_of_nonneg h hB
    have h3 : (r1 * r1) * (r0 * s1 * ((r1 - q * r0) * s0)) ≤ 0 := by
      calc _ = (r1 * s0 * (r0 * s1)) * (r1 * (r1 - q * r0)) := by ring
        _ ≤ 0 := h2
    have h4 : r0 * s1 * ((r1 - q * r0) * s0) ≤ 0 := by
      by_contra hc
      have := mul_pos h1 (not_le.1 hc)
      omega
    have h5 : 0 ≤ (q * r0 * (r1 - q * r0)) * (s0 * s0) := mul_nonneg hA (mul_self_nonneg s0)
    have e : r0 * (s1 - q * s0) * ((r1 - q * r0) * s0)
        = r0 * s1 * ((r1 - q * r0) * s0) - (q * r0 * (r1 - q * r0)) * (s0 * s0) := by ring
    omega

theorem abs_le_of_opposite {U V : Int} (h : U * V ≤ 0) : U.natAbs ≤ (U - V).natAbs := by
  rcases lt_trichotomy U 0 with hu | hu | hu
  · have : 0 ≤ V := by
      by_contra hc
      have := mul_pos_of_neg_of_neg hu (not_le.1 hc)
      omega
    omega
  · omega
  · have : V ≤ 0 := by
      by_contra hc
      have := mul_pos hu (not_le.1 hc)
      omega
    omega

theorem egcdLoop_bound (b : Nat) (r0 r1 s0 s1 t0 t1 : Int) :
    (r1 * s0 - r0 * s1).natAbs = b → r1 * s0 * (r0 * s1) ≤ 0 →
    (s0 = 0 ∨ r0.natAbs < r1.natAbs) → (r0 = 0 → 2 * (r1 * s1).natAbs ≤ b) →
    2 * ((egcdLoop r0 r1 s0 s1 t0 t1).1 * (egcdLoop r0 r1 s0 s1 t0 t1).2.1).natAbs ≤ b := by
  fun_induction egcdLoop r0 r1 s0 s1 t0 t1 with
  | case1 r1 s0 s1 t0 t1 => intro _ _ _ h; exact h rfl
  | case2 r0 r1 s0 s1 t0 t1 h q ih =>
    intro hdet hsgn hlt _
    have hq : r1 - q * r0 = r1.tmod r0 := by
      rw [Int.tmod_def, Int.mul_comm]
    apply ih
    · have e : r0 * (s1 - q * s0) - (r1 - q * r0) * s0 = -(r1 * s0 - r0 * s1) := by ring
      rw [e, Int.natAbs_neg, hdet]
    · exact sign_step r0 r1 s0 s1 hsgn
    · right
      rw [hq, Int.natAbs_tmod]
      exact Nat.mod_lt _ (Int.natAbs_pos.2 h)
    · intro hz
      rcases hlt with h0 | hlt
      · rw [h0]; simp
      · have hle := abs_le_of_opposite hsgn
        rw [hdet] at hle
        have hr1 : r1 = q * r0 := by omega
        have hq2 : 2 ≤ q.natAbs := by
          have : r1.natAbs = q.natAbs * r0.natAbs := by rw [hr1, Int.natAbs_mul]
          by_contra hc
          have hc' : q.natAbs ≤ 1 := by omega
          have := Nat.mul_le_mul_right r0.natAbs hc'
          omega
        calc 2 * (r0 * s0).natAbs ≤ q.natAbs * (r0 * s0).natAbs := Nat.mul_le_mul_right _ hq2
          _ = (r1 * s0).natAbs := by rw [hr1, ← Int.natAbs_mul]; congr 1; ring
          _ ≤ b := hle

/-- C06: the first coefficient is minimal in size: `2 * g * |x| <= |b|` whenever `b ≠ 0`. -/
theorem C06_coefficient_bound (a b : Int) (hb : b ≠ 0) :
    2 * ((extendedGcd a b).1 * (extendedGcd a b).2.1).natAbs ≤ b.natAbs := by
  have h := egcdLoop_bound b.natAbs b a 0 1 1 0 (by simp) (by simp) (Or.inl rfl)
    (fun h => absurd h hb)
  unfold extendedGcd
  generalize egcdLoop b a 0 1 1 0 = r at h
  obtain ⟨g, x, y⟩ := r
  simp only at h ⊢
  split
  · exact h
  · simp only
    have e : (0 - g) * (0 - x) = g * x := by ring
    rw [e]; exact h

example : ∃ x y, extendedGcd2 314 271 = (1, [x, y]) ∧ 314 * x + 271 * y = 1 :=
  C06_extended_gcd 314 271
example : ∃ x y, extendedGcd2 (-12) 18 = (6, [x, y]) ∧ -12 * x + 18 * y = 6 :=
  C06_extended_gcd (-12) 18

/-! ## C07 modular inverse -/

theorem moduloInverse_eq (a m : Int) : moduloInverse a m =
    if Int.gcd a m = 1 then some ((extendedGcd a m).2.1 + m) else none := by
  have h := extendedGcd_gcd a m
  unfold moduloInverse
  generalize extendedGcd a m = r at h
  obtain ⟨g, x, y⟩ := r
  simp only at h ⊢
  subst h
  by_cases hg : Int.gcd a m = 1
  · simp [hg]
  · rw [if_neg (by omega), if_neg hg]

/-- C07: an inverse is reported exactly for coprime arguments. -/
theorem C07_inverse_exists (a m : Int) : (moduloInverse a m).isSome ↔ Int.gcd a m = 1 := by
  rw [moduloInverse_eq]
  split <;> simp_all

/-- C07: a reported inverse is one. -/
theorem C07_inverse_sound (a m x : Int) (h : moduloInverse a m = some x) :
    a * x ≡ 1 [ZMOD m] := by
  rw [moduloInverse_eq] at h
  split at h
  · rename_i hg
    simp only [Option.some.injEq] at h
    subst h
    have hb := extendedGcd_bezout a m
    rw [extendedGcd_gcd, hg] at hb
    rw [Int.modEq_iff_dvd]
    refine ⟨(extendedGcd a m).2.2 - a, ?_⟩
    have : (1 : Int) = a * (extendedGcd a m).2.1 + m * (extendedGcd a m).2.2 := by
      exact_mod_cast hb
    rw [this]; ring
  · simp at h

/-- C07: for a positive modulus the reported inverse lies between `m/2` and `3m/2`. -/
theorem C07_inverse_range (a m x : Int) (hm : 0 < m) (h : moduloInverse a m = some x) :
    m ≤ 2 * x ∧ 2 * x ≤ 3 * m ∧ 1 ≤ x := by
  rw [moduloInverse_eq] at h
  split at h
  · rename_i hg
    simp only [Option.some.injEq] at h
    subst h
    have hb := C06_coefficient_bound a m (by omega)
    rw [extendedGcd_gcd, hg] at hb
    simp only [Nat.cast_one, one_mul] at hb
    omega
  · simp at h

/-- C07: with modulus zero only the units have an inverse, namely themselves. -/
theorem C07_inverse_zero_modulus (a x : Int) (h : moduloInverse a 0 = some x) :
    (a = 1 ∨ a = -1) ∧ x = a := by
  have hs := C07_inverse_sound a 0 x h
  have he := (C07_inverse_exists a 0).1 (by rw [h]; rfl)
  have h1 : a * x = 1 := by
    have := (Int.modEq_iff_dvd.1 hs)
    have := zero_dvd_iff.1 this
    omega
  simp at he
  have : a = 1 ∨ a = -1 := by omega
  refine ⟨this, ?_⟩
  rcases this with rfl | rfl <;> omega

example : (moduloInverse (-5) 7).isSome := (C07_inverse_exists (-5) 7).2 (by decide)
example : moduloInverse 6 9 = none := by
  have := (C07_inverse_exists 6 9).not.2 (by decide)
  simpa using this

/-! ## C08 modular division -/

theorem moduloDivision_eq (a b m : Int) : moduloDivision a b m =
    if Int.gcd b m = 0 then .panic
    else if (Int.gcd b m : Int) ∣ a then
      .ok (some (a.tdiv (Int.gcd b m) * (extendedGcd b m).2.2))
    else .ok none := by
  have h := extendedGcd_gcd b m
  unfold moduloDivision
  generalize extendedGcd b m = r at h
  obtain ⟨g, x, y⟩ := r
  simp only at h ⊢
  subst h
  by_cases hg : Int.gcd b m = 0
  · simp [hg]
  · rw [if_neg (by omega), if_neg hg]
    by_cases hd : (Int.gcd b m : Int) ∣ a
    · rw [if_pos hd, if_pos (Int.tmod_eq_zero_of_dvd hd)]
    · rw [if_neg hd, if_neg (fun h => hd (Int.dvd_of_tmod_eq_zero h))]

/-- C08: it panics exactly when both `b` and `m` are zero. -/
theorem C08_division_panic (a b m : Int) : moduloDivision a b m = .panic ↔ b = 0 ∧ m = 0 := by
  rw [moduloDivision_eq]
  rw [← Int.gcd_eq_zero_iff]
  split
  · simp_all
  · split <;> simp_all

/-- C08: otherwise an answer is given exactly when the congruence `b * x = a (mod m)` is
solvable. -/
theorem C08_division_exists (a b m : Int) (h : ¬(b = 0 ∧ m = 0)) :
    (∃ x, moduloDivision a b m = .ok (some x)) ↔ ∃ x, b * x ≡ a [ZMOD m] := by
  have hg : Int.gcd b m ≠ 0 := fun h' => h (Int.gcd_eq_zero_iff.1 h')
  rw [moduloDivision_eq, if_neg hg]
  have key : (∃ x, b * x ≡ a [ZMOD m]) ↔ (Int.gcd b m : Int) ∣ a := by
    constructor
    · rintro ⟨x, hx⟩
      obtain ⟨k, hk⟩ := Int.modEq_iff_dvd.1 hx
      have : a = b * x + m * k := by omega
      rw [this]
      exact dvd_add (Dvd.dvd.mul_right (Int.gcd_dvd_left ..) _)
        (Dvd.dvd.mul_right (Int.gcd_dvd_right ..) _)
    · rintro ⟨k, hk⟩
      have hb := extendedGcd_bezout b m
      rw [extendedGcd_gcd] at hb
      refine ⟨(extendedGcd b m).2.1 * k, Int.modEq_iff_dvd.2 ⟨(extendedGcd b m).2.2 * k, ?_⟩⟩
      rw [hk, hb]; ring
  rw [key]
  split <;> simp_all

/-- C08, what the answer really solves: the congruence with `b` and `m` exchanged. -/
theorem C08_division_solves_swapped (a b m x : Int) (h : moduloDivision a b m = .ok (some x)) :
    m * x ≡ a [ZMOD b] := by
  rw [moduloDivision_eq] at h
  split at h
  · simp at h
  · rename_i hg
    split at h
    · rename_i hd
      simp only [Out.ok.injEq, Option.some.injEq] at h
      subst h
      obtain ⟨k, rfl⟩ := hd
      have hb := extendedGcd_bezout b m
      rw [extendedGcd_gcd] at hb
      rw [Int.mul_tdiv_cancel_left _ (by omega)]
      refine Int.modEq_iff_dvd.2 ⟨(extendedGcd b m).2.1 * k, ?_⟩
      nth_rewrite 1 [hb]; ring
    · simp at h

/-- C08 is violated: `4 * x = 1 (mod 9)` is answered with a number that does not solve it. -/
theorem C08_division_wrong : ∃ a b m x, moduloDivision a b m = .ok (some x) ∧
    ¬ (b * x ≡ a [ZMOD m]) := by
  refine ⟨1, 4, 9, 1, ?_, by decide⟩
  have h : (extendedGcd 4 9) = (1, -2, 1) := by
    simp [extendedGcd, egcdLoop, Int.tdiv]
  rw [moduloDivision_eq]
  have hg : Int.gcd 4 9 = 1 := by decide
  simp [h, hg]

example : ∃ x, moduloDivision 42 32 98 = .ok (some x) :=
  (C08_division_exists 42 32 98 (by decide)).2 ⟨35, by decide⟩

/-! ## C09 coprimality -/

/-- C09: true exactly when 1 is the only positive common divisor. -/
theorem C09_is_coprime (x y : Int) :
    isCoprime x y = true ↔ ∀ d : Int, 0 < d → d ∣ x → d ∣ y → d = 1 := by
  unfold isCoprime
  simp only [decide_eq_true_eq]
  constructor
  · intro h d hd h1 h2
    have : d ∣ (Int.gcd x y : Int) := Int.dvd_coe_gcd h1 h2
    rw [h] at this
    have := Int.le_of_dvd (by decide) this
    omega
  · intro h
    by_cases hg : Int.gcd x y = 0
    · obtain ⟨rfl, rfl⟩ := Int.gcd_eq_zero_iff.1 hg
      have := h 2 (by decide) (by simp) (by simp)
      omega
    · exact h _ (by omega) (Int.gcd_dvd_left ..) (Int.gcd_dvd_right ..)

/-- C09: coprimality is exactly solvability of `a * x = 1 (mod m)`, so it agrees with C07. -/
theorem C09_coprime_iff_inverse (a m : Int) :
    isCoprime a m = (moduloInverse a m).isSome := by
  have := C07_inverse_exists a m
  rw [Bool.eq_iff_iff, this]
  simp [isCoprime]

example : isCoprime (-9) 28 = true := by decide
example : isCoprime 0 0 = false := by decide

end SM.Props
