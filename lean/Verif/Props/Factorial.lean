import Verif.Alg.Factorial
import Mathlib.Data.Nat.Factorial.Basic
/-
C01: integer factorial.
-/
namespace SM.Props
open SM SM.Alg

theorem foldl_mul_range' (n a : Nat) (k : Nat) :
    (List.range' (k + 1) n).foldl (fun a b => a * b) (a * k.factorial)
      = a * (k + n).factorial := by
  induction n generalizing k with
  | zero => simp
  | succ n ih =>
    rw [List.range'_succ, List.foldl_cons]
    have h : a * k.factorial * (k + 1) = a * (k + 1).factorial := by
      rw [Nat.factorial_succ, Nat.mul_assoc, Nat.mul_comm (k + 1)]
    rw [h, ih (k + 1)]
    congr 2
    omega

/-- The unsigned factorial is exact at every index. -/
theorem C01_factorial_fold (n : Nat) : factorialFoldU n = n.factorial := by
  have := foldl_mul_range' n 1 0
  simpa [factorialFoldU] using this

theorem toIsize_some {w : Width} {n : Int}
    (h1 : -(2 ^ (w.bits - 1) : Int) ≤ n) (h2 : n < (2 ^ (w.bits - 1) : Int)) :
    toIsize w n = some n := by
  simp [toIsize, h1, h2]

theorem toIsize_none {w : Width} {n : Int}
    (h : n < -(2 ^ (w.bits - 1) : Int) ∨ (2 ^ (w.bits - 1) : Int) ≤ n) :
    toIsize w n = none := by
  unfold toIsize
  rw [if_neg]
  omega

theorem asUsize_nonneg {w : Width} {n : Int} (h0 : 0 ≤ n) (h : n < (2 ^ (w.bits - 1) : Int)) :
    (asUsize w n : Int) = n := by
  unfold asUsize
  have hlt : n < (2 ^ w.bits : Int) := by
    refine Int.lt_of_lt_of_le h ?_
    cases w <;> simp [Width.bits]
  rw [Int.emod_eq_of_lt h0 hlt]
  omega

/-- C01, the representable range: `factorial_i` returns exactly `n!`. -/
theorem C01_factorial_value (w : Width) (n : Nat) (h : (n : Int) < 2 ^ (w.bits - 1)) :
    factorialI w n = .ok (n.factorial : Int) := by
  have h1 : -(2 ^ (w.bits - 1) : Int) ≤ n := by
    have : (0 : Int) ≤ 2 ^ (w.bits - 1) := Int.le_of_lt (Int.pow_pos (by decide))
    omega
  have h3 : asUsize w (n : Int) = n := by
    have := asUsize_nonneg (w := w) (n := (n : Int)) (by omega) h
    omega
  rw [factorialI, toIsize_some h1 h]
  simp only [C01_factorial_fold, h3]
  rw [if_neg (by omega)]

/-- C01, negative arguments: `ComplexInfinity`. -/
theorem C01_factorial_negative (w : Width) (n : Int) (h0 : n < 0)
    (h : -(2 ^ (w.bits - 1) : Int) ≤ n) : factorialI w n = .err .complexInfinity := by
  have h2 : n < (2 ^ (w.bits - 1) : Int) :=
    Int.lt_of_lt_of_le h0 (Int.le_of_lt (Int.pow_pos (by decide)))
  rw [factorialI, toIsize_some h h2]
  simp [h0]

/-- C01, arguments outside `isize`: `OverFlow`. -/
theorem C01_factorial_overflow (w : Width) (n : Int)
    (h : n < -(2 ^ (w.bits - 1) : Int) ∨ (2 ^ (w.bits - 1) : Int) ≤ n) :
    factorialI w n = .err .overFlow := by
  rw [factorialI, toIsize_none h]

/-- C01: it never panics, for any integer. -/
theorem C01_factorial_total (w : Width) (n : Int) : factorialI w n ≠ .panic := by
  unfold factorialI
  split
  · split <;> simp
  · simp

-- The hypotheses are met by concrete values (tests, not proofs of the claim).
example : factorialI .w64 20 = .ok 2432902008176640000 :=
  C01_factorial_value .w64 20 (by decide)
example : factorialI .w64 (-3) = .err .complexInfinity :=
  C01_factorial_negative .w64 (-3) (by decide) (by decide)
example : factorialI .w32 (2 ^ 31) = .err .overFlow :=
  C01_factorial_overflow .w32 (2 ^ 31) (by decide)

end SM.Props
