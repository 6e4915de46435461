import Verif.Alg.Error
import Verif.Base.BMap
/-
Model of `projects/sm-algorithm/src/linear/fibonacci.rs`.
-/
namespace SM.Alg

/-- fibonacci.rs:15-17 `fibonacci_fold_u`:
`(0..n).fold((0, 1), |x, _| (x.0 + x.1, x.0)).0`. -/
def fibonacciFoldU (n : Nat) : Nat :=
  ((List.range n).foldl (fun (x : Nat × Nat) _ => (x.1 + x.2, x.1)) (0, 1)).1

/-- `BigUint - BigUint`: panics on underflow. -/
def bigSub (a b : Nat) : Out Unit Nat := if b ≤ a then .ok (a - b) else .panic

/-- fibonacci.rs:20-40 `memoization(n, m)`.  The map is threaded (the code mutates it through
`&mut`).  The first argument is fuel for the recursion; `err ()` means that it ran out, i.e. the
recursion did not end within that depth. -/
def memoization : Nat → Nat → BMap Nat Nat → Out Unit (Nat × BMap Nat Nat)
  | 0, _, _ => .err ()
  | fuel + 1, n, m =>
    match BMap.get BMap.natCmp n m with
    | some s => .ok (s, m)
    | none => do
      let (result, m) ←
        if n % 2 = 0 then do
          let (a, m) ← memoization fuel (n / 2) m
          let (b, m) ← memoization fuel (n / 2 + 1) m
          let d ← bigSub (b * 2) a
          pure (a * d, m)
        else do
          let (a, m) ← memoization fuel (n / 2 + 1) m
          let (b, m) ← memoization fuel (n / 2) m
          pure (a * a + b * b, m)
      pure (result, BMap.insert BMap.natCmp n result m)

/-- fibonacci.rs:41-44: the map seeded with F(0), F(1), F(2). -/
def memoInit : BMap Nat Nat :=
  BMap.insert BMap.natCmp 2 1 (BMap.insert BMap.natCmp 1 1 (BMap.insert BMap.natCmp 0 0 []))

/-- fibonacci.rs:19-46 `fibonacci_fast_u`, returning also the final memo map (which the code
drops).  Fuel `number + 1` always suffices (proved in `Props/Fibonacci`). -/
def fibonacciFastRun (number : Nat) : Out Unit (Nat × BMap Nat Nat) :=
  memoization (number + 1) number memoInit

/-- fibonacci.rs:19-46 `fibonacci_fast_u`: the value only. -/
def fibonacciFastU (number : Nat) : Out Unit Nat := Prod.fst <$> fibonacciFastRun number

/-- fibonacci.rs:5-13 `fibonacci_i`.  `-u` negates a `BigUint`, which panics in num-bigint 0.2.
(`err ()` of the recursion cannot occur and is mapped to `panic`.) -/
def fibonacciI (w : Width) (n : Int) : Res Int :=
  match toIsize w n with
  | some s =>
    match fibonacciFastU (asUsize w s) with
    | .ok u => if s < 0 ∧ s % 2 = 0 then .panic else .ok (u : Int)
    | _ => .panic
  | none => .err .overFlow

end SM.Alg
