import Verif.Alg.Error
/-
Model of `projects/sm-algorithm/src/gamma/factorial.rs`.
-/
namespace SM.Alg

/-- factorial.rs:18-20 `factorial_fold_u`: `(1..=n).fold(BigUint::one(), |a, b| a * b)`. -/
def factorialFoldU (n : Nat) : Nat := (List.range' 1 n).foldl (fun a b => a * b) 1

/-- factorial.rs:22-34 `factorial_i`. -/
def factorialI (w : Width) (n : Int) : Res Int :=
  match toIsize w n with
  | some s =>
    if s < 0 then .err .complexInfinity
    else .ok (factorialFoldU (asUsize w s))
  | none => .err .overFlow

/-- factorial.rs:41-43, 45-47, 49-51: `factorial_mod`, `factorial_digits`,
`factorial_tail_zero` are all `unimplemented!()`. -/
def factorialMod : Res Unit := .panic
def factorialDigits : Res Unit := .panic
def factorialTailZero : Res Unit := .panic

end SM.Alg
