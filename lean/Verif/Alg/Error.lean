import Verif.Base.Out
/-
Model of `projects/sm-algorithm/src/error.rs`.
-/
namespace SM.Alg

/-- error.rs:7-15 `enum Error`.  `IOError`/`Undefined` carry a message (a list of characters). -/
inductive Error where
  | overFlow
  | complexInfinity
  | ioError (s : List Char)
  | unimplemented
  | indeterminate
  | undefined (s : List Char)
  deriving Repr, DecidableEq

/-- error.rs:17 `type Result<T>`, plus panics. -/
abbrev Res (α : Type) := Out Error α

end SM.Alg
