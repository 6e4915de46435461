import Verif.Base.Str
import Verif.Alg.Error
/-
Model of `projects/sm-ast/src/error`.
-/
namespace SM

/-- error/mod.rs:3-14 `enum SMError`. -/
inductive SMError where
  | unknown
  | ioError (s : Str)
  | parseError (s : Str)
  | emptyContainer (s : Str)
  | overflow
  | infinity
  | complexInfinity
  | unimplemented (s : Str)
  | unreachable (s : Str)
  deriving Repr, DecidableEq

/-- error/mod.rs:16 `SMResult<T>`, plus panics. -/
abbrev SMResult (α : Type) := Out SMError α

/-- error/traits.rs:21-31 `From<Algorithm> for SMError`. -/
def SMError.ofAlg : Alg.Error → SMError
  | .overFlow => .overflow
  | .complexInfinity => .complexInfinity
  | .ioError s => .ioError s
  | .unimplemented => .unimplemented c!"Unimplemented Algorithm"
  | _ => .unknown

/-- `?` on an algorithm result inside a function returning `SMResult`. -/
def ofAlgRes {α : Type} (r : Alg.Res α) : SMResult α := r.mapErr SMError.ofAlg

end SM
