/-
Outcomes of a Rust call: a value, an `Err(..)`, or a panic.

Rust `Result<T, E>` is `ok`/`err`; `panic!`, `unreachable!`, `unimplemented!`, a failed
`unwrap`/`expect`/`assert!`, an out-of-range index and a checked arithmetic overflow are `panic`.
-/
namespace SM

/-- Outcome of a call that returns `Result<α, ε>` and may panic. -/
inductive Out (ε : Type u) (α : Type v) where
  | ok (a : α)
  | err (e : ε)
  | panic
  deriving Repr, DecidableEq

namespace Out

/-- Sequencing: the first error or panic wins (Rust `?` and unwinding). -/
def bind {ε : Type u} {α : Type v} {β : Type w} (x : Out ε α) (f : α → Out ε β) : Out ε β :=
  match x with
  | ok a => f a
  | err e => err e
  | panic => panic

instance {ε : Type u} : Monad (Out ε) where
  pure := Out.ok
  bind := Out.bind

@[simp] theorem pure_eq {ε : Type u} {α : Type v} (a : α) : (pure a : Out ε α) = Out.ok a := rfl
@[simp] theorem ok_bind {ε : Type u} {α β : Type v} (a : α) (f : α → Out ε β) :
    ((Out.ok a : Out ε α) >>= f) = f a := rfl
@[simp] theorem err_bind {ε : Type u} {α β : Type v} (e : ε) (f : α → Out ε β) :
    ((Out.err e : Out ε α) >>= f) = Out.err e := rfl
@[simp] theorem panic_bind {ε : Type u} {α β : Type v} (f : α → Out ε β) :
    ((Out.panic : Out ε α) >>= f) = Out.panic := rfl

instance {ε : Type u} : LawfulMonad (Out ε) := LawfulMonad.mk'
  (id_map := fun x => by cases x <;> rfl)
  (pure_bind := fun _ _ => rfl)
  (bind_assoc := fun x _ _ => by cases x <;> rfl)

@[simp] theorem ok_map {ε : Type u} {α β : Type v} (a : α) (f : α → β) :
    (f <$> (Out.ok a : Out ε α)) = Out.ok (f a) := rfl
@[simp] theorem err_map {ε : Type u} {α β : Type v} (e : ε) (f : α → β) :
    (f <$> (Out.err e : Out ε α)) = Out.err e := rfl
@[simp] theorem panic_map {ε : Type u} {α β : Type v} (f : α → β) :
    (f <$> (Out.panic : Out ε α)) = Out.panic := rfl

/-- Change the error type: Rust's `?` applying `From::from` to the error. -/
def mapErr {ε ε' : Type u} {α : Type v} (f : ε → ε') : Out ε α → Out ε' α
  | ok a => ok a
  | err e => err (f e)
  | panic => panic

/-- `Option::unwrap`: panics on `None`. -/
def unwrap {ε : Type u} {α : Type v} : Option α → Out ε α
  | some a => ok a
  | none => panic

@[simp] theorem unwrap_some {ε : Type u} {α : Type v} (a : α) :
    (unwrap (some a) : Out ε α) = Out.ok a := rfl
@[simp] theorem unwrap_none {ε : Type u} {α : Type v} :
    (unwrap (none : Option α) : Out ε α) = Out.panic := rfl

end Out

/-- Pointer width of the target (`usize`/`isize`): 64 bit natively, 32 bit for wasm. -/
inductive Width where
  | w32
  | w64
  deriving Repr, DecidableEq

/-- Number of bits of `usize`/`isize`. -/
def Width.bits : Width → Nat
  | .w32 => 32
  | .w64 => 64

/-- `BigInt::to_isize`: the value if it fits a signed machine word. -/
def toIsize (w : Width) (n : Int) : Option Int :=
  if -(2 ^ (w.bits - 1) : Int) ≤ n ∧ n < (2 ^ (w.bits - 1) : Int) then some n else none

/-- `s as usize` for an `isize` `s`: two's-complement reinterpretation. -/
def asUsize (w : Width) (s : Int) : Nat := (s % (2 ^ w.bits : Int)).toNat

/-- `BigInt::to_u64`. -/
def toU64 (n : Int) : Option Nat := if 0 ≤ n ∧ n < (2 ^ 64 : Int) then some n.toNat else none

/-- `BigUint::to_u32`. -/
def toU32 (n : Nat) : Option Nat := if n < 2 ^ 32 then some n else none

end SM
