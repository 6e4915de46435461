import Verif.Ast.Display
import Verif.Eval.Error
import Verif.Alg.Factorial
import Verif.Alg.Fibonacci
import Verif.Alg.Prime
/-
Model of `projects/sm-ast/src/evaluate/forward.rs`, `evaluate/rewrite.rs` and the built-ins of
`projects/sm-ast/src/internal` that do anything but panic.

`w` is the pointer width of the target.  `forward` takes `&mut Context` but no code path reads or
writes it, so the context is not a parameter here.
-/
namespace SM

/-- internal/list_like.rs:3-17 `head`. -/
def head : AST → AST
  | .function s p =>
    match p.length with
    | 0 => .mkSymbol c!"std::core::Symbol"
    | 1 => .symbol s
    | _ => .function s p.dropLast
  | .boolean _ => .mkSymbol c!"std::core::Boolean"
  | .integer _ => .mkSymbol c!"std::core::Integer"
  | .decimal _ => .mkSymbol c!"std::core::Decimal"
  | .symbol _ => .mkSymbol c!"std::core::Symbol"
  | .string _ => .mkSymbol c!"std::core::String"
  | _ => .empty

/-- internal/list_like.rs:19-24 `length`: `s.len()` counts UTF-8 bytes. -/
def length : AST → SMResult AST
  | .string s => .ok (.integer (utf8Len s))
  | _ => .panic

/-- internal/list_like.rs:26-34 `first`. -/
def first : AST → SMResult AST
  | .string s =>
    match s.head? with
    | none => .err (.emptyContainer c!"Can't call `first` on empty string")
    | some c => .ok (.string [c])
  | _ => .panic

/-- internal/list_like.rs:36-44 `last`: `chars().rev().next()`. -/
def last : AST → SMResult AST
  | .string s =>
    match s.reverse.head? with
    | none => .err (.emptyContainer c!"Can't call `last` on empty string")
    | some c => .ok (.string [c])
  | _ => .panic

/-- internal/elementary.rs:63-69 `factorial`. -/
def factorial (w : Width) : AST → SMResult AST
  | .integer n => AST.integer <$> ofAlgRes (Alg.factorialI w n)
  | .decimal d => .ok (.decimal d)
  | _ => .panic

/-- internal/elementary.rs:71-77 `fibonacci`. -/
def fibonacci (w : Width) : AST → SMResult AST
  | .integer n => AST.integer <$> ofAlgRes (Alg.fibonacciI w n)
  | .decimal d => .ok (.decimal d)
  | _ => .panic

/-- internal/number_theory.rs:40-46 `prime_sum` (`chk`: overflow checks on). -/
def primeSumAst (chk : Bool) : AST → SMResult AST
  | .integer n => AST.integer <$> ofAlgRes (Alg.primeSumI chk n)
  | .decimal d => .ok (.decimal d)
  | _ => .panic

/-- The message of `unimplemented_function!()` (error/mod.rs:18-28).  It is built from the enclosing
function's path (`std::any::type_name`) and the line; here it is the function's name and line. -/
def unimplementedAt (fn : Str) (line : Nat) : SMError :=
  .unimplemented (c!"Unimplemented Function: " ++ fn ++ c!" at line " ++ natStr line)

/-- evaluate/forward.rs:74-82 `evaluate_additive`. -/
def evaluateAdditive : List AST → SMResult AST
  | [.integer a, .integer b] => .ok (.integer (a + b))
  | _ => .err (unimplementedAt c!"evaluate_additive" 78)

/-- evaluate/forward.rs:84-92 `evaluate_multiplicative`. -/
def evaluateMultiplicative : List AST → SMResult AST
  | [.integer a, .integer b] => .ok (.integer (a * b))
  | _ => .err (unimplementedAt c!"evaluate_multiplicative" 88)

/-- evaluate/forward.rs:94-105 `evaluate_power`. -/
def evaluatePower : List AST → SMResult AST
  | [.integer a, .integer b] =>
    match toU64 b with
    | none => .ok (.integer a)
    | some s => .ok (.integer (a ^ s))
  | _ => .err (unimplementedAt c!"evaluate_power" 101)

/-- `args[0]` in `evaluate_function`: panics when there is no argument. -/
def onArg0 (f : AST → SMResult AST) (args : List AST) : SMResult AST :=
  match args with
  | a :: _ => f a
  | [] => .panic

/-- evaluate/forward.rs:56-72 `evaluate_function`. -/
def evaluateFunction (w : Width) (f : Sym) (p : Param) : SMResult AST :=
  let args := p.arguments
  if f.name = c!"first" then onArg0 first args
  else if f.name = c!"last" then onArg0 last args
  else if f.name = c!"length" then onArg0 length args
  else if f.name = c!"factorial" then onArg0 (factorial w) args
  else if f.name = c!"fibonacci" then onArg0 (fibonacci w) args
  else if f.name = c!"plus" then evaluateAdditive args
  else if f.name = c!"times" then evaluateMultiplicative args
  else if f.name = c!"power" then evaluatePower args
  else .err (unimplementedAt c!"evaluate_function" 68)

/-- evaluate/forward.rs:10-23 `AST::forward`. -/
def forward (w : Width) : AST → SMResult AST
  | .program _ => .panic
  | .function s p =>
    match p with
    | [] => .ok (.symbol s)
    | [q] => evaluateFunction w s q
    | _ => .err (unimplementedAt c!"forward" 19)
  | a => .ok a

/-- evaluate/rewrite.rs:5-33 `AST::rewrite`: every arm is `self.clone()`. -/
def rewrite (a : AST) : AST := a

end SM
