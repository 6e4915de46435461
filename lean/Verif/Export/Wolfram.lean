import Verif.Ast.Display
/-
Model of `projects/sm-ast/src/traits/wolfram/mod.rs` (conversion to `wolfram_wxf::WolframValue`).

`cap` is `text_utils::capitalize_first_letter`, a dependency whose source is not available; it is a
parameter.
-/
namespace SM

/-- The `wolfram_wxf::WolframValue` variants used. -/
inductive WValue where
  | skip
  | function (head : WValue) (args : List WValue)
  | symbol (s : Str)
  | bigInteger (n : Int)
  | bigDecimal (s : Str)
  | string (s : Str)

/-- mod.rs:45-51 `function_map`. -/
def functionMap (cap : Str → Str) (s : Sym) : Str :=
  if s.name = c!"factor" then c!"FactorInteger" else cap s.name

mutual
/-- mod.rs:8-37 `ToWolfram for AST`. -/
def AST.toWolfram (cap : Str → Str) : AST → WValue
  | .empty => .skip
  | .program l => .function (.symbol c!"CompoundExpression") (wolframArgs cap l)
  | .function s ps => wolframParams cap (.symbol (functionMap cap s)) ps
  | .boolean b => .symbol (if b then c!"True" else c!"False")
  | .integer i => .bigInteger i
  | .decimal d => .bigDecimal (decStr d)
  | .symbol s => .symbol s.name
  | .string s => .string s
/-- mod.rs:17-26, the loop over parameters. -/
def wolframParams (cap : Str → Str) (head : WValue) : List Param → WValue
  | [] => head
  | .mk args os _ :: ps =>
    wolframParams cap (.function head (wolframArgs cap args ++ wolframOpts cap os)) ps
/-- mod.rs:19-21. -/
def wolframArgs (cap : Str → Str) : List AST → List WValue
  | [] => []
  | a :: as => a.toWolfram cap :: wolframArgs cap as
/-- mod.rs:22-24. -/
def wolframOpts (cap : Str → Str) : List (AST × AST) → List WValue
  | [] => []
  | kv :: os => wolframRule cap kv :: wolframOpts cap os
/-- mod.rs:23, one `Rule`. -/
def wolframRule (cap : Str → Str) : AST × AST → WValue
  | (k, v) => .function (.symbol c!"Rule") [k.toWolfram cap, v.toWolfram cap]
end

end SM
