import Verif.Base.Str
import Verif.Base.BMap
/-
Model of the data types in `projects/sm-ast/src/ast/mod.rs`.
-/
namespace SM

/-- `bigdecimal::BigDecimal`: the number `digits * 10^(-scale)`. -/
structure Dec where
  digits : Int
  scale : Int
  deriving Repr, DecidableEq

/-- ast/mod.rs:32-37 `struct Position`. -/
structure Position where
  file : Str
  start : Nat × Nat
  stop : Nat × Nat
  deriving Repr, DecidableEq

/-- ast/mod.rs:54-65 `enum SymbolKind`. -/
inductive SymbolKind where
  | normal
  | alias
  | prefix (o : Str)
  | infix (o : Str) (p : Nat)
  | suffix (o : Str)
  deriving Repr, DecidableEq

/-- ast/mod.rs:45-52 `struct Symbol`. -/
structure Sym where
  nameSpace : List Str
  name : Str
  kind : SymbolKind
  attributes : Nat
  deriving Repr, DecidableEq

mutual
/-- ast/mod.rs:7-23 `enum AST`. -/
inductive AST where
  | empty
  | program (l : List AST)
  | function (s : Sym) (ps : List Param)
  | boolean (b : Bool)
  | integer (n : Int)
  | decimal (d : Dec)
  | symbol (s : Sym)
  | string (s : Str)
/-- ast/mod.rs:25-30 `struct Parameter`.  `options : BTreeMap<AST, AST>` is the list of its entries in
key order. -/
inductive Param where
  | mk (arguments : List AST) (options : List (AST × AST)) (position : Position)
end

/-- `parameter.arguments` -/
def Param.arguments : Param → List AST
  | .mk a _ _ => a
/-- `parameter.options` -/
def Param.options : Param → List (AST × AST)
  | .mk _ o _ => o
/-- `parameter.position` -/
def Param.position : Param → Position
  | .mk _ _ p => p

instance : Inhabited AST := ⟨.empty⟩

end SM
