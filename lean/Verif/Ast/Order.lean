import Verif.Ast.Types
/-
Model of the derived `PartialEq`/`Ord` of `projects/sm-ast/src/ast/mod.rs:7-65`.

`#[derive(Ord)]` compares enum variants by declaration order, then fields lexicographically;
`Vec` and `BTreeMap` compare their items lexicographically; `BigDecimal` compares by value.
-/
namespace SM
open BMap

/-- Lexicographic comparison of sequences (`Vec`, `str`, `BTreeMap` iterators). -/
def listCmp (f : α → α → Ordering) : List α → List α → Ordering
  | [], [] => .eq
  | [], _ :: _ => .lt
  | _ :: _, [] => .gt
  | a :: as, b :: bs => (f a b).then (listCmp f as bs)

/-- Comparison of characters by code point. -/
def charCmp (a b : Char) : Ordering := natCmp a.toNat b.toNat

/-- `str::cmp` (bytewise on UTF-8, i.e. by code points). -/
def strCmp : Str → Str → Ordering := listCmp charCmp

/-- `bool::cmp`: `false < true`. -/
def boolCmp (a b : Bool) : Ordering := natCmp a.toNat b.toNat

/-- `BigDecimal::cmp`: by numeric value, after scaling to a common exponent. -/
def decCmp (a b : Dec) : Ordering :=
  let m := max a.scale b.scale
  intCmp (a.digits * 10 ^ (m - a.scale).toNat) (b.digits * 10 ^ (m - b.scale).toNat)

/-- Tuple comparison. -/
def pairCmp (f : α → α → Ordering) (g : β → β → Ordering) (a b : α × β) : Ordering :=
  (f a.1 b.1).then (g a.2 b.2)

/-- ast/mod.rs:32 derived `Position::cmp`. -/
def positionCmp (a b : Position) : Ordering :=
  (strCmp a.file b.file).then
    ((pairCmp natCmp natCmp a.start b.start).then (pairCmp natCmp natCmp a.stop b.stop))

/-- Variant index of a `SymbolKind`. -/
def SymbolKind.tag : SymbolKind → Nat
  | .normal => 0
  | .alias => 1
  | .prefix _ => 2
  | .infix _ _ => 3
  | .suffix _ => 4

/-- ast/mod.rs:54 derived `SymbolKind::cmp`. -/
def kindCmp : SymbolKind → SymbolKind → Ordering
  | .prefix a, .prefix b => strCmp a b
  | .infix a p, .infix b q => (strCmp a b).then (natCmp p q)
  | .suffix a, .suffix b => strCmp a b
  | a, b => natCmp a.tag b.tag

/-- ast/mod.rs:45 derived `Symbol::cmp`. -/
def symCmp (a b : Sym) : Ordering :=
  (listCmp strCmp a.nameSpace b.nameSpace).then
    ((strCmp a.name b.name).then ((kindCmp a.kind b.kind).then (natCmp a.attributes b.attributes)))

/-- Variant index of an `AST`. -/
def AST.tag : AST → Nat
  | .empty => 0
  | .program _ => 1
  | .function _ _ => 2
  | .boolean _ => 3
  | .integer _ => 4
  | .decimal _ => 5
  | .symbol _ => 6
  | .string _ => 7

mutual
/-- ast/mod.rs:7 derived `AST::cmp`. -/
def astCmp : AST → AST → Ordering
  | .program a, .program b => astsCmp a b
  | .function s ps, .function t qs => (symCmp s t).then (paramsCmp ps qs)
  | .boolean a, .boolean b => boolCmp a b
  | .integer a, .integer b => intCmp a b
  | .decimal a, .decimal b => decCmp a b
  | .symbol a, .symbol b => symCmp a b
  | .string a, .string b => strCmp a b
  | a, b => natCmp a.tag b.tag
termination_by structural a => a
/-- ast/mod.rs:25 derived `Parameter::cmp`. -/
def paramCmp : Param → Param → Ordering
  | .mk a o p, .mk b q r => (astsCmp a b).then ((optsCmp o q).then (positionCmp p r))
termination_by structural a => a
/-- `Vec<AST>::cmp`. -/
def astsCmp : List AST → List AST → Ordering
  | [], [] => .eq
  | [], _ :: _ => .lt
  | _ :: _, [] => .gt
  | a :: as, b :: bs => (astCmp a b).then (astsCmp as bs)
termination_by structural a => a
/-- `Vec<Parameter>::cmp`. -/
def paramsCmp : List Param → List Param → Ordering
  | [], [] => .eq
  | [], _ :: _ => .lt
  | _ :: _, [] => .gt
  | a :: as, b :: bs => (paramCmp a b).then (paramsCmp as bs)
termination_by structural a => a
/-- `BTreeMap<AST, AST>::cmp`. -/
def optsCmp : List (AST × AST) → List (AST × AST) → Ordering
  | [], [] => .eq
  | [], _ :: _ => .lt
  | _ :: _, [] => .gt
  | a :: as, b :: bs => (optCmp a b).then (optsCmp as bs)
termination_by structural a => a
/-- `(AST, AST)::cmp`. -/
def optCmp : AST × AST → AST × AST → Ordering
  | (k, v), (l, w) => (astCmp k l).then (astCmp v w)
termination_by structural a => a
end

/-! Derived equality.  Everything is compared structurally except decimals, which
`BigDecimal::eq` compares after scaling. -/

/-- `BigDecimal::eq`: scale the one with the smaller scale up, then compare digits. -/
def decEq (a b : Dec) : Bool :=
  if a.scale > b.scale then a.digits == b.digits * 10 ^ (a.scale - b.scale).toNat
  else if a.scale < b.scale then a.digits * 10 ^ (b.scale - a.scale).toNat == b.digits
  else a.digits == b.digits

mutual
/-- ast/mod.rs:7 derived `AST::eq`. -/
def astEq : AST → AST → Bool
  | .empty, .empty => true
  | .program a, .program b => astsEq a b
  | .function s ps, .function t qs => s == t && paramsEq ps qs
  | .boolean a, .boolean b => a == b
  | .integer a, .integer b => a == b
  | .decimal a, .decimal b => decEq a b
  | .symbol a, .symbol b => a == b
  | .string a, .string b => a == b
  | _, _ => false
termination_by structural a => a
/-- ast/mod.rs:25 derived `Parameter::eq`. -/
def paramEq : Param → Param → Bool
  | .mk a o p, .mk b q r => astsEq a b && optsEq o q && p == r
termination_by structural a => a
/-- `Vec<AST>::eq`. -/
def astsEq : List AST → List AST → Bool
  | [], [] => true
  | a :: as, b :: bs => astEq a b && astsEq as bs
  | _, _ => false
termination_by structural a => a
/-- `Vec<Parameter>::eq`. -/
def paramsEq : List Param → List Param → Bool
  | [], [] => true
  | a :: as, b :: bs => paramEq a b && paramsEq as bs
  | _, _ => false
termination_by structural a => a
/-- `BTreeMap<AST, AST>::eq`: same length and pairwise equal entries. -/
def optsEq : List (AST × AST) → List (AST × AST) → Bool
  | [], [] => true
  | a :: as, b :: bs => optEq a b && optsEq as bs
  | _, _ => false
termination_by structural a => a
/-- `(AST, AST)::eq`. -/
def optEq : AST × AST → AST × AST → Bool
  | (k, v), (l, w) => astEq k l && astEq v w
termination_by structural a => a
end

end SM
