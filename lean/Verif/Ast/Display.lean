import Verif.Ast.Types
/-
Model of `projects/sm-ast/src/ast/traits.rs`: printing, symbol names, predicates.

A panic while printing is `none`.
-/
namespace SM

/-- `Display` of a non-negative big integer. -/
def natStr (n : Nat) : Str := Nat.toDigits 10 n

/-- `Display` of `BigInt`. -/
def intStr (n : Int) : Str :=
  if n < 0 then '-' :: natStr n.natAbs else natStr n.natAbs

/-- `Display` of `BigDecimal` 0.1.2: the digits with a decimal point `scale` places from the right,
padded with zeros on either side. -/
def decStr (d : Dec) : Str :=
  let ab := natStr d.digits.natAbs
  let (before, after) : Str × Str :=
    if d.scale ≥ ab.length then
      (['0'], List.replicate (d.scale.toNat - ab.length) '0' ++ ab)
    else
      let location : Int := ab.length - d.scale
      if location > ab.length then
        (ab ++ List.replicate (location.toNat - ab.length) '0', [])
      else
        (ab.take location.toNat, ab.drop location.toNat)
  let body := if after.isEmpty then before else before ++ ['.'] ++ after
  if d.digits < 0 then '-' :: body else body

/-- ast/traits.rs:55-59 `Display for Symbol`. -/
def Sym.display (s : Sym) : Str :=
  if s.nameSpace.length = 0 then s.name
  else join c!"::" s.nameSpace ++ c!"::" ++ s.name

/-- ast/traits.rs:61-65 `Display for Position`. -/
def Position.display (p : Position) : Str := p.file

/-- `str::split("::")`: cut at each leftmost non-overlapping occurrence. -/
def splitColons : Str → List Str
  | [] => [[]]
  | [c] => [[c]]
  | c :: d :: s =>
    if c = ':' ∧ d = ':' then [] :: splitColons s
    else match splitColons (d :: s) with
      | [] => [[c]]
      | x :: l => (c :: x) :: l

/-- ast/traits.rs:67-73 `From<&str> for Symbol`.  `split` yields at least one piece, so
`pop().unwrap()` cannot fail. -/
def Sym.ofStr (s : Str) : Sym :=
  let ns := splitColons s
  { nameSpace := ns.dropLast, name := ns.getLastD [], kind := .normal, attributes := 0 }

/-- ast/traits.rs:81-85 `Default for Symbol`. -/
def Sym.dflt : Sym := { nameSpace := [], name := [], kind := .normal, attributes := 0 }

/-- ast/traits.rs:87-91 `Default for Position`. -/
def Position.dflt : Position := { file := [], start := (0, 0), stop := (0, 0) }

/-- ast/traits.rs:101-103 `AST::symbol`. -/
def AST.mkSymbol (s : Str) : AST := .symbol (Sym.ofStr s)

/-- ast/traits.rs:108-115 `AST::precedence`. -/
def AST.precedence : AST → Nat
  | .function s _ =>
    match s.kind with
    | .infix _ p => p
    | _ => 255
  | _ => 255

/-- ast/traits.rs:219-224 `Parameter::is_unary`. -/
def Param.isUnary (p : Param) : Bool := p.arguments.length == 1 && p.options.length == 0
/-- ast/traits.rs:225-230 `Parameter::is_multiary`. -/
def Param.isMultiary (p : Param) : Bool := decide (p.arguments.length > 1) && p.options.length == 0

mutual
/-- ast/traits.rs:13-53 `Display for AST`.  The tests `is_unary(ps)` and `is_multiary(ps)`
(traits.rs:200-216: exactly one parameter group, no options, one resp. several arguments) are written
as patterns. -/
def AST.display : AST → Option Str
  | .empty => none
  | .program _ => none
  | .function s ps =>
    match s.kind with
    | .normal => none
    | .alias => none
    | .prefix o => displayUnary o [] ps
    | .infix o p => displayInfix o p ps
    | .suffix o => displayUnary [] o ps
  | .boolean b => some (if b then c!"true" else c!"false")
  | .integer n => some (intStr n)
  | .decimal d => some (decStr d)
  | .symbol s => some s.display
  | .string s => some s
/-- The `Prefix`/`Suffix` arms: `before` and `after` are the operator text and nothing. -/
def displayUnary (before after : Str) : List Param → Option Str
  | [.mk as [] _] => displayOne before after as
  | _ => some []
/-- The single argument of a prefix or suffix operator. -/
def displayOne (before after : Str) : List AST → Option Str
  | [a] =>
    match a.display with
    | some t => some (before ++ t ++ after)
    | none => none
  | _ => some []
/-- The `Infix` arm. -/
def displayInfix (o : Str) (p : Nat) : List Param → Option Str
  | [.mk as [] _] =>
    if as.length > 1 then
      match displayArgs p as with
      | some v => some (join o v)
      | none => none
    else some []
  | _ => some []
/-- The loop over the operands of an infix operator. -/
def displayArgs (p : Nat) : List AST → Option (List Str)
  | [] => some []
  | a :: as =>
    match a.display with
    | none => none
    | some t =>
      match displayArgs p as with
      | none => none
      | some v => some ((if a.precedence < p then c!"(" ++ t ++ c!")" else t) :: v)
end

end SM
