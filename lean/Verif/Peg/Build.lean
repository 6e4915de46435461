import Verif.Peg.Parse
import Verif.Ast.Display
import Verif.Ast.Order
import Verif.Eval.Error
/-
Model of `projects/sm-ast/src/parser/{mod,ops,parse,traits}.rs`: from pairs to expressions.

A panic is `none`.  (`debug_cases!` prints and panics, error/mod.rs:31-38.)
-/
namespace SM.Peg
open SM

/-! ### Positions -/

/-- `pest::Position::line_col`: scan the text before the position, from line and column `lc`. -/
def lineColFrom (lc : Nat × Nat) : Str → Nat × Nat
  | [] => lc
  | '\n' :: s => lineColFrom (lc.1 + 1, 1) s
  | '\r' :: '\n' :: s => lineColFrom (lc.1 + 1, 1) s
  | _ :: s => lineColFrom (lc.1, lc.2 + 1) s

/-- parser/mod.rs:7-11 `ParserSettings` (`refine` is never read), the text being parsed, and the message
of the parse error for it (made by pest, not modelled). -/
structure Cfg where
  file : Str
  input : Str
  errorText : Str := []

/-- parser/traits.rs:11-13 `get_position`. -/
def Cfg.position (c : Cfg) (start stop : Nat) : Position :=
  { file := c.file
    start := lineColFrom (1, 1) (c.input.take start)
    stop := lineColFrom (1, 1) (c.input.take stop) }

/-! ### Operators -/

/-- ops.rs:3-17 `prefix_map`. -/
def prefixMap (t : Str) : Option Sym :=
  let mk (n : Str) : Sym :=
    { nameSpace := [c!"std", c!"prefix"], name := n, kind := .prefix t, attributes := 0 }
  if t = c!"+" then some (mk c!"plus")
  else if t = c!"-" then some (mk c!"minus")
  else if t = c!"*" then some (mk c!"unpack")
  else if t = c!"!" then some (mk c!"not")
  else none

/-- ops.rs:19-31 `suffix_map`. -/
def suffixMap (t : Str) : Option Sym :=
  let mk (n : Str) : Sym :=
    { nameSpace := [c!"std", c!"suffix"], name := n, kind := .suffix t, attributes := 0 }
  if t = c!"!" then some (mk c!"factorial")
  else if t = c!"!!" then some (mk c!"factorial2")
  else none

/-- ops.rs:33-49 `infix_map`. -/
def infixMap (t : Str) : Sym :=
  let mk (n : Str) (p : Nat) : Sym :=
    { nameSpace := [c!"std", c!"infix"], name := n, kind := .infix t p, attributes := 0 }
  if t = c!"+" then mk c!"add" 80
  else if t = c!"-" then mk c!"subtract" 80
  else if t = c!"*" then mk c!"times" 140
  else if t = c!"/" then mk c!"divide" 140
  else if t = c!"//" then mk c!"quotient" 140
  else if t = c!"^" then mk c!"power" 150
  else mk t 170

/-- parser/mod.rs:15-32 `OPERATORS`, `CLIMBER`: precedence, and whether right-associative. -/
def opTable : R → Option (Nat × Bool)
  | .Plus => some (310, false)
  | .Minus => some (310, false)
  | .Multiply => some (400, false)
  | .Divide => some (470, false)
  | .Power => some (590, true)
  | .Map => some (620, false)
  | .Dot => some (900, false)
  | _ => none

/-! ### Precedence climbing -/

/-- A pair together with what `primary` would give for it. -/
abbrev Item (α : Type) := Pair R × Option α

mutual
/-- `pest::prec_climber::PrecClimber::climb_rec`.  The first argument is fuel; `climb` gives enough
(`Props/Climb`). -/
def climbRec {α : Type} (infx : α → Pair R → α → Option α) :
    Nat → α → Nat → List (Item α) → Option (α × List (Item α))
  | 0, _, _, _ => none
  | n + 1, lhs, minPrec, items =>
    match items with
    | [] => some (lhs, [])
    | (op, o) :: rest =>
      match opTable op.rule with
      | none => some (lhs, (op, o) :: rest)
      | some (p, _) =>
        if minPrec ≤ p then
          match rest with
          | [] => none
          | (_, prim) :: rest =>
            match prim with
            | none => none
            | some rhs =>
              match climbInner infx n rhs p rest with
              | none => none
              | some (rhs, rest) =>
                match infx lhs op rhs with
                | none => none
                | some lhs => climbRec infx n lhs minPrec rest
        else some (lhs, (op, o) :: rest)
/-- The inner `while` of `climb_rec`: absorb operators that bind tighter than `p`. -/
def climbInner {α : Type} (infx : α → Pair R → α → Option α) :
    Nat → α → Nat → List (Item α) → Option (α × List (Item α))
  | 0, _, _, _ => none
  | n + 1, rhs, p, items =>
    match items with
    | [] => some (rhs, [])
    | (op, o) :: rest =>
      match opTable op.rule with
      | none => some (rhs, (op, o) :: rest)
      | some (q, right) =>
        if p < q ∨ (right = true ∧ q = p) then
          match climbRec infx n rhs q ((op, o) :: rest) with
          | none => none
          | some (rhs, rest) => climbInner infx n rhs p rest
        else some (rhs, (op, o) :: rest)
end

/-- `PrecClimber::climb`: the remaining items, if any, are dropped. -/
def climb {α : Type} (infx : α → Pair R → α → Option α) : List (Item α) → Option α
  | [] => none
  | (_, none) :: _ => none
  | (_, some lhs) :: rest =>
    match climbRec infx (2 * rest.length + 1) lhs 0 rest with
    | none => none
    | some (a, _) => some a

/-! ### Literals -/

/-- Value of a digit character. -/
def digitVal (c : Char) : Option Nat :=
  if '0' ≤ c ∧ c ≤ '9' then some (c.toNat - '0'.toNat)
  else if 'a' ≤ c ∧ c ≤ 'z' then some (c.toNat - 'a'.toNat + 10)
  else if 'A' ≤ c ∧ c ≤ 'Z' then some (c.toNat - 'A'.toNat + 10)
  else none

/-- The digits of `num_bigint::BigUint::from_str_radix`: underscores are skipped. -/
def radixDigits (base : Nat) : Str → Nat → Option Nat
  | [], acc => some acc
  | c :: s, acc =>
    if c = '_' then radixDigits base s acc
    else
      match digitVal c with
      | none => none
      | some d => if d < base then radixDigits base s (acc * base + d) else none

/-- `num_bigint::BigUint::from_str_radix`: empty texts and a leading underscore are errors.  Signs are
left out; the grammar never passes one. -/
def fromStrRadix (base : Nat) (s : Str) : Option Nat :=
  match s with
  | [] => none
  | c :: _ => if c = '_' then none else radixDigits base s 0

/-- parse.rs:371-375 `parse_integer`. -/
def parseInteger (t : Str) : Option AST :=
  match fromStrRadix 10 t with
  | some n => some (.integer n)
  | none => none

/-- parse.rs:358-369 `parse_byte`: `&s[2..]` after the second character selects the base. -/
def parseByte (t : Str) : Option AST :=
  match t with
  | _ :: c :: s =>
    let base : Option Nat :=
      if c = 'x' ∨ c = 'X' then some 16
      else if c = 'o' ∨ c = 'O' then some 8
      else if c = 'b' ∨ c = 'B' then some 2
      else none
    match base with
    | none => none
    | some b =>
      match fromStrRadix b s with
      | some n => some (.integer n)
      | none => none
  | _ => none

/-- The text up to the first dot, and after it. -/
def splitDot : Str → Str × Option Str
  | [] => ([], none)
  | c :: s =>
    if c = '.' then ([], some s)
    else ((c :: (splitDot s).1), (splitDot s).2)

/-- parse.rs:377-381 `parse_decimal` with `BigDecimal::from_str_radix` (exponents left out; the grammar
has none). -/
def parseDecimal (t : Str) : Option AST :=
  match splitDot t with
  | (lead, none) =>
    match fromStrRadix 10 lead with
    | some n => some (.decimal ⟨n, 0⟩)
    | none => none
  | (lead, some trail) =>
    match fromStrRadix 10 (lead ++ trail) with
    | some n => some (.decimal ⟨n, trail.length⟩)
    | none => none

/-- parse.rs:383-390 `parse_special`. -/
def parseSpecial (t : Str) : Option AST :=
  if t = c!"null" then some (.mkSymbol c!"std::constant:Null")
  else if t = c!"true" then some (.boolean true)
  else if t = c!"false" then some (.boolean false)
  else none

/-- parse.rs:323-338 `parse_in_out`. -/
def parseInOut (pos : Position) (t : Str) : Option AST :=
  let head := t.filter (fun c => c = '¶' || c = '⁋')
  let n := t.filter (fun c => !(c = '¶' || c = '⁋'))
  let input : Option Int :=
    if n.isEmpty then some (-(head.length : Int))
    else
      match fromStrRadix 10 n with
      | some k => some (k : Int)
      | none => none
  match input, head with
  | some i, h :: _ =>
    let s := if h = '¶' then Sym.ofStr c!"std::repl::input" else Sym.ofStr c!"std::repl::output"
    some (.function s [.mk [.integer i] [] pos])
  | _, _ => none

/-- parse.rs:344-353, the children of a slot. -/
def slotArgs : List (Pair R) → Option (List AST)
  | [] => some []
  | p :: l =>
    if p.rule = .SYMBOL then
      match slotArgs l with
      | some v => some (.string p.text :: v)
      | none => none
    else if p.rule = .Integer then
      match fromStrRadix 10 p.text, slotArgs l with
      | some n, some v => some (.integer n :: v)
      | _, _ => none
    else none

/-- parse.rs:340-356 `parse_slot`. -/
def parseSlot (pos : Position) (t : Str) (inner : List (Pair R)) : Option AST :=
  let s := if t.take 2 = c!"##" then Sym.ofStr c!"std::core::slot_sequence" else Sym.ofStr c!"std::core::slot"
  match slotArgs inner with
  | some v => some (.function s [.mk v [] pos])
  | none => none

/-- parse.rs:306-312, the pieces of a string block; `s` is the text found so far. -/
def blockText : List (Pair R) → Str → Option Str
  | [], s => some s
  | p :: l, s =>
    if p.rule = .Quotation then blockText l s
    else if p.rule = .StringText then blockText l p.text
    else none

/-- parse.rs:298-316, the loop of `parse_string`. -/
def stringText : List (Pair R) → Str → Option Str
  | [], s => some s
  | p :: l, s =>
    if p.rule = .SYMBOL then stringText l s
    else if p.rule = .StringNormal then
      if p.text.length < 2 then none else stringText l (p.text.drop 1).dropLast
    else if p.rule = .StringBlock then
      match blockText p.inner s with
      | some s => stringText l s
      | none => none
    else none

/-- parse.rs:296-321 `parse_string`: the handler name in front of the quotes is ignored. -/
def parseString (inner : List (Pair R)) : Option AST :=
  match stringText inner [] with
  | some s => some (.string s)
  | none => none

/-- parse.rs:172-183, the factors of `parse_space_call`. -/
def spaceArgs : List (Pair R) → Option (List AST)
  | [] => some []
  | p :: l =>
    if p.rule = .WHITESPACE then spaceArgs l
    else if p.rule = .Symbol then
      match spaceArgs l with
      | some v => some (.mkSymbol p.text :: v)
      | none => none
    else if p.rule = .Integer then
      match parseInteger p.text, spaceArgs l with
      | some a, some v => some (a :: v)
      | _, _ => none
    else none

/-- parse.rs:169-186 `parse_space_call`. -/
def parseSpaceCall (pos : Position) (inner : List (Pair R)) : Option AST :=
  match spaceArgs inner with
  | some v => some (.function (infixMap c!"*") [.mk v [] pos])
  | none => none

/-- parse.rs:130-153 `parse_dot_call`. -/
def dotCall (lhs rhs : AST) (pos : Position) : Option AST :=
  match rhs with
  | .symbol rs => some (.function rs [.mk [lhs] [] pos])
  | .function rs (.mk old os p :: ps) => some (.function rs (.mk (lhs :: old) os p :: ps))
  | .integer i => some (.function (Sym.ofStr c!"std::core::index") [.mk [lhs, .integer i] [] pos])
  | _ => none

/-- parse.rs:69-79, the `infix` closure of `parse_expr`. -/
def infixCall (pos : Position) (lhs : AST) (op : Pair R) (rhs : AST) : Option AST :=
  if op.rule = .Dot then dotCall lhs rhs pos
  else some (.function (infixMap op.text) [.mk [lhs, rhs] [] pos])

/-- parse.rs:112-115: apply the prefixes, the last one first. -/
def applyPrefixes : List (Str × Position) → AST → Option AST
  | [], base => some base
  | (t, pos) :: l, base =>
    match applyPrefixes l base with
    | none => none
    | some base =>
      match prefixMap t with
      | none => none
      | some s => some (.function s [.mk [base] [] pos])

mutual
/-- parse.rs:60-81 `parse_expr`. -/
def buildExpr (c : Cfg) : Pair R → Option AST
  | .mk _ a b _ inner => climb (infixCall (c.position a b)) (exprItems c inner)
termination_by structural p => p
/-- The items of `parse_expr`, with the outcome of the `primary` closure (parse.rs:64-68) for each;
the climber only uses the outcomes it reaches. -/
def exprItems (c : Cfg) : List (Pair R) → List (Item AST)
  | [] => []
  | p :: l =>
    (p, if p.rule = .expr then buildExpr c p
        else if p.rule = .term then buildTerm c p
        else none) :: exprItems c l
termination_by structural l => l
/-- parse.rs:83-117 `parse_term`. -/
def buildTerm (c : Cfg) : Pair R → Option AST
  | .mk _ _ _ _ inner => termLoop c inner .empty []
termination_by structural p => p
/-- parse.rs:87-116, the loop of `parse_term`; `pre` holds the prefixes seen, in order. -/
def termLoop (c : Cfg) : List (Pair R) → AST → List (Str × Position) → Option AST
  | [], base, pre => applyPrefixes pre base
  | p :: l, base, pre =>
    if p.rule = .node then
      match buildNode c p with
      | some base => termLoop c l base pre
      | none => none
    else if p.rule = .Prefix then termLoop c l base (pre ++ [(p.text, c.position p.start p.stop)])
    else if p.rule = .Suffix then
      match suffixMap p.text with
      | some s => termLoop c l (.function s [.mk [base] [] (c.position p.start p.stop)]) pre
      | none => none
    else if p.rule = .slice then
      match buildSlice c p with
      | some v =>
        termLoop c l
          (.function (Sym.ofStr c!"std::core::Index") [.mk (base :: v) [] (c.position p.start p.stop)]) pre
      | none => none
    else none
termination_by structural l => l
/-- parse.rs:119-128 `parse_node`. -/
def buildNode (c : Cfg) : Pair R → Option AST
  | .mk _ _ _ _ [] => none
  | .mk _ _ _ _ (p :: _) =>
    if p.rule = .expr then buildExpr c p
    else if p.rule = .data then buildData c p
    else if p.rule = .apply_call then buildApplyCall c p
    else if p.rule = .space_call then parseSpaceCall (c.position p.start p.stop) p.inner
    else none
termination_by structural p => p
/-- parse.rs:155-167 `parse_apply_call`. -/
def buildApplyCall (c : Cfg) : Pair R → Option AST
  | .mk _ _ _ _ [] => none
  | .mk _ _ _ _ (h :: l) =>
    match applyLists c l with
    | some ps => some (.function (Sym.ofStr h.text) ps)
    | none => none
termination_by structural p => p
/-- parse.rs:159-165, the argument lists. -/
def applyLists (c : Cfg) : List (Pair R) → Option (List Param)
  | [] => some []
  | p :: l =>
    if p.rule = .apply then
      match buildApply c p, applyLists c l with
      | some q, some qs => some (q :: qs)
      | _, _ => none
    else none
termination_by structural l => l
/-- parse.rs:188-209 `parse_apply`. -/
def buildApply (c : Cfg) : Pair R → Option Param
  | .mk _ a b _ inner =>
    match applyArgs c inner [] [] with
    | some (args, kws) => some (.mk args kws (c.position a b))
    | none => none
termination_by structural p => p
/-- parse.rs:192-207, the loop of `parse_apply`. -/
def applyArgs (c : Cfg) : List (Pair R) → List AST → BMap AST AST → Option (List AST × BMap AST AST)
  | [], args, kws => some (args, kws)
  | p :: l, args, kws =>
    if p.rule = .WHITESPACE then applyArgs c l args kws
    else if p.rule = .Comma then applyArgs c l args kws
    else if p.rule = .apply_kv then
      match buildKv c p with
      | none => none
      | some (.empty, v) => applyArgs c l (args ++ [v]) kws
      | some (k, v) => applyArgs c l args (BMap.insert astCmp k v kws)
    else none
termination_by structural l => l
/-- parse.rs:211-222 `parse_apply_kv`. -/
def buildKv (c : Cfg) : Pair R → Option (AST × AST)
  | .mk _ _ _ _ inner => kvLoop c inner .empty .empty
termination_by structural p => p
/-- parse.rs:213-220, the loop of `parse_apply_kv`. -/
def kvLoop (c : Cfg) : List (Pair R) → AST → AST → Option (AST × AST)
  | [], k, v => some (k, v)
  | p :: l, k, v =>
    if p.rule = .Colon then kvLoop c l k v
    else if p.rule = .SYMBOL then kvLoop c l (.mkSymbol p.text) v
    else if p.rule = .expr then
      match buildExpr c p with
      | some v => kvLoop c l k v
      | none => none
    else none
termination_by structural l => l
/-- parse.rs:224-234 `parse_slice`. -/
def buildSlice (c : Cfg) : Pair R → Option (List AST)
  | .mk _ _ _ _ inner => sliceItems c inner
termination_by structural p => p
/-- parse.rs:226-232, the loop of `parse_slice`. -/
def sliceItems (c : Cfg) : List (Pair R) → Option (List AST)
  | [] => some []
  | p :: l =>
    if p.rule = .Comma then sliceItems c l
    else if p.rule = .index then
      match buildIndex c p, sliceItems c l with
      | some a, some v => some (a :: v)
      | _, _ => none
    else none
termination_by structural l => l
/-- parse.rs:236-263 `parse_index`. -/
def buildIndex (c : Cfg) : Pair R → Option AST
  | .mk _ a b _ inner =>
    indexLoop c (c.position a b) inner (.integer 1) (.mkSymbol c!"std::core::All") (.integer 1)
termination_by structural p => p
/-- parse.rs:241-262, the loop of `parse_index`; a whole expression returns at once. -/
def indexLoop (c : Cfg) (pos : Position) : List (Pair R) → AST → AST → AST → Option AST
  | [], start, stop, step =>
    some (.function (Sym.ofStr c!"std::core::Span") [.mk [start, stop, step] [] pos])
  | p :: l, start, stop, step =>
    if p.rule = .Colon then indexLoop c pos l start stop step
    else if p.rule = .Start then
      match buildFirst c p with
      | some e => indexLoop c pos l e stop step
      | none => none
    else if p.rule = .End then
      match buildFirst c p with
      | some e => indexLoop c pos l start e step
      | none => none
    else if p.rule = .Step then
      match buildFirst c p with
      | some e => indexLoop c pos l start stop e
      | none => none
    else if p.rule = .expr then buildExpr c p
    else none
termination_by structural l => l
/-- parse.rs:245-246, 249-250, 253-254: `pair.into_inner().nth(0).unwrap()` passed to `parse_expr`. -/
def buildFirst (c : Cfg) : Pair R → Option AST
  | .mk _ _ _ _ [] => none
  | .mk _ _ _ _ (e :: _) => buildExpr c e
termination_by structural p => p
/-- parse.rs:265-279 `parse_data`. -/
def buildData (c : Cfg) : Pair R → Option AST
  | .mk _ _ _ _ [] => none
  | .mk _ _ _ _ (p :: _) =>
    if p.rule = .list then buildList c p
    else if p.rule = .Symbol then some (.mkSymbol p.text)
    else if p.rule = .String then parseString p.inner
    else if p.rule = .Decimal then parseDecimal p.text
    else if p.rule = .Integer then parseInteger p.text
    else if p.rule = .Byte then parseByte p.text
    else if p.rule = .Special then parseSpecial p.text
    else if p.rule = .REPL then parseInOut (c.position p.start p.stop) p.text
    else if p.rule = .Slot then parseSlot (c.position p.start p.stop) p.text p.inner
    else none
termination_by structural p => p
/-- parse.rs:281-294 `parse_list`. -/
def buildList (c : Cfg) : Pair R → Option AST
  | .mk _ a b _ inner =>
    match listItems c inner with
    | some v => some (.function (Sym.ofStr c!"std::containers::List") [.mk v [] (c.position a b)])
    | none => none
termination_by structural p => p
/-- parse.rs:284-290, the loop of `parse_list`. -/
def listItems (c : Cfg) : List (Pair R) → Option (List AST)
  | [] => some []
  | p :: l =>
    if p.rule = .Comma then listItems c l
    else if p.rule = .expr then
      match buildExpr c p, listItems c l with
      | some a, some v => some (a :: v)
      | _, _ => none
    else none
termination_by structural l => l
end

/-- parse.rs:44-57 `parse_expression`: the last `expr` child (there is exactly one). -/
def buildExpression (c : Cfg) : List (Pair R) → AST → Option AST
  | [], base => some base
  | p :: l, base =>
    if p.rule = .expr then
      match buildExpr c p with
      | some base => buildExpression c l base
      | none => none
    else if p.rule = .eos then buildExpression c l base
    else none

/-- parse.rs:31-41, the loop of `parse` over the top-level pairs.  `COMMENT` is silent in the grammar
and never occurs. -/
def parsePairs (c : Cfg) : List (Pair R) → SMResult AST
  | [] => .ok .empty
  | p :: l =>
    if p.rule = .EOI then parsePairs c l
    else if p.rule = .expression then
      match buildExpression c p.inner .empty with
      | some a => .ok a
      | none => .panic
    else if p.rule = .COMMENT then parsePairs c l
    else .panic

/-- parse.rs:29-42 `ParserSettings::parse`. -/
def parseText (u : Uni) (c : Cfg) : SMResult AST :=
  match smParse u .program c.input with
  | .pairs l => parsePairs c l
  | .error => .err (.parseError c.errorText)
  | .crash => .panic

end SM.Peg
