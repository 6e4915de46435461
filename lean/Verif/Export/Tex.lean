import Verif.Ast.Display
/-
Model of `projects/sm-ast/src/traits/tex/{mod,utils}.rs`.  A panic is `none`.

The format strings in mod.rs are raw strings, so `\\` there is two backslashes; in utils.rs they are
ordinary strings.
-/
namespace SM

/-- mod.rs:61-68 `BoxArea::height` for `AST`. -/
def AST.height : AST → Nat
  | .empty => 0
  | .program _ => 1
  | .function _ _ => 1
  | _ => 1

/-- mod.rs:69-81 `BoxArea::width` for `AST`. -/
def AST.width : AST → Option Nat
  | .empty => some 0
  | .program _ => some 1
  | .function s p =>
    if s.nameSpace = [c!"std", c!"prefix"] then none
    else if s.nameSpace = [c!"std", c!"infix"] then
      match p with
      | [] => none
      | q :: _ => some q.arguments.length
    else if s.nameSpace = [c!"std", c!"suffix"] then none
    else some 1
  | _ => some 1

/-- `iter().map(height).max()` over a non-empty list. -/
def maxHeight : List AST → Nat
  | [] => 0
  | a :: as => max a.height (maxHeight as)

/-- mod.rs:85-90 `BoxArea::height` for `Parameter`. -/
def Param.height (p : Param) : Nat :=
  if p.arguments.length = 0 then 1 else maxHeight p.arguments

/-- mod.rs:91-93 `BoxArea::width` for `Parameter`. -/
def Param.width (p : Param) : Nat := p.arguments.length

/-- utils.rs:8-17 `infix_tex`: operands are printed with `Display`, not as TeX. -/
def infixTex (s : Sym) (p : Param) : Option Str :=
  match p.arguments with
  | lhs :: rhs :: _ =>
    if s.name = c!"times" then do
      let l ← lhs.display
      let r ← rhs.display
      pure (l ++ c!" " ++ r)
    else do
      let ops := if s.name = c!"add" then c!"+" else s.name
      let l ← lhs.display
      let r ← rhs.display
      pure (l ++ c!" " ++ ops ++ c!" " ++ r)
  | _ => none

/-- mod.rs:31: names rendered as `\\sin` and the like. -/
def trigNames : List Str :=
  [c!"sin", c!"cos", c!"tan", c!"cot", c!"sec", c!"csc", c!"arcsin", c!"arccos", c!"arctan"]

/-- mod.rs:34: names rendered as `\\operatorname{..}` without brackets. -/
def operatorNames : List Str :=
  [c!"arccot", c!"arcsec", c!"arccsc", c!"arcsinh", c!"arccosh", c!"arctanh", c!"arccoth",
    c!"arcsech", c!"arccsch"]

mutual
/-- mod.rs:13-51 `ToTex for AST`. -/
def AST.toTex : AST → Option Str
  | .empty => some []
  | .program _ => none
  | .integer i => some (intStr i)
  | .decimal d => some (decStr d)
  | .symbol s => some s.name
  | .string s => some (c!"\\\\text{" ++ s ++ c!"}")
  | .function s p =>
    if s.nameSpace = [c!"std", c!"prefix"] then none
    else if s.nameSpace = [c!"std", c!"infix"] then
      match p with
      | [] => none
      | q :: _ => infixTex s q
    else if s.nameSpace = [c!"std", c!"suffix"] then none
    else if s.name ∈ trigNames then
      match texOmit p with
      | none => none
      | some t => some (c!"\\\\" ++ s.display ++ t)
    else if s.name ∈ operatorNames then
      match texOmit p with
      | none => none
      | some t => some (c!"\\\\operatorname{" ++ s.display ++ c!"}" ++ t)
    else if s.name = c!"List" then texList p
    else
      match texParams p with
      | none => none
      | some ts => some (c!"\\\\operatorname{" ++ s.name ++ c!"}" ++ join [] ts)
  | .boolean b => some (if b then c!"\\\\mathtt{true}" else c!"\\\\mathtt{false}")
/-- utils.rs:19-64 `omit_brackets_function(&p[0])`; the index panics without parameters. -/
def texOmit : List Param → Option Str
  | [] => none
  | .mk args os pos :: _ =>
    match args.length with
    | 0 => some c!"()"
    | 1 =>
      match args.head?.bind AST.width with
      | none => none
      | some wd =>
        match texArgs args with
        | none => none
        | some ts =>
          if wd ≤ 1 then some (c!" " ++ join c!", " ts)
          else
            let max := (Param.mk args os pos).height
            some ((if max > 1 then c!"\\left(" else c!"(") ++ join c!", " ts ++
              (if max > 1 then c!"\\left)" else c!")"))
    | _ =>
      let max := (Param.mk args os pos).height
      match texArgs args with
      | none => none
      | some ts =>
        some ((if max > 1 then c!"\\left(" else c!"(") ++ join c!", " ts ++
          (if max > 1 then c!"\\right)" else c!")"))
/-- mod.rs:37-41, the `"List"` arm: `max().unwrap()` panics on an empty list. -/
def texList : List Param → Option Str
  | [] => none
  | .mk args _ _ :: _ =>
    if args.length = 0 then none
    else
      match texArgs args with
      | none => none
      | some ts =>
        if maxHeight args > 1 then
          some (c!"\\\\left\\\\{" ++ join c!", " ts ++ c!"\\\\right\\\\}")
        else some (c!"\\\\{" ++ join c!", " ts ++ c!"\\\\}")
/-- `map(to_tex)` over parameters; mod.rs:53-58 `ToTex for Parameter`. -/
def texParams : List Param → Option (List Str)
  | [] => some []
  | .mk args _ _ :: ps =>
    match texArgs args with
    | none => none
    | some ts =>
      match texParams ps with
      | none => none
      | some us => some ((c!"\\\\left(" ++ join c!", " ts ++ c!"\\\\right)") :: us)
/-- `map(to_tex)` over arguments. -/
def texArgs : List AST → Option (List Str)
  | [] => some []
  | a :: as =>
    match a.toTex with
    | none => none
    | some t =>
      match texArgs as with
      | none => none
      | some ts => some (t :: ts)
end

end SM
