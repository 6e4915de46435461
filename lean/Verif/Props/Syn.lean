import Verif.Props.Group
import Verif.Props.Prog
import Verif.Props.Block
import Verif.Props.Value
import Verif.Props.Dict
import Verif.Props.MixedNode
/-
The expression language: how expressions are written, with all blank space and every choice between equivalent
signs, and what they mean.  `SExpr.text` is the text, `SExpr.value` the meaning, `SExpr.Ok` says which ways of
writing are admitted.  That the program reads them like this is proved in Verif/Props/Read.lean.
-/
namespace SM.Props
open SM SM.Peg

/-! ### Literals, names, juxtaposition -/

/-- A factor of a juxtaposition: a number or a name. -/
inductive SFactor where
  | int (n : Nat)
  | sym (p : Path)

/-- How a factor is written. -/
def SFactor.text : SFactor → Str
  | .int n => numeral n
  | .sym p => p.text

/-- What a factor means. -/
def SFactor.value : SFactor → AST
  | .int n => .integer n
  | .sym p => .mkSymbol p.text

/-- Literals, names and products of literals and names. -/
inductive SAtom where
  | int (n : Nat)
  | dec (i f : Nat)
  | radix (r : Radix) (k : Char) (d : SDigit) (ds : List SDigit)
  | str (s : Str)
  | tagged (h s : Str)
  | block (n : Nat) (s : Str)
  | taggedBlock (h : Str) (n : Nat) (s : Str)
  | back (out : Bool) (n : Nat)
  | nth (out : Bool) (n : Nat)
  | slot
  | slotNamed (x : Str)
  | slotNth (n : Nat)
  | slots
  | slotsFrom (n : Nat)
  | null
  | bool (b : Bool)
  | sym (p : Path)
  | prod (f : SFactor) (m : Str × SFactor) (l : List (Str × SFactor))

/-- The text of further factors, each with the white space before it. -/
def factorsText (l : List (Str × SFactor)) : Str := l.flatMap fun m => m.1 ++ m.2.text

/-- How literals, names and products are written. -/
def SAtom.text : SAtom → Str
  | .int n => numeral n
  | .dec i f => numeral i ++ '.' :: numeral f
  | .radix _ k d ds => '0' :: k :: (d :: ds).flatMap fun d => groupText d.char
  | .str s => quoted s
  | .tagged h s => h ++ quoted s
  | .block n s => blocked n s
  | .taggedBlock h n s => h ++ blocked n s
  | .back out n => List.replicate (n + 1) (pilcrow out)
  | .nth out n => pilcrow out :: numeral n
  | .slot => c!"#"
  | .slotNamed x => '#' :: x
  | .slotNth n => '#' :: numeral n
  | .slots => c!"##"
  | .slotsFrom n => '#' :: '#' :: numeral n
  | .null => c!"null"
  | .bool b => if b then c!"true" else c!"false"
  | .sym p => p.text
  | .prod f m l => f.text ++ factorsText (m :: l)

/-- What literals, names and products mean; `none`: the program panics. -/
def SAtom.value : SAtom → Option AST
  | .int n => some (.integer n)
  | .dec i f => some (.decimal ⟨(i * 10 ^ (numeral f).length + f : Nat), (numeral f).length⟩)
  | .radix r _ d ds => if d.1 then none else some (.integer (digitsValue r.base ((d :: ds).map fun d => d.2.2)))
  | .str s => some (.string s)
  | .tagged _ s => some (.string s)
  | .block _ s => some (.string s)
  | .taggedBlock _ _ s => some (.string s)
  | .back out n => some (replValue out (-((n : Int) + 1)))
  | .nth out n => some (replValue out n)
  | .slot => some (.function (Sym.ofStr c!"std::core::slot") [.mk [] [] noPos])
  | .slotNamed x => some (.function (Sym.ofStr c!"std::core::slot") [.mk [.string x] [] noPos])
  | .slotNth n => some (.function (Sym.ofStr c!"std::core::slot") [.mk [.integer n] [] noPos])
  | .slots => some (.function (Sym.ofStr c!"std::core::slot_sequence") [.mk [] [] noPos])
  | .slotsFrom _ => none
  | .null => some (.mkSymbol c!"std::constant:Null")
  | .bool b => some (.boolean b)
  | .sym p => some (.mkSymbol p.text)
  | .prod f m l => some (.function Op.star.sym [.mk (f.value :: m.2.value :: l.map fun m => m.2.value) [] noPos])

/-- Well-formed factors. -/
def SFactor.Ok (u : Uni) : SFactor → Prop
  | .int _ => True
  | .sym p => p.Ok u

/-- When one factor may stand after another: white space is between them, or the first is a number and the second a
name -- except that `0x`, `0o` and `0b` begin a literal with a radix -- or the first is `0`. -/
def SFactor.Apart (f : SFactor) (h : Str) (g : SFactor) : Prop :=
  h ≠ [] ∨
    match f, g with
    | .int n, .sym p => n = 0 → ∀ c r, p.first = c :: r → c ∉ radixLetters
    | .int n, .int _ => n = 0
    | .sym _, _ => False

/-- Well-formed further factors. -/
def FactorsOk (u : Uni) : SFactor → List (Str × SFactor) → Prop
  | _, [] => True
  | f, (h, g) :: l => (∀ c ∈ h, HWs u c) ∧ g.Ok u ∧ f.Apart h g ∧ FactorsOk u g l

/-- Well-formed literals, names and products. -/
def SAtom.Ok (u : Uni) : SAtom → Prop
  | .int _ => True
  | .dec _ _ => True
  | .radix r k d ds => k ∈ r.letters ∧ ∀ e ∈ d :: ds, e.2.2 < r.base
  | .str s => contentOk s = true
  | .tagged h s => IsIdent u h ∧ (∀ k ∈ constants, strip k h = none) ∧ contentOk s = true
  | .block n s => BlockOk n s
  | .taggedBlock h n s => IsIdent u h ∧ (∀ k ∈ constants, strip k h = none) ∧ BlockOk n s
  | .back _ _ => True
  | .nth _ n => 0 < n
  | .slot => True
  | .slotNamed x => IsIdent u x
  | .slotNth _ => True
  | .slots => True
  | .slotsFrom n => 0 < n
  | .null => True
  | .bool _ => True
  | .sym p => p.Ok u ∧ p.Free
  | .prod f m l => f.Ok u ∧ FactorsOk u f (m :: l)

/-- Whether a dot and a digit after it would be read as part of it. -/
def SAtom.num : SAtom → Bool
  | .int _ | .back _ _ | .nth _ _ | .slot | .slotNamed _ | .slotNth _ | .slots | .slotsFrom _ | .prod _ _ _ => true
  | _ => false

/-! ### Expressions -/

/-- A comma and blank space, before a closing bracket. -/
abbrev Trail := Option (Bool × Str)

mutual
/-- Operands. -/
inductive SNode where
  | atom (a : SAtom)
  | paren (e : SExpr) (w : Str)
  | nil (w : Str)
  | list (i : SItem) (l : List SItem) (o : Trail)
  | call (p : Path) (a : SArgs) (l : List SArgs)
  | deriv (p : Path) (k : Nat) (a : SArgs)
  | dictNil (w : Str)
  | dict (i : SItem) (l : List SItem) (o : Trail)
  | mixed (f : SFac) (m : SMix) (l : List SMix)
/-- A factor of a product with decimals, literals with a radix or calls. -/
inductive SFac where
  | int (n : Nat)
  | sym (p : Path)
  | dec (i f : Nat)
  | radix (r : Radix) (k : Char) (d : SDigit) (ds : List SDigit)
  | call (p : Path) (a : SArgs) (l : List SArgs)
/-- A further factor, after white space `h`. -/
inductive SMix where
  | mk (h : Str) (f : SFac)
/-- An item of a list, of a dictionary, of an argument list or of an index, with the comma before it (`b` says which; not used for the
first item) and the blank space around it. -/
inductive SItem where
  | mk (b : Bool) (wa : Str) (c : SContent) (wb : Str)
/-- Expressions, named arguments, spans, keys with values. -/
inductive SContent where
  | expr (e : SExpr)
  | named (k w1 : Str) (b : Bool) (w2 : Str) (e : SExpr)
  | span2 (s : SPart) (b : Bool) (e : SLast)
  | span3 (s : SPart) (b : Bool) (wa : Str) (e : SPart) (b' : Bool) (t : SLast)
  | pair (k : SKey) (w1 : Str) (b : Bool) (w2 : Str) (e : SExpr)
/-- A part of a span before a colon. -/
inductive SPart where
  | none
  | some (e : SExpr) (w : Str)
/-- The last part of a span. -/
inductive SLast where
  | none
  | some (wa : Str) (e : SExpr)
/-- An argument list after white space `h`. -/
inductive SArgs where
  | some (h : Str) (i : SItem) (l : List SItem) (o : Trail)
  | none (h w : Str) (l : List SItem) (o : Trail)
/-- A suffix. -/
inductive SSuf where
  | op (y : Str)
  | slice (h : Str) (i : SItem) (l : List SItem) (o : Trail)
/-- Prefixes, an operand, suffixes. -/
inductive STerm where
  | mk (ps : List Pre) (n : SNode) (l : List SSuf)
/-- An infix operator and the term after it, with the blank space around the operator. -/
inductive SStep where
  | mk (wb : Str) (t : Tok) (wa : Str) (x : STerm)
/-- An expression: terms separated by infix operators. -/
inductive SExpr where
  | mk (t : STerm) (l : List SStep)
end

mutual
/-- How operands are written. -/
def SNode.text : SNode → Str
  | .atom a => a.text
  | .paren e w => '(' :: (e.text ++ (w ++ c!")"))
  | .nil w => '[' :: (w ++ c!"]")
  | .list i l o => '[' :: (i.text ++ itemsText l (trailText o ++ c!"]"))
  | .call p a l => p.text ++ (a.text ++ argsText l)
  | .deriv p k a => p.text ++ ('\'' :: List.replicate k '\'' ++ a.text)
  | .dictNil w => '{' :: (w ++ c!"}")
  | .dict i l o => '{' :: (i.text ++ itemsText l (trailText o ++ c!"}"))
  | .mixed f m l => f.text ++ (m.text ++ mixesText l)
termination_by structural n => n
/-- How factors are written. -/
def SFac.text : SFac → Str
  | .int n => numeral n
  | .sym p => p.text
  | .dec i f => numeral i ++ '.' :: numeral f
  | .radix _ k d ds => '0' :: k :: (d :: ds).flatMap fun d => groupText d.char
  | .call p a l => p.text ++ (a.text ++ argsText l)
termination_by structural f => f
/-- How further factors are written. -/
def SMix.text : SMix → Str
  | .mk h f => h ++ f.text
termination_by structural m => m
/-- How further factors are written. -/
def mixesText : List SMix → Str
  | [] => []
  | m :: l => m.text ++ mixesText l
termination_by structural l => l
/-- How items are written. -/
def SItem.text : SItem → Str
  | .mk _ wa c wb => wa ++ (c.text ++ wb)
termination_by structural i => i
/-- The comma before an item. -/
def SItem.comma : SItem → Str
  | .mk b _ _ _ => commaText b
termination_by structural i => i
/-- How further items are written, and what follows. -/
def itemsText : List SItem → Str → Str
  | [], t => t
  | i :: l, t => i.comma ++ (i.text ++ itemsText l t)
termination_by structural l => l
/-- How expressions, named arguments, spans and keys with values are written. -/
def SContent.text : SContent → Str
  | .expr e => e.text
  | .named k w1 b w2 e => k ++ (w1 ++ (colonText b ++ (w2 ++ e.text)))
  | .span2 s b e => s.text ++ (colonText b ++ e.text)
  | .span3 s b wa e b' t => s.text ++ (colonText b ++ (wa ++ (e.text ++ (colonText b' ++ t.text))))
  | .pair k w1 b w2 e => k.text ++ (w1 ++ (colonText b ++ (w2 ++ e.text)))
termination_by structural c => c
/-- How a part of a span is written. -/
def SPart.text : SPart → Str
  | .none => []
  | .some e w => e.text ++ w
termination_by structural p => p
/-- How the last part of a span is written. -/
def SLast.text : SLast → Str
  | .none => []
  | .some wa e => wa ++ e.text
termination_by structural p => p
/-- How an argument list is written. -/
def SArgs.text : SArgs → Str
  | .some h i l o => h ++ '(' :: (i.text ++ itemsText l (trailText o ++ c!")"))
  | .none h w l o => h ++ '(' :: (w ++ itemsText l (trailText o ++ c!")"))
termination_by structural a => a
/-- How argument lists are written. -/
def argsText : List SArgs → Str
  | [] => []
  | a :: l => a.text ++ argsText l
termination_by structural l => l
/-- How a suffix is written. -/
def SSuf.text : SSuf → Str
  | .op y => y
  | .slice h i l o => h ++ '[' :: (i.text ++ itemsText l (trailText o ++ c!"]"))
termination_by structural s => s
/-- How suffixes are written. -/
def sufsText : List SSuf → Str
  | [] => []
  | s :: l => s.text ++ sufsText l
termination_by structural l => l
/-- How terms are written. -/
def STerm.text : STerm → Str
  | .mk ps n l => ps.map Pre.char ++ (n.text ++ sufsText l)
termination_by structural t => t
/-- How an operator and the term after it are written. -/
def SStep.text : SStep → Str
  | .mk wb t wa x => wb ++ (t.char :: (wa ++ x.text))
termination_by structural s => s
/-- How operators and the terms after them are written. -/
def stepsText : List SStep → Str
  | [] => []
  | s :: l => s.text ++ stepsText l
termination_by structural l => l
/-- How expressions are written. -/
def SExpr.text : SExpr → Str
  | .mk t l => t.text ++ stepsText l
termination_by structural e => e
end

mutual
/-- What operands mean; `none`: the program panics, as it does on every derivative, every dictionary and
every product with factors other than integers and names. -/
def SNode.value : SNode → Option AST
  | .atom a => a.value
  | .paren e _ => e.value
  | .nil _ => listOf []
  | .list i l _ => listOf (i.value :: itemsValue l)
  | .call p a l => callOf p.text (a.value :: argsValue l)
  | .deriv _ _ _ => none
  | .dictNil _ => none
  | .dict _ _ _ => none
  | .mixed _ _ _ => none
termination_by structural n => n
/-- What an item means. -/
def SItem.value : SItem → Option AST
  | .mk _ _ c _ => c.value
termination_by structural i => i
/-- What items mean. -/
def itemsValue : List SItem → List (Option AST)
  | [] => []
  | i :: l => i.value :: itemsValue l
termination_by structural l => l
/-- What expressions and spans mean. -/
def SContent.value : SContent → Option AST
  | .expr e => e.value
  | .named _ _ _ _ _ => none
  | .span2 s _ e => spanOf s.value e.value none
  | .span3 s _ _ e _ t => spanOf s.value e.value t.value
  | .pair _ _ _ _ _ => none
termination_by structural c => c
/-- What an argument means. -/
def SItem.arg : SItem → Option (AST × AST)
  | .mk _ _ c _ => c.arg
termination_by structural i => i
/-- What arguments mean. -/
def itemsArg : List SItem → List (Option (AST × AST))
  | [] => []
  | i :: l => i.arg :: itemsArg l
termination_by structural l => l
/-- What expressions and named arguments mean as arguments. -/
def SContent.arg : SContent → Option (AST × AST)
  | .expr e => posArg e.value
  | .named k _ _ _ e => namedArg k e.value
  | .span2 _ _ _ => none
  | .span3 _ _ _ _ _ _ => none
  | .pair _ _ _ _ _ => none
termination_by structural c => c
/-- What a part of a span means. -/
def SPart.value : SPart → Option (Option AST)
  | .none => Option.none
  | .some e _ => Option.some e.value
termination_by structural p => p
/-- What the last part of a span means. -/
def SLast.value : SLast → Option (Option AST)
  | .none => Option.none
  | .some _ e => Option.some e.value
termination_by structural p => p
/-- What an argument list means. -/
def SArgs.value : SArgs → Option Param
  | .some _ i l _ => argsOf (i.arg :: itemsArg l)
  | .none _ _ l _ => argsOf (itemsArg l)
termination_by structural a => a
/-- What argument lists mean. -/
def argsValue : List SArgs → List (Option Param)
  | [] => []
  | a :: l => a.value :: argsValue l
termination_by structural l => l
/-- What a suffix does. -/
def SSuf.apply : SSuf → AST → Option AST
  | .op y => sufApply y
  | .slice _ i l _ => indexBy (i.value :: itemsValue l)
termination_by structural s => s
/-- What suffixes do, the first one first. -/
def sufsApply : List SSuf → AST → Option AST
  | [], a => some a
  | s :: l, a => (s.apply a).bind (sufsApply l)
termination_by structural l => l
/-- What terms mean. -/
def STerm.value : STerm → Option AST
  | .mk ps n l => n.value.bind fun a => (sufsApply l a).bind (preFold ps)
termination_by structural t => t
/-- Operators and the values of the terms after them, up to the first operator that the program does not know. -/
def stepsValue : List SStep → List (Op × Option AST)
  | [] => []
  | .mk _ t _ x :: l =>
    match t with
    | .op o => (o, x.value) :: stepsValue l
    | _ => []
termination_by structural l => l
/-- What expressions mean. -/
def SExpr.value : SExpr → Option AST
  | .mk t l => evalTree id Op.apply (group t.value (stepsValue l))
termination_by structural e => e
end

/-- Whether a dot and a digit after it would be read as part of it. -/
def SNode.num : SNode → Bool
  | .atom a => a.num
  | .mixed _ _ _ => true
  | _ => false
/-- Whether a dot and a digit after it would be read as part of it. -/
def STerm.num : STerm → Bool
  | .mk _ n l => n.num && l.isEmpty
/-- The expression has no infix operators. -/
def SExpr.solo : SExpr → Bool
  | .mk _ l => l.isEmpty

/-- The blank space of a comma before a bracket. -/
def TrailOk (u : Uni) (o : Trail) : Prop := ∀ b w, o = some (b, w) → Blank u w

/-- What can be an item of a list. -/
def SContent.isExpr : SContent → Bool
  | .expr _ => true
  | _ => false
/-- What can be an argument. -/
def SContent.isArg : SContent → Bool
  | .expr _ | .named _ _ _ _ _ => true
  | _ => false
/-- What can be an index. -/
def SContent.isIndex : SContent → Bool
  | .named _ _ _ _ _ | .pair _ _ _ _ _ => false
  | _ => true
/-- What can be an item of a dictionary. -/
def SContent.isPair : SContent → Bool
  | .pair _ _ _ _ _ => true
  | _ => false

/-- Decimals, literals with a radix, and calls. -/
def SFac.odd : SFac → Bool
  | .int _ | .sym _ => false
  | _ => true
/-- Calls. -/
def SFac.isCall : SFac → Bool
  | .call _ _ _ => true
  | _ => false
/-- The factor after white space. -/
def SMix.fac : SMix → SFac
  | .mk _ f => f
/-- When the text `t` may stand after a factor and white space `h`: there is white space, or it does not continue the
factor. -/
def SFac.Apart (f : SFac) (h t : Str) : Prop :=
  h ≠ [] ∨
    match f with
    | .int n => (n ≠ 0 → NoDig t) ∧ (n = 0 → ∀ c r, t = c :: r → c ∉ radixLetters)
    | .sym _ => False
    | .dec _ f => f ≠ 0 → NoDig t
    | .radix b _ _ _ => (∀ c r, t = c :: r → c ∉ b.digits) ∧ (∀ c r, t = '_' :: c :: r → c ∉ b.digits)
    | .call _ _ _ => True

mutual
/-- Well-formed operands: no blank space after an opening parenthesis, and blank space before a closing one only if
there are no operators in between. -/
def SNode.Ok (u : Uni) : SNode → Prop
  | .atom a => a.Ok u
  | .paren e w => e.Ok u ∧ Blank u w ∧ (e.solo = true ∨ w = [])
  | .nil w => Blank u w
  | .list i l o => i.Ok u SContent.isExpr ∧ ItemsOk u SContent.isExpr l ∧ TrailOk u o
  | .call p a l => p.Ok u ∧ a.Ok u ∧ ArgsOk u l
  | .deriv p _ a => p.Ok u ∧ a.Ok u
  | .dictNil w => Blank u w
  | .dict i l o => i.Ok u SContent.isPair ∧ ItemsOk u SContent.isPair l ∧ TrailOk u o
  | .mixed f m l => f.Ok u ∧ f.isCall = false ∧ m.Ok u f ∧ MixesOk u m.fac l ∧
      (f.odd = true ∨ ∃ m' ∈ m :: l, m'.fac.odd = true)
termination_by structural n => n
/-- Well-formed factors. -/
def SFac.Ok (u : Uni) : SFac → Prop
  | .int _ => True
  | .sym p => p.Ok u
  | .dec _ _ => True
  | .radix r k d ds => k ∈ r.letters ∧ ∀ e ∈ d :: ds, e.2.2 < r.base
  | .call p a l => p.Ok u ∧ a.Ok u ∧ ArgsOk u l
termination_by structural f => f
/-- Well-formed factors after the factor `f`. -/
def SMix.Ok (u : Uni) (f : SFac) : SMix → Prop
  | .mk h g => (∀ c ∈ h, HWs u c) ∧ g.Ok u ∧ f.Apart h g.text
termination_by structural m => m
/-- Well-formed factors after the factor `f`. -/
def MixesOk (u : Uni) (f : SFac) : List SMix → Prop
  | [] => True
  | m :: l => m.Ok u f ∧ MixesOk u m.fac l
termination_by structural l => l
/-- Well-formed items of the given kind. -/
def SItem.Ok (u : Uni) (kind : SContent → Bool) : SItem → Prop
  | .mk _ wa c wb => Blank u wa ∧ Blank u wb ∧ kind c = true ∧ c.Ok u
termination_by structural i => i
/-- Well-formed items of the given kind. -/
def ItemsOk (u : Uni) (kind : SContent → Bool) : List SItem → Prop
  | [] => True
  | i :: l => i.Ok u kind ∧ ItemsOk u kind l
termination_by structural l => l
/-- Well-formed expressions, named arguments, spans and keys with values. -/
def SContent.Ok (u : Uni) : SContent → Prop
  | .expr e => e.Ok u
  | .named k w1 _ w2 e => IsIdent u k ∧ Blank u w1 ∧ Blank u w2 ∧ e.Ok u
  | .span2 s b e => s.Ok u (colonText b ++ e.text) ∧ e.Ok u
  | .span3 s b wa e b' t => s.Ok u (colonText b ++ (wa ++ (e.text ++ (colonText b' ++ t.text)))) ∧ Blank u wa ∧
      e.Ok u (colonText b' ++ t.text) ∧ t.Ok u
  | .pair k w1 _ w2 e => k.Ok u ∧ Blank u w1 ∧ Blank u w2 ∧ e.Ok u
termination_by structural c => c
/-- Well-formed parts of spans: the text `z` after them is not taken for a continuation of a name. -/
def SPart.Ok (u : Uni) (z : Str) : SPart → Prop
  | .none => True
  | .some e w => e.Ok u ∧ Blank u w ∧ ∀ t, NoPath u (w ++ (z ++ t))
termination_by structural p => p
/-- Well-formed last parts of spans. -/
def SLast.Ok (u : Uni) : SLast → Prop
  | .none => True
  | .some wa e => Blank u wa ∧ e.Ok u
termination_by structural p => p
/-- Well-formed argument lists. -/
def SArgs.Ok (u : Uni) : SArgs → Prop
  | .some h i l o => (∀ c ∈ h, HWs u c) ∧ i.Ok u SContent.isArg ∧ ItemsOk u SContent.isArg l ∧ TrailOk u o
  | .none h w l o => (∀ c ∈ h, HWs u c) ∧ Blank u w ∧ ItemsOk u SContent.isArg l ∧ TrailOk u o
termination_by structural a => a
/-- Well-formed argument lists. -/
def ArgsOk (u : Uni) : List SArgs → Prop
  | [] => True
  | a :: l => a.Ok u ∧ ArgsOk u l
termination_by structural l => l
/-- Well-formed suffixes. -/
def SSuf.Ok (u : Uni) : SSuf → Prop
  | .op y => IsSuf y
  | .slice h i l o => (∀ c ∈ h, HWs u c) ∧ i.Ok u SContent.isIndex ∧ ItemsOk u SContent.isIndex l ∧ TrailOk u o
termination_by structural s => s
/-- Well-formed suffixes: `!` does not stand directly before another `!`, nor primes before other primes. -/
def SufsOk (u : Uni) : List SSuf → Prop
  | [] => True
  | s :: l => s.Ok u ∧ (∀ c, clash s.text = some c → ∀ r, sufsText l ≠ c :: r) ∧ SufsOk u l
termination_by structural l => l
/-- Well-formed terms. -/
def STerm.Ok (u : Uni) : STerm → Prop
  | .mk _ n l => n.Ok u ∧ SufsOk u l
termination_by structural t => t
/-- Well-formed operators and terms after a term: a dot and a digit do not directly follow a number, and the
operator does not begin a comment. -/
def StepsOk (u : Uni) (num : Bool) : List SStep → Prop
  | [] => True
  | .mk wb t wa x :: l => (num = true → wb = [] → t = .op .dot → ∀ c r, wa ++ x.text = c :: r → ¬ IsDigit c) ∧
      Blank u wb ∧ Blank u wa ∧ (t = .op .slash → ∀ r, wa ≠ '/' :: r) ∧ x.Ok u ∧ StepsOk u x.num l
termination_by structural l => l
/-- Well-formed expressions. -/
def SExpr.Ok (u : Uni) : SExpr → Prop
  | .mk t l => t.Ok u ∧ StepsOk u t.num l
termination_by structural e => e
end

end SM.Props
