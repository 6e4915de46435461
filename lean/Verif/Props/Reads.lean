import Verif.Props.Syn
/-
What a text can be read as, with all positions: a context-free grammar of the expression language with the
expressions that its phrases stand for.  It knows nothing of the parser: no order of alternatives, no lookahead, no
pairs.  `P i j` is the position that goes with the part of the text from character `i` to character `j`.
-/
namespace SM.Props
open SM SM.Peg

/-! ### Blank space and what is passed over -/

/-- Blank space that ends in a line comment without a line end. -/
def OpenComment (u : Uni) (w : Str) : Prop :=
  ∃ b k m, w = b ++ '/' :: '/' :: k :: m ∧ Blank u b ∧ k ∈ ['/', '?', '!', '*'] ∧ ∀ c ∈ m, c ≠ '\n' ∧ c ≠ '\x0d'

/-- Infix operators that are accepted but not implemented begin with one of these characters, and so do `%%%`
comments. -/
def dropChars : List Char := ['=', '⋅', '⊗', '⊙', '%', '>']

/-- The end of an expression that is accepted but leaves no trace: from the first operator that is not implemented,
or the first `%%%` comment, on. -/
def Dropped (u : Uni) (j : Str) : Prop := ∃ w c r, j = w ++ c :: r ∧ Blank u w ∧ c ∈ dropChars

/-- What may stand at the end of an expression; `s` are its operators and operands after the first. -/
def Tail (u : Uni) (s j : Str) : Prop := j = [] ∨ Dropped u j ∨ (s = [] ∧ (Blank u j ∨ OpenComment u j))

/-! ### Values with positions -/

/-- The value of a literal, with its position. -/
def placed (q : Position) : AST → AST
  | .function f [.mk v o _] => .function f [.mk v o q]
  | a => a

/-- The receiver becomes the first argument. -/
def dotAt (q : Position) (a : AST) : AST → Option AST
  | .symbol f => some (.function f [.mk [a] [] q])
  | .function f (.mk xs kw p :: more) => some (.function f (.mk (a :: xs) kw p :: more))
  | .integer n => some (.function ⟨[c!"std", c!"core"], c!"index", .normal, 0⟩ [.mk [a, .integer n] [] q])
  | _ => none

/-- What an operator makes of its operands. -/
def Op.applyAt (q : Position) (a : AST) (o : Op) (b : AST) : Option AST :=
  match o with
  | .dot => dotAt q a b
  | o => some (.function o.sym [.mk [a, b] [] q])

/-- The prefix operators that are implemented. -/
def preName : Char → Option Str
  | '+' => some c!"plus"
  | '-' => some c!"minus"
  | '*' => some c!"unpack"
  | '!' => some c!"not"
  | _ => none

/-- The suffix operators that are implemented. -/
def sufName (y : Str) : Option Str :=
  if y = c!"!" then some c!"factorial" else if y = c!"!!" then some c!"factorial2" else none

/-- A call with one argument list. -/
def callAt (q : Position) (f : Sym) (v : List AST) : AST := .function f [.mk v [] q]

/-! ### Juxtaposition -/

/-- When one factor can stand after another: there is white space between them, or the first is a number and the
second a name, or the first is `0`. -/
def SFactor.Near (f : SFactor) (h : Str) (g : SFactor) : Prop :=
  h ≠ [] ∨ ∃ n, f = .int n ∧ ∀ k, g = .int k → n = 0

/-- Further factors of a product. -/
def Juxtaposed (u : Uni) : SFactor → List (Str × SFactor) → Prop
  | _, [] => True
  | f, (h, g) :: l => (∀ c ∈ h, HWs u c) ∧ g.Ok u ∧ f.Near h g ∧ Juxtaposed u g l

/-! ### The grammar -/

variable (u : Uni) (P : Nat → Nat → Position)

mutual
/-- `w`, at character `i`, is an expression that stands for `a`. -/
inductive RExpr : Nat → Str → AST → Prop
  | mk {i : Nat} {t s j : Str} {a : AST} {l : List (Op × AST)} {v : AST} :
      RTerm i t a → RSteps (i + t.length) s l → Tail u s j →
      evalTree some (Op.applyAt (P i (i + (t ++ (s ++ j)).length))) (group a l) = some v →
      RExpr i (t ++ (s ++ j)) v
/-- Operators with the terms after them. -/
inductive RSteps : Nat → Str → List (Op × AST) → Prop
  | nil {i : Nat} : RSteps i [] []
  | cons {i : Nat} {o : Op} {w w' t s : Str} {a : AST} {l : List (Op × AST)} :
      Blank u w → Blank u w' → RTerm (i + (w ++ (o.text ++ w')).length) t a →
      RSteps (i + (w ++ (o.text ++ (w' ++ t))).length) s l →
      RSteps i (w ++ (o.text ++ (w' ++ (t ++ s)))) ((o, a) :: l)
/-- Terms: prefix operators before an operand with suffixes. -/
inductive RTerm : Nat → Str → AST → Prop
  | base {i : Nat} {w : Str} {a : AST} : RPost i w a → RTerm i w a
  | pre {i : Nat} {c : Char} {n w : Str} {a : AST} : preName c = some n → RTerm (i + 1) w a →
      RTerm i (c :: w) (callAt (P i (i + 1)) ⟨[c!"std", c!"prefix"], n, .prefix [c], 0⟩ [a])
/-- Operands with suffix operators and indices. -/
inductive RPost : Nat → Str → AST → Prop
  | node {i : Nat} {w : Str} {a : AST} : RNode i w a → RPost i w a
  | op {i : Nat} {w y n : Str} {a : AST} : RPost i w a → sufName y = some n →
      RPost i (w ++ y) (callAt (P (i + w.length) (i + (w ++ y).length)) ⟨[c!"std", c!"suffix"], n, .suffix y, 0⟩ [a])
  | index {i : Nat} {w h b x s : Str} {a d : AST} {l : List AST} :
      RPost i w a → (∀ c ∈ h, HWs u c) → Blank u b → RIndex (i + (w ++ (h ++ '[' :: b)).length) x d →
      RIndices (i + (w ++ (h ++ '[' :: (b ++ x))).length) s l →
      RPost i (w ++ (h ++ '[' :: (b ++ (x ++ (s ++ c!"]")))))
        (callAt (P (i + (w ++ h).length) (i + (w ++ (h ++ '[' :: (b ++ (x ++ (s ++ c!"]"))))).length))
          ⟨[c!"std", c!"core"], c!"Index", .normal, 0⟩ (a :: d :: l))
/-- Operands. -/
inductive RNode : Nat → Str → AST → Prop
  | atom {i : Nat} {a : SAtom} {v : AST} : (∀ f m l, a ≠ .prod f m l) → a.Ok u → a.value = some v →
      RNode i a.text (placed (P i (i + a.text.length)) v)
  | prod {i : Nat} {f : SFactor} {m : Str × SFactor} {l : List (Str × SFactor)} :
      f.Ok u → Juxtaposed u f (m :: l) →
      RNode i (f.text ++ factorsText (m :: l)) (callAt (P i (i + (f.text ++ factorsText (m :: l)).length)) Op.star.sym
        (f.value :: m.2.value :: l.map fun m => m.2.value))
  | paren {i : Nat} {w : Str} {a : AST} : RExpr (i + 1) w a → RNode i ('(' :: (w ++ c!")")) a
  | nil {i : Nat} {w : Str} : Blank u w → RNode i ('[' :: (w ++ c!"]"))
      (callAt (P i (i + ('[' :: (w ++ c!"]")).length)) ⟨[c!"std", c!"containers"], c!"List", .normal, 0⟩ [])
  | list {i : Nat} {w x s : Str} {a : AST} {l : List AST} : Blank u w → RExpr (i + ('[' :: w).length) x a →
      RItems (i + ('[' :: (w ++ x)).length) s l →
      RNode i ('[' :: (w ++ (x ++ (s ++ c!"]"))))
        (callAt (P i (i + ('[' :: (w ++ (x ++ (s ++ c!"]")))).length))
          ⟨[c!"std", c!"containers"], c!"List", .normal, 0⟩ (a :: l))
  | call {i : Nat} {p : Path} {s : Str} {q : Param} {l : List Param} : p.Ok u →
      RArgs (i + p.text.length) s (q :: l) → RNode i (p.text ++ s) (.function (Sym.ofStr p.text) (q :: l))
/-- The items of a list after the first, up to the closing bracket. -/
inductive RItems : Nat → Str → List AST → Prop
  | nil {i : Nat} {w : Str} : Blank u w → RItems i w []
  | trail {i : Nat} {b : Bool} {w w' : Str} : Blank u w → Blank u w' → RItems i (w ++ (commaText b ++ w')) []
  | cons {i : Nat} {b : Bool} {w w' x s : Str} {a : AST} {l : List AST} : Blank u w → Blank u w' →
      RExpr (i + (w ++ (commaText b ++ w')).length) x a →
      RItems (i + (w ++ (commaText b ++ (w' ++ x))).length) s l →
      RItems i (w ++ (commaText b ++ (w' ++ (x ++ s)))) (a :: l)
/-- Argument lists, one after another. -/
inductive RArgs : Nat → Str → List Param → Prop
  | nil {i : Nat} : RArgs i [] []
  | some {i : Nat} {h b x s t : Str} {d : AST × AST} {l : List (AST × AST)} {ps : List Param} :
      (∀ c ∈ h, HWs u c) → Blank u b → RArg (i + (h ++ '(' :: b).length) x d →
      RMoreArgs (i + (h ++ '(' :: (b ++ x)).length) s l →
      RArgs (i + (h ++ '(' :: (b ++ (x ++ (s ++ c!")")))).length) t ps →
      RArgs i (h ++ '(' :: (b ++ (x ++ (s ++ ')' :: t))))
        (.mk (positional (d :: l)) (optionsFrom (d :: l) [])
          (P (i + h.length) (i + (h ++ '(' :: (b ++ (x ++ (s ++ c!")")))).length)) :: ps)
  | none {i : Nat} {h b s t : Str} {l : List (AST × AST)} {ps : List Param} :
      (∀ c ∈ h, HWs u c) → Blank u b → RMoreArgs (i + (h ++ '(' :: b).length) s l →
      RArgs (i + (h ++ '(' :: (b ++ (s ++ c!")"))).length) t ps →
      RArgs i (h ++ '(' :: (b ++ (s ++ ')' :: t)))
        (.mk (positional l) (optionsFrom l []) (P (i + h.length) (i + (h ++ '(' :: (b ++ (s ++ c!")"))).length)) :: ps)
/-- The arguments after the first, up to the closing bracket. -/
inductive RMoreArgs : Nat → Str → List (AST × AST) → Prop
  | nil {i : Nat} {w : Str} : Blank u w → RMoreArgs i w []
  | trail {i : Nat} {b : Bool} {w w' : Str} : Blank u w → Blank u w' → RMoreArgs i (w ++ (commaText b ++ w')) []
  | cons {i : Nat} {b : Bool} {w w' x s : Str} {d : AST × AST} {l : List (AST × AST)} : Blank u w → Blank u w' →
      RArg (i + (w ++ (commaText b ++ w')).length) x d →
      RMoreArgs (i + (w ++ (commaText b ++ (w' ++ x))).length) s l →
      RMoreArgs i (w ++ (commaText b ++ (w' ++ (x ++ s)))) (d :: l)
/-- Arguments: the name, or nothing, and the value. -/
inductive RArg : Nat → Str → AST × AST → Prop
  | pos {i : Nat} {x : Str} {a : AST} : RExpr i x a → RArg i x (.empty, a)
  | named {i : Nat} {k w w' x : Str} {b : Bool} {a : AST} : IsIdent u k → Blank u w → Blank u w' →
      RExpr (i + (k ++ (w ++ (colonText b ++ w'))).length) x a →
      RArg i (k ++ (w ++ (colonText b ++ (w' ++ x)))) (.mkSymbol k, a)
/-- Indices and spans. -/
inductive RIndex : Nat → Str → AST → Prop
  | expr {i : Nat} {x : Str} {a : AST} : RExpr i x a → RIndex i x a
  | span2 {i : Nat} {x w w' y : Str} {b : Bool} {d e : Option AST} : RPart i x d → Blank u w → Blank u w' →
      RPart (i + (x ++ (w ++ (colonText b ++ w'))).length) y e →
      RIndex i (x ++ (w ++ (colonText b ++ (w' ++ y)))) (callAt
        (P i (i + (x ++ (w ++ (colonText b ++ (w' ++ y)))).length)) ⟨[c!"std", c!"core"], c!"Span", .normal, 0⟩
        [d.getD (.integer 1), e.getD (.mkSymbol c!"std::core::All"), .integer 1])
  | span3 {i : Nat} {x w w' y z z' t : Str} {b b' : Bool} {d e f : Option AST} : RPart i x d → Blank u w →
      Blank u w' → RPart (i + (x ++ (w ++ (colonText b ++ w'))).length) y e → Blank u z → Blank u z' →
      RPart (i + (x ++ (w ++ (colonText b ++ (w' ++ (y ++ (z ++ (colonText b' ++ z'))))))).length) t f →
      RIndex i (x ++ (w ++ (colonText b ++ (w' ++ (y ++ (z ++ (colonText b' ++ (z' ++ t)))))))) (callAt
        (P i (i + (x ++ (w ++ (colonText b ++ (w' ++ (y ++ (z ++ (colonText b' ++ (z' ++ t)))))))).length))
        ⟨[c!"std", c!"core"], c!"Span", .normal, 0⟩
        [d.getD (.integer 1), e.getD (.mkSymbol c!"std::core::All"), f.getD (.integer 1)])
/-- A part of a span, which may be missing. -/
inductive RPart : Nat → Str → Option AST → Prop
  | none {i : Nat} : RPart i [] none
  | some {i : Nat} {x : Str} {a : AST} : RExpr i x a → RPart i x (some a)
/-- The indices after the first, up to the closing bracket. -/
inductive RIndices : Nat → Str → List AST → Prop
  | nil {i : Nat} {w : Str} : Blank u w → RIndices i w []
  | trail {i : Nat} {b : Bool} {w w' : Str} : Blank u w → Blank u w' → RIndices i (w ++ (commaText b ++ w')) []
  | cons {i : Nat} {b : Bool} {w w' x s : Str} {a : AST} {l : List AST} : Blank u w → Blank u w' →
      RIndex (i + (w ++ (commaText b ++ w')).length) x a →
      RIndices (i + (w ++ (commaText b ++ (w' ++ x))).length) s l →
      RIndices i (w ++ (commaText b ++ (w' ++ (x ++ s)))) (a :: l)
end

end SM.Props
