import Verif.Peg.Build
import Verif.Props.AstOrder
import Mathlib.Tactic.Common
/-
Expressions up to source positions.
-/
namespace SM.Props
open SM SM.Peg

/-- The position used when positions do not matter. -/
def noPos : Position := ⟨[], (0, 0), (0, 0)⟩

mutual
/-- Replace all positions. -/
def erase : AST → AST
  | .empty => .empty
  | .program l => .program (eraseL l)
  | .function s ps => .function s (eraseP ps)
  | .boolean b => .boolean b
  | .integer n => .integer n
  | .decimal d => .decimal d
  | .symbol s => .symbol s
  | .string s => .string s
termination_by structural a => a
/-- Replace all positions in a list. -/
def eraseL : List AST → List AST
  | [] => []
  | a :: l => erase a :: eraseL l
termination_by structural a => a
/-- Replace all positions in argument lists. -/
def eraseP : List Param → List Param
  | [] => []
  | p :: l => eraseParam p :: eraseP l
termination_by structural a => a
/-- Replace all positions in an argument list. -/
def eraseParam : Param → Param
  | .mk a o _ => .mk (eraseL a) (eraseO o) noPos
termination_by structural a => a
/-- Replace all positions in options. -/
def eraseO : List (AST × AST) → List (AST × AST)
  | [] => []
  | e :: l => eraseE e :: eraseO l
termination_by structural a => a
/-- Replace all positions in an option. -/
def eraseE : AST × AST → AST × AST
  | (k, v) => (erase k, erase v)
termination_by structural a => a
end

theorem eraseL_eq (l : List AST) : eraseL l = l.map erase := by
  induction l with
  | nil => simp [eraseL]
  | cons a l ih => simp [eraseL, ih]

theorem eraseP_eq (l : List Param) : eraseP l = l.map eraseParam := by
  induction l with
  | nil => simp [eraseP]
  | cons a l ih => simp [eraseP, ih]

theorem eraseO_eq (l : List (AST × AST)) : eraseO l = l.map fun e => (erase e.1, erase e.2) := by
  induction l with
  | nil => simp [eraseO]
  | cons a l ih => obtain ⟨k, v⟩ := a; simp [eraseO, eraseE, ih]

/-! ### The meaning of operators -/

/-- The infix operators that the expression parser knows. -/
inductive Op where
  | plus | minus | star | cross | slash | obelus | caret | dot
  deriving DecidableEq

/-- How an operator is written. -/
def Op.text : Op → Str
  | .plus => c!"+"
  | .minus => c!"-"
  | .star => c!"*"
  | .cross => c!"×"
  | .slash => c!"/"
  | .obelus => c!"÷"
  | .caret => c!"^"
  | .dot => c!"."

/-- How tight an operator binds, and whether it groups to the right. -/
def Op.binds : Op → Nat × Bool
  | .plus | .minus => (1, false)
  | .star | .cross => (2, false)
  | .slash | .obelus => (3, false)
  | .caret => (4, true)
  | .dot => (5, false)

/-- Name and printing precedence of the function an operator stands for. -/
def Op.name : Op → Str × Nat
  | .plus => (c!"add", 80)
  | .minus => (c!"subtract", 80)
  | .star => (c!"times", 140)
  | .cross => (c!"×", 170)
  | .slash => (c!"divide", 140)
  | .obelus => (c!"÷", 170)
  | .caret => (c!"power", 150)
  | .dot => (c!".", 170)

/-- The function an operator stands for. -/
def Op.sym (o : Op) : Sym := ⟨[c!"std", c!"infix"], o.name.1, .infix o.text o.name.2, 0⟩

/-- The receiver becomes the first argument. -/
def dotApply (a : AST) : AST → Option AST
  | .symbol f => some (.function f [.mk [a] [] noPos])
  | .function f (.mk xs kw p :: more) => some (.function f (.mk (a :: xs) kw p :: more))
  | .integer n => some (.function ⟨[c!"std", c!"core"], c!"index", .normal, 0⟩ [.mk [a, .integer n] [] noPos])
  | _ => none

/-- What an operator makes of its operands. -/
def Op.apply (a : AST) (o : Op) (b : AST) : Option AST :=
  match o with
  | .dot => dotApply a b
  | o => some (.function o.sym [.mk [a, b] [] noPos])

/-- The rule of an operator. -/
def Op.rule : Op → R
  | .plus => .Plus
  | .minus => .Minus
  | .star | .cross => .Multiply
  | .slash | .obelus => .Divide
  | .caret => .Power
  | .dot => .Dot

/-- The pair is the operator. -/
def IsOp (p : Pair R) (o : Op) : Prop := p.rule = o.rule ∧ p.text = o.text

theorem dotCall_erase (pos : Position) (a b : AST) :
    (dotCall a b pos).map erase = dotApply (erase a) (erase b) := by
  cases b with
  | function f ps =>
    cases ps with
    | nil => simp [dotCall, dotApply, erase, eraseP]
    | cons p ps =>
      obtain ⟨x, k, q⟩ := p
      simp [dotCall, dotApply, erase, eraseP, eraseParam, eraseL]
  | symbol f => simp [dotCall, dotApply, erase, eraseP, eraseParam, eraseL, eraseO]
  | integer n =>
    have : Sym.ofStr c!"std::core::index" = ⟨[c!"std", c!"core"], c!"index", .normal, 0⟩ := by decide
    simp [dotCall, dotApply, erase, eraseP, eraseParam, eraseL, eraseO, this]
  | _ => simp [dotCall, dotApply, erase]

theorem infixCall_erase (pos : Position) (a b : AST) (p : Pair R) (o : Op) (h : IsOp p o) :
    (infixCall pos a p b).map erase = o.apply (erase a) (erase b) := by
  obtain ⟨h1, h2⟩ := h
  unfold infixCall
  cases o with
  | dot => rw [if_pos (show p.rule = R.Dot from h1)]; exact dotCall_erase pos a b
  | _ =>
    rw [if_neg (by rw [h1]; decide), h2]
    simp only [Option.map_some, Op.apply, erase, eraseP, eraseParam, eraseL, eraseO]
    rfl

end SM.Props
