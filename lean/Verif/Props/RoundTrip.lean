import Verif.Props.Lang
import Verif.Props.Display
import Verif.Props.Symbol
/-
C19: which expressions are read back from their printed form.
-/
namespace SM.Props
open SM SM.Peg

variable {u : Uni}

/-! ### Expressions and their printed form -/

/-- Expressions over literals, names, prefix operators, `!`, `!!` and infix operators with two operands, with the
positions that the program stores. -/
inductive Arith where
  | int (n : Nat)
  | dec (i f : Nat)
  | bool (b : Bool)
  | sym (p : Path)
  | pre (pos : Position) (c : Pre) (x : Arith)
  | suf (pos : Position) (twice : Bool) (x : Arith)
  | bin (pos : Position) (o : Op) (l r : Arith)

/-- The function of a prefix operator. -/
def Pre.sym (c : Pre) : Sym :=
  ⟨[c!"std", c!"prefix"],
    match c with
    | .bang | .neg => c!"not"
    | .plus => c!"plus"
    | .minus => c!"minus"
    | .star => c!"unpack", .prefix [c.char], 0⟩

/-- The function of the suffix operator `!` or `!!`. -/
def sufSym (twice : Bool) : Sym :=
  if twice then ⟨[c!"std", c!"suffix"], c!"factorial2", .suffix c!"!!", 0⟩
  else ⟨[c!"std", c!"suffix"], c!"factorial", .suffix c!"!", 0⟩

/-- The expression as the program represents it. -/
def Arith.ast : Arith → AST
  | .int n => .integer n
  | .dec i f => .decimal ⟨(i * 10 ^ (numeral f).length + f : Nat), (numeral f).length⟩
  | .bool b => .boolean b
  | .sym p => .mkSymbol p.text
  | .pre pos c x => .function c.sym [.mk [x.ast] [] pos]
  | .suf pos t x => .function (sufSym t) [.mk [x.ast] [] pos]
  | .bin pos o l r => .function o.sym [.mk [l.ast, r.ast] [] pos]

/-- Names are names; `¬` and `.` do not occur. -/
def Arith.Ok (u : Uni) : Arith → Prop
  | .sym p => p.Ok u ∧ p.Free
  | .pre _ c x => c ≠ .neg ∧ x.Ok u
  | .suf _ _ x => x.Ok u
  | .bin _ o l r => o ≠ .dot ∧ l.Ok u ∧ r.Ok u
  | _ => True

/-- The infix operator of an infix expression. -/
def Arith.op : Arith → Option Op
  | .bin _ o _ _ => some o
  | _ => none

/-- The operand `x` of the operator `o` is printed in parentheses. -/
def Wrapped (o : Op) (x : Arith) : Prop := ∃ o', x.op = some o' ∧ o'.name.2 < o.name.2

instance (o : Op) (x : Arith) : Decidable (Wrapped o x) :=
  match h : x.op with
  | none => isFalse (by rintro ⟨o', e, _⟩; rw [h] at e; cases e)
  | some o' =>
    if h' : o'.name.2 < o.name.2 then isTrue ⟨o', h, h'⟩
    else isFalse (by rintro ⟨o2, e, h2⟩; rw [h] at e; cases e; exact h' h2)

/-- The printed form. -/
def Arith.text : Arith → Str
  | .int n => numeral n
  | .dec i f => numeral i ++ '.' :: numeral f
  | .bool b => if b then c!"true" else c!"false"
  | .sym p => p.text
  | .pre _ c x => c.char :: x.text
  | .suf _ t x => x.text ++ if t then c!"!!" else c!"!"
  | .bin _ o l r =>
    (if Wrapped o l then '(' :: (l.text ++ c!")") else l.text) ++
      (o.text ++ if Wrapped o r then '(' :: (r.text ++ c!")") else r.text)

theorem wrapped_precedence (o : Op) (x : Arith) : x.ast.precedence < o.name.2 ↔ Wrapped o x := by
  have h255 : ¬ 255 < o.name.2 := by cases o <;> decide
  cases x with
  | bin pos o' l r =>
    constructor
    · intro h; exact ⟨o', rfl, h⟩
    · rintro ⟨_, e, h⟩; cases e; exact h
  | suf pos t x => cases t <;> exact ⟨fun h => absurd h h255, fun ⟨_, e, _⟩ => nomatch e⟩
  | _ => exact ⟨fun h => absurd h h255, fun ⟨_, e, _⟩ => nomatch e⟩

theorem arith_display : ∀ e : Arith, e.ast.display = some e.text
  | .int n => by simp [Arith.ast, AST.display, intStr, natStr, Arith.text]
  | .dec i f => by simp only [Arith.ast, AST.display, decStr_literal, Arith.text]
  | .bool b => by simp only [Arith.ast, AST.display, Arith.text]
  | .sym p => by
    simp only [Arith.ast, AST.mkSymbol, AST.display, Arith.text]
    rw [C16_text_round_trip]
  | .pre pos c x => by
    have := arith_display x
    simp [Arith.ast, AST.display, Pre.sym, displayUnary, displayOne, this, Arith.text]
  | .suf pos t x => by
    have := arith_display x
    cases t <;> simp [Arith.ast, AST.display, sufSym, displayUnary, displayOne, this, Arith.text]
  | .bin pos o l r => by
    have h1 := arith_display l
    have h2 := arith_display r
    simp only [Arith.ast, AST.display, Op.sym, displayInfix, displayArgs, h1, h2, Arith.text, join]
    simp only [wrapped_precedence]
    rw [if_pos (show [l.ast, r.ast].length > 1 from Nat.lt_succ_self 1)]
    simp only [List.append_assoc]
    rfl

/-! ### Which expressions are read back -/

/-- The expression is a literal, a name or `!!` of something. -/
def Arith.Tight : Arith → Prop
  | .pre .. | .bin .. | .suf _ false _ => False
  | _ => True

/-- The expression is one that the parser builds from a text without redundant parentheses: prefix operators stand
before expressions without infix operators, `!` and `!!` after literals, names and `!!`, and an infix expression is an
operand of another infix expression only if it is printed in parentheses or the operators group that way without
them. -/
def Canonical : Arith → Prop
  | .pre _ _ x => x.op = none ∧ Canonical x
  | .suf _ _ x => x.Tight ∧ Canonical x
  | .bin _ o l r => Canonical l ∧ Canonical r ∧
      (∀ o', l.op = some o' → Wrapped o l ∨ LeftOk o'.binds o.binds) ∧
      (∀ o', r.op = some o' → Wrapped o r ∨ RightOk o.binds o'.binds)
  | _ => True

/-- The expression without positions. -/
def Arith.val : Arith → AST
  | .int n => .integer n
  | .dec i f => .decimal ⟨(i * 10 ^ (numeral f).length + f : Nat), (numeral f).length⟩
  | .bool b => .boolean b
  | .sym p => .mkSymbol p.text
  | .pre _ c x => .function c.sym [.mk [x.val] [] noPos]
  | .suf _ t x => .function (sufSym t) [.mk [x.val] [] noPos]
  | .bin _ o l r => .function o.sym [.mk [l.val, r.val] [] noPos]

theorem arith_erase (e : Arith) : erase e.ast = e.val := by
  induction e <;> simp_all [Arith.ast, Arith.val, erase, eraseP, eraseParam, eraseL, eraseO, AST.mkSymbol]

/-! ### Printed forms as sequences of terms -/

/-- A term: prefixes, an operand with its value, and the number of `!` after it. -/
structure Tm where
  ps : List Pre
  n : SNode
  v : AST
  k : Nat

/-- The value of `n` times `!`. -/
def bangVal : Nat → AST → AST
  | 0, a => a
  | 1, a => .function (sufSym false) [.mk [a] [] noPos]
  | k + 2, a => bangVal k (.function (sufSym true) [.mk [a] [] noPos])

/-- `n` times `!` as suffixes. -/
def bangs : Nat → List SSuf
  | 0 => []
  | 1 => [.op c!"!"]
  | k + 2 => .op c!"!!" :: bangs k

/-- The value of prefixes. -/
def preVal : List Pre → AST → AST
  | [], a => a
  | c :: ps, a => .function c.sym [.mk [preVal ps a] [] noPos]

/-- The value of a term. -/
def Tm.val (t : Tm) : AST := preVal t.ps (bangVal t.k t.v)

/-- The term in the syntax of the language. -/
def Tm.term (t : Tm) : STerm := .mk t.ps t.n (bangs t.k)

/-- The term can be written. -/
structure Tm.Ok (u : Uni) (t : Tm) : Prop where
  node : t.n.Ok u
  value : t.n.value = some t.v
  pre : .neg ∉ t.ps

theorem bangs_text : ∀ k, sufsText (bangs k) = List.replicate k '!'
  | 0 => by simp [bangs, sufsText]
  | 1 => by simp [bangs, sufsText, SSuf.text]
  | k + 2 => by
    rw [bangs, sufsText, bangs_text k, SSuf.text]
    rfl

theorem bangs_ok : ∀ k, SufsOk u (bangs k)
  | 0 => by simp [bangs, SufsOk]
  | 1 => by simp [bangs, SufsOk, SSuf.Ok, sufsText, IsSuf]
  | k + 2 => by
    rw [bangs, SufsOk, SSuf.Ok]
    refine ⟨.inl (by simp), ?_, bangs_ok k⟩
    rw [SSuf.text]
    intro c e
    cases e

theorem bangs_value : ∀ k a, sufsApply (bangs k) a = some (bangVal k a)
  | 0, a => by simp [bangs, sufsApply, bangVal]
  | 1, a => by simp [bangs, sufsApply, bangVal, SSuf.apply, sufApply, sufSym]
  | k + 2, a => by
    rw [bangs, sufsApply, SSuf.apply, bangVal, ← bangs_value k]
    simp [sufApply, sufSym]

theorem pre_value {ps : List Pre} (h : .neg ∉ ps) (a : AST) : preFold ps a = some (preVal ps a) := by
  induction ps with
  | nil => rfl
  | cons c ps ih =>
    simp only [List.mem_cons, not_or] at h
    rw [preFold, ih h.2, preVal]
    cases c <;> first | rfl | exact absurd rfl h.1

theorem Tm.Ok.val {t : Tm} (h : t.Ok u) : t.term.value = some t.val := by
  rw [Tm.term, STerm.value, h.value]
  simp only [Option.bind_some]
  rw [bangs_value]
  simp only [Option.bind_some]
  exact pre_value h.pre _

theorem Tm.Ok.ok {t : Tm} (h : t.Ok u) : t.term.Ok u := by
  rw [Tm.term, STerm.Ok]
  exact ⟨h.node, bangs_ok _⟩

/-- A sequence of terms. -/
abbrev Tms := Tm × List (Op × Tm)

/-- The steps of an expression. -/
def stepsOf (l : List (Op × Tm)) : List SStep := l.map fun s => .mk [] (.op s.1) [] s.2.term

/-- The sequence of terms as an expression. -/
def Tms.expr (f : Tms) : SExpr := .mk f.1.term (stepsOf f.2)

/-- All terms can be written. -/
def Tms.Ok (u : Uni) (f : Tms) : Prop := f.1.Ok u ∧ ∀ s ∈ f.2, s.1 ≠ .dot ∧ s.2.Ok u

/-- The value of a tree of terms. -/
def treeVal : OpTree Tm Op → AST
  | .leaf t => t.val
  | .node l o r => .function o.sym [.mk [treeVal l, treeVal r] [] noPos]

/-- What the sequence of terms is read as. -/
def Tms.read (f : Tms) : AST := treeVal (group f.1 f.2)

/-- Replace the leaves of a tree. -/
def OpTree.map {ι κ : Type} (g : ι → κ) : OpTree ι Op → OpTree κ Op
  | .leaf x => .leaf (g x)
  | .node l o r => .node (OpTree.map g l) o (OpTree.map g r)

theorem attach_map {ι κ : Type} (g : ι → κ) (o : Op) (x : ι) (t : OpTree ι Op) :
    OpTree.map g (attach o x t) = attach o (g x) (OpTree.map g t) := by
  induction t with
  | leaf y => rfl
  | node l p r _ ih =>
    rw [attach, OpTree.map, attach]
    split
    · rw [OpTree.map, ih]
    · rfl

theorem group_map {ι κ : Type} (g : ι → κ) (x : ι) (l : List (Op × ι)) :
    OpTree.map g (group x l) = group (g x) (l.map fun s => (s.1, g s.2)) := by
  suffices h : ∀ (l : List (Op × ι)) (t : OpTree ι Op),
      OpTree.map g (l.foldl (fun t s => attach s.1 s.2 t) t) =
        (l.map fun s => (s.1, g s.2)).foldl (fun t s => attach s.1 s.2 t) (OpTree.map g t) from h l (.leaf x)
  intro l
  induction l with
  | nil => intro t; rfl
  | cons s l ih =>
    intro t
    rw [List.foldl_cons, ih, attach_map]
    rfl

theorem stepsOf_ok (num : Bool) {l : List (Op × Tm)} (h : ∀ s ∈ l, s.1 ≠ .dot ∧ s.2.Ok u) :
    StepsOk u num (stepsOf l) := by
  induction l generalizing num with
  | nil => simp [stepsOf, StepsOk]
  | cons s l ih =>
    obtain ⟨h1, h2⟩ := h s (by simp)
    rw [stepsOf, List.map_cons, StepsOk]
    refine ⟨?_, blank_nil, blank_nil, ?_, h2.ok, ih _ fun s hs => h s (by simp [hs])⟩
    · intro _ _ e
      exact absurd (Tok.op.inj e) h1
    · rintro _ r ⟨⟩

theorem Tms.Ok.ok {f : Tms} (h : f.Ok u) : f.expr.Ok u := by
  rw [Tms.expr, SExpr.Ok]
  exact ⟨h.1.ok, stepsOf_ok _ h.2⟩

theorem stepsOf_value {l : List (Op × Tm)} (h : ∀ s ∈ l, s.1 ≠ .dot ∧ s.2.Ok u) :
    stepsValue (stepsOf l) = l.map fun s => (s.1, some s.2.val) := by
  induction l with
  | nil => simp [stepsOf, stepsValue]
  | cons s l ih =>
    rw [stepsOf, List.map_cons, stepsValue, (h s (by simp)).2.val, List.map_cons]
    exact congrArg _ (ih fun s hs => h s (by simp [hs]))

theorem steps_mem {t : OpTree Tm Op} : ∀ o : Op,
    (∀ s ∈ t.steps.2, s.1 ≠ o) ↔
      match t with
      | .leaf _ => True
      | .node l p r => p ≠ o ∧ (∀ s ∈ l.steps.2, s.1 ≠ o) ∧ ∀ s ∈ r.steps.2, s.1 ≠ o := by
  intro o
  cases t with
  | leaf x => simp [OpTree.steps]
  | node l p r =>
    simp only [OpTree.steps, List.mem_append, List.mem_cons]
    constructor
    · intro h
      exact ⟨h _ (.inr (.inl rfl)), fun s hs => h s (.inl hs), fun s hs => h s (.inr (.inr hs))⟩
    · rintro ⟨h1, h2, h3⟩ s (hs | rfl | hs)
      · exact h2 s hs
      · exact h1
      · exact h3 s hs

theorem treeVal_eval (t : OpTree Tm Op) (h : ∀ s ∈ t.steps.2, s.1 ≠ .dot) :
    evalTree id Op.apply (OpTree.map (fun x : Tm => some x.val) t) = some (treeVal t) := by
  induction t with
  | leaf x => rfl
  | node l o r hl hr =>
    obtain ⟨h1, h2, h3⟩ := (steps_mem .dot).1 h
    rw [OpTree.map, evalTree, hl h2, hr h3, treeVal]
    cases o <;> first | rfl | exact absurd rfl h1

theorem Tms.Ok.value {f : Tms} (h : f.Ok u) : f.expr.value = some f.read := by
  rw [Tms.expr, SExpr.value, h.1.val, stepsOf_value h.2, ← group_map (fun x : Tm => some x.val), Tms.read]
  refine treeVal_eval _ ?_
  rw [(group_spec _ _).2]
  exact fun s hs => (h.2 s hs).1

/-- Put a prefix before the first term. -/
def Tms.cons (c : Pre) (f : Tms) : Tms := ({ f.1 with ps := c :: f.1.ps }, f.2)

/-- Add `!` to the last of some terms. -/
def bangLast (j : Nat) : Tm → List (Op × Tm) → Tms
  | t, [] => ({ t with k := t.k + j }, [])
  | t, (o, x) :: l => (t, (o, (bangLast j x l).1) :: (bangLast j x l).2)

/-- Two sequences with an operator between them. -/
def Tms.append (f : Tms) (o : Op) (g : Tms) : Tms := (f.1, f.2 ++ (o, g.1) :: g.2)

/-- A sequence in parentheses. -/
def Tms.paren (f : Tms) : Tms := (⟨[], .paren f.expr [], f.read, 0⟩, [])

/-- One operand. -/
def Tms.atom (a : SAtom) (v : AST) : Tms := (⟨[], .atom a, v, 0⟩, [])

/-- The terms of the printed form. -/
def Arith.tms : Arith → Tms
  | .int n => .atom (.int n) (.integer n)
  | .dec i f => .atom (.dec i f) (.decimal ⟨(i * 10 ^ (numeral f).length + f : Nat), (numeral f).length⟩)
  | .bool b => .atom (.bool b) (.boolean b)
  | .sym p => .atom (.sym p) (.mkSymbol p.text)
  | .pre _ c x => x.tms.cons c
  | .suf _ t x => bangLast (if t then 2 else 1) x.tms.1 x.tms.2
  | .bin _ o l r =>
    (if Wrapped o l then l.tms.paren else l.tms).append o (if Wrapped o r then r.tms.paren else r.tms)

theorem bangLast_ok (j : Nat) (t : Tm) (l : List (Op × Tm)) (h : Tms.Ok u (t, l)) : (bangLast j t l).Ok u := by
  induction l generalizing t with
  | nil =>
    obtain ⟨⟨h1, h2, h3⟩, _⟩ := h
    exact ⟨⟨h1, h2, h3⟩, fun s hs => nomatch hs⟩
  | cons s l ih =>
    obtain ⟨h1, h2⟩ := h
    obtain ⟨h3, h4⟩ := ih s.2 ⟨(h2 s (by simp)).2, fun s hs => h2 s (by simp [hs])⟩
    refine ⟨h1, ?_⟩
    intro s' hs'
    simp only [bangLast, List.mem_cons] at hs'
    rcases hs' with rfl | hs'
    · exact ⟨(h2 s (by simp)).1, h3⟩
    · exact h4 s' hs'

theorem Tms.Ok.paren {f : Tms} (h : f.Ok u) : f.paren.Ok u := by
  refine ⟨⟨?_, ?_, by simp [Tms.paren]⟩, fun s hs => nomatch hs⟩
  · rw [Tms.paren, SNode.Ok]
    exact ⟨h.ok, blank_nil, .inr rfl⟩
  · rw [Tms.paren, SNode.value]
    exact h.value

theorem Tms.Ok.append {f g : Tms} {o : Op} (h : f.Ok u) (ho : o ≠ .dot) (h' : g.Ok u) : (f.append o g).Ok u := by
  refine ⟨h.1, ?_⟩
  intro s hs
  simp only [Tms.append, List.mem_append, List.mem_cons] at hs
  rcases hs with hs | rfl | hs
  · exact h.2 s hs
  · exact ⟨ho, h'.1⟩
  · exact h'.2 s hs

theorem atom_tms {a : SAtom} {v : AST} (h : a.Ok u) (hv : a.value = some v) : (Tms.atom a v).Ok u := by
  refine ⟨⟨?_, ?_, by simp [Tms.atom]⟩, fun s hs => nomatch hs⟩
  · rw [Tms.atom, SNode.Ok]; exact h
  · rw [Tms.atom, SNode.value]; exact hv

theorem tms_ok (e : Arith) (h : e.Ok u) : e.tms.Ok u := by
  induction e with
  | int n => exact atom_tms trivial rfl
  | dec i f => exact atom_tms trivial rfl
  | bool b => exact atom_tms trivial rfl
  | sym p => exact atom_tms h rfl
  | pre pos c x ih =>
    obtain ⟨⟨h1, h2, h3⟩, h4⟩ := ih h.2
    refine ⟨⟨h1, h2, ?_⟩, h4⟩
    intro hm
    rcases List.mem_cons.1 hm with e | hm
    · exact h.1 e.symm
    · exact h3 hm
  | suf pos t x ih => exact bangLast_ok _ _ _ (ih h)
  | bin pos o l r hl hr =>
    refine Tms.Ok.append ?_ h.1 ?_
    · split
      · exact (hl h.2.1).paren
      · exact hl h.2.1
    · split
      · exact (hr h.2.2).paren
      · exact hr h.2.2

/-! ### Their text is the printed form -/

theorem stepsText_append (l l' : List (Op × Tm)) :
    stepsText (stepsOf (l ++ l')) = stepsText (stepsOf l) ++ stepsText (stepsOf l') := by
  induction l with
  | nil => simp [stepsOf, stepsText]
  | cons s l ih =>
    simp only [stepsOf, List.cons_append, List.map_cons, stepsText, List.append_assoc] at *
    rw [ih]

theorem expr_text (f : Tms) : f.expr.text = f.1.term.text ++ stepsText (stepsOf f.2) := by
  rw [Tms.expr, SExpr.text]

theorem steps_cons (o : Op) (x : Tm) (l : List (Op × Tm)) :
    stepsText (stepsOf ((o, x) :: l)) = o.text ++ (x.term.text ++ stepsText (stepsOf l)) := by
  rw [stepsOf, List.map_cons, stepsText, SStep.text, op_text]
  simp [stepsOf]

theorem bangLast_text (j : Nat) (t : Tm) (l : List (Op × Tm)) :
    (bangLast j t l).expr.text = (Tms.expr (t, l)).text ++ List.replicate j '!' := by
  induction l generalizing t with
  | nil =>
    simp only [expr_text, bangLast, stepsOf, List.map_nil, stepsText, Tm.term, STerm.text, bangs_text,
      List.append_nil, List.append_assoc, List.replicate_append_replicate]
  | cons s l ih =>
    have := ih s.2
    simp only [expr_text] at *
    obtain ⟨o, x⟩ := s
    simp only [bangLast, steps_cons, this, List.append_assoc]

theorem append_text (f g : Tms) (o : Op) : (f.append o g).expr.text = f.expr.text ++ (o.text ++ g.expr.text) := by
  simp only [expr_text, Tms.append, stepsText_append, steps_cons, List.append_assoc]

theorem paren_text (f : Tms) : f.paren.expr.text = '(' :: (f.expr.text ++ c!")") := by
  simp [expr_text, Tms.paren, Tm.term, STerm.text, SNode.text, bangs, sufsText, stepsOf, stepsText]

theorem atom_text (a : SAtom) (v : AST) : (Tms.atom a v).expr.text = a.text := by
  simp [expr_text, Tms.atom, Tm.term, STerm.text, SNode.text, bangs, sufsText, stepsOf, stepsText]

theorem tms_text (e : Arith) : e.tms.expr.text = e.text := by
  induction e with
  | int n => exact atom_text _ _
  | dec i f => exact atom_text _ _
  | bool b => exact atom_text _ _
  | sym p => exact atom_text _ _
  | pre pos c x ih =>
    rw [Arith.text, ← ih, Arith.tms, expr_text, expr_text]
    simp [Tms.cons, Tm.term, STerm.text]
  | suf pos t x ih =>
    rw [Arith.text, ← ih, Arith.tms, bangLast_text]
    cases t <;> rfl
  | bin pos o l r hl hr =>
    rw [Arith.text, ← hl, ← hr, Arith.tms, append_text]
    split <;> split <;> simp only [paren_text]

/-! ### What the printed form is read as -/

theorem bangVal_two : ∀ k a, k % 2 = 0 → bangVal (k + 2) a = .function (sufSym true) [.mk [bangVal k a] [] noPos]
  | 0, a, _ => rfl
  | 1, a, h => by cases h
  | k + 2, a, h => by
    rw [bangVal, bangVal_two k _ (by omega), bangVal]

theorem bangVal_one : ∀ k a, k % 2 = 0 → bangVal (k + 1) a = .function (sufSym false) [.mk [bangVal k a] [] noPos]
  | 0, a, _ => rfl
  | 1, a, h => by cases h
  | k + 2, a, h => by
    show bangVal (k + 1) _ = _
    rw [bangVal_one k _ (by omega), bangVal]

/-- Canonical expressions are grouped as the parser groups their printed forms. -/
theorem canonical_tree (e : Arith) (h : Canonical e) :
    (∃ t : OpTree Tm Op, Proper t ∧ t.steps = e.tms ∧ t.root = e.op ∧ treeVal t = e.val) ∧
      (e.Tight → ∃ t : Tm, e.tms = (t, []) ∧ t.ps = [] ∧ t.k % 2 = 0) := by
  have leaf : ∀ {f : OpTree Tm Op}, f.root = none → ∃ t, f = .leaf t := by
    intro f hf
    cases f with
    | leaf t => exact ⟨t, rfl⟩
    | node => cases hf
  have atom : ∀ (a : SAtom) (v : AST),
      (∃ t : OpTree Tm Op, Proper t ∧ t.steps = Tms.atom a v ∧ t.root = none ∧ treeVal t = v) ∧
      ∃ t : Tm, Tms.atom a v = (t, []) ∧ t.ps = [] ∧ t.k % 2 = 0 :=
    fun a v => ⟨⟨.leaf ⟨[], .atom a, v, 0⟩, trivial, rfl, rfl, rfl⟩, _, rfl, rfl, rfl⟩
  induction e with
  | int n => exact ⟨(atom _ _).1, fun _ => (atom _ _).2⟩
  | dec i f => exact ⟨(atom _ _).1, fun _ => (atom _ _).2⟩
  | bool b => exact ⟨(atom _ _).1, fun _ => (atom _ _).2⟩
  | sym p => exact ⟨(atom _ _).1, fun _ => (atom _ _).2⟩
  | pre pos c x ih =>
    obtain ⟨⟨f, _, hf2, hf3, hf4⟩, _⟩ := ih h.2
    obtain ⟨t, rfl⟩ := leaf (hf3.trans h.1)
    refine ⟨⟨.leaf { t with ps := c :: t.ps }, trivial, ?_, rfl, ?_⟩, fun ht => ht.elim⟩
    · rw [Arith.tms, ← hf2]; rfl
    · rw [Arith.val, ← hf4]; rfl
  | suf pos b x ih =>
    obtain ⟨⟨f, hf1, hf2, hf3, hf4⟩, ht⟩ := ih h.2
    obtain ⟨t, ht1, ht2, ht3⟩ := ht h.1
    have hx : x.val = bangVal t.k t.v := by
      have : f = .leaf t := by rw [group_of_proper hf1, hf2, ht1]; rfl
      rw [← hf4, this]
      simp [treeVal, Tm.val, ht2, preVal]
    refine ⟨⟨.leaf { t with k := t.k + if b then 2 else 1 }, trivial, ?_, rfl, ?_⟩, ?_⟩
    · rw [Arith.tms, ht1]; rfl
    · simp only [treeVal, Tm.val, ht2, preVal, Arith.val, hx]
      cases b
      · exact bangVal_one _ _ ht3
      · exact bangVal_two _ _ ht3
    · intro hb
      cases b
      · exact hb.elim
      · refine ⟨{ t with k := t.k + 2 }, ?_, ht2, ?_⟩
        · rw [Arith.tms, ht1]; rfl
        · show (t.k + 2) % 2 = 0
          omega
  | bin pos o l r hl hr =>
    obtain ⟨h1, h2, h3, h4⟩ := h
    obtain ⟨⟨f, hf1, hf2, hf3, hf4⟩, _⟩ := hl h1
    obtain ⟨⟨g, hg1, hg2, hg3, hg4⟩, _⟩ := hr h2
    have side : ∀ (x : Arith) (f : OpTree Tm Op), Proper f → f.steps = x.tms → f.root = x.op → treeVal f = x.val →
        ∃ f' : OpTree Tm Op, Proper f' ∧ f'.steps = (if Wrapped o x then x.tms.paren else x.tms) ∧
          (∀ q, f'.root = some q → x.op = some q ∧ ¬ Wrapped o x) ∧ treeVal f' = x.val := by
      intro x f e1 e2 e3 e4
      by_cases hw : Wrapped o x
      · refine ⟨.leaf ⟨[], .paren x.tms.expr [], x.tms.read, 0⟩, trivial, ?_, (fun q hq => nomatch hq), ?_⟩
        · rw [if_pos hw]; rfl
        · rw [← e4, group_of_proper e1, e2]; rfl
      · exact ⟨f, e1, by rw [if_neg hw]; exact e2, fun q hq => ⟨by rw [← e3]; exact hq, hw⟩, e4⟩
    obtain ⟨f', a1, a2, a3, a4⟩ := side l f hf1 hf2 hf3 hf4
    obtain ⟨g', b1, b2, b3, b4⟩ := side r g hg1 hg2 hg3 hg4
    refine ⟨⟨.node f' o g', ⟨a1, b1, _, rfl, ?_, ?_⟩, ?_, rfl, ?_⟩, fun ht => ht.elim⟩
    · intro q hq
      obtain ⟨e1, e2⟩ := a3 q hq
      exact ⟨_, rfl, (h3 q e1).resolve_left e2⟩
    · intro q hq
      obtain ⟨e1, e2⟩ := b3 q hq
      exact ⟨_, rfl, (h4 q e1).resolve_left e2⟩
    · rw [OpTree.steps, Arith.tms, a2, b2]; rfl
    · rw [treeVal, Arith.val, a4, b4]

theorem canonical_read (e : Arith) (h : Canonical e) : e.tms.read = e.val := by
  obtain ⟨⟨t, h1, h2, _, h4⟩, _⟩ := canonical_tree e h
  rw [← h4, group_of_proper h1, h2]
  rfl

/-! ### The converse -/

mutual
/-- The number of infix operators in an expression. -/
def infixes : AST → Nat
  | .function s ps =>
    (match s.kind with
    | .infix _ _ => 1
    | _ => 0) + infixesP ps
  | .program l => infixesL l
  | _ => 0
termination_by structural a => a
/-- The number of infix operators in expressions. -/
def infixesL : List AST → Nat
  | [] => 0
  | a :: l => infixes a + infixesL l
termination_by structural l => l
/-- The number of infix operators in argument lists. -/
def infixesP : List Param → Nat
  | [] => 0
  | p :: l => infixesParam p + infixesP l
termination_by structural l => l
/-- The number of infix operators in an argument list. -/
def infixesParam : Param → Nat
  | .mk as _ _ => infixesL as
termination_by structural p => p
end

theorem infixes_pre (c : Pre) (a : AST) : infixes (.function c.sym [.mk [a] [] noPos]) = infixes a := by
  simp [infixes, infixesP, infixesParam, infixesL, Pre.sym]

theorem infixes_suf (b : Bool) (a : AST) : infixes (.function (sufSym b) [.mk [a] [] noPos]) = infixes a := by
  cases b <;> simp [infixes, infixesP, infixesParam, infixesL, sufSym]

theorem infixes_bin (o : Op) (a b : AST) :
    infixes (.function o.sym [.mk [a, b] [] noPos]) = infixes a + (1 + infixes b) := by
  simp only [infixes, infixesP, infixesParam, infixesL, Op.sym]
  omega

theorem infixes_preVal (ps : List Pre) (a : AST) : infixes (preVal ps a) = infixes a := by
  induction ps with
  | nil => rfl
  | cons c ps ih => rw [preVal, infixes_pre, ih]

theorem infixes_bangVal : ∀ k a, infixes (bangVal k a) = infixes a
  | 0, a => rfl
  | 1, a => by rw [bangVal, infixes_suf]
  | k + 2, a => by rw [bangVal, infixes_bangVal k, infixes_suf]

/-- The number of infix operators in a sequence of terms. -/
def weight (f : Tms) : Nat := infixes f.1.v + (f.2.map fun s => 1 + infixes s.2.v).sum

theorem infixes_val (t : Tm) : infixes t.val = infixes t.v := by
  rw [Tm.val, infixes_preVal, infixes_bangVal]

theorem weight_tree (t : OpTree Tm Op) : infixes (treeVal t) = weight t.steps := by
  induction t with
  | leaf x => simp [treeVal, weight, OpTree.steps, infixes_val]
  | node l o r hl hr =>
    rw [treeVal, infixes_bin, hl, hr]
    simp only [weight, OpTree.steps, List.map_append, List.map_cons, List.sum_append, List.sum_cons]
    omega

theorem weight_read (f : Tms) : infixes f.read = weight f := by
  rw [Tms.read, weight_tree, (group_spec _ _).2]

theorem weight_bangLast (j : Nat) (t : Tm) (l : List (Op × Tm)) : weight (bangLast j t l) = weight (t, l) := by
  induction l generalizing t with
  | nil => rfl
  | cons s l ih =>
    have := ih s.2
    simp only [weight, bangLast, List.map_cons, List.sum_cons] at *
    omega

theorem weight_append (f g : Tms) (o : Op) : weight (f.append o g) = weight f + (1 + weight g) := by
  simp only [weight, Tms.append, List.map_append, List.map_cons, List.sum_append, List.sum_cons]
  omega

theorem weight_paren (f : Tms) : weight f.paren = weight f := by
  simp [weight, Tms.paren, weight_read]

theorem weight_tms (e : Arith) : weight e.tms = infixes e.val := by
  induction e with
  | int n => simp [weight, Arith.tms, Tms.atom, Arith.val]
  | dec i f => simp [weight, Arith.tms, Tms.atom, Arith.val]
  | bool b => simp [weight, Arith.tms, Tms.atom, Arith.val]
  | sym p => simp [weight, Arith.tms, Tms.atom, Arith.val]
  | pre pos c x ih => rw [Arith.val, infixes_pre, ← ih]; rfl
  | suf pos t x ih => rw [Arith.val, infixes_suf, ← ih, Arith.tms, weight_bangLast]
  | bin pos o l r hl hr =>
    rw [Arith.val, infixes_bin, ← hl, ← hr, Arith.tms, weight_append]
    split <;> split <;> simp only [weight_paren]

theorem weight_lt {t : Tm} {l m : List (Op × Tm)} (hm : m ≠ []) : weight (t, l) < weight (t, l ++ m) := by
  cases m with
  | nil => exact absurd rfl hm
  | cons s m =>
    simp only [weight, List.map_append, List.map_cons, List.sum_append, List.sum_cons]
    omega

/-- Where a sequence is divided is settled by the number of operators before. -/
theorem append_split {f g f' g' : Tms} {o o' : Op} (h : f.append o g = f'.append o' g') (hw : weight f = weight f') :
    f = f' ∧ o = o' ∧ g = g' := by
  obtain ⟨t, l⟩ := f
  obtain ⟨t', l'⟩ := f'
  obtain ⟨x, m⟩ := g
  obtain ⟨x', m'⟩ := g'
  simp only [Tms.append, Prod.mk.injEq] at h
  obtain ⟨rfl, h⟩ := h
  have hl : l = l' := by
    rcases List.append_eq_append_iff.1 h with ⟨a, h1, h2⟩ | ⟨a, h1, h2⟩
    · by_contra hne
      have : a ≠ [] := by rintro rfl; exact hne (by simpa using h1.symm)
      have := weight_lt (t := t) (l := l) this
      rw [← h1] at this
      omega
    · by_contra hne
      have : a ≠ [] := by rintro rfl; exact hne (by simpa using h1)
      have := weight_lt (t := t) (l := l') this
      rw [← h1] at this
      omega
  subst hl
  have := List.append_cancel_left h
  simp only [List.cons.injEq, Prod.mk.injEq] at this
  obtain ⟨⟨rfl, rfl⟩, rfl⟩ := this
  exact ⟨rfl, rfl, rfl⟩

theorem op_sym_inj {o o' : Op} (h : o.sym = o'.sym) : o = o' := by
  cases o <;> cases o' <;> first | rfl | (exfalso; revert h; decide)

theorem op_sym_pre (o : Op) (c : Pre) : o.sym ≠ c.sym := by
  intro h
  have := congrArg Sym.kind h
  cases this

theorem op_sym_suf (o : Op) (b : Bool) : o.sym ≠ sufSym b := by
  intro h
  have := congrArg Sym.kind h
  cases b <;> cases this

theorem pre_sym_suf (c : Pre) (b : Bool) : c.sym ≠ sufSym b := by
  intro h
  have := congrArg Sym.kind h
  cases b <;> cases this

theorem bin_steps {e : Arith} {o : Op} (h : e.op = some o) : e.tms.2 ≠ [] := by
  cases e with
  | bin pos o l r => simp [Arith.tms, Tms.append]
  | _ => cases h

theorem bangLast_steps (j : Nat) (t : Tm) (l : List (Op × Tm)) : (bangLast j t l).2 = [] ↔ l = [] := by
  cases l <;> simp [bangLast]

/-- A printed form without infix operators ends in a literal or a name. -/
theorem single_atom (e : Arith) (h : e.tms.2 = []) : ∀ s ps, e.tms.1.v ≠ .function s ps := by
  induction e with
  | int n => rintro s ps ⟨⟩
  | dec i f => rintro s ps ⟨⟩
  | bool b => rintro s ps ⟨⟩
  | sym p => rintro s ps ⟨⟩
  | pre pos c x ih => exact ih h
  | suf pos b x ih =>
    have hx := (bangLast_steps _ _ _).1 h
    have : (Arith.suf pos b x).tms.1.v = x.tms.1.v := by
      rw [Arith.tms, hx]
      rfl
    rw [this]
    exact ih hx
  | bin pos o l r => exact absurd h (bin_steps (o := o) rfl)

theorem group_node (x : Tm) {l : List (Op × Tm)} (h : l ≠ []) : ∃ f o g, group x l = .node f o g := by
  cases e : group x l with
  | leaf t =>
    have := (group_spec x l).2
    rw [e] at this
    simp only [OpTree.steps, Prod.mk.injEq] at this
    exact absurd this.2.symm h
  | node f o g => exact ⟨f, o, g, rfl⟩

theorem bangVal_odd {k : Nat} {v : AST} (h : k % 2 = 1) :
    ∃ a, bangVal k v = .function (sufSym false) [.mk [a] [] noPos] := by
  obtain ⟨k, rfl⟩ : ∃ k', k = k' + 1 := ⟨k - 1, by omega⟩
  exact ⟨_, bangVal_one k v (by omega)⟩

theorem bangVal_even {k : Nat} {v : AST} (h : k % 2 = 0) (hk : k ≠ 0) :
    ∃ a, bangVal k v = .function (sufSym true) [.mk [a] [] noPos] := by
  obtain ⟨k, rfl⟩ : ∃ k', k = k' + 2 := ⟨k - 2, by omega⟩
  exact ⟨_, bangVal_two k v (by omega)⟩

theorem sufSym_ne : sufSym true ≠ sufSym false := by decide

theorem read_canonical (e : Arith) (h : e.tms.read = e.val) : Canonical e := by
  induction e with
  | int n => trivial
  | dec i f => trivial
  | bool b => trivial
  | sym p => trivial
  | pre pos c x ih =>
    by_cases hx : x.tms.2 = []
    · have hop : x.op = none := by
        cases ho : x.op with
        | none => rfl
        | some o => exact absurd hx (bin_steps ho)
      refine ⟨hop, ih ?_⟩
      rw [Tms.read, hx]
      rw [Tms.read, Arith.tms, Tms.cons, hx, Arith.val] at h
      simp only [group, List.foldl_nil, treeVal, Tm.val, preVal, AST.function.injEq, List.cons.injEq, Param.mk.injEq,
        and_true, true_and] at h
      exact h
    · obtain ⟨f, o, g, hg⟩ := group_node { x.tms.1 with ps := c :: x.tms.1.ps } hx
      rw [Tms.read, Arith.tms, Tms.cons] at h
      simp only [hg, treeVal, Arith.val, AST.function.injEq] at h
      exact absurd h.1 (op_sym_pre o c)
  | suf pos b x ih =>
    by_cases hx : x.tms.2 = []
    · rw [Tms.read, Arith.tms, hx, bangLast, Arith.val] at h
      simp only [group, List.foldl_nil, treeVal, Tm.val] at h
      have hv := single_atom x hx
      have hps : x.tms.1.ps = [] := by
        cases hp : x.tms.1.ps with
        | nil => rfl
        | cons c ps =>
          rw [hp, preVal] at h
          simp only [AST.function.injEq] at h
          exact absurd h.1 (pre_sym_suf c b)
      rw [hps, preVal] at h
      have heven : x.tms.1.k % 2 = 0 := by
        cases b with
        | false =>
          by_contra hk
          obtain ⟨a, ha⟩ := bangVal_even (k := x.tms.1.k + 1) (v := x.tms.1.v) (by omega) (by omega)
          rw [if_neg (by decide), ha] at h
          simp only [AST.function.injEq] at h
          exact sufSym_ne h.1
        | true =>
          by_contra hk
          obtain ⟨a, ha⟩ := bangVal_odd (k := x.tms.1.k + 2) (v := x.tms.1.v) (by omega)
          rw [if_pos rfl, ha] at h
          simp only [AST.function.injEq] at h
          exact sufSym_ne h.1.symm
      have hxv : bangVal x.tms.1.k x.tms.1.v = x.val := by
        cases b with
        | false =>
          rw [if_neg (by decide), bangVal_one _ _ heven] at h
          simp only [AST.function.injEq, List.cons.injEq, Param.mk.injEq, and_true, true_and] at h
          exact h
        | true =>
          rw [if_pos rfl, bangVal_two _ _ heven] at h
          simp only [AST.function.injEq, List.cons.injEq, Param.mk.injEq, and_true, true_and] at h
          exact h
      refine ⟨?_, ih ?_⟩
      · cases x with
        | pre pos c x => simp [Arith.tms, Tms.cons] at hps
        | bin pos o l r => exact absurd hx (bin_steps (o := o) rfl)
        | suf pos b x =>
          cases b with
          | true => trivial
          | false =>
            rw [Arith.val] at hxv
            by_cases h0 : (Arith.suf pos false x).tms.1.k = 0
            · rw [h0, bangVal] at hxv
              exact absurd hxv (hv _ _)
            · obtain ⟨a, ha⟩ := bangVal_even (v := (Arith.suf pos false x).tms.1.v) heven h0
              rw [ha] at hxv
              simp only [AST.function.injEq] at hxv
              exact absurd hxv.1 sufSym_ne
        | _ => trivial
      · rw [Tms.read, hx, ← hxv]
        simp only [group, List.foldl_nil, treeVal, Tm.val, hps, preVal]
    · obtain ⟨f, o, g, hg⟩ := group_node (bangLast (if b then 2 else 1) x.tms.1 x.tms.2).1
        (l := (bangLast (if b then 2 else 1) x.tms.1 x.tms.2).2) (fun e => hx ((bangLast_steps _ _ _).1 e))
      rw [Tms.read, Arith.tms] at h
      simp only [hg, treeVal, Arith.val, AST.function.injEq] at h
      exact absurd h.1 (op_sym_suf o b)
  | bin pos o l r hl hr =>
    rw [Arith.tms] at h
    obtain ⟨f, p, g, hg⟩ := group_node (Arith.bin pos o l r).tms.1 (bin_steps (e := .bin pos o l r) rfl)
    obtain ⟨hp, hs⟩ := group_spec (Arith.bin pos o l r).tms.1 (Arith.bin pos o l r).tms.2
    rw [Arith.tms] at hg hp hs
    rw [hg] at hp hs
    rw [Tms.read, hg, treeVal, Arith.val] at h
    simp only [AST.function.injEq, List.cons.injEq, Param.mk.injEq, and_true] at h
    obtain ⟨h1, h2, h3⟩ := h
    cases op_sym_inj h1
    have side : ∀ x : Arith, weight (if Wrapped o x then x.tms.paren else x.tms) = infixes x.val := by
      intro x
      split
      · rw [weight_paren, weight_tms]
      · exact weight_tms x
    have hs' : Tms.append f.steps o g.steps =
        Tms.append (if Wrapped o l then l.tms.paren else l.tms) o (if Wrapped o r then r.tms.paren else r.tms) := hs
    obtain ⟨e1, _, e3⟩ := append_split hs' (by rw [side, ← h2, weight_tree])
    obtain ⟨p1, p2, q, hq, p3, p4⟩ := hp
    cases hq
    have part : ∀ (x : Arith) (t : OpTree Tm Op), Proper t → t.steps = (if Wrapped o x then x.tms.paren else x.tms) →
        treeVal t = x.val → x.tms.read = x.val ∧ ∀ o', x.op = some o' → Wrapped o x ∨ t.root = some o' := by
      intro x t ht hx hv
      by_cases hw : Wrapped o x
      · rw [if_pos hw] at hx
        refine ⟨?_, fun _ _ => .inl hw⟩
        rw [← hv, group_of_proper ht, hx]
        rfl
      · rw [if_neg hw] at hx
        refine ⟨?_, ?_⟩
        · rw [← hv, group_of_proper ht, hx]
          rfl
        · intro o' ho'
          refine .inr ?_
          cases x with
          | bin pos o2 a b =>
            cases ho'
            obtain ⟨f', p', g', hg'⟩ := group_node (Arith.bin pos o' a b).tms.1
              (bin_steps (e := .bin pos o' a b) rfl)
            rw [group_of_proper ht, hx, hg'] at hv
            rw [group_of_proper ht, hx, hg']
            simp only [treeVal, Arith.val, AST.function.injEq] at hv
            rw [op_sym_inj hv.1]
            rfl
          | _ => cases ho'
    obtain ⟨a1, a2⟩ := part l f p1 e1 h2
    obtain ⟨b1, b2⟩ := part r g p2 e3 h3
    refine ⟨hl a1, hr b1, ?_, ?_⟩
    · intro o' ho'
      rcases a2 o' ho' with hw | hw
      · exact .inl hw
      · obtain ⟨q, hq, hok⟩ := p3 o' hw
        cases hq
        exact .inr hok
    · intro o' ho'
      rcases b2 o' ho' with hw | hw
      · exact .inl hw
      · obtain ⟨q, hq, hok⟩ := p4 o' hw
        cases hq
        exact .inr hok

/-! ### The theorems -/

/-- **C19**.  The printed form of an expression, unless it begins with a statement keyword, parses to the expression --
up to positions -- if and only if the expression is canonical. -/
theorem C19_round_trip (L : Lawful u) (e : Arith) (h : e.Ok u) :
    ∃ t, e.ast.display = some t ∧ ∀ c : Cfg, c.input = t → Wordless t →
      (eraseR (parseText u c) = .ok (erase e.ast) ↔ Canonical e) := by
  refine ⟨e.text, arith_display e, ?_⟩
  intro c hc hw
  have hk := tms_ok e h
  have := C53_expressions L c e.tms.expr hk.ok (by rw [tms_text]; exact hw) (w := []) (w' := []) blank_nil blank_nil
    (by rw [tms_text, hc]; simp)
  rw [this, hk.value, arith_erase]
  constructor
  · intro he
    exact read_canonical e (Out.ok.inj he)
  · intro he
    rw [canonical_read e he]
    rfl

/-- **C19**.  Whether or not an expression is canonical, its printed form parses to some expression of the same kind:
printing never produces a text that the parser rejects or panics on. -/
theorem C19_accepted (L : Lawful u) (e : Arith) (h : e.Ok u) (c : Cfg) (hc : some c.input = e.ast.display)
    (hw : Wordless c.input) : ∃ a, parseText u c = .ok a := by
  have ht : c.input = e.text := by
    rw [arith_display] at hc
    exact Option.some.inj hc
  have hk := tms_ok e h
  have := C53_expressions L c e.tms.expr hk.ok (by rw [tms_text, ← ht]; exact hw) (w := []) (w' := []) blank_nil
    blank_nil (by rw [tms_text, ht]; simp)
  rw [hk.value] at this
  cases hp : parseText u c with
  | ok a => exact ⟨a, rfl⟩
  | err e => rw [hp] at this; cases this
  | panic => rw [hp] at this; cases this

/-- **C19**.  Different expressions with the same printed form: `a - (b - c)` and `(a - b) - c`, whatever the operands;
the same for any two of `+` and `-`. -/
theorem C19_sums_collide {o o' : Op} (h : o ∈ [Op.plus, .minus]) (h' : o' ∈ [Op.plus, .minus]) (p q : Position)
    (a b c : Arith) :
    (Arith.bin p o a (.bin q o' b c)).ast.display = (Arith.bin p o' (.bin q o a b) c).ast.display := by
  simp only [List.mem_cons, List.not_mem_nil, or_false] at h h'
  have h80 : o.name.2 = 80 ∧ o'.name.2 = 80 := by
    constructor
    · rcases h with rfl | rfl <;> rfl
    · rcases h' with rfl | rfl <;> rfl
  have w : ∀ x, Wrapped o' x ↔ Wrapped o x := by intro x; simp only [Wrapped, h80]
  have w1 : ∀ q x y, ¬ Wrapped o (.bin q o' x y) := by
    rintro q x y ⟨_, e, hlt⟩; cases e; rw [h80.1, h80.2] at hlt; omega
  have w2 : ∀ q x y, ¬ Wrapped o (.bin q o x y) := by
    rintro q x y ⟨_, e, hlt⟩; cases e; omega
  rw [arith_display, arith_display]
  simp only [Arith.text, if_neg (w1 q b c), if_neg (w2 q a b), w, List.append_assoc]

/-- **C19**.  `(a ^ b) ^ c` and `a ^ (b ^ c)` have the same printed form. -/
theorem C19_powers_collide (p q : Position) (a b c : Arith) :
    (Arith.bin p .caret a (.bin q .caret b c)).ast.display = (Arith.bin p .caret (.bin q .caret a b) c).ast.display := by
  have w : ∀ q x y, ¬ Wrapped .caret (.bin q .caret x y) := by
    rintro q x y ⟨_, e, hlt⟩; cases e; omega
  rw [arith_display, arith_display]
  simp only [Arith.text, if_neg (w q b c), if_neg (w q a b), List.append_assoc]

/-- **C19**.  `(a * b) / c` and `a * (b / c)` have the same printed form. -/
theorem C19_quotients_collide (p q : Position) (a b c : Arith) :
    (Arith.bin p .slash (.bin q .star a b) c).ast.display = (Arith.bin p .star a (.bin q .slash b c)).ast.display := by
  have w : ∀ x, Wrapped .slash x ↔ Wrapped .star x := fun x => Iff.rfl
  have w1 : ¬ Wrapped .star (.bin q .slash b c) := by rintro ⟨_, e, hlt⟩; cases e; revert hlt; decide
  have w2 : ¬ Wrapped .star (.bin q .star a b) := by rintro ⟨_, e, hlt⟩; cases e; revert hlt; decide
  rw [arith_display, arith_display]
  simp only [Arith.text, w, if_neg w1, if_neg w2, List.append_assoc]

/-- **C19**.  `-(a + b)` and `(-a) + b` have the same printed form, and so have `(a + b)!` and `a + b!`; the same for
every prefix, `!!` and every infix operator whose operands are not infix expressions. -/
theorem C19_prefixes_collide (p q : Position) (k : Pre) (o : Op) (a b : Arith) (ha : a.op = none) :
    (Arith.pre p k (.bin q o a b)).ast.display = (Arith.bin q o (.pre p k a) b).ast.display := by
  have w1 : ¬ Wrapped o a := by rintro ⟨_, e, _⟩; rw [ha] at e; cases e
  have w2 : ¬ Wrapped o (.pre p k a) := by rintro ⟨_, e, _⟩; cases e
  rw [arith_display, arith_display]
  simp only [Arith.text, if_neg w1, if_neg w2, List.cons_append]

/-- **C19**.  See `C19_prefixes_collide`. -/
theorem C19_suffixes_collide (p q : Position) (t : Bool) (o : Op) (a b : Arith) (hb : b.op = none) :
    (Arith.suf p t (.bin q o a b)).ast.display = (Arith.bin q o a (.suf p t b)).ast.display := by
  have w1 : ¬ Wrapped o b := by rintro ⟨_, e, _⟩; rw [hb] at e; cases e
  have w2 : ¬ Wrapped o (.suf p t b) := by rintro ⟨_, e, _⟩; cases e
  rw [arith_display, arith_display]
  simp only [Arith.text, if_neg w1, if_neg w2, List.append_assoc]

/-- **C19**.  The factorial of a factorial is printed like a double factorial. -/
theorem C19_factorials_collide (p q : Position) (a : Arith) :
    (Arith.suf p false (.suf q false a)).ast.display = (Arith.suf p true a).ast.display := by
  rw [arith_display, arith_display]
  simp [Arith.text]

/-- **C19**.  A negative number is printed with a sign and read back as the sign applied to a number. -/
theorem C19_negative (L : Lawful u) (n : Nat) (hn : 0 < n) :
    ∃ t, (AST.integer (-(n : Int))).display = some t ∧ ∀ c : Cfg, c.input = t →
      eraseR (parseText u c) = .ok (.function ⟨[c!"std", c!"prefix"], c!"minus", .prefix c!"-", 0⟩
        [.mk [.integer n] [] noPos]) := by
  refine ⟨'-' :: numeral n, ?_, ?_⟩
  · have : -(n : Int) < 0 := by omega
    simp [AST.display, intStr, natStr, hn]
  · intro c hc
    obtain ⟨t, ht, hp⟩ := C19_round_trip L (.pre noPos .minus (.int n)) ⟨by decide, trivial⟩
    rw [arith_display] at ht
    cases ht
    have := (hp c hc (wordless_head rfl (by decide))).2 ⟨rfl, trivial⟩
    rw [this, arith_erase]
    rfl

/-- `2*(x+1)^2!-3` is canonical, for example: it is printed like this and read back. -/
private def sampleArith : Arith :=
  .bin noPos .minus
    (.bin noPos .star (.int 2)
      (.bin noPos .caret (.bin noPos .plus (.sym ⟨c!"x", []⟩) (.int 1)) (.suf noPos false (.int 2))))
    (.int 3)

example : ∃ t, sampleArith.ast.display = some t ∧ t = c!"2*(x+1)^2!-3" ∧
    eraseR (parseText asciiUni ⟨[], t, []⟩) = .ok (erase sampleArith.ast) := by
  have hx : (Path.mk c!"x" []).Ok asciiUni ∧ (Path.mk c!"x" []).Free :=
    ⟨⟨.inl ⟨'x', [], rfl, by decide, by decide⟩, fun m hm => nomatch hm⟩, by unfold Path.Free; decide⟩
  have hok : sampleArith.Ok asciiUni := by
    refine ⟨by decide, ⟨by decide, trivial, by decide, ⟨by decide, hx, trivial⟩, trivial⟩, trivial⟩
  obtain ⟨t, ht, h⟩ := C19_round_trip lawful_asciiUni sampleArith hok
  have e : t = c!"2*(x+1)^2!-3" := by
    rw [arith_display] at ht
    exact (Option.some.inj ht).symm.trans (by decide)
  refine ⟨t, ht, e, (h ⟨[], t, []⟩ rfl ?_).2 ?_⟩
  · subst e
    exact wordless_head rfl (by decide)
  · refine ⟨⟨trivial, ⟨⟨trivial, trivial, (fun _ e => nomatch e), (fun _ e => nomatch e)⟩, ⟨trivial, trivial⟩, ?_,
      fun _ e => nomatch e⟩, (fun _ e => nomatch e), ?_⟩, trivial, ?_, fun _ e => nomatch e⟩
    · rintro _ ⟨⟩; exact .inl ⟨_, rfl, by decide⟩
    · rintro _ ⟨⟩; exact .inr (by decide)
    · rintro _ ⟨⟩; exact .inr (by decide)

/-- `1-(2-3)` is not canonical: its printed form is not read back. -/
example : ¬ Canonical (.bin noPos .minus (.int 1) (.bin noPos .minus (.int 2) (.int 3))) := by
  rintro ⟨_, _, _, h⟩
  rcases h .minus rfl with ⟨_, e, h⟩ | h
  · cases e; revert h; decide
  · revert h; decide
/-- `(2^3)^4` is not canonical. -/
example : ¬ Canonical (.bin noPos .caret (.bin noPos .caret (.int 2) (.int 3)) (.int 4)) := by
  rintro ⟨_, _, h, _⟩
  rcases h .caret rfl with ⟨_, e, h⟩ | h
  · cases e; revert h; decide
  · revert h; decide

end SM.Props
