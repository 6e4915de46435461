import Verif.Props.Erase
import Verif.Props.Climb
/-
C36, C37: how operands and operators are grouped, and what is dropped.
-/
namespace SM.Props
open SM SM.Peg

theorem Grouped.mono {ι ω : Type} {pr pr' : ω → Option (Nat × Bool)}
    (hd : ∀ o p, pr o = some p → ∃ p', pr' o = some p')
    (hl : ∀ o o' q p q' p', pr o = some q → pr o' = some p → pr' o = some q' → pr' o' = some p' →
      LeftOk q p → LeftOk q' p')
    (hr : ∀ o o' p q p' q', pr o = some p → pr o' = some q → pr' o = some p' → pr' o' = some q' →
      RightOk p q → RightOk p' q') :
    ∀ t : OpTree ι ω, Grouped pr t → Grouped pr' t := by
  intro t
  induction t with
  | leaf x => exact fun _ => True.intro
  | node l op r il ir =>
    rintro ⟨gl, gr, p, hp, h1, h2⟩
    obtain ⟨p', hp'⟩ := hd op p hp
    refine ⟨il gl, ir gr, p', hp', ?_, ?_⟩
    · intro o ho
      obtain ⟨q, hq, hok⟩ := h1 o ho
      obtain ⟨q', hq'⟩ := hd o q hq
      exact ⟨q', hq', hl o op q p q' p' hq hp hq' hp' hok⟩
    · intro o ho
      obtain ⟨q, hq, hok⟩ := h2 o ho
      obtain ⟨q', hq'⟩ := hd o q hq
      exact ⟨q', hq', hr op o p q p' q' hp hq hp' hq' hok⟩

/-- A tree of operands and operators that is grouped by `Op.binds`. -/
def Proper {ι : Type} (t : OpTree ι Op) : Prop := Grouped (fun o => some o.binds) t

instance (q p : Nat × Bool) : Decidable (LeftOk q p) := inferInstanceAs (Decidable (_ ∨ _))
instance (q p : Nat × Bool) : Decidable (RightOk q p) := inferInstanceAs (Decidable (_ ∨ _))

theorem proper_of_table {ι : Type} (t : OpTree ι Op) (h : Grouped (fun o => opTable o.rule) t) : Proper t := by
  refine h.mono (fun o p _ => ⟨_, rfl⟩) ?_ ?_ t
  · intro o o' q p q' p' h1 h2 h3 h4
    cases o <;> cases o' <;>
      simp only [Op.rule, opTable, Option.some.injEq] at h1 h2 <;>
      simp only [Op.binds, Option.some.injEq] at h3 h4 <;> subst_vars <;> decide
  · intro o o' q p q' p' h1 h2 h3 h4
    cases o <;> cases o' <;>
      simp only [Op.rule, opTable, Option.some.injEq] at h1 h2 <;>
      simp only [Op.binds, Option.some.injEq] at h3 h4 <;> subst_vars <;> decide

/-- There is only one properly grouped tree over given operands and operators. -/
theorem proper_unique {ι : Type} (t t' : OpTree ι Op) (h : Proper t) (h' : Proper t')
    (hs : t.steps = t'.steps) : t = t' := by
  refine grouped_unique ?_ t t' h h' hs
  intro o o' p b b' h1 h2
  cases o <;> cases o' <;> simp only [Op.binds, Option.some.injEq, Prod.mk.injEq] at h1 h2 <;>
    obtain ⟨rfl, rfl⟩ := h1 <;> obtain ⟨h, rfl⟩ := h2 <;> first | rfl | (revert h; decide)

/-- The value of an operand of `parse_expr`. -/
def operand (c : Cfg) (p : Pair R) : Option AST :=
  if p.rule = .expr then buildExpr c p else if p.rule = .term then buildTerm c p else none

/-- A list of steps, as pairs. -/
def pairSteps (L : List (Pair R × Pair R)) : List (Pair R) := L.flatMap fun s => [s.1, s.2]

theorem exprItems_eq (c : Cfg) (l : List (Pair R)) : exprItems c l = l.map fun p => (p, operand c p) := by
  induction l with
  | nil => simp [exprItems]
  | cons p l ih => simp [exprItems, ih, operand]

/-- Operators with the operands after them, as pairs and as operators with values. -/
def StepsAre (c : Cfg) (L : List (Pair R × Pair R)) (M : List (Op × Option AST)) : Prop :=
  List.Forall₂ (fun s m => IsOp s.1 m.1 ∧ (operand c s.2).map erase = m.2) L M

/-- `parse_expr` on operands `x, x₁, x₂, ...` separated by operators of the table, followed by nothing or
by something that is not such an operator. -/
theorem buildExpr_steps (c : Cfg) (r : R) (a b : Nat) (txt : Str) (x : Pair R) (L : List (Pair R × Pair R))
    (tail : List (Pair R)) (M : List (Op × Option AST)) (hL : StepsAre c L M)
    (htail : ∀ h l, tail = h :: l → opTable h.rule = none) :
    ∃ t : OpTree (Option AST) Op, Proper t ∧ t.steps = ((operand c x).map erase, M) ∧
      (buildExpr c (.mk r a b txt (x :: pairSteps L ++ tail))).map erase = evalTree id Op.apply t := by
  let it : Pair R → Item AST := fun p => (p, operand c p)
  let LI : List (Step AST) := L.map fun s => (it s.1, it s.2)
  have hitems : exprItems c (x :: pairSteps L ++ tail) = it x :: stepItems LI ++ tail.map it := by
    rw [exprItems_eq]
    simp only [List.cons_append, List.map_cons, List.map_append, it, LI, stepItems, pairSteps,
      List.map_flatMap, List.flatMap_map]
    rfl
  have hK : Known LI := by
    intro s hs
    simp only [LI, List.mem_map] at hs
    obtain ⟨s', hs', rfl⟩ := hs
    clear hitems
    have hop : ∃ o, IsOp s'.1 o := by
      induction hL with
      | nil => cases hs'
      | cons h _ ih =>
        simp only [List.mem_cons] at hs'
        rcases hs' with rfl | hs'
        · exact ⟨_, h.1⟩
        · exact ih hs'
    obtain ⟨o, ho⟩ := hop
    show ∃ p, opTable s'.1.rule = some p
    rw [ho.1]
    cases o <;> exact ⟨_, rfl⟩
  have hS : Stops (tail.map it) := by
    intro h l e
    cases tail with
    | nil => cases e
    | cons p tail => cases e; exact htail p tail rfl
  obtain ⟨t, g, hst, hev⟩ := climb_eq_eval (infixCall (c.position a b)) (it x) LI (tail.map it) hK hS
  obtain ⟨t', hrel, hsteps⟩ := tree_transport (A := fun (i : Item AST) (d : Option AST) => i.2.map erase = d)
    (B := IsOp) t ((operand c x).map erase) M (by rw [hst]) (by
      rw [hst]
      simp only [opSteps, LI, List.map_map]
      refine List.forall₂_map_left_iff.2 ?_
      exact hL.imp fun s m h => h)
  refine ⟨t', ?_, hsteps, ?_⟩
  · refine proper_of_table _ (hrel.grouped ?_ g)
    intro o o' ho
    show opTable o.rule = _
    rw [ho.1]
  · rw [buildExpr, hitems, hev]
    exact hrel.eval erase (fun _ _ h => h) (fun a' b' o o' ho => infixCall_erase _ a' b' o o' ho)

/-- **C36**.  Operands separated by the operators `+ - * × / ÷ ^ .` are combined as in the one tree that
has these operands and operators in this order and is grouped by `Op.binds`: the dot binds tightest, then
`^` (to the right), division, multiplication, and addition and subtraction (to the left).  Here the
operands and operators are given as the pairs that the grammar makes. -/
theorem C36_grouping (c : Cfg) (r : R) (a b : Nat) (txt : Str) (x : Pair R) (L : List (Pair R × Pair R))
    (M : List (Op × Option AST)) (hL : StepsAre c L M) :
    ∃ t : OpTree (Option AST) Op, (Proper t ∧ t.steps = ((operand c x).map erase, M)) ∧
      (∀ t', Proper t' ∧ t'.steps = ((operand c x).map erase, M) → t' = t) ∧
      (buildExpr c (.mk r a b txt (x :: pairSteps L))).map erase = evalTree id Op.apply t := by
  obtain ⟨t, h1, h2, h3⟩ := buildExpr_steps c r a b txt x L [] M hL (fun _ _ h => nomatch h)
  refine ⟨t, ⟨h1, h2⟩, fun t' h => proper_unique _ _ h.1 h1 (by rw [h.2, h2]), ?_⟩
  rw [List.append_nil] at h3
  exact h3

/-- **C37** (violation).  When an operator outside the table follows, it and everything after it leave no
trace in the result. -/
theorem C37_dropped (c : Cfg) (r : R) (a b : Nat) (txt : Str) (x : Pair R) (L : List (Pair R × Pair R))
    (M : List (Op × Option AST)) (hL : StepsAre c L M) (op : Pair R) (hop : opTable op.rule = none)
    (tail : List (Pair R)) :
    (buildExpr c (.mk r a b txt (x :: pairSteps L ++ op :: tail))).map erase =
      (buildExpr c (.mk r a b txt (x :: pairSteps L))).map erase := by
  obtain ⟨t, h1, h2, h3⟩ := buildExpr_steps c r a b txt x L (op :: tail) M hL (fun _ _ h => by cases h; exact hop)
  obtain ⟨t', ⟨h4, h5⟩, _, h6⟩ := C36_grouping c r a b txt x L M hL
  rw [h3, h6, proper_unique t t' h1 h4 (by rw [h2, h5])]

/-- The operators after which everything is dropped. -/
theorem C37_dropping_operators :
    ∀ r ∈ [R.Set, .CenterDot, .Kronecker, .TensorProduct, .Modulo, .Grater], opTable r = none := by decide

/-! ### The operands of an expression -/

mutual
/-- All expressions that the dot operator, calls and operators have put together: `e` occurs in `a`. -/
inductive Occurs (e : AST) : AST → Prop
  | here : Occurs e e
  | arg {s ps} : OccursP e ps → Occurs e (.function s ps)
/-- `e` occurs in an argument of one of the argument lists. -/
inductive OccursP (e : AST) : List Param → Prop
  | head {a o p l x} : x ∈ a → Occurs e x → OccursP e (.mk a o p :: l)
  | tail {q l} : OccursP e l → OccursP e (q :: l)
end

/-- The value of an operand is found in the result, as it is, or -- to the right of a dot -- as the function
that the receiver is passed to. -/
def Kept (d a : AST) : Prop :=
  Occurs d a ∨ ∃ x e, dotApply x d = some e ∧ Occurs e a

theorem Occurs.call {e x : AST} {xs : List AST} {s : Sym} {o : List (AST × AST)} {p : Position}
    {l : List Param} (h : Occurs e x) (hx : x ∈ xs) : Occurs e (.function s (.mk xs o p :: l)) :=
  .arg (.head hx h)

theorem Kept.call {d x : AST} {xs : List AST} {s : Sym} {o : List (AST × AST)} {p : Position}
    {l : List Param} (h : Kept d x) (hx : x ∈ xs) : Kept d (.function s (.mk xs o p :: l)) := by
  rcases h with h | ⟨y, e, h1, h2⟩
  · exact .inl (h.call hx)
  · exact .inr ⟨y, e, h1, h2.call hx⟩

/-- The receiver of a dot call is an argument of the result. -/
theorem Kept.receiver {d x b a : AST} (h : Kept d x) (ha : dotApply x b = some a) : Kept d a := by
  cases b with
  | symbol f => cases ha; exact h.call (by simp)
  | integer n => cases ha; exact h.call (by simp)
  | function f ps =>
    cases ps with
    | nil => cases ha
    | cons p ps => obtain ⟨xs, o, q⟩ := p; cases ha; exact h.call (by simp)
  | _ => cases ha

/-- The operands of a tree, from left to right. -/
def OpTree.leaves {ι ω : Type} (t : OpTree ι ω) : List ι := t.steps.1 :: t.steps.2.map Prod.snd

theorem leaves_node {ι ω : Type} (l r : OpTree ι ω) (o : ω) :
    (OpTree.node l o r).leaves = l.leaves ++ r.leaves := by
  simp [OpTree.leaves, OpTree.steps]

theorem eval_keeps (t : OpTree (Option AST) Op) (hp : Proper t) :
    ∀ a, evalTree id Op.apply t = some a → ∀ d ∈ t.leaves, ∃ v, d = some v ∧ Kept v a := by
  induction t with
  | leaf x =>
    intro a h d hd
    simp only [OpTree.leaves, OpTree.steps, List.map_nil, List.mem_singleton] at hd
    exact ⟨a, by rw [hd]; exact h, .inl .here⟩
  | node l o r il ir =>
    obtain ⟨gl, gr, p, hp1, hp2, hp3⟩ := hp
    intro a h d hd
    rw [leaves_node, List.mem_append] at hd
    simp only [evalTree] at h
    cases hl : evalTree id Op.apply l with
    | none => rw [hl] at h; cases h
    | some va =>
      cases hr : evalTree id Op.apply r with
      | none => rw [hl, hr] at h; cases h
      | some vb =>
        rw [hl, hr] at h
        simp only at h
        by_cases ho : o = .dot
        · subst ho
          rcases hd with hd | hd
          · obtain ⟨v, hv, hk⟩ := il gl va hl d hd
            exact ⟨v, hv, hk.receiver h⟩
          · cases r with
            | node l' o' r' =>
              obtain ⟨q, hq, hq2⟩ := hp3 o' rfl
              cases hp1
              cases hq
              exfalso
              revert hq2
              cases o' <;> decide
            | leaf x =>
              simp only [OpTree.leaves, OpTree.steps, List.map_nil, List.mem_singleton] at hd
              exact ⟨vb, by rw [hd]; exact hr, .inr ⟨va, a, h, .here⟩⟩
        · have h' : a = .function o.sym [.mk [va, vb] [] noPos] := by
            cases o <;> first | exact absurd rfl ho | exact (Option.some.inj h).symm
          subst h'
          rcases hd with hd | hd
          · obtain ⟨v, hv, hk⟩ := il gl va hl d hd
            exact ⟨v, hv, hk.call (by simp)⟩
          · obtain ⟨v, hv, hk⟩ := ir gr vb hr d hd
            exact ⟨v, hv, hk.call (by simp)⟩

/-- **C37** (nothing dropped).  With operators of the table only, an expression that is built contains the
value of every operand: as a subexpression, or, to the right of a dot, as the call with the receiver put
first. -/
theorem C37_nothing_dropped (c : Cfg) (r : R) (a b : Nat) (txt : Str) (x : Pair R)
    (L : List (Pair R × Pair R)) (M : List (Op × Option AST)) (hL : StepsAre c L M) (e : AST)
    (he : (buildExpr c (.mk r a b txt (x :: pairSteps L))).map erase = some e) :
    ∀ d ∈ (operand c x).map erase :: M.map Prod.snd, ∃ v, d = some v ∧ Kept v e := by
  obtain ⟨t, ⟨h1, h2⟩, _, h3⟩ := C36_grouping c r a b txt x L M hL
  have := eval_keeps t h1 e (by rw [← h3, he])
  simpa [OpTree.leaves, h2] using this

/-! ### Examples -/

/-- `1 - 2 - 3` groups to the left, `1 ^ 2 ^ 3` to the right, `1 + 2 * 3` by precedence. -/
example : Proper (.node (.node (.leaf 1) .minus (.leaf 2)) .minus (.leaf 3) : OpTree Nat Op) ∧
    ¬ Proper (.node (.leaf 1) .minus (.node (.leaf 2) .minus (.leaf 3)) : OpTree Nat Op) ∧
    Proper (.node (.leaf 1) .caret (.node (.leaf 2) .caret (.leaf 3)) : OpTree Nat Op) ∧
    Proper (.node (.leaf 1) .plus (.node (.leaf 2) .star (.leaf 3)) : OpTree Nat Op) := by
  simp [Proper, Grouped, OpTree.root, LeftOk, RightOk, Op.binds]

end SM.Props
