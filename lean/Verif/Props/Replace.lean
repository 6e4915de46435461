import Verif.Props.Rename
/-
Substitution: a name may be replaced by an expression in parentheses.
-/
namespace SM.Props
open SM SM.Peg

variable {u : Uni}

/-! ### Replacing in trees -/

mutual
/-- The expression with `v` for the variable `x`.  Names of functions and of keyword arguments stay. -/
def subAst (x : Str) (v : AST) : AST → AST
  | .empty => .empty
  | .program l => .program (subAsts x v l)
  | .function s ps => .function s (subParams x v ps)
  | .boolean b => .boolean b
  | .integer n => .integer n
  | .decimal d => .decimal d
  | .symbol s => if s = Sym.ofStr x then v else .symbol s
  | .string s => .string s
termination_by structural a => a
/-- The same for lists of expressions. -/
def subAsts (x : Str) (v : AST) : List AST → List AST
  | [] => []
  | a :: l => subAst x v a :: subAsts x v l
termination_by structural a => a
/-- The same for argument lists. -/
def subParams (x : Str) (v : AST) : List Param → List Param
  | [] => []
  | p :: l => subParam x v p :: subParams x v l
termination_by structural a => a
/-- The same for an argument list. -/
def subParam (x : Str) (v : AST) : Param → Param
  | .mk a o p => .mk (subAsts x v a) (subOpts x v o) p
termination_by structural a => a
/-- The same for keyword arguments. -/
def subOpts (x : Str) (v : AST) : List (AST × AST) → List (AST × AST)
  | [] => []
  | e :: l => subOpt x v e :: subOpts x v l
termination_by structural a => a
/-- The same for a keyword argument. -/
def subOpt (x : Str) (v : AST) : AST × AST → AST × AST
  | (k, w) => (k, subAst x v w)
termination_by structural a => a
end

theorem subAsts_eq (x : Str) (v : AST) (l : List AST) : subAsts x v l = l.map (subAst x v) := by
  induction l with
  | nil => simp [subAsts]
  | cons a l ih => simp [subAsts, ih]

theorem subParams_eq (x : Str) (v : AST) (l : List Param) : subParams x v l = l.map (subParam x v) := by
  induction l with
  | nil => simp [subParams]
  | cons a l ih => simp [subParams, ih]

theorem subOpts_eq (x : Str) (v : AST) (l : List (AST × AST)) :
    subOpts x v l = l.map fun e => (e.1, subAst x v e.2) := by
  induction l with
  | nil => simp [subOpts]
  | cons a l ih => obtain ⟨k, w⟩ := a; simp [subOpts, subOpt, ih]

theorem subAst_symbol (x : Str) (v : AST) (s : Str) :
    subAst x v (.mkSymbol s) = if s = x then v else .mkSymbol s := by
  rw [AST.mkSymbol, subAst]
  by_cases h : s = x
  · rw [if_pos (by rw [h]), if_pos h]
  · rw [if_neg fun e => h (C16_injective _ _ (by rw [e]) (by rw [e])), if_neg h]

/-! ### Replacing in texts -/

/-- A name replaced by the expression `e` in parentheses. -/
def SAtom.sub (x : Str) (e : SExpr) : SAtom → SNode
  | .sym p => if p.text = x then .paren e [] else .atom (.sym p)
  | a => .atom a

mutual
/-- Replacing in operands. -/
def SNode.sub (x : Str) (e0 : SExpr) : SNode → SNode
  | .atom a => a.sub x e0
  | .paren e w => .paren (SExpr.sub x e0 e) w
  | .nil w => .nil w
  | .list i l o => .list (i.sub x e0) (itemsSub x e0 l) o
  | .call p a l => .call p (a.sub x e0) (argsSub x e0 l)
  | .deriv p k a => .deriv p k (a.sub x e0)
  | .dictNil w => .dictNil w
  | .dict i l o => .dict (i.sub x e0) (itemsSub x e0 l) o
  | .mixed f m l => .mixed (f.sub x e0) (m.sub x e0) (mixesSub x e0 l)
termination_by structural n => n
/-- The same for factors. -/
def SFac.sub (x : Str) (e0 : SExpr) : SFac → SFac
  | .call p a l => .call p (a.sub x e0) (argsSub x e0 l)
  | .int n => .int n
  | .sym p => .sym p
  | .dec i f => .dec i f
  | .radix r k d ds => .radix r k d ds
termination_by structural f => f
/-- The same for further factors. -/
def SMix.sub (x : Str) (e0 : SExpr) : SMix → SMix
  | .mk h f => .mk h (f.sub x e0)
termination_by structural m => m
/-- The same for further factors. -/
def mixesSub (x : Str) (e0 : SExpr) : List SMix → List SMix
  | [] => []
  | m :: l => m.sub x e0 :: mixesSub x e0 l
termination_by structural l => l
/-- The same for items. -/
def SItem.sub (x : Str) (e0 : SExpr) : SItem → SItem
  | .mk b wa c wb => .mk b wa (c.sub x e0) wb
termination_by structural i => i
/-- The same for lists of items. -/
def itemsSub (x : Str) (e0 : SExpr) : List SItem → List SItem
  | [] => []
  | i :: l => i.sub x e0 :: itemsSub x e0 l
termination_by structural l => l
/-- The same for expressions, named arguments, spans, keys with values.  The names of arguments and the keys stay. -/
def SContent.sub (x : Str) (e0 : SExpr) : SContent → SContent
  | .expr e => .expr (SExpr.sub x e0 e)
  | .named k w1 b w2 e => .named k w1 b w2 (SExpr.sub x e0 e)
  | .span2 s b e => .span2 (s.sub x e0) b (e.sub x e0)
  | .span3 s b wa e b' t => .span3 (s.sub x e0) b wa (e.sub x e0) b' (t.sub x e0)
  | .pair k w1 b w2 e => .pair k w1 b w2 (SExpr.sub x e0 e)
termination_by structural c => c
/-- The same for parts of spans. -/
def SPart.sub (x : Str) (e0 : SExpr) : SPart → SPart
  | .none => .none
  | .some e w => .some (SExpr.sub x e0 e) w
termination_by structural p => p
/-- The same for last parts of spans. -/
def SLast.sub (x : Str) (e0 : SExpr) : SLast → SLast
  | .none => .none
  | .some w e => .some w (SExpr.sub x e0 e)
termination_by structural p => p
/-- The same for argument lists. -/
def SArgs.sub (x : Str) (e0 : SExpr) : SArgs → SArgs
  | .some h i l o => .some h (i.sub x e0) (itemsSub x e0 l) o
  | .none h w l o => .none h w (itemsSub x e0 l) o
termination_by structural a => a
/-- The same for lists of argument lists. -/
def argsSub (x : Str) (e0 : SExpr) : List SArgs → List SArgs
  | [] => []
  | a :: l => a.sub x e0 :: argsSub x e0 l
termination_by structural l => l
/-- The same for suffixes. -/
def SSuf.sub (x : Str) (e0 : SExpr) : SSuf → SSuf
  | .op y => .op y
  | .slice h i l o => .slice h (i.sub x e0) (itemsSub x e0 l) o
termination_by structural s => s
/-- The same for lists of suffixes. -/
def sufsSub (x : Str) (e0 : SExpr) : List SSuf → List SSuf
  | [] => []
  | s :: l => s.sub x e0 :: sufsSub x e0 l
termination_by structural l => l
/-- The same for terms. -/
def STerm.sub (x : Str) (e0 : SExpr) : STerm → STerm
  | .mk ps n l => .mk ps (n.sub x e0) (sufsSub x e0 l)
termination_by structural t => t
/-- The same for operators and operands. -/
def SStep.sub (x : Str) (e0 : SExpr) : SStep → SStep
  | .mk wb t wa y => .mk wb t wa (y.sub x e0)
termination_by structural s => s
/-- The same for lists of operators and operands. -/
def stepsSub (x : Str) (e0 : SExpr) : List SStep → List SStep
  | [] => []
  | s :: l => s.sub x e0 :: stepsSub x e0 l
termination_by structural l => l
/-- The expression with `(e)` for the variable `x`. -/
def SExpr.sub (x : Str) (e0 : SExpr) : SExpr → SExpr
  | .mk t l => .mk (t.sub x e0) (stepsSub x e0 l)
termination_by structural e => e
end

/-- The name is not a factor of a product. -/
def SAtom.Away (x : Str) : SAtom → Prop
  | .prod f m l => ∀ p, SFactor.sym p ∈ f :: m.2 :: l.map Prod.snd → p.text ≠ x
  | _ => True

mutual
/-- The variable `x` does not stand in a product without sign, like `2x`, and not alone after a dot, like `a.x` or
`a.(x)`. -/
def SNode.Away (x : Str) : SNode → Prop
  | .atom a => a.Away x
  | .paren e _ => e.Away x
  | .nil _ => True
  | .list i l _ => i.Away x ∧ itemsAway x l
  | .call _ a l => a.Away x ∧ argsAway x l
  | .deriv _ _ _ => True
  | .dictNil _ => True
  | .dict _ _ _ => True
  | .mixed _ _ _ => True
termination_by structural n => n
/-- The same for items. -/
def SItem.Away (x : Str) : SItem → Prop
  | .mk _ _ c _ => c.Away x
termination_by structural i => i
/-- The same for lists of items. -/
def itemsAway (x : Str) : List SItem → Prop
  | [] => True
  | i :: l => i.Away x ∧ itemsAway x l
termination_by structural l => l
/-- The same for expressions, named arguments and spans. -/
def SContent.Away (x : Str) : SContent → Prop
  | .expr e => e.Away x
  | .named _ _ _ _ e => e.Away x
  | .span2 s _ e => s.Away x ∧ e.Away x
  | .span3 s _ _ e _ t => s.Away x ∧ e.Away x ∧ t.Away x
  | .pair _ _ _ _ _ => True
termination_by structural c => c
/-- The same for parts of spans. -/
def SPart.Away (x : Str) : SPart → Prop
  | .none => True
  | .some e _ => e.Away x
termination_by structural p => p
/-- The same for last parts of spans. -/
def SLast.Away (x : Str) : SLast → Prop
  | .none => True
  | .some _ e => e.Away x
termination_by structural p => p
/-- The same for argument lists. -/
def SArgs.Away (x : Str) : SArgs → Prop
  | .some _ i l _ => i.Away x ∧ itemsAway x l
  | .none _ _ l _ => itemsAway x l
termination_by structural a => a
/-- The same for lists of argument lists. -/
def argsAway (x : Str) : List SArgs → Prop
  | [] => True
  | a :: l => a.Away x ∧ argsAway x l
termination_by structural l => l
/-- The same for suffixes. -/
def SSuf.Away (x : Str) : SSuf → Prop
  | .op _ => True
  | .slice _ i l _ => i.Away x ∧ itemsAway x l
termination_by structural s => s
/-- The same for lists of suffixes. -/
def sufsAway (x : Str) : List SSuf → Prop
  | [] => True
  | s :: l => s.Away x ∧ sufsAway x l
termination_by structural l => l
/-- The same for terms. -/
def STerm.Away (x : Str) : STerm → Prop
  | .mk _ n l => n.Away x ∧ sufsAway x l
termination_by structural t => t
/-- The same for operators and operands; the operand of a dot is not the variable. -/
def SStep.Away (x : Str) : SStep → Prop
  | .mk _ t _ y => y.Away x ∧ (t = .op .dot → y.value ≠ some (.mkSymbol x))
termination_by structural s => s
/-- The same for lists of operators and operands. -/
def stepsAway (x : Str) : List SStep → Prop
  | [] => True
  | s :: l => s.Away x ∧ stepsAway x l
termination_by structural l => l
/-- The same for expressions. -/
def SExpr.Away (x : Str) : SExpr → Prop
  | .mk t l => t.Away x ∧ stepsAway x l
termination_by structural e => e
end

/-! ### What expressions mean after replacing -/

section
variable {x : Str} {v : AST} {e0 : SExpr}

theorem sub_made (hx : x ∉ madeNames) {s : Str} (hs : s ∈ madeNames) :
    subAst x v (.mkSymbol s) = .mkSymbol s := by
  rw [subAst_symbol, if_neg fun h : s = x => hx (h ▸ hs)]

theorem argsOf_sub (l : List (Option (AST × AST))) :
    argsOf (l.map (Option.map fun e => (e.1, subAst x v e.2))) = (argsOf l).map (subParam x v) := by
  rw [argsOf, argsOf, allSome_ren]
  cases allSome l with
  | none => rfl
  | some w =>
    simp only [Option.map_some, subParam, subAsts_eq, subOpts_eq, positional_map]
    rw [← optionsFrom_map]
    rfl

theorem listOf_sub (l : List (Option AST)) :
    listOf (l.map (Option.map (subAst x v))) = (listOf l).map (subAst x v) := by
  rw [listOf, listOf, allSome_ren]
  cases allSome l <;> simp [subAst, subParams, subParam, subAsts_eq, subOpts]

theorem indexBy_sub (l : List (Option AST)) (a : AST) :
    indexBy (l.map (Option.map (subAst x v))) (subAst x v a) = (indexBy l a).map (subAst x v) := by
  rw [indexBy, indexBy, allSome_ren]
  cases allSome l <;> simp [subAst, subParams, subParam, subAsts, subAsts_eq, subOpts]

theorem callOf_sub (p : Str) (l : List (Option Param)) :
    callOf p (l.map (Option.map (subParam x v))) = (callOf p l).map (subAst x v) := by
  rw [callOf, callOf, allSome_ren]
  cases allSome l <;> simp [subAst, subParams_eq]

theorem orDefault_sub {a : AST} (ha : subAst x v a = a) (y : Option (Option AST)) :
    orDefault a (y.map (Option.map (subAst x v))) = (orDefault a y).map (subAst x v) := by
  cases y <;> simp [orDefault, ha]

theorem spanOf_sub (hx : x ∉ madeNames) (a b c : Option (Option AST)) :
    spanOf (a.map (Option.map (subAst x v))) (b.map (Option.map (subAst x v))) (c.map (Option.map (subAst x v))) =
      (spanOf a b c).map (subAst x v) := by
  have h1 : subAst x v (.integer 1) = .integer 1 := by rw [subAst]
  have h2 : subAst x v (.mkSymbol c!"std::core::All") = .mkSymbol c!"std::core::All" := sub_made hx (by decide)
  rw [spanOf, spanOf, orDefault_sub h1, orDefault_sub h2, orDefault_sub h1]
  cases orDefault (.integer 1) a <;> simp
  cases orDefault (.mkSymbol c!"std::core::All") b <;> simp
  cases orDefault (.integer 1) c <;> simp [subAst, subParams, subParam, subAsts, subOpts]

theorem sufApply_sub (y : Str) (a : AST) : sufApply y (subAst x v a) = (sufApply y a).map (subAst x v) := by
  unfold sufApply
  by_cases h : y = c!"!"
  · simp [h, subAst, subParams, subParam, subAsts, subOpts]
  · by_cases h' : y = c!"!!" <;> simp [h, h', subAst, subParams, subParam, subAsts, subOpts]

theorem preFold_sub (ps : List Pre) (a : AST) : preFold ps (subAst x v a) = (preFold ps a).map (subAst x v) := by
  induction ps with
  | nil => rfl
  | cons p ps ih =>
    rw [preFold, preFold, ih]
    cases preFold ps a with
    | none => rfl
    | some b => cases p <;> simp [Pre.apply, subAst, subParams, subParam, subAsts, subOpts]

theorem dotApply_sub (a b : AST) (hb : b ≠ .mkSymbol x) :
    dotApply (subAst x v a) (subAst x v b) = (dotApply a b).map (subAst x v) := by
  cases b with
  | function s ps =>
    cases ps with
    | nil => simp [subAst, subParams, dotApply]
    | cons p ps => obtain ⟨xs, kw, q⟩ := p; simp [subAst, subParams, subParam, subAsts, dotApply]
  | symbol s =>
    have : s ≠ Sym.ofStr x := fun h => hb (by rw [h, AST.mkSymbol])
    simp [subAst, subParams, subParam, subAsts, subOpts, dotApply, this]
  | _ => simp [subAst, subParams, subParam, subAsts, subOpts, dotApply]

/-- The operand of a dot is not the variable. -/
def DotFree (x : Str) : OpTree (Option AST) Op → Prop
  | .leaf _ => True
  | .node l o r => DotFree x l ∧ DotFree x r ∧ (o = .dot → ∃ y, r = .leaf y ∧ y ≠ some (.mkSymbol x))

theorem dotFree_attach (o : Op) (y : Option AST) (h : o = .dot → y ≠ some (.mkSymbol x)) :
    ∀ t : OpTree (Option AST) Op, DotFree x t → DotFree x (attach o y t)
  | .leaf z, _ => ⟨trivial, trivial, fun e => ⟨y, rfl, h e⟩⟩
  | .node l p r, ht => by
    rw [attach]
    split
    · rename_i hr
      refine ⟨ht.1, dotFree_attach o y h r ht.2.1, fun e => ?_⟩
      subst e
      exact absurd hr (by cases o <;> decide)
    · exact ⟨ht, trivial, fun e => ⟨y, rfl, h e⟩⟩

theorem dotFree_group (y : Option AST) (l : List (Op × Option AST)) (h : ∀ e ∈ l, e.1 = .dot → e.2 ≠ some (.mkSymbol x)) :
    DotFree x (group y l) := by
  have : ∀ t : OpTree (Option AST) Op, DotFree x t → DotFree x (l.foldl (fun t s => attach s.1 s.2 t) t) := by
    induction l with
    | nil => exact fun t ht => ht
    | cons e l ih =>
      intro t ht
      exact ih (fun e' he' => h e' (List.mem_cons_of_mem _ he')) _ (dotFree_attach e.1 e.2 (h e (by simp)) t ht)
  exact this _ trivial

theorem evalTree_sub (t : OpTree (Option AST) Op) (ht : DotFree x t) :
    evalTree id Op.apply (treeMap (Option.map (subAst x v)) t) = (evalTree id Op.apply t).map (subAst x v) := by
  induction t with
  | leaf y => rfl
  | node a o b h1 h2 =>
    rw [treeMap, evalTree, evalTree, h1 ht.1, h2 ht.2.1]
    cases ha : evalTree id Op.apply a <;> cases hb : evalTree id Op.apply b <;> simp
    cases o <;> first
      | (obtain ⟨y, rfl, hy⟩ := ht.2.2 rfl
         exact dotApply_sub _ _ fun e => hy (by rw [← e, ← hb]; rfl))
      | simp [Op.apply, Op.sym, subAst, subParams, subParam, subAsts, subOpts]

theorem stepsAway_dot : ∀ l : List SStep, stepsAway x l →
    ∀ e ∈ stepsValue l, e.1 = .dot → e.2 ≠ some (.mkSymbol x)
  | [], _, e, he => by simp [stepsValue] at he
  | .mk wb t wa y :: l, h, e, he => by
    rw [stepsAway, SStep.Away] at h
    cases t with
    | op o =>
      simp only [stepsValue, List.mem_cons] at he
      rcases he with rfl | he
      · exact fun e => h.1.2 (by rw [show o = Op.dot from e])
      · exact stepsAway_dot l h.2 e he
    | _ => simp [stepsValue] at he

theorem SFactor.sub_value (f : SFactor) (h : ∀ p, f = .sym p → p.text ≠ x) : subAst x v f.value = f.value := by
  cases f with
  | int n => simp [SFactor.value, subAst]
  | sym p => rw [SFactor.value, subAst_symbol, if_neg (h p rfl)]

theorem SAtom.sub_value (hx : x ∉ madeNames) (hv : e0.value = some v) (a : SAtom) (ha : a.Away x) :
    (a.sub x e0).value = a.value.map (subAst x v) := by
  have s3 : subAst x v (.mkSymbol c!"std::constant:Null") = .mkSymbol c!"std::constant:Null" := sub_made hx (by decide)
  cases a with
  | prod f m l =>
    have h : l.map (fun m => subAst x v m.2.value) = l.map fun m => m.2.value :=
      List.map_congr_left fun m hm => m.2.sub_value fun p e => ha p (by
        simp only [List.mem_cons, List.mem_map]; exact .inr (.inr ⟨m, hm, e⟩))
    have h1 := f.sub_value (v := v) fun p e => ha p (by simp [e])
    have h2 := m.2.sub_value (v := v) fun p e => ha p (by simp [e])
    simp [SAtom.sub, SNode.value, SAtom.value, subAst, subParams, subParam, subAsts, subOpts, subAsts_eq, h1, h2, h,
      Function.comp_def]
  | sym p =>
    rw [SAtom.sub, SAtom.value, Option.map_some, subAst_symbol]
    split
    · rw [SNode.value, hv]
    · rw [SNode.value, SAtom.value]
  | radix q k d ds => simp only [SAtom.sub, SNode.value, SAtom.value]; split <;> simp [subAst]
  | null => simp [SAtom.sub, SNode.value, SAtom.value, s3]
  | back out n => simp [SAtom.sub, SNode.value, SAtom.value, replValue, subAst, subParams, subParam, subAsts, subOpts]
  | nth out n => simp [SAtom.sub, SNode.value, SAtom.value, replValue, subAst, subParams, subParam, subAsts, subOpts]
  | _ => simp [SAtom.sub, SNode.value, SAtom.value, subAst, subParams, subParam, subAsts, subOpts]

mutual
theorem SNode.sub_value (hx : x ∉ madeNames) (hv : e0.value = some v) :
    ∀ n : SNode, n.Away x → (n.sub x e0).value = n.value.map (subAst x v)
  | .atom a, h => by
    rw [SNode.Away] at h
    rw [SNode.sub, SNode.value, a.sub_value hx hv h]
  | .paren e _, h => by
    rw [SNode.Away] at h
    rw [SNode.sub, SNode.value, SNode.value, e.sub_value hx hv h]
  | .nil _, _ => by rw [SNode.sub, SNode.value]; exact listOf_sub []
  | .list i l _, h => by
    rw [SNode.Away] at h
    rw [SNode.sub, SNode.value, SNode.value, i.sub_value hx hv h.1, itemsSub_value hx hv l h.2, ← listOf_sub,
      List.map_cons]
  | .call p a l, h => by
    rw [SNode.Away] at h
    rw [SNode.sub, SNode.value, SNode.value, a.sub_value hx hv h.1, argsSub_value hx hv l h.2, ← callOf_sub,
      List.map_cons]
  | .deriv p k a, _ => by rw [SNode.sub, SNode.value, SNode.value]; rfl
  | .dictNil _, _ => by rw [SNode.sub, SNode.value]; rfl
  | .dict i l _, _ => by rw [SNode.sub, SNode.value, SNode.value]; rfl
  | .mixed f m l, _ => by rw [SNode.sub, SNode.value, SNode.value]; rfl
termination_by structural n => n
theorem SItem.sub_value (hx : x ∉ madeNames) (hv : e0.value = some v) :
    ∀ i : SItem, i.Away x → (i.sub x e0).value = i.value.map (subAst x v)
  | .mk _ _ c _, h => by
    rw [SItem.Away] at h
    rw [SItem.sub, SItem.value, SItem.value, c.sub_value hx hv h]
termination_by structural i => i
theorem SItem.sub_arg (hx : x ∉ madeNames) (hv : e0.value = some v) :
    ∀ i : SItem, i.Away x → (i.sub x e0).arg = i.arg.map fun e => (e.1, subAst x v e.2)
  | .mk _ _ c _, h => by
    rw [SItem.Away] at h
    rw [SItem.sub, SItem.arg, SItem.arg, c.sub_arg hx hv h]
termination_by structural i => i
theorem itemsSub_value (hx : x ∉ madeNames) (hv : e0.value = some v) : ∀ l : List SItem, itemsAway x l →
    itemsValue (itemsSub x e0 l) = (itemsValue l).map (Option.map (subAst x v))
  | [], _ => by rw [itemsSub, itemsValue]; rfl
  | i :: l, h => by
    rw [itemsAway] at h
    rw [itemsSub, itemsValue, itemsValue, i.sub_value hx hv h.1, itemsSub_value hx hv l h.2]; rfl
termination_by structural l => l
theorem itemsSub_arg (hx : x ∉ madeNames) (hv : e0.value = some v) : ∀ l : List SItem, itemsAway x l →
    itemsArg (itemsSub x e0 l) = (itemsArg l).map (Option.map fun e => (e.1, subAst x v e.2))
  | [], _ => by rw [itemsSub, itemsArg]; rfl
  | i :: l, h => by
    rw [itemsAway] at h
    rw [itemsSub, itemsArg, itemsArg, i.sub_arg hx hv h.1, itemsSub_arg hx hv l h.2]; rfl
termination_by structural l => l
theorem SContent.sub_value (hx : x ∉ madeNames) (hv : e0.value = some v) :
    ∀ c : SContent, c.Away x → (c.sub x e0).value = c.value.map (subAst x v)
  | .expr e, h => by
    rw [SContent.Away] at h
    rw [SContent.sub, SContent.value, SContent.value, e.sub_value hx hv h]
  | .named k _ _ _ e, _ => by rw [SContent.sub, SContent.value, SContent.value]; rfl
  | .span2 s _ e, h => by
    rw [SContent.Away] at h
    rw [SContent.sub, SContent.value, SContent.value, s.sub_value hx hv h.1, e.sub_value hx hv h.2, ← spanOf_sub hx]; rfl
  | .span3 s _ _ e _ t, h => by
    rw [SContent.Away] at h
    rw [SContent.sub, SContent.value, SContent.value, s.sub_value hx hv h.1, e.sub_value hx hv h.2.1,
      t.sub_value hx hv h.2.2, ← spanOf_sub hx]
  | .pair k _ _ _ e, _ => by rw [SContent.sub, SContent.value, SContent.value]; rfl
termination_by structural c => c
theorem SContent.sub_arg (hx : x ∉ madeNames) (hv : e0.value = some v) :
    ∀ c : SContent, c.Away x → (c.sub x e0).arg = c.arg.map fun e => (e.1, subAst x v e.2)
  | .expr e, h => by
    rw [SContent.Away] at h
    rw [SContent.sub, SContent.arg, SContent.arg, e.sub_value hx hv h, posArg, posArg]
    cases e.value <;> rfl
  | .named k _ _ _ e, h => by
    rw [SContent.Away] at h
    rw [SContent.sub, SContent.arg, SContent.arg, e.sub_value hx hv h, namedArg, namedArg]
    cases e.value <;> rfl
  | .span2 s _ e, _ => by rw [SContent.sub, SContent.arg, SContent.arg]; rfl
  | .span3 s _ _ e _ t, _ => by rw [SContent.sub, SContent.arg, SContent.arg]; rfl
  | .pair k _ _ _ e, _ => by rw [SContent.sub, SContent.arg, SContent.arg]; rfl
termination_by structural c => c
theorem SPart.sub_value (hx : x ∉ madeNames) (hv : e0.value = some v) :
    ∀ p : SPart, p.Away x → (p.sub x e0).value = p.value.map (Option.map (subAst x v))
  | .none, _ => by rw [SPart.sub, SPart.value]; rfl
  | .some e _, h => by
    rw [SPart.Away] at h
    rw [SPart.sub, SPart.value, SPart.value, e.sub_value hx hv h]; rfl
termination_by structural p => p
theorem SLast.sub_value (hx : x ∉ madeNames) (hv : e0.value = some v) :
    ∀ p : SLast, p.Away x → (p.sub x e0).value = p.value.map (Option.map (subAst x v))
  | .none, _ => by rw [SLast.sub, SLast.value]; rfl
  | .some _ e, h => by
    rw [SLast.Away] at h
    rw [SLast.sub, SLast.value, SLast.value, e.sub_value hx hv h]; rfl
termination_by structural p => p
theorem SArgs.sub_value (hx : x ∉ madeNames) (hv : e0.value = some v) :
    ∀ a : SArgs, a.Away x → (a.sub x e0).value = a.value.map (subParam x v)
  | .some _ i l _, h => by
    rw [SArgs.Away] at h
    rw [SArgs.sub, SArgs.value, SArgs.value, i.sub_arg hx hv h.1, itemsSub_arg hx hv l h.2, ← argsOf_sub, List.map_cons]
  | .none _ _ l _, h => by
    rw [SArgs.Away] at h
    rw [SArgs.sub, SArgs.value, SArgs.value, itemsSub_arg hx hv l h, ← argsOf_sub]
termination_by structural a => a
theorem argsSub_value (hx : x ∉ madeNames) (hv : e0.value = some v) : ∀ l : List SArgs, argsAway x l →
    argsValue (argsSub x e0 l) = (argsValue l).map (Option.map (subParam x v))
  | [], _ => by rw [argsSub, argsValue]; rfl
  | a :: l, h => by
    rw [argsAway] at h
    rw [argsSub, argsValue, argsValue, a.sub_value hx hv h.1, argsSub_value hx hv l h.2]; rfl
termination_by structural l => l
theorem SSuf.sub_apply (hx : x ∉ madeNames) (hv : e0.value = some v) : ∀ (s : SSuf) (_ : s.Away x) (a : AST),
    (s.sub x e0).apply (subAst x v a) = (s.apply a).map (subAst x v)
  | .op y, _, a => by rw [SSuf.sub, SSuf.apply]; exact sufApply_sub y a
  | .slice _ i l _, h, a => by
    rw [SSuf.Away] at h
    rw [SSuf.sub, SSuf.apply, SSuf.apply, i.sub_value hx hv h.1, itemsSub_value hx hv l h.2, ← indexBy_sub,
      List.map_cons]
termination_by structural s => s
theorem sufsSub_apply (hx : x ∉ madeNames) (hv : e0.value = some v) : ∀ (l : List SSuf) (_ : sufsAway x l) (a : AST),
    sufsApply (sufsSub x e0 l) (subAst x v a) = (sufsApply l a).map (subAst x v)
  | [], _, a => by rw [sufsSub, sufsApply, sufsApply]; rfl
  | s :: l, h, a => by
    rw [sufsAway] at h
    rw [sufsSub, sufsApply, sufsApply, s.sub_apply hx hv h.1]
    cases s.apply a with
    | none => rfl
    | some b => exact sufsSub_apply hx hv l h.2 b
termination_by structural l => l
theorem STerm.sub_value (hx : x ∉ madeNames) (hv : e0.value = some v) :
    ∀ t : STerm, t.Away x → (t.sub x e0).value = t.value.map (subAst x v)
  | .mk ps n l, h => by
    rw [STerm.Away] at h
    rw [STerm.sub, STerm.value, STerm.value, n.sub_value hx hv h.1]
    cases n.value with
    | none => rfl
    | some a =>
      simp only [Option.map_some, Option.bind_some]
      rw [sufsSub_apply hx hv l h.2]
      cases sufsApply l a with
      | none => rfl
      | some b => exact preFold_sub ps b
termination_by structural t => t
theorem SStep.sub_value (hx : x ∉ madeNames) (hv : e0.value = some v) : ∀ (s : SStep) (_ : s.Away x) (l l' : List SStep),
    stepsValue l = (stepsValue l').map (fun e => (e.1, e.2.map (subAst x v))) →
    stepsValue (s.sub x e0 :: l) = (stepsValue (s :: l')).map fun e => (e.1, e.2.map (subAst x v))
  | .mk _ t _ y, ha, l, l', h => by
    rw [SStep.Away] at ha
    have := y.sub_value hx hv ha.1
    rw [SStep.sub]
    cases t <;> simp [stepsValue, this, h]
termination_by structural s => s
theorem stepsSub_value (hx : x ∉ madeNames) (hv : e0.value = some v) : ∀ l : List SStep, stepsAway x l →
    stepsValue (stepsSub x e0 l) = (stepsValue l).map fun e => (e.1, e.2.map (subAst x v))
  | [], _ => by rw [stepsSub, stepsValue]; rfl
  | s :: l, h => by
    rw [stepsAway] at h
    rw [stepsSub, s.sub_value hx hv h.1 _ l (stepsSub_value hx hv l h.2)]
termination_by structural l => l
/-- What an expression means after replacing is what it means, with the value in place of the variable. -/
theorem SExpr.sub_value (hx : x ∉ madeNames) (hv : e0.value = some v) :
    ∀ e : SExpr, e.Away x → (SExpr.sub x e0 e).value = e.value.map (subAst x v)
  | .mk t l, h => by
    rw [SExpr.Away] at h
    have hl := stepsAway_dot l h.2
    rw [SExpr.sub, SExpr.value, SExpr.value, t.sub_value hx hv h.1, stepsSub_value hx hv l h.2,
      ← evalTree_sub _ (dotFree_group _ _ hl), ← group_treeMap]
termination_by structural e => e
end
end

/-! ### The theorems -/

/-- The answer with `v` for the variable `x`. -/
def subR (x : Str) (v : AST) : SMResult AST → SMResult AST
  | .ok a => .ok (subAst x v a)
  | .err e => .err e
  | .panic => .panic

/-- **C85**.  A variable may be replaced by an expression in parentheses: what is read is what was read before, with
the tree of the expression in place of the variable.  The variable must not be a factor of a product without sign, nor
stand alone after a dot. -/
theorem C85_substitution (L : Lawful u) {x : Str} (hx : x ∉ madeNames) (c c' c0 : Cfg) (e e0 : SExpr) {v : AST}
    (h : e.Ok u) (h0 : e0.Ok u) (h' : (SExpr.sub x e0 e).Ok u) (ha : e.Away x) (hn : Wordless e.text)
    (hn0 : Wordless e0.text) (hn' : Wordless (SExpr.sub x e0 e).text) (hc : c.input = e.text) (hc0 : c0.input = e0.text)
    (hc' : c'.input = (SExpr.sub x e0 e).text) (hv : eraseR (parseText u c0) = .ok v) :
    eraseR (parseText u c') = subR x v (eraseR (parseText u c)) := by
  rw [C53_expressions L c0 e0 h0 hn0 (w := []) (w' := []) blank_nil blank_nil (by simp [hc0])] at hv
  have hv' : e0.value = some v := by
    cases h1 : e0.value with
    | none => rw [h1] at hv; cases hv
    | some a => rw [h1] at hv; cases hv; rfl
  rw [C53_expressions L c e h hn (w := []) (w' := []) blank_nil blank_nil (by simp [hc]),
    C53_expressions L c' _ h' hn' (w := []) (w' := []) blank_nil blank_nil (by simp [hc']), SExpr.sub_value hx hv' e ha]
  cases e.value <;> rfl

/-- `a.t` for a term `t`. -/
def dotted (a : Path) (n : SNode) : SExpr := .mk (.mk [] (.atom (.sym a)) []) [.mk [] (.op .dot) [] (.mk [] n [])]

/-- `m+n` for numbers. -/
def sumOf (m n : Nat) : SExpr := .mk (.mk [] (.atom (.int m)) []) [.mk [] (.op .plus) [] (.mk [] (.atom (.int n)) [])]

theorem dotted_ok {a : Path} (ha : a.Ok u) (hf : a.Free) {n : SNode} (hn : n.Ok u) : (dotted a n).Ok u := by
  simp only [dotted, SExpr.Ok, STerm.Ok, SufsOk, StepsOk]
  refine ⟨⟨?_, trivial⟩, ?_, blank_nil, blank_nil, fun h => absurd (Tok.op.inj h) (by decide), ⟨hn, trivial⟩, trivial⟩
  · rw [SNode.Ok]; exact ⟨ha, hf⟩
  · intro h; simp [STerm.num, SNode.num, SAtom.num] at h

theorem sumOf_ok (m n : Nat) : (sumOf m n).Ok u := by
  simp only [sumOf, SNode.Ok, SExpr.Ok, STerm.Ok, SufsOk, StepsOk, SAtom.Ok]
  exact ⟨⟨trivial, trivial⟩, (fun _ _ h => nomatch h), blank_nil, blank_nil, (fun h => nomatch h), ⟨trivial, trivial⟩,
    trivial⟩

theorem loneTerm_value (n : SNode) : (STerm.mk [] n []).value = n.value := by
  rw [STerm.value]
  cases n.value <;> simp [sufsApply, preFold]

/-- **C85** (violation).  After a dot this fails: `a.x` is the call `x(a)`, and `a.(m+n)` is the sum of three. -/
theorem C85_after_dot (L : Lawful u) (c : Cfg) {a : Path} (ha : a.Ok u) (hf : a.Free) (hn : Wordless c.input) :
    (∀ x : Path, x.Ok u → x.Free → c.input = a.text ++ '.' :: x.text →
      eraseR (parseText u c) = .ok (.function (Sym.ofStr x.text) [.mk [.mkSymbol a.text] [] noPos])) ∧
    ∀ m n : Nat, c.input = a.text ++ ('.' :: '(' :: (numeral m ++ '+' :: (numeral n ++ [')']))) →
      eraseR (parseText u c) = .ok (.function ⟨[c!"std", c!"infix"], c!"add", .infix c!"+" 80, 0⟩
        [.mk [.mkSymbol a.text, .integer m, .integer n] [] noPos]) := by
  constructor
  · intro x hx hxf hc
    have ht : (dotted a (.atom (.sym x))).text = c.input := by
      rw [hc]; simp [dotted, SExpr.text, STerm.text, SNode.text, SAtom.text, sufsText, stepsText, SStep.text, Tok.char]
    rw [C53_expressions L c _ (dotted_ok ha hf (by rw [SNode.Ok]; exact ⟨hx, hxf⟩)) (ht ▸ hn) (w := []) (w' := [])
      blank_nil blank_nil (by simp [ht])]
    simp [dotted, SExpr.value, loneTerm_value, stepsValue, SNode.value, SAtom.value, group, attach, evalTree, Op.apply,
      dotApply, AST.mkSymbol, answer]
  · intro m n hc
    have ht : (dotted a (.paren (sumOf m n) [])).text = c.input := by
      rw [hc]; simp [dotted, sumOf, SExpr.text, STerm.text, SNode.text, SAtom.text, sufsText, stepsText, SStep.text,
        Tok.char]
    rw [C53_expressions L c _ (dotted_ok ha hf (by rw [SNode.Ok]; exact ⟨sumOf_ok m n, blank_nil, .inr rfl⟩)) (ht ▸ hn)
      (w := []) (w' := []) blank_nil blank_nil (by simp [ht])]
    simp [dotted, sumOf, SExpr.value, loneTerm_value, stepsValue, SNode.value, SAtom.value, group, attach, evalTree,
      Op.apply, dotApply, AST.mkSymbol, answer, Op.sym, Op.name, Op.text]

/-- `2^x-x`. -/
def powMinus (x : Path) : SExpr :=
  .mk (.mk [] (.atom (.int 2)) []) [.mk [] (.op .caret) [] (.mk [] (.atom (.sym x)) []),
    .mk [] (.op .minus) [] (.mk [] (.atom (.sym x)) [])]

/-- `2^(1+2)-(1+2)`. -/
example : eraseR (parseText asciiUni ⟨[], c!"2^(1+2)-(1+2)", []⟩) =
    subR c!"x" (.function ⟨[c!"std", c!"infix"], c!"add", .infix c!"+" 80, 0⟩ [.mk [.integer 1, .integer 2] [] noPos])
      (eraseR (parseText asciiUni ⟨[], c!"2^x-x", []⟩)) := by
  have ix : IsIdent asciiUni c!"x" := .inl ⟨'x', [], rfl, by decide, by decide⟩
  have hp : Path.Ok asciiUni ⟨c!"x", []⟩ := ⟨ix, by simp⟩
  have hf : Path.Free ⟨c!"x", []⟩ := by unfold Path.Free; decide
  refine C85_substitution lawful_asciiUni (by decide) ⟨[], c!"2^x-x", []⟩ _ ⟨[], c!"1+2", []⟩ (powMinus ⟨c!"x", []⟩)
    (sumOf 1 2) ?_ (sumOf_ok 1 2) ?_ ?_ (numeral_wordless 2 _) (numeral_wordless 1 _) (numeral_wordless 2 _) (by decide) (by decide)
    (by decide) ?_
  · simp only [powMinus, SNode.Ok, SExpr.Ok, STerm.Ok, SufsOk, StepsOk, SAtom.Ok]
    exact ⟨⟨trivial, trivial⟩, (fun _ _ h => nomatch h), blank_nil, blank_nil, (fun h => nomatch h), ⟨⟨hp, hf⟩, trivial⟩,
      (fun _ _ h => nomatch h), blank_nil, blank_nil, (fun h => nomatch h), ⟨⟨hp, hf⟩, trivial⟩, trivial⟩
  · have e : (SAtom.sym ⟨c!"x", []⟩).sub c!"x" (sumOf 1 2) = .paren (sumOf 1 2) [] := rfl
    simp only [powMinus, SExpr.sub, STerm.sub, stepsSub, SStep.sub, SNode.sub, sufsSub, e]
    simp only [SNode.Ok, SExpr.Ok, STerm.Ok, SufsOk, StepsOk, SAtom.Ok, SAtom.sub]
    exact ⟨⟨trivial, trivial⟩, (fun _ _ h => nomatch h), blank_nil, blank_nil, (fun h => nomatch h),
      ⟨⟨sumOf_ok 1 2, blank_nil, .inr trivial⟩, trivial⟩, (fun _ _ h => nomatch h), blank_nil, blank_nil,
      (fun h => nomatch h), ⟨⟨sumOf_ok 1 2, blank_nil, .inr trivial⟩, trivial⟩, trivial⟩
  · simp [powMinus, SExpr.Away, STerm.Away, stepsAway, SStep.Away, SNode.Away, SAtom.Away, sufsAway]
  · rw [C53_expressions lawful_asciiUni ⟨[], c!"1+2", []⟩ (sumOf 1 2) (sumOf_ok 1 2) (numeral_wordless 1 _) (w := [])
      (w' := []) blank_nil blank_nil (by decide)]
    rfl

end SM.Props
