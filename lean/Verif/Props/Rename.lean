import Verif.Props.Bare
import Verif.Props.Symbol
import Verif.Eval.Forward
/-
Renaming: how an expression is read does not depend on the names in it.
-/
namespace SM.Props
open SM SM.Peg

variable {u : Uni}

/-! ### Renaming in trees -/

/-- The names that the parser itself puts into expressions. -/
def madeNames : List Str :=
  [c!"std::containers::List", c!"std::core::Span", c!"std::core::All", c!"std::core::Index", c!"std::core::index",
    c!"std::core::slot", c!"std::core::slot_sequence", c!"std::constant:Null", c!"std::repl::input",
    c!"std::repl::output"]

/-- The symbol under another name; operators keep theirs. -/
def renSym (g : Str → Str) (s : Sym) : Sym :=
  match s.kind with
  | .normal => Sym.ofStr (g s.display)
  | _ => s

mutual
/-- The expression with other names for variables and functions.  The names of keyword arguments stay. -/
def renAst (g : Str → Str) : AST → AST
  | .empty => .empty
  | .program l => .program (renAsts g l)
  | .function s ps => .function (renSym g s) (renParams g ps)
  | .boolean b => .boolean b
  | .integer n => .integer n
  | .decimal d => .decimal d
  | .symbol s => .symbol (renSym g s)
  | .string s => .string s
termination_by structural a => a
/-- The same for lists of expressions. -/
def renAsts (g : Str → Str) : List AST → List AST
  | [] => []
  | a :: l => renAst g a :: renAsts g l
termination_by structural a => a
/-- The same for argument lists. -/
def renParams (g : Str → Str) : List Param → List Param
  | [] => []
  | p :: l => renParam g p :: renParams g l
termination_by structural a => a
/-- The same for an argument list. -/
def renParam (g : Str → Str) : Param → Param
  | .mk a o p => .mk (renAsts g a) (renOpts g o) p
termination_by structural a => a
/-- The same for keyword arguments. -/
def renOpts (g : Str → Str) : List (AST × AST) → List (AST × AST)
  | [] => []
  | e :: l => renOpt g e :: renOpts g l
termination_by structural a => a
/-- The same for a keyword argument. -/
def renOpt (g : Str → Str) : AST × AST → AST × AST
  | (k, v) => (k, renAst g v)
termination_by structural a => a
end

theorem renAsts_eq (g : Str → Str) (l : List AST) : renAsts g l = l.map (renAst g) := by
  induction l with
  | nil => simp [renAsts]
  | cons a l ih => simp [renAsts, ih]

theorem renParams_eq (g : Str → Str) (l : List Param) : renParams g l = l.map (renParam g) := by
  induction l with
  | nil => simp [renParams]
  | cons a l ih => simp [renParams, ih]

theorem renOpts_eq (g : Str → Str) (l : List (AST × AST)) : renOpts g l = l.map fun e => (e.1, renAst g e.2) := by
  induction l with
  | nil => simp [renOpts]
  | cons a l ih => obtain ⟨k, v⟩ := a; simp [renOpts, renOpt, ih]

theorem renSym_ofStr (g : Str → Str) (s : Str) : renSym g (Sym.ofStr s) = Sym.ofStr (g s) := by
  rw [renSym]
  show Sym.ofStr (g (Sym.ofStr s).display) = _
  rw [C16_text_round_trip]

/-! ### Renaming in texts -/

/-- Renaming in factors. -/
def SFactor.ren (f : Path → Path) : SFactor → SFactor
  | .int n => .int n
  | .sym p => .sym (f p)

/-- Renaming in names and products. -/
def SAtom.ren (f : Path → Path) : SAtom → SAtom
  | .sym p => .sym (f p)
  | .prod x m l => .prod (x.ren f) (m.1, m.2.ren f) (l.map fun m => (m.1, m.2.ren f))
  | a => a

mutual
/-- Renaming in operands. -/
def SNode.ren (f : Path → Path) : SNode → SNode
  | .atom a => .atom (a.ren f)
  | .paren e w => .paren (e.ren f) w
  | .nil w => .nil w
  | .list i l o => .list (i.ren f) (itemsRen f l) o
  | .call p a l => .call (f p) (a.ren f) (argsRen f l)
  | .deriv p k a => .deriv (f p) k (a.ren f)
  | .dictNil w => .dictNil w
  | .dict i l o => .dict (i.ren f) (itemsRen f l) o
  | .mixed x m l => .mixed (x.ren f) (m.ren f) (mixesRen f l)
termination_by structural n => n
/-- The same for factors. -/
def SFac.ren (f : Path → Path) : SFac → SFac
  | .call p a l => .call (f p) (a.ren f) (argsRen f l)
  | .int n => .int n
  | .sym p => .sym (f p)
  | .dec i x => .dec i x
  | .radix r k d ds => .radix r k d ds
termination_by structural f => f
/-- The same for further factors. -/
def SMix.ren (f : Path → Path) : SMix → SMix
  | .mk h x => .mk h (x.ren f)
termination_by structural m => m
/-- The same for further factors. -/
def mixesRen (f : Path → Path) : List SMix → List SMix
  | [] => []
  | m :: l => m.ren f :: mixesRen f l
termination_by structural l => l
/-- The same for items. -/
def SItem.ren (f : Path → Path) : SItem → SItem
  | .mk b wa c wb => .mk b wa (c.ren f) wb
termination_by structural i => i
/-- The same for lists of items. -/
def itemsRen (f : Path → Path) : List SItem → List SItem
  | [] => []
  | i :: l => i.ren f :: itemsRen f l
termination_by structural l => l
/-- The same for expressions, named arguments, spans, keys with values.  The names of arguments and the keys stay. -/
def SContent.ren (f : Path → Path) : SContent → SContent
  | .expr e => .expr (e.ren f)
  | .named k w1 b w2 e => .named k w1 b w2 (e.ren f)
  | .span2 s b e => .span2 (s.ren f) b (e.ren f)
  | .span3 s b wa e b' t => .span3 (s.ren f) b wa (e.ren f) b' (t.ren f)
  | .pair k w1 b w2 e => .pair k w1 b w2 (e.ren f)
termination_by structural c => c
/-- The same for parts of spans. -/
def SPart.ren (f : Path → Path) : SPart → SPart
  | .none => .none
  | .some e w => .some (e.ren f) w
termination_by structural p => p
/-- The same for last parts of spans. -/
def SLast.ren (f : Path → Path) : SLast → SLast
  | .none => .none
  | .some w e => .some w (e.ren f)
termination_by structural p => p
/-- The same for argument lists. -/
def SArgs.ren (f : Path → Path) : SArgs → SArgs
  | .some h i l o => .some h (i.ren f) (itemsRen f l) o
  | .none h w l o => .none h w (itemsRen f l) o
termination_by structural a => a
/-- The same for lists of argument lists. -/
def argsRen (f : Path → Path) : List SArgs → List SArgs
  | [] => []
  | a :: l => a.ren f :: argsRen f l
termination_by structural l => l
/-- The same for suffixes. -/
def SSuf.ren (f : Path → Path) : SSuf → SSuf
  | .op y => .op y
  | .slice h i l o => .slice h (i.ren f) (itemsRen f l) o
termination_by structural s => s
/-- The same for lists of suffixes. -/
def sufsRen (f : Path → Path) : List SSuf → List SSuf
  | [] => []
  | s :: l => s.ren f :: sufsRen f l
termination_by structural l => l
/-- The same for terms. -/
def STerm.ren (f : Path → Path) : STerm → STerm
  | .mk ps n l => .mk ps (n.ren f) (sufsRen f l)
termination_by structural t => t
/-- The same for operators and operands. -/
def SStep.ren (f : Path → Path) : SStep → SStep
  | .mk wb t wa x => .mk wb t wa (x.ren f)
termination_by structural s => s
/-- The same for lists of operators and operands. -/
def stepsRen (f : Path → Path) : List SStep → List SStep
  | [] => []
  | s :: l => s.ren f :: stepsRen f l
termination_by structural l => l
/-- The expression with other names for variables and functions. -/
def SExpr.ren (f : Path → Path) : SExpr → SExpr
  | .mk t l => .mk (t.ren f) (stepsRen f l)
termination_by structural e => e
end

/-! ### What expressions mean after renaming -/

/-- The renaming `g` of texts leaves the reserved names alone, and the renaming `f` of names renames their texts
like `g`. -/
structure Renames (f : Path → Path) (g : Str → Str) : Prop where
  text : ∀ p, (f p).text = g p.text
  fixed : ∀ s ∈ madeNames, g s = s

theorem Renames.sym {f : Path → Path} {g : Str → Str} (r : Renames f g) {s : Str} (h : s ∈ madeNames) :
    renSym g (Sym.ofStr s) = Sym.ofStr s := by rw [renSym_ofStr, r.fixed s h]

theorem allSome_ren {α : Type} (h : α → α) (l : List (Option α)) :
    allSome (l.map (Option.map h)) = (allSome l).map (List.map h) := by
  induction l with
  | nil => rfl
  | cons a l ih =>
    cases a with
    | none => simp [allSome]
    | some a =>
      simp only [List.map_cons, Option.map_some, allSome, ih]
      cases allSome l <;> rfl

theorem opts_insert_map (h : AST → AST) (k v : AST) (m : List (AST × AST)) :
    (BMap.insert astCmp k v m).map (fun e => (e.1, h e.2)) =
      BMap.insert astCmp k (h v) (m.map fun e => (e.1, h e.2)) := by
  induction m with
  | nil => rfl
  | cons e m ih =>
    obtain ⟨k', v'⟩ := e
    rw [BMap.insert, List.map_cons, BMap.insert]
    cases astCmp k k' <;> simp [ih]

theorem positional_map (h : AST → AST) (l : List (AST × AST)) :
    positional (l.map fun e => (e.1, h e.2)) = (positional l).map h := by
  induction l with
  | nil => rfl
  | cons e l ih => obtain ⟨k, v⟩ := e; cases k <;> simp [positional, ih]

theorem optionsFrom_map (h : AST → AST) (l : List (AST × AST)) (m : BMap AST AST) :
    optionsFrom (l.map fun e => (e.1, h e.2)) (m.map fun e => (e.1, h e.2)) =
      (optionsFrom l m).map fun e => (e.1, h e.2) := by
  induction l generalizing m with
  | nil => rfl
  | cons e l ih =>
    obtain ⟨k, v⟩ := e
    cases k <;> simp only [List.map_cons, optionsFrom, ← opts_insert_map] <;> exact ih _

section
variable {f : Path → Path} {g : Str → Str}

theorem argsOf_ren (l : List (Option (AST × AST))) :
    argsOf (l.map (Option.map fun e => (e.1, renAst g e.2))) = (argsOf l).map (renParam g) := by
  rw [argsOf, argsOf, allSome_ren]
  cases allSome l with
  | none => rfl
  | some v =>
    simp only [Option.map_some, renParam, renAsts_eq, renOpts_eq, positional_map]
    rw [← optionsFrom_map]
    rfl

theorem listOf_ren (r : Renames f g) (l : List (Option AST)) :
    listOf (l.map (Option.map (renAst g))) = (listOf l).map (renAst g) := by
  rw [listOf, listOf, allSome_ren]
  cases allSome l with
  | none => rfl
  | some v => simp [renAst, renParams, renParam, renAsts_eq, renOpts, r.sym (s := c!"std::containers::List") (by decide)]

theorem indexBy_ren (r : Renames f g) (l : List (Option AST)) (a : AST) :
    indexBy (l.map (Option.map (renAst g))) (renAst g a) = (indexBy l a).map (renAst g) := by
  rw [indexBy, indexBy, allSome_ren]
  cases allSome l with
  | none => rfl
  | some v =>
    simp [renAst, renParams, renParam, renAsts, renAsts_eq, renOpts, r.sym (s := c!"std::core::Index") (by decide)]

theorem callOf_ren (r : Renames f g) (p : Path) (l : List (Option Param)) :
    callOf (f p).text (l.map (Option.map (renParam g))) = (callOf p.text l).map (renAst g) := by
  rw [callOf, callOf, allSome_ren, r.text]
  cases allSome l with
  | none => rfl
  | some v => simp [renAst, renParams_eq, renSym_ofStr]

theorem orDefault_ren {a : AST} (ha : renAst g a = a) (x : Option (Option AST)) :
    orDefault a (x.map (Option.map (renAst g))) = (orDefault a x).map (renAst g) := by
  cases x <;> simp [orDefault, ha]

theorem spanOf_ren (r : Renames f g) (a b c : Option (Option AST)) :
    spanOf (a.map (Option.map (renAst g))) (b.map (Option.map (renAst g))) (c.map (Option.map (renAst g))) =
      (spanOf a b c).map (renAst g) := by
  have h1 : renAst g (.integer 1) = .integer 1 := by rw [renAst]
  have h2 : renAst g (.mkSymbol c!"std::core::All") = .mkSymbol c!"std::core::All" := by
    rw [AST.mkSymbol, renAst, r.sym (by decide)]
  have h3 := r.sym (s := c!"std::core::Span") (by decide)
  rw [spanOf, spanOf, orDefault_ren h1, orDefault_ren h2, orDefault_ren h1]
  cases orDefault (.integer 1) a <;> simp
  cases orDefault (.mkSymbol c!"std::core::All") b <;> simp
  cases orDefault (.integer 1) c <;> simp [renAst, renParams, renParam, renAsts, renOpts, h3]

theorem sufApply_ren (y : Str) (a : AST) : sufApply y (renAst g a) = (sufApply y a).map (renAst g) := by
  unfold sufApply
  by_cases h : y = c!"!"
  · simp [h, renAst, renParams, renParam, renAsts, renOpts, renSym]
  · by_cases h' : y = c!"!!" <;> simp [h, h', renAst, renParams, renParam, renAsts, renOpts, renSym]

theorem preApply_ren (p : Pre) (a : AST) : p.apply (renAst g a) = (p.apply a).map (renAst g) := by
  cases p <;> simp [Pre.apply, renAst, renParams, renParam, renAsts, renOpts, renSym]

theorem preFold_ren (ps : List Pre) (a : AST) : preFold ps (renAst g a) = (preFold ps a).map (renAst g) := by
  induction ps with
  | nil => rfl
  | cons p ps ih =>
    rw [preFold, preFold, ih]
    cases preFold ps a with
    | none => rfl
    | some b => exact preApply_ren p b

theorem dotApply_ren (r : Renames f g) (a b : AST) :
    dotApply (renAst g a) (renAst g b) = (dotApply a b).map (renAst g) := by
  cases b with
  | function s ps =>
    cases ps with
    | nil => simp [renAst, renParams, dotApply]
    | cons p ps => obtain ⟨xs, kw, q⟩ := p; simp [renAst, renParams, renParam, renAsts, dotApply]
  | symbol s => simp [renAst, renParams, renParam, renAsts, renOpts, dotApply]
  | integer n =>
    have e : Sym.ofStr c!"std::core::index" = ⟨[c!"std", c!"core"], c!"index", .normal, 0⟩ := by decide
    have := r.sym (s := c!"std::core::index") (by decide)
    rw [e] at this
    simp [renAst, renParams, renParam, renAsts, renOpts, dotApply, this]
  | _ => simp [renAst, dotApply]

theorem opApply_ren (r : Renames f g) (a : AST) (o : Op) (b : AST) :
    Op.apply (renAst g a) o (renAst g b) = (Op.apply a o b).map (renAst g) := by
  cases o <;> first
    | exact dotApply_ren r a b
    | simp [Op.apply, Op.sym, renAst, renParams, renParam, renAsts, renOpts, renSym]

/-- The same tree over other operands. -/
def treeMap {ι ι' : Type} (h : ι → ι') : OpTree ι Op → OpTree ι' Op
  | .leaf x => .leaf (h x)
  | .node l o r => .node (treeMap h l) o (treeMap h r)

theorem attach_treeMap {ι ι' : Type} (h : ι → ι') (o : Op) (x : ι) (t : OpTree ι Op) :
    attach o (h x) (treeMap h t) = treeMap h (attach o x t) := by
  induction t with
  | leaf y => rfl
  | node l p r _ ih =>
    rw [treeMap, attach, attach]
    split
    · rw [treeMap, ih]
    · rfl

theorem group_treeMap {ι ι' : Type} (h : ι → ι') (x : ι) (l : List (Op × ι)) :
    group (h x) (l.map fun e => (e.1, h e.2)) = treeMap h (group x l) := by
  have : ∀ t : OpTree ι Op, (l.map fun e => (e.1, h e.2)).foldl (fun t s => attach s.1 s.2 t) (treeMap h t) =
      treeMap h (l.foldl (fun t s => attach s.1 s.2 t) t) := by
    induction l with
    | nil => exact fun t => rfl
    | cons e l ih =>
      intro t
      rw [List.map_cons, List.foldl_cons, List.foldl_cons, ← ih, ← attach_treeMap]
  exact this (.leaf x)

theorem evalTree_ren (r : Renames f g) (t : OpTree (Option AST) Op) :
    evalTree id Op.apply (treeMap (Option.map (renAst g)) t) = (evalTree id Op.apply t).map (renAst g) := by
  induction t with
  | leaf x => rfl
  | node a o b h1 h2 =>
    rw [treeMap, evalTree, evalTree, h1, h2]
    cases evalTree id Op.apply a <;> cases evalTree id Op.apply b <;> simp [opApply_ren r]

theorem SFactor.ren_value (r : Renames f g) (x : SFactor) : (x.ren f).value = renAst g x.value := by
  cases x <;> simp [SFactor.ren, SFactor.value, renAst, AST.mkSymbol, renSym_ofStr, r.text]

theorem SAtom.ren_value (r : Renames f g) (a : SAtom) : (a.ren f).value = a.value.map (renAst g) := by
  have s1 := r.sym (s := c!"std::core::slot") (by decide)
  have s2 := r.sym (s := c!"std::core::slot_sequence") (by decide)
  have s3 := r.sym (s := c!"std::constant:Null") (by decide)
  have s4 := r.sym (s := c!"std::repl::input") (by decide)
  have s5 := r.sym (s := c!"std::repl::output") (by decide)
  have repl : ∀ out i, renAst g (replValue out i) = replValue out i := by
    intro out i
    cases out <;> simp [replValue, renAst, renParams, renParam, renAsts, renOpts, s4, s5]
  cases a with
  | prod x m l =>
    have h : (l.map fun m => (m.1, m.2.ren f)).map (fun m : Str × SFactor => m.2.value) =
        (l.map fun m => m.2.value).map (renAst g) := by
      simp [SFactor.ren_value r]
    simp only [SAtom.ren, SAtom.value, Option.map_some, renAst, renParams, renParam, renAsts, renOpts, renAsts_eq,
      SFactor.ren_value r, h]
    rfl
  | sym p => simp [SAtom.ren, SAtom.value, renAst, AST.mkSymbol, renSym_ofStr, r.text]
  | back out n => simp [SAtom.ren, SAtom.value, repl]
  | nth out n => simp [SAtom.ren, SAtom.value, repl]
  | radix q k d ds => simp only [SAtom.ren, SAtom.value]; split <;> simp [renAst]
  | _ => simp [SAtom.ren, SAtom.value, renAst, renParams, renParam, renAsts, renOpts, AST.mkSymbol, s1, s2, s3]

mutual
theorem SNode.ren_value (r : Renames f g) : ∀ n : SNode, (n.ren f).value = n.value.map (renAst g)
  | .atom a => by rw [SNode.ren, SNode.value, SNode.value, a.ren_value r]
  | .paren e _ => by rw [SNode.ren, SNode.value, SNode.value, e.ren_value r]
  | .nil _ => by rw [SNode.ren, SNode.value]; exact listOf_ren r []
  | .list i l _ => by
    rw [SNode.ren, SNode.value, SNode.value, i.ren_value r, itemsRen_value r l, ← listOf_ren r, List.map_cons]
  | .call p a l => by
    rw [SNode.ren, SNode.value, SNode.value, a.ren_value r, argsRen_value r l, ← callOf_ren r, List.map_cons]
  | .deriv p k a => by rw [SNode.ren, SNode.value, SNode.value]; rfl
  | .dictNil _ => by rw [SNode.ren, SNode.value]; rfl
  | .dict i l _ => by rw [SNode.ren, SNode.value, SNode.value]; rfl
  | .mixed x m l => by rw [SNode.ren, SNode.value, SNode.value]; rfl
termination_by structural n => n
theorem SItem.ren_value (r : Renames f g) : ∀ i : SItem, (i.ren f).value = i.value.map (renAst g)
  | .mk _ _ c _ => by rw [SItem.ren, SItem.value, SItem.value, c.ren_value r]
termination_by structural i => i
theorem SItem.ren_arg (r : Renames f g) : ∀ i : SItem, (i.ren f).arg = i.arg.map fun e => (e.1, renAst g e.2)
  | .mk _ _ c _ => by rw [SItem.ren, SItem.arg, SItem.arg, c.ren_arg r]
termination_by structural i => i
theorem itemsRen_value (r : Renames f g) :
    ∀ l : List SItem, itemsValue (itemsRen f l) = (itemsValue l).map (Option.map (renAst g))
  | [] => by rw [itemsRen, itemsValue]; rfl
  | i :: l => by rw [itemsRen, itemsValue, itemsValue, i.ren_value r, itemsRen_value r l]; rfl
termination_by structural l => l
theorem itemsRen_arg (r : Renames f g) : ∀ l : List SItem,
    itemsArg (itemsRen f l) = (itemsArg l).map (Option.map fun e => (e.1, renAst g e.2))
  | [] => by rw [itemsRen, itemsArg]; rfl
  | i :: l => by rw [itemsRen, itemsArg, itemsArg, i.ren_arg r, itemsRen_arg r l]; rfl
termination_by structural l => l
theorem SContent.ren_value (r : Renames f g) : ∀ c : SContent, (c.ren f).value = c.value.map (renAst g)
  | .expr e => by rw [SContent.ren, SContent.value, SContent.value, e.ren_value r]
  | .named k _ _ _ e => by rw [SContent.ren, SContent.value, SContent.value]; rfl
  | .span2 s _ e => by
    rw [SContent.ren, SContent.value, SContent.value, s.ren_value r, e.ren_value r, ← spanOf_ren r]; rfl
  | .span3 s _ _ e _ t => by
    rw [SContent.ren, SContent.value, SContent.value, s.ren_value r, e.ren_value r, t.ren_value r, ← spanOf_ren r]
  | .pair k _ _ _ e => by rw [SContent.ren, SContent.value, SContent.value]; rfl
termination_by structural c => c
theorem SContent.ren_arg (r : Renames f g) :
    ∀ c : SContent, (c.ren f).arg = c.arg.map fun e => (e.1, renAst g e.2)
  | .expr e => by
    rw [SContent.ren, SContent.arg, SContent.arg, e.ren_value r, posArg, posArg]
    cases e.value <;> rfl
  | .named k _ _ _ e => by
    rw [SContent.ren, SContent.arg, SContent.arg, e.ren_value r, namedArg, namedArg]
    cases e.value <;> rfl
  | .span2 s _ e => by rw [SContent.ren, SContent.arg, SContent.arg]; rfl
  | .span3 s _ _ e _ t => by rw [SContent.ren, SContent.arg, SContent.arg]; rfl
  | .pair k _ _ _ e => by rw [SContent.ren, SContent.arg, SContent.arg]; rfl
termination_by structural c => c
theorem SPart.ren_value (r : Renames f g) : ∀ p : SPart, (p.ren f).value = p.value.map (Option.map (renAst g))
  | .none => by rw [SPart.ren, SPart.value]; rfl
  | .some e _ => by rw [SPart.ren, SPart.value, SPart.value, e.ren_value r]; rfl
termination_by structural p => p
theorem SLast.ren_value (r : Renames f g) : ∀ p : SLast, (p.ren f).value = p.value.map (Option.map (renAst g))
  | .none => by rw [SLast.ren, SLast.value]; rfl
  | .some _ e => by rw [SLast.ren, SLast.value, SLast.value, e.ren_value r]; rfl
termination_by structural p => p
theorem SArgs.ren_value (r : Renames f g) : ∀ a : SArgs, (a.ren f).value = a.value.map (renParam g)
  | .some _ i l _ => by
    rw [SArgs.ren, SArgs.value, SArgs.value, i.ren_arg r, itemsRen_arg r l, ← argsOf_ren, List.map_cons]
  | .none _ _ l _ => by rw [SArgs.ren, SArgs.value, SArgs.value, itemsRen_arg r l, ← argsOf_ren]
termination_by structural a => a
theorem argsRen_value (r : Renames f g) :
    ∀ l : List SArgs, argsValue (argsRen f l) = (argsValue l).map (Option.map (renParam g))
  | [] => by rw [argsRen, argsValue]; rfl
  | a :: l => by rw [argsRen, argsValue, argsValue, a.ren_value r, argsRen_value r l]; rfl
termination_by structural l => l
theorem SSuf.ren_apply (r : Renames f g) :
    ∀ (s : SSuf) (a : AST), (s.ren f).apply (renAst g a) = (s.apply a).map (renAst g)
  | .op y, a => by rw [SSuf.ren, SSuf.apply]; exact sufApply_ren y a
  | .slice _ i l _, a => by
    rw [SSuf.ren, SSuf.apply, SSuf.apply, i.ren_value r, itemsRen_value r l, ← indexBy_ren r, List.map_cons]
termination_by structural s => s
theorem sufsRen_apply (r : Renames f g) :
    ∀ (l : List SSuf) (a : AST), sufsApply (sufsRen f l) (renAst g a) = (sufsApply l a).map (renAst g)
  | [], a => by rw [sufsRen, sufsApply, sufsApply]; rfl
  | s :: l, a => by
    rw [sufsRen, sufsApply, sufsApply, s.ren_apply r]
    cases s.apply a with
    | none => rfl
    | some b => exact sufsRen_apply r l b
termination_by structural l => l
theorem STerm.ren_value (r : Renames f g) : ∀ t : STerm, (t.ren f).value = t.value.map (renAst g)
  | .mk ps n l => by
    rw [STerm.ren, STerm.value, STerm.value, n.ren_value r]
    cases n.value with
    | none => rfl
    | some a =>
      simp only [Option.map_some, Option.bind_some]
      rw [sufsRen_apply r l]
      cases sufsApply l a with
      | none => rfl
      | some b => exact preFold_ren ps b
termination_by structural t => t
theorem SStep.ren_value (r : Renames f g) : ∀ (s : SStep) (l l' : List SStep),
    stepsValue l = (stepsValue l').map (fun e => (e.1, e.2.map (renAst g))) →
    stepsValue (s.ren f :: l) = (stepsValue (s :: l')).map fun e => (e.1, e.2.map (renAst g))
  | .mk _ t _ x, l, l', h => by
    have := x.ren_value r
    rw [SStep.ren]
    cases t <;> simp [stepsValue, this, h]
termination_by structural s => s
theorem stepsRen_value (r : Renames f g) : ∀ l : List SStep,
    stepsValue (stepsRen f l) = (stepsValue l).map fun e => (e.1, e.2.map (renAst g))
  | [] => by rw [stepsRen, stepsValue]; rfl
  | s :: l => by rw [stepsRen, s.ren_value r _ l (stepsRen_value r l)]
termination_by structural l => l
/-- What an expression means after renaming is what it means, renamed. -/
theorem SExpr.ren_value (r : Renames f g) : ∀ e : SExpr, (e.ren f).value = e.value.map (renAst g)
  | .mk t l => by
    rw [SExpr.ren, SExpr.value, SExpr.value, t.ren_value r, stepsRen_value r l, ← evalTree_ren r, ← group_treeMap]
termination_by structural e => e
end
end

/-! ### The theorems -/

/-- The answer with other names. -/
def renR (g : Str → Str) : SMResult AST → SMResult AST
  | .ok a => .ok (renAst g a)
  | .err e => .err e
  | .panic => .panic

/-- **C84**.  If two texts of expressions differ only in the names of variables and functions -- the names in the
second are those in the first, renamed in any way that leaves the names alone which the parser makes -- then they are
read in the same way: the expression of the second is that of the first, renamed. -/
theorem C84_renaming (L : Lawful u) {f : Path → Path} {g : Str → Str} (r : Renames f g) (c c' : Cfg) (e : SExpr)
    (h : e.Ok u) (h' : (e.ren f).Ok u) (hn : Wordless e.text) (hn' : Wordless (e.ren f).text) {w1 w2 w1' w2' : Str}
    (hw1 : Blank u w1) (hw2 : Blank u w2) (hw1' : Blank u w1') (hw2' : Blank u w2') (hc : c.input = w1 ++ (e.text ++ w2))
    (hc' : c'.input = w1' ++ ((e.ren f).text ++ w2')) :
    eraseR (parseText u c') = renR g (eraseR (parseText u c)) := by
  rw [C53_expressions L c e h hn hw1 hw2 hc, C53_expressions L c' _ h' hn' hw1' hw2' hc', e.ren_value r]
  cases e.value <;> rfl

/-! ### Evaluation -/

/-- The last parts of names that evaluation knows. -/
def knownNames : List Str :=
  [c!"first", c!"last", c!"length", c!"factorial", c!"fibonacci", c!"plus", c!"times", c!"power"]

theorem unary_ren (g : Str → Str) {h : AST → SMResult AST} (hh : ∀ a, h (renAst g a) = renR g (h a)) (l : List AST) :
    onArg0 h (renAsts g l) = renR g (onArg0 h l) := by
  cases l with
  | nil => rfl
  | cons a l => exact hh a

theorem binary_ren (g : Str → Str) {h : List AST → SMResult AST} {e : SMError} {k : Int → Int → Int}
    (h2 : ∀ m n, h [.integer m, .integer n] = .ok (.integer (k m n)))
    (h0 : ∀ l, (∀ m n, l ≠ [.integer m, .integer n]) → h l = .err e) (l : List AST) :
    h (renAsts g l) = renR g (h l) := by
  by_cases hl : ∃ m n, l = [.integer m, .integer n]
  · obtain ⟨m, n, rfl⟩ := hl
    simp only [renAsts, renAst, h2, renR]
  · rw [h0 l fun m n e => hl ⟨m, n, e⟩, h0, renR]
    intro m n e'
    have int : ∀ a k, renAst g a = .integer k → a = .integer k := by
      intro a k h; cases a <;> simp_all [renAst]
    match l, e' with
    | [a, b], e' =>
      simp only [renAsts, List.cons.injEq] at e'
      exact hl ⟨m, n, by rw [int a m e'.1, int b n e'.2.1]⟩
    | [], e' => simp [renAsts] at e'
    | [_], e' => simp [renAsts] at e'
    | _ :: _ :: _ :: _, e' => simp [renAsts] at e'

/-- **C84** (evaluation).  A renaming that keeps the last parts `first`, `last`, `length`, `factorial`, `fibonacci`,
`plus`, `times` and `power` of names, and makes no others into these, does not matter to evaluation either: the answer
is renamed, the errors and panics are the same. -/
theorem C84_evaluation (w : Width) {g : Str → Str}
    (hg : ∀ s, (Sym.ofStr (g s)).name = (Sym.ofStr s).name ∨
      (Sym.ofStr (g s)).name ∉ knownNames ∧ (Sym.ofStr s).name ∉ knownNames)
    (a : AST) (ha : ∀ s ps, a = .function s ps → s.kind ≠ .normal ∨ ∃ t, s = Sym.ofStr t) :
    forward w (renAst g a) = renR g (forward w a) := by
  cases a with
  | function s ps =>
    match ps with
    | [] => simp [renAst, renParams, forward, renR]
    | p :: q :: l => simp [renAst, renParams, forward, renR]
    | [.mk as o pos] =>
      have hs : (renSym g s).name = s.name ∨ (renSym g s).name ∉ knownNames ∧ s.name ∉ knownNames := by
        rcases ha s _ rfl with h | ⟨t, rfl⟩
        · left; rw [renSym]; cases hk : s.kind <;> first | exact absurd hk h | rfl
        · rw [renSym_ofStr]; exact hg t
      have no : ∀ (f : Sym) (p : Param), f.name ∉ knownNames →
          evaluateFunction w f p = .err (unimplementedAt c!"evaluate_function" 68) := by
        intro f p h
        simp only [knownNames, List.mem_cons, List.not_mem_nil, or_false, not_or] at h
        simp [evaluateFunction, h]
      simp only [renAst, renParams, renParam, forward]
      rcases hs with hs | hs
      · have c1 : ∀ a, first (renAst g a) = renR g (first a) := by
          intro a; cases a <;> simp only [renAst, first, renR]
          split <;> simp [renAst]
        have c2 : ∀ a, last (renAst g a) = renR g (last a) := by
          intro a; cases a <;> simp only [renAst, last, renR]
          split <;> simp [renAst]
        have c3 : ∀ a, length (renAst g a) = renR g (length a) := by
          intro a; cases a <;> simp [renAst, length, renR]
        have c4 : ∀ a, factorial w (renAst g a) = renR g (factorial w a) := by
          intro a
          cases a <;> simp only [renAst, factorial, renR]
          rename_i n; cases ofAlgRes (Alg.factorialI w n) <;> simp [Functor.map, Out.bind, renAst]
        have c5 : ∀ a, fibonacci w (renAst g a) = renR g (fibonacci w a) := by
          intro a
          cases a <;> simp only [renAst, fibonacci, renR]
          rename_i n; cases ofAlgRes (Alg.fibonacciI w n) <;> simp [Functor.map, Out.bind, renAst]
        have c6 := binary_ren g (h := evaluateAdditive) (fun m n => rfl) (fun l hl => by
          unfold evaluateAdditive; split; exacts [absurd rfl (hl _ _), rfl])
        have c7 := binary_ren g (h := evaluateMultiplicative) (fun m n => rfl) (fun l hl => by
          unfold evaluateMultiplicative; split; exacts [absurd rfl (hl _ _), rfl])
        have c8 := binary_ren g (h := evaluatePower) (k := fun m n => match toU64 n with | none => m | some s => m ^ s)
          (fun m n => by rw [evaluatePower]; cases toU64 n <;> rfl) (fun l hl => by
            unfold evaluatePower; split; exacts [absurd rfl (hl _ _), rfl])
        simp only [evaluateFunction, hs, Param.arguments, unary_ren g c1, unary_ren g c2, unary_ren g c3, unary_ren g c4,
          unary_ren g c5, c6, c7, c8]
        repeat' split
        all_goals rfl
      · rw [no _ _ hs.1, no _ _ hs.2, renR]
  | _ => simp [renAst, forward, renR]

/-- `power(2, 10)` and `x::power(2, 10)`: the name space does not matter. -/
example : forward .w64 (.function (Sym.ofStr c!"x::power") [.mk [.integer 2, .integer 10] [] noPos]) =
    .ok (.integer 1024) := by
  have := C84_evaluation .w64 (g := fun s => if s = c!"power" then c!"x::power" else s)
    (fun s => by
      by_cases h : s = c!"power"
      · subst h; exact .inl (by decide)
      · exact .inl (by simp [h]))
    (.function (Sym.ofStr c!"power") [.mk [.integer 2, .integer 10] [] noPos])
    (fun s ps h => .inr ⟨_, (AST.function.inj h).1.symm⟩)
  simp only [renAst, renSym_ofStr, renParams, renParam, renAsts, renOpts, if_true] at this
  exact this.trans rfl

/-- Exchange two texts. -/
def swapText (x y s : Str) : Str := if s = x then y else if s = y then x else s

/-- Exchange two names. -/
def swapPath (x y : Path) (p : Path) : Path := if p.text = x.text then y else if p.text = y.text then x else p

theorem renames_swap {x y : Path} (hx : x.text ∉ madeNames) (hy : y.text ∉ madeNames) :
    Renames (swapPath x y) (swapText x.text y.text) where
  text p := by
    rw [swapPath, swapText]
    split
    · rfl
    · split <;> rfl
  fixed s hs := by
    rw [swapText, if_neg (fun h : s = x.text => hx (h ▸ hs)), if_neg (fun h : s = y.text => hy (h ▸ hs))]

/-- **C84** (exchange).  Exchanging two names in an expression exchanges them in what is read, and nothing else. -/
theorem C84_exchange (L : Lawful u) {x y : Path} (hx : x.text ∉ madeNames) (hy : y.text ∉ madeNames) (c c' : Cfg)
    (e : SExpr) (h : e.Ok u) (h' : (e.ren (swapPath x y)).Ok u) (hn : Wordless e.text)
    (hn' : Wordless (e.ren (swapPath x y)).text) {w1 w2 w1' w2' : Str} (hw1 : Blank u w1) (hw2 : Blank u w2)
    (hw1' : Blank u w1') (hw2' : Blank u w2') (hc : c.input = w1 ++ (e.text ++ w2))
    (hc' : c'.input = w1' ++ ((e.ren (swapPath x y)).text ++ w2')) :
    eraseR (parseText u c') = renR (swapText x.text y.text) (eraseR (parseText u c)) :=
  C84_renaming L (renames_swap hx hy) c c' e h h' hn hn' hw1 hw2 hw1' hw2' hc hc'

/-- **C84** (violation).  The names matter directly after a zero: there a name is a factor, except that a name like
`xF`, which is a radix letter with digits, is swallowed by the zero. -/
theorem C84_after_zero (L : Lawful u) (c : Cfg) :
    (∀ p : Path, p.Ok u → (∀ a r, p.first = a :: r → a ∉ radixLetters) → c.input = '0' :: p.text →
      eraseR (parseText u c) = .ok (.function ⟨[c!"std", c!"infix"], c!"times", .infix c!"*" 140, 0⟩
        [.mk [.integer 0, .mkSymbol p.text] [] noPos])) ∧
    ∀ (r : Radix) (k : Char) (d : Nat) (ds : List Nat), k ∈ r.letters → d < r.base → (∀ e ∈ ds, e < r.base) →
      c.input = '0' :: k :: (d :: ds).map Nat.digitChar →
      parseText u c = .ok (.integer (Nat.ofDigits r.base (d :: ds).reverse : Nat)) := by
  constructor
  · intro p hp h hc
    refine C43_products L c (.int 0) ([], .sym p) [] trivial ⟨by simp, hp, .inr fun _ => h, trivial⟩
      (numeral_wordless 0 _) (w := []) (w' := []) blank_nil blank_nil ?_
    rw [hc]
    simp [SFactor.text, factorsText, show numeral 0 = ['0'] from by decide]
  · intro r k d ds hk hd hds hc
    have := C39_radix L c r hk false d (ds.map fun e => (false, false, e)) hd
      (by intro e he; obtain ⟨x, hx, rfl⟩ := List.mem_map.1 he; exact hds x hx) (w := []) (w' := []) blank_nil blank_nil
      (by rw [hc]; simp [groupText, SDigit.char, digit, List.flatMap_map]; rw [List.map_eq_flatMap])
    rw [this]
    simp [digitsValue, Function.comp_def]

/-- `x-2y`. -/
def xMinusTwoY (x y : Path) : SExpr :=
  .mk (.mk [] (.atom (.sym x)) []) [.mk [] (.op .minus) [] (.mk [] (.atom (.prod (.int 2) ([], .sym y) [])) [])]

/-- `x-2y` and `y-2x` are read in the same way, with `x` and `y` exchanged. -/
example : eraseR (parseText asciiUni ⟨[], c!"y-2x", []⟩) =
    renR (swapText c!"x" c!"y") (eraseR (parseText asciiUni ⟨[], c!"x-2y", []⟩)) := by
  have ix : IsIdent asciiUni c!"x" := .inl ⟨'x', [], rfl, by decide, by decide⟩
  have iy : IsIdent asciiUni c!"y" := .inl ⟨'y', [], rfl, by decide, by decide⟩
  have ok : ∀ p q : Path, p.Ok asciiUni → q.Ok asciiUni → p.Free → (xMinusTwoY p q).Ok asciiUni := by
    intro p q hp hq hf
    simp only [xMinusTwoY, SNode.Ok, SExpr.Ok, STerm.Ok, SufsOk, StepsOk, SAtom.Ok]
    exact ⟨⟨⟨hp, hf⟩, trivial⟩, (fun _ _ h => nomatch h), blank_nil, blank_nil, (fun h => nomatch h),
      ⟨⟨trivial, by simp, hq, .inr (by intro h; cases h), trivial⟩, trivial⟩, trivial⟩
  have px : Path.Ok asciiUni ⟨c!"x", []⟩ := ⟨ix, by simp⟩
  have py : Path.Ok asciiUni ⟨c!"y", []⟩ := ⟨iy, by simp⟩
  have fx : Path.Free ⟨c!"x", []⟩ := by unfold Path.Free; decide
  have fy : Path.Free ⟨c!"y", []⟩ := by unfold Path.Free; decide
  exact C84_exchange lawful_asciiUni (x := ⟨c!"x", []⟩) (y := ⟨c!"y", []⟩) (by decide) (by decide) _ _
    (xMinusTwoY ⟨c!"x", []⟩ ⟨c!"y", []⟩) (ok _ _ px py fx) (ok _ _ py px fy)
    (wordless_head (c := 'x') rfl (by decide)) (wordless_head (c := 'y') rfl (by decide)) (w1 := []) (w2 := [])
    (w1' := []) (w2' := []) blank_nil blank_nil blank_nil blank_nil (by decide) (by decide)

end SM.Props
