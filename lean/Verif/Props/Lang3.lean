import Verif.Props.Lang2
import Verif.Props.Symbol
/-
What texts parse to: calls and programs.
-/
namespace SM.Props
open SM SM.Peg BMap

variable {u : Uni}

/-! ### Arguments -/

/-- An argument: its name, if it has one, and its value. -/
abbrev Argument := Option Str × AST

/-- What an item means as an argument. -/
def SItem.Means : SItem → Argument → Prop
  | .mk _ _ (.expr e) _, m => m.1 = none ∧ e.value = some m.2
  | .mk _ _ (.named k _ _ _ e) _, m => m.1 = some k ∧ e.value = some m.2
  | _, _ => False

/-- The key and value that the parser makes of an argument. -/
def Argument.entry (m : Argument) : AST × AST :=
  match m.1 with
  | none => (.empty, m.2)
  | some k => (.mkSymbol k, m.2)

theorem means_arg {i : SItem} {m : Argument} (h : i.Means m) : i.arg = some m.entry := by
  obtain ⟨o, v⟩ := m
  obtain ⟨b, wa, c, wb⟩ := i
  cases c with
  | expr e =>
    obtain ⟨h1, h2⟩ := h
    simp only at h1 h2
    subst h1
    rw [SItem.arg, SContent.arg, h2]
    rfl
  | named k w1 b w2 e =>
    obtain ⟨h1, h2⟩ := h
    simp only at h1 h2
    subst h1
    rw [SItem.arg, SContent.arg, h2]
    rfl
  | span2 => cases h
  | span3 => cases h
  | pair => cases h

/-- The values without a name, in order. -/
def unnamed (args : List Argument) : List AST := args.filterMap fun m => if m.1 = none then some m.2 else none

/-- The named ones, in order. -/
def named (args : List Argument) : List (Str × AST) := args.filterMap fun m => m.1.map fun k => (k, m.2)

theorem positional_eq (args : List Argument) : positional (args.map Argument.entry) = unnamed args := by
  induction args with
  | nil => rfl
  | cons m args ih =>
    obtain ⟨o, v⟩ := m
    cases o with
    | none => simp only [List.map_cons, Argument.entry, positional, ih]; simp [unnamed]
    | some k => simp only [List.map_cons, Argument.entry, AST.mkSymbol, positional, ih]; simp [unnamed]

theorem options_eq (args : List Argument) (m : BMap AST AST) :
    optionsFrom (args.map Argument.entry) m =
      ((named args).map fun e => (AST.mkSymbol e.1, e.2)).foldl (fun m e => BMap.insert astCmp e.1 e.2 m) m := by
  induction args generalizing m with
  | nil => rfl
  | cons a args ih =>
    obtain ⟨o, v⟩ := a
    cases o with
    | none => simp only [List.map_cons, Argument.entry, optionsFrom, ih]; simp [named]
    | some k => simp only [List.map_cons, Argument.entry, AST.mkSymbol, optionsFrom, ih]; simp [named, AST.mkSymbol]

theorem mkSymbol_inj {k k' : Str} : astCmp (.mkSymbol k) (.mkSymbol k') = .eq ↔ k = k' := by
  have : astCmp (.mkSymbol k) (.mkSymbol k') = symCmp (Sym.ofStr k) (Sym.ofStr k') := by simp [AST.mkSymbol, astCmp]
  rw [this, symCmp_eq_iff]
  exact ⟨fun h => C16_injective k k' (by rw [h]) (by rw [h]), fun h => by rw [h]⟩

/-- The options that the parser makes of named arguments. -/
def optionsOf (l : List (Str × AST)) : BMap AST AST := BMap.ofList astCmp (l.map fun e => (AST.mkSymbol e.1, e.2))

theorem argsOf_eq (args : List Argument) :
    argsOf (args.map fun m => some m.entry) = some (.mk (unnamed args) (optionsOf (named args)) noPos) := by
  rw [argsOf, allSome_map, Option.map_some, positional_eq, options_eq]
  rfl

/-- The last value with a name. -/
def lastNamed (k : Str) (args : List Argument) : Option AST :=
  ((args.filter fun m => m.1 = some k).getLast?).map Prod.snd

theorem find_named (k : Str) (args : List Argument) :
    (((named args).map fun e => (AST.mkSymbol e.1, e.2)).reverse.find? fun e => astCmp (.mkSymbol k) e.1 = .eq).map
      Prod.snd = lastNamed k args := by
  unfold lastNamed
  induction args with
  | nil => rfl
  | cons a args ih =>
    obtain ⟨o, v⟩ := a
    cases o with
    | none =>
      rw [List.filter_cons_of_neg (by simp), ← ih]
      simp [named]
    | some k' =>
      have hn : named ((some k', v) :: args) = (k', v) :: named args := by simp [named]
      rw [hn, List.map_cons, List.reverse_cons, List.find?_append]
      by_cases hk : k' = k
      · subst hk
        rw [List.filter_cons_of_pos (by simp), List.getLast?_cons]
        have hh := C15_order_lawful.refl (.mkSymbol k')
        cases hf : (((named args).map fun e => (AST.mkSymbol e.1, e.2)).reverse.find? fun e => astCmp (.mkSymbol k') e.1 = .eq) with
        | some x =>
          rw [hf] at ih
          cases hg : (args.filter fun m => m.1 = some k').getLast? with
          | none => rw [hg] at ih; cases ih
          | some y => rw [hg] at ih; simpa using ih
        | none =>
          rw [hf] at ih
          cases hg : (args.filter fun m => m.1 = some k').getLast? with
          | none => simp [hh]
          | some y => rw [hg] at ih; cases ih
      · rw [List.filter_cons_of_neg (by simpa using hk), ← ih]
        have : ¬ astCmp (.mkSymbol k) (.mkSymbol k') = .eq := by rw [mkSymbol_inj]; exact fun e => hk e.symm
        simp [this]

/-- A call with one argument list. -/
theorem parse_call (L : Lawful u) (c : Cfg) (p : Path) (h : Str) (i : SItem) (l : List SItem) (o : Trail) (hp : p.Ok u)
    (ha : (SArgs.some h i l o).Ok u) {w w' : Str} (hw : Blank u w) (hw' : Blank u w')
    (hwl : Wordless (p.text ++ (h ++ '(' :: (i.text ++ itemsText l (trailText o ++ c!")")))))
    (hc : c.input = w ++ ((p.text ++ (h ++ '(' :: (i.text ++ itemsText l (trailText o ++ c!")")))) ++ w'))
    {args : List Argument} (hargs : List.Forall₂ SItem.Means (i :: l) args) :
    eraseR (parseText u c) = .ok (.function (Sym.ofStr p.text) [.mk (unnamed args) (optionsOf (named args)) noPos]) := by
  have ht : (SExpr.node (.call p (.some h i l o) [])).text =
      p.text ++ (h ++ '(' :: (i.text ++ itemsText l (trailText o ++ c!")"))) := by
    simp [node_text, SNode.text, SArgs.text, argsText]
  have hv : (i :: l).map SItem.arg = args.map fun m => some m.entry := by
    clear hc hwl ht ha
    generalize i :: l = is at hargs
    induction hargs with
    | nil => rfl
    | cons h1 _ ih => rw [List.map_cons, List.map_cons, means_arg h1, ih]
  rw [C53_expressions L c (.node (.call p (.some h i l o) [])) (node_ok (by
      rw [SNode.Ok, ArgsOk]; exact ⟨hp, ha, trivial⟩)) (by rw [ht]; exact hwl) hw hw' (by rw [ht]; exact hc), node_value,
    SNode.value, SArgs.value, argsValue, itemsArg_eq, ← List.map_cons, hv, argsOf_eq]
  rfl

/-- **C17**.  In a call, the positional arguments keep their order, and the named ones form a map, sorted by name, in
which the last value for a name counts. -/
theorem C17_arguments (L : Lawful u) (c : Cfg) (p : Path) (h : Str) (i : SItem) (l : List SItem) (o : Trail) (hp : p.Ok u)
    (ha : (SArgs.some h i l o).Ok u) {w w' : Str} (hw : Blank u w) (hw' : Blank u w')
    (hwl : Wordless (p.text ++ (h ++ '(' :: (i.text ++ itemsText l (trailText o ++ c!")")))))
    (hc : c.input = w ++ ((p.text ++ (h ++ '(' :: (i.text ++ itemsText l (trailText o ++ c!")")))) ++ w'))
    {args : List Argument} (hargs : List.Forall₂ SItem.Means (i :: l) args) :
    ∃ opts : BMap AST AST, eraseR (parseText u c) = .ok (.function (Sym.ofStr p.text) [.mk (unnamed args) opts noPos]) ∧
      Sorted (cmp := astCmp) opts ∧ (∀ k, BMap.get astCmp (.mkSymbol k) opts = lastNamed k args) ∧
      ∀ e ∈ opts, ∃ k, e.1 = .mkSymbol k ∧ lastNamed k args = some e.2 := by
  refine ⟨_, parse_call L c p h i l o hp ha hw hw' hwl hc hargs, ofList_sorted C15_order_lawful _, ?_, ?_⟩
  · intro k
    rw [optionsOf, get_ofList C15_order_lawful, find_named]
  · intro e he
    have hget : BMap.get astCmp e.1 (optionsOf (named args)) = some e.2 :=
      get_of_mem C15_order_lawful (ofList_sorted C15_order_lawful _) he
    obtain ⟨x, hx, hk⟩ := mem_ofList_key he
    obtain ⟨y, hy, rfl⟩ := List.mem_map.1 hx
    refine ⟨y.1, hk.symm, ?_⟩
    rw [← find_named, ← get_ofList C15_order_lawful]
    rw [show AST.mkSymbol y.1 = e.1 from hk]
    exact hget

/-- **C17**.  The order of arguments with different names does not matter. -/
theorem C17_order (L : Lawful u) (c c' : Cfg) (p : Path) (h h' : Str) (i i' : SItem) (l l' : List SItem) (o o' : Trail)
    (hp : p.Ok u) (ha : (SArgs.some h i l o).Ok u) (ha' : (SArgs.some h' i' l' o').Ok u) {w1 w2 w1' w2' : Str}
    (hw1 : Blank u w1) (hw2 : Blank u w2) (hw1' : Blank u w1') (hw2' : Blank u w2')
    (hwl : Wordless (p.text ++ (h ++ '(' :: (i.text ++ itemsText l (trailText o ++ c!")")))))
    (hwl' : Wordless (p.text ++ (h' ++ '(' :: (i'.text ++ itemsText l' (trailText o' ++ c!")")))))
    (hc : c.input = w1 ++ ((p.text ++ (h ++ '(' :: (i.text ++ itemsText l (trailText o ++ c!")")))) ++ w2))
    (hc' : c'.input = w1' ++ ((p.text ++ (h' ++ '(' :: (i'.text ++ itemsText l' (trailText o' ++ c!")")))) ++ w2'))
    {args args' : List Argument} (hargs : List.Forall₂ SItem.Means (i :: l) args)
    (hargs' : List.Forall₂ SItem.Means (i' :: l') args') (hu : unnamed args = unnamed args')
    (hper : (named args).Perm (named args')) (hd : ((named args).map Prod.fst).Nodup) :
    eraseR (parseText u c) = eraseR (parseText u c') := by
  rw [parse_call L c p h i l o hp ha hw1 hw2 hwl hc hargs, parse_call L c' p h' i' l' o' hp ha' hw1' hw2' hwl' hc' hargs',
    hu]
  have : optionsOf (named args) = optionsOf (named args') := by
    refine ofList_perm C15_order_lawful (hper.map _) ?_
    rw [List.pairwise_map]
    rw [List.Nodup, List.pairwise_map] at hd
    exact hd.imp fun hne => by rw [mkSymbol_inj]; exact hne
  rw [this]

/-- A numeral as an expression. -/
theorem intExpr_ok (n : Nat) : (SExpr.node (.atom (.int n))).Ok u := node_ok (by rw [SNode.Ok]; trivial)

/-- In `f(1,a:2,3,a:4)` the positional arguments are 1 and 3, and `a` is 4. -/
example : ∃ opts : BMap AST AST, eraseR (parseText asciiUni ⟨[], c!"f(1,a:2,3,a:4)", []⟩) =
      .ok (.function ⟨[], c!"f", .normal, 0⟩ [.mk [.integer 1, .integer 3] opts noPos]) ∧
    BMap.get astCmp (.mkSymbol c!"a") opts = some (.integer 4) := by
  have ia : IsIdent asciiUni c!"a" := .inl ⟨'a', [], rfl, by decide, by decide⟩
  obtain ⟨opts, h1, _, h2, _⟩ := C17_arguments lawful_asciiUni ⟨[], c!"f(1,a:2,3,a:4)", []⟩ ⟨c!"f", []⟩ []
    (.mk false [] (.expr (.node (.atom (.int 1)))) [])
    [.mk false [] (.named c!"a" [] false [] (.node (.atom (.int 2)))) [], .mk false [] (.expr (.node (.atom (.int 3)))) [],
      .mk false [] (.named c!"a" [] false [] (.node (.atom (.int 4)))) []] none
    ⟨.inl ⟨'f', [], rfl, by decide, by decide⟩, by simp⟩
    (by
      simp only [SArgs.Ok, SItem.Ok, ItemsOk, SContent.Ok]
      exact ⟨by simp, ⟨blank_nil, blank_nil, rfl, intExpr_ok 1⟩,
        ⟨⟨blank_nil, blank_nil, rfl, ia, blank_nil, blank_nil, intExpr_ok 2⟩, ⟨blank_nil, blank_nil, rfl, intExpr_ok 3⟩,
          ⟨blank_nil, blank_nil, rfl, ia, blank_nil, blank_nil, intExpr_ok 4⟩, trivial⟩, fun _ _ h => nomatch h⟩)
    (w := []) (w' := []) blank_nil blank_nil
    (by rw [show _ ++ _ = c!"f(1,a:2,3,a:4)" by decide]; unfold Wordless; decide) (by decide)
    (args := [(none, .integer 1), (some c!"a", .integer 2), (none, .integer 3), (some c!"a", .integer 4)])
    (by
      have hv : ∀ n : Nat, (SExpr.node (.atom (.int n))).value = some (.integer n) := by
        intro n; rw [node_value, SNode.value]; rfl
      exact .cons ⟨rfl, hv 1⟩ (.cons ⟨rfl, hv 2⟩ (.cons ⟨rfl, hv 3⟩ (.cons ⟨rfl, hv 4⟩ .nil))))
  refine ⟨opts, h1, ?_⟩
  rw [h2]
  simp [lastNamed]

/-! ### Programs -/

/-- A statement that is an expression: the expression, the blank space after it, and perhaps a semicolon and more blank
space. -/
structure SStmt where
  e : SExpr
  w : Str
  semi : Option (Bool × Str)

/-- The statement with its meaning. -/
def SStmt.stmt (s : SStmt) : Stmt := ⟨s.e.text, s.w, s.semi, s.e.solo, s.e.value⟩

/-- The text of statements. -/
def stmtsText : List SStmt → Str
  | [] => []
  | s :: l => s.e.text ++ (s.w ++ (stopText s.semi ++ stmtsText l))

/-- Well-formed statements: without a semicolon, what follows must not be taken for a continuation. -/
def StmtsOk (u : Uni) : List SStmt → Prop
  | [] => True
  | s :: l => s.e.Ok u ∧ Wordless s.e.text ∧ Blank u s.w ∧ StopOk u s.w (stmtsText l) s.semi ∧ StmtsOk u l

theorem stmts_text (l : List SStmt) : progText (l.map SStmt.stmt) = stmtsText l := by
  induction l with
  | nil => rfl
  | cons s l ih => rw [List.map_cons, progText, stmtsText, ih]; rfl

theorem stmts_ok (L : Lawful u) (l : List SStmt) (h : StmtsOk u l) : ProgOk u (l.map SStmt.stmt) := by
  induction l with
  | nil => trivial
  | cons s l ih =>
    obtain ⟨h1, h2, h3, h4, h5⟩ := h
    rw [List.map_cons]
    refine ⟨SExpr.read L s.e h1, h2, h3, ?_, ih h5⟩
    rw [stmts_text]
    exact h4

/-- **C46**.  A text of several statements parses to the meaning of the first one. -/
theorem C46_first (L : Lawful u) (c : Cfg) (s : SStmt) (l : List SStmt) (h : StmtsOk u (s :: l)) {w : Str}
    (hw : Blank u w) (hc : c.input = w ++ stmtsText (s :: l)) : eraseR (parseText u c) = answer s.e.value :=
  parse_prog L c hw (s := s.stmt) (l := l.map SStmt.stmt) (stmts_ok L (s :: l) h) (by
    rw [hc, ← stmts_text]; rfl)

/-- **C46**.  A text of white space and comments parses to the empty statement. -/
theorem C46_blank (L : Lawful u) (c : Cfg) (h : Blank u c.input) : parseText u c = .ok .empty := parse_blank L c h

/-- **C46**.  For any accepted text: the first statement decides, whatever comes after it.  If it is an expression,
the answer is what that means; if it is of another kind, the parser panics. -/
theorem C46_any (c : Cfg) {p : Pair R} {l : List (Pair R)} (h : smParse u .program c.input = .pairs (p :: l)) :
    (p.rule = .expression → parseText u c = parsePairs c [p]) ∧
      (p.rule ∉ [R.expression, R.EOI, R.COMMENT] → parseText u c = .panic) := by
  constructor
  · intro hp
    rw [parseText, h]
    simp only [parsePairs, hp]
    rw [if_neg (by decide), if_pos trivial, if_neg (by decide), if_pos trivial]
  · intro hp
    simp only [List.mem_cons, List.not_mem_nil, or_false, not_or] at hp
    rw [parseText, h]
    simp only [parsePairs, if_neg hp.1, if_neg hp.2.1, if_neg hp.2.2]

/-- `let x` is accepted and panics. -/
theorem C46_let (L : Lawful u) (c : Cfg) (hc : c.input = c!"let x") : parseText u c = .panic :=
  parse_other L (x := c!"let x") (r := .assignStatement) (by decide +kernel) (by decide) (by decide) c hc

/-- `1; 2` parses to 1. -/
example : eraseR (parseText asciiUni ⟨[], c!"1; 2", []⟩) = .ok (.integer 1) := by
  have := C46_first lawful_asciiUni ⟨[], c!"1; 2", []⟩ ⟨.node (.atom (.int 1)), [], some (false, c!" ")⟩
    [⟨.node (.atom (.int 2)), [], none⟩]
    ⟨intExpr_ok 1, by rw [show SExpr.text _ = c!"1" by decide]; unfold Wordless; decide, blank_nil, blank_ws (by unfold Ws; decide),
      intExpr_ok 2, by rw [show SExpr.text _ = c!"2" by decide]; unfold Wordless; decide, blank_nil, ?_, trivial⟩ (w := []) blank_nil (by decide)
  · rw [this, node_value, SNode.value]; rfl
  · refine ⟨?_, ?_, ?_, ?_⟩
    · exact stop_close lawful_asciiUni (.inl rfl)
    · exact follow_close (w := []) (r := []) lawful_asciiUni blank_nil (.inl rfl)
    · exact fun _ _ h => nomatch h
    · exact fun _ _ h => nomatch h

end SM.Props
