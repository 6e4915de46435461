import Verif.Props.Lang
/-
White space, comments and the choice between equivalent signs make no difference to what an expression means.
-/
namespace SM.Props
open SM SM.Peg

variable {u : Uni}

/-- Without the white space. -/
def SAtom.bare : SAtom → SAtom
  | .prod f m l => .prod f ([], m.2) (l.map fun m => ([], m.2))
  | a => a

theorem SAtom.bare_value (a : SAtom) : a.bare.value = a.value := by
  cases a <;> simp [SAtom.bare, SAtom.value]

mutual
/-- The operand without white space and comments, with ASCII commas and colons and without trailing commas. -/
def SNode.bare : SNode → SNode
  | .atom a => .atom a.bare
  | .paren e _ => .paren e.bare []
  | .nil _ => .nil []
  | .list i l _ => .list i.bare (itemsBare l) none
  | .call p a l => .call p a.bare (argsBare l)
  | .deriv p k a => .deriv p k a.bare
  | .dictNil _ => .dictNil []
  | .dict i l _ => .dict i.bare (itemsBare l) none
  | .mixed f m l => .mixed f.bare m.bare (mixesBare l)
termination_by structural n => n
/-- The same for factors. -/
def SFac.bare : SFac → SFac
  | .call p a l => .call p a.bare (argsBare l)
  | .int n => .int n
  | .sym p => .sym p
  | .dec i f => .dec i f
  | .radix r k d ds => .radix r k d ds
termination_by structural f => f
/-- The same for further factors. -/
def SMix.bare : SMix → SMix
  | .mk _ f => .mk [] f.bare
termination_by structural m => m
/-- The same for further factors. -/
def mixesBare : List SMix → List SMix
  | [] => []
  | m :: l => m.bare :: mixesBare l
termination_by structural l => l
/-- The same for items. -/
def SItem.bare : SItem → SItem
  | .mk _ _ c _ => .mk false [] c.bare []
termination_by structural i => i
/-- The same for lists of items. -/
def itemsBare : List SItem → List SItem
  | [] => []
  | i :: l => i.bare :: itemsBare l
termination_by structural l => l
/-- The same for expressions, named arguments and spans. -/
def SContent.bare : SContent → SContent
  | .expr e => .expr e.bare
  | .named k _ _ _ e => .named k [] false [] e.bare
  | .span2 s _ e => .span2 s.bare false e.bare
  | .span3 s _ _ e _ t => .span3 s.bare false [] e.bare false t.bare
  | .pair k _ _ _ e => .pair k [] false [] e.bare
termination_by structural c => c
/-- The same for parts of spans. -/
def SPart.bare : SPart → SPart
  | .none => .none
  | .some e _ => .some e.bare []
termination_by structural p => p
/-- The same for last parts of spans. -/
def SLast.bare : SLast → SLast
  | .none => .none
  | .some _ e => .some [] e.bare
termination_by structural p => p
/-- The same for argument lists. -/
def SArgs.bare : SArgs → SArgs
  | .some _ i l _ => .some [] i.bare (itemsBare l) Option.none
  | .none _ _ l _ => .none [] [] (itemsBare l) Option.none
termination_by structural a => a
/-- The same for lists of argument lists. -/
def argsBare : List SArgs → List SArgs
  | [] => []
  | a :: l => a.bare :: argsBare l
termination_by structural l => l
/-- The same for suffixes. -/
def SSuf.bare : SSuf → SSuf
  | .op y => .op y
  | .slice _ i l _ => .slice [] i.bare (itemsBare l) none
termination_by structural s => s
/-- The same for lists of suffixes. -/
def sufsBare : List SSuf → List SSuf
  | [] => []
  | s :: l => s.bare :: sufsBare l
termination_by structural l => l
/-- The same for terms. -/
def STerm.bare : STerm → STerm
  | .mk ps n l => .mk ps n.bare (sufsBare l)
termination_by structural t => t
/-- The same for operators and operands. -/
def SStep.bare : SStep → SStep
  | .mk _ t _ x => .mk [] t [] x.bare
termination_by structural s => s
/-- The same for lists of operators and operands. -/
def stepsBare : List SStep → List SStep
  | [] => []
  | s :: l => s.bare :: stepsBare l
termination_by structural l => l
/-- The expression without white space and comments, with ASCII commas and colons and without trailing commas. -/
def SExpr.bare : SExpr → SExpr
  | .mk t l => .mk t.bare (stepsBare l)
termination_by structural e => e
end

mutual
theorem SNode.bare_value : ∀ n : SNode, n.bare.value = n.value
  | .atom a => by rw [SNode.bare, SNode.value, SNode.value, a.bare_value]
  | .paren e _ => by rw [SNode.bare, SNode.value, SNode.value, e.bare_value]
  | .nil _ => by rw [SNode.bare, SNode.value, SNode.value]
  | .list i l _ => by rw [SNode.bare, SNode.value, SNode.value, i.bare_value, itemsBare_value l]
  | .call p a l => by rw [SNode.bare, SNode.value, SNode.value, a.bare_value, argsBare_value l]
  | .deriv p k a => by rw [SNode.bare, SNode.value, SNode.value]
  | .dictNil _ => by rw [SNode.bare, SNode.value, SNode.value]
  | .dict i l _ => by rw [SNode.bare, SNode.value, SNode.value]
  | .mixed f m l => by rw [SNode.bare, SNode.value, SNode.value]
termination_by structural n => n
theorem SItem.bare_value : ∀ i : SItem, i.bare.value = i.value
  | .mk _ _ c _ => by rw [SItem.bare, SItem.value, SItem.value, c.bare_value]
termination_by structural i => i
theorem SItem.bare_arg : ∀ i : SItem, i.bare.arg = i.arg
  | .mk _ _ c _ => by rw [SItem.bare, SItem.arg, SItem.arg, c.bare_arg]
termination_by structural i => i
theorem itemsBare_value : ∀ l : List SItem, itemsValue (itemsBare l) = itemsValue l
  | [] => by rw [itemsBare]
  | i :: l => by rw [itemsBare, itemsValue, itemsValue, i.bare_value, itemsBare_value l]
termination_by structural l => l
theorem itemsBare_arg : ∀ l : List SItem, itemsArg (itemsBare l) = itemsArg l
  | [] => by rw [itemsBare]
  | i :: l => by rw [itemsBare, itemsArg, itemsArg, i.bare_arg, itemsBare_arg l]
termination_by structural l => l
theorem SContent.bare_value : ∀ c : SContent, c.bare.value = c.value
  | .expr e => by rw [SContent.bare, SContent.value, SContent.value, e.bare_value]
  | .named k _ _ _ e => by rw [SContent.bare, SContent.value, SContent.value]
  | .span2 s _ e => by rw [SContent.bare, SContent.value, SContent.value, s.bare_value, e.bare_value]
  | .span3 s _ _ e _ t => by
    rw [SContent.bare, SContent.value, SContent.value, s.bare_value, e.bare_value, t.bare_value]
  | .pair k _ _ _ e => by rw [SContent.bare, SContent.value, SContent.value]
termination_by structural c => c
theorem SContent.bare_arg : ∀ c : SContent, c.bare.arg = c.arg
  | .expr e => by rw [SContent.bare, SContent.arg, SContent.arg, e.bare_value]
  | .named k _ _ _ e => by rw [SContent.bare, SContent.arg, SContent.arg, e.bare_value]
  | .span2 s _ e => by rw [SContent.bare, SContent.arg, SContent.arg]
  | .span3 s _ _ e _ t => by rw [SContent.bare, SContent.arg, SContent.arg]
  | .pair k _ _ _ e => by rw [SContent.bare, SContent.arg, SContent.arg]
termination_by structural c => c
theorem SPart.bare_value : ∀ p : SPart, p.bare.value = p.value
  | .none => by rw [SPart.bare]
  | .some e _ => by rw [SPart.bare, SPart.value, SPart.value, e.bare_value]
termination_by structural p => p
theorem SLast.bare_value : ∀ p : SLast, p.bare.value = p.value
  | .none => by rw [SLast.bare]
  | .some _ e => by rw [SLast.bare, SLast.value, SLast.value, e.bare_value]
termination_by structural p => p
theorem SArgs.bare_value : ∀ a : SArgs, a.bare.value = a.value
  | .some _ i l _ => by rw [SArgs.bare, SArgs.value, SArgs.value, i.bare_arg, itemsBare_arg l]
  | .none _ _ l _ => by rw [SArgs.bare, SArgs.value, SArgs.value, itemsBare_arg l]
termination_by structural a => a
theorem argsBare_value : ∀ l : List SArgs, argsValue (argsBare l) = argsValue l
  | [] => by rw [argsBare]
  | a :: l => by rw [argsBare, argsValue, argsValue, a.bare_value, argsBare_value l]
termination_by structural l => l
theorem SSuf.bare_apply : ∀ s : SSuf, s.bare.apply = s.apply
  | .op y => by rw [SSuf.bare]
  | .slice _ i l _ => by
    have h1 := i.bare_value
    have h2 := itemsBare_value l
    funext a
    rw [SSuf.bare, SSuf.apply, SSuf.apply, h1, h2]
termination_by structural s => s
theorem sufsBare_apply : ∀ l : List SSuf, sufsApply (sufsBare l) = sufsApply l
  | [] => by rw [sufsBare]
  | s :: l => by
    have h1 := s.bare_apply
    have h2 := sufsBare_apply l
    funext a
    rw [sufsBare, sufsApply, sufsApply, h1, h2]
termination_by structural l => l
theorem STerm.bare_value : ∀ t : STerm, t.bare.value = t.value
  | .mk ps n l => by rw [STerm.bare, STerm.value, STerm.value, n.bare_value, sufsBare_apply l]
termination_by structural t => t
theorem SStep.bare_value : ∀ (s : SStep) (l l' : List SStep), stepsValue l = stepsValue l' →
    stepsValue (s.bare :: l) = stepsValue (s :: l')
  | .mk _ t _ x, l, l', h => by
    have := x.bare_value
    rw [SStep.bare]
    cases t <;> simp [stepsValue, this, h]
termination_by structural s => s
theorem stepsBare_value : ∀ l : List SStep, stepsValue (stepsBare l) = stepsValue l
  | [] => by rw [stepsBare]
  | s :: l => by rw [stepsBare, s.bare_value _ l (stepsBare_value l)]
termination_by structural l => l
/-- Leaving out white space does not change the meaning. -/
theorem SExpr.bare_value : ∀ e : SExpr, e.bare.value = e.value
  | .mk t l => by rw [SExpr.bare, SExpr.value, SExpr.value, t.bare_value, stepsBare_value l]
termination_by structural e => e
end

/-- **C44**.  Two texts of expressions that differ only in white space, line comments, trailing commas and in whether
commas and colons are full-width parse to the same, up to positions. -/
theorem C44_whitespace (L : Lawful u) (c c' : Cfg) (e e' : SExpr) (h : e.Ok u) (h' : e'.Ok u) (hn : Wordless e.text)
    (hn' : Wordless e'.text) (hb : e.bare = e'.bare) {w1 w2 w1' w2' : Str} (hw1 : Blank u w1) (hw2 : Blank u w2)
    (hw1' : Blank u w1') (hw2' : Blank u w2') (hc : c.input = w1 ++ (e.text ++ w2))
    (hc' : c'.input = w1' ++ (e'.text ++ w2')) : eraseR (parseText u c) = eraseR (parseText u c') := by
  rw [C53_expressions L c e h hn hw1 hw2 hc, C53_expressions L c' e' h' hn' hw1' hw2' hc', ← e.bare_value, hb,
    e'.bare_value]

/-- **C44** (violation).  `(1+2)` is accepted, but not with white space after the first or before the second
parenthesis. -/
theorem C44_parentheses (L : Lawful u) (c : Cfg) :
    (c.input = c!"(1+2)" → ∃ a, parseText u c = .ok a) ∧
      (c.input = c!"( 1+2)" → parseText u c = .err (.parseError c.errorText)) ∧
      (c.input = c!"(1+2 )" → parseText u c = .err (.parseError c.errorText)) := by
  refine ⟨fun hc => ?_, fun hc => parse_rejects L (by decide +kernel) (by decide) c hc,
    fun hc => parse_rejects L (by decide +kernel) (by decide) c hc⟩
  let e : SExpr := .node (.paren (.mk (.mk [] (.atom (.int 1)) [])
    [.mk [] (.op .plus) [] (.mk [] (.atom (.int 2)) [])]) [])
  have he : e.Ok u := by
    refine node_ok ?_
    simp only [SNode.Ok, SExpr.Ok, STerm.Ok, SufsOk, StepsOk, SAtom.Ok]
    exact ⟨⟨⟨trivial, trivial⟩, (fun _ _ h => nomatch h), blank_nil, blank_nil, (fun h => nomatch h), ⟨trivial, trivial⟩,
      trivial⟩, blank_nil, .inr trivial⟩
  have := C53_expressions L c e he (wordless_head (c := '(') rfl (by decide)) (w := []) (w' := []) blank_nil blank_nil
    (by rw [hc]; decide)
  cases h : parseText u c with
  | ok a => exact ⟨a, rfl⟩
  | err => rw [h] at this; cases this
  | panic => rw [h] at this; cases this

/-- `1+2` with white space `a` before the operator and `b` after it. -/
def onePlusTwo (a b : Str) : SExpr :=
  .mk (.mk [] (.atom (.int 1)) []) [.mk a (.op .plus) b (.mk [] (.atom (.int 2)) [])]

theorem onePlusTwo_ok {a b : Str} (ha : Blank u a) (hb : Blank u b) : (onePlusTwo a b).Ok u := by
  simp only [onePlusTwo, SNode.Ok, SExpr.Ok, STerm.Ok, SufsOk, StepsOk, SAtom.Ok]
  exact ⟨⟨trivial, trivial⟩, (fun _ _ h => nomatch h), ha, hb, (fun h => nomatch h), ⟨trivial, trivial⟩, trivial⟩

/-- `1+2` and `1  +\n2`. -/
example : eraseR (parseText asciiUni ⟨[], c!"1+2", []⟩) = eraseR (parseText asciiUni ⟨[], c!"1  +\n2", []⟩) :=
  C44_whitespace lawful_asciiUni _ _ (onePlusTwo [] []) (onePlusTwo c!"  " c!"\n") (onePlusTwo_ok blank_nil blank_nil)
    (onePlusTwo_ok (blank_ws (by unfold Ws; decide)) (blank_ws (by unfold Ws; decide)))
    (numeral_wordless 1 _) (numeral_wordless 1 _) rfl (w1 := []) (w2 := []) (w1' := []) (w2' := []) blank_nil blank_nil
    blank_nil blank_nil (by decide) (by decide)

end SM.Props
