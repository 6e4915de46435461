import Verif.Props.Place
/-
Building an expression looks at the texts of few pairs: those of names, literals and operators.
-/
namespace SM.Props
open SM SM.Peg

/-- The rules whose text is looked at. -/
def texted : R → Bool
  | .Plus | .Minus | .Multiply | .Divide | .Power | .Map | .Dot | .Prefix | .Suffix | .Integer | .Byte | .Decimal |
    .Special | .REPL | .Slot | .SYMBOL | .Symbol | .StringNormal | .StringText => true
  | _ => false

mutual
/-- A pair without the texts that are not looked at. -/
def thin : Pair R → Pair R
  | .mk r a b t l => .mk r a b (if texted r then t else []) (if r = .apply_call then thinHead l else thinL l)
termination_by structural p => p
/-- Pairs without the texts that are not looked at. -/
def thinL : List (Pair R) → List (Pair R)
  | [] => []
  | p :: l => thin p :: thinL l
termination_by structural l => l
/-- The pairs of a call: the text of the first is looked at. -/
def thinHead : List (Pair R) → List (Pair R)
  | [] => []
  | .mk r a b t l :: m => .mk r a b t (if r = .apply_call then thinHead l else thinL l) :: thinL m
termination_by structural l => l
end

@[simp] theorem thin_rule (p : Pair R) : (thin p).rule = p.rule := by cases p; rfl
@[simp] theorem thin_start (p : Pair R) : (thin p).start = p.start := by cases p; rfl
@[simp] theorem thin_stop (p : Pair R) : (thin p).stop = p.stop := by cases p; rfl
theorem thin_text {p : Pair R} (h : texted p.rule = true) : (thin p).text = p.text := by
  cases p; exact if_pos h
theorem thin_inner {p : Pair R} (h : p.rule ≠ .apply_call) : (thin p).inner = thinL p.inner := by
  cases p; exact if_neg h

/-- An item without the texts that are not looked at. -/
def thinItem (x : Item AST) : Item AST := (thin x.1, x.2)

/-- The outcome of climbing, without the texts that are not looked at. -/
def thinOut : AST × List (Item AST) → AST × List (Item AST) := fun x => (x.1, x.2.map thinItem)

theorem climb_thin {f : AST → Pair R → AST → Option AST}
    (hf : ∀ a p b, opTable p.rule ≠ none → f a (thin p) b = f a p b) : ∀ n : Nat,
    (∀ a m l, climbRec f n a m (l.map thinItem) = (climbRec f n a m l).map thinOut) ∧
    (∀ a m l, climbInner f n a m (l.map thinItem) = (climbInner f n a m l).map thinOut) := by
  intro n
  induction n with
  | zero => exact ⟨fun _ _ _ => by simp [climbRec], fun _ _ _ => by simp [climbInner]⟩
  | succ n ih =>
    obtain ⟨ih1, ih2⟩ := ih
    constructor
    · intro a m l
      match l with
      | [] => simp [climbRec, thinOut]
      | (op, o) :: r =>
        simp only [List.map_cons, thinItem, climbRec, thin_rule]
        cases ho : opTable op.rule with
        | none => simp [thinOut, thinItem]
        | some z =>
          obtain ⟨p, z⟩ := z
          dsimp only
          split
          · match r with
            | [] => rfl
            | (op2, o2) :: r =>
              simp only [List.map_cons, thinItem]
              cases o2 with
              | none => rfl
              | some c =>
                dsimp only
                rw [show (List.map thinItem r) = r.map thinItem from rfl, ih2]
                cases climbInner f n c p r with
                | none => rfl
                | some w =>
                  obtain ⟨c2, r2⟩ := w
                  simp only [Option.map_some, thinOut]
                  rw [hf _ _ _ (by rw [ho]; simp)]
                  cases f a op c2 with
                  | none => rfl
                  | some a2 => exact ih1 a2 m r2
          · simp [thinOut, thinItem]
    · intro a m l
      match l with
      | [] => simp [climbInner, thinOut]
      | (op, o) :: r =>
        have h := fun k => ih1 a k ((op, o) :: r)
        simp only [List.map_cons, thinItem] at h
        simp only [List.map_cons, thinItem, climbInner, thin_rule]
        cases ho : opTable op.rule with
        | none => simp [thinOut, thinItem]
        | some z =>
          obtain ⟨q, z⟩ := z
          dsimp only
          split
          · rw [h]
            cases climbRec f n a q ((op, o) :: r) with
            | none => rfl
            | some w => exact ih2 _ _ _
          · simp [thinOut, thinItem]

theorem climb_thinned {f : AST → Pair R → AST → Option AST}
    (hf : ∀ a p b, opTable p.rule ≠ none → f a (thin p) b = f a p b) (l : List (Item AST)) :
    climb f (l.map thinItem) = climb f l := by
  match l with
  | [] => rfl
  | (p, none) :: r => rfl
  | (p, some a) :: r =>
    simp only [List.map_cons, thinItem, climb, List.length_map]
    rw [(climb_thin hf _).1]
    cases climbRec f (2 * r.length + 1) a 0 r with
    | none => rfl
    | some w => rfl

theorem infix_thin (pos : Position) (a : AST) (p : Pair R) (b : AST) (h : opTable p.rule ≠ none) :
    infixCall pos a (thin p) b = infixCall pos a p b := by
  have ht : texted p.rule = true := by
    revert h; cases p.rule <;> simp [opTable, texted]
  simp only [infixCall, thin_rule, thin_text ht]

theorem slotArgs_thin : ∀ l : List (Pair R), slotArgs (thinL l) = slotArgs l
  | [] => rfl
  | p :: l => by
    simp only [thinL, slotArgs, thin_rule, slotArgs_thin l]
    split
    · rename_i h; rw [thin_text (by rw [h]; rfl)]
    · split
      · rename_i h; rw [thin_text (by rw [h]; rfl)]
      · rfl

theorem blockText_thin : ∀ (l : List (Pair R)) (s : Str), blockText (thinL l) s = blockText l s
  | [], _ => rfl
  | p :: l, s => by
    simp only [thinL, blockText, thin_rule, blockText_thin l]
    split
    · rfl
    · split
      · rename_i h; rw [thin_text (by rw [h]; rfl)]
      · rfl

theorem stringText_thin : ∀ (l : List (Pair R)) (s : Str), stringText (thinL l) s = stringText l s
  | [], _ => rfl
  | p :: l, s => by
    simp only [thinL, stringText, thin_rule, stringText_thin l]
    split
    · rfl
    · split
      · rename_i h; rw [thin_text (by rw [h]; rfl)]
      · split
        · rename_i h; rw [thin_inner (by rw [h]; decide), blockText_thin]
        · rfl

theorem spaceArgs_thin : ∀ l : List (Pair R), spaceArgs (thinL l) = spaceArgs l
  | [] => rfl
  | p :: l => by
    simp only [thinL, spaceArgs, thin_rule, spaceArgs_thin l]
    split
    · rfl
    · split
      · rename_i h; rw [thin_text (by rw [h]; rfl)]
      · split
        · rename_i h; rw [thin_text (by rw [h]; rfl)]
        · rfl

theorem climb_first (f : AST → Pair R → AST → Option AST) (p q : Pair R) (o : Option AST) (l : List (Item AST)) :
    climb f ((p, o) :: l) = climb f ((q, o) :: l) := by cases o <;> rfl

mutual
theorem expr_thin (c : Cfg) : ∀ p : Pair R, buildExpr c (thin p) = buildExpr c p
  | .mk r a b t l => by
    rw [thin, buildExpr, buildExpr]
    split
    · exact itemsHead_thin c _ l
    · rw [items_thin c l, climb_thinned (infix_thin _)]
termination_by structural p => p
theorem itemsHead_thin (c : Cfg) (z : Position) : ∀ l : List (Pair R),
    climb (infixCall z) (exprItems c (thinHead l)) = climb (infixCall z) (exprItems c l)
  | [] => by rw [thinHead]
  | .mk r a b t l :: m => by
    have e1 := expr_thin c (.mk r a b t l)
    have e2 := term_thin c (.mk r a b t l)
    rw [thin, buildExpr] at e1
    rw [thin, buildTerm] at e2
    rw [thinHead, exprItems, exprItems, items_thin c m]
    have e := climb_thinned (infix_thin z) ((.mk r a b t l, if r = .expr then buildExpr c (.mk r a b t l)
      else if r = .term then buildTerm c (.mk r a b t l) else none) :: exprItems c m)
    rw [List.map_cons, thinItem] at e
    refine Eq.trans ?_ e
    rw [climb_first _ _ (thin (.mk r a b t l))]
    congr 3
    show (if r = .expr then _ else if r = .term then _ else _) = _
    split
    · rw [buildExpr]; exact e1
    · split
      · rename_i h
        rw [buildTerm]
        exact e2 (by show r ≠ _; rw [h]; decide)
      · rfl
termination_by structural l => l
theorem items_thin (c : Cfg) : ∀ l : List (Pair R), exprItems c (thinL l) = (exprItems c l).map thinItem
  | [] => by rw [thinL, exprItems]; rfl
  | p :: l => by
    rw [thinL, exprItems, exprItems, items_thin c l, List.map_cons, thinItem]
    dsimp only
    rw [thin_rule]
    congr 2
    split
    · rename_i h; exact expr_thin c p
    · split
      · rename_i h; exact term_thin c p (by rw [h]; decide)
      · rfl
termination_by structural l => l
theorem term_thin (c : Cfg) : ∀ p : Pair R, p.rule ≠ .apply_call → buildTerm c (thin p) = buildTerm c p
  | .mk r a b t l, h => by
    have h : r ≠ .apply_call := h
    rw [thin, buildTerm, buildTerm, if_neg h, termLoop_thin c l]
termination_by structural p => p
theorem termLoop_thin (c : Cfg) : ∀ (l : List (Pair R)) (x : AST) (m : List (Str × Position)),
    termLoop c (thinL l) x m = termLoop c l x m
  | [], x, m => by rw [thinL]
  | p :: l, x, m => by
    rw [thinL, termLoop, termLoop, thin_rule, thin_start, thin_stop]
    split
    · rename_i h
      rw [node_thin c p (by rw [h]; decide)]
      cases buildNode c p with
      | none => rfl
      | some a => exact termLoop_thin c l _ _
    · split
      · rename_i h; rw [thin_text (by rw [h]; rfl)]; exact termLoop_thin c l _ _
      · split
        · rename_i h; rw [thin_text (by rw [h]; rfl)]
          cases suffixMap p.text with
          | none => rfl
          | some s => exact termLoop_thin c l _ _
        · split
          · rename_i h
            rw [slice_thin c p (by rw [h]; decide)]
            cases buildSlice c p with
            | none => rfl
            | some v => exact termLoop_thin c l _ _
          · rfl
termination_by structural l => l
theorem node_thin (c : Cfg) : ∀ p : Pair R, p.rule ≠ .apply_call → buildNode c (thin p) = buildNode c p
  | .mk r a b t [], h => by
    have h : r ≠ .apply_call := h
    rw [thin, if_neg h, thinL, buildNode, buildNode]
  | .mk r a b t (p :: l), h => by
    have h : r ≠ .apply_call := h
    rw [thin, if_neg h, thinL, buildNode, buildNode, thin_rule, thin_start, thin_stop]
    split
    · rename_i h; exact expr_thin c p
    · split
      · rename_i h; exact data_thin c p (by rw [h]; decide)
      · split
        · rename_i h; exact call_thin c p h
        · split
          · rename_i h; rw [parseSpaceCall, parseSpaceCall, thin_inner (by rw [h]; decide), spaceArgs_thin]
          · rfl
termination_by structural p => p
theorem call_thin (c : Cfg) : ∀ p : Pair R, p.rule = .apply_call → buildApplyCall c (thin p) = buildApplyCall c p
  | .mk r a b t [], h => by
    have h : r = .apply_call := h
    rw [thin, if_pos h, thinHead, buildApplyCall, buildApplyCall]
  | .mk r a b t (.mk r' a' b' t' l' :: l), h => by
    have h : r = .apply_call := h
    rw [thin, if_pos h, thinHead, buildApplyCall, buildApplyCall, applyLists_thin c l]
    rfl
termination_by structural p => p
theorem applyLists_thin (c : Cfg) : ∀ l : List (Pair R), applyLists c (thinL l) = applyLists c l
  | [] => by rw [thinL]
  | p :: l => by
    rw [thinL, applyLists, applyLists, thin_rule]
    split
    · rename_i h; rw [apply_thin c p (by rw [h]; decide), applyLists_thin c l]
    · rfl
termination_by structural l => l
theorem apply_thin (c : Cfg) : ∀ p : Pair R, p.rule ≠ .apply_call → buildApply c (thin p) = buildApply c p
  | .mk r a b t l, h => by
    have h : r ≠ .apply_call := h
    rw [thin, buildApply, buildApply, if_neg h, applyArgs_thin c l]
termination_by structural p => p
theorem applyArgs_thin (c : Cfg) : ∀ (l : List (Pair R)) (x : List AST) (m : BMap AST AST),
    applyArgs c (thinL l) x m = applyArgs c l x m
  | [], x, m => by rw [thinL]
  | p :: l, x, m => by
    rw [thinL, applyArgs, applyArgs, thin_rule]
    split
    · exact applyArgs_thin c l _ _
    · split
      · exact applyArgs_thin c l _ _
      · split
        · rename_i h
          rw [kv_thin c p (by rw [h]; decide)]
          cases buildKv c p with
          | none => rfl
          | some e =>
            obtain ⟨k, v⟩ := e
            cases k <;> exact applyArgs_thin c l _ _
        · rfl
termination_by structural l => l
theorem kv_thin (c : Cfg) : ∀ p : Pair R, p.rule ≠ .apply_call → buildKv c (thin p) = buildKv c p
  | .mk r a b t l, h => by
    have h : r ≠ .apply_call := h
    rw [thin, buildKv, buildKv, if_neg h, kvLoop_thin c l]
termination_by structural p => p
theorem kvLoop_thin (c : Cfg) : ∀ (l : List (Pair R)) (k x : AST), kvLoop c (thinL l) k x = kvLoop c l k x
  | [], k, x => by rw [thinL]
  | p :: l, k, x => by
    rw [thinL, kvLoop, kvLoop, thin_rule]
    split
    · exact kvLoop_thin c l _ _
    · split
      · rename_i h; rw [thin_text (by rw [h]; rfl)]; exact kvLoop_thin c l _ _
      · split
        · rename_i h
          rw [expr_thin c p]
          cases buildExpr c p with
          | none => rfl
          | some a => exact kvLoop_thin c l _ _
        · rfl
termination_by structural l => l
theorem slice_thin (c : Cfg) : ∀ p : Pair R, p.rule ≠ .apply_call → buildSlice c (thin p) = buildSlice c p
  | .mk r a b t l, h => by
    have h : r ≠ .apply_call := h
    rw [thin, buildSlice, buildSlice, if_neg h, sliceItems_thin c l]
termination_by structural p => p
theorem sliceItems_thin (c : Cfg) : ∀ l : List (Pair R), sliceItems c (thinL l) = sliceItems c l
  | [] => by rw [thinL]
  | p :: l => by
    rw [thinL, sliceItems, sliceItems, thin_rule]
    split
    · exact sliceItems_thin c l
    · split
      · rename_i h; rw [index_thin c p (by rw [h]; decide), sliceItems_thin c l]
      · rfl
termination_by structural l => l
theorem index_thin (c : Cfg) : ∀ p : Pair R, p.rule ≠ .apply_call → buildIndex c (thin p) = buildIndex c p
  | .mk r a b t l, h => by
    have h : r ≠ .apply_call := h
    rw [thin, buildIndex, buildIndex, if_neg h, indexLoop_thin c _ l]
termination_by structural p => p
theorem indexLoop_thin (c : Cfg) (z : Position) : ∀ (l : List (Pair R)) (a b s : AST),
    indexLoop c z (thinL l) a b s = indexLoop c z l a b s
  | [], a, b, s => by rw [thinL]
  | p :: l, a, b, s => by
    rw [thinL, indexLoop, indexLoop, thin_rule]
    split
    · exact indexLoop_thin c z l _ _ _
    · split
      · rename_i h
        rw [first_thin c p (by rw [h]; decide)]
        cases buildFirst c p with
        | none => rfl
        | some e => exact indexLoop_thin c z l _ _ _
      · split
        · rename_i h
          rw [first_thin c p (by rw [h]; decide)]
          cases buildFirst c p with
          | none => rfl
          | some e => exact indexLoop_thin c z l _ _ _
        · split
          · rename_i h
            rw [first_thin c p (by rw [h]; decide)]
            cases buildFirst c p with
            | none => rfl
            | some e => exact indexLoop_thin c z l _ _ _
          · split
            · rename_i h; exact expr_thin c p
            · rfl
termination_by structural l => l
theorem first_thin (c : Cfg) : ∀ p : Pair R, p.rule ≠ .apply_call →
    buildFirst c (thin p) = buildFirst c p
  | .mk r a b t [], h => by
    have h : r ≠ .apply_call := h
    rw [thin, if_neg h, thinL, buildFirst, buildFirst]
  | .mk r a b t (p :: l), h => by
    have h : r ≠ .apply_call := h
    rw [thin, if_neg h, thinL, buildFirst, buildFirst]
    exact expr_thin c p
termination_by structural p => p
theorem data_thin (c : Cfg) : ∀ p : Pair R, p.rule ≠ .apply_call → buildData c (thin p) = buildData c p
  | .mk r a b t [], h => by
    have h : r ≠ .apply_call := h
    rw [thin, if_neg h, thinL, buildData, buildData]
  | .mk r a b t (p :: l), h => by
    have h : r ≠ .apply_call := h
    rw [thin, if_neg h, thinL, buildData, buildData, thin_rule, thin_start, thin_stop]
    split
    · rename_i h; exact list_thin c p (by rw [h]; decide)
    · split
      · rename_i h; rw [thin_text (by rw [h]; rfl)]
      · split
        · rename_i h; rw [parseString, parseString, thin_inner (by rw [h]; decide), stringText_thin]
        · split
          · rename_i h; rw [thin_text (by rw [h]; rfl)]
          · split
            · rename_i h; rw [thin_text (by rw [h]; rfl)]
            · split
              · rename_i h; rw [thin_text (by rw [h]; rfl)]
              · split
                · rename_i h; rw [thin_text (by rw [h]; rfl)]
                · split
                  · rename_i h; rw [thin_text (by rw [h]; rfl)]
                  · split
                    · rename_i h
                      rw [parseSlot, parseSlot, thin_text (by rw [h]; rfl), thin_inner (by rw [h]; decide), slotArgs_thin]
                    · rfl
termination_by structural p => p
theorem list_thin (c : Cfg) : ∀ p : Pair R, p.rule ≠ .apply_call → buildList c (thin p) = buildList c p
  | .mk r a b t l, h => by
    have h : r ≠ .apply_call := h
    rw [thin, buildList, buildList, if_neg h, listItems_thin c l]
termination_by structural p => p
theorem listItems_thin (c : Cfg) : ∀ l : List (Pair R), listItems c (thinL l) = listItems c l
  | [] => by rw [thinL]
  | p :: l => by
    rw [thinL, listItems, listItems, thin_rule]
    split
    · exact listItems_thin c l
    · split
      · rename_i h; rw [expr_thin c p, listItems_thin c l]
      · rfl
termination_by structural l => l
end

theorem expression_thin (c : Cfg) : ∀ (l : List (Pair R)) (x : AST), buildExpression c (thinL l) x = buildExpression c l x
  | [], x => rfl
  | p :: l, x => by
    simp only [thinL, buildExpression, thin_rule]
    split
    · rw [expr_thin c p]
      cases buildExpr c p with
      | none => rfl
      | some a => exact expression_thin c l a
    · split
      · exact expression_thin c l x
      · rfl

/-- Dropping the texts that are not looked at changes nothing. -/
theorem pairs_thin (c : Cfg) : ∀ l : List (Pair R), parsePairs c (thinL l) = parsePairs c l
  | [] => rfl
  | p :: l => by
    simp only [thinL, parsePairs, thin_rule]
    split
    · exact pairs_thin c l
    · split
      · rename_i h
        rw [thin_inner (by rw [h]; decide), expression_thin]
      · split
        · exact pairs_thin c l
        · rfl

/-- Pairs that agree on rules, and on texts where these are looked at, give the same expression but for positions. -/
theorem pairs_same {l m : List (Pair R)} (h : barePairs (thinL l) = barePairs (thinL m)) (c d : Cfg) :
    eraseR (parsePairs c l) = eraseR (parsePairs d m) := by
  rw [← pairs_thin c l, ← pairs_thin d m, pairs_bare c c, pairs_bare d c, h]

end SM.Props
