import Verif.Props.Session
/-
C36 on texts, C69: how written expressions are grouped.
-/
namespace SM.Props
open SM SM.Peg

variable {u : Uni}

/-- How tight an operator binds: the dot tightest, then powers, quotients, products, and sums and differences. -/
def level : Op → Nat
  | .plus | .minus => 0
  | .star | .cross => 1
  | .slash | .obelus => 2
  | .caret => 3
  | .dot => 4

/-- Whether a chain of operators that bind equally tight is grouped to the right; only powers are. -/
def rightward (o : Op) : Prop := o = .caret

instance (o : Op) : Decidable (rightward o) := inferInstanceAs (Decidable (_ = _))

/-- Operators and terms, with the blank space around the operators. -/
abbrev Links := List (Str × Op × Str × STerm)

/-- The steps of an expression. -/
def linked (l : Links) : List SStep := l.map fun s => .mk s.1 (.op s.2.1) s.2.2.1 s.2.2.2

/-- The operator `o` is the one to split at: no operator before it and none after it binds less, and of several that bind
equally, it is the last one, or the first one in the case of powers. -/
def Splits (o : Op) (before after : Links) : Prop :=
  (∀ s ∈ before, level o < level s.2.1 ∨ level o = level s.2.1 ∧ ¬ rightward o) ∧
  (∀ s ∈ after, level o < level s.2.1 ∨ level o = level s.2.1 ∧ rightward o)

theorem linked_value (l : Links) : stepsValue (linked l) = l.map fun s => (s.2.1, s.2.2.2.value) := by
  induction l with
  | nil => simp [linked, stepsValue]
  | cons s l ih => rw [linked, List.map_cons, stepsValue, ← linked, ih]; rfl

theorem left_of_level {o p : Op} (h : level o < level p ∨ level o = level p ∧ ¬ rightward o) : LeftOk p.binds o.binds := by
  revert h; cases o <;> cases p <;> decide

theorem right_of_level {o p : Op} (h : level o < level p ∨ level o = level p ∧ rightward o) : RightOk o.binds p.binds := by
  revert h; cases o <;> cases p <;> decide

theorem root_mem {ι : Type} {t : OpTree ι Op} {o : Op} (h : t.root = some o) : ∃ x, (o, x) ∈ t.steps.2 := by
  cases t with
  | leaf x => nomatch h
  | node l p r =>
    cases h
    exact ⟨r.steps.1, by simp [OpTree.steps]⟩

theorem group_split {ι : Type} (x y : ι) (o : Op) (l r : List (Op × ι)) (hl : ∀ s ∈ l, LeftOk s.1.binds o.binds)
    (hr : ∀ s ∈ r, RightOk o.binds s.1.binds) :
    group x (l ++ (o, y) :: r) = .node (group x l) o (group y r) := by
  obtain ⟨h1, h2⟩ := group_spec x l
  obtain ⟨h3, h4⟩ := group_spec y r
  have hp : Proper (.node (group x l) o (group y r)) := by
    refine ⟨h1, h3, _, rfl, ?_, ?_⟩
    · intro p hp
      obtain ⟨z, hz⟩ := root_mem hp
      rw [h2] at hz
      exact ⟨_, rfl, hl _ hz⟩
    · intro p hp
      obtain ⟨z, hz⟩ := root_mem hp
      rw [h4] at hz
      exact ⟨_, rfl, hr _ hz⟩
  rw [group_of_proper hp]
  simp [OpTree.steps, h2, h4]

/-- **C36**.  An expression is split at the operator that binds least -- the last such operator, or the first one in the
case of powers -- into the expressions on its two sides. -/
theorem split_value (t x : STerm) (o : Op) (wb wa : Str) (before after : Links) (h : Splits o before after) :
    (SExpr.mk t (linked (before ++ (wb, o, wa, x) :: after))).value =
      (SExpr.mk t (linked before)).value.bind fun a => (SExpr.mk x (linked after)).value.bind fun b => o.apply a b := by
  simp only [SExpr.value, linked_value, List.map_append, List.map_cons]
  rw [group_split _ _ _ _ _ ?_ ?_]
  · rw [evalTree]
    cases evalTree id Op.apply (group t.value (before.map fun s => (s.2.1, s.2.2.2.value))) <;>
      cases evalTree id Op.apply (group x.value (after.map fun s => (s.2.1, s.2.2.2.value))) <;> rfl
  · intro s hs
    obtain ⟨q, hq, rfl⟩ := List.mem_map.1 hs
    exact left_of_level (h.1 q hq)
  · intro s hs
    obtain ⟨q, hq, rfl⟩ := List.mem_map.1 hs
    exact right_of_level (h.2 q hq)

/-- **C36**.  The text of an expression means the operator that binds least -- the last such operator, or the first one in
the case of powers -- applied to what the expressions on its two sides mean. -/
theorem C36_split (L : Lawful u) (t x : STerm) (o : Op) (wb wa : Str) (before after : Links) (h : Splits o before after)
    {e : SExpr} (he : e = SExpr.mk t (linked (before ++ (wb, o, wa, x) :: after))) (hok : e.Ok u) (hn : Wordless e.text)
    {w w' : Str} (hw : Blank u w) (hw' : Blank u w') {c : Cfg} (hc : c.input = w ++ (e.text ++ w')) :
    eraseR (parseText u c) = answer ((SExpr.mk t (linked before)).value.bind fun a =>
      (SExpr.mk x (linked after)).value.bind fun b => o.apply a b) := by
  rw [C53_expressions L c e hok hn hw hw' hc, he, split_value _ _ _ _ _ _ _ h]

theorem level_rightward {o p : Op} (h : level o = level p) : rightward o ↔ rightward p := by
  revert h; cases o <;> cases p <;> decide

theorem splits_exists : ∀ l : Links, l ≠ [] → ∃ before s after, l = before ++ s :: after ∧ Splits s.2.1 before after
  | [], h => absurd rfl h
  | [s], _ => ⟨[], s, [], rfl, fun _ h => (nomatch h), fun _ h => (nomatch h)⟩
  | s :: q :: l, _ => by
    obtain ⟨b, d, a, he, h1, h2⟩ := splits_exists (q :: l) (by simp)
    by_cases h : level d.2.1 < level s.2.1 ∨ level d.2.1 = level s.2.1 ∧ ¬ rightward d.2.1
    · refine ⟨s :: b, d, a, by rw [he]; rfl, ?_, h2⟩
      intro z hz
      rcases List.mem_cons.1 hz with rfl | hz
      · exact h
      · exact h1 z hz
    · refine ⟨[], s, q :: l, rfl, fun _ h => (nomatch h), ?_⟩
      intro z hz
      have hsd : level s.2.1 < level d.2.1 ∨ level s.2.1 = level d.2.1 ∧ rightward s.2.1 := by
        rcases Nat.lt_trichotomy (level s.2.1) (level d.2.1) with g | g | g
        · exact .inl g
        · refine .inr ⟨g, ?_⟩
          rw [level_rightward g]
          by_contra hr
          exact h (.inr ⟨g.symm, hr⟩)
        · exact absurd (.inl g) h
      have hz' : z = d ∨ level d.2.1 ≤ level z.2.1 := by
        rw [he] at hz
        rcases List.mem_append.1 hz with hz | hz
        · right; rcases h1 z hz with g | g <;> omega
        · rcases List.mem_cons.1 hz with hz | hz
          · exact .inl hz
          · right; rcases h2 z hz with g | g <;> omega
      rcases hz' with rfl | hz'
      · exact hsd
      · rcases hsd with g | ⟨g, g'⟩
        · left; omega
        · rcases Nat.lt_or_ge (level s.2.1) (level z.2.1) with k | k
          · exact .inl k
          · exact .inr ⟨by omega, g'⟩

/-- **C36**.  Every expression with an operator can be split, and in one way only. -/
theorem C36_split_unique (l : Links) (hl : l ≠ []) :
    ∃ before s after, (l = before ++ s :: after ∧ Splits s.2.1 before after) ∧
      ∀ before' s' after', l = before' ++ s' :: after' → Splits s'.2.1 before' after' →
        before' = before ∧ s' = s ∧ after' = after := by
  obtain ⟨b, s, a, he, h⟩ := splits_exists l hl
  refine ⟨b, s, a, ⟨he, h⟩, ?_⟩
  intro b' s' a' he' h'
  rcases split_cases b' b s' s a' a (he'.symm.trans he) with g | ⟨g, k⟩ | ⟨g, k⟩
  · exact g
  · rcases h'.2 s g with x | ⟨x, x'⟩ <;> rcases h.1 s' k with y | ⟨y, y'⟩
    · omega
    · omega
    · omega
    · exact absurd ((level_rightward x).1 x') y'
  · rcases h.2 s' g with x | ⟨x, x'⟩ <;> rcases h'.1 s k with y | ⟨y, y'⟩
    · omega
    · omega
    · omega
    · exact absurd ((level_rightward x).1 x') y'

/-! ### Chains -/

/-- Terms joined by sums and differences -- or by any operators that bind equally tight, other than powers -- are worked
off from the left. -/
theorem chain_left (t : STerm) (k : Nat) (l : Links) (h : ∀ s ∈ l, level s.2.1 = k ∧ ¬ rightward s.2.1) :
    (SExpr.mk t (linked l)).value =
      l.foldl (fun a s => a.bind fun a => s.2.2.2.value.bind fun b => s.2.1.apply a b) t.value := by
  induction l using List.reverseRecOn with
  | nil => simp [linked, SExpr.value, stepsValue, group, evalTree]
  | append_singleton l s ih =>
    obtain ⟨wb, o, wa, x⟩ := s
    have hs := h (wb, o, wa, x) (by simp)
    rw [split_value t x o wb wa l [] ⟨fun q hq => .inr ⟨?_, hs.2⟩, fun _ h => (nomatch h)⟩, List.foldl_append,
      ih fun q hq => h q (by simp [hq])]
    · simp only [List.foldl_cons, List.foldl_nil]
      congr 1
    · rw [hs.1, (h q (by simp [hq])).1]

/-- What `l` means after a first operand when it is worked off from the right. -/
def fromRight : STerm → Links → Option AST
  | t, [] => t.value
  | t, (_, o, _, x) :: l => t.value.bind fun a => (fromRight x l).bind fun b => o.apply a b

theorem chain_right (t : STerm) (l : Links) (h : ∀ s ∈ l, s.2.1 = .caret) :
    (SExpr.mk t (linked l)).value = fromRight t l := by
  induction l generalizing t with
  | nil => simp [linked, SExpr.value, stepsValue, group, evalTree, fromRight]
  | cons s l ih =>
    obtain ⟨wb, o, wa, x⟩ := s
    have hs : o = .caret := h (wb, o, wa, x) (by simp)
    have := split_value t x o wb wa [] l ⟨fun _ h => (nomatch h), fun q hq => .inr ⟨?_, hs⟩⟩
    · rw [List.nil_append] at this
      rw [this, fromRight, ih x fun q hq => h q (by simp [hq])]
      simp [linked, SExpr.value, stepsValue, group, evalTree]
    · rw [hs, h q (by simp [hq])]

/-- **C36**.  Terms joined by sums and differences are worked off from the left, however many there are; likewise terms
joined by the two signs for products, by the two signs for quotients, and by dots. -/
theorem C36_left (L : Lawful u) (t : STerm) (k : Nat) (l : Links) (h : ∀ s ∈ l, level s.2.1 = k ∧ s.2.1 ≠ .caret)
    {e : SExpr} (he : e = SExpr.mk t (linked l)) (hok : e.Ok u) (hn : Wordless e.text)
    {w w' : Str} (hw : Blank u w) (hw' : Blank u w') {c : Cfg} (hc : c.input = w ++ (e.text ++ w')) :
    eraseR (parseText u c) =
      answer (l.foldl (fun a s => a.bind fun a => s.2.2.2.value.bind fun b => s.2.1.apply a b) t.value) := by
  rw [C53_expressions L c e hok hn hw hw' hc, he, chain_left t k l h]

/-- **C36**.  Towers of powers are worked off from the right, however high they are. -/
theorem C36_powers (L : Lawful u) (t : STerm) (l : Links) (h : ∀ s ∈ l, s.2.1 = .caret)
    {e : SExpr} (he : e = SExpr.mk t (linked l)) (hok : e.Ok u) (hn : Wordless e.text)
    {w w' : Str} (hw : Blank u w) (hw' : Blank u w') {c : Cfg} (hc : c.input = w ++ (e.text ++ w')) :
    eraseR (parseText u c) = answer (fromRight t l) := by
  rw [C53_expressions L c e hok hn hw hw' hc, he, chain_right t l h]

/-! ### Coefficients and signs -/

/-- The factors of a product. -/
def factors (f : SFactor) (m : Str × SFactor) (l : List (Str × SFactor)) : List AST :=
  f.value :: m.2.value :: l.map fun m => m.2.value

/-- A product of given factors. -/
def timesOf (l : List AST) : AST := .function ⟨[c!"std", c!"infix"], c!"times", .infix c!"*" 140, 0⟩ [.mk l [] noPos]

/-- A power. -/
def powerOf (a b : AST) : AST := .function ⟨[c!"std", c!"infix"], c!"power", .infix c!"^" 150, 0⟩ [.mk [a, b] [] noPos]

/-- What is meant by `2x^3`: the power belongs to the last factor. -/
def meant (l : List AST) (b : AST) : AST := timesOf (l.dropLast ++ (l.getLast?.map fun a => powerOf a b).toList)

/-- **C69** (violation).  `2x^3` is read as `(2x)^3`: the power of a product written without a sign is the power of the
whole product, not of its last factor. -/
theorem C69_coefficient (L : Lawful u) (f : SFactor) (m : Str × SFactor) (l : List (Str × SFactor)) (hf : f.Ok u)
    (hl : FactorsOk u f (m :: l)) (x : STerm) (hx : x.Ok u) {b : AST} (hb : x.value = some b) {wb wa : Str}
    (hwb : Blank u wb) (hwa : Blank u wa) {w w' : Str} (hw : Blank u w) (hw' : Blank u w')
    (hn : Wordless ((f.text ++ factorsText (m :: l)) ++ (wb ++ '^' :: (wa ++ x.text)))) {c : Cfg}
    (hc : c.input = w ++ (((f.text ++ factorsText (m :: l)) ++ (wb ++ '^' :: (wa ++ x.text))) ++ w')) :
    eraseR (parseText u c) = .ok (powerOf (timesOf (factors f m l)) b) ∧
      eraseR (parseText u c) ≠ .ok (meant (factors f m l) b) := by
  have ht : (STerm.mk [] (.atom (.prod f m l)) []).text = f.text ++ factorsText (m :: l) := by
    simp [STerm.text, SNode.text, SAtom.text, sufsText]
  have hv : (STerm.mk [] (.atom (.prod f m l)) []).value = some (timesOf (factors f m l)) := by
    simp [STerm.value, SNode.value, SAtom.value, sufsApply, preFold, timesOf, factors, Op.sym, Op.name, Op.text]
  have h := parse_binary L c (.mk [] (.atom (.prod f m l)) []) x .caret wb wa ?_ hw hw'
    (by rw [ht]; exact hn) (by rw [ht]; exact hc)
  · rw [hv, hb] at h
    have h' : eraseR (parseText u c) = .ok (powerOf (timesOf (factors f m l)) b) := h
    refine ⟨h', ?_⟩
    rw [h']
    simp [powerOf, meant, timesOf]
  · simp only [SExpr.Ok, StepsOk, STerm.Ok, SNode.Ok, SAtom.Ok, SufsOk]
    exact ⟨⟨⟨hf, hl⟩, trivial⟩, fun _ _ h => (nomatch h), hwb, hwa, fun h => (nomatch h), hx, trivial⟩

/-- **C69**.  A product written without a sign is one operand for every operator before it: `1/2x` is `1/(2x)`. -/
theorem C69_divisor (L : Lawful u) (t : STerm) (ht : t.Ok u) {a : AST} (ha : t.value = some a) (o : Op) (ho : o ≠ .dot)
    (f : SFactor) (m : Str × SFactor) (l : List (Str × SFactor)) (hf : f.Ok u) (hl : FactorsOk u f (m :: l)) {wb wa : Str}
    (hwb : Blank u wb) (hwa : Blank u wa) (hs : o = .slash → ∀ r, wa ≠ '/' :: r) {w w' : Str} (hw : Blank u w)
    (hw' : Blank u w') (hn : Wordless (t.text ++ (wb ++ (Tok.op o).char :: (wa ++ (f.text ++ factorsText (m :: l)))))) {c : Cfg}
    (hc : c.input = w ++ ((t.text ++ (wb ++ (Tok.op o).char :: (wa ++ (f.text ++ factorsText (m :: l))))) ++ w')) :
    eraseR (parseText u c) = .ok (.function o.sym [.mk [a, timesOf (factors f m l)] [] noPos]) := by
  have hp : (STerm.mk [] (.atom (.prod f m l)) []).text = f.text ++ factorsText (m :: l) := by
    simp [STerm.text, SNode.text, SAtom.text, sufsText]
  have hv : (STerm.mk [] (.atom (.prod f m l)) []).value = some (timesOf (factors f m l)) := by
    simp [STerm.value, SNode.value, SAtom.value, sufsApply, preFold, timesOf, factors, Op.sym, Op.name, Op.text]
  have h := parse_binary L c t (.mk [] (.atom (.prod f m l)) []) o wb wa ?_ hw hw'
    (by rw [hp]; exact hn) (by rw [hp]; exact hc)
  · rw [ha, hv] at h
    rw [h]
    cases o <;> first | rfl | exact absurd rfl ho
  · simp only [SExpr.Ok, StepsOk, STerm.Ok, SNode.Ok, SAtom.Ok, SufsOk]
    exact ⟨ht, fun _ _ h => absurd (Tok.op.inj h) ho, hwb, hwa, fun h => hs (Tok.op.inj h), ⟨⟨hf, hl⟩, trivial⟩, trivial⟩

/-- **C69** (violation).  `-x^2` is read as `(-x)^2`: signs bind tighter than powers. -/
theorem C69_sign (L : Lawful u) (p : Pre) (hp : p ≠ .neg) (n : SNode) (hn : n.Ok u) {a : AST} (ha : n.value = some a)
    (x : STerm) (hx : x.Ok u) {b : AST} (hb : x.value = some b) {wb wa : Str} (hwb : Blank u wb) (hwa : Blank u wa)
    {w w' : Str} (hw : Blank u w) (hw' : Blank u w') {c : Cfg}
    (hc : c.input = w ++ ((p.char :: n.text ++ (wb ++ '^' :: (wa ++ x.text))) ++ w')) :
    eraseR (parseText u c) = .ok (powerOf (call1 (prefixOf p) a) b) ∧
      eraseR (parseText u c) ≠ .ok (call1 (prefixOf p) (powerOf a b)) := by
  have ht : (STerm.mk [p] n []).text = p.char :: n.text := by simp [STerm.text, sufsText]
  have hv : (STerm.mk [p] n []).value = some (call1 (prefixOf p) a) := by
    rw [STerm.value, ha, Option.bind_some, sufsApply, Option.bind_some, preFold_some (by simpa using hp.symm)]
    rfl
  have h := parse_binary L c (.mk [p] n []) x .caret wb wa ?_ hw hw' ?_ (by rw [ht]; exact hc)
  · rw [hv, hb] at h
    have h' : eraseR (parseText u c) = .ok (powerOf (call1 (prefixOf p) a) b) := h
    refine ⟨h', ?_⟩
    rw [h']
    cases p <;> simp [powerOf, call1, prefixOf]
  · simp only [SExpr.Ok, StepsOk, STerm.Ok, SufsOk]
    exact ⟨⟨hn, trivial⟩, fun _ _ h => (nomatch h), hwb, hwa, fun h => (nomatch h), hx, trivial⟩
  · rw [ht]
    intro k hk
    have h : ∀ k ∈ statementWords, ∀ d ∈ k.head?, d ≠ p.char := by cases p <;> decide
    cases k with
    | nil => exact absurd hk (by decide)
    | cons d r => rw [List.cons_append, strip, if_neg (h _ hk d rfl)]

/-! ### Examples -/

/-- A number as a term. -/
def numTerm (n : Nat) : STerm := .mk [] (.atom (.int n)) []

/-- Numbers joined by operators, without blank space. -/
def numLinks (l : List (Op × Nat)) : Links := l.map fun s => ([], s.1, [], numTerm s.2)

/-- How they are written. -/
def numText (a : Nat) (l : List (Op × Nat)) : Str := numeral a ++ l.flatMap fun s => (Tok.op s.1).char :: numeral s.2

theorem numLinks_ok (a : Nat) (l : List (Op × Nat)) (h : ∀ s ∈ l, s.1 ≠ .dot) :
    (SExpr.mk (numTerm a) (linked (numLinks l))).Ok u := by
  rw [SExpr.Ok]
  refine ⟨intTerm_ok a, ?_⟩
  generalize (numTerm a).num = b
  induction l generalizing b with
  | nil => simp [linked, numLinks, StepsOk]
  | cons s l ih =>
    rw [numLinks, linked, List.map_cons, List.map_cons, StepsOk]
    exact ⟨fun _ _ e => absurd (Tok.op.inj e) (h s (by simp)), blank_nil, blank_nil, fun _ r e => (nomatch e), intTerm_ok _,
      ih (fun q hq => h q (by simp [hq])) _⟩

theorem numLinks_text (a : Nat) (l : List (Op × Nat)) :
    (SExpr.mk (numTerm a) (linked (numLinks l))).text = numText a l := by
  rw [SExpr.text, numText, numTerm, intTerm_text]
  congr 1
  induction l with
  | nil => simp [linked, numLinks, stepsText]
  | cons s l ih =>
    rw [numLinks, linked, List.map_cons, List.map_cons, stepsText, ← linked, ← numLinks, ih, SStep.text, numTerm, intTerm_text]
    rfl

/-- `1 - 2 * 3 + 4`: the last sign of a sum or difference is the one to split at. -/
example : eraseR (parseText asciiUni ⟨[], c!"1-2*3+4", []⟩) =
    .ok (.function Op.plus.sym [.mk [.function Op.minus.sym [.mk [.integer 1,
      .function Op.star.sym [.mk [.integer 2, .integer 3] [] noPos]] [] noPos], .integer 4] [] noPos]) := by
  have h := C36_split lawful_asciiUni (numTerm 1) (numTerm 4) .plus [] [] (numLinks [(.minus, 2), (.star, 3)]) []
    (by unfold Splits; decide) (e := .mk (numTerm 1) (linked (numLinks [(.minus, 2), (.star, 3), (.plus, 4)]))) rfl
    (numLinks_ok _ _ (by decide)) (by rw [numLinks_text]; exact numeral_wordless 1 _) (w := []) (w' := []) blank_nil
    blank_nil (c := ⟨[], c!"1-2*3+4", []⟩) (by rw [numLinks_text]; decide)
  have e : (SExpr.mk (numTerm 1) (linked (numLinks [(.minus, 2), (.star, 3)]))).value = some (.function Op.minus.sym [.mk [.integer 1,
      .function Op.star.sym [.mk [.integer 2, .integer 3] [] noPos]] [] noPos]) := rfl
  have e' : (SExpr.mk (numTerm 4) (linked [])).value = some (.integer 4) := rfl
  rw [h, e, e']
  rfl

/-- `8 - 4 - 2` is `(8 - 4) - 2`. -/
example : eraseR (parseText asciiUni ⟨[], c!"8-4-2", []⟩) =
    .ok (.function Op.minus.sym [.mk [.function Op.minus.sym [.mk [.integer 8, .integer 4] [] noPos],
      .integer 2] [] noPos]) := by
  rw [C36_left lawful_asciiUni (numTerm 8) 0 (numLinks [(.minus, 4), (.minus, 2)]) (by decide) rfl
    (numLinks_ok _ _ (by decide)) (by rw [numLinks_text]; exact numeral_wordless 8 _) (w := []) (w' := []) blank_nil
    blank_nil (c := ⟨[], c!"8-4-2", []⟩) (by rw [numLinks_text]; decide)]
  rfl

/-- `2 ^ 3 ^ 2` is `2 ^ (3 ^ 2)`. -/
example : eraseR (parseText asciiUni ⟨[], c!"2^3^2", []⟩) =
    .ok (powerOf (.integer 2) (powerOf (.integer 3) (.integer 2))) := by
  rw [C36_powers lawful_asciiUni (numTerm 2) (numLinks [(.caret, 3), (.caret, 2)]) (by decide) rfl
    (numLinks_ok _ _ (by decide)) (by rw [numLinks_text]; exact numeral_wordless 2 _) (w := []) (w' := []) blank_nil
    blank_nil (c := ⟨[], c!"2^3^2", []⟩) (by rw [numLinks_text]; decide)]
  rfl

/-- `2x^3`. -/
example : eraseR (parseText asciiUni ⟨[], c!"2x^3", []⟩) =
    .ok (powerOf (timesOf [.integer 2, .mkSymbol c!"x"]) (.integer 3)) :=
  (C69_coefficient lawful_asciiUni (.int 2) ([], .sym ⟨c!"x", []⟩) [] trivial
    ⟨by simp, ⟨.inl ⟨'x', [], rfl, by decide, by decide⟩, by simp⟩, .inr (by intro h; cases h), trivial⟩
    (numTerm 3) (intTerm_ok 3) (intTerm_value 3) (wb := []) (wa := []) blank_nil blank_nil (w := []) (w' := []) blank_nil
    blank_nil (numeral_wordless 2 _) (by rw [numTerm, intTerm_text]; decide)).1

/-- `1/2x`. -/
example : eraseR (parseText asciiUni ⟨[], c!"1/2x", []⟩) =
    .ok (.function Op.slash.sym [.mk [.integer 1, timesOf [.integer 2, .mkSymbol c!"x"]] [] noPos]) :=
  C69_divisor lawful_asciiUni (numTerm 1) (intTerm_ok 1) (intTerm_value 1) .slash (by decide) (.int 2)
    ([], .sym ⟨c!"x", []⟩) [] trivial
    ⟨by simp, ⟨.inl ⟨'x', [], rfl, by decide, by decide⟩, by simp⟩, .inr (by intro h; cases h), trivial⟩
    (wb := []) (wa := []) blank_nil blank_nil (fun _ r e => (nomatch e)) (w := []) (w' := []) blank_nil blank_nil
    (by rw [numTerm, intTerm_text]; exact numeral_wordless 1 _) (by rw [numTerm, intTerm_text]; decide)

/-- `-x^2`. -/
example : eraseR (parseText asciiUni ⟨[], c!"-x^2", []⟩) =
    .ok (powerOf (call1 (prefixOf .minus) (.mkSymbol c!"x")) (.integer 2)) :=
  (C69_sign lawful_asciiUni .minus (by decide) (.atom (.sym ⟨c!"x", []⟩))
    (by rw [SNode.Ok]
        exact ⟨⟨.inl ⟨'x', [], rfl, by decide, by decide⟩, by simp⟩, by unfold Path.Free; decide⟩)
    rfl (numTerm 2) (intTerm_ok 2) (intTerm_value 2) (wb := []) (wa := []) blank_nil blank_nil (w := []) (w' := [])
    blank_nil blank_nil (by rw [SNode.text, numTerm, intTerm_text]; decide)).1

end SM.Props
