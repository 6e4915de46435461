import Verif.Props.Bare
/-
What texts parse to: prefix and suffix operators, dots, indices, spans, calls, programs.
-/
namespace SM.Props
open SM SM.Peg

variable {u : Uni}

/-- A term alone in the text. -/
theorem parse_term (L : Lawful u) (c : Cfg) (t : STerm) (h : t.Ok u) (hn : Wordless t.text) {w w' : Str}
    (hw : Blank u w) (hw' : Blank u w') (hc : c.input = w ++ (t.text ++ w')) :
    eraseR (parseText u c) = answer t.value := by
  have ht : (SExpr.mk t []).text = t.text := by simp [SExpr.text, stepsText]
  have := C53_expressions L c (.mk t []) (by rw [SExpr.Ok, StepsOk]; exact ⟨h, trivial⟩) (by rw [ht]; exact hn) hw hw'
    (by rw [ht]; exact hc)
  rw [this]
  simp [SExpr.value, stepsValue, group, evalTree]

/-! ### Prefix and suffix operators -/

/-- The function of a prefix operator. -/
def prefixOf (p : Pre) : Sym :=
  match p with
  | .bang => ⟨[c!"std", c!"prefix"], c!"not", .prefix c!"!", 0⟩
  | .neg => ⟨[], [], .normal, 0⟩
  | .plus => ⟨[c!"std", c!"prefix"], c!"plus", .prefix c!"+", 0⟩
  | .minus => ⟨[c!"std", c!"prefix"], c!"minus", .prefix c!"-", 0⟩
  | .star => ⟨[c!"std", c!"prefix"], c!"unpack", .prefix c!"*", 0⟩

/-- Two suffix operators: `!!` (or else `!`). -/
def suffixOf (double : Bool) : Sym :=
  if double then ⟨[c!"std", c!"suffix"], c!"factorial2", .suffix c!"!!", 0⟩
  else ⟨[c!"std", c!"suffix"], c!"factorial", .suffix c!"!", 0⟩

/-- How they are written. -/
def suffixText (double : Bool) : Str := if double then c!"!!" else c!"!"

/-- A function of one argument. -/
def call1 (s : Sym) (a : AST) : AST := .function s [.mk [a] [] noPos]

theorem preFold_some {ps : List Pre} (h : Pre.neg ∉ ps) (a : AST) :
    preFold ps a = some (ps.foldr (fun p a => call1 (prefixOf p) a) a) := by
  induction ps with
  | nil => rfl
  | cons p ps ih =>
    have hp : p ≠ .neg := fun e => h (by simp [e])
    rw [preFold, ih fun e => h (by simp [e])]
    cases p <;> first | rfl | exact absurd rfl hp

theorem preFold_none {ps : List Pre} (h : Pre.neg ∈ ps) (a : AST) : preFold ps a = none := by
  induction ps with
  | nil => cases h
  | cons p ps ih =>
    rw [preFold]
    rcases List.mem_cons.1 h with rfl | h
    · cases preFold ps a <;> rfl
    · rw [ih h]; rfl

theorem sufs_some (ds : List Bool) (a : AST) :
    sufsApply (ds.map fun d => .op (suffixText d)) a = some (ds.foldl (fun a d => call1 (suffixOf d) a) a) := by
  induction ds generalizing a with
  | nil => simp [sufsApply]
  | cons d ds ih =>
    rw [List.map_cons, sufsApply, SSuf.apply, List.foldl_cons]
    cases d <;> exact ih _

theorem sufs_none {y : Str} (hy : ∀ a, sufApply y a = none) :
    ∀ {l : List SSuf}, SSuf.op y ∈ l → ∀ a, sufsApply l a = none := by
  intro l
  induction l with
  | nil => intro h; cases h
  | cons s l ih =>
    intro h a
    rw [sufsApply]
    rcases List.mem_cons.1 h with rfl | h
    · rw [SSuf.apply, hy]; rfl
    · cases s.apply a with
      | none => rfl
      | some b => exact ih h b

/-- **C45**.  Suffix operators apply to the operand in order, then prefix operators from the innermost outwards. -/
theorem C45_inside_out (L : Lawful u) (c : Cfg) (ps : List Pre) (n : SNode) (ds : List Bool) (hps : Pre.neg ∉ ps)
    (hn : n.Ok u) (hds : SufsOk u (ds.map fun d => .op (suffixText d))) {a : AST} (ha : n.value = some a)
    {w w' : Str} (hw : Blank u w) (hw' : Blank u w')
    (hwl : Wordless (ps.map Pre.char ++ (n.text ++ ds.flatMap suffixText)))
    (hc : c.input = w ++ ((ps.map Pre.char ++ (n.text ++ ds.flatMap suffixText)) ++ w')) :
    eraseR (parseText u c) = .ok (ps.foldr (fun p a => call1 (prefixOf p) a)
      (ds.foldl (fun a d => call1 (suffixOf d) a) a)) := by
  have hs : ∀ ds : List Bool, sufsText (ds.map fun d => .op (suffixText d)) = ds.flatMap suffixText := by
    intro ds
    induction ds with
    | nil => simp [sufsText]
    | cons d ds ih => simp [sufsText, SSuf.text, ih]
  have := parse_term L c (.mk ps n (ds.map fun d => .op (suffixText d))) (by rw [STerm.Ok]; exact ⟨hn, hds⟩)
    (by rw [STerm.text, hs]; exact hwl) hw hw' (by rw [STerm.text, hs]; exact hc)
  rw [this, STerm.value, ha, Option.bind_some, sufs_some, Option.bind_some, preFold_some hps]
  rfl

/-- `!` does not stand before another suffix: one way to meet the condition on suffixes. -/
theorem sufsOk_ops : ∀ (ds : List Bool), (∀ d ∈ ds.dropLast, d = true) →
    SufsOk u (ds.map fun d => .op (suffixText d)) := by
  intro ds
  induction ds with
  | nil => intro _; simp [SufsOk]
  | cons d ds ih =>
    intro h
    rw [List.map_cons, SufsOk]
    refine ⟨?_, ?_, ih ?_⟩
    · rw [SSuf.Ok]; exact .inl (by cases d <;> decide)
    · intro c e
      cases ds with
      | nil => intro r e'; rw [List.map_nil, sufsText] at e'; cases e'
      | cons d' ds =>
        have : d = true := h d (by simp)
        subst this
        rw [SSuf.text] at e
        cases e
    · intro e he
      cases ds with
      | nil => cases he
      | cons d' ds => exact h e (by simp [he])

/-- `-+x!!!` is `-(+((x!!)!))`. -/
example : eraseR (parseText asciiUni ⟨[], c!"-+x!!!", []⟩) =
    .ok (call1 (prefixOf .minus) (call1 (prefixOf .plus) (call1 (suffixOf false) (call1 (suffixOf true)
      (.mkSymbol c!"x"))))) :=
  C45_inside_out lawful_asciiUni ⟨[], c!"-+x!!!", []⟩ [.minus, .plus] (.atom (.sym ⟨c!"x", []⟩)) [true, false] (by decide)
    (by
      rw [SNode.Ok]
      exact ⟨⟨.inl ⟨'x', [], rfl, by decide, by decide⟩, by simp⟩, by intro k hk; revert k; decide⟩)
    (sufsOk_ops _ (by decide)) (by rw [SNode.value]; rfl) (w := []) (w' := []) blank_nil blank_nil
    (wordless_head (c := '-') rfl (by decide)) (by rw [SNode.text]; decide)

/-- **C45** (violation).  The prefix `¬`, the suffix `?` and any number of primes make the parser panic. -/
theorem C45_panics (L : Lawful u) (c : Cfg) (ps : List Pre) (n : SNode) (l : List SSuf)
    (h : Pre.neg ∈ ps ∨ SSuf.op c!"?" ∈ l ∨ ∃ k, SSuf.op ('\'' :: List.replicate k '\'') ∈ l) (hn : n.Ok u) (hl : SufsOk u l) {w w' : Str} (hw : Blank u w)
    (hw' : Blank u w') (hwl : Wordless (ps.map Pre.char ++ (n.text ++ sufsText l)))
    (hc : c.input = w ++ ((ps.map Pre.char ++ (n.text ++ sufsText l)) ++ w')) : parseText u c = .panic := by
  have := parse_term L c (.mk ps n l) (by rw [STerm.Ok]; exact ⟨hn, hl⟩) (by rw [STerm.text]; exact hwl) hw hw'
    (by rw [STerm.text]; exact hc)
  apply eraseR_panic
  rw [this, STerm.value]
  cases n.value with
  | none => rfl
  | some a =>
    rw [Option.bind_some]
    rcases h with h | h | ⟨k, h⟩
    · cases sufsApply l a with
      | none => rfl
      | some b => rw [Option.bind_some, preFold_none h]; rfl
    · rw [sufs_none (fun _ => rfl) h]; rfl
    · rw [sufs_none (fun _ => by simp [sufApply]) h]; rfl

/-- **C45** (violation).  Primes after an operand, whatever the operand. -/
theorem C45_derivative (L : Lawful u) (c : Cfg) (n : SNode) (k : Nat) (hn : n.Ok u) {w w' : Str} (hw : Blank u w)
    (hw' : Blank u w') (hwl : Wordless (n.text ++ '\'' :: List.replicate k '\''))
    (hc : c.input = w ++ ((n.text ++ '\'' :: List.replicate k '\'') ++ w')) : parseText u c = .panic := by
  have e : sufsText [.op ('\'' :: List.replicate k '\'')] = '\'' :: List.replicate k '\'' := by
    simp [sufsText, SSuf.text]
  refine C45_panics L c [] n [.op ('\'' :: List.replicate k '\'')] (.inr (.inr ⟨k, by simp⟩)) hn ?_ hw hw' ?_ ?_
  · rw [SufsOk, SSuf.Ok, SufsOk, sufsText]
    exact ⟨.inr ⟨k, rfl⟩, fun _ _ _ h => (nomatch h), trivial⟩
  · rw [e]; exact hwl
  · rw [e]; exact hc

/-- `x''`. -/
example (c : Cfg) (hc : c.input = c!"x''") : parseText asciiUni c = .panic := by
  refine C45_derivative lawful_asciiUni c (.atom (.sym ⟨c!"x", []⟩)) 1 ?_ (w := []) (w' := []) blank_nil blank_nil ?_ ?_
  · rw [SNode.Ok]
    exact ⟨⟨.inl ⟨'x', [], rfl, by decide, by decide⟩, by simp⟩, by intro k hk; revert k; decide⟩
  · exact wordless_head (c := 'x') rfl (by decide)
  · rw [hc, SNode.text]; rfl

/-! ### Dots -/

/-- One operator between two terms. -/
theorem parse_binary (L : Lawful u) (c : Cfg) (t x : STerm) (o : Op) (wb wa : Str)
    (h : (SExpr.mk t [.mk wb (.op o) wa x]).Ok u) {w w' : Str} (hw : Blank u w) (hw' : Blank u w')
    (hwl : Wordless (t.text ++ (wb ++ (Tok.op o).char :: (wa ++ x.text))))
    (hc : c.input = w ++ ((t.text ++ (wb ++ (Tok.op o).char :: (wa ++ x.text))) ++ w')) :
    eraseR (parseText u c) = answer (t.value.bind fun a => x.value.bind fun b => o.apply a b) := by
  have ht : (SExpr.mk t [.mk wb (.op o) wa x]).text = t.text ++ (wb ++ (Tok.op o).char :: (wa ++ x.text)) := by
    simp [SExpr.text, stepsText, SStep.text]
  rw [C53_expressions L c _ h (by rw [ht]; exact hwl) hw hw' (by rw [ht]; exact hc)]
  congr 1
  simp only [SExpr.value, stepsValue, group, List.foldl_cons, List.foldl_nil, attach, evalTree, id]
  cases t.value <;> cases x.value <;> rfl

/-- The meaning of a dot: the left operand becomes the first argument of the right one. -/
inductive Dotted (a : AST) : AST → AST → Prop
  | call (f : Sym) (xs : List AST) (kw : List (AST × AST)) (p : Position) (more : List Param) :
      Dotted a (.function f (.mk xs kw p :: more)) (.function f (.mk (a :: xs) kw p :: more))
  | name (f : Sym) : Dotted a (.symbol f) (.function f [.mk [a] [] noPos])
  | item (n : Int) : Dotted a (.integer n) (.function ⟨[c!"std", c!"core"], c!"index", .normal, 0⟩
      [.mk [a, .integer n] [] noPos])

theorem dotApply_some {a b r : AST} (h : Dotted a b r) : dotApply a b = some r := by cases h <;> rfl

theorem dotApply_none {a b : AST} (h : ¬ ∃ r, Dotted a b r) : dotApply a b = none := by
  cases b with
  | symbol f => exact absurd ⟨_, .name f⟩ h
  | integer n => exact absurd ⟨_, .item n⟩ h
  | function f ps =>
    cases ps with
    | nil => rfl
    | cons p ps =>
      obtain ⟨xs, kw, q⟩ := p
      exact absurd ⟨_, .call f xs kw q ps⟩ h
  | _ => rfl

/-- **C49**.  `a.f(args)` calls `f` with `a` before the arguments, `a.f` is `f(a)`, `a.N` is `index(a, N)`; anything else
after a dot makes the parser panic. -/
theorem C49_dot (L : Lawful u) (c : Cfg) (t x : STerm) (wb wa : Str)
    (h : (SExpr.mk t [.mk wb (.op .dot) wa x]).Ok u) {w w' : Str} (hw : Blank u w) (hw' : Blank u w')
    (hwl : Wordless (t.text ++ (wb ++ '.' :: (wa ++ x.text))))
    (hc : c.input = w ++ ((t.text ++ (wb ++ '.' :: (wa ++ x.text))) ++ w')) {a b : AST} (ha : t.value = some a)
    (hb : x.value = some b) :
    (∀ r, Dotted a b r → eraseR (parseText u c) = .ok r) ∧
      ((¬ ∃ r, Dotted a b r) → parseText u c = .panic) := by
  have := parse_binary L c t x .dot wb wa h hw hw' hwl hc
  rw [ha, hb] at this
  refine ⟨fun r hr => ?_, fun hr => eraseR_panic ?_⟩
  · rw [this]
    show answer (dotApply a b) = _
    rw [dotApply_some hr]; rfl
  · rw [this]
    show answer (dotApply a b) = _
    rw [dotApply_none hr]; rfl

/-- `3 .f` is `f(3)`. -/
example : eraseR (parseText asciiUni ⟨[], c!"3 .f", []⟩) =
    .ok (.function ⟨[], c!"f", .normal, 0⟩ [.mk [.integer 3] [] noPos]) := by
  have hf : (STerm.mk [] (.atom (.sym ⟨c!"f", []⟩)) []).Ok asciiUni := by
    rw [STerm.Ok, SNode.Ok, SufsOk]
    exact ⟨⟨⟨.inl ⟨'f', [], rfl, by decide, by decide⟩, by simp⟩, by intro k hk; revert k; decide⟩, trivial⟩
  have h3 : (STerm.mk [] (.atom (.int 3)) []).Ok asciiUni := by
    rw [STerm.Ok, SNode.Ok, SufsOk]
    exact ⟨trivial, trivial⟩
  refine (C49_dot lawful_asciiUni ⟨[], c!"3 .f", []⟩ (.mk [] (.atom (.int 3)) []) (.mk [] (.atom (.sym ⟨c!"f", []⟩)) []) c!" " []
    ?_ (w := []) (w' := []) blank_nil blank_nil (numeral_wordless 3 _) (by decide) (a := .integer 3)
    (by simp [STerm.value, SNode.value, SAtom.value, sufsApply, preFold])
    (b := .symbol ⟨[], c!"f", .normal, 0⟩) ?_).1 _ (.name _)
  · rw [SExpr.Ok, StepsOk, StepsOk]
    exact ⟨h3, (fun _ h => nomatch h), blank_ws (by unfold Ws; decide), blank_nil, (fun h => nomatch h), hf, trivial⟩
  · simp [STerm.value, SNode.value, SAtom.value, sufsApply, preFold]
    rfl

/-! ### Indices -/

/-- All values of items. -/
theorem allSome_some {α : Type} {l : List (Option α)} {v : List α} (h : l = v.map some) : allSome l = some v := by
  subst h
  induction v with
  | nil => simp [allSome]
  | cons a v ih => simp [allSome, ih]

theorem itemsValue_eq (l : List SItem) : itemsValue l = l.map SItem.value := by
  induction l with
  | nil => simp [itemsValue]
  | cons i l ih => simp [itemsValue, ih]

theorem itemsArg_eq (l : List SItem) : itemsArg l = l.map SItem.arg := by
  induction l with
  | nil => simp [itemsArg]
  | cons i l ih => simp [itemsArg, ih]

/-- **C50**.  `x[i, j, ...]` parses to `Index(x, i, j, ...)`. -/
theorem C50_index (L : Lawful u) (c : Cfg) (n : SNode) (h : Str) (i : SItem) (l : List SItem) (o : Trail) (hn : n.Ok u)
    (hs : (SSuf.slice h i l o).Ok u) {w w' : Str} (hw : Blank u w) (hw' : Blank u w')
    (hwl : Wordless (n.text ++ (h ++ '[' :: (i.text ++ itemsText l (trailText o ++ c!"]")))))
    (hc : c.input = w ++ ((n.text ++ (h ++ '[' :: (i.text ++ itemsText l (trailText o ++ c!"]")))) ++ w'))
    {a : AST} {vs : List AST} (ha : n.value = some a) (hv : (i :: l).map SItem.value = vs.map some) :
    eraseR (parseText u c) = .ok (.function ⟨[c!"std", c!"core"], c!"Index", .normal, 0⟩ [.mk (a :: vs) [] noPos]) := by
  have ht : (STerm.mk [] n [.slice h i l o]).text = n.text ++ (h ++ '[' :: (i.text ++ itemsText l (trailText o ++ c!"]"))) := by
    simp [STerm.text, sufsText, SSuf.text]
  have := parse_term L c (.mk [] n [.slice h i l o]) (by
      rw [STerm.Ok, SufsOk, SufsOk]
      refine ⟨hn, hs, ?_, trivial⟩
      intro _ _ r e
      rw [sufsText] at e
      cases e) (by rw [ht]; exact hwl) hw hw' (by rw [ht]; exact hc)
  rw [this, STerm.value, ha, Option.bind_some, sufsApply, SSuf.apply, indexBy, itemsValue_eq, ← List.map_cons,
    allSome_some hv, Option.map_some, Option.bind_some, sufsApply, Option.bind_some]
  rfl

/-- `x[2, :]`. -/
example : eraseR (parseText asciiUni ⟨[], c!"x[2,:]", []⟩) =
    .ok (.function ⟨[c!"std", c!"core"], c!"Index", .normal, 0⟩ [.mk [.mkSymbol c!"x", .integer 2,
      .function ⟨[c!"std", c!"core"], c!"Span", .normal, 0⟩ [.mk [.integer 1,
        .symbol ⟨[c!"std", c!"core"], c!"All", .normal, 0⟩, .integer 1] [] noPos]] [] noPos]) := by
  refine C50_index lawful_asciiUni ⟨[], c!"x[2,:]", []⟩ (.atom (.sym ⟨c!"x", []⟩)) []
    (.mk false [] (.expr (.node (.atom (.int 2)))) []) [.mk false [] (.span2 .none false .none) []] none ?_ ?_ (w := [])
    (w' := []) blank_nil blank_nil ?_ (by decide) (a := .mkSymbol c!"x") ?_ ?_
  · rw [SNode.Ok]
    exact ⟨⟨.inl ⟨'x', [], rfl, by decide, by decide⟩, by simp⟩, by intro k hk; revert k; decide⟩
  · rw [SSuf.Ok, SItem.Ok, ItemsOk, ItemsOk, SItem.Ok, SContent.Ok, SContent.Ok, SPart.Ok, SLast.Ok]
    exact ⟨by simp, ⟨blank_nil, blank_nil, rfl, node_ok (by rw [SNode.Ok]; trivial)⟩,
      ⟨⟨blank_nil, blank_nil, rfl, trivial, trivial⟩, trivial⟩, fun _ _ h => nomatch h⟩
  · exact wordless_head (c := 'x') rfl (by decide)
  · rw [SNode.value]; rfl
  · simp [SItem.value, SContent.value, node_value, SNode.value, SAtom.value, SPart.value, SLast.value, spanOf, orDefault]
    exact ⟨rfl, rfl⟩

/-- **C50**.  The parts of a span that are left out are 1, `All` and 1. -/
theorem C50_spans (s m : SPart) (e t : SLast) (b b' : Bool) (w : Str) {x y z : AST}
    (hs : s.value = some (some x) ∨ s = .none ∧ x = .integer 1)
    (he : e.value = some (some y) ∨ e = .none ∧ y = .symbol ⟨[c!"std", c!"core"], c!"All", .normal, 0⟩)
    (hm : m.value = some (some y) ∨ m = .none ∧ y = .symbol ⟨[c!"std", c!"core"], c!"All", .normal, 0⟩)
    (ht : t.value = some (some z) ∨ t = .none ∧ z = .integer 1) :
    (SContent.span2 s b e).value = some (.function ⟨[c!"std", c!"core"], c!"Span", .normal, 0⟩
      [.mk [x, y, .integer 1] [] noPos]) ∧
    (SContent.span3 s b w m b' t).value = some (.function ⟨[c!"std", c!"core"], c!"Span", .normal, 0⟩
      [.mk [x, y, z] [] noPos]) := by
  have h1 : orDefault (.integer 1) s.value = some x := by
    rcases hs with h | ⟨h, rfl⟩
    · rw [h]; rfl
    · rw [h, SPart.value]; rfl
  have h2 : orDefault (.mkSymbol c!"std::core::All") e.value = some y := by
    rcases he with h | ⟨h, rfl⟩
    · rw [h]; rfl
    · rw [h, SLast.value]; rfl
  have h3 : orDefault (.mkSymbol c!"std::core::All") m.value = some y := by
    rcases hm with h | ⟨h, rfl⟩
    · rw [h]; rfl
    · rw [h, SPart.value]; rfl
  have h4 : orDefault (.integer 1) t.value = some z := by
    rcases ht with h | ⟨h, rfl⟩
    · rw [h]; rfl
    · rw [h, SLast.value]; rfl
  constructor
  · rw [SContent.value, spanOf, h1, h2]; rfl
  · rw [SContent.value, spanOf, h1, h3, h4]; rfl

end SM.Props
