import Verif.Props.Session
import Verif.Props.Unfinished
import Verif.Props.Line
import Verif.Props.Paren
/-
C82: what the book says about the language (projects/sm-book/docs/cn), compared with what the program does.
-/
namespace SM.Props
open SM SM.Peg

variable {u : Uni}

/-! ### Options (basic/function.md: "options that the function does not handle are ignored") -/

/-- Evaluation does not look at options and positions. -/
theorem forward_options (w : Width) (s : Sym) (as : List AST) (o o' : BMap AST AST) (p p' : Position) :
    forward w (.function s [.mk as o p]) = forward w (.function s [.mk as o' p']) := by
  simp only [forward, evaluateFunction, Param.arguments]

/-- **C82**.  Calls that differ in their options only, in number, order, names or values, are answered alike. -/
theorem C82_options (L : Lawful u) (msg : Str → Str) (w : Width) (p : Path) (hp : p.Ok u)
    {h h' : Str} {i i' : SItem} {l l' : List SItem} {o o' : Trail} (ha : (SArgs.some h i l o).Ok u)
    (ha' : (SArgs.some h' i' l' o').Ok u) {wl wr wl' wr' : Str} (hl : Blank u wl) (hr : Blank u wr) (hl' : Blank u wl')
    (hr' : Blank u wr')
    (hn : Wordless (p.text ++ (h ++ '(' :: (i.text ++ itemsText l (trailText o ++ c!")")))))
    (hn' : Wordless (p.text ++ (h' ++ '(' :: (i'.text ++ itemsText l' (trailText o' ++ c!")")))))
    {args args' : List Argument} (hargs : List.Forall₂ SItem.Means (i :: l) args)
    (hargs' : List.Forall₂ SItem.Means (i' :: l') args') (he : unnamed args = unnamed args') :
    ∃ r, Answers u msg w (wl ++ ((p.text ++ (h ++ '(' :: (i.text ++ itemsText l (trailText o ++ c!")")))) ++ wr)) r ∧
      Answers u msg w (wl' ++ ((p.text ++ (h' ++ '(' :: (i'.text ++ itemsText l' (trailText o' ++ c!")")))) ++ wr')) r := by
  refine ⟨_, answers_of (parse_call L (replCfg msg _) p h i l o hp ha hl hr hn rfl hargs), ?_⟩
  have h1 := answers_of (msg := msg) (w := w) (parse_call L (replCfg msg _) p h' i' l' o' hp ha' hl' hr' hn' rfl hargs')
  have h2 : shown w (.ok (.function (Sym.ofStr p.text) [.mk (unnamed args) (optionsOf (named args)) noPos])) =
      shown w (.ok (.function (Sym.ofStr p.text) [.mk (unnamed args') (optionsOf (named args')) noPos])) := by
    simp only [shown, Out.ok_bind]
    rw [he, forward_options w _ _ _ (optionsOf (named args')) noPos noPos]
  rw [h2]
  exact h1

/-- `f(1)` and `f(a:2,1)` are answered alike. -/
example (msg : Str → Str) (w : Width) : ∃ r, Answers asciiUni msg w c!"f(1)" r ∧ Answers asciiUni msg w c!"f(a:2,1)" r := by
  have ia : IsIdent asciiUni c!"a" := .inl ⟨'a', [], rfl, by decide, by decide⟩
  have hv : ∀ n : Nat, (SExpr.node (.atom (.int n))).value = some (.integer n) := by
    intro n; rw [node_value, SNode.value]; rfl
  exact C82_options lawful_asciiUni msg w ⟨c!"f", []⟩ ⟨.inl ⟨'f', [], rfl, by decide, by decide⟩, by simp⟩ (h := []) (h' := [])
    (i := .mk false [] (.expr (.node (.atom (.int 1)))) []) (l := []) (o := none)
    (i' := .mk false [] (.named c!"a" [] false [] (.node (.atom (.int 2)))) [])
    (l' := [.mk false [] (.expr (.node (.atom (.int 1)))) []]) (o' := none)
    (by
      simp only [SArgs.Ok, SItem.Ok, ItemsOk, SContent.Ok]
      exact ⟨by simp, ⟨blank_nil, blank_nil, rfl, intExpr_ok 1⟩, trivial, fun _ _ h => nomatch h⟩)
    (by
      simp only [SArgs.Ok, SItem.Ok, ItemsOk, SContent.Ok]
      exact ⟨by simp, ⟨blank_nil, blank_nil, rfl, ia, blank_nil, blank_nil, intExpr_ok 2⟩,
        ⟨⟨blank_nil, blank_nil, rfl, intExpr_ok 1⟩, trivial⟩, fun _ _ h => nomatch h⟩)
    (wl := []) (wr := []) (wl' := []) (wr' := []) blank_nil blank_nil blank_nil blank_nil
    (by rw [show _ ++ _ = c!"f(1)" by decide]; unfold Wordless; decide)
    (by rw [show _ ++ _ = c!"f(a:2,1)" by decide]; unfold Wordless; decide)
    (args := [(none, .integer 1)]) (args' := [(some c!"a", .integer 2), (none, .integer 1)])
    (.cons ⟨rfl, hv 1⟩ .nil) (.cons ⟨rfl, hv 2⟩ (.cons ⟨rfl, hv 1⟩ .nil)) rfl

/-! ### Comments (the examples use `%` for comments to the end of the line) -/

/-- **C82** (violation).  A text that begins with `%` is refused, unless it begins with `%%%`. -/
theorem C82_comment (L : Lawful u) {w s : Str} (hw : Blank u w) (hs : ∀ t, s ≠ '%' :: '%' :: t) {c : Cfg}
    (hc : c.input = w ++ '%' :: s) : parseText u c = .err (.parseError c.errorText) := by
  have hh : HeadIn ['%'] ('%' :: s) := .inr ⟨'%', s, rfl, by decide⟩
  have no : ∀ {v : Env} {r : R}, noEmpty r = true → (∀ c ∈ ['%'], noStart r c = true) →
    Fails u v (.call r) ('%' :: s) := fun h0 h => fails_head L hh h0 h
  have hf : Fails u vN (.call .statement) ('%' :: s) := no (by decide) (by decide)
  refine parse_stuck L hw (.stop ⟨?_, ?_⟩ (fails_restore hf)) (by simp) hc
  · intro c t e
    obtain ⟨rfl, -⟩ := List.cons.inj e
    rw [Ws, L.plain _ _ (by decide)]
    decide
  · refine ⟨?_, rfl, rfl, rfl, rfl⟩
    match s, hs with
    | [], _ => rfl
    | [a], _ => by_cases ha : a = '%' <;> simp [strip, ha]
    | a :: b :: t, hs =>
      by_cases ha : a = '%'
      · by_cases hb : b = '%'
        · subst ha hb
          exact absurd rfl (hs t)
        · simp [strip, ha, Ne.symm hb]
      · simp [strip, Ne.symm ha]

/-- A comment before an expression. -/
example (c : Cfg) (hc : c.input = c!"% half\n2") : parseText asciiUni c = .err (.parseError c.errorText) :=
  C82_comment lawful_asciiUni (w := []) blank_nil (by simp) hc

/-! ### Continued lines (basic/readme.md: a backslash at the end of a line continues it) -/

/-- **C82** (violation).  A backslash is refused wherever it stands, outside strings and comments. -/
theorem C82_backslash (L : Lawful u) (c : Cfg) (hb : Bare c.input) (h : '\\' ∈ c.input) :
    parseText u c = .err (.parseError c.errorText) :=
  C66_unknown_refused L c hb h (by rw [L.plain _ _ (by decide)]; decide) (by rw [L.plain _ _ (by decide)]; decide) (by decide)

/-- A sum continued on the next line. -/
example (c : Cfg) (hc : c.input = c!"1 \\\n+ 2") : parseText asciiUni c = .err (.parseError c.errorText) :=
  C82_backslash lawful_asciiUni c (by rw [hc]; exact ⟨by decide, by decide, by decide⟩) (by rw [hc]; decide)

/-! ### Numbers with exponents (starter/literal.md: `2**5` is `2e5`) -/

/-- **C82** (violation).  `a**b` is an error for all numbers: it is read as `a` times the unpacked `b`. -/
theorem C82_exponent (L : Lawful u) (msg : Str → Str) (w : Width) (a b : Nat) {wl wr : Str} (hl : Blank u wl)
    (hr : Blank u wr) :
    ∃ m, Answers u msg w (wl ++ ((numeral a ++ ('*' :: '*' :: numeral b)) ++ wr)) (.err (.unimplemented m)) := by
  have hok : (SExpr.mk (.mk [] (.atom (.int a)) []) [.mk [] (.op .star) [] (.mk [.star] (.atom (.int b)) [])]).Ok u := by
    rw [SExpr.Ok, StepsOk, StepsOk]
    refine ⟨intTerm_ok a, fun _ _ h => absurd (Tok.op.inj h) (by decide), blank_nil, blank_nil,
      fun h => absurd (Tok.op.inj h) (by decide), ?_, trivial⟩
    rw [STerm.Ok, SNode.Ok, SufsOk]
    exact ⟨trivial, trivial⟩
  have ht : binaryText (.mk [] (.atom (.int a)) []) [] .star [] (.mk [.star] (.atom (.int b)) []) =
      numeral a ++ ('*' :: '*' :: numeral b) := by
    rw [binaryText, intTerm_text]
    simp [STerm.text, SNode.text, SAtom.text, sufsText, Pre.char, Tok.char]
  obtain ⟨m, h⟩ := C54_operators L msg w (.mk [] (.atom (.int a)) []) (.mk [.star] (.atom (.int b)) []) .star [] [] hok hl hr
    (by rw [ht]; exact numeral_wordless a _) (a := .integer a)
    (b := .function ⟨[c!"std", c!"prefix"], c!"unpack", .prefix c!"*", 0⟩ [.mk [.integer b] [] noPos]) (intTerm_value a)
    (by simp [STerm.value, SNode.value, SAtom.value, sufsApply, preFold, Pre.apply, Pre.char]) (by decide)
    (by rintro - ⟨i, j, -, h⟩; cases h)
  rw [ht] at h
  exact ⟨m, h⟩

/-- `2**5`, for which the book promises `2e5`. -/
example (msg : Str → Str) : ∃ m, Answers asciiUni msg .w64 c!"2**5" (.err (.unimplemented m)) :=
  C82_exponent lawful_asciiUni msg .w64 2 5 (wl := []) (wr := []) blank_nil blank_nil

/-! ### Callers (developer/shortcoming.md: a caller must be a symbol) -/

/-- **C82** (violation).  Whatever can be an operand can be indexed, numbers and strings and null too. -/
theorem C82_caller (L : Lawful u) (c : Cfg) (x : SAtom) (i : Nat) (hx : (SNode.atom x).Ok u) {w w' : Str}
    (hw : Blank u w) (hw' : Blank u w') (hwl : Wordless ((SNode.atom x).text ++ ('[' :: (numeral i ++ c!"]"))))
    (hc : c.input = w ++ (((SNode.atom x).text ++ ('[' :: (numeral i ++ c!"]"))) ++ w')) {a : AST}
    (ha : (SNode.atom x).value = some a) :
    eraseR (parseText u c) =
      .ok (.function ⟨[c!"std", c!"core"], c!"Index", .normal, 0⟩ [.mk [a, .integer i] [] noPos]) := by
  have ht : (SItem.mk false [] (.expr (.node (.atom (.int i)))) []).text = numeral i := by
    simp [SItem.text, SContent.text, node_text, SNode.text, SAtom.text]
  have e : ∀ t, [] ++ '[' :: ((SItem.mk false [] (.expr (.node (.atom (.int i)))) []).text ++
      itemsText [] (trailText none ++ t)) = '[' :: (numeral i ++ t) := by
    intro t
    rw [ht, itemsText, trailText]
    rfl
  refine C50_index L c (.atom x) [] (.mk false [] (.expr (.node (.atom (.int i)))) []) [] none hx ?_ hw hw'
    (by rw [e]; exact hwl) (by rw [e]; exact hc) ha ?_
  · rw [SSuf.Ok, SItem.Ok, ItemsOk, SContent.Ok]
    exact ⟨by simp, ⟨blank_nil, blank_nil, rfl, node_ok (by rw [SNode.Ok]; trivial)⟩, trivial, fun _ _ h => nomatch h⟩
  · simp [SItem.value, SContent.value, node_value, SNode.value, SAtom.value]

/-- `1[2]`, which the book rules out. -/
example : eraseR (parseText asciiUni ⟨[], c!"1[2]", []⟩) =
    .ok (.function ⟨[c!"std", c!"core"], c!"Index", .normal, 0⟩ [.mk [.integer 1, .integer 2] [] noPos]) :=
  C82_caller lawful_asciiUni _ (.int 1) 2 (by rw [SNode.Ok]; trivial) (w := []) (w' := []) blank_nil blank_nil
    (by rw [SNode.text]; exact wordless_head (c := '1') rfl (by decide)) (by rw [SNode.text]; decide)
    (by rw [SNode.value]; rfl)

/-- `"a"[2]`. -/
example : eraseR (parseText asciiUni ⟨[], c!"\"a\"[2]", []⟩) =
    .ok (.function ⟨[c!"std", c!"core"], c!"Index", .normal, 0⟩ [.mk [.string c!"a", .integer 2] [] noPos]) :=
  C82_caller lawful_asciiUni _ (.str c!"a") 2 (by rw [SNode.Ok]; exact (by decide : contentOk c!"a" = true)) (w := []) (w' := []) blank_nil blank_nil
    (by rw [SNode.text]; exact wordless_head (c := '"') rfl (by decide)) (by rw [SNode.text]; decide)
    (by rw [SNode.value]; rfl)

/-! ### The first line (basic/readme.md: a first line that begins with `#!` is removed) -/

/-- **C82** (violation).  A first line that begins with `#!` is not removed. -/
theorem C82_shebang (L : Lawful u) (l : List SStep) (he : (SExpr.mk (.mk [] (.atom .slot) [.op c!"!"]) l).Ok u)
    (hn : Wordless (c!"#!" ++ stepsText l)) {w w' r : Str} (hw : Blank u w)
    (hw' : Blank u w') (hb : Breaking w') (hr : Anew u r) {c d : Cfg}
    (hc : c.input = w ++ ((c!"#!" ++ stepsText l) ++ (w' ++ r))) (hd : d.input = r)
    (hg : parseText u d ≠ .err (.parseError d.errorText)) :
    eraseR (parseText u c) = answer (SExpr.mk (.mk [] (.atom .slot) [.op c!"!"]) l).value := by
  have ht : (SExpr.mk (.mk [] (.atom .slot) [.op c!"!"]) l).text = c!"#!" ++ stepsText l := by
    simp [SExpr.text, STerm.text, SNode.text, SAtom.text, sufsText, SSuf.text]
  exact (C68_line L _ he (ht ▸ hn) hw hw' hb hr (by rw [ht]; exact hc) hd).2 hg

/-- `#!/sm` and `2` on the next line: the answer is not `2`, it is the first line read as a quotient. -/
example : eraseR (parseText asciiUni ⟨[], c!"#!/sm\n2", []⟩) =
    .ok (.function ⟨[c!"std", c!"infix"], c!"divide", .infix c!"/" 140, 0⟩ [.mk [
      .function ⟨[c!"std", c!"suffix"], c!"factorial", .suffix c!"!", 0⟩ [.mk [
        .function (Sym.ofStr c!"std::core::slot") [.mk [] [] noPos]] [] noPos],
      .symbol ⟨[], c!"sm", .normal, 0⟩] [] noPos]) := by
  have hi : (Path.mk c!"sm" []).Ok asciiUni := ⟨.inl ⟨'s', c!"m", rfl, by decide, by decide⟩, by simp⟩
  have ho : (SExpr.mk (.mk [] (.atom .slot) [.op c!"!"])
      [.mk [] (.op .slash) [] (.mk [] (.atom (.sym ⟨c!"sm", []⟩)) [])]).Ok asciiUni := by
    rw [SExpr.Ok, StepsOk, StepsOk, STerm.Ok, STerm.Ok, SNode.Ok, SNode.Ok, SufsOk, SufsOk, SSuf.Ok]
    refine ⟨⟨trivial, .inl (by decide), ?_, by rw [SufsOk]; trivial⟩, fun _ _ h => absurd (Tok.op.inj h) (by decide),
      blank_nil, blank_nil, ?_, ⟨⟨hi, ?_⟩, trivial⟩, trivial⟩
    · intro _ _ _ h
      rw [sufsText] at h
      cases h
    · intro _ _ h
      cases h
    · intro k hk; revert k; decide
  have ht : c!"#!" ++ stepsText [.mk [] (.op .slash) [] (.mk [] (.atom (.sym ⟨c!"sm", []⟩)) [])] = c!"#!/sm" := by
    simp [stepsText, SStep.text, STerm.text, SNode.text, SAtom.text, sufsText, Tok.char, Path.text, moreText]
  rw [C82_shebang lawful_asciiUni _ ho (by rw [ht]; exact wordless_head (c := '#') rfl (by decide)) (w := [])
    (w' := c!"\n") (r := c!"2") blank_nil (blank_ws (by unfold Ws; decide)) (.inl (by decide)) ?_
    (c := ⟨[], c!"#!/sm\n2", []⟩) (d := ⟨[], c!"2", []⟩) (by rw [ht]; rfl) rfl]
  · simp only [SExpr.value, stepsValue, STerm.value, SNode.value, SAtom.value, sufsApply, SSuf.apply, group, attach,
      evalTree, List.foldl]
    rfl
  · rw [Ne, parse_refused]
    intro h
    have h1 : rejects c!"2" = true := by rw [rejects, h]
    rw [show rejects c!"2" = false by decide +kernel] at h1
    cases h1
  · intro c s e
    obtain ⟨rfl, -⟩ := List.cons.inj e
    refine ⟨?_, by decide, by decide, by decide⟩
    unfold Ws; decide

end SM.Props
