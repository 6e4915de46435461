import Verif.Props.Lang3
/-
C70: products with factors other than integers and names.
-/
namespace SM.Props
open SM SM.Peg

variable {u : Uni}

theorem evalTree_first : ∀ t : OpTree (Option AST) Op, t.steps.1 = none → evalTree id Op.apply t = none := by
  intro t
  induction t with
  | leaf x => exact id
  | node l o r ih _ =>
    intro h
    rw [evalTree, ih h]

/-- **C70** (violation).  A product written without a sign makes the parser panic if one of its factors is a decimal, a
literal with a radix or a call, whatever prefixes, suffixes, operators and terms surround it.  (A call at the beginning is
not part of a product.) -/
theorem C70_panics (L : Lawful u) (ps : List Pre) (f : SFac) (m : SMix) (l : List SMix)
    (hk : f.Ok u ∧ f.isCall = false ∧ m.Ok u f ∧ MixesOk u m.fac l)
    (ho : f.odd = true ∨ ∃ m' ∈ m :: l, m'.fac.odd = true) (ss : List SSuf) (hs : SufsOk u ss) (ls : List SStep)
    (hls : StepsOk u ss.isEmpty ls) {x : Str}
    (hx : x = (ps.map Pre.char ++ ((f.text ++ (m.text ++ mixesText l)) ++ sufsText ss)) ++ stepsText ls) (hn : Wordless x)
    {w w' : Str} (hw : Blank u w) (hw' : Blank u w') {c : Cfg} (hc : c.input = w ++ (x ++ w')) :
    parseText u c = .panic := by
  have h0 : (SNode.mixed f m l).Ok u := by
    rw [SNode.Ok]; exact ⟨hk.1, hk.2.1, hk.2.2.1, hk.2.2.2, ho⟩
  have h0 := SNode.read L _ h0
  rw [SNode.text, SNode.value] at h0
  have h1 := term_of L ps h0 (ss.map SSuf.pair) (sufs_read L ss hs)
  have h2 := group_spec (none : Option AST) (knownSteps (ls.map SStep.piece))
  have h3 := expr_of L h1 (ls.map SStep.piece) (steps_read L ls _ (by simpa [SNode.num] using hls)) _ h2.1 h2.2
  rw [sufs_text, steps_text, ← hx, evalTree_first _ (by rw [h2.2])] at h3
  exact eraseR_panic (parse_expr L c h3 hn hw hw' hc)

/-- `2 sin(x)`, as in the manual, `x 0.5`, `2 0xFF` and `-2 f(1)! + 1` panic. -/
example (c : Cfg) (h : c.input ∈ [c!"2 sin(x)", c!"x 0.5", c!"2 0xFF", c!"-2 f(1)! + 1"]) :
    parseText asciiUni c = .panic := by
  have L := lawful_asciiUni
  have sp : ∀ c ∈ c!" ", HWs asciiUni c := by
    intro d hd
    simp only [List.mem_cons, List.not_mem_nil, or_false] at hd
    subst hd
    exact ⟨by unfold Ws; decide, by decide, by decide⟩
  have bl : Blank asciiUni c!" " := blank_ws fun c hc => (sp c hc).1
  have ix : IsIdent asciiUni c!"x" := .inl ⟨'x', [], rfl, by decide, by decide⟩
  have is : IsIdent asciiUni c!"sin" := .inl ⟨'s', _, rfl, by decide, by decide⟩
  have if' : IsIdent asciiUni c!"f" := .inl ⟨'f', _, rfl, by decide, by decide⟩
  have arg : ∀ a : SAtom, a.Ok asciiUni →
      (SArgs.some [] (.mk false [] (.expr (SExpr.node (.atom a))) []) [] none).Ok asciiUni := by
    intro a ha
    rw [SArgs.Ok, SItem.Ok, SContent.Ok]
    refine ⟨fun _ h => (nomatch h), ⟨blank_nil, blank_nil, rfl, node_ok ?_⟩, ?_, fun _ _ h => (nomatch h)⟩
    · rw [SNode.Ok]; exact ha
    · rw [ItemsOk]; trivial
  have nil : ArgsOk asciiUni [] := by rw [ArgsOk]; trivial
  have int : (SFac.int 2).Ok asciiUni := by rw [SFac.Ok]; trivial
  have one : ∀ {f g : SFac}, f.Ok asciiUni → f.isCall = false → g.Ok asciiUni →
      f.Ok asciiUni ∧ f.isCall = false ∧ (SMix.mk c!" " g).Ok asciiUni f ∧ MixesOk asciiUni (SMix.mk c!" " g).fac [] := by
    intro f g h1 h2 h3
    refine ⟨h1, h2, ?_, ?_⟩
    · rw [SMix.Ok]; exact ⟨sp, h3, .inl (by decide)⟩
    · rw [MixesOk]; trivial
  have call : ∀ (p : Path) (a : SAtom), p.Ok asciiUni → a.Ok asciiUni →
      (SFac.call p (.some [] (.mk false [] (.expr (SExpr.node (.atom a))) []) [] none) []).Ok asciiUni := by
    intro p a hp ha
    rw [SFac.Ok]; exact ⟨hp, arg a ha, nil⟩
  simp only [List.mem_cons, List.not_mem_nil, or_false] at h
  rcases h with h | h | h | h
  · exact C70_panics L [] (.int 2) (.mk c!" " (.call ⟨c!"sin", []⟩ (.some []
      (.mk false [] (.expr (SExpr.node (.atom (.sym ⟨c!"x", []⟩)))) []) [] none) [])) []
      (one int rfl (call _ _ ⟨is, by simp⟩ ⟨⟨ix, by simp⟩, by unfold Path.Free; decide⟩))
      (.inr ⟨_, List.mem_cons_self, rfl⟩) [] (by rw [SufsOk]; trivial) [] (by rw [StepsOk]; trivial)
      (x := c!"2 sin(x)") (by decide) (numeral_wordless 2 _) (w := []) (w' := []) blank_nil blank_nil (by rw [h]; decide)
  · exact C70_panics L [] (.sym ⟨c!"x", []⟩) (.mk c!" " (.dec 0 5)) []
      (one (by rw [SFac.Ok]; exact ⟨ix, by simp⟩) rfl (by rw [SFac.Ok]; trivial))
      (.inr ⟨_, List.mem_cons_self, rfl⟩) [] (by rw [SufsOk]; trivial) [] (by rw [StepsOk]; trivial)
      (x := c!"x 0.5") (by decide) (wordless_head rfl (by decide)) (w := []) (w' := []) blank_nil blank_nil (by rw [h]; decide)
  · exact C70_panics L [] (.int 2) (.mk c!" " (.radix .hex 'x' (false, true, 15) [(false, true, 15)])) []
      (one int rfl (by rw [SFac.Ok]; exact ⟨by decide, by decide⟩))
      (.inr ⟨_, List.mem_cons_self, rfl⟩) [] (by rw [SufsOk]; trivial) [] (by rw [StepsOk]; trivial)
      (x := c!"2 0xFF") (by decide) (numeral_wordless 2 _) (w := []) (w' := []) blank_nil blank_nil (by rw [h]; decide)
  · exact C70_panics L [.minus] (.int 2) (.mk c!" " (.call ⟨c!"f", []⟩ (.some []
      (.mk false [] (.expr (SExpr.node (.atom (.int 1)))) []) [] none) [])) []
      (one int rfl (call _ _ ⟨if', by simp⟩ trivial))
      (.inr ⟨_, List.mem_cons_self, rfl⟩) [.op c!"!"] (by simp [SufsOk, SSuf.Ok, sufsText, IsSuf])
      [.mk c!" " (.op .plus) c!" " (.mk [] (.atom (.int 1)) [])]
      (by simp [StepsOk, bl, STerm.Ok, SNode.Ok, SAtom.Ok, SufsOk])
      (x := c!"-2 f(1)! + 1") (by decide) (wordless_head rfl (by decide)) (w := []) (w' := []) blank_nil blank_nil
      (by rw [h]; decide)

/-! ### Zeros in front -/

/-- Digits are zeros and then a numeral. -/
theorem zeros_apart : ∀ ds : Str, ds ≠ [] → (∀ d ∈ ds, IsDigit d) →
    ∃ k n : Nat, ds = List.replicate k '0' ++ numeral n := by
  intro ds
  induction ds with
  | nil => exact fun h => absurd rfl h
  | cons c ds ih =>
    intro _ hd
    by_cases h0 : c = '0'
    · subst h0
      cases ds with
      | nil => exact ⟨0, 0, by decide⟩
      | cons d ds =>
        obtain ⟨k, n, h⟩ := ih (by simp) fun d hd' => hd d (List.mem_cons_of_mem _ hd')
        exact ⟨k + 1, n, by rw [h]; rfl⟩
    · have hc := hd c (by simp)
      obtain ⟨n, hn⟩ := int_numeral (x := c :: ds) (.inr ⟨c, ds, rfl, by
        have h1 : '0'.toNat ≤ c.toNat := hc.1
        have h2 : c.toNat ≠ '0'.toNat := fun e => h0 (Char.toNat_inj.mp e)
        have h3 : '0'.toNat < c.toNat := by omega
        exact h3, hc.2, fun d hd' => hd d (List.mem_cons_of_mem _ hd')⟩)
      exact ⟨0, n, hn⟩

theorem zero_numeral : numeral 0 = ['0'] := by decide

theorem apart_numeral {f : MFactor} (n : Nat) (hf : f = .int 0 ∨ (∃ i, f = .dec i 0)) : f.Apart [] (numeral n) := by
  rcases hf with rfl | ⟨i, rfl⟩
  · refine .inr ⟨fun h => absurd rfl h, fun _ c r e => ?_⟩
    have : c ∈ numeral n := by
      rw [e]; simp
    have := isDigit_numeral this
    intro h
    have key : ∀ d ∈ radixLetters, ¬ IsDigit d := by unfold IsDigit; decide
    exact key c h this
  · exact .inr fun h => absurd rfl h

theorem mixed_zeros (n : Nat) : ∀ (k : Nat) (f : MFactor), f = .int 0 ∨ (∃ i, f = .dec i 0) →
    MixedOk u f ((List.replicate k 0 ++ [n]).map fun n => ([], .int n)) ∧
    mixedText ((List.replicate k 0 ++ [n]).map fun n => ([], .int n)) = List.replicate k '0' ++ numeral n
  | 0, f, hf => ⟨⟨fun _ h => (nomatch h), trivial, apart_numeral n hf, trivial⟩, by simp [mixedText, MFactor.text]⟩
  | k + 1, f, hf => by
    obtain ⟨h1, h2⟩ := mixed_zeros n k (.int 0) (.inl rfl)
    refine ⟨⟨fun _ h => (nomatch h), trivial, apart_numeral 0 hf, h1⟩, ?_⟩
    change [] ++ numeral 0 ++ mixedText ((List.replicate k 0 ++ [n]).map fun n => ([], .int n)) = _
    rw [h2, zero_numeral]
    rfl

theorem factor_zeros (n : Nat) : ∀ (k : Nat),
    FactorsOk u (.int 0) ((List.replicate k 0 ++ [n]).map fun n => ([], .int n)) ∧
    factorsText ((List.replicate k 0 ++ [n]).map fun n => ([], .int n)) = List.replicate k '0' ++ numeral n
  | 0 => ⟨⟨fun _ h => (nomatch h), trivial, .inr rfl, trivial⟩, by simp [factorsText, SFactor.text]⟩
  | k + 1 => by
    obtain ⟨h1, h2⟩ := factor_zeros n k
    refine ⟨⟨fun _ h => (nomatch h), trivial, .inr rfl, h1⟩, ?_⟩
    change [] ++ numeral 0 ++ factorsText ((List.replicate k 0 ++ [n]).map fun n => ([], .int n)) = _
    rw [h2, zero_numeral]
    rfl

/-- **C40** (violation).  A decimal literal panics if its fraction is a zero followed by any digits. -/
theorem C40_leading_zeros (L : Lawful u) (c : Cfg) (i : Nat) {ds : Str} (hn : ds ≠ []) (hd : ∀ d ∈ ds, IsDigit d)
    {w w' : Str} (hw : Blank u w) (hw' : Blank u w') (hc : c.input = w ++ ((numeral i ++ '.' :: '0' :: ds) ++ w')) :
    parseText u c = .panic := by
  obtain ⟨k, n, rfl⟩ := zeros_apart ds hn hd
  obtain ⟨h1, h2⟩ := mixed_zeros (u := u) n k (.dec i 0) (.inr ⟨i, rfl⟩)
  cases e : (List.replicate k 0 ++ [n]).map fun n => (([], .int n) : Str × MFactor) with
  | nil => simp at e
  | cons m l =>
    rw [e] at h1 h2
    have h4 := term_of L [] (node_mixed L (f := .dec i 0) trivial rfl h1 ⟨_, List.mem_cons_self, rfl⟩) []
      (sufs_read L [] (by rw [SufsOk]; trivial))
    have h3 := expr_of L h4 [] (steps_read L [] _ (by rw [StepsOk]; trivial)) (.leaf none) trivial rfl
    have ht : (MFactor.dec i 0).text ++ mixedText (m :: l) = numeral i ++ '.' :: '0' :: (List.replicate k '0' ++ numeral n) := by
      rw [h2, MFactor.text, zero_numeral]
      simp
    rw [List.map_nil, List.nil_append, show sfxText [] = [] from rfl, show piecesText [] = [] from rfl, List.append_nil,
      List.append_nil, ht] at h3
    exact eraseR_panic (parse_expr L c h3 (numeral_wordless _ _) hw hw' hc)

example (c : Cfg) (h : c.input = c!"10.0075") : parseText asciiUni c = .panic :=
  C40_leading_zeros lawful_asciiUni c 10 (ds := c!"075") (by decide) (by unfold IsDigit; decide) (w := []) (w' := [])
    blank_nil blank_nil (by rw [h]; decide)

/-- **C38** (violation).  Zeros in front of an integer are not ignored: the parser reads the product of these zeros with
the numeral that follows. -/
theorem C38_leading_zeros (L : Lawful u) (c : Cfg) (k n : Nat) {w w' : Str} (hw : Blank u w) (hw' : Blank u w')
    (hc : c.input = w ++ ((List.replicate (k + 1) '0' ++ numeral n) ++ w')) :
    eraseR (parseText u c) = .ok (.function ⟨[c!"std", c!"infix"], c!"times", .infix c!"*" 140, 0⟩
      [.mk (List.replicate (k + 1) (.integer 0) ++ [.integer n]) [] noPos]) := by
  obtain ⟨h1, h2⟩ := factor_zeros (u := u) n k
  cases e : (List.replicate k 0 ++ [n]).map fun n => (([], .int n) : Str × SFactor) with
  | nil => simp at e
  | cons m l =>
    rw [e] at h1 h2
    have et : (SFactor.int 0).text ++ factorsText (m :: l) = List.replicate (k + 1) '0' ++ numeral n := by
      rw [h2, SFactor.text, zero_numeral]; rfl
    rw [C43_products L c (.int 0) m l trivial h1 (numeral_wordless 0 _) hw hw' (by rw [et]; exact hc)]
    have ev : (m :: l).map (fun m => m.2.value) = List.replicate k (.integer 0) ++ [.integer n] := by
      rw [← e]
      simp [SFactor.value]
    rw [← List.map_cons (f := fun m : Str × SFactor => m.2.value), ev]
    rfl

/-- `007` is `0 * 0 * 7`. -/
example : eraseR (parseText asciiUni ⟨[], c!"007", []⟩) = .ok (.function ⟨[c!"std", c!"infix"], c!"times", .infix c!"*" 140, 0⟩
    [.mk [.integer 0, .integer 0, .integer 7] [] noPos]) :=
  C38_leading_zeros lawful_asciiUni _ 1 7 (w := []) (w' := []) blank_nil blank_nil (by decide)

end SM.Props
