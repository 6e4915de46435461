import Verif.Props.Dropped
import Verif.Props.Juxta
/-
C42: what becomes of identifiers that begin with a reserved word.
-/
namespace SM.Props
open SM SM.Peg

variable {u : Uni}

/-! ### Identifiers that begin with a constant -/

theorem cont_beside (L : Lawful u) {c : Char} (h : u .xidContinue c = true) (t : Str) : Beside u (c :: t) := by
  have key : ∀ d ∈ operatorChars ++ [';', '；', '!', '?', '\'', '['], Plain d ∧ asciiUni .xidContinue d = false := by decide
  have ne : ∀ d ∈ operatorChars ++ [';', '；', '!', '?', '\'', '['], c ≠ d := fun d hd =>
    cont_ne L h (key d hd).1 (key d hd).2
  refine ⟨fun d t e => ?_, fun d t e => ?_⟩ <;> cases e
  · refine ⟨fun hw => ?_, fun hc => ne c (by simp [hc]) rfl, ne _ (by decide), ne _ (by decide)⟩
    have h1 := L.cont_ws c h
    unfold Ws at hw
    rw [hw] at h1; cases h1
  · exact fun hc => ne c (by simp only [List.mem_append]; simp only [List.mem_cons] at hc ⊢; tauto) rfl

theorem ends_blank (L : Lawful u) {w : Str} (hw : Blank u w) : Ends u w := by
  have := (follow_close L hw (r := []) (.inl rfl)).ends L
  rwa [List.append_nil] at this

/-- What the constants are worth. -/
def constantValue (k : Str) : AST :=
  if k = c!"null" then .mkSymbol c!"std::constant:Null" else if k = c!"true" then .boolean true else .boolean false

/-- **C42** (violation).  An identifier that begins with a constant and goes on parses to the constant, or is refused:
its end is read as a text of its own. -/
theorem C42_constants (L : Lawful u) {k y : Str} (hk : k ∈ constants) (hy : y ≠ []) (hx : IsIdent u (k ++ y)) {w w' : Str}
    (hw : Blank u w) (hw' : Blank u w') {c d : Cfg} (hc : c.input = w ++ ((k ++ y) ++ w')) (hd : d.input = y ++ w') :
    (parseText u d = .err (.parseError d.errorText) → parseText u c = .err (.parseError c.errorText)) ∧
    (parseText u d ≠ .err (.parseError d.errorText) → parseText u c = .ok (constantValue k)) := by
  have hb : Beside u (y ++ w') := by
    cases y with
    | nil => exact absurd rfl hy
    | cons a y => exact cont_beside L (ident_cont L hx a (by simp)) _
  have hn : NameFrom u k [] (y ++ w') :=
    ⟨rfl, y, [], w', by simp [moreText], ⟨hx, by simp⟩, ends_blank L hw'⟩
  have hq : ∀ a : SAtom, a.Ok u → a.text = k → (SNode.atom a).Closed u [] (y ++ w') → Wordless (k ++ ([] ++ (y ++ w'))) →
      a.value = some (constantValue k) → Leaf (constantValue k) → _ := fun a ha ht hcl hwl hv hlf => by
    have h1 : (SExpr.node (.atom a)).text = k := by rw [node_text, SNode.text, ht]
    have := C71_beside L (SExpr.node (.atom a)) (node_ok (by rw [SNode.Ok]; exact ha)) (h := []) (r := y ++ w')
      hws_space hb (.inr ⟨rfl, hcl⟩) (by rw [h1]; exact hwl) hw (c := c) (d := d) (by rw [h1, hc]; simp) hd
    rw [node_value, SNode.value, hv] at this
    exact And.imp_right (fun g z => eraseR_leaf hlf (g z)) this
  simp only [constants, List.mem_cons, List.not_mem_nil, or_false] at hk
  rcases hk with rfl | rfl | rfl
  · exact hq .null trivial rfl hn (wordless_head (c := 'n') rfl (by decide)) rfl trivial
  · exact hq (.bool true) trivial rfl hn (by unfold Wordless; simp [statementWords, strip]) rfl trivial
  · exact hq (.bool false) trivial rfl hn (by unfold Wordless; simp [statementWords, strip]) rfl trivial

/-! ### First statements that are no expressions -/

theorem one_of_then {r : R} {x : Str} {P : List (Pair R) → Prop} {q : List (Pair R)} (h : Then (Then (One r x P) Nil) Nil q) :
    ∃ p, q = [p] ∧ p.rule = r := by
  obtain ⟨a, b, rfl, ⟨a', b', rfl, ⟨i, j, l, rfl, _⟩, h1⟩, h2⟩ := h
  rw [show b = [] from h2, show b' = [] from h1]
  exact ⟨_, rfl, rfl⟩

/-- The statements that the reserved words begin, and the words. -/
theorem fails_import {z : Str} (h : strip c!"using" z = none) {v : Env} : Fails u v (.call .importStatement) z :=
  fails_call (fails_rule (fails_seq (breaks_cat (breaks_cat (breaks_cat (breaks_cat (fails_str h).breaks))))))

theorem fails_class {z : Str} (h : strip c!"class" z = none) {v : Env} : Fails u v (.call .classStatement) z :=
  fails_call (fails_rule (fails_seq (breaks_cat (breaks_cat (breaks_cat (breaks_cat (fails_str h).breaks))))))

theorem fails_trait {z : Str} (h : strip c!"trait" z = none) {v : Env} : Fails u v (.call .traitStatement) z :=
  fails_call (fails_rule (fails_seq (breaks_cat (breaks_cat (breaks_cat (breaks_cat (fails_str h).breaks))))))

theorem fails_extend {z : Str} (h : strip c!"extends" z = none) {v : Env} : Fails u v (.call .extendStatement) z :=
  fails_call (fails_rule (fails_seq (breaks_cat (breaks_cat (breaks_cat (breaks_cat (breaks_cat (breaks_cat
    (fails_str h).breaks))))))))

theorem fails_re {z : Str} (h : ∀ k ∈ [c!"return", c!"break", c!"pass"], strip k z = none) {v : Env} :
    Fails u v (.call .re_control) z :=
  fails_call (fails_rule (fails_alt (fails_alt (fails_restore (fails_seq (breaks_cat (breaks_cat
    (fails_tok rfl (h _ (by decide))).breaks)))) (fails_tok rfl (h _ (by decide)))) (fails_tok rfl (h _ (by decide)))))

theorem fails_if {z : Str} (h : strip c!"if" z = none) {v : Env} : Fails u v (.call .if_statement) z :=
  fails_call (fails_rule (fails_seq (breaks_cat (breaks_cat (breaks_cat (breaks_cat (fails_str h).breaks))))))

theorem fails_for {z : Str} (h : strip c!"for" z = none) {v : Env} : Fails u v (.call .for_statement) z :=
  fails_call (fails_rule (fails_seq (breaks_cat (breaks_cat (fails_str h).breaks))))

theorem fails_let {z : Str} (h : strip c!"let" z = none) {v : Env} : Fails u v (.call .assignStatement) z :=
  fails_call (fails_rule (fails_seq (breaks_cat (breaks_cat (fails_str h).breaks))))

theorem fails_def {z : Str} (h : strip c!"def" z = none) {v : Env} : Fails u v (.call .defineStatement) z :=
  fails_call (fails_rule (fails_seq (breaks_cat (breaks_cat (fails_str h).breaks))))

theorem fails_done {e : PE R} {z : Str} (h : Fails u vN e z) :
    Fails u vN (.restore (.seq (.cat (.cat e (.call .skip)) (.opt (.call .eos))))) z :=
  fails_restore (fails_seq (breaks_cat (breaks_cat h.breaks)))

theorem fails_empty (L : Lawful u) {c : Char} (hc : IdStart u c) (r : Str) : Fails u vN (.call .emptyStatement) (c :: r) :=
  fails_id L hc (by decide) r

theorem fails_annotation (L : Lawful u) {c : Char} (hc : IdStart u c) (r : Str) : Fails u vN (.call .annotation) (c :: r) :=
  fails_id L hc (by decide) r

/-- A text that begins with one reserved word begins with no other one. -/
theorem strip_other {k k' : Str} (hk : k ∈ statementWords) (hk' : k' ∈ statementWords) (ne : k' ≠ k) (z : Str) :
    strip k' (k ++ z) = none := by
  simp only [statementWords, List.mem_cons, List.not_mem_nil, or_false] at hk hk'
  rcases hk with rfl | rfl | rfl | rfl | rfl | rfl | rfl | rfl | rfl | rfl | rfl <;>
  rcases hk' with rfl | rfl | rfl | rfl | rfl | rfl | rfl | rfl | rfl | rfl | rfl <;>
  first
    | exact absurd rfl ne
    | rfl

/-- A statement and what may follow it. -/
theorem eats_done (L : Lawful u) {e : PE R} {x w r : Str} {k : R} {y : Str} {P : List (Pair R) → Prop} (hw : Blank u w)
    (hr : Solid u r) (hs : ∀ c t, r = c :: t → c ≠ ';' ∧ c ≠ '；') (h : Eats u vN e x (w ++ r) (One k y P)) :
    Eats u vN (.restore (.seq (.cat (.cat e (.call .skip)) (.opt (.call .eos))))) (x ++ w) r
      fun q => ∃ p, q = [p] ∧ p.rule = k :=
  (eats_restore (eats_seq ((eats_cat (eats_cat h (eats_skip L rfl hw (show Solid u ([] ++ r) from hr)))
    (eats_opt_nil (fails_eos hs))).cast (by simp)))).imp fun _ => one_of_then

/-- The statements that words begin are tried in turn. -/
theorem eats_by_word (L : Lawful u) {k z x rest : Str} {P : List (Pair R) → Prop} (hk : k ∈ statementWords)
    (hx : x ++ rest = k ++ z) :
    (k = c!"using" → Eats u vN (.restore (.seq (.cat (.cat (.call .importStatement) (.call .skip)) (.opt (.call .eos))))) x rest P →
      Eats u vN (.call .statement) x rest P) ∧
    (k = c!"class" → Eats u vN (.restore (.seq (.cat (.cat (.call .classStatement) (.call .skip)) (.opt (.call .eos))))) x rest P →
      Eats u vN (.call .statement) x rest P) ∧
    (k = c!"trait" → Eats u vN (.restore (.seq (.cat (.cat (.call .traitStatement) (.call .skip)) (.opt (.call .eos))))) x rest P →
      Eats u vN (.call .statement) x rest P) ∧
    (k ∈ [c!"return", c!"break", c!"pass"] →
      Eats u vN (.restore (.seq (.cat (.cat (.call .controlFlow) (.call .skip)) (.opt (.call .eos))))) x rest P →
      Eats u vN (.call .statement) x rest P) ∧
    (k = c!"let" → Eats u vN (.restore (.seq (.cat (.cat (.call .assignStatement) (.call .skip)) (.opt (.call .eos))))) x rest P →
      Eats u vN (.call .statement) x rest P) := by
  have h0 : Fails u vN (.call .emptyStatement) (x ++ rest) := by
    rw [hx]
    have key : ∀ k ∈ statementWords, ∃ c r, k = c :: r ∧ Plain c ∧ asciiUni .xidStart c = true := by
      intro k hk
      simp only [statementWords, List.mem_cons, List.not_mem_nil, or_false] at hk
      rcases hk with rfl | rfl | rfl | rfl | rfl | rfl | rfl | rfl | rfl | rfl | rfl <;>
        exact ⟨_, _, rfl, by decide, by decide⟩
    obtain ⟨c, r, rfl, h1, h2⟩ := key k hk
    exact fails_empty L (.inl (by rw [L.plain _ _ h1]; exact h2)) _
  have no : ∀ k' ∈ statementWords, k' ≠ k → strip k' (x ++ rest) = none := fun k' h ne => by
    rw [hx]; exact strip_other hk h ne z
  refine ⟨?_, ?_, ?_, ?_, ?_⟩
  · rintro rfl h
    exact eats_call (eats_alt_left (eats_alt_left (eats_alt_left (eats_alt_left (eats_alt_left (eats_alt_left (eats_alt_left
      (eats_alt_left (eats_alt_right h0 h)))))))))
  · rintro rfl h
    exact eats_call (eats_alt_left (eats_alt_left (eats_alt_left (eats_alt_left (eats_alt_left (eats_alt_left (eats_alt_left
      (eats_alt_right (fails_alt h0 (fails_done (fails_import (no _ (by decide) (by decide))))) h))))))))
  · rintro rfl h
    exact eats_call (eats_alt_left (eats_alt_left (eats_alt_left (eats_alt_left (eats_alt_left (eats_alt_left
      (eats_alt_right (fails_alt (fails_alt h0 (fails_done (fails_import (no _ (by decide) (by decide)))))
        (fails_done (fails_class (no _ (by decide) (by decide))))) h)))))))
  · intro hk' h
    have ne : ∀ k' ∈ statementWords, k' ∉ [c!"return", c!"break", c!"pass"] → strip k' (x ++ rest) = none :=
      fun k' h1 h2 => no k' h1 (by rintro rfl; exact h2 hk')
    exact eats_call (eats_alt_left (eats_alt_left (eats_alt_left (eats_alt_left
      (eats_alt_right (fails_alt (fails_alt (fails_alt (fails_alt h0 (fails_done (fails_import (ne _ (by decide) (by decide)))))
        (fails_done (fails_class (ne _ (by decide) (by decide))))) (fails_done (fails_trait (ne _ (by decide) (by decide)))))
        (fails_done (fails_extend (ne _ (by decide) (by decide))))) h)))))
  · rintro rfl h
    refine eats_call (eats_alt_left (eats_alt_left (eats_alt_left
      (eats_alt_right (fails_alt (fails_alt (fails_alt (fails_alt (fails_alt h0
        (fails_done (fails_import (no _ (by decide) (by decide)))))
        (fails_done (fails_class (no _ (by decide) (by decide))))) (fails_done (fails_trait (no _ (by decide) (by decide)))))
        (fails_done (fails_extend (no _ (by decide) (by decide))))) (fails_done (fails_call (fails_alt (fails_alt
        (fails_restore (fails_re ?_)) (fails_restore (fails_if (no _ (by decide) (by decide)))))
        (fails_restore (fails_for (no _ (by decide) (by decide)))))))) h))))
    intro k' hk'
    simp only [List.mem_cons, List.not_mem_nil, or_false] at hk'
    rcases hk' with rfl | rfl | rfl <;> exact no _ (by decide) (by decide)

/-- A text whose first statement is no expression: the parser panics, unless the text is refused. -/
theorem parse_no_expression (L : Lawful u) {w y r : Str} {k : R} (hk : k ∉ [.EOI, .expression, .COMMENT]) (hw : Blank u w)
    (hy : Solid u (y ++ r)) (hr : Solid u r) (h : Eats u vN (.call .statement) y r fun q => ∃ p, q = [p] ∧ p.rule = k)
    {c d : Cfg} (hc : c.input = w ++ (y ++ r)) (hd : d.input = r) :
    (parseText u d = .err (.parseError d.errorText) → parseText u c = .err (.parseError c.errorText)) ∧
    (parseText u d ≠ .err (.parseError d.errorText) → parseText u c = .panic) := by
  obtain ⟨p, n, hp, hps⟩ := smParse_first (w' := []) L hw blank_nil hy hr h
  rw [List.nil_append] at hps
  rw [parse_refused, parse_refused, hc, hd, hps]
  simp only [List.mem_cons, List.not_mem_nil, or_false, not_or] at hk
  constructor
  · intro hz; rw [hz]; rfl
  · intro hz
    rw [Ne, parse_refused, hd] at hz
    rw [parseText, hc, hps]
    cases hq : smParse u .program r with
    | error => exact absurd hq hz
    | crash =>
      rcases C33_parse_terminates u .program (by decide) r with ⟨l, h⟩ | h <;> rw [hq] at h <;> cases h
    | pairs l =>
      simp only [shiftParsed, prepend]
      rw [parsePairs, if_neg (by rw [hp]; exact hk.1), if_neg (by rw [hp]; exact hk.2.1), if_neg (by rw [hp]; exact hk.2.2)]

theorem solid_nil : Solid u [] := ⟨(fun _ _ e => nomatch e), ⟨rfl, rfl, rfl, rfl, rfl⟩⟩

theorem eats_skip_end (L : Lawful u) : Eats u vN (.call .skip) [] [] Nil := eats_skip L rfl blank_nil solid_nil

theorem id_solid (L : Lawful u) {c : Char} (h : u .xidContinue c = true) (t : Str) : Solid u (c :: t) :=
  (cont_beside L h t).1.solid

theorem noCont_end (L : Lawful u) {w : Str} (hw : Blank u w) : NoCont u w := by
  have := noCont_blank (z := []) L hw fun _ _ e => nomatch e
  rwa [List.append_nil] at this

theorem noPath_end (L : Lawful u) {w : Str} (hw : Blank u w) : NoPath u w := (ends_blank L hw).path

theorem eats_assign_pair (L : Lawful u) {y w : Str} (hy : IsIdent u y) (hw : Blank u w) :
    Eats u vN (.call .assign_pair) y w fun _ => True := by
  have := eats_Symbol L (p := ⟨y, []⟩) ⟨hy, by simp⟩ (noCont_end L hw) (noPath_end L hw) (v := vN) rfl
  rw [show (Path.mk y []).text = y by simp [Path.text, moreText]] at this
  exact (eats_call (eats_rule (v := vN) rfl this)).imp fun _ _ => trivial

/-- `class` and `trait` with a name. -/
theorem eats_type_rule (L : Lawful u) {k : Str} {g : R} (hg : grammar g = .rule g (.seq (.cat (.cat (.cat (.cat (.str k)
      (.call .skip)) (.call .assign_pair)) (.call .skip)) (.opt (.restore (.call .short_block))))))
    {w1 y w : Str} (hw1 : Blank u w1) (hy : IsIdent u y) (hw : Blank u w) :
    Eats u vN (.call g) (k ++ (w1 ++ (y ++ w))) [] (One g (k ++ (w1 ++ (y ++ w))) fun _ => True) := by
  apply eats_call
  rw [hg]
  obtain ⟨a, t, e, ha⟩ := hy.start
  have hsol : Solid u (y ++ w) := by
    rw [e]; exact id_solid L (ident_cont L hy a (by simp [e])) _
  exact eats_rule rfl (eats_seq (((eats_cat (eats_cat (eats_cat (eats_cat (eats_str _ _)
    (eats_skip L rfl hw1 (by simpa using hsol))) (eats_assign_pair L hy (by simpa using hw)))
    (eats_skip (rest := []) L rfl hw solid_nil))
    (eats_opt_nil (fails_restore (fails_nil (by decide))))).cast (by simp)).imp fun _ _ => trivial))

theorem eats_let (L : Lawful u) {w1 y w : Str} (hw1 : Blank u w1) (hy : IsIdent u y) (hw : Blank u w) :
    Eats u vN (.call .assignStatement) (c!"let" ++ (w1 ++ (y ++ w))) []
      (One .assignStatement (c!"let" ++ (w1 ++ (y ++ w))) fun _ => True) := by
  obtain ⟨a, t, e, ha⟩ := hy.start
  have hsol : Solid u (y ++ w) := by
    rw [e]; exact id_solid L (ident_cont L hy a (by simp [e])) _
  have h1 : Eats u vN (.call .assign_name) (y ++ w) [] fun _ => True :=
    eats_call (eats_seq (((eats_cat (eats_cat (eats_cat (eats_cat (eats_assign_pair L hy (by simpa using hw))
      (eats_skip (rest := []) L rfl hw solid_nil)) (eats_seq (eats_opt_nil (fails_cat (fails_seq (breaks_cat (breaks_cat
      (Fails.breaks (fails_nil (by decide)))))))))) (eats_skip_end L)) (eats_opt_nil (fails_nil (by decide)))).cast
      (by simp)).imp fun _ _ => trivial))
  have h2 : Eats u vN (.call .assign_terms) (y ++ w) [] fun _ => True :=
    eats_call (eats_alt_right (fails_seq (breaks_cat (breaks_cat (breaks_cat (breaks_cat (breaks_cat (breaks_cat (breaks_cat
      (breaks_cat (fails_str (by
        rw [e]
        have : '(' ≠ a := Ne.symm (cont_ne L (ident_cont L hy a (by simp [e])) (by decide) (by decide))
        simp [strip, this])).breaks)))))))))
      (eats_seq (((eats_cat (eats_cat (eats_cat (eats_cat h1 (eats_skip_end L))
        (eats_opt_nil (fails_restore (fails_nil (by decide))))) (eats_skip_end L))
        (eats_opt_nil (fails_restore (fails_nil (by decide))))).cast (by simp)).imp fun _ _ => trivial)))
  exact eats_call (eats_rule rfl (eats_seq (((eats_cat (eats_cat (eats_str _ _)
    (eats_skip L rfl hw1 (by simpa using hsol))) h2).cast (by simp)).imp fun _ _ => trivial)))

theorem fails_mark {d : Char} {k : R} (hk : grammar k = .rule k (.atomic .atomic (.str [d]))) {z : Str}
    (h : ∀ t, z ≠ d :: t) {v : Env} : Fails u v (.call k) z := by
  refine fails_tok hk ?_
  cases z with
  | nil => rfl
  | cons c t =>
    have : d ≠ c := fun e => h t (by rw [e])
    simp [strip, this]

theorem eats_using (L : Lawful u) {w1 y w : Str} (hw1 : Blank u w1) (hy : IsIdent u y) (hw : Blank u w) :
    Eats u vN (.call .importStatement) (c!"using" ++ (w1 ++ (y ++ w))) []
      (One .importStatement (c!"using" ++ (w1 ++ (y ++ w))) fun _ => True) := by
  obtain ⟨a, t, e, ha⟩ := hy.start
  have hc := ident_cont L hy a (by simp [e])
  have hsol : Solid u (y ++ w) := by
    rw [e]; exact id_solid L hc _
  have hq : ∀ r, w ≠ '"' :: r := by
    have := blank_first L hw (r := []) (d := '"') (by decide) (by decide) (by decide) fun _ _ e => nomatch e
    simpa using this
  have name : Eats u vN (.call .SYMBOL) y (w ++ []) fun _ => True :=
    (eats_SYMBOL (v := vN) L rfl hy (by simpa using noCont_end L hw)).imp fun _ _ => trivial
  have mods : Eats u vN (.seq (.opt (.cat (.seq (.cat (.cat (.call .ModuleSplit) (.call .skip)) (.call .SYMBOL)))
      (.rep (.seq (.cat (.call .skip) (.seq (.cat (.cat (.call .ModuleSplit) (.call .skip)) (.call .SYMBOL))))))))) [] [] Nil :=
    eats_seq (eats_opt_nil (fails_cat (fails_seq (breaks_cat (breaks_cat (Fails.breaks (fails_nil (by decide))))))))
  have skips : Eats u vN (.call .skip) w ([] ++ []) Nil := eats_skip L rfl hw solid_nil
  have falias : Fails u vN (.call .use_alias) (y ++ (w ++ [])) := by
    refine fails_call (fails_atomic (v := vN) (fails_rule (fails_alt (fails_restore (fails_seq (breaks_cat (breaks_cat
      (breaks_cat (breaks_cat (Fails.breaks (fails_call (fails_atomic (v := vN) (fails_rule (fails_seq ?_))))))))))) ?_)))
    · rw [List.append_nil]
      have q : ∀ {v : Env}, Fails u v (.call .Quotation) w := fails_mark rfl hq
      have q1 : Fails u vC (.call .StringBlock) w := by
        refine fails_call (fails_atomic (v := vC) (fails_rule (fails_seq ?_)))
        exact breaks_cat (breaks_cat (breaks_cat (breaks_cat (breaks_cat (breaks_cat
          (Fails.breaks (fails_seq (breaks_cat (breaks_cat q.breaks)))))))))
      have q2 : Fails u vC (.call .StringNormal) w :=
        fails_call (fails_rule (fails_atomic (fails_seq (breaks_cat (breaks_cat q.breaks)))))
      exact breaks_cat_right (eats_opt (eats_SYMBOL (v := vC) L rfl hy (noCont_end L hw))) (Fails.breaks (fails_alt
        (fails_restore q1) q2))
    · have h1 := eats_cat (eats_cat (eats_cat name skips) mods) (eats_skip_end L)
      have h2 := breaks_cat_right (b := .call .As) h1 (fails_nil (by decide)).breaks
      rw [show y ++ w ++ [] ++ [] ++ [] = y ++ (w ++ []) by simp] at h2
      exact fails_seq (breaks_cat (breaks_cat h2))
  have hsel : Eats u vN (.call .use_module_select) (y ++ w) [] fun _ => True :=
    (eats_call (eats_atomic (v := vN) (eats_rule (v := vN) rfl (eats_seq ((eats_cat (eats_cat (eats_cat (eats_cat name skips) mods)
      (eats_skip_end L)) (eats_opt_nil (fails_seq (breaks_cat (breaks_cat (Fails.breaks (fails_nil (by decide)))))))).cast
      (by simp)))))).imp fun _ _ => trivial
  have dots : Eats u vN (.seq (.opt (.cat (.call .Dot) (.rep (.seq (.cat (.call .skip) (.call .Dot))))))) [] ([] ++ (y ++ w ++ [])) Nil :=
    eats_seq (eats_opt_nil (fails_cat (by rw [e]; exact fails_id L ha (by decide) _)))
  have h3 := eats_cat (eats_cat (eats_cat (eats_cat (eats_str (v := vN) c!"using" _) (eats_skip (v := vN) L rfl hw1 (by simpa using hsol)))
    dots) (eats_skip (w := []) (v := vN) L rfl blank_nil (by simpa using hsol)))
    (eats_alt_right (fails_restore (by simpa using falias)) (eats_restore hsel))
  exact eats_call (eats_rule (v := vN) rfl (eats_seq ((h3.cast (by simp)).imp fun _ _ => trivial)))

/-- The words that make a statement with a name after them. -/
def namingWords : List Str := [c!"using", c!"class", c!"trait", c!"let"]

theorem parse_empty (L : Lawful u) (d : Cfg) (hd : d.input = []) : parseText u d ≠ .err (.parseError d.errorText) := by
  rw [parse_blank L d (by rw [hd]; exact blank_nil)]
  exact fun h => nomatch h

/-- **C42** (violation).  Whatever identifier follows one of these words, with blank space between them or without: the
text makes the parser panic.  `letter` is one of these texts. -/
theorem C42_naming (L : Lawful u) {k y : Str} (hk : k ∈ namingWords) (hy : IsIdent u y) {w w1 w' : Str} (hw : Blank u w)
    (hw1 : Blank u w1) (hw' : Blank u w') {c : Cfg} (hc : c.input = w ++ (k ++ (w1 ++ (y ++ w')))) :
    parseText u c = .panic := by
  have fin : ∀ {g : R}, g ∉ [R.EOI, .expression, .COMMENT] →
      Eats u vN (.call .statement) (k ++ (w1 ++ (y ++ w'))) [] (fun q => ∃ p, q = [p] ∧ p.rule = g) →
      parseText u c = .panic := by
    intro g hg h
    refine (parse_no_expression L hg hw ?_ solid_nil h (c := c) (d := ⟨[], [], []⟩) (by simpa using hc) rfl).2
      (parse_empty L _ rfl)
    have key : ∀ k ∈ namingWords, ∃ c r, k = c :: r ∧ Plain c ∧ asciiUni .xidContinue c = true := by
      intro k hk
      simp only [namingWords, List.mem_cons, List.not_mem_nil, or_false] at hk
      rcases hk with rfl | rfl | rfl | rfl <;> exact ⟨_, _, rfl, by decide, by decide⟩
    obtain ⟨a, t, rfl, h1, h2⟩ := key k hk
    exact id_solid L (by rw [L.plain _ _ h1]; exact h2) _
  have ns : ∀ c t, ([] : Str) = c :: t → c ≠ ';' ∧ c ≠ '；' := fun _ _ e => nomatch e
  have ap : ∀ x : Str, x ++ [] = x := List.append_nil
  simp only [namingWords, List.mem_cons, List.not_mem_nil, or_false] at hk
  rcases hk with rfl | rfl | rfl | rfl
  · have := eats_done L blank_nil solid_nil ns (eats_using L hw1 hy hw')
    rw [ap] at this
    exact fin (by decide) ((eats_by_word L (k := c!"using") (by decide) (by rw [ap])).1 rfl this)
  · have := eats_done L blank_nil solid_nil ns (eats_type_rule (k := c!"class") (g := .classStatement) L rfl hw1 hy hw')
    rw [ap] at this
    exact fin (by decide) ((eats_by_word L (k := c!"class") (by decide) (by rw [ap])).2.1 rfl this)
  · have := eats_done L blank_nil solid_nil ns (eats_type_rule (k := c!"trait") (g := .traitStatement) L rfl hw1 hy hw')
    rw [ap] at this
    exact fin (by decide) ((eats_by_word L (k := c!"trait") (by decide) (by rw [ap])).2.2.1 rfl this)
  · have := eats_done L blank_nil solid_nil ns (eats_let L hw1 hy hw')
    rw [ap] at this
    exact fin (by decide) ((eats_by_word L (k := c!"let") (by decide) (by rw [ap])).2.2.2.2 rfl this)

/-- **C42** (violation).  After `break` and `pass`, with blank space or without, the rest is read as a text of its own;
if it is not refused, the parser panics.  `breaks` and `password` are identifiers of this kind. -/
theorem C42_control (L : Lawful u) {k : Str} (hk : k ∈ [c!"break", c!"pass"]) {w w1 r : Str} (hw : Blank u w)
    (hw1 : Blank u w1) (hr : Solid u r) (hs : ∀ c t, r = c :: t → c ≠ ';' ∧ c ≠ '；') {c d : Cfg}
    (hc : c.input = w ++ (k ++ (w1 ++ r))) (hd : d.input = r) :
    (parseText u d = .err (.parseError d.errorText) → parseText u c = .err (.parseError c.errorText)) ∧
    (parseText u d ≠ .err (.parseError d.errorText) → parseText u c = .panic) := by
  have h1 : Eats u vN (.call .controlFlow) k (w1 ++ r) (One .re_control k fun _ => True) := by
    refine eats_call (eats_alt_left (eats_alt_left (eats_restore (eats_call (eats_rule rfl ?_)))))
    simp only [List.mem_cons, List.not_mem_nil, or_false] at hk
    rcases hk with rfl | rfl
    · exact (eats_alt_left (eats_alt_right (fails_restore (fails_seq (breaks_cat (breaks_cat (Fails.breaks
        (fails_tok rfl rfl)))))) (eats_tok (v := vN) rfl rfl _))).imp fun _ _ => trivial
    · exact (eats_alt_right (fails_alt (fails_restore (fails_seq (breaks_cat (breaks_cat (Fails.breaks
        (fails_tok rfl rfl)))))) (fails_tok rfl rfl)) (eats_tok (v := vN) rfl rfl _)).imp fun _ _ => trivial
  have hk' : k ∈ statementWords ∧ k ∈ [c!"return", c!"break", c!"pass"] ∧ ∃ a t, k = a :: t ∧ Plain a ∧
      asciiUni .xidContinue a = true := by
    simp only [List.mem_cons, List.not_mem_nil, or_false] at hk
    rcases hk with rfl | rfl <;> exact ⟨by decide, by decide, _, _, rfl, by decide, by decide⟩
  obtain ⟨k1, k2, a, t, rfl, k3, k4⟩ := hk'
  refine parse_no_expression (k := .re_control) (y := a :: t ++ w1) L (by decide) hw ?_ hr ?_ (by rw [hc]; simp) hd
  · exact id_solid L (by rw [L.plain _ _ k3]; exact k4) _
  · exact (eats_by_word L k1 (z := w1 ++ r) (by simp)).2.2.2.1 k2 (eats_done L hw1 hr hs h1)

/-- **C42** (violation).  `return` and an expression, with blank space between them or without: the text makes the
parser panic.  `returns` and `return1` are identifiers of this kind. -/
theorem C42_return (L : Lawful u) (e : SExpr) (he : e.Ok u) {w w1 w' : Str} (hw : Blank u w)
    (hw1 : Blank u w1) (hw' : Blank u w') {c : Cfg} (hc : c.input = w ++ (c!"return" ++ (w1 ++ (e.text ++ w')))) :
    parseText u c = .panic := by
  have hx := SExpr.read L e he
  have hsol : Solid u (e.text ++ w') := term_head_solid L hx.head _
  have h1 := hx.eats vN rfl w' [] hw' ⟨solid_nil, fun _ => fails_nil (by decide)⟩ (follow_close L hw' (.inl rfl))
  have e1 : (e.text ++ taken e.solo w') ++ left e.solo w' = e.text ++ w' := by
    have := taken_left e.solo w' []
    simpa using this
  have h2 : Eats u vN (.call .controlFlow) (c!"return" ++ (w1 ++ (e.text ++ taken e.solo w'))) (left e.solo w' ++ [])
      (One .re_control (c!"return" ++ (w1 ++ (e.text ++ taken e.solo w'))) fun _ => True) :=
    eats_call (eats_alt_left (eats_alt_left (eats_restore (eats_call (eats_rule (v := vN) rfl (eats_alt_left (eats_alt_left
      (eats_restore (eats_seq (((eats_cat (eats_cat (eats_tok (v := vN) rfl rfl _)
        (eats_skip L rfl hw1 (by rw [← List.append_assoc, e1]; simpa using hsol))) h1).cast (by simp)).imp fun _ _ => trivial))))))))))
  have h3 := eats_done L (blank_left hw' e.solo) solid_nil (fun _ _ e => nomatch e) h2
  rw [show c!"return" ++ (w1 ++ (e.text ++ taken e.solo w')) ++ left e.solo w' = c!"return" ++ (w1 ++ (e.text ++ w')) by
    rw [← e1]; simp] at h3
  refine (parse_no_expression (k := .re_control) L (by decide) hw ?_ solid_nil
    ((eats_by_word L (k := c!"return") (by decide) (by rw [List.append_nil])).2.2.2.1 (by decide) h3)
    (c := c) (d := ⟨[], [], []⟩) (by rw [hc]; simp) rfl).2 (parse_empty L _ rfl)
  exact id_solid L (c := 'r') (by rw [L.plain _ _ (by decide)]; decide) _

/-! ### Identifiers that begin with a word and are symbols nevertheless -/

/-- The statements that begin with a word. -/
def wordRules : List R :=
  [.importStatement, .classStatement, .traitStatement, .extendStatement, .re_control, .if_statement, .for_statement,
    .assignStatement, .defineStatement]

theorem eats_no_word (L : Lawful u) {x z : Str} {P : List (Pair R) → Prop} (hx : ∃ c r, x = c :: r ∧ IdStart u c)
    (hf : ∀ r ∈ wordRules, Fails u vN (.call r) (x ++ z)) (h : Eats u vN (.call .expression) x z P) :
    Eats u vN (.call .statement) x z P := by
  obtain ⟨a, t, e, ha⟩ := hx
  have f0 : Fails u vN (.call .emptyStatement) (x ++ z) := by rw [e]; exact fails_empty L ha _
  have f8 : Fails u vN (.call .annotation) (x ++ z) := by rw [e]; exact fails_annotation L ha _
  have f5 : Fails u vN (.call .controlFlow) (x ++ z) :=
    fails_call (fails_alt (fails_alt (fails_restore (hf _ (by decide))) (fails_restore (hf _ (by decide))))
      (fails_restore (hf _ (by decide))))
  exact eats_call (eats_alt_right (fails_alt (fails_alt (fails_alt (fails_alt (fails_alt (fails_alt (fails_alt (fails_alt
    f0 (fails_done (hf _ (by decide)))) (fails_done (hf _ (by decide)))) (fails_done (hf _ (by decide))))
    (fails_done (hf _ (by decide)))) (fails_done f5)) (fails_done (hf _ (by decide)))) (fails_done (hf _ (by decide))))
    (fails_done f8)) (eats_restore h))

/-- An identifier that is no statement and begins with no constant. -/
theorem parse_no_word (L : Lawful u) {x : Str} (hx : IsIdent u x) (hk : ∀ k ∈ constants, strip k x = none) {w w' : Str}
    (hw : Blank u w) (hw' : Blank u w') (hf : ∀ r ∈ wordRules, Fails u vN (.call r) (x ++ w')) {c : Cfg}
    (hc : c.input = w ++ (x ++ w')) : parseText u c = .ok (.symbol ⟨[], x, .normal, 0⟩) := by
  have ht : (SExpr.node (.atom (.sym ⟨x, []⟩))).text = x := by
    rw [node_text, SNode.text, SAtom.text]; simp [Path.text, moreText]
  have hr := SExpr.read L (SExpr.node (.atom (.sym ⟨x, []⟩))) (node_ok (by
    rw [SNode.Ok]; exact ⟨⟨hx, by simp⟩, hk⟩))
  have hst : Stop u [] := stop_close L (.inl rfl)
  have h1 := expression_at L hw' hst (fun _ _ e => nomatch e)
    (hr.eats vN rfl w' [] hw' hst (follow_close L hw' (.inl rfl)))
  rw [ht] at h1
  obtain ⟨a, t, e, ha⟩ := hx.start
  have h2 := eats_no_word L ⟨a, t ++ w', by rw [e]; rfl, ha⟩ (by simpa using hf) h1
  obtain ⟨p, n, hp, hps⟩ := smParse_first (w' := []) (r := []) L hw blank_nil (by
    rw [e]; exact id_solid L (ident_cont L hx a (by simp [e])) _) solid_nil h2
  rw [node_value, SNode.value, SAtom.value] at hp
  refine eraseR_leaf trivial ?_
  have h3 : (buildExpression c p.inner .empty).map erase = some (.symbol ⟨[], x, .normal, 0⟩) := by
    rw [hp.2 c, AST.mkSymbol, show (Path.mk x []).text = x by simp [Path.text, moreText], ofStr_ident L hx]
  rw [parseText, hc, show w ++ (x ++ w') = w ++ ((x ++ w') ++ ([] ++ [])) by simp, hps]
  have h4 : ∃ l, smParse u .program [] = .pairs l := by
    rcases C33_parse_terminates u .program (by decide) [] with h | h
    · exact h
    · exact absurd ((parse_refused ⟨[], [], []⟩).2 h) (parse_empty L ⟨[], [], []⟩ rfl)
  obtain ⟨l, h4⟩ := h4
  rw [h4]
  simp only [shiftParsed, prepend]
  rw [parsePairs, if_neg (by rw [hp.1]; decide), if_pos hp.1]
  cases hb : buildExpression c p.inner .empty with
  | none => rw [hb] at h3; cases h3
  | some a => rw [hb] at h3; exact congrArg Out.ok (Option.some.inj h3)

/-! #### What an identifier may go on with but not begin with -/

/-- First characters other than such. -/
def notMid : CS → Bool
  | .chr d => decide (Plain d) && (!asciiUni .xidContinue d || asciiUni .xidStart d || (decide ('0' ≤ d) && decide (d ≤ '9')))
  | .insens d => decide (d = '0')
  | .rng a b => decide ('0' ≤ a) && decide (b ≤ '9')
  | .uc p => decide (p = .whiteSpace)
  | .all => false

/-- The function of the rule cannot begin with such a character. -/
def noMid (r : R) : Bool := noEmpty r && (gFirst r).all notMid

/-- A character that identifiers go on with but do not begin with, and no digit; or the underscore. -/
structure Mid (u : Uni) (c : Char) : Prop where
  cont : u .xidContinue c = true
  start : u .xidStart c = false
  digit : ¬ ('0' ≤ c ∧ c ≤ '9')

theorem notMid_has (L : Lawful u) {c : Char} (hc : Mid u c) {x : CS} (hx : notMid x = true) : x.has u c = false := by
  cases x with
  | chr d =>
    simp only [notMid, Bool.and_eq_true, decide_eq_true_eq, Bool.not_eq_true', Bool.or_eq_true] at hx
    obtain ⟨h1, h2⟩ := hx
    simp only [CS.has, decide_eq_false_iff_not]
    rintro rfl
    have c1 := hc.cont
    have c2 := hc.start
    rw [L.plain d _ h1] at c1 c2
    rcases h2 with (h2 | h2) | h2
    · rw [h2] at c1; cases c1
    · rw [h2] at c2; cases c2
    · exact hc.digit h2
  | insens d =>
    simp only [notMid, decide_eq_true_eq] at hx
    subst hx
    simp only [CS.has, decide_eq_false_iff_not]
    intro h
    have := toLower_eq_zero h
    subst this
    exact hc.digit (by decide)
  | rng a b =>
    simp only [notMid, Bool.and_eq_true, decide_eq_true_eq] at hx
    simp only [CS.has, Bool.and_eq_false_iff, decide_eq_false_iff_not]
    by_cases h1 : a ≤ c
    · right
      intro h2
      exact hc.digit ⟨Char.le_trans hx.1 h1, Char.le_trans h2 hx.2⟩
    · exact .inl h1
  | uc p =>
    simp only [notMid, decide_eq_true_eq] at hx
    subst hx
    exact L.cont_ws c hc.cont
  | all => cases hx

theorem fails_mid (L : Lawful u) {r : R} {c : Char} (hc : Mid u c) (h : noMid r = true) (txt : Str) {v : Env} :
    Fails u v (.call r) (c :: txt) := by
  simp only [noMid, noEmpty, Bool.and_eq_true, decide_eq_true_eq, Bool.not_eq_true', List.all_eq_true] at h
  obtain ⟨⟨⟨⟨h1, h2⟩, h3⟩, h4⟩, h5⟩ := h
  refine fails_first h1 h2 h3 h4 ?_
  simp only [hits, List.any_eq_false, Bool.not_eq_true]
  intro x hx
  exact notMid_has L hc (h5 x hx)

/-- The end of the text, or a text where no name begins. -/
def Nameless (u : Uni) (z : Str) : Prop := ∀ v : Env, Fails u v (.call .SYMBOL) z

/-- The rest of an identifier that is no identifier itself. -/
theorem nameless_rest (L : Lawful u) {y w : Str} (hy : ∀ c ∈ y, u .xidContinue c = true) (hn : ¬ IsIdent u y)
    (hw : NoCont u w) : Nameless u (y ++ w) := by
  intro v
  cases y with
  | nil =>
    refine fails_SYMBOL L fun c r e hc => ?_
    have := hw c r e
    rw [idStart_cont L hc] at this
    cases this
  | cons a t =>
    have ha : u .xidStart a = false := by
      cases h : u .xidStart a with
      | false => rfl
      | true => exact absurd (.inl ⟨a, t, rfl, h, fun d hd => hy d (by simp [hd])⟩) hn
    by_cases e : a = '_'
    · subst e
      cases t with
      | cons b t => exact absurd (.inr ⟨b, t, rfl, hy b (by simp), fun d hd => hy d (by simp [hd])⟩) hn
      | nil =>
        refine fails_call (fails_rule (fails_atomic (fails_alt (fails_seq (breaks_cat (Fails.breaks ?_)))
          (fails_seq (breaks_cat ?_)))))
        · exact fails_plain L (by decide) _
        · have h1 : Eats u { v with atomicity := .atomic } (.call .Underline) ['_'] w Nil :=
            eats_tok_mute rfl (by obtain ⟨a, b⟩ := v; cases b <;> rfl) _
          exact breaks_cat_right h1 (fails_cont hw).breaks
    · refine fails_SYMBOL L fun c r e' hc => ?_
      cases e'
      rcases hc with hc | hc
      · rw [ha] at hc; cases hc
      · exact e hc

/-- What is left after a word: nothing, or the rest of the identifier and blank space. -/
theorem after_word (L : Lawful u) {y w : Str} (hy : ∀ c ∈ y, u .xidContinue c = true) (hw : Blank u w) :
    ∃ s z, y ++ w = s ++ z ∧ Eats u vN (.call .skip) s z Nil ∧ (z = [] ∧ y = [] ∨ z = y ++ w ∧ y ≠ []) := by
  cases y with
  | nil => exact ⟨w, [], by simp, eats_skip L rfl hw solid_nil, .inl ⟨rfl, rfl⟩⟩
  | cons a t =>
    exact ⟨[], (a :: t) ++ w, rfl, eats_skip L rfl blank_nil (id_solid L (hy a (by simp)) _), .inr ⟨rfl, by simp⟩⟩

theorem fails_Symbol {z : Str} (h : Nameless u z) {v : Env} : Fails u v (.call .Symbol) z :=
  fails_call (fails_atomic (fails_rule (fails_seq (breaks_cat (h _).breaks))))

/-- After these words only an identifier makes a statement. -/
theorem fails_naming (L : Lawful u) {y w : Str} (hy : ∀ c ∈ y, u .xidContinue c = true) (hn : ¬ IsIdent u y) (hw : Blank u w) :
    Fails u vN (.call .importStatement) (c!"using" ++ (y ++ w)) ∧
    Fails u vN (.call .classStatement) (c!"class" ++ (y ++ w)) ∧
    Fails u vN (.call .traitStatement) (c!"trait" ++ (y ++ w)) ∧
    Fails u vN (.call .assignStatement) (c!"let" ++ (y ++ w)) := by
  obtain ⟨s, z, e, hs, hz⟩ := after_word L hy hw
  have hnl : Nameless u z := by
    rcases hz with ⟨rfl, -⟩ | ⟨rfl, -⟩
    · exact fun v => fails_nil (by decide)
    · exact nameless_rest L hy hn (noCont_end L hw)
  have hh : ∀ d, Plain d → asciiUni .xidContinue d = false → ∀ t, z ≠ d :: t := by
    intro d h1 h2 t e'
    rcases hz with ⟨rfl, -⟩ | ⟨rfl, h⟩
    · cases e'
    · cases y with
      | nil => exact h rfl
      | cons a y =>
        simp only [List.cons_append, List.cons.injEq] at e'
        exact cont_ne L (hy a (by simp)) h1 h2 e'.1
  have hsol : Solid u z := by
    rcases hz with ⟨rfl, -⟩ | ⟨rfl, h⟩
    · exact solid_nil
    · cases y with
      | nil => exact absurd rfl h
      | cons a y => exact id_solid L (hy a (by simp)) _
  have fa : ∀ {v : Env}, Fails u v (.call .assign_pair) z := fails_call (fails_rule (fails_Symbol hnl))
  have q : ∀ {v : Env}, Fails u v (.call .Quotation) z := fails_mark rfl (hh '"' (by decide) (by decide))
  rw [e]
  have head : ∀ k : Str, Eats u vN (.cat (.str k) (.call .skip)) (k ++ s) z (Then Nil Nil) :=
    fun k => eats_cat (eats_str _ _) hs
  have app : ∀ k : Str, k ++ (s ++ z) = (k ++ s) ++ z := fun k => by simp
  refine ⟨?_, ?_, ?_, ?_⟩
  · rw [app]
    have dots : Eats u vN (.seq (.opt (.cat (.call .Dot) (.rep (.seq (.cat (.call .skip) (.call .Dot))))))) [] z Nil :=
      eats_seq (eats_opt_nil (fails_cat (fails_mark rfl (hh '.' (by decide) (by decide)))))
    have h1 := eats_cat (eats_cat (head c!"using") dots) (eats_skip (w := []) (v := vN) L rfl blank_nil hsol)
    rw [List.append_nil, List.append_nil] at h1
    refine fails_call (fails_rule (fails_seq (breaks_cat_right h1 (Fails.breaks (fails_alt (fails_restore ?_)
      (fails_restore ?_))))))
    · refine fails_call (fails_atomic (v := vN) (fails_rule (fails_alt (fails_restore (fails_seq (breaks_cat (breaks_cat
        (breaks_cat (breaks_cat (Fails.breaks (fails_call (fails_atomic (v := vN) (fails_rule (fails_seq ?_)))))))))))
        (fails_seq (breaks_cat (breaks_cat (breaks_cat (breaks_cat (breaks_cat (breaks_cat (hnl _).breaks))))))))))
      have q1 : Fails u vC (.call .StringBlock) z := by
        refine fails_call (fails_atomic (v := vC) (fails_rule (fails_seq ?_)))
        exact breaks_cat (breaks_cat (breaks_cat (breaks_cat (breaks_cat (breaks_cat
          (Fails.breaks (fails_seq (breaks_cat (breaks_cat q.breaks)))))))))
      have q2 : Fails u vC (.call .StringNormal) z :=
        fails_call (fails_rule (fails_atomic (fails_seq (breaks_cat (breaks_cat q.breaks)))))
      exact breaks_cat_right (x := []) (eats_opt_nil (hnl vC)) (Fails.breaks (fails_alt (fails_restore q1) q2))
    · exact fails_call (fails_atomic (fails_rule (fails_seq (breaks_cat (breaks_cat (breaks_cat (breaks_cat
        (hnl _).breaks)))))))
  · rw [app]
    exact fails_call (fails_rule (fails_seq (breaks_cat (breaks_cat (breaks_cat_right (head _) fa.breaks)))))
  · rw [app]
    exact fails_call (fails_rule (fails_seq (breaks_cat (breaks_cat (breaks_cat_right (head _) fa.breaks)))))
  · rw [app]
    refine fails_call (fails_rule (fails_seq (breaks_cat_right (head _) (Fails.breaks (fails_call (fails_alt
      (fails_seq ?_) (fails_seq ?_)))))))
    · refine breaks_cat (breaks_cat (breaks_cat (breaks_cat (breaks_cat (breaks_cat (breaks_cat
        (breaks_cat (fails_str ?_).breaks)))))))
      cases z with
      | nil => rfl
      | cons c t =>
        have : '(' ≠ c := fun e => hh '(' (by decide) (by decide) t (by rw [e])
        simp [strip, this]
    · exact breaks_cat (breaks_cat (breaks_cat (breaks_cat (Fails.breaks (fails_call (fails_seq (breaks_cat (breaks_cat
        (breaks_cat (breaks_cat fa.breaks))))))))))

/-- After these words a name is not enough to make a statement. -/
theorem fails_incomplete (L : Lawful u) {y w : Str} (hy : ∀ c ∈ y, u .xidContinue c = true) (hw : Blank u w) :
    Fails u vN (.call .extendStatement) (c!"extends" ++ (y ++ w)) ∧
    Fails u vN (.call .for_statement) (c!"for" ++ (y ++ w)) ∧
    Fails u vN (.call .defineStatement) (c!"def" ++ (y ++ w)) := by
  obtain ⟨s, z, e, hs, hz⟩ := after_word L hy hw
  have head : ∀ k : Str, Eats u vN (.cat (.str k) (.call .skip)) (k ++ s) z (Then Nil Nil) :=
    fun k => eats_cat (eats_str _ _) hs
  have app : ∀ k : Str, k ++ (s ++ z) = (k ++ s) ++ z := fun k => by simp
  rw [e, app, app, app]
  by_cases hi : IsIdent u y
  · have hzy : z = y ++ w := by
      rcases hz with ⟨-, rfl⟩ | ⟨h, -⟩
      · obtain ⟨a, t, e, -⟩ := hi.start; cases e
      · exact h
    have e2 : ∀ k : Str, (k ++ s) ++ z = (k ++ s) ++ (y ++ (w ++ [])) := fun k => by rw [hzy]; simp
    have head : ∀ k : Str, Eats u vN (.cat (.str k) (.call .skip)) (k ++ s) (y ++ (w ++ [])) (Then Nil Nil) := by
      intro k; have := head k; rw [hzy] at this; simpa using this
    have skips : Eats u vN (.call .skip) w [] Nil := eats_skip L rfl hw solid_nil
    have sym : Eats u vN (.call .Symbol) y (w ++ []) fun _ => True := by
      have := eats_Symbol L (p := ⟨y, []⟩) ⟨hi, by simp⟩ (noCont_end L hw) (noPath_end L hw) (v := vN) rfl
      rw [show (Path.mk y []).text = y by simp [Path.text, moreText]] at this
      rw [List.append_nil]
      exact this.imp fun _ _ => trivial
    have pair : Eats u vN (.call .assign_pair) y (w ++ []) fun _ => True := by
      rw [List.append_nil]; exact eats_assign_pair L hi hw
    have name : Eats u vN (.call .SYMBOL) y (w ++ []) fun _ => True :=
      (eats_SYMBOL (v := vN) L rfl hi (by simpa using noCont_end L hw)).imp fun _ _ => trivial
    rw [e2, e2, e2]
    refine ⟨?_, ?_, ?_⟩
    · have h1 := eats_cat (eats_cat (eats_cat (eats_cat (head c!"extends") sym) skips)
        (eats_opt_nil (e := .call .with_trait) (fails_nil (by decide)))) (eats_skip_end L)
      have h2 := breaks_cat_right (b := .call .short_block) h1 (fails_nil (by decide)).breaks
      exact fails_call (fails_rule (fails_seq (by simpa using h2)))
    · have h1 := breaks_cat_right (b := .str c!"in") (eats_cat name skips) (fails_str rfl).breaks
      rw [show y ++ w ++ [] = y ++ (w ++ []) by simp] at h1
      exact fails_call (fails_rule (fails_seq (breaks_cat_right (head c!"for") (Fails.breaks (fails_call (fails_rule
        (fails_seq (breaks_cat (breaks_cat (breaks_cat (breaks_cat h1)))))))))))
    · have h1 := breaks_cat_right (b := .call .define_parameter) (eats_cat pair skips) (fails_nil (by decide)).breaks
      rw [show y ++ w ++ [] = y ++ (w ++ []) by simp] at h1
      exact fails_call (fails_rule (fails_seq (breaks_cat_right (head c!"def") (Fails.breaks (fails_call
        (fails_seq (breaks_cat (breaks_cat (breaks_cat (breaks_cat h1))))))))))
  · have hnl : Nameless u z := by
      rcases hz with ⟨rfl, -⟩ | ⟨rfl, -⟩
      · exact fun v => fails_nil (by decide)
      · exact nameless_rest L hy hi (noCont_end L hw)
    refine ⟨?_, ?_, ?_⟩
    · exact fails_call (fails_rule (fails_seq (breaks_cat (breaks_cat (breaks_cat (breaks_cat
        (breaks_cat_right (head _) (fails_Symbol hnl).breaks)))))))
    · exact fails_call (fails_rule (fails_seq (breaks_cat_right (head _) (Fails.breaks (fails_call (fails_rule
        (fails_seq (breaks_cat (breaks_cat (breaks_cat (breaks_cat (breaks_cat (breaks_cat (hnl _).breaks)))))))))))))
    · exact fails_call (fails_rule (fails_seq (breaks_cat_right (head _) (Fails.breaks (fails_call
        (fails_seq (breaks_cat (breaks_cat (breaks_cat (breaks_cat (breaks_cat (breaks_cat
          (Fails.breaks (fails_call (fails_rule (fails_Symbol hnl))))))))))))))))

/-- `let er` and `return 1` panic. -/
example : parseText asciiUni ⟨[], c!"let er ", []⟩ = .panic :=
  C42_naming lawful_asciiUni (k := c!"let") (y := c!"er") (w := []) (w1 := c!" ") (w' := c!" ") (by decide)
    (.inl ⟨'e', c!"r", rfl, by decide, by decide⟩) blank_nil (blank_one lawful_asciiUni) (blank_one lawful_asciiUni) rfl

example : parseText asciiUni ⟨[], c!"return 1", []⟩ = .panic :=
  C42_return lawful_asciiUni (SExpr.node (.atom (.int 1))) (node_ok (by rw [SNode.Ok]; trivial)) (w := []) (w1 := c!" ")
    (w' := []) blank_nil (blank_one lawful_asciiUni) blank_nil (by
      have : (SExpr.node (.atom (.int 1))).text = c!"1" := by rw [node_text, SNode.text, SAtom.text]; decide
      rw [this]; rfl)

end SM.Props
