import Verif.Props.Call
import Verif.Props.PegTables
/-
Texts: statements one after the other.
-/
namespace SM.Props
open SM SM.Peg

variable {u : Uni} {v : Env}

/-! ### Statements that are not expressions -/

/-- The words that begin other statements. -/
def statementWords : List Str :=
  [c!"using", c!"class", c!"trait", c!"extends", c!"return", c!"break", c!"pass", c!"if", c!"for", c!"let", c!"def"]

/-- A text that begins with no such word. -/
def Wordless (x : Str) : Prop := ∀ k ∈ statementWords, strip k x = none

theorem strip_more {k x z : Str} (hz : NoCont u z) (hk : ∀ c ∈ k, u .xidContinue c = true) (h : strip k x = none) :
    strip k (x ++ z) = none := by
  induction k generalizing x with
  | nil => cases x <;> cases h
  | cons c k ih =>
    cases x with
    | nil =>
      cases z with
      | nil => rfl
      | cons d z =>
        have h1 := hz d z rfl
        have h2 := hk c (by simp)
        have : c ≠ d := by rintro rfl; rw [h1] at h2; cases h2
        simp [strip, this]
    | cons d x =>
      rw [strip] at h
      rw [List.cons_append, strip]
      split
      · rw [if_pos ‹_›] at h
        exact ih (fun c hc => hk c (by simp [hc])) h
      · rfl

theorem words_cont (L : Lawful u) : ∀ k ∈ statementWords, ∀ c ∈ k, u .xidContinue c = true := by
  intro k hk c hc
  have key : ∀ k ∈ statementWords, ∀ c ∈ k, Plain c ∧ asciiUni .xidContinue c = true := by decide
  rw [L.plain _ _ (key k hk c hc).1, (key k hk c hc).2]

/-- How statements fail on the text of an expression. -/
theorem statement_fails (L : Lawful u) {x z : Str}
    (hx : ∃ c r, x = c :: r ∧ (IdStart u c ∨ c ∈ termChars)) (hw : ∀ k ∈ statementWords, strip k (x ++ z) = none) :
    ∃ e, grammar .statement = .alt e (.restore (.call .expression)) ∧ Fails u vN e (x ++ z) := by
  obtain ⟨c, r, rfl, hc⟩ := hx
  have hne : ∀ d ∈ [';', '；', '@'], c ≠ d := by
    intro d hd
    rcases hc with hc | hc
    · rintro rfl
      have key : ∀ d ∈ [';', '；', '@'], Plain d ∧ asciiUni .xidStart d = false ∧ d ≠ '_' := by decide
      exact not_idStart L (key _ hd).1 (key _ hd).2.1 (key _ hd).2.2 hc
    · rintro rfl
      have key : ∀ c ∈ termChars, c ∉ [';', '；', '@'] := by decide
      exact key c hc hd
  have n1 := hne ';' (by decide)
  have n2 := hne '；' (by decide)
  have n3 := hne '@' (by decide)
  have hs : ∀ {y : Str}, y ∈ statementWords → ∀ {v : Env}, Fails u v (.str y) ((c :: r) ++ z) :=
    fun hy => fails_str (hw _ hy)
  have f0 : Fails u vN (.call .emptyStatement) ((c :: r) ++ z) := by
    refine fails_call (fails_rule (fails_alt (fails_call (fails_rule (fails_call (fails_rule (fails_atomic
      (fails_alt (fails_str ?_) (fails_str ?_))))))) (fails_tok rfl ?_)))
    · simp [strip, Ne.symm n1]
    · simp [strip, Ne.symm n2]
    · simp [strip, Ne.symm n1]
  have fin : ∀ {e : PE R}, Fails u vN e ((c :: r) ++ z) →
      Fails u vN (.restore (.seq (.cat (.cat e (.call .skip)) (.opt (.call .eos))))) ((c :: r) ++ z) :=
    fun h => fails_restore (fails_seq (breaks_cat (breaks_cat h.breaks)))
  have f1 : Fails u vN (.call .importStatement) ((c :: r) ++ z) :=
    fails_call (fails_rule (fails_seq (breaks_cat (breaks_cat (breaks_cat (breaks_cat (hs (by decide)).breaks))))))
  have f2 : Fails u vN (.call .classStatement) ((c :: r) ++ z) :=
    fails_call (fails_rule (fails_seq (breaks_cat (breaks_cat (breaks_cat (breaks_cat (hs (by decide)).breaks))))))
  have f3 : Fails u vN (.call .traitStatement) ((c :: r) ++ z) :=
    fails_call (fails_rule (fails_seq (breaks_cat (breaks_cat (breaks_cat (breaks_cat (hs (by decide)).breaks))))))
  have f4 : Fails u vN (.call .extendStatement) ((c :: r) ++ z) :=
    fails_call (fails_rule (fails_seq (breaks_cat (breaks_cat (breaks_cat (breaks_cat (breaks_cat (breaks_cat
      (hs (by decide)).breaks))))))))
  have f5 : Fails u vN (.call .controlFlow) ((c :: r) ++ z) := by
    refine fails_call (fails_alt (fails_alt (fails_restore ?_) (fails_restore ?_)) (fails_restore ?_))
    · exact fails_call (fails_rule (fails_alt (fails_alt (fails_restore (fails_seq (breaks_cat (breaks_cat
        (fails_tok rfl (hw _ (by decide))).breaks)))) (fails_tok rfl (hw _ (by decide))))
        (fails_tok rfl (hw _ (by decide)))))
    · exact fails_call (fails_rule (fails_seq (breaks_cat (breaks_cat (breaks_cat (breaks_cat (hs (by decide)).breaks))))))
    · exact fails_call (fails_rule (fails_seq (breaks_cat (breaks_cat (hs (by decide)).breaks))))
  have f6 : Fails u vN (.call .assignStatement) ((c :: r) ++ z) :=
    fails_call (fails_rule (fails_seq (breaks_cat (breaks_cat (hs (by decide)).breaks))))
  have f7 : Fails u vN (.call .defineStatement) ((c :: r) ++ z) :=
    fails_call (fails_rule (fails_seq (breaks_cat (breaks_cat (hs (by decide)).breaks))))
  have f8 : Fails u vN (.call .annotation) ((c :: r) ++ z) := by
    refine fails_call (fails_rule (fails_seq (breaks_cat (breaks_cat (fails_seq (breaks_cat (breaks_cat
      (fails_call (fails_rule (fails_atomic (fails_seq (breaks_cat (fails_tok rfl ?_).breaks))))).breaks))).breaks))))
    simp [strip, Ne.symm n3]
  exact ⟨_, rfl, fails_alt (fails_alt (fails_alt (fails_alt (fails_alt (fails_alt (fails_alt (fails_alt
    f0 (fin f1)) (fin f2)) (fin f3)) (fin f4)) (fin f5)) (fin f6)) (fin f7)) (fin f8)⟩

/-- An expression is a statement. -/
theorem eats_statement (L : Lawful u) {x z : Str} {P : List (Pair R) → Prop}
    (hx : ∃ c r, x = c :: r ∧ (IdStart u c ∨ c ∈ termChars)) (hw : ∀ k ∈ statementWords, strip k (x ++ z) = none)
    (h : Eats u vN (.call .expression) x z P) : Eats u vN (.call .statement) x z P := by
  obtain ⟨e, he, hf⟩ := statement_fails L hx hw
  apply eats_call
  rw [he]
  exact eats_alt_right hf (eats_restore h)

/-! ### Expressions as statements -/

/-- The two forms of the semicolon. -/
def semiText (b : Bool) : Str := if b then c!"；" else c!";"

theorem eats_eos (b : Bool) (rest : Str) : Eats u vN (.call .eos) (semiText b) rest fun q => ∃ p, q = [p] ∧ p.rule = .eos := by
  refine (eats_call (eats_rule (v := vN) rfl (eats_call (eats_rule (v := vN) rfl (eats_atomic
    (P := Nil) ?_))))).imp ?_
  · cases b with
    | false => exact eats_alt_left (eats_str _ _)
    | true => exact eats_alt_right (fails_str (by simp [semiText, strip])) (eats_str _ _)
  · rintro q ⟨a, b, k, rfl, _⟩
    exact ⟨_, rfl, rfl⟩

theorem fails_eos {z : Str} (h : ∀ c r, z = c :: r → c ≠ ';' ∧ c ≠ '；') : Fails u v (.call .eos) z := by
  refine fails_call (fails_rule (fails_call (fails_rule (fails_atomic (fails_alt (fails_str ?_) (fails_str ?_))))))
  all_goals
    cases z with
    | nil => rfl
    | cons c r =>
      have := h c r rfl
      simp [strip, Ne.symm this.1, Ne.symm this.2]

/-- A statement that is an expression: the expression, the blank space after it, and the semicolon with the blank
space after it. -/
structure Stmt where
  x : Str
  w : Str
  semi : Option (Bool × Str)
  solo : Bool
  d : Option AST

/-- The text of the end of a statement. -/
def stopText : Option (Bool × Str) → Str
  | none => []
  | some (b, w) => semiText b ++ w

/-- The text of statements. -/
def progText : List Stmt → Str
  | [] => []
  | s :: l => s.x ++ (s.w ++ (stopText s.semi ++ progText l))

/-- The end of a statement, in front of `rest`. -/
def StopOk (u : Uni) (w rest : Str) : Option (Bool × Str) → Prop
  | none => Stop u rest ∧ Follow u (w ++ rest) ∧ NoCont u (w ++ rest) ∧ ∀ c r, rest = c :: r → c ≠ ';' ∧ c ≠ '；'
  | some (_, w') => Blank u w'

/-- Statements that are read as intended. -/
def ProgOk (u : Uni) : List Stmt → Prop
  | [] => True
  | s :: l => IsExpr u s.solo s.x s.d ∧ Wordless s.x ∧ Blank u s.w ∧ StopOk u s.w (progText l) s.semi ∧ ProgOk u l

/-- The pair of a statement that is an expression. -/
def IsExpression (d : Option AST) (p : Pair R) : Prop :=
  p.rule = .expression ∧ ∀ c, (buildExpression c p.inner .empty).map erase = d

theorem semi_close (b : Bool) (t : Str) : HeadIn closeChars (semiText b ++ t) := by
  cases b
  · exact .inr ⟨';', t, rfl, by decide⟩
  · exact .inr ⟨'；', t, rfl, by decide⟩

theorem semi_follow (L : Lawful u) {w : Str} (hw : Blank u w) (b : Bool) (t : Str) : Follow u (w ++ (semiText b ++ t)) := by
  refine follow_close L hw ?_
  cases b
  · exact .inr ⟨';', t, rfl, by decide⟩
  · exact .inr ⟨'；', t, rfl, by decide⟩

/-- The blank space after a statement. -/
def afterStop : Option (Bool × Str) → Str
  | none => []
  | some (_, w) => w
/-- The end of a statement without the blank space. -/
def semiOf : Option (Bool × Str) → Str
  | none => []
  | some (b, _) => semiText b

theorem stop_split (o : Option (Bool × Str)) (t : Str) : semiOf o ++ (afterStop o ++ t) = stopText o ++ t := by
  cases o <;> simp [semiOf, afterStop, stopText]

theorem eats_stmt (L : Lawful u) {s : Stmt} {rest : Str} (hx : IsExpr u s.solo s.x s.d) (hn : Wordless s.x)
    (hw : Blank u s.w) (hs : StopOk u s.w rest s.semi) :
    Eats u vN (.call .statement) (s.x ++ (s.w ++ semiOf s.semi)) (afterStop s.semi ++ rest)
      fun q => ∃ p, q = [p] ∧ IsExpression s.d p := by
  obtain ⟨x, w, semi, solo, d⟩ := s
  simp only at hx hn hw hs ⊢
  have key : ∀ r : Str, Stop u (semiOf semi ++ r) → Follow u (w ++ (semiOf semi ++ r)) →
      NoCont u (w ++ (semiOf semi ++ r)) →
      Eats u vN (.opt (.call .eos)) (semiOf semi) r (fun q => q = [] ∨ ∃ p, q = [p] ∧ p.rule = .eos) →
      Eats u vN (.call .statement) (x ++ (w ++ semiOf semi)) r fun q => ∃ p, q = [p] ∧ IsExpression d p := by
    intro r h1 h2 h3 h4
    have h5 := hx.eats vN rfl w (semiOf semi ++ r) hw h1 h2
    have h6 := eats_cat (eats_cat h5 (eats_skip L rfl (blank_left hw _) h1.1)) h4
    have e1 : (x ++ taken solo w) ++ left solo w ++ semiOf semi = x ++ (w ++ semiOf semi) := by
      have := taken_left solo w (semiOf semi)
      simp only [List.append_assoc]
      rw [this]
    refine eats_statement L ?_ ?_ ((eats_call (eats_rule (v := vN) rfl (eats_seq (h6.cast e1)))).imp ?_)
    · obtain ⟨c, t, e, hc⟩ := hx.head
      exact ⟨c, t ++ (w ++ semiOf semi), by rw [e]; rfl, hc⟩
    · intro k hk
      rw [List.append_assoc, List.append_assoc]
      exact strip_more h3 (words_cont L k hk) (hn k hk)
    · rintro q ⟨a, b, k, rfl, q1, q2, rfl, ⟨q3, q4, rfl, ⟨p, rfl, hp1, hp2⟩, h7⟩, h8⟩
      rw [show q4 = [] from h7]
      refine ⟨_, rfl, rfl, fun c => ?_⟩
      rw [← hp2 c]
      rcases h8 with rfl | ⟨p', rfl, hp'⟩
      · simp only [Pair.inner, List.append_nil, buildExpression, if_pos hp1]
        cases buildExpr c p <;> rfl
      · simp only [Pair.inner, List.append_nil, List.singleton_append, buildExpression, if_pos hp1]
        have hp2 : ¬ p'.rule = .expr := by rw [hp']; decide
        simp only [if_neg hp2, if_pos hp']
        cases buildExpr c p <;> rfl
  cases semi with
  | none =>
    obtain ⟨h1, h2, h3, h4⟩ := hs
    exact key rest h1 h2 h3 ((eats_opt_nil (fails_eos h4)).imp fun q hq => .inl hq)
  | some o =>
    obtain ⟨b, w'⟩ := o
    exact key (w' ++ rest) (stop_close L (semi_close b _)) (semi_follow L hw b _)
      (noCont_blank L hw (noCont_close L (semi_close b _))) ((eats_opt (eats_eos b _)).imp fun q hq => .inr hq)

theorem stop_blank {w rest : Str} {o : Option (Bool × Str)} (h : StopOk u w rest o) : Blank u (afterStop o) := by
  cases o with
  | none => exact blank_nil
  | some o => exact h

theorem prog_solid (L : Lawful u) {l : List Stmt} (h : ProgOk u l) : Solid u (progText l) := by
  cases l with
  | nil => exact close_solid L (.inl rfl)
  | cons s l => exact term_head_solid L h.1.head _

/-- The pairs of statements. -/
def ProgPairs (l : List Stmt) (q : List (Pair R)) : Prop := List.Forall₂ (fun s p => IsExpression s.d p) l q

theorem eats_prog (L : Lawful u) : ∀ (l : List Stmt) {w : Str}, Blank u w → ProgOk u l →
    ∃ a b, w ++ progText l = a ++ b ∧ Blank u b ∧
      Eats u vN (.rep (.seq (.cat (.call .skip) (.restore (.call .statement))))) a b (ProgPairs l) := by
  intro l
  induction l with
  | nil =>
    intro w hw _
    have hs : Solid u [] := prog_solid (l := []) L trivial
    refine ⟨[], w, by simp [progText], hw, (eats_rep_nil (fails_seq ?_)).imp fun q hq => ?_⟩
    · have := breaks_cat_right (b := .restore (.call .statement)) (rest := []) (eats_skip (v := vN) L rfl hw hs)
        (fails_restore (fails_nil (by decide))).breaks
      simpa using this
    · rw [show q = [] from hq]
      exact .nil
  | cons s l ih =>
    intro w hw h
    obtain ⟨h1, h2, h3, h4, h5⟩ := h
    obtain ⟨a, b, e, hb, hab⟩ := ih (stop_blank h4) h5
    have h6 := eats_stmt L h1 h2 h3 h4
    have hsol : Solid u (progText (s :: l)) := prog_solid L ⟨h1, h2, h3, h4, h5⟩
    have e2 : (s.x ++ (s.w ++ semiOf s.semi)) ++ (afterStop s.semi ++ progText l) = progText (s :: l) := by
      simp only [progText, List.append_assoc]
      rw [stop_split]
    rw [← e2] at hsol
    have h7 := eats_seq (eats_cat (eats_skip (v := vN) L rfl hw hsol) (eats_restore h6))
    rw [e] at h7
    refine ⟨(w ++ (s.x ++ (s.w ++ semiOf s.semi))) ++ a, b, ?_, hb, (eats_rep_cons h7 hab).imp ?_⟩
    · rw [← e2, e]; simp
    · rintro q ⟨q1, q2, rfl, ⟨q3, q4, rfl, h8, ⟨p, rfl, hp⟩⟩, h9⟩
      rw [show q3 = [] from h8]
      exact .cons hp h9

/-- The pairs of a text of statements. -/
def TextPairs (l : List Stmt) (q : List (Pair R)) : Prop := ∃ q' p, q = q' ++ [p] ∧ ProgPairs l q' ∧ p.rule = .EOI

theorem eats_text (L : Lawful u) {w : Str} (hw : Blank u w) {l : List Stmt} (h : ProgOk u l) :
    Eats u vN (.cat (.cat (.cat (.call .skip) (.seq (.opt (.cat (.restore (.call .statement)) (.rep (.seq (.cat
      (.call .skip) (.restore (.call .statement))))))))) (.call .skip)) (.call .EOI)) (w ++ progText l) [] (TextPairs l) := by
  have hs : Solid u [] := prog_solid (l := []) L trivial
  have he : Eats u vN (.call .EOI) [] [] fun q => ∃ p, q = [p] ∧ p.rule = .EOI := by
    refine (eats_call (eats_rule (v := vN) rfl eats_eoi)).imp ?_
    rintro q ⟨a, b, k, rfl, _⟩
    exact ⟨_, rfl, rfl⟩
  cases l with
  | nil =>
    have h1 : Eats u vN (.seq (.opt (.cat (.restore (.call .statement)) (.rep (.seq (.cat
        (.call .skip) (.restore (.call .statement)))))))) [] [] Nil :=
      eats_seq (eats_opt_nil (fails_cat (fails_restore (fails_nil (by decide)))))
    refine ((eats_cat (eats_cat (eats_cat (eats_skip L rfl hw hs) h1) (eats_skip L rfl blank_nil hs)) he).cast
      (by simp [progText])).imp ?_
    rintro q ⟨q1, q2, rfl, ⟨q3, q4, rfl, ⟨q5, q6, rfl, h2, h3⟩, h4⟩, ⟨p, rfl, hp⟩⟩
    rw [show q5 = [] from h2, show q6 = [] from h3, show q4 = [] from h4]
    exact ⟨[], p, rfl, .nil, hp⟩
  | cons s l =>
    have hsol := prog_solid L h
    obtain ⟨h1, h2, h3, h4, h5⟩ := h
    obtain ⟨a, b, e, hb, hab⟩ := eats_prog L l (stop_blank h4) h5
    have h6 := eats_stmt L h1 h2 h3 h4
    have e2 : (s.x ++ (s.w ++ semiOf s.semi)) ++ (afterStop s.semi ++ progText l) = progText (s :: l) := by
      simp only [progText, List.append_assoc]
      rw [stop_split]
    rw [e] at h6 e2
    have h7 := eats_seq (eats_opt (eats_cat (eats_restore h6) hab))
    have h8 : Eats u vN (.call .skip) b [] Nil := eats_skip L rfl hb hs
    have h9 : Eats u vN (.call .skip) w (((s.x ++ (s.w ++ semiOf s.semi)) ++ a) ++ b) Nil := by
      refine eats_skip L rfl hw ?_
      rw [List.append_assoc, e2]
      exact hsol
    rw [← List.append_nil b] at h7 h9
    refine ((eats_cat (eats_cat (eats_cat h9 h7) h8) he).cast ?_).imp ?_
    · rw [← e2]; simp
    · rintro q ⟨q1, q2, rfl, ⟨q3, q4, rfl, ⟨q5, q6, rfl, h10, ⟨q7, q8, rfl, ⟨p, rfl, hp⟩, h11⟩⟩, h12⟩, ⟨p', rfl, hp'⟩⟩
      rw [show q5 = [] from h10, show q4 = [] from h12]
      exact ⟨p :: q8, p', by simp, .cons hp h11, hp'⟩

theorem sem_cat_front (g : R → PE R) (a b c d e : PE R) (w : Env) (s : St R) :
    sem g u (.cat (.cat (.cat (.cat a b) c) d) e) w s = sem g u (.cat a (.cat (.cat (.cat b c) d) e)) w s := by
  simp only [sem_cat]
  cases sem g u a w s with
  | ok t => simp only [Res.andThen, sem_cat]
  | _ => rfl

/-- The pairs of a text of statements, in any case. -/
theorem smParse_text (L : Lawful u) {w : Str} (hw : Blank u w) {l : List Stmt} (h : ProgOk u l) :
    ∃ q, TextPairs l q ∧ smParse u .program (w ++ progText l) = .pairs q := by
  obtain ⟨q, hq, hs⟩ := eats_text L hw h 0 [] []
  refine ⟨q, hq, ?_⟩
  rw [smParse_eq u .program (by decide), sem_call]
  show Parsed.ofRes (sem grammar u body_program vN ⟨0, w ++ progText l, [], []⟩) = _
  rw [List.append_nil] at hs
  unfold body_program
  rw [sem_seq, sem_cat_front, sem_cat, sem_call]
  show Parsed.ofRes (((sem grammar u .soi vN ⟨0, w ++ progText l, [], []⟩).andThen _).mapBoth _ _) = _
  rw [sem_soi, if_pos rfl]
  simp only [Res.andThen]
  rw [hs]
  simp [Res.mapBoth, Parsed.ofRes]

/-- What parsing answers for a value. -/
def answer : Option AST → SMResult AST
  | some a => .ok a
  | none => .panic

/-- The answer without positions. -/
def eraseR : SMResult AST → SMResult AST
  | .ok a => .ok (erase a)
  | .err e => .err e
  | .panic => .panic

/-- A text that begins with an expression has the value of the expression, whatever statements follow. -/
theorem parse_prog (L : Lawful u) (c : Cfg) {w : Str} (hw : Blank u w) {s : Stmt} {l : List Stmt} (h : ProgOk u (s :: l))
    (hc : c.input = w ++ progText (s :: l)) : eraseR (parseText u c) = answer s.d := by
  obtain ⟨q, ⟨q', p', rfl, hq, hp'⟩, hs⟩ := smParse_text L hw h
  obtain ⟨p, q, hp, hq, rfl⟩ : ∃ p q, IsExpression s.d p ∧ ProgPairs l q ∧ q' = p :: q := by
    cases hq with | cons h1 h2 => exact ⟨_, _, h1, h2, rfl⟩
  have h2 := hp.2 c
  rw [parseText, hc, hs]
  simp only [List.cons_append]
  rw [parsePairs, if_neg (by rw [hp.1]; decide), if_pos hp.1, ← h2]
  cases buildExpression c p.inner .empty <;> rfl

/-- One expression, alone in the text. -/
theorem parse_expr (L : Lawful u) (c : Cfg) {solo : Bool} {x : Str} {d : Option AST} (hx : IsExpr u solo x d)
    (hn : Wordless x) {w w' : Str} (hw : Blank u w) (hw' : Blank u w') (hc : c.input = w ++ (x ++ w')) :
    eraseR (parseText u c) = answer d := by
  have hs : Solid u [] := prog_solid (l := []) L trivial
  have hst : Stop u [] := stop_close L (.inl rfl)
  have hf : Follow u (w' ++ []) := follow_close L hw' (.inl rfl)
  refine parse_prog (s := ⟨x, w', none, solo, d⟩) (l := []) L c hw ⟨hx, hn, hw', ⟨hst, hf, ?_, ?_⟩, trivial⟩ ?_
  · exact noCont_blank L hw' (noCont_close L (.inl rfl))
  · exact fun _ _ e => (nomatch e)
  · simp [hc, progText, stopText]

/-- The empty text. -/
theorem parse_blank (L : Lawful u) (c : Cfg) (hw : Blank u c.input) : parseText u c = .ok .empty := by
  obtain ⟨q, ⟨q', p', rfl, hq, hp'⟩, hs⟩ := smParse_text (l := []) L hw trivial
  cases hq
  rw [progText, List.append_nil] at hs
  rw [parseText, hs]
  simp only [List.nil_append]
  rw [parsePairs, if_pos hp', parsePairs]

end SM.Props
