import Verif.Props.Session
/-
C37, on texts: from the first operator that the program does not know, nothing of an expression counts.
-/
namespace SM.Props
open SM SM.Peg

variable {u : Uni} {msg : Str → Str} {w : Width}

/-- The operators that the grammar accepts and the program does not know. -/
def Tok.Unknown : Tok → Prop
  | .op _ => False
  | _ => True

theorem stepsValue_unknown {wb wa : Str} {k : Tok} (hk : k.Unknown) (x : STerm) (l : List SStep) :
    ∀ l1 : List SStep, stepsValue (l1 ++ .mk wb k wa x :: l) = stepsValue l1 := by
  intro l1
  induction l1 with
  | nil =>
    cases k <;> first | cases hk; done | simp [stepsValue]
  | cons s l1 ih =>
    obtain ⟨b, t, a, y⟩ := s
    cases t <;> simp [stepsValue, ih]

theorem stepsOk_left (l : List SStep) : ∀ (l1 : List SStep) (num : Bool), StepsOk u num (l1 ++ l) → StepsOk u num l1 := by
  intro l1
  induction l1 with
  | nil => intro num _; rw [StepsOk]; trivial
  | cons s l1 ih =>
    intro num h
    obtain ⟨b, t, a, y⟩ := s
    rw [List.cons_append, StepsOk] at h
    rw [StepsOk]
    exact ⟨h.1, h.2.1, h.2.2.1, h.2.2.2.1, h.2.2.2.2.1, ih _ h.2.2.2.2.2⟩

theorem wordless_left {x y : Str} (h : Wordless (x ++ y)) : Wordless x := by
  intro k hk
  cases e : strip k x with
  | none => rfl
  | some r =>
    have h1 := h k hk
    rw [(strip_some e : x = k ++ r), List.append_assoc] at h1
    rw [strip_self] at h1
    cases h1

theorem stepsText_split (l2 : List SStep) : ∀ l1 : List SStep, stepsText (l1 ++ l2) = stepsText l1 ++ stepsText l2 := by
  intro l1
  induction l1 with
  | nil => simp [stepsText]
  | cons s l1 ih =>
    obtain ⟨b, t, a, y⟩ := s
    simp [stepsText, ih]

/-- **C37** (violation, on texts).  An expression that contains one of the unknown operators is read as if it
ended there, and whatever comes later has no influence, not even an operand at which the call panics by itself. -/
theorem C37_texts (L : Lawful u) (c c' : Cfg) {t : STerm} {l1 l2 : List SStep} {wb wa : Str} {k : Tok}
    (hk : k.Unknown) {x : STerm} (h : (SExpr.mk t (l1 ++ .mk wb k wa x :: l2)).Ok u)
    (hn : Wordless (SExpr.mk t (l1 ++ .mk wb k wa x :: l2)).text) {b b' d d' : Str} (hb : Blank u b)
    (hb' : Blank u b') (hd : Blank u d) (hd' : Blank u d')
    (hc : c.input = b ++ ((SExpr.mk t (l1 ++ .mk wb k wa x :: l2)).text ++ b'))
    (hc' : c'.input = d ++ ((SExpr.mk t l1).text ++ d')) :
    eraseR (parseText u c) = eraseR (parseText u c') := by
  have hv : (SExpr.mk t (l1 ++ .mk wb k wa x :: l2)).value = (SExpr.mk t l1).value := by
    rw [SExpr.value, SExpr.value, stepsValue_unknown hk]
  rw [C53_expressions L c _ h hn hb hb' hc, hv]
  refine (C53_expressions L c' _ ?_ ?_ hd hd' hc').symm
  · rw [SExpr.Ok] at h ⊢
    exact ⟨h.1, stepsOk_left _ _ _ h.2⟩
  · refine wordless_left (y := stepsText (.mk wb k wa x :: l2)) ?_
    rw [SExpr.text, stepsText_split] at hn
    rwa [SExpr.text, List.append_assoc]

/-- **C37** (violation, in a session).  A session answers such an expression as if it ended at the first
unknown operator. -/
theorem C37_answers (L : Lawful u) {t : STerm} {l1 l2 : List SStep} {wb wa : Str} {k : Tok}
    (hk : k.Unknown) {x : STerm} (h : (SExpr.mk t (l1 ++ .mk wb k wa x :: l2)).Ok u)
    (hn : Wordless (SExpr.mk t (l1 ++ .mk wb k wa x :: l2)).text) {r : SMResult Str}
    (ha : Answers u msg w (SExpr.mk t l1).text r) :
    Answers u msg w (SExpr.mk t (l1 ++ .mk wb k wa x :: l2)).text r := by
  have e := C37_texts L (replCfg msg (SExpr.mk t (l1 ++ .mk wb k wa x :: l2)).text)
    (replCfg msg (SExpr.mk t l1).text) hk h hn blank_nil blank_nil blank_nil blank_nil (b := []) (b' := [])
    (d := []) (d' := []) (by simp [replCfg]) (by simp [replCfg])
  have h1 := answers_of (w := w) e
  have h2 := answers_of (w := w) (rfl : eraseR (parseText u (replCfg msg (SExpr.mk t l1).text)) = _)
  intro hist
  rw [h1 hist, ← h2 hist, ha hist]

/-- Two numbers with an unknown operator between them are answered with the first number: `7 % 3` with 7,
`5 > 7` with 5 and `1 = 2` with 1. -/
theorem C37_numbers (L : Lawful u) (a b : Nat) {wb wa : Str} (hb : Blank u wb) (ha : Blank u wa) {k : Tok}
    (hk : k.Unknown) : Answers u msg w (numeral a ++ (wb ++ k.char :: (wa ++ numeral b))) (.ok (numeral a)) := by
  have h := C37_answers (u := u) (msg := msg) (w := w) L hk (t := .mk [] (.atom (.int a)) []) (l1 := []) (l2 := [])
    (wb := wb) (wa := wa) (x := .mk [] (.atom (.int b)) []) (r := .ok (numeral a)) ?_ ?_ ?_
  · simpa [SExpr.text, stepsText, SStep.text, intTerm_text] using h
  · rw [List.nil_append, SExpr.Ok, StepsOk, StepsOk]
    refine ⟨intTerm_ok a, ?_, hb, ha, ?_, intTerm_ok b, trivial⟩
    · rintro _ _ rfl; exact hk.elim
    · rintro rfl; exact hk.elim
  · rw [SExpr.text, intTerm_text]
    exact numeral_wordless _ _
  · have := (C54_literals (u := u) L msg w blank_nil blank_nil).1 a
    simpa [SExpr.text, stepsText, intTerm_text] using this

theorem blank_one (L : Lawful u) : Blank u c!" " :=
  blank_ws (by simp only [List.mem_singleton, forall_eq, Ws]; rw [L.plain _ _ (by decide)]; rfl)

example (L : Lawful u) : Answers u msg w c!"7 % 3" (.ok c!"7") ∧ Answers u msg w c!"5 > 7" (.ok c!"5") ∧
    Answers u msg w c!"1 = 2" (.ok c!"1") :=
  ⟨C37_numbers L 7 3 (wb := c!" ") (wa := c!" ") (blank_one L) (blank_one L) (k := .modulo) trivial,
    C37_numbers L 5 7 (wb := c!" ") (wa := c!" ") (blank_one L) (blank_one L) (k := .greater) trivial,
    C37_numbers L 1 2 (wb := c!" ") (wa := c!" ") (blank_one L) (blank_one L) (k := .set) trivial⟩

/-- The call panics at `¬4`, but not at `2*3%¬4`. -/
example (L : Lawful u) : Answers u msg w c!"2*3%¬4" (.ok c!"6") := by
  refine C37_answers L (t := .mk [] (.atom (.int 2)) []) (l1 := [.mk [] (.op .star) [] (.mk [] (.atom (.int 3)) [])])
    (l2 := []) (wb := []) (wa := []) (k := .modulo) trivial (x := .mk [.neg] (.atom (.int 4)) []) ?_ ?_ ?_
  · simp [SExpr.Ok, StepsOk, STerm.Ok, SNode.Ok, SAtom.Ok, SufsOk, blank_nil]
  · exact wordless_head rfl (by decide)
  · exact C54_numbers L msg w 2 3 (wb := []) (wa := []) (wl := []) (wr := []) blank_nil blank_nil blank_nil blank_nil

end SM.Props
