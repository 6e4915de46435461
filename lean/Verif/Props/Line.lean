import Verif.Props.Lang3
import Verif.Props.Comment
/-
C68: where a statement ends.  A semicolon ends it, and so does a line break, unless an operator follows.
-/
namespace SM.Props
open SM SM.Peg

variable {u : Uni}

/-! ### What follows the first statement is read as if it stood alone -/

/-- The statements after the first one, up to the end of the text. -/
def furtherBody : PE R :=
  .cat (.cat (.rep (.seq (.cat (.call .skip) (.restore (.call .statement))))) (.call .skip)) (.call .EOI)

theorem further_sem (L : Lawful u) {w r : Str} (hw : Blank u w) (hr : Solid u r) (pos : Nat) (stack : List Str)
    (queue : List (Pair R)) :
    sem grammar u furtherBody vN ⟨pos, w ++ r, stack, queue⟩ =
      sem grammar u programBody vN ⟨pos + w.length, r, stack, queue⟩ := by
  have k1 : sem grammar u (.call .skip) vN ⟨pos, w ++ r, stack, queue⟩ = .ok ⟨pos + w.length, r, stack, queue⟩ := by
    obtain ⟨q, hq, hs⟩ := eats_skip (v := vN) L rfl hw hr pos stack queue
    rw [hs, show q = [] from hq, List.append_nil]
  have k2 : sem grammar u (.call .skip) vN ⟨pos + w.length, r, stack, queue⟩ = .ok ⟨pos + w.length, r, stack, queue⟩ := by
    obtain ⟨q, hq, hs⟩ := eats_skip (v := vN) (w := []) L rfl blank_nil hr (pos + w.length) stack queue
    rw [List.nil_append] at hs
    rw [hs, show q = [] from hq, List.append_nil]
    rfl
  unfold furtherBody programBody
  rw [sem_cat, sem_cat, sem_rep, sem_seq, sem_cat, k1]
  simp only [Res.andThen]
  rw [sem_cat, sem_cat, sem_seq, sem_opt, sem_cat, sem_restore]
  cases hs : sem grammar u (.call .statement) vN ⟨pos + w.length, r, stack, queue⟩ with
  | ok t =>
    simp only [Res.mapBoth, id, Res.andThen]
    cases hz : sem grammar u (.rep (.seq (.cat (.call .skip) (.restore (.call .statement))))) vN t with
    | ok s => rfl
    | err s => exact absurd hz (sem_rep_no_err _ _ _ _ _ _)
    | crash => rfl
  | err t =>
    obtain rfl := sem_call_err u .statement (by decide) (by decide) hs
    simp only [Res.mapBoth, Res.recover, id, Res.andThen]
    rw [k1, k2]
  | crash => simp only [Res.mapBoth, Res.recover, Res.andThen]

/-- A first statement in front of a text: the text is parsed as if it stood alone. -/
theorem smParse_first (L : Lawful u) {w y w' r : Str} {P : Pair R → Prop} (hw : Blank u w) (hw' : Blank u w')
    (hy : Solid u (y ++ (w' ++ r))) (hr : Solid u r)
    (h : Eats u vN (.call .statement) y (w' ++ r) fun q => ∃ p, q = [p] ∧ P p) :
    ∃ p n, P p ∧ smParse u .program (w ++ (y ++ (w' ++ r))) = prepend p (shiftParsed n (smParse u .program r)) := by
  obtain ⟨q, ⟨p, rfl, hp⟩, hs⟩ := h w.length [] []
  refine ⟨p, w.length + y.length + w'.length, hp, ?_⟩
  have hk : ∀ {a b : Str}, Blank u a → Solid u b → sem grammar u skipBody vN ⟨0, a ++ b, [], []⟩ =
      .ok ⟨0 + a.length, b, [], []⟩ := by
    intro a b ha hb
    obtain ⟨q, hq, hs⟩ := eats_skip (v := vN) L rfl ha hb 0 [] []
    rw [sem_call, show q = [] from hq] at hs
    change sem grammar u body_skip vN _ = _ at hs
    unfold body_skip at hs
    rw [sem_ifNon, if_pos (show vN.atomicity = .non from rfl), sem_seq] at hs
    change (sem grammar u skipBody vN _).mapBoth _ _ = _ at hs
    cases hz : sem grammar u skipBody vN ⟨0, a ++ b, [], []⟩ with
    | ok t => rw [hz] at hs; exact hs
    | err t => rw [hz] at hs; cases hs
    | crash => rw [hz] at hs; cases hs
  rw [smParse_eq u .program (by decide), smParse_eq u .program (by decide), sem_call, sem_call]
  show Parsed.ofRes (sem grammar u body_program vN ⟨0, w ++ (y ++ (w' ++ r)), [], []⟩) =
    prepend p (shiftParsed _ (Parsed.ofRes (sem grammar u body_program vN ⟨0, r, [], []⟩)))
  have h0 := hk (a := []) blank_nil hr
  rw [List.nil_append] at h0
  rw [program_sem, program_sem, hk hw hy, h0]
  simp only [Res.mapBoth, id, Res.andThen, Nat.zero_add, List.length_nil]
  have h1 : sem grammar u programBody vN ⟨w.length, y ++ (w' ++ r), [], []⟩ =
      sem grammar u furtherBody vN ⟨w.length + y.length, w' ++ r, [], [p]⟩ := by
    unfold programBody furtherBody
    rw [sem_cat, sem_cat, sem_seq, sem_opt, sem_cat, sem_restore, hs]
    conv_rhs => rw [sem_cat, sem_cat]
    simp only [Res.mapBoth, id, Res.andThen, List.nil_append]
    cases hz : sem grammar u (.rep (.seq (.cat (.call .skip) (.restore (.call .statement))))) vN
        ⟨w.length + y.length, w' ++ r, [], [p]⟩ with
    | ok s => rfl
    | err s => exact absurd hz (sem_rep_no_err _ _ _ _ _ _)
    | crash => rfl
  have h2 : (⟨w.length + y.length + w'.length, r, [], [p]⟩ : St R) =
      frameSt [p] (shiftSt (w.length + y.length + w'.length) ⟨0, r, [], []⟩) := by
    simp [frameSt, shiftSt, shiftPairs]
  rw [h1, further_sem L hw' hr, h2, sem_frame, sem_shift grammar u gFree gFree_ok _ programBody vN _ (by decide)]
  generalize sem grammar u programBody vN ⟨0, r, [], []⟩ = z
  cases z <;> rfl

/-! ### What cannot continue an expression -/

/-- The characters that the operators between operands begin with. -/
def operatorChars : List Char := ['=', '+', '-', '*', '×', '⋅', '⊗', '⊙', '/', '÷', '%', '^', '>', '.']

/-- A text that begins neither with white space nor with an operator nor with a semicolon. -/
def Anew (u : Uni) (r : Str) : Prop := ∀ c t, r = c :: t → ¬ Ws u c ∧ c ∉ operatorChars ∧ c ≠ ';' ∧ c ≠ '；'

theorem Anew.solid {r : Str} (h : Anew u r) : Solid u r := by
  cases r with
  | nil => exact ⟨(fun _ _ e => nomatch e), ⟨rfl, rfl, rfl, rfl, rfl⟩⟩
  | cons c t =>
    obtain ⟨h1, h2, -⟩ := h c t rfl
    refine ⟨?_, noComment_cons ?_ ?_⟩
    · intro d s e
      obtain ⟨rfl, -⟩ := List.cons.inj e
      exact h1
    · rintro rfl; exact h2 (by decide)
    · rintro rfl; exact h2 (by decide)

theorem Anew.infix {r : Str} (h : Anew u r) (v : Env) : Fails u v (.call .Infix) r := by
  have key : ∀ {c : Char} {x : Str}, c ∈ operatorChars → strip (c :: x) r = none := by
    intro c x hc
    cases r with
    | nil => rfl
    | cons d t =>
      have hne : c ≠ d := fun e => (h d t rfl).2.1 (e ▸ hc)
      simp [strip, hne]
  have one : ∀ {v : Env} {k : R} {c : Char} {x : Str}, grammar k = .rule k (.atomic .atomic (.str (c :: x))) →
      c ∈ operatorChars → Fails u v (.call k) r := by
    intro v k c x hk hc
    apply fails_call
    rw [hk]
    exact fails_rule (fails_atomic (fails_str (key hc)))
  apply fails_call
  show Fails u v body_Infix r
  unfold body_Infix
  refine fails_alt (fails_alt (fails_alt (fails_alt (fails_alt (fails_alt (fails_alt (fails_alt (fails_alt (fails_alt
    (fails_alt (fails_alt (fails_alt (fails_alt ?_ ?_) ?_) ?_) ?_) ?_) ?_) ?_) ?_) ?_) ?_) ?_) ?_) ?_) ?_
  case refine_4 =>
    exact fails_call (fails_rule (fails_atomic (fails_alt (fails_call (by
      show Fails _ _ body_Star _
      unfold body_Star
      exact fails_rule (fails_atomic (fails_str (key (by decide))))) ) (fails_str (key (by decide))))))
  case refine_8 =>
    exact fails_call (fails_rule (fails_atomic (fails_alt (fails_call (by
      show Fails _ _ body_Slash _
      unfold body_Slash
      exact fails_rule (fails_atomic (fails_str (key (by decide))))) ) (fails_str (key (by decide))))))
  all_goals exact one rfl (by decide)

theorem Anew.stop {r : Str} (h : Anew u r) : Stop u r := ⟨h.solid, h.infix⟩

/-- Blank space with a line break. -/
def Breaking (w : Str) : Prop := '\n' ∈ w ∨ '\x0d' ∈ w

theorem breaking_ends {w : Str} (hw : Blank u w) (h : Breaking w) (r : Str) : EndsIn u termStops (w ++ r) := by
  obtain ⟨r0, ks, rfl, h1, h2⟩ := hw
  rw [List.append_assoc]
  cases ks with
  | cons k ks => exact endsIn_ws (.inr ⟨'/', _, rfl, by decide⟩) r0 h1
  | nil =>
    simp only [List.flatMap_nil, List.append_nil] at h
    have hx : ∃ a b, r0 = a ++ b ∧ ∃ c t, b = c :: t ∧ c ∈ ['\n', '\x0d'] := by
      rcases h with h | h
      · obtain ⟨a, b, rfl⟩ := List.append_of_mem h
        exact ⟨a, _, rfl, _, _, rfl, by decide⟩
      · obtain ⟨a, b, rfl⟩ := List.append_of_mem h
        exact ⟨a, _, rfl, _, _, rfl, by decide⟩
    obtain ⟨a, b, rfl, c, t, rfl, hc⟩ := hx
    rw [List.append_assoc]
    refine endsIn_ws (.inr ⟨c, _, rfl, ?_⟩) a fun d hd => h1 d (by simp [hd])
    rw [List.mem_append]; exact .inr hc

theorem breaking_follow (L : Lawful u) {w : Str} (hw : Blank u w) (h : Breaking w) (r : Str) : Follow u (w ++ r) := by
  have ne : w ≠ [] := by rintro rfl; rcases h with h | h <;> cases h
  exact ⟨breaking_ends hw h r, noPath_first (blank_first L hw (by decide) (by decide) (by decide) fun e => absurd e ne)
    (blank_first L hw (by decide) (by decide) (by decide) fun e => absurd e ne)⟩

theorem breaking_noCont (L : Lawful u) {w : Str} (hw : Blank u w) (h : Breaking w) (r : Str) : NoCont u (w ++ r) := by
  have h0 := noCont_blank (z := []) L hw fun _ _ e => nomatch e
  rw [List.append_nil] at h0
  cases w with
  | nil => rcases h with h | h <;> cases h
  | cons c w =>
    intro d t e
    obtain ⟨rfl, -⟩ := List.cons.inj e
    exact h0 c w rfl

/-! ### C68 -/

/-- A first statement and what follows it. -/
theorem parse_first (L : Lawful u) (e : SExpr) (he : e.Ok u) (hn : Wordless e.text) {w w' : Str} (hw : Blank u w)
    (hw' : Blank u w') (semi : Option (Bool × Str)) {r : Str} (hr : Solid u r) (hs : StopOk u w' r semi) {c d : Cfg}
    (hc : c.input = w ++ (e.text ++ (w' ++ (stopText semi ++ r)))) (hd : d.input = r) :
    (parseText u d = .err (.parseError d.errorText) → parseText u c = .err (.parseError c.errorText)) ∧
    (parseText u d ≠ .err (.parseError d.errorText) → eraseR (parseText u c) = answer e.value) := by
  have hx := SExpr.read L e he
  have hx' := eats_stmt L (s := ⟨e.text, w', semi, e.solo, e.value⟩) hx hn hw' hs
  have ht : c.input = w ++ ((e.text ++ (w' ++ semiOf semi)) ++ (afterStop semi ++ r)) := by
    rw [hc, ← stop_split]; simp
  obtain ⟨p, n, hp, h⟩ := smParse_first L hw (stop_blank hs) (by
    rw [List.append_assoc]; exact term_head_solid L hx.head _) hr hx'
  rw [parse_refused, parse_refused, ht, hd, h]
  constructor
  · intro hz; rw [hz]; rfl
  · intro hz
    rw [Ne, parse_refused, hd] at hz
    have h2 : (buildExpression c p.inner .empty).map erase = e.value := hp.2 c
    rw [parseText, ht]
    simp only at h
    rw [h]
    cases hq : smParse u .program r with
    | error => exact absurd hq hz
    | crash =>
      rcases C33_parse_terminates u .program (by decide) r with ⟨l, h⟩ | h <;> rw [hq] at h <;> cases h
    | pairs l =>
      simp only [shiftParsed, prepend]
      rw [parsePairs, if_neg (by rw [hp.1]; decide), if_pos hp.1, ← h2]
      cases buildExpression c p.inner .empty <;> rfl

/-- **C68**.  A line break ends an expression unless an operator or a semicolon follows: whatever else stands on the
next lines, be it a name, a number, a bracket, a prefix or a suffix, is not joined to the expression.  The text is
refused if the following lines are refused by themselves; otherwise it has the value of the expression. -/
theorem C68_line (L : Lawful u) (e : SExpr) (he : e.Ok u) (hn : Wordless e.text) {w w' : Str} (hw : Blank u w)
    (hw' : Blank u w') (hb : Breaking w') {r : Str} (hr : Anew u r) {c d : Cfg}
    (hc : c.input = w ++ (e.text ++ (w' ++ r))) (hd : d.input = r) :
    (parseText u d = .err (.parseError d.errorText) → parseText u c = .err (.parseError c.errorText)) ∧
    (parseText u d ≠ .err (.parseError d.errorText) → eraseR (parseText u c) = answer e.value) :=
  parse_first L e he hn hw hw' none hr.solid
    ⟨hr.stop, breaking_follow L hw' hb r, breaking_noCont L hw' hb r, fun c t e => (hr c t e).2.2⟩ hc hd

/-- **C68**.  A semicolon ends an expression, whatever follows. -/
theorem C68_semicolon (L : Lawful u) (e : SExpr) (he : e.Ok u) (hn : Wordless e.text) {w w' w'' : Str} (hw : Blank u w)
    (hw' : Blank u w') (hw'' : Blank u w'') (b : Bool) {r : Str} (hr : Solid u r) {c d : Cfg}
    (hc : c.input = w ++ (e.text ++ (w' ++ (semiText b ++ (w'' ++ r))))) (hd : d.input = r) :
    (parseText u d = .err (.parseError d.errorText) → parseText u c = .err (.parseError c.errorText)) ∧
    (parseText u d ≠ .err (.parseError d.errorText) → eraseR (parseText u c) = answer e.value) :=
  parse_first L e he hn hw hw' (some (b, w'')) hr hw'' (by rw [hc, stopText]; simp) hd

/-- **C68**.  An operator joins its operands over line breaks on both of its sides.  (A division sign must not be followed
by a comment, and a dot directly after a number not by a digit.) -/
theorem C68_operator (L : Lawful u) (t x : STerm) (ht : t.Ok u) (hx : x.Ok u) (o : Op) {wb wa : Str} (hb : Blank u wb)
    (ha : Blank u wa) (hs : o = .slash → ∀ r, wa ≠ '/' :: r)
    (hd : t.num = true → wb = [] → o = .dot → ∀ c r, wa ++ x.text = c :: r → ¬ IsDigit c) {w w' : Str} (hw : Blank u w)
    (hw' : Blank u w') (hn : Wordless (t.text ++ (wb ++ (Tok.op o).char :: (wa ++ x.text)))) {c : Cfg}
    (hc : c.input = w ++ ((t.text ++ (wb ++ (Tok.op o).char :: (wa ++ x.text))) ++ w')) :
    eraseR (parseText u c) = answer (t.value.bind fun a => x.value.bind fun b => o.apply a b) := by
  refine parse_binary L c t x o wb wa ?_ hw hw' hn hc
  simp only [SExpr.Ok, StepsOk]
  exact ⟨ht, fun h1 h2 h3 => hd h1 h2 (Tok.op.inj h3), hb, ha, fun h => hs (Tok.op.inj h), hx, trivial⟩

/-- `f(x)` on one line is a call; on two lines it is `f`, and the second line must make sense by itself. -/
example : eraseR (parseText asciiUni ⟨[], c!"f\n(x)", []⟩) = .ok (.mkSymbol c!"f") ∧
    parseText asciiUni ⟨[], c!"f\n()", []⟩ = .err (.parseError []) := by
  have hf : IsIdent asciiUni c!"f" := .inl ⟨'f', [], rfl, by decide, by decide⟩
  have ho : (SExpr.node (.atom (.sym ⟨c!"f", []⟩))).Ok asciiUni := node_ok (by
    rw [SNode.Ok]; exact ⟨⟨hf, by simp⟩, by unfold Path.Free; decide⟩)
  have ht : (SExpr.node (.atom (.sym ⟨c!"f", []⟩))).text = c!"f" := by decide
  have hn : Wordless (SExpr.node (.atom (.sym ⟨c!"f", []⟩))).text := by rw [ht]; unfold Wordless; decide
  have hb : Blank asciiUni c!"\n" := blank_ws (by unfold Ws; decide)
  have ha : ∀ t, Anew asciiUni ('(' :: t) := by
    intro t c s e
    obtain ⟨rfl, -⟩ := List.cons.inj e
    refine ⟨?_, by decide, by decide, by decide⟩
    unfold Ws; decide
  constructor
  · rw [(C68_line lawful_asciiUni _ ho hn (w := []) (w' := c!"\n") blank_nil hb (.inl (by decide)) (ha c!"x)")
      (c := ⟨[], c!"f\n(x)", []⟩) (d := ⟨[], c!"(x)", []⟩) (by rw [ht]; rfl) rfl).2 (by
        rw [Ne, parse_refused]
        intro h
        have h1 : rejects c!"(x)" = true := by rw [rejects, h]
        rw [show rejects c!"(x)" = false by decide +kernel] at h1
        cases h1), node_value, SNode.value]
    rfl
  · exact (C68_line lawful_asciiUni _ ho hn (w := []) (w' := c!"\n") blank_nil hb (.inl (by decide)) (ha c!")")
      (c := ⟨[], c!"f\n()", []⟩) (d := ⟨[], c!"()", []⟩) (by rw [ht]; rfl) rfl).1
      (parse_rejects lawful_asciiUni (by decide +kernel) (by decide) _ rfl)

/-- `1`, then on the next line `-2`, is a difference. -/
example : eraseR (parseText asciiUni ⟨[], c!"1\n-2", []⟩) =
    .ok (.function ⟨[c!"std", c!"infix"], c!"subtract", .infix c!"-" 80, 0⟩ [.mk [.integer 1, .integer 2] [] noPos]) := by
  have := C68_operator (u := asciiUni) lawful_asciiUni (.mk [] (.atom (.int 1)) []) (.mk [] (.atom (.int 2)) [])
    (intTerm_ok 1) (intTerm_ok 2) .minus (wb := c!"\n") (wa := []) (blank_ws (by unfold Ws; decide)) blank_nil
    (fun h => nomatch h) (fun _ h => nomatch h) (w := []) (w' := []) blank_nil blank_nil
    (by rw [show _ ++ _ = c!"1\n-2" by decide]; unfold Wordless; decide) (c := ⟨[], c!"1\n-2", []⟩) (by decide)
  rw [this]
  simp only [STerm.value, SNode.value]
  rfl

/-- `1;2 ` and what follows. -/
example : eraseR (parseText asciiUni ⟨[], c!"1; 2 3", []⟩) = .ok (.integer 1) := by
  have hr : Solid asciiUni c!"2 3" := Anew.solid (by
    rintro c t e
    obtain ⟨rfl, -⟩ := List.cons.inj e
    refine ⟨?_, by decide, by decide, by decide⟩
    unfold Ws; decide)
  have ht : (SExpr.node (.atom (.int 1))).text = c!"1" := by decide
  rw [(C68_semicolon lawful_asciiUni _ (intExpr_ok 1) (by rw [ht]; unfold Wordless; decide) (w := []) (w' := [])
    (w'' := c!" ") blank_nil blank_nil (blank_ws (by unfold Ws; decide)) false hr (c := ⟨[], c!"1; 2 3", []⟩)
    (d := ⟨[], c!"2 3", []⟩) (by rw [ht]; rfl) rfl).2 (by
      rw [Ne, parse_refused]
      intro h
      have h1 : rejects c!"2 3" = true := by rw [rejects, h]
      rw [show rejects c!"2 3" = false by decide +kernel] at h1
      cases h1), node_value, SNode.value]
  rfl

end SM.Props
