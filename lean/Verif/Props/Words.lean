import Verif.Props.Names
import Verif.Props.ReadsProgram
/-
C42: exactly which identifiers parse to symbols.
-/
namespace SM.Props
open SM SM.Peg

variable {u : Uni} {v : Env}

/-! ### Expressions that cannot fail on a text -/

/-- On the text, `e` does not fail. -/
def Sure (u : Uni) (v : Env) (e : PE R) (z : Str) : Prop :=
  ∀ s t, s.rest = z → sem grammar u e v s ≠ .err t

theorem sure_call {r : R} {z : Str} (h : Sure u v (grammar r) z) : Sure u v (.call r) z := by
  intro s t hs
  rw [sem_call]
  exact h s t hs

theorem sure_atomic {a : Atomicity} {e : PE R} {z : Str} (h : Sure u { v with atomicity := a } e z) :
    Sure u v (.atomic a e) z := by
  intro s t hs
  rw [sem_atomic]
  exact h s t hs

theorem sure_rule {r : R} {e : PE R} {z : Str} (h : Sure u v e z) : Sure u v (.rule r e) z := by
  intro s t hs
  rw [sem_rule]
  split
  · cases hq : sem grammar u e v { s with queue := [] } with
    | err t => exact absurd hq (h _ _ hs)
    | ok t => exact fun h => nomatch h
    | crash => exact fun h => nomatch h
  · exact h s t hs

theorem sure_seq {e : PE R} {z : Str} (h : Sure u v e z) : Sure u v (.seq e) z := by
  intro s t hs
  rw [sem_seq]
  cases hq : sem grammar u e v s with
  | err t => exact absurd hq (h _ _ hs)
  | ok t => exact fun h => nomatch h
  | crash => exact fun h => nomatch h

theorem sure_restore {e : PE R} {z : Str} (h : Sure u v e z) : Sure u v (.restore e) z := by
  intro s t hs
  rw [sem_restore]
  cases hq : sem grammar u e v s with
  | err t => exact absurd hq (h _ _ hs)
  | ok t => exact fun h => nomatch h
  | crash => exact fun h => nomatch h

theorem sure_opt (e : PE R) (z : Str) : Sure u v (.opt e) z := by
  intro s t _
  rw [sem_opt]
  cases sem grammar u e v s <;> exact fun h => nomatch h

theorem sure_rep (e : PE R) (z : Str) : Sure u v (.rep e) z := fun _ _ _ => sem_rep_no_err _ _ _ _ _ _

theorem sure_eats {e : PE R} {x rest : Str} {P : List (Pair R) → Prop} (h : Eats u v e x rest P) :
    Sure u v e (x ++ rest) := by
  rintro ⟨p, z, k, q⟩ t rfl e
  obtain ⟨_, _, hs⟩ := h p k q
  rw [hs] at e
  cases e

theorem sure_alt_left {a b : PE R} {z : Str} (h : Sure u v a z) : Sure u v (.alt a b) z := by
  intro s t hs
  rw [sem_alt]
  cases hq : sem grammar u a v s with
  | err t => exact absurd hq (h _ _ hs)
  | ok t => exact fun h => nomatch h
  | crash => exact fun h => nomatch h

theorem back_grammar (r : R) : back (grammar r) = true ∧ backs (grammar r) = true := by
  have := gFirst_ok r
  simp only [firstOk, Bool.and_eq_true] at this
  exact this.1.1

theorem sure_alt_right {a b : PE R} {z : Str} (hv : v.silent = false) (ha : back a = true) (hb : backs a = true)
    (h : Sure u v b z) : Sure u v (.alt a b) z := by
  intro s t hs
  rw [sem_alt]
  cases hq : sem grammar u a v s with
  | err t' =>
    obtain ⟨n, hn⟩ := sem_settles grammar u a v s
    have := (run_deriv grammar u back_grammar n a v s hv hb).2 t' ha (by rw [hn n (Nat.le_refl _), hq])
    exact h t' t (by rw [this.1, hs])
  | ok t => exact fun h => nomatch h
  | crash => exact fun h => nomatch h

theorem sure_cat {a b : PE R} {z : Str} (h : Sure u v a z) (k : ∀ z, Sure u v b z) : Sure u v (.cat a b) z := by
  intro s t hs
  rw [sem_cat]
  cases hq : sem grammar u a v s with
  | err t => exact absurd hq (h _ _ hs)
  | ok t' => exact k _ t' t rfl
  | crash => exact fun h => nomatch h

theorem sure_cat_eats {a b : PE R} {x rest : Str} {P : List (Pair R) → Prop} (h : Eats u v a x rest P) (k : Sure u v b rest) :
    Sure u v (.cat a b) (x ++ rest) := by
  rintro ⟨p, z, q, l⟩ t rfl
  obtain ⟨_, _, hs⟩ := h p q l
  rw [sem_cat, hs]
  exact k _ _ rfl

theorem sure_skip (z : Str) : Sure u vN (.call .skip) z := by
  refine sure_call ?_
  intro s t _
  show sem grammar u body_skip vN s ≠ _
  unfold body_skip
  rw [sem_ifNon, if_pos (show vN.atomicity = .non from rfl)]
  exact sure_seq (sure_cat (sure_rep _ _) fun _ => sure_rep _ _) s t rfl

/-! ### Where an expression begins -/

/-- A text that begins with an identifier or a digit. -/
def Opens (u : Uni) (z : Str) : Prop :=
  (∃ y w, z = y ++ w ∧ IsIdent u y ∧ NoCont u w) ∨ ∃ c t, z = c :: t ∧ c ∈ digitChars

theorem sure_Integer (hv : v.silent = false) {c : Char} (hc : c ∈ digitChars) (t : Str) :
    Sure u v (.call .Integer) (c :: t) := by
  refine sure_call (sure_rule (sure_atomic ?_))
  by_cases h : c = '0'
  · subst h
    exact sure_alt_left (sure_eats (eats_str c!"0" t))
  · refine sure_alt_right hv (by decide) (by decide) (sure_call (sure_rule (sure_atomic (sure_seq (sure_cat ?_ fun _ =>
      sure_rep _ _)))))
    have key : ∀ c ∈ digitChars, c ≠ '0' → '1' ≤ c ∧ c ≤ '9' := by decide
    exact sure_call (sure_eats (x := [c]) (eats_range t (key c hc h).1 (key c hc h).2))

theorem sure_expr (L : Lawful u) {z : Str} (h : Opens u z) : Sure u vN (.call .expr) z := by
  have hd : Sure u vC (.call .data) z := by
    refine sure_call (sure_atomic (sure_rule ?_))
    rcases h with ⟨y, w, rfl, hy, hw⟩ | ⟨c, t, rfl, hc⟩
    · refine sure_alt_right rfl (by decide) (by decide) (sure_call (sure_atomic (sure_rule (sure_seq (sure_cat
        (sure_eats (eats_SYMBOL (v := vC) L rfl hy hw)) fun _ => sure_rep _ _)))))
    · refine sure_alt_left (sure_alt_left (sure_alt_right rfl (by decide) (by decide) (sure_call ?_)))
      exact sure_alt_right rfl (by decide) (by decide) (sure_Integer rfl hc t)
  have hn : Sure u vC (.call .node) z :=
    sure_call (sure_rule (sure_alt_right rfl (by decide) (by decide) (sure_restore hd)))
  have hp : Fails u vC (.call .Prefix) z := by
    rcases h with ⟨y, w, rfl, hy, hw⟩ | ⟨c, t, rfl, hc⟩
    · obtain ⟨a, t, rfl, ha⟩ := hy.start
      exact fails_id L ha (by decide) _
    · have key : ∀ c ∈ digitChars, noStart .Prefix c = true := by decide
      exact fails_plain L (key c hc) t
  have ht : Sure u vN (.call .term) z := by
    refine sure_call (sure_atomic (v := vN) (sure_rule (sure_seq (sure_cat ?_ fun _ => sure_rep _ _))))
    exact sure_cat_eats (x := []) (eats_rep_nil hp) hn
  exact sure_call (sure_atomic (v := vN) (sure_rule (sure_seq (sure_cat (sure_cat ht sure_skip) fun _ =>
    sure_seq (sure_opt _ _)))))

/-! ### Texts whose first statement is no expression -/

/-- The statements other than expressions. -/
def otherStatements : PE R :=
  .alt (.alt (.alt (.alt (.alt (.alt (.alt (.alt (.call .emptyStatement)
    (.restore (.seq (.cat (.cat (.call .importStatement) (.call .skip)) (.opt (.call .eos))))))
    (.restore (.seq (.cat (.cat (.call .classStatement) (.call .skip)) (.opt (.call .eos))))))
    (.restore (.seq (.cat (.cat (.call .traitStatement) (.call .skip)) (.opt (.call .eos))))))
    (.restore (.seq (.cat (.cat (.call .extendStatement) (.call .skip)) (.opt (.call .eos))))))
    (.restore (.seq (.cat (.cat (.call .controlFlow) (.call .skip)) (.opt (.call .eos))))))
    (.restore (.seq (.cat (.cat (.call .assignStatement) (.call .skip)) (.opt (.call .eos))))))
    (.restore (.seq (.cat (.cat (.call .defineStatement) (.call .skip)) (.opt (.call .eos))))))
    (.restore (.seq (.cat (.cat (.call .annotation) (.call .skip)) (.opt (.call .eos)))))

theorem statement_split : grammar .statement = .alt otherStatements (.restore (.call .expression)) := rfl

theorem foreign_other {p : Nat} {w z : Str} {l : List (Pair R)} (h : Deriv grammar u .non otherStatements p w z l) : Foreign l := by
  unfold otherStatements at h
  rcases h.inv_alt with h | ⟨-, h⟩
  · rcases h.inv_alt with h | ⟨-, h⟩
    · rcases h.inv_alt with h | ⟨-, h⟩
      · rcases h.inv_alt with h | ⟨-, h⟩
        · rcases h.inv_alt with h | ⟨-, h⟩
          · rcases h.inv_alt with h | ⟨-, h⟩
            · rcases h.inv_alt with h | ⟨-, h⟩
              · rcases h.inv_alt with h | ⟨-, h⟩
                · have h := h.inv_call
                  simp only [grammar, body_emptyStatement] at h
                  exact foreign_rule h (by decide)
                · exact foreign_stmt rfl (by decide) h
              · exact foreign_stmt rfl (by decide) h
            · exact foreign_stmt rfl (by decide) h
          · exact foreign_stmt rfl (by decide) h
        · exact foreign_control h
      · exact foreign_stmt rfl (by decide) h
    · exact foreign_stmt rfl (by decide) h
  · exact foreign_stmt rfl (by decide) h

/-- If another statement is sure to be read first, the parser panics or refuses the text. -/
theorem parse_sure (L : Lawful u) {w z : Str} (hw : Blank u w) (hz : Solid u z) (h : Sure u vN otherStatements z) {c : Cfg}
    (hc : c.input = w ++ z) : parseText u c = .panic ∨ parseText u c = .err (.parseError c.errorText) := by
  have hk : sem grammar u skipBody vN ⟨0, w ++ z, [], []⟩ = .ok ⟨w.length, z, [], []⟩ := by
    obtain ⟨q, hq, hs⟩ := eats_skip (v := vN) L rfl hw hz 0 [] []
    rw [sem_call, show q = [] from hq] at hs
    change sem grammar u body_skip vN _ = _ at hs
    unfold body_skip at hs
    rw [sem_ifNon, if_pos (show vN.atomicity = .non from rfl), sem_seq] at hs
    change (sem grammar u skipBody vN _).mapBoth _ _ = _ at hs
    cases hz : sem grammar u skipBody vN ⟨0, w ++ z, [], []⟩ with
    | ok t => rw [hz] at hs; simpa [Res.mapBoth] using hs
    | err t => rw [hz] at hs; cases hs
    | crash => rw [hz] at hs; cases hs
  have hp : smParse u .program (w ++ z) = Parsed.ofRes ((sem grammar u programBody vN ⟨w.length, z, [], []⟩).mapBoth id
      (fun t => { t with pos := 0, rest := w ++ z, queue := [] })) := by
    rw [smParse_eq u .program (by decide), sem_call]
    show Parsed.ofRes (sem grammar u body_program vN ⟨0, w ++ z, [], []⟩) = _
    rw [program_sem, hk]
    rfl
  have hne := fun t => h ⟨w.length, z, [], []⟩ t rfl
  have htot := sem_total u .statement (by decide) vN ⟨w.length, z, [], []⟩
  rw [sem_call, statement_split, sem_alt] at htot
  cases ha : sem grammar u otherStatements vN ⟨w.length, z, [], []⟩ with
  | err t => exact absurd ha (hne t)
  | crash => rw [ha] at htot; exact absurd rfl htot
  | ok t =>
    have hs : sem grammar u (.call .statement) vN ⟨w.length, z, [], []⟩ = .ok t := by
      rw [sem_call, statement_split, sem_alt, ha]; rfl
    obtain ⟨n, hn⟩ := sem_settles grammar u otherStatements vN ⟨w.length, z, [], []⟩
    obtain ⟨x, l, hm, hd⟩ := (run_deriv grammar u back_grammar n otherStatements vN ⟨w.length, z, [], []⟩ rfl
      (by decide)).1 t (by rw [hn n (Nat.le_refl _), ha])
    have hf := foreign_other hd
    have h1 : sem grammar u programBody vN ⟨w.length, z, [], []⟩ = sem grammar u furtherBody vN t := by
      unfold programBody furtherBody
      rw [sem_cat, sem_cat, sem_seq, sem_opt, sem_cat, sem_restore, hs]
      conv_rhs => rw [sem_cat, sem_cat]
      simp only [Res.mapBoth, id, Res.andThen]
      cases hz : sem grammar u (.rep (.seq (.cat (.call .skip) (.restore (.call .statement))))) vN t with
      | ok s => rfl
      | err s => exact absurd hz (sem_rep_no_err _ _ _ _ _ _)
      | crash => rfl
    rw [h1] at hp
    cases hq : sem grammar u furtherBody vN t with
    | err t' =>
      right
      rw [parse_refused, hc, hp, hq]; rfl
    | crash =>
      rw [hq] at hp
      rcases C33_parse_terminates u .program (by decide) (w ++ z) with ⟨l, h⟩ | h <;> rw [hp] at h <;> cases h
    | ok t' =>
      left
      obtain ⟨m, hm'⟩ := sem_settles grammar u furtherBody vN t
      obtain ⟨x', l', hm2, -⟩ := (run_deriv grammar u back_grammar m furtherBody vN t rfl (by decide)).1 t'
        (by rw [hm' m (Nat.le_refl _), hq])
      obtain ⟨q, l2, rfl, q1, q2, q3⟩ := hf
      have hl : t'.queue = q :: (l2 ++ l') := by rw [hm2.queue, hm.queue]; simp
      rw [parseText, hc, hp, hq]
      show parsePairs c t'.queue = .panic
      rw [hl, parsePairs, if_neg q1, if_neg q2, if_neg q3]

/-! ### Where no expression begins -/

theorem fails_expr_mid (L : Lawful u) {z : Str} (hn : Nameless u z) (hz : z = [] ∨ ∃ c t, z = c :: t ∧ Mid u c) {v : Env} :
    Fails u v (.call .expr) z := by
  rcases hz with rfl | ⟨c, t, rfl, hc⟩
  · exact fails_nil (by decide)
  have q : ∀ {v : Env}, Fails u v (.call .Quotation) (c :: t) := fails_mid L hc (by decide) t
  have fn : ∀ {v : Env}, Fails u v (.call .Number) (c :: t) := fails_mid L hc (by decide) t
  have fc : ∀ {v : Env}, Fails u v (.call .apply_call) (c :: t) :=
    fails_call (fails_atomic (fails_rule (fails_seq (breaks_cat (breaks_cat (fails_Symbol hn).breaks)))))
  have fp : strip c!"(" (c :: t) = none := by
    have : '(' ≠ c := by
      rintro rfl
      exact cont_ne L hc.cont (by decide) (by decide) rfl
    simp [strip, this]
  have fs : Fails u ⟨.compound, v.silent⟩ (.call .String) (c :: t) := by
    refine fails_call (fails_atomic (fails_rule (fails_seq (breaks_cat_right (x := []) (eats_opt_nil (hn _))
      (Fails.breaks (fails_alt (fails_restore ?_) ?_))))))
    · refine fails_call (fails_atomic (fails_rule (fails_seq ?_)))
      exact breaks_cat (breaks_cat (breaks_cat (breaks_cat (breaks_cat (breaks_cat
        (Fails.breaks (fails_seq (breaks_cat (breaks_cat q.breaks)))))))))
    · exact fails_call (fails_rule (fails_atomic (fails_seq (breaks_cat (breaks_cat q.breaks)))))
  have fd : Fails u ⟨.compound, v.silent⟩ (.call .data) (c :: t) := by
    refine fails_call (fails_atomic (fails_rule ?_))
    exact fails_alt (fails_alt (fails_alt (fails_alt (fails_alt (fails_alt (fails_alt
      (fails_restore (fails_mid L hc (by decide) t)) (fails_restore (fails_mid L hc (by decide) t)))
      (fails_mid L hc (by decide) t)) (fails_mid L hc (by decide) t)) (fails_mid L hc (by decide) t)) fn)
      (fails_restore fs)) (fails_Symbol hn)
  have fnode : Fails u ⟨.compound, v.silent⟩ (.call .node) (c :: t) := by
    refine fails_call (fails_rule (fails_alt (fails_alt (fails_alt (fails_alt (fails_restore (fails_seq (breaks_cat (breaks_cat
      (breaks_cat (breaks_cat (fails_str fp).breaks)))))) (fails_restore fc)) (fails_restore ?_)) (fails_restore ?_))
      (fails_restore fd)))
    · exact fails_call (fails_atomic (fails_rule (fails_seq (breaks_cat (breaks_cat (breaks_cat (fails_Symbol hn).breaks))))))
    · exact fails_call (fails_atomic (fails_rule (fails_seq (breaks_cat (breaks_cat (Fails.breaks
        (fails_alt (fails_alt (fails_restore fc) fn) (fails_Symbol hn))))))))
  refine fails_call (fails_atomic (fails_rule (fails_seq (breaks_cat (breaks_cat (Fails.breaks (fails_call
    (fails_atomic (fails_rule (fails_seq (breaks_cat (breaks_cat_right (x := [])
      (eats_rep_nil (fails_mid L hc (by decide) t)) fnode.breaks))))))))))))

/-- A conditional has a brace. -/
theorem fails_no_brace {z : Str} (h : '{' ∉ z) : Fails u vN (.call .if_statement) z := by
  intro p k q
  cases hs : sem grammar u (.call .if_statement) vN ⟨p, z, k, q⟩ with
  | err t => rw [sem_call_err u .if_statement (by decide) (by decide) hs]
  | crash => exact absurd hs (sem_total u .if_statement (by decide) _ _)
  | ok t =>
    exfalso
    obtain ⟨n, hn⟩ := sem_settles grammar u (.call .if_statement) vN ⟨p, z, k, q⟩
    obtain ⟨x, l, hm, hd⟩ := (run_deriv grammar u back_grammar n (.call .if_statement) vN ⟨p, z, k, q⟩ rfl
      (by decide)).1 t (by rw [hn n (Nat.le_refl _), hs])
    have hz : z = x ++ t.rest := hm.rest
    refine h ?_
    rw [hz]
    refine List.mem_append_left _ ?_
    have hd := hd.inv_call
    simp only [grammar, body_if_statement] at hd
    obtain ⟨m, -, hd⟩ := hd.inv_rule (by decide)
    obtain ⟨w1, w2, l1, l2, rfl, -, -, hd⟩ := hd.inv_seq.inv_cat
    refine List.mem_append_right _ ?_
    rcases hd.inv_alt with hd | ⟨-, hd⟩
    · obtain ⟨_, _, _, _, rfl, -, hd, -⟩ := hd.inv_restore.inv_seq.inv_cat
      obtain ⟨_, _, _, _, rfl, -, hd, -⟩ := hd.inv_cat
      obtain ⟨_, _, _, _, rfl, -, hd, -⟩ := hd.inv_cat
      obtain ⟨_, _, _, _, rfl, -, hd, -⟩ := hd.inv_cat
      obtain ⟨_, _, _, _, rfl, -, -, hd⟩ := hd.inv_cat
      have hd := hd.inv_call
      simp only [grammar, body_block] at hd
      obtain ⟨m, -, hd⟩ := hd.inv_atomic.inv_rule (by decide)
      obtain ⟨_, _, _, _, rfl, -, hd, -⟩ := hd.inv_seq.inv_cat
      obtain ⟨_, _, _, _, rfl, -, hd, -⟩ := hd.inv_cat
      obtain ⟨_, _, _, _, rfl, -, hd, -⟩ := hd.inv_cat
      obtain ⟨_, _, _, _, rfl, -, hd, -⟩ := hd.inv_cat
      obtain ⟨rfl, -⟩ := hd.inv_str
      simp
    · obtain ⟨_, _, _, _, rfl, -, hd, -⟩ := hd.inv_restore.inv_seq.inv_cat
      obtain ⟨_, _, _, _, rfl, -, hd, -⟩ := hd.inv_cat
      obtain ⟨_, _, _, _, rfl, -, hd, -⟩ := hd.inv_cat
      obtain ⟨_, _, _, _, rfl, -, hd, -⟩ := hd.inv_cat
      obtain ⟨_, _, _, _, rfl, -, hd, -⟩ := hd.inv_cat
      obtain ⟨_, _, _, _, rfl, -, hd, -⟩ := hd.inv_cat
      obtain ⟨_, _, _, _, rfl, -, hd, -⟩ := hd.inv_cat
      obtain ⟨_, _, _, _, rfl, -, hd, -⟩ := hd.inv_cat
      obtain ⟨_, _, _, _, rfl, -, hd, -⟩ := hd.inv_cat
      obtain ⟨_, _, _, _, rfl, -, hd, -⟩ := hd.inv_cat
      obtain ⟨rfl, -⟩ := hd.inv_str
      simp

/-! ### C42 -/

/-- The identifier that goes on with `y` after the word `k` is read as a name. -/
def SymbolAfter (u : Uni) (k y : Str) : Prop :=
  (k ∈ namingWords → ¬ IsIdent u y) ∧
  (k = c!"return" → ¬ IsIdent u y ∧ ∀ c t, y = c :: t → c ∉ digitChars) ∧
  k ≠ c!"break" ∧ k ≠ c!"pass"

theorem word_or (L : Lawful u) {x w : Str} (hw : Blank u w) {k : Str} (hk : k ∈ statementWords) :
    strip k (x ++ w) = none ∨ ∃ y, x = k ++ y := by
  cases h : strip k x with
  | none => exact .inl (strip_more (noCont_end L hw) (words_cont L k hk) h)
  | some y => exact .inr ⟨y, strip_app h⟩

/-- **C42**.  An identifier parses to the symbol of that name if it begins with no constant, and what follows a statement
word at its beginning makes no statement. -/
theorem C42_symbols (L : Lawful u) {x : Str} (hx : IsIdent u x) (h1 : ∀ k ∈ constants, strip k x = none)
    (h2 : ∀ k ∈ statementWords, ∀ y, x = k ++ y → SymbolAfter u k y) {w w' : Str} (hw : Blank u w) (hw' : Blank u w')
    (hb : '{' ∉ w') {c : Cfg} (hc : c.input = w ++ (x ++ w')) : parseText u c = .ok (.symbol ⟨[], x, .normal, 0⟩) := by
  have hcont := ident_cont L hx
  have hy : ∀ {k y : Str}, x = k ++ y → ∀ d ∈ y, u .xidContinue d = true := fun e d hd => hcont d (by simp [e, hd])
  refine parse_no_word L hx h1 hw hw' ?_ hc
  intro r hr
  simp only [wordRules, List.mem_cons, List.not_mem_nil, or_false] at hr
  rcases hr with rfl | rfl | rfl | rfl | rfl | rfl | rfl | rfl | rfl
  · rcases word_or L hw' (x := x) (k := c!"using") (by decide) with h | ⟨y, e⟩
    · exact fails_import h
    · have := (fails_naming L (hy e) ((h2 _ (by decide) y e).1 (by decide)) hw').1
      rwa [← List.append_assoc, ← e] at this
  · rcases word_or L hw' (x := x) (k := c!"class") (by decide) with h | ⟨y, e⟩
    · exact fails_class h
    · have := (fails_naming L (hy e) ((h2 _ (by decide) y e).1 (by decide)) hw').2.1
      rwa [← List.append_assoc, ← e] at this
  · rcases word_or L hw' (x := x) (k := c!"trait") (by decide) with h | ⟨y, e⟩
    · exact fails_trait h
    · have := (fails_naming L (hy e) ((h2 _ (by decide) y e).1 (by decide)) hw').2.2.1
      rwa [← List.append_assoc, ← e] at this
  · rcases word_or L hw' (x := x) (k := c!"extends") (by decide) with h | ⟨y, e⟩
    · exact fails_extend h
    · have := (fails_incomplete L (hy e) hw').1
      rwa [← List.append_assoc, ← e] at this
  · have hbr : strip c!"break" (x ++ w') = none :=
      (word_or L hw' (by decide)).resolve_right fun ⟨y, e⟩ => (h2 _ (by decide) y e).2.2.1 rfl
    have hpa : strip c!"pass" (x ++ w') = none :=
      (word_or L hw' (by decide)).resolve_right fun ⟨y, e⟩ => (h2 _ (by decide) y e).2.2.2 rfl
    rcases word_or L hw' (x := x) (k := c!"return") (by decide) with h | ⟨y, e⟩
    · refine fails_re fun k hk => ?_
      simp only [List.mem_cons, List.not_mem_nil, or_false] at hk
      rcases hk with rfl | rfl | rfl <;> assumption
    · obtain ⟨hn, hd⟩ := (h2 _ (by decide) y e).2.1 rfl
      obtain ⟨s, z, e1, hs, hz⟩ := after_word L (hy e) hw'
      have hnl : Nameless u z := by
        rcases hz with ⟨rfl, -⟩ | ⟨rfl, -⟩
        · exact fun v => fails_nil (by decide)
        · exact nameless_rest L (hy e) hn (noCont_end L hw')
      have hmid : z = [] ∨ ∃ c t, z = c :: t ∧ Mid u c := by
        rcases hz with ⟨rfl, -⟩ | ⟨rfl, h⟩
        · exact .inl rfl
        · cases y with
          | nil => exact absurd rfl h
          | cons a t =>
            refine .inr ⟨a, t ++ w', rfl, hy e a (by simp), ?_, fun h => hd a t rfl (digit_mem h)⟩
            cases h : u .xidStart a with
            | false => rfl
            | true => exact absurd (.inl ⟨a, t, rfl, h, fun d hd => hy e d (by simp [hd])⟩) hn
      have e2 : x ++ w' = (c!"return" ++ s) ++ z := by rw [e, List.append_assoc, e1, List.append_assoc]
      refine fails_call (fails_rule (fails_alt (fails_alt (fails_restore (fails_seq ?_)) (fails_tok rfl hbr))
        (fails_tok rfl hpa)))
      rw [e2]
      exact breaks_cat_right (eats_cat (eats_tok (v := vN) rfl rfl _) hs) (fails_expr_mid L hnl hmid).breaks
  · rcases word_or L hw' (x := x) (k := c!"if") (by decide) with h | ⟨y, e⟩
    · exact fails_if h
    · refine fails_no_brace fun h => ?_
      rcases List.mem_append.1 h with h | h
      · have := hcont _ h
        rw [L.plain _ _ (by decide)] at this
        revert this; decide
      · exact hb h
  · rcases word_or L hw' (x := x) (k := c!"for") (by decide) with h | ⟨y, e⟩
    · exact fails_for h
    · have := (fails_incomplete L (hy e) hw').2.1
      rwa [← List.append_assoc, ← e] at this
  · rcases word_or L hw' (x := x) (k := c!"let") (by decide) with h | ⟨y, e⟩
    · exact fails_let h
    · have := (fails_naming L (hy e) ((h2 _ (by decide) y e).1 (by decide)) hw').2.2.2
      rwa [← List.append_assoc, ← e] at this
  · rcases word_or L hw' (x := x) (k := c!"def") (by decide) with h | ⟨y, e⟩
    · exact fails_def h
    · have := (fails_incomplete L (hy e) hw').2.2
      rwa [← List.append_assoc, ← e] at this

/-- **C42** (violation).  The other identifiers that begin with a statement word make the parser panic or are refused. -/
theorem C42_words (L : Lawful u) {k y : Str} (hk : k ∈ statementWords) (hx : IsIdent u (k ++ y)) (h : ¬ SymbolAfter u k y)
    {w w' : Str} (hw : Blank u w) (hw' : Blank u w') {c : Cfg} (hc : c.input = w ++ ((k ++ y) ++ w')) :
    parseText u c = .panic ∨ parseText u c = .err (.parseError c.errorText) := by
  have hcont := ident_cont L hx
  have hc' : c.input = w ++ (k ++ (y ++ w')) := by rw [hc]; simp
  have hsol : Solid u (k ++ (y ++ w')) := by
    obtain ⟨a, t, e, -⟩ := hx.start
    rw [← List.append_assoc, e]
    exact id_solid L (hcont a (by simp [e])) _
  have fin : Sure u vN (.call .re_control) (k ++ (y ++ w')) →
      parseText u c = .panic ∨ parseText u c = .err (.parseError c.errorText) := by
    intro hs
    refine parse_sure L hw hsol ?_ hc'
    unfold otherStatements
    refine sure_alt_left (sure_alt_left (sure_alt_left (sure_alt_right rfl (by decide) (by decide) (sure_restore (sure_seq
      (sure_cat (sure_cat ?_ fun _ => sure_skip _) fun _ => sure_opt _ _))))))
    exact sure_call (sure_alt_left (sure_alt_left (sure_restore hs)))
  by_cases n : k ∈ namingWords ∧ IsIdent u y
  · exact .inl (C42_naming L n.1 n.2 hw blank_nil hw' (by simpa using hc'))
  by_cases b : k = c!"break"
  · subst b
    exact fin (sure_call (sure_rule (sure_alt_left (sure_alt_right rfl (by decide) (by decide)
      (sure_eats (eats_tok (v := vN) rfl rfl _))))))
  by_cases p : k = c!"pass"
  · subst p
    exact fin (sure_call (sure_rule (sure_alt_right rfl (by decide) (by decide)
      (sure_eats (eats_tok (v := vN) rfl rfl _)))))
  have hr : k = c!"return" ∧ Opens u (y ++ w') := by
    by_contra hr
    refine h ⟨fun h1 h2 => n ⟨h1, h2⟩, fun h1 => ⟨fun h2 => hr ⟨h1, .inl ⟨y, w', rfl, h2, noCont_end L hw'⟩⟩,
      fun d t e hd => hr ⟨h1, .inr ⟨d, t ++ w', by rw [e]; rfl, hd⟩⟩⟩, b, p⟩
  obtain ⟨rfl, ho⟩ := hr
  have hs : Solid u (y ++ w') := by
    cases y with
    | nil =>
      exfalso
      rcases ho with ⟨y, w, e, hy, -⟩ | ⟨d, t, e, hd⟩
      · obtain ⟨a, t, e', ha⟩ := hy.start
        rw [e'] at e
        have := noCont_end L hw' a _ (by simpa using e)
        rw [idStart_cont L ha] at this
        cases this
      · have h1 := noCont_end L hw' d t (by simpa using e)
        have key : ∀ d ∈ digitChars, Plain d ∧ asciiUni .xidContinue d = true := by decide
        rw [L.plain _ _ (key d hd).1, (key d hd).2] at h1
        cases h1
    | cons a t => exact id_solid L (hcont a (by simp)) _
  refine fin (sure_call (sure_rule (sure_alt_left (sure_alt_left (sure_restore (sure_seq ?_))))))
  have := sure_cat_eats (b := .call .expr) (eats_cat (eats_tok (v := vN) (r := .Return) rfl rfl _)
    (eats_skip (w := []) (v := vN) L rfl blank_nil hs)) (sure_expr L ho)
  rwa [List.append_nil] at this

/-- **C42**.  Exactly these identifiers parse to the symbol of that name: those that begin with no constant and where what
follows a statement word at the beginning makes no statement.  (After the identifier stands white space, or comments
without opening braces.) -/
theorem C42_exact (L : Lawful u) {x : Str} (hx : IsIdent u x) {w w' : Str} (hw : Blank u w) (hw' : Blank u w')
    (hb : '{' ∉ w') {c : Cfg} (hc : c.input = w ++ (x ++ w')) :
    parseText u c = .ok (.symbol ⟨[], x, .normal, 0⟩) ↔
      (∀ k ∈ constants, strip k x = none) ∧ ∀ k ∈ statementWords, ∀ y, x = k ++ y → SymbolAfter u k y := by
  refine ⟨fun h => ⟨fun k hk => ?_, fun k hk y e => ?_⟩, fun h => C42_symbols L hx h.1 h.2 hw hw' hb hc⟩
  · cases hs : strip k x with
    | none => rfl
    | some y =>
      exfalso
      have e := strip_app hs
      have hne : ∀ s, constantValue k ≠ .symbol ⟨[], k ++ s, .normal, 0⟩ := by
        intro s
        simp only [constants, List.mem_cons, List.not_mem_nil, or_false] at hk
        rcases hk with rfl | rfl | rfl
        · intro h
          rw [constantValue, if_pos rfl, show AST.mkSymbol c!"std::constant:Null" =
            .symbol ⟨[c!"std"], c!"constant:Null", .normal, 0⟩ from rfl] at h
          cases h
        · exact fun h => by cases h
        · exact fun h => by cases h
      subst e
      by_cases hy : y = []
      · subst hy
        have hq : ∀ a : SAtom, a.Ok u → a.text = k → Wordless k → a.value = some (constantValue k) →
            Leaf (constantValue k) → False := fun a ha ht hwl hv hlf => by
          have := eraseR_leaf hlf ((parse_atom L c a ha (by rw [ht]; exact hwl) hw hw' (by rw [ht]; simpa using hc)).trans
            (by rw [hv]; rfl))
          rw [h] at this
          injection this with this
          exact hne [] this.symm
        simp only [constants, List.mem_cons, List.not_mem_nil, or_false] at hk
        rcases hk with rfl | rfl | rfl
        · exact hq .null trivial rfl (by unfold Wordless; decide) rfl trivial
        · exact hq (.bool true) trivial rfl (by unfold Wordless; decide) rfl trivial
        · exact hq (.bool false) trivial rfl (by unfold Wordless; decide) rfl trivial
      · have := C42_constants L hk hy hx hw hw' hc (d := ⟨[], y ++ w', []⟩) rfl
        rw [h] at this
        by_cases hp : parseText u ⟨[], y ++ w', []⟩ = .err (.parseError (Cfg.errorText ⟨[], y ++ w', []⟩))
        · cases this.1 hp
        · have := this.2 hp
          injection this with this
          exact hne y this.symm
  · by_contra hn
    subst e
    rcases C42_words L hk hx hn hw hw' hc with h' | h' <;> rw [h'] at h <;> cases h

/-- `format` is a symbol. -/
example : parseText asciiUni ⟨[], c!" format ", []⟩ = .ok (.symbol ⟨[], c!"format", .normal, 0⟩) :=
  C42_symbols lawful_asciiUni (x := c!"format") (w := c!" ") (w' := c!" ") (.inl ⟨'f', c!"ormat", rfl, by decide, by decide⟩)
    (by decide) (by
      intro k hk y e
      simp only [statementWords, List.mem_cons, List.not_mem_nil, or_false] at hk
      rcases hk with rfl | rfl | rfl | rfl | rfl | rfl | rfl | rfl | rfl | rfl | rfl <;>
        first
          | (simp at e; done)
          | exact ⟨fun h => absurd h (by decide), fun h => absurd h (by decide), by decide, by decide⟩)
    (blank_one lawful_asciiUni) (blank_one lawful_asciiUni) (by decide) rfl

/-- `let1`: no name begins with a digit. -/
example : parseText asciiUni ⟨[], c!"let1", []⟩ = .ok (.symbol ⟨[], c!"let1", .normal, 0⟩) :=
  C42_symbols lawful_asciiUni (x := c!"let1") (w := []) (w' := []) (.inl ⟨'l', c!"et1", rfl, by decide, by decide⟩)
    (by decide) (by
      intro k hk y e
      simp only [statementWords, List.mem_cons, List.not_mem_nil, or_false] at hk
      rcases hk with rfl | rfl | rfl | rfl | rfl | rfl | rfl | rfl | rfl | rfl | rfl <;>
        first
          | (simp at e; done)
          | (simp only [List.cons_append, List.nil_append, List.cons.injEq, true_and] at e
             subst e
             refine ⟨fun _ h => ?_, fun h => absurd h (by decide), by decide, by decide⟩
             rcases h with ⟨c, r, h, h1, -⟩ | ⟨c, r, h, -⟩
             · cases h; revert h1; decide
             · cases h))
    blank_nil blank_nil (by decide) rfl

/-- `returns` and `password` are not. -/
example : parseText asciiUni ⟨[], c!"returns", []⟩ = .panic ∨
    parseText asciiUni ⟨[], c!"returns", []⟩ = .err (.parseError []) :=
  C42_words lawful_asciiUni (k := c!"return") (y := c!"s") (by decide) (.inl ⟨'r', c!"eturns", rfl, by decide, by decide⟩)
    (fun h => (h.2.1 rfl).1 (.inl ⟨'s', [], rfl, by decide, by decide⟩)) (w := []) (w' := []) blank_nil blank_nil rfl

example : parseText asciiUni ⟨[], c!"password", []⟩ = .panic ∨
    parseText asciiUni ⟨[], c!"password", []⟩ = .err (.parseError []) :=
  C42_words lawful_asciiUni (k := c!"pass") (y := c!"word") (by decide) (.inl ⟨'p', c!"assword", rfl, by decide, by decide⟩)
    (fun h => h.2.2.2 rfl) (w := []) (w' := []) blank_nil blank_nil rfl

end SM.Props
