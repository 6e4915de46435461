import Verif.Props.ReadsExpr
/-
C56: whatever the parser answers to a text is a reading of that text.
-/
namespace SM.Props
open SM SM.Peg

variable {u : Uni} {c : Cfg} {p : Nat} {w z : Str} {l : List (Pair R)}

/-- A statement of another kind: the parser stops with a panic there. -/
def Foreign (l : List (Pair R)) : Prop := ∃ q l', l = q :: l' ∧ q.rule ≠ .EOI ∧ q.rule ≠ .expression ∧ q.rule ≠ .COMMENT

theorem Foreign.append (h : Foreign l) (m : List (Pair R)) : Foreign (l ++ m) := by
  obtain ⟨q, l', rfl, h⟩ := h
  exact ⟨q, l' ++ m, rfl, h⟩

theorem foreign_rule {r : R} {e : PE R} (h : Deriv grammar u .non (.rule r e) p w z l)
    (hr : r ≠ .EOI ∧ r ≠ .expression ∧ r ≠ .COMMENT) : Foreign l := by
  obtain ⟨m, rfl, -⟩ := h.inv_rule (by decide)
  exact ⟨_, [], rfl, hr⟩

theorem foreign_stmt {r : R} {e : PE R} {b : PE R} (hb : grammar r = .rule r b)
    (hr : r ≠ .EOI ∧ r ≠ .expression ∧ r ≠ .COMMENT)
    (h : Deriv grammar u .non (.restore (.seq (.cat (.cat (.call r) (.call .skip)) e))) p w z l) : Foreign l := by
  obtain ⟨x, y, m₁, m₂, rfl, rfl, h1, -⟩ := h.inv_restore.inv_seq.inv_cat
  obtain ⟨x, y', m₁, m₃, rfl, rfl, h2, -⟩ := h1.inv_cat
  have h2 := h2.inv_call
  rw [hb] at h2
  exact ((foreign_rule h2 hr).append _).append _

theorem foreign_control {e : PE R}
    (h : Deriv grammar u .non (.restore (.seq (.cat (.cat (.call .controlFlow) (.call .skip)) e))) p w z l) :
    Foreign l := by
  obtain ⟨x, y, m₁, m₂, rfl, rfl, h1, -⟩ := h.inv_restore.inv_seq.inv_cat
  obtain ⟨x, y', m₁, m₃, rfl, rfl, h2, -⟩ := h1.inv_cat
  refine (Foreign.append ?_ _).append _
  have h2 := h2.inv_call
  simp only [grammar, body_controlFlow] at h2
  rcases h2.inv_alt with h | ⟨-, h⟩
  · rcases h.inv_alt with h | ⟨-, h⟩
    · have h := h.inv_restore.inv_call
      simp only [grammar, body_re_control] at h
      exact foreign_rule h (by decide)
    · have h := h.inv_restore.inv_call
      simp only [grammar, body_if_statement] at h
      exact foreign_rule h (by decide)
  · have h := h.inv_restore.inv_call
    simp only [grammar, body_for_statement] at h
    exact foreign_rule h (by decide)

/-- A statement is an expression statement or of another kind. -/
theorem deriv_statement (h : Deriv grammar u .non (.call .statement) p w z l) :
    Foreign l ∨ Deriv grammar u .non (.call .expression) p w z l := by
  have h := h.inv_call
  simp only [grammar, body_statement] at h
  rcases h.inv_alt with h | ⟨-, h⟩
  · left
    rcases h.inv_alt with h | ⟨-, h⟩
    · rcases h.inv_alt with h | ⟨-, h⟩
      · rcases h.inv_alt with h | ⟨-, h⟩
        · rcases h.inv_alt with h | ⟨-, h⟩
          · rcases h.inv_alt with h | ⟨-, h⟩
            · rcases h.inv_alt with h | ⟨-, h⟩
              · rcases h.inv_alt with h | ⟨-, h⟩
                · rcases h.inv_alt with h | ⟨-, h⟩
                  · have h := h.inv_call
                    simp only [grammar, body_emptyStatement] at h
                    exact foreign_rule h (by decide)
                  · exact foreign_stmt rfl (by decide) h
                · exact foreign_stmt rfl (by decide) h
              · exact foreign_stmt rfl (by decide) h
            · exact foreign_stmt rfl (by decide) h
          · exact foreign_control h
        · exact foreign_stmt rfl (by decide) h
      · exact foreign_stmt rfl (by decide) h
    · exact foreign_stmt rfl (by decide) h
  · exact .inr h.inv_restore

/-- An expression statement, if the builder accepts it: an expression, and maybe blank space and a semicolon. -/
theorem reads_expression (L : Lawful u) (h : Deriv grammar u .non (.call .expression) p w z l) :
    ∃ q, l = [q] ∧ q.rule = .expression ∧ ∀ v, buildExpression c q.inner .empty = some v →
      ∃ x r, w = x ++ r ∧ RExpr u c.position p x v := by
  have h := h.inv_call
  simp only [grammar, body_expression] at h
  obtain ⟨m, rfl, hm⟩ := h.inv_rule (by decide)
  refine ⟨_, rfl, rfl, fun v hv => ?_⟩
  obtain ⟨x, y, m₁, m₂, rfl, rfl, h1, h2⟩ := hm.inv_seq.inv_cat
  obtain ⟨x, b, m₁, m₃, rfl, rfl, h3, h4⟩ := h1.inv_cat
  obtain ⟨q, rfl, hq⟩ := lone_expr h3
  refine ⟨x, b ++ y, by simp, ?_⟩
  simp only [Pair.inner, List.cons_append] at hv
  rw [buildExpression, if_pos hq] at hv
  split at hv
  · rename_i a ha
    have key : ∀ (l : List (Pair R)) (a : AST), buildExpression c l a = some v → (∀ q ∈ l, q.rule ≠ .expr) → v = a := by
      intro l
      induction l with
      | nil => intro a h _; cases h; rfl
      | cons q l ih =>
        intro a h hl
        rw [buildExpression, if_neg (hl q (by simp))] at h
        split at h
        · exact ih a h fun q hq => hl q (by simp [hq])
        · cases h
    have : v = a := by
      refine key _ a hv ?_
      intro q hq
      simp only [List.nil_append, List.mem_append] at hq
      rcases hq with hq | hq
      · rw [skip_quiet L h4 q hq]; decide
      · rcases h2.inv_opt with ⟨-, rfl, -⟩ | h2
        · simp at hq
        · have h2 := h2.inv_call
          simp only [grammar, body_eos] at h2
          obtain ⟨m, rfl, -⟩ := h2.inv_rule (by decide)
          simp only [List.mem_singleton] at hq
          subst hq
          exact (by decide : R.eos ≠ R.expr)
    rw [this]
    exact under_all L c (x.length + 1) _ _ _ _ _ _ (by omega) h3 ha
  · cases hv

theorem foreign_panics (h : Foreign l) : parsePairs c l = .panic := by
  obtain ⟨q, l', rfl, h1, h2, h3⟩ := h
  rw [parsePairs, if_neg h1, if_neg h2, if_neg h3]

theorem foreign_skip {q : Pair R} {l' : List (Pair R)} (h : q.rule = .MultiLineComment) : Foreign (q :: l') :=
  ⟨q, l', rfl, by rw [h]; decide⟩

/-- C56.  Whenever the parser accepts a text, its answer is a reading of the beginning of the text: after blank space
stands an expression, in the sense of the context-free grammar above, that stands for exactly the syntax tree of the
answer, positions included; or the text is blank and the answer is empty. -/
theorem C56_answers_are_readings (L : Lawful u) (c : Cfg) (v : AST) (h : parseText u c = .ok v) :
    (v = .empty ∧ (Blank u c.input ∨ OpenComment u c.input)) ∨
    ∃ w x r, c.input = w ++ (x ++ r) ∧ Blank u w ∧ RExpr u c.position w.length x v := by
  rw [parseText] at h
  split at h
  · rename_i l hl
    have hd := (C34_derivation u c.input l hl).inv_call
    generalize c.input = w at hd
    simp only [grammar, body_program] at hd
    obtain ⟨x₁, e, m₁, me, rfl, rfl, h1, he⟩ := hd.inv_seq.inv_cat
    obtain ⟨x₂, b', m₂, mb', rfl, rfl, h2, hb'⟩ := h1.inv_cat
    obtain ⟨x₃, s, m₃, ms, rfl, rfl, h3, hs⟩ := h2.inv_cat
    obtain ⟨x₄, b, m₄, mb, rfl, rfl, h4, hb⟩ := h3.inv_cat
    have h4 := h4.inv_call
    simp only [grammar, body_SOI] at h4
    obtain ⟨-, rfl, rfl⟩ := h4.inv_soi
    have he := he.inv_call
    simp only [grammar, body_EOI] at he
    obtain ⟨me', rfl, hE⟩ := he.inv_rule (by decide)
    obtain ⟨-, rfl, rfl⟩ := hE.inv_eoi
    simp only [List.nil_append, List.append_nil, List.length_nil, Nat.add_zero] at *
    rcases hs.inv_seq.inv_opt with ⟨rfl, rfl, -⟩ | hs
    · -- no statement
      left
      rcases deriv_skip L hb with ⟨rfl, hB⟩ | ⟨q, l', rfl, hq, -⟩
      · rcases deriv_skip L hb' with ⟨rfl, hB'⟩ | ⟨q, l', rfl, hq, -⟩
        · simp only [List.nil_append] at h
          have : v = .empty := by
            simp [parsePairs, Pair.rule] at h
            exact h.symm
          refine ⟨this, ?_⟩
          rcases hB with hB | ⟨e, hB⟩
          · rcases hB' with hB' | ⟨-, d, k, m, rfl, hd', hk, hm⟩
            · exact .inl (by simpa using hB.append hB')
            · exact .inr ⟨b ++ d, k, m, by simp, hB.append hd', hk, hm⟩
          · simp only [List.nil_append] at e
            rw [e]
            exact .inr (by simpa using hB)
        · simp only [List.nil_append, List.cons_append] at h
          rw [foreign_panics (foreign_skip hq)] at h
          cases h
      · simp only [List.cons_append] at h
        rw [foreign_panics (foreign_skip hq)] at h
        cases h
    · right
      obtain ⟨s₁, s₂, k₁, k₂, rfl, rfl, g1, g2⟩ := hs.inv_cat
      rcases deriv_skip L hb with ⟨rfl, hB⟩ | ⟨q, l', rfl, hq, -⟩
      · simp only [List.nil_append, List.append_assoc] at h
        rcases deriv_statement g1.inv_restore with hf | hx
        · rw [foreign_panics (hf.append _)] at h
          cases h
        · have hB0 : Blank u b := by
            rcases hB with hB | ⟨e, -⟩
            · exact hB
            · refine (hx.ran.not_fails fun v => ?_).elim
              rw [show s₁ ++ (s₂ ++ b') = [] by simpa using e]
              exact fails_nil (by decide)
          obtain ⟨q, rfl, hq, hx⟩ := reads_expression (c := c) L hx
          simp only [List.cons_append] at h
          rw [parsePairs, if_neg (by rw [hq]; decide), if_pos hq] at h
          split at h
          · rename_i a ha
            cases h
            obtain ⟨x, r, rfl, hr⟩ := hx _ ha
            exact ⟨b, x, r ++ (s₂ ++ b'), by simp, hB0, by simpa using hr⟩
          · cases h
      · simp only [List.cons_append] at h
        rw [foreign_panics (foreign_skip hq)] at h
        cases h
  · cases h
  · cases h

/-! ### Examples -/

/-- `1 + f(x)!` is read as the sum of `1` and the factorial of `f(x)`.  The sum has the position of the whole text, the
factorial that of the exclamation mark, and the call that of its brackets. -/
example (L : Lawful u) (hx : IsIdent u c!"x") (hf : IsIdent u c!"f") (P : Nat → Nat → Position) :
    RExpr u P 0 c!"1 + f(x)!" (callAt (P 0 9) Op.plus.sym [.integer 1,
      callAt (P 8 9) ⟨[c!"std", c!"suffix"], c!"factorial", .suffix c!"!", 0⟩
        [.function (Sym.ofStr c!"f") [.mk [.mkSymbol c!"x"] [] (P 5 8)]]]) := by
  have hs : Blank u c!" " := blank_ws (by simp only [List.mem_singleton, forall_eq, Ws]; rw [L.plain _ _ (by decide)]; rfl)
  have hb : ∀ i, RExpr u P i c!"x" (.mkSymbol c!"x") := fun i =>
    .mk (t := c!"x") (s := []) (j := []) (l := []) (.base (.node (.atom (a := .sym ⟨c!"x", []⟩) (by simp)
      ⟨⟨hx, by simp⟩, by unfold Path.Free; decide⟩ rfl))) .nil (.inl rfl) rfl
  have hc : RTerm u P 4 c!"f(x)!" (callAt (P 8 9) ⟨[c!"std", c!"suffix"], c!"factorial", .suffix c!"!", 0⟩
        [.function (Sym.ofStr c!"f") [.mk [.mkSymbol c!"x"] [] (P 5 8)]]) :=
    .base (.op (w := c!"f(x)") (y := c!"!") (.node (.call (p := ⟨c!"f", []⟩) (s := c!"(x)") ⟨hf, by simp⟩
      (.some (h := []) (b := []) (x := c!"x") (s := []) (t := []) (by simp) blank_nil (.pos (hb 6)) (.nil blank_nil)
        .nil))) (by decide))
  exact .mk (t := c!"1") (s := c!" + f(x)!") (j := []) (.base (.node (.atom (a := .int 1) (by simp) trivial rfl)))
    (.cons (o := .plus) (w := c!" ") (w' := c!" ") (t := c!"f(x)!") (s := []) (hs) hs hc .nil)
    (.inl rfl) rfl

end SM.Props
