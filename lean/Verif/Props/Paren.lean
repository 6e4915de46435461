import Verif.Props.Goes
import Verif.Props.Bare
/-
C44: white space next to parentheses.
-/
namespace SM.Props
open SM SM.Peg

/-- An operand with white space after an opening parenthesis, or with white space after an operator expression before a
closing one, maybe within further parentheses and behind signs; whatever follows. -/
inductive Spaced (u : Uni) : Str → Prop
  | opened {c : Char} {r : Str} : Ws u c → Spaced u ('(' :: c :: r)
  | closed {e : SExpr} {w r : Str} : e.Ok u → e.solo = false → Blank u w → w ≠ [] →
      Spaced u ('(' :: (e.text ++ (w ++ ')' :: r)))
  | inside {z : Str} : Spaced u z → Spaced u ('(' :: z)
  | signed (p : Pre) {z : Str} : Spaced u z → Spaced u (p.char :: z)

variable {u : Uni}

/-- First characters that are no white space. -/
def notWs : CS → Bool
  | .chr d => decide (Plain d) && !asciiUni .whiteSpace d
  | .insens d => decide (d = '0')
  | .rng a b => decide ('0' ≤ a) && decide (b ≤ '9')
  | .uc p => decide (p = .xidStart)
  | .all => false

theorem notWs_has (L : Lawful u) {c : Char} (hc : Ws u c) {x : CS} (hx : notWs x = true) : x.has u c = false := by
  have plain : Plain c → asciiUni .whiteSpace c = true := fun h => by rw [← L.plain _ _ h]; exact hc
  cases x with
  | chr d =>
    simp only [notWs, Bool.and_eq_true, decide_eq_true_eq, Bool.not_eq_true'] at hx
    simp only [CS.has, decide_eq_false_iff_not]
    rintro rfl
    rw [plain hx.1] at hx
    exact absurd hx.2 (by decide)
  | insens d =>
    simp only [notWs, decide_eq_true_eq] at hx
    subst hx
    simp only [CS.has, decide_eq_false_iff_not]
    intro h
    have := toLower_eq_zero h
    subst this
    exact absurd (plain (by decide)) (by decide)
  | rng a b =>
    simp only [notWs, Bool.and_eq_true, decide_eq_true_eq] at hx
    simp only [CS.has, Bool.and_eq_false_iff, decide_eq_false_iff_not]
    by_contra h
    simp only [not_or, not_not] at h
    have h1 : (48 : Nat) ≤ a.toNat := hx.1
    have h2 : b.toNat ≤ 57 := hx.2
    have h3 : a.toNat ≤ c.toNat := h.1
    have h4 : c.toNat ≤ b.toNat := h.2
    have h1' : 48 ≤ c.toNat := by omega
    have hw := plain (.inl (by omega))
    simp only [asciiUni, decide_eq_true_eq, List.mem_cons, List.not_mem_nil, or_false] at hw
    rcases hw with rfl | rfl | rfl | rfl | rfl | rfl <;> revert h1' <;> decide
  | uc p =>
    simp only [notWs, decide_eq_true_eq] at hx
    subst hx
    simp only [CS.has]
    by_contra h
    rw [Bool.not_eq_false] at h
    have := L.cont_ws c (L.start_cont c h)
    rw [Ws, this] at hc
    cases hc
  | all => cases hx

/-- No expression begins with white space. -/
theorem fails_expr_ws (L : Lawful u) {c : Char} (hc : Ws u c) (r : Str) {v : Env} : Fails u v (.call .expr) (c :: r) := by
  refine fails_first (by decide) (by decide) (by decide) (by decide) ?_
  have key : ∀ x ∈ gFirst .expr, notWs x = true := by decide
  rw [hits, List.any_eq_false]
  intro x hx
  rw [notWs_has L hc (key x hx)]
  decide

abbrev vC' : Env := ⟨.compound, false⟩

/-- In a compound rule no white space is skipped. -/
theorem goes_skip_none (r : Str) : Goes u vC' (.call .skip) r r := by
  refine goes_eats (x := []) (P := Nil) (eats_call ?_)
  intro pos stack queue
  refine ⟨[], rfl, ?_⟩
  show sem grammar u body_skip vC' _ = _
  unfold body_skip
  rw [sem_ifNon, if_neg (by decide)]
  simp

/-- The rest of an operand in parentheses. -/
def closeBody : PE R := .cat (.cat (.call .expr) (.call .skip)) (.str c!")")

theorem fails_node_paren (L : Lawful u) {z : Str} (h : Breaks u vC' closeBody z) : Fails u vC' (.call .node) ('(' :: z) := by
  have no : ∀ {v : Env} {r : R}, noStart r '(' = true → Fails u v (.call r) ('(' :: z) := fun h => fails_plain L h z
  have hb : Breaks u vC' (.cat (.cat (.str c!"(") (.call .skip)) closeBody) ('(' :: z) :=
    breaks_goes (goes_cat (goes_str ['(']) (goes_skip_none z)) h
  refine fails_call (fails_rule (fails_alt (fails_alt (fails_alt (fails_alt (fails_restore (fails_seq ?_)) (fails_restore (no (by decide))))
      (fails_restore (no (by decide)))) (fails_restore (no (by decide)))) (fails_restore (no (by decide)))))
  intro pos stack queue
  have := hb pos stack queue
  rw [closeBody, ← sem_cat_assoc, sem_cat, ← sem_cat_assoc, ← sem_cat] at this
  exact this

/-- The operand of a term. -/
def operandBody : PE R := .cat (.rep (.call .Prefix)) (.call .node)

theorem fails_expr_of {z : Str} (h : Breaks u vC' operandBody z) {a : Atomicity} : Fails u ⟨a, false⟩ (.call .expr) z :=
  fails_call (fails_atomic (fails_rule (fails_seq (breaks_cat (breaks_cat (Fails.breaks (fails_call (fails_atomic (fails_rule
    (fails_seq (breaks_cat h))))))))))) 

theorem operand_paren (L : Lawful u) {z : Str} (h : Breaks u vC' closeBody z) : Breaks u vC' operandBody ('(' :: z) :=
  breaks_cat_right (x := []) (eats_rep_nil (fails_plain L (by decide) z)) (fails_node_paren L h).breaks

theorem operand_sign (L : Lawful u) (p : Pre) {z : Str} (h : Breaks u vC' operandBody z) : Breaks u vC' operandBody (p.char :: z) := by
  intro pos stack queue
  obtain ⟨q, -, hs⟩ := eats_Prefix (v := vC') L (by decide) p z pos stack queue
  obtain ⟨pos', txt', queue', h'⟩ := h (pos + 1) stack (queue ++ q)
  refine ⟨pos', txt', queue', ?_⟩
  rw [operandBody, sem_cat] at h' ⊢
  rw [sem_rep]
  have hs' : sem grammar u (.call .Prefix) vC' ⟨pos, p.char :: z, stack, queue⟩ = .ok ⟨pos + 1, z, stack, queue ++ q⟩ := hs
  rw [hs']
  exact h'

theorem spaced_breaks (L : Lawful u) {z : Str} (h : Spaced u z) : Breaks u vC' operandBody z := by
  induction h with
  | opened hc => exact operand_paren L (breaks_cat (breaks_cat (fails_expr_ws L hc _).breaks))
  | @closed e w r he hs hw hne =>
    refine operand_paren L ?_
    have hp : HeadIn closeChars (')' :: r) := .inr ⟨')', r, rfl, by decide⟩
    have hx := goes_eats ((SExpr.read L e he).eats vC' rfl w (')' :: r) hw (stop_close L hp) (follow_close L hw
      (.inr ⟨')', r, rfl, by decide⟩)))
    rw [List.append_assoc, taken_left, hs, left, if_neg (by decide)] at hx
    refine breaks_goes (goes_cat hx (goes_skip_none _)) (Fails.breaks (fails_str ?_))
    rcases blank_head hw with rfl | ⟨c, t, rfl, hc⟩
    · exact absurd rfl hne
    · have : ')' ≠ c := by
        rintro rfl
        rcases hc with hc | hc
        · rw [Ws, L.plain _ _ (by decide)] at hc
          revert hc; decide
        · revert hc; decide
      simp [strip, this]
  | inside _ ih => exact operand_paren L (breaks_cat (breaks_cat (fails_expr_of ih).breaks))
  | signed p _ ih => exact operand_sign L p ih

theorem spaced_head {z : Str} (h : Spaced u z) : HeadIn ['(', '!', '¬', '+', '-', '*'] z := by
  cases h with
  | signed p _ => exact .inr ⟨p.char, _, rfl, by cases p <;> decide⟩
  | _ => exact .inr ⟨'(', _, rfl, by decide⟩

/-- **C44** (violation).  White space after an opening parenthesis, or after an operator expression before a closing one, makes
the text a syntax error, however deep in parentheses and signs, and whatever follows. -/
theorem C44_spaced (L : Lawful u) {w z : Str} (hw : Blank u w) (h : Spaced u z) {c : Cfg} (hc : c.input = w ++ z) :
    parseText u c = .err (.parseError c.errorText) := by
  have hh := spaced_head h
  have hf : Fails u vN (.call .statement) z := by
    have no : ∀ {v : Env} {r : R}, noEmpty r = true → (∀ c ∈ ['(', '!', '¬', '+', '-', '*'], noStart r c = true) →
      Fails u v (.call r) z := fun h0 h => fails_head L hh h0 h
    refine fails_call ?_
    rw [statement_split]
    refine fails_alt ?_ (fails_restore (fails_call (fails_rule (fails_seq (breaks_cat (breaks_cat (Fails.breaks
      (fails_expr_of (spaced_breaks L h)))))))))
    exact fails_alt (fails_alt (fails_alt (fails_alt (fails_alt (fails_alt (fails_alt (fails_alt (no (by decide) (by decide))
      (fails_done (no (by decide) (by decide)))) (fails_done (no (by decide) (by decide))))
      (fails_done (no (by decide) (by decide)))) (fails_done (no (by decide) (by decide))))
      (fails_done (no (by decide) (by decide)))) (fails_done (no (by decide) (by decide))))
      (fails_done (no (by decide) (by decide)))) (fails_done (no (by decide) (by decide)))
  refine parse_stuck L hw (.stop (solid_head L hh (by decide)) (fails_restore hf)) ?_ hc
  rintro rfl
  cases h

/-- `-(( 1) + 2)` and `(1+2 )*3`, with anything after them. -/
example (r : Str) : parseText asciiUni ⟨[], c!"-(( 1) + 2)" ++ r, []⟩ = .err (.parseError []) ∧
    parseText asciiUni ⟨[], c!"(1+2 )*3" ++ r, []⟩ = .err (.parseError []) :=
  ⟨C44_spaced lawful_asciiUni (w := []) blank_nil
    (.signed .minus (.inside (.opened (c := ' ') (r := c!"1) + 2)" ++ r) (by unfold Ws; decide)))) rfl,
  C44_spaced lawful_asciiUni (w := []) (z := c!"(1+2 )*3" ++ r) blank_nil
    (.closed (e := onePlusTwo [] []) (w := c!" ") (r := c!"*3" ++ r) (onePlusTwo_ok blank_nil blank_nil) rfl
      (blank_ws (by unfold Ws; decide)) (by decide)) rfl⟩

end SM.Props
