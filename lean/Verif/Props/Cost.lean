import Verif.Peg.Cost
import Verif.Props.Lang
import Mathlib.Tactic.Ring
/-
How much work parsing is (C58).  The parser tries the alternatives of a rule one after the other and keeps nothing
of what it found out before.  Two rules begin several alternatives with the same thing: an index in square brackets
is read as the start of a span with two colons, as the start of a span with one colon, and as an expression; a name
followed by arguments is read as a call and, if that fails, as the first factor of a product.
-/
namespace SM.Props
open SM SM.Peg

/-! ### Counting does not depend on the fuel -/

section
variable {R : Type} {g : R → PE R} {u : Uni}

theorem calls_mono : ∀ (n : Nat) (e : PE R) (v : Env) (s : St R),
    calls g u n e v s ≤ calls g u (n + 1) e v s := by
  intro n
  induction n with
  | zero => intro e v s; exact Nat.zero_le _
  | succ n ih =>
    intro e v s
    have key : ∀ e v s, run g u n e v s ≠ .crash → run g u (n + 1) e v s = run g u n e v s :=
      fun e v s hc => run_mono n e v s _ rfl hc
    cases e with
    | call r => rw [calls, calls]; exact Nat.add_le_add_left (ih _ _ _) 1
    | rule r e =>
      rw [calls, calls]
      split
      · exact ih _ _ _
      · exact ih _ _ _
    | ifNon e =>
      rw [calls, calls]
      split
      · exact ih _ _ _
      · exact Nat.le_refl _
    | rep e =>
      rw [calls, calls]
      refine Nat.add_le_add (ih _ _ _) ?_
      by_cases hc : run g u n e v s = .crash
      · rw [hc]; exact Nat.zero_le _
      · rw [key _ _ _ hc]
        split
        · exact ih _ _ _
        · exact Nat.le_refl _
    | alt a b =>
      rw [calls, calls]
      refine Nat.add_le_add (ih _ _ _) ?_
      by_cases hc : run g u n a v s = .crash
      · rw [hc]; exact Nat.zero_le _
      · rw [key _ _ _ hc]
        split
        · exact ih _ _ _
        · exact Nat.le_refl _
    | cat a b =>
      rw [calls, calls]
      refine Nat.add_le_add (ih _ _ _) ?_
      by_cases hc : run g u n a v s = .crash
      · rw [hc]; exact Nat.zero_le _
      · rw [key _ _ _ hc]
        split
        · exact ih _ _ _
        · exact Nat.le_refl _
    | atomic a e => rw [calls, calls]; exact ih _ _ _
    | seq e => rw [calls, calls]; exact ih _ _ _
    | opt e => rw [calls, calls]; exact ih _ _ _
    | restore e => rw [calls, calls]; exact ih _ _ _
    | look p e => rw [calls, calls]; exact ih _ _ _
    | push e => rw [calls, calls]; exact ih _ _ _
    | _ => exact Nat.le_refl _

theorem calls_mono' {n m : Nat} (h : n ≤ m) (e : PE R) (v : Env) (s : St R) :
    calls g u n e v s ≤ calls g u m e v s := by
  induction h with
  | refl => exact Nat.le_refl _
  | step _ ih => exact Nat.le_trans ih (calls_mono _ _ _ _)

/-- Once the result does not depend on the fuel, neither does the count. -/
theorem calls_stable : ∀ (n : Nat) (e : PE R) (v : Env) (s : St R), run g u n e v s ≠ .crash →
    calls g u (n + 1) e v s = calls g u n e v s := by
  intro n
  induction n with
  | zero => intro e v s h; exact absurd rfl h
  | succ n ih =>
    intro e v s h
    have key : ∀ e v s, run g u n e v s ≠ .crash → run g u (n + 1) e v s = run g u n e v s :=
      fun e v s hc => run_mono n e v s _ rfl hc
    cases e with
    | call r => rw [calls, calls]; rw [run] at h; rw [ih _ _ _ h]
    | rule r e =>
      rw [run] at h
      rw [calls, calls]
      split
      · rw [if_pos ‹_›] at h
        exact ih _ _ _ fun hc => h (by rw [hc]; rfl)
      · rw [if_neg ‹_›] at h
        exact ih _ _ _ h
    | ifNon e =>
      rw [run] at h
      rw [calls, calls]
      split
      · rw [if_pos ‹_›] at h
        exact ih _ _ _ h
      · rfl
    | rep e =>
      rw [run] at h
      rw [calls, calls]
      have hc : run g u n e v s ≠ .crash := fun hc => h (by rw [hc])
      rw [key _ _ _ hc, ih _ _ _ hc]
      congr 1
      split
      · rename_i t ht
        rw [ht] at h
        exact ih _ _ _ h
      · rfl
    | alt a b =>
      rw [run] at h
      rw [calls, calls]
      have hc : run g u n a v s ≠ .crash := fun hc => h (by rw [hc]; rfl)
      rw [key _ _ _ hc, ih _ _ _ hc]
      congr 1
      split
      · rename_i t ht
        rw [ht] at h
        exact ih _ _ _ h
      · rfl
    | cat a b =>
      rw [run] at h
      rw [calls, calls]
      have hc : run g u n a v s ≠ .crash := fun hc => h (by rw [hc]; rfl)
      rw [key _ _ _ hc, ih _ _ _ hc]
      congr 1
      split
      · rename_i t ht
        rw [ht] at h
        exact ih _ _ _ h
      · rfl
    | atomic a e => rw [calls, calls]; exact ih _ _ _ h
    | seq e => rw [run] at h; rw [calls, calls]; exact ih _ _ _ fun hc => h (by rw [hc]; rfl)
    | opt e => rw [run] at h; rw [calls, calls]; exact ih _ _ _ fun hc => h (by rw [hc]; rfl)
    | restore e => rw [run] at h; rw [calls, calls]; exact ih _ _ _ fun hc => h (by rw [hc]; rfl)
    | look p e => rw [run] at h; rw [calls, calls]; exact ih _ _ _ fun hc => h (by rw [hc]; cases p <;> rfl)
    | push e => rw [run] at h; rw [calls, calls]; exact ih _ _ _ fun hc => h (by rw [hc]; rfl)
    | _ => rfl

theorem calls_stable' {n m : Nat} (hnm : n ≤ m) {e : PE R} {v : Env} {s : St R} (h : run g u n e v s ≠ .crash) :
    calls g u m e v s = calls g u n e v s := by
  induction hnm with
  | refl => rfl
  | step hk ih =>
    rw [← ih]
    exact calls_stable _ _ _ _ (by rw [run_mono' hk h]; exact h)

end

/-! ### Lower bounds -/

variable {u : Uni} {v : Env}

/-- On the text, from whatever position, `e` takes at least `k` calls. -/
def Takes (u : Uni) (v : Env) (e : PE R) (txt : Str) (k : Nat) : Prop :=
  ∀ pos stack queue, ∃ n, k ≤ calls grammar u n e v ⟨pos, txt, stack, queue⟩

theorem takes_zero (e : PE R) (txt : Str) : Takes u v e txt 0 := fun _ _ _ => ⟨0, Nat.zero_le _⟩

theorem takes_call {r : R} {txt : Str} {k : Nat} (h : Takes u v (grammar r) txt k) : Takes u v (.call r) txt (1 + k) := by
  intro pos stack queue
  obtain ⟨n, h⟩ := h pos stack queue
  exact ⟨n + 1, by rw [calls]; omega⟩

theorem Takes.le {e : PE R} {txt : Str} {k j : Nat} (h : Takes u v e txt k) (hj : j ≤ k) : Takes u v e txt j := by
  intro pos stack queue
  obtain ⟨n, h⟩ := h pos stack queue
  exact ⟨n, Nat.le_trans hj h⟩

theorem takes_call' {r : R} {txt : Str} {k : Nat} (h : Takes u v (grammar r) txt k) : Takes u v (.call r) txt k :=
  (takes_call h).le (by omega)

theorem takes_rule {r : R} {e : PE R} {txt : Str} {k : Nat} (h : Takes u v e txt k) : Takes u v (.rule r e) txt k := by
  intro pos stack queue
  obtain ⟨n, h1⟩ := h pos stack []
  obtain ⟨m, h2⟩ := h pos stack queue
  by_cases he : v.emits = true
  · exact ⟨n + 1, by rw [calls, if_pos he]; exact h1⟩
  · exact ⟨m + 1, by rw [calls, if_neg he]; exact h2⟩

theorem takes_atomic {a : Atomicity} {e : PE R} {txt : Str} {k : Nat} (h : Takes u { v with atomicity := a } e txt k) :
    Takes u v (.atomic a e) txt k := by
  intro pos stack queue
  obtain ⟨n, h⟩ := h pos stack queue
  exact ⟨n + 1, by rw [calls]; exact h⟩

theorem takes_seq {e : PE R} {txt : Str} {k : Nat} (h : Takes u v e txt k) : Takes u v (.seq e) txt k := by
  intro pos stack queue
  obtain ⟨n, h⟩ := h pos stack queue
  exact ⟨n + 1, by rw [calls]; exact h⟩

theorem takes_opt {e : PE R} {txt : Str} {k : Nat} (h : Takes u v e txt k) : Takes u v (.opt e) txt k := by
  intro pos stack queue
  obtain ⟨n, h⟩ := h pos stack queue
  exact ⟨n + 1, by rw [calls]; exact h⟩

theorem takes_restore {e : PE R} {txt : Str} {k : Nat} (h : Takes u v e txt k) : Takes u v (.restore e) txt k := by
  intro pos stack queue
  obtain ⟨n, h⟩ := h pos stack queue
  exact ⟨n + 1, by rw [calls]; exact h⟩

theorem takes_rep {e : PE R} {txt : Str} {k : Nat} (h : Takes u v e txt k) : Takes u v (.rep e) txt k := by
  intro pos stack queue
  obtain ⟨n, h⟩ := h pos stack queue
  exact ⟨n + 1, by rw [calls]; omega⟩

theorem takes_first {a b : PE R} {txt : Str} {k : Nat} (h : Takes u v a txt k) : Takes u v (.cat a b) txt k := by
  intro pos stack queue
  obtain ⟨n, h⟩ := h pos stack queue
  exact ⟨n + 1, by rw [calls]; omega⟩

theorem takes_then {a b : PE R} {x rest : Str} {P : List (Pair R) → Prop} {k : Nat} (h : Eats u v a x rest P)
    (hb : Takes u v b rest k) : Takes u v (.cat a b) (x ++ rest) k := by
  intro pos stack queue
  obtain ⟨q, _, hs⟩ := h pos stack queue
  obtain ⟨n, hn⟩ := sem_settles grammar u a v ⟨pos, x ++ rest, stack, queue⟩
  obtain ⟨m, hm⟩ := hb (pos + x.length) stack (queue ++ q)
  refine ⟨max n m + 1, ?_⟩
  rw [calls, hn _ (Nat.le_max_left _ _), hs]
  have := calls_mono' (g := grammar) (u := u) (Nat.le_max_right n m) b v ⟨pos + x.length, rest, stack, queue ++ q⟩
  simp only
  omega

theorem takes_alt {a b : PE R} {txt : Str} {j k : Nat} (ha : Takes u v a txt j) (hf : Fails u v a txt)
    (hb : Takes u v b txt k) : Takes u v (.alt a b) txt (j + k) := by
  intro pos stack queue
  obtain ⟨l, hl⟩ := ha pos stack queue
  obtain ⟨n, hn⟩ := sem_settles grammar u a v ⟨pos, txt, stack, queue⟩
  obtain ⟨m, hm⟩ := hb pos stack queue
  refine ⟨max l (max n m) + 1, ?_⟩
  rw [calls, hn _ (by omega), hf pos stack queue]
  have h1 := calls_mono' (g := grammar) (u := u) (Nat.le_max_left l (max n m)) a v ⟨pos, txt, stack, queue⟩
  have h2 := calls_mono' (g := grammar) (u := u) (show m ≤ max l (max n m) by omega) b v ⟨pos, txt, stack, queue⟩
  simp only
  omega

theorem takes_left {a b : PE R} {txt : Str} {k : Nat} (h : Takes u v a txt k) : Takes u v (.alt a b) txt k := by
  intro pos stack queue
  obtain ⟨n, h⟩ := h pos stack queue
  exact ⟨n + 1, by rw [calls]; omega⟩

theorem takes_right {a b : PE R} {txt : Str} {k : Nat} (hf : Fails u v a txt) (hb : Takes u v b txt k) :
    Takes u v (.alt a b) txt k := (takes_alt (takes_zero a txt) hf hb).le (by omega)

/-- The number of calls that parsing the text takes. -/
def parseCalls (u : Uni) (input : Str) : Nat :=
  calls grammar u (parseFuel input) (.call .program) Env.init (St.init input)

theorem calls_parse {input : Str} {k : Nat}
    (h : ∃ n, k ≤ calls grammar u n (.call .program) Env.init (St.init input)) : k ≤ parseCalls u input := by
  obtain ⟨n, hn⟩ := h
  have hc : run grammar u (parseFuel input) (.call .program) Env.init (St.init input) ≠ .crash := by
    intro hc
    have h1 : smParse u .program input = .crash := by rw [smParse, hc]; rfl
    rcases C33_parse_terminates u .program (by decide) input with ⟨l, h⟩ | h <;> rw [h] at h1 <;> cases h1
  rcases Nat.le_total n (parseFuel input) with h1 | h1
  · exact Nat.le_trans hn (calls_mono' h1 _ _ _)
  · unfold parseCalls
    rw [← calls_stable' h1 hc]
    exact hn

/-- The work of a program is at least that of the expression it begins with. -/
theorem takes_program (L : Lawful u) {w x z : Str} {k : Nat} (hw : Blank u w)
    (hx : ∃ c r, x = c :: r ∧ (IdStart u c ∨ c ∈ termChars)) (hn : ∀ k ∈ statementWords, strip k (x ++ z) = none)
    (h : Takes u vN (.call .expr) (x ++ z) k) : k ≤ parseCalls u (w ++ (x ++ z)) := by
  obtain ⟨e, he, hf⟩ := statement_fails L hx hn
  have hs : Takes u vN (.call .statement) (x ++ z) k := by
    apply takes_call'
    rw [he]
    exact takes_right hf (takes_restore (takes_call' (takes_rule (takes_seq (takes_first (takes_first h))))))
  obtain ⟨q, _, h1⟩ := eats_skip (v := vN) L rfl hw (term_head_solid L hx z) 0 [] []
  have h0 : sem grammar u (.cat (.call .SOI) (.call .skip)) vN ⟨0, w ++ (x ++ z), [], []⟩ =
      .ok ⟨0 + w.length, x ++ z, [], [] ++ q⟩ := by
    rw [sem_cat, sem_call]
    show (sem grammar u .soi vN ⟨0, w ++ (x ++ z), [], []⟩).andThen _ = _
    rw [sem_soi, if_pos rfl]
    exact h1
  obtain ⟨n, hn⟩ := sem_settles grammar u (.cat (.call .SOI) (.call .skip)) vN ⟨0, w ++ (x ++ z), [], []⟩
  have h2 : Takes u vN (.seq (.opt (.cat (.restore (.call .statement)) (.rep (.seq (.cat (.call .skip)
      (.restore (.call .statement)))))))) (x ++ z) k := takes_seq (takes_opt (takes_first (takes_restore hs)))
  obtain ⟨m, hm⟩ := h2 (0 + w.length) [] ([] ++ q)
  refine calls_parse ⟨max n m + 5, ?_⟩
  rw [calls]
  show k ≤ 1 + calls grammar u _ body_program vN ⟨0, w ++ (x ++ z), [], []⟩
  unfold body_program
  rw [calls, calls, calls, calls, hn _ (Nat.le_max_left _ _), h0]
  have := calls_mono' (g := grammar) (u := u) (Nat.le_max_right n m) (.seq (.opt (.cat (.restore (.call .statement))
    (.rep (.seq (.cat (.call .skip) (.restore (.call .statement)))))))) vN ⟨0 + w.length, x ++ z, [], [] ++ q⟩
  simp only
  omega

/-! ### Nested indices -/

/-- The two kinds of span are given up when no colon follows. -/
theorem span_breaks (L : Lawful u) {solo : Bool} {x r : Str} {d : Option AST} (hx : IsExpr u solo x d)
    (hr : HeadIn itemEnds r) :
    Breaks u vN (.cat (.cat (.opt (.restore (.call .Start))) (.call .skip)) (.call .Colon)) (x ++ r) := by
  have h1 := eats_part (r := .Start) L rfl (some ⟨x, [], solo, d⟩) (z := r) (hr.mono (by decide))
    ⟨hx, blank_nil, item_noPath L blank_nil hr⟩
  have h2 := breaks_cat_right h1 (fails_Colon (item_not_colon hr)).breaks
  simpa [partText] using h2

/-- An index is read three times. -/
theorem takes_index (L : Lawful u) {solo : Bool} {x r : Str} {d : Option AST} {k : Nat} (hx : IsExpr u solo x d)
    (hr : HeadIn itemEnds r) (h : Takes u vN (.call .expr) (x ++ r) k) :
    Takes u vN (.call .index) (x ++ r) (k + k + k) := by
  have hs := span_breaks L hx hr
  have h1 : Takes u vN (.opt (.restore (.call .Start))) (x ++ r) k :=
    takes_opt (takes_restore (takes_call' (takes_rule h)))
  refine takes_call' (takes_rule (takes_alt (takes_alt (takes_seq ?_) (fails_seq ?_) (takes_seq ?_))
    (fails_alt (fails_seq ?_) (fails_seq ?_)) (takes_restore h)))
  · exact takes_first (takes_first (takes_first (takes_first (takes_first (takes_first (takes_first (takes_first h1)))))))
  · exact breaks_cat (breaks_cat (breaks_cat (breaks_cat (breaks_cat (breaks_cat hs)))))
  · exact takes_first (takes_first (takes_first (takes_first h1)))
  · exact breaks_cat (breaks_cat (breaks_cat (breaks_cat (breaks_cat (breaks_cat hs)))))
  · exact breaks_cat (breaks_cat hs)

theorem bracket_ends (t : Str) : Ends u ('[' :: t) :=
  ⟨⟨[], _, rfl, by simp, .inr ⟨'[', t, rfl, by decide⟩⟩, noPath_cons (by decide) (by decide) t,
    fun _ _ _ _ e => nomatch e⟩

/-- An operand with an index. -/
theorem takes_indexed (L : Lawful u) {num solo : Bool} {m x : Str} {d' d : Option AST} {k : Nat}
    (hm : IsNode u num m d') (hx : IsExpr u solo x d) (rest : Str)
    (h : Takes u vN (.call .expr) (x ++ ']' :: rest) k) :
    Takes u vN (.call .expr) (m ++ '[' :: (x ++ ']' :: rest)) (k + k + k) := by
  have hi := takes_index L hx (.inr ⟨']', rest, rfl, by decide⟩) h
  have hsl : Takes u vC (.call .slice) ('[' :: (x ++ ']' :: rest)) (k + k + k) := by
    refine takes_call' (takes_atomic (takes_rule (takes_seq ?_)))
    refine takes_first (takes_first (takes_first (takes_first (takes_first (takes_first ?_)))))
    exact takes_then (x := ['[']) (P := Then Nil Nil) (eats_cat (x := ['[']) (y := []) (eats_str _ _)
      (eats_skip L rfl blank_nil (term_head_solid L hx.head _))) hi
  have hsf : Takes u vC sfx ('[' :: (x ++ ']' :: rest)) (k + k + k) := by
    refine takes_right (fails_Suffix (by intro r e; cases e) (by intro r e; cases e) (by intro r e; cases e))
      (takes_restore (takes_seq ?_))
    refine takes_then (x := []) (eats_hspace L ?_ [] (by simp)) hsl
    intro c r e
    cases e
    exact not_hws L (by decide)
  obtain ⟨c, t, hxe, hc⟩ := hm.head
  have hpre : Fails u vC (.call .Prefix) (m ++ ('[' :: (x ++ ']' :: rest))) := by
    rw [hxe]
    rcases hc with hc | hc
    · exact fails_id L hc (by decide) _
    · have key : ∀ c ∈ operandChars, noStart .Prefix c = true := by decide
      exact fails_plain L (key c hc) _
  have hnode := hm.eats ('[' :: (x ++ ']' :: rest)) (bracket_ends _) (by intro _ c r e; cases e)
  refine takes_call' (takes_atomic (takes_rule (takes_seq (takes_first (takes_first ?_)))))
  refine takes_call' (takes_atomic (takes_rule (takes_seq ?_)))
  exact takes_then (x := m) (eats_cat (x := []) (eats_rep_nil hpre) hnode) (takes_rep hsf)

/-- `m[m[…m[e]…]]` with `n` pairs of brackets. -/
def indexed (m : SNode) (e : SExpr) : Nat → SExpr
  | 0 => e
  | n + 1 => .mk (.mk [] m [.slice [] (.mk false [] (.expr (indexed m e n)) []) [] none]) []

theorem indexed_text (m : SNode) (e : SExpr) (n : Nat) :
    (indexed m e (n + 1)).text = m.text ++ '[' :: ((indexed m e n).text ++ c!"]") := by
  simp [indexed, SExpr.text, STerm.text, sufsText, SSuf.text, SItem.text, SContent.text, itemsText, trailText, stepsText]

theorem indexed_ok {m : SNode} {e : SExpr} (hm : m.Ok u) (he : e.Ok u) : ∀ n, (indexed m e n).Ok u := by
  intro n
  induction n with
  | zero => exact he
  | succ n ih =>
    simp [indexed, SExpr.Ok, STerm.Ok, SufsOk, SSuf.Ok, SItem.Ok, SContent.Ok, ItemsOk, StepsOk, TrailOk, hm, ih,
      SContent.isIndex, blank_nil, sufsText]

theorem takes_nested (L : Lawful u) {m : SNode} {e : SExpr} (hm : m.Ok u) (he : e.Ok u) :
    ∀ n rest, Takes u vN (.call .expr) ((indexed m e n).text ++ rest) (3 ^ n) := by
  intro n
  induction n with
  | zero => exact fun rest => (takes_call (takes_zero _ _)).le (by omega)
  | succ n ih =>
    intro rest
    have := takes_indexed L (SNode.read L m hm) (SExpr.read L _ (indexed_ok hm he n)) rest (ih (']' :: rest))
    rw [indexed_text]
    simp only [List.append_assoc, List.cons_append, List.nil_append]
    exact this.le (by omega)

/-! ### Unfinished calls -/

/-- `p(p(…p(z`, with `n` parentheses. -/
def unclosed (p z : Str) : Nat → Str
  | 0 => z
  | n + 1 => p ++ '(' :: unclosed p z n

/-- The text breaks off here, or something else is opened. -/
def Open (r : Str) : Prop := r = [] ∨ ∃ t, r = '(' :: t

theorem open_head {r : Str} (h : Open r) : HeadIn ['('] r := by
  rcases h with h | ⟨t, h⟩
  · exact .inl h
  · exact .inr ⟨'(', t, h, by decide⟩

theorem open_solid (L : Lawful u) {r : Str} (h : Open r) : Solid u r := solid_head L (open_head h) (by decide)

/-- An argument list with an argument that is neither closed nor continued. -/
theorem fails_apply_open (L : Lawful u) {x r : Str} {P : List (Pair R) → Prop} (hr : Open r) (hs : Solid u (x ++ r))
    (h : Eats u vN (.opt (.restore (.call .apply_kv))) x r P) : Fails u vC (.call .apply) ('(' :: (x ++ r)) := by
  have hk : Eats u vN (.call .skip) [] r Nil := eats_skip L rfl blank_nil (open_solid L hr)
  have hc : Fails u vN (.call .Comma) r := fails_head L (open_head hr) (by decide) (by decide)
  refine fails_call (fails_atomic (fails_rule (fails_seq ?_)))
  have h1 := eats_cat (eats_cat (x := ['(']) (y := []) (eats_str ['('] _) (eats_skip (v := vN) L rfl blank_nil hs)) h
  have h2 := eats_cat h1 (y := []) (rest := r) hk
  have h0 : Eats u vN (sepMany (.call .Comma) (.call .apply_kv)) [] r Nil :=
    eats_seq (eats_opt_nil (fails_cat (fails_restore (fails_seq (breaks_cat (breaks_cat hc.breaks))))))
  have h3 := eats_cat h2 (y := []) (rest := r) h0
  have h4 := eats_cat (eats_cat (eats_cat h3 (y := []) (rest := r) hk) (y := []) (rest := r) (eats_opt_nil hc))
    (y := []) (rest := r) hk
  have h5 := breaks_cat_right h4 (Fails.breaks (fails_str (x := c!")") (by
    rcases hr with rfl | ⟨t, rfl⟩
    · rfl
    · rfl)))
  simp only [List.append_nil, List.cons_append, List.nil_append] at h5
  exact h5

theorem noCont_paren (L : Lawful u) (t : Str) : NoCont u ('(' :: t) := by
  intro c r e
  cases e
  rw [L.plain _ _ (by decide)]
  decide

theorem noPath_paren (t : Str) : NoPath u ('(' :: t) := noPath_cons (by decide) (by decide) t

theorem eats_hspace_paren (L : Lawful u) (t : Str) : Eats u v hspace [] ('(' :: t) Nil :=
  eats_hspace L (by
    intro c r e
    cases e
    exact not_hws L (by decide)) [] (by simp)

/-- If the argument list is not one, the name before it is read as an operand. -/
theorem eats_node_open (L : Lawful u) {p : Path} (hp : p.Ok u) (hf : p.Free) {t : Str}
    (h : Fails u vC (.call .apply) ('(' :: t)) : Eats u vC (.call .node) p.text ('(' :: t) fun _ => True := by
  have hc := noCont_paren L t
  have hn := noPath_paren (u := u) t
  have hb : Breaks u vC (.cat hspace (.call .apply)) ('(' :: t) :=
    breaks_cat_right (x := []) (eats_hspace_paren L t) h.breaks
  obtain ⟨c, r, hx, hc'⟩ := hp.start
  have hd : Eats u vC (.call .data) p.text ('(' :: t) (Den .data buildData (some (.mkSymbol p.text))) := by
    refine eats_data_of rfl (eats_alt_right (fails_alt (fails_alt (fails_alt (fails_alt (fails_alt (fails_alt
      (fails_restore ?_) (fails_restore ?_)) (fails_Special ?_)) ?_) ?_) ?_)
      (fails_restore (fails_String_path L hp hc (by intro r e; cases e))))
      (eats_Symbol L hp hc hn rfl)) ?_
    · rw [hx]; exact fails_id L hc' (by decide) _
    · rw [hx]; exact fails_id L hc' (by decide) _
    · intro k hk
      rw [Path.text, List.append_assoc]
      refine strip_word (keyword_cont L ?_) (hf k hk) (noCont_more L _ hc)
      have key : ∀ k ∈ constants, ∀ c ∈ k, 'a' ≤ c ∧ c ≤ 'z' := by decide
      exact key k hk
    · rw [hx]; exact fails_id L hc' (by decide) _
    · rw [hx]; exact fails_id L hc' (by decide) _
    · rw [hx]; exact fails_id L hc' (by decide) _
    · rintro q ⟨a', b', l, rfl, _⟩
      exact ⟨_, rfl, fun c a b => by simp [buildData, Pair.rule, Pair.text, AST.mkSymbol, erase]⟩
  refine (eats_node_data (id_not_paren L hp.start) (fails_apply_call L hp hc hn hb)
    (fails_derivative L hp hc hn (by intro r e; cases e)) ?_ hd).imp fun _ _ => trivial
  exact fails_space_call (S := ['(']) L rfl (eats_factor_sym L hp hc hn hb)
    ⟨[], _, rfl, by simp, .inr ⟨'(', t, rfl, by decide⟩⟩ (by decide) (by decide)

/-- So is the expression. -/
theorem eats_expr_open (L : Lawful u) {p : Path} (hp : p.Ok u) (hf : p.Free) {t : Str}
    (h : Fails u vC (.call .apply) ('(' :: t)) (hv : v.silent = false) :
    Eats u v (.call .expr) p.text ('(' :: t) fun _ => True := by
  obtain ⟨c, r, hx, hc'⟩ := hp.start
  have hpre : Fails u vC (.call .Prefix) (p.text ++ '(' :: t) := by
    rw [hx]; exact fails_id L hc' (by decide) _
  have hsf : Fails u vC sfx ('(' :: t) := by
    refine fails_alt (fails_Suffix (by intro r e; cases e) (by intro r e; cases e) (by intro r e; cases e))
      (fails_restore (fails_seq ?_))
    exact breaks_cat_right (x := []) (eats_hspace_paren L t) (Fails.breaks (fails_plain L (by decide) t))
  have ht : Eats u vN (.call .term) p.text ('(' :: t) fun _ => True := by
    have h1 := eats_cat (eats_cat (x := []) (eats_rep_nil hpre) (eats_node_open L hp hf h)) (y := [])
      (rest := '(' :: t) (eats_rep_nil hsf)
    exact ((eats_call (eats_atomic (eats_rule (v := vC) rfl (eats_seq h1)))).imp fun _ _ => trivial).cast (by simp)
  have hk : Eats u vN (.call .skip) [] ('(' :: t) Nil :=
    eats_skip L rfl blank_nil (open_solid L (.inr ⟨t, rfl⟩))
  have hi : Fails u vN (.call .Infix) ('(' :: t) := fails_plain L (by decide) t
  have h0 : Eats u vN (sepMany (.call .Infix) (.call .term)) [] ('(' :: t) Nil :=
    eats_seq (eats_opt_nil (fails_cat (fails_restore (fails_seq (breaks_cat (breaks_cat hi.breaks))))))
  have h2 := eats_cat (eats_cat ht (y := []) (rest := '(' :: t) hk) (y := []) (rest := '(' :: t) h0
  obtain ⟨a, b⟩ := v
  simp only at hv
  subst hv
  exact ((eats_call (eats_atomic (eats_rule (v := vN) rfl (eats_seq h2)))).imp fun _ _ => trivial).cast (by simp)

theorem kv_open (L : Lawful u) {p : Path} (hp : p.Ok u) (t : Str) : Fails u vN kvAlt (p.text ++ '(' :: t) :=
  noCont_path_kv L hp (noCont_paren L t) ⟨[], _, rfl, blank_nil, open_solid L (.inr ⟨t, rfl⟩), by
    intro c r e; cases e; decide⟩

theorem strip_paren {x : Str} (h : ∀ t, x ≠ '(' :: t) : strip c!"(" x = none := by
  cases x with
  | nil => rfl
  | cons c r =>
    have : '(' ≠ c := fun e => h r (by rw [e])
    simp [strip, this]

/-- Where a text may break off: right after the parenthesis or after an expression. -/
def Cut (u : Uni) (z : Str) : Prop := z = [] ∨ ∃ solo d, IsExpr u solo z d

theorem Cut.kv (L : Lawful u) {z : Str} (h : Cut u z) : Fails u vN kvAlt z := by
  rcases h with rfl | ⟨solo, d, h⟩
  · exact fails_kv_plain L (by intro c r e; cases e)
  · have := h.kv [] [] blank_nil (stop_close L (.inl rfl)) (follow_close L blank_nil (.inl rfl))
      ⟨[], [], rfl, blank_nil, close_solid L (.inl rfl), by intro c r e; cases e⟩
    simpa using this

/-- No argument list is complete. -/
theorem unclosed_fails (L : Lawful u) {p : Path} (hp : p.Ok u) (hf : p.Free) {z : Str} (hz : Cut u z) :
    ∀ n, Fails u vC (.call .apply) ('(' :: unclosed p.text z n) := by
  intro n
  induction n with
  | zero =>
    rcases hz with rfl | ⟨solo, d, h⟩
    · exact fails_apply_open (x := []) (r := []) L (.inl rfl) (open_solid L (.inl rfl))
        (eats_opt_nil (fails_restore (fails_nil (by decide))))
    · have h1 := (arg_pos L h).eats [] [] blank_nil (.inl rfl)
      have e1 : taken solo [] = [] ∧ left solo [] = [] := by cases solo <;> exact ⟨rfl, rfl⟩
      rw [e1.1, e1.2, List.append_nil] at h1
      have h2 := fails_apply_open L (.inl rfl) (term_head_solid L h.head []) (eats_opt (eats_restore h1))
      simpa [unclosed] using h2
  | succ n ih =>
    have he := eats_expr_open (v := vN) L hp hf ih rfl
    refine fails_apply_open L (.inr ⟨_, rfl⟩) ?_ (eats_opt (eats_restore (eats_call (eats_rule (v := vN) rfl
      (eats_alt_right (kv_open L hp _) (eats_restore he))))))
    obtain ⟨c, r, hx, hc'⟩ := hp.start
    exact term_head_solid L ⟨c, r, hx, .inl hc'⟩ _

/-- Every call is tried twice. -/
theorem takes_unclosed (L : Lawful u) {p : Path} (hp : p.Ok u) (hf : p.Free) {z : Str} (hz : Cut u z) :
    ∀ n, Takes u vN (.call .expr) (unclosed p.text z n) (2 ^ n) := by
  intro n
  induction n with
  | zero => exact (takes_call (takes_zero _ _)).le (by omega)
  | succ n ih =>
    rw [unclosed]
    have hfail := unclosed_fails L hp hf hz n
    have hc := noCont_paren L (unclosed p.text z n)
    have hn := noPath_paren (u := u) (unclosed p.text z n)
    have hb : Breaks u vC (.cat hspace (.call .apply)) ('(' :: unclosed p.text z n) :=
      breaks_cat_right (x := []) (eats_hspace_paren L _) hfail.breaks
    have hkv : Fails u vN kvAlt (unclosed p.text z n) := by
      cases n with
      | zero => exact hz.kv L
      | succ n => exact kv_open L hp _
    have hsol : Solid u (unclosed p.text z n) := by
      obtain ⟨c, r, hx, hc'⟩ := hp.start
      cases n with
      | zero =>
        rcases hz with rfl | ⟨solo, d, h⟩
        · exact open_solid L (.inl rfl)
        · have := term_head_solid L h.head []
          simpa [unclosed] using this
      | succ n => exact term_head_solid L ⟨c, r, hx, .inl hc'⟩ _
    have hap : Takes u vC (.call .apply) ('(' :: unclosed p.text z n) (2 ^ n) := by
      refine takes_call' (takes_atomic (takes_rule (takes_seq ?_)))
      refine takes_first (takes_first (takes_first (takes_first (takes_first (takes_first ?_)))))
      refine takes_then (x := ['(']) (P := Then Nil Nil) (eats_cat (x := ['(']) (y := []) (eats_str _ _)
        (eats_skip L rfl blank_nil hsol)) ?_
      exact takes_opt (takes_restore (takes_call' (takes_rule (takes_right hkv (takes_restore ih)))))
    have hcall : Takes u vC (.call .apply_call) (p.text ++ '(' :: unclosed p.text z n) (2 ^ n) := by
      refine takes_call' (takes_atomic (takes_rule (takes_seq (takes_first ?_))))
      refine takes_then (eats_Symbol L hp hc hn rfl) (takes_seq ?_)
      exact takes_then (x := []) (eats_hspace_paren L _) hap
    have hspace : Takes u vC (.call .space_call) (p.text ++ '(' :: unclosed p.text z n) (2 ^ n) := by
      refine takes_call' (takes_atomic (takes_rule (takes_seq (takes_first (takes_first ?_)))))
      exact takes_left (takes_left (takes_restore hcall))
    obtain ⟨c, r, hx, hc'⟩ := hp.start
    have hpar : Fails u vC (.restore (.seq (.cat (.cat (.cat (.cat (.str c!"(") (.call .skip)) (.call .expr)) (.call .skip))
        (.str c!")")))) (p.text ++ '(' :: unclosed p.text z n) := by
      refine fails_restore (fails_seq (breaks_cat (breaks_cat (breaks_cat (breaks_cat (Fails.breaks (fails_str ?_)))))))
      exact strip_paren (id_not_paren L hp.start)
    have hnode : Takes u vC (.call .node) (p.text ++ '(' :: unclosed p.text z n) (2 ^ n + 2 ^ n) := by
      refine takes_call' (takes_rule (takes_left (takes_alt (takes_left (takes_right hpar (takes_restore hcall)))
        ?_ (takes_restore hspace))))
      exact fails_alt (fails_alt hpar (fails_restore (fails_apply_call L hp hc hn hb)))
        (fails_restore (fails_derivative L hp hc hn (by intro r e; cases e)))
    have hpre : Fails u vC (.call .Prefix) (p.text ++ '(' :: unclosed p.text z n) := by
      rw [hx]; exact fails_id L hc' (by decide) _
    refine (takes_call' (takes_atomic (takes_rule (takes_seq (takes_first (takes_first ?_)))))).le
      (j := 2 ^ (n + 1)) (k := 2 ^ n + 2 ^ n) (by omega)
    refine takes_call' (takes_atomic (takes_rule (takes_seq (takes_first ?_))))
    exact takes_then (x := []) (eats_rep_nil hpre) hnode

/-! ### They are refused -/

theorem unclosed_paren (L : Lawful u) {p : Path} (hp : p.Ok u) (hf : p.Free) {z : Str} (hz : Cut u z) (n : Nat) :
    Fails u vC (.call .node) ('(' :: unclosed p.text z n) := by
  refine fails_call (fails_rule (fails_alt (fails_alt (fails_alt (fails_alt (fails_restore (fails_seq ?_))
    (fails_restore (fails_plain L (by decide) _))) (fails_restore (fails_plain L (by decide) _)))
    (fails_restore (fails_plain L (by decide) _))) (fails_restore (fails_plain L (by decide) _))))
  have h0 : ∀ t, Eats u vC (.cat (.str c!"(") (.call .skip)) ['('] t (Then Nil Nil) := fun t =>
    eats_cat (x := ['(']) (y := []) (eats_str _ t) (eats_skip_off (by decide) t)
  cases n with
  | zero =>
    rcases hz with rfl | ⟨solo, d, h⟩
    · exact breaks_cat (breaks_cat (breaks_cat_right (x := ['(']) (h0 []) (Fails.breaks (fails_nil (by decide)))))
    · have h1 := h.eats vC rfl [] [] blank_nil (stop_close L (.inl rfl)) (follow_close L blank_nil (.inl rfl))
      have e1 : taken solo [] = [] ∧ left solo [] = [] := by cases solo <;> exact ⟨rfl, rfl⟩
      rw [e1.1, e1.2, List.append_nil] at h1
      have h2 := breaks_cat_right (eats_cat (eats_cat (h0 _) h1) (y := []) (rest := []) (eats_skip_off (by decide) _))
        (Fails.breaks (fails_str (x := c!")") rfl))
      simp only [List.append_nil, List.cons_append, List.nil_append] at h2
      exact h2
  | succ n =>
    have h1 := eats_expr_open (v := vC) L hp hf (unclosed_fails L hp hf hz n) rfl
    have h2 := breaks_cat_right (eats_cat (eats_cat (h0 _) h1) (y := []) (rest := '(' :: unclosed p.text z n)
      (eats_skip_off (by decide) _)) (Fails.breaks (fails_str (x := c!")") rfl))
    simp only [List.append_nil, List.cons_append, List.nil_append] at h2
    exact h2

theorem words_paren (t : Str) : ∀ k ∈ statementWords, strip k ('(' :: t) = none := by
  intro k hk
  have key : ∀ k ∈ statementWords, k ≠ [] ∧ k.head? ≠ some '(' := by decide
  obtain ⟨h1, h2⟩ := key k hk
  cases k with
  | nil => exact absurd rfl h1
  | cons c k =>
    have : c ≠ '(' := fun e => h2 (by rw [e]; rfl)
    simp [strip, this]

theorem unclosed_statement (L : Lawful u) {p : Path} (hp : p.Ok u) (hf : p.Free) {z : Str} (hz : Cut u z) (n : Nat) :
    Fails u vN (.call .statement) ('(' :: unclosed p.text z n) := by
  obtain ⟨e, he, hs⟩ := statement_fails (x := ['(']) (z := unclosed p.text z n) L ⟨'(', [], rfl, .inr (by decide)⟩
    (words_paren _)
  apply fails_call
  rw [he]
  refine fails_alt hs (fails_restore (fails_call (fails_rule (fails_seq (breaks_cat (breaks_cat (Fails.breaks
    (fails_call (fails_atomic (fails_rule (fails_seq (breaks_cat (breaks_cat (Fails.breaks (fails_call (fails_atomic
    (fails_rule (fails_seq (breaks_cat ?_)))))))))))))))))))
  exact breaks_cat_right (x := []) (eats_rep_nil (fails_plain L (by decide) _)) (unclosed_paren L hp hf hz n).breaks

theorem unclosed_refused (L : Lawful u) {p : Path} (hp : p.Ok u) (hf : p.Free) (hn : Wordless p.text) {z : Str}
    (hz : Cut u z) {w : Str} (hw : Blank u w) (n : Nat) :
    smParse u .program (w ++ unclosed p.text z (n + 1)) = .error := by
  rw [unclosed]
  have hstart : ∃ c r, p.text = c :: r ∧ (IdStart u c ∨ c ∈ termChars) := by
    obtain ⟨c, r, hx, hc'⟩ := hp.start
    exact ⟨c, r, hx, .inl hc'⟩
  have hk : Eats u vN (.call .skip) [] ('(' :: unclosed p.text z n) Nil :=
    eats_skip L rfl blank_nil (open_solid L (.inr ⟨_, rfl⟩))
  have h1 := eats_expr_open (v := vN) L hp hf (unclosed_fails L hp hf hz n) rfl
  have h2 : Eats u vN (.call .expression) p.text ('(' :: unclosed p.text z n) fun _ => True := by
    have := eats_cat (eats_cat h1 (y := []) (rest := '(' :: unclosed p.text z n) hk) (y := [])
      (rest := '(' :: unclosed p.text z n) (eats_opt_nil (e := .call .eos) (fails_plain L (by decide) _))
    exact ((eats_call (eats_rule (v := vN) rfl (eats_seq this))).imp fun _ _ => trivial).cast (by simp)
  have h3 := eats_statement L hstart (z := '(' :: unclosed p.text z n)
    (fun k hk => strip_more (noCont_paren L _) (words_cont L k hk) (hn k hk)) h2
  have h4 : Eats u vN (.seq (.opt (.cat (.restore (.call .statement)) (.rep (.seq (.cat (.call .skip)
      (.restore (.call .statement)))))))) p.text ('(' :: unclosed p.text z n) fun _ => True := by
    have := eats_cat (eats_restore h3) (y := []) (rest := '(' :: unclosed p.text z n) (eats_rep_nil
      (e := .seq (.cat (.call .skip) (.restore (.call .statement)))) (fails_seq
      (breaks_cat_right (x := []) hk (fails_restore (unclosed_statement L hp hf hz n)).breaks)))
    exact ((eats_seq (eats_opt this)).imp fun _ _ => trivial).cast (by simp)
  have h5 := breaks_cat_right (eats_cat (eats_cat (eats_skip (v := vN) L rfl hw
    (term_head_solid L hstart ('(' :: unclosed p.text z n))) h4) (y := []) (rest := '(' :: unclosed p.text z n) hk)
    (Fails.breaks (fails_call (r := .EOI) (fails_rule (fails_eoi (txt := unclosed p.text z n)))))
  simp only [List.append_nil, List.append_assoc] at h5
  obtain ⟨pos', txt', queue', hs⟩ := h5 0 [] []
  rw [smParse_eq u .program (by decide), sem_call]
  show Parsed.ofRes (sem grammar u body_program vN ⟨0, w ++ (p.text ++ '(' :: unclosed p.text z n), [], []⟩) = _
  unfold body_program
  rw [sem_seq, sem_cat_front, sem_cat, sem_call]
  show Parsed.ofRes (((sem grammar u .soi vN ⟨0, w ++ (p.text ++ '(' :: unclosed p.text z n), [], []⟩).andThen _).mapBoth
    _ _) = _
  rw [sem_soi, if_pos rfl]
  simp only [Res.andThen]
  rw [hs]
  simp [Res.mapBoth, Parsed.ofRes]

/-! ### C58 -/

/-- What an operand with one index means. -/
theorem indexed_value (m : SNode) (e : SExpr) (n : Nat) :
    (indexed m e (n + 1)).value = m.value.bind (indexBy [(indexed m e n).value]) := by
  rw [indexed, SExpr.value, stepsValue]
  show STerm.value _ = _
  rw [STerm.value]
  simp [sufsApply, SSuf.apply, SItem.value, SContent.value, itemsValue, preFold]

/-- **C58**.  Nested indices take exponentially many calls: an expression within `n` pairs of index brackets is read
correctly, in no fewer than `3 ^ n` calls of parser functions, whatever the operand, the expression and the blank
space around the text. -/
theorem C58_nested_indices (L : Lawful u) (c : Cfg) {m : SNode} {e : SExpr} (hm : m.Ok u) (he : e.Ok u) (n : Nat)
    (hn : Wordless (indexed m e n).text) {w w' : Str} (hw : Blank u w) (hw' : Blank u w')
    (hc : c.input = w ++ ((indexed m e n).text ++ w')) :
    eraseR (parseText u c) = answer (indexed m e n).value ∧ 3 ^ n ≤ parseCalls u c.input := by
  have hr := SExpr.read L _ (indexed_ok hm he n)
  refine ⟨C53_expressions L c _ (indexed_ok hm he n) hn hw hw' hc, ?_⟩
  rw [hc]
  have hw0 : NoCont u w' := by
    have := noCont_blank L hw' (noCont_close (z := []) L (.inl rfl))
    rwa [List.append_nil] at this
  exact takes_program L hw hr.head (fun k hk => strip_more hw0 (words_cont L k hk) (hn k hk)) (takes_nested L hm he n w')

/-- **C58**.  A text that breaks off within `n + 1` calls is refused, after no fewer than `2 ^ (n + 1)` calls of
parser functions. -/
theorem C58_unfinished_calls (L : Lawful u) (c : Cfg) {p : Path} (hp : p.Ok u) (hf : p.Free) (hn : Wordless p.text)
    {e : Option SExpr} (he : ∀ e', e = some e' → e'.Ok u) {w : Str} (hw : Blank u w) (n : Nat)
    (hc : c.input = w ++ unclosed p.text ((e.map SExpr.text).getD []) (n + 1)) :
    parseText u c = .err (.parseError c.errorText) ∧ 2 ^ (n + 1) ≤ parseCalls u c.input := by
  have hz : Cut u ((e.map SExpr.text).getD []) := by
    cases e with
    | none => exact .inl rfl
    | some e' => exact .inr ⟨_, _, SExpr.read L e' (he e' rfl)⟩
  constructor
  · rw [parseText, hc, unclosed_refused L hp hf hn hz hw n]
  · have := takes_unclosed L hp hf hz (n + 1)
    rw [hc]
    rw [unclosed] at this ⊢
    have hstart : ∃ c r, p.text = c :: r ∧ (IdStart u c ∨ c ∈ termChars) := by
      obtain ⟨c, r, hx, hc'⟩ := hp.start
      exact ⟨c, r, hx, .inl hc'⟩
    exact takes_program L hw hstart (fun k hk => strip_more (noCont_paren L _) (words_cont L k hk) (hn k hk)) this

/-- The name `a` as an operand. -/
def nameA : SNode := .atom (.sym ⟨c!"a", []⟩)

theorem ident_letter (L : Lawful u) {x : Char} (h : Plain x) (h' : asciiUni .xidStart x = true) : IsIdent u [x] :=
  .inl ⟨x, [], rfl, by rw [L.plain _ _ h]; exact h', by simp⟩

theorem nameA_ok (L : Lawful u) : nameA.Ok u := by
  rw [nameA, SNode.Ok]
  exact ⟨⟨ident_letter L (by decide) (by decide), by simp⟩, by unfold Path.Free; decide⟩

theorem nested_value (n : Nat) : ∃ a, (indexed nameA (SExpr.node nameA) n).value = some a := by
  induction n with
  | zero => exact ⟨_, rfl⟩
  | succ n ih =>
    obtain ⟨a, ih⟩ := ih
    rw [indexed_value, ih]
    exact ⟨_, rfl⟩

theorem nested_length (n : Nat) : (indexed nameA (SExpr.node nameA) n).text.length = 3 * n + 1 := by
  induction n with
  | zero => rw [indexed, node_text]; rfl
  | succ n ih =>
    rw [indexed_text]
    simp only [List.length_append, List.length_cons, List.length_nil, ih]
    have : nameA.text.length = 1 := rfl
    omega

theorem unclosed_length (p : Str) (n : Nat) : (unclosed p [] n).length = n * (p.length + 1) := by
  induction n with
  | zero => simp [unclosed]
  | succ n ih => simp only [unclosed, List.length_append, List.length_cons, ih]; ring

/-- **C58**.  For every `n` there is an accepted text of `3 * n + 1` characters that takes at least `3 ^ n` calls. -/
theorem C58_accepted (L : Lawful u) (file err : Str) (n : Nat) :
    ∃ input : Str, input.length = 3 * n + 1 ∧ (∃ a, parseText u ⟨file, input, err⟩ = .ok a) ∧
      3 ^ n ≤ parseCalls u input := by
  have hw : ∀ n, Wordless (indexed nameA (SExpr.node nameA) n).text := by
    intro n k hk
    have key : ∀ k ∈ statementWords, k ≠ [] ∧ k.head? ≠ some 'a' := by decide
    obtain ⟨h1, h2⟩ := key k hk
    obtain ⟨t, ht⟩ : ∃ t, (indexed nameA (SExpr.node nameA) n).text = 'a' :: t := by
      cases n with
      | zero => rw [indexed, node_text]; exact ⟨_, rfl⟩
      | succ n => rw [indexed_text]; exact ⟨_, rfl⟩
    cases k with
    | nil => exact absurd rfl h1
    | cons c k =>
      have : c ≠ 'a' := fun e => h2 (by rw [e]; rfl)
      simp [ht, strip, this]
  have he : (SExpr.node nameA).Ok u := indexed_ok (e := SExpr.node nameA) (nameA_ok L) (by
    simp [SExpr.node, SExpr.Ok, STerm.Ok, SufsOk, StepsOk, nameA_ok L]) 0
  obtain ⟨h1, h2⟩ := C58_nested_indices L ⟨file, (indexed nameA (SExpr.node nameA) n).text, err⟩ (nameA_ok L) he n (hw n)
    blank_nil blank_nil (by simp)
  obtain ⟨a, ha⟩ := nested_value n
  rw [ha] at h1
  refine ⟨_, nested_length n, ?_, h2⟩
  cases hp : parseText u ⟨file, (indexed nameA (SExpr.node nameA) n).text, err⟩ with
  | ok b => exact ⟨b, rfl⟩
  | err e => rw [hp] at h1; cases h1
  | panic => rw [hp] at h1; cases h1

/-- **C58**.  For every `n > 0` there is a text of `2 * n` characters that is refused after at least `2 ^ n` calls. -/
theorem C58_refused (L : Lawful u) (file err : Str) (n : Nat) (hn : 0 < n) :
    ∃ input : Str, input.length = 2 * n ∧ parseText u ⟨file, input, err⟩ = .err (.parseError err) ∧
      2 ^ n ≤ parseCalls u input := by
  obtain ⟨n, rfl⟩ : ∃ m, n = m + 1 := ⟨n - 1, by omega⟩
  obtain ⟨h1, h2⟩ := C58_unfinished_calls (p := ⟨c!"g", []⟩) (e := none) L ⟨file, unclosed c!"g" [] (n + 1), err⟩
    ⟨ident_letter L (by decide) (by decide), by simp⟩ (by unfold Path.Free; decide) (by unfold Wordless; decide)
    (by intro e' h; cases h) blank_nil n rfl
  refine ⟨_, ?_, h1, h2⟩
  rw [unclosed_length]
  simp only [List.length_cons, List.length_nil]
  omega

/-- Concrete cases: the number of calls for `a[a[a]]` and for `f(f(`. -/
example : parseCalls asciiUni c!"a[a[a]]" = 2131 := by decide +kernel
example : parseCalls asciiUni c!"f(f(" = 1332 := by decide +kernel
/-- Nesting as such is cheap: the same depth in parentheses. -/
example : parseCalls asciiUni c!"((1))" = 339 := by decide +kernel

end SM.Props
