import Verif.Peg.Depth
import Verif.Props.CostUpper
/-
C80: how deeply the functions of the parser call each other.  The depth grows with the nesting of the text and with
nothing else: it is at most a constant number of calls for each of the six signs by way of which parsing can go round in
circles, and nested brackets and calls attain this.
-/
namespace SM.Props
open SM SM.Peg

/-! ### A static bound on the depth -/

section
variable {R : Type}

/-- A bound for the depth up to the next sign, relative to the table `D` for the rules and the allowance `K` for a sign. -/
def deepness (S : List Char) (T : R → Bool) (D : R → Nat) (K : Nat) : PE R → Nat
  | .call r => D r
  | .rule _ e => deepness S T D K e
  | .atomic _ e => deepness S T D K e
  | .ifNon e => deepness S T D K e
  | .seq e => deepness S T D K e
  | .opt e => deepness S T D K e
  | .rep e => deepness S T D K e
  | .alt a b => max (deepness S T D K a) (deepness S T D K b)
  | .cat a b => max (deepness S T D K a) (if passes S T a then deepness S T D K b - K else deepness S T D K b)
  | .restore e => deepness S T D K e
  | .look _ e => deepness S T D K e
  | .push e => deepness S T D K e
  | _ => 0

/-- The depth of an expression on a text. -/
theorem depth_upper (S : List Char) (T : R → Bool) (D : R → Nat) (K : Nat) (g : R → PE R) (u : Uni)
    (hT : ∀ r, T r = true → passes S T (g r) = true) (hD : ∀ r, 1 + deepness S T D K (g r) ≤ D r) :
    ∀ (n : Nat) (e : PE R) (v : Env) (s : St R),
      depth g u n e v s ≤ deepness S T D K e + K * signCount S s.rest := by
  have on := run_onward S (fun _ => true) T g u (by simp) hT
  intro n
  induction n with
  | zero => intro e v s; exact Nat.zero_le _
  | succ n ih =>
    intro e v s
    have later : ∀ {t : St R} (e : PE R), signCount S t.rest ≤ signCount S s.rest →
        depth g u n e v t ≤ deepness S T D K e + K * signCount S s.rest := fun e h =>
      Nat.le_trans (ih e v _) (Nat.add_le_add_left (Nat.mul_le_mul_left K h) _)
    cases e with
    | call r =>
      rw [depth]
      have h1 := ih (g r) v s
      have h2 := hD r
      show _ ≤ D r + _
      omega
    | rule r e =>
      rw [depth]
      split
      · exact ih e v { s with queue := [] }
      · exact ih e v s
    | atomic a e => rw [depth]; exact ih e _ s
    | ifNon e =>
      rw [depth]
      split
      · exact ih e v s
      · exact Nat.zero_le _
    | seq e => rw [depth]; exact ih e _ s
    | opt e => rw [depth]; exact ih e _ s
    | restore e => rw [depth]; exact ih e _ s
    | look p e => rw [depth]; exact ih e _ s
    | push e => rw [depth]; exact ih e _ s
    | rep e =>
      rw [depth]
      refine Nat.max_le.2 ⟨ih e v s, ?_⟩
      cases hr : run g u n e v s with
      | crash => exact Nat.zero_le _
      | err t => exact Nat.zero_le _
      | ok t => exact later (.rep e) ((on n e v s).1 t hr).signs_le
    | alt a b =>
      rw [depth]
      refine Nat.max_le.2 ⟨Nat.le_trans (ih a v s) (Nat.add_le_add_right (Nat.le_max_left _ _) _), ?_⟩
      cases hr : run g u n a v s with
      | crash => exact Nat.zero_le _
      | ok t => exact Nat.zero_le _
      | err t =>
        exact Nat.le_trans (later b ((on n a v s).2 t hr).signs_le) (Nat.add_le_add_right (Nat.le_max_right _ _) _)
    | cat a b =>
      rw [depth]
      refine Nat.max_le.2 ⟨Nat.le_trans (ih a v s) (Nat.add_le_add_right (Nat.le_max_left _ _) _), ?_⟩
      cases hr : run g u n a v s with
      | crash => exact Nat.zero_le _
      | err t => exact Nat.zero_le _
      | ok t =>
        have o := (on n a v s).1 t hr
        refine Nat.le_trans ?_ (Nat.add_le_add_right (Nat.le_max_right _ _) _)
        by_cases hp : passes S T a = true
        · rw [if_pos hp]
          rw [hp] at o
          have h1 := ih b v t
          have h2 : K * (signCount S t.rest + 1) ≤ K * signCount S s.rest := Nat.mul_le_mul_left K o.fewer
          rw [Nat.mul_succ] at h2
          dsimp only
          omega
        · rw [if_neg hp]
          exact later b o.signs_le
    | str x => exact Nat.zero_le _
    | insens x => exact Nat.zero_le _
    | range a b => exact Nat.zero_le _
    | uni p => exact Nat.zero_le _
    | any => exact Nat.zero_le _
    | soi => exact Nat.zero_le _
    | eoi => exact Nat.zero_le _
    | peek => exact Nat.zero_le _
    | pop => exact Nat.zero_le _

/-! ### The depth does not depend on the fuel -/

variable {g : R → PE R} {u : Uni}

theorem depth_mono : ∀ (n : Nat) (e : PE R) (v : Env) (s : St R), depth g u n e v s ≤ depth g u (n + 1) e v s := by
  intro n
  induction n with
  | zero => intro e v s; exact Nat.zero_le _
  | succ n ih =>
    intro e v s
    have key : ∀ e v s, run g u n e v s ≠ .crash → run g u (n + 1) e v s = run g u n e v s :=
      fun e v s hc => run_mono n e v s _ rfl hc
    have two : ∀ {a b c d : Nat}, a ≤ c → b ≤ d → max a b ≤ max c d := fun h h' =>
      Nat.max_le.2 ⟨Nat.le_trans h (Nat.le_max_left _ _), Nat.le_trans h' (Nat.le_max_right _ _)⟩
    cases e with
    | call r => rw [depth, depth]; exact Nat.add_le_add_left (ih _ _ _) 1
    | rule r e =>
      rw [depth, depth]
      split
      · exact ih _ _ _
      · exact ih _ _ _
    | ifNon e =>
      rw [depth, depth]
      split
      · exact ih _ _ _
      · exact Nat.le_refl _
    | rep e =>
      rw [depth, depth]
      refine two (ih _ _ _) ?_
      by_cases hc : run g u n e v s = .crash
      · rw [hc]; exact Nat.zero_le _
      · rw [key _ _ _ hc]
        split
        · exact ih _ _ _
        · exact Nat.le_refl _
    | alt a b =>
      rw [depth, depth]
      refine two (ih _ _ _) ?_
      by_cases hc : run g u n a v s = .crash
      · rw [hc]; exact Nat.zero_le _
      · rw [key _ _ _ hc]
        split
        · exact ih _ _ _
        · exact Nat.le_refl _
    | cat a b =>
      rw [depth, depth]
      refine two (ih _ _ _) ?_
      by_cases hc : run g u n a v s = .crash
      · rw [hc]; exact Nat.zero_le _
      · rw [key _ _ _ hc]
        split
        · exact ih _ _ _
        · exact Nat.le_refl _
    | atomic a e => rw [depth, depth]; exact ih _ _ _
    | seq e => rw [depth, depth]; exact ih _ _ _
    | opt e => rw [depth, depth]; exact ih _ _ _
    | restore e => rw [depth, depth]; exact ih _ _ _
    | look p e => rw [depth, depth]; exact ih _ _ _
    | push e => rw [depth, depth]; exact ih _ _ _
    | _ => exact Nat.le_refl _

theorem depth_mono' {n m : Nat} (h : n ≤ m) (e : PE R) (v : Env) (s : St R) : depth g u n e v s ≤ depth g u m e v s := by
  induction h with
  | refl => exact Nat.le_refl _
  | step _ ih => exact Nat.le_trans ih (depth_mono _ _ _ _)

/-- Once the result does not depend on the fuel, neither does the depth. -/
theorem depth_stable : ∀ (n : Nat) (e : PE R) (v : Env) (s : St R), run g u n e v s ≠ .crash →
    depth g u (n + 1) e v s = depth g u n e v s := by
  intro n
  induction n with
  | zero => intro e v s h; exact absurd rfl h
  | succ n ih =>
    intro e v s h
    have key : ∀ e v s, run g u n e v s ≠ .crash → run g u (n + 1) e v s = run g u n e v s :=
      fun e v s hc => run_mono n e v s _ rfl hc
    cases e with
    | call r => rw [depth, depth]; rw [run] at h; rw [ih _ _ _ h]
    | rule r e =>
      rw [run] at h
      rw [depth, depth]
      split
      · rw [if_pos ‹_›] at h
        exact ih _ _ _ fun hc => h (by rw [hc]; rfl)
      · rw [if_neg ‹_›] at h
        exact ih _ _ _ h
    | ifNon e =>
      rw [run] at h
      rw [depth, depth]
      split
      · rw [if_pos ‹_›] at h
        exact ih _ _ _ h
      · rfl
    | rep e =>
      rw [run] at h
      rw [depth, depth]
      have hc : run g u n e v s ≠ .crash := fun hc => h (by rw [hc])
      rw [key _ _ _ hc, ih _ _ _ hc]
      congr 1
      split
      · rename_i t ht
        rw [ht] at h
        exact ih _ _ _ h
      · rfl
    | alt a b =>
      rw [run] at h
      rw [depth, depth]
      have hc : run g u n a v s ≠ .crash := fun hc => h (by rw [hc]; rfl)
      rw [key _ _ _ hc, ih _ _ _ hc]
      congr 1
      split
      · rename_i t ht
        rw [ht] at h
        exact ih _ _ _ h
      · rfl
    | cat a b =>
      rw [run] at h
      rw [depth, depth]
      have hc : run g u n a v s ≠ .crash := fun hc => h (by rw [hc]; rfl)
      rw [key _ _ _ hc, ih _ _ _ hc]
      congr 1
      split
      · rename_i t ht
        rw [ht] at h
        exact ih _ _ _ h
      · rfl
    | atomic a e => rw [depth, depth]; exact ih _ _ _ h
    | seq e => rw [run] at h; rw [depth, depth]; exact ih _ _ _ fun hc => h (by rw [hc]; rfl)
    | opt e => rw [run] at h; rw [depth, depth]; exact ih _ _ _ fun hc => h (by rw [hc]; rfl)
    | restore e => rw [run] at h; rw [depth, depth]; exact ih _ _ _ fun hc => h (by rw [hc]; rfl)
    | look p e => rw [run] at h; rw [depth, depth]; exact ih _ _ _ fun hc => h (by rw [hc]; cases p <;> rfl)
    | push e => rw [run] at h; rw [depth, depth]; exact ih _ _ _ fun hc => h (by rw [hc]; rfl)
    | _ => rfl

theorem depth_stable' {n m : Nat} (hnm : n ≤ m) {e : PE R} {v : Env} {s : St R} (h : run g u n e v s ≠ .crash) :
    depth g u m e v s = depth g u n e v s := by
  induction hnm with
  | refl => rfl
  | step hk ih =>
    rw [← ih]
    exact depth_stable _ _ _ _ (by rw [run_mono' hk h]; exact h)

end

/-! ### The grammar -/

/-- Bounds for the rules. -/
def gDeep : R → Nat
  | .eos | .comma_or_semi | .ModuleSplit | .annotation_call | .TypeInfix | .Byte | .StringNormal | .StringText |
    .SYMBOL | .Positive | .WHITESPACE | .COMMENT | .Prefix | .Suffix | .Multiply | .Divide => 2
  | .skip | .emptyStatement | .function_name | .list | .Integer | .StringBlock | .Symbol | .REPL | .Infix => 3
  | .use_module_select | .with_trait | .assign_pair | .apply | .function_module | .dict | .Decimal | .String |
    .Slot => 4
  | .use_alias | .assign_name | .define_parameter | .apply_call | .derivative | .slice | .key_valid | .Number => 5
  | .importStatement | .module_tuple | .short_block | .short_annotation | .define_terms | .space_call | .data => 6
  | .«block» | .classStatement | .traitStatement | .extendStatement | .defineStatement | .annotation | .node => 7
  | .block_or_stmt | .term => 8
  | .expr | .type_expr => 9
  | .if_statement | .for_in_loop | .re_control | .apply_kv | .expression | .type_hint | .key_value | .Start | .End |
    .Step => 10
  | .for_statement | .assign_terms | .define_pair | .index => 11
  | .controlFlow | .short_statement | .assignStatement => 12
  | .statement => 13
  | .program => 14
  | _ => 1

theorem gDeep_ok : ∀ r, (gPass r = true → passes turningSigns gPass (grammar r) = true) ∧
    1 + deepness turningSigns gPass gDeep 7 (grammar r) ≤ gDeep r := by
  intro r
  cases r <;> decide +kernel

/-- How deeply the parser functions call each other while the text is parsed. -/
def parseDepth (u : Uni) (input : Str) : Nat :=
  depth grammar u (parseFuel input) (.call .program) Env.init (St.init input)

/-! ### Lower bounds -/

variable {u : Uni} {v : Env}

/-- On the text, from whatever position, `e` leads to calls at least so deep. -/
def Deep (u : Uni) (v : Env) (e : PE R) (txt : Str) (k : Nat) : Prop :=
  ∀ pos stack queue, ∃ n, k ≤ depth grammar u n e v ⟨pos, txt, stack, queue⟩

theorem deep_zero (e : PE R) (txt : Str) : Deep u v e txt 0 := fun _ _ _ => ⟨0, Nat.zero_le _⟩

theorem deep_call {r : R} {txt : Str} {k : Nat} (h : Deep u v (grammar r) txt k) : Deep u v (.call r) txt (k + 1) := by
  intro pos stack queue
  obtain ⟨n, h⟩ := h pos stack queue
  exact ⟨n + 1, by rw [depth]; omega⟩

theorem deep_rule {r : R} {e : PE R} {txt : Str} {k : Nat} (h : Deep u v e txt k) : Deep u v (.rule r e) txt k := by
  intro pos stack queue
  obtain ⟨n, h1⟩ := h pos stack []
  obtain ⟨m, h2⟩ := h pos stack queue
  by_cases he : v.emits = true
  · exact ⟨n + 1, by rw [depth, if_pos he]; exact h1⟩
  · exact ⟨m + 1, by rw [depth, if_neg he]; exact h2⟩

theorem deep_atomic {a : Atomicity} {e : PE R} {txt : Str} {k : Nat} (h : Deep u { v with atomicity := a } e txt k) :
    Deep u v (.atomic a e) txt k := by
  intro pos stack queue
  obtain ⟨n, h⟩ := h pos stack queue
  exact ⟨n + 1, by rw [depth]; exact h⟩

theorem deep_seq {e : PE R} {txt : Str} {k : Nat} (h : Deep u v e txt k) : Deep u v (.seq e) txt k := by
  intro pos stack queue
  obtain ⟨n, h⟩ := h pos stack queue
  exact ⟨n + 1, by rw [depth]; exact h⟩

theorem deep_opt {e : PE R} {txt : Str} {k : Nat} (h : Deep u v e txt k) : Deep u v (.opt e) txt k := by
  intro pos stack queue
  obtain ⟨n, h⟩ := h pos stack queue
  exact ⟨n + 1, by rw [depth]; exact h⟩

theorem deep_restore {e : PE R} {txt : Str} {k : Nat} (h : Deep u v e txt k) : Deep u v (.restore e) txt k := by
  intro pos stack queue
  obtain ⟨n, h⟩ := h pos stack queue
  exact ⟨n + 1, by rw [depth]; exact h⟩

theorem deep_first {a b : PE R} {txt : Str} {k : Nat} (h : Deep u v a txt k) : Deep u v (.cat a b) txt k := by
  intro pos stack queue
  obtain ⟨n, h⟩ := h pos stack queue
  exact ⟨n + 1, by rw [depth]; exact Nat.le_trans h (Nat.le_max_left _ _)⟩

theorem deep_left {a b : PE R} {txt : Str} {k : Nat} (h : Deep u v a txt k) : Deep u v (.alt a b) txt k := by
  intro pos stack queue
  obtain ⟨n, h⟩ := h pos stack queue
  exact ⟨n + 1, by rw [depth]; exact Nat.le_trans h (Nat.le_max_left _ _)⟩

theorem deep_then {a b : PE R} {x rest : Str} {P : List (Pair R) → Prop} {k : Nat} (h : Eats u v a x rest P)
    (hb : Deep u v b rest k) : Deep u v (.cat a b) (x ++ rest) k := by
  intro pos stack queue
  obtain ⟨q, _, hs⟩ := h pos stack queue
  obtain ⟨n, hn⟩ := sem_settles grammar u a v ⟨pos, x ++ rest, stack, queue⟩
  obtain ⟨m, hm⟩ := hb (pos + x.length) stack (queue ++ q)
  refine ⟨max n m + 1, ?_⟩
  rw [depth, hn _ (Nat.le_max_left _ _), hs]
  exact Nat.le_trans hm (Nat.le_trans (depth_mono' (Nat.le_max_right n m) _ _ _) (Nat.le_max_right _ _))

theorem deep_right {a b : PE R} {txt : Str} {k : Nat} (hf : Fails u v a txt) (hb : Deep u v b txt k) :
    Deep u v (.alt a b) txt k := by
  intro pos stack queue
  obtain ⟨n, hn⟩ := sem_settles grammar u a v ⟨pos, txt, stack, queue⟩
  obtain ⟨m, hm⟩ := hb pos stack queue
  refine ⟨max n m + 1, ?_⟩
  rw [depth, hn _ (Nat.le_max_left _ _), hf pos stack queue]
  exact Nat.le_trans hm (Nat.le_trans (depth_mono' (Nat.le_max_right n m) _ _ _) (Nat.le_max_right _ _))

theorem depth_parse {input : Str} {k : Nat}
    (h : ∃ n, k ≤ depth grammar u n (.call .program) Env.init (St.init input)) : k ≤ parseDepth u input := by
  obtain ⟨n, hn⟩ := h
  have hc : run grammar u (parseFuel input) (.call .program) Env.init (St.init input) ≠ .crash := by
    intro hc
    have h1 : smParse u .program input = .crash := by rw [smParse, hc]; rfl
    rcases C33_parse_terminates u .program (by decide) input with ⟨l, h⟩ | h <;> rw [h] at h1 <;> cases h1
  rcases Nat.le_total n (parseFuel input) with h1 | h1
  · exact Nat.le_trans hn (depth_mono' h1 _ _ _)
  · unfold parseDepth
    rw [← depth_stable' h1 hc]
    exact hn

/-- A program is three calls deeper than the expression it begins with. -/
theorem deep_program (L : Lawful u) {w x z : Str} {k : Nat} (hw : Blank u w)
    (hx : ∃ c r, x = c :: r ∧ (IdStart u c ∨ c ∈ termChars)) (hn : ∀ k ∈ statementWords, strip k (x ++ z) = none)
    (h : Deep u vN (.call .expr) (x ++ z) k) : k + 3 ≤ parseDepth u (w ++ (x ++ z)) := by
  obtain ⟨e, he, hf⟩ := statement_fails L hx hn
  have hs : Deep u vN (.call .statement) (x ++ z) (k + 2) := by
    apply deep_call
    rw [he]
    exact deep_right hf (deep_restore (deep_call (deep_rule (deep_seq (deep_first (deep_first h))))))
  obtain ⟨q, _, h1⟩ := eats_skip (v := vN) L rfl hw (term_head_solid L hx z) 0 [] []
  have h0 : sem grammar u (.cat (.call .SOI) (.call .skip)) vN ⟨0, w ++ (x ++ z), [], []⟩ =
      .ok ⟨0 + w.length, x ++ z, [], [] ++ q⟩ := by
    rw [sem_cat, sem_call]
    show (sem grammar u .soi vN ⟨0, w ++ (x ++ z), [], []⟩).andThen _ = _
    rw [sem_soi, if_pos rfl]
    exact h1
  obtain ⟨n, hn⟩ := sem_settles grammar u (.cat (.call .SOI) (.call .skip)) vN ⟨0, w ++ (x ++ z), [], []⟩
  have h2 : Deep u vN (.seq (.opt (.cat (.restore (.call .statement)) (.rep (.seq (.cat (.call .skip)
      (.restore (.call .statement)))))))) (x ++ z) (k + 2) := deep_seq (deep_opt (deep_first (deep_restore hs)))
  obtain ⟨m, hm⟩ := h2 (0 + w.length) [] ([] ++ q)
  refine depth_parse ⟨max n m + 5, ?_⟩
  rw [depth]
  show k + 3 ≤ 1 + depth grammar u _ body_program vN ⟨0, w ++ (x ++ z), [], []⟩
  unfold body_program
  rw [depth, depth, depth, depth, hn _ (Nat.le_max_left _ _), h0]
  have := Nat.le_trans hm (depth_mono' (g := grammar) (u := u) (Nat.le_max_right n m) (.seq (.opt (.cat
    (.restore (.call .statement)) (.rep (.seq (.cat (.call .skip) (.restore (.call .statement)))))))) vN
    ⟨0 + w.length, x ++ z, [], [] ++ q⟩)
  simp only
  omega

/-- An operand at the beginning of an expression is two calls deeper. -/
theorem deep_expr {x : Str} {k : Nat} (hp : Fails u vC (.call .Prefix) x) (h : Deep u vC (.call .node) x k) :
    ∀ {v : Env}, v.silent = false → Deep u v (.call .expr) x (k + 2) := by
  rintro ⟨a, b⟩ hv
  simp only at hv
  subst hv
  refine deep_call (deep_atomic (v := ⟨a, false⟩) (deep_rule (deep_seq (deep_first (deep_first (deep_call (deep_atomic (deep_rule
    (deep_seq (deep_first ?_))))))))))
  exact deep_then (x := []) (eats_rep_nil hp) h

/-- Brackets. -/
theorem deep_brackets (L : Lawful u) (t : Str) : ∀ n {v : Env}, v.silent = false →
    Deep u v (.call .expr) (List.replicate n '(' ++ t) (3 * n + 1) := by
  intro n
  induction n with
  | zero => intro v _; exact deep_call (deep_zero _ _)
  | succ n ih =>
    intro v hv
    refine deep_expr (x := '(' :: (List.replicate n '(' ++ t)) (fails_plain L (by decide) _) ?_ hv
    refine deep_call (deep_rule (deep_left (deep_left (deep_left (deep_left (deep_restore (deep_seq (deep_first (deep_first ?_)))))))))
    exact deep_then (x := ['(']) (eats_cat (x := ['(']) (y := []) (eats_str _ _) (eats_skip_off (by decide) _)) (ih rfl)

/-- A call, as far as the opening bracket. -/
theorem deep_apply_call (L : Lawful u) {p : Path} (hp : p.Ok u) {t : Str} {k : Nat}
    (h : Deep u vC (.call .apply) ('(' :: t) k) : Deep u vC (.call .apply_call) (p.text ++ '(' :: t) (k + 1) := by
  refine deep_call (deep_atomic (deep_rule (deep_seq (deep_first ?_))))
  refine deep_then (eats_Symbol L hp (noCont_paren L t) (noPath_paren (u := u) t) rfl) (deep_seq ?_)
  exact deep_then (x := []) (eats_hspace_paren L _) h

theorem path_no_bracket (L : Lawful u) {p : Path} (hp : p.Ok u) (t : Str) :
    Fails u vC (.restore (.seq (.cat (.cat (.cat (.cat (.str c!"(") (.call .skip)) (.call .expr)) (.call .skip))
      (.str c!")")))) (p.text ++ t) := by
  refine fails_restore (fails_seq (breaks_cat (breaks_cat (breaks_cat (breaks_cat (Fails.breaks (fails_str ?_)))))))
  exact strip_paren (id_not_paren L hp.start)

theorem path_no_prefix (L : Lawful u) {p : Path} (hp : p.Ok u) (t : Str) : Fails u vC (.call .Prefix) (p.text ++ t) := by
  obtain ⟨c, r, hx, hc'⟩ := hp.start
  rw [hx]
  exact fails_id L hc' (by decide) _

theorem path_solid (L : Lawful u) {p : Path} (hp : p.Ok u) (t : Str) : Solid u (p.text ++ t) := by
  obtain ⟨c, r, hx, hc'⟩ := hp.start
  exact term_head_solid L ⟨c, r, hx, .inl hc'⟩ _

/-- An argument list that begins with a given text. -/
theorem deep_apply (L : Lawful u) {t : Str} {k : Nat} (hs : Solid u t) (hk : Fails u vN kvAlt t)
    (h : Deep u vN (.call .expr) t k) : Deep u vC (.call .apply) ('(' :: t) (k + 2) := by
  refine deep_call (deep_atomic (deep_rule (deep_seq ?_)))
  refine deep_first (deep_first (deep_first (deep_first (deep_first (deep_first ?_)))))
  refine deep_then (x := ['(']) (P := Then Nil Nil) (eats_cat (x := ['(']) (y := []) (eats_str _ _)
    (eats_skip L rfl blank_nil hs)) ?_
  exact deep_opt (deep_restore (deep_call (deep_rule (deep_right hk (deep_restore h)))))

/-- Nested calls, whatever is within. -/
theorem deep_calls (L : Lawful u) {p : Path} (hp : p.Ok u) (t : Str) : ∀ n,
    Deep u vN (.call .expr) (unclosed p.text t (n + 1)) (6 * n + 5) := by
  have up : ∀ {t : Str} {k : Nat}, Deep u vC (.call .apply) ('(' :: t) k →
      Deep u vN (.call .expr) (p.text ++ '(' :: t) (k + 4) := by
    intro t k h
    exact deep_expr (path_no_prefix L hp _) (deep_call (deep_rule (deep_left (deep_left (deep_left (deep_right
      (path_no_bracket L hp _) (deep_restore (deep_apply_call L hp h)))))))) rfl
  intro n
  induction n with
  | zero => exact up (deep_call (deep_zero _ _))
  | succ n ih => exact up (deep_apply L (path_solid L hp _) (kv_open L hp _) ih)

/-- Nested calls that are not finished. -/
theorem deep_unfinished (L : Lawful u) {p : Path} (hp : p.Ok u) (hf : p.Free) {z : Str} (hz : Cut u z) : ∀ n,
    Deep u vN (.call .expr) (unclosed p.text z n) (7 * n + 1) := by
  intro n
  induction n with
  | zero => exact deep_call (deep_zero _ _)
  | succ n ih =>
    rw [unclosed]
    have hfail := unclosed_fails L hp hf hz n
    have hc := noCont_paren L (unclosed p.text z n)
    have hn := noPath_paren (u := u) (unclosed p.text z n)
    have hb : Breaks u vC (.cat hspace (.call .apply)) ('(' :: unclosed p.text z n) :=
      breaks_cat_right (x := []) (eats_hspace_paren L _) hfail.breaks
    have hkv : Fails u vN kvAlt (unclosed p.text z n) := by
      cases n with
      | zero => exact hz.kv L
      | succ n => exact kv_open L hp _
    have hsol : Solid u (unclosed p.text z n) := by
      cases n with
      | zero =>
        rcases hz with rfl | ⟨solo, d, h⟩
        · exact open_solid L (.inl rfl)
        · have := term_head_solid L h.head []
          simpa [unclosed] using this
      | succ n => exact path_solid L hp _
    refine deep_expr (path_no_prefix L hp _) (deep_call (deep_rule (deep_left (deep_right ?_ (deep_restore
      (deep_call (deep_atomic (deep_rule (deep_seq (deep_first (deep_first (deep_left (deep_left (deep_restore
        (deep_apply_call L hp (deep_apply L hsol hkv ih)))))))))))))))) rfl
    exact fails_alt (fails_alt (path_no_bracket L hp _) (fails_restore (fails_apply_call L hp hc hn hb)))
      (fails_restore (fails_derivative L hp hc hn (by intro r e; cases e)))

/-! ### The property -/

/-- **C80**.  The depth of any text is bounded by the number of six signs in it. -/
theorem C80_bounded (u : Uni) (x : Str) : parseDepth u x ≤ 14 + 7 * turns x := by
  have := depth_upper turningSigns gPass gDeep 7 grammar u (fun r => (gDeep_ok r).1) (fun r => (gDeep_ok r).2) (parseFuel x)
    (.call .program) Env.init (St.init x)
  rwa [show signCount turningSigns (St.init (R := R) x).rest = turns x from signs_turns x] at this

/-- **C80**.  A text that has none of them is parsed within fourteen calls, however long it is. -/
theorem C80_flat (u : Uni) (x : Str) (h : ∀ c ∈ x, c ≠ '(' ∧ c ≠ '[' ∧ c ≠ '{' ∧ c ≠ '%' ∧ c ≠ '=' ∧ c ≠ '@') :
    parseDepth u x ≤ 14 := by
  have h0 : turns x = 0 := by
    unfold turns
    rw [List.countP_eq_zero]
    intro c hc
    obtain ⟨h1, h2, h3, h4, h5, h6⟩ := h c hc
    simp [h1, h2, h3, h4, h5, h6]
  have := C80_bounded u x
  rwa [h0] at this

/-- **C80**.  A text that begins with `n` brackets takes a depth of more than `3 n`, whatever follows. -/
theorem C80_brackets (L : Lawful u) {w : Str} (hw : Blank u w) (n : Nat) (t : Str) :
    3 * n < parseDepth u (w ++ (List.replicate n '(' ++ t)) := by
  cases n with
  | zero =>
    refine depth_parse ⟨1, ?_⟩
    rw [depth]
    omega
  | succ n =>
    have := deep_program L hw (x := '(' :: []) (z := List.replicate n '(' ++ t) ⟨'(', [], rfl, .inr (by decide)⟩
      (words_paren _) (deep_brackets L t (n + 1) rfl)
    have e : ['('] ++ (List.replicate n '(' ++ t) = List.replicate (n + 1) '(' ++ t := rfl
    rw [e] at this
    omega

/-- **C80**.  A text that begins with `n` calls within each other takes a depth of more than `6 n`, whatever follows. -/
theorem C80_calls (L : Lawful u) {p : Path} (hp : p.Ok u) (hn : Wordless p.text) {w : Str} (hw : Blank u w) (n : Nat) (t : Str) :
    6 * n < parseDepth u (w ++ unclosed p.text t n) := by
  cases n with
  | zero =>
    refine depth_parse ⟨1, ?_⟩
    rw [depth]
    omega
  | succ n =>
    have h := deep_calls L hp t n
    rw [unclosed] at h ⊢
    obtain ⟨c, r, hx, hc'⟩ := hp.start
    have := deep_program L hw ⟨c, r, hx, .inl hc'⟩
      (fun k hk => strip_more (noCont_paren L _) (words_cont L k hk) (hn k hk)) h
    omega

/-- **C80**.  The allowance of seven calls for a sign is needed: `n` calls that are not finished take a depth of more than
`7 n`. -/
theorem C80_sharp (L : Lawful u) {p : Path} (hp : p.Ok u) (hf : p.Free) (hn : Wordless p.text) {e : Option SExpr}
    (he : ∀ e', e = some e' → e'.Ok u) {w : Str} (hw : Blank u w) (n : Nat) :
    7 * n + 3 < parseDepth u (w ++ unclosed p.text ((e.map SExpr.text).getD []) (n + 1)) := by
  have hz : Cut u ((e.map SExpr.text).getD []) := by
    cases e with
    | none => exact .inl rfl
    | some e' => exact .inr ⟨_, _, SExpr.read L e' (he e' rfl)⟩
  have h := deep_unfinished L hp hf hz (n + 1)
  rw [unclosed] at h ⊢
  obtain ⟨c, r, hx, hc'⟩ := hp.start
  have := deep_program L hw ⟨c, r, hx, .inl hc'⟩
    (fun k hk => strip_more (noCont_paren L _) (words_cont L k hk) (hn k hk)) h
  omega

/-- An expression within `n` pairs of parentheses. -/
def wrapped (e : SExpr) : Nat → SExpr
  | 0 => e
  | n + 1 => SExpr.node (.paren (wrapped e n) [])

theorem wrapped_text (e : SExpr) : ∀ n, (wrapped e n).text = List.replicate n '(' ++ (e.text ++ List.replicate n ')') := by
  intro n
  induction n with
  | zero => simp [wrapped]
  | succ n ih =>
    rw [wrapped, node_text, SNode.text, ih, List.replicate_succ, List.replicate_succ' (a := ')')]
    simp

theorem wrapped_ok {e : SExpr} (he : e.Ok u) : ∀ n, (wrapped e n).Ok u := by
  intro n
  induction n with
  | zero => exact he
  | succ n ih =>
    refine node_ok ?_
    rw [SNode.Ok]
    exact ⟨ih, blank_nil, .inr rfl⟩

theorem wrapped_value (e : SExpr) : ∀ n, (wrapped e n).value = e.value := by
  intro n
  induction n with
  | zero => rfl
  | succ n ih => rw [wrapped, node_value, SNode.value, ih]

/-- **C80**.  Any expression within `n` pairs of parentheses is read as without them, at a depth of more than `3 n`. -/
theorem C80_wrapped (L : Lawful u) (c : Cfg) {e : SExpr} (he : e.Ok u) (n : Nat) (hn : Wordless (wrapped e n).text)
    {w w' : Str} (hw : Blank u w) (hw' : Blank u w') (hc : c.input = w ++ ((wrapped e n).text ++ w')) :
    eraseR (parseText u c) = answer e.value ∧ 3 * n < parseDepth u c.input := by
  constructor
  · rw [C53_expressions L c _ (wrapped_ok he n) hn hw hw' hc, wrapped_value]
  · rw [hc, wrapped_text, List.append_assoc]
    exact C80_brackets L hw n _

/-- **C80**.  So whatever room there is for calls within each other, there is a text of the language of about two thirds of
that length that does not fit. -/
theorem C80_overflow (L : Lawful u) (file err : Str) (room : Nat) :
    ∃ input : Str, input.length = 2 * (room / 3 + 1) + 1 ∧ (∃ a, parseText u ⟨file, input, err⟩ = .ok a) ∧
      room < parseDepth u input := by
  have he : (SExpr.node nameA).Ok u := node_ok (nameA_ok L)
  have hw : Wordless (wrapped (SExpr.node nameA) (room / 3 + 1)).text := by
    rw [wrapped_text]
    intro k hk
    exact words_paren _ k hk
  obtain ⟨h1, h2⟩ := C80_wrapped L ⟨file, (wrapped (SExpr.node nameA) (room / 3 + 1)).text, err⟩ he (room / 3 + 1) hw
    blank_nil blank_nil (by simp)
  refine ⟨_, ?_, ?_, Nat.lt_of_le_of_lt (by omega) h2⟩
  · rw [wrapped_text, node_text]
    simp only [List.length_append, List.length_replicate]
    have : nameA.text.length = 1 := rfl
    omega
  · obtain ⟨a, ha⟩ : ∃ a, (SExpr.node nameA).value = some a := ⟨_, rfl⟩
    rw [ha] at h1
    cases hp : parseText u ⟨file, (wrapped (SExpr.node nameA) (room / 3 + 1)).text, err⟩ with
    | ok b => exact ⟨b, rfl⟩
    | err e => rw [hp] at h1; cases h1
    | panic => rw [hp] at h1; cases h1

/-- Concrete cases: brackets, calls that are finished and not finished, and a long text without any of the signs. -/
example : parseDepth asciiUni c!"((a))" = 18 := by decide +kernel
example : parseDepth asciiUni c!"f(f(a))" = 24 := by decide +kernel
example : parseDepth asciiUni c!"f(f(" = 26 := by decide +kernel
example : parseDepth asciiUni c!"1 + a * 2 - b" = 12 := by decide +kernel

end SM.Props
