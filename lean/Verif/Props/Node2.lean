import Verif.Props.Node
/-
Operands that begin with an identifier: symbols, constants, strings with a handler, juxtaposition.
-/
namespace SM.Props
open SM SM.Peg

variable {u : Uni} {v : Env}

/-! ### What fails after an identifier -/

/-- After white space within a line, something fails. -/
theorem breaks_hspace (L : Lawful u) {w z : Str} (hw : ∀ c ∈ w, HWs u c) (hz : ∀ c r, z = c :: r → ¬ HWs u c)
    {e : PE R} (he : Fails u v e z) : Breaks u v (.cat hspace e) (w ++ z) :=
  breaks_cat_right (eats_hspace L hz w hw) he.breaks

theorem fails_apply {z : Str} (h : ∀ r, z ≠ '(' :: r) : Fails u v (.call .apply) z := by
  refine fails_call (fails_atomic (fails_rule (fails_seq ?_)))
  refine breaks_cat (breaks_cat (breaks_cat (breaks_cat (breaks_cat (breaks_cat (breaks_cat (breaks_cat
    (Fails.breaks (fails_str ?_)))))))))
  cases z with
  | nil => rfl
  | cons c r =>
    have : '(' ≠ c := fun e => h r (by rw [e])
    simp [strip, this]

theorem fails_apply_call (L : Lawful u) {p : Path} (hp : p.Ok u) {rest : Str} (hr : NoCont u rest)
    (hn : NoPath u rest) (hb : Breaks u vC (.cat hspace (.call .apply)) rest) :
    Fails u vC (.call .apply_call) (p.text ++ rest) :=
  fails_call (fails_atomic (fails_rule (fails_seq (breaks_cat
    (breaks_cat_right (eats_Symbol L hp hr hn rfl) (Fails.breaks (fails_seq hb)))))))

theorem fails_Derivative {z : Str} (h : ∀ r, z ≠ '\'' :: r) : Fails u v (.call .Derivative) z := by
  refine fails_call (fails_rule (fails_atomic (fails_seq (breaks_cat (Fails.breaks (fails_str ?_))))))
  cases z with
  | nil => rfl
  | cons c r =>
    have : '\'' ≠ c := fun e => h r (by rw [e])
    simp [strip, this]

theorem fails_derivative (L : Lawful u) {p : Path} (hp : p.Ok u) {rest : Str} (hr : NoCont u rest)
    (hn : NoPath u rest) (hq : ∀ r, rest ≠ '\'' :: r) :
    Fails u vC (.call .derivative) (p.text ++ rest) :=
  fails_call (fails_atomic (fails_rule (fails_seq (breaks_cat (breaks_cat
    (breaks_cat_right (eats_Symbol L hp hr hn rfl) (fails_Derivative hq).breaks))))))

theorem eats_primes (k : Nat) {rest : Str} (hr : ∀ r, rest ≠ '\'' :: r) :
    Eats u v (.rep (.str c!"'")) (List.replicate k '\'') rest Nil := by
  induction k with
  | zero =>
    refine eats_rep_nil (fails_str ?_)
    cases rest with
    | nil => rfl
    | cons c r =>
      have : '\'' ≠ c := fun e => hr r (by rw [e])
      simp [strip, this]
  | succ k ih => exact (eats_rep_cons (x := ['\'']) (eats_str _ _) ih).imp fun q => then_nil

theorem eats_Derivative (hv : v.emits = true) (k : Nat) {rest : Str} (hr : ∀ r, rest ≠ '\'' :: r) :
    Eats u v (.call .Derivative) ('\'' :: List.replicate k '\'') rest
      (One .Derivative ('\'' :: List.replicate k '\'') Nil) := by
  exact eats_call (eats_rule hv (eats_atomic ((eats_seq (eats_cat (x := ['\'']) (eats_str _ _)
    (eats_primes k hr))).imp fun q => then_nil)))

/-- Every text is primes followed by something else. -/
theorem primes_split : ∀ x : Str, ∃ k y, x = List.replicate k '\'' ++ y ∧ ∀ r, y ≠ '\'' :: r
  | [] => ⟨0, [], rfl, fun _ e => nomatch e⟩
  | c :: x => by
    by_cases h : c = '\''
    · obtain ⟨k, y, rfl, hy⟩ := primes_split x
      exact ⟨k + 1, y, by rw [h]; rfl, hy⟩
    · exact ⟨0, c :: x, rfl, fun r e => h (List.cons.inj e).1⟩

/-- Every text is white space within the line followed by something else. -/
theorem hws_split : ∀ x : Str, ∃ h y, x = h ++ y ∧ (∀ c ∈ h, HWs u c) ∧ ∀ c r, y = c :: r → ¬ HWs u c
  | [] => ⟨[], [], rfl, by simp, fun _ _ e => nomatch e⟩
  | c :: x => by
    by_cases hc : HWs u c
    · obtain ⟨h, y, rfl, hh, hy⟩ := hws_split x
      exact ⟨c :: h, y, rfl, by simpa [hc] using hh, hy⟩
    · exact ⟨[], c :: x, rfl, by simp, fun d r e => by cases e; exact hc⟩

/-- A name that is not followed by primes and an argument list is no derivative. -/
theorem fails_derivative_of (L : Lawful u) {p : Path} (hp : p.Ok u) {rest : Str} (hr : NoCont u rest)
    (hn : NoPath u rest) (hq : NoPrime u rest) : Fails u vC (.call .derivative) (p.text ++ rest) := by
  by_cases h : ∃ r, rest = '\'' :: r
  · obtain ⟨r, rfl⟩ := h
    obtain ⟨k, y, rfl, hy⟩ := primes_split r
    obtain ⟨h, z, rfl, hh, hz⟩ := hws_split (u := u) y
    refine fails_call (fails_atomic (fails_rule (fails_seq ?_)))
    have e : p.text ++ '\'' :: (List.replicate k '\'' ++ (h ++ z)) =
        (p.text ++ '\'' :: List.replicate k '\'') ++ h ++ z := by simp
    rw [e]
    have hs : Eats u vC (.call .Symbol) p.text (('\'' :: List.replicate k '\'') ++ (h ++ z)) _ :=
      eats_Symbol L hp hr hn (v := vC) rfl
    refine breaks_cat_right (eats_cat (eats_cat (rest := h ++ z) hs (eats_Derivative (v := vC) rfl k hy))
      (eats_hspace L hz h hh)) (Fails.breaks (fails_apply ?_))
    · rintro t rfl
      exact hq k h t hh rfl
  · exact fails_derivative L hp hr hn fun r e => h ⟨r, e⟩

theorem fails_string_body {z : Str} (h : ∀ r, z ≠ '"' :: r) :
    Fails u v (.alt (.restore (.call .StringBlock)) (.call .StringNormal)) z := by
  have hq : ∀ v, Fails u v (.call .Quotation) z := by
    intro v
    cases z with
    | nil => exact fails_nil (by decide)
    | cons c r => exact fails_quote fun e => h r (by rw [e])
  refine fails_alt (fails_restore (fails_call (fails_atomic (fails_rule (fails_seq ?_)))))
    (fails_call (fails_rule (fails_atomic (fails_seq ?_))))
  · exact breaks_cat (breaks_cat (breaks_cat (breaks_cat (breaks_cat (breaks_cat
      (Fails.breaks (fails_seq (breaks_cat (breaks_cat (hq _).breaks)))))))))
  · exact breaks_cat (breaks_cat (hq _).breaks)

theorem more_head {m : List (Bool × Str)} {rest : Str} {d : Char} (h : ∀ r, rest ≠ d :: r) (h1 : d ≠ ':')
    (h2 : d ≠ '∷') : ∀ r, moreText m ++ rest ≠ d :: r := by
  intro r e
  cases m with
  | nil => exact h r e
  | cons q m =>
    obtain ⟨b, y⟩ := q
    cases b with
    | false => simp [moreText, pathSep] at e; exact h1 e.1.symm
    | true => simp [moreText, pathSep] at e; exact h2 e.1.symm

theorem fails_String_path (L : Lawful u) {p : Path} (hp : p.Ok u) {rest : Str} (hr : NoCont u rest)
    (hq : ∀ r, rest ≠ '"' :: r) : Fails u vC (.call .String) (p.text ++ rest) := by
  refine fails_call (fails_atomic (fails_rule (fails_seq ?_)))
  rw [Path.text, List.append_assoc]
  exact breaks_cat_right (eats_opt (eats_SYMBOL L rfl hp.1 (noCont_more L _ hr)))
    (fails_string_body (more_head hq (by decide) (by decide))).breaks

theorem eats_factor_sym (L : Lawful u) {p : Path} (hp : p.Ok u) {rest : Str} (hr : NoCont u rest)
    (hn : NoPath u rest) (hb : Breaks u vC (.cat hspace (.call .apply)) rest) :
    Eats u vC factor p.text rest (One .Symbol p.text fun _ => True) := by
  refine eats_alt_right (fails_alt (fails_restore (fails_apply_call L hp hr hn hb)) ?_) (eats_Symbol L hp hr hn rfl)
  obtain ⟨c, t, h, hc⟩ := hp.1.start
  rw [Path.text, h]
  exact fails_id L hc (by decide) _

theorem stops_no_apply {z : Str} (hz : HeadIn nodeStops z) : Fails u v (.call .apply) z := by
  refine fails_apply ?_
  rintro r rfl
  rcases hz with h | ⟨c, t, h, hc⟩
  · cases h
  · cases h; revert hc; decide

theorem Ends.no_apply (L : Lawful u) {rest : Str} (h : Ends u rest) :
    Breaks u v (.cat hspace (.call .apply)) rest :=
  h.endsIn.breaks L stops_notHws fun _ hz => stops_no_apply hz

theorem Ends.ne (L : Lawful u) {rest : Str} (h : Ends u rest) {d : Char} (hd : notHws d = true)
    (hS : d ∉ nodeStops) : ∀ r, rest ≠ d :: r := h.endsIn.head_ne L hd hS

/-- The three constants are identifiers. -/
theorem constants_ident (L : Lawful u) {x : Str} (hx : x ∈ constants) : IsIdent u x := by
  have key : ∀ x ∈ constants, ∃ c r, x = c :: r ∧ ('a' ≤ c ∧ c ≤ 'z') ∧ ∀ d ∈ r, 'a' ≤ d ∧ d ≤ 'z' := by
    intro x hx
    simp only [constants, List.mem_cons, List.not_mem_nil, or_false] at hx
    rcases hx with rfl | rfl | rfl <;> exact ⟨_, _, rfl, by decide, by decide⟩
  obtain ⟨c, r, rfl, hc, hr⟩ := key x hx
  refine .inl ⟨c, r, rfl, ?_, keyword_cont L hr⟩
  have : c.toNat ≤ 122 := hc.2
  rw [L.plain c _ (.inl (by omega))]
  simp only [asciiUni, decide_eq_true_eq]
  exact .inl hc

theorem node_head (hp : ∃ c r, x = c :: r ∧ IdStart u c) :
    ∃ c r, x = c :: r ∧ (IdStart u c ∨ c ∈ operandChars) := by
  obtain ⟨c, r, h, hc⟩ := hp
  exact ⟨c, r, h, .inl hc⟩

theorem id_not_paren (L : Lawful u) {x rest : Str} (hp : ∃ c r, x = c :: r ∧ IdStart u c) :
    ∀ r, x ++ rest ≠ '(' :: r := by
  obtain ⟨c, r, rfl, hc⟩ := hp
  intro t e
  cases e
  exact not_idStart L (c := '(') (by decide) (by decide) (by decide) hc

theorem Path.Ok.start {p : Path} (hp : p.Ok u) : ∃ c r, p.text = c :: r ∧ IdStart u c := by
  obtain ⟨c, r, h, hc⟩ := hp.1.start
  exact ⟨c, r ++ moreText p.more, by rw [Path.text, h]; rfl, hc⟩

theorem eats_node_path (L : Lawful u) {p : Path} (hp : p.Ok u) {rest : Str} {d : Option AST} (hr : Ends u rest)
    (h : Eats u vC (.call .data) p.text rest (Den .data buildData d)) :
    Eats u vC (.call .node) p.text rest (Den .node buildNode d) := by
  have hc := hr.noCont L
  refine eats_node_data (id_not_paren L hp.start) (fails_apply_call L hp hc hr.path (hr.no_apply L))
    (fails_derivative_of L hp hc hr.path hr.prime) ?_ h
  exact fails_space_call L rfl (eats_factor_sym L hp hc hr.path (hr.no_apply L)) hr.endsIn stops_notHws
    stops_no_factor

/-- Constants are operands. -/
theorem node_special (L : Lawful u) {x : Str} (hx : x ∈ constants) : IsNode u false x (parseSpecial x) := by
  have hi := constants_ident L hx
  have ht : (Path.mk x []).text = x := by simp [Path.text, moreText]
  have hp : (Path.mk x []).Ok u := ⟨hi, by simp⟩
  refine ⟨node_head hi.start, fun rest hr _ => ?_, fun rest hr hc => fails_kv_ident L hi (hr.noCont L) hc⟩
  have h := eats_node_path L hp (rest := rest) (d := parseSpecial x) hr ?_
  · rw [ht] at h; exact h
  · rw [ht]
    obtain ⟨c, t, hc, hc'⟩ := hi.start
    refine eats_data_of rfl (eats_alt_left (eats_alt_left (eats_alt_left (eats_alt_left (eats_alt_left (eats_alt_right
      (fails_alt (fails_restore ?_) (fails_restore ?_)) (eats_Special (v := vC) rfl hx rest))))))) ?_
    · rw [hc]; exact fails_id L hc' (by decide) _
    · rw [hc]; exact fails_id L hc' (by decide) _
    · rintro q ⟨a', b', l, rfl, _⟩
      refine ⟨_, rfl, fun c a b => ?_⟩
      simp only [buildData, Pair.rule, Pair.text]
      simp only [reduceCtorEq, if_false, if_true]
      simp only [constants, List.mem_cons, List.not_mem_nil, or_false] at hx
      rcases hx with rfl | rfl | rfl <;> rfl

/-- The path is not taken for a constant: its first part does not begin with one. -/
def Path.Free (p : Path) : Prop := ∀ k ∈ constants, strip k p.first = none

theorem noCont_path_kv (L : Lawful u) {p : Path} (hp : p.Ok u) {rest : Str} (hr : NoCont u rest)
    (hc : NoColon u rest) : Fails u vN kvAlt (p.text ++ rest) := by
  obtain ⟨x, m⟩ := p
  obtain ⟨hx, hm⟩ := hp
  rw [Path.text, List.append_assoc]
  cases m with
  | nil => exact fails_kv_ident L hx hr (by simpa [moreText] using hc)
  | cons q m =>
    obtain ⟨b, y⟩ := q
    have hnc := noCont_more L ((b, y) :: m) hr
    cases b with
    | true =>
      refine fails_kv_ident L hx hnc ⟨[], _, rfl, blank_nil, ⟨?_, ?_⟩, ?_⟩
      · intro c r e
        simp [moreText, pathSep] at e
        unfold Ws
        rw [← e.1, L.plain _ _ (by decide)]; decide
      · simp only [moreText, pathSep, List.flatMap_cons, if_true, List.cons_append, List.nil_append]
        exact noComment_cons (by decide) (by decide)
      · intro c r e
        simp [moreText, pathSep] at e
        rw [← e.1]; decide
    | false =>
      refine fails_restore (fails_seq ?_)
      have e : moreText ((false, y) :: m) ++ rest = [':'] ++ (':' :: (y ++ (moreText m ++ rest))) := by
        simp [moreText, pathSep]
      rw [e] at hnc ⊢
      have hs : ∀ t : Str, Solid u (':' :: t) := fun t => ⟨by
        intro c r e
        cases e
        unfold Ws
        rw [L.plain _ _ (by decide)]; decide, noComment_cons (by decide) (by decide)⟩
      have h1 : Eats u vN (.cat (.call .SYMBOL) (.call .skip)) (x ++ []) ([':'] ++ (':' :: (y ++ (moreText m ++ rest)))) _ :=
        eats_cat (eats_SYMBOL L rfl hx (by simpa using hnc)) (eats_skip L rfl blank_nil (hs _))
      have h2 : Eats u vN (.call .Colon) [':'] (':' :: (y ++ (moreText m ++ rest))) (One .Colon [':'] Nil) :=
        eats_call (eats_rule rfl (eats_atomic (eats_alt_left (eats_str [':'] _))))
      have h3 := eats_cat (eats_cat h1 h2) (y := []) (eats_skip L rfl blank_nil (hs _))
      have := breaks_cat_right h3 (Fails.breaks (fails_plain (v := vN) (r := .expr) L (by decide) (y ++ (moreText m ++ rest))))
      simpa using this

/-- Symbols are operands. -/
theorem node_symbol (L : Lawful u) {p : Path} (hp : p.Ok u) (hf : p.Free) :
    IsNode u false p.text (some (.mkSymbol p.text)) := by
  refine ⟨node_head hp.start, fun rest hr _ => ?_, fun rest hr hc => noCont_path_kv L hp (hr.noCont L) hc⟩
  have hc := hr.noCont L
  refine eats_node_path L hp hr ?_
  obtain ⟨c, t, hx, hc'⟩ := hp.start
  refine eats_data_of rfl (eats_alt_right (fails_alt (fails_alt (fails_alt (fails_alt (fails_alt (fails_alt
    (fails_restore ?_) (fails_restore ?_)) (fails_Special ?_)) ?_) ?_) ?_)
    (fails_restore (fails_String_path L hp hc (hr.ne L (by decide) (by decide)))))
    (eats_Symbol L hp hc hr.path rfl)) ?_
  · rw [hx]; exact fails_id L hc' (by decide) _
  · rw [hx]; exact fails_id L hc' (by decide) _
  · intro k hk
    rw [Path.text, List.append_assoc]
    refine strip_word (keyword_cont L ?_) (hf k hk) (noCont_more L _ hc)
    have key : ∀ k ∈ constants, ∀ c ∈ k, 'a' ≤ c ∧ c ≤ 'z' := by decide
    exact key k hk
  · rw [hx]; exact fails_id L hc' (by decide) _
  · rw [hx]; exact fails_id L hc' (by decide) _
  · rw [hx]; exact fails_id L hc' (by decide) _
  · rintro q ⟨a', b', l, rfl, _⟩
    exact ⟨_, rfl, fun c a b => by simp [buildData, Pair.rule, Pair.text, AST.mkSymbol, erase]⟩

/-! ### Strings with a handler -/

theorem noPath_cons {c : Char} (h1 : c ≠ ':') (h2 : c ≠ '∷') (r : Str) : NoPath u (c :: r) :=
  ⟨fun _ _ e => by cases e; exact absurd rfl h1, fun _ e => by cases e; exact h2 rfl⟩

theorem solid_cons (L : Lawful u) {c : Char} (h : Plain c) (h1 : asciiUni .whiteSpace c = false) (h2 : c ≠ '%')
    (h3 : c ≠ '/') (r : Str) : Solid u (c :: r) := by
  refine ⟨?_, noComment_cons h2 h3⟩
  intro d t e
  cases e
  unfold Ws
  rw [L.plain c _ h, h1]
  decide

/-- Strings with a handler are operands; the handler leaves no trace. -/
theorem node_handler (L : Lawful u) {h s : Str} (hh : IsIdent u h) (hf : ∀ k ∈ constants, strip k h = none)
    (hs : contentOk s = true) : IsNode u false (h ++ quoted s) (some (.string s)) := by
  have hp : (Path.mk h []).Ok u := ⟨hh, by simp⟩
  have ht : (Path.mk h []).text = h := by simp [Path.text, moreText]
  obtain ⟨c, t, hx, hc⟩ := hh.start
  have start : ∃ c r, h ++ quoted s = c :: r ∧ IdStart u c := ⟨c, t ++ quoted s, by rw [hx]; rfl, hc⟩
  have nc : ∀ rest, NoCont u (quoted s ++ rest) := by
    intro rest c r e
    simp only [quoted, List.cons_append, List.cons.injEq] at e
    rw [← e.1, L.plain _ _ (by decide)]; decide
  have np : ∀ rest, NoPath u (quoted s ++ rest) := fun rest => noPath_cons (by decide) (by decide) _
  have ends : ∀ rest, EndsIn u ['"'] (quoted s ++ rest) := fun rest =>
    ⟨[], _, rfl, by simp, .inr ⟨'"', _, rfl, by simp⟩⟩
  have na : ∀ rest, Breaks u vC (.cat hspace (.call .apply)) (quoted s ++ rest) := fun rest =>
    (ends rest).breaks L (by decide) fun z hz => by
      refine fails_apply ?_
      rintro r rfl
      rcases hz with h | ⟨c, t, h, hc⟩
      · cases h
      · cases h; revert hc; decide
  refine ⟨node_head start, fun rest hr _ => ?_, fun rest hr hcol => ?_⟩
  · refine eats_node_data (id_not_paren L start) ?_ ?_ ?_ ?_
    · rw [List.append_assoc]
      have := fails_apply_call L hp (nc rest) (np rest) (na rest)
      rwa [ht] at this
    · rw [List.append_assoc]
      have := fails_derivative L hp (nc rest) (np rest) ((ends rest).head_ne L (by decide) (by decide))
      rwa [ht] at this
    · rw [List.append_assoc]
      have := fails_space_call L (v := vC) rfl (eats_factor_sym L hp (nc rest) (np rest) (na rest)) (ends rest)
        (by decide) (by decide)
      rwa [ht] at this
    · refine eats_data_of rfl (eats_alt_left (eats_alt_right
        (fails_alt (fails_alt (fails_alt (fails_alt (fails_alt (fails_restore ?_) (fails_restore ?_))
          (fails_Special ?_)) ?_) ?_) ?_)
        (eats_restore (eats_String_handler (v := vC) L rfl hh hs (hr.ne L (by decide) (by decide)))))) ?_
      · rw [hx]; exact fails_id L hc (by decide) _
      · rw [hx]; exact fails_id L hc (by decide) _
      · intro k hk
        rw [List.append_assoc]
        refine strip_word (keyword_cont L ?_) (hf k hk) (nc rest)
        have key : ∀ k ∈ constants, ∀ c ∈ k, 'a' ≤ c ∧ c ≤ 'z' := by decide
        exact key k hk
      · rw [hx]; exact fails_id L hc (by decide) _
      · rw [hx]; exact fails_id L hc (by decide) _
      · rw [hx]; exact fails_id L hc (by decide) _
      · rintro q ⟨a', b', l, rfl, l1, l2, rfl, ⟨a1, b1, k1, rfl, _⟩, a2, b2, k2, rfl, _⟩
        refine ⟨_, rfl, fun c a b => ?_⟩
        have : ¬ (quoted s).length < 2 := by simp [quoted]
        have h2 : (quoted s).tail.dropLast = s := by simpa using quoted_strip s
        simp [buildData, parseString, stringText, Pair.rule, Pair.text, Pair.inner, this, erase, h2]
  · rw [List.append_assoc]
    refine fails_kv_ident L hh (nc rest) ⟨[], _, rfl, blank_nil, ?_, ?_⟩
    · exact solid_cons L (by decide) (by decide) (by decide) (by decide) _
    · intro c r e
      simp only [quoted, List.cons_append, List.cons.injEq] at e
      rw [← e.1]; decide

/-! ### Juxtaposition -/

/-- A factor of a juxtaposition: a numeral or a symbol. -/
inductive Factor where
  | int (x : Str)
  | sym (p : Path)

/-- The text of a factor. -/
def Factor.text : Factor → Str
  | .int x => x
  | .sym p => p.text

/-- Well-formed factors. -/
def Factor.Ok (u : Uni) : Factor → Prop
  | .int x => IsInt x
  | .sym p => p.Ok u

/-- What a factor means. -/
def Factor.value : Factor → Option AST
  | .int x => parseInteger x
  | .sym p => some (.mkSymbol p.text)

/-- The rule of a factor. -/
def Factor.rule : Factor → R
  | .int _ => .Integer
  | .sym _ => .Symbol

/-- Factors that may stand next to each other with `h` in between. -/
def Apart (f : Factor) (h : Str) (g : Factor) : Prop :=
  h ≠ [] ∨
    match f, g with
    | .int x, .sym p => x = c!"0" → ∀ c r, p.first = c :: r → c ∉ radixLetters
    | .int x, .int _ => x = c!"0"
    | .sym _, _ => False

/-- The text of further factors. -/
def chainText (l : List (Str × Factor)) : Str := l.flatMap fun m => m.1 ++ m.2.text

/-- Further factors, well formed and each apart from the one before. -/
def ChainOk (u : Uni) : Factor → List (Str × Factor) → Prop
  | _, [] => True
  | f, (h, g) :: l => (∀ c ∈ h, HWs u c) ∧ g.Ok u ∧ Apart f h g ∧ ChainOk u g l

/-- What may follow a factor. -/
def FactorEnd (u : Uni) (f : Factor) (t : Str) : Prop :=
  match f with
  | .int x => IntEnd x t ∧ NoDec t
  | .sym _ => NoCont u t ∧ NoPath u t ∧ Breaks u vC (.cat hspace (.call .apply)) t

theorem eats_factor (L : Lawful u) {f : Factor} (hf : f.Ok u) {t : Str} (ht : FactorEnd u f t) :
    Eats u vC factor f.text t (One f.rule f.text fun _ => True) := by
  cases f with
  | int x =>
    obtain ⟨c, r, h, hc⟩ := IsInt.head hf
    have := eats_Number_int (u := u) (v := vC) rfl hf ht.1 ht.2
    subst h
    exact (eats_factor_number L hc this).imp fun q ⟨a, b, l, h, _⟩ => ⟨a, b, l, h, trivial⟩
  | sym p => exact eats_factor_sym L hf ht.1 ht.2.1 ht.2.2

theorem Factor.Ok.head {f : Factor} (hf : f.Ok u) : ∃ c r, f.text = c :: r ∧ (IsDigit c ∨ IdStart u c) := by
  cases f with
  | int x =>
    obtain ⟨c, r, h, hc⟩ := IsInt.head hf
    exact ⟨c, r, h, .inl hc⟩
  | sym p =>
    obtain ⟨c, r, h, hc⟩ := Path.Ok.start hf
    exact ⟨c, r, h, .inr hc⟩

theorem hws_not_cont (L : Lawful u) {c : Char} (h : HWs u c) : u .xidContinue c = false := by
  cases hc : u .xidContinue c with
  | false => rfl
  | true =>
    have h2 := L.cont_ws c hc
    have := h.1
    unfold Ws at this
    rw [h2] at this
    cases this

theorem cont_not_hws (L : Lawful u) {c : Char} (h : u .xidContinue c = true) : ¬ HWs u c := by
  intro h2
  rw [hws_not_cont L h2] at h
  cases h

/-- A character that begins a factor is a word character. -/
theorem factor_head_cont (L : Lawful u) {c : Char} (h : IsDigit c ∨ IdStart u c) : u .xidContinue c = true := by
  rcases h with h | h
  · exact digit_cont L h
  · exact idStart_cont L h

theorem cont_ne (L : Lawful u) {c d : Char} (h : u .xidContinue c = true) (hd : Plain d)
    (hd' : asciiUni .xidContinue d = false) : c ≠ d := by
  rintro rfl
  rw [L.plain c _ hd, hd'] at h
  cases h

theorem hws_first (L : Lawful u) {c d : Char} (h : HWs u c) (hd : Plain d)
    (hd' : asciiUni .whiteSpace d = false) : c ≠ d := by
  rintro rfl
  have := h.1
  unfold Ws at this
  rw [L.plain c _ hd, hd'] at this
  cases this

/-- What follows a factor when another factor follows. -/
theorem factorEnd_next (L : Lawful u) {f g : Factor} {h t : Str} (hh : ∀ c ∈ h, HWs u c) (hg : g.Ok u)
    (ha : Apart f h g) : FactorEnd u f (h ++ (g.text ++ t)) := by
  obtain ⟨c, r, hx, hc⟩ := hg.head
  have hcc := factor_head_cont L hc
  have hw : ∀ d r', h = d :: r' → HWs u d := fun d r' e => hh d (by rw [e]; simp)
  have path : NoPath u (h ++ (g.text ++ t)) := by
    cases h with
    | nil =>
      rw [List.nil_append, hx]
      exact noPath_cons (cont_ne L hcc (by decide) (by decide)) (cont_ne L hcc (by decide) (by decide)) _
    | cons d h =>
      have := hw d h rfl
      exact noPath_cons (hws_first L this (by decide) (by decide)) (hws_first L this (by decide) (by decide)) _
  have dec : NoDec (h ++ (g.text ++ t)) := by
    intro c' r' e
    exfalso
    cases h with
    | nil =>
      rw [List.nil_append, hx] at e
      simp only [List.cons_append, List.cons.injEq] at e
      exact cont_ne L hcc (d := '.') (by decide) (by decide) e.1
    | cons d h =>
      simp only [List.cons_append, List.cons.injEq] at e
      exact hws_first L (hw d h rfl) (d := '.') (by decide) (by decide) e.1
  have noc : h ≠ [] → NoCont u (h ++ (g.text ++ t)) := by
    intro hn c' r' e
    cases h with
    | nil => exact absurd rfl hn
    | cons d h =>
      cases e
      exact hws_not_cont L (hw c' h rfl)
  cases f with
  | int x =>
    refine ⟨?_, dec⟩
    by_cases hn : h = []
    · subst hn
      rw [List.nil_append, hx]
      rcases ha with ha | ha
      · exact absurd rfl ha
      · cases g with
        | int y =>
          refine ⟨fun hne => absurd ha hne, fun _ c' r' e hm => ?_⟩
          cases e
          obtain ⟨c2, r2, h2, hd⟩ := IsInt.head hg
          rw [show (Factor.int y).text = y from rfl, h2] at hx
          cases hx
          have key : ∀ c ∈ radixLetters, ¬ IsDigit c := by decide
          exact key _ hm hd
        | sym p =>
          obtain ⟨c2, r2, h2, hd⟩ := Path.Ok.start hg
          rw [show (Factor.sym p).text = p.text from rfl, h2] at hx
          cases hx
          refine ⟨fun _ c' r' e hm => ?_, fun h0 c' r' e hm => ?_⟩
          · cases e; exact idStart_not_digit L hd hm
          · cases e
            obtain ⟨c3, r3, h3, _⟩ := hg.1.start
            refine ha h0 c3 r3 h3 ?_
            rw [Path.text, h3] at h2
            simp only [List.cons_append, List.cons.injEq] at h2
            rw [h2.1]; exact hm
    · exact (noc hn).intEnd L x
  | sym p =>
    have hn : h ≠ [] := by
      rcases ha with ha | ha
      · exact ha
      · exact ha.elim
    refine ⟨noc hn, path, ?_⟩
    refine breaks_hspace L hh ?_ (fails_apply ?_)
    · intro c' r' e
      rw [hx] at e
      cases e
      exact cont_not_hws L hcc
    · intro r' e
      rw [hx] at e
      cases e
      exact cont_ne L hcc (d := '(') (by decide) (by decide) rfl

/-- What follows the last factor. -/
theorem factorEnd_last (L : Lawful u) (f : Factor) {rest : Str} (hr : Ends u rest) (hd : NoDec rest) :
    FactorEnd u f rest := by
  cases f with
  | int x => exact ⟨(hr.noCont L).intEnd L x, hd⟩
  | sym p => exact ⟨hr.noCont L, hr.path, hr.no_apply L⟩

theorem factorEnd_chain (L : Lawful u) {f : Factor} {l : List (Str × Factor)} (h : ChainOk u f l) {rest : Str}
    (hr : Ends u rest) (hd : NoDec rest) : FactorEnd u f (chainText l ++ rest) := by
  cases l with
  | nil => exact factorEnd_last L f hr hd
  | cons m l =>
    obtain ⟨w, g⟩ := m
    obtain ⟨h1, h2, h3, h4⟩ := h
    have e : chainText ((w, g) :: l) ++ rest = w ++ (g.text ++ (chainText l ++ rest)) := by simp [chainText]
    rw [e]
    exact factorEnd_next L h1 h2 h3

/-- The pairs are those of the factors. -/
def FactorPairs (l : List Factor) (q : List (Pair R)) : Prop :=
  List.Forall₂ (fun f p => p.rule = f.rule ∧ p.text = f.text) l q

theorem eats_step (L : Lawful u) {w : Str} {f : Factor} (hw : ∀ c ∈ w, HWs u c) (hf : f.Ok u) {t : Str}
    (ht : FactorEnd u f t) :
    Eats u vC (.seq (.cat hspace factor)) (w ++ f.text) t (One f.rule f.text fun _ => True) := by
  refine eats_seq ((eats_cat (eats_hspace L ?_ w hw) (eats_factor L hf ht)).imp fun q => nil_then)
  obtain ⟨c, r, hx, hc⟩ := hf.head
  intro c' r' e
  rw [hx] at e
  cases e
  exact cont_not_hws L (factor_head_cont L hc)

theorem eats_chain (L : Lawful u) {rest : Str} (hr : Ends u rest) (hd : NoDec rest) :
    ∀ (l : List (Str × Factor)) (f : Factor), ChainOk u f l →
      Eats u vC (.rep (.seq (.cat hspace factor))) (chainText l) rest (FactorPairs (l.map Prod.snd)) := by
  intro l
  induction l with
  | nil =>
    intro f _
    refine (eats_rep_nil (fails_seq (hr.endsIn.breaks L stops_notHws fun z hz =>
      fails_factor L stops_no_factor hz))).imp ?_
    rintro q rfl
    exact .nil
  | cons m l ih =>
    obtain ⟨w, g⟩ := m
    rintro f ⟨h1, h2, h3, h4⟩
    have e : chainText ((w, g) :: l) = (w ++ g.text) ++ chainText l := by simp [chainText]
    rw [e]
    refine (eats_rep_cons (eats_step L h1 h2 (factorEnd_chain L h4 hr hd)) (ih g h4)).imp ?_
    rintro q ⟨a, b, rfl, ⟨a1, b1, l1, rfl, _⟩, hb⟩
    exact .cons ⟨rfl, rfl⟩ hb

/-- All values, or none. -/
def allSome {α : Type} : List (Option α) → Option (List α)
  | [] => some []
  | a :: l =>
    match a, allSome l with
    | some a, some l => some (a :: l)
    | _, _ => none

theorem parseInteger_erase (x : Str) : (parseInteger x).map erase = parseInteger x := by
  unfold parseInteger
  cases fromStrRadix 10 x <;> rfl

theorem spaceArgs_eq {l : List Factor} {q : List (Pair R)} (h : FactorPairs l q) :
    (spaceArgs q).map eraseL = allSome (l.map Factor.value) := by
  induction h with
  | nil => simp [spaceArgs, allSome, eraseL]
  | @cons f p l q h1 _ ih =>
    obtain ⟨h2, h3⟩ := h1
    rw [spaceArgs, List.map_cons]
    simp only [allSome]
    rw [← ih]
    cases f with
    | int x =>
      have h2' : p.rule = R.Integer := h2
      rw [if_neg (by rw [h2']; decide), if_neg (by rw [h2']; decide), if_pos h2', h3]
      simp only [Factor.value, Factor.text]
      have he := parseInteger_erase x
      cases hx : parseInteger x with
      | none => rfl
      | some a =>
        rw [hx] at he
        cases spaceArgs q with
        | none => rfl
        | some v => simpa [eraseL] using he
    | sym p' =>
      have h2' : p.rule = R.Symbol := h2
      rw [if_neg (by rw [h2']; decide), if_pos h2', h3]
      cases spaceArgs q with
      | none => rfl
      | some v => simp [eraseL, AST.mkSymbol, erase, Factor.value, Factor.text]

/-- The product of the factors. -/
def product (l : List (Option AST)) : Option AST :=
  (allSome l).map fun v => .function Op.star.sym [.mk v [] noPos]

/-- Juxtaposed factors are operands: they are multiplied. -/
theorem node_space (L : Lawful u) {f : Factor} (hf : f.Ok u) {m : Str × Factor} {l : List (Str × Factor)}
    (hl : ChainOk u f (m :: l)) :
    IsNode u true (f.text ++ chainText (m :: l)) (product ((f :: (m :: l).map Prod.snd).map Factor.value)) := by
  obtain ⟨c, t, hx, hc⟩ := hf.head
  have hcc := factor_head_cont L hc
  have ends : ∀ {rest}, Ends u rest → NoDec rest → FactorEnd u f (chainText (m :: l) ++ rest) :=
    fun hr hd => factorEnd_chain L hl hr hd
  have op : IdStart u c ∨ c ∈ operandChars := by
    rcases hc with hc | hc
    · exact .inr (digits_head c (digit_mem hc)).2.2.2.2.2.2.2.1
    · exact .inl hc
  refine ⟨⟨c, t ++ chainText (m :: l), by rw [hx]; rfl, op⟩, fun rest hr hd => ?_, fun rest hr hcol => ?_⟩
  · have hd := hd rfl
    have hend := ends hr hd
    have body : Eats u vC (.call .space_call) (f.text ++ chainText (m :: l)) rest
        (One .space_call (f.text ++ chainText (m :: l)) (FactorPairs (f :: (m :: l).map Prod.snd))) := by
      refine eats_call (eats_atomic (eats_rule (v := vC) rfl (eats_seq ?_)))
      obtain ⟨w, g⟩ := m
      obtain ⟨h1, h2, h3, h4⟩ := hl
      have e : f.text ++ chainText ((w, g) :: l) = (f.text ++ (w ++ g.text)) ++ chainText l := by simp [chainText]
      rw [e]
      have hend' : FactorEnd u f ((w ++ g.text) ++ (chainText l ++ rest)) := by
        have : (w ++ g.text) ++ (chainText l ++ rest) = chainText ((w, g) :: l) ++ rest := by simp [chainText]
        rw [this]; exact hend
      refine (eats_cat (eats_cat (eats_factor L hf hend') (eats_step L h1 h2 (factorEnd_chain L h4 hr hd)))
        (eats_chain L hr hd l g h4)).imp ?_
      rintro q ⟨a, b, rfl, ⟨a1, a2, rfl, ⟨_, _, _, rfl, _⟩, ⟨_, _, _, rfl, _⟩⟩, hb⟩
      exact .cons ⟨rfl, rfl⟩ (.cons ⟨rfl, rfl⟩ hb)
    apply eats_call
    show Eats u vC body_node _ _ _
    unfold body_node
    refine (eats_rule (v := vC) rfl (eats_alt_left (eats_alt_right (fails_alt (fails_alt (fails_restore (fails_seq ?_))
      (fails_restore ?_)) (fails_restore ?_)) (eats_restore body)))).imp ?_
    · refine breaks_cat (breaks_cat (breaks_cat (breaks_cat (fails_str ?_).breaks)))
      have : '(' ≠ c := (cont_ne L hcc (by decide) (by decide)).symm
      rw [hx]
      simp [strip, this]
    · rw [List.append_assoc]
      cases f with
      | int x =>
        rw [hx]
        rcases hc with hc | hc
        · exact fails_plain L (digits_head c (digit_mem hc)).2.2.2.2.2.1 _
        · obtain ⟨c', r', h', hd'⟩ := IsInt.head hf
          rw [show (Factor.int x).text = x from rfl, h'] at hx
          cases hx
          exact absurd hd' (idStart_not_digit L hc)
      | sym p => exact fails_apply_call L hf hend.1 hend.2.1 hend.2.2
    · rw [List.append_assoc]
      cases f with
      | int x =>
        rw [hx]
        rcases hc with hc | hc
        · exact fails_plain L (digits_head c (digit_mem hc)).2.2.2.2.2.2.1 _
        · obtain ⟨c', r', h', hd'⟩ := IsInt.head hf
          rw [show (Factor.int x).text = x from rfl, h'] at hx
          cases hx
          exact absurd hd' (idStart_not_digit L hc)
      | sym p =>
        refine fails_derivative L hf hend.1 hend.2.1 ?_
        intro r e
        obtain ⟨w, g⟩ := m
        obtain ⟨h1, h2, h3, h4⟩ := hl
        cases w with
        | nil => rcases h3 with h3 | h3
                 · exact h3 rfl
                 · exact h3
        | cons d w =>
          simp only [chainText, List.flatMap_cons, List.cons_append, List.cons.injEq] at e
          exact hws_first L (h1 d (by simp)) (d := '\'') (by decide) (by decide) e.1
    · rintro q ⟨a, b, k, rfl, a', b', k', rfl, hk⟩
      refine ⟨_, rfl, rfl, fun c => ?_⟩
      rw [buildNode]
      simp only [Pair.rule, reduceCtorEq, if_false, if_true, Pair.inner]
      rw [product, ← spaceArgs_eq hk, parseSpaceCall]
      cases spaceArgs k' with
      | none => rfl
      | some v =>
        simp only [Option.map_some, erase, eraseP, eraseParam, eraseO]
        rfl
  · obtain ⟨w, g⟩ := m
    obtain ⟨h1, h2, h3, h4⟩ := hl
    cases f with
    | int x =>
      obtain ⟨c', r', h', hd'⟩ := IsInt.head hf
      refine fails_kv_mark L ⟨c', r' ++ chainText ((w, g) :: l), by rw [show (Factor.int x).text = x from rfl, h']; rfl, ?_⟩ rest
      exact (digits_head c' (digit_mem hd')).2.2.2.2.2.2.2.1
    | sym p =>
      have hn : w ≠ [] := by
        rcases h3 with h3 | h3
        · exact h3
        · exact h3.elim
      have e : chainText ((w, g) :: l) ++ rest = w ++ (g.text ++ (chainText l ++ rest)) := by simp [chainText]
      obtain ⟨c2, r2, hx2, hc2⟩ := h2.head
      have hcc2 := factor_head_cont L hc2
      rw [List.append_assoc, e]
      have hfe := factorEnd_next (t := chainText l ++ rest) L h1 h2 h3
      refine noCont_path_kv L hf hfe.1 ⟨w, _, rfl, blank_ws fun c hc => (h1 c hc).1, ?_, ?_⟩
      · rw [hx2]
        refine ⟨?_, noComment_cons (cont_ne L hcc2 (by decide) (by decide)) (cont_ne L hcc2 (by decide) (by decide))⟩
        intro c' r' e' hw
        cases e'
        have := L.cont_ws _ hcc2
        unfold Ws at hw
        rw [this] at hw
        cases hw
      · intro c' r' e'
        rw [hx2] at e'
        cases e'
        exact ⟨cont_ne L hcc2 (by decide) (by decide), cont_ne L hcc2 (by decide) (by decide)⟩

end SM.Props
