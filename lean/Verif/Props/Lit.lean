import Verif.Props.Lex
/-
What the functions of the literal rules consume.
-/
namespace SM.Props
open SM SM.Peg

/-- Outside atomic rules. -/
def vN : Env := { atomicity := .non, silent := false }
/-- Inside a compound-atomic rule. -/
def vC : Env := { atomicity := .compound, silent := false }

theorem emits_vN : vN.emits = true := rfl
theorem emits_vC : vC.emits = true := rfl

variable {u : Uni} {v : Env}

/-! ### What may follow -/

/-- Characters that may follow an operand. -/
def afterChars : List Char :=
  [')', ',', '，', ']', '}', '{', ':', '：', ';', '；', '=', '+', '-', '*', '×', '⋅', '⊗', '⊙', '/', '÷', '%', '^',
    '>', '.']

/-- Characters that may follow the inner part of an operand: line ends, suffixes, index brackets. -/
def nodeStops : List Char := afterChars ++ ['\n', '\x0d', '!', '?', '[', '\'']

/-- White space within a line. -/
def HWs (u : Uni) (c : Char) : Prop := Ws u c ∧ c ≠ '\n' ∧ c ≠ '\x0d'

/-- The text does not continue an identifier as a path. -/
def NoPath (u : Uni) (rest : Str) : Prop :=
  (∀ c r, rest = ':' :: ':' :: c :: r → ¬ IdStart u c) ∧ ∀ r, rest ≠ '∷' :: r

/-- The text does not continue an integer as a decimal. -/
def NoDec (rest : Str) : Prop := ∀ c r, rest = '.' :: c :: r → ¬ ('0' ≤ c ∧ c ≤ '9')

/-- The text does not continue a word. -/
def NoCont (u : Uni) (rest : Str) : Prop := ∀ c r, rest = c :: r → u .xidContinue c = false

/-- The text does not continue a name as a derivative: primes, then an argument list. -/
def NoPrime (u : Uni) (rest : Str) : Prop :=
  ∀ k h t, (∀ c ∈ h, HWs u c) → rest ≠ '\'' :: (List.replicate k '\'' ++ (h ++ '(' :: t))

/-- What may follow the inner part of an operand. -/
structure Ends (u : Uni) (rest : Str) : Prop where
  split : ∃ h z, rest = h ++ z ∧ (∀ c ∈ h, HWs u c) ∧ HeadIn nodeStops z
  path : NoPath u rest
  prime : NoPrime u rest

theorem nodeStops_plain : ∀ c ∈ nodeStops, Plain c ∧ asciiUni .xidContinue c = false := by decide

theorem Ends.noCont (L : Lawful u) {rest : Str} (h : Ends u rest) : NoCont u rest := by
  obtain ⟨⟨w, z, rfl, hw, hz⟩, _, _⟩ := h
  intro c r e
  cases w with
  | cons d w =>
    simp only [List.cons_append, List.cons.injEq] at e
    obtain ⟨rfl, _⟩ := e
    have := (hw d (by simp)).1
    cases hc : u .xidContinue d with
    | false => rfl
    | true =>
      have h2 := L.cont_ws d hc
      unfold Ws at this
      rw [h2] at this
      cases this
  | nil =>
    simp only [List.nil_append] at e
    rcases hz with rfl | ⟨c', r', rfl, hc⟩
    · cases e
    · cases e
      obtain ⟨h1, h2⟩ := nodeStops_plain c hc
      rw [L.plain c _ h1]
      exact h2

/-! ### White space within a line -/

/-- White space within a line, as the grammar writes it. -/
abbrev hspace : PE R := .rep (.seq (.cat (.look false (.call .NEWLINE)) (.call .WHITESPACE)))

theorem fails_newline_char {c : Char} {r : Str} (h1 : c ≠ '\n') (h2 : c ≠ '\x0d') :
    Fails u v (.call .NEWLINE) (c :: r) := by
  apply fails_call
  show Fails _ _ body_NEWLINE _
  unfold body_NEWLINE
  refine fails_alt (fails_alt (fails_str ?_) (fails_str ?_)) (fails_str ?_) <;>
    simp [strip, Ne.symm h1, Ne.symm h2]

/-- White space within a line ends before anything else. -/
theorem fails_hspace_char (L : Lawful u) {txt : Str} (h : ∀ c r, txt = c :: r → ¬ HWs u c) :
    Fails u v (.seq (.cat (.look false (.call .NEWLINE)) (.call .WHITESPACE))) txt := by
  cases txt with
  | nil =>
    refine fails_seq (breaks_cat_right (x := []) (eats_not ?_) (fails_nil (by decide)).breaks)
    exact fails_nil (by decide)
  | cons c r =>
    have hc := h c r rfl
    by_cases h1 : c = '\n' ∨ c = '\x0d'
    · apply fails_seq
      apply breaks_cat
      apply Fails.breaks
      rcases h1 with rfl | rfl
      · exact fails_not (x := ['\n']) (rest := r) (eats_newline r)
      · by_cases h : ∃ r', r = '\n' :: r'
        · obtain ⟨r', rfl⟩ := h
          exact fails_not (x := ['\x0d', '\n']) (rest := r') (eats_return_newline r')
        · exact fails_not (x := ['\x0d']) (rest := r) (eats_return fun r' e => h ⟨r', e⟩)
    · refine fails_seq (breaks_cat_right (x := []) (rest := c :: r) (eats_not ?_) ?_)
      · exact fails_newline_char (fun e => h1 (.inl e)) (fun e => h1 (.inr e))
      · refine (fails_ws L ?_).breaks
        intro d t e
        cases e
        exact fun hw => hc ⟨hw, fun e => h1 (.inl e), fun e => h1 (.inr e)⟩

theorem eats_hspace (L : Lawful u) {rest : Str} (hr : ∀ c r, rest = c :: r → ¬ HWs u c) :
    ∀ h : Str, (∀ c ∈ h, HWs u c) → Eats u v hspace h rest Nil := by
  intro h
  induction h with
  | nil => intro _; exact eats_rep_nil (fails_hspace_char L hr)
  | cons c h ih =>
    intro hc
    obtain ⟨h1, h2, h3⟩ := hc c (by simp)
    have step : Eats u v (.seq (.cat (.look false (.call .NEWLINE)) (.call .WHITESPACE))) [c] (h ++ rest) Nil :=
      eats_seq ((eats_cat (x := []) (y := [c]) (eats_not (fails_newline_char h2 h3))
        (eats_ws_char _ h1 h2 h3)).imp fun q => then_nil)
    exact (eats_rep_cons step (ih fun d hd => hc d (by simp [hd]))).imp fun q => then_nil

theorem nodeStops_not_hws (L : Lawful u) : ∀ c ∈ nodeStops, ¬ HWs u c := by
  intro c hc ⟨h1, h2, h3⟩
  obtain ⟨hp, _⟩ := nodeStops_plain c hc
  unfold Ws at h1
  rw [L.plain c _ hp] at h1
  have key : ∀ c ∈ nodeStops, asciiUni .whiteSpace c = true → c = '\n' ∨ c = '\x0d' := by decide
  rcases key c hc h1 with h | h
  · exact h2 h
  · exact h3 h

/-- After white space within a line, something that cannot begin with what follows an operand fails. -/
theorem Ends.fails (L : Lawful u) {rest : Str} (h : Ends u rest) {e : PE R}
    (he : ∀ z, HeadIn nodeStops z → Fails u v e z) : Breaks u v (.cat hspace e) rest := by
  obtain ⟨⟨w, z, rfl, hw, hz⟩, _, _⟩ := h
  refine breaks_cat_right (eats_hspace L ?_ w hw) (he z hz).breaks
  intro c r e
  rcases hz with rfl | ⟨c', r', rfl, hc⟩
  · cases e
  · cases e; exact nodeStops_not_hws L c hc

/-! ### Identifiers -/

/-- A word that `SYMBOL` accepts. -/
def IsIdent (u : Uni) (x : Str) : Prop :=
  (∃ c r, x = c :: r ∧ u .xidStart c = true ∧ ∀ d ∈ r, u .xidContinue d = true) ∨
  (∃ c r, x = '_' :: c :: r ∧ u .xidContinue c = true ∧ ∀ d ∈ r, u .xidContinue d = true)

theorem IsIdent.start {x : Str} (h : IsIdent u x) : ∃ c r, x = c :: r ∧ IdStart u c := by
  rcases h with ⟨c, r, rfl, h, _⟩ | ⟨c, r, rfl, _, _⟩
  · exact ⟨c, r, rfl, .inl h⟩
  · exact ⟨_, _, rfl, .inr rfl⟩

theorem fails_cont {rest : Str} (h : NoCont u rest) : Fails u v (.call .XID_CONTINUE) rest := by
  refine fails_first (by decide) (by decide) (by decide) (by decide) ?_
  cases rest with
  | nil => rfl
  | cons c r => simp [hits, gFirst, CS.has, h c r rfl]

theorem eats_conts {rest : Str} (hr : NoCont u rest) :
    ∀ r : Str, (∀ d ∈ r, u .xidContinue d = true) → Eats u v (.rep (.call .XID_CONTINUE)) r rest Nil := by
  intro r
  induction r with
  | nil => intro _; exact eats_rep_nil (fails_cont hr)
  | cons c r ih =>
    intro h
    exact (eats_rep_cons (x := [c]) (eats_call (eats_uni _ (h c (by simp))))
      (ih fun d hd => h d (by simp [hd]))).imp fun q => then_nil

theorem emits_atomic' (v : Env) : ({ v with atomicity := Atomicity.atomic } : Env).emits = false := by
  cases v with
  | mk a b => cases b <;> rfl

/-- The part inside `SYMBOL`. -/
theorem eats_ident_body (L : Lawful u) {x rest : Str} (hx : IsIdent u x) (hr : NoCont u rest) :
    Eats u v (.atomic .atomic (.alt (.seq (.cat (.call .XID_START) (.rep (.call .XID_CONTINUE))))
      (.seq (.cat (.cat (.call .Underline) (.call .XID_CONTINUE)) (.rep (.call .XID_CONTINUE)))))) x rest Nil := by
  apply eats_atomic
  rcases hx with ⟨c, r, rfl, h1, h2⟩ | ⟨c, r, rfl, h1, h2⟩
  · exact eats_alt_left (eats_seq ((eats_cat (x := [c]) (eats_call (eats_uni _ h1))
      (eats_conts hr r h2)).imp fun q => then_nil))
  · refine eats_alt_right (fails_seq (breaks_cat (Fails.breaks ?_))) (eats_seq ?_)
    · exact fails_plain L (by decide) _
    · refine ((eats_cat (x := ['_', c]) (eats_cat (x := ['_']) (y := [c]) (P := Nil)
        (eats_tok_mute rfl (emits_atomic' v) _) (eats_call (eats_uni _ h1))) (eats_conts hr r h2)).imp ?_)
      rintro q ⟨a, b, rfl, ha, hb⟩
      rw [show a = [] from then_nil ha, show b = [] from hb]
      rfl

theorem eats_SYMBOL (L : Lawful u) (hv : v.emits = true) {x rest : Str} (hx : IsIdent u x)
    (hr : NoCont u rest) : Eats u v (.call .SYMBOL) x rest (One .SYMBOL x Nil) :=
  eats_call (eats_rule hv (eats_ident_body L hx hr))

theorem eats_SYMBOL_mute (L : Lawful u) (hv : v.emits = false) {x rest : Str} (hx : IsIdent u x)
    (hr : NoCont u rest) : Eats u v (.call .SYMBOL) x rest Nil :=
  eats_call (eats_rule_mute hv (eats_ident_body L hx hr))

/-- Nothing but an identifier start begins an identifier. -/
theorem fails_SYMBOL (L : Lawful u) {txt : Str} (h : ∀ c r, txt = c :: r → ¬ IdStart u c) :
    Fails u v (.call .SYMBOL) txt := by
  refine fails_first (by decide) (by decide) (by decide) (by decide) ?_
  cases txt with
  | nil => rfl
  | cons c r =>
    have hc := h c r rfl
    have h1 : u .xidStart c = false := by
      cases hu : u .xidStart c with
      | false => rfl
      | true => exact absurd (.inl hu) hc
    have h2 : '_' ≠ c := fun e => hc (.inr e.symm)
    simp [hits, gFirst, CS.has, h1, h2]

/-- A path: identifiers separated by `::` or `∷`. -/
structure Path where
  first : Str
  more : List (Bool × Str)

/-- The two forms of the separator. -/
def pathSep (b : Bool) : Str := if b then c!"∷" else c!"::"

/-- The text of the later parts of a path. -/
def moreText (l : List (Bool × Str)) : Str := l.flatMap fun m => pathSep m.1 ++ m.2

/-- The text of a path. -/
def Path.text (p : Path) : Str := p.first ++ moreText p.more

/-- All parts are identifiers. -/
def Path.Ok (u : Uni) (p : Path) : Prop := IsIdent u p.first ∧ ∀ m ∈ p.more, IsIdent u m.2

theorem eats_Proportion (hv : v.emits = true) (b : Bool) (rest : Str) :
    Eats u v (.call .Proportion) (pathSep b) rest (One .Proportion (pathSep b) Nil) := by
  refine eats_call (eats_rule hv (eats_atomic ?_))
  cases b with
  | false => exact eats_alt_left (eats_str _ _)
  | true => exact eats_alt_right (fails_str (by simp [pathSep, strip])) (eats_str _ _)

theorem fails_path (L : Lawful u) {rest : Str} (h : NoPath u rest) :
    Fails u v (.seq (.cat (.call .Proportion) (.call .SYMBOL))) rest := by
  apply fails_seq
  by_cases h1 : ∃ r, rest = ':' :: ':' :: r
  · obtain ⟨r, rfl⟩ := h1
    have hs : Eats u v (.call .Proportion) c!"::" r (fun _ => True) := by
      cases hv : v.emits with
      | true => exact (eats_Proportion hv false r).imp fun _ _ => trivial
      | false =>
        refine (eats_call (eats_rule_mute hv (eats_atomic (eats_alt_left (eats_str _ r))))).imp ?_
        exact fun _ _ => trivial
    refine breaks_cat_right hs (fails_SYMBOL L ?_).breaks
    intro c t e
    exact h.1 c t (by rw [e])
  · apply breaks_cat
    apply Fails.breaks
    refine fails_call (fails_rule (fails_atomic (fails_alt (fails_str ?_) (fails_str ?_))))
    · cases hs : strip c!"::" rest with
      | none => rfl
      | some r =>
        exfalso
        apply h1
        rcases rest with _ | ⟨a, _ | ⟨b, rest⟩⟩
        · simp [strip] at hs
        · simp [strip] at hs
        · simp only [strip] at hs
          split at hs
          · split at hs
            · subst_vars; exact ⟨rest, rfl⟩
            · cases hs
          · cases hs
    · cases hs : strip c!"∷" rest with
      | none => rfl
      | some r =>
        exfalso
        rcases rest with _ | ⟨a, rest⟩
        · simp [strip] at hs
        · simp only [strip] at hs
          split at hs
          · subst_vars; exact h.2 rest rfl
          · cases hs

theorem noCont_more (L : Lawful u) (m : List (Bool × Str)) {rest : Str} (h : NoCont u rest) :
    NoCont u (moreText m ++ rest) := by
  cases m with
  | nil => exact h
  | cons p m =>
    obtain ⟨b, y⟩ := p
    intro c r e
    cases b with
    | false =>
      simp [moreText, pathSep] at e
      rw [← e.1, L.plain _ _ (by decide)]; decide
    | true =>
      simp [moreText, pathSep] at e
      rw [← e.1, L.plain _ _ (by decide)]; decide

theorem eats_Symbol (L : Lawful u) {p : Path} (hp : p.Ok u) {rest : Str} (hr : NoCont u rest)
    (hn : NoPath u rest) (hv : v.silent = false) :
    Eats u v (.call .Symbol) p.text rest (One .Symbol p.text fun _ => True) := by
  have hv' : ({ v with atomicity := Atomicity.compound } : Env).emits = true := by
    obtain ⟨a, b⟩ := v; simp only at hv; subst hv; rfl
  refine eats_call (eats_atomic (eats_rule hv' (eats_seq ?_)))
  have more : ∀ m : List (Bool × Str), (∀ q ∈ m, IsIdent u q.2) →
      Eats u { v with atomicity := Atomicity.compound } (.rep (.seq (.cat (.call .Proportion) (.call .SYMBOL))))
        (moreText m) rest fun _ => True := by
    intro m
    induction m with
    | nil => exact fun _ => (eats_rep_nil (fails_path L hn)).imp fun _ _ => trivial
    | cons q m ih =>
      intro hm
      have : moreText (q :: m) = (pathSep q.1 ++ q.2) ++ moreText m := by simp [moreText]
      rw [this]
      refine (eats_rep_cons (eats_seq (eats_cat (eats_Proportion hv' q.1 _)
        (eats_SYMBOL L hv' (hm q (by simp)) (noCont_more L m hr)))) (ih fun p hp => hm p (by simp [hp]))).imp ?_
      exact fun _ _ => trivial
  exact (eats_cat (eats_SYMBOL L hv' hp.1 (noCont_more L _ hr)) (more _ hp.2)).imp fun _ _ => trivial

/-! ### Integers -/

/-- A decimal digit. -/
def IsDigit (c : Char) : Prop := '0' ≤ c ∧ c ≤ '9'

/-- A numeral without leading zeros, not zero. -/
def IsPos (x : Str) : Prop := ∃ c r, x = c :: r ∧ '1' ≤ c ∧ c ≤ '9' ∧ ∀ d ∈ r, IsDigit d

/-- A numeral without leading zeros. -/
def IsInt (x : Str) : Prop := x = c!"0" ∨ IsPos x

theorem digit_cont (L : Lawful u) {c : Char} (h : IsDigit c) : u .xidContinue c = true := by
  have h2 : c.toNat ≤ 57 := h.2
  rw [L.plain c _ (.inl (by omega))]
  simp only [asciiUni, decide_eq_true_eq]
  exact .inr (.inr (.inl h))

/-- The text does not continue a numeral. -/
def NoDig (rest : Str) : Prop := ∀ c r, rest = c :: r → ¬ IsDigit c

theorem NoCont.noDig (L : Lawful u) {rest : Str} (h : NoCont u rest) : NoDig rest := by
  intro c r e hc
  have := h c r e
  rw [digit_cont L hc] at this
  cases this

/-- The letters of radix literals. -/
def radixLetters : List Char := ['b', 'B', 'o', 'O', 'x', 'X']

/-- What may follow the numeral `x`. -/
def IntEnd (x rest : Str) : Prop :=
  (x ≠ c!"0" → NoDig rest) ∧ (x = c!"0" → ∀ c r, rest = c :: r → c ∉ radixLetters)

theorem NoCont.intEnd (L : Lawful u) (x : Str) {rest : Str} (h : NoCont u rest) : IntEnd x rest := by
  refine ⟨fun _ => h.noDig L, fun _ c r e hc => ?_⟩
  have h1 := h c r e
  have key : ∀ c ∈ radixLetters, Plain c ∧ asciiUni .xidContinue c = true := by decide
  obtain ⟨h2, h3⟩ := key c hc
  rw [L.plain c _ h2, h3] at h1
  cases h1

theorem fails_digit {rest : Str} (h : NoDig rest) : Fails u v (.call .ASCII_DIGIT) rest := by
  refine fails_first (by decide) (by decide) (by decide) (by decide) ?_
  cases rest with
  | nil => rfl
  | cons c r =>
    have h1 := h c r rfl
    simp only [hits, gFirst, CS.has, List.any_cons, List.any_nil, Bool.or_false]
    cases hc : (decide ('0' ≤ c) && decide (c ≤ '9')) with
    | false => rfl
    | true =>
      simp only [Bool.and_eq_true, decide_eq_true_eq] at hc
      exact absurd hc h1

theorem eats_digits {rest : Str} (hr : NoDig rest) :
    ∀ r : Str, (∀ d ∈ r, IsDigit d) → Eats u v (.rep (.call .ASCII_DIGIT)) r rest Nil := by
  intro r
  induction r with
  | nil => intro _; exact eats_rep_nil (fails_digit hr)
  | cons c r ih =>
    intro h
    obtain ⟨h1, h2⟩ := h c (by simp)
    exact (eats_rep_cons (x := [c]) (eats_call (eats_range _ h1 h2))
      (ih fun d hd => h d (by simp [hd]))).imp fun q => then_nil

theorem eats_Positive_body {x rest : Str} (hx : IsPos x) (hr : NoDig rest) :
    Eats u v (.atomic .atomic (.seq (.cat (.call .ASCII_NONZERO_DIGIT) (.rep (.call .ASCII_DIGIT))))) x rest Nil := by
  obtain ⟨c, r, rfl, h1, h2, h3⟩ := hx
  exact eats_atomic (eats_seq ((eats_cat (x := [c]) (eats_call (eats_range _ h1 h2))
    (eats_digits hr r h3)).imp fun q => then_nil))

theorem eats_Positive_mute (hv : v.emits = false) {x rest : Str} (hx : IsPos x)
    (hr : NoDig rest) : Eats u v (.call .Positive) x rest Nil :=
  eats_call (eats_rule_mute hv (eats_Positive_body hx hr))

theorem eats_Positive (hv : v.emits = true) {x rest : Str} (hx : IsPos x)
    (hr : NoDig rest) : Eats u v (.call .Positive) x rest (One .Positive x Nil) :=
  eats_call (eats_rule hv (eats_Positive_body hx hr))

theorem IsPos.ne_zero {x : Str} (h : IsPos x) : x ≠ c!"0" := by
  rintro rfl
  obtain ⟨c, r, h1, h2, _⟩ := h
  cases h1
  revert h2; decide

theorem eats_Integer_body {x rest : Str} (hx : IsInt x) (hr : IntEnd x rest) :
    Eats u v (.atomic .atomic (.alt (.str c!"0") (.call .Positive))) x rest Nil := by
  apply eats_atomic
  rcases hx with rfl | hx
  · exact eats_alt_left (eats_str _ _)
  · refine eats_alt_right (fails_str ?_) (eats_Positive_mute (emits_atomic' v) hx (hr.1 hx.ne_zero))
    obtain ⟨c, r, rfl, h1, _, _⟩ := hx
    have : '0' ≠ c := by rintro rfl; revert h1; decide
    simp [strip, this]

theorem eats_Integer (hv : v.emits = true) {x rest : Str} (hx : IsInt x)
    (hr : IntEnd x rest) : Eats u v (.call .Integer) x rest (One .Integer x Nil) :=
  eats_call (eats_rule hv (eats_Integer_body hx hr))

/-- A numeral begins with a digit. -/
theorem IsInt.head {x : Str} (h : IsInt x) : ∃ c r, x = c :: r ∧ IsDigit c := by
  rcases h with rfl | ⟨c, r, rfl, h1, h2, _⟩
  · exact ⟨'0', [], rfl, by decide, by decide⟩
  · exact ⟨c, r, rfl, Char.le_trans (by decide) h1, h2⟩

/-- The ten digits. -/
def digitChars : List Char := ['0', '1', '2', '3', '4', '5', '6', '7', '8', '9']

theorem digit_mem {c : Char} (h : IsDigit c) : c ∈ digitChars := by
  have h1 : 48 ≤ c.toNat := h.1
  have h2 : c.toNat ≤ 57 := h.2
  have key : ∀ n : Fin 58, 48 ≤ n.1 → Char.ofNat n ∈ digitChars := by decide
  have := key ⟨c.toNat, by omega⟩ h1
  simpa using this

/-! ### Numbers -/

instance (c : Char) : Decidable (IsDigit c) := inferInstanceAs (Decidable (_ ∧ _))

theorem toLower_big {c : Char} (h : 128 ≤ c.toNat) : c.toLower = c := by
  unfold Char.toLower
  split
  · rename_i hz
    have h2 : c.toNat ≤ 90 := hz.2
    omega
  · rfl

/-- `0` not followed by the letter is not the start of a radix literal. -/
theorem stripInsens_radix {x rest : Str} (k : Char)
    (hk : ∀ n : Fin 128, k.toLower = (Char.ofNat n).toLower → Char.ofNat n ∈ radixLetters)
    (hk' : k.toLower.toNat < 128)
    (hx : IsInt x) (hr : IntEnd x rest) : stripInsens ['0', k] (x ++ rest) = none := by
  have key : ∀ c : Char, k.toLower = c.toLower → c ∈ radixLetters := by
    intro c hc
    by_cases hc' : c.toNat < 128
    · have := hk ⟨c.toNat, hc'⟩
      simp only [Char.ofNat_toNat] at this
      exact this hc
    · rw [toLower_big (c := c) (by omega)] at hc
      rw [hc] at hk'
      exact absurd hk' hc'
  rcases hx with rfl | ⟨c, r, rfl, h1, h2, h3⟩
  · cases rest with
    | nil => simp [stripInsens]
    | cons d t =>
      have : ¬ k.toLower = d.toLower := fun e => hr.2 rfl d t rfl (key d e)
      simp [stripInsens, this]
  · have : ¬ '0'.toLower = c.toLower := by
      intro e
      have := toLower_eq_zero e
      subst this
      revert h1; decide
    have h0 : ¬ '0' = c.toLower := this
    simp [stripInsens, h0]

/-- A numeral not followed by a radix letter is not a radix literal. -/
theorem fails_Byte {x rest : Str} (hx : IsInt x) (hr : IntEnd x rest) :
    Fails u v (.call .Byte) (x ++ rest) := by
  refine fails_call (fails_atomic (fails_rule (fails_alt (fails_alt ?_ ?_) ?_))) <;>
    refine fails_seq (breaks_cat (breaks_cat (fails_insens ?_).breaks))
  · exact stripInsens_radix 'b' (by decide) (by decide) hx hr
  · exact stripInsens_radix 'o' (by decide) (by decide) hx hr
  · exact stripInsens_radix 'x' (by decide) (by decide) hx hr

theorem fails_Integer {txt : Str} (h : ∀ c r, txt = c :: r → ¬ IsDigit c) :
    Fails u v (.call .Integer) txt := by
  refine fails_first (by decide) (by decide) (by decide) (by decide) ?_
  cases txt with
  | nil => rfl
  | cons c r =>
    have hc := h c r rfl
    simp only [hits, gFirst, CS.has, List.any_cons, List.any_nil, Bool.or_false, Bool.or_eq_false_iff,
      Bool.and_eq_false_iff, decide_eq_false_iff_not]
    refine ⟨fun e => hc (e ▸ by decide), ?_⟩
    by_cases h1 : '1' ≤ c
    · exact .inr fun h2 => hc ⟨Char.le_trans (by decide) h1, h2⟩
    · exact .inl h1

theorem eats_Dot (hv : v.emits = true) (rest : Str) :
    Eats u v (.call .Dot) c!"." rest (One .Dot c!"." Nil) := eats_tok rfl hv rest

/-- An integer not followed by a fraction is not a decimal. -/
theorem fails_Decimal (hv : v.silent = false) {x rest : Str} (hx : IsInt x)
    (hr : IntEnd x rest) (hd : NoDec rest) : Fails u v (.call .Decimal) (x ++ rest) := by
  have hv' : ({ v with atomicity := Atomicity.compound } : Env).emits = true := by
    obtain ⟨a, b⟩ := v; simp only at hv; subst hv; rfl
  refine fails_call (fails_atomic (fails_rule (fails_seq ?_)))
  by_cases h : ∃ r, rest = '.' :: r
  · obtain ⟨r, rfl⟩ := h
    have e : x ++ '.' :: r = (x ++ ['.']) ++ r := by simp
    rw [e]
    refine breaks_cat_right (eats_cat (eats_Integer hv' hx hr) (eats_Dot hv' r)) (fails_Integer ?_).breaks
    intro c t e
    exact hd c t (by rw [e])
  · refine breaks_cat (breaks_cat_right (eats_Integer hv' hx hr) (Fails.breaks ?_))
    refine fails_tok (x := c!".") rfl ?_
    cases rest with
    | nil => rfl
    | cons c r =>
      have : '.' ≠ c := fun e => h ⟨r, by rw [e]⟩
      simp [strip, this]

/-- `Number` on an integer. -/
theorem eats_Number_int (hv : v.emits = true) {x rest : Str} (hx : IsInt x)
    (hr : IntEnd x rest) (hd : NoDec rest) :
    Eats u v (.call .Number) x rest (One .Integer x Nil) := by
  have hs : v.silent = false := by
    obtain ⟨a, b⟩ := v; cases b <;> simp_all [Env.emits]
  exact eats_call (eats_alt_right (fails_alt (fails_Byte hx hr) (fails_Decimal hs hx hr hd))
    (eats_Integer hv hx hr))

theorem noCont_dot (L : Lawful u) (r : Str) : NoCont u ('.' :: r) := by
  intro c t e
  cases e
  rw [L.plain _ _ (by decide)]; decide

/-- `Number` on a decimal. -/
theorem eats_Number_dec (L : Lawful u) (hv : v.emits = true) {x y rest : Str} (hx : IsInt x) (hy : IsInt y)
    (hr : IntEnd y rest) :
    Eats u v (.call .Number) (x ++ '.' :: y) rest (One .Decimal (x ++ '.' :: y) fun _ => True) := by
  have hs : v.silent = false := by
    obtain ⟨a, b⟩ := v; cases b <;> simp_all [Env.emits]
  have hv' : ({ v with atomicity := Atomicity.compound } : Env).emits = true := by
    obtain ⟨a, b⟩ := v; simp only at hs; subst hs; rfl
  refine eats_call (eats_alt_left (eats_alt_right ?_ ?_))
  · have e : (x ++ '.' :: y) ++ rest = x ++ ('.' :: y ++ rest) := by simp
    rw [e]
    exact fails_Byte hx ((noCont_dot L _).intEnd L x)
  · refine eats_call (eats_atomic (eats_rule hv' (eats_seq ?_)))
    have e : x ++ '.' :: y = (x ++ ['.']) ++ y := by simp
    rw [e]
    exact (eats_cat (eats_cat (eats_Integer hv' hx ((noCont_dot L _).intEnd L x)) (eats_Dot hv' _))
      (eats_Integer hv' hy hr)).imp fun _ _ => trivial

end SM.Props
