import Verif.Props.Calc
/-
Characters and blank space.
-/
namespace SM.Props
open SM SM.Peg

/-! ### Unicode tables -/

/-- The Unicode properties restricted to ASCII. -/
def asciiUni : Uni
  | .xidStart, c => decide (('a' ≤ c ∧ c ≤ 'z') ∨ ('A' ≤ c ∧ c ≤ 'Z'))
  | .xidContinue, c =>
    decide (('a' ≤ c ∧ c ≤ 'z') ∨ ('A' ≤ c ∧ c ≤ 'Z') ∨ ('0' ≤ c ∧ c ≤ '9') ∨ c = '_')
  | .whiteSpace, c => decide (c ∈ ['\t', '\n', '\x0b', '\x0c', '\x0d', ' '])

/-- The operators and separators of the grammar outside ASCII. -/
def marks : List Char := ['×', '÷', '⋅', '⊗', '⊙', '¶', '⁋', '，', '：', '；', '∷', '¬']

/-- A character on which all lawful tables agree. -/
def Plain (c : Char) : Prop := c.toNat < 128 ∨ c ∈ marks

instance (c : Char) : Decidable (Plain c) := inferInstanceAs (Decidable (_ ∨ _))

/-- What is assumed of the Unicode tables, all of it true of the Unicode standard: they are right on
ASCII and on the operators of the grammar, identifiers may continue with any character they may start
with, and no identifier character is white space. -/
structure Lawful (u : Uni) : Prop where
  plain : ∀ c p, Plain c → u p c = asciiUni p c
  start_cont : ∀ c, u .xidStart c = true → u .xidContinue c = true
  cont_ws : ∀ c, u .xidContinue c = true → u .whiteSpace c = false

/-- The assumptions are consistent. -/
theorem lawful_asciiUni : Lawful asciiUni where
  plain _ _ _ := rfl
  start_cont c h := by
    simp only [asciiUni, decide_eq_true_eq] at h ⊢
    rcases h with h | h
    · exact .inl h
    · exact .inr (.inl h)
  cont_ws c h := by
    simp only [asciiUni, decide_eq_true_eq, decide_eq_false_iff_not] at h ⊢
    intro hm
    simp only [List.mem_cons, List.not_mem_nil, or_false] at hm
    rcases hm with rfl | rfl | rfl | rfl | rfl | rfl <;> revert h <;> decide

variable {u : Uni} {v : Env}

theorem Lawful.has (L : Lawful u) {c : Char} (hc : Plain c) (x : CS) : x.has u c = x.has asciiUni c := by
  cases x <;> try rfl
  exact L.plain c _ hc

theorem Lawful.hits (L : Lawful u) {c : Char} (hc : Plain c) (F : List CS) (r : Str) :
    hits u F (c :: r) = F.any (fun x => x.has asciiUni c) := by
  simp only [SM.Props.hits, L.has hc]

/-- The function of the rule cannot begin with this character. -/
def noStart (r : R) (c : Char) : Bool :=
  decide (gReq r = 0) && !gNul r && decide (r ≠ .POP) && decide (r ≠ .StringBlock) && decide (Plain c) &&
    !(gFirst r).any (fun x => x.has asciiUni c)

/-- A rule fails on a text it cannot begin with. -/
theorem fails_plain (L : Lawful u) {r : R} {c : Char} (h : noStart r c = true) (txt : Str) :
    Fails u v (.call r) (c :: txt) := by
  simp only [noStart, Bool.and_eq_true, decide_eq_true_eq, Bool.not_eq_true'] at h
  obtain ⟨⟨⟨⟨⟨h1, h2⟩, h3⟩, h4⟩, h5⟩, h6⟩ := h
  exact fails_first h1 h2 h3 h4 (by rw [L.hits h5]; exact h6)

/-- A rule that cannot succeed without consuming fails at the end. -/
def noEmpty (r : R) : Bool :=
  decide (gReq r = 0) && !gNul r && decide (r ≠ .POP) && decide (r ≠ .StringBlock)

theorem fails_nil {r : R} (h : noEmpty r = true) : Fails u v (.call r) [] := by
  simp only [noEmpty, Bool.and_eq_true, decide_eq_true_eq, Bool.not_eq_true'] at h
  obtain ⟨⟨⟨h1, h2⟩, h3⟩, h4⟩ := h
  exact fails_first h1 h2 h3 h4 rfl

/-- The text is empty or begins with one of the characters. -/
def HeadIn (S : List Char) (txt : Str) : Prop := txt = [] ∨ ∃ c r, txt = c :: r ∧ c ∈ S

/-- A rule fails on texts that begin with none of its first characters. -/
theorem fails_head (L : Lawful u) {r : R} {S : List Char} {txt : Str} (ht : HeadIn S txt)
    (h0 : noEmpty r = true) (h : ∀ c ∈ S, noStart r c = true) : Fails u v (.call r) txt := by
  rcases ht with rfl | ⟨c, t, rfl, hc⟩
  · exact fails_nil h0
  · exact fails_plain L (h c hc) t

theorem HeadIn.mono {S T : List Char} {txt : Str} (h : HeadIn S txt) (hst : ∀ c ∈ S, c ∈ T) :
    HeadIn T txt := by
  rcases h with rfl | ⟨c, r, rfl, hc⟩
  · exact .inl rfl
  · exact .inr ⟨c, r, rfl, hst c hc⟩

/-! ### Identifiers -/

/-- A character an identifier may start with. -/
def IdStart (u : Uni) (c : Char) : Prop := u .xidStart c = true ∨ c = '_'

/-- First characters that do not occur at the start of identifiers. -/
def notId : CS → Bool
  | .chr d => decide (Plain d) && !asciiUni .xidStart d && decide (d ≠ '_')
  | .insens d => decide (d = '0')
  | .rng a b => decide ('0' ≤ a) && decide (b ≤ '9')
  | .uc p => decide (p = .whiteSpace)
  | .all => false

theorem idStart_cont (L : Lawful u) {c : Char} (hc : IdStart u c) : u .xidContinue c = true := by
  rcases hc with hc | rfl
  · exact L.start_cont c hc
  · rw [L.plain '_' _ (by decide)]; decide

theorem idStart_not_digit (L : Lawful u) {c : Char} (hc : IdStart u c) : ¬ ('0' ≤ c ∧ c ≤ '9') := by
  intro ⟨h1, h2⟩
  have h2' : c.toNat ≤ 57 := h2
  rcases hc with hc | rfl
  · rw [L.plain c _ (.inl (by omega))] at hc
    simp only [asciiUni, decide_eq_true_eq] at hc
    rcases hc with ⟨h3, _⟩ | ⟨h3, _⟩
    · have : (97 : Nat) ≤ c.toNat := h3
      omega
    · have : (65 : Nat) ≤ c.toNat := h3
      omega
  · exact absurd h2 (by decide)

theorem toLower_small : ∀ n : Fin 128, (Char.ofNat n).toLower = '0' → Char.ofNat n = '0' := by decide

theorem toLower_eq_zero {c : Char} (h : '0'.toLower = c.toLower) : c = '0' := by
  have h' : c.toLower = '0' := by rw [← h]; decide
  by_cases hc : c.toNat < 128
  · have := toLower_small ⟨c.toNat, hc⟩
    simp only [Char.ofNat_toNat] at this
    exact this h'
  · unfold Char.toLower at h'
    split at h'
    · rename_i hz
      have h2 : c.toNat ≤ 90 := hz.2
      omega
    · exact h'

theorem notId_has (L : Lawful u) {c : Char} (hc : IdStart u c) {x : CS} (hx : notId x = true) :
    x.has u c = false := by
  cases x with
  | chr d =>
    simp only [notId, Bool.and_eq_true, decide_eq_true_eq, Bool.not_eq_true'] at hx
    obtain ⟨⟨h1, h2⟩, h3⟩ := hx
    simp only [CS.has, decide_eq_false_iff_not]
    rintro rfl
    rcases hc with hc | hc
    · rw [L.plain d _ h1, h2] at hc; cases hc
    · exact h3 hc
  | insens d =>
    simp only [notId, decide_eq_true_eq] at hx
    subst hx
    simp only [CS.has, decide_eq_false_iff_not]
    intro h
    have := toLower_eq_zero h
    subst this
    exact idStart_not_digit L hc (by decide)
  | rng a b =>
    simp only [notId, Bool.and_eq_true, decide_eq_true_eq] at hx
    simp only [CS.has, Bool.and_eq_false_iff, decide_eq_false_iff_not]
    by_cases h1 : a ≤ c
    · right
      intro h2
      exact idStart_not_digit L hc ⟨Char.le_trans hx.1 h1, Char.le_trans h2 hx.2⟩
    · exact .inl h1
  | uc p =>
    simp only [notId, decide_eq_true_eq] at hx
    subst hx
    exact L.cont_ws c (idStart_cont L hc)
  | all => cases hx

/-- The function of the rule cannot begin with an identifier. -/
def noId (r : R) : Bool := noEmpty r && (gFirst r).all notId

theorem fails_id (L : Lawful u) {r : R} {c : Char} (hc : IdStart u c) (h : noId r = true) (txt : Str) :
    Fails u v (.call r) (c :: txt) := by
  simp only [noId, noEmpty, Bool.and_eq_true, decide_eq_true_eq, Bool.not_eq_true', List.all_eq_true] at h
  obtain ⟨⟨⟨⟨h1, h2⟩, h3⟩, h4⟩, h5⟩ := h
  refine fails_first h1 h2 h3 h4 ?_
  simp only [hits, List.any_eq_false, Bool.not_eq_true]
  intro x hx
  exact notId_has L hc (h5 x hx)

/-! ### White space -/

/-- White space, line ends included. -/
def Ws (u : Uni) (c : Char) : Prop := u .whiteSpace c = true

theorem ws_newline (L : Lawful u) : Ws u '\n' := by
  unfold Ws; rw [L.plain _ _ (by decide)]; decide

theorem ws_return (L : Lawful u) : Ws u '\x0d' := by
  unfold Ws; rw [L.plain _ _ (by decide)]; decide

/-- The text does not begin with white space. -/
def NoWs (u : Uni) (txt : Str) : Prop := ∀ c r, txt = c :: r → ¬ Ws u c

theorem fails_ws (L : Lawful u) {txt : Str} (h : NoWs u txt) : Fails u v (.call .WHITESPACE) txt := by
  cases txt with
  | nil => exact fails_nil (by decide)
  | cons c r =>
    have hc := h c r rfl
    refine fails_first (by decide) (by decide) (by decide) (by decide) ?_
    have h1 : c ≠ '\n' := fun e => hc (e ▸ ws_newline L)
    have h2 : c ≠ '\x0d' := fun e => hc (e ▸ ws_return L)
    have h3 : u .whiteSpace c = false := by simpa [Ws] using hc
    simp [hits, gFirst, CS.has, h3, Ne.symm h1, Ne.symm h2]

theorem eats_ws_char {c : Char} (rest : Str) (hc : Ws u c) (h1 : c ≠ '\n') (h2 : c ≠ '\x0d') :
    Eats u v (.call .WHITESPACE) [c] rest Nil := by
  apply eats_call
  show Eats u v body_WHITESPACE [c] rest Nil
  unfold body_WHITESPACE
  apply eats_atomic
  apply eats_alt_right
  · apply fails_call
    show Fails _ _ body_NEWLINE _
    unfold body_NEWLINE
    refine fails_alt (fails_alt (fails_str ?_) (fails_str ?_)) (fails_str ?_) <;>
      simp [strip, Ne.symm h1, Ne.symm h2]
  · apply eats_call
    show Eats _ _ body_WHITE_SPACE _ _ _
    exact eats_uni rest hc

theorem eats_newline (rest : Str) : Eats u v (.call .NEWLINE) ['\n'] rest Nil := by
  apply eats_call
  show Eats _ _ body_NEWLINE _ _ _
  exact eats_alt_left (eats_alt_left (eats_str _ rest))

theorem eats_return_newline (rest : Str) : Eats u v (.call .NEWLINE) ['\x0d', '\n'] rest Nil := by
  apply eats_call
  show Eats _ _ body_NEWLINE _ _ _
  exact eats_alt_left (eats_alt_right (fails_str (by simp [strip])) (eats_str _ rest))

theorem eats_return {rest : Str} (h : ∀ r, rest ≠ '\n' :: r) :
    Eats u v (.call .NEWLINE) ['\x0d'] rest Nil := by
  apply eats_call
  show Eats _ _ body_NEWLINE _ _ _
  refine eats_alt_right (fails_alt (fails_str (by simp [strip])) (fails_str ?_)) (eats_str _ rest)
  cases rest with
  | nil => simp [strip]
  | cons c r =>
    have : '\n' ≠ c := fun e => h r (by rw [e])
    simp [strip, this]

theorem eats_ws_line {x rest : Str} (h : ∀ w, Eats u w (.call .NEWLINE) x rest Nil) :
    Eats u v (.call .WHITESPACE) x rest Nil := by
  apply eats_call
  show Eats u v body_WHITESPACE _ _ _
  exact eats_atomic (eats_alt_left (h _))

theorem then_nil {q : List (Pair R)} (h : Then Nil Nil q) : Nil q := by
  obtain ⟨a, b, rfl, h1, h2⟩ := h
  rw [show a = [] from h1, show b = [] from h2]
  rfl

/-- A run of white space. -/
theorem eats_ws_run (L : Lawful u) {rest : Str} (hr : NoWs u rest) :
    ∀ (n : Nat) (w : Str), w.length ≤ n → (∀ c ∈ w, Ws u c) →
      Eats u v (.rep (.call .WHITESPACE)) w rest Nil := by
  intro n
  induction n with
  | zero =>
    intro w hw _
    have : w = [] := List.length_eq_zero_iff.1 (by omega)
    subst this
    exact eats_rep_nil (fails_ws L hr)
  | succ n ih =>
    intro w hw hc
    cases w with
    | nil => exact eats_rep_nil (fails_ws L hr)
    | cons c w =>
      have hw' : w.length ≤ n := by simpa using hw
      have step : ∀ x y, c :: w = x ++ y → x ≠ [] → Eats u v (.call .WHITESPACE) x (y ++ rest) Nil →
          Eats u v (.rep (.call .WHITESPACE)) (c :: w) rest Nil := by
        intro x y hxy hx h
        rw [hxy]
        have hl : y.length ≤ n := by
          have := congrArg List.length hxy
          have hx' := List.length_pos_iff.2 hx
          simp at this
          omega
        exact (eats_rep_cons h (ih y hl (fun d hd => hc d (by rw [hxy]; simp [hd])))).imp fun q => then_nil
      by_cases h1 : c = '\n'
      · subst h1
        exact step ['\n'] w rfl (by simp) (eats_ws_line fun _ => eats_newline _)
      · by_cases h2 : c = '\x0d'
        · subst h2
          by_cases h3 : ∃ w', w = '\n' :: w'
          · obtain ⟨w', rfl⟩ := h3
            exact step ['\x0d', '\n'] w' rfl (by simp) (eats_ws_line fun _ => eats_return_newline _)
          · refine step ['\x0d'] w rfl (by simp) (eats_ws_line fun _ => eats_return ?_)
            intro r e
            cases w with
            | nil => exact hr '\n' r e (ws_newline L)
            | cons d w =>
              simp only [List.cons_append, List.cons.injEq] at e
              exact h3 ⟨w, by rw [e.1]⟩
        · exact step [c] w rfl (by simp) (eats_ws_char _ (hc c (by simp)) h1 h2)

/-! ### Comments -/

/-- The text does not begin with a comment. -/
def NoComment (txt : Str) : Prop :=
  strip c!"%%%" txt = none ∧ strip c!"///" txt = none ∧ strip c!"//?" txt = none ∧
    strip c!"//!" txt = none ∧ strip c!"//*" txt = none

theorem fails_comment {txt : Str} (h : NoComment txt) : Fails u v (.call .COMMENT) txt := by
  obtain ⟨h1, h2, h3, h4, h5⟩ := h
  apply fails_call
  show Fails u v body_COMMENT txt
  unfold body_COMMENT
  apply fails_atomic
  refine fails_alt (fails_alt (fails_alt (fails_alt ?_ ?_) ?_) ?_) ?_
  · apply fails_call
    show Fails _ _ body_MultiLineComment _
    unfold body_MultiLineComment
    exact fails_atomic (fails_rule (fails_seq (breaks_cat (breaks_cat (fails_str h1).breaks))))
  · exact fails_seq (breaks_cat (fails_str h2).breaks)
  · exact fails_seq (breaks_cat (fails_str h3).breaks)
  · exact fails_seq (breaks_cat (fails_str h4).breaks)
  · exact fails_seq (breaks_cat (fails_str h5).breaks)

theorem noComment_head {S : List Char} {txt : Str} (h : HeadIn S txt) (h1 : '%' ∉ S) (h2 : '/' ∉ S) :
    NoComment txt := by
  rcases h with rfl | ⟨c, r, rfl, hc⟩
  · exact ⟨rfl, rfl, rfl, rfl, rfl⟩
  · have e1 : '%' ≠ c := fun e => h1 (e ▸ hc)
    have e2 : '/' ≠ c := fun e => h2 (e ▸ hc)
    refine ⟨?_, ?_, ?_, ?_, ?_⟩ <;> simp [strip, e1, e2]

theorem noComment_cons {c : Char} {txt : Str} (h1 : c ≠ '%') (h2 : c ≠ '/') : NoComment (c :: txt) := by
  refine ⟨?_, ?_, ?_, ?_, ?_⟩ <;> simp [strip, h1.symm, h2.symm]

/-- A line comment, up to the end of the line. -/
structure LineComment where
  /-- the third character: one of `/ ? ! *` -/
  kind : Char
  body : Str
  /-- the line end and the white space after it -/
  after : Str

/-- The text of a line comment and the white space after it. -/
def LineComment.text (k : LineComment) : Str := '/' :: '/' :: k.kind :: (k.body ++ k.after)

/-- A well-formed line comment. -/
structure LineComment.Ok (u : Uni) (k : LineComment) : Prop where
  kind : k.kind ∈ ['/', '?', '!', '*']
  body : ∀ c ∈ k.body, c ≠ '\n' ∧ c ≠ '\x0d'
  ends : ∃ c r, k.after = c :: r ∧ (c = '\n' ∨ c = '\x0d')
  ws : ∀ c ∈ k.after, Ws u c

/-- Blank text: white space and line comments. -/
def Blank (u : Uni) (w : Str) : Prop :=
  ∃ (r : Str) (ks : List LineComment), w = r ++ ks.flatMap LineComment.text ∧ (∀ c ∈ r, Ws u c) ∧
    ∀ k ∈ ks, k.Ok u

theorem blank_ws {w : Str} (h : ∀ c ∈ w, Ws u c) : Blank u w :=
  ⟨w, [], by simp, h, by simp⟩

theorem blank_nil : Blank u [] := blank_ws (by simp)

/-- The rest of a line. -/
theorem eats_line {rest : Str} (hr : Fails u v (.seq (.cat (.look false (.call .NEWLINE)) (.call .ANY))) rest) :
    ∀ (x : Str), (∀ c ∈ x, c ≠ '\n' ∧ c ≠ '\x0d') →
      Eats u v (.rep (.seq (.cat (.look false (.call .NEWLINE)) (.call .ANY)))) x rest Nil := by
  intro x
  induction x with
  | nil => intro _; exact eats_rep_nil hr
  | cons c x ih =>
    intro h
    obtain ⟨h1, h2⟩ := h c (by simp)
    have step : Eats u v (.seq (.cat (.look false (.call .NEWLINE)) (.call .ANY))) [c] (x ++ rest) Nil := by
      apply eats_seq
      refine ((eats_cat (x := []) (y := [c]) (eats_not ?_) (eats_call (eats_any c _))).imp fun q => then_nil)
      apply fails_call
      show Fails _ _ body_NEWLINE _
      unfold body_NEWLINE
      refine fails_alt (fails_alt (fails_str ?_) (fails_str ?_)) (fails_str ?_) <;>
        simp [strip, Ne.symm h1, Ne.symm h2]
    exact (eats_rep_cons step (ih fun d hd => h d (by simp [hd]))).imp fun q => then_nil

/-- A line end stops a line. -/
theorem fails_line_end {c : Char} {r : Str} (hc : c = '\n' ∨ c = '\x0d') :
    Fails u v (.seq (.cat (.look false (.call .NEWLINE)) (.call .ANY))) (c :: r) := by
  apply fails_seq
  apply breaks_cat
  apply Fails.breaks
  rcases hc with rfl | rfl
  · exact fails_not (x := ['\n']) (rest := r) (eats_newline r)
  · by_cases h : ∃ r', r = '\n' :: r'
    · obtain ⟨r', rfl⟩ := h
      exact fails_not (x := ['\x0d', '\n']) (rest := r') (eats_return_newline r')
    · exact fails_not (x := ['\x0d']) (rest := r) (eats_return fun r' e => h ⟨r', e⟩)

/-- The comment itself. -/
theorem eats_comment {k : Char} (hk : k ∈ ['/', '?', '!', '*']) {body : Str}
    (hb : ∀ c ∈ body, c ≠ '\n' ∧ c ≠ '\x0d') {c : Char} {r : Str} (hc : c = '\n' ∨ c = '\x0d') :
    Eats u v (.call .COMMENT) ('/' :: '/' :: k :: body) (c :: r) Nil := by
  have line : ∀ w, Eats u w (.seq (.cat (.str ['/', '/', k])
      (.rep (.seq (.cat (.look false (.call .NEWLINE)) (.call .ANY)))))) ('/' :: '/' :: k :: body) (c :: r) Nil :=
    fun w => eats_seq ((eats_cat (x := ['/', '/', k]) (eats_str _ _)
      (eats_line (fails_line_end hc) body hb)).imp fun q => then_nil)
  have no : ∀ (w : Env) (j : Char), j ≠ k → Fails u w (.seq (.cat (.str ['/', '/', j])
      (.rep (.seq (.cat (.look false (.call .NEWLINE)) (.call .ANY)))))) ('/' :: '/' :: k :: body ++ c :: r) :=
    fun w j hj => fails_seq (breaks_cat (fails_str (by simp [strip, hj])).breaks)
  have multi : ∀ w, Fails u w (.call .MultiLineComment) ('/' :: '/' :: k :: body ++ c :: r) := by
    intro w
    apply fails_call
    show Fails _ _ body_MultiLineComment _
    unfold body_MultiLineComment
    exact fails_atomic (fails_rule (fails_seq (breaks_cat (breaks_cat (fails_str (by simp [strip])).breaks))))
  apply eats_call
  show Eats u v body_COMMENT _ _ _
  unfold body_COMMENT
  apply eats_atomic
  simp only [List.mem_cons, List.not_mem_nil, or_false] at hk
  rcases hk with rfl | rfl | rfl | rfl
  · exact eats_alt_left (eats_alt_left (eats_alt_left (eats_alt_right (multi _) (line _))))
  · exact eats_alt_left (eats_alt_left (eats_alt_right (fails_alt (multi _) (no _ '/' (by decide))) (line _)))
  · exact eats_alt_left (eats_alt_right (fails_alt (fails_alt (multi _) (no _ '/' (by decide)))
      (no _ '?' (by decide))) (line _))
  · exact eats_alt_right (fails_alt (fails_alt (fails_alt (multi _) (no _ '/' (by decide)))
      (no _ '?' (by decide))) (no _ '!' (by decide))) (line _)

/-- What stops blank space. -/
def Solid (u : Uni) (txt : Str) : Prop := NoWs u txt ∧ NoComment txt

theorem eats_skip (L : Lawful u) (hv : v.atomicity = .non) {w rest : Str} (hw : Blank u w)
    (hr : Solid u rest) : Eats u v (.call .skip) w rest Nil := by
  obtain ⟨r, ks, rfl, hr1, hks⟩ := hw
  obtain ⟨h1, h2⟩ := hr
  apply eats_call
  show Eats u v body_skip _ _ _
  unfold body_skip
  apply eats_ifNon hv
  apply eats_seq
  have noWs : NoWs u (ks.flatMap LineComment.text ++ rest) := by
    cases ks with
    | nil => exact h1
    | cons k ks =>
      intro c t e
      simp only [List.flatMap_cons, LineComment.text, List.cons_append, List.cons.injEq] at e
      obtain ⟨rfl, _⟩ := e
      unfold Ws
      rw [L.plain _ _ (by decide)]
      decide
  refine (eats_cat (eats_ws_run L noWs _ r (Nat.le_refl _) hr1) ?_).imp fun q => then_nil
  clear noWs hr1
  induction ks with
  | nil => exact eats_rep_nil (fails_seq (breaks_cat (fails_comment h2).breaks))
  | cons k ks ih =>
    obtain ⟨hk1, hk2, ⟨c, t, hk3, hk4⟩, hk5⟩ := hks k (by simp)
    have noWs : NoWs u (ks.flatMap LineComment.text ++ rest) := by
      cases ks with
      | nil => exact h1
      | cons k' ks =>
        intro c t e
        simp only [List.flatMap_cons, LineComment.text, List.cons_append, List.cons.injEq] at e
        obtain ⟨rfl, _⟩ := e
        unfold Ws
        rw [L.plain _ _ (by decide)]
        decide
    rw [List.flatMap_cons]
    refine (eats_rep_cons ?_ (ih fun k' hk' => hks k' (by simp [hk']))).imp fun q => then_nil
    apply eats_seq
    have e : k.text = ('/' :: '/' :: k.kind :: k.body) ++ k.after := by simp [LineComment.text]
    rw [e]
    refine (eats_cat ?_ (eats_ws_run L noWs _ k.after (Nat.le_refl _) hk5)).imp fun q => then_nil
    rw [hk3]
    exact eats_comment hk1 hk2 hk4

end SM.Props
