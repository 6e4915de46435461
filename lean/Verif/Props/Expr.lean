import Verif.Props.Term
import Verif.Props.Prec
/-
Expressions: terms with infix operators between them.
-/
namespace SM.Props
open SM SM.Peg

variable {u : Uni} {v : Env}

/-! ### Infix operators -/

/-- The infix operators of the grammar that can be written: those the expression parser knows, and those it does
not know. -/
inductive Tok where
  | op (o : Op) | set | center | kron | tensor | modulo | greater
  deriving DecidableEq

/-- How an infix operator is written. -/
def Tok.char : Tok → Char
  | .op .plus => '+'
  | .op .minus => '-'
  | .op .star => '*'
  | .op .cross => '×'
  | .op .slash => '/'
  | .op .obelus => '÷'
  | .op .caret => '^'
  | .op .dot => '.'
  | .set => '='
  | .center => '⋅'
  | .kron => '⊗'
  | .tensor => '⊙'
  | .modulo => '%'
  | .greater => '>'

/-- The rule of an infix operator. -/
def Tok.rule : Tok → R
  | .op o => o.rule
  | .set => .Set
  | .center => .CenterDot
  | .kron => .Kronecker
  | .tensor => .TensorProduct
  | .modulo => .Modulo
  | .greater => .Grater

theorem op_text (o : Op) : o.text = [(Tok.op o).char] := by cases o <;> rfl

/-- Every infix operator, whatever follows it. -/
theorem eats_Infix (L : Lawful u) (hv : v.emits = true) (t : Tok) (rest : Str) :
    Eats u v (.call .Infix) [t.char] rest (One t.rule [t.char] Nil) := by
  have hv' := emits_atomic' v
  have no : ∀ {r : R}, noStart r t.char = true → Fails u v (.call r) ([t.char] ++ rest) :=
    fun h => fails_plain L h rest
  have no' : ∀ {w : Env} {r : R}, noStart r t.char = true → Fails u w (.call r) ([t.char] ++ rest) :=
    fun h => fails_plain L h rest
  apply eats_call
  show Eats u v body_Infix _ _ _
  unfold body_Infix
  -- how many alternatives are tried after the operator's own
  cases t with
  | op o =>
    cases o with
    | plus =>
      iterate 13 apply eats_alt_left
      exact eats_alt_right (no (by decide)) (eats_tok rfl hv rest)
    | minus =>
      iterate 12 apply eats_alt_left
      exact eats_alt_right (fails_alt (no (by decide)) (no (by decide))) (eats_tok rfl hv rest)
    | star =>
      iterate 11 apply eats_alt_left
      exact eats_alt_right (fails_alt (fails_alt (no (by decide)) (no (by decide))) (no (by decide)))
        (eats_call (eats_rule hv (eats_atomic (eats_alt_left (eats_tok_mute rfl hv' rest)))))
    | cross =>
      iterate 11 apply eats_alt_left
      exact eats_alt_right (fails_alt (fails_alt (no (by decide)) (no (by decide))) (no (by decide)))
        (eats_call (eats_rule hv (eats_atomic (eats_alt_right (no' (by decide)) (eats_str _ rest)))))
    | slash =>
      iterate 7 apply eats_alt_left
      refine eats_alt_right ?_ (eats_call (eats_rule hv (eats_atomic (eats_alt_left (eats_tok_mute rfl hv' rest)))))
      iterate 6 refine fails_alt ?_ (no (by decide))
      exact no (by decide)
    | obelus =>
      iterate 7 apply eats_alt_left
      refine eats_alt_right ?_ (eats_call (eats_rule hv (eats_atomic (eats_alt_right (no' (by decide))
        (eats_str _ rest)))))
      iterate 6 refine fails_alt ?_ (no (by decide))
      exact no (by decide)
    | caret =>
      iterate 4 apply eats_alt_left
      refine eats_alt_right ?_ (eats_tok rfl hv rest)
      iterate 9 refine fails_alt ?_ (no (by decide))
      exact no (by decide)
    | dot =>
      refine eats_alt_right ?_ (eats_tok rfl hv rest)
      iterate 13 refine fails_alt ?_ (no (by decide))
      exact no (by decide)
  | set =>
    iterate 14 apply eats_alt_left
    exact eats_tok rfl hv rest
  | center =>
    iterate 10 apply eats_alt_left
    refine eats_alt_right ?_ (eats_tok rfl hv rest)
    iterate 3 refine fails_alt ?_ (no (by decide))
    exact no (by decide)
  | kron =>
    iterate 9 apply eats_alt_left
    refine eats_alt_right ?_ (eats_tok rfl hv rest)
    iterate 4 refine fails_alt ?_ (no (by decide))
    exact no (by decide)
  | tensor =>
    iterate 8 apply eats_alt_left
    refine eats_alt_right ?_ (eats_tok rfl hv rest)
    iterate 5 refine fails_alt ?_ (no (by decide))
    exact no (by decide)
  | modulo =>
    iterate 5 apply eats_alt_left
    refine eats_alt_right ?_ (eats_tok rfl hv rest)
    iterate 8 refine fails_alt ?_ (no (by decide))
    exact no (by decide)
  | greater =>
    iterate 3 apply eats_alt_left
    refine eats_alt_right ?_ (eats_tok rfl hv rest)
    iterate 10 refine fails_alt ?_ (no (by decide))
    exact no (by decide)

/-! ### Operators with operands -/

/-- Blank space, an infix operator, blank space, and a term. -/
structure Piece where
  wb : Str
  tok : Tok
  wa : Str
  num : Bool
  x : Str
  d : Option AST

/-- The text of operators and operands. -/
def piecesText : List Piece → Str
  | [] => []
  | p :: l => p.wb ++ (p.tok.char :: (p.wa ++ (p.x ++ piecesText l)))

/-- What is needed where an operator follows an operand: an integer is not continued as a decimal. -/
def DotOk (num : Bool) : List Piece → Prop
  | [] => True
  | p :: _ => num = true → p.wb = [] → p.tok = .op .dot → ∀ c r, p.wa ++ p.x = c :: r → ¬ IsDigit c

/-- Operators and operands that can follow an operand. -/
def PiecesOk (u : Uni) : Bool → List Piece → Prop
  | _, [] => True
  | num, p :: l => DotOk num (p :: l) ∧ Blank u p.wb ∧ Blank u p.wa ∧ (p.tok = .op .slash → ∀ r, p.wa ≠ '/' :: r) ∧
      IsTerm u p.num p.x p.d ∧ PiecesOk u p.num l

/-- The steps that the expression parser sees: up to the first operator it does not know. -/
def knownSteps : List Piece → List (Op × Option AST)
  | [] => []
  | p :: l =>
    match p.tok with
    | .op o => (o, p.d) :: knownSteps l
    | _ => []

/-- The expression ends before this text. -/
def Stop (u : Uni) (r : Str) : Prop := Solid u r ∧ ∀ v, Fails u v (.call .Infix) r

/-- Characters at which an expression ends. -/
def closeChars : List Char := [')', ',', '，', ']', '}', ':', '：', ';', '；']

theorem solid_head (L : Lawful u) {S : List Char} {r : Str} (h : HeadIn S r)
    (hS : ∀ c ∈ S, Plain c ∧ asciiUni .whiteSpace c = false ∧ c ≠ '%' ∧ c ≠ '/') : Solid u r := by
  rcases h with rfl | ⟨c, t, rfl, hc⟩
  · exact ⟨(fun _ _ e => nomatch e), ⟨rfl, rfl, rfl, rfl, rfl⟩⟩
  · obtain ⟨h1, h2, h3, h4⟩ := hS c hc
    exact solid_cons L h1 h2 h3 h4 t

theorem stop_close (L : Lawful u) {r : Str} (h : HeadIn closeChars r) : Stop u r :=
  ⟨solid_head L h (by decide), fun _ => fails_head L h (by decide) (by decide)⟩

/-- An expression: a text that `expr` consumes, whatever may follow, and that means `d`.  With `solo`, the blank
space after it is consumed too. -/
structure IsExpr (u : Uni) (solo : Bool) (x : Str) (d : Option AST) : Prop where
  head : ∃ c r, x = c :: r ∧ (IdStart u c ∨ c ∈ termChars)
  eats : ∀ v : Env, v.silent = false → ∀ w r, Blank u w → Stop u r → Follow u (w ++ r) →
    Eats u v (.call .expr) (x ++ taken solo w) (left solo w ++ r) (Den .expr buildExpr d)
  kv : ∀ w r, Blank u w → Stop u r → Follow u (w ++ r) → NoColon u (w ++ r) → Fails u vN kvAlt (x ++ (w ++ r))

/-- The blank space before the next operator, or at the end. -/
def headBlank (w : Str) : List Piece → Str
  | [] => w
  | p :: _ => p.wb

/-- Operators and operands as links. -/
def toLinks (w : Str) : List Piece → List Link
  | [] => []
  | p :: l => ⟨[p.tok.char], p.wa, p.x, headBlank w l, false, One p.tok.rule [p.tok.char] Nil, Den .term buildTerm p.d⟩ ::
      toLinks w l

theorem links_text (w rest : Str) : ∀ l : List Piece,
    headBlank w l ++ after (toLinks w l) rest = piecesText l ++ (w ++ rest) := by
  intro l
  induction l with
  | nil => rfl
  | cons p l ih =>
    show p.wb ++ ([p.tok.char] ++ (p.wa ++ (p.x ++ (headBlank w l ++ after (toLinks w l) rest)))) = _
    rw [ih]
    simp [piecesText]

theorem links_pend (w : Str) (l : List Piece) : ∀ b : Str, pend b (toLinks w l) = if l.isEmpty then b else w := by
  induction l with
  | nil => intro b; rfl
  | cons p l ih =>
    intro b
    show pend (headBlank w l) (toLinks w l) = w
    rw [ih]
    cases l <;> rfl

theorem links_corePend (w : Str) (l : List Piece) : corePend (toLinks w l) = left l.isEmpty w := by
  cases l with
  | nil => rfl
  | cons p l =>
    show pend (headBlank w l) (toLinks w l) = w
    rw [links_pend]
    cases l <;> rfl

theorem links_coreUsed (w : Str) (l : List Piece) :
    headBlank w l ++ coreUsed (toLinks w l) = piecesText l ++ taken l.isEmpty w := by
  have h := links_text w [] l
  rw [← core_pend, links_corePend] at h
  cases l with
  | nil => simp [headBlank, toLinks, coreUsed, piecesText, taken]
  | cons p l =>
    simp only [List.isEmpty_cons, left, taken, List.append_nil, Bool.false_eq_true, if_false] at h ⊢
    rw [← List.append_assoc] at h
    exact List.append_cancel_right h

theorem tok_char_after (t : Tok) : t.char ∈ afterChars := by
  cases t with
  | op o => cases o <;> decide
  | _ => decide

/-- First characters of terms. -/
theorem term_head_solid (L : Lawful u) {x : Str} (h : ∃ c r, x = c :: r ∧ (IdStart u c ∨ c ∈ termChars))
    (rest : Str) : Solid u (x ++ rest) := by
  obtain ⟨c, r, rfl, hc⟩ := h
  rcases hc with hc | hc
  · refine ⟨?_, noComment_cons ?_ ?_⟩
    · intro d t e
      cases e
      rcases hc with hc | rfl
      · unfold Ws
        rw [L.cont_ws c (L.start_cont c hc)]
        decide
      · unfold Ws
        rw [L.plain _ _ (by decide)]
        decide
    · rintro rfl; exact not_idStart L (by decide) (by decide) (by decide) hc
    · rintro rfl; exact not_idStart L (by decide) (by decide) (by decide) hc
  · have key : ∀ c ∈ termChars, Plain c ∧ asciiUni .whiteSpace c = false ∧ c ≠ '%' ∧ c ≠ '/' := by decide
    obtain ⟨h1, h2, h3, h4⟩ := key c hc
    exact solid_cons L h1 h2 h3 h4 _

theorem eats_not_fails {e : PE R} {x rest : Str} {P : List (Pair R) → Prop} (h : Eats u v e x rest P)
    (h' : Fails u v e (x ++ rest)) : False := by
  obtain ⟨q, _, e1⟩ := h 0 [] []
  have e2 := h' 0 [] []
  rw [e1] at e2
  cases e2

theorem Stop.not_tok (L : Lawful u) {r : Str} (h : Stop u r) (t : Tok) : ∀ z, r ≠ t.char :: z := by
  rintro z rfl
  exact eats_not_fails (eats_Infix (v := vN) L rfl t z) (h.2 vN)

theorem blank_head {w : Str} (h : Blank u w) : w = [] ∨ ∃ c r, w = c :: r ∧ (Ws u c ∨ c = '/') := by
  obtain ⟨r, ks, rfl, h1, _⟩ := h
  cases r with
  | cons c r => exact .inr ⟨c, _, rfl, .inl (h1 c (by simp))⟩
  | nil =>
    cases ks with
    | nil => exact .inl rfl
    | cons k ks => exact .inr ⟨'/', _, rfl, .inr rfl⟩

/-- The first character of blank space and an operator is not the given one. -/
theorem blank_first (L : Lawful u) {w r : Str} {d : Char} (hw : Blank u w) (hd : Plain d)
    (hd2 : asciiUni .whiteSpace d = false) (hd3 : d ≠ '/') (hr : w = [] → ∀ t, r ≠ d :: t) :
    ∀ t, w ++ r ≠ d :: t := by
  rcases blank_head hw with rfl | ⟨c, w', rfl, hc⟩
  · exact hr rfl
  · intro t e
    simp only [List.cons_append, List.cons.injEq] at e
    obtain ⟨rfl, _⟩ := e
    rcases hc with hc | hc
    · unfold Ws at hc
      rw [L.plain _ _ hd, hd2] at hc
      cases hc
    · exact hd3 hc

theorem noPath_first {z : Str} (h1 : ∀ t, z ≠ ':' :: t) (h2 : ∀ t, z ≠ '∷' :: t) : NoPath u z :=
  ⟨fun _ _ e => absurd e (h1 _), h2⟩

theorem tok_first (t : Tok) : t.char ≠ ':' ∧ t.char ≠ '∷' ∧ t.char ≠ '：' ∧ Plain t.char ∧
    asciiUni .whiteSpace t.char = false := by
  cases t with
  | op o => cases o <;> decide
  | _ => decide

theorem pieces_follow (L : Lawful u) {num : Bool} {l : List Piece} (hl : PiecesOk u num l) {z : Str}
    (hz : Follow u z) : Follow u (piecesText l ++ z) := by
  cases l with
  | nil => exact hz
  | cons p l =>
    obtain ⟨_, hb, _⟩ := hl
    obtain ⟨h1, h2, _⟩ := tok_first p.tok
    have e : piecesText (p :: l) ++ z = p.wb ++ (p.tok.char :: (p.wa ++ (p.x ++ (piecesText l ++ z)))) := by
      simp [piecesText]
    rw [e]
    refine ⟨blank_endsIn (by decide) hb (.inr ⟨_, _, rfl, tok_char_after _⟩), noPath_first ?_ ?_⟩
    · exact blank_first L hb (by decide) (by decide) (by decide) fun _ t e => h1 (List.cons.inj e).1
    · exact blank_first L hb (by decide) (by decide) (by decide) fun _ t e => h2 (List.cons.inj e).1

theorem pieces_noDec (L : Lawful u) {num : Bool} {l : List Piece} (hl : PiecesOk u num l) {w r : Str}
    (hw : Blank u w) (hr : Stop u r) : num = true → NoDec (piecesText l ++ (w ++ r)) := by
  intro hnum c t e
  cases l with
  | nil =>
    exact absurd e (blank_first L hw (by decide) (by decide) (by decide) (fun _ => hr.not_tok L (.op .dot)) _)
  | cons p l =>
    obtain ⟨hd, hb, _, _, ht, _⟩ := hl
    have e' : piecesText (p :: l) ++ (w ++ r) = p.wb ++ (p.tok.char :: (p.wa ++ (p.x ++ (piecesText l ++ (w ++ r))))) := by
      simp [piecesText]
    rw [e'] at e
    by_cases h1 : p.wb = [] ∧ p.tok = .op .dot
    · obtain ⟨h1, h2⟩ := h1
      obtain ⟨c', t', hx, _⟩ := ht.head
      rw [h1, h2] at e
      have e2 := (List.cons.inj e).2
      cases hwa : p.wa with
      | nil =>
        rw [hwa, hx] at e2
        exact hd hnum h1 h2 c t' (by rw [hwa, hx, ← (List.cons.inj e2).1]; rfl)
      | cons a b =>
        rw [hwa] at e2
        exact hd hnum h1 h2 c (b ++ p.x) (by rw [hwa, ← (List.cons.inj e2).1]; rfl)
    · refine absurd e (blank_first L hb (by decide) (by decide) (by decide) ?_ _)
      intro hwb t e
      refine h1 ⟨hwb, ?_⟩
      have := (List.cons.inj e).1
      revert this
      rcases p.tok with o | _ | _ | _ | _ | _ | _ <;> try (intro h; exact absurd h (by decide))
      cases o <;> intro h <;> first | rfl | exact absurd h (by decide)

theorem piece_solid (L : Lawful u) {p : Piece} (hwa : Blank u p.wa) (hs : p.tok = .op .slash → ∀ r, p.wa ≠ '/' :: r)
    (ht : ∃ c r, p.x = c :: r ∧ (IdStart u c ∨ c ∈ termChars)) (z : Str) :
    Solid u (p.tok.char :: (p.wa ++ (p.x ++ z))) := by
  obtain ⟨_, _, _, h4, h5⟩ := tok_first p.tok
  refine ⟨?_, ?_⟩
  · intro c r e
    cases e
    unfold Ws
    rw [L.plain _ _ h4, h5]
    decide
  · have no : ∀ (d : Char) (t z : Str), (∀ r, z ≠ d :: r) → strip (d :: t) z = none := by
      intro d t z h
      cases z with
      | nil => rfl
      | cons c r =>
        have : d ≠ c := fun e => h r (by rw [e])
        simp [strip, this]
    have hd : ∀ d, Plain d → asciiUni .whiteSpace d = false → d = '%' ∨ d = '/' →
        (d = '/' → ∀ r, p.wa ≠ '/' :: r) → ∀ r, p.wa ++ (p.x ++ z) ≠ d :: r := by
      intro d hp hws hd hwa' r e
      cases hwe : p.wa with
      | nil =>
        rw [hwe] at e
        have := (term_head_solid L ht z).2
        rw [List.nil_append] at e
        obtain ⟨c, t, hx, hc⟩ := ht
        rw [hx] at e
        have hcd := (List.cons.inj e).1
        subst hcd
        rcases hc with hc | hc
        · refine not_idStart L hp ?_ ?_ hc <;> rcases hd with rfl | rfl <;> decide
        · revert hc
          rcases hd with rfl | rfl <;> decide
      | cons a b =>
        rw [hwe] at e
        have e1 := (List.cons.inj e).1
        subst e1
        rcases blank_head hwa with h | ⟨c, w', h, hc⟩
        · rw [h] at hwe; cases hwe
        · rw [h] at hwe
          cases hwe
          rcases hc with hc | hc
          · unfold Ws at hc
            rw [L.plain _ _ hp, hws] at hc
            cases hc
          · subst hc
            exact hwa' rfl _ h
    have hsl : p.tok.char = '/' → p.tok = .op .slash := by
      rcases p.tok with o | _ | _ | _ | _ | _ | _ <;> try (intro h; exact absurd h (by decide))
      cases o <;> intro h <;> first | rfl | exact absurd h (by decide)
    have go : ∀ (a : Char) (t z' : Str), (a = p.tok.char → strip t z' = none) → strip (a :: t) (p.tok.char :: z') = none := by
      intro a t z' h
      by_cases e : a = p.tok.char
      · simp [strip, e, h e]
      · simp [strip, e]
    have hpc := hd '%' (by decide) (by decide) (.inl rfl) (fun e => absurd e (by decide))
    have hsc : '/' = p.tok.char → ∀ r, p.wa ++ (p.x ++ z) ≠ '/' :: r :=
      fun e => hd '/' (by decide) (by decide) (.inr rfl) fun _ => hs (hsl e.symm)
    exact ⟨go _ _ _ fun _ => no _ _ _ hpc, go _ _ _ fun e => no _ _ _ (hsc e), go _ _ _ fun e => no _ _ _ (hsc e),
      go _ _ _ fun e => no _ _ _ (hsc e), go _ _ _ fun e => no _ _ _ (hsc e)⟩

theorem pieces_solid (L : Lawful u) {num : Bool} {p : Piece} {l : List Piece} (hl : PiecesOk u num (p :: l))
    (z : Str) : Solid u (p.tok.char :: (p.wa ++ (p.x ++ z))) :=
  piece_solid L hl.2.2.1 hl.2.2.2.1 hl.2.2.2.2.1.head z

theorem pieces_blank {num : Bool} {l : List Piece} (hl : PiecesOk u num l) {w : Str} (hw : Blank u w) :
    Blank u (headBlank w l) := by
  cases l with
  | nil => exact hw
  | cons p l => exact hl.2.1

theorem pieces_next (L : Lawful u) {num : Bool} {l : List Piece} (hl : PiecesOk u num l) {w r : Str}
    (hr : Stop u r) : Solid u (after (toLinks w l) r) := by
  cases l with
  | nil => exact hr.1
  | cons p l => exact pieces_solid L hl _

theorem pieces_links (L : Lawful u) {w r : Str} (hw : Blank u w) (hr : Stop u r) (hf : Follow u (w ++ r)) :
    ∀ (l : List Piece) (num : Bool), PiecesOk u num l →
      LinksOk u (.call .Infix) (.call .term) (toLinks w l) r := by
  intro l
  induction l with
  | nil => exact fun _ _ => True.intro
  | cons p l ih =>
    intro num hl
    have hl' := hl
    obtain ⟨h1, h2, h3, h4, h5, h6⟩ := hl'
    refine ⟨⟨eats_Infix L rfl p.tok _, h3, term_head_solid L h5.head _, ?_, pieces_blank h6 hw,
      pieces_next L h6 hr⟩, ih p.num h6⟩
    show Eats u vN (.call .term) (p.x ++ []) (headBlank w l ++ after (toLinks w l) r) _
    rw [List.append_nil, links_text]
    exact h5.eats _ (pieces_follow L h6 hf) (pieces_noDec L h6 hw hr)

theorem tok_known (t : Tok) : (∃ o, t = .op o) ∨ opTable t.rule = none := by
  cases t with
  | op o => exact .inl ⟨o, rfl⟩
  | _ => exact .inr rfl

theorem links_pairs (w : Str) : ∀ (l : List Piece) (q : List (Pair R)), LinkPairs (toLinks w l) q →
    ∃ L tail, q = pairSteps L ++ tail ∧ (∀ c, StepsAre c L (knownSteps l)) ∧
      ∀ h t, tail = h :: t → opTable h.rule = none := by
  intro l
  induction l with
  | nil =>
    intro q hq
    rw [show q = [] from hq]
    exact ⟨[], [], rfl, fun _ => .nil, fun _ _ e => nomatch e⟩
  | cons p l ih =>
    rintro q ⟨q1, q2, rfl, ⟨q3, q4, rfl, ⟨a, b, k, rfl, _⟩, ⟨t, rfl, ht1, ht2⟩⟩, h2⟩
    obtain ⟨L, tail, rfl, hL, htail⟩ := ih q2 h2
    rcases tok_known p.tok with ⟨o, ho⟩ | ho
    · refine ⟨(.mk p.tok.rule a b [p.tok.char] k, t) :: L, tail, rfl, ?_, htail⟩
      intro c
      rw [knownSteps, ho]
      refine .cons ⟨⟨rfl, by rw [op_text]; rfl⟩, ?_⟩ (hL c)
      rw [operand, if_neg (by rw [ht1]; decide), if_pos ht1]
      exact ht2 c
    · refine ⟨[], _, rfl, ?_, ?_⟩
      · intro c
        have : knownSteps (p :: l) = [] := by
          rw [knownSteps]
          rcases e : p.tok with o | _ | _ | _ | _ | _ | _ <;> try rfl
          rw [e] at ho
          cases o <;> cases ho
        rw [this]
        exact .nil
      · intro h t e
        cases e
        exact ho

/-- An expression: a term, then operators with terms.  Its value is that of the one properly grouped tree over the
operands and operators up to the first unknown one. -/
theorem expr_of (L : Lawful u) {num : Bool} {x : Str} {d : Option AST} (hx : IsTerm u num x d) (l : List Piece)
    (hl : PiecesOk u num l) (t : OpTree (Option AST) Op) (hp : Proper t) (hs : t.steps = (d, knownSteps l)) :
    IsExpr u l.isEmpty (x ++ piecesText l) (evalTree id Op.apply t) := by
  refine ⟨?_, ?_, ?_⟩
  · obtain ⟨c, r, rfl, hc⟩ := hx.head
    exact ⟨c, _, rfl, hc⟩
  · intro v hv w r hw hr hf
    have e1 : x ++ piecesText l ++ taken l.isEmpty w = x ++ (headBlank w l ++ coreUsed (toLinks w l)) := by
      rw [links_coreUsed, List.append_assoc]
    rw [e1, ← links_corePend]
    have hv' : { v with atomicity := .non } = vN := by
      cases v; simp only at hv; subst hv; rfl
    refine eats_call (eats_atomic ?_)
    rw [hv']
    refine (eats_rule (v := vN) rfl (eats_seq (eats_assoc (eats_core (s := false) L hr.1
      (fails_restore (fails_seq (breaks_cat (breaks_cat (hr.2 vN).breaks)))) (toLinks w l)
      (pieces_links L hw hr hf l num hl) (pieces_blank hl hw) (pieces_next L hl hr) (P := Den .term buildTerm d) ?_)))).imp ?_
    · show Eats u vN (.call .term) (x ++ []) (headBlank w l ++ after (toLinks w l) r) _
      rw [List.append_nil, links_text]
      exact hx.eats _ (pieces_follow L hl hf) (pieces_noDec L hl hw hr)
    · rintro q ⟨a, b, k, rfl, k1, k2, rfl, ⟨y, rfl, hy1, hy2⟩, h2⟩
      obtain ⟨L', tail, rfl, hL, htail⟩ := links_pairs w l k2 h2
      refine ⟨_, rfl, rfl, fun c => ?_⟩
      obtain ⟨t', hp', hs', hb'⟩ := buildExpr_steps c .expr a b (x ++ (headBlank w l ++ coreUsed (toLinks w l))) y L' tail
        (knownSteps l) (hL c) htail
      have hop : (operand c y).map erase = d := by
        rw [operand, if_neg (by rw [hy1]; decide), if_pos hy1]
        exact hy2 c
      rw [hop] at hs'
      rw [proper_unique t t' hp hp' (by rw [hs, hs'])]
      exact hb'
  · intro w r hw hr hf hc
    rw [List.append_assoc]
    refine hx.kv _ (pieces_follow L hl hf) ?_
    cases l with
    | nil => exact hc
    | cons p l =>
      obtain ⟨h1, _, h3, _⟩ := tok_first p.tok
      refine ⟨p.wb, p.tok.char :: (p.wa ++ (p.x ++ (piecesText l ++ (w ++ r)))), by simp [piecesText], hl.2.1,
        pieces_solid L hl _, ?_⟩
      intro c t e
      cases e
      exact ⟨h1, h3⟩

end SM.Props
