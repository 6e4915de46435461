import Verif.Props.Line
import Verif.Props.Session
/-
C71: what follows a closed operand in the same line is not part of the expression.
-/
namespace SM.Props
open SM SM.Peg

variable {u : Uni}

/-! ### Terms and expressions in front of a given text -/

/-- White space within the line, then something that is no suffix. -/
def Loose (u : Uni) (rest : Str) : Prop :=
  ∃ h z, rest = h ++ z ∧ (∀ c ∈ h, HWs u c) ∧ ∀ c t, z = c :: t → ¬ HWs u c ∧ c ∉ ['!', '?', '\'', '[']

theorem Loose.head_ne (L : Lawful u) {rest : Str} (h : Loose u rest) {d : Char} (hd : d ∈ ['!', '?', '\'', '[']) :
    ∀ r, rest ≠ d :: r := by
  obtain ⟨w, z, rfl, hw, hz⟩ := h
  intro r e
  cases w with
  | nil => exact (hz d r e).2 hd
  | cons a w =>
    simp only [List.cons_append, List.cons.injEq] at e
    have key : ∀ d ∈ ['!', '?', '\'', '['], notHws d = true := by decide
    exact hws_ne L (hw a (by simp)) (key d hd) e.1

theorem fails_slice {z : Str} (h : ∀ r, z ≠ '[' :: r) {v : Env} : Fails u v (.call .slice) z := by
  refine fails_call (fails_atomic (fails_rule (fails_seq ?_)))
  refine breaks_cat (breaks_cat (breaks_cat (breaks_cat (breaks_cat (breaks_cat (breaks_cat (breaks_cat
    (Fails.breaks (fails_str ?_)))))))))
  cases z with
  | nil => rfl
  | cons c r =>
    have : '[' ≠ c := fun e => h r (by rw [e])
    simp [strip, this]

theorem Loose.fails_sfx (L : Lawful u) {rest : Str} (h : Loose u rest) : Fails u vC sfx rest := by
  refine fails_alt (fails_Suffix (h.head_ne L (by decide)) (h.head_ne L (by decide)) (h.head_ne L (by decide)))
    (fails_restore (fails_seq ?_))
  obtain ⟨w, z, rfl, hw, hz⟩ := h
  exact breaks_hspace L hw (fun c r e => (hz c r e).1) (fails_slice fun r e => (hz _ _ e).2 (by decide))

theorem eats_sfxs_at (L : Lawful u) {rest : Str} (hr : Loose u rest) :
    ∀ l : List (Str × (AST → Option AST)), SfxsOk u l → Eats u vC (.rep sfx) (sfxText l) rest (SfxPairs l) := by
  intro l
  induction l with
  | nil => exact fun _ => (eats_rep_nil (hr.fails_sfx L)).imp fun q hq => by rw [show q = [] from hq]; exact .nil
  | cons s l ih =>
    rintro ⟨h1, h2, h3⟩
    refine (eats_rep_cons (h1.eats (sfxText l ++ rest) ?_) (ih h3)).imp ?_
    · exact sfx_apart L h2 h3 fun d hd => hr.head_ne L (clash_char hd).2.2
    · rintro q ⟨a, b, rfl, ⟨p, rfl, hp⟩, hb⟩
      exact .cons hp hb

/-- A term in front of a given text. -/
theorem term_at (L : Lawful u) (ps : List Pre) {x : Str} {d : Option AST}
    (hh : ∃ c r, x = c :: r ∧ (IdStart u c ∨ c ∈ operandChars)) (l : List (Str × (AST → Option AST)))
    (hl : SfxsOk u l) {rest : Str} (hr : Loose u rest)
    (hnode : Eats u vC (.call .node) x (sfxText l ++ rest) (Den .node buildNode d)) :
    Eats u vN (.call .term) (ps.map Pre.char ++ (x ++ sfxText l)) rest
      (Den .term buildTerm (d.bind fun a => (sfxFold l a).bind (preFold ps))) := by
  obtain ⟨c, t, hxe, hc⟩ := hh
  have hpre : Fails u vC (.call .Prefix) (x ++ (sfxText l ++ rest)) := by
    rw [hxe]
    rcases hc with hc | hc
    · exact fails_id L hc (by decide) _
    · have key : ∀ c ∈ operandChars, noStart .Prefix c = true := by decide
      exact fails_plain L (key c hc) _
  refine eats_call (eats_atomic ((eats_rule (v := vC) rfl (eats_seq
    ((eats_cat (eats_cat (eats_prefixes (v := vC) L rfl hpre ps) hnode) (eats_sfxs_at L hr l hl)).cast
      (List.append_assoc _ _ _)))).imp ?_))
  rintro q ⟨a, b, k, rfl, k1, k2, rfl, ⟨k3, k4, rfl, h3, ⟨n, rfl, hn1, hn2⟩⟩, h2⟩
  refine ⟨_, rfl, rfl, fun cfg => ?_⟩
  rw [buildTerm, List.append_assoc, termLoop_prefixes h3, List.singleton_append, termLoop, if_pos hn1,
    ← hn2 cfg]
  cases buildNode cfg n with
  | none => rfl
  | some base =>
    simp only [Option.map_some, Option.bind_some]
    refine termLoop_sfxs h2 cfg ?_ base
    rw [List.nil_append]
    clear hpre
    induction h3 with
    | nil => exact .nil
    | cons h _ ih => exact .cons h.2 ih

/-- Operators with terms in front of a given text. -/
def PiecesAt (u : Uni) (z : Str) : List Piece → Prop
  | [] => True
  | p :: l => Blank u p.wb ∧ Blank u p.wa ∧ (p.tok = .op .slash → ∀ r, p.wa ≠ '/' :: r) ∧
      (∃ c r, p.x = c :: r ∧ (IdStart u c ∨ c ∈ termChars)) ∧
      Eats u vN (.call .term) p.x (piecesText l ++ z) (Den .term buildTerm p.d) ∧ PiecesAt u z l

theorem at_blank {z : Str} {l : List Piece} (hl : PiecesAt u z l) {w : Str} (hw : Blank u w) :
    Blank u (headBlank w l) := by
  cases l with
  | nil => exact hw
  | cons p l => exact hl.1

theorem at_next (L : Lawful u) {z : Str} {l : List Piece} (hl : PiecesAt u z l) {w r : Str} (hr : Stop u r) :
    Solid u (after (toLinks w l) r) := by
  cases l with
  | nil => exact hr.1
  | cons p l => exact piece_solid L hl.2.1 hl.2.2.1 hl.2.2.2.1 _

theorem at_links (L : Lawful u) {w r : Str} (hw : Blank u w) (hr : Stop u r) :
    ∀ l : List Piece, PiecesAt u (w ++ r) l → LinksOk u (.call .Infix) (.call .term) (toLinks w l) r := by
  intro l
  induction l with
  | nil => exact fun _ => True.intro
  | cons p l ih =>
    intro hl
    have hl' := hl
    obtain ⟨h2, h3, h4, h5, h6, h7⟩ := hl'
    refine ⟨⟨eats_Infix L rfl p.tok _, h3, term_head_solid L h5 _, ?_, at_blank h7 hw,
      at_next L h7 hr⟩, ih h7⟩
    show Eats u vN (.call .term) (p.x ++ []) (headBlank w l ++ after (toLinks w l) r) _
    rw [List.append_nil, links_text]
    exact h6

/-- An expression in front of a given text. -/
theorem expr_at (L : Lawful u) {x : Str} {d : Option AST} {l : List Piece} {w r : Str} (hw : Blank u w) (hr : Stop u r)
    (hx : Eats u vN (.call .term) x (piecesText l ++ (w ++ r)) (Den .term buildTerm d)) (hl : PiecesAt u (w ++ r) l)
    (t : OpTree (Option AST) Op) (hp : Proper t) (hs : t.steps = (d, knownSteps l)) {v : Env} (hv : v.silent = false) :
    Eats u v (.call .expr) ((x ++ piecesText l) ++ taken l.isEmpty w) (left l.isEmpty w ++ r)
      (Den .expr buildExpr (evalTree id Op.apply t)) := by
  have e1 : x ++ piecesText l ++ taken l.isEmpty w = x ++ (headBlank w l ++ coreUsed (toLinks w l)) := by
    rw [links_coreUsed, List.append_assoc]
  rw [e1, ← links_corePend]
  have hv' : { v with atomicity := .non } = vN := by
    cases v; simp only at hv; subst hv; rfl
  refine eats_call (eats_atomic ?_)
  rw [hv']
  refine (eats_rule (v := vN) rfl (eats_seq (eats_assoc (eats_core (s := false) L hr.1
    (fails_restore (fails_seq (breaks_cat (breaks_cat (hr.2 vN).breaks)))) (toLinks w l)
    (at_links L hw hr l hl) (at_blank hl hw) (at_next L hl hr) (P := Den .term buildTerm d) ?_)))).imp ?_
  · show Eats u vN (.call .term) (x ++ []) (headBlank w l ++ after (toLinks w l) r) _
    rw [List.append_nil, links_text]
    exact hx
  · rintro q ⟨a, b, k, rfl, k1, k2, rfl, ⟨y, rfl, hy1, hy2⟩, h2⟩
    obtain ⟨L', tail, rfl, hL, htail⟩ := links_pairs w l k2 h2
    refine ⟨_, rfl, rfl, fun c => ?_⟩
    obtain ⟨t', hp', hs', hb'⟩ := buildExpr_steps c .expr a b (x ++ (headBlank w l ++ coreUsed (toLinks w l))) y L' tail
      (knownSteps l) (hL c) htail
    have hop : (operand c y).map erase = d := by
      rw [operand, if_neg (by rw [hy1]; decide), if_pos hy1]
      exact hy2 c
    rw [hop] at hs'
    rw [proper_unique t t' hp hp' (by rw [hs, hs'])]
    exact hb'

theorem expression_at (L : Lawful u) {x w r : Str} {solo : Bool} {d : Option AST} (hw : Blank u w)
    (hr : Stop u r) (hsemi : ∀ c t, r = c :: t → c ≠ ';' ∧ c ≠ '；')
    (he : Eats u vN (.call .expr) (x ++ taken solo w) (left solo w ++ r) (Den .expr buildExpr d)) :
    Eats u vN (.call .expression) (x ++ w) r fun q => ∃ p, q = [p] ∧ IsExpression d p := by
  have h6 := eats_cat (eats_cat he (eats_skip L rfl (blank_left hw _) (show Solid u ([] ++ r) from hr.1)))
    (eats_opt_nil (fails_eos (v := vN) hsemi))
  have e1 : (x ++ taken solo w) ++ left solo w ++ [] = x ++ w := by
    have := taken_left solo w []
    simp only [List.append_assoc]
    rw [this]; simp
  refine (eats_call (eats_rule (v := vN) rfl (eats_seq (h6.cast e1)))).imp ?_
  rintro q ⟨a, b, k, rfl, q1, q2, rfl, ⟨q3, q4, rfl, ⟨p, rfl, hp1, hp2⟩, h7⟩, h8⟩
  rw [show q4 = [] from h7, show q2 = [] from h8]
  refine ⟨_, rfl, rfl, fun c => ?_⟩
  rw [← hp2 c]
  simp only [Pair.inner, List.append_nil, buildExpression, if_pos hp1]
  cases buildExpr c p <;> rfl

/-- An expression as the first statement, in front of a given text. -/
theorem stmt_at (L : Lawful u) {x w r : Str} {solo : Bool} {d : Option AST}
    (hh : ∃ c r, x = c :: r ∧ (IdStart u c ∨ c ∈ termChars)) (hn : Wordless (x ++ (w ++ r))) (hw : Blank u w)
    (hr : Stop u r) (hsemi : ∀ c t, r = c :: t → c ≠ ';' ∧ c ≠ '；')
    (he : Eats u vN (.call .expr) (x ++ taken solo w) (left solo w ++ r) (Den .expr buildExpr d)) :
    Eats u vN (.call .statement) (x ++ w) r fun q => ∃ p, q = [p] ∧ IsExpression d p := by
  refine eats_statement L ?_ ?_ (expression_at L hw hr hsemi he)
  · obtain ⟨c, t, e, hc⟩ := hh
    exact ⟨c, t ++ w, by rw [e]; rfl, hc⟩
  · intro k hk
    rw [List.append_assoc]
    exact hn k hk

/-! ### Closed operands -/

/-- Characters that begin an operand but no factor. -/
def noFactor : List Char := ['(', '"', '{', '#', '¶', '⁋']

/-- A name with the beginning `k`; `z` is the rest of the name and what follows it. -/
def NameFrom (u : Uni) (k h z : Str) : Prop :=
  h = [] ∧ ∃ y m t, z = y ++ (moreText m ++ t) ∧ (Path.mk (k ++ y) m).Ok u ∧ Ends u t

/-- Operands that the text `z` after them does not continue, on the same line: expressions in brackets, lists,
dictionaries, derivatives, calls -- if no further argument list follows --, integers before a bracket, and the constants
`true`, `false` and `null` if they are the beginning of a name.  `h` is the white space between them. -/
def SNode.Closed (u : Uni) (h z : Str) : SNode → Prop
  | .atom (.int _) => ∃ c t, z = c :: t ∧ c ∈ noFactor
  | .atom .null => NameFrom u c!"null" h z
  | .atom (.bool b) => NameFrom u (if b then c!"true" else c!"false") h z
  | .atom _ | .mixed _ _ _ => False
  | .paren _ _ | .nil _ | .list _ _ _ | .dictNil _ | .dict _ _ _ | .deriv _ _ _ => True
  | .call _ _ _ => ∀ t, z ≠ '(' :: t

/-- Terms that the text after them does not continue: terms with suffixes other than primes, and closed operands. -/
def STerm.Closed (u : Uni) (h z : Str) : STerm → Prop
  | .mk _ n l => (l ≠ [] ∧ ∀ y, SSuf.op ('\'' :: y) ∉ l) ∨ (l = [] ∧ n.Closed u h z)

/-- The last term of an expression. -/
def lastTerm (t : STerm) : List SStep → STerm
  | [] => t
  | .mk _ _ _ x :: l => lastTerm x l

/-- Expressions whose last term is closed. -/
def SExpr.Closed (u : Uni) (h z : Str) : SExpr → Prop
  | .mk t l => (lastTerm t l).Closed u h z

theorem eats_int_at (L : Lawful u) (n : Nat) {h z : Str} (hh : ∀ c ∈ h, HWs u c) (hz : ∃ c t, z = c :: t ∧ c ∈ noFactor) :
    Eats u vC (.call .node) (numeral n) (h ++ z) (Den .node buildNode (some (.integer n))) := by
  have hi := numeral_int n
  have he : EndsIn u noFactor (h ++ z) := ⟨h, z, rfl, hh, .inr hz⟩
  have nc : NoCont u (h ++ z) := by
    obtain ⟨c, t, rfl, hc⟩ := hz
    have key : ∀ c ∈ noFactor, Plain c ∧ asciiUni .xidContinue c = false := by decide
    refine noCont_blank L (blank_ws fun c hc => (hh c hc).1) ?_
    intro d r e
    cases e
    rw [L.plain _ _ (key c hc).1]; exact (key c hc).2
  have nd : NoDec (h ++ z) := by
    intro c r e
    exact absurd e (he.head_ne L (by decide) (by decide) _)
  have h0 : Eats u vC (.call .Number) (numeral n) (h ++ z) _ := eats_Number_int rfl hi (nc.intEnd L _) nd
  obtain ⟨c, t, hx, hc⟩ := hi.head
  obtain ⟨h1, h2, h3, h4, h5, h6, h7, h8, h9⟩ := digits_head c (digit_mem hc)
  have hp := parseInteger_numeral n
  rw [hx] at h0 hp ⊢
  refine eats_node_data ?_ (fails_plain L h6 _) (fails_plain L h7 _) ?_ ?_
  · intro r e
    simp only [List.cons_append, List.cons.injEq] at e
    exact h9 e.1
  · exact fails_space_call L rfl (eats_factor_number L hc h0) he (by decide) (by decide)
  · refine eats_data_of rfl (eats_alt_left (eats_alt_left (eats_alt_right
      (fails_alt (fails_alt (fails_alt (fails_alt (fails_restore (fails_plain L h1 _))
        (fails_restore (fails_plain L h2 _))) (fails_plain L h3 _)) (fails_plain L h4 _))
        (fails_plain L h5 _)) h0))) ?_
    rintro q ⟨a', b', l, rfl, _⟩
    refine ⟨_, rfl, fun c a b => ?_⟩
    rw [← hp]
    simp only [buildData, Pair.rule, Pair.text]
    simp only [reduceCtorEq, if_false, if_true]
    unfold parseInteger
    cases fromStrRadix 10 _ <;> rfl

/-- A constant at the beginning of a name. -/
theorem eats_const_at (L : Lawful u) {k : Str} (hk : k ∈ constants) {h z : Str} (hc : NameFrom u k h z) :
    Eats u vC (.call .node) k (h ++ z) (Den .node buildNode (parseSpecial k)) := by
  obtain ⟨rfl, y, m, t, rfl, hp, hr⟩ := hc
  have ht : (Path.mk (k ++ y) m).text ++ t = k ++ ([] ++ (y ++ (moreText m ++ t))) := by simp [Path.text]
  have nc := hr.noCont L
  have hi := constants_ident L hk
  obtain ⟨c, r, hce, hc'⟩ := hi.start
  refine eats_node_data (id_not_paren L hi.start) ?_ ?_ ?_ ?_
  · rw [← ht]; exact fails_apply_call L hp nc hr.path (hr.no_apply L)
  · rw [← ht]; exact fails_derivative_of L hp nc hr.path hr.prime
  · rw [← ht]
    exact fails_space_call L rfl (eats_factor_sym L hp nc hr.path (hr.no_apply L)) hr.endsIn stops_notHws stops_no_factor
  · refine eats_data_of rfl (eats_alt_left (eats_alt_left (eats_alt_left (eats_alt_left (eats_alt_left (eats_alt_right
      (fails_alt (fails_restore ?_) (fails_restore ?_)) (eats_Special (v := vC) rfl hk _))))))) ?_
    · rw [hce]; exact fails_id L hc' (by decide) _
    · rw [hce]; exact fails_id L hc' (by decide) _
    · rintro q ⟨a', b', l, rfl, _⟩
      refine ⟨_, rfl, fun c a b => ?_⟩
      simp only [buildData, Pair.rule, Pair.text]
      simp only [reduceCtorEq, if_false, if_true]
      simp only [constants, List.mem_cons, List.not_mem_nil, or_false] at hk
      rcases hk with rfl | rfl | rfl <;> rfl

theorem SNode.read_at (L : Lawful u) : ∀ n : SNode, n.Ok u → ∀ h z, (∀ c ∈ h, HWs u c) → n.Closed u h z →
    (∀ c t, z = c :: t → ¬ HWs u c) → Eats u vC (.call .node) n.text (h ++ z) (Den .node buildNode n.value)
  | .atom a, _, h, z, hh, hc, _ => by
    cases a with
    | int n =>
      rw [SNode.text, SNode.value]
      exact eats_int_at L n hh hc
    | null =>
      rw [SNode.text, SNode.value]
      exact eats_const_at L (k := c!"null") (by decide) hc
    | bool b =>
      rw [SNode.text, SNode.value]
      cases b
      · exact eats_const_at L (k := c!"false") (by decide) hc
      · exact eats_const_at L (k := c!"true") (by decide) hc
    | _ => exact hc.elim
  | .paren e w, hk, h, z, _, _, _ => by
    rw [SNode.Ok] at hk
    rw [SNode.text, SNode.value]
    exact eats_node_paren L (SExpr.read L e hk.1) hk.2.1 hk.2.2 _
  | .nil w, hk, h, z, _, _, _ => by
    rw [SNode.Ok] at hk
    rw [SNode.text, SNode.value]
    exact eats_list_nil L hk _
  | .list i l o, hk, h, z, _, _, _ => by
    rw [SNode.Ok] at hk
    obtain ⟨h1, h2, h3⟩ := hk
    have hi := SItem.read L SContent.isExpr i h1
    have hl := items_read L SContent.isExpr l h2
    rw [SNode.text, SNode.value, ← items_value]
    obtain ⟨b, wa, c, wb⟩ := i
    obtain ⟨h4, h5, h6, h7⟩ := hi
    have := eats_list L h4 (h7.1 h6) h5 (l := l.map SItem.more) (by
      intro m hm
      obtain ⟨i, hi, rfl⟩ := List.mem_map.1 hm
      have := hl i hi
      obtain ⟨b, wa, c, wb⟩ := i
      exact ⟨this.1, this.2.1, this.2.2.2.1 this.2.2.1⟩) h3 (h ++ z)
    rw [items_more] at this
    rw [SItem.text, SItem.value]
    simpa only [List.append_assoc] using this
  | .call p a l, hk, h, z, hh, hc, hz => by
    rw [SNode.Ok] at hk
    obtain ⟨h1, h2, h3⟩ := hk
    have ha := SArgs.read L a h2
    have hl := args_read L l h3
    obtain ⟨l', e1, e2, e3⟩ := hl
    obtain ⟨a', d1, d2, d3⟩ := ha
    have := eats_node_call L h1 (a := a') (l := l') (by
      intro b hb
      rcases List.mem_cons.1 hb with rfl | hb
      · exact d3
      · exact e3 b hb) (breaks_hspace L hh hz (fails_apply hc))
    rw [SNode.text, SNode.value, ← d1, ← d2, ← e1, ← e2]
    simpa [argListsText] using this
  | .deriv p k a, hk, h, z, _, _, _ => by
    rw [SNode.Ok] at hk
    obtain ⟨a', d1, d2, d3⟩ := SArgs.read L a hk.2
    rw [SNode.text, SNode.value, ← d1]
    exact eats_node_deriv L hk.1 k d3 _
  | .dictNil w, hk, h, z, _, _, _ => by
    rw [SNode.Ok] at hk
    rw [SNode.text, SNode.value]
    exact eats_dict_nil L hk _
  | .dict i l o, hk, h, z, _, _, _ => by
    rw [SNode.Ok] at hk
    obtain ⟨h1, h2, h3⟩ := hk
    have hi := SItem.read L SContent.isPair i h1
    have hl := items_read L SContent.isPair l h2
    rw [SNode.text, SNode.value]
    obtain ⟨b, wa, c, wb⟩ := i
    obtain ⟨h4, h5, h6, h7⟩ := hi
    have := eats_dict L h4 (h7.2.2.2 h6) h5 (l := l.map SItem.more) (pairs_more hl) h3 (h ++ z)
    rw [items_more] at this
    rw [SItem.text]
    simpa only [List.append_assoc] using this
  | .mixed f m l, _, h, z, _, hc, _ => hc.elim

theorem STerm.read_at (L : Lawful u) (t : STerm) (hk : t.Ok u) {h z : Str} (hh : ∀ c ∈ h, HWs u c) (hc : t.Closed u h z)
    (hz : ∀ c t, z = c :: t → ¬ HWs u c ∧ c ∉ ['!', '?', '\'', '[']) :
    Eats u vN (.call .term) t.text (h ++ z) (Den .term buildTerm t.value) := by
  obtain ⟨ps, n, l⟩ := t
  rw [STerm.Ok] at hk
  obtain ⟨hn, hl⟩ := hk
  have hn' := SNode.read L n hn
  have hl' := sufs_read L l hl
  have := term_at L ps hn'.head (l.map SSuf.pair) hl' ⟨h, z, rfl, hh, hz⟩ (d := n.value) (by
    cases l with
    | nil =>
      rcases hc with hc | ⟨_, hc⟩
      · exact absurd rfl hc.1
      · exact SNode.read_at L n hn h z hh hc fun c t e => (hz c t e).1
    | cons s l =>
      have np : NoPrime u (sfxText ((s :: l).map SSuf.pair) ++ (h ++ z)) := by
        intro k w t hw e
        have hs : sfxText ((s :: l).map SSuf.pair) ++ (h ++ z) = s.text ++ (sfxText (l.map SSuf.pair) ++ (h ++ z)) := by
          simp [sfxText, SSuf.pair]
        rw [hs] at e
        rcases hl'.1.shape with ⟨g, c, y, e2, hg, hc⟩ | ⟨m, e2⟩
        · have e2 : s.text = _ := e2
          rw [e2] at e
          have key : ∀ c ∈ ['!', '?', '['], c ≠ '\'' := by decide
          cases g with
          | cons d g => exact hws_ne L (hg d (by simp)) (d := '\'') (by decide) (List.cons.inj e).1
          | nil => exact key c hc (List.cons.inj e).1
        · have e2 : s.text = _ := e2
          rcases hc with ⟨_, hc⟩ | ⟨hc, _⟩
          · rw [SufsOk] at hl
            cases s with
            | op y => rw [SSuf.text] at e2; subst e2; exact hc _ List.mem_cons_self
            | slice g i l' o =>
              obtain ⟨hl, _⟩ := hl
              rw [SSuf.Ok] at hl
              rw [SSuf.text] at e2
              cases g with
              | nil => cases e2
              | cons d g => exact hws_ne L (hl.1 d (by simp)) (d := '\'') (by decide) (List.cons.inj e2).1
          · cases hc
      have nd := sfx_noDec L hl' (h ++ z)
      obtain ⟨w, c, y, e, hw, hc⟩ := sfx_head hl' (h ++ z)
      rw [List.map_cons] at np ⊢
      rw [e] at nd np ⊢
      obtain ⟨h1, h2, h3⟩ := sfxChars_stops c hc
      exact hn'.eats _ ⟨⟨w, c :: y, rfl, hw, .inr ⟨c, y, rfl, h1⟩⟩, noPath_split L hw h2 h3, np⟩ fun _ => nd)
  rw [sufs_text] at this
  simp only [sufs_fold] at this
  rw [STerm.text, STerm.value]
  exact this

theorem at_follow (L : Lawful u) {num : Bool} {p : Piece} {l : List Piece} (hl : PiecesOk u num (p :: l)) (z : Str) :
    Follow u (piecesText (p :: l) ++ z) := by
  obtain ⟨_, hb, _⟩ := hl
  obtain ⟨h1, h2, _⟩ := tok_first p.tok
  have e : piecesText (p :: l) ++ z = p.wb ++ (p.tok.char :: (p.wa ++ (p.x ++ (piecesText l ++ z)))) := by
    simp [piecesText]
  rw [e]
  refine ⟨blank_endsIn (by decide) hb (.inr ⟨_, _, rfl, tok_char_after _⟩), noPath_first ?_ ?_⟩
  · exact blank_first L hb (by decide) (by decide) (by decide) fun _ t e => h1 (List.cons.inj e).1
  · exact blank_first L hb (by decide) (by decide) (by decide) fun _ t e => h2 (List.cons.inj e).1

/-- What follows a closed operand: something that is neither white space nor an operator nor a semicolon nor a suffix. -/
def Beside (u : Uni) (r : Str) : Prop := Anew u r ∧ ∀ c t, r = c :: t → c ∉ ['!', '?', '\'', '[']

theorem steps_at (L : Lawful u) {h r : Str} (hh : ∀ c ∈ h, HWs u c) (hr : Beside u r) : ∀ (l : List SStep) (t : STerm),
    t.Ok u → StepsOk u t.num l → (lastTerm t l).Closed u h r →
    Eats u vN (.call .term) t.text (piecesText (l.map SStep.piece) ++ (h ++ r)) (Den .term buildTerm t.value) ∧
      PiecesAt u (h ++ r) (l.map SStep.piece) := by
  have hb : Blank u h := blank_ws fun c hc => (hh c hc).1
  intro l
  induction l with
  | nil =>
    intro t ht _ hc
    exact ⟨STerm.read_at (h := h) (z := r) L t ht hh hc fun c t' e => ⟨fun hw => (hr.1 c t' e).1 hw.1, hr.2 c t' e⟩, trivial⟩
  | cons s l ih =>
    intro t ht hl hc
    obtain ⟨wb, o, wa, x⟩ := s
    have hp := steps_read L _ _ hl
    have hx := STerm.read L t ht
    rw [List.map_cons] at hp ⊢
    refine ⟨hx.eats _ (at_follow L hp _) (pieces_noDec L hp hb hr.1.stop), ?_⟩
    rw [StepsOk] at hl
    obtain ⟨_, h2, h3, h4, h5, h6⟩ := hl
    obtain ⟨h7, h8⟩ := ih x h5 h6 hc
    exact ⟨h2, h3, h4, (STerm.read L x h5).head, h7, h8⟩

/-- **C71** (violation).  What stands beside a closed operand -- an expression in brackets, a list, a call, a term with a
suffix, or an integer before a bracket -- is no factor of a product: the expression ends there, and the rest of the line is
the next statement.  If the rest is refused by itself, so is the text; otherwise the value of the text is that of the
expression, and the rest is dropped. -/
theorem C71_beside (L : Lawful u) (e : SExpr) (he : e.Ok u) {h r : Str} (hh : ∀ c ∈ h, HWs u c) (hr : Beside u r)
    (hc : e.Closed u h r) (hn : Wordless (e.text ++ (h ++ r))) {w : Str} (hw : Blank u w) {c d : Cfg}
    (hi : c.input = w ++ (e.text ++ (h ++ r))) (hd : d.input = r) :
    (parseText u d = .err (.parseError d.errorText) → parseText u c = .err (.parseError c.errorText)) ∧
    (parseText u d ≠ .err (.parseError d.errorText) → eraseR (parseText u c) = answer e.value) := by
  have hb : Blank u h := blank_ws fun c hc => (hh c hc).1
  have hx := SExpr.read L e he
  have hs : Eats u vN (.call .statement) (e.text ++ h) r fun q => ∃ p, q = [p] ∧ IsExpression e.value p := by
    refine stmt_at L hx.head hn hb hr.1.stop (fun c t e => (hr.1 c t e).2.2) (solo := e.solo) ?_
    obtain ⟨t, l⟩ := e
    rw [SExpr.Ok] at he
    obtain ⟨h1, h2⟩ := group_spec t.value (stepsValue l)
    obtain ⟨h3, h4⟩ := steps_at L hh hr l t he.1 he.2 hc
    have := expr_at L hb hr.1.stop h3 h4 _ h1 (by rw [h2, steps_value]) (v := vN) rfl
    rw [steps_text, List.isEmpty_map] at this
    rw [SExpr.text, SExpr.value]
    exact this
  obtain ⟨p, n, hp, hps⟩ := smParse_first L hw blank_nil (r := r) (by
    rw [List.append_assoc]; exact term_head_solid L hx.head _) hr.1.solid hs
  have ht : c.input = w ++ ((e.text ++ h) ++ ([] ++ r)) := by rw [hi]; simp
  rw [parse_refused, parse_refused, ht, hd, hps]
  constructor
  · intro hz; rw [hz]; rfl
  · intro hz
    rw [Ne, parse_refused, hd] at hz
    have h2 : (buildExpression c p.inner .empty).map erase = e.value := hp.2 c
    rw [parseText, ht, hps]
    cases hq : smParse u .program r with
    | error => exact absurd hq hz
    | crash =>
      rcases C33_parse_terminates u .program (by decide) r with ⟨l, h⟩ | h <;> rw [hq] at h <;> cases h
    | pairs l =>
      simp only [shiftParsed, prepend]
      rw [parsePairs, if_neg (by rw [hp.1]; decide), if_pos hp.1, ← h2]
      cases buildExpression c p.inner .empty <;> rfl

theorem answer_not_err {o : Option AST} {e : SMError} (h : answer o = .err e) : False := by
  cases o <;> cases h

theorem hws_space : ∀ c ∈ ([] : Str), HWs u c := fun _ h => nomatch h

theorem beside_paren (L : Lawful u) (t : Str) : Beside u ('(' :: t) := by
  refine ⟨fun c r e => ?_, fun c r e => ?_⟩ <;> cases e
  · refine ⟨?_, by decide, by decide, by decide⟩
    unfold Ws
    rw [L.plain _ _ (by decide)]; decide
  · decide

/-- **C71** (violation).  Two expressions in brackets side by side are not multiplied; the second one is dropped. -/
theorem C71_brackets (L : Lawful u) (a b : SExpr) (ha : a.Ok u) (hb : b.Ok u) {h w w' : Str} (hh : ∀ c ∈ h, HWs u c)
    (hw : Blank u w) (hw' : Blank u w') {c : Cfg}
    (hc : c.input = w ++ (('(' :: (a.text ++ c!")")) ++ (h ++ (('(' :: (b.text ++ c!")")) ++ w')))) :
    eraseR (parseText u c) = answer a.value := by
  have pa : ∀ e : SExpr, e.Ok u → (SExpr.node (.paren e [])).Ok u := fun e he => node_ok (by
    rw [SNode.Ok]; exact ⟨he, blank_nil, .inr rfl⟩)
  have pt : ∀ e : SExpr, (SExpr.node (.paren e [])).text = '(' :: (e.text ++ c!")") := fun e => by
    rw [node_text, SNode.text]; rfl
  have h1 := (C71_beside L (SExpr.node (.paren a [])) (pa a ha) hh (beside_paren L ((b.text ++ c!")") ++ w'))
    (by exact .inr ⟨rfl, trivial⟩) (by rw [pt]; exact wordless_head rfl (by decide)) hw (c := c)
    (d := ⟨[], '(' :: ((b.text ++ c!")") ++ w'), []⟩) (by rw [pt]; exact hc) rfl).2
  rw [node_value, SNode.value] at h1
  refine h1 ?_
  have h2 := C53_expressions L ⟨[], '(' :: ((b.text ++ c!")") ++ w'), []⟩ (SExpr.node (.paren b [])) (pa b hb)
    (by rw [pt]; exact wordless_head rfl (by decide)) (w := []) blank_nil hw' (by rw [pt]; rfl)
  exact fun h3 => answer_not_err (h2.symm.trans (by rw [h3]; rfl))

/-- **C71** (violation).  An integer before an expression in brackets is no coefficient; the bracket is dropped, and a
session answers with the integer. -/
theorem C71_coefficient (L : Lawful u) (n : Nat) (b : SExpr) (hb : b.Ok u) {h w w' : Str} (hh : ∀ c ∈ h, HWs u c)
    (hw : Blank u w) (hw' : Blank u w') {c : Cfg}
    (hc : c.input = w ++ (numeral n ++ (h ++ (('(' :: (b.text ++ c!")")) ++ w')))) :
    parseText u c = .ok (.integer n) := by
  have pa : (SExpr.node (.paren b [])).Ok u := node_ok (by
    rw [SNode.Ok]; exact ⟨hb, blank_nil, .inr rfl⟩)
  have pt : (SExpr.node (.paren b [])).text = '(' :: (b.text ++ c!")") := by
    rw [node_text, SNode.text]; rfl
  have h1 := (C71_beside L (SExpr.node (.atom (.int n))) (node_ok (by rw [SNode.Ok]; trivial)) hh
    (beside_paren L ((b.text ++ c!")") ++ w'))
    (by exact .inr ⟨rfl, _, _, rfl, by decide⟩) (by rw [node_text, SNode.text]; exact numeral_wordless _ _) hw (c := c)
    (d := ⟨[], '(' :: ((b.text ++ c!")") ++ w'), []⟩) (by rw [node_text, SNode.text]; exact hc) rfl).2
  rw [node_value, SNode.value] at h1
  refine eraseR_leaf trivial (h1 ?_)
  have h2 := C53_expressions L ⟨[], '(' :: ((b.text ++ c!")") ++ w'), []⟩ (SExpr.node (.paren b [])) pa
    (by rw [pt]; exact wordless_head rfl (by decide)) (w := []) blank_nil hw' (by rw [pt]; rfl)
  exact fun h3 => answer_not_err (h2.symm.trans (by rw [h3]; rfl))

/-- **C71** (violation).  What a session answers to an integer before an expression in brackets, whatever the expression. -/
theorem C71_answer (L : Lawful u) (msg : Str → Str) (v : Width) (n : Nat) (b : SExpr) (hb : b.Ok u) {h w w' : Str}
    (hh : ∀ c ∈ h, HWs u c) (hw : Blank u w) (hw' : Blank u w') :
    Answers u msg v (w ++ (numeral n ++ (h ++ (('(' :: (b.text ++ c!")")) ++ w')))) (.ok (numeral n)) :=
  answers_leaf (a := .integer n) trivial (C71_coefficient L n b hb hh hw hw' rfl) (by
    rw [AST.display]; exact (C38_integers L ⟨[], numeral n, []⟩ n (w := []) (w' := []) blank_nil blank_nil (by simp)).2)

/-- `2(3 + 4)` is answered with `2`. -/
example (msg : Str → Str) (v : Width) : Answers asciiUni msg v c!"2(3+4)" (.ok c!"2") := by
  have h := C71_answer lawful_asciiUni msg v 2
    (.mk (.mk [] (.atom (.int 3)) []) [.mk [] (.op .plus) [] (.mk [] (.atom (.int 4)) [])])
    (by simp [SExpr.Ok, StepsOk, blank_nil, STerm.Ok, SNode.Ok, SAtom.Ok, SufsOk]) (h := []) (w := []) (w' := []) hws_space
    blank_nil blank_nil
  exact h

/-- `sin(x) cos(x)`, as in the manual, is `sin(x)`; `(a)(b)` is `a`; `(a) )` is refused. -/
example : eraseR (parseText asciiUni ⟨[], c!"sin(x) cos(x)", []⟩) = .ok (.function (Sym.ofStr c!"sin")
      [.mk [.mkSymbol c!"x"] [] noPos]) ∧
    eraseR (parseText asciiUni ⟨[], c!"(a)(b)", []⟩) = .ok (.mkSymbol c!"a") ∧
    parseText asciiUni ⟨[], c!"(a) )", []⟩ = .err (.parseError []) := by
  have L := lawful_asciiUni
  have sp : ∀ c ∈ c!" ", HWs asciiUni c := by
    intro d hd
    simp only [List.mem_cons, List.not_mem_nil, or_false] at hd
    subst hd
    exact ⟨by unfold Ws; decide, by decide, by decide⟩
  have sym : ∀ x : Str, IsIdent asciiUni x → (∀ k ∈ constants, strip k x = none) →
      (SNode.atom (.sym ⟨x, []⟩)).Ok asciiUni := by
    intro x hx hk
    rw [SNode.Ok]; exact ⟨⟨hx, by simp⟩, hk⟩
  have ia : IsIdent asciiUni c!"a" := .inl ⟨'a', [], rfl, by decide, by decide⟩
  have ib : IsIdent asciiUni c!"b" := .inl ⟨'b', [], rfl, by decide, by decide⟩
  have ix : IsIdent asciiUni c!"x" := .inl ⟨'x', [], rfl, by decide, by decide⟩
  have is : IsIdent asciiUni c!"sin" := .inl ⟨'s', _, rfl, by decide, by decide⟩
  have ka := node_ok (sym _ ia (by decide))
  have kb := node_ok (sym _ ib (by decide))
  have ic : IsIdent asciiUni c!"cos" := .inl ⟨'c', _, rfl, by decide, by decide⟩
  have kf : ∀ f : Str, IsIdent asciiUni f → (SExpr.node (.call ⟨f, []⟩ (.some [] (.mk false []
      (.expr (SExpr.node (.atom (.sym ⟨c!"x", []⟩)))) []) [] none) [])).Ok asciiUni := by
    intro f hf
    refine node_ok ?_
    rw [SNode.Ok, SArgs.Ok, SItem.Ok, SContent.Ok, ItemsOk, ArgsOk]
    exact ⟨⟨hf, by simp⟩, ⟨hws_space, ⟨blank_nil, blank_nil, rfl, node_ok (sym _ ix (by decide))⟩, trivial,
      fun _ _ h => (nomatch h)⟩, trivial⟩
  refine ⟨?_, ?_, ?_⟩
  · have h := (C71_beside L _ (kf _ is) (h := c!" ") (r := c!"cos(x)") sp
      ⟨fun c t e => by cases e; exact ⟨by unfold Ws; decide, by decide, by decide, by decide⟩, fun c t e => by
        cases e; decide⟩ (.inr ⟨rfl, fun t e => by cases e⟩)
      (wordless_head (c := 's') rfl (by decide)) (w := []) blank_nil (c := ⟨[], c!"sin(x) cos(x)", []⟩)
      (d := ⟨[], c!"cos(x)", []⟩) (by decide) rfl).2 ?_
    · rw [h]; rfl
    · have h := C53_expressions L ⟨[], c!"cos(x)", []⟩ _ (kf _ ic) (by unfold Wordless; decide) (w := []) (w' := [])
        blank_nil blank_nil (by decide)
      exact fun h3 => answer_not_err (h.symm.trans (by rw [h3]; rfl))
  · have h := C71_brackets L _ _ ka kb (h := []) (w := []) (w' := []) hws_space blank_nil blank_nil
      (c := ⟨[], c!"(a)(b)", []⟩) (by decide)
    rw [h]; rfl
  · exact (C71_beside L (SExpr.node (.paren (SExpr.node (.atom (.sym ⟨c!"a", []⟩))) []))
      (node_ok (by rw [SNode.Ok]; exact ⟨ka, blank_nil, .inr rfl⟩)) (h := c!" ") (r := c!")") sp
      ⟨fun c t e => by cases e; exact ⟨by unfold Ws; decide, by decide, by decide, by decide⟩, fun c t e => by
        cases e; decide⟩ (.inr ⟨rfl, trivial⟩) (wordless_head (c := '(') rfl (by decide)) (w := []) blank_nil
      (c := ⟨[], c!"(a) )", []⟩) (d := ⟨[], c!")", []⟩) (by decide) rfl).1 (parse_rejects L (by decide +kernel) (by decide) _ rfl)

end SM.Props
