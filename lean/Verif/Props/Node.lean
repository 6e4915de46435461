import Verif.Props.Lit2
import Verif.Props.Erase
/-
Operands: what the function of `node` consumes, and what is built from it.
-/
namespace SM.Props
open SM SM.Peg

variable {u : Uni} {v : Env}

/-- The pairs are one pair of the rule, from which `build` makes `d`, up to positions. -/
def Den (r : R) (build : Cfg → Pair R → Option AST) (d : Option AST) (q : List (Pair R)) : Prop :=
  ∃ p, q = [p] ∧ p.rule = r ∧ ∀ c, (build c p).map erase = d

/-- Characters that begin an operand, other than letters. -/
def operandChars : List Char := digitChars ++ ['(', '[', '{', '"', '#', '¶', '⁋']

/-- A named argument: the first thing tried on an argument. -/
abbrev kvAlt : PE R :=
  .restore (.seq (.cat (.cat (.cat (.cat (.call .SYMBOL) (.call .skip)) (.call .Colon)) (.call .skip)) (.call .expr)))

/-- After blank space the text does not go on with a colon. -/
def NoColon (u : Uni) (rest : Str) : Prop :=
  ∃ w z, rest = w ++ z ∧ Blank u w ∧ Solid u z ∧ ∀ c r, z = c :: r → c ≠ ':' ∧ c ≠ '：'

theorem fails_Colon {z : Str} (h : ∀ c r, z = c :: r → c ≠ ':' ∧ c ≠ '：') : Fails u v (.call .Colon) z := by
  refine fails_call (fails_rule (fails_atomic (fails_alt (fails_str ?_) (fails_str ?_)))) <;>
  · cases z with
    | nil => rfl
    | cons c r =>
      obtain ⟨h1, h2⟩ := h c r rfl
      simp [strip, h1.symm, h2.symm]

/-- An identifier without a colon after it is not the name of an argument. -/
theorem fails_kv_ident (L : Lawful u) {x rest : Str} (hx : IsIdent u x) (hr : NoCont u rest)
    (hc : NoColon u rest) : Fails u vN kvAlt (x ++ rest) := by
  obtain ⟨w, z, rfl, hw, hz, hc⟩ := hc
  refine fails_restore (fails_seq (breaks_cat (breaks_cat ?_)))
  rw [← List.append_assoc]
  exact breaks_cat_right (eats_cat (eats_SYMBOL L rfl hx hr) (eats_skip L rfl hw hz)) (fails_Colon hc).breaks

/-- What does not begin with an identifier is not a named argument. -/
theorem fails_kv_plain (L : Lawful u) {txt : Str} (h : ∀ c r, txt = c :: r → ¬ IdStart u c) :
    Fails u v kvAlt txt :=
  fails_restore (fails_seq (breaks_cat (breaks_cat (breaks_cat (breaks_cat (fails_SYMBOL L h).breaks)))))

theorem not_idStart (L : Lawful u) {c : Char} (h : Plain c) (h1 : asciiUni .xidStart c = false) (h2 : c ≠ '_') :
    ¬ IdStart u c := by
  rintro (hc | hc)
  · rw [L.plain c _ h, h1] at hc; cases hc
  · exact h2 hc

theorem fails_kv_mark (L : Lawful u) {x : Str} (h : ∃ c r, x = c :: r ∧ c ∈ operandChars) (rest : Str) :
    Fails u v kvAlt (x ++ rest) := by
  obtain ⟨c, r, rfl, hc⟩ := h
  refine fails_kv_plain L ?_
  intro d t e
  cases e
  have key : ∀ c ∈ operandChars, Plain c ∧ asciiUni .xidStart c = false ∧ c ≠ '_' := by decide
  obtain ⟨h1, h2, h3⟩ := key c hc
  exact not_idStart L h1 h2 h3

/-- An operand: a text that `node` consumes, whatever may follow, and that means `d`.  The flag tells that
the operand ends in an integer. -/
structure IsNode (u : Uni) (num : Bool) (x : Str) (d : Option AST) : Prop where
  head : ∃ c r, x = c :: r ∧ (IdStart u c ∨ c ∈ operandChars)
  eats : ∀ rest, Ends u rest → (num = true → NoDec rest) → Eats u vC (.call .node) x rest (Den .node buildNode d)
  kv : ∀ rest, Ends u rest → NoColon u rest → Fails u vN kvAlt (x ++ rest)

/-! ### White space, then something -/

/-- White space within a line, then one of the characters or the end. -/
def EndsIn (u : Uni) (S : List Char) (rest : Str) : Prop :=
  ∃ h z, rest = h ++ z ∧ (∀ c ∈ h, HWs u c) ∧ HeadIn S z

theorem Ends.endsIn {rest : Str} (h : Ends u rest) : EndsIn u nodeStops rest := h.split

/-- Characters that are not white space within a line. -/
def notHws (c : Char) : Bool :=
  decide (Plain c) && (!asciiUni .whiteSpace c || decide (c = '\n') || decide (c = '\x0d'))

theorem not_hws (L : Lawful u) {c : Char} (h : notHws c = true) : ¬ HWs u c := by
  simp only [notHws, Bool.and_eq_true, decide_eq_true_eq, Bool.or_eq_true, Bool.not_eq_true'] at h
  intro ⟨h1, h2, h3⟩
  unfold Ws at h1
  rw [L.plain c _ h.1] at h1
  rcases h.2 with (h | h) | h
  · rw [h] at h1; cases h1
  · exact h2 h
  · exact h3 h

/-- After white space within a line, something that cannot come next fails. -/
theorem EndsIn.breaks (L : Lawful u) {S : List Char} {rest : Str} (h : EndsIn u S rest)
    (hS : ∀ c ∈ S, notHws c = true) {e : PE R} (he : ∀ z, HeadIn S z → Fails u v e z) :
    Breaks u v (.cat hspace e) rest := by
  obtain ⟨w, z, rfl, hw, hz⟩ := h
  refine breaks_cat_right (eats_hspace L ?_ w hw) (he z hz).breaks
  intro c r e
  rcases hz with rfl | ⟨c', r', rfl, hc⟩
  · cases e
  · cases e; exact not_hws L (hS c hc)

/-- A text that begins with white space within a line or with one of the characters. -/
theorem EndsIn.cases (L : Lawful u) {S : List Char} {rest : Str} (h : EndsIn u S rest) :
    rest = [] ∨ ∃ c r, rest = c :: r ∧ (HWs u c ∨ c ∈ S) := by
  obtain ⟨w, z, rfl, hw, hz⟩ := h
  cases w with
  | cons c w => exact .inr ⟨c, w ++ z, rfl, .inl (hw c (by simp))⟩
  | nil =>
    rcases hz with rfl | ⟨c, r, rfl, hc⟩
    · exact .inl rfl
    · exact .inr ⟨c, r, rfl, .inr hc⟩

theorem hws_ne (L : Lawful u) {c d : Char} (h : HWs u c) (hd : notHws d = true) : c ≠ d := by
  rintro rfl; exact not_hws L hd h

/-- The text does not begin with a character outside the set that is not white space. -/
theorem EndsIn.head_ne (L : Lawful u) {S : List Char} {rest : Str} (h : EndsIn u S rest) {d : Char}
    (hd : notHws d = true) (hS : d ∉ S) : ∀ r, rest ≠ d :: r := by
  intro r e
  rcases h.cases L with h | ⟨c, r', h, hc⟩
  · rw [h] at e; cases e
  · rw [h] at e
    cases e
    rcases hc with hc | hc
    · exact hws_ne L hc hd rfl
    · exact hS hc

/-! ### Alternatives of `node` that fail -/

/-- The first or a further factor of a juxtaposition. -/
abbrev factor : PE R := .alt (.alt (.restore (.call .apply_call)) (.call .Number)) (.call .Symbol)

theorem fails_factor (L : Lawful u) {S : List Char} (hS : ∀ c ∈ S, noStart .Symbol c = true ∧
    noStart .Number c = true ∧ noStart .apply_call c = true) {z : Str} (hz : HeadIn S z) :
    Fails u v factor z :=
  fails_alt (fails_alt (fails_restore (fails_head L hz (by decide) fun c hc => (hS c hc).2.2))
    (fails_head L hz (by decide) fun c hc => (hS c hc).2.1)) (fails_head L hz (by decide) fun c hc => (hS c hc).1)

theorem fails_space_call (L : Lawful u) (hv : v.silent = false) {S : List Char} {x rest : Str}
    {P : List (Pair R) → Prop} (h : Eats u vC factor x rest P) (hr : EndsIn u S rest)
    (hS : ∀ c ∈ S, notHws c = true) (hS' : ∀ c ∈ S, noStart .Symbol c = true ∧
      noStart .Number c = true ∧ noStart .apply_call c = true) :
    Fails u v (.call .space_call) (x ++ rest) := by
  obtain ⟨a, b⟩ := v
  simp only at hv
  subst hv
  refine fails_call (fails_atomic (fails_rule (fails_seq (breaks_cat ?_))))
  exact breaks_cat_right h (Fails.breaks (fails_seq (hr.breaks L hS fun z hz => fails_factor L hS' hz)))

theorem eats_factor_number (L : Lawful u) {c : Char} {x rest : Str} {P : List (Pair R) → Prop}
    (hc : IsDigit c) (h : Eats u vC (.call .Number) (c :: x) rest P) : Eats u vC factor (c :: x) rest P := by
  refine eats_alt_left (eats_alt_right (fails_restore ?_) h)
  have : ∀ d ∈ digitChars, noStart .apply_call d = true := by decide
  exact fails_plain L (this c (digit_mem hc)) _

theorem stops_notHws : ∀ c ∈ nodeStops, notHws c = true := by decide
theorem stops_no_factor : ∀ c ∈ nodeStops, noStart .Symbol c = true ∧ noStart .Number c = true ∧
    noStart .apply_call c = true := by decide

/-- `node` on a literal for which only `data` applies. -/
theorem eats_node_data {x rest : Str} {d : Option AST} (h1 : ∀ r, x ++ rest ≠ '(' :: r)
    (h2 : Fails u vC (.call .apply_call) (x ++ rest)) (h3 : Fails u vC (.call .derivative) (x ++ rest))
    (h4 : Fails u vC (.call .space_call) (x ++ rest))
    (h : Eats u vC (.call .data) x rest (Den .data buildData d)) :
    Eats u vC (.call .node) x rest (Den .node buildNode d) := by
  apply eats_call
  show Eats u vC body_node _ _ _
  unfold body_node
  refine (eats_rule (v := vC) rfl (P := Den .data buildData d) ?_).imp ?_
  · refine eats_alt_right (fails_alt (fails_alt (fails_alt (fails_restore (fails_seq ?_)) (fails_restore h2))
      (fails_restore h3)) (fails_restore h4)) (eats_restore h)
    refine breaks_cat (breaks_cat (breaks_cat (breaks_cat (fails_str ?_).breaks)))
    cases hx : x ++ rest with
    | nil => rfl
    | cons c r =>
      have : '(' ≠ c := fun e => h1 r (by rw [hx, e])
      simp [strip, this]
  · rintro q ⟨a, b, l, rfl, p, rfl, hp, hd⟩
    refine ⟨_, rfl, rfl, fun c => ?_⟩
    rw [buildNode]
    rw [if_neg (by rw [hp]; decide), if_pos hp]
    exact hd c

/-- `data` on a literal: one pair of the rule `r` inside. -/
theorem eats_data_of {e : PE R} {x rest : Str} {P : List (Pair R) → Prop} {d : Option AST}
    (he : grammar .data = .atomic .compound (.rule .data e)) (h : Eats u vC e x rest P)
    (hP : ∀ q, P q → ∃ p, q = [p] ∧ ∀ c a b, (buildData c (.mk .data a b x [p])).map erase = d) :
    Eats u vC (.call .data) x rest (Den .data buildData d) := by
  apply eats_call
  rw [he]
  apply eats_atomic
  refine (eats_rule (v := vC) rfl h).imp ?_
  rintro q ⟨a, b, l, rfl, hl⟩
  obtain ⟨p, rfl, hp⟩ := hP l hl
  exact ⟨_, rfl, rfl, fun c => hp c a b⟩

/-! ### Numbers -/

theorem digits_head : ∀ c ∈ digitChars, noStart .dict c = true ∧ noStart .list c = true ∧
    noStart .Special c = true ∧ noStart .REPL c = true ∧ noStart .Slot c = true ∧
    noStart .apply_call c = true ∧ noStart .derivative c = true ∧ c ∈ operandChars ∧ c ≠ '(' := by decide

theorem eats_node_number (L : Lawful u) {r : R} {x rest : Str} {d : Option AST} (hx : ∃ c t, x = c :: t ∧ IsDigit c)
    (hr : Ends u rest) {Q : List (Pair R) → Prop} (h : Eats u vC (.call .Number) x rest (One r x Q))
    (hd : ∀ c a b a' b' l, (buildData c (.mk .data a b x [.mk r a' b' x l])).map erase = d) :
    Eats u vC (.call .node) x rest (Den .node buildNode d) := by
  obtain ⟨c, t, rfl, hc⟩ := hx
  obtain ⟨h1, h2, h3, h4, h5, h6, h7, h8, h9⟩ := digits_head c (digit_mem hc)
  refine eats_node_data ?_ (fails_plain L h6 _) (fails_plain L h7 _) ?_ ?_
  · intro r e
    simp only [List.cons_append, List.cons.injEq] at e
    exact h9 e.1
  · exact fails_space_call L rfl (eats_factor_number L hc h) hr.endsIn stops_notHws stops_no_factor
  · refine eats_data_of rfl (eats_alt_left (eats_alt_left (eats_alt_right
      (fails_alt (fails_alt (fails_alt (fails_alt (fails_restore (fails_plain L h1 _))
        (fails_restore (fails_plain L h2 _))) (fails_plain L h3 _)) (fails_plain L h4 _))
        (fails_plain L h5 _)) h))) ?_
    rintro q ⟨a', b', l, rfl, _⟩
    exact ⟨_, rfl, fun c a b => hd c a b a' b' l⟩

/-- Numerals are operands. -/
theorem node_int (L : Lawful u) {x : Str} (hx : IsInt x) : IsNode u true x (parseInteger x) where
  head := by
    obtain ⟨c, t, rfl, hc⟩ := hx.head
    exact ⟨c, t, rfl, .inr (digits_head c (digit_mem hc)).2.2.2.2.2.2.2.1⟩
  kv rest _ _ := by
    obtain ⟨c, t, rfl, hc⟩ := hx.head
    exact fails_kv_mark L ⟨c, t, rfl, (digits_head c (digit_mem hc)).2.2.2.2.2.2.2.1⟩ rest
  eats rest hr hn := by
    refine eats_node_number L hx.head hr (eats_Number_int rfl hx ((hr.noCont L).intEnd L _) (hn rfl)) ?_
    intro c a b a' b' l
    simp only [buildData, Pair.rule, Pair.text]
    simp only [reduceCtorEq, if_false, if_true]
    unfold parseInteger
    cases fromStrRadix 10 x <;> rfl

/-- Decimals are operands. -/
theorem node_dec (L : Lawful u) {x y : Str} (hx : IsInt x) (hy : IsInt y) :
    IsNode u false (x ++ '.' :: y) (parseDecimal (x ++ '.' :: y)) where
  head := by
    obtain ⟨c, t, rfl, hc⟩ := hx.head
    exact ⟨c, _, rfl, .inr (digits_head c (digit_mem hc)).2.2.2.2.2.2.2.1⟩
  kv rest _ _ := by
    obtain ⟨c, t, rfl, hc⟩ := hx.head
    exact fails_kv_mark L ⟨c, _, rfl, (digits_head c (digit_mem hc)).2.2.2.2.2.2.2.1⟩ rest
  eats rest hr hn := by
    refine eats_node_number L ?_ hr (eats_Number_dec L rfl hx hy ((hr.noCont L).intEnd L _)) ?_
    · obtain ⟨c, t, rfl, hc⟩ := hx.head
      exact ⟨c, _, rfl, hc⟩
    · intro c a b a' b' l
      simp only [buildData, Pair.rule, Pair.text]
      simp only [reduceCtorEq, if_false, if_true]
      unfold parseDecimal
      split <;> split <;> rfl

/-- Radix literals are operands. -/
theorem node_byte (L : Lawful u) (b : Radix) {k : Char} (hk : k ∈ b.letters) {g : Bool × Char}
    {gs : List (Bool × Char)} (hg : ∀ g' ∈ g :: gs, g'.2 ∈ b.digits) :
    IsNode u false (radixText k (g :: gs)) (parseByte (radixText k (g :: gs))) where
  head := ⟨'0', _, rfl, .inr (by decide)⟩
  kv rest _ _ := fails_kv_mark L ⟨'0', _, rfl, by decide⟩ rest
  eats rest hr hn := by
    refine eats_node_number L ⟨'0', _, rfl, by decide⟩ hr (eats_Number_byte L rfl b hk hg (hr.noCont L)) ?_
    intro c a b a' b' l
    simp only [buildData, Pair.rule, Pair.text]
    simp only [reduceCtorEq, if_false, if_true]
    unfold parseByte
    split
    · rename_i k' s _
      have key : ∀ base : Option Nat, (match base with
          | none => none
          | some b => match fromStrRadix b s with
            | some n => some (AST.integer n)
            | none => none : Option AST).map erase = (match base with
          | none => none
          | some b => match fromStrRadix b s with
            | some n => some (AST.integer n)
            | none => none : Option AST) := by
        intro base
        cases base with
        | none => rfl
        | some n => dsimp only; split <;> rfl
      exact key _
    · rfl

/-! ### Literals that begin with a mark -/

theorem eats_node_mark (L : Lawful u) {x rest : Str} {d : Option AST} {c : Char} {t : Str} (hx : x = c :: t)
    (hc : c ∈ ['[', '{', '"', '#', '¶', '⁋']) (h : Eats u vC (.call .data) x rest (Den .data buildData d)) :
    Eats u vC (.call .node) x rest (Den .node buildNode d) := by
  subst hx
  have key : ∀ c ∈ ['[', '{', '"', '#', '¶', '⁋'], c ≠ '(' ∧ noStart .apply_call c = true ∧
      noStart .derivative c = true ∧ noStart .space_call c = true := by decide
  obtain ⟨h1, h2, h3, h4⟩ := key c hc
  refine eats_node_data ?_ (fails_plain L h2 _) (fails_plain L h3 _) (fails_plain L h4 _) h
  intro r e
  simp only [List.cons_append, List.cons.injEq] at e
  exact h1 e.1

/-- History literals are operands. -/
theorem node_repl (L : Lawful u) (s : ReplForm) (hs : s.Ok) :
    IsNode u true s.text ((parseInOut noPos s.text).map erase) := by
  have hx : ∃ c t, s.text = c :: t ∧ c ∈ ['¶', '⁋'] := by
    cases s with
    | back out n => exact ⟨_, _, rfl, by cases out <;> decide⟩
    | «at» out x => exact ⟨_, _, rfl, by cases out <;> decide⟩
  obtain ⟨c, t, hx, hc⟩ := hx
  have key : ∀ c ∈ ['¶', '⁋'], c ∈ ['[', '{', '"', '#', '¶', '⁋'] ∧ c ∈ operandChars ∧ noStart .dict c = true ∧
      noStart .list c = true ∧ noStart .Special c = true := by decide
  obtain ⟨k1, k2, k3, k4, k5⟩ := key c hc
  refine ⟨⟨c, t, hx, .inr k2⟩, fun rest hr _ => eats_node_mark L hx k1 ?_,
    fun rest _ _ => fails_kv_mark L ⟨c, t, hx, k2⟩ rest⟩
  refine eats_data_of rfl (eats_alt_left (eats_alt_left (eats_alt_left (eats_alt_left (eats_alt_right
      (fails_alt (fails_alt (fails_restore ?_) (fails_restore ?_)) ?_)
      (eats_REPL (v := vC) L rfl s hs (hr.noCont L) ?_)))))) ?_
  · rw [hx]; exact fails_plain L k3 _
  · rw [hx]; exact fails_plain L k4 _
  · rw [hx]; exact fails_plain L k5 _
  · intro b
    exact hr.endsIn.head_ne L (by cases b <;> decide) (by cases b <;> decide)
  · rintro q ⟨a', b', l, rfl, _⟩
    refine ⟨_, rfl, fun c a b => ?_⟩
    simp only [buildData, Pair.rule, Pair.text]
    simp only [reduceCtorEq, if_false, if_true]
    unfold parseInOut
    simp only
    split <;> rfl

/-- What a slot means. -/
def SlotForm.value : SlotForm → Option AST
  | .one => some (.function (Sym.ofStr c!"std::core::slot") [.mk [] [] noPos])
  | .named x => some (.function (Sym.ofStr c!"std::core::slot") [.mk [.string x] [] noPos])
  | .nth x => (fromStrRadix 10 x).map fun n => .function (Sym.ofStr c!"std::core::slot") [.mk [.integer n] [] noPos]
  | .all => some (.function (Sym.ofStr c!"std::core::slot_sequence") [.mk [] [] noPos])
  | .from _ => none

/-- Slots are operands. -/
theorem node_slot (L : Lawful u) (s : SlotForm) (hs : s.Ok u) : IsNode u true s.text s.value := by
  have hx : ∃ t, s.text = '#' :: t := by cases s <;> exact ⟨_, rfl⟩
  obtain ⟨t, hx⟩ := hx
  refine ⟨⟨'#', t, hx, .inr (by decide)⟩, fun rest hr _ => eats_node_mark L hx (by decide) ?_,
    fun rest _ _ => fails_kv_mark L ⟨'#', t, hx, by decide⟩ rest⟩
  refine eats_data_of rfl (eats_alt_left (eats_alt_left (eats_alt_left (eats_alt_right
      (fails_alt (fails_alt (fails_alt (fails_restore ?_) (fails_restore ?_)) ?_) ?_)
      (eats_Slot (v := vC) L rfl s hs (hr.noCont L) ?_))))) ?_
  · rw [hx]; exact fails_plain L (by decide) _
  · rw [hx]; exact fails_plain L (by decide) _
  · rw [hx]; exact fails_plain L (by decide) _
  · rw [hx]; exact fails_plain L (by decide) _
  · exact hr.endsIn.head_ne L (by decide) (by decide)
  · rintro q ⟨a', b', l, rfl, hl⟩
    refine ⟨_, rfl, fun c a b => ?_⟩
    simp only [buildData, Pair.rule, Pair.text, Pair.inner]
    simp only [reduceCtorEq, if_false, if_true]
    cases s with
    | one =>
      rw [show l = [] from hl]
      rfl
    | named x =>
      obtain ⟨a2, b2, l2, rfl, _⟩ := hl
      obtain ⟨y, r, rfl, hy⟩ := IsIdent.start hs
      have hy' : y ≠ '#' := by
        rintro rfl
        rcases hy with hy | hy
        · rw [L.plain _ _ (by decide)] at hy; revert hy; decide
        · revert hy; decide
      simp [parseSlot, slotArgs, SlotForm.text, SlotForm.value, Pair.rule, Pair.text, hy', erase, eraseP,
        eraseParam, eraseL, eraseO]
    | nth x =>
      obtain ⟨a2, b2, l2, rfl, _⟩ := hl
      obtain ⟨y, r, rfl, hy⟩ := IsInt.head hs
      have hy' : y ≠ '#' := by
        rintro rfl; revert hy; decide
      simp only [parseSlot, slotArgs, SlotForm.text, SlotForm.value, Pair.rule, Pair.text]
      simp only [reduceCtorEq, if_false, if_true]
      cases fromStrRadix 10 (y :: r) <;>
        simp [hy', erase, eraseP, eraseParam, eraseL, eraseO]
    | all =>
      rw [show l = [] from hl]
      rfl
    | «from» x =>
      obtain ⟨a2, b2, l2, rfl, _⟩ := hl
      simp [parseSlot, slotArgs, SlotForm.value, Pair.rule]

theorem quoted_strip (s : Str) : ((quoted s).drop 1).dropLast = s := by
  simp [quoted]

/-- Quoted strings are operands. -/
theorem node_string (L : Lawful u) {s : Str} (hs : contentOk s = true) :
    IsNode u false (quoted s) (some (.string s)) := by
  refine ⟨⟨'"', _, rfl, .inr (by decide)⟩, fun rest hr _ => eats_node_mark L rfl (by decide) ?_,
    fun rest _ _ => fails_kv_mark L ⟨'"', _, rfl, by decide⟩ rest⟩
  refine eats_data_of rfl (eats_alt_left (eats_alt_right
      (fails_alt (fails_alt (fails_alt (fails_alt (fails_alt (fails_restore ?_) (fails_restore ?_)) ?_) ?_) ?_) ?_)
      (eats_restore (eats_String (v := vC) L rfl hs ?_)))) ?_
  any_goals exact fails_plain L (by decide) _
  · exact hr.endsIn.head_ne L (by decide) (by decide)
  · rintro q ⟨a', b', l, rfl, a2, b2, l2, rfl, _⟩
    refine ⟨_, rfl, fun c a b => ?_⟩
    have : ¬ (quoted s).length < 2 := by simp [quoted]
    have h2 : (quoted s).tail.dropLast = s := by simpa using quoted_strip s
    simp [buildData, parseString, stringText, Pair.rule, Pair.text, Pair.inner, this, erase, h2]

end SM.Props
