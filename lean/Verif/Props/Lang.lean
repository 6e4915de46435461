import Verif.Props.Read
import Verif.Props.PegAgree
/-
What texts parse to: literals, names, products, operators, calls, indices.
-/
namespace SM.Props
open SM SM.Peg

variable {u : Uni}

/-- **C53**.  The text of a well-formed expression, with blank space around it, parses to the value of the expression
-- up to positions -- or panics if it has none. -/
theorem C53_expressions (L : Lawful u) (c : Cfg) (e : SExpr) (h : e.Ok u) (hn : Wordless e.text) {w w' : Str}
    (hw : Blank u w) (hw' : Blank u w') (hc : c.input = w ++ (e.text ++ w')) :
    eraseR (parseText u c) = answer e.value :=
  parse_expr L c (SExpr.read L e h) hn hw hw' hc

/-! ### Literals -/

/-- An expression that is one operand. -/
def SExpr.node (n : SNode) : SExpr := .mk (.mk [] n []) []

theorem node_text (n : SNode) : (SExpr.node n).text = n.text := by
  simp [SExpr.node, SExpr.text, STerm.text, sufsText, stepsText]

theorem node_value (n : SNode) : (SExpr.node n).value = n.value := by
  have : ∀ o : Option AST, (o.bind fun a => some a) = o := by intro o; cases o <;> rfl
  simp [SExpr.node, SExpr.value, STerm.value, sufsApply, stepsValue, group, evalTree, preFold, this]

theorem node_ok {n : SNode} (h : n.Ok u) : (SExpr.node n).Ok u := by
  rw [SExpr.node, SExpr.Ok, STerm.Ok, SufsOk, StepsOk]
  exact ⟨⟨h, trivial⟩, trivial⟩

theorem wordless_head {x : Str} {c : Char} {r : Str} (hx : x = c :: r)
    (hc : c ∉ ['u', 'c', 't', 'e', 'r', 'b', 'p', 'i', 'f', 'l', 'd']) : Wordless x := by
  subst hx
  have key : ∀ k ∈ statementWords, ∃ d t, k = d :: t ∧ d ∈ ['u', 'c', 't', 'e', 'r', 'b', 'p', 'i', 'f', 'l', 'd'] := by
    intro k hk
    simp only [statementWords, List.mem_cons, List.not_mem_nil, or_false] at hk
    rcases hk with rfl | rfl | rfl | rfl | rfl | rfl | rfl | rfl | rfl | rfl | rfl <;> exact ⟨_, _, rfl, by decide⟩
  intro k hk
  obtain ⟨d, t, rfl, hd⟩ := key k hk
  have : d ≠ c := by rintro rfl; exact hc hd
  simp [strip, this]

/-- The answers that carry no position. -/
def Leaf : AST → Prop
  | .integer _ | .decimal _ | .string _ | .symbol _ | .boolean _ => True
  | _ => False

theorem eraseR_leaf {r : SMResult AST} {a : AST} (ha : Leaf a) (h : eraseR r = .ok a) : r = .ok a := by
  cases r with
  | ok b =>
    simp only [eraseR, Out.ok.injEq] at h
    cases b <;> simp only [erase] at h <;> subst h <;> first | rfl | cases ha
  | err e => cases h
  | panic => cases h

theorem eraseR_panic {r : SMResult AST} (h : eraseR r = .panic) : r = .panic := by
  cases r <;> first | rfl | cases h

/-- A literal, a name or a product, alone in the text. -/
theorem parse_atom (L : Lawful u) (c : Cfg) (a : SAtom) (h : a.Ok u) (hn : Wordless a.text) {w w' : Str}
    (hw : Blank u w) (hw' : Blank u w') (hc : c.input = w ++ (a.text ++ w')) :
    eraseR (parseText u c) = answer a.value := by
  have ht : (SExpr.node (.atom a)).text = a.text := by rw [node_text, SNode.text]
  have := C53_expressions L c (.node (.atom a)) (node_ok (by rw [SNode.Ok]; exact h)) (by rw [ht]; exact hn) hw hw'
    (by rw [ht]; exact hc)
  rw [node_value, SNode.value] at this
  exact this

theorem numeral_wordless (n : Nat) (z : Str) : Wordless (numeral n ++ z) := by
  cases h : numeral n with
  | nil => exact absurd h Nat.toDigits_ne_nil
  | cons c r =>
    refine wordless_head (c := c) (r := r ++ z) rfl ?_
    have := digit_mem (isDigit_numeral (n := n) (c := c) (by rw [h]; simp))
    have key : ∀ c ∈ digitChars, c ∉ ['u', 'c', 't', 'e', 'r', 'b', 'p', 'i', 'f', 'l', 'd'] := by decide
    exact key c this

/-- **C38**.  The decimal numeral of a natural number parses to it, and it is printed as its numeral. -/
theorem C38_integers (L : Lawful u) (c : Cfg) (n : Nat) {w w' : Str} (hw : Blank u w) (hw' : Blank u w')
    (hc : c.input = w ++ (numeral n ++ w')) :
    parseText u c = .ok (.integer n) ∧ (AST.integer n).display = some (numeral n) := by
  refine ⟨eraseR_leaf trivial (parse_atom L c (.int n) trivial ?_ hw hw' hc), ?_⟩
  · have := numeral_wordless n []
    rwa [List.append_nil] at this
  · simp [AST.display, intStr, natStr]

/-- `w` is empty and `n` is 1024, for example. -/
example : parseText asciiUni ⟨[], c!"1024", []⟩ = .ok (.integer 1024) :=
  (C38_integers lawful_asciiUni ⟨[], c!"1024", []⟩ 1024 (w := []) (w' := []) blank_nil blank_nil (by decide)).1

/-- Every text of digits without a leading zero is the numeral of a number. -/
theorem C38_numerals {x : Str} : IsInt x ↔ ∃ n, x = numeral n :=
  ⟨int_numeral, by rintro ⟨n, rfl⟩; exact numeral_int n⟩

/-- **C39**.  A literal with a radix parses to the number that its digits denote, whatever the case of the letters and
wherever single underscores stand between the digits. -/
theorem C39_radix (L : Lawful u) (c : Cfg) (r : Radix) {k : Char} (hk : k ∈ r.letters) (up : Bool) (d : Nat)
    (ds : List SDigit) (hd : d < r.base) (hds : ∀ e ∈ ds, e.2.2 < r.base) {w w' : Str} (hw : Blank u w)
    (hw' : Blank u w') (hc : c.input = w ++ (('0' :: k :: digit up d :: ds.flatMap fun e => groupText e.char) ++ w')) :
    parseText u c = .ok (.integer (digitsValue r.base (d :: ds.map fun e => e.2.2))) := by
  refine eraseR_leaf trivial (parse_atom L c (.radix r k (false, up, d) ds) ⟨hk, ?_⟩ ?_ hw hw' hc)
  · intro e he
    rcases List.mem_cons.1 he with rfl | he
    · exact hd
    · exact hds e he
  · exact wordless_head rfl (by decide)

/-- **C39** (violation).  If an underscore stands directly after the letter, parsing panics. -/
theorem C39_underscore (L : Lawful u) (c : Cfg) (r : Radix) {k : Char} (hk : k ∈ r.letters) (up : Bool) (d : Nat)
    (ds : List SDigit) (hd : d < r.base) (hds : ∀ e ∈ ds, e.2.2 < r.base) {w w' : Str} (hw : Blank u w)
    (hw' : Blank u w')
    (hc : c.input = w ++ (('0' :: k :: '_' :: digit up d :: ds.flatMap fun e => groupText e.char) ++ w')) :
    parseText u c = .panic := by
  refine eraseR_panic (parse_atom L c (.radix r k (true, up, d) ds) ⟨hk, ?_⟩ ?_ hw hw' hc)
  · intro e he
    rcases List.mem_cons.1 he with rfl | he
    · exact hd
    · exact hds e he
  · exact wordless_head rfl (by decide)

/-- `0xF_f` is 255. -/
example : parseText asciiUni ⟨[], c!"0xF_f", []⟩ = .ok (.integer 255) :=
  C39_radix lawful_asciiUni ⟨[], c!"0xF_f", []⟩ .hex (k := 'x') (by decide) true 15 [(true, false, 15)] (by decide)
    (by decide) (w := []) (w' := []) blank_nil blank_nil (by decide)

/-! ### Decimals -/

theorem take_append_length {α : Type} (a b : List α) {n : Nat} (h : n = a.length) : (a ++ b).take n = a := by
  subst h; simp
theorem drop_append_length {α : Type} (a b : List α) {n : Nat} (h : n = a.length) : (a ++ b).drop n = b := by
  subst h; simp

/-- The numeral of `i * 10^k + f`, if `f` has `k` digits. -/
theorem numeral_append (i f : Nat) (hi : 0 < i) :
    numeral (i * 10 ^ (numeral f).length + f) = numeral i ++ numeral f := by
  obtain ⟨c, r, e, h1, h2, h3⟩ := numeral_pos i hi
  have hp : IsPos (numeral i ++ numeral f) := by
    refine ⟨c, r ++ numeral f, by rw [e]; rfl, h1, h2, ?_⟩
    intro d hd
    rcases List.mem_append.1 hd with hd | hd
    · exact h3 d hd
    · exact isDigit_numeral hd
  obtain ⟨n, hn, en⟩ := pos_numeral hp
  have h4 := parseDecimal_value i f
  have h5 : fromStrRadix 10 (numeral i ++ numeral f) = some (i * 10 ^ (numeral f).length + f) := by
    rw [parseDecimal, splitDot_digits fun c hc => isDigit_numeral hc] at h4
    simp only at h4
    cases h6 : fromStrRadix 10 (numeral i ++ numeral f) with
    | none => rw [h6] at h4; cases h4
    | some m =>
      rw [h6] at h4
      simp only [Option.some.injEq, AST.decimal.injEq, Dec.mk.injEq, Nat.cast_inj] at h4
      rw [h4.1]
  rw [en, fromStrRadix_numeral] at h5
  rw [en]
  exact congrArg numeral (Option.some.inj h5).symm

theorem numeral_length_pos (n : Nat) : 0 < (numeral n).length := by
  obtain ⟨c, r, e, _⟩ := numeral_head n
  rw [e]; simp

theorem decStr_short {n k : Nat} {ab : Str} (h : natStr n = ab) (hk : k = ab.length) (h0 : 0 < k) :
    decStr ⟨n, k⟩ = '0' :: '.' :: ab := by
  subst h hk
  have hne : (natStr n).isEmpty = false := by
    cases h : natStr n with
    | nil => rw [h] at h0; exact absurd h0 (by decide)
    | cons => rfl
  simp [decStr, hne, Int.not_lt.2 (Int.natCast_nonneg n)]

theorem decStr_long {n k : Nat} {a b : Str} (h : natStr n = a ++ b) (hk : k = b.length) (ha : 0 < a.length)
    (hb : 0 < b.length) : decStr ⟨n, k⟩ = a ++ '.' :: b := by
  subst hk
  have hne : b.isEmpty = false := by
    cases b with
    | nil => exact absurd hb (by decide)
    | cons => rfl
  have h1 : ¬ ((b.length : Int) ≥ ((a ++ b).length : Nat)) := by simp only [List.length_append]; omega
  have h2 : ¬ (((a ++ b).length : Nat) - (b.length : Int) > ((a ++ b).length : Nat)) := by
    simp only [List.length_append]; omega
  have h3 : (((a ++ b).length : Nat) - (b.length : Int)).toNat = a.length := by
    simp only [List.length_append]; omega
  simp only [decStr, Int.natAbs_natCast, h, if_neg h1, if_neg h2, h3, take_append_length a b rfl,
    drop_append_length a b rfl, hne, if_neg (Int.not_lt.2 (Int.natCast_nonneg n))]
  simp

/-- A decimal is printed as it is written. -/
theorem decStr_literal (i f : Nat) :
    decStr ⟨(i * 10 ^ (numeral f).length + f : Nat), (numeral f).length⟩ = numeral i ++ '.' :: numeral f := by
  have hl := numeral_length_pos f
  by_cases hi : i = 0
  · subst hi
    rw [Nat.zero_mul, Nat.zero_add, decStr_short (ab := numeral f) rfl rfl hl, numeral_zero.2 rfl]
    rfl
  · exact decStr_long (numeral_append i f (by omega)) rfl (numeral_length_pos i) hl

/-- **C40**.  A decimal literal `i.f`, both parts without leading zeros, parses to the exact decimal, which is printed
as it was written. -/
theorem C40_decimals (L : Lawful u) (c : Cfg) (i f : Nat) {w w' : Str} (hw : Blank u w) (hw' : Blank u w')
    (hc : c.input = w ++ ((numeral i ++ '.' :: numeral f) ++ w')) :
    ∃ d : Dec, parseText u c = .ok (.decimal d) ∧
      (d.digits = i * 10 ^ (numeral f).length + f ∧ d.scale = (numeral f).length) ∧
      (AST.decimal d).display = some (numeral i ++ '.' :: numeral f) := by
  refine ⟨⟨(i * 10 ^ (numeral f).length + f : Nat), (numeral f).length⟩,
    eraseR_leaf trivial (parse_atom L c (.dec i f) trivial (numeral_wordless i _) hw hw' hc), ⟨?_, rfl⟩, ?_⟩
  · push_cast; rfl
  · rw [AST.display, decStr_literal]

/-- `3.25` is 325/100. -/
example : parseText asciiUni ⟨[], c!"3.25", []⟩ = .ok (.decimal ⟨325, 2⟩) := by
  have h := C40_decimals lawful_asciiUni ⟨[], c!"3.25", []⟩ 3 25 (w := []) (w' := []) blank_nil blank_nil (by decide)
  obtain ⟨⟨a, b⟩, h1, ⟨h2, h3⟩, _⟩ := h
  rw [h1]
  simp only at h2 h3
  subst h2 h3
  rfl

/-! ### Strings -/

/-- **C41**.  A string in quotes parses to exactly what stands between the quotes, escapes included; a name in front of
the quotes makes no difference. -/
theorem C41_strings (L : Lawful u) (c : Cfg) {s : Str} (hs : contentOk s = true) {w w' : Str} (hw : Blank u w)
    (hw' : Blank u w') (hc : c.input = w ++ (('"' :: (s ++ c!"\"")) ++ w')) : parseText u c = .ok (.string s) :=
  eraseR_leaf trivial (parse_atom L c (.str s) hs (wordless_head rfl (by decide)) hw hw' hc)

theorem C41_tagged (L : Lawful u) (c : Cfg) {h s : Str} (hh : IsIdent u h) (hk : ∀ k ∈ constants, strip k h = none)
    (hwl : Wordless h) (hs : contentOk s = true) {w w' : Str} (hw : Blank u w) (hw' : Blank u w')
    (hc : c.input = w ++ ((h ++ '"' :: (s ++ c!"\"")) ++ w')) : parseText u c = .ok (.string s) := by
  refine eraseR_leaf trivial (parse_atom L c (.tagged h s) ⟨hh, hk, hs⟩ ?_ hw hw' hc)
  intro k hk'
  refine strip_more (u := u) ?_ (words_cont L k hk') (hwl k hk')
  intro d r e
  cases e
  rw [L.plain _ _ (by decide)]
  decide

/-- **C41** (blocks).  A string between three or more quotes parses to exactly what stands between the quotes; a name in
front makes no difference.  The text must not be empty, begin with a quote, or contain that many quotes before the end. -/
theorem C41_blocks (L : Lawful u) (c : Cfg) {n : Nat} {s : Str} (hn : 3 ≤ n) (h1 : s ≠ []) (h2 : ∀ r, s ≠ '"' :: r)
    (h3 : ∀ a b, s ++ List.replicate n '"' = a ++ (List.replicate n '"' ++ b) → b = []) {w w' : Str} (hw : Blank u w)
    (hw' : Blank u w')
    (hc : c.input = w ++ ((List.replicate n '"' ++ (s ++ List.replicate n '"')) ++ w')) :
    parseText u c = .ok (.string s) := by
  obtain ⟨k, rfl⟩ : ∃ k, n = k + 3 := ⟨n - 3, by omega⟩
  exact eraseR_leaf trivial (parse_atom L c (.block k s) ⟨h1, h2, h3⟩ (wordless_head (c := '"') rfl (by decide)) hw hw' hc)

theorem C41_tagged_blocks (L : Lawful u) (c : Cfg) {h : Str} {n : Nat} {s : Str} (hh : IsIdent u h)
    (hk : ∀ k ∈ constants, strip k h = none) (hwl : Wordless h) (hn : 3 ≤ n) (h1 : s ≠ []) (h2 : ∀ r, s ≠ '"' :: r)
    (h3 : ∀ a b, s ++ List.replicate n '"' = a ++ (List.replicate n '"' ++ b) → b = []) {w w' : Str} (hw : Blank u w)
    (hw' : Blank u w')
    (hc : c.input = w ++ ((h ++ (List.replicate n '"' ++ (s ++ List.replicate n '"'))) ++ w')) :
    parseText u c = .ok (.string s) := by
  obtain ⟨k, rfl⟩ : ∃ k, n = k + 3 := ⟨n - 3, by omega⟩
  refine eraseR_leaf trivial (parse_atom L c (.taggedBlock h k s) ⟨hh, hk, h1, h2, h3⟩ ?_ hw hw' hc)
  intro k' hk'
  refine strip_more (u := u) ?_ (words_cont L k' hk') (hwl k' hk')
  intro d r e
  cases e
  rw [L.plain _ _ (by decide)]
  decide

/-- Text without quotes can stand in every block. -/
theorem C41_plain_block (L : Lawful u) (c : Cfg) {n : Nat} {s : Str} (hn : 3 ≤ n) (h1 : s ≠ []) (h2 : '"' ∉ s)
    (hc : c.input = List.replicate n '"' ++ (s ++ List.replicate n '"')) : parseText u c = .ok (.string s) := by
  refine C41_blocks L c hn h1 (fun r e => h2 (by rw [e]; simp)) ?_ (w := []) (w' := []) blank_nil blank_nil (by simpa using hc)
  intro a b e
  have hcount := congrArg (List.count '"') e
  simp only [List.count_append, List.count_replicate_self, List.count_eq_zero.2 h2] at hcount
  have hb : List.count '"' b = 0 := by omega
  cases b using List.reverseRecOn with
  | nil => rfl
  | append_singleton b x =>
    have hx : x = '"' := by
      have hl := congrArg List.getLast? e
      obtain ⟨k, rfl⟩ : ∃ k, n = k + 1 := ⟨n - 1, by omega⟩
      rw [← List.append_assoc, ← List.append_assoc, List.getLast?_concat, List.replicate_succ', ← List.append_assoc,
        List.getLast?_concat] at hl
      exact (Option.some.inj hl).symm
    rw [hx] at hb
    simp at hb

/-- Four quotes around a text with three quotes in it. -/
example : parseText asciiUni ⟨[], c!"\"\"\"\"a\"\"\"b\"\"\"\"", []⟩ = .ok (.string c!"a\"\"\"b") := by
  refine C41_blocks lawful_asciiUni _ (n := 4) (w := []) (w' := []) (by decide) (by decide) ?_ ?_ blank_nil blank_nil rfl
  · rintro r ⟨⟩
  · intro a b e
    match a, e with
    | [], e => cases e
    | [_], e => cases e
    | [_, _], e => cases e
    | [_, _, _], e => cases e
    | [_, _, _, _], e => cases e
    | _ :: _ :: _ :: _ :: _ :: a, e =>
      have := congrArg List.length e
      simp at this
      exact List.length_eq_zero_iff.1 (by omega)

/-- `"a\"b"` keeps its backslash. -/
example : parseText asciiUni ⟨[], ['"', 'a', '\\', '"', 'b', '"'], []⟩ = .ok (.string ['a', '\\', '"', 'b']) :=
  C41_strings lawful_asciiUni ⟨[], ['"', 'a', '\\', '"', 'b', '"'], []⟩ (w := []) (w' := []) (by decide) blank_nil
    blank_nil (by decide)

/-! ### Names -/

/-- The words that are not names: an identifier that begins with one of them is not read as a name. -/
def reserved : List Str := constants ++ statementWords

theorem ident_no_colon (L : Lawful u) {x : Str} (hx : IsIdent u x) : ∀ c ∈ x, c ≠ ':' := by
  have h1 : u .xidContinue ':' = false := by rw [L.plain _ _ (by decide)]; decide
  have h2 : u .xidStart ':' = false := by rw [L.plain _ _ (by decide)]; decide
  rintro c hc rfl
  rcases hx with ⟨d, r, rfl, hd, hr⟩ | ⟨d, r, rfl, hd, hr⟩
  · rcases List.mem_cons.1 hc with rfl | hc
    · rw [h2] at hd; cases hd
    · have := hr _ hc; rw [h1] at this; cases this
  · rcases List.mem_cons.1 hc with h | hc
    · exact absurd h (by decide)
    · rcases List.mem_cons.1 hc with rfl | hc
      · rw [h1] at hd; cases hd
      · have := hr _ hc; rw [h1] at this; cases this

theorem splitColons_none : ∀ x : Str, (∀ c ∈ x, c ≠ ':') → splitColons x = [x] := by
  intro x
  induction x with
  | nil => intro _; rfl
  | cons c x ih =>
    intro h
    cases x with
    | nil => rfl
    | cons d x =>
      rw [splitColons, if_neg (fun e => h c (by simp) e.1), ih fun e he => h e (by simp [he])]

theorem splitColons_sep (y : Str) : ∀ x : Str, (∀ c ∈ x, c ≠ ':') →
    splitColons (x ++ ':' :: ':' :: y) = x :: splitColons y := by
  intro x
  induction x with
  | nil => intro _; rfl
  | cons c x ih =>
    intro h
    have ih := ih fun e he => h e (by simp [he])
    have hc := h c (by simp)
    cases x with
    | nil =>
      simp only [List.nil_append] at ih
      rw [List.cons_append, List.nil_append, splitColons, if_neg (fun e => hc e.1), ih]
    | cons d x =>
      simp only [List.cons_append] at ih ⊢
      rw [splitColons, if_neg (fun e => hc e.1), ih]

/-- The name of an identifier. -/
theorem ofStr_ident (L : Lawful u) {x : Str} (hx : IsIdent u x) : Sym.ofStr x = ⟨[], x, .normal, 0⟩ := by
  simp only [Sym.ofStr, splitColons_none x (ident_no_colon L hx)]
  rfl

/-- The name and the name space of a path written with `::`. -/
theorem ofStr_path (L : Lawful u) : ∀ (l : List Str) (x : Str), IsIdent u x → (∀ y ∈ l, IsIdent u y) →
    Sym.ofStr (Path.mk x (l.map fun y => (false, y))).text =
      ⟨(x :: l).dropLast, (x :: l).getLastD [], .normal, 0⟩ := by
  have key : ∀ (l : List Str) (x : Str), IsIdent u x → (∀ y ∈ l, IsIdent u y) →
      splitColons (Path.mk x (l.map fun y => (false, y))).text = x :: l := by
    intro l
    induction l with
    | nil =>
      intro x hx _
      simp only [Path.text, moreText, List.map_nil, List.flatMap_nil, List.append_nil]
      exact splitColons_none x (ident_no_colon L hx)
    | cons y l ih =>
      intro x hx hl
      have := ih y (hl y (by simp)) fun z hz => hl z (by simp [hz])
      simp only [Path.text, moreText, List.map_cons, List.flatMap_cons, pathSep, Bool.false_eq_true, if_false] at this ⊢
      rw [show c!"::" = [':', ':'] from rfl, List.append_assoc, List.cons_append, List.cons_append, List.nil_append,
        splitColons_sep _ _ (ident_no_colon L hx), this]
  intro l x hx hl
  simp only [Sym.ofStr, key l x hx hl]

/-- **C42**.  An identifier that begins with no reserved word parses to the symbol of that name. -/
theorem C42_identifiers (L : Lawful u) (c : Cfg) {x : Str} (hx : IsIdent u x) (hr : ∀ k ∈ reserved, strip k x = none)
    {w w' : Str} (hw : Blank u w) (hw' : Blank u w') (hc : c.input = w ++ (x ++ w')) :
    parseText u c = .ok (.symbol ⟨[], x, .normal, 0⟩) := by
  have ht : (Path.mk x []).text = x := by simp [Path.text, moreText]
  have := parse_atom L c (.sym ⟨x, []⟩) ⟨⟨hx, by simp⟩, fun k hk => hr k (by simp [reserved, hk])⟩
    (by rw [SAtom.text, ht]; exact fun k hk => hr k (by simp [reserved, hk])) hw hw' (by rw [SAtom.text, ht]; exact hc)
  rw [SAtom.value, ht, AST.mkSymbol, ofStr_ident L hx] at this
  exact eraseR_leaf trivial this

/-- **C42** for names with a name space. -/
theorem C42_paths (L : Lawful u) (c : Cfg) {x : Str} (hx : IsIdent u x) (hr : ∀ k ∈ reserved, strip k x = none)
    {l : List Str} (hl : ∀ y ∈ l, IsIdent u y) {w w' : Str} (hw : Blank u w) (hw' : Blank u w')
    (hc : c.input = w ++ ((x ++ l.flatMap fun y => ':' :: ':' :: y) ++ w')) :
    parseText u c = .ok (.symbol ⟨(x :: l).dropLast, (x :: l).getLastD [], .normal, 0⟩) := by
  have ht : (Path.mk x (l.map fun y => (false, y))).text = x ++ l.flatMap fun y => ':' :: ':' :: y := by
    simp [Path.text, moreText, List.flatMap_map, pathSep]
  have hn : Wordless (Path.mk x (l.map fun y => (false, y))).text := by
    intro k hk
    rw [ht]
    refine strip_more (u := u) ?_ (words_cont L k hk) (hr k (by simp [reserved, hk]))
    cases l with
    | nil => exact fun _ _ e => nomatch e
    | cons y l =>
      intro d r e
      simp only [List.flatMap_cons, List.cons_append, List.cons.injEq] at e
      rw [← e.1, L.plain _ _ (by decide)]
      decide
  have := parse_atom L c (.sym ⟨x, l.map fun y => (false, y)⟩) ⟨⟨hx, by
    intro m hm
    obtain ⟨y, hy, rfl⟩ := List.mem_map.1 hm
    exact hl y hy⟩, fun k hk => hr k (by simp [reserved, hk])⟩ hn hw hw' (by rw [SAtom.text, ht]; exact hc)
  rw [SAtom.value, AST.mkSymbol, ofStr_path L l x hx hl] at this
  exact eraseR_leaf trivial this

/-- **C42** (violation).  `trueish` is an identifier and parses to `true`. -/
theorem C42_trueish (L : Lawful u) (c : Cfg) (hc : c.input = c!"trueish") :
    IsIdent u c!"trueish" ∧ parseText u c = .ok (.boolean true) := by
  refine ⟨?_, ?_⟩
  · refine .inl ⟨'t', c!"rueish", rfl, ?_, ?_⟩
    · rw [L.plain _ _ (by decide)]; decide
    · intro d hd
      rw [L.plain _ _ (by revert d; decide)]
      revert d; decide
  · rw [parse_pairs L (x := c!"trueish") (l := [
      .mk .expression 0 4 c!"true" [.mk .expr 0 4 c!"true" [.mk .term 0 4 c!"true" [.mk .node 0 4 c!"true"
        [.mk .data 0 4 c!"true" [.mk .Special 0 4 c!"true" []]]]]],
      .mk .expression 4 7 c!"ish" [.mk .expr 4 7 c!"ish" [.mk .term 4 7 c!"ish" [.mk .node 4 7 c!"ish"
        [.mk .data 4 7 c!"ish" [.mk .Symbol 4 7 c!"ish" [.mk .SYMBOL 4 7 c!"ish" []]]]]]],
      .mk .EOI 7 7 c!"" []]) (by decide +kernel) (by decide) c hc]
    rfl

/-- **C42** (violation).  `letter` is an identifier and makes the parser panic. -/
theorem C42_letter (L : Lawful u) (c : Cfg) (hc : c.input = c!"letter") :
    IsIdent u c!"letter" ∧ parseText u c = .panic := by
  refine ⟨?_, ?_⟩
  · refine .inl ⟨'l', c!"etter", rfl, ?_, ?_⟩
    · rw [L.plain _ _ (by decide)]; decide
    · intro d hd
      rw [L.plain _ _ (by revert d; decide)]
      revert d; decide
  · exact parse_other L (x := c!"letter") (r := .assignStatement) (by decide +kernel) (by decide) (by decide) c hc

/-- `alpha::x1` is `x1` in the name space `alpha`. -/
example : parseText asciiUni ⟨[], c!"alpha::x1", []⟩ = .ok (.symbol ⟨[c!"alpha"], c!"x1", .normal, 0⟩) :=
  C42_paths lawful_asciiUni ⟨[], c!"alpha::x1", []⟩ (x := c!"alpha") (l := [c!"x1"])
    (.inl ⟨'a', c!"lpha", rfl, by decide, by decide⟩) (by decide)
    (by
      intro y hy
      simp only [List.mem_cons, List.not_mem_nil, or_false] at hy
      subst hy
      exact .inl ⟨'x', c!"1", rfl, by decide, by decide⟩)
    (w := []) (w' := []) blank_nil blank_nil (by decide)

/-- **C40** (violation).  A fraction that begins with a zero makes the parser panic. -/
theorem C40_leading_zero (L : Lawful u) (c : Cfg) (hc : c.input = c!"1.05") : parseText u c = .panic := by
  rw [parse_pairs L (x := c!"1.05") (l := [
    .mk .expression 0 4 c!"1.05" [.mk .expr 0 4 c!"1.05" [.mk .term 0 4 c!"1.05" [.mk .node 0 4 c!"1.05"
      [.mk .space_call 0 4 c!"1.05" [.mk .Decimal 0 3 c!"1.0" [.mk .Integer 0 1 c!"1" [], .mk .Dot 1 2 c!"." [],
        .mk .Integer 2 3 c!"0" []], .mk .Integer 3 4 c!"5" []]]]]],
    .mk .EOI 4 4 c!"" []]) (by decide +kernel) (by decide) c hc]
  rfl

/-! ### Products -/

/-- **C43**.  Two or more numbers and names side by side parse to one product of exactly these factors in order. -/
theorem C43_products (L : Lawful u) (c : Cfg) (f : SFactor) (m : Str × SFactor) (l : List (Str × SFactor))
    (hf : f.Ok u) (hl : FactorsOk u f (m :: l)) (hn : Wordless (f.text ++ factorsText (m :: l))) {w w' : Str}
    (hw : Blank u w) (hw' : Blank u w') (hc : c.input = w ++ ((f.text ++ factorsText (m :: l)) ++ w')) :
    eraseR (parseText u c) = .ok (.function ⟨[c!"std", c!"infix"], c!"times", .infix c!"*" 140, 0⟩
      [.mk (f.value :: m.2.value :: l.map fun m => m.2.value) [] noPos]) :=
  parse_atom L c (.prod f m l) ⟨hf, hl⟩ hn hw hw' hc

/-- `2 x 3y`. -/
example : eraseR (parseText asciiUni ⟨[], c!"2 x 3y", []⟩) =
    .ok (.function ⟨[c!"std", c!"infix"], c!"times", .infix c!"*" 140, 0⟩
      [.mk [.integer 2, .mkSymbol c!"x", .integer 3, .mkSymbol c!"y"] [] noPos]) := by
  have ix : IsIdent asciiUni c!"x" := .inl ⟨'x', [], rfl, by decide, by decide⟩
  have iy : IsIdent asciiUni c!"y" := .inl ⟨'y', [], rfl, by decide, by decide⟩
  have hs : ∀ d ∈ c!" ", HWs asciiUni d := by
    intro d hd
    simp only [List.mem_cons, List.not_mem_nil, or_false] at hd
    subst hd
    exact ⟨by unfold Ws; decide, by decide, by decide⟩
  exact C43_products lawful_asciiUni ⟨[], c!"2 x 3y", []⟩ (.int 2) (c!" ", .sym ⟨c!"x", []⟩)
    [(c!" ", .int 3), ([], .sym ⟨c!"y", []⟩)] trivial
    ⟨hs, ⟨ix, by simp⟩, .inl (by decide), hs, trivial, .inl (by decide), by simp, ⟨iy, by simp⟩, .inr (by intro h; cases h),
      trivial⟩
    (numeral_wordless 2 _) (w := []) (w' := []) blank_nil blank_nil (by decide)

/-! ### The history -/

/-- **C52**.  `n + 1` pilcrow signs stand for the input that many steps back, reversed ones for the output. -/
theorem C52_back (L : Lawful u) (c : Cfg) (out : Bool) (n : Nat) {w w' : Str} (hw : Blank u w) (hw' : Blank u w')
    (hc : c.input = w ++ (List.replicate (n + 1) (if out then '⁋' else '¶') ++ w')) :
    eraseR (parseText u c) = .ok (.function ⟨[c!"std", c!"repl"], if out then c!"output" else c!"input", .normal, 0⟩
      [.mk [.integer (-((n : Int) + 1))] [] noPos]) := by
  have := parse_atom L c (.back out n) trivial (wordless_head (c := pilcrow out) (r := List.replicate n (pilcrow out)) rfl
    (by cases out <;> decide)) hw hw' (by cases out <;> exact hc)
  rw [this]
  cases out <;> rfl

/-- **C52**.  A pilcrow sign before a positive number stands for the input of that number, a reversed one for the
output. -/
theorem C52_index (L : Lawful u) (c : Cfg) (out : Bool) (n : Nat) (hn : 0 < n) {w w' : Str} (hw : Blank u w)
    (hw' : Blank u w') (hc : c.input = w ++ (((if out then '⁋' else '¶') :: numeral n) ++ w')) :
    eraseR (parseText u c) = .ok (.function ⟨[c!"std", c!"repl"], if out then c!"output" else c!"input", .normal, 0⟩
      [.mk [.integer n] [] noPos]) := by
  have := parse_atom L c (.nth out n) hn (wordless_head (c := pilcrow out) rfl
    (by cases out <;> decide)) hw hw' (by cases out <;> exact hc)
  rw [this]
  cases out <;> rfl

/-- `¶¶` and `⁋12`. -/
example : eraseR (parseText asciiUni ⟨[], c!"¶¶", []⟩) =
    .ok (.function ⟨[c!"std", c!"repl"], c!"input", .normal, 0⟩ [.mk [.integer (-2)] [] noPos]) :=
  C52_back lawful_asciiUni ⟨[], c!"¶¶", []⟩ false 1 (w := []) (w' := []) blank_nil blank_nil (by decide)
example : eraseR (parseText asciiUni ⟨[], c!"⁋12", []⟩) =
    .ok (.function ⟨[c!"std", c!"repl"], c!"output", .normal, 0⟩ [.mk [.integer 12] [] noPos]) :=
  C52_index lawful_asciiUni ⟨[], c!"⁋12", []⟩ true 12 (by decide) (w := []) (w' := []) blank_nil blank_nil (by decide)

end SM.Props
