import Verif.Props.Adjacent
/-
C66: what an accepted text may look like, character by character.

The theorems are about texts without string literals and comments, where any character may occur.  The tables below
are checked against every rule of the grammar; the claims are in terms of characters.
-/
namespace SM.Props
open SM SM.Peg

/-- The shapes of the rules for texts without string literals and comments. -/
def shapesOne : R → Option Shape
  | .skip => some ⟨true, 0, 0⟩
  | .program => some ⟨true, 172026577951, 43166362643⟩
  | .statement => some ⟨false, 172026577951, 43166362643⟩
  | .emptyStatement => some ⟨false, 34359754752, 34359754752⟩
  | .eos => some ⟨false, 34359754752, 34359754752⟩
  | .comma_or_semi => some ⟨false, 42949697536, 42949697536⟩
  | .block_or_stmt => some ⟨false, 1048832, 43166362643⟩
  | .importStatement => some ⟨false, 2, 2097171⟩
  | .use_alias => some ⟨false, 2, 3⟩
  | .use_module_select => some ⟨false, 2, 2097171⟩
  | .module_block => some ⟨false, 1048576, 2097152⟩
  | .module_tuple => some ⟨false, 2, 2097171⟩
  | .ModuleSplit => some ⟨false, 68719513600, 68719513600⟩
  | .As => some ⟨false, 2, 2⟩
  | .controlFlow => some ⟨false, 2, 216665091⟩
  | .block => some ⟨false, 1048576, 2097152⟩
  | .if_statement => some ⟨false, 2, 2097152⟩
  | .for_statement => some ⟨false, 2, 2097152⟩
  | .for_in_loop => some ⟨false, 2, 2097152⟩
  | .re_control => some ⟨false, 2, 216665091⟩
  | .Return => some ⟨false, 2, 2⟩
  | .Break => some ⟨false, 2, 2⟩
  | .Pass => some ⟨false, 2, 2⟩
  | .classStatement => some ⟨false, 2, 2097155⟩
  | .traitStatement => some ⟨false, 2, 2097155⟩
  | .short_block => some ⟨false, 1048576, 2097152⟩
  | .short_statement => some ⟨false, 34376597506, 43166362643⟩
  | .short_annotation => some ⟨false, 16777216, 43166362643⟩
  | .extendStatement => some ⟨false, 2, 2097152⟩
  | .with_trait => some ⟨false, 2, 3⟩
  | .assignStatement => some ⟨false, 2, 43166362643⟩
  | .assign_terms => some ⟨false, 65538, 43166362643⟩
  | .assign_name => some ⟨false, 2, 8589942787⟩
  | .assign_pair => some ⟨false, 2, 3⟩
  | .defineStatement => some ⟨false, 2, 43166362643⟩
  | .define_terms => some ⟨false, 2, 43166362643⟩
  | .define_parameter => some ⟨false, 65536, 131072⟩
  | .define_pair => some ⟨false, 2, 216665091⟩
  | .annotation => some ⟨false, 16777216, 43166362643⟩
  | .annotation_call => some ⟨false, 16777216, 655363⟩
  | .apply => some ⟨false, 65536, 131072⟩
  | .apply_kv => some ⟨false, 137650045983, 216665091⟩
  | .expression => some ⟨false, 137650045983, 34576419843⟩
  | .expr => some ⟨false, 137650045983, 216665091⟩
  | .term => some ⟨false, 137650045983, 216665091⟩
  | .node => some ⟨false, 211091459, 212467715⟩
  | .apply_call => some ⟨false, 2, 131072⟩
  | .derivative => some ⟨false, 2, 131072⟩
  | .space_call => some ⟨false, 3, 131075⟩
  | .type_expr => some ⟨false, 137650045983, 216665091⟩
  | .type_hint => some ⟨false, 17179901952, 216665091⟩
  | .TypeInfix => some ⟨false, 33554432, 33554432⟩
  | .data => some ⟨false, 211025923, 212336643⟩
  | .dict => some ⟨false, 1048576, 2097152⟩
  | .list => some ⟨false, 262144, 524288⟩
  | .slice => some ⟨false, 262144, 524288⟩
  | .key_valid => some ⟨false, 3, 3⟩
  | .key_value => some ⟨false, 3, 216665091⟩
  | .index => some ⟨false, 154829947935, 17396567043⟩
  | .Start => some ⟨false, 137650045983, 216665091⟩
  | .End => some ⟨false, 137650045983, 216665091⟩
  | .Step => some ⟨false, 137650045983, 216665091⟩
  | .Number => some ⟨false, 1, 3⟩
  | .Decimal => some ⟨false, 1, 1⟩
  | .Integer => some ⟨false, 1, 1⟩
  | .Byte => some ⟨false, 1, 3⟩
  | .String => some ⟨false, 0, 0⟩
  | .StringNormal => some ⟨false, 0, 0⟩
  | .StringBlock => some ⟨false, 0, 0⟩
  | .Symbol => some ⟨false, 2, 3⟩
  | .SYMBOL => some ⟨false, 2, 3⟩
  | .Special => some ⟨false, 2, 2⟩
  | .Slot => some ⟨false, 8388608, 8388611⟩
  | .REPL => some ⟨false, 201326592, 201326593⟩
  | .Positive => some ⟨false, 1, 1⟩
  | .WHITESPACE => some ⟨true, 0, 0⟩
  | .COMMENT => some ⟨false, 0, 0⟩
  | .Prefix => some ⟨false, 137438954524, 137438954524⟩
  | .Suffix => some ⟨false, 4197376, 4197376⟩
  | .Infix => some ⟨false, 8321504252, 8321504252⟩
  | .Set => some ⟨false, 256, 256⟩
  | .Derivative => some ⟨false, 4194304, 4194304⟩
  | .Or => some ⟨false, 33554432, 33554432⟩
  | .Star => some ⟨false, 16, 16⟩
  | .Slash => some ⟨false, 32, 32⟩
  | .Proportion => some ⟨false, 68719509504, 68719509504⟩
  | .Comma => some ⟨false, 8589942784, 8589942784⟩
  | .Dot => some ⟨false, 4096, 4096⟩
  | .Separate => some ⟨false, 16384, 16384⟩
  | .Semicolon => some ⟨false, 34359754752, 34359754752⟩
  | .Colon => some ⟨false, 17179901952, 17179901952⟩
  | .Question => some ⟨false, 2048, 2048⟩
  | .Underline => some ⟨false, 2, 2⟩
  | .Grater => some ⟨false, 512, 512⟩
  | .Plus => some ⟨false, 4, 4⟩
  | .Minus => some ⟨false, 8, 8⟩
  | .Multiply => some ⟨false, 268435472, 268435472⟩
  | .CenterDot => some ⟨false, 1073741824, 1073741824⟩
  | .Kronecker => some ⟨false, 2147483648, 2147483648⟩
  | .TensorProduct => some ⟨false, 4294967296, 4294967296⟩
  | .Divide => some ⟨false, 536870944, 536870944⟩
  | .Modulo => some ⟨false, 128, 128⟩
  | .Power => some ⟨false, 64, 64⟩
  | .DoubleBang => some ⟨false, 1024, 1024⟩
  | .Bang => some ⟨false, 1024, 1024⟩
  | .Not => some ⟨false, 137438953472, 137438953472⟩
  | .At => some ⟨false, 16777216, 16777216⟩
  | .EOI => some ⟨true, 0, 0⟩
  | .SOI => some ⟨true, 0, 0⟩
  | .ASCII_DIGIT => some ⟨false, 1, 1⟩
  | .ASCII_NONZERO_DIGIT => some ⟨false, 1, 1⟩
  | .ASCII_BIN_DIGIT => some ⟨false, 1, 1⟩
  | .ASCII_OCT_DIGIT => some ⟨false, 1, 1⟩
  | .ASCII_HEX_DIGIT => some ⟨false, 3, 3⟩
  | .NEWLINE => some ⟨true, 0, 0⟩
  | .WHITE_SPACE => some ⟨true, 0, 0⟩
  | .XID_CONTINUE => some ⟨false, 3, 3⟩
  | .XID_START => some ⟨false, 2, 2⟩
  | _ => none

/-- What may follow each class in such texts. -/
def afterOne : List Nat :=
  [274877906943, 274877906943, 137650045983, 137650045983, 180618617887, 137650045983, 137650045983, 137650045983,
    172026577951, 137650045983, 206158430207, 206158430207, 137650050079, 197799175455, 180618617887, 163420415007,
    146240119839, 206158430207, 154830472223, 206158430207, 172028675103, 206158430207, 206158430207, 206158430207,
    327682, 137650045983, 206158430207, 206158430207, 137650045983, 137650045983, 137650045983, 137650045983,
    137650045983, 197799175455, 163420415007, 180618617887, 1048594, 137650045983, 0]

/-- The shapes of the rules for texts without statement words either. -/
def shapesTwo : R → Option Shape
  | .skip => some ⟨true, 0, 0⟩
  | .program => some ⟨true, 172009800735, 34576419843⟩
  | .statement => some ⟨false, 172009800735, 34576419843⟩
  | .emptyStatement => some ⟨false, 34359754752, 34359754752⟩
  | .eos => some ⟨false, 34359754752, 34359754752⟩
  | .importStatement => some ⟨false, 0, 0⟩
  | .controlFlow => some ⟨false, 0, 0⟩
  | .if_statement => some ⟨false, 0, 0⟩
  | .for_statement => some ⟨false, 0, 0⟩
  | .re_control => some ⟨false, 0, 0⟩
  | .Return => some ⟨false, 0, 0⟩
  | .Break => some ⟨false, 0, 0⟩
  | .Pass => some ⟨false, 0, 0⟩
  | .classStatement => some ⟨false, 0, 0⟩
  | .traitStatement => some ⟨false, 0, 0⟩
  | .extendStatement => some ⟨false, 0, 0⟩
  | .assignStatement => some ⟨false, 0, 0⟩
  | .defineStatement => some ⟨false, 0, 0⟩
  | .annotation => some ⟨false, 0, 0⟩
  | .annotation_call => some ⟨false, 0, 0⟩
  | .apply => some ⟨false, 65536, 131072⟩
  | .apply_kv => some ⟨false, 137650045983, 216665091⟩
  | .expression => some ⟨false, 137650045983, 34576419843⟩
  | .expr => some ⟨false, 137650045983, 216665091⟩
  | .term => some ⟨false, 137650045983, 216665091⟩
  | .node => some ⟨false, 211091459, 212467715⟩
  | .apply_call => some ⟨false, 2, 131072⟩
  | .derivative => some ⟨false, 2, 131072⟩
  | .space_call => some ⟨false, 3, 131075⟩
  | .data => some ⟨false, 211025923, 212336643⟩
  | .dict => some ⟨false, 1048576, 2097152⟩
  | .list => some ⟨false, 262144, 524288⟩
  | .slice => some ⟨false, 262144, 524288⟩
  | .key_valid => some ⟨false, 3, 3⟩
  | .key_value => some ⟨false, 3, 216665091⟩
  | .index => some ⟨false, 154829947935, 17396567043⟩
  | .Start => some ⟨false, 137650045983, 216665091⟩
  | .End => some ⟨false, 137650045983, 216665091⟩
  | .Step => some ⟨false, 137650045983, 216665091⟩
  | .Number => some ⟨false, 1, 3⟩
  | .Decimal => some ⟨false, 1, 1⟩
  | .Integer => some ⟨false, 1, 1⟩
  | .Byte => some ⟨false, 1, 3⟩
  | .String => some ⟨false, 0, 0⟩
  | .StringNormal => some ⟨false, 0, 0⟩
  | .StringBlock => some ⟨false, 0, 0⟩
  | .Symbol => some ⟨false, 2, 3⟩
  | .SYMBOL => some ⟨false, 2, 3⟩
  | .Special => some ⟨false, 2, 2⟩
  | .Slot => some ⟨false, 8388608, 8388611⟩
  | .REPL => some ⟨false, 201326592, 201326593⟩
  | .Positive => some ⟨false, 1, 1⟩
  | .WHITESPACE => some ⟨true, 0, 0⟩
  | .COMMENT => some ⟨false, 0, 0⟩
  | .Prefix => some ⟨false, 137438954524, 137438954524⟩
  | .Suffix => some ⟨false, 4197376, 4197376⟩
  | .Infix => some ⟨false, 8321504252, 8321504252⟩
  | .Set => some ⟨false, 256, 256⟩
  | .Derivative => some ⟨false, 4194304, 4194304⟩
  | .Star => some ⟨false, 16, 16⟩
  | .Slash => some ⟨false, 32, 32⟩
  | .Proportion => some ⟨false, 68719509504, 68719509504⟩
  | .Comma => some ⟨false, 8589942784, 8589942784⟩
  | .Dot => some ⟨false, 4096, 4096⟩
  | .Separate => some ⟨false, 16384, 16384⟩
  | .Semicolon => some ⟨false, 34359754752, 34359754752⟩
  | .Colon => some ⟨false, 17179901952, 17179901952⟩
  | .Question => some ⟨false, 2048, 2048⟩
  | .Underline => some ⟨false, 2, 2⟩
  | .Grater => some ⟨false, 512, 512⟩
  | .Plus => some ⟨false, 4, 4⟩
  | .Minus => some ⟨false, 8, 8⟩
  | .Multiply => some ⟨false, 268435472, 268435472⟩
  | .CenterDot => some ⟨false, 1073741824, 1073741824⟩
  | .Kronecker => some ⟨false, 2147483648, 2147483648⟩
  | .TensorProduct => some ⟨false, 4294967296, 4294967296⟩
  | .Divide => some ⟨false, 536870944, 536870944⟩
  | .Modulo => some ⟨false, 128, 128⟩
  | .Power => some ⟨false, 64, 64⟩
  | .DoubleBang => some ⟨false, 1024, 1024⟩
  | .Bang => some ⟨false, 1024, 1024⟩
  | .Not => some ⟨false, 137438953472, 137438953472⟩
  | .At => some ⟨false, 0, 0⟩
  | .EOI => some ⟨true, 0, 0⟩
  | .SOI => some ⟨true, 0, 0⟩
  | .ASCII_DIGIT => some ⟨false, 1, 1⟩
  | .ASCII_NONZERO_DIGIT => some ⟨false, 1, 1⟩
  | .ASCII_BIN_DIGIT => some ⟨false, 1, 1⟩
  | .ASCII_OCT_DIGIT => some ⟨false, 1, 1⟩
  | .ASCII_HEX_DIGIT => some ⟨false, 3, 3⟩
  | .NEWLINE => some ⟨true, 0, 0⟩
  | .WHITE_SPACE => some ⟨true, 0, 0⟩
  | .XID_CONTINUE => some ⟨false, 3, 3⟩
  | .XID_START => some ⟨false, 2, 2⟩
  | _ => none

/-- What may follow each class in such texts. -/
def afterTwo : List Nat :=
  [274827575295, 274827575295, 137650045983, 137650045983, 137650045983, 137650045983, 137650045983, 137650045983,
    137650045983, 137650045983, 206108098559, 206108098559, 137650045983, 154832700447, 172009800735, 163420415007,
    146240119839, 206108098559, 154830472223, 206108098559, 2097155, 206108098559, 206108098559, 206108098559, 0,
    0, 206108098559, 206108098559, 137650045983, 137650045983, 137650045983, 137650045983, 137650045983,
    154832700447, 163420415007, 172009800735, 2, 137650045983, 0]

/-- The words of statements, and the sign of annotations. -/
def statementMarks : List Str :=
  [c!"using", c!"class", c!"trait", c!"extends", c!"let", c!"def", c!"for", c!"if", c!"return", c!"break", c!"pass", c!"@"]

set_option maxRecDepth 100000 in
theorem shapesOne_ok : ∀ r, ruleOk opaqueMarks shapesOne afterOne r = true := by
  intro r
  cases r <;> decide +kernel

set_option maxRecDepth 100000 in
theorem shapesTwo_ok : ∀ r, ruleOk (opaqueMarks ++ statementMarks) shapesTwo afterTwo r = true := by
  intro r
  cases r <;> decide +kernel

/-! ### From classes to characters -/

variable {u : Uni}

/-- The classes of the set are those of the characters given and of the characters of identifiers. -/
def within (m : Nat) (cs : List Char) : Bool :=
  decide (m < 2 ^ 38) && (List.range 38).all fun k => !m.testBit k || decide (k ≤ 1) || cs.contains (signs.getD (k - 2) ' ')

theorem within_mem (L : Lawful u) {m : Nat} {cs : List Char} {c : Char} (h : m.testBit (charClass u c) = true)
    (hw : within m cs = true) : u .xidContinue c = true ∨ c ∈ cs := by
  rw [within, Bool.and_eq_true, decide_eq_true_eq, List.all_eq_true] at hw
  have hlt : charClass u c < 38 := by
    by_contra hc
    rw [Nat.testBit_lt_two_pow (hw.1.trans_le (Nat.pow_le_pow_right (by decide) (by omega)))] at h
    cases h
  have h2 := hw.2 _ (List.mem_range.2 hlt)
  rw [h, Bool.not_true, Bool.false_or, Bool.or_eq_true, decide_eq_true_eq, List.contains_iff_mem] at h2
  by_cases hd : '0' ≤ c ∧ c ≤ '9'
  · left
    rw [L.plain c _ (plain_digit hd)]
    simp [asciiUni, hd]
  by_cases hx : u .xidContinue c = true
  · exact .inl hx
  right
  rw [charClass, if_neg hd, if_neg hx] at h2 hlt
  have hi : signs.idxOf c < signs.length := by
    have : signs.length = 36 := rfl
    omega
  rcases h2 with h2 | h2
  · omega
  · rw [Nat.add_sub_cancel_left, List.getD_eq_getElem?_getD, List.getElem?_eq_getElem hi, Option.getD_some, List.getElem_idxOf hi] at h2
    exact h2

/-- The character begins the text, white space aside. -/
def HeadIs (u : Uni) (w : Str) (c : Char) : Prop :=
  ∃ b y, w = b ++ c :: y ∧ (∀ d ∈ b, u .whiteSpace d = true) ∧ u .whiteSpace c = false

/-- The character ends the text, white space aside. -/
def LastIs (u : Uni) (w : Str) (c : Char) : Prop :=
  ∃ x b, w = x ++ c :: b ∧ (∀ d ∈ b, u .whiteSpace d = true) ∧ u .whiteSpace c = false

/-- The second character follows the first somewhere in the text, white space aside. -/
def Meets (u : Uni) (w : Str) (c d : Char) : Prop :=
  ∃ x y, w = x ++ y ∧ LastIs u x c ∧ HeadIs u y d

theorem classesOf_blank {b : Str} (h : ∀ d ∈ b, u .whiteSpace d = true) : classesOf u b = [] := by
  rw [classesOf, List.filter_eq_nil_iff.2, List.map_nil]
  intro d hd
  simp [h d hd]

theorem classesOf_cons {c : Char} (h : u .whiteSpace c = false) (w : Str) :
    classesOf u (c :: w) = charClass u c :: classesOf u w := by
  simp [classesOf, h]

theorem HeadIs.classes {w : Str} {c : Char} (h : HeadIs u w c) : ∃ s, classesOf u w = charClass u c :: s := by
  obtain ⟨b, y, rfl, hb, hc⟩ := h
  exact ⟨classesOf u y, by rw [classesOf_append, classesOf_blank hb, classesOf_cons hc, List.nil_append]⟩

theorem LastIs.classes {w : Str} {c : Char} (h : LastIs u w c) : ∃ s, classesOf u w = s ++ [charClass u c] := by
  obtain ⟨x, b, rfl, hb, hc⟩ := h
  exact ⟨classesOf u x, by rw [classesOf_append, classesOf_cons hc, classesOf_blank hb]⟩

theorem Meets.classes {w : Str} {c d : Char} (h : Meets u w c d) :
    ∃ s t, classesOf u w = s ++ charClass u c :: charClass u d :: t := by
  obtain ⟨x, y, rfl, hx, hy⟩ := h
  obtain ⟨s, hs⟩ := hx.classes
  obtain ⟨t, ht⟩ := hy.classes
  exact ⟨s, t, by rw [classesOf_append, hs, ht]; simp⟩

theorem Meets.follows {P : List Nat} {A : Shape} {w : Str} {c d : Char} (h : Meets u w c d) (k : Has P A (classesOf u w)) :
    follows P (charClass u c) (charClass u d) = true := by
  obtain ⟨s, t, e⟩ := h.classes
  have := k.chain
  rw [e, List.isChain_append] at this
  exact (List.isChain_cons_cons.1 this.2.1).1

/-- A text has no characters but white space, or a last one. -/
theorem blank_or_last (u : Uni) (w : Str) : (∀ d ∈ w, u .whiteSpace d = true) ∨ ∃ c, LastIs u w c := by
  induction w with
  | nil => left; simp
  | cons c w ih =>
    rcases ih with h | ⟨d, x, b, rfl, hb, hd⟩
    · cases hc : u .whiteSpace c with
      | true => left; simpa [hc] using h
      | false => exact .inr ⟨c, [], w, rfl, h, hc⟩
    · exact .inr ⟨d, c :: x, b, rfl, hb, hd⟩

theorem blank_or_head (u : Uni) (w : Str) : (∀ d ∈ w, u .whiteSpace d = true) ∨ ∃ c, HeadIs u w c := by
  induction w with
  | nil => left; simp
  | cons c w ih =>
    cases hc : u .whiteSpace c with
    | false => exact .inr ⟨c, [], w, rfl, by simp, hc⟩
    | true =>
      rcases ih with h | ⟨d, b, y, rfl, hb, hd⟩
      · left; simpa [hc] using h
      · exact .inr ⟨d, c :: b, y, rfl, by simpa [hc] using hb, hd⟩

/-- The class of a plain character outside identifiers. -/
theorem class_sign (L : Lawful u) {c : Char} (h : c ∈ signs) : charClass u c = charClass asciiUni c :=
  charClass_plain L ((by decide : ∀ c ∈ signs, Plain c) c h)

theorem sign_not_white (L : Lawful u) {c : Char} (h : c ∈ signs) : u .whiteSpace c = false := by
  have := (by decide : ∀ c ∈ signs, Plain c ∧ asciiUni .whiteSpace c = false) c h
  rw [L.plain c _ this.1, this.2]

/-! ### The claims -/

/-- The signs an operand may begin with. -/
def operandSigns : List Char := ['+', '-', '*', '!', '(', '[', '{', '#', '¶', '⁋', '¬']

/-- The signs an accepted text may end with. -/
def endSigns : List Char := ['*', '!', '?', ',', ';', ')', ']', '}', '\'', '#', '¶', '⁋', '，', '；']

/-- The operators that need an operand behind them, whatever else the text contains. -/
def operatorSigns : List Char := ['+', '-', '/', '^', '%', '>', '×', '÷', '⋅', '⊗', '⊙', '¬', '|']

/-- A text without string literals and comments. -/
theorem Bare.without {w : Str} (h : Bare w) : Without opaqueMarks w := by
  intro f hf
  simp only [opaqueMarks, List.mem_cons, List.not_mem_nil, or_false] at hf
  rcases hf with rfl | rfl | rfl
  · rintro ⟨x, y, rfl⟩
    exact h.quote (by simp)
  · exact h.line
  · exact h.percent

/-- A text the analysis excludes is refused. -/
theorem refused (c : Cfg) (h : ∀ l, smParse u .program c.input ≠ .pairs l) : parseText u c = .err (.parseError c.errorText) := by
  rcases C33_parse_terminates u .program (by decide) c.input with ⟨l, hl⟩ | hs
  · exact absurd hl (h l)
  · rw [parseText, hs]

section
variable {input : Str} {l : List (Pair R)}

theorem accepted_one (L : Lawful u) (h : smParse u .program input = .pairs l) (hb : Bare input) :
    Has afterOne ⟨true, 172026577951, 43166362643⟩ (classesOf u input) :=
  shape_accepted L (fun _ h => h) shapesOne_ok rfl h hb.without

theorem HeadIs.bit {P : List Nat} {A : Shape} {c : Char} (h : HeadIs u input c) (k : Has P A (classesOf u input)) :
    A.first.testBit (charClass u c) = true := by
  obtain ⟨s, hs⟩ := h.classes
  exact k.first _ (by rw [hs]; rfl)

theorem LastIs.bit {P : List Nat} {A : Shape} {c : Char} (h : LastIs u input c) (k : Has P A (classesOf u input)) :
    A.last.testBit (charClass u c) = true := by
  obtain ⟨s, hs⟩ := h.classes
  exact k.last _ (by rw [hs]; simp)

/-- A character of the text that is not white space is the last one or has one behind it. -/
theorem last_or_meets {x y : Str} {c : Char} (hc : u .whiteSpace c = false) :
    LastIs u (x ++ c :: y) c ∨ ∃ d, HeadIs u y d ∧ Meets u (x ++ c :: y) c d := by
  rcases blank_or_head u y with h | ⟨d, hd⟩
  · exact .inl ⟨x, y, rfl, h, hc⟩
  · exact .inr ⟨d, hd, x ++ [c], y, by simp, ⟨x, [], by simp, by simp, hc⟩, hd⟩

/-- Outside string literals and comments, an accepted text consists of white space, characters of identifiers and the
36 signs of the grammar. -/
theorem C66_alphabet (L : Lawful u) (h : smParse u .program input = .pairs l) (hb : Bare input) :
    ∀ c ∈ input, u .whiteSpace c = true ∨ u .xidContinue c = true ∨ c ∈ signs := by
  intro c hc
  have k := accepted_one L h hb
  cases hw : u .whiteSpace c with
  | true => exact .inl rfl
  | false =>
    right
    obtain ⟨x, y, rfl⟩ := List.append_of_mem hc
    rcases last_or_meets (x := x) (y := y) hw with h | ⟨d, -, h⟩
    · exact within_mem L (h.bit k) (by decide)
    · have hf := h.follows k
      refine within_mem L (m := 2 ^ 38 - 1) ?_ (by decide)
      have : charClass u c < 38 := by
        by_contra hn
        have he : afterOne.getD (charClass u c) 0 = 0 := by
          rcases Nat.lt_or_ge (charClass u c) 39 with h1 | h1
          · rw [show charClass u c = 38 by omega]; rfl
          · rw [List.getD_eq_getElem?_getD, List.getElem?_eq_none (by exact h1)]; rfl
        rw [follows, he] at hf
        simp at hf
      rw [Nat.testBit_two_pow_sub_one]
      exact decide_eq_true this

/-- What an accepted text begins with. -/
theorem C66_begin (L : Lawful u) (h : smParse u .program input = .pairs l) (hb : Bare input) {c : Char}
    (hc : HeadIs u input c) : u .xidContinue c = true ∨ c ∈ operandSigns ++ [';', '；', '@'] :=
  within_mem L (hc.bit (accepted_one L h hb)) (by decide)

/-- What an accepted text ends with: never with an operator other than `*`. -/
theorem C66_end (L : Lawful u) (h : smParse u .program input = .pairs l) (hb : Bare input) {c : Char}
    (hc : LastIs u input c) : u .xidContinue c = true ∨ c ∈ endSigns :=
  within_mem L (hc.bit (accepted_one L h hb)) (by decide)

theorem sign_not_continue (L : Lawful u) {c : Char} (h : c ∈ signs) : u .xidContinue c = false := by
  have := (by decide : ∀ c ∈ signs, Plain c ∧ asciiUni .xidContinue c = false) c h
  rw [L.plain c _ this.1, this.2]

/-- What follows a sign that cannot end a text. -/
theorem next_of_sign (L : Lawful u) {P : List Nat} {A : Shape} {x y : Str} {c : Char} (k : Has P A (classesOf u (x ++ c :: y)))
    (hc : c ∈ signs) (hl : A.last.testBit (charClass asciiUni c) = false) {cs : List Char}
    (hw : within (P.getD (charClass asciiUni c) 0) cs = true) :
    ∃ d, HeadIs u y d ∧ (u .xidContinue d = true ∨ d ∈ cs) := by
  rcases last_or_meets (x := x) (y := y) (sign_not_white L hc) with h | ⟨d, hd, h⟩
  · have := h.bit k
    rw [class_sign L hc, hl] at this
    cases this
  · have := h.follows k
    rw [follows, class_sign L hc] at this
    exact ⟨d, hd, within_mem L this hw⟩

/-- Behind an operator stands an operand: the next character is a digit, a letter, or one of the signs an operand
begins with. -/
theorem C66_operators (L : Lawful u) {x y : Str} {o : Char} (h : smParse u .program (x ++ o :: y) = .pairs l)
    (hb : Bare (x ++ o :: y)) (ho : o ∈ operatorSigns) :
    ∃ d, HeadIs u y d ∧ (u .xidContinue d = true ∨ d ∈ operandSigns) := by
  have key : ∀ c ∈ operatorSigns, c ∈ signs ∧ (43166362643).testBit (charClass asciiUni c) = false ∧
    within (afterOne.getD (charClass asciiUni c) 0) operandSigns = true := by decide
  obtain ⟨h1, h2, h3⟩ := key o ho
  exact next_of_sign L (accepted_one L h hb) h1 h2 h3

/-- Behind an equals sign stands an operand or a statement. -/
theorem C66_equals (L : Lawful u) {x y : Str} (h : smParse u .program (x ++ '=' :: y) = .pairs l)
    (hb : Bare (x ++ '=' :: y)) :
    ∃ d, HeadIs u y d ∧ (u .xidContinue d = true ∨ d ∈ operandSigns ++ [';', '；', '@']) :=
  next_of_sign L (accepted_one L h hb) (by decide) (by decide) (by decide)

/-- Behind a point stands an operand or another point. -/
theorem C66_point (L : Lawful u) {x y : Str} (h : smParse u .program (x ++ '.' :: y) = .pairs l)
    (hb : Bare (x ++ '.' :: y)) :
    ∃ d, HeadIs u y d ∧ (u .xidContinue d = true ∨ d ∈ operandSigns ++ ['.']) :=
  next_of_sign L (accepted_one L h hb) (by decide) (by decide) (by decide)

/-- Behind a colon. -/
theorem C66_colon (L : Lawful u) {x y : Str} (h : smParse u .program (x ++ ':' :: y) = .pairs l)
    (hb : Bare (x ++ ':' :: y)) :
    ∃ d, HeadIs u y d ∧ (u .xidContinue d = true ∨ d ∈ operandSigns ++ [':', '：', ',', '，', ']']) :=
  next_of_sign L (accepted_one L h hb) (by decide) (by decide) (by decide)

end

/-! ### Texts without statements -/

/-- The signs that may follow a sign in a text without statements, besides the characters of identifiers. -/
def followers (c : Char) : List Char :=
  if c ∈ ['+', '-', '*', '/', '^', '%', '=', '>', '.', '×', '÷', '⋅', '⊗', '⊙', '¬'] then operandSigns
  else if c = '(' then operandSigns ++ [',', '，', ')']
  else if c = '[' then operandSigns ++ [':', '：', ']']
  else if c = '{' then ['}']
  else if c ∈ [',', '，'] then operandSigns ++ [':', '：', ')', ']', '}']
  else if c ∈ [':', '：'] then operandSigns ++ [',', '，', ':', '：', ']']
  else if c ∈ [';', '；'] then operandSigns ++ [';', '；']
  else if c = '∷' then []
  else signs.filter fun d => d != '@' && d != '|' && d != '∷'

section
variable {input : Str} {l : List (Pair R)}

theorem accepted_two (L : Lawful u) (h : smParse u .program input = .pairs l)
    (hb : Without (opaqueMarks ++ statementMarks) input) :
    Has afterTwo ⟨true, 172009800735, 34576419843⟩ (classesOf u input) :=
  shape_accepted L (fun _ h => List.mem_append_left _ h) shapesTwo_ok rfl h hb

/-- Which characters stand next to each other in an accepted text without statements. -/
theorem C66_neighbours (L : Lawful u) (h : smParse u .program input = .pairs l)
    (hb : Without (opaqueMarks ++ statementMarks) input) {c d : Char} (hc : c ∈ signs) (hm : Meets u input c d) :
    u .xidContinue d = true ∨ d ∈ followers c := by
  have key : ∀ c ∈ signs, within (afterTwo.getD (charClass asciiUni c) 0) (followers c) = true := by decide
  have := hm.follows (accepted_two L h hb)
  rw [follows, class_sign L hc] at this
  exact within_mem L this (key c hc)

/-- What such a text begins and ends with. -/
theorem C66_borders (L : Lawful u) (h : smParse u .program input = .pairs l)
    (hb : Without (opaqueMarks ++ statementMarks) input) :
    (∀ c, HeadIs u input c → u .xidContinue c = true ∨ c ∈ operandSigns ++ [';', '；']) ∧
    ∀ c, LastIs u input c → u .xidContinue c = true ∨ c ∈ ['!', '?', ';', '；', ')', ']', '}', '\'', '#', '¶', '⁋'] :=
  ⟨fun _ hc => within_mem L (hc.bit (accepted_two L h hb)) (by decide),
    fun _ hc => within_mem L (hc.bit (accepted_two L h hb)) (by decide)⟩

end

/-! ### What is refused -/

/-- A character that is neither white space nor part of identifiers nor a sign of the grammar, such as `<`, `&` or `~`. -/
theorem C66_unknown_refused (L : Lawful u) (c : Cfg) (hb : Bare c.input) {d : Char} (hd : d ∈ c.input)
    (hw : u .whiteSpace d = false) (hx : u .xidContinue d = false) (hs : d ∉ signs) :
    parseText u c = .err (.parseError c.errorText) := by
  refine refused c fun l h => ?_
  rcases C66_alphabet L h hb d hd with k | k | k
  · rw [hw] at k; cases k
  · rw [hx] at k; cases k
  · exact hs k

/-- A text that ends where something must follow. -/
theorem C66_unfinished_refused (L : Lawful u) (c : Cfg) (hb : Bare c.input) {o : Char} (ho : o ∈ signs) (he : o ∉ endSigns)
    (hl : LastIs u c.input o) : parseText u c = .err (.parseError c.errorText) := by
  refine refused c fun l h => ?_
  rcases C66_end L h hb hl with k | k
  · rw [sign_not_continue L ho] at k; cases k
  · exact he k

/-- An operator with something else than an operand behind it. -/
theorem C66_operators_refused (L : Lawful u) (c : Cfg) (hb : Bare c.input) {o d : Char} (ho : o ∈ operatorSigns)
    (hd : u .xidContinue d = false) (hs : d ∉ operandSigns) (hm : Meets u c.input o d) :
    parseText u c = .err (.parseError c.errorText) := by
  refine refused c fun l h => ?_
  obtain ⟨x, y, e, ⟨x', b, rfl, hbl, hw⟩, hy⟩ := hm
  rw [e, List.append_assoc, List.cons_append] at h hb
  obtain ⟨d', ⟨b', y', e', hb', hw'⟩, k⟩ := C66_operators L h hb ho
  obtain ⟨b'', y'', rfl, hb'', hw''⟩ := hy
  have : d' = d := by
    have h1 : (b ++ (b'' ++ d :: y'')).dropWhile (u .whiteSpace) = d :: y'' := by
      rw [List.dropWhile_append_of_pos hbl, List.dropWhile_append_of_pos hb'', List.dropWhile_cons_of_neg (by simp [hw''])]
    have h2 : (b' ++ d' :: y').dropWhile (u .whiteSpace) = d' :: y' := by
      rw [List.dropWhile_append_of_pos hb', List.dropWhile_cons_of_neg (by simp [hw'])]
    rw [e', h2] at h1
    exact (List.cons.inj h1).1
  subst this
  rcases k with k | k
  · rw [hd] at k; cases k
  · exact hs k

/-- Notations of other languages, and pipes and arrows, of two signs. -/
def foreignPairs : List (Char × Char) :=
  [('-', '>'), ('=', '>'), ('=', '='), ('>', '='), ('>', '>'), (':', '='), ('|', '>'), ('|', '|'), ('+', '='), ('-', '='),
    ('*', '='), ('/', '='), ('^', '='), ('%', '='), ('%', '%'), ('^', '^'), ('*', '/'), ('/', '%'), ('.', '='), (';', ')')]

theorem C66_foreign_refused (L : Lawful u) (c : Cfg) (hb : Bare c.input) {a b : Char} (h : (a, b) ∈ foreignPairs)
    (hm : Meets u c.input a b) : parseText u c = .err (.parseError c.errorText) := by
  refine refused c fun l k => ?_
  have key : ∀ q ∈ foreignPairs, q.1 ∈ signs ∧ q.2 ∈ signs ∧
    follows afterOne (charClass asciiUni q.1) (charClass asciiUni q.2) = false := by decide
  obtain ⟨h1, h2, h3⟩ := key _ h
  have := hm.follows (accepted_one L k hb)
  rw [class_sign L h1, class_sign L h2, h3] at this
  cases this

/-- Two signs beside each other. -/
theorem meets_beside (L : Lawful u) {a b : Char} (ha : a ∈ signs) (hb : b ∈ signs) (x y : Str) :
    Meets u (x ++ a :: b :: y) a b :=
  ⟨x ++ [a], b :: y, by simp, ⟨x, [], by simp, by simp, sign_not_white L ha⟩, ⟨[], y, by simp, by simp, sign_not_white L hb⟩⟩

/-- Arrows, pipes and assignments: whatever stands on both sides. -/
theorem C66_arrow_refused (L : Lawful u) (c : Cfg) (x y : Str) (e : c.input = x ++ c!"->" ++ y) (hb : Bare c.input) :
    parseText u c = .err (.parseError c.errorText) := by
  refine C66_foreign_refused L c hb (a := '-') (b := '>') (by decide) ?_
  rw [e, List.append_assoc]
  exact meets_beside L (by decide) (by decide) x y

theorem C66_pipe_refused (L : Lawful u) (c : Cfg) (x y : Str) (e : c.input = x ++ c!"|>" ++ y) (hb : Bare c.input) :
    parseText u c = .err (.parseError c.errorText) := by
  refine C66_foreign_refused L c hb (a := '|') (b := '>') (by decide) ?_
  rw [e, List.append_assoc]
  exact meets_beside L (by decide) (by decide) x y

theorem C66_assign_refused (L : Lawful u) (c : Cfg) (x y : Str) (e : c.input = x ++ c!":=" ++ y) (hb : Bare c.input) :
    parseText u c = .err (.parseError c.errorText) := by
  refine C66_foreign_refused L c hb (a := ':') (b := '=') (by decide) ?_
  rw [e, List.append_assoc]
  exact meets_beside L (by decide) (by decide) x y

/-- Ranges, if the text has no statement words. -/
theorem C66_range_refused (L : Lawful u) (c : Cfg) (x y : Str) (e : c.input = x ++ c!".." ++ y)
    (hb : Without (opaqueMarks ++ statementMarks) c.input) : parseText u c = .err (.parseError c.errorText) := by
  refine refused c fun l h => ?_
  have hm := meets_beside (u := u) L (a := '.') (b := '.') (by decide) (by decide) x y
  rw [show x ++ '.' :: '.' :: y = c.input by rw [e, List.append_assoc]; rfl] at hm
  rcases C66_neighbours L h hb (by decide) hm with k | k
  · rw [sign_not_continue L (by decide)] at k; cases k
  · exact absurd k (by decide)

/-! ### Examples -/

/-- An accepted text with signs, spaces and digits. -/
example : ∃ l, smParse asciiUni .program c!"1 + f(x, -2)^3" = .pairs l ∧ Bare c!"1 + f(x, -2)^3" :=
  ⟨_, rfl, ⟨by decide, by decide, by decide⟩⟩

example : Meets asciiUni c!"1 + f(x)" '+' 'f' :=
  ⟨c!"1 +", c!" f(x)", rfl, ⟨c!"1 ", [], rfl, by decide, by decide⟩, ⟨c!" ", c!"(x)", rfl, by decide, by decide⟩⟩

/-- A text with a statement word in it, even inside a name, falls under the first claims only. -/
example : ¬ Without (opaqueMarks ++ statementMarks) c!"letter + 1" := fun h => h c!"let" (by decide) ⟨[], c!"ter + 1", rfl⟩

example (file error : Str) : parseText asciiUni ⟨file, c!"f(1) <= 2", error⟩ = .err (.parseError error) :=
  C66_unknown_refused lawful_asciiUni ⟨file, c!"f(1) <= 2", error⟩ (show Bare c!"f(1) <= 2" from ⟨by decide, by decide, by decide⟩) (d := '<')
    (show '<' ∈ c!"f(1) <= 2" by decide)
    (by decide) (by decide) (by decide)

example (file error : Str) : parseText asciiUni ⟨file, c!"2 * (x + ", error⟩ = .err (.parseError error) :=
  C66_unfinished_refused lawful_asciiUni ⟨file, c!"2 * (x + ", error⟩ (show Bare c!"2 * (x + " from ⟨by decide, by decide, by decide⟩) (o := '+') (by decide)
    (by decide) ⟨c!"2 * (x ", c!" ", rfl, by decide, by decide⟩

example (file error : Str) : parseText asciiUni ⟨file, c!"x |> sin", error⟩ = .err (.parseError error) :=
  C66_pipe_refused lawful_asciiUni ⟨file, c!"x |> sin", error⟩ c!"x " c!" sin" rfl (show Bare c!"x |> sin" from ⟨by decide, by decide, by decide⟩)

example (file error : Str) : parseText asciiUni ⟨file, c!"1..2", error⟩ = .err (.parseError error) :=
  C66_range_refused lawful_asciiUni ⟨file, c!"1..2", error⟩ c!"1" c!"2" rfl
    (show ∀ f ∈ opaqueMarks ++ statementMarks, ¬ f <:+: c!"1..2" by decide)

/-- In a string literal everything is allowed. -/
example : ∃ l, smParse asciiUni .program c!"\"a->b\"" = .pairs l := ⟨_, rfl⟩

end SM.Props
