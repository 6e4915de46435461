import Verif.Peg.Message
import Verif.Props.Hole
/-
C89: what a syntax error says was expected.
-/
namespace SM.Props
open SM SM.Peg

variable {u : Uni} {v : Env}

/-! ### Which rules can be tried, and how -/

/-- The rules an expression calls, with the atomicity and with whether this is under a negative lookahead. -/
def callsIn : PE R → Atomicity → Bool → List (R × Atomicity × Bool)
  | .call r, t, n => [(r, t, n)]
  | .rule _ e, t, n => callsIn e t n
  | .atomic t e, _, n => callsIn e t n
  | .ifNon e, t, n => if t = .non then callsIn e t n else []
  | .seq e, t, n => callsIn e t n
  | .opt e, t, n => callsIn e t n
  | .rep e, t, n => callsIn e t n
  | .alt e f, t, n => callsIn e t n ++ callsIn f t n
  | .cat e f, t, n => callsIn e t n ++ callsIn f t n
  | .restore e, t, n => callsIn e t n
  | .look p e, t, n => callsIn e t (if p then n else !n)
  | .push e, t, n => callsIn e t n
  | _, _, _ => []

/-- The rules an expression may record, with whether this is under a negative lookahead. -/
def blamesIn : PE R → Atomicity → Bool → List (R × Bool)
  | .rule r e, t, n => (if t = .atomic then [] else [(r, n)]) ++ blamesIn e t n
  | .atomic t e, _, n => blamesIn e t n
  | .ifNon e, t, n => if t = .non then blamesIn e t n else []
  | .seq e, t, n => blamesIn e t n
  | .opt e, t, n => blamesIn e t n
  | .rep e, t, n => blamesIn e t n
  | .alt e f, t, n => blamesIn e t n ++ blamesIn f t n
  | .cat e f, t, n => blamesIn e t n ++ blamesIn f t n
  | .restore e, t, n => blamesIn e t n
  | .look p e, t, n => blamesIn e t (if p then n else !n)
  | .push e, t, n => blamesIn e t n
  | _, _, _ => []

/-- The circumstances in which the rules are called, beginning with `program`. -/
def contexts : List (R × Atomicity × Bool) := [
  (.program, .non, false), (.SOI, .non, false), (.skip, .non, false), (.statement, .non, false), (.EOI, .non, false),
  (.WHITESPACE, .non, false), (.COMMENT, .non, false), (.emptyStatement, .non, false),
  (.importStatement, .non, false), (.eos, .non, false), (.classStatement, .non, false),
  (.traitStatement, .non, false), (.extendStatement, .non, false), (.controlFlow, .non, false),
  (.assignStatement, .non, false), (.defineStatement, .non, false), (.annotation, .non, false),
  (.expression, .non, false), (.NEWLINE, .atomic, false), (.WHITE_SPACE, .atomic, false),
  (.MultiLineComment, .atomic, false), (.NEWLINE, .atomic, true), (.ANY, .atomic, false), (.Separate, .non, false),
  (.Dot, .non, false), (.use_alias, .non, false), (.use_module_select, .non, false), (.Semicolon, .non, false),
  (.assign_pair, .non, false), (.short_block, .non, false), (.Symbol, .non, false), (.with_trait, .non, false),
  (.re_control, .non, false), (.if_statement, .non, false), (.for_statement, .non, false),
  (.assign_terms, .non, false), (.define_terms, .non, false), (.annotation_call, .non, false), (.expr, .non, false),
  (.MultiLineComment, .compound, false), (.ANY, .compound, false), (.«String», .non, false), (.As, .non, false),
  (.SYMBOL, .non, false), (.ModuleSplit, .non, false), (.module_block, .non, false), (.Star, .non, false),
  (.short_statement, .non, false), (.SYMBOL, .compound, false), (.Proportion, .compound, false),
  (.Return, .non, false), (.Break, .non, false), (.Pass, .non, false), (.«block», .non, false), (.Comma, .non, false),
  (.for_in_loop, .non, false), (.assign_name, .non, false), (.type_hint, .non, false), (.block_or_stmt, .non, false),
  (.define_parameter, .non, false), (.At, .atomic, false), (.«list», .atomic, false), (.apply, .atomic, false),
  (.Symbol, .atomic, false), (.term, .non, false), (.Infix, .non, false), (.StringBlock, .compound, false),
  (.StringNormal, .compound, false), (.XID_START, .atomic, false), (.XID_CONTINUE, .atomic, false),
  (.Underline, .atomic, false), (.Proportion, .non, false), (.module_tuple, .non, false),
  (.comma_or_semi, .non, false), (.short_annotation, .non, false), (.Colon, .non, false), (.type_expr, .non, false),
  (.Set, .non, false), (.define_pair, .non, false), (.apply_kv, .non, false), (.Prefix, .compound, false),
  (.node, .compound, false), (.Suffix, .compound, false), (.NEWLINE, .compound, true),
  (.WHITESPACE, .compound, false), (.slice, .compound, false), (.Plus, .non, false), (.Minus, .non, false),
  (.Multiply, .non, false), (.CenterDot, .non, false), (.Kronecker, .non, false), (.TensorProduct, .non, false),
  (.Divide, .non, false), (.Quotient, .non, false), (.Modulo, .non, false), (.Power, .non, false),
  (.Grater, .non, false), (.GraterEqual, .non, false), (.Equal, .non, false), (.Quotation, .compound, false),
  (.StringText, .compound, false), (.POP, .compound, false), (.Quotation, .atomic, false), (.Escape, .atomic, false),
  (.Quotation, .atomic, true), (.TypeInfix, .non, false), (.Bang, .atomic, false), (.Not, .atomic, false),
  (.Plus, .atomic, false), (.Minus, .atomic, false), (.Star, .atomic, false), (.skip, .compound, false),
  (.expr, .compound, false), (.apply_call, .compound, false), (.derivative, .compound, false),
  (.space_call, .compound, false), (.data, .compound, false), (.Derivative, .atomic, false),
  (.DoubleBang, .atomic, false), (.Question, .atomic, false), (.«index», .non, false), (.Slash, .atomic, false),
  (.PEEK, .atomic, true), (.Or, .atomic, false), (.Symbol, .compound, false), (.apply, .compound, false),
  (.Derivative, .compound, false), (.Number, .compound, false), (.dict, .compound, false),
  (.«list», .compound, false), (.Special, .compound, false), (.REPL, .compound, false), (.Slot, .compound, false),
  (.«String», .compound, false), (.«Start», .non, false), (.«End», .non, false), (.Step, .non, false),
  (.Byte, .compound, false), (.Decimal, .compound, false), (.Integer, .compound, false), (.key_value, .non, false),
  (.Positive, .atomic, false), (.Positive, .compound, false), (.Underline, .compound, false),
  (.ASCII_BIN_DIGIT, .compound, false), (.ASCII_OCT_DIGIT, .compound, false), (.ASCII_HEX_DIGIT, .compound, false),
  (.Dot, .compound, false), (.key_valid, .non, false), (.ASCII_NONZERO_DIGIT, .atomic, false),
  (.ASCII_DIGIT, .atomic, false), (.Integer, .non, false)]

/-- The rules that an error may name: 92 of the 150, in the order of the declaration. -/
def nameable : List R := [
  .EOI, .emptyStatement, .eos, .importStatement, .use_alias, .use_module_select, .module_block, .module_tuple, .As,
  .«block», .if_statement, .for_statement, .for_in_loop, .re_control, .Return, .Break, .Pass, .classStatement,
  .traitStatement, .short_block, .short_statement, .short_annotation, .extendStatement, .with_trait, .assignStatement,
  .assign_pair, .defineStatement, .define_parameter, .define_pair, .annotation, .annotation_call, .apply, .apply_kv,
  .expression, .expr, .term, .node, .apply_call, .derivative, .space_call, .type_hint, .TypeInfix, .data, .dict,
  .«list», .slice, .key_valid, .key_value, .«index», .«Start», .«End», .Step, .Decimal, .Integer, .Byte, .«String»,
  .StringNormal, .StringBlock, .StringText, .Symbol, .SYMBOL, .Special, .Slot, .REPL, .Positive, .MultiLineComment,
  .Prefix, .Suffix, .Set, .Derivative, .Star, .Proportion, .Comma, .Dot, .Separate, .Semicolon, .Colon, .Underline,
  .GraterEqual, .Grater, .Equal, .Plus, .Minus, .Multiply, .CenterDot, .Kronecker, .TensorProduct, .Divide, .Quotient,
  .Modulo, .Power, .Quotation]

theorem contexts_closed : ∀ x ∈ contexts, (∀ y ∈ callsIn (grammar x.1) x.2.1 x.2.2, y ∈ contexts) ∧
    ∀ y ∈ blamesIn (grammar x.1) x.2.1 x.2.2, y.1 ∈ nameable ∧ y.2 = false := by decide +kernel

/-- The rules named so far are among those, and none is named as unwanted. -/
def Sober (a : Tries R) : Prop := a.unwanted = [] ∧ ∀ r ∈ a.wanted, r ∈ nameable

theorem Sober.track {a b : Tries R} (hb : Sober b) {t : Atomicity} {neg : Bool} {r : R} {p : Nat}
    (h : t ≠ .atomic → r ∈ nameable ∧ neg = false) : Sober (b.track t neg r p a) := by
  unfold Tries.track
  split
  · exact hb
  next ht =>
  obtain ⟨h1, rfl⟩ := h ht
  split
  · exact hb
  · extract_lets i j c d
    have hc : Sober c := by
      show Sober (if p = b.pos then _ else b)
      split
      · refine ⟨by simp [hb.1], fun r hr => hb.2 r (List.mem_of_mem_take hr)⟩
      · exact hb
    have hd : Sober d := by
      show Sober (if p > c.pos then _ else c)
      split
      · exact ⟨rfl, fun _ h => nomatch h⟩
      · exact hc
    split
    · refine ⟨hd.1, fun x hx => ?_⟩
      rcases List.mem_append.1 hx with hx | hx
      · exact hd.2 x hx
      · rw [List.mem_singleton] at hx
        exact hx ▸ h1
    · exact hd

theorem traced_sober (n : Nat) : ∀ (e : PE R) (v : Env) (neg : Bool) (s : St R) (a : Tries R),
    (∀ y ∈ callsIn e v.atomicity neg, y ∈ contexts) →
    (∀ y ∈ blamesIn e v.atomicity neg, y.1 ∈ nameable ∧ y.2 = false) → Sober a →
    Sober (traced grammar u n e v neg s a).2 := by
  induction n with
  | zero => intro e v neg s a _ _ ha; exact ha
  | succ n ih =>
    intro e v neg s a h1 h2 ha
    cases e with
    | call r =>
      have := contexts_closed _ (h1 (r, v.atomicity, neg) (List.mem_singleton.2 rfl))
      exact ih (grammar r) v neg s a this.1 this.2 ha
    | rule r e =>
      have hx := ih e v neg (if v.emits then { s with queue := [] } else s) a h1
        (fun y hy => h2 y (List.mem_append_right _ hy)) ha
      rw [traced]
      generalize traced grammar u n e v neg (if v.emits then { s with queue := [] } else s) a = x at hx
      dsimp only
      split
      · refine hx.track fun ht => ?_
        refine h2 (r, neg) (List.mem_append_left _ ?_)
        rw [if_neg ht]
        exact List.mem_singleton.2 rfl
      · exact hx
    | atomic t e => exact ih e { v with atomicity := t } neg s a h1 h2 ha
    | ifNon e =>
      rw [traced]
      split
      next ht =>
        refine ih e v neg s a (fun y hy => h1 y ?_) (fun y hy => h2 y ?_) ha
        · rw [callsIn, if_pos ht]; exact hy
        · rw [blamesIn, if_pos ht]; exact hy
      · exact ha
    | seq e => exact ih e v neg s a h1 h2 ha
    | opt e => exact ih e v neg s a h1 h2 ha
    | rep e =>
      have hx := ih e v neg s a h1 h2 ha
      rw [traced]
      generalize traced grammar u n e v neg s a = x at hx
      obtain ⟨y, b⟩ := x
      cases y with
      | ok t => exact ih (.rep e) v neg t b h1 h2 hx
      | err t => exact hx
      | crash => exact hx
    | alt e f =>
      have hx := ih e v neg s a (fun y hy => h1 y (List.mem_append_left _ hy)) (fun y hy => h2 y (List.mem_append_left _ hy)) ha
      rw [traced]
      generalize traced grammar u n e v neg s a = x at hx
      obtain ⟨y, b⟩ := x
      cases y with
      | ok t => exact hx
      | err t => exact ih f v neg t b (fun y hy => h1 y (List.mem_append_right _ hy)) (fun y hy => h2 y (List.mem_append_right _ hy)) hx
      | crash => exact hx
    | cat e f =>
      have hx := ih e v neg s a (fun y hy => h1 y (List.mem_append_left _ hy)) (fun y hy => h2 y (List.mem_append_left _ hy)) ha
      rw [traced]
      generalize traced grammar u n e v neg s a = x at hx
      obtain ⟨y, b⟩ := x
      cases y with
      | ok t => exact ih f v neg t b (fun y hy => h1 y (List.mem_append_right _ hy)) (fun y hy => h2 y (List.mem_append_right _ hy)) hx
      | err t => exact hx
      | crash => exact hx
    | restore e => exact ih e v neg s a h1 h2 ha
    | look p e => exact ih e { v with silent := true } (if p then neg else !neg) s a h1 h2 ha
    | push e => exact ih e v neg s a h1 h2 ha
    | _ => exact ha

/-- **C89**.  Whatever text is refused, no rule is named as unwanted, and those named as missing are among the 92. -/
theorem C89_named (u : Uni) {T : Str} {a : Tries R} (h : smRefusal u .program T = some a) :
    a.unwanted = [] ∧ ∀ r ∈ a.wanted, r ∈ nameable := by
  unfold smRefusal at h
  have hs := traced_sober (u := u) (parseFuel T) (.call .program) Env.init false (St.init T) Tries.init
    (by decide) (by decide) ⟨rfl, fun _ h => nomatch h⟩
  generalize traced grammar u (parseFuel T) (.call .program) Env.init false (St.init T) Tries.init = x at h hs
  obtain ⟨y, b⟩ := x
  cases y with
  | ok t => cases h
  | err t => cases h; exact hs
  | crash => cases h

/-! ### The sentence -/

theorem mem_insertRule {r x : R} {l : List R} : x ∈ insertRule r l ↔ x = r ∨ x ∈ l := by
  induction l with
  | nil => simp [insertRule]
  | cons y l ih =>
    rw [insertRule]
    split
    · simp
    · simp [ih, or_left_comm]

theorem mem_sortRules {x : R} {l : List R} : x ∈ sortRules l ↔ x ∈ l := by
  induction l with
  | nil => rfl
  | cons y l ih => rw [sortRules, mem_insertRule, ih, List.mem_cons]

theorem sorted_insertRule {r : R} {l : List R} (h : l.Pairwise (fun x y => x.place ≤ y.place)) :
    (insertRule r l).Pairwise (fun x y => x.place ≤ y.place) := by
  induction l with
  | nil => simp [insertRule]
  | cons y l ih =>
    rw [insertRule]
    rw [List.pairwise_cons] at h
    split
    next hr =>
      refine List.pairwise_cons.2 ⟨fun z hz => ?_, List.pairwise_cons.2 h⟩
      rcases List.mem_cons.1 hz with rfl | hz
      · exact hr
      · exact Nat.le_trans hr (h.1 z hz)
    next hr =>
      refine List.pairwise_cons.2 ⟨fun z hz => ?_, ih h.2⟩
      rcases mem_insertRule.1 hz with rfl | hz
      · omega
      · exact h.1 z hz

theorem sorted_sortRules (l : List R) : (sortRules l).Pairwise (fun x y => x.place ≤ y.place) := by
  induction l with
  | nil => exact .nil
  | cons y l ih => exact sorted_insertRule ih

theorem mem_dedupRules {x : R} {l : List R} : x ∈ dedupRules l ↔ x ∈ l := by
  induction l with
  | nil => rfl
  | cons r l ih =>
    cases l with
    | nil => rfl
    | cons y l =>
      rw [dedupRules]
      split
      next h => subst h; rw [ih]; simp
      · rw [List.mem_cons, ih, List.mem_cons (a := x) (b := r)]

theorem strict_dedupRules {l : List R} (h : l.Pairwise (fun x y => x.place ≤ y.place))
    (hi : ∀ x ∈ l, ∀ y ∈ l, x.place = y.place → x = y) : (dedupRules l).Pairwise (fun x y => x.place < y.place) := by
  induction l with
  | nil => exact .nil
  | cons r l ih =>
    have h' := List.pairwise_cons.1 h
    have ih := ih h'.2 (fun x hx y hy => hi x (List.mem_cons_of_mem _ hx) y (List.mem_cons_of_mem _ hy))
    cases l with
    | nil => exact List.pairwise_singleton ..
    | cons y l =>
      rw [dedupRules]
      split
      · exact ih
      next hn =>
        refine List.pairwise_cons.2 ⟨fun z hz => ?_, ih⟩
        have hz := mem_dedupRules.1 hz
        have h1 := h'.1 y (List.mem_cons_self ..)
        have h2 : y.place ≠ r.place := fun e => hn (hi r (List.mem_cons_self ..) y (by simp) e.symm)
        have h3 : y.place ≤ z.place := by
          rcases List.mem_cons.1 hz with rfl | hz
          · exact Nat.le_refl _
          · exact (List.pairwise_cons.1 h'.2).1 z hz
        omega

theorem place_nameable : ∀ x ∈ nameable, ∀ y ∈ nameable, x.place = y.place → x = y := by decide +kernel

/-- **C89**.  What is said of a refused text: `expected`, and then the rules that were tried at the position of the error,
each of them once, in the order of the declaration, and there is at least one.  It is never said that something was
unexpected, and there is never nothing to say. -/
theorem C89_sentence (u : Uni) {T s : Str} (h : errorSentence u T = some s) :
    ∃ a l, smRefusal u .program T = some a ∧ (∀ r, r ∈ l ↔ r ∈ a.wanted) ∧ l.Pairwise (fun x y => x.place < y.place) ∧
      l ≠ [] ∧ (∀ r ∈ l, r ∈ nameable) ∧ s = c!"expected " ++ enumerate l := by
  unfold errorSentence at h
  cases ha : smRefusal u .program T with
  | none => rw [ha] at h; cases h
  | some a =>
    rw [ha] at h
    obtain ⟨h1, h2⟩ := C89_named u ha
    have hm : ∀ r, r ∈ dedupRules (sortRules a.wanted) ↔ r ∈ a.wanted := fun r => mem_dedupRules.trans mem_sortRules
    have hne : dedupRules (sortRules a.wanted) ≠ [] := by
      intro e
      rcases (C87_inside u ha).2.1 with hr | hr
      · refine hr (List.eq_nil_iff_forall_not_mem.2 fun r h => ?_)
        rw [← hm, e] at h
        cases h
      · exact hr h1
    refine ⟨a, dedupRules (sortRules a.wanted), rfl, hm, ?_, hne, fun r hr => h2 r ((hm r).1 hr), ?_⟩
    · exact strict_dedupRules (sorted_sortRules _) (fun x hx y hy => place_nameable x (h2 x (mem_sortRules.1 hx)) y (h2 y (mem_sortRules.1 hy)))
    · have h3 : (dedupRules (sortRules a.wanted)).isEmpty = false := by
        cases hd : dedupRules (sortRules a.wanted) with
        | nil => exact absurd hd hne
        | cons => rfl
      have h4 : (dedupRules (sortRules a.unwanted)).isEmpty = true := by rw [h1]; rfl
      simp only [Option.map_some, Option.some.injEq] at h
      rw [← h, Tries.sentence]
      simp only [h3, h4]

/-- How the rules are listed. -/
theorem C89_listed (r x y : R) (l : List R) : enumerate [r] = r.name ∧ enumerate [r, x] = r.name ++ c!" or " ++ x.name ∧
    enumerate (r :: x :: (l ++ [y])) = ((r :: x :: l).flatMap fun r => r.name ++ c!", ") ++ (c!"or " ++ y.name) := by
  refine ⟨rfl, by rw [enumerate, List.append_assoc], ?_⟩
  have hs : ∀ l : List R, separated (l ++ [y]) = (l.flatMap fun r => r.name ++ c!", ") ++ (c!"or " ++ y.name) := by
    intro l
    induction l with
    | nil => rfl
    | cons z l ih =>
      have : separated (z :: (l ++ [y])) = z.name ++ (c!", " ++ separated (l ++ [y])) := by cases l <;> rfl
      rw [List.cons_append, this, ih]
      simp
  have : enumerate (r :: x :: (l ++ [y])) = separated (r :: x :: (l ++ [y])) := by cases l <;> rfl
  rw [this]
  exact hs (r :: x :: l)

/-- **C89**.  A sentence is given exactly for the texts that are refused. -/
theorem C89_iff (u : Uni) (T : Str) : (∃ s, errorSentence u T = some s) ↔ smParse u .program T = .error := by
  rw [← refusal_iff]
  unfold errorSentence
  cases smRefusal u .program T <;> simp

/-- Every rule that can be named has a name of its own. -/
theorem name_nameable : ∀ x ∈ nameable, x.name ≠ [] ∧ ∀ y ∈ nameable, x.name = y.name → x = y := by decide +kernel

/-! ### A missing operand -/

/-- **C89**.  If a text breaks off behind an infix operator, whatever brackets are open there, the end of the text is
reported and a term is named as missing. -/
theorem C89_operand (L : Lawful u) {w o : Str} {l : List Ended} (hw : Blank u w) (hl : ∀ k ∈ l, k.Ok u) (ho : Unfinished u true .expr o)
    (hne : o ≠ []) (hn : Wordless o) {a : Tries R} (h : smRefusal u .program (w ++ (endedText l ++ o)) = some a) :
    a.pos = (w ++ (endedText l ++ o)).length ∧ R.term ∈ a.wanted := by
  have h1 := refusal_hit L hw hl ho hne hn h
  have h2 := Nat.le_antisymm (C87_inside u h).1 h1.1
  exact ⟨h2, h1.2 rfl h2⟩

/-- **C89**.  With one of the operators that need an operand at its end, such a text is refused, at its end, and the sentence
lists `term`. -/
theorem C89_operator (L : Lawful u) {w o : Str} {l : List Ended} (hw : Blank u w) (hl : ∀ k ∈ l, k.Ok u) (ho : Unfinished u true .expr o)
    (hne : o ≠ []) (hn : Wordless o) (hb : Bare (w ++ (endedText l ++ o))) {c : Char} (hc : LastIs u (w ++ (endedText l ++ o)) c)
    (h1 : c ∈ operatorSigns) : errorAt u (w ++ (endedText l ++ o)) = some (w ++ (endedText l ++ o)).length ∧
      ∃ m, R.term ∈ m ∧ errorSentence u (w ++ (endedText l ++ o)) = some (c!"expected " ++ enumerate m) := by
  have h2 := C88_operator L hw hl ho hne hn hb hc h1
  obtain ⟨a, h3, -⟩ := errorAt_iff.1 h2
  obtain ⟨-, h4⟩ := C89_operand L hw hl ho hne hn h3
  have h5 : errorSentence u (w ++ (endedText l ++ o)) = some a.sentence := by unfold errorSentence; rw [h3]; rfl
  obtain ⟨b, m, h6, h7, -, -, -, h8⟩ := C89_sentence u h5
  rw [h3] at h6
  cases h6
  exact ⟨h2, m, (h7 .term).2 h4, by rw [h5, h8]⟩

/-! ### Cases -/

example : errorSentence asciiUni c!"1 + " = some c!"expected term or MultiLineComment" := by decide +kernel

example : errorSentence asciiUni c!"(1 + " = some c!"expected term or MultiLineComment" := by decide +kernel

example : errorSentence asciiUni c!"f(x, 2 +" = some c!"expected term or MultiLineComment" := by decide +kernel

/-- Outside of brackets the sign might also begin a statement of its own. -/
example : errorSentence asciiUni c!"2+" = some c!"expected term, node, MultiLineComment, or Prefix" := by decide +kernel

example : errorSentence asciiUni c!"(" = some c!"expected term" := by decide +kernel

example : errorSentence asciiUni c!"1 + -" = some c!"expected node or Prefix" := by decide +kernel

example : errorSentence asciiUni c!"f(" = some c!"expected apply_kv, term, MultiLineComment, or Comma" := by decide +kernel

example : errorSentence asciiUni c!"\"abc" = some c!"expected Quotation" := by decide +kernel

example : errorSentence asciiUni c!"@" = some c!"expected apply, list, or SYMBOL" := by decide +kernel

/-- A missing parenthesis is not asked for: it is no rule of its own. -/
example : errorSentence asciiUni c!"(1" = some c!"expected slice, Integer, Byte, SYMBOL, MultiLineComment, Suffix, Set, Dot, GraterEqual, Grater, Equal, Plus, Minus, Multiply, CenterDot, Kronecker, TensorProduct, Divide, Quotient, Modulo, or Power" := by
  decide +kernel

example : errorSentence asciiUni c!"1 + 2" = none := by decide +kernel

example : R.term ∈ nameable ∧ R.program ∉ nameable ∧ nameable.length = 92 ∧ ruleNames.length = 150 := by decide +kernel

/-- Any lawful classification, an open call, and an operator at the end. -/
example (L : Lawful u) : ∃ m, R.term ∈ m ∧ errorSentence u c!"(1+" = some (c!"expected " ++ enumerate m) := by
  have t1 : (SExpr.node (.atom (.int 1))).text = c!"1" := by decide
  have h : Unfinished u true .expr c!"(1+" := by
    refine .alone (.paren ?_)
    have := Unfinished.dangling (q := true) (intExpr_ok (u := u) 1) (wb := []) (wa := []) (t := .op .plus) blank_nil blank_nil
      (fun h => nomatch h) (fun h => nomatch h)
    rw [t1] at this
    exact this
  exact (C89_operator L (w := []) (l := []) blank_nil (fun _ h => nomatch h) h (by decide) (by unfold Wordless; decide)
    ⟨by decide, by decide, by decide⟩ (c := '+') ⟨c!"(1", [], rfl, fun _ h => (nomatch h), by rw [L.plain _ _ (by decide)]; decide⟩ (by decide)).2

end SM.Props
