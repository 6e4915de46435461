import Verif.Props.Brackets
import Verif.Props.ReadsLex
import Mathlib.Data.List.Chain
/-
Which characters can stand next to each other in an accepted text: an analysis of the grammar, and its correctness.

The analysis knows, for each rule, whether it may match nothing but white space, and by which characters its text
may begin and end; a table `P` says which characters may follow which.  It is checked against every rule, and then
holds of every derivation.
-/
namespace SM.Props
open SM SM.Peg

/-- The characters with a meaning of their own. -/
def signs : List Char :=
  ['+', '-', '*', '/', '^', '%', '=', '>', '!', '?', '.', ',', ';', ':', '(', ')', '[', ']', '{', '}', '\'', '#', '@', '|',
    '¶', '⁋', '×', '÷', '⋅', '⊗', '⊙', '，', '：', '；', '∷', '¬']

/-- The class of a character: digits, other characters of identifiers, each sign alone, all others. -/
def charClass (u : Uni) (c : Char) : Nat :=
  if '0' ≤ c ∧ c ≤ '9' then 0 else if u .xidContinue c then 1 else 2 + signs.idxOf c

/-- The classes of a text without its white space. -/
def classesOf (u : Uni) (w : Str) : List Nat := (w.filter fun c => !u .whiteSpace c).map (charClass u)

theorem classesOf_append (u : Uni) (w w' : Str) : classesOf u (w ++ w') = classesOf u w ++ classesOf u w' := by
  simp [classesOf]

/-- What the analysis knows of a rule; `first` and `last` are sets of classes. -/
structure Shape where
  null : Bool
  first : Nat
  last : Nat
  deriving DecidableEq

namespace Shape

/-- Nothing matches. -/
def void : Shape := ⟨false, 0, 0⟩

/-- Only white space matches. -/
def blank : Shape := ⟨true, 0, 0⟩

/-- No text has the shape. -/
def isVoid (A : Shape) : Bool := !A.null && (A.first == 0 || A.last == 0)

def or (A B : Shape) : Shape := ⟨A.null || B.null, A.first ||| B.first, A.last ||| B.last⟩

def orNull (A : Shape) : Shape := { A with null := true }

def cat (A B : Shape) : Shape :=
  ⟨A.null && B.null, A.first ||| (if A.null then B.first else 0), B.last ||| (if B.null then A.last else 0)⟩

/-- One character, of one of the classes. -/
def one (m : Nat) : Shape := ⟨false, m, m⟩

def le (A B : Shape) : Bool := (!A.null || B.null) && A.first ||| B.first == B.first && A.last ||| B.last == B.last

end Shape

/-- Class `q` may follow class `p`. -/
def follows (P : List Nat) (p q : Nat) : Bool := (P.getD p 0).testBit q

/-- The classes in `f` may follow those in `l`. -/
def joins (P : List Nat) (l f : Nat) : Bool :=
  decide (l < 2 ^ P.length) && (List.range P.length).all fun p => !l.testBit p || P.getD p 0 ||| f == P.getD p 0

/-- The text, given by its classes, has the shape. -/
structure Has (P : List Nat) (A : Shape) (s : List Nat) : Prop where
  null : s = [] → A.null = true
  first : ∀ p ∈ s.head?, A.first.testBit p = true
  last : ∀ p ∈ s.getLast?, A.last.testBit p = true
  chain : s.IsChain fun p q => follows P p q = true

variable {P : List Nat} {A B : Shape} {s t : List Nat}

theorem testBit_of_or_eq {a b p : Nat} (h : a ||| b = b) (ha : a.testBit p = true) : b.testBit p = true := by
  rw [← h, Nat.testBit_or, ha, Bool.true_or]

theorem joins_follows {l f p q : Nat} (h : joins P l f = true) (hp : l.testBit p = true) (hq : f.testBit q = true) :
    follows P p q = true := by
  rw [joins, Bool.and_eq_true, decide_eq_true_eq, List.all_eq_true] at h
  have hlt : p < P.length := by
    by_contra hc
    rw [Nat.testBit_lt_two_pow (h.1.trans_le (Nat.pow_le_pow_right (by decide) (by omega)))] at hp
    cases hp
  have := h.2 p (List.mem_range.2 hlt)
  rw [hp, Bool.not_true, Bool.false_or, beq_iff_eq, Nat.or_comm] at this
  exact testBit_of_or_eq this hq

theorem Has.blank : Has P .blank [] := ⟨fun _ => rfl, by simp, by simp, by simp⟩

theorem Has.nil (h : A.null = true) : Has P A [] := ⟨fun _ => h, by simp, by simp, by simp⟩

theorem Has.one {m p : Nat} (h : m.testBit p = true) : Has P (.one m) [p] :=
  ⟨by simp, by simpa [Shape.one] using h, by simpa [Shape.one] using h, by simp⟩

theorem Has.mono (h : Has P A s) (hl : A.le B = true) : Has P B s := by
  simp only [Shape.le, Bool.and_eq_true, Bool.or_eq_true, Bool.not_eq_true', beq_iff_eq] at hl
  obtain ⟨⟨h1, h2⟩, h3⟩ := hl
  refine ⟨fun e => ?_, fun p hp => testBit_of_or_eq h2 (h.first p hp), fun p hp => testBit_of_or_eq h3 (h.last p hp), h.chain⟩
  have := h.null e
  rcases h1 with h1 | h1
  · rw [h1] at this; cases this
  · exact h1

theorem Has.orNull (h : Has P A s) : Has P A.orNull s := ⟨fun _ => rfl, h.first, h.last, h.chain⟩

theorem Has.left (h : Has P A s) : Has P (A.or B) s :=
  ⟨fun e => by simp [Shape.or, h.null e], fun p hp => by simp [Shape.or, Nat.testBit_or, h.first p hp],
    fun p hp => by simp [Shape.or, Nat.testBit_or, h.last p hp], h.chain⟩

theorem Has.right (h : Has P B s) : Has P (A.or B) s :=
  ⟨fun e => by simp [Shape.or, h.null e], fun p hp => by simp [Shape.or, Nat.testBit_or, h.first p hp],
    fun p hp => by simp [Shape.or, Nat.testBit_or, h.last p hp], h.chain⟩

theorem Has.not_void (h : Has P A s) : A.isVoid = false := by
  cases hv : A.isVoid with
  | false => rfl
  | true =>
    simp only [Shape.isVoid, Bool.and_eq_true, Bool.not_eq_true', Bool.or_eq_true, beq_iff_eq] at hv
    obtain ⟨h1, h2⟩ := hv
    cases s with
    | nil => rw [h.null rfl] at h1; cases h1
    | cons p s =>
      rcases h2 with h2 | h2
      · have := h.first p (by simp)
        rw [h2] at this
        simp at this
      · have := h.last ((p :: s).getLast (by simp)) (by rw [List.getLast?_eq_getLast_of_ne_nil (by simp)]; rfl)
        rw [h2] at this
        simp at this

theorem Has.cat (h : Has P A s) (k : Has P B t) (hj : joins P A.last B.first = true) : Has P (A.cat B) (s ++ t) := by
  refine ⟨fun e => ?_, fun p hp => ?_, fun p hp => ?_, ?_⟩
  · rw [List.append_eq_nil_iff] at e
    simp [Shape.cat, h.null e.1, k.null e.2]
  · rw [Shape.cat, Nat.testBit_or, Bool.or_eq_true]
    cases s with
    | nil => rw [h.null rfl]; exact .inr (k.first p hp)
    | cons q s => exact .inl (h.first p hp)
  · rw [Shape.cat, Nat.testBit_or, Bool.or_eq_true]
    rw [List.getLast?_append] at hp
    cases t with
    | nil => rw [k.null rfl]; exact .inr (h.last p (by simpa using hp))
    | cons q t =>
      rw [List.getLast?_eq_getLast_of_ne_nil (l := q :: t) (by simp)] at hp
      exact .inl (k.last p (by rw [List.getLast?_eq_getLast_of_ne_nil (by simp)]; exact hp))
  · rw [List.isChain_append]
    exact ⟨h.chain, k.chain, fun p hp q hq => joins_follows hj (h.last p hp) (k.first q hq)⟩

/-- The shape of a text that is known. -/
def shapeOf (P : List Nat) : List Nat → Option Shape
  | [] => some .blank
  | [p] => some (.one (2 ^ p))
  | p :: q :: s =>
    match shapeOf P (q :: s) with
    | some A => if follows P p q then some ⟨false, 2 ^ p, A.last⟩ else none
    | none => none

theorem shapeOf_has : ∀ {s : List Nat} {A : Shape}, shapeOf P s = some A → Has P A s
  | [], A, h => by cases h; exact .blank
  | [p], A, h => by cases h; exact .one (by simp)
  | p :: q :: s, A, h => by
    rw [shapeOf] at h
    split at h
    · rename_i B hB
      split at h
      · rename_i hf
        cases h
        have ih := shapeOf_has hB
        refine ⟨by simp, by simp, fun r hr => ih.last r ?_, ?_⟩
        · rw [List.getLast?_cons_cons] at hr; exact hr
        · rw [List.isChain_cons_cons]; exact ⟨hf, ih.chain⟩
      · cases h
    · cases h

/-- The characters between `c` and `d` are all digits, or all letters. -/
def rangeShape (c d : Char) : Option Shape :=
  if '0' ≤ c ∧ d ≤ '9' then some (.one 1)
  else if ('a' ≤ c ∧ d ≤ 'z') ∨ ('A' ≤ c ∧ d ≤ 'Z') then some (.one 2) else none

/-- The shape of what an expression matches, given the shapes `T` of the rules, if the texts in `F` do not occur in it;
`none` if the analysis cannot say or if a character may follow another against `P`. -/
def shapeE (F : List Str) (T : R → Option Shape) (P : List Nat) : PE R → Option Shape
  | .call r => T r
  | .rule _ e => shapeE F T P e
  | .atomic _ e => shapeE F T P e
  | .ifNon e => (shapeE F T P e).map .orNull
  | .seq e => shapeE F T P e
  | .opt e => (shapeE F T P e).map .orNull
  | .rep e =>
    match shapeE F T P e with
    | some A => if joins P A.last A.first then some A.orNull else none
    | none => none
  | .alt e f =>
    match shapeE F T P e, shapeE F T P f with
    | some A, some B => some (A.or B)
    | _, _ => none
  | .cat e f =>
    match shapeE F T P e with
    | none => none
    | some A =>
      if A.isVoid then some .void else
      match shapeE F T P f with
      | none => none
      | some B => if B.isVoid then some .void else if joins P A.last B.first then some (A.cat B) else none
  | .restore e => shapeE F T P e
  | .push e => shapeE F T P e
  | .look _ _ => some .blank
  | .str x =>
    if F.any fun f => decide (f <:+: x) then some .void
    else if x.all fun c => decide (Plain c) then shapeOf P (classesOf asciiUni x) else none
  | .insens x =>
    if x.all fun c => decide (('0' ≤ c ∧ c ≤ '9') ∨ ('a' ≤ c ∧ c ≤ 'z')) then shapeOf P (classesOf asciiUni x) else none
  | .range c d => rangeShape c d
  | .uni .whiteSpace => some .blank
  | .uni .xidStart => some (.one 2)
  | .uni .xidContinue => some (.one 3)
  | .any => none
  | .soi => some .blank
  | .eoi => some .blank
  | .peek => none
  | .pop => none

/-- The characters of the infix operators. -/
def infixChars : List Char := ['=', '+', '-', '*', '×', '⋅', '⊗', '⊙', '/', '÷', '%', '^', '>', '.']

/-- The rule is as the table says.  Of the infix operators only those of one character are ever matched. -/
def ruleOk (F : List Str) (T : R → Option Shape) (P : List Nat) (r : R) : Bool :=
  match T r with
  | none => true
  | some A =>
    if isOpaque r then true
    else if r = .Infix then infixChars.all fun c => (Shape.one (2 ^ charClass asciiUni c)).le A
    else match shapeE F T P (grammar r) with
      | some B => B.le A
      | none => false

/-! ### Correctness -/

section
variable {u : Uni} {a : Atomicity} {p : Nat} {w z : Str} {l : List (Pair R)}

theorem charClass_plain (L : Lawful u) {c : Char} (h : Plain c) : charClass u c = charClass asciiUni c := by
  rw [charClass, charClass, L.plain c _ h]

theorem classesOf_plain (L : Lawful u) {w : Str} (h : ∀ c ∈ w, Plain c) : classesOf u w = classesOf asciiUni w := by
  induction w with
  | nil => rfl
  | cons c w ih =>
    have h1 := h c (by simp)
    have ih := ih fun d hd => h d (by simp [hd])
    simp only [classesOf, List.filter_cons, L.plain c _ h1] at ih ⊢
    split
    · rw [List.map_cons, List.map_cons, ih, charClass_plain L h1]
    · exact ih

theorem plain_digit {c : Char} (h : '0' ≤ c ∧ c ≤ '9') : Plain c := .inl (by
  have := h.2
  rw [Char.le_def, UInt32.le_iff_toNat_le] at this
  exact lt_of_le_of_lt this (by decide))

theorem plain_letter {c : Char} (h : ('a' ≤ c ∧ c ≤ 'z') ∨ ('A' ≤ c ∧ c ≤ 'Z')) : Plain c := .inl (by
  rcases h with h | h <;>
  · have := h.2
    rw [Char.le_def, UInt32.le_iff_toNat_le] at this
    exact lt_of_le_of_lt this (by decide))

theorem class_cont (L : Lawful u) {c : Char} (h : u .xidContinue c = true) :
    classesOf u [c] = [charClass u c] ∧ (charClass u c = 0 ∨ charClass u c = 1) := by
  refine ⟨by simp [classesOf, L.cont_ws c h], ?_⟩
  rw [charClass]
  split
  · exact .inl rfl
  · exact .inr rfl

theorem class_digit (L : Lawful u) {c : Char} (h : '0' ≤ c ∧ c ≤ '9') : classesOf u [c] = [0] := by
  have hc : u .xidContinue c = true := by
    rw [L.plain c _ (plain_digit h)]
    simp [asciiUni, h]
  rw [(class_cont L hc).1, charClass, if_pos h]

theorem not_digit_of_letter {c : Char} (h : ('a' ≤ c ∧ c ≤ 'z') ∨ ('A' ≤ c ∧ c ≤ 'Z')) : ¬ ('0' ≤ c ∧ c ≤ '9') := by
  rintro ⟨-, h'⟩
  rcases h with ⟨h, -⟩ | ⟨h, -⟩
  · exact absurd (Char.le_trans h h') (by decide)
  · exact absurd (Char.le_trans h h') (by decide)

theorem class_letter (L : Lawful u) {c : Char} (h : ('a' ≤ c ∧ c ≤ 'z') ∨ ('A' ≤ c ∧ c ≤ 'Z')) : classesOf u [c] = [1] := by
  have hc : u .xidContinue c = true := by
    rw [L.plain c _ (plain_letter h)]
    rcases h with h | h <;> simp [asciiUni, h]
  rw [(class_cont L hc).1, charClass, if_neg (not_digit_of_letter h), if_pos hc]

theorem class_start (L : Lawful u) {c : Char} (h : u .xidStart c = true) : classesOf u [c] = [1] := by
  have hc := L.start_cont c h
  rw [(class_cont L hc).1, charClass, if_neg, if_pos hc]
  intro hd
  rw [L.plain c _ (plain_digit hd)] at h
  simp only [asciiUni, decide_eq_true_eq] at h
  exact not_digit_of_letter h hd

/-- Letters in upper or lower case. -/
theorem class_lower (L : Lawful u) {c d : Char} (h : c.toLower = d.toLower)
    (hd : ('0' ≤ d ∧ d ≤ '9') ∨ ('a' ≤ d ∧ d ≤ 'z')) : classesOf u [c] = classesOf asciiUni [d] := by
  have hn : ¬ (d.val ≥ 'A'.val ∧ d.val ≤ 'Z'.val) := by
    rintro ⟨h1, h2⟩
    rcases hd with ⟨-, h3⟩ | ⟨h3, -⟩
    · exact absurd (Char.le_trans (show 'A' ≤ d from h1) h3) (by decide)
    · exact absurd (Char.le_trans h3 (show d ≤ 'Z' from h2)) (by decide)
  have hl : d.toLower = d := by
    unfold Char.toLower
    split
    · exact absurd ‹_› hn
    · rfl
  rw [hl] at h
  unfold Char.toLower at h
  split at h
  · rename_i hu
    have hc : ('a' ≤ c ∧ c ≤ 'z') ∨ ('A' ≤ c ∧ c ≤ 'Z') := .inr hu
    have hd' : ('a' ≤ d ∧ d ≤ 'z') ∨ ('A' ≤ d ∧ d ≤ 'Z') := by
      rcases hd with ⟨h1, h2⟩ | h1
      · exfalso
        subst h
        obtain ⟨h3, h4⟩ := hu
        rw [Char.le_def, UInt32.le_iff_toNat_le] at h2
        simp only [UInt32.toNat_add, ge_iff_le, UInt32.le_iff_toNat_le] at h2 h3 h4
        have e1 : 'A'.val.toNat = 65 := rfl
        have e2 : 'Z'.val.toNat = 90 := rfl
        have e3 : '9'.val.toNat = 57 := rfl
        have e4 : ('a'.val - 'A'.val).toNat = 32 := rfl
        omega
      · exact .inl h1
    rw [class_letter L hc, class_letter lawful_asciiUni hd']
  · subst h
    rw [classesOf_plain L]
    intro x hx
    rw [List.mem_singleton] at hx
    subst hx
    rcases hd with h1 | h1
    · exact plain_digit h1
    · exact plain_letter (.inl h1)

theorem class_insens (L : Lawful u) : ∀ {w x : Str}, w.map Char.toLower = x.map Char.toLower →
    (∀ d ∈ x, ('0' ≤ d ∧ d ≤ '9') ∨ ('a' ≤ d ∧ d ≤ 'z')) → classesOf u w = classesOf asciiUni x
  | [], [], _, _ => rfl
  | [], _ :: _, h, _ => by cases h
  | _ :: _, [], h, _ => by cases h
  | c :: w, d :: x, h, hd => by
    simp only [List.map_cons, List.cons.injEq] at h
    rw [← List.singleton_append, classesOf_append, ← List.singleton_append (l := x), classesOf_append,
      class_lower L h.1 (hd d (by simp)), class_insens L h.2 fun e he => hd e (by simp [he])]

/-- The text of a token. -/
theorem deriv_token {r : R} {x : Str} (hr : grammar r = .rule r (.atomic .atomic (.str x)))
    (h : Deriv grammar u a (.call r) p w z l) : w = x := by
  have h := h.inv_call
  rw [hr] at h
  obtain ⟨m, h⟩ := h.inside
  exact h.inv_atomic.inv_str.1

theorem eats_token {v : Env} {r : R} {x : Str} (hr : grammar r = .rule r (.atomic .atomic (.str x))) (rest : Str) :
    Eats u v (.call r) x rest fun _ => True :=
  eats_call (by rw [hr]; exact eats_rule_any (eats_atomic (eats_str _ _)))

/-- An infix operator has one character. -/
theorem infix_text (L : Lawful u) (h : Deriv grammar u a (.call .Infix) p w z l) : ∃ c ∈ infixChars, w = [c] := by
  have h := h.inv_call
  simp only [grammar, body_Infix] at h
  rcases h.inv_alt with h | ⟨-, h⟩
  swap
  · exact ⟨_, by decide, deriv_token rfl h⟩
  rcases h.inv_alt with h | ⟨hr, h⟩
  swap
  · exfalso
    obtain rfl := deriv_token rfl h
    refine hr.not_eats (x := c!"=") (P := fun _ => True) fun v _ => ?_
    iterate 12 apply eats_alt_left
    exact eats_token rfl _
  rcases h.inv_alt with h | ⟨hr, h⟩
  swap
  · exfalso
    obtain rfl := deriv_token rfl h
    refine hr.not_eats (x := c!">") (P := fun _ => True) fun v _ => eats_alt_right ?_ (eats_token rfl _)
    iterate 10 refine fails_alt ?_ (fails_plain L (by decide) _)
    exact fails_plain L (by decide) _
  rcases h.inv_alt with h | ⟨-, h⟩
  swap
  · exact ⟨_, by decide, deriv_token rfl h⟩
  rcases h.inv_alt with h | ⟨-, h⟩
  swap
  · exact ⟨_, by decide, deriv_token rfl h⟩
  rcases h.inv_alt with h | ⟨-, h⟩
  swap
  · exact ⟨_, by decide, deriv_token rfl h⟩
  rcases h.inv_alt with h | ⟨hr, h⟩
  swap
  · exfalso
    obtain rfl := deriv_token rfl h
    refine hr.not_eats (x := c!"/") (P := fun _ => True) fun v _ => eats_alt_right ?_ ?_
    · iterate 6 refine fails_alt ?_ (fails_plain L (by decide) _)
      exact fails_plain L (by decide) _
    · exact eats_call (eats_rule_any (eats_atomic (P := fun _ => True) (eats_alt_left (eats_token rfl _))))
  rcases h.inv_alt with h | ⟨-, h⟩
  swap
  · have h := h.inv_call
    simp only [grammar, body_Divide] at h
    obtain ⟨m, h⟩ := h.inside
    rcases h.inv_atomic.inv_alt with h | ⟨-, h⟩
    · exact ⟨_, by decide, deriv_token rfl h⟩
    · exact ⟨_, by decide, h.inv_str.1⟩
  rcases h.inv_alt with h | ⟨-, h⟩
  swap
  · exact ⟨_, by decide, deriv_token rfl h⟩
  rcases h.inv_alt with h | ⟨-, h⟩
  swap
  · exact ⟨_, by decide, deriv_token rfl h⟩
  rcases h.inv_alt with h | ⟨-, h⟩
  swap
  · exact ⟨_, by decide, deriv_token rfl h⟩
  rcases h.inv_alt with h | ⟨-, h⟩
  swap
  · have h := h.inv_call
    simp only [grammar, body_Multiply] at h
    obtain ⟨m, h⟩ := h.inside
    rcases h.inv_atomic.inv_alt with h | ⟨-, h⟩
    · exact ⟨_, by decide, deriv_token rfl h⟩
    · exact ⟨_, by decide, h.inv_str.1⟩
  rcases h.inv_alt with h | ⟨-, h⟩
  swap
  · exact ⟨_, by decide, deriv_token rfl h⟩
  rcases h.inv_alt with h | ⟨-, h⟩
  swap
  · exact ⟨_, by decide, deriv_token rfl h⟩
  · exact ⟨_, by decide, deriv_token rfl h⟩

/-- None of the texts occurs. -/
def Without (F : List Str) (w : Str) : Prop := ∀ f ∈ F, ¬ f <:+: w

theorem Without.left {F : List Str} {w w' : Str} (h : Without F (w ++ w')) : Without F w :=
  fun f hf k => h f hf (k.trans (List.prefix_append w w').isInfix)

theorem Without.right {F : List Str} {w w' : Str} (h : Without F (w ++ w')) : Without F w' :=
  fun f hf k => h f hf (k.trans (List.suffix_append w w').isInfix)

/-- Marks of string literals and comments. -/
def opaqueMarks : List Str := [c!"\"", c!"//", c!"%%%"]

theorem Without.bare {F : List Str} {w : Str} (hF : ∀ f ∈ opaqueMarks, f ∈ F) (h : Without F w) : Bare w where
  quote k := by
    obtain ⟨x, y, rfl⟩ := List.append_of_mem k
    exact h c!"\"" (hF _ (by decide)) ⟨x, y, by simp⟩
  line k := h c!"//" (hF _ (by decide)) k
  percent k := h c!"%%%" (hF _ (by decide)) k

/-- What the analysis says holds of derivations. -/
theorem shape_sound (L : Lawful u) {F : List Str} {T : R → Option Shape} {P : List Nat}
    (hF : ∀ f ∈ opaqueMarks, f ∈ F) (hT : ∀ r, ruleOk F T P r = true) {e : PE R} (h : Deriv grammar u a e p w z l) :
    ∀ A, shapeE F T P e = some A → Without F w → Has P A (classesOf u w) := by
  induction h with
  | @call a r p w z l hran hd ih =>
    intro A hA hw
    rw [shapeE] at hA
    have hr := hT r
    rw [ruleOk, hA] at hr
    simp only at hr
    split at hr
    · rename_i ho
      exact absurd (opaque_call ho (.call hran hd)) (Bare.not_opaque (w := []) (by rw [List.append_nil]; exact hw.bare hF))
    split at hr
    · rename_i hi
      subst hi
      obtain ⟨c, hc, rfl⟩ := infix_text L (.call hran hd)
      rw [List.all_eq_true] at hr
      have key : ∀ d ∈ infixChars, Plain d ∧ classesOf asciiUni [d] = [charClass asciiUni d] := by decide
      have hp : classesOf u [c] = [charClass asciiUni c] := by
        rw [classesOf_plain L (by intro d hd; rw [List.mem_singleton] at hd; rw [hd]; exact (key c hc).1), (key c hc).2]
      rw [hp]
      exact (Has.one (by simp)).mono (hr c hc)
    · split at hr
      · rename_i B hB
        exact (ih B hB hw).mono hr
      · cases hr
  | rule _ _ ih => exact ih
  | quiet _ ih => exact ih
  | atomic _ ih => exact ih
  | ifNon _ ih =>
    intro A hA hw
    rw [shapeE, Option.map_eq_some_iff] at hA
    obtain ⟨B, hB, rfl⟩ := hA
    exact (ih B hB hw).orNull
  | ifNonSkip _ =>
    intro A hA hw
    rw [shapeE, Option.map_eq_some_iff] at hA
    obtain ⟨B, hB, rfl⟩ := hA
    exact .nil rfl
  | seq _ ih => exact ih
  | optNone _ =>
    intro A hA hw
    rw [shapeE, Option.map_eq_some_iff] at hA
    obtain ⟨B, hB, rfl⟩ := hA
    exact .nil rfl
  | optSome _ ih =>
    intro A hA hw
    rw [shapeE, Option.map_eq_some_iff] at hA
    obtain ⟨B, hB, rfl⟩ := hA
    exact (ih B hB hw).orNull
  | repNil _ =>
    intro A hA hw
    rw [shapeE] at hA
    split at hA
    · split at hA
      · cases hA; exact .nil rfl
      · cases hA
    · cases hA
  | repCons _ _ ih ih' =>
    intro A hA hw
    have hA' := hA
    rw [shapeE] at hA
    split at hA
    · rename_i B hB
      split at hA
      · rename_i hj
        cases hA
        have k := (ih B hB hw.left).orNull.cat (ih' _ hA' hw.right) hj
        rw [classesOf_append]
        refine k.mono ?_
        simp [Shape.le, Shape.cat, Shape.orNull]
      · cases hA
    · cases hA
  | altL _ ih =>
    intro A hA hw
    rw [shapeE] at hA
    split at hA
    · rename_i B C hB hC
      cases hA
      exact (ih B hB hw).left
    · cases hA
  | altR _ _ ih =>
    intro A hA hw
    rw [shapeE] at hA
    split at hA
    · rename_i B C hB hC
      cases hA
      exact (ih C hC hw).right
    · cases hA
  | cat _ _ ih ih' =>
    intro A hA hw
    rw [shapeE] at hA
    split at hA
    · cases hA
    · rename_i B hB
      have h1 := ih B hB hw.left
      rw [if_neg (by rw [h1.not_void]; decide)] at hA
      split at hA
      · cases hA
      · rename_i C hC
        have h2 := ih' C hC hw.right
        rw [if_neg (by rw [h2.not_void]; decide)] at hA
        split at hA
        · rename_i hj
          cases hA
          rw [classesOf_append]
          exact h1.cat h2 hj
        · cases hA
  | restore _ ih => exact ih
  | push _ ih => exact ih
  | lookNot _ => intro A hA _; cases hA; exact .blank
  | look _ => intro A hA _; cases hA; exact .blank
  | @str a x p z =>
    intro A hA hw
    rw [shapeE] at hA
    split at hA
    · rename_i hf
      rw [List.any_eq_true] at hf
      obtain ⟨f, hf, hx⟩ := hf
      exact absurd (of_decide_eq_true hx) (hw f hf)
    · split at hA
      · rename_i hp
        rw [List.all_eq_true] at hp
        rw [classesOf_plain L fun c hc => of_decide_eq_true (hp c hc)]
        exact shapeOf_has hA
      · cases hA
  | @insens a x p w z hx =>
    intro A hA hw
    rw [shapeE] at hA
    split at hA
    · rename_i hp
      rw [List.all_eq_true] at hp
      rw [class_insens L hx fun c hc => of_decide_eq_true (hp c hc)]
      exact shapeOf_has hA
    · cases hA
  | @range a c d x p z h1 h2 =>
    intro A hA hw
    rw [shapeE, rangeShape] at hA
    split at hA
    · rename_i h
      cases hA
      rw [class_digit L ⟨Char.le_trans h.1 h1, Char.le_trans h2 h.2⟩]
      exact .one (by decide)
    · split at hA
      · rename_i h
        cases hA
        rw [class_letter L (h.imp (fun h => ⟨Char.le_trans h.1 h1, Char.le_trans h2 h.2⟩) fun h => ⟨Char.le_trans h.1 h1, Char.le_trans h2 h.2⟩)]
        exact .one (by decide)
      · cases hA
  | @uni a q x p z h =>
    intro A hA hw
    cases q with
    | whiteSpace =>
      cases hA
      rw [show classesOf u [x] = [] by simp [classesOf, h]]
      exact .blank
    | xidStart =>
      cases hA
      rw [class_start L h]
      exact .one (by decide)
    | xidContinue =>
      cases hA
      obtain ⟨h1, h2⟩ := class_cont L h
      rw [h1]
      rcases h2 with h2 | h2 <;> rw [h2] <;> exact .one (by decide)
  | any => intro A hA _; cases hA
  | soi => intro A hA _; cases hA; exact .blank
  | eoi => intro A hA _; cases hA; exact .blank
  | peek => intro A hA _; cases hA
  | pop => intro A hA _; cases hA

/-- What the analysis says holds of accepted texts. -/
theorem shape_accepted (L : Lawful u) {F : List Str} {T : R → Option Shape} {P : List Nat}
    (hF : ∀ f ∈ opaqueMarks, f ∈ F) (hT : ∀ r, ruleOk F T P r = true) {A : Shape} (hA : T .program = some A) {input : Str}
    {l : List (Pair R)} (h : smParse u .program input = .pairs l) (hw : Without F input) : Has P A (classesOf u input) :=
  shape_sound L hF hT (C34_derivation u input l h) A hA hw

end
end SM.Props
