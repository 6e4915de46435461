import Verif.Ast.Display
/-
C18: printing operator expressions.
-/
namespace SM.Props
open SM

/-- An expression headed by an infix operator binding less tightly than `p`. -/
def LowerInfix (p : Nat) (a : AST) : Prop :=
  ∃ s ps o q, a = .function s ps ∧ s.kind = .infix o q ∧ q < p

open Classical in
/-- An operand as it appears in an infix expression of precedence `p`. -/
noncomputable def operandText (p : Nat) (a : AST) (t : Str) : Str :=
  if LowerInfix p a then ['('] ++ t ++ [')'] else t

/-- What it means for expression `a` to print as text `t`. -/
inductive Prints : AST → Str → Prop
  | true : Prints (.boolean true) c!"true"
  | false : Prints (.boolean false) c!"false"
  | integer (n : Int) : Prints (.integer n) (intStr n)
  | decimal (d : Dec) : Prints (.decimal d) (decStr d)
  | symbol (s : Sym) : Prints (.symbol s) s.display
  | string (s : Str) : Prints (.string s) s
  /-- A prefix operator with one operand: the operator, then the operand, never parenthesised. -/
  | prefix {s : Sym} {o : Str} {a : AST} {t : Str} {pos : Position} :
      s.kind = .prefix o → Prints a t → Prints (.function s [.mk [a] [] pos]) (o ++ t)
  /-- A suffix operator with one operand. -/
  | suffix {s : Sym} {o : Str} {a : AST} {t : Str} {pos : Position} :
      s.kind = .suffix o → Prints a t → Prints (.function s [.mk [a] [] pos]) (t ++ o)
  /-- An infix operator with two or more operands. -/
  | infix {s : Sym} {o : Str} {p : Nat} {as : List AST} {ts : List Str} {pos : Position} :
      s.kind = .infix o p → 2 ≤ as.length → as.length = ts.length →
      (∀ x ∈ as.zip ts, Prints x.1 x.2) →
      Prints (.function s [.mk as [] pos]) (join o (List.zipWith (operandText p) as ts))
  /-- Operators with keyword arguments, several argument groups or the wrong number of operands
  print as nothing. -/
  | malformed {s : Sym} {ps : List Param} :
      (∃ o, (s.kind = .prefix o ∨ s.kind = .suffix o) ∧ ¬ ∃ a pos, ps = [.mk [a] [] pos]) ∨
      (∃ o p, s.kind = .infix o p ∧ ¬ ∃ as pos, 2 ≤ as.length ∧ ps = [.mk as [] pos]) →
      Prints (.function s ps) []

/-- All precedences are `u8` values. -/
def PrecOk (s : Sym) : Prop := ∀ o p, s.kind = .infix o p → p ≤ 255

theorem precedence_lt {p : Nat} (hp : p ≤ 255) (a : AST) : a.precedence < p ↔ LowerInfix p a := by
  constructor
  · intro h
    cases a with
    | function s ps =>
      simp only [AST.precedence] at h
      cases hk : s.kind with
      | «infix» o q => rw [hk] at h; exact ⟨s, ps, o, q, rfl, hk, h⟩
      | normal => rw [hk] at h; simp at h; omega
      | «alias» => rw [hk] at h; simp at h; omega
      | «prefix» o => rw [hk] at h; simp at h; omega
      | suffix o => rw [hk] at h; simp at h; omega
    | _ => simp [AST.precedence] at h; omega
  · rintro ⟨s, ps, o, q, rfl, hk, hq⟩
    simp [AST.precedence, hk, hq]

/-- All precedences inside an expression are `u8` values. -/
inductive PrecsOk : AST → Prop
  | function {s : Sym} {ps : List Param} : PrecOk s →
      (∀ p ∈ ps, ∀ a ∈ p.arguments, PrecsOk a) → PrecsOk (.function s ps)
  | atom {a : AST} : (∀ s ps, a ≠ .function s ps) → PrecsOk a

theorem PrecsOk.inv {s : Sym} {ps : List Param} (h : PrecsOk (.function s ps)) :
    PrecOk s ∧ ∀ p ∈ ps, ∀ a ∈ p.arguments, PrecsOk a := by
  cases h with
  | function h1 h2 => exact ⟨h1, h2⟩
  | atom h => exact absurd rfl (h s ps)

mutual
theorem display_prints : (a : AST) → PrecsOk a → ∀ t, (a.display = some t ↔ Prints a t)
  | .empty, _, t => by
    simp only [AST.display]
    constructor
    · intro h; simp at h
    · intro h; cases h
  | .program _, _, t => by
    simp only [AST.display]
    constructor
    · intro h; simp at h
    · intro h; cases h
  | .boolean b, _, t => by
    simp only [AST.display]
    constructor
    · intro h
      cases b
      · simp at h; subst h; exact .false
      · simp at h; subst h; exact .true
    · intro h; cases h <;> rfl
  | .integer n, _, t => by
    simp only [AST.display]
    constructor
    · intro h; simp at h; subst h; exact .integer n
    · intro h; cases h; rfl
  | .decimal n, _, t => by
    simp only [AST.display]
    constructor
    · intro h; simp at h; subst h; exact .decimal n
    · intro h; cases h; rfl
  | .symbol n, _, t => by
    simp only [AST.display]
    constructor
    · intro h; simp at h; subst h; exact .symbol n
    · intro h; cases h; rfl
  | .string n, _, t => by
    simp only [AST.display]
    constructor
    · intro h; simp at h; subst h; exact .string _
    · intro h; cases h; rfl
  | .function s ps, ho, t => by
    have ⟨hs, hps⟩ := ho.inv
    simp only [AST.display]
    cases hk : s.kind with
    | normal =>
      constructor
      · intro h; simp at h
      · intro h
        cases h with
        | «prefix» h => rw [hk] at h; cases h
        | suffix h => rw [hk] at h; cases h
        | «infix» h => rw [hk] at h; cases h
        | malformed h =>
          rcases h with ⟨o, h | h, _⟩ | ⟨o, p, h, _⟩ <;> (rw [hk] at h; cases h)
    | «alias» =>
      constructor
      · intro h; simp at h
      · intro h
        cases h with
        | «prefix» h => rw [hk] at h; cases h
        | suffix h => rw [hk] at h; cases h
        | «infix» h => rw [hk] at h; cases h
        | malformed h =>
          rcases h with ⟨o, h | h, _⟩ | ⟨o, p, h, _⟩ <;> (rw [hk] at h; cases h)
    | «prefix» o =>
      have := unary_prints ps hps o [] t
      simp only
      rw [this]
      constructor
      · rintro (⟨a, pos, rfl, t', ht', rfl⟩ | ⟨hn, rfl⟩)
        · simpa using Prints.prefix hk ht'
        · exact .malformed (.inl ⟨o, .inl hk, hn⟩)
      · intro h
        cases h with
        | «prefix» h ht =>
          rw [hk] at h; injection h with h; subst h
          exact .inl ⟨_, _, rfl, _, ht, by simp⟩
        | suffix h => rw [hk] at h; cases h
        | «infix» h => rw [hk] at h; cases h
        | malformed h =>
          rcases h with ⟨o', h, hn⟩ | ⟨o', p, h, _⟩
          · exact .inr ⟨hn, rfl⟩
          · rw [hk] at h; cases h
    | suffix o =>
      have := unary_prints ps hps [] o t
      simp only
      rw [this]
      constructor
      · rintro (⟨a, pos, rfl, t', ht', rfl⟩ | ⟨hn, rfl⟩)
        · simpa using Prints.suffix hk ht'
        · exact .malformed (.inl ⟨o, .inr hk, hn⟩)
      · intro h
        cases h with
        | suffix h ht =>
          rw [hk] at h; injection h with h; subst h
          exact .inl ⟨_, _, rfl, _, ht, by simp⟩
        | «prefix» h => rw [hk] at h; cases h
        | «infix» h => rw [hk] at h; cases h
        | malformed h =>
          rcases h with ⟨o', h, hn⟩ | ⟨o', p, h, _⟩
          · exact .inr ⟨hn, rfl⟩
          · rw [hk] at h; cases h
    | «infix» o p =>
      have := infix_prints ps hps o p (hs o p hk) t
      simp only
      rw [this]
      constructor
      · rintro (⟨as, pos, hl, rfl, ts, hts, hall, rfl⟩ | ⟨hn, rfl⟩)
        · exact Prints.infix hk hl hts hall
        · exact .malformed (.inr ⟨o, p, hk, hn⟩)
      · intro h
        cases h with
        | suffix h => rw [hk] at h; cases h
        | «prefix» h => rw [hk] at h; cases h
        | «infix» h hl hts hall =>
          rw [hk] at h; injection h with h h'; subst h; subst h'
          exact .inl ⟨_, _, hl, rfl, _, hts, hall, rfl⟩
        | malformed h =>
          rcases h with ⟨o', h | h, hn⟩ | ⟨o', p, h, hn⟩
          · rw [hk] at h; cases h
          · rw [hk] at h; cases h
          · exact .inr ⟨hn, rfl⟩
theorem unary_prints : (ps : List Param) → (∀ p ∈ ps, ∀ a ∈ p.arguments, PrecsOk a) →
    ∀ before after t, (displayUnary before after ps = some t ↔
      (∃ a pos, ps = [.mk [a] [] pos] ∧ ∃ t', Prints a t' ∧ t = before ++ t' ++ after) ∨
      ((¬ ∃ a pos, ps = [.mk [a] [] pos]) ∧ t = []))
  | [], _, before, after, t => by simp [displayUnary, eq_comm]
  | .mk as os pos :: p' :: ps, _, before, after, t => by
    cases os <;> simp [displayUnary, eq_comm]
  | [.mk as [] pos], h, before, after, t => by
    have := one_prints as (h _ List.mem_cons_self) before after t
    simp only [displayUnary]
    rw [this]
    simp
  | [.mk as (o :: os) pos], _, before, after, t => by
    simp [displayUnary, eq_comm]
theorem one_prints : (as : List AST) → (∀ a ∈ as, PrecsOk a) →
    ∀ before after t, (displayOne before after as = some t ↔
      (∃ a, as = [a] ∧ ∃ t', Prints a t' ∧ t = before ++ t' ++ after) ∨
      ((¬ ∃ a, as = [a]) ∧ t = []))
  | [], _, before, after, t => by simp [displayOne, eq_comm]
  | [a], h, before, after, t => by
    have := display_prints a (h a List.mem_cons_self)
    simp only [displayOne]
    cases hd : a.display with
    | none =>
      simp [hd] at this
      simp [this]
    | some t' =>
      have h1 := (this t').1 hd
      simp
      constructor
      · rintro rfl; exact ⟨t', h1, rfl⟩
      · rintro ⟨t2, h2, rfl⟩
        rw [← this, hd] at h2
        injection h2 with h2
        rw [h2]
  | a :: b :: as, _, before, after, t => by simp [displayOne, eq_comm]
theorem infix_prints : (ps : List Param) → (∀ p ∈ ps, ∀ a ∈ p.arguments, PrecsOk a) →
    ∀ o p, p ≤ 255 → ∀ t, (displayInfix o p ps = some t ↔
      (∃ as pos, 2 ≤ as.length ∧ ps = [.mk as [] pos] ∧ ∃ ts, as.length = ts.length ∧
        (∀ x ∈ as.zip ts, Prints x.1 x.2) ∧ t = join o (List.zipWith (operandText p) as ts)) ∨
      ((¬ ∃ as pos, 2 ≤ as.length ∧ ps = [.mk as [] pos]) ∧ t = []))
  | [], _, o, p, hp, t => by simp [displayInfix, eq_comm]
  | .mk as os pos :: p' :: ps, _, o, p, hp, t => by
    cases os <;> simp [displayInfix, eq_comm]
  | [.mk as (o' :: os) pos], _, o, p, hp, t => by
    simp [displayInfix, eq_comm]
  | [.mk as [] pos], h, o, p, hp, t => by
    have key := args_prints as (h _ List.mem_cons_self) p hp
    simp only [displayInfix]
    by_cases hl : as.length > 1
    · simp only [if_pos hl]
      cases hd : displayArgs p as with
      | none =>
        simp only [hd, reduceCtorEq, false_iff, not_exists, not_and] at key
        constructor
        · intro h; simp at h
        · rintro (⟨as', pos', _, he, ts, h1, h2, _⟩ | ⟨hn, _⟩)
          · injection he with he _; injection he with he _; subst he
            exact absurd rfl (key _ ts h1 h2)
          · exact absurd ⟨as, pos, hl, rfl⟩ hn
      | some v =>
        obtain ⟨ts, h1, h2, h3⟩ := (key v).1 hd
        constructor
        · intro h; simp at h; subst h; subst h3
          exact .inl ⟨as, pos, hl, rfl, ts, h1, h2, rfl⟩
        · rintro (⟨as', pos', _, he, ts', h1', h2', rfl⟩ | ⟨hn, _⟩)
          · injection he with he _; injection he with he _; subst he
            have := (key _).2 ⟨ts', h1', h2', rfl⟩
            rw [hd] at this
            injection this with this
            rw [this]
          · exact absurd ⟨as, pos, hl, rfl⟩ hn
    · simp only [if_neg hl]
      constructor
      · intro h; simp at h; subst h
        refine .inr ⟨?_, rfl⟩
        rintro ⟨as', pos', hl', he⟩
        injection he with he _; injection he with he _; subst he
        exact hl hl'
      · rintro (⟨as', pos', hl', he, _⟩ | ⟨_, rfl⟩)
        · injection he with he _; injection he with he _; subst he
          exact absurd hl' hl
        · rfl
theorem args_prints : (as : List AST) → (∀ a ∈ as, PrecsOk a) → ∀ p, p ≤ 255 →
    ∀ v, (displayArgs p as = some v ↔ ∃ ts, as.length = ts.length ∧
      (∀ x ∈ as.zip ts, Prints x.1 x.2) ∧ v = List.zipWith (operandText p) as ts)
  | [], _, p, hp, v => by
    simp only [displayArgs]
    constructor
    · intro h; simp at h; subst h; exact ⟨[], rfl, by simp, rfl⟩
    · rintro ⟨ts, _, _, rfl⟩; simp
  | a :: as, h, p, hp, v => by
    have ha := display_prints a (h a List.mem_cons_self)
    have has := args_prints as (fun b hb => h b (List.mem_cons_of_mem _ hb)) p hp
    have hw : ∀ t, (if a.precedence < p then ['('] ++ t ++ [')'] else t) = operandText p a t := by
      intro t
      unfold operandText
      by_cases hq : a.precedence < p
      · rw [if_pos hq, if_pos ((precedence_lt hp a).1 hq)]
      · rw [if_neg hq, if_neg (fun hq' => hq ((precedence_lt hp a).2 hq'))]
    simp only [displayArgs, hw]
    cases hd : a.display with
    | none =>
      simp only [reduceCtorEq, false_iff]
      rintro ⟨ts, hl, hall, _⟩
      cases ts with
      | nil => simp at hl
      | cons t ts =>
        have := hall (a, t) (by simp)
        rw [← ha, hd] at this
        cases this
    | some t =>
      simp only
      cases hds : displayArgs p as with
      | none =>
        simp only [reduceCtorEq, false_iff]
        rintro ⟨ts, hl, hall, _⟩
        cases ts with
        | nil => simp at hl
        | cons t ts =>
          have := (has _).2 ⟨ts, by simpa using hl, fun x hx => hall x (by simp [hx]), rfl⟩
          rw [hds] at this
          cases this
      | some v' =>
        obtain ⟨ts, h1, h2, h3⟩ := (has v').1 hds
        constructor
        · intro h; simp at h; subst h; subst h3
          refine ⟨t :: ts, by simp [h1], ?_, rfl⟩
          intro x hx
          simp at hx
          rcases hx with rfl | hx
          · exact (ha t).1 hd
          · exact h2 x hx
        · rintro ⟨ts', hl, hall, rfl⟩
          cases ts' with
          | nil => simp at hl
          | cons t' ts' =>
            have e1 := hall (a, t') (by simp)
            rw [← ha, hd] at e1
            injection e1 with e1
            have e2 := (has _).2 ⟨ts', by simpa using hl, fun x hx => hall x (by simp [hx]), rfl⟩
            rw [hds] at e2
            injection e2 with e2
            simp [e1, e2]
end

/-- **C18**.  The printed form of every expression is the one the rules of `Prints` prescribe: infix
operands are joined with the operator and parenthesised exactly when they are infix expressions of
strictly lower precedence; prefix and suffix operators add no parentheses.  Conversely, whatever the
rules give is printed (and if they give nothing, printing panics). -/
theorem C18_display_iff_prints (a : AST) (h : PrecsOk a) (t : Str) :
    a.display = some t ↔ Prints a t := display_prints a h t

/-- Operators used below, as the parser builds them (`ops.rs`). -/
private def sAdd : Sym := ⟨[c!"std", c!"infix"], c!"add", .infix c!"+" 80, 0⟩
private def sTimes : Sym := ⟨[c!"std", c!"infix"], c!"times", .infix c!"*" 140, 0⟩
private def sFact : Sym := ⟨[c!"std", c!"suffix"], c!"factorial", .suffix c!"!", 0⟩
private def call (s : Sym) (as : List AST) : AST := .function s [.mk as [] Position.dflt]

/-- `(1+2)*3` keeps its parentheses, `1*2+3` needs none, and `(1+2)!` loses them. -/
example : (call sTimes [call sAdd [.integer 1, .integer 2], .integer 3]).display = some c!"(1+2)*3" := by
  decide
example : (call sAdd [call sTimes [.integer 1, .integer 2], .integer 3]).display = some c!"1*2+3" := by
  decide
example : (call sFact [call sAdd [.integer 1, .integer 2]]).display = some c!"1+2!" := by decide

/-- The patterns by which `displayUnary` and `displayInfix` take parameters apart are the tests of the code. -/
theorem C18_unary_pattern (ps : List Param) :
    (∃ a pos, ps = [.mk [a] [] pos]) ↔ ∃ q, ps = [q] ∧ q.isUnary = true := by
  constructor
  · rintro ⟨a, pos, rfl⟩
    exact ⟨_, rfl, rfl⟩
  · rintro ⟨⟨as, os, pos⟩, rfl, h⟩
    simp only [Param.isUnary, Param.arguments, Param.options, Bool.and_eq_true, beq_iff_eq, List.length_eq_one_iff,
      List.length_eq_zero_iff] at h
    obtain ⟨⟨a, rfl⟩, rfl⟩ := h
    exact ⟨a, pos, rfl⟩

theorem C18_multiary_pattern (ps : List Param) :
    (∃ a b l pos, ps = [.mk (a :: b :: l) [] pos]) ↔ ∃ q, ps = [q] ∧ q.isMultiary = true := by
  constructor
  · rintro ⟨a, b, l, pos, rfl⟩
    exact ⟨_, rfl, by simp [Param.isMultiary, Param.arguments, Param.options]⟩
  · rintro ⟨⟨as, os, pos⟩, rfl, h⟩
    simp only [Param.isMultiary, Param.arguments, Param.options, Bool.and_eq_true, beq_iff_eq, decide_eq_true_eq,
      List.length_eq_zero_iff] at h
    obtain ⟨h, rfl⟩ := h
    match as, h with
    | a :: b :: l, _ => exact ⟨a, b, l, pos, rfl⟩

end SM.Props
