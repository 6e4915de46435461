import Verif.Export.Tex
import Mathlib.Tactic.Common
/-
C28, C29, C30: TeX rendering.
-/
namespace SM.Props
open SM

/-! ### C30 -/

theorem C30_expression_height (a : AST) : a.height ≤ 1 := by cases a <;> simp [AST.height]

theorem maxHeight_le (l : List AST) : maxHeight l ≤ 1 := by
  induction l with
  | nil => simp [maxHeight]
  | cons a l ih =>
    have := C30_expression_height a
    simp only [maxHeight]; omega

/-- **C30**.  No argument list is higher than 1. -/
theorem C30_parameter_height (p : Param) : p.height ≤ 1 := by
  unfold Param.height
  split
  · exact Nat.le_refl 1
  · exact maxHeight_le _

/-- **C30** (consequence).  A rendered bracket-omitting argument list starts with `(` or a space and,
when it starts with `(`, ends with `)`: the stretched delimiters `\left(` and the unbalanced `\left)` are
never emitted. -/
theorem C30_no_stretched_delimiters (ps : List Param) (t : Str) (h : texOmit ps = some t) :
    (∃ u, t = ' ' :: u) ∨ ∃ u, t = '(' :: u ++ [')'] := by
  match ps, h with
  | .mk args os pos :: _, h =>
    have hh := C30_parameter_height (.mk args os pos)
    have hh' : ¬ (Param.mk args os pos).height > 1 := by omega
    simp only [texOmit, hh', if_false] at h
    split at h
    · injection h with h; subst h; exact .inr ⟨[], rfl⟩
    · split at h
      · cases h
      · split at h
        · cases h
        · split at h
          · injection h with h; subst h; exact .inl ⟨_, rfl⟩
          · injection h with h; subst h; exact .inr ⟨_, rfl⟩
    · split at h
      · cases h
      · injection h with h; subst h; exact .inr ⟨_, rfl⟩

/-! ### C28 -/

/-- Expressions that cannot be printed (printing them panics). -/
inductive Unprintable : AST → Prop
  | empty : Unprintable .empty
  | program (l : List AST) : Unprintable (.program l)
  | call {s : Sym} {ps : List Param} : s.kind = .normal ∨ s.kind = .alias → Unprintable (.function s ps)
  | unary {s : Sym} {o : Str} {a : AST} {pos : Position} : s.kind = .prefix o ∨ s.kind = .suffix o →
      Unprintable a → Unprintable (.function s [.mk [a] [] pos])
  | infix {s : Sym} {o : Str} {p : Nat} {as : List AST} {a : AST} {pos : Position} :
      s.kind = .infix o p → 2 ≤ as.length → a ∈ as → Unprintable a →
      Unprintable (.function s [.mk as [] pos])

mutual
theorem display_none_iff : (a : AST) → (a.display = none ↔ Unprintable a)
  | .empty => by simp [AST.display, Unprintable.empty]
  | .program l => by simp [AST.display, Unprintable.program]
  | .boolean b => by
    refine iff_of_false (by simp [AST.display]) ?_
    intro h; cases h
  | .integer n => by
    refine iff_of_false (by simp [AST.display]) ?_
    intro h; cases h
  | .decimal n => by
    refine iff_of_false (by simp [AST.display]) ?_
    intro h; cases h
  | .symbol n => by
    refine iff_of_false (by simp [AST.display]) ?_
    intro h; cases h
  | .string n => by
    refine iff_of_false (by simp [AST.display]) ?_
    intro h; cases h
  | .function s ps => by
    simp only [AST.display]
    cases hk : s.kind with
    | normal => exact iff_of_true rfl (.call (.inl hk))
    | «alias» => exact iff_of_true rfl (.call (.inr hk))
    | «prefix» o =>
      simp only [unary_none_iff ps]
      constructor
      · rintro ⟨a, pos, rfl, ha⟩; exact .unary (.inl hk) ha
      · intro h
        cases h with
        | call h => rcases h with h | h <;> (rw [hk] at h; cases h)
        | unary _ ha => exact ⟨_, _, rfl, ha⟩
        | «infix» h => rw [hk] at h; cases h
    | suffix o =>
      simp only [unary_none_iff ps]
      constructor
      · rintro ⟨a, pos, rfl, ha⟩; exact .unary (.inr hk) ha
      · intro h
        cases h with
        | call h => rcases h with h | h <;> (rw [hk] at h; cases h)
        | unary _ ha => exact ⟨_, _, rfl, ha⟩
        | «infix» h => rw [hk] at h; cases h
    | «infix» o p =>
      simp only [infix_none_iff ps]
      constructor
      · rintro ⟨as, pos, rfl, hl, a, hm, ha⟩; exact .infix hk hl hm ha
      · intro h
        cases h with
        | call h => rcases h with h | h <;> (rw [hk] at h; cases h)
        | unary h => rcases h with h | h <;> (rw [hk] at h; cases h)
        | «infix» _ hl hm ha => exact ⟨_, _, rfl, hl, _, hm, ha⟩
theorem unary_none_iff : (ps : List Param) → ∀ {b c : Str}, (displayUnary b c ps = none ↔
    ∃ a pos, ps = [.mk [a] [] pos] ∧ Unprintable a)
  | [], b, c => by simp [displayUnary]
  | [.mk as [] pos], b, c => by
    simp only [displayUnary, one_none_iff as]
    simp
  | [.mk as (o :: os) pos], b, c => by simp [displayUnary]
  | .mk as os pos :: q :: ps, b, c => by cases os <;> simp [displayUnary]
theorem one_none_iff : (as : List AST) → ∀ {b c : Str}, (displayOne b c as = none ↔
    ∃ a, as = [a] ∧ Unprintable a)
  | [], b, c => by simp [displayOne]
  | [a], b, c => by
    have := display_none_iff a
    simp only [displayOne]
    cases hd : a.display <;> simp_all
  | a :: b :: as, c, d => by simp [displayOne]
theorem infix_none_iff : (ps : List Param) → ∀ {o : Str} {p : Nat}, (displayInfix o p ps = none ↔
    ∃ as pos, ps = [.mk as [] pos] ∧ 2 ≤ as.length ∧ ∃ a ∈ as, Unprintable a)
  | [], o, p => by simp [displayInfix]
  | [.mk as [] pos], o, p => by
    have := args_none_iff as (p := p)
    simp only [displayInfix]
    split
    · rename_i hl
      cases hd : displayArgs p as with
      | none =>
        have h2 := this.1 hd
        exact iff_of_true rfl ⟨as, pos, rfl, hl, h2⟩
      | some v =>
        refine iff_of_false (by simp) ?_
        rintro ⟨as', pos', he, _, ha⟩
        injection he with he _; injection he with he _; subst he
        rw [this.2 ha] at hd; cases hd
    · rename_i hl
      refine iff_of_false (by simp) ?_
      rintro ⟨as', pos', he, hl', _⟩
      injection he with he _; injection he with he _; subst he
      omega
  | [.mk as (o' :: os) pos], o, p => by simp [displayInfix]
  | .mk as os pos :: q :: ps, o, p => by cases os <;> simp [displayInfix]
theorem args_none_iff : (as : List AST) → ∀ {p : Nat}, (displayArgs p as = none ↔
    ∃ a ∈ as, Unprintable a)
  | [], p => by simp [displayArgs]
  | a :: as, p => by
    have h1 := display_none_iff a
    have h2 := args_none_iff as (p := p)
    simp only [displayArgs]
    cases hd : a.display with
    | none => simp [h1.1 hd]
    | some t =>
      have h3 : ¬ Unprintable a := fun h => by rw [h1.2 h] at hd; cases hd
      cases hds : displayArgs p as with
      | none =>
        obtain ⟨b, hb, hu⟩ := h2.1 hds
        exact iff_of_true rfl ⟨b, List.mem_cons_of_mem _ hb, hu⟩
      | some v =>
        refine iff_of_false (by simp) ?_
        rintro ⟨b, hb, hu⟩
        rcases List.mem_cons.1 hb with rfl | hb
        · exact h3 hu
        · rw [h2.2 ⟨b, hb, hu⟩] at hds; cases hds
end

/-- The namespaces of operators. -/
def nsPrefix : List Str := [c!"std", c!"prefix"]
def nsInfix : List Str := [c!"std", c!"infix"]
def nsSuffix : List Str := [c!"std", c!"suffix"]

/-- Names whose first argument list is rendered specially. -/
def SpecialName (n : Str) : Prop := n ∈ trigNames ∨ n ∈ operatorNames ∨ n = c!"List"

/-- Expressions whose TeX rendering panics. -/
inductive TexPanics : AST → Prop
  | program (l : List AST) : TexPanics (.program l)
  /-- Every prefix or suffix operator expression. -/
  | operator {s : Sym} {ps : List Param} : s.nameSpace = nsPrefix ∨ s.nameSpace = nsSuffix →
      TexPanics (.function s ps)
  /-- An infix operator without two operands. -/
  | infixArity {s : Sym} {ps : List Param} : s.nameSpace = nsInfix →
      (∀ p ∈ ps.head?, p.arguments.length < 2) → TexPanics (.function s ps)
  /-- An infix operator one of whose first two operands cannot be printed (e.g. an ordinary call). -/
  | infixOperand {s : Sym} {a b c : AST} {as : List AST} {os : List (AST × AST)} {pos : Position}
      {ps : List Param} : s.nameSpace = nsInfix → c ∈ [a, b] → Unprintable c →
      TexPanics (.function s (.mk (a :: b :: as) os pos :: ps))
  /-- A trigonometric function or list without an argument list. -/
  | noArguments {s : Sym} : s.nameSpace ∉ [nsPrefix, nsInfix, nsSuffix] → SpecialName s.name →
      TexPanics (.function s [])
  /-- The empty list. -/
  | emptyList {s : Sym} {os : List (AST × AST)} {pos : Position} {ps : List Param} :
      s.nameSpace ∉ [nsPrefix, nsInfix, nsSuffix] → s.name = c!"List" →
      TexPanics (.function s (.mk [] os pos :: ps))
  /-- An argument that panics: in the first argument list, or in any list for ordinary functions. -/
  | argument {s : Sym} {p : Param} {a : AST} {ps : List Param} :
      s.nameSpace ∉ [nsPrefix, nsInfix, nsSuffix] →
      (if s.name ∈ trigNames ∨ s.name ∈ operatorNames ∨ s.name = c!"List" then ps.head? = some p
        else p ∈ ps) →
      a ∈ p.arguments → TexPanics a → TexPanics (.function s ps)

theorem infixTex_none_iff (s : Sym) (p : Param) : infixTex s p = none ↔
    p.arguments.length < 2 ∨ ∃ a b as c, p.arguments = a :: b :: as ∧ c ∈ [a, b] ∧ Unprintable c := by
  obtain ⟨args, os, pos⟩ := p
  simp only [infixTex, Param.arguments]
  match args with
  | [] => simp
  | [a] => simp
  | a :: b :: as =>
    have ha := display_none_iff a
    have hb := display_none_iff b
    have key : (a.display = none ∨ b.display = none) ↔
        ((a :: b :: as).length < 2 ∨ ∃ a' b' as' c, a :: b :: as = a' :: b' :: as' ∧ c ∈ [a', b'] ∧
          Unprintable c) := by
      rw [ha, hb]
      constructor
      · rintro (h | h)
        · exact .inr ⟨a, b, as, a, rfl, by simp, h⟩
        · exact .inr ⟨a, b, as, b, rfl, by simp, h⟩
      · rintro (h | ⟨a', b', as', c, he, hc, h⟩)
        · simp at h; omega
        · injection he with h1 h2; injection h2 with h2 h3; subst h1; subst h2
          simp at hc
          rcases hc with rfl | rfl
          · exact .inl h
          · exact .inr h
    rw [← key]
    simp only
    split <;> cases a.display <;> cases b.display <;> simp

theorem width_none {a : AST} (h : a.width = none) : TexPanics a := by
  cases a with
  | function s ps =>
    simp only [AST.width] at h
    split at h
    · exact .operator (.inl ‹_›)
    split at h
    · cases ps with
      | nil => exact .infixArity ‹_› (by simp)
      | cons q ps => cases h
    split at h
    · exact .operator (.inr ‹_›)
    · cases h
  | _ => cases h

mutual
theorem toTex_none_iff : (a : AST) → (a.toTex = none ↔ TexPanics a)
  | .empty => iff_of_false (by simp [AST.toTex]) (by intro h; cases h)
  | .program l => iff_of_true (by simp [AST.toTex]) (.program l)
  | .integer l => iff_of_false (by simp [AST.toTex]) (by intro h; cases h)
  | .decimal l => iff_of_false (by simp [AST.toTex]) (by intro h; cases h)
  | .symbol l => iff_of_false (by simp [AST.toTex]) (by intro h; cases h)
  | .string l => iff_of_false (by simp [AST.toTex]) (by intro h; cases h)
  | .boolean l => iff_of_false (by simp [AST.toTex]) (by intro h; cases h)
  | .function s ps => by
    have ho := texOmit_none_iff ps
    have hli := texList_none_iff ps
    have hps := texParams_none_iff ps
    simp only [AST.toTex]
    by_cases h1 : s.nameSpace = [c!"std", c!"prefix"]
    · exact iff_of_true (by rw [if_pos h1]) (.operator (.inl h1))
    rw [if_neg h1]
    by_cases h2 : s.nameSpace = [c!"std", c!"infix"]
    · rw [if_pos h2]
      have inv : TexPanics (.function s ps) → (∀ p ∈ ps.head?, p.arguments.length < 2) ∨
          ∃ a b as os pos ps' c, ps = .mk (a :: b :: as) os pos :: ps' ∧ c ∈ [a, b] ∧ Unprintable c := by
        intro h
        cases h with
        | operator h =>
          rcases h with h | h
          · exact absurd h h1
          · rw [h2] at h; exact absurd h (by decide)
        | infixArity _ h => exact .inl h
        | infixOperand _ hc hu => exact .inr ⟨_, _, _, _, _, _, _, rfl, hc, hu⟩
        | noArguments h => rw [h2] at h; exact absurd (by decide) h
        | emptyList h => rw [h2] at h; exact absurd (by decide) h
        | argument h => rw [h2] at h; exact absurd (by decide) h
      cases ps with
      | nil => exact iff_of_true rfl (.infixArity h2 (by simp))
      | cons q ps =>
        simp only [infixTex_none_iff]
        constructor
        · rintro (h | ⟨a, b, as, c, he, hc, hu⟩)
          · exact .infixArity h2 (by simpa using h)
          · obtain ⟨args, os, pos⟩ := q
            simp only [Param.arguments] at he
            subst he
            exact .infixOperand h2 hc hu
        · intro h
          rcases inv h with h | ⟨a, b, as, os, pos, ps', c, he, hc, hu⟩
          · exact .inl (h q (by simp))
          · injection he with he _; subst he
            exact .inr ⟨a, b, as, c, rfl, hc, hu⟩
    rw [if_neg h2]
    by_cases h3 : s.nameSpace = [c!"std", c!"suffix"]
    · exact iff_of_true (by rw [if_pos h3]) (.operator (.inr h3))
    rw [if_neg h3]
    have hns : s.nameSpace ∉ [nsPrefix, nsInfix, nsSuffix] := by simp [nsPrefix, nsInfix, nsSuffix, h1, h2, h3]
    -- inversion for ordinary namespaces
    have inv : TexPanics (.function s ps) → (ps = [] ∧ SpecialName s.name) ∨
        (s.name = c!"List" ∧ ∃ os pos ps', ps = .mk [] os pos :: ps') ∨
        ∃ p a, (if s.name ∈ trigNames ∨ s.name ∈ operatorNames ∨ s.name = c!"List"
          then ps.head? = some p else p ∈ ps) ∧ a ∈ p.arguments ∧ TexPanics a := by
      intro h
      cases h with
      | operator h =>
        rcases h with h | h
        · exact absurd h h1
        · exact absurd h h3
      | infixArity h => exact absurd h h2
      | infixOperand h => exact absurd h h2
      | noArguments _ h => exact .inl ⟨rfl, h⟩
      | emptyList _ h => exact .inr (.inl ⟨h, _, _, _, rfl⟩)
      | argument _ h ha hp => exact .inr (.inr ⟨_, _, h, ha, hp⟩)
    by_cases ht : s.name ∈ trigNames ∨ s.name ∈ operatorNames
    · -- both groups reduce to the first argument list
      have red : ((if s.name ∈ trigNames then
            match texOmit ps with
            | none => none
            | some t => some (c!"\\\\" ++ s.display ++ t)
          else if s.name ∈ operatorNames then
            match texOmit ps with
            | none => none
            | some t => some (c!"\\\\operatorname{" ++ s.display ++ c!"}" ++ t)
          else if s.name = c!"List" then texList ps
          else
            match texParams ps with
            | none => none
            | some ts => some (c!"\\\\operatorname{" ++ s.name ++ c!"}" ++ join [] ts)) = none) ↔
          texOmit ps = none := by
        by_cases ht1 : s.name ∈ trigNames
        · rw [if_pos ht1]; cases texOmit ps <;> simp
        · have ht2 : s.name ∈ operatorNames := ht.resolve_left ht1
          rw [if_neg ht1, if_pos ht2]; cases texOmit ps <;> simp
      refine red.trans (ho.trans ?_)
      have hl : s.name ≠ c!"List" := by
        intro he; rw [he] at ht; exact absurd ht (by decide)
      have hif : s.name ∈ trigNames ∨ s.name ∈ operatorNames ∨ s.name = c!"List" := by
        rcases ht with h | h
        · exact .inl h
        · exact .inr (.inl h)
      constructor
      · rintro (rfl | ⟨p, a, hp, ha, hpan⟩)
        · exact .noArguments hns hif
        · exact .argument hns (by rw [if_pos hif]; exact hp) ha hpan
      · intro h
        rcases inv h with ⟨h, _⟩ | ⟨h, _⟩ | ⟨p, a, hp, ha, hpan⟩
        · exact .inl h
        · exact absurd h hl
        · rw [if_pos hif] at hp
          exact .inr ⟨p, a, hp, ha, hpan⟩
    · have ht1 : s.name ∉ trigNames := fun h => ht (.inl h)
      have ht2 : s.name ∉ operatorNames := fun h => ht (.inr h)
      rw [if_neg ht1, if_neg ht2]
      by_cases hl : s.name = c!"List"
      · rw [if_pos hl]
        have hif : s.name ∈ trigNames ∨ s.name ∈ operatorNames ∨ s.name = c!"List" := .inr (.inr hl)
        rw [hli]
        constructor
        · rintro (rfl | ⟨os, pos, ps', rfl⟩ | ⟨p, a, hp, ha, hpan⟩)
          · exact .noArguments hns hif
          · exact .emptyList hns hl
          · exact .argument hns (by rw [if_pos hif]; exact hp) ha hpan
        · intro h
          rcases inv h with ⟨h, _⟩ | ⟨_, h⟩ | ⟨p, a, hp, ha, hpan⟩
          · exact .inl h
          · exact .inr (.inl h)
          · rw [if_pos hif] at hp
            exact .inr (.inr ⟨p, a, hp, ha, hpan⟩)
      · rw [if_neg hl]
        have hif : ¬ (s.name ∈ trigNames ∨ s.name ∈ operatorNames ∨ s.name = c!"List") := by
          rintro (h | h | h)
          · exact ht1 h
          · exact ht2 h
          · exact hl h
        have red : ((match texParams ps with
            | none => none
            | some ts => some (c!"\\\\operatorname{" ++ s.name ++ c!"}" ++ join [] ts)) = none) ↔
            texParams ps = none := by cases texParams ps <;> simp
        refine red.trans (hps.trans ?_)
        constructor
        · rintro ⟨p, hp, a, ha, hpan⟩
          exact .argument hns (by rw [if_neg hif]; exact hp) ha hpan
        · intro h
          rcases inv h with ⟨_, h⟩ | ⟨h, _⟩ | ⟨p, a, hp, ha, hpan⟩
          · exact absurd h hif
          · exact absurd h hl
          · rw [if_neg hif] at hp
            exact ⟨p, hp, a, ha, hpan⟩
theorem texOmit_none_iff : (ps : List Param) → (texOmit ps = none ↔
    ps = [] ∨ ∃ p a, ps.head? = some p ∧ a ∈ p.arguments ∧ TexPanics a)
  | [] => by simp [texOmit]
  | .mk args os pos :: ps => by
    have ha := texArgs_none_iff args
    have key : texOmit (.mk args os pos :: ps) = none ↔ ∃ a ∈ args, TexPanics a := by
      rw [← ha]
      match hargs : args with
      | [] => simp [texOmit, texArgs]
      | [a] =>
        simp only [texOmit, List.length_cons, List.length_nil, List.head?_cons, Option.bind_some]
        cases hw : a.width with
        | none =>
          have := width_none hw
          refine iff_of_true rfl (ha.2 ⟨a, by simp, this⟩)
        | some wd =>
          simp only
          cases texArgs [a] with
          | none => simp
          | some ts => simp only; split <;> simp
      | a :: b :: as =>
        simp only [texOmit, List.length_cons]
        cases texArgs (a :: b :: as) <;> simp
    rw [key]
    simp [Param.arguments]
theorem texList_none_iff : (ps : List Param) → (texList ps = none ↔
    ps = [] ∨ (∃ os pos ps', ps = .mk [] os pos :: ps') ∨
      ∃ p a, ps.head? = some p ∧ a ∈ p.arguments ∧ TexPanics a)
  | [] => by simp [texList]
  | .mk args os pos :: ps => by
    have ha := texArgs_none_iff args
    simp only [texList]
    cases args with
    | nil => simp
    | cons b bs =>
      rw [if_neg (by simp)]
      cases h : texArgs (b :: bs) with
      | none =>
        obtain ⟨a, hm, hp⟩ := ha.1 h
        exact iff_of_true rfl (.inr (.inr ⟨_, a, rfl, hm, hp⟩))
      | some ts =>
        refine iff_of_false (by simp only; split <;> simp) ?_
        rintro (h' | ⟨_, _, _, h'⟩ | ⟨p, a, h', hm, hp⟩)
        · cases h'
        · injection h' with h' _; injection h' with h' _; cases h'
        · injection h' with h'; subst h'
          rw [ha.2 ⟨a, hm, hp⟩] at h; cases h
theorem texParams_none_iff : (ps : List Param) → (texParams ps = none ↔
    ∃ p ∈ ps, ∃ a ∈ p.arguments, TexPanics a)
  | [] => by simp [texParams]
  | .mk args os pos :: ps => by
    have ha := texArgs_none_iff args
    have hps := texParams_none_iff ps
    simp only [texParams]
    cases h1 : texArgs args with
    | none =>
      obtain ⟨a, hm, hp⟩ := ha.1 h1
      exact iff_of_true rfl ⟨_, List.mem_cons_self, a, hm, hp⟩
    | some ts =>
      cases h2 : texParams ps with
      | none =>
        obtain ⟨p, hp, a, hm, hpan⟩ := hps.1 h2
        exact iff_of_true rfl ⟨p, List.mem_cons_of_mem _ hp, a, hm, hpan⟩
      | some us =>
        refine iff_of_false (by simp) ?_
        rintro ⟨p, hp, a, hm, hpan⟩
        rcases List.mem_cons.1 hp with rfl | hp
        · rw [ha.2 ⟨a, hm, hpan⟩] at h1; cases h1
        · rw [hps.2 ⟨p, hp, a, hm, hpan⟩] at h2; cases h2
theorem texArgs_none_iff : (as : List AST) → (texArgs as = none ↔ ∃ a ∈ as, TexPanics a)
  | [] => by simp [texArgs]
  | a :: as => by
    have ha := toTex_none_iff a
    have has := texArgs_none_iff as
    simp only [texArgs]
    cases h1 : a.toTex with
    | none => exact iff_of_true rfl ⟨a, List.mem_cons_self, ha.1 h1⟩
    | some t =>
      cases h2 : texArgs as with
      | none =>
        obtain ⟨b, hb, hp⟩ := has.1 h2
        exact iff_of_true rfl ⟨b, List.mem_cons_of_mem _ hb, hp⟩
      | some us =>
        refine iff_of_false (by simp) ?_
        rintro ⟨b, hb, hp⟩
        rcases List.mem_cons.1 hb with rfl | hb
        · rw [ha.2 hp] at h1; cases h1
        · rw [has.2 ⟨b, hb, hp⟩] at h2; cases h2
end

/-- **C28**.  TeX rendering panics exactly for the expressions described by `TexPanics`. -/
theorem C28_tex_panics_iff (a : AST) : a.toTex = none ↔ TexPanics a := toTex_none_iff a

/-- **C28** (printing).  Printing panics exactly for the expressions described by `Unprintable`. -/
theorem C28_display_panics_iff (a : AST) : a.display = none ↔ Unprintable a := display_none_iff a

/-- `f(x) + 1` has no TeX form although `f(x)` has one: an infix operand that is an ordinary call
cannot be printed. -/
example : (AST.function ⟨nsInfix, c!"add", .infix c!"+" 80, 0⟩
    [.mk [.function (Sym.ofStr c!"f") [.mk [.symbol (Sym.ofStr c!"x")] [] Position.dflt], .integer 1] []
      Position.dflt]).toTex = none ∧
    (AST.function (Sym.ofStr c!"f") [.mk [.symbol (Sym.ofStr c!"x")] [] Position.dflt]).toTex
      = some c!"\\\\operatorname{f}\\\\left(x\\\\right)" := by decide

end SM.Props
