import Verif.Export.Tex
import Mathlib.Tactic.Common
/-
C29: rendered TeX is brace-balanced.
-/
namespace SM.Props
open SM

/-- Scan a text: the brace depth after it, starting from depth `d`; `none` if a `}` has no partner. -/
def braceDepth : Nat → Str → Option Nat
  | d, [] => some d
  | d, c :: s =>
    if c = '{' then braceDepth (d + 1) s
    else if c = '}' then
      match d with
      | 0 => none
      | d + 1 => braceDepth d s
    else braceDepth d s

/-- Every `{` is closed and every `}` opened. -/
def Balanced (s : Str) : Prop := braceDepth 0 s = some 0

theorem braceDepth_append (d : Nat) (s t : Str) :
    braceDepth d (s ++ t) = (braceDepth d s).bind (fun e => braceDepth e t) := by
  induction s generalizing d with
  | nil => rfl
  | cons c s ih =>
    simp only [List.cons_append, braceDepth]
    split
    · exact ih _
    · split
      · cases d with
        | zero => rfl
        | succ d => exact ih _
      · exact ih _

theorem braceDepth_shift (d e k : Nat) (s : Str) (h : braceDepth d s = some e) :
    braceDepth (d + k) s = some (e + k) := by
  induction s generalizing d with
  | nil => simp [braceDepth] at h ⊢; omega
  | cons c s ih =>
    simp only [braceDepth] at h ⊢
    split at h
    · rw [if_pos ‹_›]
      have := ih _ h
      rw [show d + 1 + k = d + k + 1 by omega] at this
      exact this
    · rw [if_neg ‹_›]
      split at h
      · rw [if_pos ‹_›]
        cases d with
        | zero => cases h
        | succ d =>
          have := ih _ h
          rw [show d + 1 + k = d + k + 1 by omega]
          exact this
      · rw [if_neg ‹_›]; exact ih _ h

theorem Balanced.nil : Balanced [] := rfl

theorem Balanced.append {s t : Str} (hs : Balanced s) (ht : Balanced t) : Balanced (s ++ t) := by
  unfold Balanced
  rw [braceDepth_append, show braceDepth 0 s = some 0 from hs]
  exact ht

theorem Balanced.braces {s : Str} (hs : Balanced s) : Balanced (['{'] ++ s ++ ['}']) := by
  unfold Balanced
  rw [braceDepth_append, braceDepth_append]
  have := braceDepth_shift 0 0 1 s hs
  simp [braceDepth, this]

theorem Balanced.of_free {s : Str} (h : ∀ c ∈ s, c ≠ '{' ∧ c ≠ '}') : Balanced s := by
  unfold Balanced
  induction s with
  | nil => rfl
  | cons c s ih =>
    have hc := h c List.mem_cons_self
    simp only [braceDepth]
    rw [if_neg hc.1, if_neg hc.2]
    exact ih fun d hd => h d (List.mem_cons_of_mem _ hd)

theorem Balanced.join {sep : Str} (hsep : Balanced sep) {l : List Str} (h : ∀ s ∈ l, Balanced s) :
    Balanced (join sep l) := by
  induction l with
  | nil => exact .nil
  | cons x l ih =>
    cases l with
    | nil => exact h x List.mem_cons_self
    | cons y l =>
      exact ((h x List.mem_cons_self).append hsep).append
        (ih fun s hs => h s (List.mem_cons_of_mem _ hs))

theorem digit_free {n : Nat} : ∀ c ∈ natStr n, c ≠ '{' ∧ c ≠ '}' := by
  intro c hc
  have := Nat.isDigit_of_mem_toDigits (by decide) (by decide) hc
  constructor <;> (rintro rfl; exact absurd this (by decide))

theorem balanced_intStr (n : Int) : Balanced (intStr n) := by
  unfold intStr
  split
  · exact Balanced.append (s := ['-']) rfl (.of_free digit_free)
  · exact .of_free digit_free

theorem balanced_decStr (d : Dec) : Balanced (decStr d) := by
  have hz : ∀ k, ∀ c ∈ List.replicate k '0', c ≠ '{' ∧ c ≠ '}' := by
    intro k c hc
    rw [List.eq_of_mem_replicate hc]; decide
  have hd := digit_free (n := d.digits.natAbs)
  have body : ∀ pr : Str × Str, (∀ c ∈ pr.1, c ≠ '{' ∧ c ≠ '}') → (∀ c ∈ pr.2, c ≠ '{' ∧ c ≠ '}') →
      Balanced (if d.digits < 0 then '-' :: (if pr.2.isEmpty then pr.1 else pr.1 ++ ['.'] ++ pr.2)
        else (if pr.2.isEmpty then pr.1 else pr.1 ++ ['.'] ++ pr.2)) := by
    intro pr hb ha
    have : Balanced (if pr.2.isEmpty then pr.1 else pr.1 ++ ['.'] ++ pr.2) := by
      split
      · exact .of_free hb
      · exact ((Balanced.of_free hb).append (t := ['.']) rfl).append (.of_free ha)
    split
    · exact Balanced.append (s := ['-']) rfl this
    · exact this
  unfold decStr
  simp only []
  by_cases h1 : d.scale ≥ ((natStr d.digits.natAbs).length : Int)
  · rw [if_pos h1]
    refine body _ ?_ ?_
    · intro c hc
      rw [List.mem_singleton.1 hc]; decide
    · intro c hc
      rcases List.mem_append.1 hc with hc | hc
      · exact hz _ c hc
      · exact hd c hc
  · rw [if_neg h1]
    by_cases h2 : ((natStr d.digits.natAbs).length : Int) - d.scale > ((natStr d.digits.natAbs).length : Int)
    · rw [if_pos h2]
      refine body _ ?_ ?_
      · intro c hc
        rcases List.mem_append.1 hc with hc | hc
        · exact hd c hc
        · exact hz _ c hc
      · intro c hc; cases hc
    · rw [if_neg h2]
      refine body _ ?_ ?_
      · intro c hc; exact hd c (List.mem_of_mem_take hc)
      · intro c hc; exact hd c (List.mem_of_mem_drop hc)

/-- The operator text of a symbol. -/
def opTexts : SymbolKind → List Str
  | .prefix o => [o]
  | .infix o _ => [o]
  | .suffix o => [o]
  | _ => []

/-- The texts of a symbol: its path, name and operator. -/
def symTexts (s : Sym) : List Str := s.nameSpace ++ [s.name] ++ opTexts s.kind

mutual
/-- The texts inside an expression: symbol paths, names, operators and strings (keyword arguments are
not rendered and not included). -/
def texts : AST → List Str
  | .empty => []
  | .program _ => []
  | .function s ps => symTexts s ++ textsParams ps
  | .boolean _ => []
  | .integer _ => []
  | .decimal _ => []
  | .symbol s => symTexts s
  | .string s => [s]
def textsParams : List Param → List Str
  | [] => []
  | .mk as _ _ :: ps => textsArgs as ++ textsParams ps
def textsArgs : List AST → List Str
  | [] => []
  | a :: as => texts a ++ textsArgs as
end

/-- Every text in the list is balanced. -/
abbrev AllBalanced (l : List Str) : Prop := ∀ s ∈ l, Balanced s

theorem AllBalanced.left {l m : List Str} (h : AllBalanced (l ++ m)) : AllBalanced l :=
  fun s hs => h s (List.mem_append_left _ hs)
theorem AllBalanced.right {l m : List Str} (h : AllBalanced (l ++ m)) : AllBalanced m :=
  fun s hs => h s (List.mem_append_right _ hs)

theorem balanced_name {s : Sym} (h : AllBalanced (symTexts s)) : Balanced s.name :=
  h _ (by simp [symTexts])

theorem balanced_sym_display {s : Sym} (h : AllBalanced (symTexts s)) : Balanced s.display := by
  unfold Sym.display
  split
  · exact balanced_name h
  · have : Balanced c!"::" := rfl
    refine ((Balanced.join this ?_).append this).append (balanced_name h)
    intro x hx
    exact h x (by simp [symTexts, hx])

mutual
theorem balanced_display : (a : AST) → AllBalanced (texts a) → ∀ t, a.display = some t → Balanced t
  | .empty, _, t, h => by simp [AST.display] at h
  | .program _, _, t, h => by simp [AST.display] at h
  | .boolean b, _, t, h => by
    simp only [AST.display, Option.some.injEq] at h
    subst h
    cases b <;> rfl
  | .integer n, _, t, h => by
    simp only [AST.display, Option.some.injEq] at h
    subst h
    exact balanced_intStr n
  | .decimal n, _, t, h => by
    simp only [AST.display, Option.some.injEq] at h
    subst h
    exact balanced_decStr n
  | .symbol n, hb, t, h => by
    simp only [AST.display, Option.some.injEq] at h
    subst h
    exact balanced_sym_display hb
  | .string n, hb, t, h => by
    simp only [AST.display, Option.some.injEq] at h
    subst h
    exact hb n (by simp [texts])
  | .function s ps, hb, t, h => by
    have hs : AllBalanced (symTexts s) := fun x hx => hb x (by simp [texts, hx])
    have hps : AllBalanced (textsParams ps) := fun x hx => hb x (by simp [texts, hx])
    simp only [AST.display] at h
    cases hk : s.kind with
    | normal => rw [hk] at h; cases h
    | «alias» => rw [hk] at h; cases h
    | «prefix» o =>
      rw [hk] at h
      exact balanced_displayUnary ps hps o [] (hs o (by simp [symTexts, opTexts, hk])) .nil t h
    | suffix o =>
      rw [hk] at h
      exact balanced_displayUnary ps hps [] o .nil (hs o (by simp [symTexts, opTexts, hk])) t h
    | «infix» o p =>
      rw [hk] at h
      exact balanced_displayInfix ps hps o p (hs o (by simp [symTexts, opTexts, hk])) t h
theorem balanced_displayUnary : (ps : List Param) → AllBalanced (textsParams ps) →
    ∀ b c, Balanced b → Balanced c → ∀ t, displayUnary b c ps = some t → Balanced t
  | [], _, b, c, _, _, t, h => by simp [displayUnary] at h; subst h; exact .nil
  | [.mk as [] pos], hb, b, c, h1, h2, t, h =>
    balanced_displayOne as (fun x hx => hb x (by simp [textsParams, hx])) b c h1 h2 t
      (by simpa only [displayUnary] using h)
  | [.mk as (o :: os) pos], _, b, c, _, _, t, h => by
    simp [displayUnary] at h; subst h; exact .nil
  | .mk as os pos :: q :: ps, _, b, c, _, _, t, h => by
    cases os <;> (simp [displayUnary] at h; subst h; exact .nil)
theorem balanced_displayOne : (as : List AST) → AllBalanced (textsArgs as) →
    ∀ b c, Balanced b → Balanced c → ∀ t, displayOne b c as = some t → Balanced t
  | [], _, b, c, _, _, t, h => by simp [displayOne] at h; subst h; exact .nil
  | [a], hb, b, c, h1, h2, t, h => by
    simp only [displayOne] at h
    cases hd : a.display with
    | none => rw [hd] at h; cases h
    | some u =>
      rw [hd] at h
      injection h with h
      subst h
      exact (h1.append (balanced_display a (fun x hx => hb x (by simp [textsArgs, hx])) u hd)).append h2
  | a :: a' :: as, _, b, c, _, _, t, h => by simp [displayOne] at h; subst h; exact .nil
theorem balanced_displayInfix : (ps : List Param) → AllBalanced (textsParams ps) →
    ∀ o p, Balanced o → ∀ t, displayInfix o p ps = some t → Balanced t
  | [], _, o, p, _, t, h => by simp [displayInfix] at h; subst h; exact .nil
  | [.mk as [] pos], hb, o, p, ho, t, h => by
    simp only [displayInfix] at h
    split at h
    · cases hd : displayArgs p as with
      | none => rw [hd] at h; cases h
      | some v =>
        rw [hd] at h
        injection h with h
        subst h
        exact .join ho (balanced_displayArgs as (fun x hx => hb x (by simp [textsParams, hx])) p v hd)
    · injection h with h; subst h; exact .nil
  | [.mk as (o' :: os) pos], _, o, p, _, t, h => by
    simp [displayInfix] at h; subst h; exact .nil
  | .mk as os pos :: q :: ps, _, o, p, _, t, h => by
    cases os <;> (simp [displayInfix] at h; subst h; exact .nil)
theorem balanced_displayArgs : (as : List AST) → AllBalanced (textsArgs as) →
    ∀ p v, displayArgs p as = some v → ∀ t ∈ v, Balanced t
  | [], _, p, v, h => by simp [displayArgs] at h; subst h; simp
  | a :: as, hb, p, v, h => by
    simp only [displayArgs] at h
    cases hd : a.display with
    | none => rw [hd] at h; cases h
    | some u =>
      rw [hd] at h
      simp only at h
      have hu := balanced_display a (fun x hx => hb x (by simp [textsArgs, hx])) u hd
      cases hds : displayArgs p as with
      | none => rw [hds] at h; cases h
      | some v' =>
        rw [hds] at h
        injection h with h
        subst h
        intro t ht
        rcases List.mem_cons.1 ht with rfl | ht
        · split
          · exact Balanced.append (Balanced.append (s := ['(']) rfl hu) (t := [')']) rfl
          · exact hu
        · exact balanced_displayArgs as (fun x hx => hb x (by simp [textsArgs, hx])) p v' hds t ht
end

theorem balanced_infixTex {s : Sym} {q : Param} (hs : AllBalanced (symTexts s))
    (hq : AllBalanced (textsArgs q.arguments)) {t : Str} (h : infixTex s q = some t) : Balanced t := by
  unfold infixTex at h
  split at h
  · rename_i lhs rhs _ harg
    rw [harg] at hq
    have hl := balanced_display lhs (fun x hx => hq x (by simp [textsArgs, hx]))
    have hr := balanced_display rhs (fun x hx => hq x (by simp [textsArgs, hx]))
    split at h
    · cases h1 : lhs.display with
      | none => simp [h1] at h
      | some l =>
        cases h2 : rhs.display with
        | none => simp [h1, h2] at h
        | some r =>
          simp [h1, h2] at h
          subst h
          exact (hl l h1).append (Balanced.append (s := [' ']) rfl (hr r h2))
    · cases h1 : lhs.display with
      | none => simp [h1] at h
      | some l =>
        cases h2 : rhs.display with
        | none => simp [h1, h2] at h
        | some r =>
          simp [h1, h2] at h
          subst h
          have hop : Balanced (if s.name = c!"add" then c!"+" else s.name) := by
            split
            · rfl
            · exact balanced_name hs
          exact (hl l h1).append (Balanced.append (s := [' ']) rfl
            (hop.append (Balanced.append (s := [' ']) rfl (hr r h2))))
  · cases h

theorem Balanced.delim {a b s : Str} (ha : Balanced a) (hb : Balanced b) (hs : Balanced s) :
    Balanced (a ++ s ++ b) := (ha.append hs).append hb

/-- A text between a left part ending in `{` and `}`. -/
theorem Balanced.braced {pre s post : Str} (hpre : Balanced pre) (hpost : Balanced post)
    (hs : Balanced s) : Balanced (pre ++ ['{'] ++ s ++ ['}'] ++ post) := by
  have := (hpre.append hs.braces).append hpost
  simpa using this

mutual
theorem balanced_toTex : (a : AST) → AllBalanced (texts a) → ∀ t, a.toTex = some t → Balanced t
  | .empty, _, t, h => by simp [AST.toTex] at h; subst h; exact .nil
  | .program _, _, t, h => by simp [AST.toTex] at h
  | .boolean b, _, t, h => by
    simp only [AST.toTex, Option.some.injEq] at h
    subst h
    cases b <;> rfl
  | .integer n, _, t, h => by
    simp only [AST.toTex, Option.some.injEq] at h
    subst h
    exact balanced_intStr n
  | .decimal n, _, t, h => by
    simp only [AST.toTex, Option.some.injEq] at h
    subst h
    exact balanced_decStr n
  | .symbol n, hb, t, h => by
    simp only [AST.toTex, Option.some.injEq] at h
    subst h
    exact balanced_name hb
  | .string n, hb, t, h => by
    simp only [AST.toTex, Option.some.injEq] at h
    subst h
    have := Balanced.braced (pre := c!"\\\\text") (post := []) rfl .nil (hb n (by simp [texts]))
    simpa using this
  | .function s ps, hb, t, h => by
    have hs : AllBalanced (symTexts s) := fun x hx => hb x (by simp [texts, hx])
    have hps : AllBalanced (textsParams ps) := fun x hx => hb x (by simp [texts, hx])
    simp only [AST.toTex] at h
    split at h
    · cases h
    split at h
    · cases ps with
      | nil => cases h
      | cons q ps =>
        obtain ⟨args, os, pos⟩ := q
        exact balanced_infixTex hs (fun x hx => hps x (by
          simp only [textsParams, List.mem_append]; exact .inl hx)) h
    split at h
    · cases h
    split at h
    · cases ho : texOmit ps with
      | none => rw [ho] at h; cases h
      | some u =>
        rw [ho] at h
        injection h with h
        subst h
        exact (Balanced.append (s := c!"\\\\") rfl (balanced_sym_display hs)).append
          (balanced_texOmit ps hps u ho)
    split at h
    · cases ho : texOmit ps with
      | none => rw [ho] at h; cases h
      | some u =>
        rw [ho] at h
        injection h with h
        subst h
        exact Balanced.braced (pre := c!"\\\\operatorname") rfl (balanced_texOmit ps hps u ho)
          (balanced_sym_display hs)
    split at h
    · exact balanced_texList ps hps t h
    · cases ho : texParams ps with
      | none => rw [ho] at h; cases h
      | some u =>
        rw [ho] at h
        injection h with h
        subst h
        exact Balanced.braced (pre := c!"\\\\operatorname") rfl
          (.join .nil (balanced_texParams ps hps u ho)) (balanced_name hs)
theorem balanced_texOmit : (ps : List Param) → AllBalanced (textsParams ps) →
    ∀ t, texOmit ps = some t → Balanced t
  | [], _, t, h => by simp [texOmit] at h
  | .mk args os pos :: ps, hb, t, h => by
    have ha := balanced_texArgs args (fun x hx => hb x (by simp [textsParams, hx]))
    simp only [texOmit] at h
    split at h
    · injection h with h; subst h; rfl
    · split at h
      · cases h
      · cases hts : texArgs args with
        | none => rw [hts] at h; cases h
        | some ts =>
          rw [hts] at h
          simp only at h
          have hj := Balanced.join (sep := c!", ") rfl (ha ts hts)
          split at h
          · injection h with h; subst h
            exact Balanced.append (s := [' ']) rfl hj
          · injection h with h; subst h
            refine Balanced.delim ?_ ?_ hj <;> (split <;> rfl)
    · cases hts : texArgs args with
      | none => rw [hts] at h; cases h
      | some ts =>
        rw [hts] at h
        injection h with h; subst h
        refine Balanced.delim ?_ ?_ (Balanced.join (sep := c!", ") rfl (ha ts hts)) <;> (split <;> rfl)
theorem balanced_texList : (ps : List Param) → AllBalanced (textsParams ps) →
    ∀ t, texList ps = some t → Balanced t
  | [], _, t, h => by simp [texList] at h
  | .mk args os pos :: ps, hb, t, h => by
    have ha := balanced_texArgs args (fun x hx => hb x (by simp [textsParams, hx]))
    simp only [texList] at h
    split at h
    · cases h
    · cases hts : texArgs args with
      | none => rw [hts] at h; cases h
      | some ts =>
        rw [hts] at h
        simp only at h
        have hj := Balanced.join (sep := c!", ") rfl (ha ts hts)
        split at h
        · injection h with h; subst h
          have := Balanced.braced (pre := c!"\\\\left\\\\") (post := []) rfl .nil
            (hj.append (t := c!"\\\\right\\\\") rfl)
          simpa using this
        · injection h with h; subst h
          have := Balanced.braced (pre := c!"\\\\") (post := []) rfl .nil
            (hj.append (t := c!"\\\\") rfl)
          simpa using this
theorem balanced_texParams : (ps : List Param) → AllBalanced (textsParams ps) →
    ∀ v, texParams ps = some v → ∀ t ∈ v, Balanced t
  | [], _, v, h => by simp [texParams] at h; subst h; simp
  | .mk args os pos :: ps, hb, v, h => by
    have ha := balanced_texArgs args (fun x hx => hb x (by simp [textsParams, hx]))
    simp only [texParams] at h
    cases hts : texArgs args with
    | none => rw [hts] at h; cases h
    | some ts =>
      rw [hts] at h
      simp only at h
      cases hps : texParams ps with
      | none => rw [hps] at h; cases h
      | some us =>
        rw [hps] at h
        injection h with h; subst h
        intro t ht
        rcases List.mem_cons.1 ht with rfl | ht
        · exact Balanced.delim rfl rfl (Balanced.join (sep := c!", ") rfl (ha ts hts))
        · exact balanced_texParams ps (fun x hx => hb x (by simp [textsParams, hx])) us hps t ht
theorem balanced_texArgs : (as : List AST) → AllBalanced (textsArgs as) →
    ∀ v, texArgs as = some v → ∀ t ∈ v, Balanced t
  | [], _, v, h => by simp [texArgs] at h; subst h; simp
  | a :: as, hb, v, h => by
    simp only [texArgs] at h
    cases hd : a.toTex with
    | none => rw [hd] at h; cases h
    | some u =>
      rw [hd] at h
      simp only at h
      cases hds : texArgs as with
      | none => rw [hds] at h; cases h
      | some v' =>
        rw [hds] at h
        injection h with h; subst h
        intro t ht
        rcases List.mem_cons.1 ht with rfl | ht
        · exact balanced_toTex a (fun x hx => hb x (by simp [textsArgs, hx])) _ hd
        · exact balanced_texArgs as (fun x hx => hb x (by simp [textsArgs, hx])) v' hds t ht
end

/-- **C29**.  If every symbol path, name, operator and string inside an expression is brace-balanced,
then so is its TeX rendering. -/
theorem C29_tex_braces_balanced (a : AST) (h : ∀ s ∈ texts a, Balanced s) (t : Str)
    (ht : a.toTex = some t) : Balanced t := balanced_toTex a h t ht

/-- The hypothesis cannot be dropped: a string holding a single `}` is rendered verbatim. -/
theorem C29_unbalanced_string : ∃ (a : AST) (t : Str), a.toTex = some t ∧ ¬ Balanced t :=
  ⟨.string c!"}", c!"\\\\text{}}", by decide, by unfold Balanced; decide⟩

/-- A nested list satisfying the hypotheses. -/
example : (AST.function (Sym.ofStr c!"List") [.mk [.integer 1, .string c!"a{b}"] [] Position.dflt]).toTex
    = some c!"\\\\{1, \\\\text{a{b}}\\\\}" ∧ Balanced c!"\\\\{1, \\\\text{a{b}}\\\\}" := by
  constructor
  · decide
  · unfold Balanced; decide

end SM.Props
