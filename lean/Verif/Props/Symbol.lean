import Verif.Ast.Display
/-
C16: symbol names and their qualified texts.
-/
namespace SM.Props
open SM

theorem splitColons_ne_nil (s : Str) : splitColons s ≠ [] := by
  fun_induction splitColons s <;> simp_all

theorem join_cons_ne {sep x : Str} {l : List Str} (h : l ≠ []) :
    join sep (x :: l) = x ++ sep ++ join sep l := by
  cases l with
  | nil => exact absurd rfl h
  | cons y l => rfl

theorem join_splitColons (s : Str) : join c!"::" (splitColons s) = s := by
  fun_induction splitColons s with
  | case1 => rfl
  | case2 c => rfl
  | case3 c d s h ih =>
    rw [join_cons_ne (splitColons_ne_nil s), ih]
    simp [h.1, h.2]
  | case4 c d s h heq => exact absurd heq (splitColons_ne_nil _)
  | case5 c d s h x l heq ih =>
    rw [heq] at ih
    cases l with
    | nil => simpa [join] using ih
    | cons y l => simpa [join] using ih

theorem display_eq_join (s : Sym) : s.display = join c!"::" (s.nameSpace ++ [s.name]) := by
  unfold Sym.display
  split
  · rename_i h
    have : s.nameSpace = [] := List.length_eq_zero_iff.1 h
    simp [this, join]
  · generalize s.nameSpace = l at *
    induction l with
    | nil => simp at *
    | cons x l ih =>
      cases l with
      | nil => simp [join]
      | cons y l =>
        have := ih (by simp)
        rw [show x :: y :: l ++ [s.name] = x :: (y :: l ++ [s.name]) from rfl,
          join_cons_ne (x := x) (l := y :: l ++ [s.name]) (by simp), ← this,
          join_cons_ne (x := x) (l := y :: l) (by simp)]
        simp only [List.append_assoc]

theorem ofStr_parts (s : Str) :
    (Sym.ofStr s).nameSpace ++ [(Sym.ofStr s).name] = splitColons s := by
  have h := splitColons_ne_nil s
  show (splitColons s).dropLast ++ [(splitColons s).getLastD []] = splitColons s
  rw [List.getLastD_eq_getLast?, List.getLast?_eq_some_getLast h]
  exact List.dropLast_concat_getLast h

/-- A name part that can be recovered from a `::`-separated path: no `::` inside. -/
def NoColons (x : Str) : Prop := ¬ c!"::" <:+: x

theorem noColons_of_cons {c : Char} {x : Str} (h : NoColons (c :: x)) : NoColons x :=
  fun hx => h (hx.trans (List.suffix_cons c x).isInfix)

theorem splitColons_clean {x : Str} (h : NoColons x) : splitColons x = [x] := by
  fun_induction splitColons x with
  | case1 => rfl
  | case2 c => rfl
  | case3 c d s hc ih =>
    exact absurd (by rw [hc.1, hc.2]; exact ⟨[], s, rfl⟩) h
  | case4 c d s hc heq => exact absurd heq (splitColons_ne_nil _)
  | case5 c d s hc x l heq ih =>
    have := ih (noColons_of_cons h)
    rw [heq] at this
    simp at this
    simp [this.1, this.2]

theorem splitColons_append {x rest : Str} (h : NoColons x) (hl : x.getLast? ≠ some ':') :
    splitColons (x ++ c!"::" ++ rest) = x :: splitColons rest := by
  induction x with
  | nil => simp [splitColons]
  | cons c x ih =>
    cases x with
    | nil =>
      have hc : c ≠ ':' := by simpa using hl
      simp [splitColons, hc]
    | cons d x =>
      have hcd : ¬ (c = ':' ∧ d = ':') := fun hcd =>
        h (by rw [hcd.1, hcd.2]; exact ⟨[], x, rfl⟩)
      have := ih (noColons_of_cons h) (by simpa using hl)
      simp only [List.cons_append] at this ⊢
      rw [splitColons, if_neg hcd, this]

/-- The parts of a path that its text determines. -/
def CleanPath : List Str → Prop
  | [] => False
  | [x] => NoColons x
  | x :: y :: l => NoColons x ∧ x.getLast? ≠ some ':' ∧ CleanPath (y :: l)

theorem splitColons_join {l : List Str} (h : CleanPath l) : splitColons (join c!"::" l) = l := by
  induction l with
  | nil => exact absurd h id
  | cons x l ih =>
    cases l with
    | nil => exact splitColons_clean h
    | cons y l => rw [join_cons_ne (by simp), splitColons_append h.1 h.2.1, ih h.2.2]

theorem cleanPath_splitColons (s : Str) : CleanPath (splitColons s) := by
  have nc1 : ∀ c : Char, NoColons [c] := by
    intro c h
    have := h.length_le
    simp at this
  fun_induction splitColons s with
  | case1 => intro h; simpa using h.length_le
  | case2 c => exact nc1 c
  | case3 c d s hc ih =>
    cases hs : splitColons s with
    | nil => exact absurd hs (splitColons_ne_nil s)
    | cons y l =>
      rw [hs] at ih
      exact ⟨fun h => by simpa using h.length_le, by simp, ih⟩
  | case4 c d s hc heq => exact absurd heq (splitColons_ne_nil _)
  | case5 c d s hc x l heq ih =>
    rw [heq] at ih
    -- the first piece of `d :: s` is empty or starts with `d`
    have hx : ∀ y x', x = y :: x' → y = d := by
      intro y x' hxy
      have hj := join_splitColons (d :: s)
      rw [heq, hxy] at hj
      cases l with
      | nil => simp [join] at hj; exact hj.1
      | cons z l => simp [join] at hj; exact hj.1
    have hclean : ∀ (_ : NoColons x), NoColons (c :: x) := by
      intro hx' h
      rw [List.infix_cons_iff] at h
      rcases h with h | h
      · cases x with
        | nil => simp at h
        | cons y x' =>
          have := hx y x' rfl
          rw [List.prefix_cons_iff] at h
          rcases h with h | ⟨t, ht, hp⟩
          · simp at h
          · simp at ht
            obtain ⟨rfl, rfl⟩ := ht
            rw [List.prefix_cons_iff] at hp
            rcases hp with h | ⟨t, ht, hp⟩
            · simp at h
            · simp at ht
              exact hc ⟨rfl, by rw [← this]; exact ht.1.symm⟩
      · exact hx' h
    cases l with
    | nil => exact hclean ih
    | cons z l =>
      refine ⟨hclean ih.1, ?_, ih.2.2⟩
      cases x with
      | nil =>
        -- the text goes on with `::`
        have hj := join_splitColons (d :: s)
        rw [heq] at hj
        simp [join] at hj
        intro hcc
        simp at hcc
        exact hc ⟨hcc, hj.1.symm⟩
      | cons y x' => simpa using ih.2.1

/-- **C16** (text to symbol to text).  Printing the symbol built from any text gives back the text. -/
theorem C16_text_round_trip (s : Str) : (Sym.ofStr s).display = s := by
  rw [display_eq_join, ofStr_parts, join_splitColons]

/-- **C16** (symbol to text to symbol).  Building a symbol from the printed form of a symbol recovers
its namespace and name exactly when no part contains `::` and no namespace part ends in a colon. -/
theorem C16_symbol_round_trip (s : Sym) :
    ((Sym.ofStr s.display).nameSpace = s.nameSpace ∧ (Sym.ofStr s.display).name = s.name) ↔
      CleanPath (s.nameSpace ++ [s.name]) := by
  have hp := ofStr_parts s.display
  constructor
  · rintro ⟨h1, h2⟩
    rw [h1, h2] at hp
    rw [hp]; exact cleanPath_splitColons _
  · intro h
    rw [display_eq_join, splitColons_join h, ← display_eq_join] at hp
    have := List.append_inj' hp rfl
    exact ⟨this.1, by simpa using this.2⟩

/-- Two texts that build the same path and name are the same text: symbols do not merge names. -/
theorem C16_injective (s t : Str) (h : (Sym.ofStr s).nameSpace = (Sym.ofStr t).nameSpace)
    (h' : (Sym.ofStr s).name = (Sym.ofStr t).name) : s = t := by
  rw [← C16_text_round_trip s, ← C16_text_round_trip t, display_eq_join, display_eq_join, h, h']

/-- A concrete path, and one whose text is ambiguous (`a:` inside `b` prints as `a:::b`). -/
example : (Sym.ofStr c!"std::core::Null").nameSpace = [c!"std", c!"core"] ∧
    (Sym.ofStr c!"std::core::Null").name = c!"Null" := by decide
example : (Sym.ofStr (Sym.display ⟨[c!"a:"], c!"b", .normal, 0⟩)).nameSpace = [c!"a"] := by decide

end SM.Props
