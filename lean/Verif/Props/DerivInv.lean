import Verif.Props.Deriv
/-
What a derivation of each kind of expression looks like.
-/
namespace SM.Props
open SM SM.Peg

namespace Deriv
variable {R : Type} {g : R → PE R} {u : Uni} {a : Atomicity} {p : Nat} {w z : Str} {l : List (Pair R)}

theorem inv_call {r : R} (h : Deriv g u a (.call r) p w z l) : Deriv g u a (g r) p w z l := by
  cases h; assumption

theorem ran {r : R} (h : Deriv g u a (.call r) p w z l) : Ran g u a (.call r) p w z l := by
  cases h; assumption

theorem inv_rule {r : R} {e : PE R} (h : Deriv g u a (.rule r e) p w z l) (ha : a ≠ .atomic) :
    ∃ m, l = [.mk r p (p + w.length) w m] ∧ Deriv g u a e p w z m := by
  cases h with
  | rule _ h => exact ⟨_, rfl, h⟩
  | quiet => exact absurd rfl ha

theorem inv_quiet {r : R} {e : PE R} (h : Deriv g u .atomic (.rule r e) p w z l) :
    Deriv g u .atomic e p w z l := by
  cases h with
  | rule ha => exact absurd rfl ha
  | quiet h => exact h

theorem inv_atomic {b : Atomicity} {e : PE R} (h : Deriv g u a (.atomic b e) p w z l) :
    Deriv g u b e p w z l := by
  cases h; assumption

theorem inv_ifNon {e : PE R} (h : Deriv g u .non (.ifNon e) p w z l) : Deriv g u .non e p w z l := by
  cases h with
  | ifNon h => exact h
  | ifNonSkip h => exact absurd rfl h

theorem inv_skip {e : PE R} (h : Deriv g u a (.ifNon e) p w z l) (ha : a ≠ .non) : w = [] ∧ l = [] := by
  cases h with
  | ifNon h => exact absurd rfl ha
  | ifNonSkip h => exact ⟨rfl, rfl⟩

theorem inv_seq {e : PE R} (h : Deriv g u a (.seq e) p w z l) : Deriv g u a e p w z l := by
  cases h; assumption

theorem inv_restore {e : PE R} (h : Deriv g u a (.restore e) p w z l) : Deriv g u a e p w z l := by
  cases h; assumption

theorem inv_push {e : PE R} (h : Deriv g u a (.push e) p w z l) : Deriv g u a e p w z l := by
  cases h; assumption

theorem inv_opt {e : PE R} (h : Deriv g u a (.opt e) p w z l) :
    (w = [] ∧ l = [] ∧ Refuses g u a e z) ∨ Deriv g u a e p w z l := by
  cases h with
  | optNone h => exact .inl ⟨rfl, rfl, h⟩
  | optSome h => exact .inr h

theorem inv_alt {e f : PE R} (h : Deriv g u a (.alt e f) p w z l) :
    Deriv g u a e p w z l ∨ (Refuses g u a e (w ++ z) ∧ Deriv g u a f p w z l) := by
  cases h with
  | altL h => exact .inl h
  | altR h k => exact .inr ⟨h, k⟩

theorem inv_cat {e f : PE R} (h : Deriv g u a (.cat e f) p w z l) :
    ∃ w₁ w₂ l₁ l₂, w = w₁ ++ w₂ ∧ l = l₁ ++ l₂ ∧ Deriv g u a e p w₁ (w₂ ++ z) l₁ ∧
      Deriv g u a f (p + w₁.length) w₂ z l₂ := by
  cases h with
  | cat h k => exact ⟨_, _, _, _, rfl, rfl, h, k⟩

theorem inv_str {x : Str} (h : Deriv g u a (.str x) p w z l) : w = x ∧ l = [] := by
  cases h; exact ⟨rfl, rfl⟩

theorem inv_insens {x : Str} (h : Deriv g u a (.insens x) p w z l) :
    w.map Char.toLower = x.map Char.toLower ∧ l = [] := by
  cases h with
  | insens h => exact ⟨h, rfl⟩

theorem inv_range {c d : Char} (h : Deriv g u a (.range c d) p w z l) :
    ∃ x, w = [x] ∧ c ≤ x ∧ x ≤ d ∧ l = [] := by
  cases h with
  | range h k => exact ⟨_, rfl, h, k, rfl⟩

theorem inv_uni {q : Uc} (h : Deriv g u a (.uni q) p w z l) : ∃ x, w = [x] ∧ u q x = true ∧ l = [] := by
  cases h with
  | uni h => exact ⟨_, rfl, h, rfl⟩

theorem inv_any (h : Deriv g u a .any p w z l) : ∃ x, w = [x] ∧ l = [] := by
  cases h; exact ⟨_, rfl, rfl⟩

theorem inv_soi (h : Deriv g u a .soi p w z l) : p = 0 ∧ w = [] ∧ l = [] := by
  cases h; exact ⟨rfl, rfl, rfl⟩

theorem inv_eoi (h : Deriv g u a .eoi p w z l) : z = [] ∧ w = [] ∧ l = [] := by
  cases h; exact ⟨rfl, rfl, rfl⟩

theorem inv_not {e : PE R} (h : Deriv g u a (.look false e) p w z l) :
    w = [] ∧ l = [] ∧ Refuses g u a e z := by
  cases h with
  | lookNot h => exact ⟨rfl, rfl, h⟩

theorem inv_pop (h : Deriv g u a .pop p w z l) : l = [] := by
  cases h; rfl

theorem inv_peek (h : Deriv g u a .peek p w z l) : l = [] := by
  cases h; rfl

/-- Repetition, from the front; each round knows the text that follows it. -/
theorem inv_rep {e : PE R} (h : Deriv g u a (.rep e) p w z l) {P : Nat → Str → Str → List (Pair R) → Prop}
    (hn : ∀ q z, Refuses g u a e z → P q [] z [])
    (hc : ∀ q w₁ w₂ z l₁ l₂, Deriv g u a e q w₁ (w₂ ++ z) l₁ → P (q + w₁.length) w₂ z l₂ →
      P q (w₁ ++ w₂) z (l₁ ++ l₂)) : P p w z l := by
  generalize hE : (PE.rep e : PE R) = E at h
  induction h with
  | repNil h => cases hE; exact hn _ _ h
  | repCons h _ _ ih => cases hE; exact hc _ _ _ _ _ _ h (ih hn hc rfl)
  | _ => cases hE

end Deriv

/-- `x` has a derivation with an expression and the end of the input. -/
example : Deriv grammar (fun q _ => decide (q = .xidStart)) .non (.call .program) 0 c!"x" []
    [.mk .expression 0 1 c!"x" [.mk .expr 0 1 c!"x" [.mk .term 0 1 c!"x" [.mk .node 0 1 c!"x" [.mk .data 0 1 c!"x"
      [.mk .Symbol 0 1 c!"x" [.mk .SYMBOL 0 1 c!"x" []]]]]]], .mk .EOI 1 1 [] []] :=
  C34_derivation _ _ _ (by rfl)

end SM.Props
