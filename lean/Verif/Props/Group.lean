import Verif.Props.Prec
/-
The properly grouped tree over given operands and operators, as a function: operators are taken from left to
right, and each goes as far down the right edge as it binds tighter than what is there.
-/
namespace SM.Props
open SM SM.Peg

variable {ι : Type}

/-- Put an operator and its right operand into a tree. -/
def attach (o : Op) (x : ι) : OpTree ι Op → OpTree ι Op
  | .leaf y => .node (.leaf y) o (.leaf x)
  | .node l p r =>
    if RightOk p.binds o.binds then .node l p (attach o x r) else .node (.node l p r) o (.leaf x)

/-- The grouped tree over an operand and operators with the operands after them. -/
def group (x : ι) (l : List (Op × ι)) : OpTree ι Op := l.foldl (fun t s => attach s.1 s.2 t) (.leaf x)

theorem attach_root (o : Op) (x : ι) (t : OpTree ι Op) :
    (attach o x t).root = some o ∨
      ∃ p, t.root = some p ∧ RightOk p.binds o.binds ∧ (attach o x t).root = some p := by
  cases t with
  | leaf y => exact .inl rfl
  | node l p r =>
    by_cases h : RightOk p.binds o.binds
    · exact .inr ⟨p, rfl, h, by rw [attach, if_pos h]; rfl⟩
    · exact .inl (by rw [attach, if_neg h]; rfl)

theorem left_of_not_right : ∀ p o : Op, ¬ RightOk p.binds o.binds → LeftOk p.binds o.binds := by
  intro p o
  cases p <;> cases o <;> decide

theorem attach_proper (o : Op) (x : ι) : ∀ t : OpTree ι Op, Proper t → Proper (attach o x t) := by
  intro t
  induction t with
  | leaf y =>
    intro _
    exact ⟨trivial, trivial, _, rfl, (fun _ e => nomatch e), fun _ e => nomatch e⟩
  | node l p r _ ih =>
    intro hp
    have hp' := hp
    obtain ⟨h1, h2, q, hq, h3, h4⟩ := hp'
    cases hq
    by_cases h : RightOk p.binds o.binds
    · rw [attach, if_pos h]
      refine ⟨h1, ih h2, _, rfl, h3, ?_⟩
      intro o' ho'
      rcases attach_root o x r with hr | ⟨p', hr, _, hr'⟩
      · rw [hr] at ho'
        cases ho'
        exact ⟨_, rfl, h⟩
      · rw [hr'] at ho'
        cases ho'
        exact h4 _ hr
    · rw [attach, if_neg h]
      refine ⟨hp, trivial, _, rfl, ?_, fun _ e => nomatch e⟩
      intro o' ho'
      cases ho'
      exact ⟨_, rfl, left_of_not_right _ _ h⟩

theorem attach_steps (o : Op) (x : ι) (t : OpTree ι Op) :
    (attach o x t).steps = (t.steps.1, t.steps.2 ++ [(o, x)]) := by
  induction t with
  | leaf y => rfl
  | node l p r _ ih =>
    rw [attach]
    split
    · simp [OpTree.steps, ih]
    · simp [OpTree.steps]

theorem group_spec (x : ι) (l : List (Op × ι)) : Proper (group x l) ∧ (group x l).steps = (x, l) := by
  suffices h : ∀ (l : List (Op × ι)) (t : OpTree ι Op), Proper t →
      Proper (l.foldl (fun t s => attach s.1 s.2 t) t) ∧
        (l.foldl (fun t s => attach s.1 s.2 t) t).steps = (t.steps.1, t.steps.2 ++ l) by
    exact h l (.leaf x) trivial
  intro l
  induction l with
  | nil => intro t ht; exact ⟨ht, by simp⟩
  | cons s l ih =>
    intro t ht
    have := ih (attach s.1 s.2 t) (attach_proper _ _ _ ht)
    refine ⟨this.1, ?_⟩
    rw [List.foldl_cons, this.2, attach_steps]
    simp

/-- A properly grouped tree is the grouped tree over its operands and operators. -/
theorem group_of_proper {t : OpTree ι Op} (h : Proper t) : t = group t.steps.1 t.steps.2 := by
  obtain ⟨h1, h2⟩ := group_spec t.steps.1 t.steps.2
  exact proper_unique _ _ h h1 h2.symm

/-- `1 + 2 * 3 ^ 4 ^ 5 - 6`, for example, is grouped as `(1 + 2 * (3 ^ (4 ^ 5))) - 6`. -/
example : group 1 [(.plus, 2), (.star, 3), (.caret, 4), (.caret, 5), (.minus, 6)] =
    .node (.node (.leaf 1) .plus (.node (.leaf 2) .star (.node (.leaf 3) .caret (.node (.leaf 4) .caret (.leaf 5)))))
      .minus (.leaf 6) := rfl

end SM.Props
