import Verif.Props.PestMeans
import Verif.Peg.Generate
/-
Laws of the meaning of grammar expressions: an expression has one outcome, what it matches is the text between two
places, and the rewriting done by the parser generator keeps the meaning.
-/
namespace SM.Props
open SM SM.Peg

variable {u : Uni}

/-- What is matched is the text in between. -/
def Outcome.Follows (a : Place) : Outcome → Prop
  | .hit b _ => ∃ w, a.rest = w ++ b.rest ∧ b.pos = a.pos + w.length
  | .miss => True

theorem follows_refl (a : Place) (l : List (Pair R)) : (Outcome.hit a l).Follows a := ⟨[], rfl, rfl⟩

theorem follows_trans {a b c : Place} {l l' l'' : List (Pair R)} (h : (Outcome.hit b l).Follows a)
    (h' : (Outcome.hit c l').Follows b) : (Outcome.hit c l'').Follows a := by
  obtain ⟨w, h1, h2⟩ := h
  obtain ⟨w', h3, h4⟩ := h'
  exact ⟨w ++ w', by rw [h1, h3, List.append_assoc], by rw [h4, h2, List.length_append]; omega⟩

theorem Means.follows {m : Atomicity} {x : Phrase} {a : Place} {o : Outcome} (h : Means u m x a o) : o.Follows a := by
  induction h with
  | str => exact ⟨_, rfl, rfl⟩
  | insens => exact ⟨_, rfl, rfl⟩
  | chr => exact ⟨[_], rfl, rfl⟩
  | soi => exact follows_refl _ []
  | eoi => exact follows_refl _ []
  | peek => exact ⟨_, rfl, rfl⟩
  | pop => exact ⟨_, rfl, rfl⟩
  | push _ _ ih => exact ih
  | ref _ _ _ ih => exact ih
  | seq _ _ _ i1 i2 i3 => exact follows_trans (l := []) (l' := []) (follows_trans (l'' := []) i1 i2) i3
  | altL _ ih => exact ih
  | altR _ _ _ ih => exact ih
  | opt _ ih => exact ih
  | optNo => exact follows_refl _ []
  | star _ _ i1 i2 => exact follows_trans i1 i2
  | starNo => exact follows_refl _ []
  | more _ _ _ i1 i2 i3 => exact follows_trans (l := []) (l' := []) (follows_trans (l'' := []) i1 i2) i3
  | moreNo => exact follows_refl _ []
  | plus _ ih => exact ih
  | once _ ih => exact ih
  | times _ ih => exact ih
  | not => exact follows_refl _ []
  | tight => exact follows_refl _ []
  | space _ _ i1 i2 => exact follows_trans i1 i2
  | comment _ _ _ _ i1 i2 => exact follows_trans i1 i2
  | gapEnd => exact follows_refl _ []
  | _ => exact True.intro

theorem take_app_eq {w w' z z' : Str} (h : w ++ z = w' ++ z') (hl : w.length = w'.length) : w = w' ∧ z = z' :=
  List.append_inj h hl

/-- An expression has at most one outcome at a place. -/
theorem Means.unique {m : Atomicity} {x : Phrase} {a : Place} {o o' : Outcome} (h : Means u m x a o)
    (h' : Means u m x a o') : o = o' := by
  induction h generalizing o' with
  | @str m w p z k =>
    generalize ha : (⟨p, w ++ z, k⟩ : Place) = a at h'
    cases h' with
    | str => simp only [Place.mk.injEq, List.append_cancel_left_eq] at ha; obtain ⟨rfl, rfl, rfl⟩ := ha; rfl
    | strNo hn => subst ha; exact absurd ⟨z, rfl⟩ hn
  | strNo hn =>
    cases h' with
    | str => exact absurd ⟨_, rfl⟩ hn
    | strNo => rfl
  | @insens m x w p z k hw =>
    generalize ha : (⟨p, w ++ z, k⟩ : Place) = a at h'
    cases h' with
    | insens hw' =>
      simp only [Place.mk.injEq] at ha
      obtain ⟨rfl, h1, rfl⟩ := ha
      have hl := congrArg List.length (hw.trans hw'.symm)
      simp only [List.length_map] at hl
      obtain ⟨rfl, rfl⟩ := take_app_eq h1 hl
      rfl
    | insensNo hn => subst ha; exact absurd hw (hn w ⟨z, rfl⟩)
  | insensNo hn =>
    cases h' with
    | insens hw => exact absurd hw (hn _ ⟨_, rfl⟩)
    | insensNo => rfl
  | chr hc =>
    cases h' with
    | chr => rfl
    | chrNo hn => exact absurd hc (hn _ _ rfl)
  | chrNo hn =>
    cases h' with
    | chr hc => exact absurd hc (hn _ _ rfl)
    | chrNo => rfl
  | soi =>
    cases h' with
    | soi => rfl
    | soiNo hn => exact absurd rfl hn
  | soiNo hn =>
    cases h' with
    | soi => exact absurd rfl hn
    | soiNo => rfl
  | eoi =>
    cases h' with
    | eoi => rfl
    | eoiNo hn => exact absurd rfl hn
  | eoiNo hn =>
    cases h' with
    | eoi => exact absurd rfl hn
    | eoiNo => rfl
  | @peek m w p z k =>
    generalize ha : (⟨p, w ++ z, w :: k⟩ : Place) = a at h'
    cases h' with
    | peek =>
      simp only [Place.mk.injEq, List.cons.injEq] at ha
      obtain ⟨rfl, h1, rfl, rfl⟩ := ha
      rw [List.append_cancel_left_eq] at h1
      rw [h1]
    | peekNo hn =>
      simp only [Place.mk.injEq, List.cons.injEq] at ha
      obtain ⟨rfl, rfl, rfl, rfl⟩ := ha
      exact absurd ⟨z, rfl⟩ hn
  | @peekNo m w p x k hn =>
    generalize ha : (⟨p, x, w :: k⟩ : Place) = a at h'
    cases h' with
    | peek =>
      simp only [Place.mk.injEq, List.cons.injEq] at ha
      obtain ⟨rfl, rfl, rfl, rfl⟩ := ha
      exact absurd ⟨_, rfl⟩ hn
    | peekNo => rfl
  | @pop m w p z k =>
    generalize ha : (⟨p, w ++ z, w :: k⟩ : Place) = a at h'
    cases h' with
    | pop =>
      simp only [Place.mk.injEq, List.cons.injEq] at ha
      obtain ⟨rfl, h1, rfl, rfl⟩ := ha
      rw [List.append_cancel_left_eq] at h1
      rw [h1]
    | popNo hn =>
      simp only [Place.mk.injEq, List.cons.injEq] at ha
      obtain ⟨rfl, rfl, rfl, rfl⟩ := ha
      exact absurd ⟨z, rfl⟩ hn
  | @popNo m w p x k hn =>
    generalize ha : (⟨p, x, w :: k⟩ : Place) = a at h'
    cases h' with
    | pop =>
      simp only [Place.mk.injEq, List.cons.injEq] at ha
      obtain ⟨rfl, rfl, rfl, rfl⟩ := ha
      exact absurd ⟨_, rfl⟩ hn
    | popNo => rfl
  | push _ hw ih =>
    cases h' with
    | push h hw' =>
      cases ih h
      rw [List.append_cancel_right (hw.symm.trans hw')]
    | pushNo h => cases ih h
  | pushNo _ ih =>
    cases h' with
    | push h => cases ih h
    | pushNo => rfl
  | ref hr _ hw ih =>
    cases h' with
    | ref hr' h hw' =>
      rw [hr] at hr'
      cases hr'
      cases ih h
      rw [List.append_cancel_right (hw.symm.trans hw')]
    | refNo hr' h => rw [hr] at hr'; cases hr'; cases ih h
  | refNo hr _ ih =>
    cases h' with
    | ref hr' h => rw [hr] at hr'; cases hr'; cases ih h
    | refNo => rfl
  | seq _ _ _ i1 i2 i3 =>
    cases h' with
    | seq h1 h2 h3 => cases i1 h1; cases i2 h2; cases i3 h3; rfl
    | seqNo₁ h1 => cases i1 h1
    | seqNo₂ h1 h2 h3 => cases i1 h1; cases i2 h2; cases i3 h3
  | seqNo₁ _ i1 =>
    cases h' with
    | seq h1 => cases i1 h1
    | seqNo₁ => rfl
    | seqNo₂ h1 => cases i1 h1
  | seqNo₂ _ _ _ i1 i2 i3 =>
    cases h' with
    | seq h1 h2 h3 => cases i1 h1; cases i2 h2; cases i3 h3
    | seqNo₁ h1 => cases i1 h1
    | seqNo₂ => rfl
  | altL _ ih =>
    cases h' with
    | altL h => exact ih h
    | altR h => cases ih h
  | altR _ _ i1 i2 =>
    cases h' with
    | altL h => cases i1 h
    | altR _ h => exact i2 h
  | opt _ ih =>
    cases h' with
    | opt h => exact ih h
    | optNo h => cases ih h
  | optNo _ ih =>
    cases h' with
    | opt h => cases ih h
    | optNo => rfl
  | star _ _ i1 i2 =>
    cases h' with
    | star h1 h2 => cases i1 h1; cases i2 h2; rfl
    | starNo h => cases i1 h
  | starNo _ ih =>
    cases h' with
    | star h => cases ih h
    | starNo => rfl
  | more _ _ _ i1 i2 i3 =>
    cases h' with
    | more h1 h2 h3 => cases i1 h1; cases i2 h2; cases i3 h3; rfl
    | moreNo h1 h2 => cases i1 h1; cases i2 h2
  | moreNo _ _ i1 i2 =>
    cases h' with
    | more h1 h2 => cases i1 h1; cases i2 h2
    | moreNo => rfl
  | plus _ ih => cases h' with | plus h => exact ih h
  | once _ ih => cases h' with | once h => exact ih h
  | times _ ih => cases h' with | times h => exact ih h
  | not _ ih =>
    cases h' with
    | not => rfl
    | notNo h => cases ih h
  | notNo _ ih =>
    cases h' with
    | not h => cases ih h
    | notNo => rfl
  | tight hm =>
    cases h' with
    | tight => rfl
    | space => exact absurd rfl hm
    | comment => exact absurd rfl hm
    | gapEnd => exact absurd rfl hm
  | space _ _ i1 i2 =>
    cases h' with
    | tight hm => exact absurd rfl hm
    | space h1 h2 => cases i1 h1; cases i2 h2; rfl
    | comment h1 => cases i1 h1
    | gapEnd h1 => cases i1 h1
  | comment _ _ _ i1 i2 i3 =>
    cases h' with
    | tight hm => exact absurd rfl hm
    | space h1 => cases i1 h1
    | comment h1 h2 h3 => cases i2 h2; cases i3 h3; rfl
    | gapEnd h1 h2 => cases i2 h2
  | gapEnd _ _ i1 i2 =>
    cases h' with
    | tight hm => exact absurd rfl hm
    | space h1 => cases i1 h1
    | comment h1 h2 => cases i2 h2
    | gapEnd => rfl

/-- Whatever `f` means, `e` means. -/
def Refines (u : Uni) (f e : GE) : Prop := ∀ m a o, Means u m (.of f) a o → Means u m (.of e) a o

theorem Refines.rfl {e : GE} : Refines u e e := fun _ _ _ h => h
theorem Refines.trans {e f g : GE} (h : Refines u e f) (h' : Refines u f g) : Refines u e g := fun m a o k => h' m a o (h m a o k)

theorem Refines.seq {e e' f f' : GE} (h : Refines u e' e) (h' : Refines u f' f) : Refines u (.seq e' f') (.seq e f) := by
  intro m a o k
  cases k with
  | seq h1 h2 h3 => exact .seq (h _ _ _ h1) h2 (h' _ _ _ h3)
  | seqNo₁ h1 => exact .seqNo₁ (h _ _ _ h1)
  | seqNo₂ h1 h2 h3 => exact .seqNo₂ (h _ _ _ h1) h2 (h' _ _ _ h3)

theorem Refines.alt {e e' f f' : GE} (h : Refines u e' e) (h' : Refines u f' f) : Refines u (.alt e' f') (.alt e f) := by
  intro m a o k
  cases k with
  | altL h1 => exact .altL (h _ _ _ h1)
  | altR h1 h2 => exact .altR (h _ _ _ h1) (h' _ _ _ h2)

theorem Refines.opt {e e' : GE} (h : Refines u e' e) : Refines u (.opt e') (.opt e) := by
  intro m a o k
  cases k with
  | opt h1 => exact .opt (h _ _ _ h1)
  | optNo h1 => exact .optNo (h _ _ _ h1)

theorem Refines.not {e e' : GE} (h : Refines u e' e) : Refines u (.not e') (.not e) := by
  intro m a o k
  cases k with
  | not h1 => exact .not (h _ _ _ h1)
  | notNo h1 => exact .notNo (h _ _ _ h1)

theorem Refines.push {e e' : GE} (h : Refines u e' e) : Refines u (.push e') (.push e) := by
  intro m a o k
  cases k with
  | push h1 h2 => exact .push (h _ _ _ h1) h2
  | pushNo h1 => exact .pushNo (h _ _ _ h1)

theorem Refines.more {e e' : GE} (h : Refines u e' e) {m : Atomicity} {x : Phrase} {a : Place} {o : Outcome}
    (k : Means u m x a o) : x = .more e' → Means u m (.more e) a o := by
  induction k with
  | more h1 h2 h3 _ _ ih =>
    intro hx
    cases hx
    exact .more h1 (h _ _ _ h2) (ih _root_.rfl)
  | moreNo h1 h2 =>
    intro hx
    cases hx
    exact .moreNo h1 (h _ _ _ h2)
  | _ => intro hx; cases hx

theorem Refines.star {e e' : GE} (h : Refines u e' e) : Refines u (.star e') (.star e) := by
  intro m a o k
  cases k with
  | star h1 h2 => exact .star (h _ _ _ h1) (h.more h2 _root_.rfl)
  | starNo h1 => exact .starNo (h _ _ _ h1)

theorem Refines.plus {e e' : GE} (h : Refines u e' e) : Refines u (.seq e' (.star e')) (.plus e) :=
  fun m a o k => .plus (Refines.seq h h.star m a o k)

theorem Refines.copies {e e' : GE} (h : Refines u e' e) : ∀ n, Refines u (e'.copies n) (.times (n + 1) e)
  | 0 => fun m a o k => .once (h m a o k)
  | n + 1 => fun m a o k => .times (Refines.seq h (Refines.copies h n) m a o k)

/-- Sequences may be bracketed to the right. -/
theorem refines_assoc (e f g : GE) : Refines u (.seq e (.seq f g)) (.seq (.seq e f) g) := by
  intro m a o k
  cases k with
  | seq h1 h2 h3 =>
    cases h3 with
    | seq h3 h4 h5 =>
      have := Means.seq (.seq h1 h2 h3) h4 h5
      simp only [List.append_assoc] at this ⊢
      exact this
  | seqNo₁ h1 => exact .seqNo₁ (.seqNo₁ h1)
  | seqNo₂ h1 h2 h3 =>
    cases h3 with
    | seqNo₁ h3 => exact .seqNo₁ (.seqNo₂ h1 h2 h3)
    | seqNo₂ h3 h4 h5 => exact .seqNo₂ (.seq h1 h2 h3) h4 h5

/-- A common first part may be taken out. -/
theorem refines_factor (e f g : GE) : Refines u (.seq e (.alt f g)) (.alt (.seq e f) (.seq e g)) := by
  intro m a o k
  cases k with
  | seq h1 h2 h3 =>
    cases h3 with
    | altL h3 => exact .altL (.seq h1 h2 h3)
    | altR h3 h4 => exact .altR (.seqNo₂ h1 h2 h3) (.seq h1 h2 h4)
  | seqNo₁ h1 => exact .altR (.seqNo₁ h1) (.seqNo₁ h1)
  | seqNo₂ h1 h2 h3 =>
    cases h3 with
    | altR h3 h4 => exact .altR (.seqNo₂ h1 h2 h3) (.seqNo₂ h1 h2 h4)

theorem refines_join : ∀ e f : GE, Refines u (e.join f) (.seq e f)
  | .seq a b, f => Refines.trans (Refines.seq .rfl (refines_join b f)) (refines_assoc a b f)
  | .ref _, _ | .str _, _ | .insens _, _ | .chr _, _ | .soi, _ | .eoi, _ | .peek, _ | .pop, _ | .alt _ _, _ | .opt _, _
  | .star _, _ | .plus _, _ | .times _ _, _ | .not _, _ | .push _, _ => .rfl

theorem Refines.plus' {e e' : GE} (h : Refines u e' e) : Refines u (.plus e') (.plus e) := by
  intro m a o k
  cases k with
  | plus k => exact Refines.plus h m a o k

theorem Refines.times {e e' : GE} (h : Refines u e' e) : ∀ n, Refines u (.times n e') (.times n e)
  | 0 => fun m a o k => nomatch k
  | 1 => fun m a o k => by cases k with | once k => exact .once (h m a o k)
  | n + 2 => fun m a o k => by cases k with | times k => exact .times (Refines.seq h (Refines.times h (n + 1)) m a o k)

theorem refines_rotate : ∀ e : GE, Refines u e.rotate e
  | .seq a b => Refines.trans (refines_join _ _) (Refines.seq (refines_rotate a) (refines_rotate b))
  | .alt a b => Refines.alt (refines_rotate a) (refines_rotate b)
  | .opt e => Refines.opt (refines_rotate e)
  | .star e => Refines.star (refines_rotate e)
  | .plus e => Refines.plus' (refines_rotate e)
  | .times n e => Refines.times (refines_rotate e) n
  | .not e => Refines.not (refines_rotate e)
  | .push e => Refines.push (refines_rotate e)
  | .ref _ | .str _ | .insens _ | .chr _ | .soi | .eoi | .peek | .pop => .rfl

theorem refines_unroll : ∀ e : GE, Refines u e.unroll e
  | .seq a b => Refines.seq (refines_unroll a) (refines_unroll b)
  | .alt a b => Refines.alt (refines_unroll a) (refines_unroll b)
  | .opt e => Refines.opt (refines_unroll e)
  | .star e => Refines.star (refines_unroll e)
  | .plus e => Refines.plus (refines_unroll e)
  | .times 0 e => .rfl
  | .times (n + 1) e => Refines.copies (refines_unroll e) n
  | .not e => Refines.not (refines_unroll e)
  | .push e => Refines.push (refines_unroll e)
  | .ref _ | .str _ | .insens _ | .chr _ | .soi | .eoi | .peek | .pop => .rfl

theorem refines_merge (e : GE) : Refines u e.merge e := by
  unfold GE.merge
  split
  · split
    · subst_vars; exact refines_factor _ _ _
    · exact .rfl
  · exact .rfl

theorem refines_factors : ∀ (n : Nat) (e : GE), Refines u (e.factor n) e
  | 0, _ => .rfl
  | n + 1, e => by
    refine Refines.trans ?_ (refines_merge e)
    unfold GE.factor
    cases e.merge with
    | seq => exact Refines.seq (refines_factors n _) (refines_factors n _)
    | alt => exact Refines.alt (refines_factors n _) (refines_factors n _)
    | opt => exact Refines.opt (refines_factors n _)
    | star => exact Refines.star (refines_factors n _)
    | not => exact Refines.not (refines_factors n _)
    | push => exact Refines.push (refines_factors n _)
    | _ => exact .rfl

/-- What the generator makes of an expression means the same. -/
theorem refines_optimize (e : GE) : Refines u e.optimize e :=
  Refines.trans (refines_factors _ _) (Refines.trans (refines_unroll _) (refines_rotate _))

end SM.Props
