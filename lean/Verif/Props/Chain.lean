import Verif.Props.Node2
/-
Sequences with separators: the common shape of expressions, lists, arguments and indices.
-/
namespace SM.Props
open SM SM.Peg

variable {u : Uni} {v : Env}

/-- A separator and what follows it. -/
abbrev sepThen (sep e : PE R) : PE R := .restore (.seq (.cat (.cat sep (.call .skip)) e))
/-- Any number of separators, each with what follows it. -/
abbrev sepMany (sep e : PE R) : PE R :=
  .seq (.opt (.cat (sepThen sep e) (.rep (.seq (.cat (.call .skip) (sepThen sep e))))))

theorem sem_cat_assoc (g : R → PE R) (a b c : PE R) (w : Env) (s : St R) :
    sem g u (.cat (.cat a b) c) w s = sem g u (.cat a (.cat b c)) w s := by
  rw [sem_cat, sem_cat, sem_cat]
  cases sem g u a w s with
  | ok t => simp only [Res.andThen]; rw [sem_cat]; rfl
  | _ => rfl

theorem eats_assoc {a b c : PE R} {x rest : Str} {P : List (Pair R) → Prop}
    (h : Eats u v (.cat a (.cat b c)) x rest P) : Eats u v (.cat (.cat a b) c) x rest P := by
  intro pos stack queue
  rw [sem_cat_assoc]
  exact h pos stack queue

/-- The blank space that an item takes with it. -/
def taken (solo : Bool) (w : Str) : Str := if solo then w else []
/-- The blank space that an item leaves. -/
def left (solo : Bool) (w : Str) : Str := if solo then [] else w

theorem taken_left (s : Bool) (w t : Str) : taken s w ++ (left s w ++ t) = w ++ t := by
  cases s <;> simp [taken, left]

theorem blank_left {w : Str} (h : Blank u w) (s : Bool) : Blank u (left s w) := by
  cases s
  · exact h
  · exact blank_nil

/-- A separator, blank space, an item and the blank space after it. -/
structure Link where
  sep : Str
  wa : Str
  x : Str
  wb : Str
  solo : Bool
  Q : List (Pair R) → Prop
  P : List (Pair R) → Prop

/-- The text of a link. -/
def Link.text (i : Link) : Str := i.sep ++ (i.wa ++ (i.x ++ i.wb))

/-- The text of links, and what follows. -/
def after : List Link → Str → Str
  | [], rest => rest
  | i :: l, rest => i.sep ++ (i.wa ++ (i.x ++ (i.wb ++ after l rest)))

/-- The link is read as intended in front of `t`. -/
structure LinkOk (u : Uni) (sep e : PE R) (i : Link) (t : Str) : Prop where
  sep : Eats u vN sep i.sep (i.wa ++ (i.x ++ (i.wb ++ t))) i.Q
  wa : Blank u i.wa
  solid : Solid u (i.x ++ (i.wb ++ t))
  item : Eats u vN e (i.x ++ taken i.solo i.wb) (left i.solo i.wb ++ t) i.P
  wb : Blank u i.wb
  next : Solid u t

/-- All links are read as intended in front of `rest`. -/
def LinksOk (u : Uni) (sep e : PE R) : List Link → Str → Prop
  | [], _ => True
  | i :: l, rest => LinkOk u sep e i (after l rest) ∧ LinksOk u sep e l rest

/-- The pairs of links. -/
def LinkPairs : List Link → List (Pair R) → Prop
  | [] => Nil
  | i :: l => Then (Then i.Q i.P) (LinkPairs l)

/-- What is consumed of links after blank space `w`, and what blank space is left. -/
def used (w : Str) : List Link → Str
  | [] => []
  | i :: l => w ++ (i.sep ++ (i.wa ++ (i.x ++ (taken i.solo i.wb ++ used (left i.solo i.wb) l))))

/-- The blank space left at the end. -/
def pend (w : Str) : List Link → Str
  | [] => w
  | i :: l => pend (left i.solo i.wb) l

theorem used_pend (rest : Str) : ∀ (l : List Link) (w : Str), used w l ++ (pend w l ++ rest) = w ++ after l rest := by
  intro l
  induction l with
  | nil => intro w; simp [used, pend, after]
  | cons i l ih =>
    intro w
    simp only [used, pend, after, List.append_assoc, ih, taken_left]

theorem eats_link (L : Lawful u) {sep e : PE R} {i : Link} {t : Str} (h : LinkOk u sep e i t) :
    Eats u vN (sepThen sep e) (i.sep ++ (i.wa ++ (i.x ++ taken i.solo i.wb))) (left i.solo i.wb ++ t)
      (Then i.Q i.P) := by
  have h2 : Eats u vN (.call .skip) i.wa ((i.x ++ taken i.solo i.wb) ++ (left i.solo i.wb ++ t)) Nil := by
    rw [List.append_assoc, taken_left]
    exact eats_skip L rfl h.wa h.solid
  have h1 : Eats u vN sep i.sep (i.wa ++ ((i.x ++ taken i.solo i.wb) ++ (left i.solo i.wb ++ t))) i.Q := by
    rw [List.append_assoc, taken_left]
    exact h.sep
  refine eats_restore (eats_seq (eats_assoc ((eats_cat (P := i.Q) (y := i.wa ++ (i.x ++ taken i.solo i.wb)) ?_
    (eats_cat h2 h.item)).imp ?_)))
  · rw [List.append_assoc]; exact h1
  · rintro q ⟨a, b, rfl, ha, hb⟩
    exact ⟨a, b, rfl, ha, nil_then hb⟩

theorem blank_pend : ∀ (l : List Link) {w rest : Str} {sep e : PE R}, Blank u w → LinksOk u sep e l rest →
    Blank u (pend w l) := by
  intro l
  induction l with
  | nil => exact fun hw _ => hw
  | cons i l ih => exact fun _ h => ih (blank_left h.1.wb _) h.2

theorem eats_links (L : Lawful u) {sep e : PE R} {rest : Str} (hr : Solid u rest)
    (hf : Fails u vN (sepThen sep e) rest) :
    ∀ (l : List Link) (w : Str), Blank u w → Solid u (after l rest) → LinksOk u sep e l rest →
      Eats u vN (.rep (.seq (.cat (.call .skip) (sepThen sep e)))) (used w l) (pend w l ++ rest) (LinkPairs l) := by
  intro l
  induction l with
  | nil =>
    intro w hw _ _
    exact eats_rep_nil (fails_seq (breaks_cat_right (eats_skip L rfl hw hr) hf.breaks))
  | cons i l ih =>
    intro w hw hs hl
    have e1 : used w (i :: l) = (w ++ (i.sep ++ (i.wa ++ (i.x ++ taken i.solo i.wb)))) ++ used (left i.solo i.wb) l := by
      simp [used]
    rw [e1]
    have h1 := eats_link L hl.1
    refine eats_rep_cons (eats_seq ((eats_cat (y := i.sep ++ (i.wa ++ (i.x ++ taken i.solo i.wb))) ?_ ?_).imp
      fun q => nil_then)) (ih (left i.solo i.wb) (blank_left hl.1.wb _) hl.1.next hl.2)
    · refine eats_skip L rfl hw ?_
      have e2 : (i.sep ++ (i.wa ++ (i.x ++ taken i.solo i.wb))) ++
          (used (left i.solo i.wb) l ++ (pend w (i :: l) ++ rest)) = after (i :: l) rest := by
        simp only [pend, used_pend, List.append_assoc, taken_left, after]
      rw [e2]
      exact hs
    · rw [show pend w (i :: l) = pend (left i.solo i.wb) l from rfl, used_pend]
      exact h1

/-- What is consumed of links when the blank space before is already consumed, and what blank space is left. -/
def coreUsed : List Link → Str
  | [] => []
  | i :: l => i.sep ++ (i.wa ++ (i.x ++ (taken i.solo i.wb ++ used (left i.solo i.wb) l)))

/-- The blank space left at the end. -/
def corePend : List Link → Str
  | [] => []
  | i :: l => pend (left i.solo i.wb) l

theorem core_pend (rest : Str) (l : List Link) : coreUsed l ++ (corePend l ++ rest) = after l rest := by
  cases l with
  | nil => simp [coreUsed, corePend, after]
  | cons i l => simp only [coreUsed, corePend, after, List.append_assoc, used_pend, taken_left]

theorem blank_corePend {l : List Link} {rest : Str} {sep e : PE R} (h : LinksOk u sep e l rest) :
    Blank u (corePend l) := by
  cases l with
  | nil => exact blank_nil
  | cons i l => exact blank_pend l (blank_left h.1.wb _) h.2

theorem eats_many (L : Lawful u) {sep e : PE R} {rest : Str} (hr : Solid u rest)
    (hf : Fails u vN (sepThen sep e) rest) (l : List Link) (hl : LinksOk u sep e l rest) :
    Eats u vN (sepMany sep e) (coreUsed l) (corePend l ++ rest) (LinkPairs l) := by
  cases l with
  | nil =>
    refine eats_seq (eats_opt_nil ?_)
    exact fails_cat hf
  | cons i l =>
    refine eats_seq (eats_opt ?_)
    have e1 : coreUsed (i :: l) = (i.sep ++ (i.wa ++ (i.x ++ taken i.solo i.wb))) ++ used (left i.solo i.wb) l := by
      simp [coreUsed]
    rw [e1]
    refine eats_cat ?_ (eats_links L hr hf l _ (blank_left hl.1.wb _) hl.1.next hl.2)
    rw [show corePend (i :: l) = pend (left i.solo i.wb) l from rfl, used_pend]
    exact eats_link L hl.1

/-- A first item, blank space, and links. -/
theorem eats_core (L : Lawful u) {sep e0 e : PE R} {rest : Str} (hr : Solid u rest)
    (hf : Fails u vN (sepThen sep e) rest) {x w : Str} {s : Bool} {P : List (Pair R) → Prop} (l : List Link)
    (hl : LinksOk u sep e l rest) (hw : Blank u w) (hs : Solid u (after l rest))
    (h0 : Eats u vN e0 (x ++ taken s w) (left s w ++ after l rest) P) :
    Eats u vN (.cat e0 (.cat (.call .skip) (sepMany sep e))) (x ++ (w ++ coreUsed l)) (corePend l ++ rest)
      (Then P (LinkPairs l)) := by
  have e1 : x ++ (w ++ coreUsed l) = (x ++ taken s w) ++ (left s w ++ coreUsed l) := by
    rw [List.append_assoc, taken_left]
  rw [e1]
  have h1 : Eats u vN (.call .skip) (left s w) (coreUsed l ++ (corePend l ++ rest)) Nil := by
    rw [core_pend]
    exact eats_skip L rfl (blank_left hw s) hs
  refine (eats_cat (P := P) ?_ (eats_cat h1 (eats_many L hr hf l hl))).imp ?_
  · rw [List.append_assoc, core_pend]
    exact h0
  · rintro q ⟨a, b, rfl, ha, hb⟩
    exact ⟨a, b, rfl, ha, nil_then hb⟩

/-! ### Closing -/

/-- The two forms of the comma. -/
def commaText (b : Bool) : Str := if b then c!"，" else c!","

theorem eats_Comma (hv : v.emits = true) (b : Bool) (rest : Str) :
    Eats u v (.call .Comma) (commaText b) rest (One .Comma (commaText b) Nil) := by
  refine eats_call (eats_rule hv (eats_atomic ?_))
  cases b with
  | false => exact eats_alt_left (eats_str _ _)
  | true => exact eats_alt_right (fails_str (by simp [commaText, strip])) (eats_str _ _)

theorem fails_Comma {z : Str} (h : ∀ c r, z = c :: r → c ≠ ',' ∧ c ≠ '，') : Fails u v (.call .Comma) z := by
  refine fails_call (fails_rule (fails_atomic (fails_alt (fails_str ?_) (fails_str ?_)))) <;>
  · cases z with
    | nil => rfl
    | cons c r =>
      obtain ⟨h1, h2⟩ := h c r rfl
      simp [strip, h1.symm, h2.symm]

/-- A trailing comma and the blank space after it, if any. -/
def trailText : Option (Bool × Str) → Str
  | none => []
  | some (b, w) => commaText b ++ w

/-- The closing brackets. -/
def closers : List Char := [')', ']', '}']

theorem closers_solid (L : Lawful u) {k : Char} (hk : k ∈ closers) (t : Str) : Solid u (k :: t) := by
  have key : ∀ k ∈ closers, Plain k ∧ asciiUni .whiteSpace k = false ∧ k ≠ '%' ∧ k ≠ '/' := by decide
  obtain ⟨h1, h2, h3, h4⟩ := key k hk
  exact solid_cons L h1 h2 h3 h4 t

theorem comma_solid (L : Lawful u) (b : Bool) (t : Str) : Solid u (commaText b ++ t) := by
  cases b
  · exact solid_cons L (c := ',') (by decide) (by decide) (by decide) (by decide) t
  · exact solid_cons L (c := '，') (by decide) (by decide) (by decide) (by decide) t

theorem closer_not_comma {k : Char} (hk : k ∈ closers) : k ≠ ',' ∧ k ≠ '，' := by
  have key : ∀ k ∈ closers, k ≠ ',' ∧ k ≠ '，' := by decide
  exact key k hk

theorem trail_solid (L : Lawful u) {k : Char} (hk : k ∈ closers) (o : Option (Bool × Str)) (t : Str) :
    Solid u (trailText o ++ k :: t) := by
  cases o with
  | none => exact closers_solid L hk t
  | some m =>
    obtain ⟨b, w⟩ := m
    rw [trailText, List.append_assoc]
    exact comma_solid L b _

/-- At the end there is no further item. -/
theorem fails_more (L : Lawful u) {e : PE R} {k : Char} (hk : k ∈ closers) {o : Option (Bool × Str)} {t : Str}
    (ho : ∀ b w, o = some (b, w) → Blank u w) (he : Fails u vN e (k :: t)) :
    Fails u vN (sepThen (.call .Comma) e) (trailText o ++ k :: t) := by
  refine fails_restore (fails_seq ?_)
  cases o with
  | none =>
    refine breaks_cat (breaks_cat (Fails.breaks (fails_Comma ?_)))
    intro c r e
    cases e
    exact closer_not_comma hk
  | some m =>
    obtain ⟨b, w⟩ := m
    rw [trailText]
    refine breaks_cat_right (eats_cat (P := One .Comma (commaText b) Nil) ?_ (eats_skip L rfl (ho b w rfl)
      (closers_solid L hk t))) he.breaks
    exact eats_Comma rfl b _

/-- At most one comma. -/
def CommaMaybe (q : List (Pair R)) : Prop := q = [] ∨ ∃ p, q = [p] ∧ p.rule = .Comma

/-- Blank space, an optional comma, blank space, and the bracket. -/
theorem eats_closing (L : Lawful u) {e : PE R} {x w t : Str} {P : List (Pair R) → Prop} {k : Char} (hk : k ∈ closers)
    {o : Option (Bool × Str)} (ho : ∀ b w, o = some (b, w) → Blank u w) (hw : Blank u w)
    (h : Eats u vN e x (w ++ (trailText o ++ k :: t)) P) :
    Eats u vN (.cat (.cat (.cat (.cat e (.call .skip)) (.opt (.call .Comma))) (.call .skip)) (.str [k]))
      (x ++ (w ++ (trailText o ++ [k]))) t (Then P CommaMaybe) := by
  have e1 : trailText o ++ k :: t = (trailText o ++ [k]) ++ t := by simp
  have hs := trail_solid (u := u) L hk o t
  have h1 : Eats u vN (.cat e (.call .skip)) (x ++ w) (trailText o ++ k :: t) (Then P Nil) :=
    eats_cat h (eats_skip L rfl hw hs)
  cases o with
  | none =>
    have h2 : Eats u vN (.opt (.call .Comma)) [] (k :: t) Nil := eats_opt_nil (fails_Comma (by
      intro c r e
      cases e
      exact closer_not_comma hk))
    have h3 := eats_cat (eats_cat (eats_cat h1 h2) (eats_skip (w := []) L rfl blank_nil (closers_solid L hk t)))
      (eats_str [k] t)
    refine (h3.cast (by simp [trailText])).imp ?_
    rintro q ⟨a, b, rfl, ha, hb⟩
    rw [show b = [] from hb]
    exact ⟨a, [], rfl, then_nil_right (then_nil_right (then_nil_right ha)), .inl rfl⟩
  | some m =>
    obtain ⟨b, w'⟩ := m
    have h2 : Eats u vN (.opt (.call .Comma)) (commaText b) (w' ++ k :: t) (One .Comma (commaText b) Nil) :=
      eats_opt (eats_Comma rfl b _)
    rw [show trailText (some (b, w')) ++ k :: t = commaText b ++ (w' ++ k :: t) by simp [trailText]] at h1
    have h3 := eats_cat (eats_cat (eats_cat h1 h2) (eats_skip L rfl (ho b w' rfl) (closers_solid L hk t)))
      (eats_str [k] t)
    refine (h3.cast (by simp [trailText])).imp ?_
    rintro q ⟨a, c, rfl, ⟨a1, b1, rfl, ⟨a2, b2, rfl, h4, ⟨s, t, l, rfl, _⟩⟩, hb1⟩, hc⟩
    rw [show b1 = [] from hb1, show c = [] from hc]
    exact ⟨a2, [.mk .Comma s t (commaText b) l], by simp, then_nil_right h4, .inr ⟨_, rfl, rfl⟩⟩

end SM.Props
