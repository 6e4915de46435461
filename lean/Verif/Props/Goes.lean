import Verif.Props.Words
/-
A calculus for what the grammar accepts that speaks of the text before and the text after only.
-/
namespace SM.Props
open SM SM.Peg

/-- In environment `v`, the parser expression `e` succeeds on the text `t` and leaves the text `r`. -/
def Goes (u : Uni) (v : Env) (e : PE R) (t r : Str) : Prop := ∃ x, t = x ++ r ∧ Eats u v e x r fun _ => True

variable {u : Uni} {v : Env} {e a b : PE R} {t s r : Str}

theorem goes_eats {x : Str} {P : List (Pair R) → Prop} (h : Eats u v e x r P) : Goes u v e (x ++ r) r :=
  ⟨x, rfl, h.imp fun _ _ => trivial⟩

theorem goes_call {k : R} (h : Goes u v (grammar k) t r) : Goes u v (.call k) t r := by
  obtain ⟨x, e, h⟩ := h
  exact ⟨x, e, eats_call h⟩

theorem goes_rule {k : R} (h : Goes u v e t r) : Goes u v (.rule k e) t r := by
  obtain ⟨x, e, h⟩ := h
  exact ⟨x, e, eats_rule_any h⟩

theorem goes_atomic {k : Atomicity} (h : Goes u { v with atomicity := k } e t r) : Goes u v (.atomic k e) t r := by
  obtain ⟨x, e, h⟩ := h
  exact ⟨x, e, eats_atomic h⟩

theorem goes_seq (h : Goes u v e t r) : Goes u v (.seq e) t r := by
  obtain ⟨x, e, h⟩ := h
  exact ⟨x, e, eats_seq h⟩

theorem goes_restore (h : Goes u v e t r) : Goes u v (.restore e) t r := by
  obtain ⟨x, e, h⟩ := h
  exact ⟨x, e, eats_restore h⟩

theorem goes_opt (h : Goes u v e t r) : Goes u v (.opt e) t r := by
  obtain ⟨x, e, h⟩ := h
  exact ⟨x, e, eats_opt h⟩

theorem goes_opt_nil (h : Fails u v e t) : Goes u v (.opt e) t t := goes_eats (x := []) (eats_opt_nil h)

theorem goes_rep_nil (h : Fails u v e t) : Goes u v (.rep e) t t := goes_eats (x := []) (eats_rep_nil h)

theorem goes_rep_cons (h1 : Goes u v e t s) (h2 : Goes u v (.rep e) s r) : Goes u v (.rep e) t r := by
  obtain ⟨x, rfl, h1⟩ := h1
  obtain ⟨y, rfl, h2⟩ := h2
  exact ⟨x ++ y, by simp, (eats_rep_cons h1 h2).imp fun _ _ => trivial⟩

theorem goes_cat (h1 : Goes u v a t s) (h2 : Goes u v b s r) : Goes u v (.cat a b) t r := by
  obtain ⟨x, rfl, h1⟩ := h1
  obtain ⟨y, rfl, h2⟩ := h2
  exact ⟨x ++ y, by simp, (eats_cat h1 h2).imp fun _ _ => trivial⟩

theorem goes_left (h : Goes u v a t r) : Goes u v (.alt a b) t r := by
  obtain ⟨x, e, h⟩ := h
  exact ⟨x, e, eats_alt_left h⟩

theorem goes_right (hf : Fails u v a t) (h : Goes u v b t r) : Goes u v (.alt a b) t r := by
  obtain ⟨x, rfl, h⟩ := h
  exact ⟨x, rfl, eats_alt_right hf h⟩

theorem goes_str (x : Str) : Goes u v (.str x) (x ++ r) r := goes_eats (eats_str x r)

theorem goes_skip (L : Lawful u) {w : Str} (hw : Blank u w) (hr : Solid u r) : Goes u vN (.call .skip) (w ++ r) r :=
  goes_eats (eats_skip L rfl hw hr)

theorem goes_skip_nil (L : Lawful u) (hr : Solid u r) : Goes u vN (.call .skip) r r :=
  goes_skip (w := []) L blank_nil hr

theorem breaks_goes (h : Goes u v a t s) (hb : Breaks u v b s) : Breaks u v (.cat a b) t := by
  obtain ⟨x, rfl, h⟩ := h
  exact breaks_cat_right h hb

theorem sure_goes (h : Goes u v e t r) : Sure u v e t := by
  obtain ⟨x, rfl, h⟩ := h
  exact sure_eats h

/-! ### Repetitions with blank space between the items -/

/-- Items, with blank space after each. -/
inductive Items (u : Uni) (item : PE R) : Str → Str → Prop
  | stop {t : Str} : Solid u t → Fails u vN item t → Items u item t t
  | step {t w s r : Str} : Solid u t → Blank u w → Goes u vN item t (w ++ s) → Items u item s r → Items u item t r

theorem Items.solid {item : PE R} (h : Items u item t r) : Solid u t ∧ Solid u r := by
  induction h with
  | stop h _ => exact ⟨h, h⟩
  | step h _ _ _ ih => exact ⟨h, ih.2⟩

theorem Items.rep (L : Lawful u) {item : PE R} (h : Items u item t r) :
    ∀ {w : Str}, Blank u w → ∃ w', Blank u w' ∧ Goes u vN (.rep (.seq (.cat (.call .skip) item))) (w ++ t) (w' ++ r) := by
  induction h with
  | stop h hf =>
    intro w hw
    exact ⟨w, hw, goes_rep_nil (fails_seq (breaks_goes (goes_skip L hw h) hf.breaks))⟩
  | step h hb hg _ ih =>
    intro w hw
    obtain ⟨w', hw', hr⟩ := ih hb
    exact ⟨w', hw', goes_rep_cons (goes_seq (goes_cat (goes_skip L hw h) hg)) hr⟩

theorem Items.opt (L : Lawful u) {item : PE R} (h : Items u item t r) :
    ∃ w, Blank u w ∧ Goes u vN (.opt (.cat item (.rep (.seq (.cat (.call .skip) item))))) t (w ++ r) := by
  cases h with
  | stop h hf => exact ⟨[], blank_nil, goes_opt_nil (fails_cat hf)⟩
  | step h hb hg hi =>
    obtain ⟨w', hw', hr⟩ := hi.rep L hb
    exact ⟨w', hw', goes_opt (goes_cat hg hr)⟩

/-- A text of such statements is not refused. -/
theorem parse_items (L : Lawful u) {w : Str} (hw : Blank u w) (h : Items u (.restore (.call .statement)) t []) {c : Cfg}
    (hc : c.input = w ++ t) : parseText u c ≠ .err (.parseError c.errorText) := by
  obtain ⟨w', hw', hg⟩ := h.opt L
  obtain ⟨x, e, hx⟩ := goes_cat (goes_cat (goes_cat (goes_skip L hw h.solid.1) (goes_seq hg)) (goes_skip L hw' h.solid.2))
    (goes_eats (eats_call (r := .EOI) (eats_rule (v := vN) rfl eats_eoi)))
  obtain ⟨q, -, hs⟩ := hx 0 [] []
  rw [Ne, parse_refused, hc, smParse_eq u .program (by decide), sem_call]
  show Parsed.ofRes (sem grammar u body_program vN ⟨0, w ++ t, [], []⟩) ≠ _
  rw [e]
  unfold body_program
  rw [sem_seq, sem_cat_front, sem_cat, sem_call]
  show Parsed.ofRes (((sem grammar u .soi vN ⟨0, x ++ [], [], []⟩).andThen _).mapBoth _ _) ≠ _
  rw [sem_soi, if_pos rfl]
  simp only [Res.andThen]
  rw [hs]
  simp [Res.mapBoth, Parsed.ofRes]

/-- A text that cannot be read to its end is refused. -/
theorem parse_stuck (L : Lawful u) {w : Str} (hw : Blank u w) (h : Items u (.restore (.call .statement)) t r) (hr : r ≠ []) {c : Cfg}
    (hc : c.input = w ++ t) : parseText u c = .err (.parseError c.errorText) := by
  obtain ⟨w', hw', hg⟩ := h.opt L
  have hb : Breaks u vN (.cat (.cat (.cat (.call .skip) (.seq (.opt (.cat (.restore (.call .statement)) (.rep (.seq (.cat
      (.call .skip) (.restore (.call .statement))))))))) (.call .skip)) (.call .EOI)) (w ++ t) := by
    refine breaks_goes (goes_cat (goes_cat (goes_skip L hw h.solid.1) (goes_seq hg)) (goes_skip L hw' h.solid.2)) ?_
    cases r with
    | nil => exact absurd rfl hr
    | cons c r => exact Fails.breaks (fails_call (r := .EOI) (fails_rule fails_eoi))
  obtain ⟨p, x, q, hs⟩ := hb 0 [] []
  rw [parse_refused, hc, smParse_eq u .program (by decide), sem_call]
  show Parsed.ofRes (sem grammar u body_program vN ⟨0, w ++ t, [], []⟩) = _
  unfold body_program
  rw [sem_seq, sem_cat_front, sem_cat, sem_call]
  show Parsed.ofRes (((sem grammar u .soi vN ⟨0, w ++ t, [], []⟩).andThen _).mapBoth _ _) = _
  rw [sem_soi, if_pos rfl]
  simp only [Res.andThen]
  rw [hs]
  simp [Res.mapBoth, Parsed.ofRes]

end SM.Props
