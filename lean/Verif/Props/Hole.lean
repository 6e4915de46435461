import Verif.Props.Blame
/-
C88: an unfinished expression is reported at its end.  `Unfinished` lists the texts a user has typed so far: an operator or a
sign without its operand, and parentheses, lists, calls and indices that are not closed, nested in any way.
-/
namespace SM.Props
open SM SM.Peg

variable {q : Bool} {u : Uni} {v : Env}

/-! ### Attempts at the end of a text -/

/-- How a record develops: it moves on, or what it names is kept. -/
def Grows (a b : Tries R) : Prop := a.pos < b.pos ∨ a.pos = b.pos ∧ a.wanted <+: b.wanted ∧ a.unwanted <+: b.unwanted

theorem Grows.refl (a : Tries R) : Grows a a := .inr ⟨rfl, List.prefix_refl _, List.prefix_refl _⟩

theorem Grows.trans {a b c : Tries R} (h : Grows a b) (k : Grows b c) : Grows a c := by
  rcases h with h | ⟨h, h1, h2⟩
  · rcases k with k | ⟨k, -⟩
    · exact .inl (by omega)
    · exact .inl (by omega)
  · rcases k with k | ⟨k, k1, k2⟩
    · exact .inl (by omega)
    · exact .inr ⟨h.trans k, h1.trans k1, h2.trans k2⟩

theorem Grows.pos {a b : Tries R} (h : Grows a b) : a.pos ≤ b.pos := by
  rcases h with h | ⟨h, -⟩ <;> omega

theorem Grows.track {a b : Tries R} (h : Grows a b) (t : Atomicity) (neg : Bool) (r : R) (p : Nat) : Grows a (b.track t neg r p a) := by
  unfold Tries.track
  split
  · exact h
  split
  · exact h
  extract_lets i j c d
  have hc : Grows a c := by
    show Grows a (if p = b.pos then _ else b)
    split
    next hp =>
      rcases h with h | ⟨h, ⟨x, hx⟩, ⟨y, hy⟩⟩
      · exact .inl h
      · have hi : i = a.wanted.length := if_pos (by omega)
        have hj : j = a.unwanted.length := if_pos (by omega)
        refine .inr ⟨h, ?_, ?_⟩
        · show a.wanted <+: b.wanted.take i
          rw [hi, ← hx, List.take_left]
        · show a.unwanted <+: b.unwanted.take j
          rw [hj, ← hy, List.take_left]
    · exact h
  have hd : Grows a d := by
    show Grows a (if p > c.pos then _ else c)
    split
    · exact .inl (by have := hc.pos; show a.pos < p; omega)
    · exact hc
  split
  · split
    · exact hd.trans (.inr ⟨rfl, List.prefix_refl _, List.prefix_append _ _⟩)
    · exact hd.trans (.inr ⟨rfl, List.prefix_append _ _, List.prefix_refl _⟩)
  · exact hd

theorem traced_grows : ∀ (n : Nat) (e : PE R) (v : Env) (neg : Bool) (s : St R) (a : Tries R),
    Grows a (traced grammar u n e v neg s a).2 := by
  intro n
  induction n with
  | zero => intro e v neg s a; exact .refl a
  | succ n ih =>
    intro e v neg s a
    cases e with
    | call r => exact ih (grammar r) v neg s a
    | rule r e =>
      have hx := ih e v neg (if v.emits then { s with queue := [] } else s) a
      rw [traced]
      generalize traced grammar u n e v neg (if v.emits then { s with queue := [] } else s) a = x at hx
      dsimp only
      split
      · exact hx.track ..
      · exact hx
    | atomic t e => exact ih e { v with atomicity := t } neg s a
    | ifNon e =>
      rw [traced]
      split
      · exact ih e v neg s a
      · exact .refl a
    | seq e => exact ih e v neg s a
    | opt e => exact ih e v neg s a
    | rep e =>
      have hx := ih e v neg s a
      rw [traced]
      generalize traced grammar u n e v neg s a = x at hx
      obtain ⟨y, b⟩ := x
      cases y with
      | ok t => exact hx.trans (ih (.rep e) v neg t b)
      | err t => exact hx
      | crash => exact hx
    | alt e f =>
      have hx := ih e v neg s a
      rw [traced]
      generalize traced grammar u n e v neg s a = x at hx
      obtain ⟨y, b⟩ := x
      cases y with
      | ok t => exact hx
      | err t => exact hx.trans (ih f v neg t b)
      | crash => exact hx
    | cat e f =>
      have hx := ih e v neg s a
      rw [traced]
      generalize traced grammar u n e v neg s a = x at hx
      obtain ⟨y, b⟩ := x
      cases y with
      | ok t => exact hx.trans (ih f v neg t b)
      | err t => exact hx
      | crash => exact hx
    | restore e => exact ih e v neg s a
    | look p e => exact ih e { v with silent := true } (if p then neg else !neg) s a
    | push e => exact ih e v neg s a
    | _ => exact .refl a

/-- The record is at `p` or beyond it, and in the first case names `term` (if `q` asks for it). -/
def Hit (q : Bool) (p : Nat) (a : Tries R) : Prop := p ≤ a.pos ∧ (q = true → a.pos = p → R.term ∈ a.wanted)

theorem Hit.grow {q : Bool} {p : Nat} {a b : Tries R} (h : Hit q p a) (k : Grows a b) : Hit q p b := by
  rcases k with k | ⟨k, h1, -⟩
  · have := h.1
    exact ⟨by omega, fun _ e => by omega⟩
  · exact ⟨by have := h.1; omega, fun hq e => h1.subset (h.2 hq (by omega))⟩

/-- On the text, `e` tries some rule at the end and fails there (or further on). -/
def Touch (q : Bool) (u : Uni) (v : Env) (e : PE R) (txt : Str) : Prop :=
  ∀ pos stack queue, ∃ N, ∀ n, N ≤ n → ∀ a, Told a →
    Hit q (pos + txt.length) (traced grammar u n e v false ⟨pos, txt, stack, queue⟩ a).2

theorem Touch.cast {e : PE R} {x y : Str} (h : Touch q u v e x) (k : x = y) : Touch q u v e y := k ▸ h

theorem touch_step {e e' : PE R} {v' : Env} {txt : Str} (h : Touch q u v' e' txt)
    (k : ∀ n s a, (traced grammar u (n + 1) e v false s a).2 = (traced grammar u n e' v' false s a).2) : Touch q u v e txt := by
  intro pos stack queue
  obtain ⟨N, hN⟩ := h pos stack queue
  refine ⟨N + 1, fun n hn a ha => ?_⟩
  obtain ⟨m, rfl⟩ : ∃ m, n = m + 1 := ⟨n - 1, by omega⟩
  rw [k]
  exact hN m (by omega) a ha

theorem touch_call {r : R} {txt : Str} (h : Touch q u v (grammar r) txt) : Touch q u v (.call r) txt :=
  touch_step h fun _ _ _ => rfl

theorem touch_atomic {t : Atomicity} {e : PE R} {txt : Str} (h : Touch q u { v with atomicity := t } e txt) :
    Touch q u v (.atomic t e) txt := touch_step h fun _ _ _ => rfl

theorem touch_seq {e : PE R} {txt : Str} (h : Touch q u v e txt) : Touch q u v (.seq e) txt := touch_step h fun _ _ _ => rfl

theorem touch_opt {e : PE R} {txt : Str} (h : Touch q u v e txt) : Touch q u v (.opt e) txt := touch_step h fun _ _ _ => rfl

theorem touch_restore {e : PE R} {txt : Str} (h : Touch q u v e txt) : Touch q u v (.restore e) txt :=
  touch_step h fun _ _ _ => rfl

/-- A text that is not empty, if `q` asks for it. -/
abbrev NonVoid (q : Bool) (o : Str) : Prop := q = true → o ≠ []

theorem track_before {b : Tries R} {p : Nat} (h : p < b.pos) (t : Atomicity) (neg : Bool) (r : R) (a : Tries R) : b.track t neg r p a = b := by
  unfold Tries.track
  split
  · rfl
  split
  · rfl
  have h1 : ¬ p = b.pos := by omega
  have h2 : ¬ p > b.pos := by omega
  simp only [h1, h2, if_false]

theorem touch_rule {r : R} {e : PE R} {txt : Str} (h : Touch q u v e txt) (hq : NonVoid q txt := by intro _ e; simp at e) : Touch q u v (.rule r e) txt := by
  intro pos stack queue
  obtain ⟨N, hN⟩ := h pos stack (if v.emits then [] else queue)
  refine ⟨N + 1, fun n hn a ha => ?_⟩
  obtain ⟨m, rfl⟩ : ∃ m, n = m + 1 := ⟨n - 1, by omega⟩
  have h1 := hN m (by omega) a ha
  rw [traced]
  dsimp only
  have e1 : (if v.emits = true then ({ pos := pos, rest := txt, stack := stack, queue := [] } : St R)
      else ⟨pos, txt, stack, queue⟩) = ⟨pos, txt, stack, if v.emits then [] else queue⟩ := by
    split <;> rfl
  rw [e1]
  have h2 := (traced_told (g := grammar) (u := u) m e v false ⟨pos, txt, stack, if v.emits then [] else queue⟩ a ha).1
  generalize traced grammar u m e v false ⟨pos, txt, stack, if v.emits then [] else queue⟩ a = x at h1 h2 ⊢
  split
  · cases q with
    | false => exact ⟨Nat.le_trans h1.1 (track_told h2 _ _ _ _ _).2, fun h => nomatch h⟩
    | true =>
      have := List.length_pos_iff.2 (hq rfl)
      have h3 := h1.1
      rw [track_before (by omega)]
      exact h1
  · exact h1

/-- A rule that fails at the end. -/
theorem touch_end {r r' : R} {e : PE R} (hv : v.atomicity ≠ .atomic) (hg : grammar r = .rule r' e)
    (h : Fails u v (.call r) []) : Touch false u v (.call r) [] := by
  intro pos stack queue
  obtain ⟨N, hN⟩ := sem_settles grammar u (.call r) v ⟨pos, [], stack, queue⟩
  refine ⟨N + 2, fun n hn a ha => ?_⟩
  obtain ⟨m, rfl⟩ : ∃ m, n = m + 2 := ⟨n - 2, by omega⟩
  have h1 := traced_run (g := grammar) (u := u) (m + 2) (.call r) v false ⟨pos, [], stack, queue⟩ a
  rw [hN _ (by omega), h pos stack queue] at h1
  rw [traced, hg, traced] at h1 ⊢
  dsimp only at h1 ⊢
  have h2 := (traced_told (g := grammar) (u := u) m e v false
    (if v.emits = true then ({ pos := pos, rest := [], stack := stack, queue := [] } : St R) else ⟨pos, [], stack, queue⟩) a ha).1
  generalize traced grammar u m e v false
    (if v.emits = true then ({ pos := pos, rest := [], stack := stack, queue := [] } : St R) else ⟨pos, [], stack, queue⟩) a = x at h1 h2 ⊢
  have h3 : x.1.blames false = true := by
    obtain ⟨y, b⟩ := x
    cases y with
    | ok t => split at h1 <;> cases h1
    | err t => rfl
    | crash => split at h1 <;> cases h1
  rw [if_pos h3]
  exact ⟨(track_reaches h2 hv _ _ _ _).1, fun h => nomatch h⟩

theorem touch_cat_left {a b : PE R} {txt : Str} (h : Touch q u v a txt) : Touch q u v (.cat a b) txt := by
  intro pos stack queue
  obtain ⟨N, hN⟩ := h pos stack queue
  refine ⟨N + 1, fun n hn t ht => ?_⟩
  obtain ⟨m, rfl⟩ : ∃ m, n = m + 1 := ⟨n - 1, by omega⟩
  have h1 := hN m (by omega) t ht
  have h2 := (traced_told (g := grammar) (u := u) m a v false ⟨pos, txt, stack, queue⟩ t ht).1
  rw [traced]
  generalize traced grammar u m a v false ⟨pos, txt, stack, queue⟩ t = x at h1 h2 ⊢
  obtain ⟨y, c⟩ := x
  cases y with
  | ok s => exact h1.grow (traced_grows m b v false s c)
  | err s => exact h1
  | crash => exact h1

theorem touch_cat {a b : PE R} {x y : Str} {P : List (Pair R) → Prop} (h1 : Eats u v a x y P) (h2 : Touch q u v b y) :
    Touch q u v (.cat a b) (x ++ y) := by
  intro pos stack queue
  obtain ⟨q, -, hq⟩ := h1 pos stack queue
  obtain ⟨M, hM⟩ := sem_settles grammar u a v ⟨pos, x ++ y, stack, queue⟩
  obtain ⟨N, hN⟩ := h2 (pos + x.length) stack (queue ++ q)
  refine ⟨M + N + 1, fun n hn t ht => ?_⟩
  obtain ⟨m, rfl⟩ : ∃ m, n = m + 1 := ⟨n - 1, by omega⟩
  have h3 := traced_run (g := grammar) (u := u) m a v false ⟨pos, x ++ y, stack, queue⟩ t
  rw [hM _ (by omega), hq] at h3
  have h4 := (traced_told (g := grammar) (u := u) m a v false ⟨pos, x ++ y, stack, queue⟩ t ht).1
  rw [traced]
  generalize traced grammar u m a v false ⟨pos, x ++ y, stack, queue⟩ t = z at h3 h4 ⊢
  obtain ⟨z, c⟩ := z
  simp only at h3
  subst h3
  have := hN m (by omega) c h4
  rw [List.length_append, ← Nat.add_assoc]
  exact this

theorem touch_alt_left {a b : PE R} {txt : Str} (h : Touch q u v a txt) : Touch q u v (.alt a b) txt := by
  intro pos stack queue
  obtain ⟨N, hN⟩ := h pos stack queue
  refine ⟨N + 1, fun n hn t ht => ?_⟩
  obtain ⟨m, rfl⟩ : ∃ m, n = m + 1 := ⟨n - 1, by omega⟩
  have h1 := hN m (by omega) t ht
  have h2 := (traced_told (g := grammar) (u := u) m a v false ⟨pos, txt, stack, queue⟩ t ht).1
  rw [traced]
  generalize traced grammar u m a v false ⟨pos, txt, stack, queue⟩ t = x at h1 h2 ⊢
  obtain ⟨y, c⟩ := x
  cases y with
  | ok s => exact h1
  | err s => exact h1.grow (traced_grows m b v false s c)
  | crash => exact h1

theorem touch_alt_right {a b : PE R} {txt : Str} (h1 : Fails u v a txt) (h2 : Touch q u v b txt) : Touch q u v (.alt a b) txt := by
  intro pos stack queue
  obtain ⟨M, hM⟩ := sem_settles grammar u a v ⟨pos, txt, stack, queue⟩
  obtain ⟨N, hN⟩ := h2 pos stack queue
  refine ⟨M + N + 1, fun n hn t ht => ?_⟩
  obtain ⟨m, rfl⟩ : ∃ m, n = m + 1 := ⟨n - 1, by omega⟩
  have h3 := traced_run (g := grammar) (u := u) m a v false ⟨pos, txt, stack, queue⟩ t
  rw [hM _ (by omega), h1] at h3
  have h4 := (traced_told (g := grammar) (u := u) m a v false ⟨pos, txt, stack, queue⟩ t ht).1
  rw [traced]
  generalize traced grammar u m a v false ⟨pos, txt, stack, queue⟩ t = z at h3 h4 ⊢
  obtain ⟨z, c⟩ := z
  simp only at h3
  subst h3
  exact hN m (by omega) c h4

theorem touch_rep {e : PE R} {txt : Str} (h : Touch q u v e txt) : Touch q u v (.rep e) txt := by
  intro pos stack queue
  obtain ⟨N, hN⟩ := h pos stack queue
  refine ⟨N + 1, fun n hn t ht => ?_⟩
  obtain ⟨m, rfl⟩ : ∃ m, n = m + 1 := ⟨n - 1, by omega⟩
  have h1 := hN m (by omega) t ht
  have h2 := (traced_told (g := grammar) (u := u) m e v false ⟨pos, txt, stack, queue⟩ t ht).1
  rw [traced]
  generalize traced grammar u m e v false ⟨pos, txt, stack, queue⟩ t = x at h1 h2 ⊢
  obtain ⟨y, c⟩ := x
  cases y with
  | ok s => exact h1.grow (traced_grows m (.rep e) v false s c)
  | err s => exact h1
  | crash => exact h1

theorem touch_rep_cons {e : PE R} {x y : Str} {P : List (Pair R) → Prop} (h1 : Eats u v e x y P) (h2 : Touch q u v (.rep e) y) :
    Touch q u v (.rep e) (x ++ y) := by
  intro pos stack queue
  obtain ⟨q, -, hq⟩ := h1 pos stack queue
  obtain ⟨M, hM⟩ := sem_settles grammar u e v ⟨pos, x ++ y, stack, queue⟩
  obtain ⟨N, hN⟩ := h2 (pos + x.length) stack (queue ++ q)
  refine ⟨M + N + 1, fun n hn t ht => ?_⟩
  obtain ⟨m, rfl⟩ : ∃ m, n = m + 1 := ⟨n - 1, by omega⟩
  have h3 := traced_run (g := grammar) (u := u) m e v false ⟨pos, x ++ y, stack, queue⟩ t
  rw [hM _ (by omega), hq] at h3
  have h4 := (traced_told (g := grammar) (u := u) m e v false ⟨pos, x ++ y, stack, queue⟩ t ht).1
  rw [traced]
  generalize traced grammar u m e v false ⟨pos, x ++ y, stack, queue⟩ t = z at h3 h4 ⊢
  obtain ⟨z, c⟩ := z
  simp only at h3
  subst h3
  have := hN m (by omega) c h4
  rw [List.length_append, ← Nat.add_assoc]
  exact this

/-! ### Sequences with separators -/

theorem eats_sepThen (L : Lawful u) {sep e : PE R} {i : Link} {t : Str} (h : LinkOk u sep e i t) :
    ∃ P, Eats u vN (sepThen sep e) (i.sep ++ (i.wa ++ (i.x ++ taken i.solo i.wb))) (left i.solo i.wb ++ t) P := by
  have e1 : (i.x ++ taken i.solo i.wb) ++ (left i.solo i.wb ++ t) = i.x ++ (i.wb ++ t) := by
    rw [List.append_assoc, taken_left]
  have h1 := eats_cat (eats_cat (y := i.wa) (rest := (i.x ++ taken i.solo i.wb) ++ (left i.solo i.wb ++ t))
    (by rw [e1]; exact h.sep) (eats_skip (v := vN) L rfl h.wa (by rw [e1]; exact h.solid))) h.item
  exact ⟨_, (eats_restore (eats_seq h1)).cast (by simp)⟩

theorem touch_links (L : Lawful u) {sep e : PE R} {z : Str} (hz : Solid u z) (ht : Touch q u vN (sepThen sep e) z) :
    ∀ (l : List Link) {w : Str}, LinksOk u sep e l z → Blank u w → Solid u (after l z) →
      Touch q u vN (.rep (.seq (.cat (.call .skip) (sepThen sep e)))) (w ++ after l z) := by
  intro l
  induction l with
  | nil =>
    intro w _ hw _
    exact touch_rep (touch_seq (touch_cat (eats_skip (v := vN) L rfl hw hz) ht))
  | cons i l ih =>
    intro w hl hw hs
    obtain ⟨P, hP⟩ := eats_sepThen L hl.1
    have e1 : (i.sep ++ (i.wa ++ (i.x ++ taken i.solo i.wb))) ++ (left i.solo i.wb ++ after l z) = after (i :: l) z := by
      simp only [after, List.append_assoc, taken_left]
    have h1 := eats_seq (eats_cat (eats_skip (v := vN) L rfl hw (rest := (i.sep ++ (i.wa ++ (i.x ++ taken i.solo i.wb))) ++
      (left i.solo i.wb ++ after l z)) (by rw [e1]; exact hs)) hP)
    have h2 := touch_rep_cons h1 (ih hl.2 (blank_left hl.1.wb i.solo) hl.1.next)
    rw [List.append_assoc, e1] at h2
    exact h2

/-- Items, and then something that ends too early. -/
theorem touch_core (L : Lawful u) {e0 sep e : PE R} {z : Str} (hz : Solid u z) (ht : Touch q u vN (sepThen sep e) z)
    (l : List Link) (hl : LinksOk u sep e l z) {x w : Str} {s : Bool} (hw : Blank u w) (hs : Solid u (after l z))
    {P : List (Pair R) → Prop} (h0 : Eats u vN e0 (x ++ taken s w) (left s w ++ after l z) P) :
    Touch q u vN (.cat (.cat e0 (.call .skip)) (sepMany sep e)) (x ++ (w ++ after l z)) := by
  have h1 := eats_cat h0 (eats_skip (v := vN) L rfl (blank_left hw s) hs)
  have h2 : Touch q u vN (sepMany sep e) (after l z) := by
    refine touch_seq (touch_opt ?_)
    cases l with
    | nil => exact touch_cat_left ht
    | cons i l =>
      obtain ⟨Q, hQ⟩ := eats_sepThen L hl.1
      have h3 := touch_cat hQ (touch_links L hz ht l hl.2 (blank_left hl.1.wb i.solo) hl.1.next)
      simp only [List.append_assoc, taken_left] at h3
      exact h3
  have h3 := touch_cat h1 h2
  simp only [List.append_assoc, taken_left] at h3
  exact h3

/-! ### Expressions -/

theorem noDec_more {a t : Str} (h : NoDec a) (ha : 2 ≤ a.length) : NoDec (a ++ t) := by
  intro c r e
  match a, ha with
  | x :: y :: a, _ =>
    cases e
    exact h _ _ rfl

theorem pieces_noDec_more (L : Lawful u) {num : Bool} {l : List Piece} (hl : PiecesOk u num l) {z : Str}
    (hz : NoDec z) : num = true → NoDec (piecesText l ++ z) := by
  intro hn
  cases l with
  | nil => exact hz
  | cons p l =>
    have h1 := pieces_noDec L hl (w := []) (r := []) blank_nil (stop_close L (.inl rfl)) hn
    rw [List.append_nil, List.append_nil] at h1
    refine noDec_more h1 ?_
    obtain ⟨c, r, hx, -⟩ := hl.2.2.2.2.1.head
    simp only [piecesText, List.length_append, List.length_cons, hx]
    omega

/-- Text after which an expression may be cut off: `w` is blank space. -/
structure CutAt (u : Uni) (w z : Str) : Prop where
  blank : Blank u w
  solid : Solid u z
  follow : Follow u (w ++ z)
  noDec : NoDec (w ++ z)

theorem pieces_links_cut (L : Lawful u) {w z : Str} (hz : CutAt u w z) : ∀ (l : List Piece) (num : Bool), PiecesOk u num l →
    LinksOk u (.call .Infix) (.call .term) (toLinks w l) z := by
  intro l
  induction l with
  | nil => exact fun _ _ => True.intro
  | cons p l ih =>
    intro num hl
    obtain ⟨h1, h2, h3, h4, h5, h6⟩ := hl
    refine ⟨⟨eats_Infix L rfl p.tok _, h3, term_head_solid L h5.head _, ?_, pieces_blank h6 hz.blank, ?_⟩, ih p.num h6⟩
    · show Eats u vN (.call .term) (p.x ++ []) (headBlank w l ++ after (toLinks w l) z) _
      rw [List.append_nil, links_text]
      exact h5.eats _ (pieces_follow L h6 hz.follow) (pieces_noDec_more L h6 hz.noDec)
    · cases l with
      | nil => exact hz.solid
      | cons p l => exact pieces_solid L h6 _

/-- An expression, blank space, and something that ends too early. -/
theorem touch_expr (L : Lawful u) {num : Bool} {x : Str} {d : Option AST} (hx : IsTerm u num x d) (l : List Piece)
    (hl : PiecesOk u num l) {w z : Str} (hz : CutAt u w z) (ht : Touch q u vN (sepThen (.call .Infix) (.call .term)) z)
    (hv : v.silent = false) : Touch q u v (.call .expr) (x ++ (piecesText l ++ (w ++ z))) := by
  have hv' : { v with atomicity := .non } = vN := by
    cases v; simp only at hv; subst hv; rfl
  refine touch_call (touch_atomic ?_)
  rw [hv']
  refine touch_rule (touch_seq ?_) (fun _ e => ?_)
  swap
  · obtain ⟨c, r, hc, -⟩ := hx.head
    rw [hc] at e
    cases e
  rw [← links_text]
  refine touch_core (s := false) L hz.solid ht (toLinks w l) (pieces_links_cut L hz l num hl) (pieces_blank hl hz.blank) ?_
    (P := Den .term buildTerm d) ?_
  · cases l with
    | nil => exact hz.solid
    | cons p l => exact pieces_solid L hl _
  · show Eats u vN (.call .term) (x ++ []) (headBlank w l ++ after (toLinks w l) z) _
    rw [List.append_nil, links_text]
    exact hx.eats _ (pieces_follow L hl hz.follow) (pieces_noDec_more L hl hz.noDec)

theorem touch_expr_term {o : Str} (h : Touch q u vN (.call .term) o) (hq : NonVoid q o) (hv : v.silent = false) : Touch q u v (.call .expr) o := by
  have hv' : { v with atomicity := .non } = vN := by
    cases v; simp only at hv; subst hv; rfl
  refine touch_call (touch_atomic ?_)
  rw [hv']
  exact touch_rule (touch_seq (touch_cat_left (touch_cat_left h))) hq

/-- At the end of the text an operator is tried. -/
theorem touch_infix : Touch false u vN (sepThen (.call .Infix) (.call .term)) [] := by
  refine touch_restore (touch_seq (touch_cat_left (touch_cat_left (touch_call ?_))))
  iterate 14 apply touch_alt_left
  exact touch_end (by decide) rfl (fails_nil (by decide))

/-! ### Items -/

theorem mores_front {β : Type} {z : Str} (hz : HeadIn itemEnds z) (l : List (More β)) : HeadIn itemEnds (moresText l z) := by
  cases l with
  | nil => exact hz
  | cons m l =>
    rw [moresText]
    cases m.b
    · exact .inr ⟨',', _, rfl, by decide⟩
    · exact .inr ⟨'，', _, rfl, by decide⟩

theorem mores_links_cut {β : Type} (L : Lawful u) {e : PE R} {P : Option β → List (Pair R) → Prop} {z : Str}
    (hz : HeadIn itemEnds z) : ∀ l : List (More β), MoresOk u e P l → LinksOk u (.call .Comma) e (l.map (More.link P)) z := by
  intro l
  induction l with
  | nil => exact fun _ => True.intro
  | cons m l ih =>
    intro h
    obtain ⟨h1, h2, h3⟩ := h m (by simp)
    refine ⟨⟨eats_Comma rfl m.b _, h1, h3.solid _, ?_, h2, ?_⟩, ih fun m' hm => h m' (by simp [hm])⟩
    · rw [mores_text]
      exact h3.eats _ _ h2 (mores_front hz l)
    · rw [mores_text]
      exact itemEnds_solid L (mores_front hz l)

theorem touch_comma (L : Lawful u) {e : PE R} {b : Bool} {w o : Str} (hw : Blank u w) (hs : Solid u o) (h : Touch q u vN e o) :
    Touch q u vN (sepThen (.call .Comma) e) (commaText b ++ (w ++ o)) := by
  rw [← List.append_assoc]
  exact touch_restore (touch_seq (touch_cat (eats_cat (eats_Comma rfl b (w ++ o)) (eats_skip (v := vN) L rfl hw hs)) h))

/-- Items, a comma, and an item that ends too early. -/
theorem touch_items {β : Type} (L : Lawful u) {e0 e : PE R} {P : Option β → List (Pair R) → Prop} {l : List (More β)}
    (hl : MoresOk u e P l) {x wb : Str} {solo : Bool} (hwb : Blank u wb) {Q : List (Pair R) → Prop}
    (h0 : ∀ r, HeadIn itemEnds r → Eats u vN e0 (x ++ taken solo wb) (left solo wb ++ r) Q) {b : Bool} {w o : Str}
    (hw : Blank u w) (hs : Solid u o) (h : Touch q u vN e o) :
    Touch q u vN (.cat (.cat e0 (.call .skip)) (sepMany (.call .Comma) e)) (x ++ (wb ++ moresText l (commaText b ++ (w ++ o)))) := by
  have hz : HeadIn itemEnds (commaText b ++ (w ++ o)) := by
    cases b
    · exact .inr ⟨',', _, rfl, by decide⟩
    · exact .inr ⟨'，', _, rfl, by decide⟩
  rw [← mores_text P]
  refine touch_core L (itemEnds_solid L hz) (touch_comma L hw hs h) _ (mores_links_cut L hz l hl) hwb ?_ (by
    rw [mores_text]; exact h0 _ (mores_front hz l))
  rw [mores_text]
  exact itemEnds_solid L (mores_front hz l)

/-! ### Unfinished expressions -/

/-- What is missing its end: a term, an expression, an argument, an index. -/
inductive Slot where
  | term
  | expr
  | arg
  | index

/-- What comes before the last item between brackets: nothing, or items and a comma (`b` says which). -/
abbrev Lead := Option (SItem × List SItem × Bool)

/-- How they are written, and what follows. -/
def leadText : Lead → Str → Str
  | none, t => t
  | some (i, l, b), t => i.text ++ itemsText l (commaText b ++ t)

/-- They are of the given kind. -/
def LeadOk (u : Uni) (kind : SContent → Bool) : Lead → Prop
  | none => True
  | some (i, l, _) => i.Ok u kind ∧ ItemsOk u kind l

/-- Texts that end before the expression in them does.  With `true`, only those that break off behind an infix operator. -/
inductive Unfinished (u : Uni) : Bool → Slot → Str → Prop
  /-- Nothing at all. -/
  | missing : Unfinished u false .term []
  /-- A sign before it. -/
  | signed (p : Pre) {q : Bool} {o : Str} : Unfinished u q .term o → Unfinished u q .term (p.char :: o)
  /-- A parenthesis that is not closed. -/
  | paren {q : Bool} {o : Str} : Unfinished u q .expr o → Unfinished u q .term ('(' :: o)
  /-- A list that is not closed. -/
  | list {q : Bool} {ld : Lead} {w o : Str} : LeadOk u SContent.isExpr ld → Blank u w → Unfinished u q .expr o →
      Unfinished u q .term ('[' :: leadText ld (w ++ o))
  /-- A call whose last argument list is not closed. -/
  | call {q : Bool} {p : Path} {l : List SArgs} {h : Str} {ld : Lead} {w o : Str} : p.Ok u → ArgsOk u l → (∀ c ∈ h, HWs u c) →
      LeadOk u SContent.isArg ld → Blank u w → Unfinished u q .arg o →
      Unfinished u q .term (p.text ++ (argsText l ++ (h ++ '(' :: leadText ld (w ++ o))))
  /-- An operand whose last index is not closed. -/
  | indexed {q : Bool} {t : STerm} {h : Str} {ld : Lead} {w o : Str} : t.Ok u → (∀ c ∈ h, HWs u c) → LeadOk u SContent.isIndex ld →
      Blank u w → Unfinished u q .index o → Unfinished u q .term (t.text ++ (h ++ '[' :: leadText ld (w ++ o)))
  /-- A term that is not finished is an expression that is not finished. -/
  | alone {q : Bool} {o : Str} : Unfinished u q .term o → Unfinished u q .expr o
  /-- An operator, and after it a term that is not finished. -/
  | «infix» {q : Bool} {e : SExpr} {wb wa o : Str} {t : Tok} : e.Ok u → Blank u wb → Blank u wa → (t = .op .slash → ∀ r, wa ≠ '/' :: r) →
      (t = .op .dot → wb = [] → ∀ c r, wa ++ o = c :: r → ¬ IsDigit c) → Unfinished u q .term o → Unfinished u q .expr (e.text ++ (wb ++ t.char :: (wa ++ o)))
  /-- An operator, and nothing after it. -/
  | dangling {q : Bool} {e : SExpr} {wb wa : Str} {t : Tok} : e.Ok u → Blank u wb → Blank u wa →
      (t = .op .slash → ∀ r, wa ≠ '/' :: r) → (t = .op .dot → wb = [] → ∀ c r, wa = c :: r → ¬ IsDigit c) →
      Unfinished u q .expr (e.text ++ (wb ++ t.char :: wa))
  /-- An expression that could go on. -/
  | done {e : SExpr} {w : Str} : e.Ok u → Blank u w → Unfinished u false .expr (e.text ++ w)
  /-- A positional argument. -/
  | plain {q : Bool} {o : Str} : Unfinished u q .expr o → Unfinished u q .arg o
  /-- A named argument. -/
  | named {q : Bool} {k w1 w2 o : Str} {b : Bool} : IsIdent u k → Blank u w1 → Blank u w2 → Unfinished u q .expr o →
      Unfinished u q .arg (k ++ (w1 ++ (colonText b ++ (w2 ++ o))))
  /-- An index. -/
  | single {q : Bool} {o : Str} : Unfinished u q .expr o → Unfinished u q .index o
  /-- A span. -/
  | span {q : Bool} {s : SPart} {b : Bool} {w o : Str} : s.Ok u (colonText b ++ (w ++ o)) → Blank u w → Unfinished u q .expr o →
      Unfinished u q .index (s.text ++ (colonText b ++ (w ++ o)))

/-- Such a text is empty or begins as a term does. -/
def Begun (u : Uni) (o : Str) : Prop := o = [] ∨ ∃ c r, o = c :: r ∧ (IdStart u c ∨ c ∈ termChars)

/-- How it is read. -/
def Holed (q : Bool) (u : Uni) : Slot → Str → Prop
  | .term, o => Begun u o ∧ (∀ ps : List Pre, Touch q u vN (.call .term) (ps.map Pre.char ++ o)) ∧ Fails u vN kvAlt o ∧ NonVoid q o
  | .expr, o => Begun u o ∧ (∀ v : Env, v.silent = false → Touch q u v (.call .expr) o) ∧ Fails u vN kvAlt o ∧ NonVoid q o
  | .arg, o => Begun u o ∧ Touch q u vN (.call .apply_kv) o ∧ NonVoid q o
  | .index, o => Solid u o ∧ Touch q u vN (.call .index) o ∧ NonVoid q o

theorem Begun.solid (L : Lawful u) {o : Str} (h : Begun u o) : Solid u o := by
  rcases h with rfl | h
  · exact close_solid L (.inl rfl)
  · rw [← List.append_nil o]
    exact term_head_solid L h []

/-- From an operand that is not finished to a term. -/
theorem touch_term (L : Lawful u) {o : Str} (h1 : Fails u vC (.call .Prefix) o) (h2 : Touch q u vC (.call .node) o) (hq : NonVoid q o) (ps : List Pre) :
    Touch q u vN (.call .term) (ps.map Pre.char ++ o) :=
  touch_call (touch_atomic (touch_rule (touch_seq (touch_cat_left (touch_cat (eats_prefixes (v := vC) L rfl h1 ps) h2)))
    (fun h e => hq h (List.append_eq_nil_iff.1 e).2)))

theorem pre_plain (p : Pre) : Plain p.char ∧ asciiUni .xidStart p.char = false ∧ p.char ≠ '_' ∧ p.char ∈ termChars := by
  cases p <;> decide

/-- White space in front of a bracket: not the rest of a name, and not a path. -/
theorem noCont_bracket (L : Lawful u) {h z : Str} {c : Char} (hh : ∀ d ∈ h, HWs u d) (hc : c ∈ ['(', '[']) : NoCont u (h ++ c :: z) := by
  refine noCont_blank L (blank_ws fun d hd => (hh d hd).1) ?_
  intro d r e
  cases e
  have key : ∀ c ∈ ['(', '['], Plain c ∧ asciiUni .xidContinue c = false := by decide
  rw [L.plain _ _ (key c hc).1]; exact (key c hc).2

theorem holed_missing (L : Lawful u) : Holed false u .term [] := by
  refine ⟨.inl rfl, touch_term L (fails_nil (by decide)) (touch_end (by decide) rfl (fails_nil (by decide))) (fun h => nomatch h), ?_,
    fun h => nomatch h⟩
  exact fails_kv_plain L (fun _ _ e => nomatch e)

theorem holed_signed (L : Lawful u) (p : Pre) {o : Str} (h : Holed q u .term o) : Holed q u .term (p.char :: o) := by
  obtain ⟨-, h2, -⟩ := h
  obtain ⟨p1, p2, p3, p4⟩ := pre_plain p
  refine ⟨.inr ⟨_, _, rfl, .inr p4⟩, fun ps => ?_, ?_, fun _ e => nomatch e⟩
  · have := h2 (ps ++ [p])
    simpa using this
  · refine fails_kv_plain L ?_
    rintro c r e
    cases e
    exact not_idStart L p1 p2 p3

theorem holed_paren (L : Lawful u) {o : Str} (h : Holed q u .expr o) : Holed q u .term ('(' :: o) := by
  refine ⟨.inr ⟨_, _, rfl, .inr (by decide)⟩, touch_term L (fails_plain L (by decide) _) ?_ (fun _ e => nomatch e),
    fails_kv_mark L (x := ['(']) ⟨_, _, rfl, by decide⟩ o, fun _ e => nomatch e⟩
  refine touch_call (touch_rule ?_)
  refine touch_alt_left (touch_alt_left (touch_alt_left (touch_alt_left (touch_restore (touch_seq ?_)))))
  refine touch_cat_left (touch_cat_left ?_)
  exact touch_cat (x := ['(']) (eats_cat (x := ['(']) (y := []) (eats_str ['('] o) (eats_skip_off (v := vC) (by decide) o)) (h.2.1 vC rfl)

/-- What stands after an opening bracket, up to the item that is not finished. -/
theorem lead_cases {kind : SContent → Bool} (L : Lawful u) {ld : Lead} (hld : LeadOk u kind ld) (t : Str) :
    leadText ld t = t ∨ ∃ (wa : Str) (c : SContent) (wb : Str) (l : List SItem) (b : Bool),
      leadText ld t = wa ++ (c.text ++ (wb ++ itemsText l (commaText b ++ t))) ∧ Blank u wa ∧ Blank u wb ∧ kind c = true ∧
      ContentRead u c ∧ ∀ i ∈ l, ItemRead u kind i := by
  cases ld with
  | none => exact .inl rfl
  | some m =>
    obtain ⟨i, l, b⟩ := m
    have h1 := SItem.read L kind i hld.1
    have h2 := items_read L kind l hld.2
    obtain ⟨b', wa, c, wb⟩ := i
    obtain ⟨h3, h4, h5, h6⟩ := h1
    refine .inr ⟨wa, c, wb, l, b, ?_, h3, h4, h5, h6, h2⟩
    simp only [leadText, SItem.text, List.append_assoc]

theorem holed_list (L : Lawful u) {ld : Lead} {w o : Str} (hld : LeadOk u SContent.isExpr ld) (hw : Blank u w)
    (h : Holed q u .expr o) : Holed q u .term ('[' :: leadText ld (w ++ o)) := by
  have hs := h.1.solid L
  refine ⟨.inr ⟨_, _, rfl, .inr (by decide)⟩, touch_term L (fails_plain L (by decide) _) ?_ (fun _ e => nomatch e),
    fails_kv_mark L (x := ['[']) ⟨_, _, rfl, by decide⟩ _, fun _ e => nomatch e⟩
  have key : ∀ T, Touch q u vN listPE ('[' :: T) → Touch q u vC (.call .node) ('[' :: T) := by
    intro T hT
    refine touch_call (touch_rule (touch_alt_right ?_ ?_))
    · refine fails_alt (fails_alt (fails_alt (fails_restore (fails_seq ?_)) (fails_restore (fails_plain L (by decide) _)))
        (fails_restore (fails_plain L (by decide) _))) (fails_restore (fails_plain L (by decide) _))
      exact breaks_cat (breaks_cat (breaks_cat (breaks_cat (fails_str rfl).breaks)))
    · refine touch_restore (touch_call (touch_atomic (touch_rule ?_)))
      iterate 6 apply touch_alt_left
      exact touch_alt_right (fails_restore (fails_plain L (by decide) _)) (touch_restore (touch_call (touch_atomic (touch_rule (touch_seq hT)))))
  refine key _ ?_
  have first : ∀ {w : Str} {z : Str} {e : PE R}, Blank u w → Solid u z → (∀ r, z ≠ ']' :: r) → Touch q u vN e z →
      Touch q u vN (.cat (.cat (.str c!"[") (.call .skip)) (.alt (.str c!"]") e)) ('[' :: (w ++ z)) := by
    intro w z e hw hz hne ht
    have := touch_cat (eats_cat (u := u) (v := vN) (eats_str ['['] (w ++ z)) (eats_skip L rfl hw hz)) (touch_alt_right (a := .str c!"]") (fails_str (by
      cases z with
      | nil => rfl
      | cons c r =>
        have : ']' ≠ c := fun e => hne r (by rw [e])
        simp [strip, this])) ht)
    simpa using this
  have nobr : ∀ {x : Str}, Begun u x → ∀ t r, x ≠ [] → x ++ t ≠ ']' :: r := by
    rintro x hx t r hn e
    rcases hx with rfl | ⟨c, r', rfl, hc⟩
    · exact hn rfl
    · have := (List.cons.inj e).1
      subst this
      rcases hc with hc | hc
      · exact not_idStart L (by decide) (by decide) (by decide) hc
      · revert hc; decide
  rcases lead_cases L hld (w ++ o) with e | ⟨wa, c, wb, l, b, e, h1, h2, h3, h4, h5⟩
  · rw [e]
    refine first hw hs ?_ (touch_restore (touch_seq ?_))
    · intro r e
      have := nobr h.1 [] r
      rw [List.append_nil] at this
      refine this ?_ e
      rintro rfl
      cases e
    · iterate 6 apply touch_cat_left
      exact h.2.1 vN rfl
  · rw [e]
    have hc := h4.1 h3
    have ht := touch_items (P := DenB erase .expr buildExpr) L (e0 := .call .expr) (e := .call .expr) (l := l.map SItem.more) (by
      intro m hm
      obtain ⟨i, hi, rfl⟩ := List.mem_map.1 hm
      have := h5 i hi
      obtain ⟨b, wa, c, wb⟩ := i
      exact ⟨this.1, this.2.1, (this.2.2.2.1 this.2.2.1).item L⟩) h2 (fun r hr => (hc.item L).eats wb r h2 hr) (b := b) hw hs (h.2.1 vN rfl)
    rw [items_more] at ht
    refine first h1 (term_head_solid L hc.head _) ?_ (touch_restore (touch_seq ?_))
    · intro r
      refine nobr (.inr hc.head) _ r ?_
      obtain ⟨c', r', e, -⟩ := hc.head
      rw [e]
      exact fun h => nomatch h
    · iterate 4 apply touch_cat_left
      exact ht

theorem touch_apply (L : Lawful u) {ld : Lead} {w o : Str} (hld : LeadOk u SContent.isArg ld) (hw : Blank u w)
    (h : Holed q u .arg o) : Touch q u vC (.call .apply) ('(' :: leadText ld (w ++ o)) := by
  have hs := h.1.solid L
  refine touch_call (touch_atomic (touch_rule (touch_seq ?_)))
  rcases lead_cases L hld (w ++ o) with e | ⟨wa, c, wb, l, b, e, h1, h2, h3, h4, h5⟩
  · rw [e]
    iterate 6 apply touch_cat_left
    have := touch_cat (eats_cat (u := u) (v := vN) (eats_str ['('] (w ++ o)) (eats_skip L rfl hw hs))
      (touch_opt (touch_restore h.2.1))
    exact this.cast (by simp)
  · rw [e]
    have hc := h4.2.1 h3
    have ht := touch_items (P := DenB erase2 .apply_kv buildKv) L (e0 := .cat (.cat (.str c!"(") (.call .skip)) (.opt (.restore (.call .apply_kv))))
      (e := .call .apply_kv) (l := l.map SItem.moreArg) (x := '(' :: (wa ++ c.text)) (solo := c.solo) (by
      intro m hm
      obtain ⟨i, hi, rfl⟩ := List.mem_map.1 hm
      have := h5 i hi
      obtain ⟨b, wa, c, wb⟩ := i
      exact ⟨this.1, this.2.1, this.2.2.2.2.1 this.2.2.1⟩) h2 (fun r hr => (eats_cat (eats_cat (u := u) (v := vN) (eats_str ['('] _) (eats_skip L rfl h1 (by
          rw [List.append_assoc]; exact hc.solid _))) (eats_opt (eats_restore (hc.eats wb r h2 hr)))).cast (by simp)) (b := b) hw hs h.2.1
    rw [items_moreArg] at ht
    iterate 4 apply touch_cat_left
    exact ht.cast (by simp)

theorem touch_slice (L : Lawful u) {ld : Lead} {w o : Str} (hld : LeadOk u SContent.isIndex ld) (hw : Blank u w)
    (h : Holed q u .index o) : Touch q u vC (.call .slice) ('[' :: leadText ld (w ++ o)) := by
  have hs := h.1
  refine touch_call (touch_atomic (touch_rule (touch_seq ?_)))
  rcases lead_cases L hld (w ++ o) with e | ⟨wa, c, wb, l, b, e, h1, h2, h3, h4, h5⟩
  · rw [e]
    iterate 6 apply touch_cat_left
    have := touch_cat (eats_cat (u := u) (v := vN) (eats_str ['['] (w ++ o)) (eats_skip L rfl hw hs)) h.2.1
    exact this.cast (by simp)
  · rw [e]
    have hc := h4.2.2.1 h3
    have ht := touch_items (P := DenB erase .index buildIndex) L (e0 := .cat (.cat (.str c!"[") (.call .skip)) (.call .index))
      (e := .call .index) (l := l.map SItem.more) (x := '[' :: (wa ++ c.text)) (solo := c.solo) (by
      intro m hm
      obtain ⟨i, hi, rfl⟩ := List.mem_map.1 hm
      have := h5 i hi
      obtain ⟨b, wa, c, wb⟩ := i
      exact ⟨this.1, this.2.1, this.2.2.2.2.2.1 this.2.2.1⟩) h2 (fun r hr => (eats_cat (eats_cat (u := u) (v := vN) (eats_str ['['] _) (eats_skip L rfl h1 (by
          rw [List.append_assoc]; exact hc.solid _))) (hc.eats wb r h2 hr)).cast (by simp)) (b := b) hw hs h.2.1
    rw [items_more] at ht
    iterate 4 apply touch_cat_left
    exact ht.cast (by simp)

theorem touch_hspace (L : Lawful u) {h z : Str} {c : Char} {e : PE R} (hh : ∀ d ∈ h, HWs u d) (hc : c ∈ ['(', '['])
    (ht : Touch q u vC e (c :: z)) : Touch q u vC (.cat hspace e) (h ++ c :: z) := by
  refine touch_cat (eats_hspace L ?_ h hh) ht
  intro d t' e
  cases e
  have key : ∀ c ∈ ['(', '['], notHws c = true := by decide
  exact not_hws L (key c hc)

theorem holed_call (L : Lawful u) {p : Path} {l : List SArgs} {h : Str} {ld : Lead} {w o : Str} (hp : p.Ok u) (hl : ArgsOk u l)
    (hh : ∀ c ∈ h, HWs u c) (hld : LeadOk u SContent.isArg ld) (hw : Blank u w) (ho : Holed q u .arg o) :
    Holed q u .term (p.text ++ (argsText l ++ (h ++ '(' :: leadText ld (w ++ o)))) := by
  have ha := touch_apply L hld hw ho
  obtain ⟨l', e1, -, h1⟩ := args_read L l hl
  rw [← e1]
  clear e1
  generalize leadText ld (w ++ o) = z at ha ⊢
  -- the text after the name begins with a parenthesis
  have hd : ∃ g y, argListsText l' ++ (h ++ '(' :: z) = g ++ '(' :: y ∧ ∀ c ∈ g, HWs u c := by
    cases l' with
    | nil => exact ⟨h, z, rfl, hh⟩
    | cons a l' =>
      obtain ⟨y, e⟩ := argList_head (h1 a (by simp)) l' (h ++ '(' :: z)
      exact ⟨a.h, y, e, (h1 a (by simp)).1⟩
  obtain ⟨g, y, e, hg⟩ := hd
  have nc : NoCont u (argListsText l' ++ (h ++ '(' :: z)) := by rw [e]; exact noCont_bracket L hg (by decide)
  have np : NoPath u (argListsText l' ++ (h ++ '(' :: z)) := by rw [e]; exact noPath_split L hg (by decide) (by decide)
  obtain ⟨c, r, hc, hc'⟩ := hp.start
  have hq : NonVoid q (p.text ++ (argListsText l' ++ (h ++ '(' :: z))) := by rw [hc]; exact fun _ e => nomatch e
  refine ⟨.inr ⟨c, r ++ (argListsText l' ++ (h ++ '(' :: z)), by rw [hc]; rfl, .inl hc'⟩, touch_term L ?_ ?_ hq, ?_, hq⟩
  · rw [hc]; exact fails_id L hc' (by decide) _
  · refine touch_call (touch_rule ?_)
    refine touch_alt_left (touch_alt_left (touch_alt_left (touch_alt_right (fails_restore (fails_seq ?_)) (touch_restore (touch_call (touch_atomic
      (touch_rule (touch_seq ?_) hq))))))) 
    · refine breaks_cat (breaks_cat (breaks_cat (breaks_cat (fails_str ?_).breaks)))
      have : '(' ≠ c := by
        rintro rfl
        exact not_idStart L (by decide) (by decide) (by decide) hc'
      simp [hc, strip, this]
    · have hsym := eats_Symbol (v := vC) L hp nc np rfl
      have last := touch_hspace L hh (by decide) ha
      cases l' with
      | nil => exact touch_cat_left (touch_cat hsym (touch_seq last))
      | cons a l' =>
        have e2 : argListsText (a :: l') ++ (h ++ '(' :: z) = (a.h ++ a.y) ++ (argListsText l' ++ (h ++ '(' :: z)) := by
          simp [argListsText]
        rw [e2] at hsym ⊢
        have := touch_cat (q := q) (eats_cat hsym (eats_seq (eats_argList L (h1 a (by simp)) (argListsText l' ++ (h ++ '(' :: z)))))
          (b := .rep (.restore (.seq (.cat hspace (.call .apply))))) ?_
        · exact this.cast (by simp)
        · have h2 : ArgListsOk u l' := fun b hb => h1 b (by simp [hb])
          clear hsym e2 nc np e h1 hq
          induction l' with
          | nil => exact touch_rep (touch_restore (touch_seq last))
          | cons a l' ih =>
            have e3 : argListsText (a :: l') ++ (h ++ '(' :: z) = (a.h ++ a.y) ++ (argListsText l' ++ (h ++ '(' :: z)) := by
              simp [argListsText]
            rw [e3]
            exact touch_rep_cons (eats_restore (eats_seq (eats_argList L (h2 a (by simp)) _))) (ih fun b hb => h2 b (by simp [hb]))
  · refine noCont_path_kv L hp nc ?_
    rw [e]
    refine ⟨g, '(' :: y, rfl, blank_ws fun c hc => (hg c hc).1, solid_cons L (by decide) (by decide) (by decide) (by decide) y, ?_⟩
    intro c r e
    cases e
    decide

theorem touch_sfxs (L : Lawful u) {h z : Str} (hh : ∀ d ∈ h, HWs u d) (ht : Touch q u vC (.call .slice) ('[' :: z)) :
    ∀ l : List (Str × (AST → Option AST)), SfxsOk u l → Touch q u vC (.rep sfx) (sfxText l ++ (h ++ '[' :: z)) := by
  have ne : ∀ d, d ≠ '[' → notHws d = true → ∀ r, h ++ '[' :: z ≠ d :: r := by
    intro d hd hd2 r e
    cases h with
    | nil => exact hd (List.cons.inj e).1.symm
    | cons a h => exact hws_ne L (hh a (by simp)) hd2 (List.cons.inj e).1
  intro l
  induction l with
  | nil =>
    intro _
    refine touch_rep (touch_alt_right (fails_Suffix ?_ ?_ ?_) (touch_restore (touch_seq (touch_hspace L hh (by decide) ht)))) <;>
      exact ne _ (by decide) (by decide)
  | cons s l ih =>
    rintro ⟨h1, h2, h3⟩
    have e : sfxText (s :: l) ++ (h ++ '[' :: z) = s.1 ++ (sfxText l ++ (h ++ '[' :: z)) := by simp [sfxText]
    rw [e]
    refine touch_rep_cons (h1.eats (sfxText l ++ (h ++ '[' :: z)) ?_) (ih h3)
    refine sfx_apart L h2 h3 ?_
    intro c hc
    refine ne _ ?_ (clash_char hc).1
    rintro rfl
    unfold clash at hc
    split at hc <;> cases hc

theorem holed_indexed (L : Lawful u) {t : STerm} {h : Str} {ld : Lead} {w o : Str} (ht : t.Ok u) (hh : ∀ c ∈ h, HWs u c)
    (hld : LeadOk u SContent.isIndex ld) (hw : Blank u w) (ho : Holed q u .index o) :
    Holed q u .term (t.text ++ (h ++ '[' :: leadText ld (w ++ o))) := by
  have hs := touch_slice L hld hw ho
  obtain ⟨c, r, hc, hc'⟩ := (STerm.read L t ht).head
  obtain ⟨ps, n, l⟩ := t
  rw [STerm.Ok] at ht
  have hn := SNode.read L n ht.1
  have hl := sufs_read L l ht.2
  generalize leadText ld (w ++ o) = z at hs ⊢
  rw [STerm.text, ← sufs_text] at hc ⊢
  generalize l.map SSuf.pair = m at hl hc ⊢
  have hends : Ends u (sfxText m ++ (h ++ '[' :: z)) := by
    have np : NoPrime u (sfxText m ++ (h ++ '[' :: z)) := sfx_noPrime L hl (S := ['[']) ⟨h, '[' :: z, rfl, hh, .inr ⟨_, _, rfl, by decide⟩⟩
      (by decide) (by decide) (by decide)
    cases m with
    | nil => exact ⟨⟨h, '[' :: z, rfl, hh, .inr ⟨_, _, rfl, by decide⟩⟩, noPath_split L hh (by decide) (by decide), np⟩
    | cons s m =>
      obtain ⟨g, c, y, e, hg, hc⟩ := sfx_head hl (h ++ '[' :: z)
      rw [e] at np ⊢
      obtain ⟨h1, h2, h3⟩ := sfxChars_stops c hc
      exact ⟨⟨g, c :: y, rfl, hg, .inr ⟨c, y, rfl, h1⟩⟩, noPath_split L hg h2 h3, np⟩
  have hdec : NoDec (sfxText m ++ (h ++ '[' :: z)) := by
    cases m with
    | cons s m => exact sfx_noDec L hl _
    | nil =>
      intro d r e
      exfalso
      cases h with
      | nil => exact absurd (List.cons.inj e).1 (by decide)
      | cons a h => exact hws_first L (hh a (by simp)) (d := '.') (by decide) (by decide) (List.cons.inj e).1
  have hpre : Fails u vC (.call .Prefix) (n.text ++ (sfxText m ++ (h ++ '[' :: z))) := by
    obtain ⟨c, t, hxe, hc⟩ := hn.head
    rw [hxe]
    rcases hc with hc | hc
    · exact fails_id L hc (by decide) _
    · have key : ∀ c ∈ operandChars, noStart .Prefix c = true := by decide
      exact fails_plain L (key c hc) _
  refine ⟨.inr ⟨c, r ++ (h ++ '[' :: z), by rw [hc]; rfl, hc'⟩, fun qs => ?_, ?_, by rw [hc]; exact fun _ e => nomatch e⟩
  · have h1 := touch_cat (eats_cat (eats_prefixes (v := vC) L rfl hpre (qs ++ ps)) (hn.eats _ hends fun _ => hdec)) (touch_sfxs L hh hs m hl)
    exact touch_call (touch_atomic (touch_rule (touch_seq (h1.cast (by simp)))))
  · cases ps with
    | nil =>
      rw [List.map_nil, List.nil_append, List.append_assoc]
      refine hn.kv _ hends (sfx_noColon L hl ?_)
      refine ⟨h, '[' :: z, rfl, blank_ws fun c hc => (hh c hc).1, solid_cons L (by decide) (by decide) (by decide) (by decide) z, ?_⟩
      intro c r e
      cases e
      decide
    | cons p ps =>
      refine fails_kv_plain L ?_
      intro c' r e
      cases e
      obtain ⟨h1, h2, h3, -⟩ := pre_plain p
      exact not_idStart L h1 h2 h3

/-- Under a record that grows, at its own position the number of names does not sink. -/
theorem Grows.at_le {a b : Tries R} (h : Grows a b) {p : Nat} (hp : b.pos = p) : a.at p ≤ b.at p := by
  unfold Tries.at
  rw [if_pos hp]
  split
  next ha =>
    rcases h with h | ⟨-, h1, h2⟩
    · omega
    · exact Nat.add_le_add h1.length_le h2.length_le
  · exact Nat.zero_le _

/-- On the empty text `e` adds at least `k` names, unless the record is further on. -/
def Adds (k : Nat) (u : Uni) (v : Env) (e : PE R) : Prop :=
  ∀ pos stack queue, ∃ N, ∀ n, N ≤ n → ∀ a : Tries R,
    pos < (traced grammar u n e v false ⟨pos, [], stack, queue⟩ a).2.pos ∨
    (traced grammar u n e v false ⟨pos, [], stack, queue⟩ a).2.pos = pos ∧
      a.at pos + k ≤ (traced grammar u n e v false ⟨pos, [], stack, queue⟩ a).2.at pos

theorem track_adds {a b : Tries R} (h : Grows a b) {t : Atomicity} (ht : t ≠ .atomic) (r : R) (p : Nat) :
    p < (b.track t false r p a).pos ∨ (b.track t false r p a).pos = p ∧ a.at p + 1 ≤ (b.track t false r p a).at p := by
  rcases Nat.lt_trichotomy p b.pos with hp | hp | hp
  · rw [track_before hp]
    exact .inl hp
  · right
    unfold Tries.track
    rw [if_neg ht]
    split
    next e => exact ⟨hp.symm, Nat.le_of_eq e.symm⟩
    · have h2 : ¬ p > b.pos := by omega
      by_cases ha : p = a.pos
      · have hg : a.wanted <+: b.wanted ∧ a.unwanted <+: b.unwanted := by
          rcases h with h | ⟨-, h⟩
          · omega
          · exact h
        have l1 := hg.1.length_le
        have l2 := hg.2.length_le
        simp only [if_pos hp, if_pos ha, if_neg h2, if_false, Bool.false_eq_true]
        refine ⟨hp.symm, ?_⟩
        simp only [Tries.at, if_pos hp.symm, if_pos ha.symm, List.length_append, List.length_take, List.length_singleton]
        omega
      · have ha' : ¬ a.pos = p := fun e => ha e.symm
        simp only [if_pos hp, if_neg ha, if_neg h2, if_false, Bool.false_eq_true]
        refine ⟨hp.symm, ?_⟩
        simp [Tries.at, if_pos hp.symm, if_neg ha']
  · right
    have hb : ¬ p = b.pos := by omega
    have ha : ¬ p = a.pos := by have := h.pos; omega
    have ha' : ¬ a.pos = p := fun e => ha e.symm
    have hb' : ¬ b.pos = p := fun e => hb e.symm
    unfold Tries.track
    have h0 : ¬ b.at p = a.at p + 1 := by simp [Tries.at, if_neg hb']
    rw [if_neg ht, if_neg h0]
    simp [if_neg hb, if_pos hp, Tries.at, if_neg ha']

theorem adds_end {r r' : R} {e : PE R} (hv : v.atomicity ≠ .atomic) (hg : grammar r = .rule r' e)
    (h : Fails u v (.call r) []) : Adds 1 u v (.call r) := by
  intro pos stack queue
  obtain ⟨N, hN⟩ := sem_settles grammar u (.call r) v ⟨pos, [], stack, queue⟩
  refine ⟨N + 2, fun n hn a => ?_⟩
  obtain ⟨m, rfl⟩ : ∃ m, n = m + 2 := ⟨n - 2, by omega⟩
  have h1 := traced_run (g := grammar) (u := u) (m + 2) (.call r) v false ⟨pos, [], stack, queue⟩ a
  rw [hN _ (by omega), h pos stack queue] at h1
  rw [traced, hg, traced] at h1 ⊢
  dsimp only at h1 ⊢
  have h2 := traced_grows (u := u) m e v false
    (if v.emits = true then ({ pos := pos, rest := [], stack := stack, queue := [] } : St R) else ⟨pos, [], stack, queue⟩) a
  generalize traced grammar u m e v false
    (if v.emits = true then ({ pos := pos, rest := [], stack := stack, queue := [] } : St R) else ⟨pos, [], stack, queue⟩) a = x at h1 h2 ⊢
  have h3 : x.1.blames false = true := by
    obtain ⟨y, b⟩ := x
    cases y with
    | ok t => split at h1 <;> cases h1
    | err t => rfl
    | crash => split at h1 <;> cases h1
  rw [if_pos h3]
  exact track_adds h2 hv r' pos

theorem adds_rep {k : Nat} {e : PE R} (h : Adds k u v e) : Adds k u v (.rep e) := by
  intro pos stack queue
  obtain ⟨N, hN⟩ := h pos stack queue
  refine ⟨N + 1, fun n hn a => ?_⟩
  obtain ⟨m, rfl⟩ : ∃ m, n = m + 1 := ⟨n - 1, by omega⟩
  have h1 := hN m (by omega) a
  rw [traced]
  generalize traced grammar u m e v false ⟨pos, [], stack, queue⟩ a = x at h1 ⊢
  obtain ⟨y, c⟩ := x
  cases y with
  | err s => exact h1
  | crash => exact h1
  | ok s =>
    have h2 := traced_grows (u := u) m (.rep e) v false s c
    dsimp only at h1 ⊢
    generalize (traced grammar u m (.rep e) v false s c).2 = d at h2 ⊢
    have h3 := h2.pos
    rcases Nat.lt_or_ge pos d.pos with hd | hd
    · exact .inl hd
    · rcases h1 with h1 | ⟨h1, h4⟩
      · omega
      · have := h2.at_le (p := pos) (by omega)
        exact .inr ⟨by omega, by omega⟩

theorem adds_more {k : Nat} {pos : Nat} {a b c : Tries R} (h : pos < b.pos ∨ b.pos = pos ∧ a.at pos + k ≤ b.at pos) (g : Grows b c) :
    pos < c.pos ∨ c.pos = pos ∧ a.at pos + k ≤ c.at pos := by
  have h3 := g.pos
  rcases Nat.lt_or_ge pos c.pos with hd | hd
  · exact .inl hd
  · rcases h with h1 | ⟨h1, h4⟩
    · omega
    · have := g.at_le (p := pos) (by omega)
      exact .inr ⟨by omega, by omega⟩

theorem adds_cat_left {k : Nat} {e f : PE R} (h : Adds k u v e) : Adds k u v (.cat e f) := by
  intro pos stack queue
  obtain ⟨N, hN⟩ := h pos stack queue
  refine ⟨N + 1, fun n hn a => ?_⟩
  obtain ⟨m, rfl⟩ : ∃ m, n = m + 1 := ⟨n - 1, by omega⟩
  have h1 := hN m (by omega) a
  rw [traced]
  generalize traced grammar u m e v false ⟨pos, [], stack, queue⟩ a = x at h1 ⊢
  obtain ⟨y, c⟩ := x
  cases y with
  | err s => exact h1
  | crash => exact h1
  | ok s => exact adds_more h1 (traced_grows m f v false s c)

theorem adds_cat {j k : Nat} {e f : PE R} {P : List (Pair R) → Prop} (h1 : Eats u v e [] [] P) (h2 : Adds j u v e) (h3 : Adds k u v f) :
    Adds (j + k) u v (.cat e f) := by
  intro pos stack queue
  obtain ⟨q, -, hq⟩ := h1 pos stack queue
  obtain ⟨M, hM⟩ := sem_settles grammar u e v ⟨pos, [], stack, queue⟩
  obtain ⟨N1, hN1⟩ := h2 pos stack queue
  obtain ⟨N2, hN2⟩ := h3 pos stack (queue ++ q)
  refine ⟨M + N1 + N2 + 1, fun n hn a => ?_⟩
  obtain ⟨m, rfl⟩ : ∃ m, n = m + 1 := ⟨n - 1, by omega⟩
  have h4 := traced_run (g := grammar) (u := u) m e v false ⟨pos, [], stack, queue⟩ a
  rw [hM _ (by omega)] at h4
  rw [show sem grammar u e v ⟨pos, [], stack, queue⟩ = _ from hq] at h4
  have h5 := hN1 m (by omega) a
  rw [traced]
  generalize traced grammar u m e v false ⟨pos, [], stack, queue⟩ a = x at h4 h5 ⊢
  obtain ⟨y, c⟩ := x
  simp only at h4
  subst h4
  have h6 := hN2 m (by omega) c
  have h7 := (traced_grows (u := u) m f v false ⟨pos, [], stack, queue ++ q⟩ c).pos
  dsimp only at h5 h6 ⊢
  show pos < (traced grammar u m f v false ⟨pos, [], stack, queue ++ q⟩ c).2.pos ∨
    (traced grammar u m f v false ⟨pos, [], stack, queue ++ q⟩ c).2.pos = pos ∧ _ ≤ (traced grammar u m f v false ⟨pos, [], stack, queue ++ q⟩ c).2.at pos
  rcases h6 with h6 | ⟨h6, h8⟩
  · exact .inl h6
  · rcases h5 with h5 | ⟨-, h5⟩
    · omega
    · exact .inr ⟨h6, by omega⟩

theorem adds_step {k : Nat} {e e' : PE R} {v' : Env} (h : Adds k u v' e')
    (hk : ∀ n s a, (traced grammar u (n + 1) e v false s a).2 = (traced grammar u n e' v' false s a).2) : Adds k u v e := by
  intro pos stack queue
  obtain ⟨N, hN⟩ := h pos stack queue
  refine ⟨N + 1, fun n hn a => ?_⟩
  obtain ⟨m, rfl⟩ : ∃ m, n = m + 1 := ⟨n - 1, by omega⟩
  rw [hk]
  exact hN m (by omega) a

theorem track_wants {a b : Tries R} {t : Atomicity} (ht : t ≠ .atomic) (r : R) {p : Nat}
    (h : p < b.pos ∨ b.pos = p ∧ a.at p + 2 ≤ b.at p) :
    p ≤ (b.track t false r p a).pos ∧ ((b.track t false r p a).pos = p → r ∈ (b.track t false r p a).wanted) := by
  rcases h with h | ⟨hp, h⟩
  · rw [track_before h]
    exact ⟨Nat.le_of_lt h, fun e => by omega⟩
  · have h1 : ¬ b.at p = a.at p + 1 := by omega
    have h2 : ¬ p > b.pos := by omega
    unfold Tries.track
    rw [if_neg ht, if_neg h1]
    simp only [if_pos hp.symm, if_neg h2, Bool.false_eq_true, if_false]
    exact ⟨Nat.le_of_eq hp.symm, fun _ => by simp⟩

/-- A rule that fails at the end after two others in it have failed there is named. -/
theorem touch_named {e : PE R} (hv : v.atomicity ≠ .atomic) (h : Fails u v (.rule .term e) []) (ha : Adds 2 u v e) :
    Touch q u v (.rule .term e) [] := by
  intro pos stack queue
  obtain ⟨N, hN⟩ := sem_settles grammar u (.rule .term e) v ⟨pos, [], stack, queue⟩
  obtain ⟨M, hM⟩ := ha pos stack (if v.emits then [] else queue)
  refine ⟨M + N + 1, fun n hn a _ => ?_⟩
  obtain ⟨m, rfl⟩ : ∃ m, n = m + 1 := ⟨n - 1, by omega⟩
  have h1 := traced_run (g := grammar) (u := u) (m + 1) (.rule .term e) v false ⟨pos, [], stack, queue⟩ a
  rw [hN _ (by omega), h pos stack queue] at h1
  have h2 := hM m (by omega) a
  rw [traced] at h1 ⊢
  dsimp only at h1 ⊢
  have e1 : (if v.emits = true then ({ pos := pos, rest := [], stack := stack, queue := [] } : St R)
      else ⟨pos, [], stack, queue⟩) = ⟨pos, [], stack, if v.emits then [] else queue⟩ := by
    split <;> rfl
  rw [e1] at h1 ⊢
  generalize traced grammar u m e v false ⟨pos, [], stack, if v.emits then [] else queue⟩ a = x at h1 h2 ⊢
  have h3 : x.1.blames false = true := by
    obtain ⟨y, b⟩ := x
    cases y with
    | ok t => split at h1 <;> cases h1
    | err t => rfl
    | crash => split at h1 <;> cases h1
  rw [if_pos h3]
  have := track_wants hv .term h2
  exact ⟨this.1, fun _ => this.2⟩

/-- Where an operand is missing, `term` is named. -/
theorem touch_operand (L : Lawful u) : Touch q u vN (.call .term) [] := by
  have hp : Fails u vC (.call .Prefix) [] := fails_nil (by decide)
  have hn : Fails u vC (.call .node) [] := fails_nil (by decide)
  have h0 : Fails u vN (.call .term) [] := fails_nil (by decide)
  refine touch_call (touch_atomic (touch_named (v := vC) (by decide) ?_ ?_))
  · intro pos stack queue
    have := h0 pos stack queue
    rw [sem_call, show grammar .term = .atomic .compound _ from rfl, sem_atomic] at this
    exact this
  · exact adds_step (adds_cat_left (adds_cat (eats_prefixes (v := vC) L rfl hp []) (adds_rep (adds_end (by decide) rfl hp))
      (adds_end (by decide) rfl hn))) fun _ _ _ => rfl

theorem holed_alone {o : Str} (h : Holed q u .term o) : Holed q u .expr o :=
  ⟨h.1, fun _ hv => touch_expr_term (h.2.1 []) h.2.2.2 hv, h.2.2⟩

/-- An operator begins no comment unless it is meant to. -/
theorem tok_solid (L : Lawful u) {t : Tok} {y : Str} (h1 : ∀ r, y ≠ '%' :: r) (h2 : t = .op .slash → ∀ r, y ≠ '/' :: r) :
    Solid u (t.char :: y) := by
  obtain ⟨_, _, _, h4, h5⟩ := tok_first t
  refine ⟨?_, ?_⟩
  · intro c r e
    cases e
    unfold Ws
    rw [L.plain _ _ h4, h5]
    decide
  · have no : ∀ (d : Char) (t z : Str), (∀ r, z ≠ d :: r) → strip (d :: t) z = none := by
      intro d t z h
      cases z with
      | nil => rfl
      | cons c r =>
        have : d ≠ c := fun e => h r (by rw [e])
        simp [strip, this]
    have hsl : t.char = '/' → t = .op .slash := by
      rcases t with o | _ | _ | _ | _ | _ | _ <;> try (intro h; exact absurd h (by decide))
      cases o <;> intro h <;> first | rfl | exact absurd h (by decide)
    have go : ∀ (a : Char) (s z' : Str), (a = t.char → strip s z' = none) → strip (a :: s) (t.char :: z') = none := by
      intro a s z' h
      by_cases e : a = t.char
      · simp [strip, e, h e]
      · simp [strip, e]
    have hsc : '/' = t.char → ∀ r, y ≠ '/' :: r := fun e => h2 (hsl e.symm)
    exact ⟨go _ _ _ fun _ => no _ _ _ h1, go _ _ _ fun e => no _ _ _ (hsc e), go _ _ _ fun e => no _ _ _ (hsc e),
      go _ _ _ fun e => no _ _ _ (hsc e), go _ _ _ fun e => no _ _ _ (hsc e)⟩

theorem begun_ne (L : Lawful u) {wa o : Str} (hw : Blank u wa) (h : Begun u o) {d : Char} (hd : d ∈ ['%', '/'])
    (h' : d = '/' → ∀ r, wa ≠ '/' :: r) : ∀ r, wa ++ o ≠ d :: r := by
  have key : ∀ d ∈ ['%', '/'], Plain d ∧ asciiUni .whiteSpace d = false ∧ asciiUni .xidStart d = false ∧ d ≠ '_' ∧ d ∉ termChars := by decide
  obtain ⟨k1, k2, k3, k4, k5⟩ := key d hd
  rcases blank_head hw with rfl | ⟨c, r', rfl, hc⟩
  · intro r e
    rw [List.nil_append] at e
    rcases h with rfl | ⟨c, r', rfl, hc⟩
    · cases e
    · cases e
      rcases hc with hc | hc
      · exact not_idStart L k1 k3 k4 hc
      · exact k5 hc
  · intro r e
    have e1 := (List.cons.inj e).1
    subst e1
    rcases hc with hc | hc
    · unfold Ws at hc
      rw [L.plain _ _ k1, k2] at hc
      cases hc
    · exact h' hc r' (by rw [hc])

theorem holed_infix (L : Lawful u) {e : SExpr} {wb wa o : Str} {t : Tok} (he : e.Ok u) (hb : Blank u wb) (ha : Blank u wa)
    (hs : t = .op .slash → ∀ r, wa ≠ '/' :: r) (hd : t = .op .dot → wb = [] → ∀ c r, wa ++ o = c :: r → ¬ IsDigit c)
    (ho1 : Begun u o) (ho2 : Touch q u vN (.call .term) o) : Holed q u .expr (e.text ++ (wb ++ t.char :: (wa ++ o))) := by
  obtain ⟨c, r, hc, hc'⟩ := (SExpr.read L e he).head
  obtain ⟨x, l⟩ := e
  rw [SExpr.Ok] at he
  have hx := STerm.read L x he.1
  have hl := steps_read L l _ he.2
  rw [SExpr.text, ← steps_text] at hc ⊢
  generalize l.map SStep.piece = m at hl hc ⊢
  obtain ⟨t1, t2, t3, t4, t5⟩ := tok_first t
  have hz : CutAt u wb (t.char :: (wa ++ o)) := by
    refine ⟨hb, tok_solid L (begun_ne L ha ho1 (by decide) (fun e => absurd e (by decide))) fun e => begun_ne L ha ho1 (by decide) fun _ => hs e, ?_, ?_⟩
    · refine ⟨blank_endsIn (by decide) hb (.inr ⟨_, _, rfl, tok_char_after _⟩), noPath_first ?_ ?_⟩
      · exact blank_first L hb (by decide) (by decide) (by decide) fun _ t e => t1 (List.cons.inj e).1
      · exact blank_first L hb (by decide) (by decide) (by decide) fun _ t e => t2 (List.cons.inj e).1
    · intro d r e
      by_cases k : wb = [] ∧ t = .op .dot
      · obtain ⟨rfl, rfl⟩ := k
        exact hd rfl rfl d r (List.cons.inj e).2
      · refine absurd e (blank_first L hb (by decide) (by decide) (by decide) ?_ _)
        intro hwb r e
        refine k ⟨hwb, ?_⟩
        have := (List.cons.inj e).1
        revert this
        rcases t with o | _ | _ | _ | _ | _ | _ <;> try (intro h; exact absurd h (by decide))
        cases o <;> intro h <;> first | rfl | exact absurd h (by decide)
  have hA : Touch q u vN (sepThen (.call .Infix) (.call .term)) (t.char :: (wa ++ o)) := by
    have := touch_cat (eats_cat (eats_Infix (v := vN) L rfl t (wa ++ o)) (eats_skip (v := vN) L rfl ha (ho1.solid L))) ho2
    exact touch_restore (touch_seq (this.cast (by simp)))
  refine ⟨.inr ⟨c, r ++ (wb ++ t.char :: (wa ++ o)), by rw [hc]; rfl, hc'⟩, fun v hv => ?_, ?_, by rw [hc]; exact fun _ e => nomatch e⟩
  · exact (touch_expr L hx m hl hz hA hv).cast (by simp)
  · rw [List.append_assoc]
    refine hx.kv _ (pieces_follow L hl hz.follow) ?_
    cases m with
    | nil =>
      refine ⟨wb, t.char :: (wa ++ o), rfl, hb, hz.solid, ?_⟩
      intro c r e
      cases e
      exact ⟨t1, t3⟩
    | cons p m =>
      obtain ⟨h1, _, h3, _⟩ := tok_first p.tok
      refine ⟨p.wb, p.tok.char :: (p.wa ++ (p.x ++ (piecesText m ++ (wb ++ t.char :: (wa ++ o))))), by simp [piecesText], hl.2.1, pieces_solid L hl _, ?_⟩
      intro c r e
      cases e
      exact ⟨h1, h3⟩

theorem holed_done (L : Lawful u) {e : SExpr} {w : Str} (he : e.Ok u) (hw : Blank u w) : Holed false u .expr (e.text ++ w) := by
  have hr := SExpr.read L e he
  obtain ⟨c, r, hc, hc'⟩ := hr.head
  have hs : Solid u [] := close_solid L (.inl rfl)
  have hf : Follow u (w ++ []) := follow_close L hw (.inl rfl)
  refine ⟨.inr ⟨c, r ++ w, by rw [hc]; rfl, hc'⟩, fun v hv => ?_, ?_, fun h => nomatch h⟩
  · obtain ⟨x, l⟩ := e
    rw [SExpr.Ok] at he
    have := touch_expr (w := w) (z := []) L (STerm.read L x he.1) _ (steps_read L l _ he.2) ⟨hw, hs, hf, ?_⟩ touch_infix hv
    · rw [steps_text] at this
      exact this.cast (by rw [SExpr.text]; simp)
    · intro d r e
      exact absurd e (blank_first (r := []) L hw (by decide) (by decide) (by decide) (fun _ _ e => nomatch e) _)
  · have := hr.kv w [] hw (stop_close L (.inl rfl)) hf ⟨w, [], rfl, hw, hs, fun _ _ e => nomatch e⟩
    rwa [List.append_nil] at this

theorem holed_plain {o : Str} (h : Holed q u .expr o) : Holed q u .arg o :=
  ⟨h.1, touch_call (touch_rule (touch_alt_right h.2.2.1 (touch_restore (h.2.1 vN rfl))) h.2.2.2), h.2.2.2⟩

theorem holed_named (L : Lawful u) {k w1 w2 o : Str} {b : Bool} (hk : IsIdent u k) (hw1 : Blank u w1) (hw2 : Blank u w2)
    (h : Holed q u .expr o) : Holed q u .arg (k ++ (w1 ++ (colonText b ++ (w2 ++ o)))) := by
  obtain ⟨c, r, hc, hc'⟩ := hk.start
  have hq : NonVoid q (k ++ (w1 ++ (colonText b ++ (w2 ++ o)))) := by rw [hc]; exact fun _ e => nomatch e
  refine ⟨.inr ⟨c, r ++ (w1 ++ (colonText b ++ (w2 ++ o))), by rw [hc]; rfl, .inl hc'⟩, touch_call (touch_rule (touch_alt_left (touch_restore (touch_seq ?_))) hq), hq⟩
  have hcol := colon_close b (w2 ++ o)
  have := touch_cat (eats_cat (eats_cat (eats_cat (eats_SYMBOL (v := vN) L rfl hk
      (noCont_blank L hw1 (noCont_close L hcol))) (eats_skip L rfl hw1 (close_solid L hcol)))
      (eats_Colon rfl b _)) (eats_skip L rfl hw2 (h.1.solid L))) (h.2.1 vN rfl)
  exact this.cast (by simp)

theorem holed_single (L : Lawful u) {o : Str} (h : Holed q u .expr o) : Holed q u .index o := by
  refine ⟨h.1.solid L, touch_call (touch_rule (touch_alt_left (touch_alt_left (touch_seq ?_))) h.2.2.2), h.2.2.2⟩
  iterate 8 apply touch_cat_left
  exact touch_opt (touch_restore (touch_call (touch_rule (h.2.1 vN rfl) h.2.2.2)))

theorem holed_span (L : Lawful u) {s : SPart} {b : Bool} {w o : Str} (hs : s.Ok u (colonText b ++ (w ++ o))) (hw : Blank u w)
    (h : Holed q u .expr o) : Holed q u .index (s.text ++ (colonText b ++ (w ++ o))) := by
  have hp := SPart.read L _ s hs []
  rw [List.append_nil] at hp
  rw [← part_text]
  have hq : NonVoid q (partText s.part ++ (colonText b ++ (w ++ o))) := by
    intro _ e
    cases b <;> exact nomatch (List.append_eq_nil_iff.1 e).2
  refine ⟨part_solid L (colon_close b _) hp, touch_call (touch_rule (touch_alt_left (touch_alt_left (touch_seq ?_))) hq), hq⟩
  iterate 4 apply touch_cat_left
  have := touch_cat (eats_cat (eats_start L hp) (eats_skip (v := vN) L rfl hw (h.1.solid L)))
    (touch_opt (touch_restore (touch_call (r := .End) (touch_rule (h.2.1 vN rfl) h.2.2.2))))
  exact this.cast (by simp)

theorem Holed.cast {k : Slot} {x y : Str} (h : Holed q u k x) (e : x = y) : Holed q u k y := e ▸ h

/-- Texts that are not finished are read to their end. -/
theorem Unfinished.holed (L : Lawful u) {k : Slot} {o : Str} (h : Unfinished u q k o) : Holed q u k o := by
  induction h with
  | missing => exact holed_missing L
  | signed p _ ih => exact holed_signed L p ih
  | paren _ ih => exact holed_paren L ih
  | list h1 h2 _ ih => exact holed_list L h1 h2 ih
  | call h1 h2 h3 h4 h5 _ ih => exact holed_call L h1 h2 h3 h4 h5 ih
  | indexed h1 h2 h3 h4 _ ih => exact holed_indexed L h1 h2 h3 h4 ih
  | alone _ ih => exact holed_alone ih
  | «infix» h1 h2 h3 h4 h5 _ ih => exact holed_infix L h1 h2 h3 h4 h5 ih.1 (ih.2.1 [])
  | dangling h1 h2 h3 h4 h5 => exact (holed_infix (o := []) L h1 h2 h3 h4 (by rwa [List.append_nil]) (.inl rfl) (touch_operand L)).cast (by rw [List.append_nil])
  | done h1 h2 => exact holed_done L h1 h2
  | plain _ ih => exact holed_plain ih
  | named h1 h2 h3 _ ih => exact holed_named L h1 h2 h3 ih
  | single _ ih => exact holed_single L ih
  | span h1 h2 _ ih => exact holed_span L h1 h2 ih

/-! ### Texts -/

/-- More fuel changes nothing once there is a result. -/
theorem traced_mono : ∀ (n : Nat) (e : PE R) (v : Env) (neg : Bool) (s : St R) (a : Tries R),
    (traced grammar u n e v neg s a).1 ≠ .crash → traced grammar u (n + 1) e v neg s a = traced grammar u n e v neg s a := by
  intro n
  induction n with
  | zero => intro e v neg s a h; exact absurd rfl h
  | succ n ih =>
    intro e v neg s a h
    cases e with
    | call r => rw [traced] at h ⊢; rw [ih _ _ _ _ _ h]; rfl
    | rule r e =>
      rw [traced] at h
      rw [traced]
      conv_rhs => rw [traced]
      rw [ih]
      intro hc
      refine h ?_
      dsimp only
      rw [hc]
      split <;> rfl
    | atomic t e => rw [traced] at h ⊢; rw [ih _ _ _ _ _ h]; rfl
    | ifNon e =>
      rw [traced] at h
      rw [traced]
      conv_rhs => rw [traced]
      split
      · rw [if_pos ‹_›] at h; exact ih _ _ _ _ _ h
      · rfl
    | seq e =>
      rw [traced] at h
      rw [traced]
      conv_rhs => rw [traced]
      rw [ih]
      intro hc
      refine h ?_
      dsimp only
      rw [hc]
      rfl
    | opt e =>
      rw [traced] at h
      rw [traced]
      conv_rhs => rw [traced]
      rw [ih]
      intro hc
      refine h ?_
      dsimp only
      rw [hc]
      rfl
    | restore e =>
      rw [traced] at h
      rw [traced]
      conv_rhs => rw [traced]
      rw [ih]
      intro hc
      refine h ?_
      dsimp only
      rw [hc]
      rfl
    | push e =>
      rw [traced] at h
      rw [traced]
      conv_rhs => rw [traced]
      rw [ih]
      intro hc
      refine h ?_
      dsimp only
      rw [hc]
      rfl
    | look pos e =>
      rw [traced] at h
      rw [traced]
      conv_rhs => rw [traced]
      rw [ih]
      intro hc
      refine h ?_
      dsimp only
      rw [hc]
      cases pos <;> rfl
    | rep e =>
      rw [traced] at h
      rw [traced]
      conv_rhs => rw [traced]
      have hc : (traced grammar u n e v neg s a).1 ≠ .crash := by
        intro hc
        refine h ?_
        generalize traced grammar u n e v neg s a = x at hc
        obtain ⟨y, b⟩ := x
        simp only at hc
        rw [hc]
      rw [ih _ _ _ _ _ hc]
      generalize traced grammar u n e v neg s a = x at h hc
      obtain ⟨y, b⟩ := x
      cases y with
      | ok t => exact ih _ _ _ _ _ h
      | err t => rfl
      | crash => rfl
    | alt e f =>
      rw [traced] at h
      rw [traced]
      conv_rhs => rw [traced]
      have hc : (traced grammar u n e v neg s a).1 ≠ .crash := by
        intro hc
        refine h ?_
        generalize traced grammar u n e v neg s a = x at hc
        obtain ⟨y, b⟩ := x
        simp only at hc
        rw [hc]
      rw [ih _ _ _ _ _ hc]
      generalize traced grammar u n e v neg s a = x at h hc
      obtain ⟨y, b⟩ := x
      cases y with
      | ok t => rfl
      | err t => exact ih _ _ _ _ _ h
      | crash => rfl
    | cat e f =>
      rw [traced] at h
      rw [traced]
      conv_rhs => rw [traced]
      have hc : (traced grammar u n e v neg s a).1 ≠ .crash := by
        intro hc
        refine h ?_
        generalize traced grammar u n e v neg s a = x at hc
        obtain ⟨y, b⟩ := x
        simp only at hc
        rw [hc]
      rw [ih _ _ _ _ _ hc]
      generalize traced grammar u n e v neg s a = x at h hc
      obtain ⟨y, b⟩ := x
      cases y with
      | ok t => exact ih _ _ _ _ _ h
      | err t => rfl
      | crash => rfl
    | _ => rfl

theorem traced_mono' {n m : Nat} (hnm : n ≤ m) {e : PE R} {v : Env} {neg : Bool} {s : St R} {a : Tries R}
    (h : (traced grammar u n e v neg s a).1 ≠ .crash) : traced grammar u m e v neg s a = traced grammar u n e v neg s a := by
  induction hnm with
  | refl => rfl
  | @step m _ ih => rw [traced_mono m _ _ _ _ _ (by rw [ih]; exact h), ih]

theorem touch_statement (L : Lawful u) {o : Str} (h : Unfinished u q .expr o) (hne : o ≠ []) (hw : Wordless o) :
    Touch q u vN (.call .statement) o := by
  have hh := h.holed L
  have hd : ∃ c r, o = c :: r ∧ (IdStart u c ∨ c ∈ termChars) := hh.1.resolve_left hne
  obtain ⟨e, he, hf⟩ := statement_fails L (x := o) (z := []) hd (by rw [List.append_nil]; exact hw)
  rw [List.append_nil] at hf
  refine touch_call ?_
  rw [he]
  exact touch_alt_right hf (touch_restore (touch_call (touch_rule (touch_seq (touch_cat_left (touch_cat_left (hh.2.1 vN rfl)))) fun _ => hne)))

theorem touch_further (L : Lawful u) {o : Str} (hs : Solid u o) (ht : Touch q u vN (.call .statement) o) : ∀ (l : List Stmt) {w : Str},
    Blank u w → ProgBefore u o l → Touch q u vN furtherStatements (w ++ (progText l ++ o)) := by
  intro l
  induction l with
  | nil =>
    intro w hw _
    exact touch_rep (touch_seq (touch_cat (eats_skip (v := vN) L rfl hw hs) (touch_restore ht)))
  | cons s l ih =>
    intro w hw h
    have hsol := before_solid L hs h
    obtain ⟨h1, h2, h3, h4, h5⟩ := h
    have h6 := eats_stmt L h1 h2 h3 h4
    rw [← prog_split] at hsol ⊢
    have h7 := eats_seq (eats_cat (eats_skip (v := vN) L rfl hw hsol) (eats_restore h6))
    exact (touch_rep_cons h7 (ih (stop_blank h4) h5)).cast (by simp)

/-- Where the text of a program ends too early, a rule is tried. -/
theorem touch_front (L : Lawful u) {w o : Str} (hw : Blank u w) (hs : Solid u o) (ht : Touch q u vN (.call .statement) o) {l : List Stmt}
    (h : ProgBefore u o l) : ∃ N, ∀ n, N ≤ n → ∀ a, Told a →
      Hit q (w ++ (progText l ++ o)).length (traced grammar u n programFront vN false (St.init (w ++ (progText l ++ o))) a).2 := by
  have hS : Touch q u vN (.seq (.opt (.cat (.restore (.call .statement)) (.rep (.seq (.cat (.call .skip) (.restore (.call .statement)))))))) (progText l ++ o) := by
    refine touch_seq (touch_opt ?_)
    cases l with
    | nil => exact touch_cat_left (touch_restore ht)
    | cons s l =>
      obtain ⟨h1, h2, h3, h4, h5⟩ := h
      rw [← prog_split]
      exact touch_cat (eats_restore (eats_stmt L h1 h2 h3 h4)) (touch_further L hs ht l (stop_blank h4) h5)
  obtain ⟨q, hq, hk⟩ := eats_skip (v := vN) L rfl hw (before_solid L hs h) 0 [] []
  rw [show q = [] from hq] at hk
  have h0 : sem grammar u (.cat (.call .SOI) (.call .skip)) vN (St.init (w ++ (progText l ++ o))) = .ok ⟨0 + w.length, progText l ++ o, [], [] ++ []⟩ := by
    rw [sem_cat, sem_call, show grammar .SOI = .soi from rfl, sem_soi, if_pos (show (St.init (w ++ (progText l ++ o)) : St R).pos = 0 from rfl), Res.andThen]
    exact hk
  obtain ⟨M, hM⟩ := sem_settles grammar u (.cat (.call .SOI) (.call .skip)) vN (St.init (w ++ (progText l ++ o)))
  obtain ⟨N, hN⟩ := hS (0 + w.length) [] ([] ++ [])
  refine ⟨M + N + 2, fun n hn a ha => ?_⟩
  obtain ⟨m, rfl⟩ : ∃ m, n = m + 2 := ⟨n - 2, by omega⟩
  unfold programFront
  rw [traced, traced]
  have h3 := traced_run (g := grammar) (u := u) m (.cat (.call .SOI) (.call .skip)) vN false (St.init (w ++ (progText l ++ o))) a
  rw [hM _ (by omega), h0] at h3
  have h4 := (traced_told (g := grammar) (u := u) m (.cat (.call .SOI) (.call .skip)) vN false (St.init (w ++ (progText l ++ o))) a ha).1
  generalize traced grammar u m (.cat (.call .SOI) (.call .skip)) vN false (St.init (w ++ (progText l ++ o))) a = z at h3 h4 ⊢
  obtain ⟨z, c⟩ := z
  simp only at h3
  subst h3
  have h5 := hN m (by omega) c h4
  have h6 := (traced_told (g := grammar) (u := u) m (.seq (.opt (.cat (.restore (.call .statement)) (.rep (.seq (.cat (.call .skip) (.restore (.call .statement)))))))) vN false
    ⟨0 + w.length, progText l ++ o, [], [] ++ []⟩ c h4).1
  dsimp only at h5 h6 ⊢
  generalize traced grammar u m (.seq (.opt (.cat (.restore (.call .statement)) (.rep (.seq (.cat (.call .skip) (.restore (.call .statement)))))))) vN false
    ⟨0 + w.length, progText l ++ o, [], [] ++ []⟩ c = y at h5 h6 ⊢
  obtain ⟨y, d⟩ := y
  have hlen : (w ++ (progText l ++ o)).length = 0 + w.length + (progText l ++ o).length := by simp
  rw [hlen]
  cases y with
  | ok t => exact h5.grow (traced_grows _ _ vN false t d)
  | err t => exact h5
  | crash => exact h5

/-- The record for a text of finished statements and an unfinished expression. -/
theorem refusal_hit (L : Lawful u) {w o : Str} {l : List Ended} (hw : Blank u w) (hl : ∀ k ∈ l, k.Ok u) (ho : Unfinished u q .expr o)
    (hne : o ≠ []) (hn : Wordless o) {a : Tries R} (h1 : smRefusal u .program (w ++ (endedText l ++ o)) = some a) :
    Hit q (w ++ (endedText l ++ o)).length a := by
  have hs := (ho.holed L).1.solid L
  have hb := ended_before L hl (m := []) (rest := o) trivial
  rw [List.append_nil] at hb
  obtain ⟨N, hN⟩ := touch_front L hw hs (touch_statement L ho hne hn) hb
  rw [ended_text] at hN
  unfold smRefusal at h1
  generalize w ++ (endedText l ++ o) = T at *
  have hc : (traced grammar u (parseFuel T) (.call .program) Env.init false (St.init T) Tries.init).1 ≠ .crash := by
    intro hc
    generalize traced grammar u (parseFuel T) (.call .program) Env.init false (St.init T) Tries.init = x at h1 hc
    obtain ⟨y, b⟩ := x
    simp only at hc
    subst hc
    cases h1
  have e := traced_mono' (m := N + parseFuel T + 3) (by omega) hc
  rw [← e] at h1
  clear e hc
  have hi := hN (N + parseFuel T) (by omega) Tries.init (fun h => absurd h (Nat.lt_irrefl 0))
  rw [traced, program_front, traced, traced] at h1
  rw [show (Env.init : Env) = vN from rfl] at h1
  generalize traced grammar u (N + parseFuel T) programFront vN false (St.init T) Tries.init = x at h1 hi
  obtain ⟨y, b⟩ := x
  cases y with
  | crash => cases h1
  | err t => cases h1; exact hi
  | ok t =>
    dsimp only at h1 hi
    have hm := traced_grows (u := u) (N + parseFuel T) (.call .EOI) vN false t b
    generalize traced grammar u (N + parseFuel T) (.call .EOI) vN false t b = x at h1 hm
    obtain ⟨y, c⟩ := x
    cases y with
    | crash => cases h1
    | err t => cases h1; exact hi.grow hm
    | ok t => cases h1

/-- **C88**.  If a text of finished statements and an unfinished expression is refused, the position that is reported is the
end of the text: nothing before it is blamed. -/
theorem C88_end (L : Lawful u) {w o : Str} {l : List Ended} (hw : Blank u w) (hl : ∀ k ∈ l, k.Ok u) (ho : Unfinished u q .expr o)
    (hne : o ≠ []) (hn : Wordless o) {p : Nat} (h : errorAt u (w ++ (endedText l ++ o)) = some p) :
    p = (w ++ (endedText l ++ o)).length := by
  obtain ⟨a, h1, rfl⟩ := errorAt_iff.1 h
  exact Nat.le_antisymm (C87_inside u h1).1 (refusal_hit L hw hl ho hne hn h1).1

/-- A text that is not accepted has an error position. -/
theorem errorAt_some {T : Str} (h : ∀ l, smParse u .program T ≠ .pairs l) : ∃ p, errorAt u T = some p := by
  have h1 : smParse u .program T = .error := by
    rcases C33_parse_terminates u .program (by decide) T with ⟨l, k⟩ | k
    · exact absurd k (h l)
    · exact k
  obtain ⟨a, k⟩ := (refusal_iff .program T).2 h1
  exact ⟨a.pos, errorAt_iff.2 ⟨a, k, rfl⟩⟩

/-- **C88**.  If its last character, white space aside, is an operator, the text is refused and its end is reported. -/
theorem C88_operator (L : Lawful u) {w o : Str} {l : List Ended} (hw : Blank u w) (hl : ∀ k ∈ l, k.Ok u) (ho : Unfinished u q .expr o)
    (hne : o ≠ []) (hn : Wordless o) (hb : Bare (w ++ (endedText l ++ o))) {c : Char} (hc : LastIs u (w ++ (endedText l ++ o)) c)
    (h1 : c ∈ operatorSigns) : errorAt u (w ++ (endedText l ++ o)) = some (w ++ (endedText l ++ o)).length := by
  obtain ⟨p, h⟩ := errorAt_some (u := u) (T := w ++ (endedText l ++ o)) (by
    intro m k
    obtain ⟨a, b⟩ := (by decide : ∀ c ∈ operatorSigns, c ∈ signs ∧ c ∉ endSigns) c h1
    rcases C66_end L k hb hc with k | k
    · rw [sign_not_continue L a] at k
      cases k
    · exact b k)
  rw [h, ← C88_end L hw hl ho hne hn h]

/-- **C88**.  If some kind of bracket is opened more often than it is closed, the text is refused and its end is reported. -/
theorem C88_bracket (L : Lawful u) {w o : Str} {l : List Ended} (hw : Blank u w) (hl : ∀ k ∈ l, k.Ok u) (ho : Unfinished u q .expr o)
    (hne : o ≠ []) (hn : Wordless o) (hb : Bare (w ++ (endedText l ++ o)))
    (hc : (w ++ (endedText l ++ o)).count '(' ≠ (w ++ (endedText l ++ o)).count ')' ∨
      (w ++ (endedText l ++ o)).count '[' ≠ (w ++ (endedText l ++ o)).count ']') :
    errorAt u (w ++ (endedText l ++ o)) = some (w ++ (endedText l ++ o)).length := by
  obtain ⟨p, h⟩ := errorAt_some (u := u) (T := w ++ (endedText l ++ o)) (by
    intro m k
    obtain ⟨a, b, -⟩ := C55_counts L k hb
    rcases hc with hc | hc
    · exact hc a
    · exact hc b)
  rw [h, ← C88_end L hw hl ho hne hn h]

/-- **C88**.  What is typed so far keeps its place: when finished statements are put in front of an unfinished expression, the
position moves by their length. -/
theorem C88_moves (L : Lawful u) {w o : Str} {l : List Ended} (hw : Blank u w) (hl : ∀ k ∈ l, k.Ok u) (ho : Unfinished u q .expr o)
    (hne : o ≠ []) (hn : Wordless o) {p q : Nat} (h : errorAt u o = some p) (k : errorAt u (w ++ (endedText l ++ o)) = some q) :
    q = (w ++ endedText l).length + p := by
  rw [C88_end L hw hl ho hne hn k, C88_end L (w := []) (l := []) blank_nil (fun _ h => nomatch h) ho hne hn h]
  simp only [endedText, List.flatMap_nil, List.nil_append, List.length_append, Nat.add_assoc]

/-! ### Cases -/

example : errorAt asciiUni c!"f(1, [2, 3" = some 10 := by decide +kernel

example : errorAt asciiUni c!"1; x + 2 * " = some 11 := by decide +kernel

example : errorAt asciiUni c!"f(k: (1" = some 7 := by decide +kernel

example : errorAt asciiUni c!"x[1:2, 3" = some 8 := by decide +kernel

/-- A prefix of an expression that is finished so far is accepted. -/
example : errorAt asciiUni c!"1; x + 2 " = none := by decide +kernel

/-- Dictionaries are not covered. -/
example : errorAt asciiUni c!"{a: 1" = some 5 := by decide +kernel

/-- A sign behind an operator in brackets that are not closed: the end is reported, whatever characters the names of the
language may have. -/
example (L : Lawful u) : errorAt u c!"([1+-" = some 5 := by
  have t1 : (SExpr.node (.atom (.int 1))).text = c!"1" := by decide
  have h : Unfinished u false .expr c!"([1+-" := by
    refine .alone (.paren (.alone (.list (ld := none) (w := []) (o := c!"1+-") trivial blank_nil ?_)))
    have := Unfinished.infix (intExpr_ok (u := u) 1) (wb := []) (wa := []) (t := .op .plus) blank_nil blank_nil
      (fun h => nomatch h) (fun h => nomatch h) (.signed .minus .missing)
    rw [t1] at this
    exact this
  have := C88_bracket L (w := []) (l := []) blank_nil (fun _ h => nomatch h) h (by decide) (by unfold Wordless; decide)
    ⟨by decide, by decide, by decide⟩ (.inl (by decide))
  exact this

end SM.Props
