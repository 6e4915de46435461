import Verif.Props.Node2
/-
String blocks: three or more quotes, a text, and as many quotes.
-/
namespace SM.Props
open SM SM.Peg

variable {u : Uni} {v : Env}

/-! ### Parser expressions that use the stack -/

/-- Like `Eats`, with the stack before and after. -/
def EatsS (u : Uni) (v : Env) (e : PE R) (x rest : Str) (st st' : List Str) (P : List (Pair R) → Prop) : Prop :=
  ∀ pos queue, ∃ q, P q ∧
    sem grammar u e v ⟨pos, x ++ rest, st, queue⟩ = .ok ⟨pos + x.length, rest, st', queue ++ q⟩

/-- Like `Fails`, with a given stack. -/
def FailsS (u : Uni) (v : Env) (e : PE R) (txt : Str) (st : List Str) : Prop :=
  ∀ pos queue, sem grammar u e v ⟨pos, txt, st, queue⟩ = .err ⟨pos, txt, st, queue⟩

theorem Eats.s {e : PE R} {x rest : Str} {P : List (Pair R) → Prop} (h : Eats u v e x rest P) (st : List Str) :
    EatsS u v e x rest st st P := fun pos queue => h pos st queue

theorem EatsS.imp {e : PE R} {x rest : Str} {st st' : List Str} {P Q : List (Pair R) → Prop}
    (h : EatsS u v e x rest st st' P) (hpq : ∀ q, P q → Q q) : EatsS u v e x rest st st' Q := by
  intro pos queue
  obtain ⟨q, hq, hs⟩ := h pos queue
  exact ⟨q, hpq q hq, hs⟩

theorem eats_of_s {e : PE R} {x rest : Str} {P : List (Pair R) → Prop} (h : ∀ st, EatsS u v e x rest st st P) :
    Eats u v e x rest P := fun pos st queue => h st pos queue

theorem eatsS_call {r : R} {x rest : Str} {st st' : List Str} {P : List (Pair R) → Prop}
    (h : EatsS u v (grammar r) x rest st st' P) : EatsS u v (.call r) x rest st st' P := by
  intro pos queue
  rw [sem_call]
  exact h pos queue

theorem eatsS_rule {r : R} {e : PE R} {x rest : Str} {st st' : List Str} {P : List (Pair R) → Prop} (hv : v.emits = true)
    (h : EatsS u v e x rest st st' P) : EatsS u v (.rule r e) x rest st st' (One r x P) := by
  intro pos queue
  obtain ⟨q, hq, hs⟩ := h pos []
  refine ⟨[.mk r pos (pos + x.length) x q], ⟨_, _, _, rfl, hq⟩, ?_⟩
  rw [sem_rule, if_pos hv]
  simp only
  rw [hs]
  simp [Res.mapBoth, St.between]

theorem eatsS_atomic {a : Atomicity} {e : PE R} {x rest : Str} {st st' : List Str} {P : List (Pair R) → Prop}
    (h : EatsS u { v with atomicity := a } e x rest st st' P) : EatsS u v (.atomic a e) x rest st st' P := by
  intro pos queue
  rw [sem_atomic]
  exact h pos queue

theorem eatsS_seq {e : PE R} {x rest : Str} {st st' : List Str} {P : List (Pair R) → Prop}
    (h : EatsS u v e x rest st st' P) : EatsS u v (.seq e) x rest st st' P := by
  intro pos queue
  obtain ⟨q, hq, hs⟩ := h pos queue
  exact ⟨q, hq, by rw [sem_seq, hs]; rfl⟩

theorem eatsS_cat {a b : PE R} {x y rest : Str} {st st' st'' : List Str} {P Q : List (Pair R) → Prop}
    (h1 : EatsS u v a x (y ++ rest) st st' P) (h2 : EatsS u v b y rest st' st'' Q) :
    EatsS u v (.cat a b) (x ++ y) rest st st'' (Then P Q) := by
  intro pos queue
  obtain ⟨q1, hq1, hs1⟩ := h1 pos queue
  obtain ⟨q2, hq2, hs2⟩ := h2 (pos + x.length) (queue ++ q1)
  refine ⟨q1 ++ q2, ⟨q1, q2, rfl, hq1, hq2⟩, ?_⟩
  rw [sem_cat, List.append_assoc, hs1]
  simp only [Res.andThen]
  rw [hs2]
  simp [Nat.add_assoc]

theorem eatsS_rep_nil {e : PE R} {rest : Str} {st : List Str} (h : FailsS u v e rest st) :
    EatsS u v (.rep e) [] rest st st Nil := by
  intro pos queue
  exact ⟨[], rfl, by rw [sem_rep, List.nil_append, h pos queue]; simp⟩

theorem eatsS_rep_cons {e : PE R} {x y rest : Str} {st : List Str} {P Q : List (Pair R) → Prop}
    (h1 : EatsS u v e x (y ++ rest) st st P) (h2 : EatsS u v (.rep e) y rest st st Q) :
    EatsS u v (.rep e) (x ++ y) rest st st (Then P Q) := by
  intro pos queue
  obtain ⟨q1, hq1, hs1⟩ := h1 pos queue
  obtain ⟨q2, hq2, hs2⟩ := h2 (pos + x.length) (queue ++ q1)
  refine ⟨q1 ++ q2, ⟨q1, q2, rfl, hq1, hq2⟩, ?_⟩
  rw [sem_rep, List.append_assoc, hs1]
  simp only
  rw [hs2]
  simp [Nat.add_assoc]

theorem eatsS_push {e : PE R} {x rest : Str} {st : List Str} {P : List (Pair R) → Prop} (h : EatsS u v e x rest st st P) :
    EatsS u v (.push e) x rest st (x :: st) P := by
  intro pos queue
  obtain ⟨q, hq, hs⟩ := h pos queue
  refine ⟨q, hq, ?_⟩
  rw [sem_push, hs]
  simp [Res.mapBoth, St.between]

theorem eatsS_peek (x rest : Str) (st : List Str) : EatsS u v .peek x rest (x :: st) (x :: st) Nil := by
  intro pos queue
  exact ⟨[], rfl, by rw [sem_peek]; simp [St.matchStr, strip_self, St.advance]⟩

theorem eatsS_pop (x rest : Str) (st : List Str) : EatsS u v .pop x rest (x :: st) st Nil := by
  intro pos queue
  exact ⟨[], rfl, by rw [sem_pop]; simp [St.matchStr, strip_self, St.advance]⟩

theorem eatsS_not {e : PE R} {rest : Str} {st : List Str} (h : FailsS u { v with silent := true } e rest st) :
    EatsS u v (.look false e) [] rest st st Nil := by
  intro pos queue
  refine ⟨[], rfl, ?_⟩
  rw [sem_look, List.nil_append, h pos queue]
  simp [Res.mapBoth, Res.flip, backTo]

theorem failsS_not {e : PE R} {x rest : Str} {st st' : List Str} (h : EatsS u { v with silent := true } e x rest st st' Nil) :
    FailsS u v (.look false e) (x ++ rest) st := by
  intro pos queue
  obtain ⟨q, hq, hs⟩ := h pos queue
  rw [show q = [] from hq] at hs
  rw [sem_look, hs]
  simp [Res.mapBoth, Res.flip, backTo]

theorem failsS_cat {a b : PE R} {txt : Str} {st : List Str} (h : FailsS u v a txt st) : FailsS u v (.cat a b) txt st := by
  intro pos queue
  rw [sem_cat, h pos queue]
  rfl

theorem failsS_seq {e : PE R} {txt : Str} {st : List Str} (h : FailsS u v e txt st) : FailsS u v (.seq e) txt st := by
  intro pos queue
  rw [sem_seq, h pos queue]
  rfl

/-! ### Blocks -/

/-- Quotes. -/
def quotes (n : Nat) : Str := List.replicate n '"'

/-- The text of a block with `n` quotes more than three. -/
def blocked (n : Nat) (s : Str) : Str := quotes (n + 3) ++ (s ++ quotes (n + 3))

/-- The texts that can stand in such a block: not empty, not beginning with a quote, and the first place at which that
many quotes stand is the end. -/
def BlockOk (n : Nat) (s : Str) : Prop :=
  s ≠ [] ∧ (∀ r, s ≠ '"' :: r) ∧ ∀ a b, s ++ quotes (n + 3) = a ++ (quotes (n + 3) ++ b) → b = []

/-- Three quotes, as the grammar writes them. -/
def three : PE R := .seq (.cat (.cat (.call .Quotation) (.call .Quotation)) (.call .Quotation))

/-- The end of a block. -/
def blockEnd : PE R := .seq (.cat three (.call .PEEK))

/-- A character of a block. -/
def blockUnit : PE R := .seq (.cat (.look false blockEnd) (.call .ANY))

theorem quotes_three (n : Nat) : quotes (n + 3) = c!"\"\"\"" ++ quotes n := rfl

theorem quotes_three' (n : Nat) : quotes (n + 3) = quotes n ++ c!"\"\"\"" := by
  rw [quotes, quotes, ← List.replicate_append_replicate]; rfl

theorem eats_three_mute (hv : v.emits = false) (rest : Str) : Eats u v three c!"\"\"\"" rest Nil := by
  have q : ∀ r, Eats u v (.call .Quotation) c!"\"" r Nil := fun r => eats_quote_mute hv r
  refine eats_seq (((eats_cat (x := c!"\"\"") (y := c!"\"") ((eats_cat (x := c!"\"") (y := c!"\"") (q _) (q _)).imp
    fun q => then_nil) (q _))).imp fun q => then_nil)

theorem fails_three {txt : Str} (hv : v.emits = false) (h : strip c!"\"\"\"" txt = none) : Fails u v three txt := by
  have q : ∀ r, Eats u v (.call .Quotation) c!"\"" r Nil := fun r => eats_quote_mute hv r
  have f : ∀ t, strip c!"\"" t = none → Fails u v (.call .Quotation) t := fun t ht => fails_tok rfl ht
  refine fails_seq ?_
  match txt, h with
  | [], _ => exact breaks_cat (breaks_cat (f _ rfl).breaks)
  | a :: t, h =>
    by_cases ha : a = '"'
    · subst ha
      match t, h with
      | [], _ => exact breaks_cat (breaks_cat_right (x := c!"\"") (q _) (f _ rfl).breaks)
      | b :: t, h =>
        by_cases hb : b = '"'
        · subst hb
          refine breaks_cat_right (x := c!"\"\"") (eats_cat (x := c!"\"") (y := c!"\"") (q _) (q _)) (f _ ?_).breaks
          simpa [strip] using h
        · exact breaks_cat (breaks_cat_right (x := c!"\"") (q _) (f (b :: t) (by simp [strip, Ne.symm hb])).breaks)
    · exact breaks_cat (breaks_cat (f _ (by simp [strip, Ne.symm ha])).breaks)

theorem strip_some {x s r : Str} (h : strip x s = some r) : s = x ++ r := by
  induction x generalizing s with
  | nil => cases h; rfl
  | cons c x ih =>
    cases s with
    | nil => cases h
    | cons d s =>
      rw [strip] at h
      split at h
      · rename_i e
        rw [ih h, e]; rfl
      · cases h

theorem strip_append {x y t : Str} : strip (x ++ y) t = (strip x t).bind (strip y) := by
  induction x generalizing t with
  | nil => rfl
  | cons c x ih =>
    cases t with
    | nil => rfl
    | cons d t =>
      simp only [List.cons_append, strip]
      split
      · exact ih
      · rfl

theorem eatsS_blockEnd (hv : v.emits = false) (n : Nat) (rest : Str) (st : List Str) :
    EatsS u v blockEnd (quotes (n + 3)) rest (quotes n :: st) (quotes n :: st) Nil := by
  rw [quotes_three]
  exact eatsS_seq ((eatsS_cat ((eats_three_mute hv _).s _) (eatsS_call (eatsS_peek (quotes n) rest st))).imp
    fun q => then_nil)

theorem failsS_blockEnd (hv : v.emits = false) {n : Nat} {txt : Str} (st : List Str) (h : strip (quotes (n + 3)) txt = none) :
    FailsS u v blockEnd txt (quotes n :: st) := by
  rw [quotes_three, strip_append] at h
  intro pos queue
  rw [blockEnd, sem_seq, sem_cat]
  cases h3 : strip c!"\"\"\"" txt with
  | none =>
    rw [fails_three hv h3]
    rfl
  | some t =>
    rw [h3, Option.bind_some] at h
    have ht : txt = c!"\"\"\"" ++ t := strip_some h3
    subst ht
    obtain ⟨q, hq, hs⟩ := eats_three_mute (u := u) hv t pos (quotes n :: st) queue
    rw [hs]
    simp only [Res.andThen]
    rw [sem_call]
    show Res.mapBoth (sem grammar u .peek v _) _ _ = _
    rw [sem_peek]
    simp [St.matchStr, h, Res.mapBoth]

theorem eatsS_blockUnit {n : Nat} {c : Char} {rest : Str} (st : List Str)
    (h : strip (quotes (n + 3)) (c :: rest) = none) :
    EatsS u v blockUnit [c] rest (quotes n :: st) (quotes n :: st) Nil :=
  eatsS_seq ((eatsS_cat (x := []) (y := [c]) (eatsS_not (failsS_blockEnd (emits_silent v) st h))
    ((eats_call (eats_any c rest)).s _)).imp fun q => then_nil)

theorem failsS_blockUnit (n : Nat) (rest : Str) (st : List Str) :
    FailsS u v blockUnit (quotes (n + 3) ++ rest) (quotes n :: st) :=
  failsS_seq (failsS_cat (failsS_not (eatsS_blockEnd (emits_silent v) n rest st)))

/-- Inside a block the closing quotes do not stand before the end. -/
theorem block_inside {n : Nat} {s : Str} (hs : ∀ a b, s ++ quotes (n + 3) = a ++ (quotes (n + 3) ++ b) → b = [])
    {p : Str} {c : Char} {t : Str} (e : s = p ++ c :: t) (rest : Str) :
    strip (quotes (n + 3)) (c :: (t ++ (quotes (n + 3) ++ rest))) = none := by
  cases h : strip (quotes (n + 3)) (c :: (t ++ (quotes (n + 3) ++ rest))) with
  | none => rfl
  | some r =>
    exfalso
    have h' : ((c :: t) ++ quotes (n + 3)) ++ rest = quotes (n + 3) ++ r := by
      have := strip_some h
      rw [← this]; simp
    have hp : quotes (n + 3) <+: (c :: t) ++ quotes (n + 3) :=
      List.prefix_of_prefix_length_le (l₃ := ((c :: t) ++ quotes (n + 3)) ++ rest) ⟨r, h'.symm⟩ ⟨rest, rfl⟩ (by simp; omega)
    obtain ⟨b, hb⟩ := hp
    have := hs p b (by rw [e, List.append_assoc, ← hb])
    subst this
    have := congrArg List.length hb
    simp at this
    omega

theorem eatsS_units {n : Nat} (rest : Str) (st : List Str) : ∀ (t : Str), (∀ p c r, t = p ++ c :: r →
    strip (quotes (n + 3)) (c :: (r ++ (quotes (n + 3) ++ rest))) = none) →
    EatsS u v (.rep blockUnit) t (quotes (n + 3) ++ rest) (quotes n :: st) (quotes n :: st) Nil := by
  intro t
  induction t with
  | nil => intro _; exact eatsS_rep_nil (failsS_blockUnit n rest st)
  | cons c t ih =>
    intro h
    exact (eatsS_rep_cons (x := [c]) (eatsS_blockUnit st (h [] c t rfl))
      (ih fun p d r e => h (c :: p) d r (by rw [e]; rfl))).imp fun q => then_nil

theorem eatsS_StringText (hv : v.emits = true) {n : Nat} {s : Str} (hs : BlockOk n s) (rest : Str) (st : List Str) :
    EatsS u v (.call .StringText) s (quotes (n + 3) ++ rest) (quotes n :: st) (quotes n :: st) (One .StringText s Nil) := by
  obtain ⟨h1, _, h3⟩ := hs
  refine eatsS_call (eatsS_rule hv (eatsS_atomic (eatsS_seq ?_)))
  cases s with
  | nil => exact absurd rfl h1
  | cons c t =>
    have hi : ∀ p d r, c :: t = p ++ d :: r → _ := fun p d r e => block_inside h3 e rest
    exact (eatsS_cat (x := [c]) (y := t) (eatsS_blockUnit st (hi [] c t rfl))
      (eatsS_units rest st t fun p d r e => hi (c :: p) d r (by rw [e]; rfl))).imp fun q => then_nil

/-- Only pairs for quotes. -/
def Quotes (q : List (Pair R)) : Prop := ∀ p ∈ q, p.rule = .Quotation

theorem quotes_then {q : List (Pair R)} (h : Then Quotes Quotes q) : Quotes q := by
  obtain ⟨a, b, rfl, ha, hb⟩ := h
  intro p hp
  rcases List.mem_append.1 hp with hp | hp
  · exact ha p hp
  · exact hb p hp

theorem eats_quote (hv : v.emits = true) (rest : Str) : Eats u v (.call .Quotation) c!"\"" rest Quotes := by
  refine (eats_tok (r := .Quotation) (x := c!"\"") rfl hv rest).imp ?_
  rintro q ⟨a, b, l, rfl, _⟩ p hp
  simp only [List.mem_cons, List.not_mem_nil, or_false] at hp
  rw [hp]; rfl

theorem eats_quote_run (hv : v.emits = true) {rest : Str} (hr : ∀ r, rest ≠ '"' :: r) : ∀ n,
    Eats u v (.rep (.call .Quotation)) (quotes n) rest Quotes := by
  intro n
  induction n with
  | zero =>
    refine (eats_rep_nil ?_).imp ?_
    · cases rest with
      | nil => exact fails_nil (by decide)
      | cons c r => exact fails_quote (by rintro rfl; exact hr r rfl)
    · rintro q rfl p hp; cases hp
  | succ n ih => exact (eats_rep_cons (x := c!"\"") (y := quotes n) (eats_quote hv _) ih).imp fun q => quotes_then

/-- The pairs inside a block. -/
def BlockPairs (s : Str) (q : List (Pair R)) : Prop :=
  ∃ a b i j l, q = a ++ .mk .StringText i j s l :: b ∧ Quotes a ∧ Quotes b

theorem eats_StringBlock (hv : v.silent = false) {n : Nat} {s : Str} (hs : BlockOk n s) (rest : Str) :
    Eats u v (.call .StringBlock) (blocked n s) rest (One .StringBlock (blocked n s) (BlockPairs s)) := by
  have hv' := compound_emits hv
  refine eats_of_s fun st => eatsS_call (eatsS_atomic (eatsS_rule hv' (eatsS_seq ?_)))
  have q := fun r => (eats_quote (u := u) (v := { v with atomicity := .compound }) hv' r)
  have h3 : ∀ r, Eats u { v with atomicity := .compound } three c!"\"\"\"" r Quotes := fun r =>
    eats_seq ((eats_cat (x := c!"\"\"") (y := c!"\"") ((eats_cat (x := c!"\"") (y := c!"\"") (q _) (q _)).imp
      fun q => quotes_then) (q _)).imp fun q => quotes_then)
  have hne : ∀ r, s ++ (quotes (n + 3) ++ rest) ≠ '"' :: r := by
    intro r e
    cases hs' : s with
    | nil => exact hs.1 hs'
    | cons c t =>
      rw [hs'] at e
      simp only [List.cons_append, List.cons.injEq] at e
      exact hs.2.1 t (by rw [hs', e.1])
  have a1 := eatsS_cat (x := c!"\"\"\"") (y := quotes n) ((h3 _).s st)
    (eatsS_push ((eats_quote_run (u := u) (v := { v with atomicity := .compound }) hv' hne n).s st))
  have a2 := eatsS_cat (y := s) a1 (eatsS_StringText (u := u) hv' hs rest st)
  have e3 : quotes (n + 3) ++ rest = quotes n ++ (c!"\"" ++ (c!"\"" ++ (c!"\"" ++ rest))) := by
    rw [quotes_three']; simp
  rw [e3] at a2
  have a3 := eatsS_cat (y := quotes n) a2 (eatsS_call (r := .POP) (eatsS_pop (u := u) (quotes n) _ st))
  have a4 := eatsS_cat (y := c!"\"") a3 ((q _).s st)
  have a5 := eatsS_cat (y := c!"\"") a4 ((q _).s st)
  have a6 := eatsS_cat (y := c!"\"") a5 ((q rest).s st)
  have e : (((((c!"\"\"\"" ++ quotes n) ++ s) ++ quotes n) ++ c!"\"") ++ c!"\"") ++ c!"\"" = blocked n s := by
    rw [blocked, quotes_three, ← quotes_three, quotes_three']
    conv => rhs; rw [show quotes n ++ c!"\"\"\"" = c!"\"\"\"" ++ quotes n by rw [← quotes_three', quotes_three]]
    simp [show '"' :: '"' :: '"' :: quotes n = quotes n ++ c!"\"\"\"" by rw [← quotes_three']; rfl]
  rw [← e]
  refine a6.imp ?_
  rintro _ ⟨_, d3, rfl, ⟨_, d2, rfl, ⟨_, d1, rfl, ⟨_, p0, rfl, ⟨a, t, rfl, ha, ht⟩, hp⟩, h1⟩, h2⟩, h3⟩
  obtain ⟨i, j, l, rfl, _⟩ := ht
  rw [show p0 = [] from hp]
  exact ⟨a, d1 ++ (d2 ++ d3), i, j, l, by simp, quotes_then ha,
    quotes_then ⟨_, _, rfl, h1, quotes_then ⟨_, _, rfl, h2, h3⟩⟩⟩

theorem blockText_quotes {a : List (Pair R)} (ha : Quotes a) (l : List (Pair R)) (s : Str) :
    blockText (a ++ l) s = blockText l s := by
  induction a with
  | nil => rfl
  | cons p a ih =>
    rw [List.cons_append, blockText, if_pos (ha p (by simp)), ih fun q hq => ha q (by simp [hq])]

theorem blockText_pairs {s : Str} {q : List (Pair R)} (h : BlockPairs s q) (t : Str) : blockText q t = some s := by
  obtain ⟨a, b, i, j, l, rfl, ha, hb⟩ := h
  rw [blockText_quotes ha, blockText, if_neg (by simp [Pair.rule]), if_pos (by rfl)]
  have := blockText_quotes hb [] s
  rw [List.append_nil] at this
  exact this

theorem blocked_head (n : Nat) (s : Str) : ∃ r, blocked n s = '"' :: r := ⟨quotes (n + 2) ++ (s ++ quotes (n + 3)), rfl⟩

/-- String blocks are operands. -/
theorem node_block (L : Lawful u) {n : Nat} {s : Str} (hs : BlockOk n s) :
    IsNode u false (blocked n s) (some (.string s)) := by
  obtain ⟨r0, h0⟩ := blocked_head n s
  refine ⟨⟨'"', _, h0, .inr (by decide)⟩, fun rest hr _ => eats_node_mark L h0 (by decide) ?_,
    fun rest _ _ => fails_kv_mark L ⟨'"', _, h0, by decide⟩ rest⟩
  have hv' : ({ vC with atomicity := .compound } : Env).emits = true := rfl
  have hS : Eats u vC (.call .String) (blocked n s) rest
      (One .String (blocked n s) (One .StringBlock (blocked n s) (BlockPairs s))) := by
    refine eats_call (eats_atomic (eats_rule hv' (eats_seq ?_)))
    refine (eats_cat (x := []) (eats_opt_nil (by rw [h0]; exact fails_plain L (by decide) _))
      (eats_alt_left (eats_restore (eats_StringBlock rfl hs rest)))).imp fun q => nil_then
  refine eats_data_of rfl (eats_alt_left (eats_alt_right
      (fails_alt (fails_alt (fails_alt (fails_alt (fails_alt (fails_restore ?_) (fails_restore ?_)) ?_) ?_) ?_) ?_)
      (eats_restore hS))) ?_
  any_goals (rw [h0]; exact fails_plain L (by decide) _)
  rintro q ⟨a', b', l, rfl, a2, b2, l2, rfl, hb⟩
  refine ⟨_, rfl, fun c a b => ?_⟩
  simp [buildData, parseString, stringText, Pair.rule, Pair.inner, erase, blockText_pairs hb]

/-- String blocks with a handler are operands. -/
theorem node_block_handler (L : Lawful u) {h s : Str} {n : Nat} (hh : IsIdent u h)
    (hf : ∀ k ∈ constants, strip k h = none) (hs : BlockOk n s) :
    IsNode u false (h ++ blocked n s) (some (.string s)) := by
  have hp : (Path.mk h []).Ok u := ⟨hh, by simp⟩
  have ht : (Path.mk h []).text = h := by simp [Path.text, moreText]
  obtain ⟨c, t, hx, hc⟩ := hh.start
  obtain ⟨r0, h0⟩ := blocked_head n s
  have start : ∃ c r, h ++ blocked n s = c :: r ∧ IdStart u c := ⟨c, t ++ blocked n s, by rw [hx]; rfl, hc⟩
  have nc : ∀ rest, NoCont u (blocked n s ++ rest) := by
    intro rest c r e
    simp only [h0, List.cons_append, List.cons.injEq] at e
    rw [← e.1, L.plain _ _ (by decide)]; decide
  have np : ∀ rest, NoPath u (blocked n s ++ rest) := fun rest => by
    rw [h0]; exact noPath_cons (by decide) (by decide) _
  have ends : ∀ rest, EndsIn u ['"'] (blocked n s ++ rest) := fun rest =>
    ⟨[], blocked n s ++ rest, rfl, by simp, .inr ⟨'"', r0 ++ rest, by rw [h0]; rfl, by simp⟩⟩
  have na : ∀ rest, Breaks u vC (.cat hspace (.call .apply)) (blocked n s ++ rest) := fun rest =>
    (ends rest).breaks L (by decide) fun z hz => by
      refine fails_apply ?_
      rintro r rfl
      rcases hz with h | ⟨c, t, h, hc⟩
      · cases h
      · cases h; revert hc; decide
  have hv' : ({ vC with atomicity := .compound } : Env).emits = true := rfl
  have hS : ∀ rest, Eats u vC (.call .String) (h ++ blocked n s) rest
      (One .String (h ++ blocked n s) (Then (One .SYMBOL h Nil) (One .StringBlock (blocked n s) (BlockPairs s)))) := by
    intro rest
    refine eats_call (eats_atomic (eats_rule hv' (eats_seq ?_)))
    exact eats_cat (eats_opt (eats_SYMBOL L hv' hh (nc rest)))
      (eats_alt_left (eats_restore (eats_StringBlock rfl hs rest)))
  refine ⟨node_head start, fun rest hr _ => ?_, fun rest hr hcol => ?_⟩
  · refine eats_node_data (id_not_paren L start) ?_ ?_ ?_ ?_
    · rw [List.append_assoc]
      have := fails_apply_call L hp (nc rest) (np rest) (na rest)
      rwa [ht] at this
    · rw [List.append_assoc]
      have := fails_derivative L hp (nc rest) (np rest) ((ends rest).head_ne L (by decide) (by decide))
      rwa [ht] at this
    · rw [List.append_assoc]
      have := fails_space_call L (v := vC) rfl (eats_factor_sym L hp (nc rest) (np rest) (na rest)) (ends rest)
        (by decide) (by decide)
      rwa [ht] at this
    · refine eats_data_of rfl (eats_alt_left (eats_alt_right
        (fails_alt (fails_alt (fails_alt (fails_alt (fails_alt (fails_restore ?_) (fails_restore ?_))
          (fails_Special ?_)) ?_) ?_) ?_)
        (eats_restore (hS rest)))) ?_
      · rw [hx]; exact fails_id L hc (by decide) _
      · rw [hx]; exact fails_id L hc (by decide) _
      · intro k hk
        rw [List.append_assoc]
        refine strip_word (keyword_cont L ?_) (hf k hk) (nc rest)
        have key : ∀ k ∈ constants, ∀ c ∈ k, 'a' ≤ c ∧ c ≤ 'z' := by decide
        exact key k hk
      · rw [hx]; exact fails_id L hc (by decide) _
      · rw [hx]; exact fails_id L hc (by decide) _
      · rw [hx]; exact fails_id L hc (by decide) _
      · rintro q ⟨a', b', l, rfl, l1, l2, rfl, ⟨a1, b1, k1, rfl, _⟩, a2, b2, k2, rfl, hb⟩
        refine ⟨_, rfl, fun c a b => ?_⟩
        simp [buildData, parseString, stringText, Pair.rule, Pair.inner, erase, blockText_pairs hb]
  · rw [List.append_assoc]
    refine fails_kv_ident L hh (nc rest) ⟨[], blocked n s ++ rest, rfl, blank_nil, ?_, ?_⟩
    · rw [h0]; exact solid_cons L (by decide) (by decide) (by decide) (by decide) _
    · intro c r e
      simp only [h0, List.cons_append, List.cons.injEq] at e
      rw [← e.1]; decide

end SM.Props
