import Verif.Props.PegFirst
/-
A calculus for what the grammar accepts: `Eats` and `Fails` for parser expressions, with one lemma per
combinator.  Used by the theorems about concrete texts.
-/
namespace SM.Props
open SM SM.Peg

/-- In environment `v`, in front of `rest`, the parser expression `e` consumes exactly `x`, leaves the
stack alone and emits pairs satisfying `P`, from whatever position. -/
def Eats (u : Uni) (v : Env) (e : PE R) (x rest : Str) (P : List (Pair R) → Prop) : Prop :=
  ∀ pos stack queue, ∃ q, P q ∧
    sem grammar u e v ⟨pos, x ++ rest, stack, queue⟩ = .ok ⟨pos + x.length, rest, stack, queue ++ q⟩

/-- On the text, `e` fails without trace. -/
def Fails (u : Uni) (v : Env) (e : PE R) (txt : Str) : Prop :=
  ∀ pos stack queue, sem grammar u e v ⟨pos, txt, stack, queue⟩ = .err ⟨pos, txt, stack, queue⟩

/-- On the text, `e` fails, maybe half way through. -/
def Breaks (u : Uni) (v : Env) (e : PE R) (txt : Str) : Prop :=
  ∀ pos stack queue, ∃ pos' txt' queue',
    sem grammar u e v ⟨pos, txt, stack, queue⟩ = .err ⟨pos', txt', stack, queue'⟩

/-- No pairs. -/
def Nil (q : List (Pair R)) : Prop := q = []

/-- Pairs of one kind, then of another. -/
def Then (P Q : List (Pair R) → Prop) (q : List (Pair R)) : Prop :=
  ∃ a b, q = a ++ b ∧ P a ∧ Q b

/-- One pair of rule `r` over the text `x`, with children as given. -/
def One (r : R) (x : Str) (P : List (Pair R) → Prop) (q : List (Pair R)) : Prop :=
  ∃ a b l, q = [.mk r a b x l] ∧ P l

variable {u : Uni} {v : Env}

theorem Eats.imp {e : PE R} {x rest : Str} {P Q : List (Pair R) → Prop} (h : Eats u v e x rest P)
    (hpq : ∀ q, P q → Q q) : Eats u v e x rest Q := by
  intro pos stack queue
  obtain ⟨q, hq, hs⟩ := h pos stack queue
  exact ⟨q, hpq q hq, hs⟩

theorem Eats.cast {e : PE R} {x y rest : Str} {P : List (Pair R) → Prop} (h : Eats u v e x rest P)
    (hxy : x = y) : Eats u v e y rest P := hxy ▸ h

theorem Fails.breaks {e : PE R} {txt : Str} (h : Fails u v e txt) : Breaks u v e txt :=
  fun pos stack queue => ⟨pos, txt, queue, h pos stack queue⟩

theorem eats_call {r : R} {x rest : Str} {P : List (Pair R) → Prop} (h : Eats u v (grammar r) x rest P) :
    Eats u v (.call r) x rest P := by
  intro pos stack queue
  rw [sem_call]
  exact h pos stack queue

theorem eats_rule {r : R} {e : PE R} {x rest : Str} {P : List (Pair R) → Prop} (hv : v.emits = true)
    (h : Eats u v e x rest P) : Eats u v (.rule r e) x rest (One r x P) := by
  intro pos stack queue
  obtain ⟨q, hq, hs⟩ := h pos stack []
  refine ⟨[.mk r pos (pos + x.length) x q], ⟨_, _, _, rfl, hq⟩, ?_⟩
  rw [sem_rule, if_pos hv]
  simp only
  rw [hs]
  simp [Res.mapBoth, St.between]

theorem eats_rule_mute {r : R} {e : PE R} {x rest : Str} {P : List (Pair R) → Prop} (hv : v.emits = false)
    (h : Eats u v e x rest P) : Eats u v (.rule r e) x rest P := by
  intro pos stack queue
  rw [sem_rule, hv]
  exact h pos stack queue

theorem eats_atomic {a : Atomicity} {e : PE R} {x rest : Str} {P : List (Pair R) → Prop}
    (h : Eats u { v with atomicity := a } e x rest P) : Eats u v (.atomic a e) x rest P := by
  intro pos stack queue
  rw [sem_atomic]
  exact h pos stack queue

theorem eats_ifNon {e : PE R} {x rest : Str} {P : List (Pair R) → Prop} (hv : v.atomicity = .non)
    (h : Eats u v e x rest P) : Eats u v (.ifNon e) x rest P := by
  intro pos stack queue
  rw [sem_ifNon, if_pos hv]
  exact h pos stack queue

theorem eats_seq {e : PE R} {x rest : Str} {P : List (Pair R) → Prop}
    (h : Eats u v e x rest P) : Eats u v (.seq e) x rest P := by
  intro pos stack queue
  obtain ⟨q, hq, hs⟩ := h pos stack queue
  exact ⟨q, hq, by rw [sem_seq, hs]; rfl⟩

theorem eats_restore {e : PE R} {x rest : Str} {P : List (Pair R) → Prop}
    (h : Eats u v e x rest P) : Eats u v (.restore e) x rest P := by
  intro pos stack queue
  obtain ⟨q, hq, hs⟩ := h pos stack queue
  exact ⟨q, hq, by rw [sem_restore, hs]; rfl⟩

theorem eats_opt {e : PE R} {x rest : Str} {P : List (Pair R) → Prop}
    (h : Eats u v e x rest P) : Eats u v (.opt e) x rest P := by
  intro pos stack queue
  obtain ⟨q, hq, hs⟩ := h pos stack queue
  exact ⟨q, hq, by rw [sem_opt, hs]; rfl⟩

theorem eats_opt_nil {e : PE R} {rest : Str} (h : Fails u v e rest) : Eats u v (.opt e) [] rest Nil := by
  intro pos stack queue
  exact ⟨[], rfl, by rw [sem_opt, List.nil_append, h pos stack queue]; simp [Res.recover]⟩

theorem eats_rep_nil {e : PE R} {rest : Str} (h : Fails u v e rest) : Eats u v (.rep e) [] rest Nil := by
  intro pos stack queue
  exact ⟨[], rfl, by rw [sem_rep, List.nil_append, h pos stack queue]; simp⟩

theorem eats_rep_cons {e : PE R} {x y rest : Str} {P Q : List (Pair R) → Prop}
    (h1 : Eats u v e x (y ++ rest) P) (h2 : Eats u v (.rep e) y rest Q) :
    Eats u v (.rep e) (x ++ y) rest (Then P Q) := by
  intro pos stack queue
  obtain ⟨q1, hq1, hs1⟩ := h1 pos stack queue
  obtain ⟨q2, hq2, hs2⟩ := h2 (pos + x.length) stack (queue ++ q1)
  refine ⟨q1 ++ q2, ⟨q1, q2, rfl, hq1, hq2⟩, ?_⟩
  rw [sem_rep, List.append_assoc, hs1]
  simp only
  rw [hs2]
  simp [Nat.add_assoc]

theorem eats_alt_left {a b : PE R} {x rest : Str} {P : List (Pair R) → Prop}
    (h : Eats u v a x rest P) : Eats u v (.alt a b) x rest P := by
  intro pos stack queue
  obtain ⟨q, hq, hs⟩ := h pos stack queue
  exact ⟨q, hq, by rw [sem_alt, hs]; rfl⟩

theorem eats_alt_right {a b : PE R} {x rest : Str} {P : List (Pair R) → Prop}
    (hf : Fails u v a (x ++ rest)) (h : Eats u v b x rest P) : Eats u v (.alt a b) x rest P := by
  intro pos stack queue
  obtain ⟨q, hq, hs⟩ := h pos stack queue
  exact ⟨q, hq, by rw [sem_alt, hf pos stack queue]; exact hs⟩

theorem eats_cat {a b : PE R} {x y rest : Str} {P Q : List (Pair R) → Prop}
    (h1 : Eats u v a x (y ++ rest) P) (h2 : Eats u v b y rest Q) :
    Eats u v (.cat a b) (x ++ y) rest (Then P Q) := by
  intro pos stack queue
  obtain ⟨q1, hq1, hs1⟩ := h1 pos stack queue
  obtain ⟨q2, hq2, hs2⟩ := h2 (pos + x.length) stack (queue ++ q1)
  refine ⟨q1 ++ q2, ⟨q1, q2, rfl, hq1, hq2⟩, ?_⟩
  rw [sem_cat, List.append_assoc, hs1]
  simp only [Res.andThen]
  rw [hs2]
  simp [Nat.add_assoc]

theorem strip_self (x rest : Str) : strip x (x ++ rest) = some rest := by
  induction x with
  | nil => rfl
  | cons c x ih => simp [strip, ih]

theorem eats_str (x rest : Str) : Eats u v (.str x) x rest Nil := by
  intro pos stack queue
  exact ⟨[], rfl, by rw [sem_str]; simp [St.matchStr, strip_self, St.advance]⟩

theorem eats_char {p : Char → Bool} {e : PE R} {c : Char} (rest : Str)
    (he : ∀ s, sem grammar u e v s = s.charBy p) (hc : p c = true) : Eats u v e [c] rest Nil := by
  intro pos stack queue
  exact ⟨[], rfl, by rw [he]; simp [St.charBy, hc, St.advance]⟩

theorem eats_range {a b c : Char} (rest : Str) (h1 : a ≤ c) (h2 : c ≤ b) :
    Eats u v (.range a b) [c] rest Nil :=
  eats_char rest (fun s => sem_range v s a b) (by simp [h1, h2])

theorem eats_uni {p : Uc} {c : Char} (rest : Str) (h : u p c = true) : Eats u v (.uni p) [c] rest Nil :=
  eats_char rest (fun s => sem_uni v s p) h

theorem eats_any (c : Char) (rest : Str) : Eats u v .any [c] rest Nil :=
  eats_char rest (fun s => sem_any v s) rfl

/-- A negative lookahead that holds consumes nothing. -/
theorem eats_not {e : PE R} {rest : Str} (h : Fails u { v with silent := true } e rest) :
    Eats u v (.look false e) [] rest Nil := by
  intro pos stack queue
  refine ⟨[], rfl, ?_⟩
  rw [sem_look, List.nil_append, h pos stack queue]
  simp [Res.mapBoth, Res.flip, backTo]

/-! ### Failures -/

theorem fails_call {r : R} {txt : Str} (h : Fails u v (grammar r) txt) : Fails u v (.call r) txt := by
  intro pos stack queue
  rw [sem_call]
  exact h pos stack queue

theorem fails_first {r : R} {txt : Str} (hreq : gReq r = 0) (hn : gNul r = false) (hp : r ≠ .POP)
    (hb : r ≠ .StringBlock) (h : hits u (gFirst r) txt = false) : Fails u v (.call r) txt :=
  fun _ _ _ => sem_call_fails hreq hn hp hb h

theorem fails_rule {r : R} {e : PE R} {txt : Str} (h : Fails u v e txt) : Fails u v (.rule r e) txt := by
  intro pos stack queue
  rw [sem_rule]
  split
  · simp only
    rw [h pos stack []]
    rfl
  · exact h pos stack queue

theorem fails_atomic {a : Atomicity} {e : PE R} {txt : Str}
    (h : Fails u { v with atomicity := a } e txt) : Fails u v (.atomic a e) txt := by
  intro pos stack queue
  rw [sem_atomic]
  exact h pos stack queue

theorem fails_seq {e : PE R} {txt : Str} (h : Breaks u v e txt) : Fails u v (.seq e) txt := by
  intro pos stack queue
  obtain ⟨pos', txt', queue', hs⟩ := h pos stack queue
  rw [sem_seq, hs]
  rfl

theorem fails_restore {e : PE R} {txt : Str} (h : Fails u v e txt) : Fails u v (.restore e) txt := by
  intro pos stack queue
  rw [sem_restore, h pos stack queue]
  rfl

theorem fails_alt {a b : PE R} {txt : Str} (h1 : Fails u v a txt) (h2 : Fails u v b txt) :
    Fails u v (.alt a b) txt := by
  intro pos stack queue
  rw [sem_alt, h1 pos stack queue]
  exact h2 pos stack queue

theorem breaks_cat {a b : PE R} {txt : Str} (h : Breaks u v a txt) : Breaks u v (.cat a b) txt := by
  intro pos stack queue
  obtain ⟨pos', txt', queue', hs⟩ := h pos stack queue
  exact ⟨pos', txt', queue', by rw [sem_cat, hs]; rfl⟩

theorem breaks_cat_right {a b : PE R} {x rest : Str} {P : List (Pair R) → Prop}
    (h1 : Eats u v a x rest P) (h2 : Breaks u v b rest) : Breaks u v (.cat a b) (x ++ rest) := by
  intro pos stack queue
  obtain ⟨q, _, hs⟩ := h1 pos stack queue
  obtain ⟨pos', txt', queue', hs2⟩ := h2 (pos + x.length) stack (queue ++ q)
  exact ⟨pos', txt', queue', by rw [sem_cat, hs]; exact hs2⟩

theorem fails_cat {a b : PE R} {txt : Str} (h : Fails u v a txt) : Fails u v (.cat a b) txt := by
  intro pos stack queue
  rw [sem_cat, h pos stack queue]
  rfl

theorem fails_str {x txt : Str} (h : strip x txt = none) : Fails u v (.str x) txt := by
  intro pos stack queue
  rw [sem_str]
  simp [St.matchStr, h]

theorem fails_insens {x txt : Str} (h : stripInsens x txt = none) : Fails u v (.insens x) txt := by
  intro pos stack queue
  rw [sem_insens]
  simp [h]

/-- A negative lookahead that does not hold. -/
theorem fails_not {e : PE R} {x rest : Str} (h : Eats u { v with silent := true } e x rest Nil) :
    Fails u v (.look false e) (x ++ rest) := by
  intro pos stack queue
  obtain ⟨q, hq, hs⟩ := h pos stack queue
  rw [sem_look, hs, show q = [] from hq]
  simp [Res.mapBoth, Res.flip, backTo]

theorem fails_eoi {c : Char} {txt : Str} : Fails u v .eoi (c :: txt) := by
  intro pos stack queue
  rw [sem_eoi]
  simp

theorem eats_eoi : Eats u v .eoi [] [] Nil := by
  intro pos stack queue
  exact ⟨[], rfl, by rw [sem_eoi]; simp⟩

/-! ### Tokens -/

theorem eats_tok {r : R} {x : Str} (hg : grammar r = .rule r (.atomic .atomic (.str x)))
    (hv : v.emits = true) (rest : Str) : Eats u v (.call r) x rest (One r x Nil) := by
  apply eats_call
  rw [hg]
  exact eats_rule hv (eats_atomic (eats_str x rest))

theorem eats_tok_mute {r : R} {x : Str} (hg : grammar r = .rule r (.atomic .atomic (.str x)))
    (hv : v.emits = false) (rest : Str) : Eats u v (.call r) x rest Nil := by
  apply eats_call
  rw [hg]
  exact eats_rule_mute hv (eats_atomic (eats_str x rest))

theorem fails_tok {r : R} {x txt : Str} (hg : grammar r = .rule r (.atomic .atomic (.str x)))
    (h : strip x txt = none) : Fails u v (.call r) txt := by
  apply fails_call
  rw [hg]
  exact fails_rule (fails_atomic (fails_str h))

end SM.Props
