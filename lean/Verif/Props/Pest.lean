import Verif.Props.PestLaws
import Verif.Props.PegErr
import Verif.Props.Deriv
import Verif.Props.PegAgree
/-
C59: the parser in the repository does what the grammar file in the repository says.
-/
namespace SM.Props
open SM SM.Peg

/-- **C59**, generation.  The parser in the repository is what the generator makes of the grammar file. -/
theorem C59_generated (r : R) (k : Kind) (e : GE) (h : pest r = some (k, e)) : grammar r = generate r k e := by
  cases r <;> first | (cases h; rfl) | cases h

/-- Code that changes nothing if it fails. -/
def keeps (c : PE R) : Bool := back c && decide (eff gStack c 0 = some (0, some 0))

/-- Whatever may fail and be followed by something else changes nothing if it fails. -/
def neat : PE R → Bool
  | .opt c | .rep c => keeps c && neat c
  | .alt a b => keeps a && neat a && neat b
  | .cat a b => neat a && neat b
  | .rule _ c | .atomic _ c | .ifNon c | .seq c | .restore c | .look _ c | .push c => neat c
  | _ => true

theorem grammar_neat (r : R) : neat (grammar r) = true := by cases r <;> decide

theorem keeps_err {u : Uni} {c : PE R} (hc : keeps c = true) {n : Nat} {v : Env} {s t : St R}
    (h : run grammar u n c v s = .err t) : t = s := by
  simp only [keeps, Bool.and_eq_true, decide_eq_true_eq] at hc
  have := run_tame gStack grammar u gStack_ok n c v s s.stack 0 0 _ hc.2 (Above.base _)
  rw [h] at this
  obtain ⟨h1, h2⟩ := this
  obtain ⟨a, b, d⟩ := h1 hc.1
  have e := (h2 0 rfl).zero
  cases t; cases s
  simp_all

/-- Expressions the generator has code for: no `+` and no `{n}` left, only rules of the file. -/
def plain : GE → Bool
  | .ref r => decide (r ≠ .skip)
  | .seq a b | .alt a b => plain a && plain b
  | .opt e | .star e | .not e | .push e => plain e
  | .plus _ | .times _ _ => false
  | _ => true

theorem pest_some (r : R) (h : r ≠ .skip) : ∃ k e, pest r = some (k, e) := by
  cases r <;> first | exact ⟨_, _, rfl⟩ | exact absurd rfl h

theorem pest_plain (r : R) (k : Kind) (e : GE) (h : pest r = some (k, e)) : plain e.optimize = true := by
  cases r <;> first | (cases h; decide) | cases h

/-- The place a parser state is at. -/
def placeOf (s : St R) : Place := ⟨s.pos, s.rest, s.stack⟩

section
variable {u : Uni}

/-- From `s` to `t` the phrase is matched. -/
def Hits (u : Uni) (v : Env) (x : Phrase) (s t : St R) : Prop :=
  ∃ l, Means u v.atomicity x (placeOf s) (.hit (placeOf t) l) ∧ t.queue = s.queue ++ (if v.silent then [] else l)

/-- At `s` the phrase is not matched. -/
def Misses (u : Uni) (v : Env) (x : Phrase) (s : St R) : Prop := Means u v.atomicity x (placeOf s) .miss

/-- The result of running code for `e` is what `e` means. -/
def Good (u : Uni) (v : Env) (e : GE) (s : St R) : Res R → Prop
  | .ok t => Hits u v (.of e) s t
  | .err _ => Misses u v (.of e) s
  | .crash => True

/-- Code without `skip` is run only where white space is not allowed. -/
def Fits (tight : Bool) (v : Env) : Prop := tight = true → v.atomicity ≠ .non

theorem Hits.cat {v : Env} {x : Phrase} {s t : St R} (h : Hits u v x s t) :
    ∃ l, Means u v.atomicity x (placeOf s) (.hit (placeOf t) l) ∧ t.queue = s.queue ++ (if v.silent then [] else l) := h

/-- All code runs well with less than `N` units of fuel. -/
def GoodBelow (u : Uni) (N : Nat) : Prop :=
  ∀ n, n < N → ∀ (tight : Bool) (e : GE) (v : Env) (s : St R), Fits tight v → plain e = true →
    neat (e.code tight .top) = true → Good u v e s (run grammar u n (e.code tight .top) v s)

theorem queue_cat {b : Bool} {q l l' : List (Pair R)} :
    q ++ (if b then [] else l) ++ (if b then [] else l') = q ++ (if b then [] else l ++ l') := by
  cases b <;> simp

theorem GoodBelow.ref {N : Nat} (H : GoodBelow u N) {n : Nat} (hn : n < N) (r : R) (hr : r ≠ .skip) (v : Env) (s : St R) :
    Good u v (.ref r) s (run grammar u n (.call r) v s) :=
  H n hn false (.ref r) v s (fun h => by cases h) (decide_eq_true hr) rfl

theorem run_cat_ok {n : Nat} {a b : PE R} {v : Env} {s t : St R} (h : run grammar u n (.cat a b) v s = .ok t) :
    ∃ m x, m < n ∧ run grammar u m a v s = .ok x ∧ run grammar u m b v x = .ok t := by
  cases n with
  | zero => cases h
  | succ n =>
    rw [run] at h
    cases ha : run grammar u n a v s with
    | ok x => rw [ha] at h; exact ⟨n, x, Nat.lt_succ_self n, ha, h⟩
    | err x => rw [ha] at h; cases h
    | crash => rw [ha] at h; cases h

theorem run_cat_err {n : Nat} {a b : PE R} {v : Env} {s t : St R} (h : run grammar u n (.cat a b) v s = .err t) :
    ∃ m, m < n ∧ (run grammar u m a v s = .err t ∨
      ∃ x, run grammar u m a v s = .ok x ∧ run grammar u m b v x = .err t) := by
  cases n with
  | zero => cases h
  | succ n =>
    rw [run] at h
    cases ha : run grammar u n a v s with
    | ok x => rw [ha] at h; exact ⟨n, Nat.lt_succ_self n, .inr ⟨x, ha, h⟩⟩
    | err x => rw [ha] at h; cases h; exact ⟨n, Nat.lt_succ_self n, .inl ha⟩
    | crash => rw [ha] at h; cases h

theorem run_seq_ok {n : Nat} {a : PE R} {v : Env} {s t : St R} (h : run grammar u n (.seq a) v s = .ok t) :
    ∃ m, m < n ∧ run grammar u m a v s = .ok t := by
  cases n with
  | zero => cases h
  | succ n =>
    rw [run] at h
    cases ha : run grammar u n a v s with
    | ok x => rw [ha] at h; cases h; exact ⟨n, Nat.lt_succ_self n, ha⟩
    | err x => rw [ha] at h; cases h
    | crash => rw [ha] at h; cases h

theorem run_seq_err {n : Nat} {a : PE R} {v : Env} {s t : St R} (h : run grammar u n (.seq a) v s = .err t) :
    ∃ m t', m < n ∧ run grammar u m a v s = .err t' := by
  cases n with
  | zero => cases h
  | succ n =>
    rw [run] at h
    cases ha : run grammar u n a v s with
    | ok x => rw [ha] at h; cases h
    | err x => exact ⟨n, x, Nat.lt_succ_self n, ha⟩
    | crash => rw [ha] at h; cases h

theorem run_wrap_ok {n : Nat} {e : GE} {a : PE R} {v : Env} {s t : St R} (h : run grammar u n (wrap e a) v s = .ok t) :
    ∃ m, m ≤ n ∧ run grammar u m a v s = .ok t := by
  unfold wrap at h
  split at h
  · cases n with
    | zero => cases h
    | succ n =>
      rw [run] at h
      cases ha : run grammar u n a v s with
      | ok x => rw [ha] at h; cases h; exact ⟨n, Nat.le_succ n, ha⟩
      | err x => rw [ha] at h; cases h
      | crash => rw [ha] at h; cases h
  · exact ⟨n, Nat.le_refl n, h⟩

theorem run_wrap_err {n : Nat} {e : GE} {a : PE R} {v : Env} {s t : St R} (h : run grammar u n (wrap e a) v s = .err t) :
    ∃ m t', m ≤ n ∧ run grammar u m a v s = .err t' := by
  unfold wrap at h
  split at h
  · cases n with
    | zero => cases h
    | succ n =>
      rw [run] at h
      cases ha : run grammar u n a v s with
      | ok x => rw [ha] at h; cases h
      | err x => exact ⟨n, x, Nat.le_succ n, ha⟩
      | crash => rw [ha] at h; cases h
  · exact ⟨n, t, Nat.le_refl n, h⟩

theorem neat_wrap {e : GE} {a : PE R} (h : neat (wrap e a) = true) : neat a = true := by
  unfold wrap at h
  split at h <;> exact h

theorem GoodBelow.hit {N : Nat} (H : GoodBelow u N) {n : Nat} (hn : n < N) {tight : Bool} {e : GE} {v : Env} {s t : St R}
    (hf : Fits tight v) (hp : plain e = true) (hc : neat (e.code tight .top) = true)
    (h : run grammar u n (e.code tight .top) v s = .ok t) : Hits u v (.of e) s t := by
  have := H n hn tight e v s hf hp hc
  rw [h] at this
  exact this

theorem GoodBelow.miss {N : Nat} (H : GoodBelow u N) {n : Nat} (hn : n < N) {tight : Bool} {e : GE} {v : Env} {s t : St R}
    (hf : Fits tight v) (hp : plain e = true) (hc : neat (e.code tight .top) = true)
    (h : run grammar u n (e.code tight .top) v s = .err t) : Misses u v (.of e) s := by
  have := H n hn tight e v s hf hp hc
  rw [h] at this
  exact this

/-- White space: as many as there are, and then no more. -/
theorem spaces {N : Nat} (H : GoodBelow u N) (v : Env) (hv : v.atomicity = .non) : ∀ n, n ≤ N → ∀ s t : St R,
    run grammar u n (.rep (.call .WHITESPACE)) v s = .ok t →
    Misses u v (.of (.ref .WHITESPACE)) t ∧ ∀ r, Hits u v .gap t r → Hits u v .gap s r := by
  intro n
  induction n with
  | zero => intro _ s t h; cases h
  | succ n ih =>
    intro hn s t h
    rw [run] at h
    have hg := H.ref (n := n) (by omega) .WHITESPACE (by decide) v s
    cases hr : run grammar u n (.call .WHITESPACE) v s with
    | ok x =>
      rw [hr] at h hg
      obtain ⟨h1, h2⟩ := ih (by omega) x t h
      refine ⟨h1, fun r hr => ?_⟩
      obtain ⟨l, k1, k2⟩ := hg
      obtain ⟨l', k3, k4⟩ := h2 r hr
      rw [hv] at k1 k3
      refine ⟨l ++ l', ?_, by rw [k4, k2, queue_cat]⟩
      rw [hv]
      exact .space k1 k3
    | err x =>
      rw [hr] at h hg
      have hx : x = s := keeps_err (c := .call .WHITESPACE) (by decide) hr
      subst hx
      cases h
      exact ⟨hg, fun r h => h⟩
    | crash => rw [hr] at h; cases h

/-- Comments, each followed by white space. -/
theorem comments {N : Nat} (H : GoodBelow u N) (v : Env) (hv : v.atomicity = .non) : ∀ n, n ≤ N → ∀ s t : St R,
    run grammar u n (.rep (.seq (.cat (.call .COMMENT) (.rep (.call .WHITESPACE))))) v s = .ok t →
    Misses u v (.of (.ref .WHITESPACE)) s → Hits u v .gap s t := by
  intro n
  induction n with
  | zero => intro _ s t h; cases h
  | succ n ih =>
    intro hn s t h hs
    rw [run] at h
    cases hr : run grammar u n (.seq (.cat (.call .COMMENT) (.rep (.call .WHITESPACE)))) v s with
    | ok x =>
      rw [hr] at h
      obtain ⟨m, hm, h1⟩ := run_seq_ok hr
      obtain ⟨m', y, hm', h2, h3⟩ := run_cat_ok h1
      have hg := H.ref (n := m') (by omega) .COMMENT (by decide) v s
      rw [h2] at hg
      obtain ⟨h4, h5⟩ := spaces H v hv m' (by omega) y x h3
      obtain ⟨l, k1, k2⟩ := hg
      obtain ⟨l', k3, k4⟩ := h5 t (ih (by omega) x t h h4)
      rw [Misses, hv] at hs
      rw [hv] at k1 k3
      refine ⟨l ++ l', ?_, by rw [k4, k2, queue_cat]⟩
      rw [hv]
      exact .comment hs k1 k3
    | err x =>
      rw [hr] at h
      have hx : x = s := keeps_err (c := .seq (.cat (.call .COMMENT) (.rep (.call .WHITESPACE)))) (by decide) hr
      subst hx
      obtain ⟨m, t', hm, h1⟩ := run_seq_err hr
      obtain ⟨m', hm', h1⟩ := run_cat_err h1
      have hg := H.ref (n := m') (by omega) .COMMENT (by decide) v x
      rcases h1 with h1 | ⟨y, h1, h2⟩
      · rw [h1] at hg
        cases h
        refine ⟨[], ?_, by simp⟩
        rw [Misses, hv] at hs
        simp only [Good, Misses, hv] at hg
        rw [hv]
        exact .gapEnd hs hg
      · exact absurd h2 (sure_run grammar u _ _ _ _ _ rfl)
    | crash => rw [hr] at h; cases h

/-- `skip` matches what may stand between two parts. -/
theorem skip_hits {N : Nat} (H : GoodBelow u N) (v : Env) {n : Nat} (hn : n ≤ N) {s t : St R}
    (h : run grammar u n (.call .skip) v s = .ok t) : Hits u v .gap s t := by
  cases n with
  | zero => cases h
  | succ n =>
    rw [run, show grammar .skip = body_skip from rfl, body_skip] at h
    cases n with
    | zero => cases h
    | succ n =>
      rw [run] at h
      split at h
      · rename_i hv
        obtain ⟨m, hm, h1⟩ := run_seq_ok h
        obtain ⟨m', x, hm', h2, h3⟩ := run_cat_ok h1
        obtain ⟨k1, k2⟩ := spaces H v hv m' (by omega) s x h2
        exact k2 t (comments H v hv m' (by omega) x t h3 k1)
      · rename_i hv
        cases h
        exact ⟨[], .tight hv, by simp⟩

theorem skip_no_err {n : Nat} {v : Env} {s t : St R} (h : run grammar u n (.call .skip) v s = .err t) : False := by
  cases n with
  | zero => cases h
  | succ n =>
    rw [run, show grammar .skip = body_skip from rfl, body_skip] at h
    cases n with
    | zero => cases h
    | succ n =>
      rw [run] at h
      split at h
      · exact sure_run grammar u _ _ _ _ _ rfl h
      · cases h

/-- One part after another. -/
theorem glue_ok {N : Nat} (H : GoodBelow u N) {tight : Bool} {v : Env} (hf : Fits tight v) {n : Nat} (hn : n ≤ N)
    {acc c : PE R} {s t : St R} (h : run grammar u n (glue tight acc c) v s = .ok t) :
    ∃ m x y, m < n ∧ run grammar u m acc v s = .ok x ∧ Hits u v .gap x y ∧ ∃ m', m' < n ∧ run grammar u m' c v y = .ok t := by
  unfold glue at h
  split at h
  · rename_i ht
    obtain ⟨m, x, hm, h1, h2⟩ := run_cat_ok h
    exact ⟨m, x, x, hm, h1, ⟨[], .tight (hf ht), by simp⟩, m, hm, h2⟩
  · obtain ⟨m, y, hm, h1, h2⟩ := run_cat_ok h
    obtain ⟨m', x, hm', h3, h4⟩ := run_cat_ok h1
    exact ⟨m', x, y, by omega, h3, skip_hits H v (by omega) h4, m, hm, h2⟩

theorem glue_err {N : Nat} (H : GoodBelow u N) {tight : Bool} {v : Env} (hf : Fits tight v) {n : Nat} (hn : n ≤ N)
    {acc c : PE R} {s t : St R} (h : run grammar u n (glue tight acc c) v s = .err t) :
    (∃ m t', m < n ∧ run grammar u m acc v s = .err t') ∨
    ∃ m x y, m < n ∧ run grammar u m acc v s = .ok x ∧ Hits u v .gap x y ∧
      ∃ m' t', m' < n ∧ run grammar u m' c v y = .err t' := by
  unfold glue at h
  split at h
  · rename_i ht
    obtain ⟨m, hm, h1 | ⟨x, h1, h2⟩⟩ := run_cat_err h
    · exact .inl ⟨m, t, hm, h1⟩
    · exact .inr ⟨m, x, x, hm, h1, ⟨[], .tight (hf ht), by simp⟩, m, t, hm, h2⟩
  · obtain ⟨m, hm, h1 | ⟨y, h1, h2⟩⟩ := run_cat_err h
    · obtain ⟨m', hm', h3 | ⟨x, h3, h4⟩⟩ := run_cat_err h1
      · exact .inl ⟨m', t, by omega, h3⟩
      · exact (skip_no_err h4).elim
    · obtain ⟨m', x, hm', h3, h4⟩ := run_cat_ok h1
      exact .inr ⟨m', x, y, by omega, h3, skip_hits H v (by omega) h4, m, t, hm, h2⟩

theorem neat_glue {tight : Bool} {acc c : PE R} (h : neat (glue tight acc c) = true) : neat acc = true ∧ neat c = true := by
  unfold glue at h
  split at h
  · simp only [neat, Bool.and_eq_true] at h; exact h
  · simp only [neat, Bool.and_eq_true] at h; exact ⟨h.1.1, h.2⟩

/-- The code of an expression other than a sequence, after the parts of a sequence. -/
theorem code_afterSeq (tight : Bool) (acc : PE R) (e : GE) (he : ∀ a b, e ≠ .seq a b) :
    e.code tight (.afterSeq acc) = glue tight acc (e.code tight .top) := by
  cases e with
  | seq a b => exact absurd rfl (he a b)
  | _ => rfl

theorem code_afterAlt (tight : Bool) (acc : PE R) (e : GE) (he : ∀ a b, e ≠ .alt a b) :
    e.code tight (.afterAlt acc) = .alt acc (wrap e (e.code tight .top)) := by
  cases e with
  | alt a b => exact absurd rfl (he a b)
  | _ => rfl

theorem neat_afterSeq (tight : Bool) (e : GE) : ∀ acc : PE R, neat (e.code tight (.afterSeq acc)) = true → neat acc = true := by
  induction e with
  | seq a b _ ib =>
    intro acc h
    exact (neat_glue (ib _ h)).1
  | _ =>
    intro acc h
    rw [code_afterSeq _ _ _ (fun _ _ h => by cases h)] at h
    exact (neat_glue h).1

theorem neat_afterAlt (tight : Bool) (e : GE) : ∀ acc : PE R, neat (e.code tight (.afterAlt acc)) = true →
    neat acc = true ∧ keeps acc = true := by
  induction e with
  | alt a b _ ib =>
    intro acc h
    have := (ib _ h).1
    simp only [neat, Bool.and_eq_true] at this
    exact ⟨this.1.2, this.1.1⟩
  | _ =>
    intro acc h
    rw [code_afterAlt _ _ _ (fun _ _ h => by cases h)] at h
    simp only [neat, Bool.and_eq_true] at h
    exact ⟨h.1.2, h.1.1⟩

theorem plain_seq {a b : GE} (h : plain (.seq a b) = true) : plain a = true ∧ plain b = true := by
  simpa only [plain, Bool.and_eq_true] using h
theorem plain_alt {a b : GE} (h : plain (.alt a b) = true) : plain a = true ∧ plain b = true := by
  simpa only [plain, Bool.and_eq_true] using h

/-- The rest of a sequence. -/
theorem rest_of_seq {N : Nat} (H : GoodBelow u N) {tight : Bool} {v : Env} (hf : Fits tight v) (e : GE) :
    ∀ (acc : PE R) (n : Nat) (s : St R), n ≤ N → plain e = true → neat (e.code tight (.afterSeq acc)) = true →
    (∀ t, run grammar u n (e.code tight (.afterSeq acc)) v s = .ok t →
      ∃ m x y, m < n ∧ run grammar u m acc v s = .ok x ∧ Hits u v .gap x y ∧ Hits u v (.of e) y t) ∧
    (∀ t, run grammar u n (e.code tight (.afterSeq acc)) v s = .err t →
      (∃ m t', m < n ∧ run grammar u m acc v s = .err t') ∨
      ∃ m x y, m < n ∧ run grammar u m acc v s = .ok x ∧ Hits u v .gap x y ∧ Misses u v (.of e) y) := by
  have base : ∀ (e : GE), (∀ a b, e ≠ .seq a b) → ∀ (acc : PE R) (n : Nat) (s : St R), n ≤ N → plain e = true →
      neat (e.code tight (.afterSeq acc)) = true →
      (∀ t, run grammar u n (e.code tight (.afterSeq acc)) v s = .ok t →
        ∃ m x y, m < n ∧ run grammar u m acc v s = .ok x ∧ Hits u v .gap x y ∧ Hits u v (.of e) y t) ∧
      (∀ t, run grammar u n (e.code tight (.afterSeq acc)) v s = .err t →
        (∃ m t', m < n ∧ run grammar u m acc v s = .err t') ∨
        ∃ m x y, m < n ∧ run grammar u m acc v s = .ok x ∧ Hits u v .gap x y ∧ Misses u v (.of e) y) := by
    intro e he acc n s hn hp hc
    rw [code_afterSeq _ _ _ he] at hc ⊢
    obtain ⟨-, hc⟩ := neat_glue hc
    constructor
    · intro t h
      obtain ⟨m, x, y, hm, h1, h2, m', hm', h3⟩ := glue_ok H hf hn h
      exact ⟨m, x, y, hm, h1, h2, H.hit (by omega) hf hp hc h3⟩
    · intro t h
      rcases glue_err H hf hn h with h1 | ⟨m, x, y, hm, h1, h2, m', t', hm', h3⟩
      · exact .inl h1
      · exact .inr ⟨m, x, y, hm, h1, h2, H.miss (by omega) hf hp hc h3⟩
  induction e with
  | seq a b _ ib =>
    intro acc n s hn hp hc
    obtain ⟨hpa, hpb⟩ := plain_seq hp
    obtain ⟨-, hca⟩ := neat_glue (neat_afterSeq _ _ _ hc)
    obtain ⟨k1, k2⟩ := ib (glue tight acc (a.code tight .top)) n s hn hpb hc
    constructor
    · intro t h
      obtain ⟨m, x, y, hm, h1, ⟨l2, g1, g2⟩, ⟨l3, f1, f2⟩⟩ := k1 t h
      obtain ⟨m1, x1, y1, hm1, h3, h4, m2, hm2, h5⟩ := glue_ok H hf (by omega) h1
      obtain ⟨l1, e1, e2⟩ := H.hit (by omega) hf hpa hca h5
      exact ⟨m1, x1, y1, by omega, h3, h4, l1 ++ l2 ++ l3, .seq e1 g1 f1, by
        rw [f2, g2, e2, queue_cat, queue_cat, List.append_assoc]⟩
    · intro t h
      rcases k2 t h with ⟨m, t', hm, h1⟩ | ⟨m, x, y, hm, h1, ⟨l2, g1, g2⟩, f1⟩
      · rcases glue_err H hf (by omega) h1 with ⟨m1, t1, hm1, h3⟩ | ⟨m1, x1, y1, hm1, h3, h4, m2, t2, hm2, h5⟩
        · exact .inl ⟨m1, t1, by omega, h3⟩
        · exact .inr ⟨m1, x1, y1, by omega, h3, h4, .seqNo₁ (H.miss (by omega) hf hpa hca h5)⟩
      · obtain ⟨m1, x1, y1, hm1, h3, h4, m2, hm2, h5⟩ := glue_ok H hf (by omega) h1
        obtain ⟨l1, e1, e2⟩ := H.hit (by omega) hf hpa hca h5
        exact .inr ⟨m1, x1, y1, by omega, h3, h4, .seqNo₂ e1 g1 f1⟩
  | _ => exact base _ (fun _ _ h => by cases h)

theorem run_alt_ok {n : Nat} {a b : PE R} {v : Env} {s t : St R} (h : run grammar u n (.alt a b) v s = .ok t)
    (ha : keeps a = true) :
    ∃ m, m < n ∧ (run grammar u m a v s = .ok t ∨ run grammar u m a v s = .err s ∧ run grammar u m b v s = .ok t) := by
  cases n with
  | zero => cases h
  | succ n =>
    rw [run] at h
    cases hr : run grammar u n a v s with
    | ok x => rw [hr] at h; cases h; exact ⟨n, Nat.lt_succ_self n, .inl hr⟩
    | err x =>
      rw [hr] at h
      have := keeps_err ha hr
      subst this
      exact ⟨n, Nat.lt_succ_self n, .inr ⟨hr, h⟩⟩
    | crash => rw [hr] at h; cases h

theorem run_alt_err {n : Nat} {a b : PE R} {v : Env} {s t : St R} (h : run grammar u n (.alt a b) v s = .err t)
    (ha : keeps a = true) :
    ∃ m, m < n ∧ run grammar u m a v s = .err s ∧ run grammar u m b v s = .err t := by
  cases n with
  | zero => cases h
  | succ n =>
    rw [run] at h
    cases hr : run grammar u n a v s with
    | ok x => rw [hr] at h; cases h
    | err x =>
      rw [hr] at h
      have := keeps_err ha hr
      subst this
      exact ⟨n, Nat.lt_succ_self n, hr, h⟩
    | crash => rw [hr] at h; cases h

/-- The remaining alternatives of a choice. -/
theorem rest_of_alt {N : Nat} (H : GoodBelow u N) {tight : Bool} {v : Env} (hf : Fits tight v) (e : GE) :
    ∀ (acc : PE R) (n : Nat) (s : St R), n ≤ N → plain e = true → neat (e.code tight (.afterAlt acc)) = true →
    (∀ t, run grammar u n (e.code tight (.afterAlt acc)) v s = .ok t →
      ∃ m, m < n ∧ (run grammar u m acc v s = .ok t ∨ run grammar u m acc v s = .err s ∧ Hits u v (.of e) s t)) ∧
    (∀ t, run grammar u n (e.code tight (.afterAlt acc)) v s = .err t →
      ∃ m, m < n ∧ run grammar u m acc v s = .err s ∧ Misses u v (.of e) s) := by
  have base : ∀ (e : GE), (∀ a b, e ≠ .alt a b) → ∀ (acc : PE R) (n : Nat) (s : St R), n ≤ N → plain e = true →
      neat (e.code tight (.afterAlt acc)) = true →
      (∀ t, run grammar u n (e.code tight (.afterAlt acc)) v s = .ok t →
        ∃ m, m < n ∧ (run grammar u m acc v s = .ok t ∨ run grammar u m acc v s = .err s ∧ Hits u v (.of e) s t)) ∧
      (∀ t, run grammar u n (e.code tight (.afterAlt acc)) v s = .err t →
        ∃ m, m < n ∧ run grammar u m acc v s = .err s ∧ Misses u v (.of e) s) := by
    intro e he acc n s hn hp hc
    rw [code_afterAlt _ _ _ he] at hc ⊢
    simp only [neat, Bool.and_eq_true] at hc
    obtain ⟨⟨hk, -⟩, hc⟩ := hc
    constructor
    · intro t h
      obtain ⟨m, hm, h1 | ⟨h1, h2⟩⟩ := run_alt_ok h hk
      · exact ⟨m, hm, .inl h1⟩
      · obtain ⟨m', hm', h3⟩ := run_wrap_ok h2
        exact ⟨m, hm, .inr ⟨h1, H.hit (by omega) hf hp (neat_wrap hc) h3⟩⟩
    · intro t h
      obtain ⟨m, hm, h1, h2⟩ := run_alt_err h hk
      obtain ⟨m', t', hm', h3⟩ := run_wrap_err h2
      exact ⟨m, hm, h1, H.miss (by omega) hf hp (neat_wrap hc) h3⟩
  induction e with
  | alt a b _ ib =>
    intro acc n s hn hp hc
    obtain ⟨hpa, hpb⟩ := plain_alt hp
    have hca := (neat_afterAlt tight b (.alt acc (wrap a (a.code tight .top))) hc).1
    simp only [neat, Bool.and_eq_true] at hca
    obtain ⟨⟨hk, -⟩, hca⟩ := hca
    obtain ⟨k1, k2⟩ := ib (.alt acc (wrap a (a.code tight .top))) n s hn hpb hc
    constructor
    · intro t h
      obtain ⟨m, hm, h1 | ⟨h1, l, h2, h3⟩⟩ := k1 t h
      · obtain ⟨m1, hm1, h4 | ⟨h4, h5⟩⟩ := run_alt_ok h1 hk
        · exact ⟨m1, by omega, .inl h4⟩
        · obtain ⟨m2, hm2, h6⟩ := run_wrap_ok h5
          obtain ⟨l, e1, e2⟩ := H.hit (by omega) hf hpa (neat_wrap hca) h6
          exact ⟨m1, by omega, .inr ⟨h4, l, .altL e1, e2⟩⟩
      · obtain ⟨m1, hm1, h4, h5⟩ := run_alt_err h1 hk
        obtain ⟨m2, t2, hm2, h6⟩ := run_wrap_err h5
        exact ⟨m1, by omega, .inr ⟨h4, l, .altR (H.miss (by omega) hf hpa (neat_wrap hca) h6) h2, h3⟩⟩
    · intro t h
      obtain ⟨m, hm, h1, h2⟩ := k2 t h
      obtain ⟨m1, hm1, h4, h5⟩ := run_alt_err h1 hk
      obtain ⟨m2, t2, hm2, h6⟩ := run_wrap_err h5
      exact ⟨m1, by omega, h4, .altR (H.miss (by omega) hf hpa (neat_wrap hca) h6) h2⟩
  | _ => exact base _ (fun _ _ h => by cases h)

/-- More repetitions, where white space is allowed between them. -/
theorem more_loose {N : Nat} (H : GoodBelow u N) {tight : Bool} {v : Env} (hf : Fits tight v) {e : GE} (hp : plain e = true)
    (hc : neat (e.code tight .top) = true)
    (hk : keeps (.seq (.cat (.call .skip) (wrap e (e.code tight .top)))) = true) : ∀ n, n ≤ N → ∀ s t : St R,
    run grammar u n (.rep (.seq (.cat (.call .skip) (wrap e (e.code tight .top))))) v s = .ok t →
    Hits u v (.more e) s t := by
  intro n
  induction n with
  | zero => intro _ s t h; cases h
  | succ n ih =>
    intro hn s t h
    rw [run] at h
    cases hr : run grammar u n (.seq (.cat (.call .skip) (wrap e (e.code tight .top)))) v s with
    | ok x =>
      rw [hr] at h
      obtain ⟨m, hm, h1⟩ := run_seq_ok hr
      obtain ⟨m', y, hm', h2, h3⟩ := run_cat_ok h1
      obtain ⟨m2, hm2, h4⟩ := run_wrap_ok h3
      obtain ⟨l1, e1, e2⟩ := skip_hits H v (by omega) h2
      obtain ⟨l2, f1, f2⟩ := H.hit (by omega) hf hp hc h4
      obtain ⟨l3, g1, g2⟩ := ih (by omega) x t h
      exact ⟨l1 ++ l2 ++ l3, .more e1 f1 g1, by rw [g2, f2, e2, queue_cat, queue_cat, List.append_assoc]⟩
    | err x =>
      rw [hr] at h
      have hx := keeps_err hk hr
      subst hx
      cases h
      obtain ⟨m, t', hm, h1⟩ := run_seq_err hr
      obtain ⟨m', hm', h1 | ⟨y, h1, h2⟩⟩ := run_cat_err h1
      · exact (skip_no_err h1).elim
      · obtain ⟨l1, e1, -⟩ := skip_hits H v (by omega) h1
        obtain ⟨m2, t2, hm2, h3⟩ := run_wrap_err h2
        exact ⟨[], .moreNo e1 (H.miss (by omega) hf hp hc h3), by simp⟩
    | crash => rw [hr] at h; cases h

/-- More repetitions, where no white space is allowed between them. -/
theorem more_tight {N : Nat} (H : GoodBelow u N) {v : Env} (hf : Fits true v) {e : GE} (hp : plain e = true)
    (hc : neat (e.code true .top) = true) (hk : keeps (wrap e (e.code true .top)) = true) : ∀ n, n ≤ N → ∀ s t : St R,
    run grammar u n (.rep (wrap e (e.code true .top))) v s = .ok t → Hits u v (.more e) s t ∧ Hits u v (.of (.star e)) s t := by
  intro n
  induction n with
  | zero => intro _ s t h; cases h
  | succ n ih =>
    intro hn s t h
    rw [run] at h
    have hg : ∀ a, Means u v.atomicity .gap a (.hit a []) := fun a => .tight (hf rfl)
    cases hr : run grammar u n (wrap e (e.code true .top)) v s with
    | ok x =>
      rw [hr] at h
      obtain ⟨m, hm, h1⟩ := run_wrap_ok hr
      obtain ⟨l2, f1, f2⟩ := H.hit (by omega) hf hp hc h1
      obtain ⟨⟨l3, g1, g2⟩, -⟩ := ih (by omega) x t h
      have hq : t.queue = s.queue ++ (if v.silent then [] else l2 ++ l3) := by rw [g2, f2, queue_cat]
      exact ⟨⟨[] ++ l2 ++ l3, .more (hg _) f1 g1, hq⟩, l2 ++ l3, .star f1 g1, hq⟩
    | err x =>
      rw [hr] at h
      have hx := keeps_err hk hr
      subst hx
      cases h
      obtain ⟨m, t', hm, h1⟩ := run_wrap_err hr
      have hm' := H.miss (by omega) hf hp hc h1
      exact ⟨⟨[], .moreNo (hg _) hm', by simp⟩, [], .starNo hm', by simp⟩
    | crash => rw [hr] at h; cases h

theorem strip_none {x s : Str} (h : strip x s = none) : ¬ x <+: s := by
  rintro ⟨z, rfl⟩
  induction x with
  | nil => simp [strip] at h
  | cons c x ih => rw [List.cons_append, strip, if_pos rfl] at h; exact ih h

theorem stripInsens_none {x s : Str} (h : stripInsens x s = none) :
    ∀ w, w <+: s → w.map Char.toLower ≠ x.map Char.toLower := by
  rintro w ⟨z, rfl⟩ hw
  induction x generalizing w with
  | nil => simp [stripInsens] at h
  | cons c x ih =>
    cases w with
    | nil => simp at hw
    | cons d w =>
      simp only [List.map_cons, List.cons.injEq] at hw
      rw [List.cons_append, stripInsens, if_pos hw.1.symm] at h
      exact ih w h hw.2

theorem good_str (v : Env) (s : St R) (x : Str) : Good u v (.str x) s (s.matchStr x) := by
  unfold St.matchStr
  split
  · rename_i r hr
    refine ⟨[], ?_, by simp [St.advance]⟩
    rw [placeOf, strip_app hr]
    exact .str
  · rename_i hr
    exact .strNo (strip_none hr)

theorem good_insens (v : Env) (s : St R) (x : Str) : Good u v (.insens x) s
    (match stripInsens x s.rest with
    | some r => .ok (s.advance x.length r)
    | none => .err s) := by
  split
  · rename_i r hr
    refine ⟨[], ?_, by simp [St.advance]⟩
    obtain ⟨w, h1, h2⟩ := stripInsens_app hr
    have hl := congrArg List.length h2
    simp only [List.length_map] at hl
    rw [placeOf, h1]
    simp only [placeOf, St.advance, ← hl]
    exact .insens h2
  · rename_i hr
    exact .insensNo (stripInsens_none hr)

theorem good_chr (v : Env) (s : St R) (c : Chars) (p : Char → Bool) (hp : ∀ d, p d = true ↔ charIn u c d) :
    Good u v (.chr c) s (s.charBy p) := by
  unfold St.charBy
  split
  · rename_i hs
    exact .chrNo (fun d z h => by simp only [placeOf] at h; rw [hs] at h; cases h)
  · rename_i d z hs
    split
    · rename_i hd
      refine ⟨[], ?_, by simp [St.advance]⟩
      simp only [placeOf, hs, St.advance]
      exact .chr ((hp d).1 hd)
    · rename_i hd
      refine .chrNo (fun d' z' h => ?_)
      simp only [placeOf] at h
      rw [hs] at h
      cases h
      exact fun h => hd ((hp d).2 h)

/-- What a run of the code `c` of a rule's body gives, in the mode `a`. -/
def BodyGood (u : Uni) (a : Atomicity) (silent : Bool) (e : GE) (s : St R) : Res R → Prop
  | .ok t => ∃ l, Means u a (.of e) (placeOf s) (.hit (placeOf t) l) ∧ t.queue = s.queue ++ (if silent then [] else l)
  | .err _ => Means u a (.of e) (placeOf s) .miss
  | .crash => True

theorem between_eq {s t : St R} {l : List (Pair R)} {x : Phrase} {m : Atomicity}
    (h : Means u m x (placeOf s) (.hit (placeOf t) l)) : s.rest = s.between t ++ t.rest := by
  obtain ⟨w, h1, h2⟩ := h.follows
  simp only [placeOf] at h1 h2
  rw [St.between, h1, h2, Nat.add_sub_cancel_left, List.take_left]

/-- `state.rule`: the pair of a rule. -/
theorem rule_good {v : Env} {a : Atomicity} {e : GE} {r : R} {c : PE R} {n : Nat}
    (h : ∀ s, BodyGood u a v.silent e s (run grammar u n c v s)) (s : St R) :
    match run grammar u (n + 1) (.rule r c) v s with
    | .ok t => ∃ l, Means u a (.of e) (placeOf s) (.hit (placeOf t) l) ∧ s.rest = s.between t ++ t.rest ∧
        t.queue = s.queue ++ (if v.silent then []
          else if v.atomicity != .atomic then [.mk r s.pos t.pos (s.between t) l] else l)
    | .err _ => Means u a (.of e) (placeOf s) .miss
    | .crash => True := by
  rw [run]
  split
  · rename_i t ht
    split at ht
    · rename_i hem
      have hb := h { s with queue := [] }
      cases hr : run grammar u n c v { s with queue := [] } with
      | ok x =>
        rw [hr] at ht hb
        simp only [Res.mapBoth, Res.ok.injEq] at ht
        subst ht
        obtain ⟨l, h1, h2⟩ := hb
        refine ⟨l, h1, between_eq (t := x) h1, ?_⟩
        simp only [Env.emits, Bool.and_eq_true, Bool.not_eq_true'] at hem
        rw [hem.1, hem.2]
        rw [hem.1] at h2
        simp only [List.nil_append, Bool.false_eq_true, if_false] at h2
        rw [h2]
        rfl
      | err x => rw [hr] at ht; cases ht
      | crash => rw [hr] at ht; cases ht
    · rename_i hem
      have hb := h s
      rw [ht] at hb
      obtain ⟨l, h1, h2⟩ := hb
      refine ⟨l, h1, between_eq h1, ?_⟩
      rw [h2]
      simp only [Env.emits, Bool.and_eq_true, Bool.not_eq_true'] at hem
      cases hs : v.silent with
      | true => rfl
      | false =>
        cases ha : v.atomicity != .atomic with
        | true => exact absurd ⟨hs, ha⟩ hem
        | false => simp
  · rename_i t ht
    split at ht
    · have hb := h { s with queue := [] }
      cases hr : run grammar u n c v { s with queue := [] } with
      | ok x => rw [hr] at ht; cases ht
      | err x => rw [hr] at hb; exact hb
      | crash => rw [hr] at ht; cases ht
    · have hb := h s
      rw [ht] at hb
      exact hb
  · exact True.intro

theorem Good.body {v : Env} {e f : GE} {s : St R} {r : Res R} (h : Good u v f s r) (hu : Refines u f e) :
    BodyGood u v.atomicity v.silent e s r := by
  cases r with
  | ok t => obtain ⟨l, h1, h2⟩ := h; exact ⟨l, hu _ _ _ h1, h2⟩
  | err t => exact hu _ _ _ h
  | crash => exact True.intro

/-- A rule's parser function does what the rule says. -/
theorem call_good {N : Nat} (H : GoodBelow u N) (r : R) (hr : r ≠ .skip) (v : Env) (s : St R) :
    Good u v (.ref r) s (run grammar u N (.call r) v s) := by
  cases N with
  | zero => exact True.intro
  | succ N =>
    obtain ⟨k, e, hp⟩ := pest_some r hr
    have hg := C59_generated r k e hp
    have hn := grammar_neat r
    have hpl := pest_plain r k e hp
    have hu := refines_optimize (u := u) e
    rw [run, hg]
    rw [hg] at hn
    cases k with
    | normal =>
      cases N with
      | zero => exact True.intro
      | succ N =>
        have := rule_good (u := u) (v := v) (a := v.atomicity) (e := e) (r := r) (n := N)
          (c := e.optimize.code false .top)
          (fun s => (H N (by omega) false e.optimize v s (fun h => by cases h) hpl hn).body hu) s
        revert this
        rw [generate]
        cases run grammar u (N + 1) (.rule r (e.optimize.code false .top)) v s with
        | ok t =>
          rintro ⟨l, h1, h2, h3⟩
          exact ⟨_, .ref hp h1 h2, by rw [h3]; rfl⟩
        | err t => exact fun h => .refNo hp h
        | crash => exact fun _ => True.intro
    | silent =>
      rw [generate] at hn ⊢
      split
      · rename_i hw
        rw [if_pos hw] at hn
        cases N with
        | zero => exact True.intro
        | succ N =>
          rw [run]
          have := (H N (by omega) true e.optimize { v with atomicity := .atomic } s (fun _ h => by cases h) hpl hn).body hu
          have him : innerMode r .silent v.atomicity = .atomic := if_pos hw
          revert this
          cases run grammar u N (e.optimize.code true .top) { v with atomicity := .atomic } s with
          | ok t =>
            rintro ⟨l, h1, h2⟩
            exact ⟨l, .ref (k := .silent) (l := l) hp (by rw [him]; exact h1) (between_eq h1), h2⟩
          | err t => exact fun h => .refNo hp (by rw [him]; exact h)
          | crash => exact fun _ => True.intro
      · rename_i hw
        rw [if_neg hw] at hn
        have := (H N (by omega) false e.optimize v s (fun h => by cases h) hpl hn).body hu
        have him : innerMode r .silent v.atomicity = v.atomicity := if_neg hw
        revert this
        cases run grammar u N (e.optimize.code false .top) v s with
        | ok t =>
          rintro ⟨l, h1, h2⟩
          exact ⟨l, .ref (k := .silent) (l := l) hp (by rw [him]; exact h1) (between_eq h1), h2⟩
        | err t => exact fun h => .refNo hp (by rw [him]; exact h)
        | crash => exact fun _ => True.intro
    | atomic =>
      cases N with
      | zero => exact True.intro
      | succ N =>
        have := rule_good (u := u) (v := v) (a := .atomic) (e := e) (r := r) (n := N)
          (c := .atomic .atomic (e.optimize.code true .top))
          (fun s => by
            cases N with
            | zero => exact True.intro
            | succ N =>
              exact (H N (by omega) true e.optimize { v with atomicity := .atomic } s
                (fun _ h => by cases h) hpl hn).body hu) s
        revert this
        rw [generate]
        cases run grammar u (N + 1) (.rule r (.atomic .atomic (e.optimize.code true .top))) v s with
        | ok t =>
          rintro ⟨l, h1, h2, h3⟩
          exact ⟨_, .ref hp h1 h2, by rw [h3]; rfl⟩
        | err t => exact fun h => .refNo hp h
        | crash => exact fun _ => True.intro
    | compound =>
      rw [generate] at hn ⊢
      cases N with
      | zero => exact True.intro
      | succ N =>
        rw [run]
        cases N with
        | zero => exact True.intro
        | succ N =>
          have := rule_good (u := u) (v := { v with atomicity := .compound }) (a := .compound) (e := e) (r := r) (n := N)
            (c := e.optimize.code true .top)
            (fun s => (H N (by omega) true e.optimize { v with atomicity := .compound } s
              (fun _ h => by cases h) hpl hn).body hu) s
          revert this
          cases run grammar u (N + 1) (.rule r (e.optimize.code true .top)) { v with atomicity := .compound } s with
          | ok t =>
            rintro ⟨l, h1, h2, h3⟩
            exact ⟨_, .ref hp h1 h2, by rw [h3]; rfl⟩
          | err t => exact fun h => .refNo hp h
          | crash => exact fun _ => True.intro
    | nonAtomic =>
      rw [generate] at hn ⊢
      cases N with
      | zero => exact True.intro
      | succ N =>
        rw [run]
        cases N with
        | zero => exact True.intro
        | succ N =>
          have := rule_good (u := u) (v := { v with atomicity := .non }) (a := .non) (e := e) (r := r) (n := N)
            (c := e.optimize.code false .top)
            (fun s => (H N (by omega) false e.optimize { v with atomicity := .non } s
              (fun h => by cases h) hpl hn).body hu) s
          revert this
          cases run grammar u (N + 1) (.rule r (e.optimize.code false .top)) { v with atomicity := .non } s with
          | ok t =>
            rintro ⟨l, h1, h2, h3⟩
            exact ⟨_, .ref hp h1 h2, by rw [h3]; rfl⟩
          | err t => exact fun h => .refNo hp h
          | crash => exact fun _ => True.intro

/-- The code of an expression does what the expression says. -/
theorem code_good {N : Nat} (H : GoodBelow u N) (tight : Bool) (e : GE) (v : Env) (s : St R) (hf : Fits tight v)
    (hp : plain e = true) (hc : neat (e.code tight .top) = true) :
    Good u v e s (run grammar u N (e.code tight .top) v s) := by
  cases e with
  | ref r => exact call_good H r (of_decide_eq_true hp) v s
  | str x =>
    cases N with
    | zero => exact True.intro
    | succ N => exact good_str v s x
  | insens x =>
    cases N with
    | zero => exact True.intro
    | succ N => exact good_insens v s x
  | chr c =>
    cases N with
    | zero => exact True.intro
    | succ N =>
      cases c with
      | any => exact good_chr v s .any _ (fun d => by simp [charIn])
      | range a b => exact good_chr v s (.range a b) _ (fun d => by simp [charIn])
      | uni p => exact good_chr v s (.uni p) _ (fun d => by simp [charIn])
  | soi =>
    cases N with
    | zero => exact True.intro
    | succ N =>
      show Good u v .soi s (if s.pos = 0 then .ok s else .err s)
      split
      · rename_i h
        refine ⟨[], ?_, by simp⟩
        simp only [placeOf, h]
        exact .soi
      · rename_i h
        exact .soiNo h
  | eoi =>
    cases N with
    | zero => exact True.intro
    | succ N =>
      show Good u v .eoi s (if s.rest.isEmpty then .ok s else .err s)
      split
      · rename_i h
        refine ⟨[], ?_, by simp⟩
        simp only [placeOf, List.isEmpty_iff.1 h]
        exact .eoi
      · rename_i h
        exact .eoiNo (fun h' => h (List.isEmpty_iff.2 h'))
  | peek =>
    cases N with
    | zero => exact True.intro
    | succ N =>
      show Good u v .peek s (match s.stack with | x :: _ => s.matchStr x | [] => .crash)
      split
      · rename_i x st hst
        unfold St.matchStr
        split
        · rename_i r hr
          refine ⟨[], ?_, by simp [St.advance]⟩
          simp only [placeOf, St.advance, hst]
          rw [strip_app hr]
          exact .peek
        · rename_i hr
          show Means u _ _ (placeOf s) .miss
          simp only [placeOf, hst]
          exact .peekNo (strip_none hr)
      · exact True.intro
  | pop =>
    cases N with
    | zero => exact True.intro
    | succ N =>
      show Good u v .pop s (match s.stack with | x :: st => { s with stack := st }.matchStr x | [] => .crash)
      split
      · rename_i x st hst
        unfold St.matchStr
        split
        · rename_i r hr
          refine ⟨[], ?_, by simp [St.advance]⟩
          simp only [placeOf, St.advance, hst]
          rw [strip_app hr]
          exact .pop
        · rename_i hr
          show Means u _ _ (placeOf s) .miss
          simp only [placeOf, hst]
          exact .popNo (strip_none hr)
      · exact True.intro
  | seq a b =>
    obtain ⟨hpa, hpb⟩ := plain_seq hp
    have hcb : neat (b.code tight (.afterSeq (a.code tight .top))) = true := hc
    have hca := neat_afterSeq _ _ _ hcb
    show Good u v (.seq a b) s (run grammar u N (.seq (b.code tight (.afterSeq (a.code tight .top)))) v s)
    cases hr : run grammar u N (.seq (b.code tight (.afterSeq (a.code tight .top)))) v s with
    | ok t =>
      obtain ⟨m, hm, h1⟩ := run_seq_ok hr
      obtain ⟨m', x, y, hm', h2, ⟨l2, g1, g2⟩, ⟨l3, f1, f2⟩⟩ :=
        (rest_of_seq H hf b (a.code tight .top) m s (by omega) hpb hcb).1 t h1
      obtain ⟨l1, e1, e2⟩ := H.hit (by omega) hf hpa hca h2
      exact ⟨l1 ++ l2 ++ l3, .seq e1 g1 f1, by rw [f2, g2, e2, queue_cat, queue_cat, List.append_assoc]⟩
    | err t =>
      obtain ⟨m, t', hm, h1⟩ := run_seq_err hr
      rcases (rest_of_seq H hf b (a.code tight .top) m s (by omega) hpb hcb).2 t' h1 with
        ⟨m', t2, hm', h2⟩ | ⟨m', x, y, hm', h2, ⟨l2, g1, g2⟩, f1⟩
      · exact .seqNo₁ (H.miss (by omega) hf hpa hca h2)
      · obtain ⟨l1, e1, e2⟩ := H.hit (by omega) hf hpa hca h2
        exact .seqNo₂ e1 g1 f1
    | crash => exact True.intro
  | alt a b =>
    obtain ⟨hpa, hpb⟩ := plain_alt hp
    have hcb : neat (b.code tight (.afterAlt (wrap a (a.code tight .top)))) = true := hc
    have hca := neat_wrap (neat_afterAlt _ _ _ hcb).1
    show Good u v (.alt a b) s (run grammar u N (b.code tight (.afterAlt (wrap a (a.code tight .top)))) v s)
    obtain ⟨k1, k2⟩ := rest_of_alt H hf b (wrap a (a.code tight .top)) N s (Nat.le_refl N) hpb hcb
    cases hr : run grammar u N (b.code tight (.afterAlt (wrap a (a.code tight .top)))) v s with
    | ok t =>
      obtain ⟨m, hm, h1 | ⟨h1, l, h2, h3⟩⟩ := k1 t hr
      · obtain ⟨m', hm', h4⟩ := run_wrap_ok h1
        obtain ⟨l, e1, e2⟩ := H.hit (by omega) hf hpa hca h4
        exact ⟨l, .altL e1, e2⟩
      · obtain ⟨m', t', hm', h4⟩ := run_wrap_err h1
        exact ⟨l, .altR (H.miss (by omega) hf hpa hca h4) h2, h3⟩
    | err t =>
      obtain ⟨m, hm, h1, h2⟩ := k2 t hr
      obtain ⟨m', t', hm', h4⟩ := run_wrap_err h1
      exact .altR (H.miss (by omega) hf hpa hca h4) h2
    | crash => exact True.intro
  | opt e =>
    have hp : plain e = true := hp
    have hc' : neat (.opt (wrap e (e.code tight .top))) = true := hc
    simp only [neat, Bool.and_eq_true] at hc'
    show Good u v (.opt e) s (run grammar u N (.opt (wrap e (e.code tight .top))) v s)
    cases N with
    | zero => exact True.intro
    | succ N =>
      rw [run]
      cases hr : run grammar u N (wrap e (e.code tight .top)) v s with
      | ok t =>
        obtain ⟨m, hm, h1⟩ := run_wrap_ok hr
        obtain ⟨l, e1, e2⟩ := H.hit (by omega) hf hp (neat_wrap hc'.2) h1
        exact ⟨l, .opt e1, e2⟩
      | err t =>
        have := keeps_err hc'.1 hr
        subst this
        obtain ⟨m, t', hm, h1⟩ := run_wrap_err hr
        exact ⟨[], .optNo (H.miss (by omega) hf hp (neat_wrap hc'.2) h1), by simp⟩
      | crash => exact True.intro
  | star e =>
    have hp : plain e = true := hp
    cases tight with
    | true =>
      have hc' : neat (.rep (wrap e (e.code true .top))) = true := hc
      simp only [neat, Bool.and_eq_true] at hc'
      show Good u v (.star e) s (run grammar u N (.rep (wrap e (e.code true .top))) v s)
      cases hr : run grammar u N (.rep (wrap e (e.code true .top))) v s with
      | ok t => exact (more_tight H hf hp (neat_wrap hc'.2) hc'.1 N (Nat.le_refl N) s t hr).2
      | err t => exact absurd hr (sure_run grammar u _ _ _ _ _ rfl)
      | crash => exact True.intro
    | false =>
      have hc' : neat (.seq (.opt (.cat (wrap e (e.code false .top))
        (.rep (.seq (.cat (.call .skip) (wrap e (e.code false .top)))))))) = true := hc
      simp only [neat, Bool.and_eq_true] at hc'
      obtain ⟨hk, hw, hk', -⟩ := hc'
      have hw := neat_wrap hw
      show Good u v (.star e) s (run grammar u N (.seq (.opt (.cat (wrap e (e.code false .top))
        (.rep (.seq (.cat (.call .skip) (wrap e (e.code false .top)))))))) v s)
      cases hr : run grammar u N (.seq (.opt (.cat (wrap e (e.code false .top))
        (.rep (.seq (.cat (.call .skip) (wrap e (e.code false .top)))))))) v s with
      | ok t =>
        obtain ⟨m, hm, h1⟩ := run_seq_ok hr
        cases m with
        | zero => cases h1
        | succ m =>
          rw [run] at h1
          cases ho : run grammar u m (.cat (wrap e (e.code false .top))
              (.rep (.seq (.cat (.call .skip) (wrap e (e.code false .top)))))) v s with
          | ok x =>
            rw [ho] at h1
            cases h1
            obtain ⟨m', y, hm', h2, h3⟩ := run_cat_ok ho
            obtain ⟨m2, hm2, h4⟩ := run_wrap_ok h2
            obtain ⟨l1, e1, e2⟩ := H.hit (by omega) hf hp hw h4
            obtain ⟨l2, f1, f2⟩ := more_loose H hf hp hw hk' m' (by omega) y t h3
            exact ⟨l1 ++ l2, .star e1 f1, by rw [f2, e2, queue_cat]⟩
          | err x =>
            rw [ho] at h1
            cases h1
            have := keeps_err hk ho
            subst this
            obtain ⟨m', hm', h2 | ⟨y, h2, h3⟩⟩ := run_cat_err ho
            · obtain ⟨m2, t2, hm2, h4⟩ := run_wrap_err h2
              exact ⟨[], .starNo (H.miss (by omega) hf hp hw h4), by simp⟩
            · exact absurd h3 (sure_run grammar u _ _ _ _ _ rfl)
          | crash => rw [ho] at h1; cases h1
      | err t => exact absurd hr (sure_run grammar u _ _ _ _ _ rfl)
      | crash => exact True.intro
  | plus e => cases hp
  | times n e => cases hp
  | not e =>
    have hp : plain e = true := hp
    show Good u v (.not e) s (run grammar u N (.look false (e.code tight .top)) v s)
    cases N with
    | zero => exact True.intro
    | succ N =>
      have hg := H N (by omega) tight e { v with silent := true } s hf hp hc
      have hq := run_queue grammar u N (e.code tight .top) { v with silent := true } s rfl
      rw [run]
      cases hr : run grammar u N (e.code tight .top) { v with silent := true } s with
      | ok t =>
        rw [hr] at hg
        obtain ⟨l, h1, -⟩ := hg
        exact .notNo h1
      | err t =>
        rw [hr] at hg hq
        refine ⟨[], .not hg, ?_⟩
        have hq : t.queue = s.queue := hq
        simp [hq]
      | crash => exact True.intro
  | push e =>
    have hp : plain e = true := hp
    show Good u v (.push e) s (run grammar u N (.push (e.code tight .top)) v s)
    cases N with
    | zero => exact True.intro
    | succ N =>
      have hg := H N (by omega) tight e v s hf hp hc
      rw [run]
      cases hr : run grammar u N (e.code tight .top) v s with
      | ok t =>
        rw [hr] at hg
        obtain ⟨l, h1, h2⟩ := hg
        exact ⟨l, .push h1 (between_eq h1), h2⟩
      | err t =>
        rw [hr] at hg
        exact .pushNo hg
      | crash => exact True.intro

theorem goodBelow : ∀ N, GoodBelow u N
  | 0 => fun n hn => absurd hn (Nat.not_lt_zero n)
  | N + 1 => fun n hn tight e v s hf hp hc => by
    rcases Nat.lt_succ_iff_lt_or_eq.1 hn with h | rfl
    · exact goodBelow N n h tight e v s hf hp hc
    · exact code_good (goodBelow n) tight e v s hf hp hc

/-- A run of a rule's function from the start of a text. -/
theorem start_good (u : Uni) (r : R) (hr : r ≠ .skip) (input : Str) :
    Good u Env.init (.ref r) (St.init input) (run grammar u (parseFuel input) (.call r) Env.init (St.init input)) :=
  call_good (goodBelow _) r hr _ _
end

/-- What the grammar file says about a text and a rule: the text begins with something that matches, giving the pairs
`l` and leaving the text `z`. -/
def FileAccepts (u : Uni) (r : R) (input : Str) (l : List (Pair R)) (z : Str) : Prop :=
  ∃ w k, input = w ++ z ∧ Means u .non (.of (.ref r)) ⟨0, input, []⟩ (.hit ⟨w.length, z, k⟩ l)

/-- The grammar file says that the text does not begin with anything that matches. -/
def FileRejects (u : Uni) (r : R) (input : Str) : Prop :=
  Means u .non (.of (.ref r)) ⟨0, input, []⟩ .miss

/-- **C59**, any rule.  For every rule of the grammar file that can be parsed on its own, every Unicode table and every
text, the parser answers with the pairs that the grammar file gives. -/
theorem C59_rule_pairs (u : Uni) (r : R) (hr : r ≠ .skip ∧ r ≠ .StringText ∧ r ≠ .PEEK ∧ r ≠ .POP) (input : Str)
    (l : List (Pair R)) : smParse u r input = .pairs l ↔ ∃ z, FileAccepts u r input l z := by
  obtain ⟨h1, hr⟩ := hr
  have hg := start_good u r h1 input
  have ht := C33_parse_terminates u r hr input
  unfold smParse at ht ⊢
  cases hrun : run grammar u (parseFuel input) (.call r) Env.init (St.init input) with
  | ok t =>
    rw [hrun] at hg
    obtain ⟨l', k1, k2⟩ := hg
    simp only [Parsed.ofRes, Parsed.pairs.injEq]
    have hq : t.queue = l' := k2
    obtain ⟨w, f1, f2⟩ := k1.follows
    simp only [placeOf, St.init, Nat.zero_add] at f1 f2
    constructor
    · intro h
      subst h
      refine ⟨t.rest, w, t.stack, f1, ?_⟩
      rw [hq, ← f2]
      exact k1
    · rintro ⟨z, w', k, -, h⟩
      have := h.unique k1
      simp only [Outcome.hit.injEq] at this
      rw [hq, this.2]
  | err t =>
    rw [hrun] at hg
    simp only [Parsed.ofRes]
    constructor
    · intro h; cases h
    · rintro ⟨z, w, k, -, h⟩
      cases h.unique hg
  | crash => rw [hrun] at ht; rcases ht with ⟨l, h⟩ | h <;> cases h

/-- **C59**, any rule, refusal. -/
theorem C59_rule_error (u : Uni) (r : R) (hr : r ≠ .skip ∧ r ≠ .StringText ∧ r ≠ .PEEK ∧ r ≠ .POP) (input : Str) :
    smParse u r input = .error ↔ FileRejects u r input := by
  obtain ⟨h1, hr⟩ := hr
  have hg := start_good u r h1 input
  have ht := C33_parse_terminates u r hr input
  unfold smParse at ht ⊢
  cases hrun : run grammar u (parseFuel input) (.call r) Env.init (St.init input) with
  | ok t =>
    rw [hrun] at hg
    obtain ⟨l', k1, k2⟩ := hg
    simp only [Parsed.ofRes]
    constructor
    · intro h; cases h
    · intro h; cases h.unique k1
  | err t =>
    rw [hrun] at hg
    simp only [Parsed.ofRes, true_iff]
    exact hg
  | crash => rw [hrun] at ht; rcases ht with ⟨l, h⟩ | h <;> cases h

/-- **C59**.  A program is accepted, with certain pairs, exactly if the grammar file says so; then all of it is matched. -/
theorem C59_accepts (u : Uni) (input : Str) (l : List (Pair R)) :
    smParse u .program input = .pairs l ↔ FileAccepts u .program input l [] := by
  rw [C59_rule_pairs u .program (by decide)]
  constructor
  · rintro ⟨z, w, k, h, hm⟩
    suffices z = [] by subst this; exact ⟨w, k, h, hm⟩
    generalize ho : Outcome.hit ⟨w.length, z, k⟩ l = o at hm
    cases hm with
    | ref hp hb _ =>
      cases hp
      cases ho
      cases hb with
      | seq _ _ h =>
        cases h with
        | seq _ _ h =>
          generalize ho : Outcome.hit ⟨w.length, z, k⟩ _ = o at h
          cases h with
          | ref hp hb _ => cases hp; cases ho; cases hb; rfl
          | refNo => cases ho
    | refNo => cases ho
  · exact fun h => ⟨[], h⟩

/-- **C59**, refusal. -/
theorem C59_rejects (u : Uni) (input : Str) : smParse u .program input = .error ↔ FileRejects u .program input :=
  C59_rule_error u .program (by decide) input

/-- The grammar file decides about every text, in one way. -/
theorem C59_decided (u : Uni) (r : R) (hr : r ≠ .skip ∧ r ≠ .StringText ∧ r ≠ .PEEK ∧ r ≠ .POP) (input : Str) :
    (∃ l z, FileAccepts u r input l z ∧ ∀ l' z', FileAccepts u r input l' z' → l' = l ∧ z' = z) ∧ ¬ FileRejects u r input ∨
    FileRejects u r input ∧ ∀ l z, ¬ FileAccepts u r input l z := by
  rcases C33_parse_terminates u r hr.2 input with ⟨l, h⟩ | h
  · obtain ⟨z, hz⟩ := (C59_rule_pairs u r hr input l).1 h
    obtain ⟨w, k, e, hm⟩ := hz
    refine .inl ⟨⟨l, z, ⟨w, k, e, hm⟩, ?_⟩, fun h' => by cases h'.unique hm⟩
    rintro l' z' ⟨w', k', e', hm'⟩
    have := hm'.unique hm
    simp only [Outcome.hit.injEq, Place.mk.injEq] at this
    exact ⟨this.2, this.1.2.1⟩
  · refine .inr ⟨(C59_rule_error u r hr input).1 h, ?_⟩
    rintro l z ⟨w, k, e, hm⟩
    cases hm.unique ((C59_rule_error u r hr input).1 h)

/-- The full-width comma, read off the grammar file. -/
example (u : Uni) : FileAccepts u .Comma c!"， x" [.mk .Comma 0 1 c!"，" []] c!" x" :=
  ⟨c!"，", [], rfl, .ref (k := .atomic) (l := []) rfl (.altR (.strNo (by decide)) (.str (w := c!"，"))) rfl⟩

/-- So the parser answers with it. -/
example (u : Uni) : smParse u .Comma c!"， x" = .pairs [.mk .Comma 0 1 c!"，" []] :=
  (C59_rule_pairs u .Comma (by decide) _ _).2 ⟨c!" x",
    c!"，", [], rfl, .ref (k := .atomic) (l := []) rfl (.altR (.strNo (by decide)) (.str (w := c!"，"))) rfl⟩

/-- The grammar file refuses an unfinished sum. -/
example {u : Uni} (L : Lawful u) : FileRejects u .program c!"1 +" := by
  have h : rejects c!"1 +" = true := by decide +kernel
  have hp : ∀ d ∈ c!"1 +", Plain d := by decide
  rw [← C59_rejects, smParse_agree .program (u' := asciiUni) (fun d hd p => L.plain d p (hp d hd))]
  unfold rejects at h
  split at h
  · assumption
  · cases h

end SM.Props
