import Verif.Props.PegFirst
import Mathlib.Data.List.Induction
/-
C35: operators that an earlier alternative shadows never occur in a parse tree.
-/
namespace SM.Props
open SM SM.Peg

section generic
variable {R : Type} {g : R → PE R} {u : Uni}

mutual
/-- No pair of a rule in `bad`, at any depth. -/
def Free (bad : R → Bool) : Pair R → Prop
  | .mk r _ _ _ l => bad r = false ∧ FreeAll bad l
/-- No pair of a rule in `bad`, at any depth, in a list. -/
def FreeAll (bad : R → Bool) : List (Pair R) → Prop
  | [] => True
  | p :: l => Free bad p ∧ FreeAll bad l
end

theorem FreeAll.append {bad : R → Bool} {l l' : List (Pair R)} (h : FreeAll bad l) (h' : FreeAll bad l') :
    FreeAll bad (l ++ l') := by
  induction l with
  | nil => exact h'
  | cons p l ih =>
    rw [FreeAll] at h
    rw [List.cons_append, FreeAll]
    exact ⟨h.1, ih h.2⟩

/-- The expression neither is nor calls a rule in `bad`. -/
def avoids (bad : R → Bool) : PE R → Bool
  | .call r => !bad r
  | .rule r e => !bad r && avoids bad e
  | .atomic _ e => avoids bad e
  | .ifNon e => avoids bad e
  | .seq e => avoids bad e
  | .opt e => avoids bad e
  | .rep e => avoids bad e
  | .alt a b => avoids bad a && avoids bad b
  | .cat a b => avoids bad a && avoids bad b
  | .restore e => avoids bad e
  | .look _ e => avoids bad e
  | .push e => avoids bad e
  | _ => true

/-- The pairs of the outcome are free of `bad`. -/
def FreeRes (bad : R → Bool) : Res R → Prop
  | .ok t => FreeAll bad t.queue
  | .err t => FreeAll bad t.queue
  | .crash => True

theorem SameQueue.free {bad : R → Bool} {s : St R} {r : Res R} (h : SameQueue s r)
    (hs : FreeAll bad s.queue) : FreeRes bad r := by
  cases r with
  | ok t => show FreeAll bad t.queue; rw [show t.queue = s.queue from h]; exact hs
  | err t => show FreeAll bad t.queue; rw [show t.queue = s.queue from h]; exact hs
  | crash => exact True.intro

theorem run_free (bad : R → Bool) (g : R → PE R) (u : Uni)
    (hg : ∀ r, bad r = false → avoids bad (g r) = true ∨
      ∀ n v s, FreeAll bad s.queue → FreeRes bad (run g u n (g r) v s)) :
    ∀ (n : Nat) (e : PE R) (v : Env) (s : St R), avoids bad e = true → FreeAll bad s.queue →
      FreeRes bad (run g u n e v s) := by
  intro n
  induction n with
  | zero => intro e v s _ _; exact True.intro
  | succ n ih =>
    intro e v s he hs
    cases e with
    | call r =>
      simp only [avoids, Bool.not_eq_true'] at he
      rw [run]
      rcases hg r he with h | h
      · exact ih _ v s h hs
      · exact h n v s hs
    | rule r e =>
      simp only [avoids, Bool.and_eq_true, Bool.not_eq_true'] at he
      rw [run]
      split
      · have := ih e v { s with queue := [] } he.2 True.intro
        revert this
        cases run g u n e v { s with queue := [] } with
        | ok t =>
          intro h
          refine hs.append ?_
          rw [FreeAll, Free]
          exact ⟨⟨he.1, h⟩, True.intro⟩
        | err t => exact fun _ => hs
        | crash => exact fun h => h
      · exact ih e v s he.2 hs
    | atomic a e => exact ih e _ s he hs
    | ifNon e =>
      rw [run]
      split
      · exact ih e v s he hs
      · exact hs
    | seq e =>
      have := ih e v s he hs
      rw [run]
      revert this
      cases run g u n e v s with
      | ok t => exact fun h => h
      | err t => exact fun _ => hs
      | crash => exact fun h => h
    | opt e =>
      have := ih e v s he hs
      rw [run]
      revert this
      cases run g u n e v s <;> exact fun h => h
    | rep e =>
      have := ih e v s he hs
      rw [run]
      revert this
      cases run g u n e v s with
      | ok t => exact fun h => ih (.rep e) v t he h
      | err t => exact fun h => h
      | crash => exact fun h => h
    | alt a b =>
      simp only [avoids, Bool.and_eq_true] at he
      have := ih a v s he.1 hs
      rw [run]
      revert this
      cases run g u n a v s with
      | ok t => exact fun h => h
      | err t => exact fun h => ih b v t he.2 h
      | crash => exact fun h => h
    | cat a b =>
      simp only [avoids, Bool.and_eq_true] at he
      have := ih a v s he.1 hs
      rw [run]
      revert this
      cases run g u n a v s with
      | ok t => exact fun h => ih b v t he.2 h
      | err t => exact fun h => h
      | crash => exact fun h => h
    | restore e =>
      have := ih e v s he hs
      rw [run]
      revert this
      cases run g u n e v s <;> exact fun h => h
    | look p e =>
      have := run_queue g u n e { v with silent := true } s rfl
      rw [run]
      revert this
      cases run g u n e { v with silent := true } s with
      | ok t =>
        intro h
        have : FreeAll bad t.queue := by rw [show t.queue = s.queue from h]; exact hs
        cases p <;> exact this
      | err t =>
        intro h
        have : FreeAll bad t.queue := by rw [show t.queue = s.queue from h]; exact hs
        cases p <;> exact this
      | crash => intro _; cases p <;> exact True.intro
    | push e =>
      have := ih e v s he hs
      rw [run]
      revert this
      cases run g u n e v s <;> exact fun h => h
    | str x => exact (sameQueue_matchStr s x).free hs
    | insens x =>
      rw [run]
      split <;> exact hs
    | range a b => exact (sameQueue_charBy s _).free hs
    | uni p => exact (sameQueue_charBy s _).free hs
    | any => exact (sameQueue_charBy s _).free hs
    | soi => rw [run]; split <;> exact hs
    | eoi => rw [run]; split <;> exact hs
    | peek =>
      rw [run]
      split
      · exact (sameQueue_matchStr s _).free hs
      · exact True.intro
    | pop =>
      rw [run]
      split
      · rename_i x st _
        exact (sameQueue_matchStr { s with stack := st } x).free hs
      · exact True.intro

theorem alt_ok {a b : PE R} {v : Env} {s t : St R} (h : sem g u (.alt a b) v s = .ok t) :
    sem g u a v s = .ok t ∨ ∃ w, sem g u a v s = .err w ∧ sem g u b v w = .ok t := by
  rw [sem_alt] at h
  cases ha : sem g u a v s with
  | ok w => rw [ha] at h; exact .inl h
  | err w => rw [ha] at h; exact .inr ⟨w, rfl, h⟩
  | crash => rw [ha] at h; cases h

theorem alt_err {a b : PE R} {v : Env} {s t : St R} (h : sem g u (.alt a b) v s = .err t) :
    ∃ w, sem g u a v s = .err w ∧ sem g u b v w = .err t := by
  rw [sem_alt] at h
  cases ha : sem g u a v s with
  | ok w => rw [ha] at h; cases h
  | err w => rw [ha] at h; exact ⟨w, rfl, h⟩
  | crash => rw [ha] at h; cases h

end generic

/-- The function of a rule that matches a fixed text. -/
theorem sem_token (u : Uni) (r : R) (x : Str) (hg : grammar r = .rule r (.atomic .atomic (.str x)))
    (v : Env) (s : St R) : sem grammar u (.call r) v s =
      match strip x s.rest with
      | some rest => .ok { s.advance x.length rest with
          queue := if v.emits then s.queue ++ [.mk r s.pos (s.pos + x.length) (s.rest.take x.length) []]
            else s.queue }
      | none => .err s := by
  rw [sem_call, hg, sem_rule, sem_atomic, sem_atomic, sem_str, sem_str]
  unfold St.matchStr
  cases hv : v.emits with
  | true =>
    cases h : strip x s.rest with
    | some rest => simp [Res.mapBoth, St.advance, St.between]
    | none => simp [Res.mapBoth]
  | false =>
    cases h : strip x s.rest with
    | some rest => simp [St.advance]
    | none => simp

/-- The function of a rule that matches a fixed text fails if and only if the text is not there. -/
theorem token_ok {u : Uni} {r : R} {x : Str} (hg : grammar r = .rule r (.atomic .atomic (.str x)))
    {v : Env} {s t : St R} (h : sem grammar u (.call r) v s = .ok t) : ∃ rest, strip x s.rest = some rest := by
  rw [sem_token u r x hg] at h
  cases hs : strip x s.rest with
  | some rest => exact ⟨rest, rfl⟩
  | none => rw [hs] at h; cases h

theorem token_err {u : Uni} {r : R} {x : Str} (hg : grammar r = .rule r (.atomic .atomic (.str x)))
    {v : Env} {s t : St R} (h : sem grammar u (.call r) v s = .err t) : strip x s.rest = none := by
  rw [sem_token u r x hg] at h
  cases hs : strip x s.rest with
  | some rest => rw [hs] at h; cases h
  | none => rfl

/-- A longer text begins with its first character. -/
theorem strip_first {c d : Char} {x : Str} {s r : Str} (h : strip (c :: d :: x) s = some r) :
    strip [c] s ≠ none := by
  cases s with
  | nil => simp [strip] at h
  | cons a s =>
    simp only [strip] at h ⊢
    split at h
    · rw [if_pos ‹_›]; simp
    · cases h

/-- The shadowed operators. -/
def shadowed (r : R) : Bool := decide (r = .Quotient ∨ r = .Equal ∨ r = .GraterEqual)

theorem divide_err {u : Uni} {v : Env} {s t : St R} (h : sem grammar u (.call .Divide) v s = .err t) :
    strip c!"/" s.rest = none := by
  cases hs : strip c!"/" s.rest with
  | none => rfl
  | some rest =>
    exfalso
    rw [sem_call, show grammar .Divide = body_Divide from rfl, body_Divide, sem_rule, sem_atomic,
      sem_atomic, sem_alt, sem_alt, sem_token u .Slash c!"/" rfl, sem_token u .Slash c!"/" rfl] at h
    cases hv : v.emits <;> simp [hv, hs, Res.orElse, Res.mapBoth] at h

theorem avoids_rest : ∀ r, shadowed r = false → r ≠ .Infix → avoids shadowed (grammar r) = true := by
  intro r; cases r <;> decide

/-- An ordered choice between rules. -/
def choice (r : R) (rs : List R) : PE R := rs.foldl (fun a r => .alt a (.call r)) (.call r)

theorem choice_ok {u : Uni} {v : Env} {s t : St R} (r0 : R) (rs : List R)
    (hrs : ∀ r ∈ r0 :: rs, r ≠ .POP ∧ r ≠ .StringBlock)
    (h : sem grammar u (choice r0 rs) v s = .ok t) :
    ∃ pre r post, r0 :: rs = pre ++ r :: post ∧ (∀ q ∈ pre, sem grammar u (.call q) v s = .err s) ∧
      sem grammar u (.call r) v s = .ok t := by
  have key : (∀ w, sem grammar u (choice r0 rs) v s = .err w →
        w = s ∧ ∀ q ∈ r0 :: rs, sem grammar u (.call q) v s = .err s) ∧
      (∀ t, sem grammar u (choice r0 rs) v s = .ok t →
        ∃ pre r post, r0 :: rs = pre ++ r :: post ∧ (∀ q ∈ pre, sem grammar u (.call q) v s = .err s) ∧
          sem grammar u (.call r) v s = .ok t) := by
    clear h
    induction rs using List.reverseRecOn with
    | nil =>
      refine ⟨fun w h => ?_, fun t h => ⟨[], r0, [], rfl, by simp, h⟩⟩
      obtain ⟨h1, h2⟩ := hrs r0 (by simp)
      have := sem_call_err u r0 h1 h2 h
      subst this
      refine ⟨rfl, fun q hq => ?_⟩
      rw [List.mem_singleton.1 hq]
      exact h
    | append_singleton rs r ih =>
      obtain ⟨ih1, ih2⟩ := ih (fun q hq => hrs q (by
        rw [List.mem_cons] at hq ⊢
        exact hq.imp id (fun h => List.mem_append_left _ h)))
      obtain ⟨h1, h2⟩ := hrs r (by simp)
      have hc : choice r0 (rs ++ [r]) = .alt (choice r0 rs) (.call r) := by
        simp [choice, List.foldl_append]
      rw [hc]
      refine ⟨fun w h => ?_, fun t h => ?_⟩
      · obtain ⟨w', ha, hb⟩ := alt_err h
        obtain ⟨rfl, hq⟩ := ih1 w' ha
        have := sem_call_err u r h1 h2 hb
        subst this
        refine ⟨rfl, fun q hq' => ?_⟩
        rw [← List.cons_append, List.mem_append, List.mem_singleton] at hq'
        rcases hq' with h | rfl
        · exact hq q h
        · exact hb
      · rcases alt_ok h with h | ⟨w', ha, hb⟩
        · obtain ⟨pre, r', post, e1, e2, e3⟩ := ih2 t h
          exact ⟨pre, r', post ++ [r], by rw [← List.cons_append, e1]; simp, e2, e3⟩
        · obtain ⟨rfl, hq⟩ := ih1 w' ha
          exact ⟨r0 :: rs, r, [], by simp, hq, hb⟩
  exact key.2 t h

/-- The operators tried, in order. -/
def infixOps : List R :=
  [.Plus, .Minus, .Multiply, .CenterDot, .Kronecker, .TensorProduct, .Divide, .Quotient, .Modulo, .Power,
    .Grater, .GraterEqual, .Equal, .Dot]

theorem infix_choice : grammar .Infix = choice .Set infixOps := rfl

theorem mem_of_split {r : R} {l pre post : List R} {q : R} (A B : List R) (hl : l.Nodup)
    (h : l = pre ++ r :: post) (hAB : l = A ++ r :: B) (hq : q ∈ A) : q ∈ pre := by
  have hpre : pre = A := by
    subst h
    clear hq
    induction pre generalizing A with
    | nil =>
      cases A with
      | nil => rfl
      | cons a A =>
        simp only [List.nil_append, List.cons_append, List.cons.injEq] at hAB
        obtain ⟨rfl, h⟩ := hAB
        rw [h] at hl
        simp at hl
    | cons p pre ih =>
      cases A with
      | nil =>
        simp only [List.nil_append, List.cons_append, List.cons.injEq] at hAB
        obtain ⟨rfl, h⟩ := hAB
        simp at hl
      | cons a A =>
        simp only [List.cons_append, List.cons.injEq] at hAB
        obtain ⟨rfl, h⟩ := hAB
        simp only [List.cons_append, List.nodup_cons] at hl
        rw [ih A hl.2 h]
  rw [hpre]; exact hq

/-- The infix alternative that matches is never a shadowed one. -/
theorem infix_not_shadowed {u : Uni} {v : Env} {s t : St R} (h : sem grammar u (.call .Infix) v s = .ok t) :
    ∃ r, r ∈ R.Set :: infixOps ∧ shadowed r = false ∧ sem grammar u (.call r) v s = .ok t := by
  rw [sem_call, infix_choice] at h
  obtain ⟨pre, r, post, h1, h2, h3⟩ := choice_ok .Set infixOps (by decide) h
  have hmem : r ∈ R.Set :: infixOps := by rw [h1]; simp
  have hnd : (R.Set :: infixOps).Nodup := by decide
  refine ⟨r, hmem, ?_, h3⟩
  cases hsh : shadowed r with
  | false => rfl
  | true =>
    exfalso
    simp only [shadowed, decide_eq_true_eq] at hsh
    rcases hsh with rfl | rfl | rfl
    · have := h2 .Divide (mem_of_split
        [.Set, .Plus, .Minus, .Multiply, .CenterDot, .Kronecker, .TensorProduct, .Divide] _ hnd h1 rfl (by decide))
      obtain ⟨rest, hr⟩ := token_ok (x := c!"//") rfl h3
      exact strip_first hr (divide_err this)
    · have := h2 .Set (mem_of_split
        [.Set, .Plus, .Minus, .Multiply, .CenterDot, .Kronecker, .TensorProduct, .Divide, .Quotient, .Modulo,
          .Power, .Grater, .GraterEqual] _ hnd h1 rfl (by decide))
      obtain ⟨rest, hr⟩ := token_ok (x := c!"==") rfl h3
      exact strip_first hr (token_err (x := c!"=") rfl this)
    · have := h2 .Grater (mem_of_split
        [.Set, .Plus, .Minus, .Multiply, .CenterDot, .Kronecker, .TensorProduct, .Divide, .Quotient, .Modulo,
          .Power, .Grater] _ hnd h1 rfl (by decide))
      obtain ⟨rest, hr⟩ := token_ok (x := c!">=") rfl h3
      exact strip_first hr (token_err (x := c!">") rfl this)

/-- What a token function emits. -/
theorem token_queue {u : Uni} {r : R} {x : Str} (hg : grammar r = .rule r (.atomic .atomic (.str x)))
    {v : Env} {s t : St R} (h : sem grammar u (.call r) v s = .ok t) :
    t.queue = s.queue ∨ ∃ a b y, t.queue = s.queue ++ [.mk r a b y []] := by
  rw [sem_token u r x hg] at h
  cases hs : strip x s.rest with
  | some rest =>
    rw [hs] at h
    simp only [Res.ok.injEq] at h
    subst h
    cases v.emits
    · exact .inl rfl
    · exact .inr ⟨_, _, _, rfl⟩
  | none => rw [hs] at h; cases h

theorem emits_atomic (b : Bool) : (Env.mk .atomic b).emits = false := by cases b <;> rfl

/-- What the function of a choice between a token and a text emits. -/
theorem token2_queue {u : Uni} {r q : R} {x y : Str} (hq : grammar q = .rule q (.atomic .atomic (.str x)))
    (hg : grammar r = .rule r (.atomic .atomic (.alt (.call q) (.str y))))
    {v : Env} {s t : St R} (h : sem grammar u (.call r) v s = .ok t) :
    t.queue = s.queue ∨ ∃ a b y, t.queue = s.queue ++ [.mk r a b y []] := by
  rw [sem_call, hg, sem_rule, sem_atomic, sem_atomic, sem_alt, sem_alt, sem_token u q x hq,
    sem_token u q x hq] at h
  cases hv : v.emits <;> cases hs : strip x s.rest <;> cases hs' : strip y s.rest <;>
    simp [hv, hs, hs', Res.orElse, Res.mapBoth, sem_str, St.matchStr, St.advance, emits_atomic] at h
  all_goals subst h
  all_goals first
    | exact .inl rfl
    | exact .inr ⟨_, _, _, rfl⟩

theorem ops_queue {u : Uni} {r : R} (hr : r ∈ R.Set :: infixOps) {v : Env} {s t : St R}
    (h : sem grammar u (.call r) v s = .ok t) :
    t.queue = s.queue ∨ ∃ a b y, t.queue = s.queue ++ [.mk r a b y []] := by
  simp only [infixOps, List.mem_cons, List.not_mem_nil, or_false] at hr
  rcases hr with rfl | rfl | rfl | rfl | rfl | rfl | rfl | rfl | rfl | rfl | rfl | rfl | rfl | rfl | rfl
  · exact token_queue (x := c!"=") rfl h
  · exact token_queue (x := c!"+") rfl h
  · exact token_queue (x := c!"-") rfl h
  · exact token2_queue (q := .Star) (x := c!"*") (y := c!"×") rfl rfl h
  · exact token_queue (x := c!"⋅") rfl h
  · exact token_queue (x := c!"⊗") rfl h
  · exact token_queue (x := c!"⊙") rfl h
  · exact token2_queue (q := .Slash) (x := c!"/") (y := c!"÷") rfl rfl h
  · exact token_queue (x := c!"//") rfl h
  · exact token_queue (x := c!"%") rfl h
  · exact token_queue (x := c!"^") rfl h
  · exact token_queue (x := c!">") rfl h
  · exact token_queue (x := c!">=") rfl h
  · exact token_queue (x := c!"==") rfl h
  · exact token_queue (x := c!".") rfl h

theorem infix_free (u : Uni) (n : Nat) (v : Env) (s : St R) (hs : FreeAll shadowed s.queue) :
    FreeRes shadowed (run grammar u n (grammar .Infix) v s) := by
  cases hr : run grammar u n (grammar .Infix) v s with
  | ok t =>
    have := sem_eq_run (g := grammar) (u := u) (e := grammar .Infix) (v := v) (s := s) (n := n)
      (by rw [hr]; exact fun h => nomatch h)
    rw [hr, ← sem_call] at this
    obtain ⟨r, h1, h2, h3⟩ := infix_not_shadowed this
    show FreeAll shadowed t.queue
    rcases ops_queue h1 h3 with h | ⟨a, b, y, h⟩
    · rw [h]; exact hs
    · rw [h]
      refine hs.append ?_
      rw [FreeAll, Free]
      exact ⟨⟨h2, True.intro⟩, True.intro⟩
  | err t =>
    have := sem_eq_run (g := grammar) (u := u) (e := grammar .Infix) (v := v) (s := s) (n := n)
      (by rw [hr]; exact fun h => nomatch h)
    rw [hr, ← sem_call] at this
    rw [sem_call_err u .Infix (by decide) (by decide) this]
    exact hs
  | crash => exact True.intro

/-- **C35**.  No accepted text, whatever the start rule (other than the operators themselves), yields
an integer quotient `//`, an equality `==` or a greater-or-equal `>=` anywhere in its tree. -/
theorem C35_shadowed_never_parsed (u : Uni) (r : R) (hr : shadowed r = false) (input : Str)
    (l : List (Pair R)) (h : smParse u r input = .pairs l) : FreeAll shadowed l := by
  have := run_free shadowed grammar u
    (fun q hq => if hi : q = .Infix then .inr (hi ▸ infix_free u) else .inl (avoids_rest q hq hi))
    (parseFuel input) (.call r) Env.init (St.init input) (by simp [avoids, hr]) True.intro
  unfold smParse at h
  cases hrun : run grammar u (parseFuel input) (.call r) Env.init (St.init input) with
  | ok t =>
    rw [hrun] at h this
    simp only [Parsed.ofRes, Parsed.pairs.injEq] at h
    subst h
    exact this
  | err t => rw [hrun] at h; cases h
  | crash => rw [hrun] at h; cases h

/-- The rule functions themselves do accept those operators: they are shadowed, not impossible. -/
example : smParse (fun _ _ => false) .Quotient c!"//" = .pairs [.mk .Quotient 0 2 c!"//" []] := by rfl
example : smParse (fun _ _ => false) .Infix c!"==" = .pairs [.mk .Set 0 1 c!"=" []] := by rfl

end SM.Props
