import Verif.Peg.Engine
import Mathlib.Tactic.Common
/-
A fuel-free view of the interpreter: `sem` is what `run` gives for all large enough fuel, and it
satisfies the defining equations of the combinators.
-/
namespace SM.Props
open SM SM.Peg

variable {R : Type} {g : R → PE R} {u : Uni}

/-- Results other than `crash` do not depend on the fuel. -/
theorem run_mono : ∀ (n : Nat) (e : PE R) (v : Env) (s : St R) (r : Res R),
    run g u n e v s = r → r ≠ .crash → run g u (n + 1) e v s = r := by
  intro n
  induction n with
  | zero => intro e v s r h hr; exact absurd h.symm hr
  | succ n ih =>
    intro e v s r h hr
    have key : ∀ e v s, run g u n e v s ≠ .crash → run g u (n + 1) e v s = run g u n e v s :=
      fun e v s hc => ih e v s _ rfl hc
    have sub : ∀ (f : Res R → Res R) (e : PE R) (v : Env) (s : St R), (f .crash = .crash) →
        f (run g u n e v s) = r → f (run g u (n + 1) e v s) = r := by
      intro f e v s hf h
      by_cases hc : run g u n e v s = .crash
      · rw [hc, hf] at h; exact absurd h.symm hr
      · rw [key _ _ _ hc]; exact h
    cases e with
    | call r => exact sub id _ _ _ rfl h
    | rule r e =>
      rw [run] at h ⊢
      split at h
      · rw [if_pos ‹_›]
        exact sub (fun x => x.mapBoth _ _) _ _ _ rfl h
      · rw [if_neg ‹_›]
        exact sub id _ _ _ rfl h
    | atomic a e => exact sub id _ _ _ rfl h
    | ifNon e =>
      rw [run] at h ⊢
      split at h
      · rw [if_pos ‹_›]
        exact sub id _ _ _ rfl h
      · rw [if_neg ‹_›]
        exact h
    | seq e =>
      rw [run] at h ⊢
      exact sub (fun x => x.mapBoth _ _) _ _ _ rfl h
    | opt e => exact sub (fun x => x.recover) _ _ _ rfl h
    | rep e =>
      rw [run] at h ⊢
      by_cases hc : run g u n e v s = .crash
      · rw [hc] at h; exact absurd h.symm hr
      · rw [key _ _ _ hc]
        cases h1 : run g u n e v s with
        | ok t => rw [h1] at h; exact ih _ _ _ _ h hr
        | err t => rw [h1] at h; exact h
        | crash => exact absurd h1 hc
    | alt a b =>
      rw [run] at h ⊢
      by_cases hc : run g u n a v s = .crash
      · rw [hc] at h; exact absurd h.symm hr
      · rw [key _ _ _ hc]
        cases h1 : run g u n a v s with
        | ok t => rw [h1] at h; exact h
        | err t => rw [h1] at h; exact ih _ _ _ _ h hr
        | crash => exact absurd h1 hc
    | cat a b =>
      rw [run] at h ⊢
      by_cases hc : run g u n a v s = .crash
      · rw [hc] at h; exact absurd h.symm hr
      · rw [key _ _ _ hc]
        cases h1 : run g u n a v s with
        | ok t => rw [h1] at h; exact ih _ _ _ _ h hr
        | err t => rw [h1] at h; exact h
        | crash => exact absurd h1 hc
    | restore e =>
      rw [run] at h ⊢
      exact sub (fun x => x.mapBoth _ _) _ _ _ rfl h
    | look p e =>
      rw [run] at h ⊢
      exact sub (fun x => if p then (x.mapBoth _ _) else (x.mapBoth _ _).flip) e _ s
        (by cases p <;> rfl) h
    | push e =>
      rw [run] at h ⊢
      exact sub (fun x => x.mapBoth _ _) _ _ _ rfl h
    | _ => exact h

theorem run_mono' {n m : Nat} (hnm : n ≤ m) {e : PE R} {v : Env} {s : St R}
    (h : run g u n e v s ≠ .crash) : run g u m e v s = run g u n e v s := by
  induction hnm with
  | refl => rfl
  | step _ ih => exact run_mono _ _ _ _ _ ih h

/-- For large enough fuel the result settles. -/
theorem run_settles (g : R → PE R) (u : Uni) (e : PE R) (v : Env) (s : St R) :
    ∃ r, ∃ n, ∀ m, n ≤ m → run g u m e v s = r := by
  by_cases h : ∃ n, run g u n e v s ≠ .crash
  · obtain ⟨n, h⟩ := h
    exact ⟨_, n, fun m hm => run_mono' hm h⟩
  · exact ⟨.crash, 0, fun m _ => Classical.byContradiction fun hc => h ⟨m, hc⟩⟩

/-- The result of a parser expression with unlimited fuel. -/
noncomputable def sem (g : R → PE R) (u : Uni) (e : PE R) (v : Env) (s : St R) : Res R :=
  (run_settles g u e v s).choose

theorem sem_settles (g : R → PE R) (u : Uni) (e : PE R) (v : Env) (s : St R) :
    ∃ n, ∀ m, n ≤ m → run g u m e v s = sem g u e v s :=
  (run_settles g u e v s).choose_spec

theorem sem_unique {e : PE R} {v : Env} {s : St R} {r : Res R} (k : Nat)
    (h : ∃ n, ∀ m, n ≤ m → run g u (m + k) e v s = r) : sem g u e v s = r := by
  obtain ⟨n, hn⟩ := h
  obtain ⟨n', hn'⟩ := sem_settles g u e v s
  rw [← hn (max n n') (by omega), ← hn' (max n n' + k) (by omega)]

/-- A computed result is the result. -/
theorem sem_eq_run {e : PE R} {v : Env} {s : St R} {n : Nat} (h : run g u n e v s ≠ .crash) :
    sem g u e v s = run g u n e v s :=
  sem_unique 0 ⟨n, fun m hm => run_mono' hm h⟩

theorem run_eq_sem {e : PE R} {v : Env} {s : St R} {n : Nat} (h : run g u n e v s ≠ .crash) :
    run g u n e v s = sem g u e v s := (sem_eq_run h).symm

section equations
variable (v : Env) (s : St R)

theorem sem_call (r : R) : sem g u (.call r) v s = sem g u (g r) v s := by
  obtain ⟨n, h⟩ := sem_settles g u (g r) v s
  exact sem_unique 1 ⟨n, fun m hm => by rw [run, h m hm]⟩

theorem sem_rule (r : R) (e : PE R) : sem g u (.rule r e) v s =
    if v.emits then
      (sem g u e v { s with queue := [] }).mapBoth
        (fun t => { t with queue := s.queue ++ [.mk r s.pos t.pos (s.between t) t.queue] })
        (fun t => { t with queue := s.queue })
    else sem g u e v s := by
  obtain ⟨n, h⟩ := sem_settles g u e v { s with queue := [] }
  obtain ⟨n', h'⟩ := sem_settles g u e v s
  exact sem_unique 1 ⟨max n n', fun m hm => by rw [run, h m (by omega), h' m (by omega)]⟩

theorem sem_atomic (a : Atomicity) (e : PE R) :
    sem g u (.atomic a e) v s = sem g u e { v with atomicity := a } s := by
  obtain ⟨n, h⟩ := sem_settles g u e { v with atomicity := a } s
  exact sem_unique 1 ⟨n, fun m hm => by rw [run, h m hm]⟩

theorem sem_ifNon (e : PE R) :
    sem g u (.ifNon e) v s = if v.atomicity = .non then sem g u e v s else .ok s := by
  obtain ⟨n, h⟩ := sem_settles g u e v s
  exact sem_unique 1 ⟨n, fun m hm => by rw [run, h m hm]⟩

theorem sem_seq (e : PE R) : sem g u (.seq e) v s =
    (sem g u e v s).mapBoth id (fun t => { t with pos := s.pos, rest := s.rest, queue := s.queue }) := by
  obtain ⟨n, h⟩ := sem_settles g u e v s
  exact sem_unique 1 ⟨n, fun m hm => by rw [run, h m hm]⟩

theorem sem_opt (e : PE R) : sem g u (.opt e) v s = (sem g u e v s).recover := by
  obtain ⟨n, h⟩ := sem_settles g u e v s
  exact sem_unique 1 ⟨n, fun m hm => by rw [run, h m hm]⟩

theorem sem_rep (e : PE R) : sem g u (.rep e) v s =
    match sem g u e v s with
    | .ok t => sem g u (.rep e) v t
    | .err t => .ok t
    | .crash => .crash := by
  obtain ⟨n, h⟩ := sem_settles g u e v s
  cases hs : sem g u e v s with
  | ok t =>
    obtain ⟨n', h'⟩ := sem_settles g u (.rep e) v t
    exact sem_unique 1 ⟨max n n', fun m hm => by rw [run, h m (by omega), hs]; exact h' m (by omega)⟩
  | err t => exact sem_unique 1 ⟨n, fun m hm => by rw [run, h m hm, hs]⟩
  | crash => exact sem_unique 1 ⟨n, fun m hm => by rw [run, h m hm, hs]⟩

theorem sem_alt (a b : PE R) :
    sem g u (.alt a b) v s = (sem g u a v s).orElse (sem g u b v) := by
  obtain ⟨n, h⟩ := sem_settles g u a v s
  cases hs : sem g u a v s with
  | ok t => exact sem_unique 1 ⟨n, fun m hm => by rw [run, h m hm, hs]; rfl⟩
  | err t =>
    obtain ⟨n', h'⟩ := sem_settles g u b v t
    exact sem_unique 1 ⟨max n n', fun m hm => by rw [run, h m (by omega), hs]; exact h' m (by omega)⟩
  | crash => exact sem_unique 1 ⟨n, fun m hm => by rw [run, h m hm, hs]; rfl⟩

theorem sem_cat (a b : PE R) :
    sem g u (.cat a b) v s = (sem g u a v s).andThen (sem g u b v) := by
  obtain ⟨n, h⟩ := sem_settles g u a v s
  cases hs : sem g u a v s with
  | ok t =>
    obtain ⟨n', h'⟩ := sem_settles g u b v t
    exact sem_unique 1 ⟨max n n', fun m hm => by rw [run, h m (by omega), hs]; exact h' m (by omega)⟩
  | err t => exact sem_unique 1 ⟨n, fun m hm => by rw [run, h m hm, hs]; rfl⟩
  | crash => exact sem_unique 1 ⟨n, fun m hm => by rw [run, h m hm, hs]; rfl⟩

theorem sem_restore (e : PE R) : sem g u (.restore e) v s =
    (sem g u e v s).mapBoth id (fun t => { t with stack := s.stack }) := by
  obtain ⟨n, h⟩ := sem_settles g u e v s
  exact sem_unique 1 ⟨n, fun m hm => by rw [run, h m hm]⟩

/-- The state a lookahead ends in. -/
def backTo (s t : St R) : St R := { t with pos := s.pos, rest := s.rest, stack := s.stack }

theorem sem_look (p : Bool) (e : PE R) : sem g u (.look p e) v s =
    if p then (sem g u e { v with silent := true } s).mapBoth (backTo s) (backTo s)
    else ((sem g u e { v with silent := true } s).mapBoth (backTo s) (backTo s)).flip := by
  obtain ⟨n, h⟩ := sem_settles g u e { v with silent := true } s
  exact sem_unique 1 ⟨n, fun m hm => by rw [run, h m hm]; rfl⟩

theorem sem_str (x : Str) : sem g u (.str x) v s = s.matchStr x :=
  sem_unique 1 ⟨0, fun _ _ => rfl⟩
theorem sem_insens (x : Str) : sem g u (.insens x) v s =
    match stripInsens x s.rest with
    | some r => .ok (s.advance x.length r)
    | none => .err s := sem_unique 1 ⟨0, fun _ _ => rfl⟩
theorem sem_range (a b : Char) : sem g u (.range a b) v s =
    s.charBy (fun c => decide (a ≤ c) && decide (c ≤ b)) := sem_unique 1 ⟨0, fun _ _ => rfl⟩
theorem sem_uni (p : Uc) : sem g u (.uni p) v s = s.charBy (u p) :=
  sem_unique 1 ⟨0, fun _ _ => rfl⟩
theorem sem_any : sem g u .any v s = s.charBy (fun _ => true) :=
  sem_unique 1 ⟨0, fun _ _ => rfl⟩
theorem sem_soi : sem g u .soi v s = if s.pos = 0 then .ok s else .err s :=
  sem_unique 1 ⟨0, fun _ _ => rfl⟩
theorem sem_eoi : sem g u .eoi v s = if s.rest.isEmpty then .ok s else .err s :=
  sem_unique 1 ⟨0, fun _ _ => rfl⟩
theorem sem_push (e : PE R) : sem g u (.push e) v s =
    (sem g u e v s).mapBoth (fun t => { t with stack := s.between t :: t.stack }) id := by
  obtain ⟨n, h⟩ := sem_settles g u e v s
  exact sem_unique 1 ⟨n, fun m hm => by rw [run, h m hm]⟩
theorem sem_peek : sem g u .peek v s =
    match s.stack with
    | x :: _ => s.matchStr x
    | [] => .crash := sem_unique 1 ⟨0, fun _ _ => rfl⟩
theorem sem_pop : sem g u .pop v s =
    match s.stack with
    | x :: st => { s with stack := st }.matchStr x
    | [] => .crash := sem_unique 1 ⟨0, fun _ _ => rfl⟩

end equations

end SM.Props
