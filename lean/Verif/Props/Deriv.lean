import Verif.Props.PegSpan
import Verif.Props.PegFirst
/-
Derivations: the grammar read as a context-free grammar, with what ordered choice says in addition.

`Deriv g u a e p w r l` says that `e` can match the text `w` that stands at position `p` before the text `r`, giving
the pairs `l`; where an alternative was given up or a lookahead decided, it is noted what was refused.  Whatever the
parser accepts has a derivation, so what holds of all derivations holds of all accepted texts and their parse trees.
-/
namespace SM.Props
open SM SM.Peg

section generic
variable {R : Type}

/-- `e` is refused before the text `r`. -/
def Refuses (g : R → PE R) (u : Uni) (a : Atomicity) (e : PE R) (r : Str) : Prop :=
  ∃ n v s t, v.atomicity = a ∧ s.rest = r ∧ run g u n e v s = .err t

/-- `e` is accepted before the text `r`. -/
def Admits (g : R → PE R) (u : Uni) (a : Atomicity) (e : PE R) (r : Str) : Prop :=
  ∃ n v s t, v.atomicity = a ∧ s.rest = r ∧ run g u n e v s = .ok t

/-- A run of `e` over the text `w`, at position `p` before the text `z`, that gave the pairs `l`. -/
def Ran (g : R → PE R) (u : Uni) (a : Atomicity) (e : PE R) (p : Nat) (w z : Str) (l : List (Pair R)) : Prop :=
  ∃ n v s t, v.atomicity = a ∧ v.silent = false ∧ s.pos = p ∧ s.rest = w ++ z ∧ t.pos = p + w.length ∧ t.rest = z ∧
    t.queue = s.queue ++ l ∧ run g u n e v s = .ok t

/-- `e` derives the text `w` at position `p` before the text `r`, with the pairs `l`; `a` is the atomicity. -/
inductive Deriv (g : R → PE R) (u : Uni) : Atomicity → PE R → Nat → Str → Str → List (Pair R) → Prop where
  | call {a r p w z l} : Ran g u a (.call r) p w z l → Deriv g u a (g r) p w z l → Deriv g u a (.call r) p w z l
  | rule {a r e p w z l} : a ≠ .atomic → Deriv g u a e p w z l →
      Deriv g u a (.rule r e) p w z [.mk r p (p + w.length) w l]
  | quiet {r e p w z l} : Deriv g u .atomic e p w z l → Deriv g u .atomic (.rule r e) p w z l
  | atomic {a b e p w z l} : Deriv g u b e p w z l → Deriv g u a (.atomic b e) p w z l
  | ifNon {e p w z l} : Deriv g u .non e p w z l → Deriv g u .non (.ifNon e) p w z l
  | ifNonSkip {a e p z} : a ≠ .non → Deriv g u a (.ifNon e) p [] z []
  | seq {a e p w z l} : Deriv g u a e p w z l → Deriv g u a (.seq e) p w z l
  | optNone {a e p z} : Refuses g u a e z → Deriv g u a (.opt e) p [] z []
  | optSome {a e p w z l} : Deriv g u a e p w z l → Deriv g u a (.opt e) p w z l
  | repNil {a e p z} : Refuses g u a e z → Deriv g u a (.rep e) p [] z []
  | repCons {a e p w l w' z l'} : Deriv g u a e p w (w' ++ z) l → Deriv g u a (.rep e) (p + w.length) w' z l' →
      Deriv g u a (.rep e) p (w ++ w') z (l ++ l')
  | altL {a e f p w z l} : Deriv g u a e p w z l → Deriv g u a (.alt e f) p w z l
  | altR {a e f p w z l} : Refuses g u a e (w ++ z) → Deriv g u a f p w z l → Deriv g u a (.alt e f) p w z l
  | cat {a e f p w l w' z l'} : Deriv g u a e p w (w' ++ z) l → Deriv g u a f (p + w.length) w' z l' →
      Deriv g u a (.cat e f) p (w ++ w') z (l ++ l')
  | restore {a e p w z l} : Deriv g u a e p w z l → Deriv g u a (.restore e) p w z l
  | push {a e p w z l} : Deriv g u a e p w z l → Deriv g u a (.push e) p w z l
  | lookNot {a e p z} : Refuses g u a e z → Deriv g u a (.look false e) p [] z []
  | look {a e p z} : Admits g u a e z → Deriv g u a (.look true e) p [] z []
  | str {a x p z} : Deriv g u a (.str x) p x z []
  | insens {a x p w z} : w.map Char.toLower = x.map Char.toLower → Deriv g u a (.insens x) p w z []
  | range {a c d x p z} : c ≤ x → x ≤ d → Deriv g u a (.range c d) p [x] z []
  | uni {a q x p z} : u q x = true → Deriv g u a (.uni q) p [x] z []
  | any {a x p z} : Deriv g u a .any p [x] z []
  | soi {a z} : Deriv g u a .soi 0 [] z []
  | eoi {a p} : Deriv g u a .eoi p [] [] []
  | peek {a p w z} : Deriv g u a .peek p w z []
  | pop {a p w z} : Deriv g u a .pop p w z []

/-- From `s` to `t` the text `w` is consumed and the pairs `l` are emitted. -/
structure Moves (s t : St R) (w : Str) (l : List (Pair R)) : Prop where
  rest : s.rest = w ++ t.rest
  pos : t.pos = s.pos + w.length
  queue : t.queue = s.queue ++ l

theorem Moves.none {s t : St R} (h1 : t.rest = s.rest) (h2 : t.pos = s.pos) (h3 : t.queue = s.queue) :
    Moves s t [] [] := ⟨by simp [h1], by simp [h2], by simp [h3]⟩

theorem Moves.trans {s t r : St R} {w w' : Str} {l l' : List (Pair R)} (h : Moves s t w l) (h' : Moves t r w' l') :
    Moves s r (w ++ w') (l ++ l') :=
  ⟨by rw [h.rest, h'.rest, List.append_assoc], by rw [h'.pos, h.pos, List.length_append]; omega,
    by rw [h'.queue, h.queue, List.append_assoc]⟩

/-- Position, text and pairs are the same. -/
def Stays (s t : St R) : Prop := t.rest = s.rest ∧ t.pos = s.pos ∧ t.queue = s.queue

theorem Stays.moves {s t r : St R} {w : Str} {l : List (Pair R)} (h : Stays s t) (h' : Moves t r w l) : Moves s r w l :=
  ⟨by rw [← h.1, h'.rest], by rw [h'.pos, h.2.1], by rw [h'.queue, h.2.2]⟩

theorem strip_app {x s r : Str} (h : strip x s = some r) : s = x ++ r := by
  induction x generalizing s with
  | nil => simp [strip] at h; simp [h]
  | cons c x ih =>
    cases s with
    | nil => simp [strip] at h
    | cons d s =>
      simp only [strip] at h
      by_cases hc : c = d
      · rw [if_pos hc] at h; rw [ih h, hc]; rfl
      · rw [if_neg hc] at h; cases h

theorem stripInsens_app {x s r : Str} (h : stripInsens x s = some r) :
    ∃ w, s = w ++ r ∧ w.map Char.toLower = x.map Char.toLower := by
  induction x generalizing s with
  | nil => simp [stripInsens] at h; exact ⟨[], by simp [h], rfl⟩
  | cons c x ih =>
    cases s with
    | nil => simp [stripInsens] at h
    | cons d s =>
      simp only [stripInsens] at h
      by_cases hc : c.toLower = d.toLower
      · rw [if_pos hc] at h
        obtain ⟨w, h1, h2⟩ := ih h
        exact ⟨d :: w, by rw [h1]; rfl, by simp [h2, hc]⟩
      · rw [if_neg hc] at h; cases h

theorem matchStr_moves {s t : St R} {x : Str} (h : s.matchStr x = .ok t) : Moves s t x [] := by
  unfold St.matchStr at h
  split at h
  · rename_i r hr
    simp only [Res.ok.injEq] at h
    subst h
    exact ⟨strip_app hr, rfl, by simp [St.advance]⟩
  · cases h

theorem charBy_moves {s t : St R} {f : Char → Bool} (h : s.charBy f = .ok t) :
    ∃ c, f c = true ∧ Moves s t [c] [] := by
  unfold St.charBy at h
  split at h
  · cases h
  · rename_i c r hr
    split at h
    · simp only [Res.ok.injEq] at h
      subst h
      exact ⟨c, ‹_›, by rw [hr]; rfl, rfl, by simp [St.advance]⟩
    · cases h

/-- What is accepted has a derivation; what fails has moved nothing. -/
theorem run_deriv (g : R → PE R) (u : Uni) (hg : ∀ r, back (g r) = true ∧ backs (g r) = true) :
    ∀ (n : Nat) (e : PE R) (v : Env) (s : St R), v.silent = false → backs e = true →
      (∀ t, run g u n e v s = .ok t → ∃ w l, Moves s t w l ∧ Deriv g u v.atomicity e s.pos w t.rest l) ∧
      (∀ t, back e = true → run g u n e v s = .err t → Stays s t) := by
  intro n
  induction n with
  | zero => intro e v s _ _; exact ⟨fun t h => (nomatch h), fun t _ h => by cases h⟩
  | succ n ih =>
    intro e v s hv he
    have stay : Stays s s := ⟨rfl, rfl, rfl⟩
    cases e with
    | call r =>
      obtain ⟨k1, k2⟩ := ih (g r) v s hv (hg r).2
      refine ⟨fun t h => ?_, fun t _ h => k2 t (hg r).1 h⟩
      obtain ⟨w, l, hm, hd⟩ := k1 t h
      exact ⟨w, l, hm, .call ⟨n + 1, v, s, t, rfl, hv, rfl, hm.rest, hm.pos, rfl, hm.queue, h⟩ hd⟩
    | rule r e =>
      rw [run]
      split
      · rename_i hem
        obtain ⟨k1, k2⟩ := ih e v { s with queue := [] } hv he
        cases hr : run g u n e v { s with queue := [] } with
        | ok x =>
          refine ⟨fun t h => ?_, fun t _ h => by cases h⟩
          simp only [Res.mapBoth, Res.ok.injEq] at h
          subst h
          obtain ⟨w, l, hm, hd⟩ := k1 x hr
          have h1 : s.rest = w ++ x.rest := hm.rest
          have h2 : x.pos = s.pos + w.length := hm.pos
          have h3 : x.queue = l := hm.queue
          have hb : s.between x = w := by
            rw [St.between, h1, h2, Nat.add_sub_cancel_left, List.take_left]
          refine ⟨w, [.mk r s.pos (s.pos + w.length) w l], ⟨h1, h2, ?_⟩, .rule ?_ hd⟩
          · show s.queue ++ [Pair.mk r s.pos x.pos (s.between x) x.queue] = _
            rw [hb, h2, h3]
          · intro ha
            rw [Env.emits, ha] at hem
            simp at hem
        | err x =>
          refine ⟨fun t h => (nomatch h), fun t hb h => ?_⟩
          simp only [Res.mapBoth, Res.err.injEq] at h
          subst h
          obtain ⟨h1, h2, -⟩ := k2 x hb hr
          exact ⟨h1, h2, rfl⟩
        | crash => exact ⟨fun t h => (nomatch h), fun t _ h => by cases h⟩
      · rename_i hem
        obtain ⟨k1, k2⟩ := ih e v s hv he
        refine ⟨fun t h => ?_, k2⟩
        obtain ⟨w, l, hm, hd⟩ := k1 t h
        refine ⟨w, l, hm, ?_⟩
        have ha : v.atomicity = .atomic := by
          cases hva : v.atomicity with
          | atomic => rfl
          | compound => exact absurd (by simp [Env.emits, hv, hva]) hem
          | non => exact absurd (by simp [Env.emits, hv, hva]) hem
        rw [ha] at hd ⊢
        exact .quiet hd
    | atomic b e =>
      obtain ⟨k1, k2⟩ := ih e { v with atomicity := b } s hv he
      refine ⟨fun t h => ?_, k2⟩
      obtain ⟨w, l, hm, hd⟩ := k1 t h
      exact ⟨w, l, hm, .atomic hd⟩
    | ifNon e =>
      rw [run]
      split
      · rename_i ha
        obtain ⟨k1, k2⟩ := ih e v s hv he
        refine ⟨fun t h => ?_, k2⟩
        obtain ⟨w, l, hm, hd⟩ := k1 t h
        rw [ha] at hd ⊢
        exact ⟨w, l, hm, .ifNon hd⟩
      · rename_i ha
        refine ⟨fun t h => ?_, fun t _ h => by cases h⟩
        cases h
        exact ⟨[], [], .none rfl rfl rfl, .ifNonSkip ha⟩
    | seq e =>
      obtain ⟨k1, k2⟩ := ih e v s hv he
      rw [run]
      cases hr : run g u n e v s with
      | ok x =>
        refine ⟨fun t h => ?_, fun t _ h => by cases h⟩
        simp only [Res.mapBoth, id, Res.ok.injEq] at h
        subst h
        obtain ⟨w, l, hm, hd⟩ := k1 x hr
        exact ⟨w, l, hm, .seq hd⟩
      | err x =>
        refine ⟨fun t h => (nomatch h), fun t hb h => ?_⟩
        simp only [Res.mapBoth, Res.err.injEq] at h
        subst h
        exact ⟨rfl, rfl, rfl⟩
      | crash => exact ⟨fun t h => (nomatch h), fun t _ h => by cases h⟩
    | opt e =>
      simp only [backs, Bool.and_eq_true] at he
      obtain ⟨k1, k2⟩ := ih e v s hv he.2
      rw [run]
      cases hr : run g u n e v s with
      | ok x =>
        refine ⟨fun t h => ?_, fun t _ h => by cases h⟩
        simp only [Res.recover, Res.ok.injEq] at h
        subst h
        obtain ⟨w, l, hm, hd⟩ := k1 x hr
        exact ⟨w, l, hm, .optSome hd⟩
      | err x =>
        refine ⟨fun t h => ?_, fun t _ h => by cases h⟩
        simp only [Res.recover, Res.ok.injEq] at h
        subst h
        obtain ⟨h1, h2, h3⟩ := k2 x he.1 hr
        exact ⟨[], [], .none h1 h2 h3, .optNone ⟨n, v, s, x, rfl, h1.symm, hr⟩⟩
      | crash => exact ⟨fun t h => (nomatch h), fun t _ h => by cases h⟩
    | rep e =>
      have he0 := he
      simp only [backs, Bool.and_eq_true] at he
      obtain ⟨k1, k2⟩ := ih e v s hv he.2
      rw [run]
      cases hr : run g u n e v s with
      | ok x =>
        obtain ⟨m1, m2⟩ := ih (.rep e) v x hv he0
        refine ⟨fun t h => ?_, fun t _ h => absurd h (sure_run g u n _ v x t rfl)⟩
        obtain ⟨w, l, hm, hd⟩ := k1 x hr
        obtain ⟨w', l', hm', hd'⟩ := m1 t h
        rw [hm.pos] at hd'
        rw [hm'.rest] at hd
        exact ⟨_, _, hm.trans hm', .repCons hd hd'⟩
      | err x =>
        refine ⟨fun t h => ?_, fun t _ h => by cases h⟩
        simp only [Res.ok.injEq] at h
        subst h
        obtain ⟨h1, h2, h3⟩ := k2 x he.1 hr
        exact ⟨[], [], .none h1 h2 h3, .repNil ⟨n, v, s, x, rfl, h1.symm, hr⟩⟩
      | crash => exact ⟨fun t h => (nomatch h), fun t _ h => by cases h⟩
    | alt a b =>
      simp only [backs, Bool.and_eq_true] at he
      obtain ⟨k1, k2⟩ := ih a v s hv he.1.2
      rw [run]
      cases hr : run g u n a v s with
      | ok x =>
        refine ⟨fun t h => ?_, fun t _ h => by cases h⟩
        simp only [Res.orElse, Res.ok.injEq] at h
        subst h
        obtain ⟨w, l, hm, hd⟩ := k1 x hr
        exact ⟨w, l, hm, .altL hd⟩
      | err x =>
        have hx := k2 x he.1.1 hr
        obtain ⟨m1, m2⟩ := ih b v x hv he.2
        refine ⟨fun t h => ?_, fun t hb h => ?_⟩
        · obtain ⟨w, l, hm, hd⟩ := m1 t h
          rw [hx.2.1] at hd
          exact ⟨w, l, hx.moves hm, .altR ⟨n, v, s, x, rfl, (hx.moves hm).rest, hr⟩ hd⟩
        · simp only [back, Bool.and_eq_true] at hb
          obtain ⟨h1, h2, h3⟩ := m2 t hb.2 h
          exact ⟨h1.trans hx.1, h2.trans hx.2.1, h3.trans hx.2.2⟩
      | crash => exact ⟨fun t h => (nomatch h), fun t _ h => by cases h⟩
    | cat a b =>
      simp only [backs, Bool.and_eq_true] at he
      obtain ⟨k1, k2⟩ := ih a v s hv he.1
      rw [run]
      cases hr : run g u n a v s with
      | ok x =>
        obtain ⟨m1, m2⟩ := ih b v x hv he.2
        refine ⟨fun t h => ?_, fun t hb h => ?_⟩
        · obtain ⟨w, l, hm, hd⟩ := k1 x hr
          obtain ⟨w', l', hm', hd'⟩ := m1 t h
          rw [hm.pos] at hd'
          rw [hm'.rest] at hd
          exact ⟨_, _, hm.trans hm', .cat hd hd'⟩
        · simp only [back, Bool.and_eq_true] at hb
          exact absurd h (sure_run g u n _ v x t hb.2)
      | err x =>
        refine ⟨fun t h => (nomatch h), fun t hb h => ?_⟩
        simp only [back, Bool.and_eq_true] at hb
        simp only [Res.andThen, Res.err.injEq] at h
        subst h
        exact k2 x hb.1 hr
      | crash => exact ⟨fun t h => (nomatch h), fun t _ h => by cases h⟩
    | restore e =>
      obtain ⟨k1, k2⟩ := ih e v s hv he
      rw [run]
      cases hr : run g u n e v s with
      | ok x =>
        refine ⟨fun t h => ?_, fun t _ h => by cases h⟩
        simp only [Res.mapBoth, id, Res.ok.injEq] at h
        subst h
        obtain ⟨w, l, hm, hd⟩ := k1 x hr
        exact ⟨w, l, hm, .restore hd⟩
      | err x =>
        refine ⟨fun t h => (nomatch h), fun t hb h => ?_⟩
        simp only [Res.mapBoth, Res.err.injEq] at h
        subst h
        exact k2 x hb hr
      | crash => exact ⟨fun t h => (nomatch h), fun t _ h => by cases h⟩
    | look b e =>
      have hq := run_queue g u n e { v with silent := true } s rfl
      rw [run]
      cases hr : run g u n e { v with silent := true } s with
      | crash => cases b <;> exact ⟨fun t h => (nomatch h), fun t _ h => by cases h⟩
      | ok x =>
        rw [hr] at hq
        have hq : x.queue = s.queue := hq
        cases b with
        | true =>
          refine ⟨fun t h => ?_, fun t _ h => by cases h⟩
          cases h
          exact ⟨[], [], .none rfl rfl hq, .look ⟨n, ⟨v.atomicity, true⟩, s, x, rfl, rfl, hr⟩⟩
        | false =>
          refine ⟨fun t h => (nomatch h), fun t _ h => ?_⟩
          cases h
          exact ⟨rfl, rfl, hq⟩
      | err x =>
        rw [hr] at hq
        have hq : x.queue = s.queue := hq
        cases b with
        | false =>
          refine ⟨fun t h => ?_, fun t _ h => by cases h⟩
          cases h
          exact ⟨[], [], .none rfl rfl hq, .lookNot ⟨n, ⟨v.atomicity, true⟩, s, x, rfl, rfl, hr⟩⟩
        | true =>
          refine ⟨fun t h => (nomatch h), fun t _ h => ?_⟩
          cases h
          exact ⟨rfl, rfl, hq⟩
    | str x => exact ⟨fun t h => ⟨x, [], matchStr_moves h, .str⟩, fun t _ h => by rw [matchStr_err h]; exact stay⟩
    | insens x =>
      rw [run]
      cases hs : stripInsens x s.rest with
      | none => exact ⟨fun t h => (nomatch h), fun t _ h => by cases h; exact stay⟩
      | some r =>
        refine ⟨fun t h => ?_, fun t _ h => by cases h⟩
        obtain ⟨w, h1, h2⟩ := stripInsens_app hs
        have hl : w.length = x.length := by
          have := congrArg List.length h2
          simpa using this
        cases h
        exact ⟨w, [], ⟨h1, by rw [hl]; rfl, by simp [St.advance]⟩, .insens h2⟩
    | range a b =>
      refine ⟨fun t h => ?_, fun t _ h => by rw [charBy_err h]; exact stay⟩
      obtain ⟨c, hc, hm⟩ := charBy_moves h
      simp only [Bool.and_eq_true, decide_eq_true_eq] at hc
      exact ⟨[c], [], hm, .range hc.1 hc.2⟩
    | uni q =>
      refine ⟨fun t h => ?_, fun t _ h => by rw [charBy_err h]; exact stay⟩
      obtain ⟨c, hc, hm⟩ := charBy_moves h
      exact ⟨[c], [], hm, .uni hc⟩
    | any =>
      refine ⟨fun t h => ?_, fun t _ h => by rw [charBy_err h]; exact stay⟩
      obtain ⟨c, hc, hm⟩ := charBy_moves h
      exact ⟨[c], [], hm, .any⟩
    | soi =>
      rw [run]
      split
      · rename_i hp
        exact ⟨fun t h => by cases h; rw [hp]; exact ⟨[], [], .none rfl rfl rfl, .soi⟩, fun t _ h => by cases h⟩
      · exact ⟨fun t h => (nomatch h), fun t _ h => by cases h; exact stay⟩
    | eoi =>
      rw [run]
      split
      · rename_i hp
        rw [List.isEmpty_iff] at hp
        exact ⟨fun t h => by cases h; rw [hp]; exact ⟨[], [], .none rfl rfl rfl, .eoi⟩, fun t _ h => by cases h⟩
      · exact ⟨fun t h => (nomatch h), fun t _ h => by cases h; exact stay⟩
    | push e =>
      obtain ⟨k1, k2⟩ := ih e v s hv he
      rw [run]
      cases hr : run g u n e v s with
      | ok x =>
        refine ⟨fun t h => ?_, fun t _ h => by cases h⟩
        simp only [Res.mapBoth, Res.ok.injEq] at h
        subst h
        obtain ⟨w, l, hm, hd⟩ := k1 x hr
        exact ⟨w, l, ⟨hm.rest, hm.pos, hm.queue⟩, .push hd⟩
      | err x =>
        refine ⟨fun t h => (nomatch h), fun t hb h => ?_⟩
        simp only [Res.mapBoth, id, Res.err.injEq] at h
        subst h
        exact k2 x hb hr
      | crash => exact ⟨fun t h => (nomatch h), fun t _ h => by cases h⟩
    | peek =>
      rw [run]
      split
      · exact ⟨fun t h => ⟨_, [], matchStr_moves h, .peek⟩, fun t _ h => by rw [matchStr_err h]; exact stay⟩
      · exact ⟨fun t h => (nomatch h), fun t _ h => by cases h⟩
    | pop =>
      rw [run]
      split
      · refine ⟨fun t h => ?_, fun t _ h => by rw [matchStr_err h]; exact ⟨rfl, rfl, rfl⟩⟩
        have hm := matchStr_moves h
        exact ⟨_, [], ⟨hm.rest, hm.pos, hm.queue⟩, .pop⟩
      · exact ⟨fun t h => (nomatch h), fun t _ h => by cases h⟩

end generic

/-- **C34**, the tree.  The parse tree of an accepted text is a derivation of the whole text from the
grammar. -/
theorem C34_derivation (u : Uni) (input : Str) (l : List (Pair R)) (h : smParse u .program input = .pairs l) :
    Deriv grammar u .non (.call .program) 0 input [] l := by
  have hs := h
  unfold smParse at h
  have hb : ∀ r, back (grammar r) = true ∧ backs (grammar r) = true := fun r => by
    have := gFirst_ok r
    simp only [firstOk, Bool.and_eq_true] at this
    exact this.1.1
  have k := (run_deriv grammar u hb (parseFuel input) (.call .program) Env.init (St.init input) rfl rfl).1
  cases hr : run grammar u (parseFuel input) (.call .program) Env.init (St.init input) with
  | ok t =>
    obtain ⟨w, l', hm, hd⟩ := k t hr
    rw [hr] at h
    simp only [Parsed.ofRes, Parsed.pairs.injEq] at h
    have hq : t.queue = l' := by rw [hm.queue]; rfl
    rw [hq] at h
    subst h
    have hsem := run_eq_sem_of_fuel u Env.init .program (St.init input) (parseFuel input) rfl (Nat.le_refl _)
    rw [hr, sem_call, show grammar .program = body_program from rfl, body_program] at hsem
    obtain ⟨h1, -⟩ := eoi_last u _ _ rfl _ _ hsem.symm
    have h2 : input = w := by
      have : input = w ++ t.rest := hm.rest
      rw [this, h1, List.append_nil]
    rw [h1] at hd
    rw [h2]
    exact hd
  | err t => rw [hr] at h; cases h
  | crash => rw [hr] at h; cases h

end SM.Props
