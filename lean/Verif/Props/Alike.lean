import Verif.Props.Brackets
import Verif.Props.PegErr
/-
What a parser expression accepts depends on the atomicity and on the text ahead of it, and not on where it
stands, what was parsed before, or whether pairs are emitted.
-/
namespace SM.Props
open SM SM.Peg

section generic
variable {R : Type}

/-- `start_of_input` cannot be reached through the rules marked `f`. -/
def noSoi (f : R → Bool) : PE R → Bool
  | .call r => f r
  | .rule _ e => noSoi f e
  | .atomic _ e => noSoi f e
  | .ifNon e => noSoi f e
  | .seq e => noSoi f e
  | .opt e => noSoi f e
  | .rep e => noSoi f e
  | .alt a b => noSoi f a && noSoi f b
  | .cat a b => noSoi f a && noSoi f b
  | .restore e => noSoi f e
  | .look _ e => noSoi f e
  | .push e => noSoi f e
  | .soi => false
  | _ => true

/-- Two stacks with the same `d` topmost entries. -/
def Share (d : Nat) (k k' : List Str) : Prop := ∃ m b b', k = m ++ b ∧ k' = m ++ b' ∧ d ≤ m.length

theorem Share.le {d d' : Nat} {k k' : List Str} (h : Share d k k') (hd : d' ≤ d) : Share d' k k' := by
  obtain ⟨m, b, b', h1, h2, h3⟩ := h
  exact ⟨m, b, b', h1, h2, by omega⟩

theorem Share.zero (k k' : List Str) : Share 0 k k' := ⟨[], k, k', rfl, rfl, Nat.le_refl _⟩

/-- Two states that have moved alike since `s` and `s'`. -/
structure Near (s s' t t' : St R) (d : Nat) : Prop where
  rest : t.rest = t'.rest
  pos : t.pos + s'.pos = t'.pos + s.pos
  stack : Share d t.stack t'.stack

/-- Two outcomes that are alike. -/
def Alike (s s' : St R) (o x : Nat) : Res R → Res R → Prop
  | .ok t, .ok t' => Near s s' t t' o
  | .err t, .err t' => Near s s' t t' x
  | .crash, .crash => True
  | _, _ => False

theorem Alike.imp {s s' : St R} {o x o' x' : Nat} {r r' : Res R} (h : Alike s s' o x r r') (ho : o' ≤ o) (hx : x' ≤ x) :
    Alike s s' o' x' r r' := by
  cases r <;> cases r' <;> first | exact h | exact ⟨h.1, h.2, h.3.le ‹_›⟩

theorem Near.trans {s s' t t' q q' : St R} {d d' : Nat} (h : Near s s' t t' d) (h' : Near t t' q q' d') :
    Near s s' q q' d' := ⟨h'.1, by have := h.2; have := h'.2; omega, h'.3⟩

theorem Alike.after {s s' t t' : St R} {d o x : Nat} {r r' : Res R} (h : Near s s' t t' d) (h' : Alike t t' o x r r') :
    Alike s s' o x r r' := by
  cases r <;> cases r' <;> first | exact h' | exact h.trans h'

theorem Alike.rebase {s s' q q' : St R} {o x : Nat} {r r' : Res R} (h : Alike q q' o x r r') (h1 : q.pos = s.pos)
    (h2 : q'.pos = s'.pos) : Alike s s' o x r r' := by
  cases r <;> cases r' <;> first | exact h | exact ⟨h.1, by rw [← h1, ← h2]; exact h.2, h.3⟩

theorem Near.between {s s' t t' : St R} {d : Nat} (hs : s.rest = s'.rest) (h : Near s s' t t' d) :
    s.between t = s'.between t' := by
  unfold St.between
  rw [hs, show t.pos - s.pos = t'.pos - s'.pos by have := h.2; omega]

theorem alike_matchStr {s s' : St R} {d : Nat} (hr : s.rest = s'.rest) (hk : Share d s.stack s'.stack) (x : Str) :
    Alike s s' d d (s.matchStr x) (s'.matchStr x) := by
  unfold St.matchStr
  rw [← hr]
  split
  · exact ⟨rfl, by simp only [St.advance]; omega, hk⟩
  · exact ⟨hr, by omega, hk⟩

theorem alike_charBy {s s' : St R} {d : Nat} (hr : s.rest = s'.rest) (hk : Share d s.stack s'.stack) (f : Char → Bool) :
    Alike s s' d d (s.charBy f) (s'.charBy f) := by
  unfold St.charBy
  rw [← hr]
  split
  · exact ⟨hr, by omega, hk⟩
  · split
    · exact ⟨rfl, by simp only [St.advance]; omega, hk⟩
    · exact ⟨hr, by omega, hk⟩

theorem run_alike (T : Tables R) (g : R → PE R) (u : Uni) (hg : ∀ r, T.okFor r (g r) = true) (f : R → Bool)
    (hf : ∀ r, f r = true → noSoi f (g r) = true) :
    ∀ (n : Nat) (e : PE R) (v v' : Env) (s s' : St R) (d o x : Nat), v.atomicity = v'.atomicity → s.rest = s'.rest →
      Share d s.stack s'.stack → stackUse T.req T.drop e d = some (o, x) → noSoi f e = true →
      Alike s s' o x (run g u n e v s) (run g u n e v' s') := by
  have hdrop : ∀ r, T.drop r ≤ T.req r := by
    intro r
    have := hg r
    simp only [Tables.okFor, Bool.and_eq_true, decide_eq_true_eq] at this
    exact this.1.2
  intro n
  induction n with
  | zero => intro _ _ _ _ _ _ _ _ _ _ _ _ _; exact trivial
  | succ n ih =>
    intro e v v' s s' d o x hv hr hk hu hs
    cases e with
    | call r =>
      have hgr := hg r
      simp only [Tables.okFor, Bool.and_eq_true, decide_eq_true_eq] at hgr
      obtain ⟨-, h7⟩ := hgr
      simp only [stackUse] at hu
      split at hu
      · rename_i hreq
        simp only [Option.some.injEq, Prod.mk.injEq] at hu
        cases hw : stackUse T.req T.drop (g r) (T.req r) with
        | none => rw [hw] at h7; cases h7
        | some ox =>
          obtain ⟨o', x'⟩ := ox
          rw [hw] at h7
          simp only [Bool.and_eq_true, decide_eq_true_eq] at h7
          have hsh := stackUse_shift T.req T.drop hdrop (g r) (d - T.req r) _ _ _ hw
          rw [show T.req r + (d - T.req r) = d by omega] at hsh
          have := hdrop r
          exact (ih (g r) v v' s s' d _ _ hv hr hk hsh (hf r hs)).imp (by omega) (by omega)
      · cases hu
    | rule r e =>
      have key : ∀ q q', Alike s s' o x (run g u n e v { s with queue := q }) (run g u n e v' { s' with queue := q' }) :=
        fun q q' => (ih e v v' { s with queue := q } { s' with queue := q' } d o x hv hr hk hu hs).rebase rfl rfl
      have h1 := key [] []
      have h2 := key [] s'.queue
      have h3 := key s.queue []
      have h4 := key s.queue s'.queue
      change Alike s s' o x _ (run g u n e v' s') at h2
      change Alike s s' o x (run g u n e v s) _ at h3
      change Alike s s' o x (run g u n e v s) (run g u n e v' s') at h4
      rw [run, run]
      split <;> split
      · revert h1
        cases run g u n e v { s with queue := [] } <;> cases run g u n e v' { s' with queue := [] } <;>
          first | exact id | exact fun h => ⟨h.1, h.2, h.3⟩
      · revert h2
        cases run g u n e v { s with queue := [] } <;> cases run g u n e v' s' <;>
          first | exact id | exact fun h => ⟨h.1, h.2, h.3⟩
      · revert h3
        cases run g u n e v s <;> cases run g u n e v' { s' with queue := [] } <;>
          first | exact id | exact fun h => ⟨h.1, h.2, h.3⟩
      · exact h4
    | atomic a e => exact ih e _ _ s s' d o x rfl hr hk hu hs
    | ifNon e =>
      simp only [stackUse] at hu
      cases hw : stackUse T.req T.drop e d with
      | none => rw [hw] at hu; cases hu
      | some ox =>
        obtain ⟨o', x'⟩ := ox
        rw [hw] at hu
        simp only [Option.some.injEq, Prod.mk.injEq] at hu
        rw [run, run, ← hv]
        split
        · exact (ih e v v' s s' d o' x' hv hr hk hw hs).imp (by omega) (by omega)
        · exact ⟨hr, by omega, hk.le (by omega)⟩
    | seq e =>
      have := ih e v v' s s' d o x hv hr hk hu hs
      rw [run, run]
      revert this
      cases run g u n e v s <;> cases run g u n e v' s' <;>
        first | exact id | exact fun h => ⟨hr, by show s.pos + s'.pos = s'.pos + s.pos; omega, h.3⟩
    | opt e =>
      simp only [stackUse] at hu
      cases hw : stackUse T.req T.drop e d with
      | none => rw [hw] at hu; cases hu
      | some ox =>
        obtain ⟨o', x'⟩ := ox
        rw [hw] at hu
        simp only [Option.some.injEq, Prod.mk.injEq] at hu
        have := ih e v v' s s' d o' x' hv hr hk hw hs
        rw [run, run]
        revert this
        cases run g u n e v s <;> cases run g u n e v' s' <;>
          first | exact False.elim | exact id | exact fun h => ⟨h.1, h.2, h.3.le (by omega)⟩
    | rep e =>
      have hu0 := hu
      simp only [stackUse] at hu
      cases hw : stackUse T.req T.drop e d with
      | none => rw [hw] at hu; cases hu
      | some ox =>
        obtain ⟨o', x'⟩ := ox
        rw [hw] at hu
        simp only at hu
        split at hu
        · rename_i hdo
          simp only [Option.some.injEq, Prod.mk.injEq] at hu
          have := ih e v v' s s' d o' x' hv hr hk hw hs
          rw [run, run]
          revert this
          cases run g u n e v s <;> cases run g u n e v' s' <;> intro h
          · exact .after h (ih (.rep e) v v' _ _ d o x hv h.1 (h.3.le hdo) hu0 hs)
          · exact h.elim
          · exact h.elim
          · exact h.elim
          · exact ⟨h.1, h.2, h.3.le (by omega)⟩
          · exact h.elim
          · exact h.elim
          · exact h.elim
          · exact trivial
        · cases hu
    | alt a b =>
      simp only [noSoi, Bool.and_eq_true] at hs
      simp only [stackUse] at hu
      cases hw : stackUse T.req T.drop a d with
      | none => rw [hw] at hu; cases hu
      | some ox =>
        obtain ⟨o', x'⟩ := ox
        rw [hw] at hu
        simp only at hu
        cases hw' : stackUse T.req T.drop b x' with
        | none => rw [hw'] at hu; cases hu
        | some ox =>
          obtain ⟨o'', x''⟩ := ox
          rw [hw'] at hu
          simp only [Option.some.injEq, Prod.mk.injEq] at hu
          have := ih a v v' s s' d o' x' hv hr hk hw hs.1
          rw [run, run]
          revert this
          cases run g u n a v s <;> cases run g u n a v' s' <;> intro h
          · exact ⟨h.1, h.2, h.3.le (by omega)⟩
          · exact h.elim
          · exact h.elim
          · exact h.elim
          · exact .after h ((ih b v v' _ _ x' o'' x'' hv h.1 h.3 hw' hs.2).imp (by omega) (by omega))
          · exact h.elim
          · exact h.elim
          · exact h.elim
          · exact trivial
    | cat a b =>
      simp only [noSoi, Bool.and_eq_true] at hs
      simp only [stackUse] at hu
      cases hw : stackUse T.req T.drop a d with
      | none => rw [hw] at hu; cases hu
      | some ox =>
        obtain ⟨o', x'⟩ := ox
        rw [hw] at hu
        simp only at hu
        cases hw' : stackUse T.req T.drop b o' with
        | none => rw [hw'] at hu; cases hu
        | some ox =>
          obtain ⟨o'', x''⟩ := ox
          rw [hw'] at hu
          simp only [Option.some.injEq, Prod.mk.injEq] at hu
          have := ih a v v' s s' d o' x' hv hr hk hw hs.1
          rw [run, run]
          revert this
          cases run g u n a v s <;> cases run g u n a v' s' <;> intro h
          · exact .after h ((ih b v v' _ _ o' o'' x'' hv h.1 h.3 hw' hs.2).imp (by omega) (by omega))
          · exact h.elim
          · exact h.elim
          · exact h.elim
          · exact ⟨h.1, h.2, h.3.le (by omega)⟩
          · exact h.elim
          · exact h.elim
          · exact h.elim
          · exact trivial
    | restore e =>
      simp only [stackUse] at hu
      cases hw : stackUse T.req T.drop e d with
      | none => rw [hw] at hu; cases hu
      | some ox =>
        obtain ⟨o', x'⟩ := ox
        rw [hw] at hu
        simp only [Option.some.injEq, Prod.mk.injEq] at hu
        have := ih e v v' s s' d o' x' hv hr hk hw hs
        rw [run, run]
        revert this
        cases run g u n e v s <;> cases run g u n e v' s' <;> intro h
        · exact ⟨h.1, h.2, h.3.le (by omega)⟩
        · exact h.elim
        · exact h.elim
        · exact h.elim
        · exact ⟨h.1, h.2, hk.le (by omega)⟩
        · exact h.elim
        · exact h.elim
        · exact h.elim
        · exact trivial
    | look b e =>
      simp only [stackUse] at hu
      cases hw : stackUse T.req T.drop e d with
      | none => rw [hw] at hu; cases hu
      | some ox =>
        obtain ⟨o', x'⟩ := ox
        rw [hw] at hu
        simp only [Option.some.injEq, Prod.mk.injEq] at hu
        have := ih e { v with silent := true } { v' with silent := true } s s' d o' x' hv hr hk hw hs
        rw [run, run]
        revert this
        cases b <;> cases run g u n e { v with silent := true } s <;>
          cases run g u n e { v' with silent := true } s' <;> intro h <;>
          first
            | exact h.elim
            | exact trivial
            | exact ⟨hr, by show s.pos + s'.pos = s'.pos + s.pos; omega, hk.le (by omega)⟩
    | str x =>
      simp only [stackUse, Option.some.injEq, Prod.mk.injEq] at hu
      exact (alike_matchStr hr hk x).imp (by omega) (by omega)
    | insens x =>
      simp only [stackUse, Option.some.injEq, Prod.mk.injEq] at hu
      rw [run, run, ← hr]
      split
      · exact ⟨rfl, by simp only [St.advance]; omega, hk.le (by omega)⟩
      · exact ⟨hr, by omega, hk.le (by omega)⟩
    | range a b =>
      simp only [stackUse, Option.some.injEq, Prod.mk.injEq] at hu
      exact (alike_charBy hr hk _).imp (by omega) (by omega)
    | uni p =>
      simp only [stackUse, Option.some.injEq, Prod.mk.injEq] at hu
      exact (alike_charBy hr hk _).imp (by omega) (by omega)
    | any =>
      simp only [stackUse, Option.some.injEq, Prod.mk.injEq] at hu
      exact (alike_charBy hr hk _).imp (by omega) (by omega)
    | soi => cases hs
    | eoi =>
      simp only [stackUse, Option.some.injEq, Prod.mk.injEq] at hu
      rw [run, run, ← hr]
      split
      · exact ⟨hr, by omega, hk.le (by omega)⟩
      · exact ⟨hr, by omega, hk.le (by omega)⟩
    | push e =>
      simp only [stackUse] at hu
      cases hw : stackUse T.req T.drop e d with
      | none => rw [hw] at hu; cases hu
      | some ox =>
        obtain ⟨o', x'⟩ := ox
        rw [hw] at hu
        simp only [Option.some.injEq, Prod.mk.injEq] at hu
        have := ih e v v' s s' d o' x' hv hr hk hw hs
        rw [run, run]
        revert this
        cases run g u n e v s <;> cases run g u n e v' s' <;> intro h
        · rename_i t t'
          refine ⟨h.1, h.2, ?_⟩
          obtain ⟨m, b, b', h1, h2, h3⟩ := h.3
          refine ⟨s.between t :: m, b, b', ?_, ?_, by simp only [List.length_cons]; omega⟩
          · simp only [h1, List.cons_append]
          · rw [h.between hr]
            simp only [h2, List.cons_append]
        · exact h.elim
        · exact h.elim
        · exact h.elim
        · exact ⟨h.1, h.2, h.3.le (by omega)⟩
        · exact h.elim
        · exact h.elim
        · exact h.elim
        · exact trivial
    | peek =>
      simp only [stackUse] at hu
      split at hu
      · simp only [Option.some.injEq, Prod.mk.injEq] at hu
        obtain ⟨m, b, b', h1, h2, h3⟩ := hk
        cases m with
        | nil => simp only [List.length_nil] at h3; omega
        | cons y m =>
          have hk : Share d s.stack s'.stack := ⟨y :: m, b, b', h1, h2, h3⟩
          rw [run, run, h1, h2]
          exact (alike_matchStr hr hk y).imp (by omega) (by omega)
      · cases hu
    | pop =>
      simp only [stackUse] at hu
      split at hu
      · simp only [Option.some.injEq, Prod.mk.injEq] at hu
        obtain ⟨m, b, b', h1, h2, h3⟩ := hk
        cases m with
        | nil => simp only [List.length_nil] at h3; omega
        | cons y m =>
          simp only [List.length_cons] at h3
          rw [run, run, h1, h2]
          have : Alike ({ s with stack := m ++ b } : St R) ({ s' with stack := m ++ b' } : St R) (d - 1) (d - 1) _ _ :=
            alike_matchStr (s := { s with stack := m ++ b }) (s' := { s' with stack := m ++ b' }) hr
              ⟨m, b, b', rfl, rfl, by omega⟩ y
          exact (this.rebase (s := s) (s' := s') rfl rfl).imp (o' := o) (x' := x) (by omega) (by omega)
      · cases hu

end generic

/-- Rules from which `start_of_input` cannot be reached. -/
def gFree : R → Bool
  | .SOI | .program => false
  | _ => true

theorem gFree_ok : ∀ r, gFree r = true → noSoi gFree (grammar r) = true := by
  intro r; cases r <;> decide

variable {u : Uni} {a : Atomicity} {r : Str} {e : PE R}

/-- What is accepted somewhere before a text is refused nowhere before it. -/
theorem Refuses.not_admits (h : Refuses grammar u a e r) (k : Admits grammar u a e r) (hf : noSoi gFree e = true)
    {o x : Nat} (hu : stackUse gReq gDrop e 0 = some (o, x)) : False := by
  obtain ⟨n, v, s, t, hv, hr, h⟩ := h
  obtain ⟨n', v', s', t', hv', hr', h'⟩ := k
  have := run_alike gTables grammar u gTables_ok gFree gFree_ok (max n n') e v v' s s' 0 o x (by rw [hv, hv'])
    (by rw [hr, hr']) (.zero _ _) hu hf
  rw [run_mono' (Nat.le_max_left n n') (by rw [h]; exact fun e => by cases e), h,
    run_mono' (Nat.le_max_right n n') (by rw [h']; exact fun e => by cases e), h'] at this
  exact this

/-- What is accepted takes the same text wherever it stands. -/
theorem admits_same {n n' : Nat} {v v' : Env} {s s' t t' : St R} (hv : v.atomicity = v'.atomicity) (hr : s.rest = s'.rest)
    (h : run grammar u n e v s = .ok t) (h' : run grammar u n' e v' s' = .ok t') (hf : noSoi gFree e = true)
    {o x : Nat} (hu : stackUse gReq gDrop e 0 = some (o, x)) : t.rest = t'.rest := by
  have := run_alike gTables grammar u gTables_ok gFree gFree_ok (max n n') e v v' s s' 0 o x hv hr (.zero _ _) hu hf
  rw [run_mono' (Nat.le_max_left n n') (by rw [h]; exact fun e => by cases e), h,
    run_mono' (Nat.le_max_right n n') (by rw [h']; exact fun e => by cases e), h'] at this
  exact this.1

theorem Refuses.left {f : PE R} (h : Refuses grammar u a (.alt e f) r) : Refuses grammar u a e r := by
  obtain ⟨n, v, s, t, hv, hr, h⟩ := h
  cases n with
  | zero => cases h
  | succ n =>
    rw [run] at h
    cases hw : run grammar u n e v s with
    | ok t => rw [hw] at h; cases h
    | err t => exact ⟨n, v, s, t, hv, hr, hw⟩
    | crash => rw [hw] at h; cases h

theorem Refuses.right {f : PE R} (h : Refuses grammar u a (.alt e f) r) (hb : back e = true) {o : Nat} {x : Option Nat}
    (he : eff gStack e 0 = some (o, x)) : Refuses grammar u a f r := by
  obtain ⟨n, v, s, t, hv, hr, h⟩ := h
  cases n with
  | zero => cases h
  | succ n =>
    rw [run] at h
    have ht := run_tame gStack grammar u gStack_ok n e v s s.stack 0 o x he (Above.base _)
    cases hw : run grammar u n e v s with
    | ok t => rw [hw] at h; cases h
    | err t' =>
      rw [hw] at h ht
      exact ⟨n, v, t', t, hv, by rw [(ht.1 hb).2.1, hr], h⟩
    | crash => rw [hw] at h; cases h

theorem Ran.admits {p : Nat} {w z : Str} {l : List (Pair R)} (h : Ran grammar u a e p w z l) :
    Admits grammar u a e (w ++ z) := by
  obtain ⟨n, v, s, t, h1, -, -, h4, -, -, -, h⟩ := h
  exact ⟨n, v, s, t, h1, h4, h⟩

theorem Refuses.inside (h : Refuses grammar u a (.restore e) r) : Refuses grammar u a e r := by
  obtain ⟨n, v, s, t, hv, hr, h⟩ := h
  cases n with
  | zero => cases h
  | succ n =>
    rw [run] at h
    cases hw : run grammar u n e v s with
    | ok t => rw [hw] at h; cases h
    | err t => exact ⟨n, v, s, t, hv, hr, hw⟩
    | crash => rw [hw] at h; cases h

end SM.Props
