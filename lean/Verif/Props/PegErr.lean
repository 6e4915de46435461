import Verif.Props.PegTables
/-
A static check on parser expressions that guarantees: after a failure the parser is where it was before,
and after a success the stack is as before.
-/
namespace SM.Props
open SM SM.Peg

section generic
variable {R : Type} {g : R → PE R} {u : Uni}

/-- Expressions that cannot fail. -/
def sure : PE R → Bool
  | .opt _ | .rep _ => true
  | .seq e => sure e
  | .cat a b => sure a && sure b
  | _ => false

/-- Expressions that give back position and pairs when they fail. -/
def back : PE R → Bool
  | .call _ => true
  | .rule _ e => back e
  | .atomic _ e => back e
  | .ifNon e => back e
  | .seq _ => true
  | .opt _ => true
  | .rep _ => true
  | .alt a b => back a && back b
  | .cat a b => back a && sure b
  | .restore e => back e
  | .push e => back e
  | _ => true

/-- What the rules do to the stack: pop one entry; leave the stack unspecified on failure. -/
structure StackTables (R : Type) where
  pops : R → Bool
  loose : R → Bool

/-- The number of stack entries above a base, after success and (if known) after failure, starting
from `d` of them; `none` if the check fails. -/
def eff (T : StackTables R) : PE R → Nat → Option (Nat × Option Nat)
  | .call r, d =>
    if T.pops r then (if 1 ≤ d then some (d - 1, some (d - 1)) else none)
    else some (d, if T.loose r then none else some d)
  | .rule _ e, d => eff T e d
  | .atomic _ e, d => eff T e d
  | .ifNon e, d =>
    match eff T e d with
    | some (o, x) => if o = d then some (d, x) else none
    | none => none
  | .seq e, d => eff T e d
  | .opt e, d =>
    match eff T e d with
    | some (o, x) => if o = d ∧ x = some d then some (d, some d) else none
    | none => none
  | .rep e, d =>
    match eff T e d with
    | some (o, x) => if o = d ∧ x = some d then some (d, some d) else none
    | none => none
  | .alt a b, d =>
    match eff T a d, eff T b d with
    | some (o, x), some (o', x') => if o = o' ∧ x = some d then some (o, x') else none
    | _, _ => none
  | .cat a b, d =>
    match eff T a d with
    | some (o, x) =>
      match eff T b o with
      | some (o', x') => some (o', if x = x' then x else none)
      | none => none
    | none => none
  | .restore e, d =>
    match eff T e d with
    | some (o, _) => some (o, some d)
    | none => none
  | .look _ e, d =>
    match eff T e d with
    | some _ => some (d, some d)
    | none => none
  | .push e, d =>
    match eff T e d with
    | some (o, x) => some (o + 1, x)
    | none => none
  | .pop, d => if 1 ≤ d then some (d - 1, some (d - 1)) else none
  | _, d => some (d, some d)

/-- The check for one rule. -/
def StackTables.okFor (T : StackTables R) (r : R) (b : PE R) : Bool :=
  back b &&
    if T.pops r then decide (eff T b 1 = some (0, some 0))
    else
      match eff T b 0 with
      | some (o, x) => decide (o = 0) && (T.loose r || decide (x = some 0))
      | none => false

/-- The stack has `d` entries above `B`. -/
def Above (B : List Str) (d : Nat) (st : List Str) : Prop := ∃ top, st = top ++ B ∧ top.length = d

theorem Above.zero {B st : List Str} (h : Above B 0 st) : st = B := by
  obtain ⟨top, h1, h2⟩ := h
  rw [List.length_eq_zero_iff.1 h2] at h1
  exact h1

theorem Above.base (B : List Str) : Above B 0 B := ⟨[], rfl, rfl⟩

theorem Above.pop {B : List Str} {d : Nat} {x : Str} {st : List Str} (h : Above B d (x :: st)) (hd : 1 ≤ d) :
    Above B (d - 1) st := by
  obtain ⟨top, h1, h2⟩ := h
  cases top with
  | nil => simp at h2; omega
  | cons y top =>
    simp only [List.cons_append, List.cons.injEq] at h1
    exact ⟨top, h1.2, by simp at h2; omega⟩

/-- What a step guarantees. -/
def Tame (bk : Bool) (B : List Str) (o : Nat) (x : Option Nat) (s : St R) : Res R → Prop
  | .ok t => Above B o t.stack
  | .err t => (bk = true → t.pos = s.pos ∧ t.rest = s.rest ∧ t.queue = s.queue) ∧
      (∀ d, x = some d → Above B d t.stack)
  | .crash => True

theorem sure_run (g : R → PE R) (u : Uni) : ∀ (n : Nat) (e : PE R) (v : Env) (s t : St R),
    sure e = true → run g u n e v s ≠ .err t := by
  intro n
  induction n with
  | zero => intro e v s t _ h; cases h
  | succ n ih =>
    intro e v s t he h
    cases e with
    | opt e =>
      rw [run] at h
      revert h
      cases run g u n e v s <;> intro h <;> cases h
    | rep e =>
      rw [run] at h
      revert h
      cases run g u n e v s with
      | ok w => intro h; exact ih (.rep e) v w t rfl h
      | err w => intro h; cases h
      | crash => intro h; cases h
    | seq e =>
      rw [run] at h
      revert h
      cases hr : run g u n e v s with
      | ok w => intro h; cases h
      | err w => intro _; exact ih e v s w he hr
      | crash => intro h; cases h
    | cat a b =>
      simp only [sure, Bool.and_eq_true] at he
      rw [run] at h
      revert h
      cases hr : run g u n a v s with
      | ok w => intro h; exact ih b v w t he.2 h
      | err w => intro _; exact ih a v s w he.1 hr
      | crash => intro h; cases h
    | _ => cases he

theorem tame_matchStr (s : St R) (x : Str) (b : Bool) (B : List Str) (d : Nat) (h : Above B d s.stack) :
    Tame b B d (some d) s (s.matchStr x) := by
  unfold St.matchStr
  cases strip x s.rest with
  | none => exact ⟨fun _ => ⟨rfl, rfl, rfl⟩, fun d' hd => by cases hd; exact h⟩
  | some r => exact h

theorem tame_charBy (s : St R) (p : Char → Bool) (b : Bool) (B : List Str) (d : Nat)
    (h : Above B d s.stack) : Tame b B d (some d) s (s.charBy p) := by
  unfold St.charBy
  split
  · exact ⟨fun _ => ⟨rfl, rfl, rfl⟩, fun d' hd => by cases hd; exact h⟩
  · split
    · exact h
    · exact ⟨fun _ => ⟨rfl, rfl, rfl⟩, fun d' hd => by cases hd; exact h⟩

/-- The pairs are those of `s`. -/
def SameQueue (s : St R) : Res R → Prop
  | .ok t => t.queue = s.queue
  | .err t => t.queue = s.queue
  | .crash => True

theorem SameQueue.trans {s t : St R} {r : Res R} (h : t.queue = s.queue) (h' : SameQueue t r) :
    SameQueue s r := by
  cases r with
  | ok w => exact Eq.trans h' h
  | err w => exact Eq.trans h' h
  | crash => exact True.intro

theorem sameQueue_matchStr (s : St R) (x : Str) : SameQueue s (s.matchStr x) := by
  unfold St.matchStr; split <;> exact rfl

theorem sameQueue_charBy (s : St R) (p : Char → Bool) : SameQueue s (s.charBy p) := by
  unfold St.charBy
  split
  · exact rfl
  · split <;> exact rfl

/-- A silent run leaves the pairs alone. -/
theorem run_queue (g : R → PE R) (u : Uni) : ∀ (n : Nat) (e : PE R) (v : Env) (s : St R),
    v.silent = true → SameQueue s (run g u n e v s) := by
  intro n
  induction n with
  | zero => intro e v s _; exact True.intro
  | succ n ih =>
    intro e v s hv
    cases e with
    | call r => exact ih _ v s hv
    | rule r e =>
      rw [run, if_neg (by simp [Env.emits, hv])]
      exact ih e v s hv
    | atomic a e => exact ih e _ s hv
    | ifNon e =>
      rw [run]
      split
      · exact ih e v s hv
      · exact rfl
    | seq e =>
      have := ih e v s hv
      rw [run]
      revert this
      cases run g u n e v s with
      | ok t => exact fun h => h
      | err t => exact fun _ => rfl
      | crash => exact fun h => h
    | opt e =>
      have := ih e v s hv
      rw [run]
      revert this
      cases run g u n e v s <;> exact fun h => h
    | rep e =>
      have := ih e v s hv
      rw [run]
      revert this
      cases run g u n e v s with
      | ok t => exact fun h => SameQueue.trans h (ih (.rep e) v t hv)
      | err t => exact fun h => h
      | crash => exact fun h => h
    | alt a b =>
      have := ih a v s hv
      rw [run]
      revert this
      cases run g u n a v s with
      | ok t => exact fun h => h
      | err t => exact fun h => SameQueue.trans h (ih b v t hv)
      | crash => exact fun h => h
    | cat a b =>
      have := ih a v s hv
      rw [run]
      revert this
      cases run g u n a v s with
      | ok t => exact fun h => SameQueue.trans h (ih b v t hv)
      | err t => exact fun h => h
      | crash => exact fun h => h
    | restore e =>
      have := ih e v s hv
      rw [run]
      revert this
      cases run g u n e v s <;> exact fun h => h
    | look p e =>
      have := ih e { v with silent := true } s rfl
      rw [run]
      revert this
      cases run g u n e { v with silent := true } s <;> cases p <;> exact fun h => h
    | push e =>
      have := ih e v s hv
      rw [run]
      revert this
      cases run g u n e v s <;> exact fun h => h
    | str x => exact sameQueue_matchStr s x
    | insens x =>
      rw [run]
      split <;> exact rfl
    | range a b => exact sameQueue_charBy s _
    | uni p => exact sameQueue_charBy s _
    | any => exact sameQueue_charBy s _
    | soi => rw [run]; split <;> exact rfl
    | eoi => rw [run]; split <;> exact rfl
    | peek =>
      rw [run]
      split
      · exact sameQueue_matchStr s _
      · exact True.intro
    | pop =>
      rw [run]
      split
      · rename_i x st _
        exact sameQueue_matchStr { s with stack := st } x
      · exact True.intro

theorem run_tame (T : StackTables R) (g : R → PE R) (u : Uni) (hg : ∀ r, T.okFor r (g r) = true) :
    ∀ (n : Nat) (e : PE R) (v : Env) (s : St R) (B : List Str) (d o : Nat) (x : Option Nat),
      eff T e d = some (o, x) → Above B d s.stack →
      Tame (back e) B o x s (run g u n e v s) := by
  intro n
  induction n with
  | zero => intro e v s B d o x _ _; exact True.intro
  | succ n ih =>
    intro e v s B d o x he hs
    have refl : ∀ {b : Bool} {o : Nat}, Tame b B o (some d) s (.err s) :=
      ⟨fun _ => ⟨rfl, rfl, rfl⟩, fun d' hd => by cases hd; exact hs⟩
    cases e with
    | call r =>
      have hgr := hg r
      simp only [StackTables.okFor, Bool.and_eq_true] at hgr
      obtain ⟨hb, hgr⟩ := hgr
      rw [run]
      simp only [eff] at he
      by_cases hp : T.pops r = true
      · rw [if_pos hp] at he hgr
        split at he
        · rename_i hd
          simp only [Option.some.injEq, Prod.mk.injEq] at he
          obtain ⟨top, h1, h2⟩ := hs
          cases top with
          | nil => simp at h2; omega
          | cons y top =>
            have := ih (g r) v s (top ++ B) 1 0 (some 0) (of_decide_eq_true hgr)
              ⟨[y], by rw [h1]; rfl, rfl⟩
            simp only [List.length_cons] at h2
            obtain ⟨rfl, rfl⟩ := he
            revert this
            cases run g u n (g r) v s with
            | ok t => exact fun h => ⟨top, h.zero, by omega⟩
            | err t =>
              rintro ⟨k1, k2⟩
              refine ⟨fun _ => k1 hb, fun d' hd' => ?_⟩
              cases hd'
              exact ⟨top, (k2 0 rfl).zero, by omega⟩
            | crash => exact fun h => h
        · cases he
      · rw [if_neg hp] at he hgr
        simp only [Option.some.injEq, Prod.mk.injEq] at he
        obtain ⟨rfl, rfl⟩ := he
        cases hu : eff T (g r) 0 with
        | none => rw [hu] at hgr; cases hgr
        | some ox =>
          obtain ⟨o', x'⟩ := ox
          rw [hu] at hgr
          simp only [Bool.and_eq_true, decide_eq_true_eq] at hgr
          obtain ⟨rfl, hx⟩ := hgr
          have := ih (g r) v s s.stack 0 0 x' hu (Above.base _)
          revert this
          cases run g u n (g r) v s with
          | ok t => intro h; show Above B d t.stack; rw [h.zero]; exact hs
          | err t =>
            rintro ⟨k1, k2⟩
            refine ⟨fun _ => k1 hb, fun d' hd' => ?_⟩
            split at hd'
            · cases hd'
            · rename_i hl
              cases hd'
              simp only [Bool.not_eq_true] at hl
              simp only [hl, Bool.false_or, decide_eq_true_eq] at hx
              rw [(k2 0 hx).zero]
              exact hs
          | crash => exact fun h => h
    | rule r e =>
      simp only [eff, back] at he ⊢
      rw [run]
      split
      · have := ih e v { s with queue := [] } B d o x he hs
        revert this
        cases run g u n e v { s with queue := [] } with
        | ok t => exact fun h => h
        | err t => exact fun h => ⟨fun hb => ⟨(h.1 hb).1, (h.1 hb).2.1, rfl⟩, h.2⟩
        | crash => exact fun h => h
      · exact ih e v s B d o x he hs
    | atomic a e => exact ih e _ s B d o x he hs
    | ifNon e =>
      simp only [eff, back] at he ⊢
      split at he
      · rename_i o' x' h'
        split at he
        · rename_i hod
          simp only [Option.some.injEq, Prod.mk.injEq] at he
          obtain ⟨rfl, rfl⟩ := he
          rw [run]
          split
          · rw [hod] at h'
            exact ih e v s B _ _ _ h' hs
          · exact hs
        · cases he
      · cases he
    | seq e =>
      simp only [eff] at he
      have := ih e v s B d o x he hs
      rw [run]
      revert this
      cases run g u n e v s with
      | ok t => exact fun h => h
      | err t => exact fun h => ⟨fun _ => ⟨rfl, rfl, rfl⟩, h.2⟩
      | crash => exact fun h => h
    | opt e =>
      simp only [eff] at he
      split at he
      · rename_i o' x' h'
        split at he
        · rename_i hod
          simp only [Option.some.injEq, Prod.mk.injEq] at he
          obtain ⟨rfl, rfl⟩ := he
          obtain ⟨rfl, rfl⟩ := hod
          have := ih e v s B _ _ _ h' hs
          rw [run]
          revert this
          cases run g u n e v s with
          | ok t => exact fun h => h
          | err t => exact fun h => h.2 _ rfl
          | crash => exact fun h => h
        · cases he
      · cases he
    | rep e =>
      have he0 := he
      simp only [eff] at he
      split at he
      · rename_i o' x' h'
        split at he
        · rename_i hod
          simp only [Option.some.injEq, Prod.mk.injEq] at he
          obtain ⟨rfl, rfl⟩ := he
          obtain ⟨rfl, rfl⟩ := hod
          have := ih e v s B _ _ _ h' hs
          rw [run]
          revert this
          cases run g u n e v s with
          | ok t =>
            intro h
            have := ih (.rep e) v t B _ _ _ he0 h
            revert this
            show _ → Tame _ B _ _ s (run g u n e.rep v t)
            cases hr : run g u n (.rep e) v t with
            | ok w => exact fun h => h
            | err w => exact absurd hr (sure_run g u n _ v t w rfl)
            | crash => exact fun h => h
          | err t => exact fun h => h.2 _ rfl
          | crash => exact fun h => h
        · cases he
      · cases he
    | alt a b =>
      simp only [eff, back] at he ⊢
      split at he
      · rename_i o1 x1 o2 x2 h1 h2
        split at he
        · rename_i hod
          simp only [Option.some.injEq, Prod.mk.injEq] at he
          obtain ⟨rfl, rfl⟩ := he
          obtain ⟨rfl, rfl⟩ := hod
          have := ih a v s B _ _ _ h1 hs
          rw [run]
          revert this
          cases run g u n a v s with
          | ok t => exact fun h => h
          | err t =>
            intro h
            have := ih b v t B _ _ _ h2 (h.2 _ rfl)
            revert this
            show _ → Tame _ B _ _ s (run g u n b v t)
            cases run g u n b v t with
            | ok w => exact fun h => h
            | err w =>
              rintro ⟨k1, k2⟩
              refine ⟨fun hb => ?_, k2⟩
              simp only [Bool.and_eq_true] at hb
              obtain ⟨a1, a2, a3⟩ := h.1 hb.1
              obtain ⟨b1, b2, b3⟩ := k1 hb.2
              exact ⟨b1.trans a1, b2.trans a2, b3.trans a3⟩
            | crash => exact fun h => h
          | crash => exact fun h => h
        · cases he
      · cases he
    | cat a b =>
      simp only [eff, back] at he ⊢
      split at he
      · rename_i o1 x1 h1
        split at he
        · rename_i o2 x2 h2
          simp only [Option.some.injEq, Prod.mk.injEq] at he
          obtain ⟨rfl, rfl⟩ := he
          have := ih a v s B _ _ _ h1 hs
          rw [run]
          revert this
          cases run g u n a v s with
          | ok t =>
            intro h
            have := ih b v t B _ _ _ h2 h
            revert this
            show _ → Tame _ B _ _ s (run g u n b v t)
            cases hr : run g u n b v t with
            | ok w => exact fun h => h
            | err w =>
              rintro ⟨k1, k2⟩
              refine ⟨fun hb => ?_, ?_⟩
              · simp only [Bool.and_eq_true] at hb
                exact absurd hr (sure_run g u n _ v t w hb.2)
              · intro d' hd'
                split at hd'
                · rename_i hx
                  exact k2 d' (by rw [← hx, hd'])
                · cases hd'
            | crash => exact fun h => h
          | err t =>
            rintro ⟨k1, k2⟩
            refine ⟨fun hb => ?_, ?_⟩
            · simp only [Bool.and_eq_true] at hb
              exact k1 hb.1
            · intro d' hd'
              split at hd'
              · exact k2 d' hd'
              · cases hd'
          | crash => exact fun h => h
        · cases he
      · cases he
    | restore e =>
      simp only [eff, back] at he ⊢
      split at he
      · rename_i o' x' h'
        simp only [Option.some.injEq, Prod.mk.injEq] at he
        obtain ⟨rfl, rfl⟩ := he
        have := ih e v s B _ _ _ h' hs
        rw [run]
        revert this
        cases run g u n e v s with
        | ok t => exact fun h => h
        | err t => exact fun h => ⟨h.1, fun d' hd' => by cases hd'; exact hs⟩
        | crash => exact fun h => h
      · cases he
    | look p e =>
      simp only [eff] at he
      split at he
      · simp only [Option.some.injEq, Prod.mk.injEq] at he
        obtain ⟨rfl, rfl⟩ := he
        have hf := run_queue g u n e { v with silent := true } s rfl
        rw [run]
        revert hf
        cases run g u n e { v with silent := true } s with
        | ok t =>
          intro hq
          cases p
          · exact ⟨fun _ => ⟨rfl, rfl, hq⟩, fun d' hd' => by cases hd'; exact hs⟩
          · exact hs
        | err t =>
          intro hq
          cases p
          · exact hs
          · exact ⟨fun _ => ⟨rfl, rfl, hq⟩, fun d' hd' => by cases hd'; exact hs⟩
        | crash => intro _; cases p <;> exact True.intro
      · cases he
    | str y =>
      simp only [eff, Option.some.injEq, Prod.mk.injEq] at he
      obtain ⟨rfl, rfl⟩ := he
      exact tame_matchStr s y _ B _ hs
    | insens y =>
      simp only [eff, Option.some.injEq, Prod.mk.injEq] at he
      obtain ⟨rfl, rfl⟩ := he
      rw [run]
      split
      · exact hs
      · exact refl
    | range a b =>
      simp only [eff, Option.some.injEq, Prod.mk.injEq] at he
      obtain ⟨rfl, rfl⟩ := he
      exact tame_charBy s _ _ B _ hs
    | uni p =>
      simp only [eff, Option.some.injEq, Prod.mk.injEq] at he
      obtain ⟨rfl, rfl⟩ := he
      exact tame_charBy s _ _ B _ hs
    | any =>
      simp only [eff, Option.some.injEq, Prod.mk.injEq] at he
      obtain ⟨rfl, rfl⟩ := he
      exact tame_charBy s _ _ B _ hs
    | soi =>
      simp only [eff, Option.some.injEq, Prod.mk.injEq] at he
      obtain ⟨rfl, rfl⟩ := he
      rw [run]
      split
      · exact hs
      · exact refl
    | eoi =>
      simp only [eff, Option.some.injEq, Prod.mk.injEq] at he
      obtain ⟨rfl, rfl⟩ := he
      rw [run]
      split
      · exact hs
      · exact refl
    | push e =>
      simp only [eff, back] at he ⊢
      split at he
      · rename_i o' x' h'
        simp only [Option.some.injEq, Prod.mk.injEq] at he
        obtain ⟨rfl, rfl⟩ := he
        have := ih e v s B _ _ _ h' hs
        rw [run]
        revert this
        cases run g u n e v s with
        | ok t =>
          rintro ⟨top, h1, h2⟩
          exact ⟨s.between t :: top, by simp [h1], by simp [h2]⟩
        | err t => exact fun h => h
        | crash => exact fun h => h
      · cases he
    | peek =>
      simp only [eff, Option.some.injEq, Prod.mk.injEq] at he
      obtain ⟨rfl, rfl⟩ := he
      rw [run]
      split
      · exact tame_matchStr s _ _ B _ hs
      · exact True.intro
    | pop =>
      simp only [eff] at he
      split at he
      · rename_i hd
        simp only [Option.some.injEq, Prod.mk.injEq] at he
        obtain ⟨rfl, rfl⟩ := he
        rw [run]
        split
        · rename_i y st hst
          rw [hst] at hs
          have := tame_matchStr { s with stack := st } y true B _ (hs.pop hd)
          revert this
          cases ({ s with stack := st } : St R).matchStr y with
          | ok t => exact fun h => h
          | err t => exact fun h => ⟨fun _ => h.1 rfl, h.2⟩
          | crash => exact fun h => h
        · exact True.intro
      · cases he
end generic

/-- The grammar's use of the stack. -/
def gStack : StackTables R :=
  { pops := fun r => decide (r = .POP)
    loose := fun r => decide (r = .StringBlock) }

theorem gStack_ok : ∀ r, gStack.okFor r (grammar r) = true := by
  intro r; cases r <;> decide

/-- A rule function that succeeds leaves the stack alone; one that fails leaves everything alone.
(`POP` and `StringBlock` are the exceptions.) -/
theorem sem_call_tame (u : Uni) (r : R) (hp : r ≠ .POP) (v : Env) (s : St R) :
    match sem grammar u (.call r) v s with
    | .ok t => t.stack = s.stack
    | .err t => t.pos = s.pos ∧ t.rest = s.rest ∧ t.queue = s.queue ∧ (r ≠ .StringBlock → t.stack = s.stack)
    | .crash => True := by
  obtain ⟨n, hn⟩ := sem_settles grammar u (.call r) v s
  have he : eff gStack (.call r) 0 = some (0, if r = .StringBlock then none else some 0) := by
    simp [eff, gStack, hp]
  have := run_tame gStack grammar u gStack_ok n (.call r) v s s.stack 0 0 _ he (Above.base _)
  rw [hn n (Nat.le_refl _)] at this
  revert this
  cases sem grammar u (.call r) v s with
  | ok t => exact fun h => h.zero
  | err t =>
    rintro ⟨h1, h2⟩
    obtain ⟨a, b, c⟩ := h1 rfl
    exact ⟨a, b, c, fun hr => (h2 0 (if_neg hr)).zero⟩
  | crash => exact fun _ => True.intro

theorem sem_call_err (u : Uni) (r : R) (hp : r ≠ .POP) (hb : r ≠ .StringBlock) {v : Env} {s t : St R}
    (h : sem grammar u (.call r) v s = .err t) : t = s := by
  have := sem_call_tame u r hp v s
  rw [h] at this
  obtain ⟨a, b, c, d⟩ := this
  cases t; cases s
  simp_all

end SM.Props
