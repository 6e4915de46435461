import Verif.Peg.Attempts
import Verif.Props.Unfinished
import Verif.Props.Pest
import Verif.Props.CostUpper
import Verif.Props.Comment
import Verif.Props.Positions
/-
C87: where a syntax error is reported.
-/
namespace SM.Props
open SM SM.Peg

/-! ### The record does not influence the parse -/

section
variable {R : Type} {g : R → PE R} {u : Uni}

theorem traced_run : ∀ (n : Nat) (e : PE R) (v : Env) (neg : Bool) (s : St R) (a : Tries R),
    (traced g u n e v neg s a).1 = run g u n e v s := by
  intro n
  induction n with
  | zero => intro e v neg s a; rfl
  | succ n ih =>
    intro e v neg s a
    cases e with
    | call r => exact ih _ _ _ _ _
    | rule r e =>
      rw [traced, run]
      dsimp only
      by_cases h : v.emits = true
      · rw [if_pos h, if_pos h, if_pos h, ih]
      · rw [if_neg h, if_neg h, if_neg h, ih]
    | atomic t e => exact ih _ _ _ _ _
    | ifNon e =>
      rw [traced, run]
      split
      · exact ih _ _ _ _ _
      · rfl
    | seq e => rw [traced, run]; dsimp only; rw [ih]
    | opt e => rw [traced, run]; dsimp only; rw [ih]
    | rep e =>
      rw [traced, run, ← ih e v neg s a]
      rcases traced g u n e v neg s a with ⟨_ | _ | _, b⟩
      · exact ih _ _ _ _ _
      · rfl
      · rfl
    | alt e f =>
      rw [traced, run, ← ih e v neg s a]
      rcases traced g u n e v neg s a with ⟨_ | _ | _, b⟩
      · rfl
      · exact ih _ _ _ _ _
      · rfl
    | cat e f =>
      rw [traced, run, ← ih e v neg s a]
      rcases traced g u n e v neg s a with ⟨_ | _ | _, b⟩
      · exact ih _ _ _ _ _
      · rfl
      · rfl
    | restore e => rw [traced, run]; dsimp only; rw [ih]
    | look p e => rw [traced, run]; dsimp only; rw [ih]
    | push e => rw [traced, run]; dsimp only; rw [ih]
    | str x => rfl
    | insens x => rfl
    | range a b => rfl
    | uni p => rfl
    | any => rfl
    | soi => rfl
    | eoi => rfl
    | peek => rfl
    | pop => rfl

/-! ### How the record develops -/

/-- Some rule is named. -/
def Named (a : Tries R) : Prop := a.wanted ≠ [] ∨ a.unwanted ≠ []

theorem at_named {a : Tries R} {p : Nat} (h : 0 < a.at p) : a.pos = p ∧ Named a := by
  unfold Tries.at at h
  split at h
  · refine ⟨‹_›, ?_⟩
    unfold Named
    by_contra hn
    simp only [not_or, not_not] at hn
    rw [hn.1, hn.2] at h
    simp at h
  · omega

/-- What `track` does: nothing, or it names the rule at the position. -/
theorem track_cases (b : Tries R) (t : Atomicity) (neg : Bool) (r : R) (p : Nat) (a : Tries R) :
    b.track t neg r p a = b ∧ (t = .atomic ∨ p < b.pos ∨ b.at p = a.at p + 1) ∨
    t ≠ .atomic ∧ b.pos ≤ p ∧ (b.track t neg r p a).pos = p ∧ Named (b.track t neg r p a) ∧
      (neg = false → r ∈ (b.track t neg r p a).wanted) := by
  unfold Tries.track
  by_cases ht : t = .atomic
  · rw [if_pos ht]; exact .inl ⟨rfl, .inl ht⟩
  rw [if_neg ht]
  by_cases he : b.at p = a.at p + 1
  · rw [if_pos he]; exact .inl ⟨rfl, .inr (.inr he)⟩
  rw [if_neg he]
  dsimp only
  rcases Nat.lt_trichotomy p b.pos with h | h | h
  · rw [if_neg (show ¬ p = b.pos by omega), if_neg (show ¬ p > b.pos by omega), if_neg (show ¬ p = b.pos by omega)]
    exact .inl ⟨rfl, .inr (.inl h)⟩
  · right
    rw [if_pos h]
    dsimp only
    rw [if_neg (show ¬ p > b.pos by omega)]
    dsimp only
    rw [if_pos h]
    refine ⟨ht, by omega, ?_⟩
    cases neg <;> simp [Named, h]
  · right
    rw [if_neg (show ¬ p = b.pos by omega), if_pos (show p > b.pos from h)]
    refine ⟨ht, by omega, ?_⟩
    cases neg <;> simp [Named]

/-- A record in order: beyond the start some rule is named. -/
def Told (a : Tries R) : Prop := 0 < a.pos → Named a

theorem track_told {b : Tries R} (h : Told b) (t : Atomicity) (neg : Bool) (r : R) (p : Nat) (a : Tries R) :
    Told (b.track t neg r p a) ∧ b.pos ≤ (b.track t neg r p a).pos := by
  rcases track_cases b t neg r p a with ⟨e, -⟩ | ⟨-, h1, h2, h3, -⟩
  · rw [e]; exact ⟨h, Nat.le_refl _⟩
  · exact ⟨fun _ => h3, by omega⟩

/-- After `track` outside of atomic rules, the record is at the position or beyond it and names a rule. -/
theorem track_reaches {b : Tries R} (h : Told b) {t : Atomicity} (ht : t ≠ .atomic) (neg : Bool) (r : R) (p : Nat)
    (a : Tries R) : p ≤ (b.track t neg r p a).pos ∧ Named (b.track t neg r p a) := by
  rcases track_cases b t neg r p a with ⟨e, k⟩ | ⟨-, h1, h2, h3, -⟩
  · rw [e]
    rcases k with k | k | k
    · exact absurd k ht
    · exact ⟨Nat.le_of_lt k, h (by omega)⟩
    · have := at_named (a := b) (p := p) (by omega)
      exact ⟨Nat.le_of_eq this.1.symm, this.2⟩
  · exact ⟨Nat.le_of_eq h2.symm, h3⟩

/-- The record moves forward and stays in order. -/
theorem traced_told : ∀ (n : Nat) (e : PE R) (v : Env) (neg : Bool) (s : St R) (a : Tries R), Told a →
    Told (traced g u n e v neg s a).2 ∧ a.pos ≤ (traced g u n e v neg s a).2.pos := by
  intro n
  induction n with
  | zero => intro e v neg s a h; exact ⟨h, Nat.le_refl _⟩
  | succ n ih =>
    intro e v neg s a h
    have next : ∀ (e f : PE R) (t : St R) (b : Tries R), b = (traced g u n e v neg s a).2 →
        Told (traced g u n f v neg t b).2 ∧ a.pos ≤ (traced g u n f v neg t b).2.pos := by
      rintro e f t b rfl
      have h1 := ih e v neg s a h
      have h2 := ih f v neg t _ h1.1
      exact ⟨h2.1, Nat.le_trans h1.2 h2.2⟩
    cases e with
    | call r => exact ih _ _ _ _ _ h
    | rule r e =>
      rw [traced]
      dsimp only
      have h1 := ih e v neg (if v.emits then { s with queue := [] } else s) a h
      generalize traced g u n e v neg (if v.emits then { s with queue := [] } else s) a = x at h1 ⊢
      split
      · have h2 := track_told h1.1 v.atomicity neg r s.pos a
        exact ⟨h2.1, Nat.le_trans h1.2 h2.2⟩
      · exact h1
    | atomic t e => exact ih _ _ _ _ _ h
    | ifNon e =>
      rw [traced]
      split
      · exact ih _ _ _ _ _ h
      · exact ⟨h, Nat.le_refl _⟩
    | seq e => exact ih _ _ _ _ _ h
    | opt e => exact ih _ _ _ _ _ h
    | rep e =>
      rw [traced]
      have h1 := ih e v neg s a h
      have h2 := next e (.rep e)
      rcases hx : traced g u n e v neg s a with ⟨_ | _ | _, b⟩ <;> rw [hx] at h1 h2
      · exact h2 _ b rfl
      · exact h1
      · exact h1
    | alt e f =>
      rw [traced]
      have h1 := ih e v neg s a h
      have h2 := next e f
      rcases hx : traced g u n e v neg s a with ⟨_ | _ | _, b⟩ <;> rw [hx] at h1 h2
      · exact h1
      · exact h2 _ b rfl
      · exact h1
    | cat e f =>
      rw [traced]
      have h1 := ih e v neg s a h
      have h2 := next e f
      rcases hx : traced g u n e v neg s a with ⟨_ | _ | _, b⟩ <;> rw [hx] at h1 h2
      · exact h2 _ b rfl
      · exact h1
      · exact h1
    | restore e => exact ih _ _ _ _ _ h
    | look p e => exact ih _ _ _ _ _ h
    | push e => exact ih _ _ _ _ _ h
    | str x => exact ⟨h, Nat.le_refl _⟩
    | insens x => exact ⟨h, Nat.le_refl _⟩
    | range a b => exact ⟨h, Nat.le_refl _⟩
    | uni p => exact ⟨h, Nat.le_refl _⟩
    | any => exact ⟨h, Nat.le_refl _⟩
    | soi => exact ⟨h, Nat.le_refl _⟩
    | eoi => exact ⟨h, Nat.le_refl _⟩
    | peek => exact ⟨h, Nat.le_refl _⟩
    | pop => exact ⟨h, Nat.le_refl _⟩

/-! ### The text before the reported position

A static analysis of the rules: which of them cannot succeed where no string literal and no comment begins, and
what they do to the closing brackets awaited. -/

/-- The characters that have a place in the language outside of string literals and comments, and the quotation mark. -/
def Familiar (u : Uni) (c : Char) : Bool := u .whiteSpace c || u .xidContinue c || decide (c ∈ '"' :: signs)

/-- Reading a text with the closing brackets `st` awaited: those awaited at its end, or nothing if a bracket is closed
that was not open or if there is a character unknown to the language. -/
def await (u : Uni) : Str → Str → Option Str
  | st, [] => some st
  | st, c :: w =>
    match closer c with
    | some d => await u (d :: st) w
    | none =>
      if c ∈ [')', ']', '}'] then
        match st with
        | d :: st => if c = d then await u st w else none
        | [] => none
      else if Familiar u c then await u st w
      else none

theorem await_cons (st : Str) (c : Char) (w : Str) : await u st (c :: w) =
    match closer c with
    | some d => await u (d :: st) w
    | none =>
      if c ∈ [')', ']', '}'] then
        match st with
        | d :: st => if c = d then await u st w else none
        | [] => none
      else if Familiar u c then await u st w
      else none := by
  cases st <;> simp only [await]

theorem await_append : ∀ (x y st : Str), await u st (x ++ y) = (await u st x).bind fun t => await u t y
  | [], _, _ => rfl
  | c :: x, y, st => by
    rw [List.cons_append, await_cons, await_cons]
    cases closer c with
    | some d => exact await_append x y _
    | none =>
      dsimp only
      split
      · cases st with
        | nil => rfl
        | cons d st =>
          dsimp only
          split
          · exact await_append x y _
          · rfl
      · split
        · exact await_append x y _
        · rfl

/-- Brackets awaited further out do not matter. -/
theorem await_below : ∀ (x : Str) {st st' : Str} (b : Str), await u st x = some st' → await u (st ++ b) x = some (st' ++ b)
  | [], st, st', b, h => by rw [await] at h ⊢; cases h; rfl
  | c :: x, st, st', b, h => by
    rw [await_cons] at h ⊢
    revert h
    cases closer c with
    | some d => exact await_below x (st := d :: st) b
    | none =>
      dsimp only
      split
      · cases st with
        | nil => intro h; cases h
        | cons d st =>
          rw [List.cons_append]
          dsimp only
          split
          · exact await_below x b
          · intro h; cases h
      · split
        · exact await_below x b
        · intro h; cases h

/-- Characters other than brackets. -/
theorem await_plain : ∀ {x : Str} (st : Str), (∀ c ∈ x, Familiar u c = true ∧ c ∉ ['(', ')', '[', ']', '{', '}']) →
    await u st x = some st
  | [], _, _ => rfl
  | c :: x, st, h => by
    obtain ⟨h1, h2⟩ := h c (by simp)
    have h3 : closer c = none := by
      unfold closer
      split
      · simp at h2
      · simp at h2
      · simp at h2
      · rfl
    rw [await_cons, h3]
    dsimp only
    rw [if_neg (fun k => h2 (by simp at k ⊢; tauto)), if_pos h1]
    exact await_plain st fun d hd => h d (by simp [hd])

/-- The expression cannot succeed where no string literal and no comment begins. -/
def dead (D : R → Bool) : PE R → Bool
  | .call r => D r
  | .rule _ e => dead D e
  | .atomic _ e => dead D e
  | .seq e => dead D e
  | .restore e => dead D e
  | .push e => dead D e
  | .alt a b => dead D a && dead D b
  | .cat a b => dead D a || dead D b
  | .str x => opaqueMarks.any fun f => decide (f <:+: x)
  | _ => false

/-- The closing brackets awaited after the expression, if all it can pass over is known. -/
def pending (D M : R → Bool) : PE R → Str → Option Str
  | .call r, st => if M r then some st else none
  | .rule _ e, st => pending D M e st
  | .atomic _ e, st => pending D M e st
  | .ifNon e, st => if pending D M e st = some st then some st else none
  | .seq e, st => pending D M e st
  | .opt e, st => if pending D M e st = some st ∧ back e = true then some st else none
  | .rep e, st => if pending D M e st = some st ∧ back e = true then some st else none
  | .alt a b, st => if pending D M a st = pending D M b st ∧ back a = true then pending D M b st else none
  | .cat a b, st =>
    match pending D M a st with
    | some st' => if dead D a then some st else pending D M b st'
    | none => none
  | .restore e, st => pending D M e st
  | .look _ e, st => if (pending D M e st).isSome then some st else none
  | .push e, st => pending D M e st
  | .str x, st => if x.all (fun c => decide (Plain c)) then await asciiUni st x else none
  | .insens x, st => if x.all (fun c => decide (('0' ≤ c ∧ c ≤ '9') ∨ ('a' ≤ c ∧ c ≤ 'z'))) then some st else none
  | .range a b, st =>
    if ('0' ≤ a ∧ b ≤ '9') ∨ ('a' ≤ a ∧ b ≤ 'z') ∨ ('A' ≤ a ∧ b ≤ 'Z') then some st else none
  | .uni _, st => some st
  | .soi, st => some st
  | .eoi, st => some st
  | .any, _ => none
  | .peek, _ => none
  | .pop, _ => none

/-- After a failure of an expression that gives back what it took, the text is as before. -/
theorem run_back (hB : ∀ r, back (g r) = true) : ∀ (n : Nat) (e : PE R) (v : Env) (s t : St R), back e = true →
    run g u n e v s = .err t → t.pos = s.pos ∧ t.rest = s.rest := by
  intro n
  induction n with
  | zero => intro e v s t _ h; cases h
  | succ n ih =>
    intro e v s t he h
    have str : ∀ (s t : St R) (x : Str), s.matchStr x = .err t → t = s := by
      intro s t x h
      unfold St.matchStr at h
      revert h
      cases strip x s.rest <;> intro h <;> cases h
      rfl
    have chr : ∀ (p : Char → Bool), s.charBy p = .err t → t = s := by
      intro p h
      unfold St.charBy at h
      split at h
      · cases h; rfl
      · split at h <;> cases h
        rfl
    cases e with
    | call r => exact ih _ _ _ _ (hB r) h
    | rule r e =>
      rw [run] at h
      split at h
      · cases hr : run g u n e v { s with queue := [] } with
        | ok w => rw [hr] at h; cases h
        | err w =>
          rw [hr] at h; cases h
          have := ih e v { s with queue := [] } w he hr
          exact ⟨this.1, this.2⟩
        | crash => rw [hr] at h; cases h
      · exact ih e v s t he h
    | atomic a e => exact ih e _ s t he h
    | ifNon e =>
      rw [run] at h
      split at h
      · exact ih e v s t he h
      · cases h
    | seq e =>
      rw [run] at h
      revert h
      cases run g u n e v s <;> intro h <;> cases h
      exact ⟨rfl, rfl⟩
    | opt e => exact absurd h (sure_run g u _ _ _ _ _ rfl)
    | rep e => exact absurd h (sure_run g u _ _ _ _ _ rfl)
    | alt a b =>
      simp only [back, Bool.and_eq_true] at he
      rw [run] at h
      cases hr : run g u n a v s with
      | ok w => rw [hr] at h; cases h
      | err w =>
        rw [hr] at h
        have h1 := ih a v s w he.1 hr
        have h2 := ih b v w t he.2 h
        exact ⟨h2.1.trans h1.1, h2.2.trans h1.2⟩
      | crash => rw [hr] at h; cases h
    | cat a b =>
      simp only [back, Bool.and_eq_true] at he
      rw [run] at h
      cases hr : run g u n a v s with
      | ok w =>
        rw [hr] at h
        exact absurd h (sure_run g u _ _ _ _ _ he.2)
      | err w =>
        rw [hr] at h; cases h
        exact ih a v s t he.1 hr
      | crash => rw [hr] at h; cases h
    | restore e =>
      rw [run] at h
      cases hr : run g u n e v s with
      | ok w => rw [hr] at h; cases h
      | err w =>
        rw [hr] at h; cases h
        exact ih e v s w he hr
      | crash => rw [hr] at h; cases h
    | look p e =>
      rw [run] at h
      revert h
      cases run g u n e { v with silent := true } s <;> cases p <;> intro h <;> cases h <;> exact ⟨rfl, rfl⟩
    | push e =>
      rw [run] at h
      cases hr : run g u n e v s with
      | ok w => rw [hr] at h; cases h
      | err w =>
        rw [hr] at h; cases h
        exact ih e v s _ he hr
      | crash => rw [hr] at h; cases h
    | str x => rw [str s t x h]; exact ⟨rfl, rfl⟩
    | insens x =>
      rw [run] at h
      revert h
      cases stripInsens x s.rest <;> intro h <;> cases h
      exact ⟨rfl, rfl⟩
    | range a b => rw [chr _ h]; exact ⟨rfl, rfl⟩
    | uni p => rw [chr _ h]; exact ⟨rfl, rfl⟩
    | any => rw [chr _ h]; exact ⟨rfl, rfl⟩
    | soi =>
      rw [run] at h
      split at h <;> cases h
      exact ⟨rfl, rfl⟩
    | eoi =>
      rw [run] at h
      split at h <;> cases h
      exact ⟨rfl, rfl⟩
    | peek =>
      rw [run] at h
      split at h
      · rw [str _ _ _ h]; exact ⟨rfl, rfl⟩
      · cases h
    | pop =>
      rw [run] at h
      split at h
      · rw [str _ _ _ h]; exact ⟨rfl, rfl⟩
      · cases h

/-- A state in the text `T` with the closing brackets `st` awaited. -/
structure Fit (u : Uni) (T : Str) (s : St R) (st : Str) : Prop where
  le : s.pos ≤ T.length
  rest : s.rest = T.drop s.pos
  awaits : await u [] (T.take s.pos) = some st

theorem Fit.same {T : Str} {s t : St R} {st : Str} (h : Fit u T s st) (h1 : t.pos = s.pos) (h2 : t.rest = s.rest) :
    Fit u T t st := ⟨h1 ▸ h.le, by rw [h1, h2]; exact h.rest, h1 ▸ h.awaits⟩

theorem Fit.advance {T : Str} {s : St R} {st st' x r : Str} (h : Fit u T s st) (hr : s.rest = x ++ r)
    (hx : await u st x = some st') : Fit u T (s.advance x.length r) st' ∧ T.take (s.pos + x.length) = T.take s.pos ++ x := by
  have e : T = T.take s.pos ++ (x ++ r) := by
    rw [← hr, h.rest, List.take_append_drop]
  have hl : (T.take s.pos).length = s.pos := by rw [List.length_take]; have := h.le; omega
  have et : T.take (s.pos + x.length) = T.take s.pos ++ x := by
    conv_lhs => rw [e]
    rw [List.take_append, hl, List.take_of_length_le (by omega)]
    congr 1
    rw [Nat.add_sub_cancel_left, List.take_left]
  have ed : T.drop (s.pos + x.length) = r := by
    rw [← List.drop_drop, ← h.rest, hr, List.drop_left]
  refine ⟨⟨?_, ed.symm, ?_⟩, et⟩
  · have := congrArg List.length e
    simp only [List.length_append, hl] at this
    show s.pos + x.length ≤ _
    omega
  · show await u [] (T.take (s.pos + x.length)) = _
    rw [et, await_append, h.awaits]
    exact hx

/-- What the analysis promises for the outcome of an expression. -/
structure Stood (u : Uni) (T : Str) (D : R → Bool) (e : PE R) (st st' : Str) (x : Res R × Tries R) : Prop where
  tries : await u [] (T.take x.2.pos) ≠ none
  ok : ∀ t, x.1 = .ok t → dead D e = false ∧ Fit u T t st'
  err : ∀ t, x.1 = .err t → (∃ st'', Fit u T t st'') ∧ (back e = true → Fit u T t st)

/-- Texts whose well-formed beginnings have no string literals and no comments. -/
def Unquoted (u : Uni) (T : Str) : Prop := ∀ p, await u [] (T.take p) ≠ none → Without opaqueMarks (T.take p)

theorem familiar_plain (L : Lawful u) {c : Char} (hc : Plain c) : Familiar u c = Familiar asciiUni c := by
  unfold Familiar
  rw [L.plain c _ hc, L.plain c _ hc]

theorem await_lawful (L : Lawful u) : ∀ {x : Str} (st : Str), (∀ c ∈ x, Plain c) → await u st x = await asciiUni st x
  | [], _, _ => rfl
  | c :: x, st, h => by
    rw [await_cons, await_cons, familiar_plain L (h c (by simp))]
    have ih := fun st => await_lawful (x := x) L st fun d hd => h d (by simp [hd])
    simp only [ih]

/-- A character of an identifier or white space is no bracket. -/
theorem uni_plain (L : Lawful u) {p : Uc} {c : Char} (h : u p c = true) :
    Familiar u c = true ∧ c ∉ ['(', ')', '[', ']', '{', '}'] := by
  constructor
  · unfold Familiar
    cases p with
    | xidStart => rw [L.start_cont c h]; simp
    | xidContinue => rw [h]; simp
    | whiteSpace => rw [h]; simp
  · intro hc
    have key : ∀ c ∈ ['(', ')', '[', ']', '{', '}'], ∀ p, Plain c ∧ asciiUni p c = false := by
      intro c hc p
      cases p <;> revert c <;> decide
    have := key c hc p
    rw [L.plain c _ this.1, this.2] at h
    cases h

theorem alnum_plain (L : Lawful u) {c : Char} (h : classesOf u [c] = [0] ∨ classesOf u [c] = [1]) :
    Familiar u c = true ∧ c ∉ ['(', ')', '[', ']', '{', '}'] := by
  have h' : charClass u c = 0 ∨ charClass u c = 1 := by
    unfold classesOf at h
    cases hw : u .whiteSpace c <;> simp [hw] at h
    exact h
  have hx : u .xidContinue c = true := by
    unfold charClass at h'
    split at h'
    · rename_i hd
      exact digit_cont L hd
    · split at h'
      · assumption
      · omega
  exact uni_plain L hx

theorem insens_plain (L : Lawful u) {w x : Str} (h : w.map Char.toLower = x.map Char.toLower)
    (hx : ∀ c ∈ x, ('0' ≤ c ∧ c ≤ '9') ∨ ('a' ≤ c ∧ c ≤ 'z')) :
    ∀ c ∈ w, Familiar u c = true ∧ c ∉ ['(', ')', '[', ']', '{', '}'] := by
  intro c hc
  have : c.toLower ∈ x.map Char.toLower := h ▸ List.mem_map_of_mem hc
  obtain ⟨d, hd, e⟩ := List.mem_map.1 this
  refine alnum_plain L ?_
  rw [class_lower L e.symm (hx d hd)]
  rcases hx d hd with k | k
  · exact .inl (class_digit lawful_asciiUni k)
  · exact .inr (class_letter lawful_asciiUni (.inl k))

theorem traced_fit (L : Lawful u) {D M : R → Bool} (hB : ∀ r, back (g r) = true)
    (hD : ∀ r, D r = true → dead D (g r) = true) (hM : ∀ r, M r = true → pending D M (g r) [] = some [])
    {T : Str} (hT : Unquoted u T) :
    ∀ (n : Nat) (e : PE R) (v : Env) (neg : Bool) (s : St R) (a : Tries R) (st st' b : Str), pending D M e st = some st' →
      Fit u T s (st ++ b) → await u [] (T.take a.pos) ≠ none →
      Stood u T D e (st ++ b) (st' ++ b) (traced g u n e v neg s a) := by
  intro n
  induction n with
  | zero =>
    intro e v neg s a st st' b _ _ ha
    exact ⟨ha, fun t h => (nomatch h), fun t h => (nomatch h)⟩
  | succ n ih =>
    intro e v neg s a st st' b he hs ha
    -- the position recorded by a rule is one where the text is still in order
    have chr : ∀ (p : Char → Bool), (∀ c, p c = true → Familiar u c = true ∧ c ∉ ['(', ')', '[', ']', '{', '}']) →
        (∀ t, s.charBy p = .ok t → Fit u T t (st ++ b)) ∧
        (∀ t, s.charBy p = .err t → (∃ st'', Fit u T t st'') ∧ (True → Fit u T t (st ++ b))) := by
      intro p hp
      unfold St.charBy
      cases hr : s.rest with
      | nil =>
        refine ⟨fun t h => (nomatch h), fun t h => ?_⟩
        cases h
        exact ⟨⟨_, hs⟩, fun _ => hs⟩
      | cons c r =>
        dsimp only
        split
        · rename_i hc
          refine ⟨fun t h => ?_, fun t h => (nomatch h)⟩
          cases h
          exact (hs.advance (x := [c]) hr (await_plain _ (by simpa using hp c hc))).1
        · refine ⟨fun t h => (nomatch h), fun t h => ?_⟩
          cases h
          exact ⟨⟨_, hs⟩, fun _ => hs⟩
    cases e with
    | call r =>
      rw [pending] at he
      split at he
      · rename_i hr
        cases he
        have := ih (g r) v neg s a [] [] (st ++ b) (hM r hr) hs ha
        rw [traced]
        refine ⟨this.tries, fun t h => ?_, fun t h => ?_⟩
        · have k := this.ok t h
          refine ⟨?_, k.2⟩
          cases hd : D r with
          | false => exact hd
          | true => exact absurd (hD r hd) (by rw [k.1]; simp)
        · exact ⟨(this.err t h).1, fun _ => (this.err t h).2 (hB r)⟩
      · cases he
    | rule r e =>
      rw [traced]
      have h1 := ih e v neg (if v.emits then { s with queue := [] } else s) a st st' b he
        (by split; exacts [hs.same rfl rfl, hs]) ha
      generalize traced g u n e v neg (if v.emits then { s with queue := [] } else s) a = x at h1 ⊢
      refine ⟨?_, ?_, ?_⟩
      · dsimp only
        split
        · rcases track_cases x.2 v.atomicity neg r s.pos a with ⟨e, -⟩ | ⟨-, -, e, -⟩
          · rw [e]; exact h1.tries
          · rw [e, hs.awaits]; simp
        · exact h1.tries
      · intro t h
        obtain ⟨y, c⟩ := x
        dsimp only at h
        split at h
        · cases y with
          | ok w => cases h; exact ⟨(h1.ok w rfl).1, (h1.ok w rfl).2.same rfl rfl⟩
          | err w => cases h
          | crash => cases h
        · exact h1.ok t h
      · intro t h
        obtain ⟨y, c⟩ := x
        dsimp only at h
        split at h
        · cases y with
          | ok w => cases h
          | err w =>
            cases h
            obtain ⟨⟨st'', k1⟩, k2⟩ := h1.err w rfl
            exact ⟨⟨st'', k1.same rfl rfl⟩, fun hb => (k2 hb).same rfl rfl⟩
          | crash => cases h
        · exact h1.err t h
    | atomic t e =>
      have := ih e { v with atomicity := t } neg s a st st' b he hs ha
      exact ⟨this.tries, this.ok, this.err⟩
    | ifNon e =>
      rw [pending] at he
      split at he
      · rename_i hl
        cases he
        rw [traced]
        split
        · have := ih e v neg s a st st b hl hs ha
          exact ⟨this.tries, fun t h => ⟨rfl, (this.ok t h).2⟩, this.err⟩
        · exact ⟨ha, fun t h => by cases h; exact ⟨rfl, hs⟩, fun t h => (nomatch h)⟩
      · cases he
    | seq e =>
      have := ih e v neg s a st st' b he hs ha
      rw [traced]
      generalize traced g u n e v neg s a = x at this ⊢
      obtain ⟨y, c⟩ := x
      refine ⟨this.tries, fun t h => ?_, fun t h => ?_⟩
      · cases y <;> cases h
        exact this.ok _ rfl
      · cases y <;> cases h
        exact ⟨⟨_, hs.same rfl rfl⟩, fun _ => hs.same rfl rfl⟩
    | opt e =>
      rw [pending] at he
      split at he
      · rename_i hl
        cases he
        have := ih e v neg s a st st b hl.1 hs ha
        rw [traced]
        generalize traced g u n e v neg s a = x at this ⊢
        obtain ⟨y, c⟩ := x
        refine ⟨this.tries, fun t h => ?_, fun t h => ?_⟩
        · cases y <;> cases h
          · exact ⟨rfl, (this.ok _ rfl).2⟩
          · exact ⟨rfl, (this.err _ rfl).2 hl.2⟩
        · cases y <;> cases h
      · cases he
    | rep e =>
      have he' := he
      rw [pending] at he
      split at he
      · rename_i hl
        cases he
        have := ih e v neg s a st st b hl.1 hs ha
        rw [traced]
        generalize traced g u n e v neg s a = x at this ⊢
        obtain ⟨y, c⟩ := x
        cases y with
        | ok t => exact ih (.rep e) v neg t c st st b he' (this.ok t rfl).2 this.tries
        | err t =>
          exact ⟨this.tries, fun t h => by cases h; exact ⟨rfl, (this.err _ rfl).2 hl.2⟩, fun t h => (nomatch h)⟩
        | crash => exact ⟨this.tries, fun t h => (nomatch h), fun t h => (nomatch h)⟩
      · cases he
    | alt e f =>
      rw [pending] at he
      split at he
      · rename_i hl
        have h1 := ih e v neg s a st st' b (hl.1.trans he) hs ha
        rw [traced]
        generalize traced g u n e v neg s a = x at h1 ⊢
        obtain ⟨y, c⟩ := x
        cases y with
        | ok t =>
          refine ⟨h1.tries, fun t h => ?_, fun t h => (nomatch h)⟩
          have := h1.ok t h
          exact ⟨by simp only [dead, this.1, Bool.false_and], this.2⟩
        | err t =>
          have h2 := ih f v neg t c st st' b he ((h1.err t rfl).2 hl.2) h1.tries
          refine ⟨h2.tries, fun t h => ?_, fun t h => ?_⟩
          · have := h2.ok t h
            exact ⟨by simp only [dead, this.1, Bool.and_false], this.2⟩
          · have := h2.err t h
            refine ⟨this.1, fun hb => this.2 ?_⟩
            simp only [back, Bool.and_eq_true] at hb
            exact hb.2
        | crash => exact ⟨h1.tries, fun t h => (nomatch h), fun t h => (nomatch h)⟩
      · cases he
    | cat e f =>
      rw [pending] at he
      cases hl : pending D M e st with
      | none => rw [hl] at he; cases he
      | some σ =>
        rw [hl] at he
        dsimp only at he
        have h1 := ih e v neg s a st σ b hl hs ha
        have hr := traced_run (g := g) (u := u) n e v neg s a
        rw [traced]
        generalize traced g u n e v neg s a = x at h1 hr ⊢
        obtain ⟨y, c⟩ := x
        cases y with
        | ok t =>
          obtain ⟨k1, k2⟩ := h1.ok t rfl
          rw [k1, if_neg (by simp)] at he
          have h2 := ih f v neg t c σ st' b he k2 h1.tries
          refine ⟨h2.tries, fun w h => ?_, fun w h => ?_⟩
          · have := h2.ok w h
            exact ⟨by simp only [dead, k1, this.1, Bool.or_false], this.2⟩
          · refine ⟨(h2.err w h).1, fun hb => ?_⟩
            simp only [back, Bool.and_eq_true] at hb
            rw [traced_run] at h
            exact absurd h (sure_run g u _ _ _ _ _ hb.2)
        | err t =>
          refine ⟨h1.tries, fun w h => (nomatch h), fun w h => ?_⟩
          have := h1.err w h
          refine ⟨this.1, fun hb => this.2 ?_⟩
          simp only [back, Bool.and_eq_true] at hb
          exact hb.1
        | crash => exact ⟨h1.tries, fun t h => (nomatch h), fun t h => (nomatch h)⟩
    | restore e =>
      have := ih e v neg s a st st' b he hs ha
      rw [traced]
      generalize traced g u n e v neg s a = x at this ⊢
      obtain ⟨y, c⟩ := x
      refine ⟨this.tries, fun t h => ?_, fun t h => ?_⟩
      · cases y <;> cases h
        exact this.ok _ rfl
      · cases y <;> cases h
        obtain ⟨⟨st'', k1⟩, k2⟩ := this.err _ rfl
        exact ⟨⟨st'', k1.same rfl rfl⟩, fun hb => (k2 hb).same rfl rfl⟩
    | look p e =>
      rw [pending] at he
      split at he
      · rename_i hl
        cases he
        obtain ⟨σ, hl⟩ := Option.isSome_iff_exists.1 hl
        have := ih e { v with silent := true } (if p then neg else !neg) s a st σ b hl hs ha
        rw [traced]
        generalize traced g u n e { v with silent := true } (if p then neg else !neg) s a = x at this ⊢
        obtain ⟨y, c⟩ := x
        refine ⟨this.tries, fun t h => ?_, fun t h => ?_⟩
        · cases y <;> cases p <;> cases h <;> exact ⟨rfl, hs.same rfl rfl⟩
        · cases y <;> cases p <;> cases h <;> exact ⟨⟨_, hs.same rfl rfl⟩, fun _ => hs.same rfl rfl⟩
      · cases he
    | push e =>
      have := ih e v neg s a st st' b he hs ha
      rw [traced]
      generalize traced g u n e v neg s a = x at this ⊢
      obtain ⟨y, c⟩ := x
      refine ⟨this.tries, fun t h => ?_, fun t h => ?_⟩
      · cases y <;> cases h
        exact ⟨(this.ok _ rfl).1, (this.ok _ rfl).2.same rfl rfl⟩
      · cases y <;> cases h
        exact this.err _ rfl
    | str x =>
      rw [pending] at he
      split at he
      · rename_i hp
        rw [List.all_eq_true] at hp
        have hw := await_below x b ((await_lawful L st fun c hc => of_decide_eq_true (hp c hc)).trans he)
        refine ⟨ha, fun t h => ?_, fun t h => ?_⟩
        · replace h : s.matchStr x = .ok t := h
          unfold St.matchStr at h
          cases hr : strip x s.rest with
          | none => rw [hr] at h; cases h
          | some r =>
            rw [hr] at h; cases h
            obtain ⟨k1, k2⟩ := hs.advance (strip_some hr) hw
            refine ⟨?_, k1⟩
            cases hd : dead D (.str x) with
            | false => rfl
            | true =>
              exfalso
              simp only [dead, List.any_eq_true] at hd
              obtain ⟨f, hf, hx⟩ := hd
              have hc := hT (s.pos + x.length) (by rw [show T.take (s.pos + x.length) = T.take (s.advance x.length r).pos from rfl, k1.awaits]; simp)
              refine hc f hf ((of_decide_eq_true hx).trans ?_)
              rw [k2]
              exact (List.suffix_append _ _).isInfix
        · replace h : s.matchStr x = .err t := h
          unfold St.matchStr at h
          cases hr : strip x s.rest with
          | none => rw [hr] at h; cases h; exact ⟨⟨_, hs⟩, fun _ => hs⟩
          | some r => rw [hr] at h; cases h
      · cases he
    | insens x =>
      rw [pending] at he
      split at he
      · rename_i hp
        cases he
        rw [List.all_eq_true] at hp
        refine ⟨ha, fun t h => ?_, fun t h => ?_⟩
        · replace h : run g u 1 (.insens x) v s = .ok t := h
          rw [run] at h
          cases hr : stripInsens x s.rest with
          | none => rw [hr] at h; cases h
          | some r =>
            rw [hr] at h; cases h
            obtain ⟨w, k1, k2⟩ := stripInsens_app hr
            have := (hs.advance k1 (await_plain _ (insens_plain L k2 fun c hc => of_decide_eq_true (hp c hc)))).1
            refine ⟨rfl, ?_⟩
            have hl := congrArg List.length k2
            simp only [List.length_map] at hl
            rw [hl] at this
            exact this
        · replace h : run g u 1 (.insens x) v s = .err t := h
          rw [run] at h
          cases hr : stripInsens x s.rest with
          | none => rw [hr] at h; cases h; exact ⟨⟨_, hs⟩, fun _ => hs⟩
          | some r => rw [hr] at h; cases h
      · cases he
    | range x y =>
      rw [pending] at he
      split at he
      · rename_i hp
        cases he
        have k := chr (fun c => decide (x ≤ c) && decide (c ≤ y)) (by
          intro c hc
          simp only [Bool.and_eq_true, decide_eq_true_eq] at hc
          refine alnum_plain L ?_
          rcases hp with hp | hp | hp
          · exact .inl (class_digit L ⟨Char.le_trans hp.1 hc.1, Char.le_trans hc.2 hp.2⟩)
          · exact .inr (class_letter L (.inl ⟨Char.le_trans hp.1 hc.1, Char.le_trans hc.2 hp.2⟩))
          · exact .inr (class_letter L (.inr ⟨Char.le_trans hp.1 hc.1, Char.le_trans hc.2 hp.2⟩)))
        exact ⟨ha, fun t h => ⟨rfl, k.1 t h⟩, fun t h => ⟨(k.2 t h).1, fun _ => (k.2 t h).2 trivial⟩⟩
      · cases he
    | uni p =>
      cases he
      have k := chr (u p) fun c hc => uni_plain L hc
      exact ⟨ha, fun t h => ⟨rfl, k.1 t h⟩, fun t h => ⟨(k.2 t h).1, fun _ => (k.2 t h).2 trivial⟩⟩
    | any => cases he
    | soi =>
      cases he
      refine ⟨ha, fun t h => ?_, fun t h => ?_⟩
      · replace h : (if s.pos = 0 then Res.ok s else .err s) = .ok t := h
        split at h <;> cases h
        exact ⟨rfl, hs⟩
      · replace h : (if s.pos = 0 then Res.ok s else .err s) = .err t := h
        split at h <;> cases h
        exact ⟨⟨_, hs⟩, fun _ => hs⟩
    | eoi =>
      cases he
      refine ⟨ha, fun t h => ?_, fun t h => ?_⟩
      · replace h : (if s.rest.isEmpty then Res.ok s else .err s) = .ok t := h
        split at h <;> cases h
        exact ⟨rfl, hs⟩
      · replace h : (if s.rest.isEmpty then Res.ok s else .err s) = .err t := h
        split at h <;> cases h
        exact ⟨⟨_, hs⟩, fun _ => hs⟩
    | peek => cases he
    | pop => cases he

end

/-- The rules that cannot succeed where no string literal and no comment begins. -/
def gDead : R → Bool
  | .Quotation | .String | .StringNormal | .StringBlock | .COMMENT | .MultiLineComment => true
  | _ => false

/-- The rules that the analysis covers. -/
def gMute : R → Bool
  | .ANY | .PEEK | .POP | .StringText | .Escape | .Load | .Save | .LeftShift | .RightShift | .LessEqual | .Less
  | .NotEqual | .Remainder | .Surd | .Quote | .Acute | .LogicOr | .LogicAnd | .Ellipsis | .LogicXor | .Concat
  | .Destruct => false
  | _ => true

theorem gDead_ok : ∀ r, gDead r = true → dead gDead (grammar r) = true := by
  intro r; cases r <;> decide

theorem gMute_ok : ∀ r, gMute r = true → pending gDead gMute (grammar r) [] = some [] := by
  intro r; cases r <;> decide

variable {u : Uni}

theorem grammar_back : ∀ r, back (grammar r) = true := by
  intro r
  have := gStack_ok r
  unfold StackTables.okFor at this
  exact (Bool.and_eq_true_iff.1 this).1

/-! ### Where the accepted statements end -/

/-- A program without its end. -/
def programFront : PE R :=
  .cat (.cat (.cat (.call .SOI) (.call .skip)) (.seq (.opt (.cat (.restore (.call .statement)) (.rep (.seq (.cat (.call .skip) (.restore (.call .statement))))))))) (.call .skip)

theorem program_front : grammar .program = .seq (.cat programFront (.call .EOI)) := rfl

/-- The front of a program does not fail. -/
theorem front_sure {n : Nat} {T : Str} {t : St R} : run grammar u n programFront vN (St.init T) ≠ .err t := by
  intro h
  have skip : ∀ {n : Nat} {s t : St R}, run grammar u n (.call .skip) vN s ≠ .err t := fun h => skip_no_err h
  cases n with
  | zero => cases h
  | succ n =>
    unfold programFront at h
    rw [run] at h
    cases h1 : run grammar u n (.cat (.cat (.call .SOI) (.call .skip)) (.seq (.opt (.cat (.restore (.call .statement)) (.rep (.seq (.cat (.call .skip) (.restore (.call .statement))))))))) vN (St.init T) with
    | ok w => rw [h1] at h; exact skip h
    | crash => rw [h1] at h; cases h
    | err w =>
      clear h
      cases n with
      | zero => cases h1
      | succ n =>
        rw [run] at h1
        cases h2 : run grammar u n (.cat (.call .SOI) (.call .skip)) vN (St.init T) with
        | ok w => rw [h2] at h1; exact sure_run _ _ _ _ _ _ _ rfl h1
        | crash => rw [h2] at h1; cases h1
        | err w =>
          clear h1
          cases n with
          | zero => cases h2
          | succ n =>
            rw [run] at h2
            cases h3 : run grammar u n (.call .SOI) vN (St.init T) with
            | ok w => rw [h3] at h2; exact skip h2
            | crash => rw [h3] at h2; cases h2
            | err w =>
              clear h2
              rcases n with _ | _ | n
              · cases h3
              · cases h3
              · cases h3

/-- A refusal comes from the end of input that is expected behind the statements. -/
theorem refusal_front {T : Str} {a : Tries R} (h : smRefusal u .program T = some a) :
    ∃ t, sem grammar u programFront vN (St.init T) = .ok t ∧ t.rest ≠ [] ∧ t.pos ≤ a.pos ∧ Named a ∧
      (a.pos = t.pos → R.EOI ∈ a.wanted) := by
  obtain ⟨k, hk⟩ : ∃ k, parseFuel T = k + 6 := ⟨2000 * T.length + 1994, by unfold parseFuel; omega⟩
  unfold smRefusal at h
  rw [hk, traced, program_front, traced, traced] at h
  have hr := traced_run (g := grammar) (u := u) (k + 3) programFront Env.init false (St.init T) Tries.init
  have ht := traced_told (g := grammar) (u := u) (k + 3) programFront Env.init false (St.init T) Tries.init
    (fun h => absurd h (Nat.lt_irrefl 0))
  generalize traced grammar u (k + 3) programFront Env.init false (St.init T) Tries.init = x at h hr ht
  obtain ⟨y, b⟩ := x
  cases y with
  | crash => cases h
  | err t => exact absurd hr.symm front_sure
  | ok t =>
    have hr' : run grammar u (k + 3) programFront vN (St.init T) = .ok t := hr.symm
    refine ⟨t, ?_, ?_⟩
    · rw [← hr']
      exact (run_eq_sem (by rw [hr']; exact fun h => nomatch h)).symm
    · dsimp only at h
      rw [traced, show grammar .EOI = .rule .EOI .eoi from rfl, traced] at h
      have e : traced grammar u (k + 1) .eoi Env.init false (if Env.init.emits then { t with queue := [] } else t) b =
        (if t.rest.isEmpty then .ok { t with queue := [] } else .err { t with queue := [] }, b) := rfl
      rw [e] at h
      cases hw : t.rest with
      | nil => rw [hw] at h; cases h
      | cons c r =>
        rw [hw] at h
        have h' : a = b.track .non false .EOI t.pos b := (Option.some.inj h).symm
        subst h'
        refine ⟨(fun h => nomatch h), (track_reaches ht.1 (by decide) _ _ _ _).1, (track_reaches ht.1 (by decide) _ _ _ _).2, ?_⟩
        intro hp
        rcases track_cases b .non false .EOI t.pos b with ⟨e, k | k | k⟩ | ⟨-, -, -, -, k⟩
        · cases k
        · rw [e] at hp; omega
        · omega
        · exact k rfl

/-- What is left of the text gets no longer. -/
theorem sem_shrinks {e : PE R} {v : Env} {s t : St R} (h : sem grammar u e v s = .ok t ∨ sem grammar u e v s = .err t) :
    t.rest.length ≤ s.rest.length := by
  obtain ⟨n, hn⟩ := sem_settles grammar u e v s
  have on := run_onward [] (fun _ => true) (fun _ => false) grammar u (by simp) (by simp) n e v s
  rw [hn n (Nat.le_refl _)] at on
  rcases h with h | h
  · exact (on.1 t h).length
  · exact (on.2 t h).length

/-- Statements of expressions that are read as intended in front of `rest`. -/
def ProgBefore (u : Uni) (rest : Str) : List Stmt → Prop
  | [] => True
  | s :: l => IsExpr u s.solo s.x s.d ∧ Wordless s.x ∧ Blank u s.w ∧ StopOk u s.w (progText l ++ rest) s.semi ∧
      ProgBefore u rest l

/-- On the text, the expression does not stop before only so much is left. -/
def Reaches (u : Uni) (e : PE R) (txt : Str) (k : Nat) : Prop :=
  ∀ pos stack queue t, sem grammar u e vN ⟨pos, txt, stack, queue⟩ = .ok t → t.rest.length ≤ k

/-- Further statements, with the blank space behind them. -/
def furtherStatements : PE R := .rep (.seq (.cat (.call .skip) (.restore (.call .statement))))

theorem before_solid (L : Lawful u) {l : List Stmt} {rest : Str} (hr : Solid u rest) (h : ProgBefore u rest l) :
    Solid u (progText l ++ rest) := by
  cases l with
  | nil => exact hr
  | cons s l =>
    rw [progText, List.append_assoc]
    exact term_head_solid L h.1.head _

theorem prog_split (s : Stmt) (l : List Stmt) (rest : Str) :
    (s.x ++ (s.w ++ semiOf s.semi)) ++ (afterStop s.semi ++ (progText l ++ rest)) = progText (s :: l) ++ rest := by
  simp only [progText, List.append_assoc]
  rw [stop_split]

theorem reaches_further (L : Lawful u) {rest : Str} (hr : Solid u rest) : ∀ (l : List Stmt) {w : Str}, Blank u w →
    ProgBefore u rest l → Reaches u (.cat furtherStatements (.call .skip)) (w ++ (progText l ++ rest)) rest.length := by
  intro l
  induction l with
  | nil =>
    intro w hw _ pos stack queue t h
    rw [progText, List.nil_append] at h
    obtain ⟨q, hq, hs⟩ := eats_skip (v := vN) L rfl hw hr pos stack queue
    rw [show q = [] from hq, List.append_nil] at hs
    rw [sem_cat] at h
    unfold furtherStatements at h
    rw [sem_rep, sem_seq, sem_cat, hs, Res.andThen, sem_restore] at h
    cases h1 : sem grammar u (.call .statement) vN ⟨pos + w.length, rest, stack, queue⟩ with
    | crash => rw [h1] at h; cases h
    | ok x =>
      rw [h1] at h
      simp only [Res.mapBoth, id] at h
      have k1 := sem_shrinks (.inl h1)
      cases h2 : sem grammar u (.rep (.seq (.cat (.call .skip) (.restore (.call .statement))))) vN x with
      | ok y =>
        rw [h2] at h
        exact Nat.le_trans (sem_shrinks (.inl h)) (Nat.le_trans (sem_shrinks (.inl h2)) k1)
      | err y => rw [h2] at h; cases h
      | crash => rw [h2] at h; cases h
    | err x =>
      rw [h1] at h
      simp only [Res.mapBoth, Res.andThen] at h
      rw [hs] at h
      cases h
      exact Nat.le_refl _
  | cons s l ih =>
    intro w hw h pos stack queue t ht
    have hsol := before_solid L hr h
    obtain ⟨h1, h2, h3, h4, h5⟩ := h
    have h6 := eats_stmt L h1 h2 h3 h4
    rw [← prog_split] at ht hsol
    have h7 := eats_seq (eats_cat (eats_skip (v := vN) L rfl hw hsol) (eats_restore h6))
    obtain ⟨q, -, hs⟩ := h7 pos stack queue
    rw [List.append_assoc] at hs
    rw [sem_cat] at ht
    unfold furtherStatements at ht
    rw [sem_rep, hs] at ht
    refine ih (stop_blank h4) h5 (pos + (w ++ (s.x ++ (s.w ++ semiOf s.semi))).length) stack (queue ++ q) t ?_
    rw [sem_cat]
    exact ht

/-- Behind statements that are read as intended the parser gets as far as what follows them. -/
theorem front_reaches (L : Lawful u) {rest w : Str} (hr : Solid u rest) (hw : Blank u w) {l : List Stmt}
    (h : ProgBefore u rest l) {t : St R}
    (ht : sem grammar u programFront vN (St.init (w ++ (progText l ++ rest))) = .ok t) : t.rest.length ≤ rest.length := by
  unfold programFront at ht
  rw [sem_cat, sem_cat, sem_cat, sem_call] at ht
  rw [show grammar .SOI = .soi from rfl, sem_soi, if_pos (show (St.init (w ++ (progText l ++ rest)) : St R).pos = 0 from rfl), Res.andThen] at ht
  obtain ⟨q, hq, hs⟩ := eats_skip (v := vN) L rfl hw (before_solid L hr h) 0 [] []
  rw [show q = [] from hq] at hs
  rw [show (St.init (w ++ (progText l ++ rest)) : St R) = ⟨0, w ++ (progText l ++ rest), [], []⟩ from rfl, hs, Res.andThen] at ht
  cases l with
  | nil =>
    cases h1 : sem grammar u (.seq (.opt (.cat (.restore (.call .statement)) (.rep (.seq (.cat (.call .skip) (.restore (.call .statement)))))))) vN ⟨0 + w.length, progText [] ++ rest, [], []⟩ with
    | ok x =>
      rw [List.append_nil] at ht
      rw [h1] at ht
      exact Nat.le_trans (sem_shrinks (.inl ht)) (sem_shrinks (.inl h1))
    | err x => rw [List.append_nil] at ht; rw [h1] at ht; cases ht
    | crash => rw [List.append_nil] at ht; rw [h1] at ht; cases ht
  | cons s l =>
    obtain ⟨h1, h2, h3, h4, h5⟩ := h
    obtain ⟨q, -, h6⟩ := eats_restore (eats_stmt L h1 h2 h3 h4) (0 + w.length) [] []
    rw [prog_split] at h6
    rw [sem_seq, sem_opt, sem_cat, List.append_nil, h6, Res.andThen] at ht
    have h7 := reaches_further L hr l (stop_blank h4) h5 (0 + w.length + (s.x ++ (s.w ++ semiOf s.semi)).length) [] ([] ++ q) t
    refine h7 ?_
    rw [sem_cat]
    unfold furtherStatements
    cases h8 : sem grammar u (.rep (.seq (.cat (.call .skip) (.restore (.call .statement))))) vN
      ⟨0 + w.length + (s.x ++ (s.w ++ semiOf s.semi)).length, afterStop s.semi ++ (progText l ++ rest), [], [] ++ q⟩ with
    | ok x => rw [h8] at ht; exact ht
    | err x => rw [h8] at ht; exact absurd h8 (by
        obtain ⟨n, hn⟩ := sem_settles grammar u (.rep (.seq (.cat (.call .skip) (.restore (.call .statement))))) vN
          ⟨0 + w.length + (s.x ++ (s.w ++ semiOf s.semi)).length, afterStop s.semi ++ (progText l ++ rest), [], [] ++ q⟩
        rw [← hn n (Nat.le_refl _)]
        exact sure_run _ _ _ _ _ _ _ rfl)
    | crash => rw [h8] at ht; cases ht

/-! ### The reported position lies in the text -/

theorem traced_within {T : Str} : ∀ (n : Nat) (e : PE R) (v : Env) (neg : Bool) (s : St R) (a : Tries R), At T s →
    a.pos ≤ T.length → (traced grammar u n e v neg s a).2.pos ≤ T.length := by
  intro n
  induction n with
  | zero => intro e v neg s a _ h; exact h
  | succ n ih =>
    intro e v neg s a hs h
    have next : ∀ (e : PE R) (t : St R), (traced grammar u n e v neg s a).1 = .ok t ∨
        (traced grammar u n e v neg s a).1 = .err t → At T t := by
      intro e t k
      rw [traced_run] at k
      have := run_forth grammar u T n e v s hs
      rcases k with k | k <;> rw [k] at this <;> exact this.1
    cases e with
    | call r => exact ih _ _ _ _ _ hs h
    | rule r e =>
      rw [traced]
      dsimp only
      have h1 := ih e v neg (if v.emits then { s with queue := [] } else s) a (by split <;> exact hs) h
      generalize traced grammar u n e v neg (if v.emits then { s with queue := [] } else s) a = x at h1 ⊢
      split
      · rcases track_cases x.2 v.atomicity neg r s.pos a with ⟨e, -⟩ | ⟨-, -, e, -⟩
        · rw [e]; exact h1
        · rw [e]; exact hs.1
      · exact h1
    | atomic t e => exact ih _ _ _ _ _ hs h
    | ifNon e =>
      rw [traced]
      split
      · exact ih _ _ _ _ _ hs h
      · exact h
    | seq e => exact ih e v neg s a hs h
    | opt e => exact ih e v neg s a hs h
    | rep e =>
      rw [traced]
      have h1 := ih e v neg s a hs h
      have h2 := next e
      generalize traced grammar u n e v neg s a = x at h1 h2 ⊢
      obtain ⟨y, b⟩ := x
      cases y with
      | ok t => exact ih _ _ _ _ _ (h2 t (.inl rfl)) h1
      | err t => exact h1
      | crash => exact h1
    | alt e f =>
      rw [traced]
      have h1 := ih e v neg s a hs h
      have h2 := next e
      generalize traced grammar u n e v neg s a = x at h1 h2 ⊢
      obtain ⟨y, b⟩ := x
      cases y with
      | ok t => exact h1
      | err t => exact ih _ _ _ _ _ (h2 t (.inr rfl)) h1
      | crash => exact h1
    | cat e f =>
      rw [traced]
      have h1 := ih e v neg s a hs h
      have h2 := next e
      generalize traced grammar u n e v neg s a = x at h1 h2 ⊢
      obtain ⟨y, b⟩ := x
      cases y with
      | ok t => exact ih _ _ _ _ _ (h2 t (.inl rfl)) h1
      | err t => exact h1
      | crash => exact h1
    | restore e => exact ih e v neg s a hs h
    | look p e => exact ih e _ _ s a hs h
    | push e => exact ih e v neg s a hs h
    | str x => exact h
    | insens x => exact h
    | range a b => exact h
    | uni p => exact h
    | any => exact h
    | soi => exact h
    | eoi => exact h
    | peek => exact h
    | pop => exact h

/-! ### The claims -/

theorem errorAt_iff {T : Str} {p : Nat} : errorAt u T = some p ↔ ∃ a, smRefusal u .program T = some a ∧ a.pos = p := by
  unfold errorAt
  cases smRefusal u .program T <;> simp

theorem refusal_iff (r : R) (T : Str) : (∃ a, smRefusal u r T = some a) ↔ smParse u r T = .error := by
  unfold smRefusal smParse
  have hr := traced_run (g := grammar) (u := u) (parseFuel T) (.call r) Env.init false (St.init T) Tries.init
  rw [← hr]
  generalize traced grammar u (parseFuel T) (.call r) Env.init false (St.init T) Tries.init = x
  obtain ⟨y, b⟩ := x
  cases y <;> simp [Parsed.ofRes]

/-- **C87**.  A text is refused exactly when a position is reported, and the record kept for the report does not
influence what is accepted. -/
theorem C87_reported (u : Uni) (c : Cfg) :
    parseText u c = .err (.parseError c.errorText) ↔ ∃ p, errorAt u c.input = some p := by
  rw [parse_refused, ← refusal_iff]
  constructor
  · rintro ⟨a, h⟩
    exact ⟨a.pos, errorAt_iff.2 ⟨a, h, rfl⟩⟩
  · rintro ⟨p, h⟩
    obtain ⟨a, h, -⟩ := errorAt_iff.1 h
    exact ⟨a, h⟩

/-- The position lies in the text or right behind it; some rule is named as missing or as unwanted; and if the position is
the one where the accepted statements end, the end of the text is among what was expected. -/
theorem C87_inside (u : Uni) {T : Str} {a : Tries R} (h : smRefusal u .program T = some a) :
    a.pos ≤ T.length ∧ Named a ∧ ∃ t, sem grammar u programFront vN (St.init T) = .ok t ∧ t.rest ≠ [] ∧ t.pos ≤ a.pos ∧
      (a.pos = t.pos → R.EOI ∈ a.wanted) := by
  obtain ⟨t, h1, h2, h3, h4, h5⟩ := refusal_front h
  refine ⟨?_, h4, t, h1, h2, h3, h5⟩
  unfold smRefusal at h
  have := traced_within (u := u) (parseFuel T) (.call .program) Env.init false (St.init T) Tries.init (at_init T) (Nat.zero_le _)
  revert h this
  generalize traced grammar u (parseFuel T) (.call .program) Env.init false (St.init T) Tries.init = x
  obtain ⟨y, b⟩ := x
  cases y <;> intro h this
  · cases h
  · cases h; exact this
  · cases h

/-- **C87** (line and column).  The line that is reported is one of the text, and the column is one of that line or the
one behind its end. -/
theorem C87_place (u : Uni) {T : Str} {p : Nat} (h : errorAt u T = some p) :
    (place (T.take p)).1 ≤ T.count '\n' + 1 ∧ (place (T.take p)).2 ≤ p + 1 ∧ p ≤ T.length := by
  obtain ⟨a, h1, rfl⟩ := errorAt_iff.1 h
  refine ⟨?_, ?_, (C87_inside u h1).1⟩
  · unfold place
    exact Nat.succ_le_succ ((List.take_sublist _ _).count_le _)
  · unfold place
    have : ∀ s : Str, (afterBreak s).length ≤ s.length := by
      intro s
      induction s with
      | nil => exact Nat.le_refl _
      | cons c s ih =>
        rw [afterBreak]
        split
        · exact Nat.le_succ_of_le ih
        · exact Nat.le_refl _
    have := this (T.take a.pos)
    rw [List.length_take] at this
    exact Nat.succ_le_succ (Nat.le_trans this (Nat.min_le_left _ _))

/-- An expression, ended by a semicolon, with the blank space around that. -/
structure Ended where
  e : SExpr
  gap : Str
  wide : Bool
  after : Str

def Ended.Ok (u : Uni) (k : Ended) : Prop := k.e.Ok u ∧ Wordless k.e.text ∧ Blank u k.gap ∧ Blank u k.after

def Ended.text (k : Ended) : Str := k.e.text ++ (k.gap ++ (semiText k.wide ++ k.after))

def endedText (l : List Ended) : Str := l.flatMap Ended.text

def Ended.stmt (k : Ended) : Stmt := ⟨k.e.text, k.gap, some (k.wide, k.after), k.e.solo, k.e.value⟩

theorem progText_append (l m : List Stmt) : progText (l ++ m) = progText l ++ progText m := by
  induction l with
  | nil => rfl
  | cons s l ih => rw [List.cons_append, progText, progText, ih]; simp only [List.append_assoc]

theorem ended_text (l : List Ended) : progText (l.map Ended.stmt) = endedText l := by
  induction l with
  | nil => rfl
  | cons k l ih =>
    rw [List.map_cons, progText, ih]
    simp [endedText, Ended.text, Ended.stmt, stopText]

theorem ended_before (L : Lawful u) {l : List Ended} (h : ∀ k ∈ l, k.Ok u) {m : List Stmt} {rest : Str} (hm : ProgBefore u rest m) :
    ProgBefore u rest (l.map Ended.stmt ++ m) := by
  induction l with
  | nil => exact hm
  | cons k l ih =>
    obtain ⟨h1, h2, h3, h4⟩ := h k (by simp)
    exact ⟨k.e.read L h1, h2, h3, h4, ih fun k hk => h k (by simp [hk])⟩

theorem ended_ok (L : Lawful u) {l : List Ended} (h : ∀ k ∈ l, k.Ok u) {m : List Stmt} (hm : ProgOk u m) :
    ProgOk u (l.map Ended.stmt ++ m) := by
  induction l with
  | nil => exact hm
  | cons k l ih =>
    obtain ⟨h1, h2, h3, h4⟩ := h k (by simp)
    exact ⟨k.e.read L h1, h2, h3, h4, ih fun k hk => h k (by simp [hk])⟩

theorem past_statements (L : Lawful u) {w rest : Str} {m : List Stmt} (hw : Blank u w) (hm : ProgBefore u rest m)
    (hr : Solid u rest) {p : Nat} (h : errorAt u (w ++ (progText m ++ rest)) = some p) : (w ++ progText m).length ≤ p := by
  obtain ⟨a, h1, rfl⟩ := errorAt_iff.1 h
  obtain ⟨t, h2, -, h3, -, -⟩ := refusal_front h1
  have h4 := front_reaches L hr hw hm h2
  obtain ⟨n, hn⟩ := sem_settles grammar u programFront vN (St.init (w ++ (progText m ++ rest)))
  have h5 := run_forth grammar u (w ++ (progText m ++ rest)) n programFront vN _ (at_init _)
  rw [hn n (Nat.le_refl _), h2] at h5
  obtain ⟨h6, h7⟩ := h5.1
  have h8 := congrArg List.length h7
  rw [List.length_drop] at h8
  simp only [List.length_append] at h8 h6 ⊢
  omega

/-- **C87** (finished statements).  No fault is found with expressions that are ended by semicolons: the position is not
before their end. -/
theorem C87_finished (L : Lawful u) {w rest : Str} {l : List Ended} (hw : Blank u w) (hl : ∀ k ∈ l, k.Ok u)
    (hr : Solid u rest) {p : Nat} (h : errorAt u (w ++ (endedText l ++ rest)) = some p) : (w ++ endedText l).length ≤ p := by
  rw [← ended_text] at h ⊢
  have := ended_before L hl (m := []) (rest := rest) trivial
  rw [List.append_nil] at this
  exact past_statements L hw this hr h

/-! ### What is wrong is not passed over -/

theorem await_bound {T x y : Str} (hT : T = x ++ y) (hx : await u [] x = none) {p : Nat}
    (h : await u [] (T.take p) ≠ none) : p < x.length := by
  refine Nat.lt_of_not_le fun k => h ?_
  rw [hT, List.take_append, List.take_of_length_le k, await_append, hx]
  rfl

theorem unquoted_of {T x y : Str} {c : Char} (hT : T = x ++ c :: y) (hx : Bare x) (hc : await u [] (x ++ [c]) = none) :
    Unquoted u T := by
  intro p hp
  have h1 := await_bound (y := y) (by rw [hT]; simp) hc hp
  rw [List.length_append] at h1
  have h2 : T.take p = x.take p := by
    rw [hT, List.take_append, show p - x.length = 0 by simp at h1; omega]
    simp
  rw [h2]
  have := hx.without
  rw [← List.take_append_drop p x] at this
  exact this.left

/-- **C87** (what comes before).  In a text whose well-formed beginnings have no string literals and no comments, the text
before the reported position closes no bracket wrongly and has no character unknown to the language. -/
theorem C87_before (L : Lawful u) {T : Str} (hT : Unquoted u T) {p : Nat} (h : errorAt u T = some p) :
    await u [] (T.take p) ≠ none := by
  obtain ⟨a, h1, rfl⟩ := errorAt_iff.1 h
  have := (traced_fit L grammar_back gDead_ok gMute_ok hT (parseFuel T) (.call .program) Env.init false (St.init T) Tries.init
    [] [] [] rfl ⟨Nat.zero_le _, rfl, rfl⟩ (by rw [show (Tries.init : Tries R).pos = 0 from rfl]; simp [await])).tries
  unfold smRefusal at h1
  revert h1 this
  generalize traced grammar u (parseFuel T) (.call .program) Env.init false (St.init T) Tries.init = x
  obtain ⟨y, b⟩ := x
  cases y <;> intro h1 this
  · cases h1
  · cases h1; exact this
  · cases h1

theorem refused_await (L : Lawful u) {T : Str} (hT : Unquoted u T) (h : await u [] T = none) : ∃ p, errorAt u T = some p := by
  rcases C33_parse_terminates u .program (by decide) T with ⟨l, hl⟩ | hs
  · exfalso
    have k := (traced_fit L grammar_back gDead_ok gMute_ok hT (parseFuel T) (.call .program) Env.init false (St.init T) Tries.init
      [] [] [] rfl ⟨Nat.zero_le _, rfl, rfl⟩ (by rw [show (Tries.init : Tries R).pos = 0 from rfl]; simp [await])).ok
    rw [traced_run] at k
    unfold smParse at hl
    cases h1 : run grammar u (parseFuel T) (.call .program) Env.init (St.init T) with
    | err t => rw [h1] at hl; cases hl
    | crash => rw [h1] at hl; cases hl
    | ok t =>
      obtain ⟨-, h2⟩ := k t h1
      have h3 := run_eq_sem (g := grammar) (u := u) (n := parseFuel T) (e := .call .program) (v := Env.init) (s := St.init T) (by rw [h1]; simp)
      rw [h1, sem_call] at h3
      have h4 := (eoi_last u _ _ rfl _ _ h3.symm).1
      rw [h2.rest] at h4
      have h5 := h2.awaits
      rw [List.take_of_length_le (List.drop_eq_nil_iff.1 h4), h] at h5
      cases h5
  · obtain ⟨a, ha⟩ := (refusal_iff .program T).2 hs
    exact ⟨a.pos, errorAt_iff.2 ⟨a, ha, rfl⟩⟩

theorem blamed_await (L : Lawful u) {T x y : Str} {c : Char} (hT : T = x ++ c :: y) (hx : Bare x)
    (hc : await u [] (x ++ [c]) = none) : ∃ p, errorAt u T = some p ∧ p ≤ x.length := by
  have hq := unquoted_of hT hx hc
  have hn : await u [] T = none := by
    rw [hT, show x ++ c :: y = (x ++ [c]) ++ y by simp, await_append, hc]; rfl
  obtain ⟨p, hp⟩ := refused_await L hq hn
  refine ⟨p, hp, ?_⟩
  have := await_bound (y := y) (by rw [hT]; simp) hc (C87_before L hq hp)
  rw [List.length_append] at this
  exact Nat.le_of_lt_succ this

/-- **C87** (unknown characters).  Whatever follows, a character unknown to the language has the text refused, and the
position is not behind that character. -/
theorem C87_unknown (L : Lawful u) {x y : Str} {c : Char} (hx : Bare x) (hc : Familiar u c = false) :
    ∃ p, errorAt u (x ++ c :: y) = some p ∧ p ≤ x.length := by
  refine blamed_await L rfl hx ?_
  rw [await_append]
  cases await u [] x with
  | none => rfl
  | some st =>
    have h1 : ∀ d, d ∈ signs → c ≠ d := by
      rintro d hd rfl
      unfold Familiar at hc
      simp [hd] at hc
    have h2 : closer c = none := by
      unfold closer
      split
      · exact absurd rfl (h1 _ (by decide))
      · exact absurd rfl (h1 _ (by decide))
      · exact absurd rfl (h1 _ (by decide))
      · rfl
    have h3 : c ∉ [')', ']', '}'] := by
      intro k
      simp only [List.mem_cons, List.not_mem_nil, or_false] at k
      rcases k with rfl | rfl | rfl <;> exact absurd rfl (h1 _ (by decide))
    show await u st [c] = none
    rw [await_cons, h2]
    simp only [if_neg h3, hc]
    rfl

/-- The closing brackets awaited are those of the brackets that were opened and not closed. -/
theorem await_count : ∀ (x : Str) {st st' : Str} {k d : Char}, closer k = some d → await u st x = some st' →
    st'.count d + x.count d = st.count d + x.count k
  | [], st, st', k, d, _, h => by rw [await] at h; cases h; rfl
  | c :: x, st, st', k, d, hk, h => by
    have hkd : k ∈ ['(', '[', '{'] ∧ d ∈ [')', ']', '}'] ∧ (∀ c, closer c = some d ↔ c = k) := by
      unfold closer at hk
      split at hk
      all_goals cases hk
      all_goals
        refine ⟨by decide, by decide, fun c => ?_⟩
        unfold closer
        constructor
        · split <;> simp_all
        · rintro rfl; rfl
    rw [await_cons] at h
    rw [List.count_cons, List.count_cons]
    cases hc : closer c with
    | some e =>
      rw [hc] at h
      have ih := await_count x hk h
      have h1 : c ≠ d := by
        rintro rfl
        have := hkd.2.1
        simp only [List.mem_cons, List.not_mem_nil, or_false] at this
        rcases this with rfl | rfl | rfl <;> cases hc
      rw [List.count_cons] at ih
      by_cases h2 : c = k
      · subst h2
        rw [hc] at hk; cases hk
        simp [h1] at ih ⊢
        omega
      · have h3 : e ≠ d := by rintro rfl; exact h2 ((hkd.2.2 c).1 hc)
        simp [h1, h2, h3] at ih ⊢
        omega
    | none =>
      rw [hc] at h
      have h2 : c ≠ k := by rintro rfl; rw [hk] at hc; cases hc
      dsimp only at h
      split at h
      · cases st with
        | nil => cases h
        | cons e st =>
          dsimp only at h
          split at h
          · rename_i he
            subst he
            have ih := await_count x hk h
            rw [List.count_cons]
            simp [h2] at ih ⊢
            omega
          · cases h
      · rename_i h4
        split at h
        · have ih := await_count x hk h
          have h1 : c ≠ d := by rintro rfl; exact h4 hkd.2.1
          simp [h1, h2] at ih ⊢
          omega
        · cases h

/-- **C87** (closing brackets).  Whatever follows, a closing bracket has the text refused if no bracket of its kind is
open, and the position is not behind it. -/
theorem C87_closing (L : Lawful u) {x y : Str} {k c : Char} (hk : closer k = some c) (hx : Bare x)
    (hc : x.count k ≤ x.count c) : ∃ p, errorAt u (x ++ c :: y) = some p ∧ p ≤ x.length := by
  refine blamed_await L rfl hx ?_
  rw [await_append]
  cases h : await u [] x with
  | none => rfl
  | some st =>
    have h1 := await_count x hk h
    have h2 : c ∉ st := by
      intro k
      have := List.count_pos_iff.2 k
      simp at h1
      omega
    have h3 : c ∈ [')', ']', '}'] ∧ closer c = none := by
      unfold closer at hk
      split at hk
      all_goals cases hk
      all_goals exact ⟨by decide, rfl⟩
    show await u st [c] = none
    rw [await_cons, h3.2]
    simp only [if_pos h3.1]
    cases st with
    | nil => rfl
    | cons d st =>
      dsimp only
      rw [if_neg]
      rintro rfl
      exact h2 (by simp)

/-- **C87** (exactly).  Behind finished statements and perhaps one more expression, a closing bracket too many is
reported where it stands, whatever follows. -/
theorem C87_surplus (L : Lawful u) {w gap y : Str} {l : List Ended} {e : SExpr} {k c : Char} (hw : Blank u w)
    (hl : ∀ k ∈ l, k.Ok u) (he : e.Ok u) (hn : Wordless e.text) (hg : Blank u gap) (hk : closer k = some c)
    (hb : Bare (w ++ (endedText l ++ (e.text ++ gap)))) :
    errorAt u (w ++ (endedText l ++ (e.text ++ gap)) ++ c :: y) = some (w ++ (endedText l ++ (e.text ++ gap))).length := by
  let s : Stmt := ⟨e.text, gap, none, e.solo, e.value⟩
  have hc : c ∈ [')', ']', '}'] := by
    unfold closer at hk
    split at hk
    all_goals cases hk
    all_goals decide
  have hh : ∀ y : Str, y = [] ∨ (∃ z, y = c :: z) → Stop u y ∧ Follow u (gap ++ y) ∧ NoCont u (gap ++ y) ∧
      ∀ d r, y = d :: r → d ≠ ';' ∧ d ≠ '；' := by
    intro y hy
    have h1 : HeadIn closeChars y := by
      rcases hy with rfl | ⟨z, rfl⟩
      · exact .inl rfl
      · refine .inr ⟨c, z, rfl, ?_⟩
        revert hc
        simp only [List.mem_cons, List.not_mem_nil, or_false]
        rintro (rfl | rfl | rfl) <;> decide
    have h2 : HeadIn [')', ',', '，', ']', '}', ';', '；'] y := by
      rcases hy with rfl | ⟨z, rfl⟩
      · exact .inl rfl
      · refine .inr ⟨c, z, rfl, ?_⟩
        revert hc
        simp only [List.mem_cons, List.not_mem_nil, or_false]
        rintro (rfl | rfl | rfl) <;> decide
    refine ⟨stop_close L h1, follow_close L hg h2, noCont_blank L hg (noCont_close L h1), ?_⟩
    rintro d r rfl
    rcases hy with hy | ⟨z, hy⟩ <;> cases hy
    revert hc
    simp only [List.mem_cons, List.not_mem_nil, or_false]
    rintro (rfl | rfl | rfl) <;> decide
  have ht : progText (l.map Ended.stmt ++ [s]) = endedText l ++ (e.text ++ gap) := by
    rw [progText_append, ended_text]
    simp [progText, stopText, s]
  have hok : ProgOk u (l.map Ended.stmt ++ [s]) :=
    ended_ok L hl ⟨e.read L he, hn, hg, hh [] (.inl rfl), trivial⟩
  have hbe : ProgBefore u (c :: y) (l.map Ended.stmt ++ [s]) :=
    ended_before L hl ⟨e.read L he, hn, hg, hh (c :: y) (.inr ⟨y, rfl⟩), trivial⟩
  obtain ⟨q, -, hq⟩ := smParse_text L hw hok
  rw [ht] at hq
  have hcount := C55_counts L hq hb
  have hle : (w ++ (endedText l ++ (e.text ++ gap))).count k ≤ (w ++ (endedText l ++ (e.text ++ gap))).count c := by
    unfold closer at hk
    split at hk
    all_goals cases hk
    · exact Nat.le_of_eq hcount.1
    · exact Nat.le_of_eq hcount.2.1
    · exact Nat.le_of_eq hcount.2.2
  obtain ⟨p, h1, h2⟩ := C87_closing L (y := y) hk hb hle
  have h3 := past_statements L hw hbe (hh (c :: y) (.inr ⟨y, rfl⟩)).1.1 (p := p) (by
    rw [ht, ← h1]; simp only [List.append_assoc])
  rw [ht] at h3
  rw [h1, Nat.le_antisymm h2 h3]

/-- **C87** (exactly).  Behind finished statements, a character unknown to the language is reported where it stands,
whatever follows. -/
theorem C87_alien (L : Lawful u) {w y : Str} {l : List Ended} {c : Char} (hw : Blank u w) (hl : ∀ k ∈ l, k.Ok u)
    (hc : Familiar u c = false) (hb : Bare (w ++ endedText l)) :
    errorAt u (w ++ endedText l ++ c :: y) = some (w ++ endedText l).length := by
  obtain ⟨p, h1, h2⟩ := C87_unknown L (y := y) hb hc
  have hs : Solid u (c :: y) := by
    unfold Familiar at hc
    simp only [Bool.or_eq_false_iff, decide_eq_false_iff_not] at hc
    have h1 : '%' ≠ c := by rintro rfl; exact hc.2 (by decide)
    have h2 : '/' ≠ c := by rintro rfl; exact hc.2 (by decide)
    refine ⟨?_, ?_⟩
    · intro d r e
      cases e
      unfold Ws
      rw [hc.1.1]
      exact Bool.false_ne_true
    · refine ⟨?_, ?_, ?_, ?_, ?_⟩ <;> simp [strip, h1, h2]
  have h3 := C87_finished L hw hl hs (p := p) (by rw [← h1, List.append_assoc])
  rw [h1, Nat.le_antisymm h2 h3]

/-! ### Cases -/

example : errorAt asciiUni c!"1 + " = some 4 := by decide +kernel

example : errorAt asciiUni c!"(1 + 2" = some 6 := by decide +kernel

example : errorAt asciiUni c!"1 + 2) * 3" = some 5 := by decide +kernel

example : errorAt asciiUni c!"f(x, [1, 2) + 3]" = some 10 := by decide +kernel

example : errorAt asciiUni c!"1;\n2 $ 3" = some 5 := by decide +kernel

example : place (c!"1;\n2 $ 3".take 5) = (2, 3) := by decide +kernel

example : errorAt asciiUni c!"1 + 2 * 3" = none := by decide +kernel

/-- The position may be before a character that is known: an expression must follow the opening bracket. -/
example : errorAt asciiUni c!"1; 2; )" = some 6 := by decide +kernel

/-- With a string literal before it, an unknown character may be passed over. -/
example : errorAt asciiUni c!"\"$\" + " = some 6 := by decide +kernel

example : Familiar asciiUni '$' = false ∧ Familiar asciiUni '~' = false ∧ Familiar asciiUni '<' = false ∧
    Familiar asciiUni '+' = true ∧ Familiar asciiUni 'x' = true := by decide

example : await asciiUni [] c!"f(x, [1, 2" = some c!"])" ∧ await asciiUni [] c!"f(x, [1, 2)" = none := by decide

/-- Whatever follows a closing bracket too many, its place is reported. -/
example (L : Lawful u) (y : Str) : errorAt u (c!"1; 2" ++ ')' :: y) = some 4 := by
  have t1 : (SExpr.node (.atom (.int 1))).text = c!"1" := by decide
  have t2 : (SExpr.node (.atom (.int 2))).text = c!"2" := by decide
  have hs : Blank u c!" " := blank_ws (by
    intro c hc; rw [List.mem_singleton] at hc; subst hc; unfold Ws; rw [L.plain _ _ (by decide)]; decide)
  have hl : ∀ k ∈ [(⟨SExpr.node (.atom (.int 1)), [], false, c!" "⟩ : Ended)], k.Ok u := by
    intro k hk
    rw [List.mem_singleton] at hk
    subst hk
    exact ⟨intExpr_ok 1, by rw [t1]; unfold Wordless; decide, blank_nil, hs⟩
  have := C87_surplus L (w := []) (gap := []) (y := y) blank_nil hl (intExpr_ok 2) (by rw [t2]; unfold Wordless; decide)
    blank_nil (k := '(') (c := ')') rfl ⟨by rw [t2]; decide, by rw [t2]; decide, by rw [t2]; decide⟩
  rw [t2] at this
  exact this

end SM.Props
