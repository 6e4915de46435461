import Verif.Props.PegTables
/-
C34: spans of the parse tree, for every input.
-/
namespace SM.Props
open SM SM.Peg

section generic
variable {R : Type} {g : R → PE R} {u : Uni}

mutual
/-- A pair carries the text of its span, its children lie inside it, in order, without overlap; and so
on below. -/
def SpanOk (input : Str) : Pair R → Prop
  | .mk _ a b t l =>
    a ≤ b ∧ b ≤ input.length ∧ t = (input.drop a).take (b - a) ∧ SpansOk input a b l
/-- The pairs lie between `lo` and `hi`, in order, without overlap. -/
def SpansOk (input : Str) (lo hi : Nat) : List (Pair R) → Prop
  | [] => lo ≤ hi
  | p :: l => lo ≤ p.start ∧ SpanOk input p ∧ SpansOk input p.stop hi l
end

theorem SpanOk.le {input : Str} {p : Pair R} (h : SpanOk input p) : p.start ≤ p.stop := by
  cases p; rw [SpanOk] at h; exact h.1

theorem SpansOk.le {input : Str} {hi : Nat} : ∀ {lo : Nat} {l : List (Pair R)},
    SpansOk input lo hi l → lo ≤ hi
  | _, [], h => by rw [SpansOk] at h; exact h
  | _, p :: l, h => by
    rw [SpansOk] at h
    have := SpansOk.le h.2.2
    have := h.2.1.le
    omega

theorem SpansOk.append {input : Str} {mid hi : Nat} {l' : List (Pair R)} :
    ∀ {lo : Nat} {l : List (Pair R)}, SpansOk input lo mid l → SpansOk input mid hi l' →
      SpansOk input lo hi (l ++ l')
  | lo, [], h, h' => by
    rw [SpansOk] at h
    cases l' with
    | nil => rw [SpansOk] at h'; rw [List.nil_append, SpansOk]; omega
    | cons p l' =>
      rw [SpansOk] at h'
      rw [List.nil_append, SpansOk]
      exact ⟨by omega, h'.2⟩
  | lo, p :: l, h, h' => by
    rw [SpansOk] at h
    rw [List.cons_append, SpansOk]
    exact ⟨h.1, h.2.1, SpansOk.append h.2.2 h'⟩

theorem SpansOk.nil {input : Str} {lo hi : Nat} (h : lo ≤ hi) : SpansOk input lo hi ([] : List (Pair R)) := by
  rw [SpansOk]; exact h

theorem SpansOk.widen {input : Str} {lo hi hi' : Nat} {l : List (Pair R)} (h : SpansOk input lo hi l)
    (h' : hi ≤ hi') : SpansOk input lo hi' l := by
  have := h.append (SpansOk.nil (R := R) (input := input) h')
  rwa [List.append_nil] at this

/-- The state is at a position of the input. -/
def At (input : Str) (s : St R) : Prop := s.pos ≤ input.length ∧ s.rest = input.drop s.pos

/-- From `s`, the parser has moved forward to `t` and emitted well-formed pairs. -/
def Forth (input : Str) (v : Env) (s t : St R) : Prop :=
  At input t ∧ s.pos ≤ t.pos ∧
    ∃ new, t.queue = s.queue ++ new ∧ SpansOk input s.pos t.pos new ∧ (v.silent = true → new = [])

/-- Both outcomes move forward. -/
def ForthRes (input : Str) (v : Env) (s : St R) : Res R → Prop
  | .ok t => Forth input v s t
  | .err t => Forth input v s t
  | .crash => True

theorem Forth.refl {input : Str} {v : Env} {s : St R} (h : At input s) : Forth input v s s :=
  ⟨h, Nat.le_refl _, [], (List.append_nil _).symm, SpansOk.nil (Nat.le_refl _), fun _ => rfl⟩

theorem Forth.trans {input : Str} {v : Env} {s t w : St R} (h : Forth input v s t)
    (h' : Forth input v t w) : Forth input v s w := by
  obtain ⟨_, h2, new, h3, h4, h5⟩ := h
  obtain ⟨k1, k2, new', k3, k4, k5⟩ := h'
  refine ⟨k1, by omega, new ++ new', ?_, h4.append k4, ?_⟩
  · rw [k3, h3, List.append_assoc]
  · intro hv; rw [h5 hv, k5 hv]; rfl

theorem strip_drop {x s r : Str} (h : strip x s = some r) : r = s.drop x.length := by
  induction x generalizing s with
  | nil => simp [strip] at h; simp [h]
  | cons c x ih =>
    cases s with
    | nil => simp [strip] at h
    | cons d s =>
      simp only [strip] at h
      split at h
      · simp [ih h]
      · cases h

theorem stripInsens_drop {x s r : Str} (h : stripInsens x s = some r) : r = s.drop x.length := by
  induction x generalizing s with
  | nil => simp [stripInsens] at h; simp [h]
  | cons c x ih =>
    cases s with
    | nil => simp [stripInsens] at h
    | cons d s =>
      simp only [stripInsens] at h
      split at h
      · simp [ih h]
      · cases h

theorem Forth.advance {input : Str} {v : Env} {s : St R} (h : At input s) (n : Nat) (r : Str)
    (hr : r = s.rest.drop n) (hn : n ≤ s.rest.length) : Forth input v s (s.advance n r) := by
  obtain ⟨h1, h2⟩ := h
  have hl : s.rest.length = input.length - s.pos := by rw [h2, List.length_drop]
  refine ⟨⟨?_, ?_⟩, ?_, [], (List.append_nil _).symm, SpansOk.nil ?_, fun _ => rfl⟩
  · simp only [St.advance]; omega
  · simp only [St.advance]; rw [hr, h2, List.drop_drop]
  · simp only [St.advance]; omega
  · simp only [St.advance]; omega

theorem forth_matchStr {input : Str} {v : Env} {s : St R} (h : At input s) (x : Str) :
    ForthRes input v s (s.matchStr x) := by
  unfold St.matchStr
  cases h' : strip x s.rest with
  | none => exact Forth.refl h
  | some r => exact Forth.advance h _ _ (strip_drop h') (by rw [strip_length h']; omega)

theorem forth_charBy {input : Str} {v : Env} {s : St R} (h : At input s) (p : Char → Bool) :
    ForthRes input v s (s.charBy p) := by
  unfold St.charBy
  split
  · exact Forth.refl h
  · rename_i c r hc
    split
    · exact Forth.advance h _ _ (by rw [hc]; rfl) (by rw [hc]; simp)
    · exact Forth.refl h

theorem run_forth (g : R → PE R) (u : Uni) (input : Str) : ∀ (n : Nat) (e : PE R) (v : Env) (s : St R),
    At input s → ForthRes input v s (run g u n e v s) := by
  intro n
  induction n with
  | zero => intro e v s _; exact True.intro
  | succ n ih =>
    intro e v s hs
    cases e with
    | call r => exact ih _ v s hs
    | rule r e =>
      rw [run]
      split
      · rename_i hv
        have := ih e v { s with queue := [] } hs
        revert this
        cases run g u n e v { s with queue := [] } with
        | ok t =>
          rintro ⟨h1, h2, new, h3, h4, h5⟩
          refine ⟨h1, h2, [_], rfl, ?_, ?_⟩
          · rw [SpansOk]
            refine ⟨Nat.le_refl _, ?_, ?_⟩
            · rw [SpanOk]
              refine ⟨h2, h1.1, ?_, ?_⟩
              · unfold St.between; rw [hs.2]
              · rw [h3]; exact h4
            · rw [SpansOk]; exact Nat.le_refl _
          · intro hs
            simp [Env.emits, hs] at hv
        | err t =>
          rintro ⟨h1, h2, -⟩
          exact ⟨h1, h2, [], (List.append_nil _).symm, SpansOk.nil h2, fun _ => rfl⟩
        | crash => exact fun h => h
      · exact ih e v s hs
    | atomic a e => exact ih e { v with atomicity := a } s hs
    | ifNon e =>
      rw [run]
      split
      · exact ih e v s hs
      · exact Forth.refl hs
    | seq e =>
      rw [run]
      have := ih e v s hs
      revert this
      cases run g u n e v s with
      | ok t => exact fun h => h
      | err t =>
        intro _
        exact ⟨hs, Nat.le_refl _, [], (List.append_nil _).symm, SpansOk.nil (Nat.le_refl _), fun _ => rfl⟩
      | crash => exact fun h => h
    | opt e =>
      rw [run]
      have := ih e v s hs
      revert this
      cases run g u n e v s <;> exact fun h => h
    | rep e =>
      rw [run]
      have := ih e v s hs
      revert this
      cases run g u n e v s with
      | ok t =>
        intro h
        have := ih (.rep e) v t h.1
        revert this
        show ForthRes input v t (run g u n e.rep v t) → ForthRes input v s (run g u n e.rep v t)
        cases run g u n (.rep e) v t with
        | ok w => exact h.trans
        | err w => exact h.trans
        | crash => exact fun h => h
      | err t => exact fun h => h
      | crash => exact fun h => h
    | alt a b =>
      rw [run]
      have := ih a v s hs
      revert this
      cases run g u n a v s with
      | ok t => exact fun h => h
      | err t =>
        intro h
        have := ih b v t h.1
        revert this
        show ForthRes input v t (run g u n b v t) → ForthRes input v s (run g u n b v t)
        cases run g u n b v t with
        | ok w => exact h.trans
        | err w => exact h.trans
        | crash => exact fun h => h
      | crash => exact fun h => h
    | cat a b =>
      rw [run]
      have := ih a v s hs
      revert this
      cases run g u n a v s with
      | ok t =>
        intro h
        have := ih b v t h.1
        revert this
        show ForthRes input v t (run g u n b v t) → ForthRes input v s (run g u n b v t)
        cases run g u n b v t with
        | ok w => exact h.trans
        | err w => exact h.trans
        | crash => exact fun h => h
      | err t => exact fun h => h
      | crash => exact fun h => h
    | restore e =>
      rw [run]
      have := ih e v s hs
      revert this
      cases run g u n e v s <;> exact fun h => h
    | look p e =>
      rw [run]
      have := ih e { v with silent := true } s hs
      revert this
      cases run g u n e { v with silent := true } s with
      | ok t =>
        rintro ⟨-, -, new, h3, -, h5⟩
        have hq : Forth input v s { t with pos := s.pos, rest := s.rest, stack := s.stack } :=
          ⟨hs, Nat.le_refl _, [], by rw [h3, h5 rfl], SpansOk.nil (Nat.le_refl _), fun _ => rfl⟩
        cases p <;> exact hq
      | err t =>
        rintro ⟨-, -, new, h3, -, h5⟩
        have hq : Forth input v s { t with pos := s.pos, rest := s.rest, stack := s.stack } :=
          ⟨hs, Nat.le_refl _, [], by rw [h3, h5 rfl], SpansOk.nil (Nat.le_refl _), fun _ => rfl⟩
        cases p <;> exact hq
      | crash => cases p <;> exact fun h => h
    | str x => exact forth_matchStr hs x
    | insens x =>
      rw [run]
      split
      · rename_i r h'
        exact Forth.advance hs _ _ (stripInsens_drop h') (by rw [stripInsens_length h']; omega)
      · exact Forth.refl hs
    | range a b => exact forth_charBy hs _
    | uni p => exact forth_charBy hs _
    | any => exact forth_charBy hs _
    | soi =>
      rw [run]
      split <;> exact Forth.refl hs
    | eoi =>
      rw [run]
      split <;> exact Forth.refl hs
    | push e =>
      rw [run]
      have := ih e v s hs
      revert this
      cases run g u n e v s <;> exact fun h => h
    | peek =>
      rw [run]
      split
      · exact forth_matchStr hs _
      · exact True.intro
    | pop =>
      rw [run]
      split
      · rename_i x st _
        have := forth_matchStr (v := v) (s := { s with stack := st }) hs x
        revert this
        cases ({ s with stack := st } : St R).matchStr x <;> exact fun h => h
      · exact True.intro

theorem at_init (input : Str) : At input (St.init input : St R) := ⟨Nat.zero_le _, rfl⟩

end generic

theorem smParse_spans (u : Uni) (r : R) (input : Str) (l : List (Pair R))
    (h : smParse u r input = .pairs l) : ∃ e, e ≤ input.length ∧ SpansOk input 0 e l := by
  unfold smParse at h
  have := run_forth grammar u input (parseFuel input) (.call r) Env.init (St.init input) (at_init input)
  revert this h
  cases run grammar u (parseFuel input) (.call r) Env.init (St.init input) with
  | ok t =>
    rintro h ⟨h1, -, new, h3, h4, -⟩
    simp only [Parsed.ofRes, Parsed.pairs.injEq] at h
    subst h
    exact ⟨t.pos, h1.1, by rw [h3]; exact h4⟩
  | err t => intro h; cases h
  | crash => intro h; cases h

/-- A successful run of `seq (cat e (call EOI))` ends at the end of the input with an `EOI` pair. -/
theorem eoi_last (u : Uni) (e : PE R) (v : Env) (hv : v.emits = true) (s t : St R)
    (h : sem grammar u (.seq (.cat e (.call .EOI))) v s = .ok t) :
    t.rest = [] ∧ ∃ q, t.queue = q ++ [.mk .EOI t.pos t.pos [] []] := by
  rw [sem_seq, sem_cat] at h
  cases h1 : sem grammar u e v s with
  | ok w =>
    rw [h1] at h
    simp only [Res.andThen] at h
    rw [sem_call, show grammar .EOI = body_EOI from rfl, body_EOI, sem_rule, if_pos hv, sem_eoi] at h
    cases hr : w.rest with
    | nil =>
      rw [hr] at h
      simp only [List.isEmpty_nil, if_true, Res.mapBoth, id, Res.ok.injEq] at h
      subst h
      refine ⟨rfl, w.queue, ?_⟩
      simp [St.between]
    | cons c r =>
      rw [hr] at h
      simp [Res.mapBoth] at h
  | err w => rw [h1] at h; simp [Res.andThen, Res.mapBoth] at h
  | crash => rw [h1] at h; simp [Res.andThen, Res.mapBoth] at h

/-- **C34**.  Whenever a text is accepted, the pairs lie one after the other between its start and its
end, every pair at every depth carries exactly the text of its span and its children lie inside it in
order without overlap, and the last pair marks the end of the text: all of it has been consumed. -/
theorem C34_spans (u : Uni) (input : Str) (l : List (Pair R))
    (h : smParse u .program input = .pairs l) :
    SpansOk input 0 input.length l ∧
      ∃ q, l = q ++ [.mk .EOI input.length input.length [] []] := by
  have hs := smParse_eq u .program rfl input
  rw [h] at hs
  have hf := run_forth grammar u input (parseFuel input) (.call .program) Env.init (St.init input)
    (at_init input)
  rw [run_eq_sem_of_fuel u Env.init .program (St.init input) (parseFuel input) rfl (Nat.le_refl _)] at hf
  cases hr : sem grammar u (.call .program) Env.init (St.init input) with
  | ok t =>
    rw [hr] at hs hf
    simp only [Parsed.ofRes, Parsed.pairs.injEq] at hs
    rw [sem_call, show grammar .program = body_program from rfl, body_program] at hr
    obtain ⟨h1, q, h2⟩ := eoi_last u _ _ rfl _ _ hr
    obtain ⟨⟨k1, k2⟩, -, new, k3, k4, -⟩ := hf
    have hp : t.pos = input.length := by
      rw [h1] at k2
      have := congrArg List.length k2
      rw [List.length_drop] at this
      simp at this
      omega
    rw [hp] at h2 k4
    have hn : l = new := by rw [hs, k3]; rfl
    refine ⟨by rw [hn]; exact k4, q, by rw [hs, h2]⟩
  | err t => rw [hr] at hs; cases hs
  | crash => rw [hr] at hs; cases hs

/-- The statement is about something: `;` is accepted. -/
example : smParse (fun _ _ => false) .program c!";" =
    .pairs [.mk .emptyStatement 0 1 c!";" [.mk .eos 0 1 c!";" [.mk .Semicolon 0 1 c!";" []]],
      .mk .EOI 1 1 [] []] := by rfl

/-- A pair with the wrong text, or outside its parent, is rejected. -/
example : ¬ SpanOk c!"ab" (.mk R.expr 0 1 c!"b" []) := by
  rw [SpanOk]; simp
example : ¬ SpanOk c!"ab" (.mk R.expr 0 1 c!"a" [.mk R.term 1 2 c!"b" []]) := by
  rw [SpanOk, SpansOk, SpansOk]; simp [Pair.stop]

end SM.Props
