import Verif.Eval.Runner
import Mathlib.Data.List.Basic
import Mathlib.Tactic.Linarith
/-
C22-C25: sessions and the playground.  The parser is an arbitrary function throughout.
-/
namespace SM.Props
open SM BMap

/-- A call on a session. -/
inductive Call where
  | evaluate (s : Str)
  | last

variable (w : Width) (parse : Str → SMResult AST)

/-- The session after one call; `last` takes `&self` and changes nothing. -/
def stepCall (c : Context) : Call → Context
  | .evaluate s => (c.evaluate w parse s).ctx
  | .last => c

/-- The session after a history of calls, starting from a fresh one. -/
def session (h : List Call) : Context := h.foldl (stepCall w parse) {}

/-- The texts submitted in a history. -/
def submitted : List Call → List Str
  | [] => []
  | .evaluate s :: h => s :: submitted h
  | .last :: h => submitted h

/-- The value of one input by itself: parse it, evaluate it. -/
def value (s : Str) : SMResult AST := parse s >>= forward w

/-- The printed value of one input by itself. -/
def printed (s : Str) : SMResult Str := value w parse s >>= fun o => Out.unwrap o.display

/-- The recorded output of an input: its value if there is one. -/
def recorded (s : Str) : Option AST :=
  match value w parse s with
  | .ok o => some o
  | _ => none

/-- The state of a session in terms of the submitted texts. -/
structure SessionOk (l : List Str) (c : Context) : Prop where
  index : c.index = l.length
  sortedI : Sorted (cmp := natCmp) c.inputs
  sortedO : Sorted (cmp := natCmp) c.outputs
  inputs : ∀ i, get natCmp i c.inputs = if i = 0 then none else l[i - 1]?
  outputs : ∀ i, get natCmp i c.outputs = if i = 0 then none else l[i - 1]?.bind (recorded w parse)

theorem sessionOk_nil : SessionOk w parse [] {} where
  index := rfl
  sortedI := List.Pairwise.nil
  sortedO := List.Pairwise.nil
  inputs i := by simp [BMap.get]
  outputs i := by simp [BMap.get]

theorem evaluate_spec {l : List Str} {c : Context} (h : SessionOk w parse l c) (s : Str) :
    SessionOk w parse (l ++ [s]) (c.evaluate w parse s).ctx ∧
      (c.evaluate w parse s).out = printed w parse s := by
  have hi : get natCmp (c.index + 1) (insert natCmp (c.index + 1) s c.inputs) = some s := by
    rw [get_insert_nat _ _ _ _ h.sortedI]; simp
  have hin : ∀ i, get natCmp i (insert natCmp (c.index + 1) s c.inputs)
      = if i = 0 then none else (l ++ [s])[i - 1]? := by
    intro i
    rw [get_insert_nat _ _ _ _ h.sortedI, h.inputs, h.index]
    by_cases hi : i = l.length + 1
    · subst hi; simp
    · rw [if_neg hi]
      by_cases h0 : i = 0
      · simp [h0]
      · simp only [h0, if_false]
        rw [List.getElem?_append]
        split
        · rfl
        · rw [List.getElem?_eq_none (by omega), List.getElem?_eq_none (by simp; omega)]
  have hsI := insert_sorted natCmp_lawful (c.index + 1) s _ h.sortedI
  have hout0 : recorded w parse s = none → ∀ i, get natCmp i c.outputs
      = if i = 0 then none else (l ++ [s])[i - 1]?.bind (recorded w parse) := by
    intro hr i
    rw [h.outputs]
    by_cases h0 : i = 0
    · simp [h0]
    · simp only [h0, if_false]
      rw [List.getElem?_append]
      split
      · rfl
      · rw [List.getElem?_eq_none (by omega)]
        by_cases hil : i - 1 = l.length
        · simp [hil, hr]
        · rw [List.getElem?_eq_none (by simp; omega)]
  have hout1 : ∀ o, recorded w parse s = some o →
      ∀ i, get natCmp i (insert natCmp (c.index + 1) o c.outputs)
      = if i = 0 then none else (l ++ [s])[i - 1]?.bind (recorded w parse) := by
    intro o hr i
    rw [get_insert_nat _ _ _ _ h.sortedO, h.outputs, h.index]
    by_cases hi : i = l.length + 1
    · subst hi; simp [hr]
    · rw [if_neg hi]
      by_cases h0 : i = 0
      · simp [h0]
      · simp only [h0, if_false]
        rw [List.getElem?_append]
        split
        · rfl
        · rw [List.getElem?_eq_none (by omega), List.getElem?_eq_none (by simp; omega)]
  have hlen : (c.parse s).index = (l ++ [s]).length := by simp [Context.parse, h.index]
  have base : recorded w parse s = none → SessionOk w parse (l ++ [s]) (c.parse s) := fun hr =>
    { index := hlen, sortedI := hsI, sortedO := h.sortedO, inputs := hin, outputs := hout0 hr }
  unfold Context.evaluate
  simp only
  have hfw : (c.parse s).forward w parse = match parse s with
      | .panic => ⟨.panic, c.parse s⟩
      | .err e => ⟨.err e, c.parse s⟩
      | .ok ast => match SM.forward w ast with
        | .panic => ⟨.panic, c.parse s⟩
        | .err e => ⟨.err e, c.parse s⟩
        | .ok output => ⟨.ok (), { c.parse s with
            outputs := insert natCmp (c.index + 1) output c.outputs }⟩ := by
    unfold Context.forward
    have : get natCmp (c.parse s).index (c.parse s).inputs = some s := hi
    rw [this]
    rfl
  rw [hfw]
  cases hp : parse s with
  | panic =>
    exact ⟨base (by simp [recorded, value, hp]), by simp [printed, value, hp]⟩
  | err e =>
    exact ⟨base (by simp [recorded, value, hp]), by simp [printed, value, hp]⟩
  | ok ast =>
    simp only
    cases hf : SM.forward w ast with
    | panic =>
      exact ⟨base (by simp [recorded, value, hp, hf]), by simp [printed, value, hp, hf]⟩
    | err e =>
      exact ⟨base (by simp [recorded, value, hp, hf]), by simp [printed, value, hp, hf]⟩
    | ok o =>
      simp only
      have hr : recorded w parse s = some o := by simp [recorded, value, hp, hf]
      have hok : SessionOk w parse (l ++ [s])
          { c.parse s with outputs := insert natCmp (c.index + 1) o c.outputs } :=
        { index := hlen, sortedI := hsI
          sortedO := insert_sorted natCmp_lawful _ _ _ h.sortedO
          inputs := hin, outputs := hout1 o hr }
      have hg : get natCmp (c.parse s).index (insert natCmp (c.index + 1) o c.outputs) = some o := by
        rw [get_insert_nat _ _ _ _ h.sortedO]; simp [Context.parse]
      rw [hg]
      simp only
      cases hd : o.display with
      | none => exact ⟨hok, by simp [printed, value, hp, hf, hd]⟩
      | some t => exact ⟨hok, by simp [printed, value, hp, hf, hd]⟩

theorem session_ok (h : List Call) : SessionOk w parse (submitted h) (session w parse h) := by
  have key : ∀ (h : List Call) (l : List Str) (c : Context), SessionOk w parse l c →
      SessionOk w parse (l ++ submitted h) (h.foldl (stepCall w parse) c) := by
    intro h
    induction h with
    | nil => intro l c hc; simpa [submitted] using hc
    | cons x h ih =>
      intro l c hc
      cases x with
      | evaluate s =>
        have := ih (l ++ [s]) _ (evaluate_spec w parse hc s).1
        simpa [submitted, stepCall] using this
      | last => exact ih l c hc
  exact key h [] {} (sessionOk_nil w parse)

/-- **C22**.  After any history of calls, the outcome of evaluating a text (value, error or panic) is
that of parsing, evaluating and printing this text alone. -/
theorem C22_outcome_independent_of_history (h : List Call) (s : Str) :
    ((session w parse h).evaluate w parse s).out = printed w parse s :=
  (evaluate_spec w parse (session_ok w parse h) s).2

/-- Two sessions with different pasts answer the same. -/
theorem C22_sessions_agree (h h' : List Call) (s : Str) :
    ((session w parse h).evaluate w parse s).out = ((session w parse h').evaluate w parse s).out := by
  rw [C22_outcome_independent_of_history, C22_outcome_independent_of_history]

/-- **C22** (earlier records).  Further calls never change an input or output that could have been
recorded before. -/
theorem C22_records_are_kept (h h' : List Call) (i : Nat) (hi : i ≤ (session w parse h).index) :
    get natCmp i (session w parse (h ++ h')).inputs = get natCmp i (session w parse h).inputs ∧
    get natCmp i (session w parse (h ++ h')).outputs = get natCmp i (session w parse h).outputs := by
  have a := session_ok w parse h
  have b := session_ok w parse (h ++ h')
  have hs : submitted (h ++ h') = submitted h ++ submitted h' := by
    clear a b hi
    induction h with
    | nil => rfl
    | cons x h ih => cases x <;> simp [submitted, ih]
  rw [a.index] at hi
  rw [b.inputs, a.inputs, b.outputs, a.outputs, hs]
  by_cases h0 : i = 0
  · simp [h0]
  · simp only [h0, if_false]
    rw [List.getElem?_append_left (by omega)]
    exact ⟨rfl, rfl⟩

/-- **C23**.  After any history: the index is the number of texts submitted, exactly the indices
`1..index` have a recorded input, namely the text submitted, and an output is recorded for exactly
those indices whose text evaluates successfully, namely its value. -/
theorem C23_session_state (h : List Call) :
    (session w parse h).index = (submitted h).length ∧
    (∀ i, get natCmp i (session w parse h).inputs = if i = 0 then none else (submitted h)[i - 1]?) ∧
    (∀ i o, get natCmp i (session w parse h).outputs = some o ↔
      0 < i ∧ ∃ s, (submitted h)[i - 1]? = some s ∧ value w parse s = .ok o) := by
  have a := session_ok w parse h
  refine ⟨a.index, a.inputs, ?_⟩
  intro i o
  rw [a.outputs]
  by_cases h0 : i = 0
  · simp [h0]
  · simp only [h0, if_false, Option.bind_eq_some_iff, recorded]
    constructor
    · rintro ⟨s, hs, hv⟩
      refine ⟨by omega, s, hs, ?_⟩
      split at hv
      · rename_i o' ho'
        injection hv with hv
        rw [ho', hv]
      · cases hv
    · rintro ⟨_, s, hs, hv⟩
      exact ⟨s, hs, by rw [hv]⟩

/-- **C23** (range).  No input or output is recorded beyond the index. -/
theorem C23_nothing_beyond_index (h : List Call) (i : Nat) (hi : (session w parse h).index < i) :
    get natCmp i (session w parse h).inputs = none ∧ get natCmp i (session w parse h).outputs = none := by
  have a := session_ok w parse h
  rw [a.index] at hi
  rw [a.inputs, a.outputs, if_neg (by omega), if_neg (by omega), List.getElem?_eq_none (by omega)]
  exact ⟨rfl, rfl⟩

/-- **C24**.  The last-result query returns the value of the most recently submitted text; it panics if
there is none or its evaluation failed, and never returns an error. -/
theorem C24_last (h : List Call) :
    (session w parse h).last =
      match (submitted h).getLast? with
      | none => .panic
      | some s => match value w parse s with
        | .ok o => .ok o
        | _ => .panic := by
  have a := session_ok w parse h
  unfold Context.last
  rw [a.outputs, a.index]
  cases hl : (submitted h).getLast? with
  | none =>
    have : submitted h = [] := by simpa using hl
    simp [this]
  | some s =>
    have hne : submitted h ≠ [] := by
      intro he; rw [he] at hl; simp at hl
    have hlen : 0 < (submitted h).length := List.length_pos_iff.2 hne
    have hg : (submitted h)[(submitted h).length - 1]? = some s := by
      rw [← List.getLast?_eq_getElem?]; exact hl
    rw [if_neg (by omega), hg]
    simp only [Option.bind_some, recorded]
    cases hv : value w parse s <;> simp

/-- Asking twice gives the same answer, and asking does not disturb the session. -/
theorem C24_last_is_pure (h : List Call) : session w parse (h ++ [.last]) = session w parse h := by
  simp [session, stepCall]

/-- A session where the second of two evaluations fails: `last` then panics although there is an
earlier result. -/
example : (session .w64 (fun s => if s = c!"1" then .ok (.integer 1) else .err .unknown)
    [.evaluate c!"1", .evaluate c!"?"]).last = .panic := by
  rw [C24_last]; rfl
example : (session .w64 (fun s => if s = c!"1" then .ok (.integer 1) else .err .unknown)
    [.evaluate c!"?", .evaluate c!"1"]).last = .ok (.integer 1) := by
  rw [C24_last]; rfl

/-! ### C25 -/

/-- A call on the playground. -/
inductive PlayCall where
  | result (s : Str)
  | resultTex

variable (tex : AST → Option Str) (dbg : SMError → Str)

/-- One playground call. -/
def playStep (p : Playground) : PlayCall → PlayOut × Playground
  | .result s => p.result w parse dbg s
  | .resultTex => p.resultTex tex dbg

/-- The answers to a sequence of playground calls on a fresh page; `none` is a panic. -/
def answers : Playground → List PlayCall → List PlayOut
  | _, [] => []
  | p, x :: l =>
    let r := playStep w parse tex dbg p x
    r.1 :: answers r.2 l

/-- The most recent text submitted before a call. -/
def latest : List PlayCall → Option Str
  | [] => none
  | .result s :: l => (latest l).or (some s)
  | .resultTex :: l => latest l

/-- Whether call `x` panics by itself after the calls `before`. -/
def PanicsItself (before : List PlayCall) : PlayCall → Prop
  | .result s => printed w parse s = .panic
  | .resultTex => ¬ ∃ s o t, latest before = some s ∧ value w parse s = .ok o ∧ tex o = some t

theorem poisoned_answers (p : Playground) (hp : p.poisoned = true) (l : List PlayCall) :
    answers w parse tex dbg p l = l.map (fun _ => none) := by
  induction l with
  | nil => rfl
  | cons x l ih =>
    have : playStep w parse tex dbg p x = (none, p) := by
      cases x <;> simp [playStep, Playground.result, Playground.resultTex, hp]
    simp [answers, this, ih]

/-- The texts submitted in a sequence of playground calls. -/
def playSubmitted : List PlayCall → List Str
  | [] => []
  | .result s :: l => s :: playSubmitted l
  | .resultTex :: l => playSubmitted l

theorem latest_eq (l : List PlayCall) : latest l = (playSubmitted l).getLast? := by
  induction l with
  | nil => rfl
  | cons x l ih =>
    cases x with
    | result s =>
      simp only [latest, playSubmitted, ih]
      cases h : playSubmitted l with
      | nil => rfl
      | cons y l' => simp [List.getLast?_cons]
    | resultTex => simp [latest, playSubmitted, ih]

theorem playSubmitted_append (l l' : List PlayCall) :
    playSubmitted (l ++ l') = playSubmitted l ++ playSubmitted l' := by
  induction l with
  | nil => rfl
  | cons x l ih => cases x <;> simp [playSubmitted, ih]

theorem last_of_ok {l : List Str} {c : Context} (h : SessionOk w parse l c) (o : AST) :
    c.last = .ok o ↔ ∃ s, l.getLast? = some s ∧ value w parse s = .ok o := by
  unfold Context.last
  rw [h.outputs, h.index]
  cases hl : l.getLast? with
  | none =>
    have : l = [] := by simpa using hl
    simp [this]
  | some s =>
    have hne : l ≠ [] := by
      intro he; rw [he] at hl; simp at hl
    have hlen : 0 < l.length := List.length_pos_iff.2 hne
    have hg : l[l.length - 1]? = some s := by
      rw [← List.getLast?_eq_getElem?]; exact hl
    rw [if_neg (by omega), hg]
    simp only [Option.bind_some, recorded]
    cases hv : value w parse s <;> simp [hv]

theorem last_ne_err (c : Context) (e : SMError) : c.last ≠ .err e := by
  unfold Context.last; split <;> simp

/-- One call on an unpoisoned playground. -/
theorem playStep_spec {before : List PlayCall} {p : Playground} (hp : p.poisoned = false)
    (h : SessionOk w parse (playSubmitted before) p.runner) (x : PlayCall) :
    ((playStep w parse tex dbg p x).1 = none ↔ PanicsItself w parse tex before x) ∧
    ((playStep w parse tex dbg p x).2.poisoned = true ↔ PanicsItself w parse tex before x) ∧
    SessionOk w parse (playSubmitted (before ++ [x])) (playStep w parse tex dbg p x).2.runner := by
  rw [playSubmitted_append]
  cases x with
  | result s =>
    have hs := evaluate_spec w parse h s
    simp only [playStep, Playground.result, hp, PanicsItself, playSubmitted]
    rw [← hs.2]
    cases ho : (p.runner.evaluate w parse s).out with
    | ok t => exact ⟨by simp, by simp [hp], hs.1⟩
    | err t => exact ⟨by simp, by simp [hp], hs.1⟩
    | panic => exact ⟨by simp, by simp, hs.1⟩
  | resultTex =>
    simp only [playStep, Playground.resultTex, hp, PanicsItself, playSubmitted, List.append_nil]
    have hl := last_of_ok w parse h
    cases ho : p.runner.last with
    | err e => exact absurd ho (last_ne_err _ _)
    | panic =>
      have : ¬ ∃ s o t, latest before = some s ∧ value w parse s = .ok o ∧ tex o = some t := by
        rintro ⟨s, o, t, h1, h2, _⟩
        rw [latest_eq] at h1
        rw [(hl o).2 ⟨s, h1, h2⟩] at ho
        cases ho
      exact ⟨iff_of_true rfl this, iff_of_true rfl this, h⟩
    | ok o =>
      obtain ⟨s, h1, h2⟩ := (hl o).1 ho
      rw [← latest_eq] at h1
      cases ht : tex o with
      | none =>
        have : ¬ ∃ s o t, latest before = some s ∧ value w parse s = .ok o ∧ tex o = some t := by
          rintro ⟨s', o', t', h1', h2', h3'⟩
          rw [h1] at h1'; injection h1' with h1'; subst h1'
          rw [h2] at h2'; injection h2' with h2'; subst h2'
          rw [ht] at h3'; cases h3'
        refine ⟨iff_of_true ?_ this, iff_of_true ?_ this, ?_⟩ <;> simp only [ht] <;> first | rfl | exact h
      | some t =>
        have : ∃ s o t, latest before = some s ∧ value w parse s = .ok o ∧ tex o = some t :=
          ⟨s, o, t, h1, h2, ht⟩
        have h3 : ¬ PanicsItself w parse tex before .resultTex := fun hc => hc this
        refine ⟨⟨by simp [ht], fun hc => absurd this hc⟩, ⟨by simp [ht, hp], fun hc => absurd this hc⟩, ?_⟩
        simpa [ht] using h

/-- **C25** (violated).  The i-th playground call is answered exactly when neither it nor any earlier
call panics by itself: one panicking call makes every later call fail, whatever its input. -/
theorem C25_answered_iff (calls : List PlayCall) (i : Nat) (hi : i < calls.length) :
    (∃ t, (answers w parse tex dbg {} calls)[i]? = some (some t)) ↔
      ∀ j (hj : j < calls.length), j ≤ i →
        ¬ PanicsItself w parse tex (calls.take j) calls[j] := by
  have key : ∀ (rest before : List PlayCall) (p : Playground), p.poisoned = false →
      SessionOk w parse (playSubmitted before) p.runner → ∀ i, i < rest.length →
      ((∃ t, (answers w parse tex dbg p rest)[i]? = some (some t)) ↔
        ∀ j (hj : j < rest.length), j ≤ i →
          ¬ PanicsItself w parse tex (before ++ rest.take j) rest[j]) := by
    intro rest
    induction rest with
    | nil => intro before p _ _ i hi; simp at hi
    | cons x rest ih =>
      intro before p hp hs i hi
      have hstep := playStep_spec w parse tex dbg hp hs x
      simp only [answers]
      cases hq : (playStep w parse tex dbg p x).2.poisoned with
      | true =>
        have hpan := hstep.2.1.1 hq
        rw [poisoned_answers w parse tex dbg _ hq]
        constructor
        · rintro ⟨t, ht⟩
          cases i with
          | zero =>
            have := hstep.1.2 hpan
            simp [this] at ht
          | succ i =>
            rw [List.getElem?_cons_succ, List.getElem?_map] at ht
            cases hr : rest[i]? <;> simp [hr] at ht
        · intro h
          exact absurd (by simpa only [List.take_zero, List.append_nil, List.getElem_cons_zero] using hpan) (h 0 (Nat.zero_lt_succ _) (Nat.zero_le _))
      | false =>
        have hnp : ¬ PanicsItself w parse tex before x := by
          intro hc
          rw [hstep.2.1.2 hc] at hq; cases hq
        cases i with
        | zero =>
          constructor
          · rintro _ j hj hj0
            obtain rfl : j = 0 := by omega
            simpa using hnp
          · intro _
            have : (playStep w parse tex dbg p x).1 ≠ none := fun hc => hnp (hstep.1.1 hc)
            obtain ⟨t, ht⟩ := Option.ne_none_iff_exists'.1 this
            exact ⟨t, by simp [ht]⟩
        | succ i =>
          have := ih (before ++ [x]) _ hq hstep.2.2 i (by simpa using hi)
          simp only [List.getElem?_cons_succ]
          rw [this]
          constructor
          · intro h j hj hji
            cases j with
            | zero => simpa using hnp
            | succ j => simpa using h j (by simpa using hj) (by omega)
          · intro h j hj hji
            have := h (j + 1) (Nat.succ_lt_succ hj) (by omega)
            simpa only [List.take_succ_cons, List.getElem_cons_succ, List.append_assoc,
              List.singleton_append] using this
  simpa using key calls [] {} rfl (sessionOk_nil w parse) i hi

/-- **C25** (without panics every call is answered). -/
theorem C25_no_panic_all_answered (calls : List PlayCall)
    (h : ∀ j (hj : j < calls.length), ¬ PanicsItself w parse tex (calls.take j) calls[j])
    (i : Nat) (hi : i < calls.length) :
    ∃ t, (answers w parse tex dbg {} calls)[i]? = some (some t) :=
  (C25_answered_iff w parse tex dbg calls i hi).2 fun j hj _ => h j hj

/-- **C25** (witness).  Asking for TeX on a fresh page breaks the page for good: no later call, with any
input whatsoever, is answered. -/
theorem C25_witness_tex_first (calls : List PlayCall) (i : Nat) (hi : i < calls.length + 1) :
    ¬ ∃ t, (answers w parse tex dbg {} (.resultTex :: calls))[i]? = some (some t) := by
  rw [C25_answered_iff w parse tex dbg _ i (by simpa using hi)]
  intro h
  apply h 0 (by simp) (by omega)
  rintro ⟨s, o, t, h1, _⟩
  simp [latest] at h1

/-- **C25** (witness).  So does evaluating a text that parses to the empty statement. -/
theorem C25_witness_empty_input (s : Str) (hs : parse s = .ok .empty) (calls : List PlayCall) (i : Nat)
    (hi : i < calls.length + 1) :
    ¬ ∃ t, (answers w parse tex dbg {} (.result s :: calls))[i]? = some (some t) := by
  rw [C25_answered_iff w parse tex dbg _ i (by simpa using hi)]
  intro h
  apply h 0 (by simp) (by omega)
  simp [PanicsItself, printed, value, hs, forward, AST.display]

/-- An error, by contrast, is harmless: the next evaluation is answered. -/
example : answers .w64 (fun s => if s = c!"1" then .ok (.integer 1) else .err .unknown)
    (fun _ => none) (fun _ => c!"Unknown") {} [.result c!"?", .result c!"1"]
    = [some c!"Unknown", some c!"1"] := by decide

end SM.Props
