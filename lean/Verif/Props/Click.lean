import Verif.Eval.Page
import Verif.Export.Tex
import Verif.Props.Session
import Verif.Props.Typed
/-
C61: the page as people use it, by clicking.
-/
namespace SM.Props
open SM SM.Peg

section
variable (w : Width) (parse : Str → SMResult AST) (tex : AST → Option Str) (dbg : SMError → Str)

/-- What a sequence of clicks shows. -/
def clicks : Playground → List Str → List Shown
  | _, [] => []
  | p, s :: l =>
    let r := p.click w parse tex dbg s
    r.1 :: clicks r.2 l

/-- What a click shows on a page that still works: nothing if evaluation panics, only the message of an error, otherwise
the printed value and its formula. -/
def alone (s : Str) : Shown :=
  match value w parse s with
  | .panic => ⟨none, none⟩
  | .err e => ⟨some (dbg e), none⟩
  | .ok v => ⟨v.display, v.display.bind fun _ => tex v⟩

/-- The text has a value, which can be printed and set as a formula. -/
def FineClick (s : Str) : Prop := ∃ v, value w parse s = .ok v ∧ v.display ≠ none ∧ tex v ≠ none

theorem click_poisoned {p : Playground} (hp : p.poisoned = true) (s : Str) :
    p.click w parse tex dbg s = (⟨none, none⟩, p) := by
  simp [Playground.click, Playground.result, hp]

theorem clicks_poisoned {p : Playground} (hp : p.poisoned = true) (l : List Str) :
    clicks w parse tex dbg p l = l.map fun _ => ⟨none, none⟩ := by
  induction l with
  | nil => rfl
  | cons s l ih => simp [clicks, click_poisoned w parse tex dbg hp, ih]

theorem click_spec {before : List Str} {p : Playground} (hp : p.poisoned = false)
    (h : SessionOk w parse before p.runner) (s : Str) :
    (p.click w parse tex dbg s).1 = alone w parse tex dbg s ∧
    ((p.click w parse tex dbg s).2.poisoned = false ↔ FineClick w parse tex s) ∧
    SessionOk w parse (before ++ [s]) (p.click w parse tex dbg s).2.runner := by
  obtain ⟨h1, h2⟩ := evaluate_spec w parse h s
  have hl := last_of_ok w parse h1
  simp only [List.getLast?_append, List.getLast?_singleton, Option.some_or] at hl
  unfold printed at h2
  unfold alone FineClick
  cases hv : value w parse s with
  | panic =>
    rw [hv] at h2
    simp only [Playground.click, Playground.result, hp, h2, Out.panic_bind]
    exact ⟨rfl, by simp, h1⟩
  | err e =>
    rw [hv] at h2
    have h3 : (p.runner.evaluate w parse s).ctx.last = .panic := by
      cases hc : (p.runner.evaluate w parse s).ctx.last with
      | panic => rfl
      | err e => exact absurd hc (last_ne_err _ _)
      | ok o =>
        obtain ⟨_, e1, e2⟩ := (hl o).1 hc
        cases e1
        rw [hv] at e2
        cases e2
    simp [Playground.click, Playground.result, hp, h2, Playground.resultTex, h3, h1]
  | ok v =>
    rw [hv] at h2
    have h3 := (hl v).2 ⟨s, rfl, hv⟩
    cases hd : v.display with
    | none =>
      rw [Out.ok_bind, hd] at h2
      simp [Playground.click, Playground.result, hp, h2, h1, hd]
    | some t =>
      rw [Out.ok_bind, hd] at h2
      cases ht : tex v <;> simp [Playground.click, Playground.result, hp, h2, Playground.resultTex, h3, h1, hd, ht]

/-- **C61**.  A click shows what its text gives by itself as long as every text before it was fine; after a text that was
not fine, clicks show nothing any more, whatever their text. -/
theorem C61_clicks (l : List Str) (i : Nat) (hi : i < l.length) :
    ((∀ s ∈ l.take i, FineClick w parse tex s) → (clicks w parse tex dbg {} l)[i]? = some (alone w parse tex dbg l[i])) ∧
    ((∃ s ∈ l.take i, ¬ FineClick w parse tex s) → (clicks w parse tex dbg {} l)[i]? = some ⟨none, none⟩) := by
  have key : ∀ (rest before : List Str) (p : Playground), p.poisoned = false → SessionOk w parse before p.runner →
      ∀ i (hi : i < rest.length),
      ((∀ s ∈ rest.take i, FineClick w parse tex s) →
        (clicks w parse tex dbg p rest)[i]? = some (alone w parse tex dbg rest[i])) ∧
      ((∃ s ∈ rest.take i, ¬ FineClick w parse tex s) → (clicks w parse tex dbg p rest)[i]? = some ⟨none, none⟩) := by
    intro rest
    induction rest with
    | nil => intro _ _ _ _ i hi; simp at hi
    | cons s rest ih =>
      intro before p hp hs i hi
      obtain ⟨h1, h2, h3⟩ := click_spec w parse tex dbg hp hs s
      cases i with
      | zero => simp [clicks, h1]
      | succ i =>
        have hi' : i < rest.length := by simpa using hi
        simp only [clicks, List.getElem?_cons_succ, List.take_succ_cons, List.mem_cons, List.getElem_cons_succ]
        by_cases hf : FineClick w parse tex s
        · have := ih _ _ (h2.2 hf) h3 i hi'
          refine ⟨fun h => this.1 fun t ht => h t (.inr ht), ?_⟩
          rintro ⟨t, rfl | ht, hn⟩
          · exact absurd hf hn
          · exact this.2 ⟨t, ht, hn⟩
        · refine ⟨fun h => absurd (h s (.inl rfl)) hf, fun _ => ?_⟩
          rw [clicks_poisoned w parse tex dbg (by
            cases hq : (p.click w parse tex dbg s).2.poisoned with
            | true => rfl
            | false => exact absurd (h2.1 hq) hf)]
          simp [hi']
  exact key l [] {} rfl (sessionOk_nil w parse) i hi

/-- **C61**.  An error ends the page: the message is shown, and no later click shows anything. -/
theorem C61_errors_end_the_page (l : List Str) (i j : Nat) (hi : i < l.length) (hj : i < j) (hj' : j < l.length)
    {e : SMError} (h : value w parse l[i] = .err e) :
    (clicks w parse tex dbg {} l)[j]? = some ⟨none, none⟩ := by
  refine (C61_clicks w parse tex dbg l j hj').2 ⟨l[i], ?_, ?_⟩
  · rw [List.mem_take_iff_getElem]
    exact ⟨i, by omega, rfl⟩
  · rintro ⟨v, hv, -⟩
    rw [h] at hv
    cases hv

/-! ### With the modelled evaluator, printer and TeX -/

/-- **C61**.  Every value other than the empty statement can be printed and set as a formula. -/
theorem C61_fine_iff (s : Str) : FineClick w parse AST.toTex s ↔ ∃ v, value w parse s = .ok v ∧ v ≠ .empty := by
  constructor
  · rintro ⟨v, hv, hd, -⟩
    refine ⟨v, hv, ?_⟩
    rintro rfl
    exact hd (by rw [AST.display])
  · rintro ⟨v, hv, hne⟩
    refine ⟨v, hv, ?_⟩
    have ha : Atom v := by
      rw [value] at hv
      cases hp : parse s with
      | ok a =>
        rw [hp] at hv
        exact C20_result_is_atom w a v hv
      | err e => rw [hp] at hv; cases hv
      | panic => rw [hp] at hv; cases hv
    cases v <;> simp [Atom] at ha <;> simp [AST.display, AST.toTex] at hne ⊢
end

variable {u : Uni} {msg : Str → Str} {w : Width}

theorem printed_of_answers {s : Str} {r : SMResult Str} (h : Answers u msg w s r) : printed w (replParse u msg) s = r := by
  have := h []
  rwa [C22_outcome_independent_of_history] at this

theorem fine_of_answers {s t : Str} (h : Answers u msg w s (.ok t)) : FineClick w (replParse u msg) AST.toTex s := by
  rw [C61_fine_iff]
  have h := printed_of_answers h
  rw [printed] at h
  cases hv : value w (replParse u msg) s with
  | ok v =>
    refine ⟨v, rfl, ?_⟩
    rintro rfl
    rw [hv, Out.ok_bind, AST.display] at h
    cases h
  | err e => rw [hv] at h; cases h
  | panic => rw [hv] at h; cases h

theorem not_fine_of_answers {s : Str} {r : SMResult Str} (h : Answers u msg w s r) (hr : ∀ t, r ≠ .ok t) :
    ¬ FineClick w (replParse u msg) AST.toTex s := by
  rintro ⟨v, hv, hd, -⟩
  have h := printed_of_answers h
  rw [printed, hv, Out.ok_bind] at h
  cases hd' : v.display with
  | none => exact hd hd'
  | some t =>
    rw [hd'] at h
    exact hr t h.symm

theorem alone_of_answers {s t : Str} {dbg : SMError → Str} (h : Answers u msg w s (.ok t)) :
    ∃ x, alone w (replParse u msg) AST.toTex dbg s = ⟨some t, some x⟩ := by
  obtain ⟨v, hv, hd, ht⟩ := fine_of_answers h
  have h := printed_of_answers h
  rw [printed, hv, Out.ok_bind] at h
  rw [alone, hv]
  cases hd' : v.display with
  | none => exact absurd hd' hd
  | some t' =>
    rw [hd'] at h
    cases h
    cases ht' : v.toTex with
    | none => exact absurd ht' ht
    | some x => exact ⟨x, by simp [hd', ht']⟩

theorem alone_of_error {s : Str} {e : SMError} {dbg : SMError → Str} (h : Answers u msg w s (.err e)) :
    alone w (replParse u msg) AST.toTex dbg s = ⟨some (dbg e), none⟩ := by
  have h := printed_of_answers h
  rw [printed] at h
  rw [alone]
  cases hv : value w (replParse u msg) s with
  | ok v =>
    rw [hv, Out.ok_bind] at h
    cases hd : v.display <;> rw [hd] at h <;> cases h
  | err e =>
    rw [hv] at h
    cases h
    rfl
  | panic => rw [hv] at h; cases h

/-- **C61**.  If a session answers each of the texts, then so does the page: each click shows the answer and a formula. -/
theorem C61_answered (dbg : SMError → Str) (l : List (Str × Str)) (h : ∀ x ∈ l, Answers u msg w x.1 (.ok x.2)) (i : Nat)
    (hi : i < l.length) :
    ∃ x, (clicks w (replParse u msg) AST.toTex dbg {} (l.map Prod.fst))[i]? = some ⟨some l[i].2, some x⟩ := by
  obtain ⟨x, hx⟩ := alone_of_answers (dbg := dbg) (h l[i] (List.getElem_mem hi))
  refine ⟨x, ?_⟩
  have := (C61_clicks w (replParse u msg) AST.toTex dbg (l.map Prod.fst) i (by simpa using hi)).1 ?_
  · rw [this, List.getElem_map, hx]
  · intro s hs
    have := List.mem_of_mem_take hs
    obtain ⟨y, hy, rfl⟩ := List.mem_map.1 this
    exact fine_of_answers (h y hy)

/-- **C61** (violation).  A text that a session does not answer, be it with an error or a panic, ends the page: whatever was
clicked before, and whatever text a later click has, the later click shows nothing. -/
theorem C61_unanswered (dbg : SMError → Str) {s : Str} {r : SMResult Str} (h : Answers u msg w s r) (hr : ∀ t, r ≠ .ok t)
    (before after : List Str) (i : Nat) (hi : before.length < i) (hi' : i < (before ++ s :: after).length) :
    (clicks w (replParse u msg) AST.toTex dbg {} (before ++ s :: after))[i]? = some ⟨none, none⟩ := by
  refine (C61_clicks w (replParse u msg) AST.toTex dbg _ i hi').2 ⟨s, ?_, not_fine_of_answers h hr⟩
  rw [List.mem_take_iff_getElem]
  exact ⟨before.length, by simp at hi' ⊢; omega, by simp⟩

theorem answers_sum (L : Lawful u) (msg : Str → Str) (w : Width) (a b : Nat) {wb wa wl wr : Str} (hb : Blank u wb)
    (ha : Blank u wa) (hl : Blank u wl) (hr : Blank u wr) :
    ∃ m, Answers u msg w (wl ++ ((numeral a ++ (wb ++ '+' :: (wa ++ numeral b))) ++ wr)) (.err (.unimplemented m)) := by
  have h := C54_operators L msg w (.mk [] (.atom (.int a)) []) (.mk [] (.atom (.int b)) []) .plus wb wa
    (intBinary_ok a b hb ha (by decide) (fun h => nomatch h)) hl hr
    (by rw [binaryText, intTerm_text]; exact numeral_wordless a _) (intTerm_value a) (intTerm_value b) (by decide)
    (by simp)
  rw [binaryText, intTerm_text, intTerm_text] at h
  exact h

/-- **C61** (violation).  Adding two numbers ends the page. -/
theorem C61_sums_end_the_page (L : Lawful u) (dbg : SMError → Str) (a b : Nat) {wb wa wl wr : Str} (hb : Blank u wb)
    (ha : Blank u wa) (hl : Blank u wl) (hr : Blank u wr) (before after : List Str) (i : Nat) (hi : before.length < i)
    (hi' : i < (before ++ (wl ++ ((numeral a ++ (wb ++ '+' :: (wa ++ numeral b))) ++ wr)) :: after).length) :
    (clicks w (replParse u msg) AST.toTex dbg {}
      (before ++ (wl ++ ((numeral a ++ (wb ++ '+' :: (wa ++ numeral b))) ++ wr)) :: after))[i]? = some ⟨none, none⟩ := by
  obtain ⟨m, h⟩ := answers_sum L msg w a b hb ha hl hr
  exact C61_unanswered dbg h (fun t => by simp) before after i hi hi'

/-- The texts that the page offers at the start (sm-playground/index.html:30, 41, 53). -/
def offered : List Str :=
  [c!"2a*3b", c!"expand((1+x)^2)", c!"[[1], 2, Nothing, Sequence(2, Sequence(3, 4))]"]

theorem answers_pairs (L : Lawful u) (msg : Str → Str) (w : Width) {x : Str} {l : List (Pair R)} {r : SMResult Str}
    (h : parsesTo x l = true) (hp : x.all (fun d => decide (Plain d)) = true) (hr : shown w (parsePairs (replCfg msg x) l) = r) :
    Answers u msg w x r := by
  intro hist
  rw [C22_outcome_independent_of_history, ← hr, ← parse_pairs L h hp (replCfg msg x) rfl, printed, value, shown, replParse]
  cases parseText u (replCfg msg x) <;> rfl

/-- **C61** (violation).  Each of the texts that the page offers is answered with an error, and so ends the page. -/
theorem C61_offered (L : Lawful u) (msg : Str → Str) (w : Width) (s : Str) (hs : s ∈ offered) :
    ∃ m, Answers u msg w s (.err (.unimplemented m)) := by
  simp only [offered, List.mem_cons, List.not_mem_nil, or_false] at hs
  rcases hs with rfl | rfl | rfl
  · exact ⟨_, answers_pairs L msg w (l := [.mk .expression 0 5 c!"2a*3b" [.mk .expr 0 5 c!"2a*3b" [.mk .term 0 2 c!"2a" [.mk .node 0 2 c!"2a" [.mk
      .space_call 0 2 c!"2a" [.mk .Integer 0 1 c!"2" [], .mk .Symbol 1 2 c!"a" [.mk .SYMBOL 1 2 c!"a" []]]]], .mk
      .Multiply 2 3 c!"*" [], .mk .term 3 5 c!"3b" [.mk .node 3 5 c!"3b" [.mk .space_call 3 5 c!"3b" [.mk .Integer 3 4
      c!"3" [], .mk .Symbol 4 5 c!"b" [.mk .SYMBOL 4 5 c!"b" []]]]]]], .mk .EOI 5 5 c!"" []])
      (by decide +kernel) (by decide) rfl⟩
  · exact ⟨_, answers_pairs L msg w (l := [.mk .expression 0 15 c!"expand((1+x)^2)" [.mk .expr 0 15 c!"expand((1+x)^2)" [.mk .term 0 15
      c!"expand((1+x)^2)" [.mk .node 0 15 c!"expand((1+x)^2)" [.mk .apply_call 0 15 c!"expand((1+x)^2)" [.mk .Symbol 0
      6 c!"expand" [.mk .SYMBOL 0 6 c!"expand" []], .mk .apply 6 15 c!"((1+x)^2)" [.mk .apply_kv 7 14 c!"(1+x)^2" [.mk
      .expr 7 14 c!"(1+x)^2" [.mk .term 7 12 c!"(1+x)" [.mk .node 7 12 c!"(1+x)" [.mk .expr 8 11 c!"1+x" [.mk .term 8
      9 c!"1" [.mk .node 8 9 c!"1" [.mk .data 8 9 c!"1" [.mk .Integer 8 9 c!"1" []]]], .mk .Plus 9 10 c!"+" [], .mk
      .term 10 11 c!"x" [.mk .node 10 11 c!"x" [.mk .data 10 11 c!"x" [.mk .Symbol 10 11 c!"x" [.mk .SYMBOL 10 11
      c!"x" []]]]]]]], .mk .Power 12 13 c!"^" [], .mk .term 13 14 c!"2" [.mk .node 13 14 c!"2" [.mk .data 13 14 c!"2"
      [.mk .Integer 13 14 c!"2" []]]]]]]]]]]], .mk .EOI 15 15 c!"" []])
      (by decide +kernel) (by decide) rfl⟩
  · exact ⟨_, answers_pairs L msg w (l := [.mk .expression 0 46 c!"[[1], 2, Nothing, Sequence(2, Sequence(3, 4))]" [.mk .expr 0 46
      c!"[[1], 2, Nothing, Sequence(2, Sequence(3, 4))]" [.mk .term 0 46
      c!"[[1], 2, Nothing, Sequence(2, Sequence(3, 4))]" [.mk .node 0 46
      c!"[[1], 2, Nothing, Sequence(2, Sequence(3, 4))]" [.mk .data 0 46
      c!"[[1], 2, Nothing, Sequence(2, Sequence(3, 4))]" [.mk .list 0 46
      c!"[[1], 2, Nothing, Sequence(2, Sequence(3, 4))]" [.mk .expr 1 4 c!"[1]" [.mk .term 1 4 c!"[1]" [.mk .node 1 4
      c!"[1]" [.mk .data 1 4 c!"[1]" [.mk .list 1 4 c!"[1]" [.mk .expr 2 3 c!"1" [.mk .term 2 3 c!"1" [.mk .node 2 3
      c!"1" [.mk .data 2 3 c!"1" [.mk .Integer 2 3 c!"1" []]]]]]]]]], .mk .Comma 4 5 c!"," [], .mk .expr 6 7 c!"2"
      [.mk .term 6 7 c!"2" [.mk .node 6 7 c!"2" [.mk .data 6 7 c!"2" [.mk .Integer 6 7 c!"2" []]]]], .mk .Comma 7 8
      c!"," [], .mk .expr 9 16 c!"Nothing" [.mk .term 9 16 c!"Nothing" [.mk .node 9 16 c!"Nothing" [.mk .data 9 16
      c!"Nothing" [.mk .Symbol 9 16 c!"Nothing" [.mk .SYMBOL 9 16 c!"Nothing" []]]]]], .mk .Comma 16 17 c!"," [], .mk
      .expr 18 45 c!"Sequence(2, Sequence(3, 4))" [.mk .term 18 45 c!"Sequence(2, Sequence(3, 4))" [.mk .node 18 45
      c!"Sequence(2, Sequence(3, 4))" [.mk .apply_call 18 45 c!"Sequence(2, Sequence(3, 4))" [.mk .Symbol 18 26
      c!"Sequence" [.mk .SYMBOL 18 26 c!"Sequence" []], .mk .apply 26 45 c!"(2, Sequence(3, 4))" [.mk .apply_kv 27 28
      c!"2" [.mk .expr 27 28 c!"2" [.mk .term 27 28 c!"2" [.mk .node 27 28 c!"2" [.mk .data 27 28 c!"2" [.mk .Integer
      27 28 c!"2" []]]]]], .mk .Comma 28 29 c!"," [], .mk .apply_kv 30 44 c!"Sequence(3, 4)" [.mk .expr 30 44
      c!"Sequence(3, 4)" [.mk .term 30 44 c!"Sequence(3, 4)" [.mk .node 30 44 c!"Sequence(3, 4)" [.mk .apply_call 30
      44 c!"Sequence(3, 4)" [.mk .Symbol 30 38 c!"Sequence" [.mk .SYMBOL 30 38 c!"Sequence" []], .mk .apply 38 44
      c!"(3, 4)" [.mk .apply_kv 39 40 c!"3" [.mk .expr 39 40 c!"3" [.mk .term 39 40 c!"3" [.mk .node 39 40 c!"3" [.mk
      .data 39 40 c!"3" [.mk .Integer 39 40 c!"3" []]]]]], .mk .Comma 40 41 c!"," [], .mk .apply_kv 42 43 c!"4" [.mk
      .expr 42 43 c!"4" [.mk .term 42 43 c!"4" [.mk .node 42 43 c!"4" [.mk .data 42 43 c!"4" [.mk .Integer 42 43 c!"4"
      []]]]]]]]]]]]]]]]]]]]]]], .mk .EOI 46 46 c!"" []])
      (by decide +kernel) (by decide) rfl⟩

/-- Clicking on `6*7` and then on `2+2` and then on `6*7` again: 42, an error, nothing. -/
example (dbg : SMError → Str) : ∃ x e,
    clicks .w32 (replParse asciiUni msg) AST.toTex dbg {} [c!"6*7", c!"2+2", c!"6*7"] =
      [⟨some c!"42", some x⟩, ⟨some (dbg e), none⟩, ⟨none, none⟩] := by
  have h1 : Answers asciiUni msg .w32 c!"6*7" (.ok c!"42") :=
    C54_numbers lawful_asciiUni msg .w32 6 7 (wb := []) (wa := []) (wl := []) (wr := []) blank_nil blank_nil blank_nil blank_nil
  obtain ⟨m, h2⟩ := answers_sum lawful_asciiUni msg .w32 2 2 (wb := []) (wa := []) (wl := []) (wr := []) blank_nil blank_nil
    blank_nil blank_nil
  have h2 : Answers asciiUni msg .w32 c!"2+2" (.err (.unimplemented m)) := h2
  obtain ⟨x, hx⟩ := alone_of_answers (dbg := dbg) h1
  have hy := alone_of_error (dbg := dbg) h2
  have e0 := (C61_clicks .w32 (replParse asciiUni msg) AST.toTex dbg [c!"6*7", c!"2+2", c!"6*7"] 0 (by decide)).1 (by simp)
  have e1 := (C61_clicks .w32 (replParse asciiUni msg) AST.toTex dbg [c!"6*7", c!"2+2", c!"6*7"] 1 (by decide)).1
    (by simpa using fine_of_answers h1)
  have e2 := C61_unanswered dbg h2 (fun t => by simp) [c!"6*7"] [c!"6*7"] 2 (by decide) (by decide)
  refine ⟨x, .unimplemented m, ?_⟩
  apply List.ext_getElem?
  intro i
  match i with
  | 0 => rw [e0]; exact congrArg some hx
  | 1 => rw [e1]; exact congrArg some hy
  | 2 => exact e2
  | i + 3 => simp [clicks]

end SM.Props
