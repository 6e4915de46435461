import Verif.Props.Typed
import Verif.Props.Numeral
import Verif.Props.Click
/-
C64: answers are right.
-/
namespace SM.Props
open SM SM.Peg

variable {u : Uni}

/-- A call of the function called `name`, in any name space, with one list of arguments. -/
inductive CallOf : Str → List AST → AST → Prop
  | mk {s : Sym} {as : List AST} {opts : BMap AST AST} {pos : Position} : CallOf s.name as (.function s [.mk as opts pos])

/-- What an expression is worth.  Calls are worth what their arguments are worth, put into the function. -/
inductive Worth : AST → AST → Prop
  | literal {a : AST} : Atom a → Worth a a
  | product {v a b : AST} {x y : Int} : CallOf c!"times" [a, b] v → Worth a (.integer x) → Worth b (.integer y) →
      Worth v (.integer (x * y))
  | sum {v a b : AST} {x y : Int} : CallOf c!"plus" [a, b] v → Worth a (.integer x) → Worth b (.integer y) →
      Worth v (.integer (x + y))
  | power {v a b : AST} {x : Int} {n : Nat} : CallOf c!"power" [a, b] v → Worth a (.integer x) → Worth b (.integer n) →
      Worth v (.integer (x ^ n))
  | factorial {v a : AST} {n : Nat} : CallOf c!"factorial" [a] v → Worth a (.integer n) → Worth v (.integer n.factorial)
  | fibonacci {v a : AST} {n : Nat} : CallOf c!"fibonacci" [a] v → Worth a (.integer n) → Worth v (.integer (Nat.fib n))
  | first {v a : AST} {c : Char} {t : Str} : CallOf c!"first" [a] v → Worth a (.string (c :: t)) → Worth v (.string [c])
  | last {v a : AST} {c : Char} {t : Str} : CallOf c!"last" [a] v → Worth a (.string (t ++ [c])) → Worth v (.string [c])
  | length {v a : AST} {t : Str} : CallOf c!"length" [a] v → Worth a (.string t) → Worth v (.integer t.length)

/-- The answers that are not what the expression is worth. -/
inductive Deviates : AST → AST → Prop
  /-- A power with an exponent of 2^64 or more: the base. -/
  | power {v : AST} {x n : Int} : CallOf c!"power" [.integer x, .integer n] v → 2 ^ 64 ≤ n → Deviates v (.integer x)
  /-- The factorial or Fibonacci number of a decimal: the decimal. -/
  | decimal {v : AST} {f : Str} {d : Dec} {as : List AST} : f ∈ [c!"factorial", c!"fibonacci"] →
      CallOf f (.decimal d :: as) v → Deviates v (.decimal d)
  /-- The length of a text: the bytes of its encoding. -/
  | bytes {v : AST} {t : Str} {as : List AST} : CallOf c!"length" (.string t :: as) v → t.length < utf8Len t →
      Deviates v (.integer (utf8Len t))
  /-- More than one argument where there should be one: the value for the first. -/
  | ignored {f : Str} {v v' a b r : AST} {as : List AST} :
      f ∈ [c!"first", c!"last", c!"length", c!"factorial", c!"fibonacci"] → CallOf f (a :: b :: as) v → CallOf f [a] v' →
      Worth v' r → Deviates v r

theorem utf8Len_ge (t : Str) : t.length ≤ utf8Len t := by
  induction t with
  | nil => exact Nat.zero_le _
  | cons c t ih =>
    have := Char.utf8Size_pos c
    simp only [utf8Len, List.map_cons, List.sum_cons, List.length_cons] at ih ⊢
    omega

/-- A call of `f` with the arguments `as`, made of the parts of another one. -/
theorem callOf_same {f : Str} {s : Sym} (h : s.name = f) (as : List AST) (opts : BMap AST AST) (pos : Position) :
    CallOf f as (.function s [.mk as opts pos]) := h ▸ .mk

/-- The value for the first argument is the value, if there is no other. -/
theorem one_or_ignored {f : Str} {s : Sym} (h : s.name = f)
    (hf : f ∈ [c!"first", c!"last", c!"length", c!"factorial", c!"fibonacci"]) {a r : AST} {as : List AST}
    {opts : BMap AST AST} {pos : Position} (hw : ∀ v, CallOf f [a] v → Worth v r) :
    Worth (.function s [.mk (a :: as) opts pos]) r ∨ Deviates (.function s [.mk (a :: as) opts pos]) r := by
  cases as with
  | nil => exact .inl (hw _ (callOf_same h _ _ _))
  | cons b as => exact .inr (.ignored hf (callOf_same h _ _ _) (callOf_same h [a] opts pos) (hw _ (callOf_same h _ _ _)))

theorem typed_arg {s : Sym} {args : List AST} {opts : BMap AST AST} {pos : Position}
    (h : Typed (.function s [.mk args opts pos])) (hs : s.name ≠ c!"input" ∧ s.name ≠ c!"output") :
    ∀ a ∈ args, ¬ Negative a := by
  generalize hv : AST.function s [.mk args opts pos] = v at h
  cases h with
  | boolean | integer | decimal | string | symbol => cases hv
  | call _ h =>
    cases hv
    exact fun a ha => (h (.mk args opts pos) (by simp) a ha).not_negative
  | operator _ _ h =>
    cases hv
    exact fun a ha => (h a ha).not_negative
  | @history out as n q h =>
    cases out <;> cases hv
    · exact absurd rfl hs.1
    · exact absurd rfl hs.2

theorem integer_of_ok {α : Alg.Res Int} {r : AST} (h : AST.integer <$> ofAlgRes α = .ok r) :
    ∃ n, α = .ok n ∧ r = .integer n := by
  cases α with
  | ok n => cases h; exact ⟨n, rfl, rfl⟩
  | err e => cases h
  | panic => cases h

theorem factorial_ok {w : Width} {n : Nat} {m : Int} (h : Alg.factorialI w n = .ok m) : m = n.factorial := by
  by_cases hn : (n : Int) < 2 ^ (w.bits - 1)
  · rw [C01_factorial_value w n hn] at h
    cases h
    rfl
  · rw [C01_factorial_overflow w n (by omega)] at h
    cases h

theorem fibonacci_ok {w : Width} {n : Nat} {m : Int} (h : Alg.fibonacciI w n = .ok m) : m = Nat.fib n := by
  by_cases hn : (n : Int) < 2 ^ (w.bits - 1)
  · rw [C02_fibonacci_value w n hn] at h
    cases h
    rfl
  · rw [C02_fibonacci_overflow w n (by omega)] at h
    cases h

theorem power_right {s : Sym} (hs : s.name = c!"power") {a : Int} {k : Nat} {opts : BMap AST AST} {pos : Position} {r : AST}
    (h : evaluatePower [.integer a, .integer k] = .ok r) :
    Worth (.function s [.mk [.integer a, .integer k] opts pos]) r ∨
      Deviates (.function s [.mk [.integer a, .integer k] opts pos]) r := by
  have hp := callOf_same hs [.integer a, .integer k] opts pos
  rw [evaluatePower] at h
  split at h
  · rename_i hu
    cases h
    refine .inr (.power hp ?_)
    by_contra hc
    rw [toU64, if_pos ⟨Int.natCast_nonneg k, Int.not_le.1 hc⟩] at hu
    cases hu
  · rename_i n hu
    cases h
    have : n = k := by
      rw [toU64] at hu
      split at hu
      · exact (Option.some.inj hu).symm
      · cases hu
    rw [this]
    exact .inl (.power hp (.literal trivial) (.literal trivial))

theorem right_typed (w : Width) {v r : AST} (ht : Typed v) (h : forward w v = .ok r) : Worth v r ∨ Deviates v r := by
  match v, ht, h with
  | .integer n, _, h => cases h; exact .inl (.literal trivial)
  | .decimal n, _, h => cases h; exact .inl (.literal trivial)
  | .string n, _, h => cases h; exact .inl (.literal trivial)
  | .boolean n, _, h => cases h; exact .inl (.literal trivial)
  | .symbol n, _, h => cases h; exact .inl (.literal trivial)
  | .function s [], ht, _ => cases ht
  | .function s (_ :: _ :: _), _, h => cases h
  | .function s [.mk args opts pos], ht, h =>
    simp only [forward, evaluateFunction, Param.arguments] at h
    split at h
    · rename_i hs
      match args, h with
      | .string (c :: t) :: as, h =>
        cases h
        exact one_or_ignored hs (by decide) fun v hv => .first hv (.literal trivial)
    split at h
    · rename_i hs
      match args, h with
      | .string t :: as, h =>
        simp only [onArg0, last] at h
        cases hc : t.reverse with
        | nil => rw [hc] at h; cases h
        | cons c l =>
          rw [hc] at h
          cases h
          have : t = l.reverse ++ [c] := by rw [← List.reverse_reverse t, hc, List.reverse_cons]
          subst this
          exact one_or_ignored hs (by decide) fun v hv => .last hv (.literal trivial)
    split at h
    · rename_i hs
      match args, h with
      | .string t :: as, h =>
        cases h
        by_cases hl : t.length < utf8Len t
        · exact .inr (.bytes (callOf_same hs _ _ _) hl)
        · have := utf8Len_ge t
          rw [show utf8Len t = t.length by omega]
          exact one_or_ignored hs (by decide) fun v hv => .length hv (.literal trivial)
    split at h
    · rename_i hs
      match args, ht, h with
      | .integer n :: as, ht, h =>
        have hn := typed_arg ht (by rw [hs]; decide) (.integer n) (by simp)
        simp only [Negative] at hn
        obtain ⟨k, rfl⟩ : ∃ k : Nat, n = (k : Int) := ⟨n.natAbs, by omega⟩
        obtain ⟨m, hm, rfl⟩ := integer_of_ok h
        rw [factorial_ok hm]
        exact one_or_ignored hs (by decide) fun v hv => .factorial hv (.literal trivial)
      | .decimal d :: as, ht, h =>
        cases h
        exact .inr (.decimal (by decide) (callOf_same hs _ _ _))
    split at h
    · rename_i hs
      match args, ht, h with
      | .integer n :: as, ht, h =>
        have hn := typed_arg ht (by rw [hs]; decide) (.integer n) (by simp)
        simp only [Negative] at hn
        obtain ⟨k, rfl⟩ : ∃ k : Nat, n = (k : Int) := ⟨n.natAbs, by omega⟩
        obtain ⟨m, hm, rfl⟩ := integer_of_ok h
        rw [fibonacci_ok hm]
        exact one_or_ignored hs (by decide) fun v hv => .fibonacci hv (.literal trivial)
      | .decimal d :: as, ht, h =>
        cases h
        exact .inr (.decimal (by decide) (callOf_same hs _ _ _))
    split at h
    · rename_i hs
      match args, h with
      | [.integer a, .integer b], h =>
        cases h
        exact .inl (.sum (callOf_same hs _ _ _) (.literal trivial) (.literal trivial))
    split at h
    · rename_i hs
      match args, h with
      | [.integer a, .integer b], h =>
        cases h
        exact .inl (.product (callOf_same hs _ _ _) (.literal trivial) (.literal trivial))
    split at h
    · rename_i hs
      match args, ht, h with
      | [.integer a, .integer n], ht, h =>
        have hn := typed_arg ht (by rw [hs]; decide) (.integer n) (by simp)
        simp only [Negative] at hn
        obtain ⟨k, rfl⟩ : ∃ k : Nat, n = (k : Int) := ⟨n.natAbs, by omega⟩
        exact power_right hs h
    · cases h

/-- **C64**.  Whatever text is submitted, at any time: if it gets an answer, then it begins with an expression, and the
answer is the printed form of what the expression is worth, or it is one of the deviations listed above. -/
theorem C64_right (L : Lawful u) (msg : Str → Str) (w : Width) (s t : Str) (h : Answers u msg w s (.ok t)) :
    ∃ wl x rest v r, s = wl ++ (x ++ rest) ∧ Blank u wl ∧ RExpr u (replCfg msg s).position wl.length x v ∧
      r.display = some t ∧ (Worth v r ∨ Deviates v r) := by
  have hp := printed_of_answers h
  rw [printed, value, replParse] at hp
  cases hv : parseText u (replCfg msg s) with
  | err e => rw [hv] at hp; cases hp
  | panic => rw [hv] at hp; cases hp
  | ok v =>
    rw [hv, Out.ok_bind] at hp
    cases hr : forward w v with
    | err e => rw [hr] at hp; cases hp
    | panic => rw [hr] at hp; cases hp
    | ok r =>
      rw [hr, Out.ok_bind] at hp
      have hd : r.display = some t := by
        cases hd : r.display with
        | none => rw [hd] at hp; cases hp
        | some t' => rw [hd] at hp; cases hp; rfl
      rcases C56_answers_are_readings L _ v hv with ⟨rfl, -⟩ | ⟨wl, x, rest, hs, hwl, hx⟩
      · cases hr
        cases hd
      · exact ⟨wl, x, rest, v, r, hs, hwl, hx, hd, right_typed w (typed_expr hx) hr⟩

theorem CallOf.inv {f : Str} {as : List AST} {v : AST} (h : CallOf f as v) :
    ∃ s opts pos, s.name = f ∧ v = .function s [.mk as opts pos] := by
  cases h
  exact ⟨_, _, _, rfl, rfl⟩

theorem CallOf.same {f g : Str} {as bs : List AST} {v : AST} (h : CallOf f as v) (h' : CallOf g bs v) : f = g ∧ as = bs := by
  obtain ⟨s, o, p, rfl, rfl⟩ := h.inv
  cases h'
  exact ⟨rfl, rfl⟩

theorem CallOf.not_atom {f : Str} {as : List AST} {v : AST} (h : CallOf f as v) : ¬ Atom v := by
  cases h
  exact fun h => h

/-- **C64**.  An expression is worth one thing at most. -/
theorem C64_worth_unique {v r : AST} (h : Worth v r) : ∀ {r' : AST}, Worth v r' → r = r' := by
  induction h with
  | literal ha =>
    intro r' h'
    cases h' with
    | literal => rfl
    | product hc => exact absurd ha hc.not_atom
    | sum hc => exact absurd ha hc.not_atom
    | power hc => exact absurd ha hc.not_atom
    | factorial hc => exact absurd ha hc.not_atom
    | fibonacci hc => exact absurd ha hc.not_atom
    | first hc => exact absurd ha hc.not_atom
    | last hc => exact absurd ha hc.not_atom
    | length hc => exact absurd ha hc.not_atom
  | product hc _ _ ih1 ih2 =>
    intro r' h'
    cases h' with
    | literal ha => exact absurd ha hc.not_atom
    | product hc' h1 h2 =>
      have e := (hc.same hc').2
      simp only [List.cons.injEq, and_true] at e
      obtain ⟨rfl, rfl⟩ := e
      cases ih1 h1
      cases ih2 h2
      rfl
    | _ hc' => exact absurd (hc.same hc').1 (by decide)
  | sum hc _ _ ih1 ih2 =>
    intro r' h'
    cases h' with
    | literal ha => exact absurd ha hc.not_atom
    | sum hc' h1 h2 =>
      have e := (hc.same hc').2
      simp only [List.cons.injEq, and_true] at e
      obtain ⟨rfl, rfl⟩ := e
      cases ih1 h1
      cases ih2 h2
      rfl
    | _ hc' => exact absurd (hc.same hc').1 (by decide)
  | @power v a b x n hc _ _ ih1 ih2 =>
    intro r' h'
    cases h' with
    | literal ha => exact absurd ha hc.not_atom
    | @power _ a' b' x' n' hc' h1 h2 =>
      have e := (hc.same hc').2
      simp only [List.cons.injEq, and_true] at e
      obtain ⟨rfl, rfl⟩ := e
      have e1 := AST.integer.inj (ih1 h1)
      have e2 := Int.ofNat.inj (AST.integer.inj (ih2 h2))
      rw [e1, e2]
    | _ hc' => exact absurd (hc.same hc').1 (by decide)
  | factorial hc _ ih =>
    intro r' h'
    cases h' with
    | literal ha => exact absurd ha hc.not_atom
    | factorial hc' h1 =>
      have e := (hc.same hc').2
      simp only [List.cons.injEq, and_true] at e
      subst e
      rw [Int.ofNat.inj (AST.integer.inj (ih h1))]
    | _ hc' => exact absurd (hc.same hc').1 (by decide)
  | fibonacci hc _ ih =>
    intro r' h'
    cases h' with
    | literal ha => exact absurd ha hc.not_atom
    | fibonacci hc' h1 =>
      have e := (hc.same hc').2
      simp only [List.cons.injEq, and_true] at e
      subst e
      rw [Int.ofNat.inj (AST.integer.inj (ih h1))]
    | _ hc' => exact absurd (hc.same hc').1 (by decide)
  | first hc _ ih =>
    intro r' h'
    cases h' with
    | literal ha => exact absurd ha hc.not_atom
    | first hc' h1 =>
      have e := (hc.same hc').2
      simp only [List.cons.injEq, and_true] at e
      subst e
      cases ih h1
      rfl
    | _ hc' => exact absurd (hc.same hc').1 (by decide)
  | last hc _ ih =>
    intro r' h'
    cases h' with
    | literal ha => exact absurd ha hc.not_atom
    | last hc' h1 =>
      have e := (hc.same hc').2
      simp only [List.cons.injEq, and_true] at e
      subst e
      have e := AST.string.inj (ih h1)
      rw [(List.append_inj' e rfl).2]
    | _ hc' => exact absurd (hc.same hc').1 (by decide)
  | length hc _ ih =>
    intro r' h'
    cases h' with
    | literal ha => exact absurd ha hc.not_atom
    | length hc' h1 =>
      have e := (hc.same hc').2
      simp only [List.cons.injEq, and_true] at e
      subst e
      cases ih h1
      rfl
    | _ hc' => exact absurd (hc.same hc').1 (by decide)

/-- **C64**.  A number in an answer is printed exactly: the text of the answer is a numeral of the value. -/
theorem C64_numbers {r : AST} {t : Str} (h : r.display = some t) :
    (∀ n, r = .integer n → Spells t n) ∧ ∀ d, r = .decimal d → Spells t (d.digits * (10 : ℚ) ^ (-d.scale)) := by
  refine ⟨?_, ?_⟩
  · rintro n rfl
    rw [AST.display] at h
    cases h
    exact C63_integers n
  · rintro d rfl
    rw [AST.display] at h
    cases h
    exact C63_decimals d

/-- **C64** (violation).  `a^n` is answered with `a` when `n` is 2^64 or more. -/
theorem C64_large_powers (L : Lawful u) (msg : Str → Str) (w : Width) (a n : Nat) (hn : (2 : Int) ^ 64 ≤ n) {wb wa wl wr : Str}
    (hb : Blank u wb) (ha : Blank u wa) (hl : Blank u wl) (hr : Blank u wr) :
    Answers u msg w (wl ++ ((numeral a ++ (wb ++ '^' :: (wa ++ numeral n))) ++ wr)) (.ok (numeral a)) := by
  have h := C54_power_large L msg w (.mk [] (.atom (.int a)) []) (.mk [] (.atom (.int n)) []) wb wa
    (intBinary_ok a n hb ha (by decide) (fun h => nomatch h)) hl hr
    (by rw [binaryText, intTerm_text]; exact numeral_wordless a _) hn (intTerm_value a) (intTerm_value n)
  rw [binaryText, intTerm_text, intTerm_text] at h
  exact h

/-- **C64** (violations).  The other deviations happen, and an operator that is dropped takes its operand with it: the
Fibonacci number of 2.5 is 2.5, `×` has two characters, a second argument does not matter, and `6*7=2` is 42. -/
theorem C64_deviations (L : Lawful u) (msg : Str → Str) (w : Width) :
    Answers u msg w c!"fibonacci(2.5)" (.ok c!"2.5") ∧ Answers u msg w c!"length(\"×\")" (.ok c!"2") ∧
    Answers u msg w c!"factorial(3,4)" (.ok c!"6") ∧ Answers u msg w c!"6*7=2" (.ok c!"42") := by
  refine ⟨?_, ?_, ?_, ?_⟩
  · exact answers_pairs L msg w (l := [.mk .expression 0 14 c!"fibonacci(2.5)" [.mk .expr 0 14 c!"fibonacci(2.5)" [.mk .term 0 14
      c!"fibonacci(2.5)" [.mk .node 0 14 c!"fibonacci(2.5)" [.mk .apply_call 0 14 c!"fibonacci(2.5)" [.mk .Symbol 0 9
      c!"fibonacci" [.mk .SYMBOL 0 9 c!"fibonacci" []], .mk .apply 9 14 c!"(2.5)" [.mk .apply_kv 10 13 c!"2.5" [.mk .expr 10 13
      c!"2.5" [.mk .term 10 13 c!"2.5" [.mk .node 10 13 c!"2.5" [.mk .data 10 13 c!"2.5" [.mk .Decimal 10 13 c!"2.5"
      [.mk .Integer 10 11 c!"2" [], .mk .Dot 11 12 c!"." [], .mk .Integer 12 13 c!"5" []]]]]]]]]]]]], .mk .EOI 14 14 c!"" []])
      (by decide +kernel) (by decide) (by cases w <;> rfl)
  · exact answers_pairs L msg w (l := [.mk .expression 0 11 c!"length(\"×\")" [.mk .expr 0 11 c!"length(\"×\")" [.mk .term 0 11
      c!"length(\"×\")" [.mk .node 0 11 c!"length(\"×\")" [.mk .apply_call 0 11 c!"length(\"×\")" [.mk .Symbol 0 6 c!"length"
      [.mk .SYMBOL 0 6 c!"length" []], .mk .apply 6 11 c!"(\"×\")" [.mk .apply_kv 7 10 c!"\"×\"" [.mk .expr 7 10 c!"\"×\""
      [.mk .term 7 10 c!"\"×\"" [.mk .node 7 10 c!"\"×\"" [.mk .data 7 10 c!"\"×\"" [.mk .String 7 10 c!"\"×\""
      [.mk .StringNormal 7 10 c!"\"×\"" []]]]]]]]]]]]], .mk .EOI 11 11 c!"" []])
      (by decide +kernel) (by decide) (by cases w <;> rfl)
  · exact answers_pairs L msg w (l := [.mk .expression 0 14 c!"factorial(3,4)" [.mk .expr 0 14 c!"factorial(3,4)" [.mk .term 0 14
      c!"factorial(3,4)" [.mk .node 0 14 c!"factorial(3,4)" [.mk .apply_call 0 14 c!"factorial(3,4)" [.mk .Symbol 0 9
      c!"factorial" [.mk .SYMBOL 0 9 c!"factorial" []], .mk .apply 9 14 c!"(3,4)" [.mk .apply_kv 10 11 c!"3" [.mk .expr 10 11
      c!"3" [.mk .term 10 11 c!"3" [.mk .node 10 11 c!"3" [.mk .data 10 11 c!"3" [.mk .Integer 10 11 c!"3" []]]]]], .mk .Comma
      11 12 c!"," [], .mk .apply_kv 12 13 c!"4" [.mk .expr 12 13 c!"4" [.mk .term 12 13 c!"4" [.mk .node 12 13 c!"4" [.mk .data
      12 13 c!"4" [.mk .Integer 12 13 c!"4" []]]]]]]]]]]], .mk .EOI 14 14 c!"" []])
      (by decide +kernel) (by decide) (by cases w <;> rfl)
  · exact answers_pairs L msg w (l := [.mk .expression 0 5 c!"6*7=2" [.mk .expr 0 5 c!"6*7=2" [.mk .term 0 1 c!"6" [.mk .node 0 1
      c!"6" [.mk .data 0 1 c!"6" [.mk .Integer 0 1 c!"6" []]]], .mk .Multiply 1 2 c!"*" [], .mk .term 2 3 c!"7" [.mk .node 2 3
      c!"7" [.mk .data 2 3 c!"7" [.mk .Integer 2 3 c!"7" []]]], .mk .Set 3 4 c!"=" [], .mk .term 4 5 c!"2" [.mk .node 4 5 c!"2"
      [.mk .data 4 5 c!"2" [.mk .Integer 4 5 c!"2" []]]]]], .mk .EOI 5 5 c!"" []])
      (by decide +kernel) (by decide) (by cases w <;> rfl)

/-- `times(plus(2, 3), 4)` is worth 20 (but is not answered: arguments are not evaluated). -/
example (q : Position) :
    Worth (.function (Sym.ofStr c!"times") [.mk [.function (Sym.ofStr c!"plus") [.mk [.integer 2, .integer 3] [] q], .integer 4] [] q])
      (.integer 20) :=
  .product (callOf_same (by decide) _ _ _)
    (.sum (x := 2) (y := 3) (callOf_same (by decide) _ _ _) (.literal trivial) (.literal trivial)) (.literal trivial)

end SM.Props
