import Verif.Props.ReadsProgram
import Verif.Props.Session
/-
C57: which syntax trees can come from a typed text, and what follows for evaluation.
-/
namespace SM.Props
open SM SM.Peg

variable {u : Uni} {P : Nat → Nat → Position} {i : Nat} {w : Str} {a : AST}

/-- Symbols of operators, with the least number of their operands. -/
inductive OperatorSym : Sym → Nat → Prop
  | infix (o : Op) : o ≠ .dot → OperatorSym o.sym 2
  | prefix (c : Char) (n : Str) : preName c = some n → OperatorSym ⟨[c!"std", c!"prefix"], n, .prefix [c], 0⟩ 1
  | suffix (y n : Str) : sufName y = some n → OperatorSym ⟨[c!"std", c!"suffix"], n, .suffix y, 0⟩ 1

/-- Syntax trees that can be typed.  Numbers have no sign, except in references to the history, and the digits after
the point of a fraction do not begin with `0`, unless there is just one; there is no empty statement and no program
inside; every call has an argument list, operators have exactly one, without named arguments; named arguments are
named by symbols. -/
inductive Typed : AST → Prop
  | boolean (b : Bool) : Typed (.boolean b)
  | integer (n : Nat) : Typed (.integer n)
  | decimal (n k : Nat) : Typed (.decimal ⟨(n * 10 ^ (numeral k).length + k : Nat), (numeral k).length⟩)
  | string (s : Str) : Typed (.string s)
  | symbol (s : Str) : Typed (.mkSymbol s)
  | call {s : Sym} {p : Param} {ps : List Param} : s.kind = .normal →
      (∀ q ∈ p :: ps, ∀ a ∈ q.arguments, Typed a) →
      (∀ q ∈ p :: ps, ∀ o ∈ q.options, ∃ k, o.1 = .mkSymbol k) → (∀ q ∈ p :: ps, ∀ o ∈ q.options, Typed o.2) →
      Typed (.function s (p :: ps))
  | operator {s : Sym} {k : Nat} {as : List AST} {q : Position} : OperatorSym s k → k ≤ as.length →
      (∀ a ∈ as, Typed a) → Typed (.function s [.mk as [] q])
  | history {out : Bool} {as : List AST} {n : Int} {q : Position} : (∀ a ∈ as, Typed a) →
      Typed (.function (if out then Sym.ofStr c!"std::repl::output" else Sym.ofStr c!"std::repl::input")
        [.mk (as ++ [.integer n]) [] q])

theorem typed_callAt {s : Sym} {q : Position} {l : List AST} (hs : s.kind = .normal) (h : ∀ a ∈ l, Typed a) :
    Typed (callAt q s l) :=
  .call hs (by simpa [Param.arguments] using h) (by simp [Param.options]) (by simp [Param.options])

theorem typed_dot {q : Position} {a b v : AST} (ha : Typed a) (hb : Typed b) (h : dotAt q a b = some v) : Typed v := by
  cases hb with
  | boolean | decimal | string => cases h
  | integer n =>
    cases h
    exact typed_callAt rfl (by simpa using ⟨ha, .integer n⟩)
  | symbol s =>
    cases h
    exact typed_callAt rfl (by simpa using ha)
  | @call s p ps hs h1 h2 h3 =>
    cases p
    cases h
    refine .call hs ?_ ?_ ?_
    · simp only [List.mem_cons, forall_eq_or_imp, Param.arguments] at h1 ⊢
      exact ⟨⟨ha, h1.1⟩, h1.2⟩
    · simpa only [List.mem_cons, forall_eq_or_imp, Param.options] using h2
    · simpa only [List.mem_cons, forall_eq_or_imp, Param.options] using h3
  | operator hs hk h1 =>
    cases h
    exact .operator hs (by simp; omega) (by simpa using ⟨ha, h1⟩)
  | @history out as n p h1 =>
    cases h
    exact .history (as := a :: as) (by simpa using ⟨ha, h1⟩)

theorem typed_op {q : Position} {a b v : AST} {o : Op} (ha : Typed a) (hb : Typed b)
    (h : Op.applyAt q a o b = some v) : Typed v := by
  by_cases ho : o = .dot
  · subst ho
    exact typed_dot ha hb h
  · have : v = callAt q o.sym [a, b] := by
      cases o <;> first | exact absurd rfl ho | exact (Option.some.inj h).symm
    rw [this]
    exact .operator (.infix o ho) (by simp) (by simpa using ⟨ha, hb⟩)

theorem typed_tree {q : Position} : ∀ (t : OpTree AST Op) {v : AST}, evalTree some (Op.applyAt q) t = some v →
    Typed t.steps.1 → (∀ s ∈ t.steps.2, Typed s.2) → Typed v
  | .leaf x, v, h, hx, _ => by cases h; exact hx
  | .node l o r, v, h, hx, hs => by
    simp only [evalTree] at h
    simp only [OpTree.steps] at hx hs
    split at h
    · rename_i a b h1 h2
      exact typed_op (typed_tree l h1 hx fun s hm => hs s (by simp [hm]))
        (typed_tree r h2 (hs (o, r.steps.1) (by simp)) fun s hm => hs s (by simp [hm])) h
    · cases h

theorem typed_placed {q : Position} {a : SAtom} {v : AST} (h : a.value = some v) : Typed (placed q v) := by
  have lit : ∀ (s : Str) (l : List AST), (∀ a ∈ l, Typed a) → Typed (.function (Sym.ofStr s) [.mk l [] q]) :=
    fun s l hl => .call rfl (by simpa [Param.arguments] using hl) (by simp [Param.options]) (by simp [Param.options])
  cases a with
  | int n => cases h; exact .integer n
  | dec i f => cases h; exact .decimal _ _
  | radix r k d ds =>
    simp only [SAtom.value] at h
    split at h
    · cases h
    · cases h; exact .integer _
  | str s => cases h; exact .string s
  | tagged _ s => cases h; exact .string s
  | block _ s => cases h; exact .string s
  | taggedBlock _ _ s => cases h; exact .string s
  | back out n => cases h; exact .history (as := []) (by simp)
  | nth out n => cases h; exact .history (as := []) (by simp)
  | slot => cases h; exact lit _ _ (by simp)
  | slotNamed x => cases h; exact lit _ _ (by simpa using .string x)
  | slotNth n => cases h; exact lit _ _ (by simpa using .integer n)
  | slots => cases h; exact lit _ _ (by simp)
  | slotsFrom => cases h
  | null => cases h; exact .symbol _
  | bool b => cases h; exact .boolean b
  | sym p => cases h; exact .symbol _
  | prod f m l => cases h; exact .operator (.infix .star (by decide)) (by simp) (by
      have : ∀ f : SFactor, Typed f.value := fun f => by cases f with
        | int n => exact .integer n
        | sym p => exact .symbol _
      simp only [List.mem_cons, List.mem_map]
      rintro a (rfl | rfl | ⟨m, -, rfl⟩) <;> exact this _)

theorem all_insert {α β : Type} {cmp : α → α → Ordering} {K : α → Prop} {V : β → Prop} {k : α} {v : β} (hk : K k) (hv : V v) :
    ∀ {m : BMap α β}, (∀ o ∈ m, K o.1 ∧ V o.2) → ∀ o ∈ BMap.insert cmp k v m, K o.1 ∧ V o.2
  | [], _ => by simpa [BMap.insert] using ⟨hk, hv⟩
  | (k', v') :: m, h => by
    obtain ⟨h1, h2⟩ := List.forall_mem_cons.1 h
    rw [BMap.insert]
    split
    · exact List.forall_mem_cons.2 ⟨⟨hk, hv⟩, h⟩
    · exact List.forall_mem_cons.2 ⟨⟨h1.1, hv⟩, h2⟩
    · exact List.forall_mem_cons.2 ⟨h1, all_insert hk hv h2⟩

/-- Arguments as they may be typed. -/
def TypedArg (d : AST × AST) : Prop := (d.1 = .empty ∨ ∃ k, d.1 = .mkSymbol k) ∧ Typed d.2

theorem typed_positional {l : List (AST × AST)} (h : ∀ d ∈ l, TypedArg d) : ∀ a ∈ positional l, Typed a := by
  induction l with
  | nil => simp [positional]
  | cons d l ih =>
    obtain ⟨k, v⟩ := d
    simp only [List.mem_cons, forall_eq_or_imp] at h
    obtain ⟨⟨hk, hv⟩, h⟩ := h
    rcases hk with rfl | ⟨k, rfl⟩
    · simp only [positional, List.mem_cons, forall_eq_or_imp]
      exact ⟨hv, ih h⟩
    · exact ih h

theorem typed_options {l : List (AST × AST)} (h : ∀ d ∈ l, TypedArg d) (m : BMap AST AST)
    (hm : ∀ o ∈ m, (∃ k, o.1 = .mkSymbol k) ∧ Typed o.2) :
    ∀ o ∈ optionsFrom l m, (∃ k, o.1 = .mkSymbol k) ∧ Typed o.2 := by
  induction l generalizing m with
  | nil => simpa [optionsFrom] using hm
  | cons d l ih =>
    obtain ⟨k, v⟩ := d
    simp only [List.mem_cons, forall_eq_or_imp] at h
    obtain ⟨⟨hk, hv⟩, h⟩ := h
    rcases hk with rfl | ⟨k, rfl⟩
    · exact ih h m hm
    · refine ih h _ ?_
      exact all_insert (K := fun a => ∃ k, a = AST.mkSymbol k) ⟨k, rfl⟩ hv hm

/-- What an expression stands for is a typed tree. -/
theorem typed_expr (h : RExpr u P i w a) : Typed a := by
  have args : ∀ {l : List (AST × AST)} {ps : List Param} (pos : Position), (∀ d ∈ l, TypedArg d) →
      (∀ q ∈ ps, (∀ a ∈ q.arguments, Typed a) ∧ ∀ o ∈ q.options, (∃ k, o.1 = .mkSymbol k) ∧ Typed o.2) →
      ∀ q ∈ Param.mk (positional l) (optionsFrom l []) pos :: ps, (∀ a ∈ q.arguments, Typed a) ∧
        ∀ o ∈ q.options, (∃ k, o.1 = .mkSymbol k) ∧ Typed o.2 :=
    fun _ hl hps => List.forall_mem_cons.2 ⟨⟨typed_positional hl, typed_options hl [] (by simp)⟩, hps⟩
  refine RExpr.rec (u := u) (P := P) (motive_1 := fun _ _ a _ => Typed a) (motive_2 := fun _ _ l _ => ∀ s ∈ l, Typed s.2)
    (motive_3 := fun _ _ a _ => Typed a) (motive_4 := fun _ _ a _ => Typed a) (motive_5 := fun _ _ a _ => Typed a)
    (motive_6 := fun _ _ l _ => ∀ a ∈ l, Typed a)
    (motive_7 := fun _ _ l _ => ∀ q ∈ l, (∀ a ∈ q.arguments, Typed a) ∧
      ∀ o ∈ q.options, (∃ k, o.1 = .mkSymbol k) ∧ Typed o.2)
    (motive_8 := fun _ _ l _ => ∀ d ∈ l, TypedArg d) (motive_9 := fun _ _ d _ => TypedArg d)
    (motive_10 := fun _ _ a _ => Typed a) (motive_11 := fun _ _ d _ => ∀ b : AST, Typed b → Typed (d.getD b))
    (motive_12 := fun _ _ l _ => ∀ a ∈ l, Typed a)
    ?_ ?_ ?_ ?_ ?_ ?_ ?_ ?_ ?_ ?_ ?_ ?_ ?_ ?_ ?_ ?_ ?_ ?_ ?_ ?_ ?_ ?_ ?_ ?_ ?_ ?_ ?_ ?_ ?_ ?_ ?_ ?_ ?_ h
  -- expressions
  · intro i t s j b l v _ _ _ h4 k1 k2
    exact typed_tree _ h4 (by rw [(group_spec b l).2]; exact k1) (by rw [(group_spec b l).2]; exact k2)
  -- operators with terms
  · intros; contradiction
  · intro i o w w' t s a l _ _ _ _ k1 k2
    exact List.forall_mem_cons.2 ⟨k1, k2⟩
  -- terms
  · intro i w a _ k; exact k
  · intro i c n w a hc _ k
    exact .operator (.prefix _ _ hc) (by simp) (by simpa using k)
  -- suffixes
  · intro i w a _ k; exact k
  · intro i w y n a _ hy k
    exact .operator (.suffix _ _ hy) (by simp) (by simpa using k)
  · intro i w h b x s a d l _ _ _ _ _ k k1 k2
    exact typed_callAt rfl (by simpa using ⟨k, k1, k2⟩)
  -- operands
  · intro i a v _ _ h; exact typed_placed h
  · intro i f m l _ _; exact typed_placed (a := .prod f m l) rfl
  · intro i w a _ k; exact k
  · intro i w _; exact typed_callAt rfl (by simp)
  · intro i w x s a l _ _ _ k1 k2
    exact typed_callAt rfl (by simpa using ⟨k1, k2⟩)
  · intro i p s q l _ _ k
    exact .call rfl (fun q hq => (k q hq).1) (fun q hq o ho => ((k q hq).2 o ho).1)
      (fun q hq o ho => ((k q hq).2 o ho).2)
  -- items
  · intros; contradiction
  · intros; contradiction
  · intro i b w w' x s a l _ _ _ _ k1 k2
    exact List.forall_mem_cons.2 ⟨k1, k2⟩
  -- argument lists
  · intros; contradiction
  · intro i h b x s t d l ps _ _ _ _ _ k1 k2 k3
    exact args _ (List.forall_mem_cons.2 ⟨k1, k2⟩) k3
  · intro i h b s t l ps _ _ _ _ k2 k3
    exact args _ k2 k3
  -- arguments
  · intros; contradiction
  · intros; contradiction
  · intro i b w w' x s d l _ _ _ _ k1 k2
    exact List.forall_mem_cons.2 ⟨k1, k2⟩
  · intro i x a _ k; exact ⟨.inl rfl, k⟩
  · intro i k w w' x b a _ _ _ _ h; exact ⟨.inr ⟨_, rfl⟩, h⟩
  -- indices
  · intro i x a _ k; exact k
  · intro i x w w' y b d e _ _ _ _ k1 k2
    exact typed_callAt rfl (by
      simp only [List.mem_cons, List.not_mem_nil, or_false, forall_eq_or_imp, forall_eq]
      exact ⟨k1 _ (.integer 1), k2 _ (.symbol _), .integer 1⟩)
  · intro i x w w' y z z' t b b' d e f _ _ _ _ _ _ _ k1 k2 k3
    exact typed_callAt rfl (by
      simp only [List.mem_cons, List.not_mem_nil, or_false, forall_eq_or_imp, forall_eq]
      exact ⟨k1 _ (.integer 1), k2 _ (.symbol _), k3 _ (.integer 1)⟩)
  · intro i b hb; exact hb
  · intro i x a _ k _ _; exact k
  · intros; contradiction
  · intros; contradiction
  · intro i b w w' x s a l _ _ _ _ k1 k2
    exact List.forall_mem_cons.2 ⟨k1, k2⟩

/-- C57.  Every syntax tree that comes from a text is empty or a typed one. -/
theorem C57_shape (L : Lawful u) (c : Cfg) (v : AST) (h : parseText u c = .ok v) : v = .empty ∨ Typed v := by
  rcases C56_answers_are_readings L c v h with ⟨h, -⟩ | ⟨_, _, _, _, _, h⟩
  · exact .inl h
  · exact .inr (typed_expr h)

/-! ### Evaluation -/

/-- A number below zero. -/
def Negative : AST → Prop
  | .integer n => n < 0
  | .decimal d => d.digits < 0
  | _ => False

theorem Typed.not_negative (h : Typed a) : ¬ Negative a := by
  cases h <;> simp only [Negative, AST.mkSymbol, not_false_eq_true] <;> omega

/-- The arguments of a call that is evaluated are typed, or the call is a reference to the history. -/
theorem typed_args_of {s : Sym} {p : Param} (h : Typed (.function s [p])) :
    (∀ a ∈ p.arguments, Typed a) ∨ s = Sym.ofStr c!"std::repl::output" ∨ s = Sym.ofStr c!"std::repl::input" := by
  generalize hv : AST.function s [p] = v at h
  cases h with
  | boolean | integer | decimal | string | symbol => cases hv
  | call _ h =>
    cases hv
    exact .inl (h _ (by simp))
  | operator _ _ h =>
    cases hv
    exact .inl h
  | @history out as n q h =>
    cases out <;> cases hv
    · exact .inr (.inr rfl)
    · exact .inr (.inl rfl)

/-- C57 (panics).  Evaluating what was typed panics only if one of five built-in functions has no argument or one of
the wrong kind.  In particular the panic of the Fibonacci function below zero (C03) is out of reach. -/
theorem C57_panics (L : Lawful u) (c : Cfg) (v : AST) (h : parseText u c = .ok v) (w : Width) :
    forward w v = .panic ↔ ∃ s p, v = .function s [p] ∧
      ((s.name ∈ [c!"first", c!"last", c!"length", c!"factorial", c!"fibonacci"] ∧ p.arguments = []) ∨
        ∃ a as, p.arguments = a :: as ∧
          ((s.name ∈ [c!"first", c!"last", c!"length"] ∧ ∀ t, a ≠ .string t) ∨
            (s.name ∈ [c!"factorial", c!"fibonacci"] ∧ (∀ n, a ≠ .integer n) ∧ ∀ d, a ≠ .decimal d))) := by
  rw [C26_forward_panics_iff]
  constructor
  · rintro (⟨l, rfl⟩ | ⟨s, p, rfl, hp⟩)
    · rcases C57_shape L c _ h with h | h <;> cases h
    · refine ⟨s, p, rfl, ?_⟩
      have ht : Typed (.function s [p]) := by
        rcases C57_shape L c _ h with h | h
        · cases h
        · exact h
      generalize hl : p.arguments = l at hp
      generalize hm : s.name = m at hp
      cases hp with
      | noArgument h => exact .inl ⟨h, rfl⟩
      | notString h h' => exact .inr ⟨_, _, rfl, .inl ⟨h, h'⟩⟩
      | notNumber h h' h'' => exact .inr ⟨_, _, rfl, .inr ⟨h, h', h''⟩⟩
      | @fibonacciNegative n as h0 =>
        exfalso
        rcases typed_args_of ht with h | rfl | rfl
        · rw [hl] at h
          exact (h (.integer n) (by simp)).not_negative h0
        · revert hm; decide
        · revert hm; decide
  · rintro ⟨s, p, rfl, ⟨h1, h2⟩ | ⟨a, as, h1, ⟨h2, h3⟩ | ⟨h2, h3, h4⟩⟩⟩
    · exact .inr ⟨s, p, rfl, by rw [h2]; exact .noArgument h1⟩
    · exact .inr ⟨s, p, rfl, by rw [h1]; exact .notString h2 h3⟩
    · exact .inr ⟨s, p, rfl, by rw [h1]; exact .notNumber h2 h3 h4⟩

theorem not_negative_factorial {w : Width} {a r : AST} (ha : Typed a) (h : factorial w a = .ok r) : ¬ Negative r := by
  cases ha with
  | integer n =>
    by_cases hn : (n : Int) < 2 ^ (w.bits - 1)
    · rw [factorial, C01_factorial_value w n hn] at h
      cases h
      simp [Negative]
    · rw [factorial, C01_factorial_overflow w n (.inr (by omega))] at h
      cases h
  | decimal n k => cases h; simp only [Negative]; omega
  | boolean | string | symbol | call | operator | history => cases h

theorem not_negative_fibonacci {w : Width} {a r : AST} (ha : Typed a) (h : fibonacci w a = .ok r) : ¬ Negative r := by
  cases ha with
  | integer n =>
    by_cases hn : (n : Int) < 2 ^ (w.bits - 1)
    · rw [fibonacci, C02_fibonacci_value w n hn] at h
      cases h
      simp [Negative]
    · rw [fibonacci, C02_fibonacci_overflow w n (.inr (by omega))] at h
      cases h
  | decimal n k => cases h; simp only [Negative]; omega
  | boolean | string | symbol | call | operator | history => cases h

theorem Typed.pos {n : Int} (h : Typed (.integer n)) : 0 ≤ n := by
  have := h.not_negative
  simp only [Negative] at this
  omega

/-- C57 (results).  No typed text is ever answered with a number below zero. -/
theorem C57_no_negative_answer (L : Lawful u) (c : Cfg) (v : AST) (h : parseText u c = .ok v) (w : Width) (r : AST)
    (hr : forward w v = .ok r) : ¬ Negative r := by
  rcases C57_shape L c v h with rfl | ht
  · cases hr
    simp [Negative]
  · match v, ht, hr with
    | .integer n, ht, hr => cases hr; exact ht.not_negative
    | .decimal n, ht, hr => cases hr; exact ht.not_negative
    | .string n, ht, hr => cases hr; exact ht.not_negative
    | .boolean n, ht, hr => cases hr; exact ht.not_negative
    | .symbol n, ht, hr => cases hr; exact ht.not_negative
    | .empty, ht, hr => cases ht
    | .program l, ht, hr => cases ht
    | .function s [], ht, hr => cases hr; simp [Negative]
    | .function s (p :: q :: l), ht, hr => cases hr
    | .function s [p], ht, hr =>
      have hr : evaluateFunction w s p = .ok r := hr
      rcases typed_args_of ht with ha | rfl | rfl
      · obtain ⟨as, os, q⟩ := p
        simp only [Param.arguments] at ha
        have arg0 : ∀ {f : AST → SMResult AST}, (∀ a b, Typed a → f a = .ok b → ¬ Negative b) →
            onArg0 f as = .ok r → ¬ Negative r := by
          intro f hf h
          cases as with
          | nil => cases h
          | cons a as => exact hf a r (ha a (by simp)) h
        simp only [evaluateFunction, Param.arguments] at hr
        repeat' split at hr
        · exact arg0 (fun a b _ h => by obtain ⟨s, rfl⟩ := first_atom h; simp [Negative]) hr
        · exact arg0 (fun a b _ h => by obtain ⟨s, rfl⟩ := last_atom h; simp [Negative]) hr
        · exact arg0 (fun a b _ h => by
            cases a <;> cases h
            simp [Negative]) hr
        · exact arg0 (fun a b ha h => not_negative_factorial ha h) hr
        · exact arg0 (fun a b ha h => not_negative_fibonacci ha h) hr
        · unfold evaluateAdditive at hr
          split at hr
          · rename_i a b _
            cases hr
            have h1 := Typed.pos (ha (.integer a) (by simp))
            have h2 := Typed.pos (ha (.integer b) (by simp))
            simp only [Negative]
            omega
          · cases hr
        · unfold evaluateMultiplicative at hr
          split at hr
          · rename_i a b _
            cases hr
            simpa [Negative] using Int.mul_nonneg (Typed.pos (ha (.integer a) (by simp))) (Typed.pos (ha (.integer b) (by simp)))
          · cases hr
        · unfold evaluatePower at hr
          split at hr
          · rename_i a b _
            have h1 := Typed.pos (ha (.integer a) (by simp))
            split at hr
            · cases hr
              simpa [Negative] using h1
            · cases hr
              simpa [Negative] using Int.pow_nonneg h1
          · cases hr
        · cases hr
      · cases hr
      · cases hr

/-- The hypotheses can be met: `-1` is accepted, and stands for a call of `minus` on `1` and not for a number. -/
example (L : Lawful u) (file : Str) : parseText u ⟨file, c!"-1", []⟩ =
    .ok (callAt ⟨file, (1, 1), (1, 2)⟩ ⟨[c!"std", c!"prefix"], c!"minus", .prefix c!"-", 0⟩ [.integer 1]) := by
  rw [parse_pairs L (x := c!"-1") (l := [.mk .expression 0 2 c!"-1" [.mk .expr 0 2 c!"-1" [.mk .term 0 2 c!"-1"
    [.mk .Prefix 0 1 c!"-" [], .mk .node 1 2 c!"1" [.mk .data 1 2 c!"1" [.mk .Integer 1 2 c!"1" []]]]]],
    .mk .EOI 2 2 c!"" []]) (by decide +kernel) (by decide) _ rfl]
  rfl

/-- `¶`, the previous input, is the exception: there is a number below zero in it. -/
example : Typed (.function (Sym.ofStr c!"std::repl::input") [.mk [.integer (-1)] [] noPos]) :=
  .history (out := false) (as := []) (by simp)

example : ¬ Typed (.integer (-1)) ∧ ¬ Typed (.function (Sym.ofStr c!"fibonacci") [.mk [.integer (-2)] [] noPos]) := by
  refine ⟨fun h => h.not_negative (by decide : (-1 : Int) < 0), fun h => ?_⟩
  rcases typed_args_of h with h | h | h
  · exact (h (.integer (-2)) (by simp [Param.arguments])).not_negative (by decide : (-2 : Int) < 0)
  · revert h; decide
  · revert h; decide

end SM.Props
