import Verif.Props.Sound
/-
C64: exactly which expressions a session answers.
-/
namespace SM.Props
open SM SM.Peg

variable {u : Uni}

/-- What a session answers, and with what: literals, and functions of the table whose arguments are literals of the right
kind.  `w` is the width of a machine word. -/
inductive Direct (w : Width) : AST → AST → Prop
  | literal {a : AST} : Atom a → Direct w a a
  | product {v : AST} {x y : Int} : CallOf c!"times" [.integer x, .integer y] v → Direct w v (.integer (x * y))
  | sum {v : AST} {x y : Int} : CallOf c!"plus" [.integer x, .integer y] v → Direct w v (.integer (x + y))
  | power {v : AST} {x : Int} {n : Nat} : CallOf c!"power" [.integer x, .integer n] v → (n : Int) < 2 ^ 64 →
      Direct w v (.integer (x ^ n))
  | largePower {v : AST} {x : Int} {n : Nat} : CallOf c!"power" [.integer x, .integer n] v → (2 : Int) ^ 64 ≤ n →
      Direct w v (.integer x)
  | factorial {v : AST} {n : Nat} {as : List AST} : CallOf c!"factorial" (.integer n :: as) v → n < 2 ^ (w.bits - 1) →
      Direct w v (.integer n.factorial)
  | fibonacci {v : AST} {n : Nat} {as : List AST} : CallOf c!"fibonacci" (.integer n :: as) v → n < 2 ^ (w.bits - 1) →
      Direct w v (.integer (Nat.fib n))
  | decimal {v : AST} {f : Str} {d : Dec} {as : List AST} : f ∈ [c!"factorial", c!"fibonacci"] →
      CallOf f (.decimal d :: as) v → Direct w v (.decimal d)
  | first {v : AST} {c : Char} {t : Str} {as : List AST} : CallOf c!"first" (.string (c :: t) :: as) v → Direct w v (.string [c])
  | last {v : AST} {c : Char} {t : Str} {as : List AST} : CallOf c!"last" (.string (t ++ [c]) :: as) v → Direct w v (.string [c])
  | length {v : AST} {t : Str} {as : List AST} : CallOf c!"length" (.string t :: as) v → Direct w v (.integer (utf8Len t))

theorem toU64_nat {n : Nat} (hn : (n : Int) < 2 ^ 64) : toU64 (n : Int) = some n := by
  unfold toU64
  rw [if_pos (And.intro (Int.natCast_nonneg n) (by norm_num at hn ⊢; exact hn))]; rfl

theorem toU64_large {n : Nat} (hn : (2 : Int) ^ 64 ≤ n) : toU64 (n : Int) = none := by
  unfold toU64
  rw [if_neg]
  rintro ⟨-, h⟩
  norm_num at h hn
  omega

theorem forward_power {w : Width} {s : Sym} (hs : s.name = c!"power") {as : List AST} {opts : BMap AST AST} {pos : Position} :
    forward w (.function s [.mk as opts pos]) = evaluatePower as := by
  simp [forward, evaluateFunction, hs, Param.arguments]

theorem forward_of_direct (w : Width) {v r : AST} (h : Direct w v r) : forward w v = .ok r := by
  cases h with
  | literal h => cases v <;> first | rfl | exact absurd h (fun h => h)
  | product h =>
    obtain ⟨s, o, p, hs, rfl⟩ := h.inv
    simp [forward, evaluateFunction, hs, Param.arguments, evaluateMultiplicative]
  | sum h =>
    obtain ⟨s, o, p, hs, rfl⟩ := h.inv
    simp [forward, evaluateFunction, hs, Param.arguments, evaluateAdditive]
  | power h hn =>
    obtain ⟨s, o, p, hs, rfl⟩ := h.inv
    rw [forward_power hs, evaluatePower, toU64_nat hn]
  | largePower h hn =>
    obtain ⟨s, o, p, hs, rfl⟩ := h.inv
    rw [forward_power hs, evaluatePower, toU64_large hn]
  | @factorial n as h hn =>
    obtain ⟨s, o, p, hs, rfl⟩ := h.inv
    have := C01_factorial_value w n (by exact_mod_cast hn)
    simp [forward, evaluateFunction, hs, Param.arguments, onArg0, SM.factorial, this]
    rfl
  | @fibonacci n as h hn =>
    obtain ⟨s, o, p, hs, rfl⟩ := h.inv
    have := C02_fibonacci_value w n (by exact_mod_cast hn)
    simp [forward, evaluateFunction, hs, Param.arguments, onArg0, SM.fibonacci, this]
    rfl
  | decimal hf h =>
    obtain ⟨s, o, p, hs, rfl⟩ := h.inv
    simp only [List.mem_cons, List.not_mem_nil, or_false] at hf
    rcases hf with rfl | rfl <;>
      simp [forward, evaluateFunction, hs, Param.arguments, onArg0, SM.fibonacci, SM.factorial]
  | first h =>
    obtain ⟨s, o, p, hs, rfl⟩ := h.inv
    simp [forward, evaluateFunction, hs, Param.arguments, onArg0, SM.first]
  | last h =>
    obtain ⟨s, o, p, hs, rfl⟩ := h.inv
    simp [forward, evaluateFunction, hs, Param.arguments, onArg0, SM.last]
  | length h =>
    obtain ⟨s, o, p, hs, rfl⟩ := h.inv
    simp [forward, evaluateFunction, hs, Param.arguments, onArg0, SM.length]

theorem natural {s : Sym} {args : List AST} {opts : BMap AST AST} {pos : Position} (h : Typed (.function s [.mk args opts pos]))
    (hs : s.name ≠ c!"input" ∧ s.name ≠ c!"output") {n : Int} (hn : .integer n ∈ args) : ∃ k : Nat, n = k := by
  have := typed_arg h hs _ hn
  simp only [Negative] at this
  exact ⟨n.natAbs, by omega⟩

theorem direct_of_forward (w : Width) {v r : AST} (ht : Typed v) (h : forward w v = .ok r) : Direct w v r := by
  match v, ht, h with
  | .integer n, _, h => cases h; exact .literal trivial
  | .decimal n, _, h => cases h; exact .literal trivial
  | .string n, _, h => cases h; exact .literal trivial
  | .boolean n, _, h => cases h; exact .literal trivial
  | .symbol n, _, h => cases h; exact .literal trivial
  | .function s [], ht, _ => cases ht
  | .function s (_ :: _ :: _), _, h => cases h
  | .function s [.mk args opts pos], ht, h =>
    simp only [forward, evaluateFunction, Param.arguments] at h
    split at h
    · rename_i hs
      match args, h with
      | .string (c :: t) :: as, h =>
        cases h
        exact .first (callOf_same hs _ _ _)
    split at h
    · rename_i hs
      match args, h with
      | .string t :: as, h =>
        simp only [onArg0, last] at h
        cases hc : t.reverse with
        | nil => rw [hc] at h; cases h
        | cons c l =>
          rw [hc] at h
          cases h
          have : t = l.reverse ++ [c] := by rw [← List.reverse_reverse t, hc, List.reverse_cons]
          subst this
          exact .last (callOf_same hs _ _ _)
    split at h
    · rename_i hs
      match args, h with
      | .string t :: as, h => cases h; exact .length (callOf_same hs _ _ _)
    split at h
    · rename_i hs
      match args, ht, h with
      | .integer n :: as, ht, h =>
        obtain ⟨k, rfl⟩ := natural ht (by rw [hs]; decide) (n := n) (by simp)
        obtain ⟨m, hm, rfl⟩ := integer_of_ok h
        rw [factorial_ok hm]
        refine .factorial (callOf_same hs _ _ _) ?_
        by_contra hk
        rw [C01_factorial_overflow w k (.inr (by exact_mod_cast Nat.not_lt.1 hk))] at hm
        cases hm
      | .decimal d :: as, ht, h =>
        cases h
        exact .decimal (by decide) (callOf_same hs _ _ _)
    split at h
    · rename_i hs
      match args, ht, h with
      | .integer n :: as, ht, h =>
        obtain ⟨k, rfl⟩ := natural ht (by rw [hs]; decide) (n := n) (by simp)
        obtain ⟨m, hm, rfl⟩ := integer_of_ok h
        rw [fibonacci_ok hm]
        refine .fibonacci (callOf_same hs _ _ _) ?_
        by_contra hk
        rw [C02_fibonacci_overflow w k (.inr (by exact_mod_cast Nat.not_lt.1 hk))] at hm
        cases hm
      | .decimal d :: as, ht, h =>
        cases h
        exact .decimal (by decide) (callOf_same hs _ _ _)
    split at h
    · rename_i hs
      match args, h with
      | [.integer a, .integer b], h => cases h; exact .sum (callOf_same hs _ _ _)
    split at h
    · rename_i hs
      match args, h with
      | [.integer a, .integer b], h => cases h; exact .product (callOf_same hs _ _ _)
    split at h
    · rename_i hs
      match args, ht, h with
      | [.integer a, .integer n], ht, h =>
        obtain ⟨k, rfl⟩ := natural ht (by rw [hs]; decide) (n := n) (by simp)
        by_cases hk : (k : Int) < 2 ^ 64
        · rw [evaluatePower, toU64_nat hk] at h
          cases h
          exact .power (callOf_same hs _ _ _) hk
        · rw [evaluatePower, toU64_large (Int.not_lt.1 hk)] at h
          cases h
          exact .largePower (callOf_same hs _ _ _) (Int.not_lt.1 hk)
    · cases h

/-- **C64**.  Exactly what a session answers: the literals, and the functions of the table on literals. -/
theorem C64_exact (L : Lawful u) (msg : Str → Str) (w : Width) (s t : Str) :
    Answers u msg w s (.ok t) ↔
      ∃ v r, parseText u (replCfg msg s) = .ok v ∧ Direct w v r ∧ r.display = some t := by
  constructor
  · intro h
    have hp := printed_of_answers h
    rw [printed, value, replParse] at hp
    cases hv : parseText u (replCfg msg s) with
    | err e => rw [hv] at hp; cases hp
    | panic => rw [hv] at hp; cases hp
    | ok v =>
      rw [hv, Out.ok_bind] at hp
      cases hr : forward w v with
      | err e => rw [hr] at hp; cases hp
      | panic => rw [hr] at hp; cases hp
      | ok r =>
        rw [hr, Out.ok_bind] at hp
        have hd : r.display = some t := by
          cases hd : r.display with
          | none => rw [hd] at hp; cases hp
          | some t' => rw [hd] at hp; cases hp; rfl
        rcases C57_shape L _ v hv with rfl | ht
        · cases hr; cases hd
        · exact ⟨v, r, rfl, direct_of_forward w ht hr, hd⟩
  · rintro ⟨v, r, hv, hd, ht⟩ hist
    rw [C22_outcome_independent_of_history, printed, value, replParse, hv, Out.ok_bind, forward_of_direct w hd, Out.ok_bind, ht]
    rfl

/-- **C64** (violation).  Operations on operations are never answered: what is answered is a literal or one of eight functions
with a literal as first argument. -/
theorem C64_nothing_nested (L : Lawful u) (msg : Str → Str) (w : Width) {s t : Str} (h : Answers u msg w s (.ok t)) :
    ∃ v, parseText u (replCfg msg s) = .ok v ∧
      (Atom v ∨ ∃ f a as, f ∈ [c!"plus", c!"times", c!"power", c!"factorial", c!"fibonacci", c!"first", c!"last", c!"length"] ∧
        CallOf f (a :: as) v ∧ Atom a) := by
  obtain ⟨v, r, hv, hd, -⟩ := (C64_exact L msg w s t).1 h
  refine ⟨v, hv, ?_⟩
  cases hd with
  | literal h => exact .inl h
  | decimal hf h =>
    refine .inr ⟨_, _, _, ?_, h, trivial⟩
    simp only [List.mem_cons, List.not_mem_nil, or_false] at hf ⊢
    tauto
  | _ h => exact .inr ⟨_, _, _, by decide, h, trivial⟩

/-- `2^10` is answered, `(1*2)*3` is not. -/
example (q : Position) : Direct .w64 (.function (Sym.ofStr c!"power") [.mk [.integer 2, .integer 10] [] q]) (.integer 1024) :=
  .power (x := 2) (n := 10) (callOf_same (by decide) _ _ _) (by decide)

example (q : Position) (r : AST) : ¬ Direct .w64 (.function (Sym.ofStr c!"times")
    [.mk [.function (Sym.ofStr c!"times") [.mk [.integer 1, .integer 2] [] q], .integer 3] [] q]) r := by
  intro h
  have := forward_of_direct _ h
  rw [show forward .w64 _ = .err (unimplementedAt c!"evaluate_multiplicative" 88) from rfl] at this
  cases this

end SM.Props
