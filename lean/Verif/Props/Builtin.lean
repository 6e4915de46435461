import Verif.Props.Eval
import Verif.Props.PrimeTable
/-
C13, C20, C51: the built-in prime sum, rewriting, and the messages of missing functions.
-/
namespace SM.Props
open SM SM.Alg

/-- **C13** (through the built-in).  Up to `2^32` the built-in answers with the sum of the primes, in every build. -/
theorem C13_builtin (chk : Bool) (n : Nat) (h1 : 1 ≤ n) (hn : n < 2 ^ 32) (ht : ∀ k, k < 26 → (n : Int) ≠ 10 ^ k) :
    primeSumAst chk (.integer n) = .ok (.integer (primeSum n : Int)) := by
  rw [primeSumAst, C13_prime_sum_untabulated chk n h1 hn ht]
  rfl

/-- **C13** (through the built-in).  With overflow checks it panics from there on. -/
theorem C13_builtin_checked (n : Nat) (h : 2 ^ 32 ≤ n) (hn : n < 2 ^ 64) (ht : ∀ k, k < 26 → (n : Int) ≠ 10 ^ k) :
    primeSumAst true (.integer n) = .panic := by
  rw [primeSumAst, C13_prime_sum_i_checked n h hn ht]
  rfl

/-- **C13** (through the built-in).  Without them it answers, and wrongly, on a whole range. -/
theorem C13_builtin_wrong (n : Nat) (h : 2 ^ 32 ≤ n) (hn : n ≤ 6074000999) (ht : ∀ k, k < 26 → (n : Int) ≠ 10 ^ k) :
    ∃ x : Nat, primeSumAst false (.integer n) = .ok (.integer x) ∧ x ≠ primeSum n := by
  obtain ⟨x, hx, hne⟩ := C13_prime_sum_release_wrong n h hn
  refine ⟨x, ?_, hne⟩
  rw [primeSumAst, primeSumI_untabulated false n (lt_of_le_of_lt hn (by decide)) ht, hx]
  rfl

/-- **C13** (through the built-in).  Negative arguments are an unknown error, decimals are returned, anything else panics. -/
theorem C13_builtin_other (chk : Bool) : (∀ n : Int, n < 0 → primeSumAst chk (.integer n) = .err .unknown) ∧
    (∀ d, primeSumAst chk (.decimal d) = .ok (.decimal d)) ∧
    ∀ a, (∀ n, a ≠ .integer n) → (∀ d, a ≠ .decimal d) → primeSumAst chk a = .panic := by
  refine ⟨fun n h => ?_, fun _ => rfl, fun a h1 h2 => ?_⟩
  · rw [primeSumAst, C13_prime_sum_negative chk n h]
    rfl
  · cases a <;> first | rfl | exact absurd rfl (h1 _) | exact absurd rfl (h2 _)

example : primeSumAst true (.integer (12345 : Nat)) = .ok (.integer (primeSum 12345 : Int)) :=
  C13_builtin true 12345 (by decide) (by decide) (by decide +kernel)

example : primeSumAst true (.integer (5000000000 : Nat)) = .panic :=
  C13_builtin_checked 5000000000 (by decide) (by decide) (by decide +kernel)

/-- **C20**.  Rewriting changes nothing. -/
theorem C20_rewrite (a : AST) : rewrite a = a := rfl

theorem unimplemented_infix (fn : Str) (n : Nat) : ∃ m, unimplementedAt fn n = .unimplemented m ∧ fn <:+: m ∧ natStr n <:+ m :=
  ⟨_, rfl, ⟨c!"Unimplemented Function: ", c!" at line " ++ natStr n, by simp⟩, ⟨_, rfl⟩⟩

/-- **C51**.  The message about a function that is not built in names the place in the evaluator, not the function: it is the
same for all functions, arguments and options. -/
theorem C51_missing : ∃ m, c!"evaluate_function" <:+: m ∧ ∀ (w : Width) (s : Sym) (q : Param),
    s.name ∉ [c!"first", c!"last", c!"length", c!"factorial", c!"fibonacci", c!"plus", c!"times", c!"power"] →
    forward w (.function s [q]) = .err (.unimplemented m) := by
  obtain ⟨m, hm, hi, -⟩ := unimplemented_infix c!"evaluate_function" 68
  refine ⟨m, hi, fun w s q hs => ?_⟩
  simp only [List.mem_cons, List.not_mem_nil, or_false, not_or] at hs
  obtain ⟨h1, h2, h3, h4, h5, h6, h7, h8⟩ := hs
  simp only [forward, evaluateFunction, h1, h2, h3, h4, h5, h6, h7, h8, if_false, hm]

/-- **C51**.  So are the messages about sums, products and powers of anything but two integers: one message for each. -/
theorem C51_operands : ∃ m : Str → Str, (∀ k ∈ [c!"plus", c!"times", c!"power"], ∀ (w : Width) (s : Sym) (args : List AST)
    (opts : List (AST × AST)) (pos : Position), s.name = k → (∀ a b, args ≠ [.integer a, .integer b]) →
      forward w (callWith s args opts pos) = .err (.unimplemented (m k))) ∧
    c!"evaluate_additive" <:+: m c!"plus" ∧ c!"evaluate_multiplicative" <:+: m c!"times" ∧ c!"evaluate_power" <:+: m c!"power" := by
  obtain ⟨m1, e1, i1, -⟩ := unimplemented_infix c!"evaluate_additive" 78
  obtain ⟨m2, e2, i2, -⟩ := unimplemented_infix c!"evaluate_multiplicative" 88
  obtain ⟨m3, e3, i3, -⟩ := unimplemented_infix c!"evaluate_power" 101
  refine ⟨fun k => if k = c!"plus" then m1 else if k = c!"times" then m2 else m3, ?_, i1, i2, i3⟩
  intro k hk w s args opts pos hs h
  have h1 : evaluateAdditive args = .err (.unimplemented m1) := by
    unfold evaluateAdditive
    split
    · exact absurd rfl (h _ _)
    · rw [e1]
  have h2 : evaluateMultiplicative args = .err (.unimplemented m2) := by
    unfold evaluateMultiplicative
    split
    · exact absurd rfl (h _ _)
    · rw [e2]
  have h3 : evaluatePower args = .err (.unimplemented m3) := by
    unfold evaluatePower
    split
    · exact absurd rfl (h _ _)
    · rw [e3]
  simp only [List.mem_cons, List.not_mem_nil, or_false] at hk
  rw [forward_call]
  unfold evaluateFunction
  rw [hs]
  rcases hk with rfl | rfl | rfl
  · exact h1
  · exact h2
  · exact h3

example : ∃ m, forward .w64 (.function ⟨[], c!"sin", .normal, 0⟩ [.mk [.integer 1] [] noPos]) = .err (.unimplemented m) ∧
    forward .w32 (.function ⟨[], c!"cos", .normal, 0⟩ [.mk [.integer 2, .empty] [] noPos]) = .err (.unimplemented m) := by
  obtain ⟨m, -, h⟩ := C51_missing
  exact ⟨m, h _ _ _ (by decide), h _ _ _ (by decide)⟩

end SM.Props
