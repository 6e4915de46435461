import Verif.Props.Sizes
/-
C83: the work of evaluation, counted in multiplications of big numbers.
-/
namespace SM.Props
open SM SM.Peg SM.Alg BMap

variable {u : Uni}

/-! ### Evaluation with a counter -/

/-- `factorialFoldU` with the number of multiplications. -/
def factorialFoldC (n : Nat) : Nat × Nat := (List.range' 1 n).foldl (fun s b => (s.1 * b, s.2 + 1)) (1, 0)

theorem foldC_eq (l : List Nat) : ∀ a c, l.foldl (fun (s : Nat × Nat) b => (s.1 * b, s.2 + 1)) (a, c) =
    (l.foldl (fun a b => a * b) a, c + l.length) := by
  induction l with
  | nil => intros; rfl
  | cons x l ih =>
    intro a c
    rw [List.foldl_cons, ih, List.foldl_cons, List.length_cons]
    congr 1
    omega

theorem factorialFoldC_eq (n : Nat) : factorialFoldC n = (factorialFoldU n, n) := by
  rw [factorialFoldC, foldC_eq, factorialFoldU, List.length_range', Nat.zero_add]

/-- `factorialI` with the number of multiplications. -/
def factorialC (w : Width) (n : Int) : Alg.Res Int × Nat :=
  match toIsize w n with
  | some s =>
    if s < 0 then (.err .complexInfinity, 0)
    else ((.ok (factorialFoldC (asUsize w s)).1), (factorialFoldC (asUsize w s)).2)
  | none => (.err .overFlow, 0)

theorem factorialC_erase (w : Width) (n : Int) : (factorialC w n).1 = factorialI w n := by
  unfold factorialC factorialI
  cases toIsize w n with
  | none => rfl
  | some s =>
    simp only
    split
    · rfl
    · rw [factorialFoldC_eq]

/-- `fibonacciI` with the number of recursive calls, each of which multiplies at most twice. -/
def fibonacciC (w : Width) (n : Int) : Alg.Res Int × Nat :=
  match toIsize w n with
  | some s =>
    match memoizationC (asUsize w s + 1) (asUsize w s) memoInit with
    | .ok ((v, _), c) => (if s < 0 ∧ s % 2 = 0 then .panic else .ok (v : Int), 2 * c)
    | _ => (.panic, 0)
  | none => (.err .overFlow, 0)

theorem fibonacciC_erase (w : Width) (n : Int) : (fibonacciC w n).1 = fibonacciI w n := by
  unfold fibonacciC fibonacciI
  cases toIsize w n with
  | none => rfl
  | some s =>
    obtain ⟨⟨v, m⟩, c, h1, h2, -⟩ := C04_fibonacci_calls (asUsize w s)
    simp only [h1, fibonacciFastU, h2, Out.ok_map]

/-- `forward` with a bound on the number of multiplications; a power, which the library computes, counts as one. -/
def forwardC (w : Width) (a : AST) : SMResult AST × Nat :=
  match a with
  | .function s [.mk (.integer n :: as) o p] =>
    if s.name = c!"factorial" then (AST.integer <$> ofAlgRes (factorialC w n).1, (factorialC w n).2)
    else if s.name = c!"fibonacci" then (AST.integer <$> ofAlgRes (fibonacciC w n).1, (fibonacciC w n).2)
    else (forward w (.function s [.mk (.integer n :: as) o p]), 1)
  | a => (forward w a, 0)

theorem forwardC_erase (w : Width) (a : AST) : (forwardC w a).1 = forward w a := by
  unfold forwardC
  split
  · rename_i s n as o p
    split
    · rename_i h
      simp [factorialC_erase, forward, evaluateFunction, h, onArg0, SM.factorial, Param.arguments]
    split
    · rename_i h
      simp [fibonacciC_erase, forward, evaluateFunction, h, onArg0, SM.fibonacci, Param.arguments]
    · rfl
  · rfl

theorem toIsize_nat {w : Width} {k : Nat} {s : Int} (h : toIsize w k = some s) :
    s = k ∧ asUsize w s = k ∧ k < 2 ^ (w.bits - 1) := by
  unfold toIsize at h
  split at h
  · rename_i hk
    cases h
    refine ⟨rfl, ?_, by exact_mod_cast hk.2⟩
    have h1 : (k : Int) < 2 ^ w.bits := Int.lt_of_lt_of_le hk.2 (by cases w <;> decide)
    rw [asUsize, Int.emod_eq_of_lt (by omega) h1, Int.toNat_natCast]
  · cases h

/-- Positions do not matter for the work. -/
theorem work_erase (w : Width) (v : AST) {s : Sym} {i : Int} {as : List AST} {o : BMap AST AST} {p : Position}
    (h : erase v = .function s [.mk (.integer i :: as) o p]) (hs : s.name = c!"factorial") :
    (forwardC w v).2 = (factorialC w i).2 := by
  match v, h with
  | .function s' [.mk (.integer j :: as') o' p'], h =>
    simp only [erase, eraseP, eraseParam, eraseL, AST.function.injEq, List.cons.injEq, Param.mk.injEq, AST.integer.injEq] at h
    obtain ⟨rfl, ⟨⟨rfl, -⟩, -⟩, -⟩ := h
    simp only [forwardC, if_pos hs]

/-- **C83**.  Evaluating what is read from a text of `n` characters takes at most `48 n + 14` multiplications -- unless the
text asks for the factorial of a number, which takes as many multiplications as the number says. -/
theorem C83_work (L : Lawful u) (c : Cfg) {v : AST} (h : parseText u c = .ok v) (w : Width) :
    (forwardC w v).1 = forward w v ∧
    ((forwardC w v).2 ≤ 48 * c.input.length + 14 ∨
      ∃ (k : Nat) (as : List AST), CallOf c!"factorial" (.integer k :: as) v ∧ k < 2 ^ (w.bits - 1) ∧
        k < 16 ^ c.input.length ∧ (forwardC w v).2 = k) := by
  refine ⟨forwardC_erase w v, ?_⟩
  rcases C56_answers_are_readings L _ v h with ⟨rfl, -⟩ | ⟨b, x, rest, hc, -, hr⟩
  · exact .inl (Nat.zero_le _)
  have hx : x.length ≤ c.input.length := by
    rw [hc]
    simp only [List.length_append]
    omega
  have h2 := (bulk_expr (u := u) fits_magnitude hr).2
  have ht := typed_expr hr
  generalize c.input.length = n at hx ⊢
  unfold forwardC
  split
  · rename_i s i as o p
    split
    · rename_i hs
      obtain ⟨k, rfl⟩ := natural ht (by rw [hs]; decide) (n := i) (by simp)
      simp only [factorialC]
      cases hi : toIsize w k with
      | none => exact .inl (Nat.zero_le _)
      | some z =>
        obtain ⟨rfl, h3, h4⟩ := toIsize_nat hi
        rw [bulk_call] at h2
        simp only [bulkL, bulk, magnitude] at h2
        have h0 : k < 16 ^ hexes k := by simpa using lt_hexes (k : Int)
        refine .inr ⟨k, as, callOf_same hs _ _ _, h4, Nat.lt_of_lt_of_le h0 (Nat.pow_le_pow_right (by decide) (by omega)), ?_⟩
        simp only
        rw [if_neg (by omega), h3, factorialFoldC_eq]
    split
    · rename_i hs
      left
      obtain ⟨k, rfl⟩ := natural ht (by rw [hs]; decide) (n := i) (by simp)
      simp only [fibonacciC]
      cases hi : toIsize w k with
      | none => exact Nat.zero_le _
      | some z =>
        obtain ⟨rfl, h3, h4⟩ := toIsize_nat hi
        rw [bulk_call] at h2
        simp only [bulkL, bulk, magnitude] at h2
        have h0 : k < 16 ^ hexes k := by simpa using lt_hexes (k : Int)
        simp only
        rw [h3]
        obtain ⟨⟨v, m⟩, c, h5, -, h6⟩ := C04_fibonacci_calls k
        rw [h5]
        simp only
        have h7 : Nat.log 2 k ≤ 4 * hexes k := by
          rcases Nat.eq_zero_or_pos k with rfl | hk
          · simp
          · refine Nat.le_of_lt (Nat.log_lt_of_lt_pow (by omega) ?_)
            rw [Nat.pow_mul]
            exact h0
        omega
    · exact .inl (by simp)
  · exact .inl (Nat.zero_le _)

/-- **C83** (violation).  And no limit is set: `10…0!` with `k` zeros, for `k` up to 18 on a machine with 64 bits, begins
`10 ^ k` multiplications. -/
theorem C83_large (L : Lawful u) (c : Cfg) {k : Nat} (hk : k ≤ 18) (hc : c.input = numeral (10 ^ k) ++ c!"!") :
    c.input.length = k + 2 ∧ ∃ v, parseText u c = .ok v ∧ (forwardC .w64 v).2 = 10 ^ k := by
  have h1 := C45_inside_out L c [] (.atom (.int (10 ^ k))) [false] (by simp) (by rw [SNode.Ok]; trivial)
    (sufsOk_ops [false] (by simp)) (by rw [SNode.value]; rfl) (w := []) (w' := []) blank_nil blank_nil
    (by rw [SNode.text]; exact numeral_wordless _ _) (by rw [SNode.text, hc]; simp [SAtom.text, suffixText])
  have h2 : (toIsize .w64 ((10 ^ k : Nat) : Int)) = some ((10 ^ k : Nat) : Int) := by
    have : 10 ^ k ≤ 10 ^ 18 := Nat.pow_le_pow_right (by decide) hk
    generalize 10 ^ k = m at this
    exact toIsize_some (by simp only [Width.bits]; omega) (by simp only [Width.bits]; omega)
  refine ⟨by rw [hc, List.length_append, numeral_ten]; rfl, ?_⟩
  cases hv : parseText u c with
  | err e => rw [hv] at h1; cases h1
  | panic => rw [hv] at h1; cases h1
  | ok v =>
    rw [hv] at h1
    refine ⟨v, rfl, ?_⟩
    rw [work_erase .w64 v (Out.ok.inj h1) rfl, factorialC, h2]
    simp only
    rw [if_neg (Int.not_lt.2 (Int.natCast_nonneg _)), (toIsize_nat h2).2.1, factorialFoldC_eq]

/-! ### Concrete cases -/

/-- `fibonacci(9000000000000000000)`, 30 characters, takes at most 1454 multiplications. -/
example (v : AST) (h : parseText asciiUni ⟨[], c!"fibonacci(9000000000000000000)", []⟩ = .ok v)
    (hf : ∀ as, ¬ CallOf c!"factorial" as v) : (forwardC .w64 v).2 ≤ 1454 :=
  (C83_work lawful_asciiUni _ h .w64).2.resolve_right fun ⟨_, _, hc, _⟩ => hf _ hc

/-- Twenty characters begin a million million million multiplications. -/
example : ∃ v, parseText asciiUni ⟨[], c!"1000000000000000000!", []⟩ = .ok v ∧ (forwardC .w64 v).2 = 1000000000000000000 :=
  (C83_large lawful_asciiUni ⟨[], c!"1000000000000000000!", []⟩ (k := 18) (by decide) (by decide)).2

end SM.Props
