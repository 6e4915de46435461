import Verif.Eval.Forward
import Verif.Props.Factorial
import Verif.Props.Fibonacci
import Verif.Props.AstOrder
/-
C20, C21, C26, C27, C32, C51: evaluating an expression.
-/
namespace SM.Props
open SM

/-! ### C20 -/

/-- Literals, symbols and the empty statement. -/
def Atom : AST → Prop
  | .program _ => False
  | .function _ _ => False
  | _ => True

/-- **C20** (literals).  Evaluating a literal, a symbol or the empty statement returns it unchanged. -/
theorem C20_atoms_evaluate_to_themselves (w : Width) (a : AST) (h : Atom a) : forward w a = .ok a := by
  cases a <;> simp_all [Atom, forward]

theorem first_atom {a b : AST} (h : first a = .ok b) : ∃ s, b = .string s := by
  unfold first at h
  split at h
  · split at h
    · cases h
    · injection h with h; exact ⟨_, h.symm⟩
  · cases h

theorem last_atom {a b : AST} (h : last a = .ok b) : ∃ s, b = .string s := by
  unfold last at h
  split at h
  · split at h
    · cases h
    · injection h with h; exact ⟨_, h.symm⟩
  · cases h

theorem length_atom {a b : AST} (h : length a = .ok b) : ∃ n, b = .integer n := by
  unfold length at h
  split at h
  · injection h with h; exact ⟨_, h.symm⟩
  · cases h

theorem map_integer_atom {r : SMResult Int} {b : AST} (h : AST.integer <$> r = .ok b) :
    ∃ n, b = .integer n := by
  cases r with
  | ok n => simp at h; exact ⟨n, h.symm⟩
  | err e => simp at h
  | panic => simp at h

theorem factorial_atom {w : Width} {a b : AST} (h : factorial w a = .ok b) : Atom b := by
  unfold factorial at h
  split at h
  · obtain ⟨n, rfl⟩ := map_integer_atom h; trivial
  · injection h with h; subst h; trivial
  · cases h

theorem fibonacci_atom {w : Width} {a b : AST} (h : fibonacci w a = .ok b) : Atom b := by
  unfold fibonacci at h
  split at h
  · obtain ⟨n, rfl⟩ := map_integer_atom h; trivial
  · injection h with h; subst h; trivial
  · cases h

theorem onArg0_ok {f : AST → SMResult AST} {args : List AST} {b : AST} (h : onArg0 f args = .ok b) :
    ∃ a, args.head? = some a ∧ f a = .ok b := by
  cases args with
  | nil => cases h
  | cons a as => exact ⟨a, rfl, h⟩

/-- **C20** (results are data).  Whatever evaluation returns is a literal, a symbol or the empty
statement: never a call, never a program. -/
theorem C20_result_is_atom (w : Width) (a b : AST) (h : forward w a = .ok b) : Atom b := by
  cases a with
  | program l => cases h
  | function s p =>
    match p, h with
    | [], h => injection h with h; subst h; trivial
    | [q], h =>
      simp only [forward, evaluateFunction] at h
      split at h
      · obtain ⟨a, _, h⟩ := onArg0_ok h
        obtain ⟨s, rfl⟩ := first_atom h; trivial
      split at h
      · obtain ⟨a, _, h⟩ := onArg0_ok h
        obtain ⟨s, rfl⟩ := last_atom h; trivial
      split at h
      · obtain ⟨a, _, h⟩ := onArg0_ok h
        obtain ⟨s, rfl⟩ := length_atom h; trivial
      split at h
      · obtain ⟨a, _, h⟩ := onArg0_ok h
        exact factorial_atom h
      split at h
      · obtain ⟨a, _, h⟩ := onArg0_ok h
        exact fibonacci_atom h
      split at h
      · unfold evaluateAdditive at h
        split at h
        · injection h with h; subst h; trivial
        · cases h
      split at h
      · unfold evaluateMultiplicative at h
        split at h
        · injection h with h; subst h; trivial
        · cases h
      split at h
      · unfold evaluatePower at h
        split at h
        · split at h
          · injection h with h; subst h; trivial
          · injection h with h; subst h; trivial
        · cases h
      · cases h
    | _ :: _ :: _, h => cases h
  | empty => injection h with h; subst h; trivial
  | boolean b => injection h with h; subst h; trivial
  | integer b => injection h with h; subst h; trivial
  | decimal b => injection h with h; subst h; trivial
  | symbol b => injection h with h; subst h; trivial
  | string b => injection h with h; subst h; trivial

/-- **C20** (fixed point).  Evaluating a result again, on any target, returns the same result. -/
theorem C20_results_are_final (w w' : Width) (a b : AST) (h : forward w a = .ok b) :
    forward w' b = .ok b :=
  C20_atoms_evaluate_to_themselves w' b (C20_result_is_atom w a b h)

/-! ### C21 -/

/-- A call of `s` with one argument group. -/
def callWith (s : Sym) (args : List AST) (opts : List (AST × AST)) (pos : Position) : AST :=
  .function s [.mk args opts pos]

theorem forward_call (w : Width) (s : Sym) (args : List AST) (opts : List (AST × AST)) (pos : Position) :
    forward w (callWith s args opts pos) = evaluateFunction w s (.mk args opts pos) := rfl

/-- **C21** (products).  A product of two integers evaluates to their product, whatever the namespace
and operator kind of `times`. -/
theorem C21_product (w : Width) (s : Sym) (hs : s.name = c!"times") (a b : Int)
    (opts : List (AST × AST)) (pos : Position) :
    forward w (callWith s [.integer a, .integer b] opts pos) = .ok (.integer (a * b)) := by
  simp [forward_call, evaluateFunction, hs, evaluateMultiplicative, Param.arguments]

theorem evaluatePower_some (a b : Int) (k : Nat) (h : toU64 b = some k) :
    evaluatePower [.integer a, .integer b] = .ok (.integer (a ^ k)) := by
  unfold evaluatePower; simp only [h]

/-- **C21** (powers).  A power with an exponent in `0..2^64` evaluates to the exact power. -/
theorem C21_power (w : Width) (s : Sym) (hs : s.name = c!"power") (a : Int) (n : Nat) (hn : n < 2 ^ 64)
    (opts : List (AST × AST)) (pos : Position) :
    forward w (callWith s [.integer a, .integer n] opts pos) = .ok (.integer (a ^ n)) := by
  have : toU64 (n : Int) = some n := by
    unfold toU64
    rw [if_pos (by omega), Int.toNat_natCast]
  simp [forward_call, evaluateFunction, hs, Param.arguments, evaluatePower_some a n n this]

/-- **C21** (violation).  A power with a negative exponent or one of at least `2^64` evaluates, without
an error, to the base. -/
theorem C21_power_out_of_range (w : Width) (s : Sym) (hs : s.name = c!"power") (a n : Int)
    (hn : n < 0 ∨ 2 ^ 64 ≤ n) (opts : List (AST × AST)) (pos : Position) :
    forward w (callWith s [.integer a, .integer n] opts pos) = .ok (.integer a) := by
  have : toU64 n = none := by
    unfold toU64
    rw [if_neg (by omega)]
  simp [forward_call, evaluateFunction, hs, evaluatePower, Param.arguments, this]

/-- The violation gives wrong numbers: `2^(-1)` is reported as `2`. -/
theorem C21_power_wrong_witness (w : Width) (s : Sym) (hs : s.name = c!"power")
    (opts : List (AST × AST)) (pos : Position) :
    forward w (callWith s [.integer 2, .integer (-1)] opts pos) = .ok (.integer 2) :=
  C21_power_out_of_range w s hs 2 (-1) (.inl (by decide)) opts pos

/-- **C21** (sums).  Evaluation adds under the name `plus`. -/
theorem C21_plus (w : Width) (s : Sym) (hs : s.name = c!"plus") (a b : Int)
    (opts : List (AST × AST)) (pos : Position) :
    forward w (callWith s [.integer a, .integer b] opts pos) = .ok (.integer (a + b)) := by
  simp [forward_call, evaluateFunction, hs, evaluateAdditive, Param.arguments]

/-- **C21** (violation).  The infix operators `+ - / //` are named `add`, `subtract`, `divide` and
`quotient`; none of these names is evaluated, so `1+2` is an error. -/
theorem C21_add_unimplemented (w : Width) (s : Sym) (args : List AST)
    (hs : s.name ∈ [c!"add", c!"subtract", c!"divide", c!"quotient"])
    (opts : List (AST × AST)) (pos : Position) :
    ∃ msg, forward w (callWith s args opts pos) = .err (.unimplemented msg) := by
  simp only [List.mem_cons, List.not_mem_nil, or_false] at hs
  rcases hs with h | h | h | h <;>
    exact ⟨_, by simp only [forward_call, evaluateFunction, h, unimplementedAt]; rfl⟩

/-- **C21** (factorials and Fibonacci numbers).  The built-ins return exactly the mathematical value
for every non-negative machine-size integer. -/
theorem C21_factorial (w : Width) (s : Sym) (hs : s.name = c!"factorial") (n : Nat)
    (hn : (n : Int) < 2 ^ (w.bits - 1)) (rest : List AST) (opts : List (AST × AST)) (pos : Position) :
    forward w (callWith s (.integer n :: rest) opts pos) = .ok (.integer (n.factorial : Int)) := by
  simp [forward_call, evaluateFunction, hs, Param.arguments, onArg0, factorial, ofAlgRes,
    C01_factorial_value w n hn, Out.mapErr]

theorem C21_fibonacci (w : Width) (s : Sym) (hs : s.name = c!"fibonacci") (n : Nat)
    (hn : (n : Int) < 2 ^ (w.bits - 1)) (rest : List AST) (opts : List (AST × AST)) (pos : Position) :
    forward w (callWith s (.integer n :: rest) opts pos) = .ok (.integer (Nat.fib n : Int)) := by
  simp [forward_call, evaluateFunction, hs, Param.arguments, onArg0, fibonacci, ofAlgRes,
    C02_fibonacci_value w n hn, Out.mapErr]

/-- The hypotheses are met by ordinary calls. -/
example : forward .w64 (callWith ⟨[c!"std", c!"infix"], c!"times", .infix c!"*" 140, 0⟩
    [.integer 6, .integer (-7)] [] Position.dflt) = .ok (.integer (-42)) :=
  C21_product _ _ rfl 6 (-7) _ _
example : forward .w64 (callWith ⟨[c!"std", c!"suffix"], c!"factorial", .suffix c!"!", 0⟩
    [.integer 5] [] Position.dflt) = .ok (.integer 120) :=
  C21_factorial _ _ rfl 5 (by decide) _ _ _

/-! ### C26 -/

/-- Calls of a built-in that make evaluation panic. -/
inductive PanicCall (w : Width) : Str → List AST → Prop
  /-- The single-argument built-ins without an argument. -/
  | noArgument {name : Str} : name ∈ [c!"first", c!"last", c!"length", c!"factorial", c!"fibonacci"] →
      PanicCall w name []
  /-- The string built-ins applied to anything but a string. -/
  | notString {name : Str} {a : AST} {as : List AST} :
      name ∈ [c!"first", c!"last", c!"length"] → (∀ s, a ≠ .string s) → PanicCall w name (a :: as)
  /-- The number built-ins applied to anything but a number. -/
  | notNumber {name : Str} {a : AST} {as : List AST} :
      name ∈ [c!"factorial", c!"fibonacci"] → (∀ n, a ≠ .integer n) → (∀ d, a ≠ .decimal d) →
      PanicCall w name (a :: as)
  /-- Fibonacci numbers at negative even machine integers. -/
  | fibonacciNegative {n : Int} {as : List AST} : n < 0 → n % 2 = 0 → -(2 ^ (w.bits - 1) : Int) ≤ n →
      PanicCall w c!"fibonacci" (.integer n :: as)

theorem fibonacciI_panic_iff (w : Width) (n : Int) :
    Alg.fibonacciI w n = .panic ↔ n < 0 ∧ n % 2 = 0 ∧ -(2 ^ (w.bits - 1) : Int) ≤ n := by
  constructor
  · intro h
    have hr : -(2 ^ (w.bits - 1) : Int) ≤ n ∧ n < (2 ^ (w.bits - 1) : Int) := by
      by_contra hc
      rw [C02_fibonacci_overflow w n (by omega)] at h
      cases h
    by_cases h0 : n < 0
    · refine ⟨h0, ?_, hr.1⟩
      by_contra hodd
      obtain ⟨k, rfl⟩ : ∃ k : Nat, n = -(k : Int) := ⟨n.natAbs, by omega⟩
      rw [C03_fibonacci_negative_odd w k (by omega) (by omega)] at h
      cases h
    · obtain ⟨k, rfl⟩ : ∃ k : Nat, n = (k : Int) := ⟨n.natAbs, by omega⟩
      rw [C02_fibonacci_value w k hr.2] at h
      cases h
  · rintro ⟨h0, h1, h2⟩
    exact C03_fibonacci_negative_even w n h0 h1 h2

theorem first_panic_iff (a : AST) : first a = .panic ↔ ∀ s, a ≠ .string s := by
  cases a <;> simp [first]
  split <;> simp

theorem last_panic_iff (a : AST) : last a = .panic ↔ ∀ s, a ≠ .string s := by
  cases a <;> simp [last]
  split <;> simp

theorem length_panic_iff (a : AST) : length a = .panic ↔ ∀ s, a ≠ .string s := by
  cases a <;> simp [length]

theorem factorial_panic_iff (w : Width) (a : AST) :
    factorial w a = .panic ↔ (∀ n, a ≠ .integer n) ∧ ∀ d, a ≠ .decimal d := by
  cases a <;> simp [factorial]
  rename_i n
  have := C01_factorial_total w n
  unfold ofAlgRes
  cases h : Alg.factorialI w n <;> simp_all [Out.mapErr]

theorem fibonacci_panic_iff (w : Width) (a : AST) :
    fibonacci w a = .panic ↔ ((∀ n, a ≠ .integer n) ∧ ∀ d, a ≠ .decimal d) ∨
      ∃ n, a = .integer n ∧ n < 0 ∧ n % 2 = 0 ∧ -(2 ^ (w.bits - 1) : Int) ≤ n := by
  cases a <;> simp [fibonacci]
  rename_i n
  rw [← fibonacciI_panic_iff]
  unfold ofAlgRes
  cases h : Alg.fibonacciI w n <;> simp_all [Out.mapErr]

theorem evaluateFunction_panic_iff (w : Width) (s : Sym) (p : Param) :
    evaluateFunction w s p = .panic ↔ PanicCall w s.name p.arguments := by
  obtain ⟨args, os, pos⟩ := p
  have hinv : ∀ {name : Str} {as : List AST}, PanicCall w name as →
      (as = [] ∧ name ∈ [c!"first", c!"last", c!"length", c!"factorial", c!"fibonacci"]) ∨
      (∃ a as', as = a :: as' ∧ ((name ∈ [c!"first", c!"last", c!"length"] ∧ ∀ s, a ≠ .string s) ∨
        (name ∈ [c!"factorial", c!"fibonacci"] ∧ (∀ n, a ≠ .integer n) ∧ ∀ d, a ≠ .decimal d) ∨
        (name = c!"fibonacci" ∧ ∃ n, a = .integer n ∧ n < 0 ∧ n % 2 = 0 ∧
          -(2 ^ (w.bits - 1) : Int) ≤ n))) := by
    intro name as h
    cases h with
    | noArgument h => exact .inl ⟨rfl, h⟩
    | notString h h' => exact .inr ⟨_, _, rfl, .inl ⟨h, h'⟩⟩
    | notNumber h h' h'' => exact .inr ⟨_, _, rfl, .inr (.inl ⟨h, h', h''⟩)⟩
    | fibonacciNegative h h' h'' => exact .inr ⟨_, _, rfl, .inr (.inr ⟨rfl, _, rfl, h, h', h''⟩)⟩
  simp only [evaluateFunction, Param.arguments]
  constructor
  · intro h
    split at h
    · rename_i hn
      cases args with
      | nil => exact .noArgument (by simp [hn])
      | cons a as => exact .notString (by simp [hn]) ((first_panic_iff a).1 h)
    split at h
    · rename_i hn
      cases args with
      | nil => exact .noArgument (by simp [hn])
      | cons a as => exact .notString (by simp [hn]) ((last_panic_iff a).1 h)
    split at h
    · rename_i hn
      cases args with
      | nil => exact .noArgument (by simp [hn])
      | cons a as => exact .notString (by simp [hn]) ((length_panic_iff a).1 h)
    split at h
    · rename_i hn
      cases args with
      | nil => exact .noArgument (by simp [hn])
      | cons a as =>
        have := (factorial_panic_iff w a).1 h
        exact .notNumber (by simp [hn]) this.1 this.2
    split at h
    · rename_i hn
      cases args with
      | nil => exact .noArgument (by simp [hn])
      | cons a as =>
        rcases (fibonacci_panic_iff w a).1 h with ⟨h1, h2⟩ | ⟨n, rfl, h1, h2, h3⟩
        · exact .notNumber (by simp [hn]) h1 h2
        · rw [hn]; exact .fibonacciNegative h1 h2 h3
    split at h
    · unfold evaluateAdditive at h; split at h <;> cases h
    split at h
    · unfold evaluateMultiplicative at h; split at h <;> cases h
    split at h
    · unfold evaluatePower at h
      split at h
      · split at h <;> cases h
      · cases h
    · cases h
  · intro h
    rcases hinv h with ⟨rfl, hn⟩ | ⟨a, as, rfl, ⟨hn, ha⟩ | ⟨hn, ha, hb⟩ | ⟨hn, ha⟩⟩
    · simp only [List.mem_cons, List.not_mem_nil, or_false] at hn
      rcases hn with hn | hn | hn | hn | hn <;> simp [hn, onArg0]
    · simp only [List.mem_cons, List.not_mem_nil, or_false] at hn
      rcases hn with hn | hn | hn
      · simpa [hn, onArg0] using (first_panic_iff a).2 ha
      · simpa [hn, onArg0] using (last_panic_iff a).2 ha
      · simpa [hn, onArg0] using (length_panic_iff a).2 ha
    · simp only [List.mem_cons, List.not_mem_nil, or_false] at hn
      rcases hn with hn | hn
      · simpa [hn, onArg0] using (factorial_panic_iff w a).2 ⟨ha, hb⟩
      · simpa [hn, onArg0] using (fibonacci_panic_iff w a).2 (.inl ⟨ha, hb⟩)
    · simpa [hn, onArg0] using (fibonacci_panic_iff w a).2 (.inr ha)

/-- **C26** (which evaluations panic).  Evaluation panics exactly for programs and for the built-in
calls listed in `PanicCall`. -/
theorem C26_forward_panics_iff (w : Width) (a : AST) :
    forward w a = .panic ↔
      (∃ l, a = .program l) ∨ ∃ s p, a = .function s [p] ∧ PanicCall w s.name p.arguments := by
  cases a with
  | program l => simp [forward]
  | function s ps =>
    match ps with
    | [] => simp [forward]
    | [p] =>
      simp only [forward, evaluateFunction_panic_iff]
      constructor
      · intro h; exact .inr ⟨s, p, rfl, h⟩
      · rintro (⟨l, h⟩ | ⟨s', p', h, hp⟩)
        · cases h
        · injection h with h1 h2; injection h2 with h2 _; subst h1; subst h2; exact hp
    | _ :: _ :: _ => simp [forward]
  | _ => simp [forward]

/-- **C26** (printing a result).  A result can be printed unless it is the empty statement. -/
theorem C26_result_printable (w : Width) (a b : AST) (h : forward w a = .ok b) :
    b.display = none ↔ b = .empty := by
  have := C20_result_is_atom w a b h
  cases b <;> simp_all [Atom, AST.display]

/-- Evaluation of `fibonacci(-2)` and of `first(1)` panics. -/
example : forward .w64 (callWith ⟨[], c!"fibonacci", .normal, 0⟩ [.integer (-2)] [] Position.dflt)
    = .panic :=
  (C26_forward_panics_iff _ _).2 (.inr ⟨_, _, rfl, .fibonacciNegative (by decide) (by decide) (by decide)⟩)
example : forward .w64 (callWith ⟨[], c!"first", .normal, 0⟩ [.integer 1] [] Position.dflt) = .panic :=
  (C26_forward_panics_iff _ _).2 (.inr ⟨_, _, rfl, .notString (by decide) (by simp)⟩)

/-! ### C27 -/

/-- **C27** (`first`/`last`).  On a string with at least one character they return its first and last
character as a string. -/
theorem C27_first_last (w : Width) (s f : Sym) (hf : f.name = c!"first") (hs : s.name = c!"last")
    (pre : Str) (c : Char) (rest : List AST) (opts : List (AST × AST)) (pos : Position) :
    forward w (callWith f (.string (c :: pre) :: rest) opts pos) = .ok (.string [c]) ∧
    forward w (callWith s (.string (pre ++ [c]) :: rest) opts pos) = .ok (.string [c]) := by
  constructor
  · simp [forward_call, evaluateFunction, hf, Param.arguments, onArg0, first]
  · simp [forward_call, evaluateFunction, hs, Param.arguments, onArg0, last]

/-- **C27** (empty string).  An `EmptyContainer` error, not a panic. -/
theorem C27_first_last_empty (w : Width) (f : Sym) (hf : f.name = c!"first" ∨ f.name = c!"last")
    (rest : List AST) (opts : List (AST × AST)) (pos : Position) :
    ∃ msg, forward w (callWith f (.string [] :: rest) opts pos) = .err (.emptyContainer msg) := by
  rcases hf with h | h
  · exact ⟨_, by simp [forward_call, evaluateFunction, h, Param.arguments, onArg0, first]; rfl⟩
  · exact ⟨_, by simp [forward_call, evaluateFunction, h, Param.arguments, onArg0, last]; rfl⟩

/-- **C27** (length).  The UTF-8 byte length, so for ASCII text the number of characters. -/
theorem C27_length (w : Width) (f : Sym) (hf : f.name = c!"length") (s : Str) (rest : List AST)
    (opts : List (AST × AST)) (pos : Position) :
    forward w (callWith f (.string s :: rest) opts pos)
      = .ok (.integer ((String.ofList s).utf8ByteSize : Int)) := by
  have : (String.ofList s).utf8ByteSize = utf8Len s := by
    unfold utf8Len
    induction s with
    | nil => rfl
    | cons c s ih => 
      rw [show c :: s = [c] ++ s from rfl, String.ofList_append, String.utf8ByteSize_append, ih]
      simp
  simp [forward_call, evaluateFunction, hf, Param.arguments, onArg0, length, this]

theorem C27_length_ascii (w : Width) (f : Sym) (hf : f.name = c!"length") (s : Str)
    (ha : ∀ c ∈ s, c.toNat < 128) (rest : List AST) (opts : List (AST × AST)) (pos : Position) :
    forward w (callWith f (.string s :: rest) opts pos) = .ok (.integer s.length) := by
  have : utf8Len s = s.length := by
    unfold utf8Len
    induction s with
    | nil => rfl
    | cons c s ih =>
      have hc : c.utf8Size = 1 := by
        have := ha c List.mem_cons_self
        unfold Char.utf8Size
        rw [if_pos]
        exact UInt32.le_iff_toNat_le.2 (by show c.toNat ≤ 127; omega)
      simp [hc, ih (fun d hd => ha d (List.mem_cons_of_mem _ hd))]
      omega
  simp [forward_call, evaluateFunction, hf, Param.arguments, onArg0, length, this]

/-- A two-byte character counts twice. -/
example : length (.string c!"né") = .ok (.integer 3) := rfl

/-! ### C32 -/

/-- **C32** (calls).  The head of a call with at least two argument lists is the call without its last
list, and re-applying that list gives the call back; the head of a call with one list is the
function. -/
theorem C32_head_call (s : Sym) (ps : List Param) (p : Param) :
    head (.function s (ps ++ [p])) = if ps = [] then .symbol s else .function s ps := by
  cases ps with
  | nil => rfl
  | cons q ps =>
    simp only [head]
    have : (q :: ps ++ [p]).length = ps.length + 1 + 1 := by simp
    rw [this]
    simp only [List.dropLast_concat]
    rw [if_neg (by simp)]

/-- **C32** (repeated heads).  Taking the head k times of a call with more than k argument lists removes
the last k lists; with exactly k lists it ends at the function symbol. -/
theorem C32_head_iterate (s : Sym) (ps qs : List Param) :
    Nat.iterate head qs.length (.function s (ps ++ qs)) =
      if ps = [] ∧ qs ≠ [] then .symbol s else .function s (ps ++ []) := by
  induction qs using List.reverseRecOn with
  | nil => simp
  | append_singleton qs q ih =>
    have hstep : head (.function s (ps ++ (qs ++ [q])))
        = if ps ++ qs = [] then .symbol s else .function s (ps ++ qs) := by
      rw [← List.append_assoc]; exact C32_head_call s (ps ++ qs) q
    rw [List.length_append, List.length_singleton, Function.iterate_succ_apply, hstep]
    by_cases he : ps ++ qs = []
    · have h1 : ps = [] := (List.append_eq_nil_iff.1 he).1
      have h2 : qs = [] := (List.append_eq_nil_iff.1 he).2
      simp [h1, h2]
    · rw [if_neg he, ih]
      by_cases hp : ps = []
      · subst hp
        have hq : qs ≠ [] := by simpa using he
        simp [hq]
      · simp [hp]

/-- **C32** (atoms).  The head of an atom is the symbol of its type in `std::core`. -/
theorem C32_head_atom (a : AST) :
    (∀ b, a = .boolean b → head a = .mkSymbol c!"std::core::Boolean") ∧
    (∀ b, a = .integer b → head a = .mkSymbol c!"std::core::Integer") ∧
    (∀ b, a = .decimal b → head a = .mkSymbol c!"std::core::Decimal") ∧
    (∀ b, a = .symbol b → head a = .mkSymbol c!"std::core::Symbol") ∧
    (∀ b, a = .string b → head a = .mkSymbol c!"std::core::String") := by
  refine ⟨?_, ?_, ?_, ?_, ?_⟩ <;> (rintro b rfl; rfl)

/-- **C32**: a head is never a literal value or a program, and repeated heads end at a symbol or the
empty statement. -/
theorem C32_head_kind (a : AST) : (∃ s, head a = .symbol s) ∨ (∃ s ps, head a = .function s ps ∧ ps ≠ []) ∨
    head a = .empty := by
  cases a with
  | function s ps =>
    match ps with
    | [] => exact .inl ⟨_, rfl⟩
    | [p] => exact .inl ⟨_, rfl⟩
    | p :: q :: ps => exact .inr (.inl ⟨s, (p :: q :: ps).dropLast, rfl, by simp⟩)
  | empty => exact .inr (.inr rfl)
  | program _ => exact .inr (.inr rfl)
  | _ => exact .inl ⟨_, rfl⟩

/-! ### C51 -/

/-- **C51**.  Algorithm errors surface as the matching user-level error; only `Indeterminate` and
`Undefined` collapse to `Unknown`. -/
theorem C51_error_translation :
    SMError.ofAlg .overFlow = .overflow ∧ SMError.ofAlg .complexInfinity = .complexInfinity ∧
    (∀ s, SMError.ofAlg (.ioError s) = .ioError s) ∧
    (∃ m, SMError.ofAlg .unimplemented = .unimplemented m) ∧
    ∀ e, SMError.ofAlg e = .unknown ↔ e = .indeterminate ∨ ∃ s, e = .undefined s := by
  refine ⟨rfl, rfl, fun _ => rfl, ⟨_, rfl⟩, ?_⟩
  intro e
  cases e <;> simp [SMError.ofAlg]

/-- Apart from those two, no two different algorithm errors are confused. -/
theorem C51_error_translation_injective (e f : Alg.Error) (h : SMError.ofAlg e = SMError.ofAlg f)
    (hne : SMError.ofAlg e ≠ .unknown) : e = f := by
  cases e <;> cases f <;> simp_all [SMError.ofAlg]

/-- **C51** (through evaluation).  `(-1)!` is a complex infinity and a factorial beyond the machine
range an overflow, at user level. -/
theorem C51_factorial_errors (w : Width) (s : Sym) (hs : s.name = c!"factorial") (n : Int)
    (rest : List AST) (opts : List (AST × AST)) (pos : Position) :
    (n < 0 → -(2 ^ (w.bits - 1) : Int) ≤ n →
      forward w (callWith s (.integer n :: rest) opts pos) = .err .complexInfinity) ∧
    ((2 ^ (w.bits - 1) : Int) ≤ n ∨ n < -(2 ^ (w.bits - 1) : Int) →
      forward w (callWith s (.integer n :: rest) opts pos) = .err .overflow) := by
  constructor
  · intro h0 h1
    simp [forward_call, evaluateFunction, hs, Param.arguments, onArg0, factorial, ofAlgRes,
      C01_factorial_negative w n h0 h1, Out.mapErr, SMError.ofAlg]
  · intro h
    simp [forward_call, evaluateFunction, hs, Param.arguments, onArg0, factorial, ofAlgRes,
      C01_factorial_overflow w n h.symm, Out.mapErr, SMError.ofAlg]

end SM.Props
