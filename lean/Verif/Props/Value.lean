import Verif.Props.Node2
import Mathlib.Data.Nat.Digits.Defs
import Mathlib.Data.List.Induction
/-
The values of literals: numerals, radix literals, decimals, history literals.
-/
namespace SM.Props
open SM SM.Peg

variable {u : Uni}

/-! ### Numerals -/

/-- The decimal numeral of a natural number. -/
abbrev numeral (n : Nat) : Str := Nat.toDigits 10 n

theorem radixDigits_append (b : Nat) : ∀ (s t : Str) (a : Nat),
    radixDigits b (s ++ t) a = (radixDigits b s a).bind (radixDigits b t) := by
  intro s
  induction s with
  | nil => intro t a; rfl
  | cons c s ih =>
    intro t a
    rw [List.cons_append, radixDigits, radixDigits]
    split
    · exact ih t a
    · cases digitVal c with
      | none => rfl
      | some d =>
        dsimp only
        split
        · exact ih t _
        · rfl

theorem digitVal_char : ∀ d < 16, digitVal (Nat.digitChar d) = some d := by decide

theorem digitVal_upper : ∀ d < 16, digitVal (Nat.digitChar d).toUpper = some d := by decide

theorem digitChar_ne : ∀ d < 16, Nat.digitChar d ≠ '_' := by decide

theorem radixDigits_numeral {b : Nat} (hb : 1 < b) (hb' : b ≤ 16) (n : Nat) : ∀ a,
    radixDigits b (Nat.toDigits b n) a = some (a * b ^ (Nat.toDigits b n).length + n) := by
  induction n using Nat.strongRecOn with
  | _ n ih =>
    intro a
    by_cases h : n < b
    · rw [Nat.toDigits_of_lt_base h]
      simp [radixDigits, digitVal_char n (by omega), digitChar_ne n (by omega), h]
    · have h1 : b ≤ n := by omega
      have h2 : n % b < b := Nat.mod_lt _ (by omega)
      rw [Nat.toDigits_of_base_le hb h1, radixDigits_append,
        ih (n / b) (Nat.div_lt_self (by omega) hb)]
      simp only [Option.bind_some, List.length_append, List.length_singleton]
      simp only [radixDigits, digitChar_ne _ (show n % b < 16 by omega), if_false,
        digitVal_char _ (show n % b < 16 by omega), h2, if_true, Option.some.injEq]
      have h3 := Nat.div_add_mod n b
      rw [Nat.pow_succ, Nat.add_mul, Nat.mul_assoc]
      have : n / b * b = b * (n / b) := Nat.mul_comm _ _
      omega

theorem numeral_head (n : Nat) : ∃ c r, numeral n = c :: r ∧ c ≠ '_' := by
  cases h : numeral n with
  | nil => exact absurd h Nat.toDigits_ne_nil
  | cons c r =>
    refine ⟨c, r, rfl, ?_⟩
    rintro rfl
    exact Nat.underscore_not_in_toDigits (n := n) (by rw [show Nat.toDigits 10 n = _ from h]; simp)

theorem fromStrRadix_numeral (n : Nat) : fromStrRadix 10 (numeral n) = some n := by
  have h := radixDigits_numeral (b := 10) (by omega) (by omega) n 0
  obtain ⟨c, r, e, hc⟩ := numeral_head n
  rw [e, fromStrRadix]
  simp only [if_neg hc]
  rw [← e]
  simpa using h

theorem parseInteger_numeral (n : Nat) : parseInteger (numeral n) = some (.integer n) := by
  rw [parseInteger, fromStrRadix_numeral]

theorem isDigit_numeral {n : Nat} {c : Char} (h : c ∈ numeral n) : IsDigit c := by
  have := Nat.isDigit_of_mem_toDigits (by omega) (by omega) h
  simp only [Char.isDigit, Bool.and_eq_true, decide_eq_true_eq] at this
  exact this

theorem numeral_pos : ∀ n, 0 < n → IsPos (numeral n) := by
  intro n
  induction n using Nat.strongRecOn with
  | _ n ih =>
    intro h0
    by_cases h : n < 10
    · rw [numeral, Nat.toDigits_of_lt_base h]
      refine ⟨_, [], rfl, ?_, ?_, by simp⟩
      · have key : ∀ n < 10, 0 < n → '1' ≤ Nat.digitChar n := by decide
        exact key n h h0
      · have key : ∀ n < 10, 0 < n → Nat.digitChar n ≤ '9' := by decide
        exact key n h h0
    · rw [numeral, Nat.toDigits_of_base_le (by omega) (by omega)]
      obtain ⟨c, r, e, h1, h2, h3⟩ := ih (n / 10) (by omega) (by omega)
      refine ⟨c, r ++ [(n % 10).digitChar], by rw [show Nat.toDigits 10 (n / 10) = _ from e]; rfl, h1, h2, ?_⟩
      intro d hd
      rcases List.mem_append.1 hd with hd | hd
      · exact h3 d hd
      · rw [List.mem_singleton] at hd
        have : d ∈ numeral n := by
          rw [numeral, Nat.toDigits_of_base_le (by omega) (by omega), hd]
          simp
        exact isDigit_numeral this

theorem numeral_int (n : Nat) : IsInt (numeral n) := by
  by_cases h : n = 0
  · subst h; exact .inl (Nat.toDigits_zero 10)
  · exact .inr (numeral_pos n (by omega))

/-- Numerals without leading zeros are the numerals of numbers. -/
theorem digits_numeral : ∀ (r : Str) (c : Char), '1' ≤ c → c ≤ '9' → (∀ d ∈ r, IsDigit d) →
    ∃ n, 0 < n ∧ c :: r = numeral n := by
  intro r
  induction r using List.reverseRecOn with
  | nil =>
    intro c h1 h2 _
    have hm := digit_mem (c := c) ⟨Nat.le_trans (by decide : '0'.toNat ≤ '1'.toNat) h1, h2⟩
    have key : ∀ c ∈ digitChars, '1' ≤ c → ∃ n < 10, 0 < n ∧ c = Nat.digitChar n := by decide
    obtain ⟨n, h3, h4, rfl⟩ := key c hm h1
    exact ⟨n, h4, by rw [numeral, Nat.toDigits_of_lt_base h3]⟩
  | append_singleton r d ih =>
    intro c h1 h2 h3
    obtain ⟨n, hn, e⟩ := ih c h1 h2 fun d hd => h3 d (by simp [hd])
    have hm := digit_mem (h3 d (by simp))
    have key : ∀ c ∈ digitChars, ∃ n < 10, c = Nat.digitChar n := by decide
    obtain ⟨m, h4, rfl⟩ := key d hm
    refine ⟨10 * n + m, by omega, ?_⟩
    rw [← List.cons_append, e, numeral, numeral, Nat.toDigits_of_base_le (b := 10) (n := 10 * n + m) (by omega) (by omega)]
    have h5 : (10 * n + m) / 10 = n := by omega
    have h6 : (10 * n + m) % 10 = m := by omega
    rw [h5, h6]

theorem int_numeral {x : Str} (h : IsInt x) : ∃ n, x = numeral n := by
  rcases h with rfl | ⟨c, r, rfl, h1, h2, h3⟩
  · exact ⟨0, (Nat.toDigits_zero 10).symm⟩
  · obtain ⟨n, _, e⟩ := digits_numeral r c h1 h2 h3
    exact ⟨n, e⟩

theorem pos_numeral {x : Str} (h : IsPos x) : ∃ n, 0 < n ∧ x = numeral n := by
  obtain ⟨c, r, rfl, h1, h2, h3⟩ := h
  exact digits_numeral r c h1 h2 h3

/-! ### Radix literals -/

/-- The digits of a literal, as characters of either case, and their values. -/
def DigitsAre (cs : List Char) (ds : List Nat) : Prop :=
  List.Forall₂ (fun c d => c = Nat.digitChar d ∨ c = (Nat.digitChar d).toUpper) cs ds

theorem digitVal_of {c : Char} {d : Nat} (hd : d < 16) (h : c = Nat.digitChar d ∨ c = (Nat.digitChar d).toUpper) :
    digitVal c = some d ∧ c ≠ '_' := by
  have k1 : ∀ d < 16, (Nat.digitChar d).toUpper ≠ '_' := by decide
  rcases h with rfl | rfl
  · exact ⟨digitVal_char d hd, digitChar_ne d hd⟩
  · exact ⟨digitVal_upper d hd, k1 d hd⟩

theorem radixDigits_groups {b : Nat} (hb : b ≤ 16) : ∀ (gs : List (Bool × Char)) (ds : List Nat),
    DigitsAre (gs.map Prod.snd) ds → (∀ d ∈ ds, d < b) → ∀ a,
    radixDigits b (gs.flatMap groupText) a = some (ds.foldl (fun a d => a * b + d) a) := by
  intro gs
  induction gs with
  | nil => intro ds h _ a; cases h; rfl
  | cons g gs ih =>
    intro ds h hd a
    obtain ⟨f, c⟩ := g
    cases h with
    | @cons _ d _ ds h1 h2 =>
      have hdb := hd d (by simp)
      obtain ⟨h3, h4⟩ := digitVal_of (show d < 16 by omega) h1
      have h5 := ih ds h2 (fun d hd' => hd d (by simp [hd'])) (a * b + d)
      cases f
      · simp only [List.flatMap_cons, groupText, Bool.false_eq_true, if_false, List.singleton_append, radixDigits, if_neg h4,
          h3, if_pos hdb]
        exact h5
      · simp only [List.flatMap_cons, groupText, if_true, List.cons_append, List.nil_append, radixDigits, if_neg h4,
          h3, if_pos hdb]
        exact h5

theorem foldl_ofDigits (b : Nat) : ∀ (ds : List Nat) (a : Nat),
    ds.foldl (fun a d => a * b + d) a = Nat.ofDigits b (ds.reverse ++ [a]) := by
  intro ds
  induction ds with
  | nil => intro a; simp
  | cons d ds ih =>
    intro a
    rw [List.foldl_cons, ih, List.reverse_cons, List.append_assoc, Nat.ofDigits_append, Nat.ofDigits_append]
    simp only [Nat.ofDigits_cons, Nat.ofDigits_nil, List.cons_append, List.nil_append, List.length_reverse]
    ring

/-- The number that digits denote, the most significant first. -/
def digitsValue (b : Nat) (ds : List Nat) : Nat := Nat.ofDigits b ds.reverse

theorem foldl_zero (b : Nat) (ds : List Nat) : ds.foldl (fun a d => a * b + d) 0 = digitsValue b ds := by
  rw [foldl_ofDigits, Nat.ofDigits_append, digitsValue]
  simp

theorem parseByte_value (r : Radix) {k : Char} (hk : k ∈ r.letters) {c : Char} {gs : List (Bool × Char)} {ds : List Nat}
    (hd : DigitsAre (c :: gs.map Prod.snd) ds) (hb : ∀ d ∈ ds, d < r.base) :
    parseByte (radixText k ((false, c) :: gs)) = some (.integer (digitsValue r.base ds)) := by
  have hbase : r.base ≤ 16 := by cases r <;> decide
  have h1 := radixDigits_groups hbase ((false, c) :: gs) ds hd hb 0
  rw [foldl_zero] at h1
  have hc : c ≠ '_' := by
    cases hd with
    | @cons _ d _ ds h3 h4 => exact (digitVal_of (show d < 16 by have := hb d (by simp); omega) h3).2
  have h2 : fromStrRadix r.base (((false, c) :: gs).flatMap groupText) = some (digitsValue r.base ds) := by
    have e : ((false, c) :: gs).flatMap groupText = c :: gs.flatMap groupText := by simp [groupText]
    rw [e] at h1 ⊢
    rw [fromStrRadix]
    simp only [if_neg hc]
    exact h1
  have h3 : (if k = 'x' ∨ k = 'X' then some 16 else if k = 'o' ∨ k = 'O' then some 8
      else if k = 'b' ∨ k = 'B' then some 2 else none : Option Nat) = some r.base := by
    cases r <;> simp only [Radix.letters, List.mem_cons, List.not_mem_nil, or_false] at hk <;>
      rcases hk with rfl | rfl <;> decide
  rw [radixText, parseByte, h3]
  simp only
  rw [h2]

theorem parseByte_underscore {k c : Char} (gs : List (Bool × Char)) :
    parseByte (radixText k ((true, c) :: gs)) = none := by
  have : ∀ b, fromStrRadix b (((true, c) :: gs).flatMap groupText) = none := by
    intro b
    simp [groupText, fromStrRadix]
  rw [radixText, parseByte]
  simp only [this]
  split <;> rfl

/-! ### Decimals -/

theorem splitDot_digits {x y : Str} (h : ∀ c ∈ x, IsDigit c) : splitDot (x ++ '.' :: y) = (x, some y) := by
  induction x with
  | nil => rfl
  | cons c x ih =>
    have hc : c ≠ '.' := by rintro rfl; exact absurd (h '.' (by simp)) (by decide)
    rw [List.cons_append, splitDot, if_neg hc, ih fun c hc => h c (by simp [hc])]

theorem parseDecimal_value (i f : Nat) :
    parseDecimal (numeral i ++ '.' :: numeral f) =
      some (.decimal ⟨(i * 10 ^ (numeral f).length + f : Nat), (numeral f).length⟩) := by
  rw [parseDecimal, splitDot_digits fun c hc => isDigit_numeral hc]
  have h1 : fromStrRadix 10 (numeral i ++ numeral f) = some (i * 10 ^ (numeral f).length + f) := by
    obtain ⟨c, r, e, hc⟩ := numeral_head i
    have h2 := radixDigits_append 10 (numeral i) (numeral f) 0
    rw [radixDigits_numeral (by omega) (by omega)] at h2
    simp only [Option.bind_some, Nat.zero_mul, Nat.zero_add] at h2
    rw [radixDigits_numeral (by omega) (by omega)] at h2
    rw [e, List.cons_append, fromStrRadix]
    simp only [if_neg hc]
    rw [← List.cons_append, ← e]
    exact h2
  simp only [h1]

/-! ### History literals -/

/-- What a history literal means. -/
def replValue (out : Bool) (i : Int) : AST :=
  .function (if out then Sym.ofStr c!"std::repl::output" else Sym.ofStr c!"std::repl::input") [.mk [.integer i] [] noPos]

theorem filter_pilcrow (out : Bool) (n : Nat) :
    (List.replicate n (pilcrow out)).filter (fun c => c = '¶' || c = '⁋') = List.replicate n (pilcrow out) := by
  rw [List.filter_eq_self]
  intro c hc
  rw [List.eq_of_mem_replicate hc]
  cases out <;> decide

theorem parseInOut_back (out : Bool) (n : Nat) :
    (parseInOut noPos (ReplForm.back out n).text).map erase = some (replValue out (-((n : Int) + 1))) := by
  have h1 := filter_pilcrow out (n + 1)
  have h2 : (List.replicate (n + 1) (pilcrow out)).filter (fun c => !(c = '¶' || c = '⁋')) = [] := by
    rw [List.filter_eq_nil_iff]
    intro c hc
    rw [List.eq_of_mem_replicate hc]
    cases out <;> decide
  simp only [parseInOut, ReplForm.text, h1, h2, List.isEmpty_nil, if_true]
  rw [List.replicate_succ]
  cases out <;> simp [pilcrow, replValue, erase, eraseP, eraseParam, eraseL, eraseO]

theorem parseInOut_at (out : Bool) (n : Nat) :
    (parseInOut noPos (ReplForm.at out (numeral n)).text).map erase = some (replValue out n) := by
  have h0 : ∀ c ∈ numeral n, ¬(c = '¶' ∨ c = '⁋') := by
    intro c hc
    have := digit_mem (isDigit_numeral hc)
    have key : ∀ c ∈ digitChars, ¬(c = '¶' ∨ c = '⁋') := by decide
    exact key c this
  have h1 : (pilcrow out :: numeral n).filter (fun c => c = '¶' || c = '⁋') = [pilcrow out] := by
    rw [List.filter_cons_of_pos (by cases out <;> decide), List.filter_eq_nil_iff.2]
    intro c hc
    simpa using h0 c hc
  have h2 : (pilcrow out :: numeral n).filter (fun c => !(c = '¶' || c = '⁋')) = numeral n := by
    rw [List.filter_cons_of_neg (by cases out <;> decide), List.filter_eq_self]
    intro c hc
    simpa using h0 c hc
  have h3 : (numeral n).isEmpty = false := by
    cases h : numeral n with
    | nil => exact absurd h Nat.toDigits_ne_nil
    | cons => rfl
  simp only [parseInOut, ReplForm.text, h1, h2, h3, fromStrRadix_numeral]
  cases out <;> simp [pilcrow, replValue, erase, eraseP, eraseParam, eraseL, eraseO]

end SM.Props
