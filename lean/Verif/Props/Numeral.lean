import Verif.Props.Value
import Verif.Ast.Display
import Mathlib.Algebra.Field.Rat
import Mathlib.Tactic.FieldSimp
import Mathlib.Tactic.Ring
import Mathlib.Tactic.IntervalCases
/-
C63: numbers are printed exactly.
-/
namespace SM.Props
open SM

/-- The number that digits stand for. -/
def numberOf (s : Str) : Nat := s.foldl (fun n c => 10 * n + (c.toNat - '0'.toNat)) 0

/-- A text of digits, not empty. -/
def DigitText (s : Str) : Prop := s ≠ [] ∧ ∀ c ∈ s, '0' ≤ c ∧ c ≤ '9'

/-- How a number without sign is written: digits, or digits with a point between them. -/
inductive SpellsU : Str → ℚ → Prop
  | whole {a : Str} : DigitText a → SpellsU a (numberOf a)
  | point {a b : Str} : DigitText a → DigitText b → SpellsU (a ++ '.' :: b) (numberOf a + numberOf b / 10 ^ b.length)

/-- How a number is written. -/
inductive Spells : Str → ℚ → Prop
  | unsigned {s : Str} {q : ℚ} : SpellsU s q → Spells s q
  | minus {s : Str} {q : ℚ} : SpellsU s q → Spells ('-' :: s) (-q)

theorem numberOf_from (s : Str) (n : Nat) :
    s.foldl (fun n c => 10 * n + (c.toNat - '0'.toNat)) n = n * 10 ^ s.length + numberOf s := by
  induction s generalizing n with
  | nil => simp [numberOf]
  | cons c s ih =>
    rw [numberOf, List.foldl_cons, List.foldl_cons, ih, ih (10 * 0 + _), List.length_cons, Nat.pow_succ]
    ring

theorem numberOf_append (a b : Str) : numberOf (a ++ b) = numberOf a * 10 ^ b.length + numberOf b := by
  rw [numberOf, List.foldl_append, numberOf_from]
  rfl

theorem numberOf_zeros (k : Nat) : numberOf (List.replicate k '0') = 0 := by
  induction k with
  | zero => rfl
  | succ k ih => rw [List.replicate_succ', numberOf_append, ih]; rfl

theorem numberOf_natStr (n : Nat) : numberOf (natStr n) = n := by
  induction n using Nat.strongRecOn with
  | _ n ih =>
    by_cases h : n < 10
    · rw [natStr, Nat.toDigits_of_lt_base h]
      interval_cases n <;> rfl
    · rw [natStr, Nat.toDigits_of_base_le (by decide) (by omega), numberOf_append]
      have h1 := ih (n / 10) (by omega)
      rw [natStr] at h1
      have h2 : numberOf [(n % 10).digitChar] = n % 10 := by
        have : n % 10 < 10 := Nat.mod_lt _ (by decide)
        generalize n % 10 = m at this
        interval_cases m <;> rfl
      rw [h1, h2, List.length_singleton]
      omega

theorem digits_natStr (n : Nat) : DigitText (natStr n) := by
  refine ⟨Nat.toDigits_ne_nil, fun c hc => ?_⟩
  have := Nat.isDigit_of_mem_toDigits (by decide) (by decide) hc
  simpa [Char.isDigit, Char.le_def] using this

theorem DigitText.append {a b : Str} (ha : DigitText a) (hb : ∀ c ∈ b, '0' ≤ c ∧ c ≤ '9') : DigitText (a ++ b) := by
  refine ⟨fun h => ha.1 (List.append_eq_nil_iff.1 h).1, fun c hc => ?_⟩
  rcases List.mem_append.1 hc with hc | hc
  · exact ha.2 c hc
  · exact hb c hc

theorem cast_negative {n : Int} (h : n < 0) : (n : ℚ) = -((n.natAbs : ℕ) : ℚ) := by
  have e : n = -(n.natAbs : Int) := by omega
  generalize n.natAbs = k at e
  rw [e]
  push_cast
  rfl

theorem cast_positive {n : Int} (h : ¬ n < 0) : (n : ℚ) = ((n.natAbs : ℕ) : ℚ) := by
  have e : n = (n.natAbs : Int) := by omega
  generalize n.natAbs = k at e
  rw [e]
  push_cast
  rfl

/-- **C63**.  Integers are printed as the numeral of their value. -/
theorem C63_integers (n : Int) : Spells (intStr n) n := by
  have h := SpellsU.whole (digits_natStr n.natAbs)
  rw [numberOf_natStr] at h
  rw [intStr]
  by_cases hn : n < 0
  · rw [if_pos hn]
    have e : (n : ℚ) = -((n.natAbs : ℕ) : ℚ) := cast_negative hn
    rw [e]
    exact .minus h
  · rw [if_neg hn]
    have e : (n : ℚ) = ((n.natAbs : ℕ) : ℚ) := cast_positive hn
    rw [e]
    exact .unsigned h

theorem zeros_digit (k : Nat) : ∀ c ∈ List.replicate k '0', '0' ≤ c ∧ c ≤ '9' := by
  intro c hc
  rw [List.eq_of_mem_replicate hc]
  decide

/-- The digits of a decimal with the point in its place, without the sign. -/
theorem spells_body (n : Nat) (k : Int) :
    SpellsU (let (before, after) : Str × Str :=
      if k ≥ (natStr n).length then (['0'], List.replicate (k.toNat - (natStr n).length) '0' ++ natStr n)
      else
        let location : Int := (natStr n).length - k
        if location > (natStr n).length then (natStr n ++ List.replicate (location.toNat - (natStr n).length) '0', [])
        else ((natStr n).take location.toNat, (natStr n).drop location.toNat)
      if after.isEmpty then before else before ++ ['.'] ++ after) (n * (10 : ℚ) ^ (-k)) := by
  have hd := digits_natStr n
  have hv := numberOf_natStr n
  generalize natStr n = ab at hd hv
  have hl : 0 < ab.length := List.length_pos_of_ne_nil hd.1
  by_cases h1 : k ≥ ab.length
  · rw [if_pos h1]
    have hb : DigitText (List.replicate (k.toNat - ab.length) '0' ++ ab) := by
      refine ⟨fun h => hd.1 (List.append_eq_nil_iff.1 h).2, fun c hc => ?_⟩
      rcases List.mem_append.1 hc with hc | hc
      · exact zeros_digit _ c hc
      · exact hd.2 c hc
    have hlen : (List.replicate (k.toNat - ab.length) '0' ++ ab).length = k.toNat := by simp; omega
    have hval : numberOf (List.replicate (k.toNat - ab.length) '0' ++ ab) = n := by
      rw [numberOf_append, numberOf_zeros, hv]; simp
    have h := SpellsU.point (a := ['0']) ⟨by simp, by decide⟩ hb
    rw [hlen, hval] at h
    have hne : (List.replicate (k.toNat - ab.length) '0' ++ ab).isEmpty = false := by
      cases he : (List.replicate (k.toNat - ab.length) '0' ++ ab) with
      | nil => exact absurd he hb.1
      | cons => rfl
    simp only [hne]
    convert h using 1
    · simp
    · have e : k = (k.toNat : Int) := by omega
      conv_lhs => rw [e]
      rw [zpow_neg, zpow_natCast]
      simp [numberOf]
      ring
  · rw [if_neg h1]
    by_cases h2 : (ab.length : Int) - k > ab.length
    · simp only [if_pos h2]
      have hlen : ((ab.length : Int) - k).toNat - ab.length = (-k).toNat := by omega
      rw [hlen]
      have h := SpellsU.whole (hd.append (zeros_digit (-k).toNat))
      rw [numberOf_append, numberOf_zeros, hv, List.length_replicate] at h
      simp only [List.isEmpty_nil, if_true]
      convert h using 1
      have e : -k = ((-k).toNat : Int) := by omega
      conv_lhs => rw [e]
      rw [zpow_natCast]
      push_cast
      ring
    · simp only [if_neg h2]
      have hk : (((ab.length : Int) - k).toNat) + k.toNat = ab.length := by omega
      generalize ((ab.length : Int) - k).toNat = m at hk
      have hm : 0 < m := by omega
      have e : k = (k.toNat : Int) := by omega
      have hta : DigitText (ab.take m) := by
        refine ⟨fun h => ?_, fun c hc => hd.2 c (List.mem_of_mem_take hc)⟩
        have := congrArg List.length h
        rw [List.length_take, List.length_nil] at this
        omega
      have hsplit := numberOf_append (ab.take m) (ab.drop m)
      rw [List.take_append_drop, hv] at hsplit
      have hdl : (ab.drop m).length = k.toNat := by simp; omega
      by_cases hz : k.toNat = 0
      · have : ab.drop m = [] := List.eq_nil_of_length_eq_zero (by omega)
        have ht : ab.take m = ab := by rw [List.take_of_length_le]; omega
        simp only [this, List.isEmpty_nil, if_true, ht]
        have h := SpellsU.whole hd
        rw [hv] at h
        rw [e, hz]
        simpa using h
      · have hbd : DigitText (ab.drop m) := by
          refine ⟨fun h => ?_, fun c hc => hd.2 c (List.mem_of_mem_drop hc)⟩
          rw [h] at hdl
          simp at hdl
          omega
        have hne : (ab.drop m).isEmpty = false := by
          cases he : ab.drop m with
          | nil => exact absurd he hbd.1
          | cons => rfl
        simp only [hne]
        have h := SpellsU.point hta hbd
        rw [hdl] at h hsplit
        convert h using 1
        · simp
        · conv_lhs => rw [e]
          rw [zpow_neg, zpow_natCast, hsplit]
          push_cast
          field_simp

/-- **C63**.  Decimals are printed as a numeral of exactly their value, whatever their scale, negative ones included. -/
theorem C63_decimals (d : Dec) : Spells (decStr d) (d.digits * (10 : ℚ) ^ (-d.scale)) := by
  have h := spells_body d.digits.natAbs d.scale
  rw [decStr]
  simp only at h ⊢
  by_cases hn : d.digits < 0
  · rw [if_pos hn]
    have e : (d.digits : ℚ) = -((d.digits.natAbs : ℕ) : ℚ) := cast_negative hn
    rw [e, neg_mul]
    exact .minus h
  · rw [if_neg hn]
    have e : (d.digits : ℚ) = ((d.digits.natAbs : ℕ) : ℚ) := cast_positive hn
    rw [e]
    exact .unsigned h

theorem digit_ne {c : Char} (h : '0' ≤ c ∧ c ≤ '9') : c ≠ '.' ∧ c ≠ '-' := by
  constructor <;> (rintro rfl; revert h; decide)

theorem split_unique {a a' b b' : Str} (ha : ∀ c ∈ a, c ≠ '.') (ha' : ∀ c ∈ a', c ≠ '.') (h : a ++ '.' :: b = a' ++ '.' :: b') :
    a = a' ∧ b = b' := by
  induction a generalizing a' with
  | nil =>
    cases a' with
    | nil => simpa using h
    | cons c a' =>
      simp only [List.nil_append, List.cons_append, List.cons.injEq] at h
      exact absurd h.1.symm (ha' c (by simp))
  | cons c a ih =>
    cases a' with
    | nil =>
      simp only [List.nil_append, List.cons_append, List.cons.injEq] at h
      exact absurd h.1 (ha c (by simp))
    | cons c' a' =>
      simp only [List.cons_append, List.cons.injEq] at h
      obtain ⟨h1, h2⟩ := ih (fun d hd => ha d (by simp [hd])) (fun d hd => ha' d (by simp [hd])) h.2
      exact ⟨by rw [h.1, h1], h2⟩

theorem spellsU_unique {s : Str} {p q : ℚ} (h : SpellsU s p) (h' : SpellsU s q) : p = q := by
  generalize hs : s = t at h'
  cases h with
  | whole ha =>
    cases h' with
    | whole => rw [hs]
    | point hb hc => exact absurd rfl (digit_ne (ha.2 '.' (by rw [hs]; simp))).1
  | @point a b ha hb =>
    cases h' with
    | whole hc => exact absurd rfl (digit_ne (hc.2 '.' (by rw [← hs]; simp))).1
    | @point a' b' hc hd =>
      obtain ⟨rfl, rfl⟩ := split_unique (fun c h => (digit_ne (ha.2 c h)).1) (fun c h => (digit_ne (hc.2 c h)).1) hs
      rfl

theorem spellsU_head {s : Str} {p : ℚ} (h : SpellsU s p) : s.head? ≠ some '-' := by
  cases h with
  | whole ha =>
    cases s with
    | nil => simp
    | cons c s => simpa using (digit_ne (ha.2 c (by simp))).2
  | @point a b ha hb =>
    cases a with
    | nil => exact absurd rfl ha.1
    | cons c a => simpa using (digit_ne (ha.2 c (by simp))).2

/-- **C63**.  A text is the numeral of at most one number.  So numbers that are printed alike are equal. -/
theorem C63_unique {s : Str} {p q : ℚ} (h : Spells s p) (h' : Spells s q) : p = q := by
  cases h with
  | unsigned h =>
    cases h' with
    | unsigned h' => exact spellsU_unique h h'
    | minus => exact absurd rfl (spellsU_head h)
  | minus h =>
    cases h' with
    | unsigned h' => exact absurd rfl (spellsU_head h')
    | minus h' => rw [spellsU_unique h h']

/-- **C63**.  Decimals that are printed alike are the same number. -/
theorem C63_injective (d e : Dec) (h : decStr d = decStr e) :
    d.digits * (10 : ℚ) ^ (-d.scale) = e.digits * (10 : ℚ) ^ (-e.scale) :=
  C63_unique (C63_decimals d) (h ▸ C63_decimals e)

/-- -12.5 and 12500. -/
example : decStr ⟨-125, 1⟩ = c!"-12.5" ∧ decStr ⟨125, -2⟩ = c!"12500" ∧ decStr ⟨5, 3⟩ = c!"0.005" := by decide
example : Spells c!"-12.5" (-125 * (10 : ℚ) ^ (-1 : Int)) := by
  rw [show c!"-12.5" = decStr ⟨-125, 1⟩ by decide]
  simpa using C63_decimals ⟨-125, 1⟩

end SM.Props
