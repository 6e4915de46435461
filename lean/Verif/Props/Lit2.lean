import Verif.Props.Lit
/-
Radix literals, history literals, slots, keywords and strings.
-/
namespace SM.Props
open SM SM.Peg

variable {u : Uni} {v : Env}

theorem compound_emits (hv : v.silent = false) :
    ({ v with atomicity := Atomicity.compound } : Env).emits = true := by
  obtain ⟨a, b⟩ := v; simp only at hv; subst hv; rfl

theorem silent_of_emits (hv : v.emits = true) : v.silent = false := by
  obtain ⟨a, b⟩ := v; cases b <;> simp_all [Env.emits]

theorem eats_insens {x y rest : Str} (h : stripInsens x (y ++ rest) = some rest) (hl : y.length = x.length) :
    Eats u v (.insens x) y rest Nil := by
  intro pos stack queue
  exact ⟨[], rfl, by rw [sem_insens]; simp [h, St.advance, hl]⟩

/-! ### Radix literals -/

/-- The three radices. -/
inductive Radix where
  | bin | oct | hex
  deriving DecidableEq

/-- The base. -/
def Radix.base : Radix → Nat
  | .bin => 2
  | .oct => 8
  | .hex => 16

/-- The letters that announce the radix. -/
def Radix.letters : Radix → List Char
  | .bin => ['b', 'B']
  | .oct => ['o', 'O']
  | .hex => ['x', 'X']

/-- The rule of its digits. -/
def Radix.rule : Radix → R
  | .bin => .ASCII_BIN_DIGIT
  | .oct => .ASCII_OCT_DIGIT
  | .hex => .ASCII_HEX_DIGIT

/-- The digits. -/
def Radix.digits : Radix → List Char
  | .bin => ['0', '1']
  | .oct => ['0', '1', '2', '3', '4', '5', '6', '7']
  | .hex => ['0', '1', '2', '3', '4', '5', '6', '7', '8', '9', 'a', 'b', 'c', 'd', 'e', 'f', 'A', 'B', 'C',
      'D', 'E', 'F']

/-- A digit, with or without an underscore in front. -/
def groupText (g : Bool × Char) : Str := if g.1 then ['_', g.2] else [g.2]

/-- The text of a radix literal. -/
def radixText (k : Char) (gs : List (Bool × Char)) : Str := '0' :: k :: gs.flatMap groupText

theorem eats_hex {c : Char} (rest : Str) (hc : c ∈ Radix.hex.digits) :
    Eats u v (.call .ASCII_HEX_DIGIT) [c] rest Nil := by
  apply eats_call
  show Eats u v body_ASCII_HEX_DIGIT _ _ _
  unfold body_ASCII_HEX_DIGIT
  have rf : ∀ {a b : Char}, ¬ (a ≤ c ∧ c ≤ b) → Fails u v (.range a b) ([c] ++ rest) := by
    intro a b h pos stack queue
    rw [sem_range]
    have : (decide (a ≤ c) && decide (c ≤ b)) = false := by
      simp only [Bool.and_eq_false_iff, decide_eq_false_iff_not]
      by_cases h1 : a ≤ c
      · exact .inr fun h2 => h ⟨h1, h2⟩
      · exact .inl h1
    simp [St.charBy, this]
  by_cases h1 : '0' ≤ c ∧ c ≤ '9'
  · exact eats_alt_left (eats_alt_left (eats_range rest h1.1 h1.2))
  · by_cases h2 : 'a' ≤ c ∧ c ≤ 'f'
    · exact eats_alt_left (eats_alt_right (rf h1) (eats_range rest h2.1 h2.2))
    · have h3 : 'A' ≤ c ∧ c ≤ 'F' := by
        revert h1 h2
        simp only [Radix.digits, List.mem_cons, List.not_mem_nil, or_false] at hc
        rcases hc with rfl | rfl | rfl | rfl | rfl | rfl | rfl | rfl | rfl | rfl | rfl | rfl | rfl | rfl | rfl |
          rfl | rfl | rfl | rfl | rfl | rfl | rfl <;> decide
      exact eats_alt_right (fails_alt (rf h1) (rf h2)) (eats_range rest h3.1 h3.2)

theorem eats_radix_digit (b : Radix) {c : Char} (rest : Str) (hc : c ∈ b.digits) :
    Eats u v (.call b.rule) [c] rest Nil := by
  cases b with
  | bin =>
    refine eats_call (eats_range rest ?_ ?_) <;>
    · simp only [Radix.digits, List.mem_cons, List.not_mem_nil, or_false] at hc
      rcases hc with rfl | rfl <;> decide
  | oct =>
    refine eats_call (eats_range rest ?_ ?_) <;>
    · simp only [Radix.digits, List.mem_cons, List.not_mem_nil, or_false] at hc
      rcases hc with rfl | rfl | rfl | rfl | rfl | rfl | rfl | rfl <;> decide
  | hex => exact eats_hex rest hc

theorem fails_range_head {a b c : Char} {r : Str} (h : ¬ (a ≤ c ∧ c ≤ b)) :
    Fails u v (.range a b) (c :: r) := by
  intro pos stack queue
  rw [sem_range]
  have : (decide (a ≤ c) && decide (c ≤ b)) = false := by
    simp only [Bool.and_eq_false_iff, decide_eq_false_iff_not]
    by_cases h1 : a ≤ c
    · exact .inr fun h2 => h ⟨h1, h2⟩
    · exact .inl h1
  simp [St.charBy, this]

/-- Word characters of ASCII. -/
theorem word_cont (L : Lawful u) {a b c : Char} (hab : ∀ n : Fin 128, a ≤ Char.ofNat n → Char.ofNat n ≤ b →
    asciiUni .xidContinue (Char.ofNat n) = true) (hb : b.toNat < 128) (h1 : a ≤ c) (h2 : c ≤ b) :
    u .xidContinue c = true := by
  have h2' : c.toNat ≤ b.toNat := h2
  have hc : c.toNat < 128 := by omega
  rw [L.plain c _ (.inl hc)]
  have := hab ⟨c.toNat, hc⟩
  simp only [Char.ofNat_toNat] at this
  exact this h1 h2

theorem fails_radix_digit (L : Lawful u) (b : Radix) {rest : Str} (h : NoCont u rest) :
    Fails u v (.call b.rule) rest := by
  cases rest with
  | nil => cases b <;> exact fails_nil (by decide)
  | cons c r =>
    have hc := h c r rfl
    have no : ∀ {a b : Char}, (∀ n : Fin 128, a ≤ Char.ofNat n → Char.ofNat n ≤ b →
        asciiUni .xidContinue (Char.ofNat n) = true) → b.toNat < 128 → ¬ (a ≤ c ∧ c ≤ b) := by
      intro a b hab hb ⟨h1, h2⟩
      rw [word_cont L hab hb h1 h2] at hc
      cases hc
    cases b with
    | bin => exact fails_call (fails_range_head (no (by decide) (by decide)))
    | oct => exact fails_call (fails_range_head (no (by decide) (by decide)))
    | hex =>
      exact fails_call (fails_alt (fails_alt (fails_range_head (no (by decide) (by decide)))
        (fails_range_head (no (by decide) (by decide)))) (fails_range_head (no (by decide) (by decide))))

theorem fails_underline (L : Lawful u) {rest : Str} (h : NoCont u rest) :
    Fails u v (.call .Underline) rest := by
  refine fails_tok (x := c!"_") rfl ?_
  cases rest with
  | nil => rfl
  | cons c r =>
    have : '_' ≠ c := by
      rintro rfl
      have := h '_' r rfl
      rw [L.plain _ _ (by decide)] at this
      revert this; decide
    simp [strip, this]

theorem digits_not_underline (b : Radix) : ∀ c ∈ b.digits, '_' ≠ c := by cases b <;> decide

theorem eats_group (hv : v.emits = true) (b : Radix) {g : Bool × Char} (rest : Str) (hg : g.2 ∈ b.digits) :
    Eats u v (.seq (.cat (.opt (.call .Underline)) (.call b.rule))) (groupText g) rest fun _ => True := by
  obtain ⟨f, c⟩ := g
  cases f with
  | true =>
    exact eats_seq ((eats_cat (x := ['_']) (y := [c]) (eats_opt (eats_tok rfl hv _))
      (eats_radix_digit b rest hg)).imp fun _ _ => trivial)
  | false =>
    refine eats_seq ((eats_cat (x := []) (y := [c]) (eats_opt_nil (fails_tok (x := c!"_") rfl ?_))
      (eats_radix_digit b rest hg)).imp fun _ _ => trivial)
    simp [strip, digits_not_underline b c hg]

theorem eats_groups (L : Lawful u) (hv : v.emits = true) (b : Radix) {rest : Str} (hr : NoCont u rest) :
    ∀ gs : List (Bool × Char), (∀ g ∈ gs, g.2 ∈ b.digits) →
      Eats u v (.rep (.seq (.cat (.opt (.call .Underline)) (.call b.rule)))) (gs.flatMap groupText) rest
        fun _ => True := by
  intro gs
  induction gs with
  | nil =>
    intro _
    refine (eats_rep_nil (fails_seq ?_)).imp fun _ _ => trivial
    exact breaks_cat_right (x := []) (eats_opt_nil (fails_underline L hr)) (fails_radix_digit L b hr).breaks
  | cons g gs ih =>
    intro h
    exact (eats_rep_cons (eats_group hv b _ (h g (by simp))) (ih fun g' hg' => h g' (by simp [hg']))).imp
      fun _ _ => trivial

theorem lowers : '0'.toLower = '0' ∧ 'b'.toLower = 'b' ∧ 'B'.toLower = 'b' ∧ 'o'.toLower = 'o' ∧
    'O'.toLower = 'o' ∧ 'x'.toLower = 'x' ∧ 'X'.toLower = 'x' := by decide

theorem eats_Byte (L : Lawful u) (hv : v.silent = false) (b : Radix) {k : Char} (hk : k ∈ b.letters)
    {g : Bool × Char} {gs : List (Bool × Char)} (hg : ∀ g' ∈ g :: gs, g'.2 ∈ b.digits) {rest : Str}
    (hr : NoCont u rest) :
    Eats u v (.call .Byte) (radixText k (g :: gs)) rest (One .Byte (radixText k (g :: gs)) fun _ => True) := by
  have hv' := compound_emits hv
  refine eats_call (eats_atomic (eats_rule hv' ?_))
  have body : ∀ pre : Str, stripInsens pre ('0' :: k :: ((g :: gs).flatMap groupText ++ rest)) =
      some ((g :: gs).flatMap groupText ++ rest) → pre.length = 2 →
      Eats u { v with atomicity := Atomicity.compound } (.seq (.cat (.cat (.insens pre)
        (.seq (.cat (.opt (.call .Underline)) (.call b.rule))))
        (.rep (.seq (.cat (.opt (.call .Underline)) (.call b.rule)))))) (radixText k (g :: gs)) rest
        fun _ => True := by
    intro pre hpre hl
    have e : radixText k (g :: gs) = (['0', k] ++ groupText g) ++ gs.flatMap groupText := by
      simp [radixText]
    rw [e]
    refine eats_seq ((eats_cat (eats_cat (x := ['0', k]) (eats_insens ?_ hl.symm) (eats_group hv' b _ (hg g (by simp))))
      (eats_groups L hv' b hr gs fun g' h => hg g' (by simp [h]))).imp fun _ _ => trivial)
    simpa using hpre
  have no : ∀ pre : Str, stripInsens pre (radixText k (g :: gs) ++ rest) = none → ∀ e f : PE R,
      Fails u { v with atomicity := Atomicity.compound } (.seq (.cat (.cat (.insens pre) e) f))
        (radixText k (g :: gs) ++ rest) :=
    fun pre h e f => fails_seq (breaks_cat (breaks_cat (fails_insens h).breaks))
  cases b with
  | bin =>
    refine eats_alt_left (eats_alt_left (body _ ?_ rfl))
    simp only [Radix.letters, List.mem_cons, List.not_mem_nil, or_false] at hk
    rcases hk with rfl | rfl <;> simp [stripInsens, lowers]
  | oct =>
    refine eats_alt_left (eats_alt_right (no _ ?_ _ _) (body _ ?_ rfl)) <;>
    · simp only [Radix.letters, List.mem_cons, List.not_mem_nil, or_false] at hk
      rcases hk with rfl | rfl <;> simp [stripInsens, radixText, lowers]
  | hex =>
    refine eats_alt_right (fails_alt (no _ ?_ _ _) (no _ ?_ _ _)) (body _ ?_ rfl) <;>
    · simp only [Radix.letters, List.mem_cons, List.not_mem_nil, or_false] at hk
      rcases hk with rfl | rfl <;> simp [stripInsens, radixText, lowers]

theorem eats_Number_byte (L : Lawful u) (hv : v.silent = false) (b : Radix) {k : Char} (hk : k ∈ b.letters)
    {g : Bool × Char} {gs : List (Bool × Char)} (hg : ∀ g' ∈ g :: gs, g'.2 ∈ b.digits) {rest : Str}
    (hr : NoCont u rest) :
    Eats u v (.call .Number) (radixText k (g :: gs)) rest (One .Byte (radixText k (g :: gs)) fun _ => True) :=
  eats_call (eats_alt_left (eats_alt_left (eats_Byte L hv b hk hg hr)))

/-! ### Keywords -/

/-- The three constants. -/
def constants : List Str := [c!"null", c!"true", c!"false"]

theorem eats_Special (hv : v.emits = true) {x : Str} (hx : x ∈ constants) (rest : Str) :
    Eats u v (.call .Special) x rest (One .Special x Nil) := by
  refine eats_call (eats_rule hv (eats_atomic ?_))
  simp only [constants, List.mem_cons, List.not_mem_nil, or_false] at hx
  rcases hx with rfl | rfl | rfl
  · exact eats_alt_left (eats_alt_left (eats_str _ _))
  · exact eats_alt_left (eats_alt_right (fails_str (by simp [strip])) (eats_str _ _))
  · exact eats_alt_right (fails_alt (fails_str (by simp [strip])) (fails_str (by simp [strip]))) (eats_str _ _)

theorem fails_Special {txt : Str} (h : ∀ k ∈ constants, strip k txt = none) :
    Fails u v (.call .Special) txt :=
  fails_call (fails_rule (fails_atomic (fails_alt (fails_alt (fails_str (h _ (by simp [constants])))
    (fails_str (h _ (by simp [constants])))) (fails_str (h _ (by simp [constants]))))))

/-- A word does not begin with a keyword just because of what follows it. -/
theorem strip_word {k x rest : Str} (hk : ∀ c ∈ k, u .xidContinue c = true) (h : strip k x = none)
    (hr : NoCont u rest) : strip k (x ++ rest) = none := by
  induction k generalizing x with
  | nil => simp [strip] at h
  | cons c k ih =>
    cases x with
    | nil =>
      cases rest with
      | nil => rfl
      | cons d r =>
        have : c ≠ d := by
          rintro rfl
          have := hr c r rfl
          rw [hk c (by simp)] at this
          cases this
        simp [strip, this]
    | cons d x =>
      simp only [strip, List.cons_append] at h ⊢
      split
      · rw [if_pos ‹_›] at h
        exact ih (fun c hc => hk c (by simp [hc])) h
      · rfl

/-- All characters of the keywords of the grammar are word characters. -/
theorem keyword_cont (L : Lawful u) {k : Str} (hk : ∀ c ∈ k, 'a' ≤ c ∧ c ≤ 'z') :
    ∀ c ∈ k, u .xidContinue c = true :=
  fun c hc => word_cont L (a := 'a') (b := 'z') (by decide) (by decide) (hk c hc).1 (hk c hc).2

/-! ### Slots -/

/-- The forms of a slot. -/
inductive SlotForm where
  | one
  | named (x : Str)
  | nth (x : Str)
  | all
  | from (x : Str)

/-- The text of a slot. -/
def SlotForm.text : SlotForm → Str
  | .one => c!"#"
  | .named x => '#' :: x
  | .nth x => '#' :: x
  | .all => c!"##"
  | .from x => '#' :: '#' :: x

/-- Well-formed slots. -/
def SlotForm.Ok (u : Uni) : SlotForm → Prop
  | .one => True
  | .named x => IsIdent u x
  | .nth x => IsInt x
  | .all => True
  | .from x => IsPos x

/-- The children of a slot. -/
def SlotForm.inner : SlotForm → List (Pair R) → Prop
  | .one => Nil
  | .named x => One .SYMBOL x Nil
  | .nth x => One .Integer x Nil
  | .all => Nil
  | .from x => One .Positive x Nil

theorem noCont_not_id (L : Lawful u) {rest : Str} (h : NoCont u rest) :
    ∀ c r, rest = c :: r → ¬ IdStart u c := by
  intro c r e hc
  have := h c r e
  rw [idStart_cont L hc] at this
  cases this

theorem noCont_not_digit (L : Lawful u) {rest : Str} (h : NoCont u rest) :
    ∀ c r, rest = c :: r → ¬ IsDigit c := by
  intro c r e hc
  have := h c r e
  rw [digit_cont L hc] at this
  cases this

theorem fails_Positive {txt : Str} (h : ∀ c r, txt = c :: r → ¬ IsDigit c) :
    Fails u v (.call .Positive) txt := by
  refine fails_first (by decide) (by decide) (by decide) (by decide) ?_
  cases txt with
  | nil => rfl
  | cons c r =>
    have hc := h c r rfl
    simp only [hits, gFirst, CS.has, List.any_cons, List.any_nil, Bool.or_false,
      Bool.and_eq_false_iff, decide_eq_false_iff_not]
    by_cases h1 : '1' ≤ c
    · exact .inr fun h2 => hc ⟨Char.le_trans (by decide) h1, h2⟩
    · exact .inl h1

theorem nil_then {P : List (Pair R) → Prop} {q : List (Pair R)} (h : Then Nil P q) : P q := by
  obtain ⟨a, b, rfl, ha, hb⟩ := h
  rw [show a = [] from ha]
  exact hb

theorem then_nil_right {P : List (Pair R) → Prop} {q : List (Pair R)} (h : Then P Nil q) : P q := by
  obtain ⟨a, b, rfl, ha, hb⟩ := h
  rw [show b = [] from hb, List.append_nil]
  exact ha

theorem eats_Slot (L : Lawful u) (hv : v.silent = false) (s : SlotForm) (hs : s.Ok u) {rest : Str}
    (hr : NoCont u rest) (h2 : ∀ r, rest ≠ '#' :: r) :
    Eats u v (.call .Slot) s.text rest (One .Slot s.text s.inner) := by
  have hv' := compound_emits hv
  refine eats_call (eats_atomic (eats_rule hv' ?_))
  have one : ∀ {x : Str} {P : List (Pair R) → Prop}, (∀ r, x ++ rest ≠ '#' :: r) →
      Eats u { v with atomicity := Atomicity.compound } (.opt (.alt (.call .SYMBOL) (.call .Integer))) x rest P →
      Eats u { v with atomicity := Atomicity.compound } (.alt (.seq (.cat (.str c!"##") (.opt (.call .Positive))))
        (.seq (.cat (.str c!"#") (.opt (.alt (.call .SYMBOL) (.call .Integer)))))) ('#' :: x) rest P := by
    intro x P hx h
    refine eats_alt_right (fails_seq (breaks_cat (fails_str ?_).breaks)) ?_
    · cases hxr : x ++ rest with
      | nil => simp [strip, hxr]
      | cons c r =>
        have : '#' ≠ c := fun e => hx r (by rw [hxr, e])
        simp [strip, hxr, this]
    · exact eats_seq ((eats_cat (x := ['#']) (eats_str _ _) h).imp fun q => nil_then)
  have idx : ∀ {x : Str}, (∃ c r, x = c :: r ∧ '#' ≠ c) → ∀ r, x ++ rest ≠ '#' :: r := by
    rintro x ⟨c, t, rfl, hc⟩ r e
    simp only [List.cons_append, List.cons.injEq] at e
    exact hc e.1.symm
  cases s with
  | one =>
    refine one (x := []) (fun r => by simpa using h2 r) (eats_opt_nil (fails_alt ?_ ?_))
    · exact fails_SYMBOL L (noCont_not_id L hr)
    · exact fails_Integer (noCont_not_digit L hr)
  | named x =>
    refine one (idx ?_) (eats_opt (eats_alt_left (eats_SYMBOL L hv' hs hr)))
    obtain ⟨c, r, rfl, hc⟩ := IsIdent.start hs
    refine ⟨c, r, rfl, ?_⟩
    rintro rfl
    rcases hc with hc | hc
    · rw [L.plain _ _ (by decide)] at hc; revert hc; decide
    · revert hc; decide
  | nth x =>
    obtain ⟨c, r, hx, hc⟩ := IsInt.head hs
    refine one (idx ⟨c, r, hx, ?_⟩) (eats_opt (eats_alt_right (fails_SYMBOL L ?_) (eats_Integer hv' hs (hr.intEnd L _))))
    · rintro rfl; revert hc; decide
    · intro c' r' e hid
      rw [hx] at e
      cases e
      exact idStart_not_digit L hid hc
  | all =>
    refine eats_alt_left (eats_seq ((eats_cat (x := c!"##") (y := []) (eats_str _ _)
      (eats_opt_nil (fails_Positive (noCont_not_digit L hr)))).imp fun q => then_nil))
  | «from» x =>
    exact eats_alt_left (eats_seq ((eats_cat (x := c!"##") (eats_str _ _)
      (eats_opt (eats_Positive hv' hs (hr.noDig L)))).imp fun q => nil_then))

/-! ### History literals -/

/-- The forms of a history literal: signs only, or a sign and a number. -/
inductive ReplForm where
  | back (out : Bool) (n : Nat)
  | at (out : Bool) (x : Str)

/-- The sign for inputs and for outputs. -/
def pilcrow (out : Bool) : Char := if out then '⁋' else '¶'

/-- The text of a history literal. -/
def ReplForm.text : ReplForm → Str
  | .back out n => List.replicate (n + 1) (pilcrow out)
  | .at out x => pilcrow out :: x

/-- Well-formed history literals. -/
def ReplForm.Ok : ReplForm → Prop
  | .back _ _ => True
  | .at _ x => IsPos x

theorem eats_signs {c : Char} {rest : Str} (hr : ∀ r, rest ≠ c :: r) :
    ∀ n, Eats u v (.rep (.str [c])) (List.replicate n c) rest Nil := by
  intro n
  induction n with
  | zero =>
    refine eats_rep_nil (fails_str ?_)
    cases rest with
    | nil => rfl
    | cons d r =>
      have : c ≠ d := fun e => hr r (by rw [e])
      simp [strip, this]
  | succ n ih =>
    rw [List.replicate_succ]
    exact (eats_rep_cons (x := [c]) (eats_str _ _) ih).imp fun q => then_nil

theorem eats_REPL (L : Lawful u) (hv : v.emits = true) (s : ReplForm) (hs : s.Ok) {rest : Str}
    (hr : NoCont u rest) (h2 : ∀ b r, rest ≠ pilcrow b :: r) :
    Eats u v (.call .REPL) s.text rest (One .REPL s.text Nil) := by
  refine eats_call (eats_rule hv (eats_atomic ?_))
  have notDigit : ∀ n b, ∀ c r, List.replicate n (pilcrow b) ++ rest = c :: r → ¬ IsDigit c := by
    intro n b c r e
    cases n with
    | zero => exact noCont_not_digit L hr c r (by simpa using e)
    | succ n =>
      simp only [List.replicate_succ, List.cons_append, List.cons.injEq] at e
      rw [← e.1]
      cases b <;> decide
  cases s with
  | back out n =>
    cases out with
    | false =>
      refine eats_alt_left (eats_alt_right (fails_seq ?_) (eats_seq ?_))
      · exact breaks_cat_right (x := ['¶']) (eats_str _ _) (fails_Positive (notDigit n false)).breaks
      · exact (eats_cat (x := ['¶']) (y := List.replicate n '¶') (eats_str _ _)
          (eats_signs (h2 false) n)).imp fun q => then_nil
    | true =>
      refine eats_alt_right (fails_alt (fails_seq ?_) (fails_seq ?_)) (eats_seq ?_)
      · exact breaks_cat (fails_str (by simp [ReplForm.text, List.replicate_succ, pilcrow, strip])).breaks
      · exact breaks_cat (fails_str (by simp [ReplForm.text, List.replicate_succ, pilcrow, strip])).breaks
      · exact (eats_cat (x := ['⁋']) (y := List.replicate n '⁋') (eats_str _ _)
          (eats_alt_right (fails_Positive (notDigit n true)) (eats_signs (h2 true) n))).imp fun q => then_nil
  | «at» out x =>
    cases out with
    | false =>
      exact eats_alt_left (eats_alt_left (eats_seq ((eats_cat (x := ['¶']) (eats_str _ _)
        (eats_Positive_mute (emits_atomic' v) hs (hr.noDig L))).imp fun q => then_nil)))
    | true =>
      refine eats_alt_right (fails_alt (fails_seq ?_) (fails_seq ?_)) (eats_seq ?_)
      · exact breaks_cat (fails_str (by simp [ReplForm.text, pilcrow, strip])).breaks
      · exact breaks_cat (fails_str (by simp [ReplForm.text, pilcrow, strip])).breaks
      · exact (eats_cat (x := ['⁋']) (eats_str _ _)
          (eats_alt_left (eats_Positive_mute (emits_atomic' v) hs (hr.noDig L)))).imp fun q => then_nil

/-! ### Strings -/

/-- What may stand between the quotes: quotes only after a backslash that is not itself escaped, and no
such backslash at the end. -/
def contentOk : Str → Bool
  | [] => true
  | ['\\'] => false
  | '\\' :: d :: s => if d = '"' ∨ d = '\\' then contentOk s else contentOk (d :: s)
  | '"' :: _ => false
  | _ :: s => contentOk s

/-- One unit of the content of a string. -/
abbrev strUnit : PE R :=
  .alt (.seq (.cat (.call .Escape) (.alt (.call .Quotation) (.call .Escape))))
    (.seq (.cat (.look false (.call .Quotation)) (.call .ANY)))

theorem fails_quote {c : Char} {r : Str} (h : c ≠ '"') : Fails u v (.call .Quotation) (c :: r) :=
  fails_tok (x := c!"\"") rfl (by simp [strip, Ne.symm h])

theorem fails_escape {c : Char} {r : Str} (h : c ≠ '\\') : Fails u v (.call .Escape) (c :: r) :=
  fails_tok (x := c!"\\") rfl (by simp [strip, Ne.symm h])

theorem eats_quote_mute (hv : v.emits = false) (rest : Str) :
    Eats u v (.call .Quotation) c!"\"" rest Nil := eats_tok_mute rfl hv rest

theorem emits_silent (v : Env) : ({ v with silent := true } : Env).emits = false := rfl

theorem eats_strUnit_char (hv : v.emits = false) {c : Char} {rest : Str} (h1 : c ≠ '"')
    (h2 : c = '\\' → ∀ d r, rest = d :: r → d ≠ '"' ∧ d ≠ '\\') : Eats u v strUnit [c] rest Nil := by
  refine eats_alt_right (fails_seq ?_) (eats_seq ((eats_cat (x := []) (y := [c])
    (eats_not (fails_quote h1)) (eats_call (eats_any c rest))).imp fun q => then_nil))
  by_cases hc : c = '\\'
  · subst hc
    refine breaks_cat_right (x := ['\\']) (eats_tok_mute rfl hv rest) (Fails.breaks (fails_alt ?_ ?_))
    · cases rest with
      | nil => exact fails_nil (by decide)
      | cons d r => exact fails_quote (h2 rfl d r rfl).1
    · cases rest with
      | nil => exact fails_nil (by decide)
      | cons d r => exact fails_escape (h2 rfl d r rfl).2
  · exact breaks_cat (fails_escape hc).breaks

theorem eats_strUnit_escape (hv : v.emits = false) {d : Char} (rest : Str) (hd : d = '"' ∨ d = '\\') :
    Eats u v strUnit ['\\', d] rest Nil := by
  refine eats_alt_left (eats_seq ((eats_cat (x := ['\\']) (y := [d]) (eats_tok_mute rfl hv _) ?_).imp
    fun q => then_nil))
  rcases hd with rfl | rfl
  · exact eats_alt_left (eats_tok_mute rfl hv _)
  · exact eats_alt_right (fails_quote (by decide)) (eats_tok_mute rfl hv _)

theorem fails_strUnit_quote (rest : Str) : Fails u v strUnit ('"' :: rest) :=
  fails_alt (fails_seq (breaks_cat (fails_escape (by decide)).breaks))
    (fails_seq (breaks_cat (fails_not (x := ['"']) (eats_quote_mute (emits_silent v) rest)).breaks))

theorem eats_content (hv : v.emits = false) (rest : Str) : ∀ (n : Nat) (s : Str), s.length ≤ n →
    contentOk s = true → Eats u v (.rep strUnit) s ('"' :: rest) Nil := by
  intro n
  induction n with
  | zero =>
    intro s hn _
    have : s = [] := List.length_eq_zero_iff.1 (by omega)
    subst this
    exact eats_rep_nil (fails_strUnit_quote rest)
  | succ n ih =>
    intro s hn hs
    match s, hn, hs with
    | [], _, _ => exact eats_rep_nil (fails_strUnit_quote rest)
    | [c], hn, hs =>
      have hc1 : c ≠ '\\' := by rintro rfl; simp [contentOk] at hs
      have hc2 : c ≠ '"' := by rintro rfl; simp [contentOk] at hs
      exact (eats_rep_cons (x := [c]) (y := []) (eats_strUnit_char hv hc2 (fun e => absurd e hc1))
        (eats_rep_nil (fails_strUnit_quote rest))).imp fun q => then_nil
    | c :: d :: s, hn, hs =>
      by_cases hc : c = '\\'
      · subst hc
        by_cases hd : d = '"' ∨ d = '\\'
        · have hs' : contentOk s = true := by
            simp only [contentOk, if_pos hd] at hs; exact hs
          exact (eats_rep_cons (x := ['\\', d]) (y := s) (eats_strUnit_escape hv _ hd)
            (ih s (by simp at hn; omega) hs')).imp fun q => then_nil
        · have hs' : contentOk (d :: s) = true := by
            simp only [contentOk, if_neg hd] at hs; exact hs
          refine (eats_rep_cons (x := ['\\']) (y := d :: s) (eats_strUnit_char hv (by decide) ?_)
            (ih (d :: s) (by simp at hn ⊢; omega) hs')).imp fun q => then_nil
          intro _ d' r e
          simp only [List.cons_append, List.cons.injEq] at e
          rw [← e.1]
          exact ⟨fun h => hd (.inl h), fun h => hd (.inr h)⟩
      · have hc2 : c ≠ '"' := by rintro rfl; simp [contentOk] at hs
        have hs' : contentOk (d :: s) = true := by
          rw [contentOk] at hs
          · exact hs
          · intro h; exact absurd h hc
          · intro d s h; exact absurd h hc
          · exact hc2
        exact (eats_rep_cons (x := [c]) (y := d :: s) (eats_strUnit_char hv hc2 (fun e => absurd e hc))
          (ih (d :: s) (by simp at hn ⊢; omega) hs')).imp fun q => then_nil

/-- The text of a quoted string. -/
def quoted (s : Str) : Str := '"' :: (s ++ c!"\"")

theorem eats_StringNormal (hv : v.emits = true) {s : Str} (hs : contentOk s = true) (rest : Str) :
    Eats u v (.call .StringNormal) (quoted s) rest (One .StringNormal (quoted s) Nil) := by
  have hv' := emits_atomic' v
  refine eats_call (eats_rule hv (eats_atomic (eats_seq ?_)))
  have e : quoted s = (['"'] ++ s) ++ ['"'] := by simp [quoted]
  rw [e]
  refine (eats_cat (eats_cat (eats_quote_mute hv' _) (eats_content hv' rest _ s (Nat.le_refl _) hs))
    (eats_quote_mute hv' rest)).imp ?_
  rintro q ⟨a, b, rfl, ha, hb⟩
  rw [show a = [] from then_nil ha, show b = [] from hb]
  rfl

/-- A quoted string is not the start of a block string. -/
theorem fails_StringBlock (hv : v.silent = false) {s rest : Str} (hs : contentOk s = true)
    (hr : ∀ r, rest ≠ '"' :: r) : Fails u v (.call .StringBlock) (quoted s ++ rest) := by
  have hv' := compound_emits hv
  refine fails_call (fails_atomic (fails_rule (fails_seq ?_)))
  refine breaks_cat (breaks_cat (breaks_cat (breaks_cat (breaks_cat (breaks_cat (Fails.breaks (fails_seq ?_)))))))
  have q1 : Eats u { v with atomicity := Atomicity.compound } (.call .Quotation) ['"'] (s ++ '"' :: rest)
      (One .Quotation ['"'] Nil) := eats_tok rfl hv' _
  have e : quoted s ++ rest = ['"'] ++ (s ++ '"' :: rest) := by simp [quoted]
  rw [e]
  cases s with
  | cons c s =>
    refine breaks_cat (breaks_cat_right q1 (fails_quote ?_).breaks)
    rintro rfl
    simp [contentOk] at hs
  | nil =>
    have q2 : Eats u { v with atomicity := Atomicity.compound } (.cat (.call .Quotation) (.call .Quotation))
        (['"'] ++ ['"']) rest _ := eats_cat (eats_tok rfl hv' _) (eats_tok rfl hv' _)
    refine breaks_cat_right (x := ['"'] ++ ['"']) (rest := rest) q2 (Fails.breaks ?_)
    cases rest with
    | nil => exact fails_nil (by decide)
    | cons c r => exact fails_quote fun e => hr r (by rw [e])

/-- A string without a handler. -/
theorem eats_String (L : Lawful u) (hv : v.silent = false) {s rest : Str} (hs : contentOk s = true)
    (hr : ∀ r, rest ≠ '"' :: r) :
    Eats u v (.call .String) (quoted s) rest (One .String (quoted s) (One .StringNormal (quoted s) Nil)) := by
  have hv' := compound_emits hv
  refine eats_call (eats_atomic (eats_rule hv' (eats_seq ?_)))
  refine (eats_cat (x := []) (eats_opt_nil (fails_plain L (by decide) _))
    (eats_alt_right (fails_restore (fails_StringBlock (v := { v with atomicity := .compound }) hv hs hr)) (eats_StringNormal hv' hs rest))).imp
    fun q => nil_then

/-- A string with a handler in front. -/
theorem eats_String_handler (L : Lawful u) (hv : v.silent = false) {h s rest : Str} (hh : IsIdent u h)
    (hs : contentOk s = true) (hr : ∀ r, rest ≠ '"' :: r) :
    Eats u v (.call .String) (h ++ quoted s) rest (One .String (h ++ quoted s)
      (Then (One .SYMBOL h Nil) (One .StringNormal (quoted s) Nil))) := by
  have hv' := compound_emits hv
  refine eats_call (eats_atomic (eats_rule hv' (eats_seq ?_)))
  refine eats_cat (eats_opt (eats_SYMBOL L hv' hh ?_))
    (eats_alt_right (fails_restore (fails_StringBlock (v := { v with atomicity := .compound }) hv hs hr)) (eats_StringNormal hv' hs rest))
  intro c r e
  simp only [quoted, List.cons_append, List.cons.injEq] at e
  rw [← e.1, L.plain _ _ (by decide)]
  decide

end SM.Props
