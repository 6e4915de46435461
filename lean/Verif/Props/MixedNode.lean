import Verif.Props.Call
import Verif.Props.Value
/-
Products with factors other than integers and names: they are read, and from them no tree is built.
-/
namespace SM.Props
open SM SM.Peg

variable {u : Uni}

/-- A digit, in upper or lower case. -/
def digit (upper : Bool) (d : Nat) : Char := if upper then (Nat.digitChar d).toUpper else Nat.digitChar d

/-- A digit of a literal with a radix: whether an underscore stands before it, its case, and its value. -/
abbrev SDigit := Bool × Bool × Nat

/-- How it is written. -/
def SDigit.char (d : SDigit) : Bool × Char := (d.1, digit d.2.1 d.2.2)

theorem numeral_zero {n : Nat} : numeral n = c!"0" ↔ n = 0 := by
  constructor
  · intro h
    by_contra hn
    obtain ⟨c, r, e, h1, h2⟩ := numeral_pos n (by omega)
    rw [h] at e
    cases e
    revert h1
    decide
  · rintro rfl
    exact Nat.toDigits_zero 10

theorem digit_mem_radix (r : Radix) (up : Bool) {d : Nat} (h : d < r.base) : digit up d ∈ r.digits := by
  have key : ∀ r : Radix, ∀ d < r.base, ∀ up, digit up d ∈ r.digits := by
    intro r
    cases r <;> decide
  exact key r d h up

/-- What can stand in a product written without a sign, according to the grammar. -/
inductive MFactor where
  | int (n : Nat)
  | sym (p : Path)
  | dec (i f : Nat)
  | radix (r : Radix) (k : Char) (d : SDigit) (ds : List SDigit)
  | call (p : Path) (a : ArgList) (l : List ArgList)

/-- How it is written. -/
def MFactor.text : MFactor → Str
  | .int n => numeral n
  | .sym p => p.text
  | .dec i f => numeral i ++ '.' :: numeral f
  | .radix _ k d ds => '0' :: k :: (d :: ds).flatMap fun d => groupText d.char
  | .call p a l => p.text ++ argListsText (a :: l)

/-- Well-formed factors. -/
def MFactor.Ok (u : Uni) : MFactor → Prop
  | .int _ => True
  | .sym p => p.Ok u
  | .dec _ _ => True
  | .radix r k d ds => k ∈ r.letters ∧ ∀ e ∈ d :: ds, e.2.2 < r.base
  | .call p a l => p.Ok u ∧ ArgListsOk u (a :: l)

/-- When the text `t` may stand after a factor and white space `h`. -/
def MFactor.Apart (f : MFactor) (h t : Str) : Prop :=
  h ≠ [] ∨
    match f with
    | .int n => (n ≠ 0 → NoDig t) ∧ (n = 0 → ∀ c r, t = c :: r → c ∉ radixLetters)
    | .sym _ => False
    | .dec _ f => f ≠ 0 → NoDig t
    | .radix b _ _ _ => (∀ c r, t = c :: r → c ∉ b.digits) ∧ (∀ c r, t = '_' :: c :: r → c ∉ b.digits)
    | .call _ _ _ => True

/-- The text of further factors, each with the white space before it. -/
def mixedText (l : List (Str × MFactor)) : Str := l.flatMap fun m => m.1 ++ m.2.text

/-- Well-formed further factors. -/
def MixedOk (u : Uni) : MFactor → List (Str × MFactor) → Prop
  | _, [] => True
  | f, (h, g) :: l => (∀ c ∈ h, HWs u c) ∧ g.Ok u ∧ f.Apart h g.text ∧ MixedOk u g l

/-- Decimals, literals with a radix, and calls. -/
def MFactor.odd : MFactor → Bool
  | .int _ | .sym _ => false
  | _ => true

/-- The rule of a factor. -/
def MFactor.rule : MFactor → R
  | .int _ => .Integer
  | .sym _ => .Symbol
  | .dec _ _ => .Decimal
  | .radix _ _ _ _ => .Byte
  | .call _ _ _ => .apply_call

/-! ### Reading factors -/

theorem eats_Integer_end {v : Env} (hv : v.emits = true) {x rest : Str} (hx : IsInt x) (hr : x ≠ c!"0" → NoDig rest) :
    Eats u v (.call .Integer) x rest (One .Integer x Nil) := by
  refine eats_call (eats_rule hv ?_)
  apply eats_atomic
  rcases hx with rfl | hx
  · exact eats_alt_left (eats_str _ _)
  · refine eats_alt_right (fails_str ?_) (eats_Positive_mute (emits_atomic' v) hx (hr hx.ne_zero))
    obtain ⟨c, r, rfl, h1, _, _⟩ := hx
    have : '0' ≠ c := by rintro rfl; revert h1; decide
    simp [strip, this]

theorem eats_Number_dec_end (L : Lawful u) {v : Env} (hv : v.emits = true) {x y rest : Str} (hx : IsInt x) (hy : IsInt y)
    (hr : y ≠ c!"0" → NoDig rest) :
    Eats u v (.call .Number) (x ++ '.' :: y) rest (One .Decimal (x ++ '.' :: y) fun _ => True) := by
  have hs : v.silent = false := by
    obtain ⟨a, b⟩ := v; cases b <;> simp_all [Env.emits]
  have hv' : ({ v with atomicity := Atomicity.compound } : Env).emits = true := by
    obtain ⟨a, b⟩ := v; simp only at hs; subst hs; rfl
  refine eats_call (eats_alt_left (eats_alt_right ?_ ?_))
  · have e : (x ++ '.' :: y) ++ rest = x ++ ('.' :: y ++ rest) := by simp
    rw [e]
    exact fails_Byte hx ((noCont_dot L _).intEnd L x)
  · refine eats_call (eats_atomic (eats_rule hv' (eats_seq ?_)))
    have e : x ++ '.' :: y = (x ++ ['.']) ++ y := by simp
    rw [e]
    exact (eats_cat (eats_cat (eats_Integer hv' hx ((noCont_dot L _).intEnd L x)) (eats_Dot hv' _))
      (eats_Integer_end hv' hy hr)).imp fun _ _ => trivial

/-- What may follow a literal with a radix. -/
def RadixEnd (b : Radix) (rest : Str) : Prop :=
  (∀ c r, rest = c :: r → c ∉ b.digits) ∧ (∀ c r, rest = '_' :: c :: r → c ∉ b.digits)

theorem not_between {b : Radix} {lo hi c : Char} (hab : ∀ n : Fin 128, lo ≤ Char.ofNat n → Char.ofNat n ≤ hi →
    Char.ofNat n ∈ b.digits) (hb : hi.toNat < 128) (h : c ∉ b.digits) : ¬ (lo ≤ c ∧ c ≤ hi) := by
  rintro ⟨h1, h2⟩
  have h2' : c.toNat ≤ hi.toNat := h2
  have := hab ⟨c.toNat, by omega⟩
  simp only [Char.ofNat_toNat] at this
  exact h (this h1 h2)

theorem fails_radix_digit_end (b : Radix) {v : Env} {rest : Str} (h : ∀ c r, rest = c :: r → c ∉ b.digits) :
    Fails u v (.call b.rule) rest := by
  cases rest with
  | nil => cases b <;> exact fails_nil (by decide)
  | cons c r =>
    have hc := h c r rfl
    cases b with
    | bin => exact fails_call (fails_range_head (not_between (b := .bin) (by decide) (by decide) hc))
    | oct => exact fails_call (fails_range_head (not_between (b := .oct) (by decide) (by decide) hc))
    | hex =>
      exact fails_call (fails_alt (fails_alt (fails_range_head (not_between (b := .hex) (by decide) (by decide) hc))
        (fails_range_head (not_between (b := .hex) (by decide) (by decide) hc)))
        (fails_range_head (not_between (b := .hex) (by decide) (by decide) hc)))

theorem eats_groups_end {v : Env} (hv : v.emits = true) (b : Radix) {rest : Str} (hr : RadixEnd b rest) :
    ∀ gs : List (Bool × Char), (∀ g ∈ gs, g.2 ∈ b.digits) →
      Eats u v (.rep (.seq (.cat (.opt (.call .Underline)) (.call b.rule)))) (gs.flatMap groupText) rest
        fun _ => True := by
  intro gs
  induction gs with
  | nil =>
    intro _
    refine (eats_rep_nil (fails_seq ?_)).imp fun _ _ => trivial
    by_cases hu : ∃ r, rest = '_' :: r
    · obtain ⟨r, rfl⟩ := hu
      exact breaks_cat_right (x := ['_']) (eats_opt (eats_tok rfl hv _))
        (fails_radix_digit_end b fun c t e => hr.2 c t (by rw [e])).breaks
    · refine breaks_cat_right (x := []) (eats_opt_nil (fails_tok (x := c!"_") rfl ?_)) (fails_radix_digit_end b hr.1).breaks
      cases rest with
      | nil => rfl
      | cons c r =>
        have : '_' ≠ c := fun e => hu ⟨r, by rw [e]⟩
        simp [strip, this]
  | cons g gs ih =>
    intro h
    exact (eats_rep_cons (eats_group hv b _ (h g (by simp))) (ih fun g' hg' => h g' (by simp [hg']))).imp
      fun _ _ => trivial

theorem eats_Byte_end {v : Env} (hv : v.silent = false) (b : Radix) {k : Char} (hk : k ∈ b.letters)
    {g : Bool × Char} {gs : List (Bool × Char)} (hg : ∀ g' ∈ g :: gs, g'.2 ∈ b.digits) {rest : Str}
    (hr : RadixEnd b rest) :
    Eats u v (.call .Byte) (radixText k (g :: gs)) rest (One .Byte (radixText k (g :: gs)) fun _ => True) := by
  have hv' := compound_emits hv
  refine eats_call (eats_atomic (eats_rule hv' ?_))
  have body : ∀ pre : Str, stripInsens pre ('0' :: k :: ((g :: gs).flatMap groupText ++ rest)) =
      some ((g :: gs).flatMap groupText ++ rest) → pre.length = 2 →
      Eats u { v with atomicity := Atomicity.compound } (.seq (.cat (.cat (.insens pre)
        (.seq (.cat (.opt (.call .Underline)) (.call b.rule))))
        (.rep (.seq (.cat (.opt (.call .Underline)) (.call b.rule)))))) (radixText k (g :: gs)) rest
        fun _ => True := by
    intro pre hpre hl
    have e : radixText k (g :: gs) = (['0', k] ++ groupText g) ++ gs.flatMap groupText := by
      simp [radixText]
    rw [e]
    refine eats_seq ((eats_cat (eats_cat (x := ['0', k]) (eats_insens ?_ hl.symm) (eats_group hv' b _ (hg g (by simp))))
      (eats_groups_end hv' b hr gs fun g' h => hg g' (by simp [h]))).imp fun _ _ => trivial)
    simpa using hpre
  have no : ∀ pre : Str, stripInsens pre (radixText k (g :: gs) ++ rest) = none → ∀ e f : PE R,
      Fails u { v with atomicity := Atomicity.compound } (.seq (.cat (.cat (.insens pre) e) f))
        (radixText k (g :: gs) ++ rest) :=
    fun pre h e f => fails_seq (breaks_cat (breaks_cat (fails_insens h).breaks))
  cases b with
  | bin =>
    refine eats_alt_left (eats_alt_left (body _ ?_ rfl))
    simp only [Radix.letters, List.mem_cons, List.not_mem_nil, or_false] at hk
    rcases hk with rfl | rfl <;> simp [stripInsens, lowers]
  | oct =>
    refine eats_alt_left (eats_alt_right (no _ ?_ _ _) (body _ ?_ rfl)) <;>
    · simp only [Radix.letters, List.mem_cons, List.not_mem_nil, or_false] at hk
      rcases hk with rfl | rfl <;> simp [stripInsens, radixText, lowers]
  | hex =>
    refine eats_alt_right (fails_alt (no _ ?_ _ _) (no _ ?_ _ _)) (body _ ?_ rfl) <;>
    · simp only [Radix.letters, List.mem_cons, List.not_mem_nil, or_false] at hk
      rcases hk with rfl | rfl <;> simp [stripInsens, radixText, lowers]

/-- What may follow a factor. -/
def MFactor.After (u : Uni) (f : MFactor) (t : Str) : Prop :=
  match f with
  | .int n => IntEnd (numeral n) t ∧ NoDec t
  | .sym _ => NoCont u t ∧ NoPath u t ∧ Breaks u vC (.cat hspace (.call .apply)) t
  | .dec _ f => f ≠ 0 → NoDig t
  | .radix b _ _ _ => RadixEnd b t
  | .call _ _ _ => Breaks u vC (.cat hspace (.call .apply)) t

theorem eats_apply_call (L : Lawful u) {p : Path} (hp : p.Ok u) {a : ArgList} {l : List ArgList}
    (hl : ArgListsOk u (a :: l)) {rest : Str} (hr : Breaks u vC (.cat hspace (.call .apply)) rest) :
    Eats u vC (.call .apply_call) (p.text ++ argListsText (a :: l)) rest
      (One .apply_call (p.text ++ argListsText (a :: l)) fun _ => True) := by
  have ha := hl a (by simp)
  have nc : NoCont u (argListsText (a :: l) ++ rest) := by
    obtain ⟨z, e⟩ := argList_head ha l rest
    rw [e]
    refine noCont_blank L (blank_ws fun c hc => (ha.1 c hc).1) ?_
    intro c r e
    cases e
    rw [L.plain _ _ (by decide)]; decide
  have np : NoPath u (argListsText (a :: l) ++ rest) := by
    obtain ⟨z, e⟩ := argList_head ha l rest
    rw [e]
    exact noPath_split L ha.1 (by decide) (by decide)
  have h1 : Eats u vC (.seq (.cat hspace (.call .apply))) (a.h ++ a.y) (argListsText l ++ rest) _ :=
    eats_seq (eats_argList L ha _)
  have e1 : (a.h ++ a.y) ++ (argListsText l ++ rest) = argListsText (a :: l) ++ rest := by simp [argListsText]
  have h2 : Eats u vC (.call .Symbol) p.text ((a.h ++ a.y) ++ (argListsText l ++ rest))
      (One .Symbol p.text fun _ => True) := by
    rw [e1]; exact eats_Symbol L hp nc np rfl
  have h3 := eats_cat (eats_cat h2 h1) (eats_argLists L hr l fun b hb => hl b (by simp [hb]))
  have h4 := eats_call (r := .apply_call) (v := vC) (eats_atomic (eats_rule (v := vC) rfl (eats_seq h3)))
  have e2 : (p.text ++ (a.h ++ a.y)) ++ argListsText l = p.text ++ argListsText (a :: l) := by simp [argListsText]
  rw [e2] at h4
  exact h4.imp fun q ⟨a, b, l, h, _⟩ => ⟨a, b, l, h, trivial⟩

theorem MFactor.Ok.head {f : MFactor} (hf : f.Ok u) : ∃ c r, f.text = c :: r ∧ (IsDigit c ∨ IdStart u c) := by
  cases f with
  | int n =>
    obtain ⟨c, r, h, hc⟩ := IsInt.head (numeral_int n)
    exact ⟨c, r, h, .inl hc⟩
  | sym p =>
    obtain ⟨c, r, h, hc⟩ := Path.Ok.start hf
    exact ⟨c, r, h, .inr hc⟩
  | dec i f =>
    obtain ⟨c, r, h, hc⟩ := IsInt.head (numeral_int i)
    exact ⟨c, r ++ '.' :: numeral f, by rw [MFactor.text, h]; rfl, .inl hc⟩
  | radix r k d ds => exact ⟨'0', _, rfl, .inl (by decide)⟩
  | call p a l =>
    obtain ⟨c, r, h, hc⟩ := Path.Ok.start hf.1
    exact ⟨c, r ++ argListsText (a :: l), by rw [MFactor.text, h]; rfl, .inr hc⟩

theorem eats_mfactor (L : Lawful u) {f : MFactor} (hf : f.Ok u) {t : Str} (ht : f.After u t) :
    Eats u vC factor f.text t (One f.rule f.text fun _ => True) := by
  cases f with
  | int n => exact eats_factor L (f := .int (numeral n)) (numeral_int n) ht
  | sym p => exact eats_factor L (f := .sym p) hf ht
  | dec i f =>
    obtain ⟨c, r, h, hc⟩ := IsInt.head (numeral_int i)
    have := eats_Number_dec_end (v := vC) L rfl (numeral_int i) (numeral_int f) (rest := t)
      fun h => ht fun h' => h (numeral_zero.2 h')
    show Eats u vC factor (numeral i ++ '.' :: numeral f) t (One .Decimal (numeral i ++ '.' :: numeral f) fun _ => True)
    rw [h] at this ⊢
    exact eats_factor_number L hc this
  | radix b k d ds =>
    have ht' : radixText k (d.char :: ds.map SDigit.char) = (MFactor.radix b k d ds).text := by
      simp only [radixText, MFactor.text, ← List.map_cons, List.flatMap_map]
    have := eats_call (r := .Number) (eats_alt_left (b := .call .Integer) (eats_alt_left (b := .call .Decimal)
      (eats_Byte_end (u := u) (v := vC) rfl b hf.1
      (g := d.char) (gs := ds.map SDigit.char) (by
        intro g hg
        rw [← List.map_cons] at hg
        obtain ⟨e, he, rfl⟩ := List.mem_map.1 hg
        exact digit_mem_radix b _ (hf.2 e he)) ht)))
    rw [ht'] at this
    exact eats_factor_number L (c := '0') (by decide) this
  | call p a l =>
    exact eats_alt_left (eats_alt_left (eats_restore (eats_apply_call L hf.1 hf.2 ht)))

theorem ident_more (L : Lawful u) {x : Str} (hx : IsIdent u x) : x ≠ ['_'] := by
  rcases hx with ⟨c, r, rfl, h, _⟩ | ⟨c, r, rfl, _⟩
  · intro e
    cases e
    rw [L.plain _ _ (by decide)] at h
    exact absurd h (by decide)
  · simp

theorem MFactor.Ok.more (L : Lawful u) {f : MFactor} (hf : f.Ok u) : f.text ≠ ['_'] := by
  have dig : ∀ {c r}, IsDigit c → c :: r ≠ ['_'] := by
    intro c r h e
    cases e
    exact absurd h (by unfold IsDigit; decide)
  have path : ∀ {p : Path}, p.Ok u → ∀ y, p.text ++ y ≠ ['_'] := by
    intro p hp y e
    obtain ⟨c, r, h, _⟩ := hp.1.start
    rw [Path.text, h] at e
    simp only [List.cons_append, List.cons.injEq, List.append_eq_nil_iff] at e
    obtain ⟨rfl, ⟨rfl, _⟩, _⟩ := e
    exact ident_more L hp.1 h
  cases f with
  | int n =>
    obtain ⟨c, r, h, hc⟩ := IsInt.head (numeral_int n)
    rw [MFactor.text, h]
    exact dig hc
  | sym p => simpa [MFactor.text] using path hf []
  | dec i f =>
    obtain ⟨c, r, h, hc⟩ := IsInt.head (numeral_int i)
    rw [MFactor.text, h]
    exact dig hc
  | radix r k d ds => exact dig (c := '0') (by decide)
  | call p a l => exact path hf.1 _

theorem after_next (L : Lawful u) {f g : MFactor} {h t : Str} (hh : ∀ c ∈ h, HWs u c) (hg : g.Ok u)
    (ha : f.Apart h g.text) : f.After u (h ++ (g.text ++ t)) := by
  obtain ⟨c, r, hx, hc⟩ := hg.head
  have hcc := factor_head_cont L hc
  have hw : ∀ d r', h = d :: r' → HWs u d := fun d r' e => hh d (by rw [e]; simp)
  have path : NoPath u (h ++ (g.text ++ t)) := by
    cases h with
    | nil =>
      rw [List.nil_append, hx]
      exact noPath_cons (cont_ne L hcc (by decide) (by decide)) (cont_ne L hcc (by decide) (by decide)) _
    | cons d h =>
      have := hw d h rfl
      exact noPath_cons (hws_first L this (by decide) (by decide)) (hws_first L this (by decide) (by decide)) _
  have dec : NoDec (h ++ (g.text ++ t)) := by
    intro c' r' e
    exfalso
    cases h with
    | nil =>
      rw [List.nil_append, hx] at e
      simp only [List.cons_append, List.cons.injEq] at e
      exact cont_ne L hcc (d := '.') (by decide) (by decide) e.1
    | cons d h =>
      simp only [List.cons_append, List.cons.injEq] at e
      exact hws_first L (hw d h rfl) (d := '.') (by decide) (by decide) e.1
  have noc : h ≠ [] → NoCont u (h ++ (g.text ++ t)) := by
    intro hn c' r' e
    cases h with
    | nil => exact absurd rfl hn
    | cons d h =>
      cases e
      exact hws_not_cont L (hw c' h rfl)
  have nap : Breaks u vC (.cat hspace (.call .apply)) (h ++ (g.text ++ t)) := by
    refine breaks_hspace L hh ?_ (fails_apply ?_)
    · intro c' r' e
      rw [hx] at e
      cases e
      exact cont_not_hws L hcc
    · intro r' e
      rw [hx] at e
      cases e
      exact cont_ne L hcc (d := '(') (by decide) (by decide) rfl
  have dig : NoDig g.text → h = [] → NoDig (h ++ (g.text ++ t)) := by
    rintro hd rfl c' r' e
    rw [List.nil_append, hx] at e
    cases e
    exact hd c r hx
  by_cases hn : h = []
  · have ha' := ha.resolve_left fun e => e hn
    cases f with
    | int n =>
      refine ⟨⟨fun h0 => dig (ha'.1 fun e => h0 (numeral_zero.2 e)) hn, fun h0 c' r' e => ?_⟩, dec⟩
      rw [hn, List.nil_append, hx] at e
      cases e
      exact ha'.2 (numeral_zero.1 h0) c r hx
    | sym p => exact absurd ha' id
    | dec i f => exact fun h0 => dig (ha' h0) hn
    | radix b k d ds =>
      refine ⟨fun c' r' e => ?_, fun c' r' e => ?_⟩
      · rw [hn, List.nil_append, hx] at e
        cases e
        exact ha'.1 c r hx
      · rw [hn, List.nil_append, hx] at e
        simp only [List.cons_append, List.cons.injEq] at e
        obtain ⟨rfl, e⟩ := e
        cases r with
        | nil => exact absurd hx (MFactor.Ok.more L hg)
        | cons c2 r2 =>
          cases e
          exact ha'.2 c' r2 hx
    | call p a l => exact nap
  · have noc := noc hn
    cases f with
    | int n => exact ⟨noc.intEnd L _, dec⟩
    | sym p => exact ⟨noc, path, nap⟩
    | dec i f => exact fun _ => noc.noDig L
    | radix b k d ds =>
      refine ⟨fun c' r' e hm => ?_, fun c' r' e => ?_⟩
      · have := noc c' r' e
        have key : ∀ b : Radix, ∀ c ∈ b.digits, Plain c ∧ asciiUni .xidContinue c = true := by
          intro b; cases b <;> decide
        rw [L.plain _ _ (key b c' hm).1, (key b c' hm).2] at this
        cases this
      · have := noc '_' _ e
        rw [L.plain _ _ (by decide)] at this
        exact absurd this (by decide)
    | call p a l => exact nap

theorem after_last (L : Lawful u) (f : MFactor) {rest : Str} (hr : Ends u rest) (hd : NoDec rest) : f.After u rest := by
  have noc := hr.noCont L
  cases f with
  | int n => exact ⟨noc.intEnd L _, hd⟩
  | sym p => exact ⟨noc, hr.path, hr.no_apply L⟩
  | dec i f => exact fun _ => noc.noDig L
  | radix b k d ds =>
    refine ⟨fun c' r' e hm => ?_, fun c' r' e => ?_⟩
    · have := noc c' r' e
      have key : ∀ b : Radix, ∀ c ∈ b.digits, Plain c ∧ asciiUni .xidContinue c = true := by
        intro b; cases b <;> decide
      rw [L.plain _ _ (key b c' hm).1, (key b c' hm).2] at this
      cases this
    · have := noc '_' _ e
      rw [L.plain _ _ (by decide)] at this
      exact absurd this (by decide)
  | call p a l => exact hr.no_apply L

theorem after_chain (L : Lawful u) {f : MFactor} {l : List (Str × MFactor)} (h : MixedOk u f l) {rest : Str}
    (hr : Ends u rest) (hd : NoDec rest) : f.After u (mixedText l ++ rest) := by
  cases l with
  | nil => exact after_last L f hr hd
  | cons m l =>
    obtain ⟨w, g⟩ := m
    obtain ⟨h1, h2, h3, h4⟩ := h
    have e : mixedText ((w, g) :: l) ++ rest = w ++ (g.text ++ (mixedText l ++ rest)) := by simp [mixedText]
    rw [e]
    exact after_next L h1 h2 h3

/-- The pairs are those of the factors. -/
def MixedPairs (l : List MFactor) (q : List (Pair R)) : Prop := List.Forall₂ (fun f p => p.rule = f.rule) l q

theorem eats_mixed_step (L : Lawful u) {w : Str} {f : MFactor} (hw : ∀ c ∈ w, HWs u c) (hf : f.Ok u) {t : Str}
    (ht : f.After u t) :
    Eats u vC (.seq (.cat hspace factor)) (w ++ f.text) t (One f.rule f.text fun _ => True) := by
  refine eats_seq ((eats_cat (eats_hspace L ?_ w hw) (eats_mfactor L hf ht)).imp fun q => nil_then)
  obtain ⟨c, r, hx, hc⟩ := hf.head
  intro c' r' e
  rw [hx] at e
  cases e
  exact cont_not_hws L (factor_head_cont L hc)

theorem eats_mixed (L : Lawful u) {rest : Str} (hr : Ends u rest) (hd : NoDec rest) :
    ∀ (l : List (Str × MFactor)) (f : MFactor), MixedOk u f l →
      Eats u vC (.rep (.seq (.cat hspace factor))) (mixedText l) rest (MixedPairs (l.map Prod.snd)) := by
  intro l
  induction l with
  | nil =>
    intro f _
    refine (eats_rep_nil (fails_seq (hr.endsIn.breaks L stops_notHws fun z hz =>
      fails_factor L stops_no_factor hz))).imp ?_
    rintro q rfl
    exact .nil
  | cons m l ih =>
    obtain ⟨w, g⟩ := m
    rintro f ⟨h1, h2, h3, h4⟩
    have e : mixedText ((w, g) :: l) = (w ++ g.text) ++ mixedText l := by simp [mixedText]
    rw [e]
    refine (eats_rep_cons (eats_mixed_step L h1 h2 (after_chain L h4 hr hd)) (ih g h4)).imp ?_
    rintro q ⟨a, b, rfl, ⟨a1, b1, l1, rfl, _⟩, hb⟩
    exact .cons rfl hb

theorem spaceArgs_odd {l : List MFactor} {q : List (Pair R)} (h : MixedPairs l q) (ho : ∃ f ∈ l, f.odd = true) :
    spaceArgs q = none := by
  induction h with
  | nil => obtain ⟨f, hf, _⟩ := ho; cases hf
  | @cons f p l q h1 _ ih =>
    have ih' : f.odd = false → spaceArgs q = none := by
      intro hf
      obtain ⟨g, hg, hg'⟩ := ho
      rcases List.mem_cons.1 hg with rfl | hg
      · rw [hf] at hg'; cases hg'
      · exact ih ⟨g, hg, hg'⟩
    rw [spaceArgs, h1]
    cases f with
    | int n => rw [ih' rfl]; simp [MFactor.rule]
    | sym p => rw [ih' rfl]; simp [MFactor.rule]
    | dec i f => simp [MFactor.rule]
    | radix b k d ds => simp [MFactor.rule]
    | call p a l => simp [MFactor.rule]

/-- A call. -/
def MFactor.isCall : MFactor → Bool
  | .call _ _ _ => true
  | _ => false

theorem node_mixed (L : Lawful u) {f : MFactor} (hf : f.Ok u) (hcall : f.isCall = false) {m : Str × MFactor}
    {l : List (Str × MFactor)} (hl : MixedOk u f (m :: l)) (ho : ∃ g ∈ f :: (m :: l).map Prod.snd, g.odd = true) :
    IsNode u true (f.text ++ mixedText (m :: l)) none := by
  obtain ⟨c, t, hx, hc⟩ := hf.head
  have hcc := factor_head_cont L hc
  have kind : IsDigit c ∨ ∃ p, f = .sym p := by
    cases f with
    | sym p => exact .inr ⟨p, rfl⟩
    | call p a l => cases hcall
    | int n =>
      obtain ⟨c', r', h', hd'⟩ := IsInt.head (numeral_int n)
      rw [MFactor.text, h'] at hx
      cases hx
      exact .inl hd'
    | dec i f =>
      obtain ⟨c', r', h', hd'⟩ := IsInt.head (numeral_int i)
      rw [MFactor.text, h'] at hx
      cases hx
      exact .inl hd'
    | radix r k d ds =>
      cases hx
      exact .inl (by decide)
  have op : IdStart u c ∨ c ∈ operandChars := by
    rcases hc with hc | hc
    · exact .inr (digits_head c (digit_mem hc)).2.2.2.2.2.2.2.1
    · exact .inl hc
  refine ⟨⟨c, t ++ mixedText (m :: l), by rw [hx]; rfl, op⟩, fun rest hr hd => ?_, fun rest hr hcol => ?_⟩
  · have hd := hd rfl
    have hend : f.After u (mixedText (m :: l) ++ rest) := after_chain L hl hr hd
    have body : Eats u vC (.call .space_call) (f.text ++ mixedText (m :: l)) rest
        (One .space_call (f.text ++ mixedText (m :: l)) (MixedPairs (f :: (m :: l).map Prod.snd))) := by
      refine eats_call (eats_atomic (eats_rule (v := vC) rfl (eats_seq ?_)))
      obtain ⟨w, g⟩ := m
      obtain ⟨h1, h2, h3, h4⟩ := hl
      have e : f.text ++ mixedText ((w, g) :: l) = (f.text ++ (w ++ g.text)) ++ mixedText l := by simp [mixedText]
      rw [e]
      have hend' : f.After u ((w ++ g.text) ++ (mixedText l ++ rest)) := by
        have : (w ++ g.text) ++ (mixedText l ++ rest) = mixedText ((w, g) :: l) ++ rest := by simp [mixedText]
        rw [this]; exact hend
      refine (eats_cat (eats_cat (eats_mfactor L hf hend') (eats_mixed_step L h1 h2 (after_chain L h4 hr hd)))
        (eats_mixed L hr hd l g h4)).imp ?_
      rintro q ⟨a, b, rfl, ⟨a1, a2, rfl, ⟨_, _, _, rfl, _⟩, ⟨_, _, _, rfl, _⟩⟩, hb⟩
      exact .cons rfl (.cons rfl hb)
    apply eats_call
    show Eats u vC body_node _ _ _
    unfold body_node
    refine (eats_rule (v := vC) rfl (eats_alt_left (eats_alt_right (fails_alt (fails_alt (fails_restore (fails_seq ?_))
      (fails_restore ?_)) (fails_restore ?_)) (eats_restore body)))).imp ?_
    · refine breaks_cat (breaks_cat (breaks_cat (breaks_cat (fails_str ?_).breaks)))
      have : '(' ≠ c := (cont_ne L hcc (by decide) (by decide)).symm
      rw [hx]
      simp [strip, this]
    · rw [List.append_assoc]
      rcases kind with hc | ⟨p, rfl⟩
      · rw [hx]
        exact fails_plain L (digits_head c (digit_mem hc)).2.2.2.2.2.1 _
      · exact fails_apply_call L hf hend.1 hend.2.1 hend.2.2
    · rw [List.append_assoc]
      rcases kind with hc | ⟨p, rfl⟩
      · rw [hx]
        exact fails_plain L (digits_head c (digit_mem hc)).2.2.2.2.2.2.1 _
      · refine fails_derivative L hf hend.1 hend.2.1 ?_
        intro r e
        obtain ⟨w, g⟩ := m
        obtain ⟨h1, h2, h3, h4⟩ := hl
        cases w with
        | nil => rcases h3 with h3 | h3
                 · exact h3 rfl
                 · exact h3
        | cons d w =>
          simp only [mixedText, List.flatMap_cons, List.cons_append, List.cons.injEq] at e
          exact hws_first L (h1 d (by simp)) (d := '\'') (by decide) (by decide) e.1
    · rintro q ⟨a, b, k, rfl, a', b', k', rfl, hk⟩
      refine ⟨_, rfl, rfl, fun c => ?_⟩
      rw [buildNode]
      simp only [Pair.rule, reduceCtorEq, if_false, if_true, Pair.inner]
      rw [parseSpaceCall, spaceArgs_odd hk ho]
      rfl
  · obtain ⟨w, g⟩ := m
    obtain ⟨h1, h2, h3, h4⟩ := hl
    rcases kind with hc | ⟨p, rfl⟩
    · refine fails_kv_mark L ⟨c, t ++ mixedText ((w, g) :: l), by rw [hx]; rfl, ?_⟩ rest
      exact (digits_head c (digit_mem hc)).2.2.2.2.2.2.2.1
    · have hn : w ≠ [] := by
        rcases h3 with h3 | h3
        · exact h3
        · exact h3.elim
      have e : mixedText ((w, g) :: l) ++ rest = w ++ (g.text ++ (mixedText l ++ rest)) := by simp [mixedText]
      obtain ⟨c2, r2, hx2, hc2⟩ := h2.head
      have hcc2 := factor_head_cont L hc2
      rw [List.append_assoc, e]
      have hfe := after_next (t := mixedText l ++ rest) L h1 h2 h3
      refine noCont_path_kv L hf hfe.1 ⟨w, _, rfl, blank_ws fun c hc => (h1 c hc).1, ?_, ?_⟩
      · rw [hx2]
        refine ⟨?_, noComment_cons (cont_ne L hcc2 (by decide) (by decide)) (cont_ne L hcc2 (by decide) (by decide))⟩
        intro c' r' e' hw
        cases e'
        have := L.cont_ws _ hcc2
        unfold Ws at hw
        rw [this] at hw
        cases hw
      · intro c' r' e'
        rw [hx2] at e'
        cases e'
        exact ⟨cont_ne L hcc2 (by decide) (by decide), cont_ne L hcc2 (by decide) (by decide)⟩

end SM.Props
