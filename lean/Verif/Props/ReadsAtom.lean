import Verif.Props.ReadsLex
import Verif.Props.Read
/-
What derivations say about literals and names.
-/
namespace SM.Props
open SM SM.Peg

variable {u : Uni} {a : Atomicity} {p : Nat} {w z : Str} {l : List (Pair R)}

/-! ### Decimals -/

theorem deriv_Decimal (h : Deriv grammar u a (.call .Decimal) p w z l) :
    ∃ i f, w = numeral i ++ '.' :: numeral f ∧ ∃ m, l = [.mk .Decimal p (p + w.length) w m] := by
  have h := h.inv_call
  simp only [grammar, body_Decimal] at h
  obtain ⟨m, rfl, hm⟩ := h.inv_atomic.inv_rule (by decide)
  obtain ⟨x, y, l₁, l₂, rfl, rfl, h1, h2⟩ := hm.inv_seq.inv_cat
  obtain ⟨x, x', l₁, l₁', rfl, rfl, h1, h3⟩ := h1.inv_cat
  obtain ⟨i, rfl, -, -⟩ := deriv_Integer (by decide) h1
  obtain ⟨rfl, -⟩ := deriv_tok rfl (by decide) h3
  obtain ⟨f, rfl, -, -⟩ := deriv_Integer (by decide) h2
  exact ⟨i, f, by simp, _, rfl⟩

/-! ### Literals with a radix -/

theorem char_ofNat {c : Char} (h : c.toNat < 128) : ∃ n : Fin 128, c = Char.ofNat n :=
  ⟨⟨c.toNat, h⟩, (Char.ofNat_toNat c).symm⟩

theorem toLower_lt {c x : Char} (hx : x.toNat < 128) (h : c.toLower = x) : c.toNat < 128 := by
  by_contra hc
  rw [toLower_big (by omega)] at h
  subst h
  exact hc hx

theorem toLower_zero {c : Char} (h : c.toLower = '0'.toLower) : c = '0' := by
  obtain ⟨n, rfl⟩ := char_ofNat (toLower_lt (x := '0') (by decide) h)
  have key : ∀ n : Fin 128, (Char.ofNat n).toLower = '0'.toLower → Char.ofNat n = '0' := by decide
  exact key n h

theorem toLower_letter (r : Radix) {c k : Char} (hk : k ∈ r.letters) (h : c.toLower = k.toLower) : c ∈ r.letters := by
  have small : ∀ r : Radix, ∀ k ∈ r.letters, k.toLower.toNat < 128 := by
    intro r; cases r <;> decide
  obtain ⟨n, rfl⟩ := char_ofNat (toLower_lt (small r k hk) h)
  have key : ∀ r : Radix, ∀ k ∈ r.letters, ∀ n : Fin 128, (Char.ofNat n).toLower = k.toLower → Char.ofNat n ∈ r.letters := by
    intro r; cases r <;> decide
  exact key r k hk n h

theorem digit_of_mem (r : Radix) {c : Char} (h : c ∈ r.digits) : ∃ up d, d < r.base ∧ c = digit up d := by
  have key : ∀ r : Radix, ∀ c ∈ r.digits, ∃ up : Bool, ∃ d < r.base, c = digit up d := by
    intro r; cases r <;> decide
  exact key r c h

theorem range_mem (S : List Char) (a b : Char) (hb : b.toNat < 128)
    (key : ∀ n : Fin 128, a ≤ Char.ofNat n → Char.ofNat n ≤ b → Char.ofNat n ∈ S) {c : Char} (h : a ≤ c) (h' : c ≤ b) : c ∈ S := by
  have : c.toNat < 128 := Nat.lt_of_le_of_lt h' hb
  obtain ⟨n, rfl⟩ := char_ofNat this
  exact key n h h'

theorem deriv_radix_digit (r : Radix) (h : Deriv grammar u a (.call r.rule) p w z l) :
    l = [] ∧ ∃ c ∈ r.digits, w = [c] := by
  have h := h.inv_call
  cases r with
  | bin =>
    simp only [Radix.rule, grammar, body_ASCII_BIN_DIGIT] at h
    obtain ⟨c, rfl, h1, h2, rfl⟩ := h.inv_range
    exact ⟨rfl, c, range_mem _ _ _ (by decide) (by decide) h1 h2, rfl⟩
  | oct =>
    simp only [Radix.rule, grammar, body_ASCII_OCT_DIGIT] at h
    obtain ⟨c, rfl, h1, h2, rfl⟩ := h.inv_range
    exact ⟨rfl, c, range_mem _ _ _ (by decide) (by decide) h1 h2, rfl⟩
  | hex =>
    simp only [Radix.rule, grammar, body_ASCII_HEX_DIGIT] at h
    rcases h.inv_alt with h | ⟨-, h⟩
    · rcases h.inv_alt with h | ⟨-, h⟩
      · obtain ⟨c, rfl, h1, h2, rfl⟩ := h.inv_range
        exact ⟨rfl, c, range_mem _ _ _ (by decide) (by decide) h1 h2, rfl⟩
      · obtain ⟨c, rfl, h1, h2, rfl⟩ := h.inv_range
        exact ⟨rfl, c, range_mem _ _ _ (by decide) (by decide) h1 h2, rfl⟩
    · obtain ⟨c, rfl, h1, h2, rfl⟩ := h.inv_range
      exact ⟨rfl, c, range_mem _ _ _ (by decide) (by decide) h1 h2, rfl⟩

/-- A digit with or without an underscore. -/
abbrev radixGroup (r : Radix) : PE R := .seq (.cat (.opt (.call .Underline)) (.call r.rule))

theorem deriv_group (r : Radix) (h : Deriv grammar u .compound (radixGroup r) p w z l) :
    ∃ d : SDigit, d.2.2 < r.base ∧ w = groupText d.char := by
  obtain ⟨x, y, l₁, l₂, rfl, rfl, h1, h2⟩ := h.inv_seq.inv_cat
  obtain ⟨rfl, c, hc, rfl⟩ := deriv_radix_digit r h2
  obtain ⟨up, d, hd, rfl⟩ := digit_of_mem r hc
  rcases h1.inv_opt with ⟨rfl, -, -⟩ | h1
  · exact ⟨(false, up, d), hd, rfl⟩
  · obtain ⟨rfl, -⟩ := deriv_tok rfl (by decide) h1
    exact ⟨(true, up, d), hd, rfl⟩

theorem deriv_Byte_body (r : Radix) {k : Char} (hk : k ∈ r.letters) (h : Deriv grammar u .compound
    (.seq (.cat (.cat (.insens ['0', k]) (radixGroup r)) (.rep (radixGroup r)))) p w z l) :
    ∃ k d ds, (SAtom.radix r k d ds).Ok u ∧ w = (SAtom.radix r k d ds).text := by
  obtain ⟨x, y, l₁, l₂, rfl, rfl, h1, h2⟩ := h.inv_seq.inv_cat
  obtain ⟨x, x', l₁, l₁', rfl, rfl, h1, h3⟩ := h1.inv_cat
  obtain ⟨hx, rfl⟩ := h1.inv_insens
  obtain ⟨d, hd, rfl⟩ := deriv_group r h3
  have hx' : ∃ k' ∈ r.letters, x = ['0', k'] := by
    cases x with
    | nil => simp at hx
    | cons c x =>
      cases x with
      | nil => simp at hx
      | cons e x =>
        cases x with
        | cons _ _ => simp at hx
        | nil =>
          simp only [List.map_cons, List.map_nil, List.cons.injEq, and_true] at hx
          exact ⟨e, toLower_letter r hk hx.2, by rw [toLower_zero hx.1]⟩
  obtain ⟨k', hk', rfl⟩ := hx'
  have : ∃ ds : List SDigit, (∀ e ∈ ds, e.2.2 < r.base) ∧ y = ds.flatMap fun d => groupText d.char := by
    refine h2.inv_rep (P := fun _ y _ _ => ∃ ds : List SDigit, (∀ e ∈ ds, e.2.2 < r.base) ∧
      y = ds.flatMap fun d => groupText d.char) (fun _ _ _ => ⟨[], by simp, rfl⟩) ?_
    rintro q w₁ w₂ z l₁ l₂ h ⟨ds, hds, rfl⟩
    obtain ⟨d, hd, rfl⟩ := deriv_group r h
    refine ⟨d :: ds, ?_, by simp⟩
    intro e he
    rcases List.mem_cons.1 he with rfl | he
    · exact hd
    · exact hds e he
  obtain ⟨ds, hds, rfl⟩ := this
  refine ⟨k', d, ds, ⟨hk', ?_⟩, by simp [SAtom.text]⟩
  intro e he
  rcases List.mem_cons.1 he with rfl | he
  · exact hd
  · exact hds e he

theorem deriv_Byte (h : Deriv grammar u a (.call .Byte) p w z l) :
    ∃ r k d ds, (SAtom.radix r k d ds).Ok u ∧ w = (SAtom.radix r k d ds).text ∧
      ∃ m, l = [.mk .Byte p (p + w.length) w m] := by
  have h := h.inv_call
  simp only [grammar, body_Byte] at h
  obtain ⟨m, rfl, hm⟩ := h.inv_atomic.inv_rule (by decide)
  rcases hm.inv_alt with hm | ⟨-, hm⟩
  · rcases hm.inv_alt with hm | ⟨-, hm⟩
    · obtain ⟨k, d, ds, hok, ht⟩ := deriv_Byte_body .bin (k := 'b') (by decide) hm
      exact ⟨_, k, d, ds, hok, ht, _, rfl⟩
    · obtain ⟨k, d, ds, hok, ht⟩ := deriv_Byte_body .oct (k := 'o') (by decide) hm
      exact ⟨_, k, d, ds, hok, ht, _, rfl⟩
  · obtain ⟨k, d, ds, hok, ht⟩ := deriv_Byte_body .hex (k := 'x') (by decide) hm
    exact ⟨_, k, d, ds, hok, ht, _, rfl⟩

theorem parseByte_atom {r : Radix} {k : Char} {d : SDigit} {ds : List SDigit} (h : (SAtom.radix r k d ds).Ok u) :
    parseByte (SAtom.radix r k d ds).text = (SAtom.radix r k d ds).value := by
  obtain ⟨hk, hd⟩ := h
  have ht : radixText k ((d :: ds).map SDigit.char) = (SAtom.radix r k d ds).text := by
    simp only [radixText, SAtom.text, List.flatMap_map]
  rw [← ht]
  obtain ⟨f, up, e⟩ := d
  cases f with
  | true => exact parseByte_underscore _
  | false =>
    have hc : ∀ up e, digit up e = Nat.digitChar e ∨ digit up e = (Nat.digitChar e).toUpper := by
      intro up e; cases up <;> simp [digit]
    refine parseByte_value r hk (ds := ((false, up, e) :: ds).map fun d => d.2.2) ?_ ?_
    · rw [List.map_cons, List.map_map]
      refine .cons (hc _ _) ?_
      rw [List.forall₂_map_left_iff, List.forall₂_map_right_iff, List.forall₂_same]
      intro e _
      exact hc _ _
    · intro x hx
      obtain ⟨e, he, rfl⟩ := List.mem_map.1 hx
      exact hd e he

/-! ### Constants -/

theorem deriv_Special (ha : a ≠ .atomic) (h : Deriv grammar u a (.call .Special) p w z l) :
    ∃ s : SAtom, (∀ f m l, s ≠ .prod f m l) ∧ s.Ok u ∧ w = s.text ∧ parseSpecial w = s.value ∧
      (∀ v q, s.value = some v → placed q v = v) ∧ ∃ m, l = [.mk .Special p (p + w.length) w m] := by
  have h := h.inv_call
  simp only [grammar, body_Special] at h
  obtain ⟨m, rfl, hm⟩ := h.inv_rule ha
  rcases hm.inv_atomic.inv_alt with hm | ⟨-, hm⟩
  · rcases hm.inv_alt with hm | ⟨-, hm⟩
    · obtain ⟨rfl, rfl⟩ := hm.inv_str
      exact ⟨.null, by simp, trivial, rfl, rfl, by rintro v q h; cases h; rfl, _, rfl⟩
    · obtain ⟨rfl, rfl⟩ := hm.inv_str
      exact ⟨.bool true, by simp, trivial, rfl, rfl, by rintro v q h; cases h; rfl, _, rfl⟩
  · obtain ⟨rfl, rfl⟩ := hm.inv_str
    exact ⟨.bool false, by simp, trivial, rfl, rfl, by rintro v q h; cases h; rfl, _, rfl⟩

/-! ### History -/

theorem parseInOut_placed (q : Position) (t : Str) :
    parseInOut q t = ((parseInOut noPos t).map erase).map (placed q) := by
  simp only [parseInOut]
  split
  · rename_i i h _ _ _
    simp [erase, eraseP, eraseParam, eraseL, eraseO, placed]
  · rename_i hn
    rfl

theorem deriv_signs {c : Char} (h : Deriv grammar u a (.rep (.str [c])) p w z l) :
    l = [] ∧ ∃ n, w = List.replicate n c := by
  refine h.inv_rep (P := fun _ w _ l => l = [] ∧ ∃ n, w = List.replicate n c) (fun _ _ _ => ⟨rfl, 0, rfl⟩) ?_
  rintro q w₁ w₂ z l₁ l₂ h ⟨rfl, n, rfl⟩
  obtain ⟨rfl, rfl⟩ := h.inv_str
  exact ⟨rfl, n + 1, rfl⟩

theorem deriv_REPL (ha : a ≠ .atomic) (h : Deriv grammar u a (.call .REPL) p w z l) :
    ∃ s : SAtom, (∀ f m l, s ≠ .prod f m l) ∧ s.Ok u ∧ w = s.text ∧
      (∀ q, parseInOut q w = s.value.map (placed q)) ∧ ∃ m, l = [.mk .REPL p (p + w.length) w m] := by
  have back : ∀ out n, ∃ s : SAtom, (∀ f m l, s ≠ .prod f m l) ∧ s.Ok u ∧ pilcrow out :: List.replicate n (pilcrow out) = s.text ∧
      ∀ q, parseInOut q (pilcrow out :: List.replicate n (pilcrow out)) = s.value.map (placed q) := by
    intro out n
    refine ⟨.back out n, by simp, trivial, rfl, fun q => ?_⟩
    rw [parseInOut_placed]
    exact congrArg (Option.map (placed q)) (parseInOut_back out n)
  have nth : ∀ out x, IsPos x → ∃ s : SAtom, (∀ f m l, s ≠ .prod f m l) ∧ s.Ok u ∧ pilcrow out :: x = s.text ∧
      ∀ q, parseInOut q (pilcrow out :: x) = s.value.map (placed q) := by
    intro out x hx
    obtain ⟨n, hn, rfl⟩ := pos_numeral hx
    refine ⟨.nth out n, by simp, hn, rfl, fun q => ?_⟩
    rw [parseInOut_placed]
    exact congrArg (Option.map (placed q)) (parseInOut_at out n)
  have h := h.inv_call
  simp only [grammar, body_REPL] at h
  obtain ⟨m, rfl, hm⟩ := h.inv_rule ha
  rcases hm.inv_atomic.inv_alt with hm | ⟨-, hm⟩
  · rcases hm.inv_alt with hm | ⟨-, hm⟩
    · obtain ⟨x, y, l₁, l₂, rfl, rfl, h1, h2⟩ := hm.inv_seq.inv_cat
      obtain ⟨rfl, -⟩ := h1.inv_str
      obtain ⟨-, hp, -⟩ := deriv_Positive h2
      obtain ⟨s, h1, h2, h3, h4⟩ := nth false y hp
      exact ⟨s, h1, h2, h3, h4, _, rfl⟩
    · obtain ⟨x, y, l₁, l₂, rfl, rfl, h1, h2⟩ := hm.inv_seq.inv_cat
      obtain ⟨rfl, -⟩ := h1.inv_str
      obtain ⟨-, n, rfl⟩ := deriv_signs h2
      obtain ⟨s, h1, h2, h3, h4⟩ := back false n
      exact ⟨s, h1, h2, h3, h4, _, rfl⟩
  · obtain ⟨x, y, l₁, l₂, rfl, rfl, h1, h2⟩ := hm.inv_seq.inv_cat
    obtain ⟨rfl, -⟩ := h1.inv_str
    rcases h2.inv_alt with h2 | ⟨-, h2⟩
    · obtain ⟨-, hp, -⟩ := deriv_Positive h2
      obtain ⟨s, h1, h2, h3, h4⟩ := nth true y hp
      exact ⟨s, h1, h2, h3, h4, _, rfl⟩
    · obtain ⟨-, n, rfl⟩ := deriv_signs h2
      obtain ⟨s, h1, h2, h3, h4⟩ := back true n
      exact ⟨s, h1, h2, h3, h4, _, rfl⟩

/-! ### Slots -/

theorem not_two_sharps {x : Str} (h : ∃ c r, x = c :: r ∧ c ≠ '#') : ('#' :: x).take 2 ≠ c!"##" := by
  obtain ⟨c, r, rfl, hc⟩ := h
  simpa using hc

theorem deriv_Slot (L : Lawful u) (h : Deriv grammar u a (.call .Slot) p w z l) :
    ∃ s : SAtom, (∀ f m l, s ≠ .prod f m l) ∧ s.Ok u ∧ w = s.text ∧
      ∃ m, l = [.mk .Slot p (p + w.length) w m] ∧ ∀ q, parseSlot q w m = s.value.map (placed q) := by
  have h := h.inv_call
  simp only [grammar, body_Slot] at h
  obtain ⟨m, rfl, hm⟩ := h.inv_atomic.inv_rule (by decide)
  rcases hm.inv_alt with hm | ⟨-, hm⟩
  · obtain ⟨x, y, l₁, l₂, rfl, rfl, h1, h2⟩ := hm.inv_seq.inv_cat
    obtain ⟨rfl, rfl⟩ := h1.inv_str
    rcases h2.inv_opt with ⟨rfl, rfl, -⟩ | h2
    · exact ⟨.slots, by simp, trivial, rfl, _, rfl, fun q => by simp [parseSlot, slotArgs, SAtom.value, placed]⟩
    · have h2 := h2.inv_call
      simp only [grammar, body_Positive] at h2
      obtain ⟨m, rfl, h3⟩ := h2.inv_rule (by decide)
      obtain ⟨-, hp, -⟩ := deriv_Positive_body h3.inv_atomic
      obtain ⟨n, hn, rfl⟩ := pos_numeral hp
      exact ⟨.slotsFrom n, by simp, hn, rfl, _, rfl, fun q => by simp [parseSlot, slotArgs, SAtom.value, Pair.rule]⟩
  · obtain ⟨x, y, l₁, l₂, rfl, rfl, h1, h2⟩ := hm.inv_seq.inv_cat
    obtain ⟨rfl, rfl⟩ := h1.inv_str
    rcases h2.inv_opt with ⟨rfl, rfl, -⟩ | h2
    · exact ⟨.slot, by simp, trivial, rfl, _, rfl, fun q => by simp [parseSlot, slotArgs, SAtom.value, placed]⟩
    · rcases h2.inv_alt with h2 | ⟨-, h2⟩
      · obtain ⟨hi, -, rfl⟩ := deriv_SYMBOL (by decide) h2
        refine ⟨.slotNamed y, by simp, hi, rfl, _, rfl, fun q => ?_⟩
        obtain ⟨c, r, e, hc⟩ := hi.start
        have hs := not_two_sharps ⟨c, r, e, by
          rintro rfl
          have h1 := idStart_cont L hc
          rw [L.plain _ _ (by decide)] at h1
          exact absurd h1 (by decide)⟩
        rw [parseSlot]
        simp only [List.cons_append, List.nil_append]
        rw [if_neg hs]
        simp [slotArgs, SAtom.value, placed, Pair.rule, Pair.text]
      · obtain ⟨n, rfl, rfl, -⟩ := deriv_Integer (by decide) h2
        refine ⟨.slotNth n, by simp, trivial, rfl, _, rfl, fun q => ?_⟩
        obtain ⟨c, r, e, hc⟩ := (numeral_int n).head
        have hs := not_two_sharps ⟨c, r, e, by rintro rfl; exact absurd hc (by decide)⟩
        rw [parseSlot]
        simp only [List.cons_append, List.nil_append]
        rw [if_neg hs]
        simp [slotArgs, SAtom.value, placed, Pair.rule, Pair.text, fromStrRadix_numeral]

end SM.Props
