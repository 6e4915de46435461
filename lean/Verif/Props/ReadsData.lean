import Verif.Props.ReadsAtom
/-
What derivations say about strings and products.
-/
namespace SM.Props
open SM SM.Peg

variable {u : Uni} {a : Atomicity} {p : Nat} {w z : Str} {l : List (Pair R)}

/-! ### String blocks -/

/-- A text either contains `x`, and then there is a first place, or does not. -/
theorem first_place {x : Str} (hx : x ≠ []) : ∀ t : Str,
    (∃ s b, t = s ++ (x ++ b) ∧ ∀ p c r, s = p ++ c :: r → strip x (c :: (r ++ (x ++ b))) = none) ∨
    (∀ p c r, t = p ++ c :: r → strip x (c :: r) = none) := by
  intro t
  induction t with
  | nil => exact .inr fun p c r e => by simp at e
  | cons d t ih =>
    cases hd : strip x (d :: t) with
    | some b => exact .inl ⟨[], b, by simpa using strip_some hd, fun p c r e => by simp at e⟩
    | none =>
      rcases ih with ⟨s, b, rfl, hs⟩ | h
      · refine .inl ⟨d :: s, b, rfl, fun p c r e => ?_⟩
        cases p with
        | nil =>
          simp only [List.nil_append, List.cons.injEq] at e
          obtain ⟨rfl, rfl⟩ := e
          exact hd
        | cons _ p =>
          simp only [List.cons_append, List.cons.injEq] at e
          exact hs p c r e.2
      · refine .inr fun p c r e => ?_
        cases p with
        | nil =>
          simp only [List.nil_append, List.cons.injEq] at e
          obtain ⟨rfl, rfl⟩ := e
          exact hd
        | cons _ p =>
          simp only [List.cons_append, List.cons.injEq] at e
          exact h p c r e.2

theorem blockOk_of_first {n : Nat} {s b : Str} (hne : s ≠ []) (hq : ∀ r, s ≠ '"' :: r)
    (h : ∀ p c r, s = p ++ c :: r → strip (quotes (n + 3)) (c :: (r ++ (quotes (n + 3) ++ b))) = none) : BlockOk n s := by
  refine ⟨hne, hq, fun x y e => ?_⟩
  by_contra hy
  have hlen := congrArg List.length e
  simp only [List.length_append] at hlen
  have hy' : 0 < y.length := List.length_pos_iff.2 hy
  have hp : x <+: s := List.prefix_of_prefix_length_le (l₃ := s ++ quotes (n + 3)) ⟨_, e.symm⟩ ⟨_, rfl⟩ (by omega)
  obtain ⟨t, rfl⟩ := hp
  cases t with
  | nil => simp only [List.length_append, List.length_nil] at hlen; omega
  | cons c r =>
    have h1 := h x c r rfl
    rw [List.append_assoc] at e
    have e2 : c :: r ++ quotes (n + 3) = quotes (n + 3) ++ y := List.append_cancel_left e
    have e3 : c :: (r ++ (quotes (n + 3) ++ b)) = quotes (n + 3) ++ (y ++ b) := by
      rw [← List.append_assoc, ← List.append_assoc, ← e2]
      simp
    rw [e3, strip_self] at h1
    cases h1

/-- Blocks that are not closed are not accepted. -/
theorem open_block {v : Env} {n : Nat} {t : Str} (hv : v.silent = false) (ht : t ≠ []) (hq : ∀ r, t ≠ '"' :: r)
    (hn : ∀ p c r, t = p ++ c :: r → strip (quotes (n + 3)) (c :: r) = none) (pos : Nat) (st : List Str)
    (queue : List (Pair R)) (s : St R) :
    sem grammar u (.call .StringBlock) v ⟨pos, quotes (n + 3) ++ t, st, queue⟩ ≠ .ok s := by
  have hv' := compound_emits hv
  have q := fun r => (eats_quote (u := u) (v := { v with atomicity := .compound }) hv' r)
  have h3 : ∀ r, Eats u { v with atomicity := .compound } three c!"\"\"\"" r Quotes := fun r =>
    eats_seq ((eats_cat (x := c!"\"\"") (y := c!"\"") ((eats_cat (x := c!"\"") (y := c!"\"") (q _) (q _)).imp
      fun q => quotes_then) (q _)).imp fun q => quotes_then)
  have a1 := eatsS_cat (x := c!"\"\"\"") (y := quotes n) ((h3 _).s st)
    (eatsS_push ((eats_quote_run (u := u) (v := { v with atomicity := .compound }) hv' hq n).s st))
  have units : ∀ (v : Env) (t : Str), (∀ p c r, t = p ++ c :: r → strip (quotes (n + 3)) (c :: r) = none) →
      EatsS u v (.rep blockUnit) t [] (quotes n :: st) (quotes n :: st) Nil := by
    intro v t
    induction t with
    | nil =>
      intro _
      refine eatsS_rep_nil fun pos queue => ?_
      have h := eatsS_not (u := u) (v := v) (failsS_blockEnd (emits_silent v) (n := n) (txt := []) st rfl)
      obtain ⟨q, hq, hs⟩ := h pos queue
      rw [blockUnit, sem_seq, sem_cat, show ([] : Str) = [] ++ [] from rfl, hs, show q = [] from hq]
      simp only [Res.andThen]
      rw [sem_call]
      show Res.mapBoth (sem grammar u .any v _) _ _ = _
      rw [sem_any]
      rfl
    | cons c t ih =>
      intro h
      exact (eatsS_rep_cons (x := [c]) (eatsS_blockUnit st (by simpa using h [] c t rfl))
        (ih fun p d r e => h (c :: p) d r (by rw [e]; rfl))).imp fun q => then_nil
  have a2 : EatsS u { v with atomicity := .compound } (.call .StringText) t [] (quotes n :: st) (quotes n :: st)
      (One .StringText t Nil) := by
    refine eatsS_call (eatsS_rule hv' (eatsS_atomic (eatsS_seq ?_)))
    cases t with
    | nil => exact absurd rfl ht
    | cons c t =>
      exact (eatsS_cat (x := [c]) (y := t) (eatsS_blockUnit st (by simpa using hn [] c t rfl))
        (units _ t fun p d r e => hn (c :: p) d r (by rw [e]; rfl))).imp fun q => then_nil
  rw [← List.append_nil t] at a1
  have a3 := eatsS_cat (y := t) a1 a2
  obtain ⟨q3, -, hs3⟩ := a3 pos []
  have e : quotes (n + 3) ++ t = ((c!"\"\"\"" ++ quotes n) ++ t) ++ [] := by rw [quotes_three]; simp
  have quote : ∀ x : St R, x.rest = [] → ∀ y, sem grammar u (.call .Quotation) { v with atomicity := .compound } x ≠ .ok y := by
    intro x hx y h
    have := fails_nil (u := u) (v := { v with atomicity := .compound }) (r := .Quotation) (by decide) x.pos x.stack x.queue
    rw [← hx] at this
    rw [show sem grammar u (.call .Quotation) { v with atomicity := .compound } ⟨x.pos, x.rest, x.stack, x.queue⟩ =
      sem grammar u (.call .Quotation) { v with atomicity := .compound } x from rfl, h] at this
    cases this
  have pop : ∀ x : St R, x.rest = [] → ∀ y, sem grammar u (.call .POP) { v with atomicity := .compound } x = .ok y → y.rest = [] := by
    intro x hx y h
    rw [sem_call] at h
    change sem grammar u .pop { v with atomicity := .compound } x = .ok y at h
    rw [sem_pop] at h
    cases hst : x.stack with
    | nil => rw [hst] at h; cases h
    | cons top r =>
      rw [hst] at h
      simp only [St.matchStr, hx] at h
      cases top with
      | nil =>
        simp only [strip, Res.ok.injEq] at h
        subst h
        rfl
      | cons c top => simp [strip] at h
  intro h
  rw [sem_call] at h
  simp only [grammar, body_StringBlock] at h
  rw [sem_atomic, sem_rule, if_pos hv', sem_seq, sem_cat, sem_cat, sem_cat, sem_cat] at h
  simp only at h
  rw [three] at hs3
  rw [e, hs3] at h
  simp only [Res.andThen] at h
  cases hp : sem grammar u (.call .POP) { v with atomicity := .compound }
      ⟨pos + ((c!"\"\"\"" ++ quotes n) ++ t).length, [], quotes n :: st, [] ++ q3⟩ with
  | ok y =>
    rw [hp] at h
    have hy := pop _ rfl y hp
    cases hq : sem grammar u (.call .Quotation) { v with atomicity := .compound } y with
    | ok y' => exact quote y hy y' hq
    | err y' => simp only [hq, Res.mapBoth] at h; cases h
    | crash => simp only [hq, Res.mapBoth] at h; cases h
  | err y => simp only [hp, Res.mapBoth] at h; cases h
  | crash => simp only [hp, Res.mapBoth] at h; cases h

theorem deriv_quote_run (h : Deriv grammar u a (.rep (.call .Quotation)) p w z l) :
    ∃ n, w = quotes n ∧ ∀ r, z ≠ '"' :: r := by
  refine h.inv_rep (P := fun _ w z _ => ∃ n, w = quotes n ∧ ∀ r, z ≠ '"' :: r) ?_ ?_
  · intro q z h
    refine ⟨0, rfl, ?_⟩
    rintro r rfl
    exact h.not_eats (x := c!"\"") fun v _ => eats_call (eats_rule_any (eats_atomic (eats_str _ _)))
  · rintro q w₁ w₂ z l₁ l₂ h ⟨n, rfl, hz⟩
    obtain rfl := deriv_quotation h
    exact ⟨n + 1, rfl, hz⟩

theorem deriv_StringBlock (h : Deriv grammar u a (.call .StringBlock) p w z l) :
    ∃ n s, BlockOk n s ∧ w = blocked n s ∧ One .StringBlock (blocked n s) (BlockPairs s) l := by
  have hr := h.ran
  have h := h.inv_call
  simp only [grammar, body_StringBlock] at h
  obtain ⟨m, hl, h⟩ := h.inv_atomic.inv_rule (by decide)
  clear hl
  obtain ⟨x, y1, _, _, hw, -, h, k1⟩ := h.inv_seq.inv_cat
  obtain ⟨x, y2, _, _, rfl, -, h, k2⟩ := h.inv_cat
  obtain ⟨x, y3, _, _, rfl, -, h, k3⟩ := h.inv_cat
  obtain ⟨x, y4, _, _, rfl, -, h, -⟩ := h.inv_cat
  obtain ⟨x, t, _, _, rfl, -, h, ht⟩ := h.inv_cat
  obtain ⟨x, y5, _, _, rfl, -, h, h5⟩ := h.inv_cat
  obtain ⟨x, y6, _, _, rfl, -, h, h6⟩ := h.inv_seq.inv_cat
  obtain ⟨x, y7, _, _, rfl, -, h, h7⟩ := h.inv_cat
  obtain rfl := deriv_quotation h
  obtain rfl := deriv_quotation h7
  obtain rfl := deriv_quotation h6
  obtain ⟨n, rfl, hq⟩ := deriv_quote_run h5.inv_push
  have ht := deriv_text_ne ht
  obtain ⟨T, hT, hne, hwz⟩ : ∃ T, (∀ r, T ≠ '"' :: r) ∧ T ≠ [] ∧ w ++ z = quotes (n + 3) ++ T :=
    ⟨_, hq, by simp [ht], by rw [hw, quotes_three]; simp⟩
  rcases first_place (x := quotes (n + 3)) (by simp [quotes]) T with ⟨s, b, rfl, hs⟩ | hn
  · have hs1 : s ≠ [] := by
      rintro rfl
      exact hT (quotes (n + 2) ++ b) rfl
    have hs2 : ∀ r, s ≠ '"' :: r := by
      rintro r rfl
      exact hT _ rfl
    have hok := blockOk_of_first hs1 hs2 hs
    obtain ⟨rfl, -, hl⟩ := hr.eats (x := blocked n s) (r := b) (by rw [hwz, blocked]; simp)
      fun v _ hv => eats_StringBlock hv hok b
    exact ⟨n, s, hok, rfl, hl⟩
  · exfalso
    obtain ⟨k, v, s, t', -, hv, -, hrest, -, -, -, hrun⟩ := hr
    have : sem grammar u (.call .StringBlock) v s = .ok t' := by
      rw [sem_eq_run (by rw [hrun]; exact fun e => by cases e), hrun]
    have h2 := open_block (u := u) (v := v) hv hne hT hn s.pos s.stack s.queue t'
    rw [← hwz, ← hrest] at h2
    exact h2 this

/-! ### Strings -/

theorem strip_front {k x r : Str} (y : Str) (h : strip k x = some r) : strip k (x ++ y) = some (r ++ y) := by
  rw [strip_some h, List.append_assoc, strip_self]

theorem deriv_StringNormal (ha : a ≠ .atomic) (h : Deriv grammar u a (.call .StringNormal) p w z l) :
    ∃ s, contentOk s = true ∧ w = quoted s ∧ ∃ m, l = [.mk .StringNormal p (p + w.length) w m] := by
  have h := h.inv_call
  simp only [grammar, body_StringNormal] at h
  obtain ⟨m, rfl, hm⟩ := h.inv_rule ha
  obtain ⟨x, y, _, _, rfl, -, h1, h2⟩ := hm.inv_atomic.inv_seq.inv_cat
  obtain ⟨x1, x2, _, _, rfl, -, h3, h4⟩ := h1.inv_cat
  obtain rfl := deriv_quotation h2
  obtain rfl := deriv_quotation h3
  exact ⟨x2, deriv_content h4, by simp [quoted], _, rfl⟩

theorem deriv_String (hc : ∀ k ∈ constants, strip k (w ++ z) = none) (h : Deriv grammar u a (.call .String) p w z l) :
    ∃ s : SAtom, (∀ f m l, s ≠ .prod f m l) ∧ s.Ok u ∧ w = s.text ∧ (∀ v q, s.value = some v → placed q v = v) ∧
      ∃ m, l = [.mk .String p (p + w.length) w m] ∧ parseString m = s.value := by
  have h := h.inv_call
  simp only [grammar, body_String] at h
  obtain ⟨m, rfl, hm⟩ := h.inv_atomic.inv_rule (by decide)
  obtain ⟨x, y, l₁, l₂, rfl, rfl, h1, h2⟩ := hm.inv_seq.inv_cat
  have hy : (∃ n s, BlockOk n s ∧ y = blocked n s ∧ ∀ t, stringText l₂ t = some s) ∨
      (∃ s, contentOk s = true ∧ y = quoted s ∧ ∀ t, stringText l₂ t = some s) := by
    rcases h2.inv_alt with h2 | ⟨-, h2⟩
    · obtain ⟨n, s, hok, rfl, i, j, m, rfl, hb⟩ := deriv_StringBlock h2.inv_restore
      refine .inl ⟨n, s, hok, rfl, fun t => ?_⟩
      simp [stringText, Pair.rule, Pair.inner, blockText_pairs hb]
    · obtain ⟨s, hok, rfl, m, rfl⟩ := deriv_StringNormal (by decide) h2
      refine .inr ⟨s, hok, rfl, fun t => ?_⟩
      simp [stringText, Pair.rule, Pair.text, quoted]
  rcases h1.inv_opt with ⟨rfl, rfl, -⟩ | h1
  · rcases hy with ⟨n, s, hok, rfl, hv⟩ | ⟨s, hok, rfl, hv⟩
    · exact ⟨.block n s, by simp, hok, rfl, by rintro v q h; cases h; rfl, _, rfl, by simp [parseString, hv, SAtom.value]⟩
    · exact ⟨.str s, by simp, hok, rfl, by rintro v q h; cases h; rfl, _, rfl, by simp [parseString, hv, SAtom.value]⟩
  · obtain ⟨hi, -, rfl⟩ := deriv_SYMBOL (by decide) h1
    have hfree : ∀ k ∈ constants, strip k x = none := by
      intro k hk
      cases hs : strip k x with
      | none => rfl
      | some r =>
        have := hc k hk
        rw [List.append_assoc, strip_front _ hs] at this
        cases this
    rcases hy with ⟨n, s, hok, rfl, hv⟩ | ⟨s, hok, rfl, hv⟩
    · exact ⟨.taggedBlock x n s, by simp, ⟨hi, hfree, hok⟩, rfl, by rintro v q h; cases h; rfl, _, rfl,
        by simp [parseString, stringText, Pair.rule, hv, SAtom.value]⟩
    · exact ⟨.tagged x s, by simp, ⟨hi, hfree, hok⟩, rfl, by rintro v q h; cases h; rfl, _, rfl,
        by simp [parseString, stringText, Pair.rule, hv, SAtom.value]⟩

end SM.Props
