import Verif.Props.ReadsData
/-
What derivations say about products and about literals and names as operands.
-/
namespace SM.Props
open SM SM.Peg

variable {u : Uni} {a : Atomicity} {p : Nat} {w z : Str} {l : List (Pair R)}

/-! ### Products -/

/-- What cannot follow a factor. -/
def SFactor.After (u : Uni) (f : SFactor) (z : Str) : Prop :=
  match f with
  | .int n => n ≠ 0 → ∀ c t, z = c :: t → ¬ IsDigit c
  | .sym _ => NoCont u z

/-- The factors of a product. -/
abbrev factorPE : PE R := .alt (.alt (.restore (.call .apply_call)) (.call .Number)) (.call .Symbol)

theorem deriv_apply_call_pair (h : Deriv grammar u a (.call .apply_call) p w z l) :
    ∃ m, l = [.mk .apply_call p (p + w.length) w m] := by
  have h := h.inv_call
  simp only [grammar, body_apply_call] at h
  obtain ⟨m, hl, -⟩ := h.inv_atomic.inv_rule (by decide)
  exact ⟨m, hl⟩

theorem deriv_factor (h : Deriv grammar u .compound factorPE p w z l) :
    ∃ q, l = [q] ∧ ((∀ r, spaceArgs (q :: r) = none) ∨ ∃ f : SFactor, f.Ok u ∧ w = f.text ∧ f.After u z ∧
      ∀ r, spaceArgs (q :: r) = (spaceArgs r).map (f.value :: ·)) := by
  rcases h.inv_alt with h | ⟨-, h⟩
  · rcases h.inv_alt with h | ⟨-, h⟩
    · obtain ⟨m, rfl⟩ := deriv_apply_call_pair h.inv_restore
      exact ⟨_, rfl, .inl fun r => by simp [spaceArgs, Pair.rule]⟩
    · have h := h.inv_call
      simp only [grammar, body_Number] at h
      rcases h.inv_alt with h | ⟨-, h⟩
      · rcases h.inv_alt with h | ⟨-, h⟩
        · obtain ⟨_, _, _, _, -, -, m, rfl⟩ := deriv_Byte h
          exact ⟨_, rfl, .inl fun r => by simp [spaceArgs, Pair.rule]⟩
        · obtain ⟨_, _, -, m, rfl⟩ := deriv_Decimal h
          exact ⟨_, rfl, .inl fun r => by simp [spaceArgs, Pair.rule]⟩
      · obtain ⟨n, rfl, rfl, hz⟩ := deriv_Integer (by decide) h
        refine ⟨_, rfl, .inr ⟨.int n, trivial, rfl, hz, fun r => ?_⟩⟩
        simp only [spaceArgs, Pair.rule, Pair.text, parseInteger_numeral, SFactor.value]
        cases spaceArgs r <;> simp
  · obtain ⟨q, hq, rfl, hz, m, rfl⟩ := deriv_Symbol (by decide) h
    refine ⟨_, rfl, .inr ⟨.sym q, hq, rfl, hz, fun r => ?_⟩⟩
    simp only [spaceArgs, Pair.rule, Pair.text, SFactor.value]
    cases spaceArgs r <;> simp

theorem near_of_after (L : Lawful u) {f g : SFactor} {h z : Str} (hg : g.Ok u) (hf : f.After u (h ++ (g.text ++ z))) :
    f.Near h g := by
  by_cases hh : h = []
  · subst hh
    right
    have head : ∃ c r, g.text = c :: r ∧ u .xidContinue c = true ∧ (∀ k, g = .int k → IsDigit c) := by
      cases g with
      | int k =>
        obtain ⟨c, r, e, hc⟩ := (numeral_int k).head
        exact ⟨c, r, e, digit_cont L hc, fun _ _ => hc⟩
      | sym q =>
        obtain ⟨c, r, e, hc⟩ := hg.1.start
        exact ⟨c, r ++ moreText q.more, by simp [SFactor.text, Path.text, e], idStart_cont L hc, by simp⟩
    obtain ⟨c, r, e, hc, hd⟩ := head
    rw [e] at hf
    cases f with
    | int n =>
      refine ⟨n, rfl, fun k hk => ?_⟩
      by_contra hn
      exact hf hn c _ rfl (hd k hk)
    | sym q =>
      have := hf c _ rfl
      rw [hc] at this
      cases this
  · exact .inl hh

theorem deriv_factors (L : Lawful u) (h : Deriv grammar u .compound (.rep (.seq (.cat hspace factorPE))) p w z l) :
    ∀ v, spaceArgs l = some v → ∃ m : List (Str × SFactor), w = factorsText m ∧ v = m.map (fun m => m.2.value) ∧
      ∀ f, SFactor.After u f (w ++ z) → Juxtaposed u f m := by
  refine h.inv_rep (P := fun _ w z l => ∀ v, spaceArgs l = some v → ∃ m : List (Str × SFactor), w = factorsText m ∧
    v = m.map (fun m => m.2.value) ∧ ∀ f, SFactor.After u f (w ++ z) → Juxtaposed u f m) ?_ ?_
  · rintro q z - v hv
    simp only [spaceArgs, Option.some.injEq] at hv
    subst hv
    exact ⟨[], rfl, rfl, fun _ _ => trivial⟩
  · intro q w₁ w₂ z l₁ l₂ h ih v hv
    obtain ⟨x, y, m₁, m₂, rfl, rfl, h1, h2⟩ := h.inv_seq.inv_cat
    obtain ⟨rfl, hx⟩ := deriv_hspace L h1
    obtain ⟨q, rfl, hn | ⟨f, hf, rfl, hz, hs⟩⟩ := deriv_factor h2
    · rw [List.nil_append, List.singleton_append, hn] at hv
      cases hv
    · rw [List.nil_append, List.singleton_append, hs] at hv
      cases hl : spaceArgs l₂ with
      | none => rw [hl] at hv; cases hv
      | some v' =>
        rw [hl] at hv
        simp only [Option.map_some, Option.some.injEq] at hv
        subst hv
        obtain ⟨m, rfl, rfl, hm⟩ := ih v' hl
        refine ⟨(x, f) :: m, by simp [factorsText], rfl, fun g hg => ?_⟩
        rw [List.append_assoc, List.append_assoc] at hg
        exact ⟨hx, hf, near_of_after L hf hg, hm f hz⟩

theorem deriv_space_call (L : Lawful u) (h : Deriv grammar u a (.call .space_call) p w z l) :
    ∃ m, l = [.mk .space_call p (p + w.length) w m] ∧ ∀ P v, parseSpaceCall (P p (p + w.length)) m = some v →
      RNode u P p w v := by
  have h := h.inv_call
  simp only [grammar, body_space_call] at h
  obtain ⟨m, rfl, hm⟩ := h.inv_atomic.inv_rule (by decide)
  refine ⟨m, rfl, fun P v hv => ?_⟩
  obtain ⟨x, y, m₁, m₂, rfl, rfl, h1, h2⟩ := hm.inv_seq.inv_cat
  obtain ⟨x, x', m₁, m₁', rfl, rfl, hf1, h3⟩ := h1.inv_cat
  obtain ⟨x', x'', m₁', m₁'', rfl, rfl, hb, h4⟩ := h3.inv_seq.inv_cat
  obtain ⟨rfl, hx⟩ := deriv_hspace L hb
  rw [parseSpaceCall] at hv
  cases hs : spaceArgs ((m₁ ++ ([] ++ m₁'')) ++ m₂) with
  | none => rw [hs] at hv; cases hv
  | some v' =>
    rw [hs] at hv
    simp only [Option.some.injEq] at hv
    subst hv
    obtain ⟨q, rfl, hn | ⟨f, hf, rfl, hfz, hfs⟩⟩ := deriv_factor hf1
    · simp only [List.singleton_append, List.cons_append, hn] at hs
      cases hs
    · obtain ⟨q', rfl, hn | ⟨g, hg, rfl, hgz, hgs⟩⟩ := deriv_factor h4
      · simp only [List.singleton_append, List.nil_append, List.cons_append, hfs, hn] at hs
        cases hs
      · simp only [List.singleton_append, List.nil_append, List.cons_append, hfs, hgs] at hs
        cases hl : spaceArgs m₂ with
        | none => rw [hl] at hs; cases hs
        | some v'' =>
          rw [hl] at hs
          simp only [Option.map_some, Option.some.injEq] at hs
          subst hs
          obtain ⟨ms, rfl, rfl, hms⟩ := deriv_factors L h2 v'' hl
          have e : (f.text ++ (x' ++ g.text)) ++ factorsText ms = f.text ++ factorsText ((x', g) :: ms) := by
            simp [factorsText]
          have := RNode.prod (u := u) (P := P) (i := p) (f := f) (m := (x', g)) (l := ms) hf
            ⟨hx, hg, near_of_after L hg (by simpa using hfz), hms g hgz⟩
          rw [e]
          exact this

/-! ### Literals and names -/

/-- Alternatives of `data` that come first. -/
theorem refuses_constants (L : Lawful u) {e : PE R} {r : Str}
    (h : Refuses grammar u .compound e r)
    (he : ∀ (v : Env) (x rest : Str), Eats u v (.alt (.alt (.restore (.call .dict)) (.restore (.call .list))) (.call .Special)) x rest (fun _ => True) →
      Eats u v e x rest (fun _ => True)) :
    ∀ k ∈ constants, strip k r = none := by
  intro k hk
  cases hs : strip k r with
  | none => rfl
  | some t =>
    exfalso
    rw [strip_some hs] at h
    refine h.not_eats fun v _ => he v k t (eats_alt_right ?_ ?_)
    · have key : ∀ k ∈ constants, ∃ c r, k = c :: r ∧ noStart .dict c = true ∧ noStart .list c = true := by
        intro k hk
        simp only [constants, List.mem_cons, List.not_mem_nil, or_false] at hk
        rcases hk with rfl | rfl | rfl
        · exact ⟨_, _, rfl, by decide, by decide⟩
        · exact ⟨_, _, rfl, by decide, by decide⟩
        · exact ⟨_, _, rfl, by decide, by decide⟩
      obtain ⟨c, r', rfl, h1, h2⟩ := key k hk
      exact fails_alt (fails_restore (fails_plain L h1 _)) (fails_restore (fails_plain L h2 _))
    · refine eats_call (eats_rule_any (eats_atomic (P := Nil) ?_))
      simp only [constants, List.mem_cons, List.not_mem_nil, or_false] at hk
      rcases hk with rfl | rfl | rfl
      · exact eats_alt_left (eats_alt_left (eats_str _ _))
      · exact eats_alt_left (eats_alt_right (fails_str rfl) (eats_str _ _))
      · exact eats_alt_right (fails_alt (fails_str rfl) (fails_str rfl)) (eats_str _ _)

theorem rnode_atom {P : Nat → Nat → Position} {s : SAtom} (hs : ∀ f m l, s ≠ .prod f m l) (hok : s.Ok u) {v : AST}
    (hv : s.value.map (placed (P p (p + s.text.length))) = some v) : RNode u P p s.text v := by
  cases h : s.value with
  | none => rw [h] at hv; cases hv
  | some v' =>
    rw [h] at hv
    simp only [Option.map_some, Option.some.injEq] at hv
    subst hv
    exact .atom hs hok h

theorem rnode_plain {P : Nat → Nat → Position} {s : SAtom} (hs : ∀ f m l, s ≠ .prod f m l) (hok : s.Ok u) {v : AST}
    (hp : ∀ v q, s.value = some v → placed q v = v) (hv : s.value = some v) : RNode u P p s.text v := by
  rw [← hp v (P p (p + s.text.length)) hv]
  exact .atom hs hok hv

/-- The children of `data` other than lists and dictionaries. -/
theorem deriv_literal (L : Lawful u) (c : Cfg)
    (h : Deriv grammar u .compound (.alt (.alt (.alt (.alt (.alt (.alt (.alt (.restore (.call .dict))
      (.restore (.call .list))) (.call .Special)) (.call .REPL)) (.call .Slot)) (.call .Number))
      (.restore (.call .String))) (.call .Symbol)) p w z l) :
    Deriv grammar u .compound (.call .list) p w z l ∨ ∀ r i j t v, buildData c (.mk r i j t l) = some v →
      RNode u c.position p w v := by
  rcases h.inv_alt with h | ⟨hr, h⟩
  · rcases h.inv_alt with h | ⟨hr, h⟩
    · rcases h.inv_alt with h | ⟨-, h⟩
      · rcases h.inv_alt with h | ⟨-, h⟩
        · rcases h.inv_alt with h | ⟨-, h⟩
          · rcases h.inv_alt with h | ⟨-, h⟩
            · rcases h.inv_alt with h | ⟨-, h⟩
              · right
                intro r i j t v hv
                have h := h.inv_restore.inv_call
                simp only [grammar, body_dict] at h
                obtain ⟨m, rfl, -⟩ := h.inv_atomic.inv_rule (by decide)
                simp [buildData, Pair.rule] at hv
              · exact .inl h.inv_restore
            · right
              intro r i j t v hv
              obtain ⟨s, hs, hok, rfl, hp, hq, m, rfl⟩ := deriv_Special (by decide) h
              refine rnode_plain hs hok hq ?_
              simpa [buildData, Pair.rule, Pair.text, hp] using hv
          · right
            intro r i j t v hv
            obtain ⟨s, hs, hok, rfl, hp, m, rfl⟩ := deriv_REPL (by decide) h
            refine rnode_atom hs hok ?_
            simpa [buildData, Pair.rule, Pair.text, Pair.start, Pair.stop, hp] using hv
        · right
          intro r i j t v hv
          obtain ⟨s, hs, hok, rfl, m, rfl, hp⟩ := deriv_Slot L h
          refine rnode_atom hs hok ?_
          simpa [buildData, Pair.rule, Pair.text, Pair.start, Pair.stop, Pair.inner, hp] using hv
      · right
        intro r i j t v hv
        have h := h.inv_call
        simp only [grammar, body_Number] at h
        rcases h.inv_alt with h | ⟨-, h⟩
        · rcases h.inv_alt with h | ⟨-, h⟩
          · obtain ⟨r, k, d, ds, hok, rfl, m, rfl⟩ := deriv_Byte h
            refine rnode_plain (by simp) hok ?_ (by simpa [buildData, Pair.rule, Pair.text, parseByte_atom hok] using hv)
            intro v q h
            simp only [SAtom.value] at h
            split at h <;> cases h
            rfl
          · obtain ⟨i, f, rfl, m, rfl⟩ := deriv_Decimal h
            exact rnode_plain (s := .dec i f) (by simp) trivial (by rintro v q h; cases h; rfl)
              (by simpa [buildData, Pair.rule, Pair.text, parseDecimal_value, SAtom.value] using hv)
        · obtain ⟨n, rfl, rfl, -⟩ := deriv_Integer (by decide) h
          exact rnode_plain (s := .int n) (by simp) trivial (by rintro v q h; cases h; rfl)
            (by simpa [buildData, Pair.rule, Pair.text, parseInteger_numeral, SAtom.value] using hv)
    · right
      intro r i j t v hv
      obtain ⟨s, hs, hok, rfl, hq, m, rfl, hp⟩ := deriv_String
        (refuses_constants L hr fun v x rest h => eats_alt_left (eats_alt_left (eats_alt_left h))) h.inv_restore
      refine rnode_plain hs hok hq ?_
      simpa [buildData, Pair.rule, Pair.text, Pair.inner, hp] using hv
  · right
    intro r i j t v hv
    obtain ⟨q, hq, rfl, -, m, rfl⟩ := deriv_Symbol (by decide) h
    have hc := refuses_constants L hr fun v x rest h => eats_alt_left (eats_alt_left (eats_alt_left (eats_alt_left h)))
    refine rnode_plain (s := .sym q) (by simp) ⟨hq, fun k hk => ?_⟩ (by rintro v q h; cases h; rfl)
      (by simpa [buildData, Pair.rule, Pair.text, SAtom.value] using hv)
    cases hs : strip k q.first with
    | none => rfl
    | some r =>
      have := hc k hk
      rw [Path.text, List.append_assoc, strip_front _ hs] at this
      cases this

end SM.Props
