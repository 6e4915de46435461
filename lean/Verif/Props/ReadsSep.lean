import Verif.Props.ReadsProd
/-
What derivations say about comma-separated items, and what the loops over the pairs of such items do.
-/
namespace SM.Props
open SM SM.Peg

variable {u : Uni} {a : Atomicity} {p : Nat} {w z : Str} {l : List (Pair R)}

theorem Blank.append {w w' : Str} (h : Blank u w) (h' : Blank u w') : Blank u (w ++ w') := by
  obtain ⟨r, ks, rfl, h1, h2⟩ := h
  obtain ⟨r', ks', rfl, h1', h2'⟩ := h'
  rcases List.eq_nil_or_concat ks with rfl | ⟨ks, k, rfl⟩
  · refine ⟨r ++ r', ks', by simp, ?_, h2'⟩
    intro c hc
    rcases List.mem_append.1 hc with hc | hc
    · exact h1 c hc
    · exact h1' c hc
  · refine ⟨r, ks ++ ⟨k.kind, k.body, k.after ++ r'⟩ :: ks', by simp [LineComment.text], h1, ?_⟩
    intro d hd
    simp only [List.mem_append, List.mem_cons] at hd
    rcases hd with hd | rfl | hd
    · exact h2 d (by simp [hd])
    · obtain ⟨k1, k2, ⟨c, t, k3, k3'⟩, k4⟩ := h2 k (by simp)
      refine ⟨k1, k2, ⟨c, t ++ r', by simp [k3], k3'⟩, ?_⟩
      intro c hc
      rcases List.mem_append.1 hc with hc | hc
      · exact k4 c hc
      · exact h1' c hc
    · exact h2' d hd

/-! ### Items -/

/-- Commas with items after them, up to a closing bracket. -/
inductive Commas (u : Uni) {β : Type} (Q : Nat → Str → β → Prop) : Nat → Str → List β → Prop
  | nil {i : Nat} {w : Str} : Blank u w → Commas u Q i w []
  | trail {i : Nat} {b : Bool} {w w' : Str} : Blank u w → Blank u w' → Commas u Q i (w ++ (commaText b ++ w')) []
  | cons {i : Nat} {b : Bool} {w w' x s : Str} {d : β} {l : List β} : Blank u w → Blank u w' →
      Q (i + (w ++ (commaText b ++ w')).length) x d →
      Commas u Q (i + (w ++ (commaText b ++ (w' ++ x))).length) s l →
      Commas u Q i (w ++ (commaText b ++ (w' ++ (x ++ s)))) (d :: l)

theorem Commas.blank {β : Type} {Q : Nat → Str → β → Prop} {i : Nat} {b s : Str} {l : List β} (hb : Blank u b)
    (h : Commas u Q (i + b.length) s l) : Commas u Q i (b ++ s) l := by
  cases h with
  | nil h => exact .nil (hb.append h)
  | trail h h' =>
    rw [← List.append_assoc]
    exact .trail (hb.append h) h'
  | cons h h' hq hs =>
    rw [← List.append_assoc]
    refine .cons (hb.append h) h' ?_ ?_
    · simpa [Nat.add_assoc] using hq
    · simpa [Nat.add_assoc] using hs

/-- A `%%%` comment is among the pairs. -/
def Bad (l : List (Pair R)) : Prop := ∃ q ∈ l, q.rule = .MultiLineComment

@[simp] theorem bad_append {l m : List (Pair R)} : Bad (l ++ m) ↔ Bad l ∨ Bad m := by
  simp only [Bad, List.mem_append, or_and_right, exists_or]

theorem bad_cons {q : Pair R} {l : List (Pair R)} : Bad (q :: l) ↔ q.rule = .MultiLineComment ∨ Bad l := by
  simp [Bad]

/-- The pairs that are not commas. -/
def sieve (l : List (Pair R)) : List (Pair R) := l.filter fun q => !(q.rule == .Comma)

@[simp] theorem sieve_append {l m : List (Pair R)} : sieve (l ++ m) = sieve l ++ sieve m := List.filter_append ..
@[simp] theorem sieve_nil : sieve [] = [] := rfl

theorem skip_quiet (L : Lawful u) (h : Deriv grammar u .non (.call .skip) p w z l) :
    ∀ q ∈ l, q.rule = .MultiLineComment := by
  have h := h.inv_call
  simp only [grammar, body_skip] at h
  obtain ⟨x, y, m₁, m₂, rfl, rfl, h1, h2⟩ := h.inv_ifNon.inv_seq.inv_cat
  obtain ⟨rfl, -, -⟩ := deriv_ws_run L h1
  refine h2.inv_rep (P := fun _ _ _ l => ∀ q ∈ [] ++ l, q.rule = .MultiLineComment) (by simp) ?_
  intro q w₁ w₂ z l₁ l₂ h ih
  obtain ⟨x, y, m₁, m₂, rfl, rfl, h1, h2⟩ := h.inv_seq.inv_cat
  obtain ⟨rfl, -, -⟩ := deriv_ws_run L h2
  rcases deriv_comment h1 with ⟨rfl, -⟩ | ⟨q, rfl, hq, -⟩
  · simpa using ih
  · simpa [hq] using ih

theorem skip_or_bad (L : Lawful u) (h : Deriv grammar u .non (.call .skip) p w z l) (hz : z ≠ []) :
    (l = [] ∧ Blank u w) ∨ Bad l := by
  rcases deriv_skip_inner L h hz with h | ⟨q, l', rfl, h, -⟩
  · exact .inl h
  · exact .inr ⟨q, by simp, h⟩

/-- One more item. -/
abbrev moreOne (e : R) : PE R := .restore (.seq (.cat (.cat (.call .Comma) (.call .skip)) (.call e)))

/-- Further items. -/
abbrev moreMany (e : R) : PE R := .seq (.opt (.cat (moreOne e) (.rep (.seq (.cat (.call .skip) (moreOne e))))))

/-- The derivations of an item. -/
abbrev ItemAt (u : Uni) (e : R) (i : Nat) (x : Str) (q : Pair R) : Prop :=
  ∃ z, z ≠ [] ∧ Deriv grammar u .non (.call e) i x z [q]

/-- A rule that always makes one pair. -/
def Single (u : Uni) (e : R) : Prop :=
  ∀ (p : Nat) (w z : Str) (l : List (Pair R)), Deriv grammar u .non (.call e) p w z l → ∃ m, l = [.mk e p (p + w.length) w m]

theorem deriv_moreOne (L : Lawful u) {e : R} (he : Single u e) (hc : e ≠ .Comma)
    (h : Deriv grammar u .non (moreOne e) p w z l) (hz : z ≠ []) :
    Bad l ∨ ∃ b w' x d, w = commaText b ++ (w' ++ x) ∧ Blank u w' ∧
      ItemAt u e (p + (commaText b ++ w').length) x d ∧ sieve l = [d] := by
  obtain ⟨x, y, m₁, m₂, rfl, rfl, h1, h2⟩ := h.inv_restore.inv_seq.inv_cat
  obtain ⟨x, x', m₁, m₁', rfl, rfl, h3, h4⟩ := h1.inv_cat
  obtain ⟨b, rfl, m, rfl⟩ := deriv_Comma (by decide) h3
  obtain ⟨m', rfl⟩ := he _ _ _ _ h2
  rcases skip_or_bad L h4 (by simp [hz]) with ⟨rfl, hb⟩ | hb
  · refine .inr ⟨b, x', y, _, by simp, hb, ⟨z, hz, h2⟩, ?_⟩
    simp [sieve, Pair.rule, hc]
  · exact .inl (bad_append.2 (.inl (bad_append.2 (.inr hb))))

theorem deriv_moreMany (L : Lawful u) {e : R} (he : Single u e) (hc : e ≠ .Comma)
    (h : Deriv grammar u .non (moreMany e) p w z l) (hz : z ≠ []) :
    Bad l ∨ ∀ s t, Commas u (ItemAt u e) (p + w.length) s t → Commas u (ItemAt u e) p (w ++ s) (sieve l ++ t) := by
  rcases h.inv_seq.inv_opt with ⟨rfl, rfl, -⟩ | h
  · exact .inr fun s t h => by simpa using h
  · obtain ⟨x, y, m₁, m₂, rfl, rfl, h1, h2⟩ := h.inv_cat
    have key := h2.inv_rep (P := fun p w z l => z ≠ [] → Bad l ∨ ∀ s t, Commas u (ItemAt u e) (p + w.length) s t →
      Commas u (ItemAt u e) p (w ++ s) (sieve l ++ t)) ?_ ?_ hz
    · rcases deriv_moreOne L he hc h1 (by simp [hz]) with hb | ⟨b, w', x, d, rfl, hw, hd, hs⟩
      · exact .inl (by simp [hb])
      · rcases key with hb | key
        · exact .inl (by simp [hb])
        · refine .inr fun s t h => ?_
          have := key s t (by simpa [Nat.add_assoc] using h)
          have := Commas.cons (b := b) (x := x) (i := p) (w := []) blank_nil hw (by simpa using hd)
            (by simpa [Nat.add_assoc] using this)
          simpa [hs] using this
    · intro p z _ hz
      exact .inr fun s t h => by simpa using h
    · intro p w₁ w₂ z l₁ l₂ h ih hz
      obtain ⟨x, y, m₁, m₂, rfl, rfl, h1, h2⟩ := h.inv_seq.inv_cat
      rcases ih hz with hb | ih
      · exact .inl (by simp [hb])
      rcases skip_or_bad L h1 (by simp [hz]) with ⟨rfl, hx⟩ | hb
      swap
      · exact .inl (by simp [hb])
      rcases deriv_moreOne L he hc h2 (by simp [hz]) with hb | ⟨b, w', x', d, rfl, hw, hd, hs⟩
      · exact .inl (by simp [hb])
      · refine .inr fun s t h => ?_
        have := ih s t (by simpa [Nat.add_assoc] using h)
        have := Commas.cons (b := b) (x := x') (i := p) (w := x) hx hw (by simpa [Nat.add_assoc] using hd)
          (by simpa [Nat.add_assoc] using this)
        simpa [hs] using this

/-- Everything between the first item and the closing bracket. -/
theorem deriv_commas (L : Lawful u) {e : R} (he : Single u e) (hc : e ≠ .Comma) {p p₁ p₂ p₃ p₄ : Nat}
    {b₁ m b₂ k b₃ : Str} {l₁ l₂ l₃ l₄ l₅ : List (Pair R)}
    (h1 : Deriv grammar u .non (.call .skip) p₁ b₁ (m ++ (b₂ ++ (k ++ (b₃ ++ z)))) l₁)
    (h2 : Deriv grammar u .non (moreMany e) (p + b₁.length) m (b₂ ++ (k ++ (b₃ ++ z))) l₂)
    (h3 : Deriv grammar u .non (.call .skip) p₂ b₂ (k ++ (b₃ ++ z)) l₃)
    (h4 : Deriv grammar u .non (.opt (.call .Comma)) p₃ k (b₃ ++ z) l₄)
    (h5 : Deriv grammar u .non (.call .skip) p₄ b₃ z l₅) (hz : z ≠ []) :
    Bad (l₁ ++ (l₂ ++ (l₃ ++ (l₄ ++ l₅)))) ∨
      Commas u (ItemAt u e) p (b₁ ++ (m ++ (b₂ ++ (k ++ b₃)))) (sieve (l₁ ++ (l₂ ++ (l₃ ++ (l₄ ++ l₅))))) := by
  rcases skip_or_bad L h1 (by simp [hz]) with ⟨rfl, k1⟩ | hb
  swap
  · exact .inl (by simp [hb])
  rcases skip_or_bad L h3 (by simp [hz]) with ⟨rfl, k3⟩ | hb
  swap
  · exact .inl (by simp [hb])
  rcases skip_or_bad L h5 hz with ⟨rfl, k5⟩ | hb
  swap
  · exact .inl (by simp [hb])
  rcases deriv_moreMany L he hc h2 (by simp [hz]) with hb | k2
  · exact .inl (by simp [hb])
  right
  refine .blank k1 ?_
  have tail : ∃ (q : Nat), Commas u (ItemAt u e) q (b₂ ++ (k ++ b₃)) (sieve l₄) ∧ q = p + b₁.length + m.length := by
    refine ⟨_, ?_, rfl⟩
    rcases h4.inv_opt with ⟨rfl, rfl, -⟩ | h
    · exact .nil (k3.append k5)
    · obtain ⟨b, rfl, m', rfl⟩ := deriv_Comma (by decide) h
      exact .trail k3 k5
  obtain ⟨_, tail, rfl⟩ := tail
  simpa using k2 _ _ tail

/-! ### Loops -/

section loops
variable (c : Cfg)

theorem listItems_good : ∀ (l : List (Pair R)) {v : List AST}, listItems c l = some v → ¬ Bad l
  | [], _, _ => by simp [Bad]
  | q :: l, v, h => by
    rw [bad_cons]
    rw [listItems] at h
    split at h
    · rename_i hq
      simp [hq, listItems_good l h]
    · split at h
      · rename_i hq
        split at h
        · rename_i h2
          simp [hq, listItems_good l h2]
        · cases h
      · cases h

theorem listItems_sieve : ∀ (l : List (Pair R)), listItems c l = listItems c (sieve l)
  | [] => rfl
  | q :: l => by
    by_cases h : q.rule = .Comma
    · rw [listItems, if_pos h, listItems_sieve l]
      simp [sieve, h]
    · have : sieve (q :: l) = q :: sieve l := by simp [sieve, h]
      rw [this, listItems, listItems, listItems_sieve l]

theorem sliceItems_good : ∀ (l : List (Pair R)) {v : List AST}, sliceItems c l = some v → ¬ Bad l
  | [], _, _ => by simp [Bad]
  | q :: l, v, h => by
    rw [bad_cons]
    rw [sliceItems] at h
    split at h
    · rename_i hq
      simp [hq, sliceItems_good l h]
    · split at h
      · rename_i hq
        split at h
        · rename_i h2
          simp [hq, sliceItems_good l h2]
        · cases h
      · cases h

theorem sliceItems_sieve : ∀ (l : List (Pair R)), sliceItems c l = sliceItems c (sieve l)
  | [] => rfl
  | q :: l => by
    by_cases h : q.rule = .Comma
    · rw [sliceItems, if_pos h, sliceItems_sieve l]
      simp [sieve, h]
    · have : sieve (q :: l) = q :: sieve l := by simp [sieve, h]
      rw [this, sliceItems, sliceItems, sliceItems_sieve l]

theorem applyArgs_good : ∀ (l : List (Pair R)) {x : List AST} {k : BMap AST AST} {v : List AST × BMap AST AST},
    applyArgs c l x k = some v → ¬ Bad l
  | [], _, _, _, _ => by simp [Bad]
  | q :: l, x, k, v, h => by
    rw [bad_cons]
    rw [applyArgs] at h
    split at h
    · rename_i hq
      simp [hq, applyArgs_good l h]
    · split at h
      · rename_i hq
        simp [hq, applyArgs_good l h]
      · split at h
        · rename_i hq
          split at h
          · cases h
          · simp [hq, applyArgs_good l h]
          · simp [hq, applyArgs_good l h]
        · cases h

theorem applyArgs_sieve : ∀ (l : List (Pair R)) (x : List AST) (k : BMap AST AST),
    applyArgs c l x k = applyArgs c (sieve l) x k
  | [], _, _ => rfl
  | q :: l, x, k => by
    by_cases h : q.rule = .Comma
    · rw [applyArgs, if_neg (by simp [h]), if_pos h, applyArgs_sieve l]
      simp [sieve, h]
    · have : sieve (q :: l) = q :: sieve l := by simp [sieve, h]
      rw [this, applyArgs, applyArgs]
      simp only [applyArgs_sieve l]

end loops

end SM.Props
