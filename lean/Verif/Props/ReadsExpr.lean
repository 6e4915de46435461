import Verif.Props.ReadsTree
/-
What derivations say about terms and expressions.
-/
namespace SM.Props
open SM SM.Peg

variable {u : Uni} {a : Atomicity} {p n : Nat} {w z : Str} {l : List (Pair R)} {c : Cfg}

/-! ### Terms -/

theorem deriv_Prefix (ha : a ≠ .atomic) (h : Deriv grammar u a (.call .Prefix) p w z l) :
    ∃ d : Char, w = [d] ∧ ∃ m, l = [.mk .Prefix p (p + 1) [d] m] := by
  have h := h.inv_call
  simp only [grammar, body_Prefix] at h
  obtain ⟨m, rfl, hm⟩ := h.inv_rule ha
  have key : ∃ d : Char, w = [d] := by
    rcases hm.inv_atomic.inv_alt with h | ⟨-, h⟩
    · rcases h.inv_alt with h | ⟨-, h⟩
      · rcases h.inv_alt with h | ⟨-, h⟩
        · rcases h.inv_alt with h | ⟨-, h⟩
          · exact ⟨_, (deriv_tok_mute rfl h).1⟩
          · exact ⟨_, (deriv_tok_mute rfl h).1⟩
        · exact ⟨_, (deriv_tok_mute rfl h).1⟩
      · exact ⟨_, (deriv_tok_mute rfl h).1⟩
    · exact ⟨_, (deriv_tok_mute rfl h).1⟩
  obtain ⟨d, rfl⟩ := key
  exact ⟨d, rfl, m, rfl⟩

theorem prefixMap_char {d : Char} {s : Sym} (h : prefixMap [d] = some s) :
    ∃ m, preName d = some m ∧ s = ⟨[c!"std", c!"prefix"], m, .prefix [d], 0⟩ := by
  simp only [prefixMap, List.cons.injEq, and_true] at h
  split at h
  · rename_i e; subst e; cases h; exact ⟨_, rfl, rfl⟩
  · split at h
    · rename_i e; subst e; cases h; exact ⟨_, rfl, rfl⟩
    · split at h
      · rename_i e; subst e; cases h; exact ⟨_, rfl, rfl⟩
      · split at h
        · rename_i e; subst e; cases h; exact ⟨_, rfl, rfl⟩
        · cases h

theorem suffixMap_name {y : Str} {s : Sym} (h : suffixMap y = some s) :
    ∃ m, sufName y = some m ∧ s = ⟨[c!"std", c!"suffix"], m, .suffix y, 0⟩ := by
  simp only [suffixMap] at h
  split at h
  · rename_i e; subst e; cases h; exact ⟨_, rfl, rfl⟩
  · split at h
    · rename_i e; subst e; cases h; exact ⟨_, rfl, rfl⟩
    · cases h

/-- Prefix operators. -/
theorem deriv_prefixes (h : Deriv grammar u .compound (.rep (.call .Prefix)) p w z l) :
    ∃ f : List (Str × Position), (∀ r b k, termLoop c (l ++ r) b k = termLoop c r b (k ++ f)) ∧
      ∀ t x v, RTerm u c.position (p + w.length) t x → applyPrefixes f x = some v → RTerm u c.position p (w ++ t) v := by
  refine h.inv_rep (P := fun p w _ l => ∃ f : List (Str × Position),
    (∀ r b k, termLoop c (l ++ r) b k = termLoop c r b (k ++ f)) ∧
      ∀ t x v, RTerm u c.position (p + w.length) t x → applyPrefixes f x = some v → RTerm u c.position p (w ++ t) v) ?_ ?_
  · intro q z _
    refine ⟨[], fun _ _ _ => by simp, fun t x v ht hv => ?_⟩
    cases hv
    simpa using ht
  · rintro q w₁ w₂ z l₁ l₂ h ⟨f, h1, h2⟩
    obtain ⟨d, rfl, m, rfl⟩ := deriv_Prefix (by decide) h
    refine ⟨([d], c.position q (q + 1)) :: f, fun r b k => ?_, fun t x v ht hv => ?_⟩
    · rw [List.singleton_append, List.cons_append, termLoop, if_neg (by simp [Pair.rule]), if_pos (by rfl), h1]
      simp [Pair.text, Pair.start, Pair.stop]
    · rw [applyPrefixes] at hv
      split at hv
      · cases hv
      · rename_i x' hx'
        split at hv
        · cases hv
        · rename_i s hs
          cases hv
          obtain ⟨m', hm', rfl⟩ := prefixMap_char hs
          have := h2 t x x' (by simpa [Nat.add_assoc, Nat.add_comm, Nat.add_left_comm] using ht) hx'
          exact RTerm.pre hm' this

theorem index_sym : Sym.ofStr c!"std::core::Index" = ⟨[c!"std", c!"core"], c!"Index", .normal, 0⟩ := by decide

/-- Suffix operators and indices. -/
theorem deriv_suffixes (L : Lawful u) (ih : Under u c n)
    (h : Deriv grammar u .compound (.rep (.alt (.call .Suffix) (.restore (.seq (.cat hspace (.call .slice)))))) p w z l) :
    w.length ≤ n → ∀ i t x k v, p = i + t.length → RPost u c.position i t x → termLoop c l x k = some v →
      ∃ y, RPost u c.position i (t ++ w) y ∧ applyPrefixes k y = some v := by
  refine h.inv_rep (P := fun p w _ l => w.length ≤ n → ∀ i t x k v, p = i + t.length → RPost u c.position i t x →
    termLoop c l x k = some v → ∃ y, RPost u c.position i (t ++ w) y ∧ applyPrefixes k y = some v) ?_ ?_
  · intro q z _ _ i t x k v _ ht hv
    rw [termLoop] at hv
    exact ⟨x, by simpa using ht, hv⟩
  · intro q w₁ w₂ z l₁ l₂ h ih' hn i t x k v hq ht hv
    subst hq
    simp only [List.length_append] at hn
    rcases h.inv_alt with h | ⟨-, h⟩
    · have h := h.inv_call
      simp only [grammar, body_Suffix] at h
      obtain ⟨m, rfl, -⟩ := h.inv_rule (by decide)
      rw [List.singleton_append, termLoop, if_neg (by simp [Pair.rule]), if_neg (by simp [Pair.rule]), if_pos (by rfl)] at hv
      split at hv
      swap
      · cases hv
      rename_i s hs
      obtain ⟨m', hm', rfl⟩ := suffixMap_name hs
      rw [← List.append_assoc]
      refine ih' (by omega) i (t ++ w₁) _ k v (by simp [Nat.add_assoc]) ?_ hv
      have := RPost.op ht hm'
      simpa [callAt, Nat.add_assoc, Pair.text, Pair.start, Pair.stop] using this
    · obtain ⟨x₁, y₁, m₁, m₂, rfl, rfl, h1, h2⟩ := h.inv_restore.inv_seq.inv_cat
      obtain ⟨rfl, hx⟩ := deriv_hspace L h1
      simp only [List.length_append] at hn
      obtain ⟨m, rfl, hm⟩ := reads_slice L ih h2 (by omega)
      rw [List.nil_append, List.singleton_append, termLoop, if_neg (by simp [Pair.rule]), if_neg (by simp [Pair.rule]),
        if_neg (by simp [Pair.rule]), if_pos (by rfl)] at hv
      split at hv
      swap
      · cases hv
      rename_i vs hvs
      obtain ⟨b, x', s, d, r, rfl, rfl, hb, hd, hr⟩ := hm _ hvs
      rw [index_sym] at hv
      have := RPost.index (u := u) (P := c.position) ht hx hb
        (by simpa [Nat.add_assoc, Nat.add_comm, Nat.add_left_comm] using hd)
        (by simpa [Nat.add_assoc, Nat.add_comm, Nat.add_left_comm] using hr)
      obtain ⟨y, hy, hk⟩ := ih' (by simp only [List.length_append, List.length_cons] at hn ⊢; omega) i _ _ k v (by simp [Nat.add_assoc, Nat.add_comm, Nat.add_left_comm]) this
        (by simpa [callAt, Pair.start, Pair.stop, Nat.add_assoc, Nat.add_comm, Nat.add_left_comm] using hv)
      exact ⟨y, by simpa using hy, hk⟩

theorem reads_term (L : Lawful u) (ih : Under u c n) (h : Deriv grammar u a (.call .term) p w z l) (hn : w.length ≤ n) :
    ∃ q, l = [q] ∧ q.rule = .term ∧ ∀ v, buildTerm c q = some v → RTerm u c.position p w v := by
  have h := h.inv_call
  simp only [grammar, body_term] at h
  obtain ⟨m, rfl, hm⟩ := h.inv_atomic.inv_rule (by decide)
  refine ⟨_, rfl, rfl, fun v hv => ?_⟩
  obtain ⟨x, y, m₁, m₂, rfl, rfl, h1, h2⟩ := hm.inv_seq.inv_cat
  obtain ⟨x, t, m₁, m₃, rfl, rfl, h3, h4⟩ := h1.inv_cat
  simp only [List.length_append] at hn
  obtain ⟨f, hf1, hf2⟩ := deriv_prefixes (c := c) h3
  obtain ⟨m, rfl, hk⟩ := reads_node L ih h4 (by omega)
  rw [buildTerm, List.append_assoc, hf1, List.singleton_append, termLoop, if_pos (by rfl)] at hv
  split at hv
  swap
  · cases hv
  rename_i b hb
  obtain ⟨y', hy, hv⟩ := deriv_suffixes L ih h2 (by omega) (p + x.length) t b _ v (by simp [Nat.add_assoc])
    (.node (hk b hb)) hv
  rw [List.append_assoc]
  exact hf2 _ _ _ (.base hy) (by simpa using hv)

/-! ### Operators -/

theorem Ran.not_fails {e : PE R} (h : Ran grammar u a e p w z l) (k : ∀ v : Env, Fails u v e (w ++ z)) : False := by
  obtain ⟨n, v, s, t, hv, hs, hp, hr, htp, htr, hq, h⟩ := h
  have hsem := k v s.pos s.stack s.queue
  rw [← hr] at hsem
  have : sem grammar u e v s = .ok t := by rw [sem_eq_run (by rw [h]; exact fun e => by cases e), h]
  rw [show sem grammar u e v ⟨s.pos, s.rest, s.stack, s.queue⟩ = sem grammar u e v s from rfl, this] at hsem
  cases hsem

theorem deriv_Infix (L : Lawful u) (h : Deriv grammar u .non (.call .Infix) p w z l) :
    ∃ q, l = [q] ∧ ((∃ o, IsOp q o ∧ w = o.text) ∨ (opTable q.rule = none ∧ ∃ d r, w = d :: r ∧ d ∈ dropChars)) := by
  have h := h.inv_call
  simp only [grammar, body_Infix] at h
  rcases h.inv_alt with h | ⟨-, h⟩
  swap
  · obtain ⟨rfl, rfl⟩ := deriv_tok rfl (by decide) h
    exact ⟨_, rfl, .inl ⟨.dot, ⟨rfl, rfl⟩, rfl⟩⟩
  rcases h.inv_alt with h | ⟨-, h⟩
  swap
  · obtain ⟨rfl, rfl⟩ := deriv_tok rfl (by decide) h
    exact ⟨_, rfl, .inr ⟨rfl, _, _, rfl, by decide⟩⟩
  rcases h.inv_alt with h | ⟨-, h⟩
  swap
  · obtain ⟨rfl, rfl⟩ := deriv_tok rfl (by decide) h
    exact ⟨_, rfl, .inr ⟨rfl, _, _, rfl, by decide⟩⟩
  rcases h.inv_alt with h | ⟨-, h⟩
  swap
  · obtain ⟨rfl, rfl⟩ := deriv_tok rfl (by decide) h
    exact ⟨_, rfl, .inr ⟨rfl, _, _, rfl, by decide⟩⟩
  rcases h.inv_alt with h | ⟨-, h⟩
  swap
  · obtain ⟨rfl, rfl⟩ := deriv_tok rfl (by decide) h
    exact ⟨_, rfl, .inl ⟨.caret, ⟨rfl, rfl⟩, rfl⟩⟩
  rcases h.inv_alt with h | ⟨-, h⟩
  swap
  · obtain ⟨rfl, rfl⟩ := deriv_tok rfl (by decide) h
    exact ⟨_, rfl, .inr ⟨rfl, _, _, rfl, by decide⟩⟩
  rcases h.inv_alt with h | ⟨hr, h⟩
  swap
  · obtain ⟨rfl, rfl⟩ := deriv_tok rfl (by decide) h
    exfalso
    refine hr.not_eats (x := c!"/") (P := fun _ => True) fun v _ => eats_alt_right ?_ ?_
    · exact fails_alt (fails_alt (fails_alt (fails_alt (fails_alt (fails_alt (fails_plain L (by decide) _)
        (fails_plain L (by decide) _)) (fails_plain L (by decide) _)) (fails_plain L (by decide) _))
        (fails_plain L (by decide) _)) (fails_plain L (by decide) _)) (fails_plain L (by decide) _)
    · exact eats_call (eats_rule_any (eats_atomic (P := fun _ => True) (eats_alt_left (eats_call (eats_rule_any
        (eats_atomic (eats_str _ _)))))))
  rcases h.inv_alt with h | ⟨-, h⟩
  swap
  · have h := h.inv_call
    simp only [grammar, body_Divide] at h
    obtain ⟨m, rfl, hm⟩ := h.inv_rule (by decide)
    rcases hm.inv_atomic.inv_alt with h | ⟨-, h⟩
    · obtain ⟨rfl, rfl⟩ := deriv_tok_mute rfl h
      exact ⟨_, rfl, .inl ⟨.slash, ⟨rfl, rfl⟩, rfl⟩⟩
    · obtain ⟨rfl, rfl⟩ := h.inv_str
      exact ⟨_, rfl, .inl ⟨.obelus, ⟨rfl, rfl⟩, rfl⟩⟩
  rcases h.inv_alt with h | ⟨-, h⟩
  swap
  · obtain ⟨rfl, rfl⟩ := deriv_tok rfl (by decide) h
    exact ⟨_, rfl, .inr ⟨rfl, _, _, rfl, by decide⟩⟩
  rcases h.inv_alt with h | ⟨-, h⟩
  swap
  · obtain ⟨rfl, rfl⟩ := deriv_tok rfl (by decide) h
    exact ⟨_, rfl, .inr ⟨rfl, _, _, rfl, by decide⟩⟩
  rcases h.inv_alt with h | ⟨-, h⟩
  swap
  · obtain ⟨rfl, rfl⟩ := deriv_tok rfl (by decide) h
    exact ⟨_, rfl, .inr ⟨rfl, _, _, rfl, by decide⟩⟩
  rcases h.inv_alt with h | ⟨-, h⟩
  swap
  · have h := h.inv_call
    simp only [grammar, body_Multiply] at h
    obtain ⟨m, rfl, hm⟩ := h.inv_rule (by decide)
    rcases hm.inv_atomic.inv_alt with h | ⟨-, h⟩
    · obtain ⟨rfl, rfl⟩ := deriv_tok_mute rfl h
      exact ⟨_, rfl, .inl ⟨.star, ⟨rfl, rfl⟩, rfl⟩⟩
    · obtain ⟨rfl, rfl⟩ := h.inv_str
      exact ⟨_, rfl, .inl ⟨.cross, ⟨rfl, rfl⟩, rfl⟩⟩
  rcases h.inv_alt with h | ⟨-, h⟩
  swap
  · obtain ⟨rfl, rfl⟩ := deriv_tok rfl (by decide) h
    exact ⟨_, rfl, .inl ⟨.minus, ⟨rfl, rfl⟩, rfl⟩⟩
  rcases h.inv_alt with h | ⟨-, h⟩
  swap
  · obtain ⟨rfl, rfl⟩ := deriv_tok rfl (by decide) h
    exact ⟨_, rfl, .inl ⟨.plus, ⟨rfl, rfl⟩, rfl⟩⟩
  · obtain ⟨rfl, rfl⟩ := deriv_tok rfl (by decide) h
    exact ⟨_, rfl, .inr ⟨rfl, _, _, rfl, by decide⟩⟩

/-! ### Expressions -/

/-- One operator with the term after it. -/
abbrev stepPE : PE R := .restore (.seq (.cat (.cat (.call .Infix) (.call .skip)) (.call .term)))

/-- What operators with terms after them are read as. -/
def ReadsSteps (u : Uni) (c : Cfg) (p : Nat) (w : Str) (l : List (Pair R)) : Prop :=
  ∃ (K : List (Pair R × Pair R)) (tail : List (Pair R)) (s j : Str), l = pairSteps K ++ tail ∧ w = s ++ j ∧
    (∀ h t, tail = h :: t → opTable h.rule = none) ∧ (j = [] ∨ Dropped u j) ∧ (∀ k ∈ K, ∃ o, IsOp k.1 o) ∧
    ∀ M : List (Op × AST), List.Forall₂ (fun k m => IsOp k.1 m.1 ∧ operand c k.2 = some m.2) K M →
      RSteps u c.position p s M

theorem Dropped.append {j : Str} (h : Dropped u j) (y : Str) : Dropped u (j ++ y) := by
  obtain ⟨w, d, r, rfl, hw, hd⟩ := h
  exact ⟨w, d, r ++ y, by simp, hw, hd⟩

theorem readsSteps_nil : ReadsSteps u c p [] [] := by
  refine ⟨[], [], [], [], rfl, rfl, by simp, .inl rfl, by simp, fun M h => ?_⟩
  cases h
  exact .nil

theorem readsSteps_dropped (hw : Dropped u w) (hl : ∀ h t, l = h :: t → opTable h.rule = none) :
    ReadsSteps u c p w l := by
  refine ⟨[], l, [], w, rfl, rfl, hl, .inr hw, by simp, fun M h => ?_⟩
  cases h
  exact .nil

theorem IsOp.unique {q : Pair R} {o o' : Op} (h : IsOp q o) (h' : IsOp q o') : o = o' := by
  have := h.2.symm.trans h'.2
  cases o <;> cases o' <;> first | rfl | (revert this; decide)

theorem readsSteps_cons (L : Lawful u) (ih : Under u c n) {b x y : Str} {l₁ l₂ l₃ : List (Pair R)}
    (h1 : Deriv grammar u .non (.call .skip) p b (x ++ z) l₁)
    (h2 : Deriv grammar u .non stepPE (p + b.length) x z l₂) (hn : x.length ≤ n)
    (h3 : ReadsSteps u c (p + (b ++ x).length) y l₃) : ReadsSteps u c p (b ++ (x ++ y)) (l₁ ++ (l₂ ++ l₃)) := by
  obtain ⟨o, t, m₁, m₂, rfl, rfl, g1, g2⟩ := h2.inv_restore.inv_seq.inv_cat
  obtain ⟨o, b', m₁, m₃, rfl, rfl, g3, g4⟩ := g1.inv_cat
  obtain ⟨q, rfl, hq⟩ := deriv_Infix L g3
  have hox : o ≠ [] := by
    rcases hq with ⟨o, -, rfl⟩ | ⟨-, d, r, rfl, -⟩
    · cases o <;> decide
    · simp
  rcases deriv_skip_inner L h1 (by simp [hox]) with ⟨rfl, hb⟩ | ⟨q, l', rfl, hq, hd⟩
  swap
  · refine readsSteps_dropped (hd.append _) ?_
    intro h t e
    cases e
    rw [hq]
    rfl
  rcases hq with ⟨o, ho, rfl⟩ | ⟨hq, d, r, rfl, hd⟩
  swap
  · refine readsSteps_dropped ⟨b, d, r ++ b' ++ t ++ y, by simp, hb, hd⟩ ?_
    intro h t e
    cases e
    exact hq
  simp only [List.length_append] at hn
  obtain ⟨q', rfl, hq', ht⟩ := reads_term L ih g2 (by omega)
  rcases deriv_skip L g4 with ⟨rfl, hb'⟩ | ⟨q₂, l', rfl, hq₂, hd⟩
  swap
  · refine ⟨[(q, q₂)], l' ++ (q' :: l₃), b ++ (o.text ++ b' ++ t ++ y), [], by simp [pairSteps], by simp, ?_, .inl rfl, ?_, ?_⟩
    · intro h t e
      cases l' with
      | nil => cases e; rw [hq']; rfl
      | cons h' l' =>
        cases e
        have := skip_quiet L g4 h (by simp)
        rw [this]; rfl
    · intro k hk
      rw [List.mem_singleton] at hk
      subst hk
      exact ⟨o, ho⟩
    · intro M hM
      cases hM with
      | cons h _ => simp [operand, hq₂] at h
  obtain ⟨K, tail, s, j, rfl, rfl, k1, k2, k3, k4⟩ := h3
  refine ⟨(q, q') :: K, tail, b ++ (o.text ++ (b' ++ (t ++ s))), j, by simp [pairSteps], by simp, k1, k2, ?_, ?_⟩
  · intro k hk
    rcases List.mem_cons.1 hk with rfl | hk
    · exact ⟨o, ho⟩
    · exact k3 k hk
  · intro M hM
    cases hM with
    | @cons _ m _ M hm hM =>
      obtain ⟨o', v⟩ := m
      obtain ⟨h1, h2⟩ := hm
      obtain rfl := ho.unique h1
      simp only [operand, hq', reduceCtorEq, if_true, if_false] at h2
      have hb'' : Blank u b' := by
        rcases hb' with hb' | ⟨e, -⟩
        · exact hb'
        · exact (g2.ran.not_fails fun v => by rw [e]; exact fails_nil (by decide)).elim
      exact .cons hb hb'' (by simpa [Nat.add_assoc, Nat.add_comm, Nat.add_left_comm] using ht v h2)
        (by simpa [Nat.add_assoc, Nat.add_comm, Nat.add_left_comm] using k4 M hM)

theorem forall2_of_all {α β : Type} {S : α → β → Prop} : ∀ (K : List α), (∀ k ∈ K, ∃ m, S k m) → ∃ M, List.Forall₂ S K M
  | [], _ => ⟨[], .nil⟩
  | k :: K, h => by
    obtain ⟨m, hm⟩ := h k (by simp)
    obtain ⟨M, hM⟩ := forall2_of_all K fun k hk => h k (by simp [hk])
    exact ⟨m :: M, .cons hm hM⟩

theorem evalTree_leaves {ι ω α : Type} {val : ι → Option α} {infx : α → ω → α → Option α} :
    ∀ (t : OpTree ι ω) {v : α}, evalTree val infx t = some v →
      (∃ b, val t.steps.1 = some b) ∧ ∀ s ∈ t.steps.2, ∃ b, val s.2 = some b
  | .leaf x, v, h => ⟨⟨v, h⟩, by simp [OpTree.steps]⟩
  | .node l o r, v, h => by
    simp only [evalTree] at h
    split at h
    · rename_i h1 h2
      obtain ⟨k1, k2⟩ := evalTree_leaves l h1
      obtain ⟨k3, k4⟩ := evalTree_leaves r h2
      refine ⟨k1, fun s hs => ?_⟩
      simp only [OpTree.steps, List.mem_append, List.mem_cons] at hs
      rcases hs with hs | rfl | hs
      · exact k2 s hs
      · exact k3
      · exact k4 s hs
    · cases h

theorem index_low_sym : Sym.ofStr c!"std::core::index" = ⟨[c!"std", c!"core"], c!"index", .normal, 0⟩ := by decide

theorem infixCall_op {q : Pair R} {o : Op} (h : IsOp q o) (pos : Position) (a b : AST) :
    infixCall pos a q b = Op.applyAt pos a o b := by
  obtain ⟨h1, h2⟩ := h
  rw [infixCall, h1, h2]
  cases o with
  | dot =>
    simp only [Op.rule, if_true, Op.applyAt]
    rw [dotCall.eq_def, index_low_sym]
    cases b with
    | function f l => cases l with
      | nil => rfl
      | cons r l => cases r; rfl
    | _ => rfl
  | _ => rfl

/-- The operators and operands of an expression, as the climber combines them. -/
theorem build_steps {i j : Nat} {t : Str} {x : Pair R} {K : List (Pair R × Pair R)} {tail : List (Pair R)}
    (ht : ∀ h l, tail = h :: l → opTable h.rule = none) (hK : ∀ k ∈ K, ∃ o, IsOp k.1 o) {v : AST} {r : R}
    (hv : buildExpr c (.mk r i j t (x :: (pairSteps K ++ tail))) = some v) :
    ∃ (b : AST) (M : List (Op × AST)), operand c x = some b ∧
      List.Forall₂ (fun k m => IsOp k.1 m.1 ∧ operand c k.2 = some m.2) K M ∧
      evalTree some (Op.applyAt (c.position i j)) (group b M) = some v := by
  let it : Pair R → Item AST := fun p => (p, operand c p)
  let LI : List (Step AST) := K.map fun s => (it s.1, it s.2)
  have hitems : exprItems c (x :: (pairSteps K ++ tail)) = it x :: stepItems LI ++ tail.map it := by
    rw [exprItems_eq]
    simp only [List.cons_append, List.map_cons, List.map_append, it, LI, stepItems, pairSteps,
      List.map_flatMap, List.flatMap_map]
    rfl
  have hKn : Known LI := by
    intro s hs
    simp only [LI, List.mem_map] at hs
    obtain ⟨s', hs', rfl⟩ := hs
    obtain ⟨o, ho⟩ := hK s' hs'
    show ∃ p, opTable s'.1.rule = some p
    rw [ho.1]
    cases o <;> exact ⟨_, rfl⟩
  have hS : Stops (tail.map it) := by
    intro h l e
    cases tail with
    | nil => cases e
    | cons p tail => cases e; exact ht p tail rfl
  obtain ⟨t', g, hst, hev⟩ := climb_eq_eval (infixCall (c.position i j)) (it x) LI (tail.map it) hKn hS
  rw [buildExpr, hitems, hev] at hv
  obtain ⟨⟨b, hb⟩, hl⟩ := evalTree_leaves t' hv
  rw [hst] at hb hl
  obtain ⟨M, hM⟩ := forall2_of_all (S := fun (k : Pair R × Pair R) (m : Op × AST) => IsOp k.1 m.1 ∧ operand c k.2 = some m.2) K (by
    intro k hk
    obtain ⟨o, ho⟩ := hK k hk
    obtain ⟨b', hb'⟩ := hl (k.1, it k.2) (by
      simp only [opSteps, LI, List.map_map, List.mem_map]
      exact ⟨k, hk, rfl⟩)
    exact ⟨(o, b'), ho, hb'⟩)
  refine ⟨b, M, hb, hM, ?_⟩
  obtain ⟨t₂, hrel, hsteps⟩ := tree_transport (A := fun (i : Item AST) (d : AST) => i.2 = some d)
    (B := IsOp) t' b M (by rw [hst]; exact hb) (by
      rw [hst]
      simp only [opSteps, LI, List.map_map]
      refine List.forall₂_map_left_iff.2 ?_
      exact hM.imp fun s m h => h)
  have hp : Proper t₂ := by
    refine proper_of_table _ (hrel.grouped ?_ g)
    intro o o' ho
    show opTable o.rule = _
    rw [ho.1]
  have := group_of_proper hp
  rw [hsteps] at this
  rw [← this, ← hrel.eval (val := Prod.snd) (infx := infixCall (c.position i j)) id
    (by intro x y h; simpa using h) (by intro a b o o' h; simpa using infixCall_op h _ a b), hv]
  rfl

theorem reads_expr {l' : Pair R} (L : Lawful u) (ih : Under u c n) (h : Deriv grammar u a (.call .expr) p w z [l']) (hn : w.length ≤ n)
    {v : AST} (hv : buildExpr c l' = some v) : RExpr u c.position p w v := by
  have h := h.inv_call
  simp only [grammar, body_expr] at h
  obtain ⟨m, e, hm⟩ := h.inv_atomic.inv_rule (by decide)
  cases e
  obtain ⟨x, y, m₁, m₂, rfl, rfl, h1, h2⟩ := hm.inv_seq.inv_cat
  obtain ⟨x, b, m₁, m₃, rfl, rfl, h3, h4⟩ := h1.inv_cat
  simp only [List.length_append] at hn
  obtain ⟨q, rfl, hq, ht⟩ := reads_term L ih h3 (by omega)
  have key : ∃ (K : List (Pair R × Pair R)) (tail : List (Pair R)) (s j : Str), m₃ ++ m₂ = pairSteps K ++ tail ∧
      b ++ y = s ++ j ∧ (∀ h t, tail = h :: t → opTable h.rule = none) ∧ Tail u s j ∧ (∀ k ∈ K, ∃ o, IsOp k.1 o) ∧
      ∀ M : List (Op × AST), List.Forall₂ (fun k m => IsOp k.1 m.1 ∧ operand c k.2 = some m.2) K M →
        RSteps u c.position (p + x.length) s M := by
    rcases h2.inv_seq.inv_opt with ⟨rfl, rfl, -⟩ | h2
    · refine ⟨[], m₃, [], b, by simp [pairSteps], by simp, ?_, ?_, by simp, ?_⟩
      · intro h t e
        rw [skip_quiet L h4 h (by simp [e])]
        rfl
      · rcases deriv_skip L h4 with ⟨-, h | ⟨-, h⟩⟩ | ⟨_, _, -, -, h⟩
        · exact .inr (.inr ⟨rfl, .inl h⟩)
        · exact .inr (.inr ⟨rfl, .inr h⟩)
        · exact .inr (.inl h)
      · intro M hM
        cases hM
        exact .nil
    · obtain ⟨y₁, y₂, k₁, k₂, rfl, rfl, g1, g2⟩ := h2.inv_cat
      simp only [List.length_append] at hn
      have rest := g2.inv_rep (P := fun p w _ l => w.length ≤ n → ReadsSteps u c p w l)
        (fun _ _ _ _ => readsSteps_nil) (by
          intro q w₁ w₂ z l₁ l₂ h ih' hn
          obtain ⟨x₁, x₂, o₁, o₂, rfl, rfl, f1, f2⟩ := h.inv_seq.inv_cat
          simp only [List.length_append] at hn
          have := readsSteps_cons L ih f1 f2 (by omega) (ih' (by omega))
          simpa using this) (by omega)
      have := readsSteps_cons L ih (by simpa using h4) (by simpa [Nat.add_assoc] using g1) (by omega)
        (by simpa [Nat.add_assoc] using rest)
      obtain ⟨K, tail, s, j, k1, k2, k3, k4, k5, k6⟩ := this
      refine ⟨K, tail, s, j, k1, k2, k3, ?_, k5, k6⟩
      rcases k4 with k4 | k4
      · exact .inl k4
      · exact .inr (.inl k4)
  obtain ⟨K, tail, s, j, k1, k2, k3, k4, k5, k6⟩ := key
  rw [List.append_assoc [q], k1, List.singleton_append] at hv
  obtain ⟨b', M, hb, hM, hev⟩ := build_steps k3 k5 hv
  rw [operand, if_neg (by simp [hq]), if_pos hq] at hb
  rw [List.append_assoc, k2] at hev ⊢
  exact .mk (ht b' hb) (k6 M hM) k4 hev

/-- Every derivation of an expression that the builder accepts is a reading. -/
theorem under_all (L : Lawful u) (c : Cfg) : ∀ n, Under u c n
  | 0 => fun _ _ _ _ _ _ h => absurd h (by omega)
  | n + 1 => fun _ _ _ _ _ _ h hd hv => reads_expr L (under_all L c n) hd (by omega) hv

end SM.Props
