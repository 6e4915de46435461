import Verif.Props.ReadsSep
/-
What derivations say about operands: brackets, lists, calls and indices, given what they say about shorter
expressions.
-/
namespace SM.Props
open SM SM.Peg

variable {u : Uni} {a : Atomicity} {p n : Nat} {w z : Str} {l : List (Pair R)} {c : Cfg}

theorem single_expr (h : Deriv grammar u a (.call .expr) p w z l) : ∃ m, l = [.mk .expr p (p + w.length) w m] := by
  have h := h.inv_call
  simp only [grammar, body_expr] at h
  obtain ⟨m, rfl, -⟩ := h.inv_atomic.inv_rule (by decide)
  exact ⟨m, rfl⟩

theorem lone_expr (h : Deriv grammar u a (.call .expr) p w z l) : ∃ q, l = [q] ∧ q.rule = .expr := by
  obtain ⟨m, rfl⟩ := single_expr h
  exact ⟨_, rfl, rfl⟩

theorem single_kv : Single u .apply_kv := by
  intro p w z l h
  have h := h.inv_call
  simp only [grammar, body_apply_kv] at h
  obtain ⟨m, rfl, -⟩ := h.inv_rule (by decide)
  exact ⟨m, rfl⟩

theorem single_index : Single u .index := by
  intro p w z l h
  have h := h.inv_call
  simp only [grammar, body_index] at h
  obtain ⟨m, rfl, -⟩ := h.inv_rule (by decide)
  exact ⟨m, rfl⟩

/-- Expressions of less than `n` characters are read as they should be. -/
def Under (u : Uni) (c : Cfg) (n : Nat) : Prop :=
  ∀ (a : Atomicity) (p : Nat) (w z : Str) (q : Pair R) (v : AST), w.length < n →
    Deriv grammar u a (.call .expr) p w z [q] → buildExpr c q = some v → RExpr u c.position p w v

/-! ### Lists -/

theorem reads_items (ih : Under u c n) {i : Nat} {s : Str} {d : List (Pair R)} (h : Commas u (ItemAt u .expr) i s d) :
    s.length < n → ∀ v, listItems c d = some v → RItems u c.position i s v := by
  induction h with
  | nil h =>
    intro _ v hv
    cases hv
    exact .nil h
  | trail h h' =>
    intro _ v hv
    cases hv
    exact .trail h h'
  | cons h h' hq _ ihs =>
    intro hl v hv
    obtain ⟨z, -, hd⟩ := hq
    obtain ⟨m, e⟩ := single_expr hd
    cases e
    simp only [List.length_append] at hl
    simp only [listItems, Pair.rule, reduceCtorEq, ↓reduceIte] at hv
    split at hv
    · rename_i h1 h2
      cases hv
      exact .cons h h' (ih _ _ _ _ _ _ (by omega) hd h1) (ihs (by omega) _ h2)
    · cases hv

theorem list_sym : Sym.ofStr c!"std::containers::List" = ⟨[c!"std", c!"containers"], c!"List", .normal, 0⟩ := by decide

theorem reads_list (L : Lawful u) (ih : Under u c n) (h : Deriv grammar u a (.call .list) p w z l) (hn : w.length ≤ n) :
    ∃ m, l = [.mk .list p (p + w.length) w m] ∧ ∀ v, buildList c (.mk .list p (p + w.length) w m) = some v →
      RNode u c.position p w v := by
  have h := h.inv_call
  simp only [grammar, body_list] at h
  obtain ⟨m, rfl, hm⟩ := h.inv_atomic.inv_rule (by decide)
  refine ⟨m, rfl, fun v hv => ?_⟩
  rw [buildList] at hv
  split at hv
  swap
  · cases hv
  rename_i v' hv'
  cases hv
  obtain ⟨x, y, m₁, m₂, rfl, rfl, g1, h2⟩ := hm.inv_seq.inv_cat
  obtain ⟨x, b, m₁, m₁', rfl, rfl, g2, h4⟩ := g1.inv_cat
  obtain ⟨rfl, rfl⟩ := g2.inv_str
  have good := listItems_good c _ hv'
  rcases h2.inv_alt with h2 | ⟨-, h2⟩
  · obtain ⟨rfl, rfl⟩ := h2.inv_str
    rcases skip_or_bad L h4 (by simp) with ⟨rfl, hb⟩ | hb
    · cases hv'
      have := RNode.nil (u := u) (P := c.position) (i := p) hb
      exact this
    · exact absurd hb (by simpa using good)
  · obtain ⟨y, k, m₂, m₆, rfl, rfl, g0, h5⟩ := h2.inv_restore.inv_seq.inv_cat
    obtain ⟨y, b₃, m₂, m₅, rfl, rfl, g3, h6⟩ := g0.inv_cat
    obtain ⟨y, o, m₂, m₄, rfl, rfl, g4, h7⟩ := g3.inv_cat
    obtain ⟨y, b₂, m₂, m₃, rfl, rfl, g5, h8⟩ := g4.inv_cat
    obtain ⟨y, r, m₂, m₇, rfl, rfl, g6, h9⟩ := g5.inv_cat
    obtain ⟨y, b₁, m₂, m₈, rfl, rfl, g7, h10⟩ := g6.inv_cat
    obtain ⟨rfl, rfl⟩ := h5.inv_str
    obtain ⟨q, rfl, hq⟩ := lone_expr g7
    rcases skip_or_bad L h4 (by simp) with ⟨rfl, hb⟩ | hb
    swap
    · exact absurd hb fun hb => good (by simp only [bad_append, hb, true_or, or_true])
    have hz : c!"]" ++ z ≠ [] := by simp
    rcases deriv_commas (p := p + (c!"[" ++ b).length + y.length) L (fun _ _ _ _ h => single_expr h) (by decide) h10
      (by simpa [Nat.add_assoc, Nat.add_comm, Nat.add_left_comm] using h9) h8 h7 h6 hz with bad | good'
    · simp only [List.append_assoc, List.nil_append, List.append_nil] at good
      exact absurd (bad_append.2 (.inr bad)) good
    · simp only [List.append_assoc, List.nil_append, List.append_nil, List.cons_append] at hv'
      simp only [List.length_append, List.length_cons, List.length_nil] at hn
      rw [listItems, if_neg (by simp [hq]), if_pos hq] at hv'
      split at hv'
      swap
      · cases hv'
      rename_i a' v' ha' hv''
      cases hv'
      rw [listItems_sieve] at hv''
      have := RNode.list (u := u) (P := c.position) (i := p) hb (ih _ _ _ _ _ _ (by omega) g7 ha')
        (reads_items ih (by simpa [Nat.add_assoc, Nat.add_comm, Nat.add_left_comm] using good') (by simp only [List.length_append]; omega) _ hv'')
      rw [list_sym]
      simpa [callAt] using this

/-! ### Calls -/

theorem kvLoop_bad {q : Pair R} (hq : q.rule = .MultiLineComment) (l : List (Pair R)) (k v : AST) :
    kvLoop c (q :: l) k v = none := by
  simp [kvLoop, hq]

theorem kvLoop_colon {q : Pair R} (hq : q.rule = .Colon) (l : List (Pair R)) (k v : AST) :
    kvLoop c (q :: l) k v = kvLoop c l k v := by
  simp [kvLoop, hq]

theorem kvLoop_name {q : Pair R} (hq : q.rule = .SYMBOL) (l : List (Pair R)) (k v : AST) :
    kvLoop c (q :: l) k v = kvLoop c l (.mkSymbol q.text) v := by
  simp [kvLoop, hq]

theorem reads_kv (L : Lawful u) (ih : Under u c n) {q : Pair R} (h : Deriv grammar u .non (.call .apply_kv) p w z [q])
    (hz : z ≠ []) (hn : w.length < n) {d : AST × AST} (hd : buildKv c q = some d) : RArg u c.position p w d := by
  have h := h.inv_call
  simp only [grammar, body_apply_kv] at h
  obtain ⟨m, e, hm⟩ := h.inv_rule (by decide)
  cases e
  rw [buildKv] at hd
  rcases hm.inv_alt with h | ⟨-, h⟩
  · obtain ⟨x, y, m₁, m₂, rfl, rfl, g0, h2⟩ := h.inv_restore.inv_seq.inv_cat
    obtain ⟨x, b', m₁, m₃, rfl, rfl, g8, h3⟩ := g0.inv_cat
    obtain ⟨x, k, m₁, m₄, rfl, rfl, g9, h4⟩ := g8.inv_cat
    obtain ⟨x, b, m₁, m₅, rfl, rfl, g10, h5⟩ := g9.inv_cat
    obtain ⟨hx, -, rfl⟩ := deriv_SYMBOL (by decide) g10
    obtain ⟨k, rfl, m, rfl⟩ := deriv_Colon (by decide) h4
    obtain ⟨e, rfl, he⟩ := lone_expr h2
    simp only [List.append_assoc, List.cons_append, List.nil_append] at hd
    rw [kvLoop_name rfl] at hd
    rcases deriv_skip_inner L h5 (by simp [hz]) with ⟨rfl, hb⟩ | ⟨q, l', rfl, hq, -⟩
    swap
    · rw [List.cons_append, kvLoop_bad hq] at hd
      cases hd
    rw [List.nil_append, kvLoop_colon rfl] at hd
    rcases deriv_skip_inner L h3 (by simp [hz]) with ⟨rfl, hb'⟩ | ⟨q, l', rfl, hq, -⟩
    swap
    · rw [List.cons_append, kvLoop_bad hq] at hd
      cases hd
    simp only [List.nil_append, kvLoop, he, Pair.text, reduceCtorEq, ↓reduceIte] at hd
    split at hd
    swap
    · cases hd
    rename_i v hv
    cases hd
    simp only [List.length_append] at hn
    have := RArg.named (u := u) (P := c.position) (b := k) (i := p) hx hb hb' (by
      simpa using ih _ _ _ _ _ _ (by omega) h2 hv)
    simpa using this
  · have h := h.inv_restore
    obtain ⟨m', rfl⟩ := single_expr h
    simp only [kvLoop, Pair.rule, reduceCtorEq, ↓reduceIte] at hd
    split at hd
    swap
    · cases hd
    rename_i v hv
    cases hd
    exact .pos (ih _ _ _ _ _ _ hn h hv)

theorem positional_cons (d : AST × AST) (l : List (AST × AST)) :
    positional (d :: l) = (match d.1 with | .empty => [d.2] | _ => []) ++ positional l := by
  obtain ⟨k, v⟩ := d
  cases k <;> rfl

theorem optionsFrom_cons (d : AST × AST) (l : List (AST × AST)) (m : BMap AST AST) :
    optionsFrom (d :: l) m = optionsFrom l (match d.1 with | .empty => m | k => BMap.insert astCmp k d.2 m) := by
  obtain ⟨k, v⟩ := d
  cases k <;> rfl

theorem applyArgs_cons {q : Pair R} (hq : q.rule = .apply_kv) {l : List (Pair R)} {x : List AST} {k : BMap AST AST}
    {v : List AST × BMap AST AST} (h : applyArgs c (q :: l) x k = some v) :
    ∃ d, buildKv c q = some d ∧ applyArgs c l (x ++ match d.1 with | .empty => [d.2] | _ => [])
      (match d.1 with | .empty => k | k' => BMap.insert astCmp k' d.2 k) = some v := by
  rw [applyArgs, if_neg (by simp [hq]), if_neg (by simp [hq]), if_pos hq] at h
  split at h
  · cases h
  · rename_i h'
    exact ⟨_, h', h⟩
  · rename_i k' v' hne h'
    refine ⟨_, h', ?_⟩
    cases k' <;> first | exact absurd rfl hne | simpa using h

theorem reads_more (L : Lawful u) (ih : Under u c n) {i : Nat} {s : Str} {d : List (Pair R)}
    (h : Commas u (ItemAt u .apply_kv) i s d) :
    s.length < n → ∀ x k v, applyArgs c d x k = some v → ∃ m, RMoreArgs u c.position i s m ∧
      v = (x ++ positional m, optionsFrom m k) := by
  induction h with
  | nil h =>
    intro _ x k v hv
    cases hv
    exact ⟨[], .nil h, by simp [positional, optionsFrom]⟩
  | trail h h' =>
    intro _ x k v hv
    cases hv
    exact ⟨[], .trail h h', by simp [positional, optionsFrom]⟩
  | cons h h' hq _ ihs =>
    intro hl x k v hv
    obtain ⟨z, hz, hd⟩ := hq
    obtain ⟨m, e⟩ := single_kv _ _ _ _ hd
    obtain ⟨d, h1, h2⟩ := applyArgs_cons (by cases e; rfl) hv
    simp only [List.length_append] at hl
    obtain ⟨m, hm, rfl⟩ := ihs (by omega) _ _ _ h2
    refine ⟨d :: m, .cons h h' (reads_kv L ih hd hz (by omega) h1) hm, ?_⟩
    rw [positional_cons, optionsFrom_cons, List.append_assoc]

theorem reads_apply (L : Lawful u) (ih : Under u c n) (h : Deriv grammar u a (.call .apply) p w z l) (hn : w.length ≤ n) :
    ∃ m, l = [.mk .apply p (p + w.length) w m] ∧ ∀ q, buildApply c (.mk .apply p (p + w.length) w m) = some q →
      ∀ i h t ps, p = i + h.length → (∀ c ∈ h, HWs u c) → RArgs u c.position (p + w.length) t ps →
        RArgs u c.position i (h ++ (w ++ t)) (q :: ps) := by
  have h := h.inv_call
  simp only [grammar, body_apply] at h
  obtain ⟨m, rfl, hm⟩ := h.inv_atomic.inv_rule (by decide)
  refine ⟨m, rfl, fun q hq i s t ps hp hs ht => ?_⟩
  subst hp
  rw [buildApply] at hq
  split at hq
  swap
  · cases hq
  rename_i x' k' hv
  cases hq
  obtain ⟨y, k, m₂, m₆, rfl, rfl, g11, h5⟩ := hm.inv_seq.inv_cat
  obtain ⟨y, b₃, m₂, m₅, rfl, rfl, g12, h6⟩ := g11.inv_cat
  obtain ⟨y, o, m₂, m₄, rfl, rfl, g13, h7⟩ := g12.inv_cat
  obtain ⟨y, b₂, m₂, m₃, rfl, rfl, g14, h8⟩ := g13.inv_cat
  obtain ⟨y, r, m₂, m₇, rfl, rfl, g15, h9⟩ := g14.inv_cat
  obtain ⟨y, b₁, m₂, m₈, rfl, rfl, g16, h10⟩ := g15.inv_cat
  obtain ⟨y, x, m₂, m₉, rfl, rfl, g17, h11⟩ := g16.inv_cat
  obtain ⟨y, b, m₂, m₁, rfl, rfl, g18, h12⟩ := g17.inv_cat
  obtain ⟨rfl, rfl⟩ := h5.inv_str
  obtain ⟨rfl, rfl⟩ := g18.inv_str
  have good := applyArgs_good c _ hv
  have hz : c!")" ++ z ≠ [] := by simp
  rcases skip_or_bad L h12 (by simp) with ⟨rfl, hb⟩ | hb
  swap
  · exact absurd hb fun hb => good (by simp only [bad_append, hb, true_or, or_true])
  rcases deriv_commas (p := i + s.length + (c!"(" ++ b ++ x).length) L single_kv (by decide) h10
      (by simpa [Nat.add_assoc, Nat.add_comm, Nat.add_left_comm] using h9) h8 h7 h6 hz with bad | good'
  · simp only [List.append_assoc, List.nil_append, List.append_nil] at good
    exact absurd (bad_append.2 (.inr bad)) good
  simp only [List.append_assoc, List.nil_append, List.append_nil] at hv
  simp only [List.length_append, List.length_cons, List.length_nil] at hn
  rcases h11.inv_opt with ⟨rfl, rfl, -⟩ | h11
  · rw [List.nil_append, applyArgs_sieve] at hv
    obtain ⟨m, hm, e⟩ := reads_more L ih good' (by simp only [List.length_append]; omega) _ _ _ hv
    simp only [Prod.mk.injEq, List.nil_append] at e
    obtain ⟨rfl, rfl⟩ := e
    have := RArgs.none (u := u) (P := c.position) (i := i) (t := t) (ps := ps) hs hb (by simpa [Nat.add_assoc, Nat.add_comm, Nat.add_left_comm] using hm)
      (by simpa [Nat.add_assoc, Nat.add_comm, Nat.add_left_comm] using ht)
    simpa [Nat.add_assoc, Nat.add_comm, Nat.add_left_comm] using this
  · have h11 := h11.inv_restore
    obtain ⟨m, rfl⟩ := single_kv _ _ _ _ h11
    obtain ⟨d, h1, h2⟩ := applyArgs_cons (by rfl) hv
    rw [applyArgs_sieve] at h2
    obtain ⟨m, hm, e⟩ := reads_more L ih good' (by simp only [List.length_append]; omega) _ _ _ h2
    have hd := reads_kv L ih h11 (by simp) (by omega) h1
    have := RArgs.some (u := u) (P := c.position) (i := i) (t := t) (ps := ps) hs hb (by simpa [Nat.add_assoc, Nat.add_comm, Nat.add_left_comm] using hd)
      (by simpa [Nat.add_assoc, Nat.add_comm, Nat.add_left_comm] using hm) (by simpa [Nat.add_assoc, Nat.add_comm, Nat.add_left_comm] using ht)
    rw [List.nil_append] at e
    rw [positional_cons, optionsFrom_cons] at this
    simp only [Prod.mk.injEq] at e
    obtain ⟨rfl, rfl⟩ := e
    simpa [Nat.add_assoc, Nat.add_comm, Nat.add_left_comm] using this

/-- White space and an argument list. -/
abbrev applyPE : PE R := .seq (.cat hspace (.call .apply))

theorem reads_applyPE (L : Lawful u) (ih : Under u c n) (h : Deriv grammar u a applyPE p w z l) (hn : w.length ≤ n) :
    ∃ q, l = [q] ∧ q.rule = .apply ∧ ∀ r, buildApply c q = some r → ∀ t ps, RArgs u c.position (p + w.length) t ps →
        RArgs u c.position p (w ++ t) (r :: ps) := by
  obtain ⟨x, y, m₁, m₂, rfl, rfl, g19, h2⟩ := h.inv_seq.inv_cat
  obtain ⟨rfl, hx⟩ := deriv_hspace L g19
  simp only [List.length_append] at hn
  obtain ⟨m, rfl, hm⟩ := reads_apply L ih h2 (by omega)
  refine ⟨_, rfl, rfl, fun r hr t ps ht => ?_⟩
  rw [List.append_assoc]
  exact hm r hr p x t ps rfl hx (by simpa [Nat.add_assoc, Nat.add_comm, Nat.add_left_comm] using ht)

theorem reads_apply_call (L : Lawful u) (ih : Under u c n) (h : Deriv grammar u a (.call .apply_call) p w z l)
    (hn : w.length ≤ n) :
    ∃ m, l = [.mk .apply_call p (p + w.length) w m] ∧
      ∀ v, buildApplyCall c (.mk .apply_call p (p + w.length) w m) = some v → RNode u c.position p w v := by
  have h := h.inv_call
  simp only [grammar, body_apply_call] at h
  obtain ⟨m, rfl, hm⟩ := h.inv_atomic.inv_rule (by decide)
  refine ⟨m, rfl, fun v hv => ?_⟩
  obtain ⟨x, y, m₁, m₂, rfl, rfl, g20, h2⟩ := hm.inv_seq.inv_cat
  obtain ⟨x, x', m₁, m₁', rfl, rfl, g21, h3⟩ := g20.inv_cat
  obtain ⟨k, hk, rfl, -, m, rfl⟩ := deriv_Symbol (by decide) g21
  simp only [List.length_append] at hn
  obtain ⟨q, rfl, hq, hr⟩ := reads_applyPE L ih h3 (by omega)
  have key := h2.inv_rep (P := fun p w _ l => w.length ≤ n → ∀ ps, applyLists c l = some ps →
      RArgs u c.position p w ps) ?_ ?_ (by omega)
  · simp only [List.append_assoc, List.cons_append, List.nil_append] at hv
    rw [buildApplyCall.eq_def] at hv
    simp only [applyLists, hq, if_true, Pair.text] at hv
    split at hv
    swap
    · cases hv
    rename_i ps hps
    cases hv
    split at hps
    swap
    · cases hps
    rename_i r rs h1 h2
    cases hps
    have := RNode.call (u := u) (P := c.position) (i := p) hk (hr r h1 _ _ (by simpa [Nat.add_assoc, Nat.add_comm, Nat.add_left_comm] using key _ h2))
    simpa using this
  · intro q z _ _ ps hps
    cases hps
    exact .nil
  · intro q w₁ w₂ z l₁ l₂ h ih' hn ps hps
    simp only [List.length_append] at hn
    obtain ⟨q, rfl, hq, hr⟩ := reads_applyPE L ih h.inv_restore (by omega)
    simp only [List.singleton_append, applyLists, hq, if_true] at hps
    split at hps
    swap
    · cases hps
    rename_i r rs h1 h2
    cases hps
    exact hr r h1 _ _ (ih' (by omega) _ h2)

/-! ### Indices -/

/-- A part of a span. -/
theorem reads_part (ih : Under u c n) {S : R} (hS : grammar S = .rule S (.call .expr))
    (h : Deriv grammar u .non (.opt (.restore (.call S))) p w z l) (hn : w.length < n) :
    (l = [] ∧ RPart u c.position p w none) ∨
      ∃ q, l = [q] ∧ q.rule = S ∧ ∀ v, buildFirst c q = some v → RPart u c.position p w (some v) := by
  rcases h.inv_opt with ⟨rfl, rfl, -⟩ | h
  · exact .inl ⟨rfl, .none⟩
  · have h := h.inv_restore.inv_call
    rw [hS] at h
    obtain ⟨m, rfl, hm⟩ := h.inv_rule (by decide)
    obtain ⟨m', rfl⟩ := single_expr hm
    refine .inr ⟨_, rfl, rfl, fun v hv => ?_⟩
    rw [buildFirst] at hv
    exact .some (ih _ _ _ _ _ _ hn hm hv)

theorem indexLoop_bad {q : Pair R} (hq : q.rule = .MultiLineComment) (pos : Position) (l : List (Pair R)) (x y z : AST) :
    indexLoop c pos (q :: l) x y z = none := by
  simp [indexLoop, hq]

theorem indexLoop_colon {q : Pair R} (hq : q.rule = .Colon) (pos : Position) (l : List (Pair R)) (x y z : AST) :
    indexLoop c pos (q :: l) x y z = indexLoop c pos l x y z := by
  simp [indexLoop, hq]

theorem indexLoop_start {q : Pair R} (hq : q.rule = .Start) {pos : Position} {l : List (Pair R)} {x y z v : AST}
    (h : indexLoop c pos (q :: l) x y z = some v) : ∃ d, buildFirst c q = some d ∧ indexLoop c pos l d y z = some v := by
  simp only [indexLoop, hq, reduceCtorEq, if_true, if_false] at h
  split at h
  · exact ⟨_, by assumption, h⟩
  · cases h

theorem indexLoop_end {q : Pair R} (hq : q.rule = .End) {pos : Position} {l : List (Pair R)} {x y z v : AST}
    (h : indexLoop c pos (q :: l) x y z = some v) : ∃ d, buildFirst c q = some d ∧ indexLoop c pos l x d z = some v := by
  simp only [indexLoop, hq, reduceCtorEq, if_true, if_false] at h
  split at h
  · exact ⟨_, by assumption, h⟩
  · cases h

theorem indexLoop_step {q : Pair R} (hq : q.rule = .Step) {pos : Position} {l : List (Pair R)} {x y z v : AST}
    (h : indexLoop c pos (q :: l) x y z = some v) : ∃ d, buildFirst c q = some d ∧ indexLoop c pos l x y d = some v := by
  simp only [indexLoop, hq, reduceCtorEq, if_true, if_false] at h
  split at h
  · exact ⟨_, by assumption, h⟩
  · cases h

theorem loop_start (ih : Under u c n) (h : Deriv grammar u .non (.opt (.restore (.call .Start))) p w z l) (hn : w.length < n)
    {pos : Position} {l' : List (Pair R)} {y' z' v : AST}
    (hv : indexLoop c pos (l ++ l') (.integer 1) y' z' = some v) :
    ∃ d : Option AST, RPart u c.position p w d ∧ indexLoop c pos l' (d.getD (.integer 1)) y' z' = some v := by
  rcases reads_part ih rfl h hn with ⟨rfl, hd⟩ | ⟨q, rfl, hq, hd⟩
  · exact ⟨none, hd, hv⟩
  · obtain ⟨d, h1, h2⟩ := indexLoop_start hq hv
    exact ⟨some d, hd d h1, h2⟩

theorem loop_end (ih : Under u c n) (h : Deriv grammar u .non (.opt (.restore (.call .End))) p w z l) (hn : w.length < n)
    {pos : Position} {l' : List (Pair R)} {x' z' v : AST}
    (hv : indexLoop c pos (l ++ l') x' (.mkSymbol c!"std::core::All") z' = some v) :
    ∃ d : Option AST, RPart u c.position p w d ∧
      indexLoop c pos l' x' (d.getD (.mkSymbol c!"std::core::All")) z' = some v := by
  rcases reads_part ih rfl h hn with ⟨rfl, hd⟩ | ⟨q, rfl, hq, hd⟩
  · exact ⟨none, hd, hv⟩
  · obtain ⟨d, h1, h2⟩ := indexLoop_end hq hv
    exact ⟨some d, hd d h1, h2⟩

theorem loop_step (ih : Under u c n) (h : Deriv grammar u .non (.opt (.restore (.call .Step))) p w z l) (hn : w.length < n)
    {pos : Position} {l' : List (Pair R)} {x' y' v : AST}
    (hv : indexLoop c pos (l ++ l') x' y' (.integer 1) = some v) :
    ∃ d : Option AST, RPart u c.position p w d ∧ indexLoop c pos l' x' y' (d.getD (.integer 1)) = some v := by
  rcases reads_part ih rfl h hn with ⟨rfl, hd⟩ | ⟨q, rfl, hq, hd⟩
  · exact ⟨none, hd, hv⟩
  · obtain ⟨d, h1, h2⟩ := indexLoop_step hq hv
    exact ⟨some d, hd d h1, h2⟩

theorem loop_skip (L : Lawful u) (h : Deriv grammar u .non (.call .skip) p w z l) (hz : z ≠ []) {pos : Position}
    {l' : List (Pair R)} {x' y' z' v : AST} (hv : indexLoop c pos (l ++ l') x' y' z' = some v) :
    Blank u w ∧ indexLoop c pos l' x' y' z' = some v := by
  rcases deriv_skip_inner L h hz with ⟨rfl, hb⟩ | ⟨q, l', rfl, hq, -⟩
  · exact ⟨hb, hv⟩
  · rw [List.cons_append, indexLoop_bad hq] at hv
    cases hv

theorem loop_colon (h : Deriv grammar u .non (.call .Colon) p w z l) {pos : Position}
    {l' : List (Pair R)} {x' y' z' v : AST} (hv : indexLoop c pos (l ++ l') x' y' z' = some v) :
    (∃ b, w = colonText b) ∧ indexLoop c pos l' x' y' z' = some v := by
  obtain ⟨b, hb, m, rfl⟩ := deriv_Colon (by decide) h
  rw [List.singleton_append, indexLoop_colon rfl] at hv
  exact ⟨⟨b, hb⟩, hv⟩

theorem span_sym : Sym.ofStr c!"std::core::Span" = ⟨[c!"std", c!"core"], c!"Span", .normal, 0⟩ := by decide

theorem reads_index (L : Lawful u) (ih : Under u c n) {q : Pair R} (h : Deriv grammar u .non (.call .index) p w z [q])
    (hz : z ≠ []) (hn : w.length < n) {v : AST} (hv : buildIndex c q = some v) : RIndex u c.position p w v := by
  have h := h.inv_call
  simp only [grammar, body_index] at h
  obtain ⟨m, e, hm⟩ := h.inv_rule (by decide)
  cases e
  rw [buildIndex] at hv
  rcases hm.inv_alt with h | ⟨-, h⟩
  · rcases h.inv_alt with h | ⟨-, h⟩
    · obtain ⟨y, t, m₂, m₉, rfl, rfl, g0, h9⟩ := h.inv_seq.inv_cat
      obtain ⟨y, b₄, m₂, m₈, rfl, rfl, g22, h8⟩ := g0.inv_cat
      obtain ⟨y, k', m₂, m₇, rfl, rfl, g23, h7⟩ := g22.inv_cat
      obtain ⟨y, b₃, m₂, m₆, rfl, rfl, g24, h6⟩ := g23.inv_cat
      obtain ⟨y, r, m₂, m₅, rfl, rfl, g25, h5⟩ := g24.inv_cat
      obtain ⟨y, b₂, m₂, m₄, rfl, rfl, g26, h4⟩ := g25.inv_cat
      obtain ⟨y, k, m₂, m₃, rfl, rfl, g27, h3⟩ := g26.inv_cat
      obtain ⟨y, b₁, m₁, m₂, rfl, rfl, g28, h2⟩ := g27.inv_cat
      simp only [List.length_append] at hn
      rw [← List.append_nil m₉] at hv
      simp only [List.append_assoc] at hv
      obtain ⟨d, hd, hv⟩ := loop_start ih g28 (by omega) hv
      obtain ⟨hb₁, hv⟩ := loop_skip L h2 (by simp [hz]) hv
      obtain ⟨⟨k, rfl⟩, hv⟩ := loop_colon h3 hv
      obtain ⟨hb₂, hv⟩ := loop_skip L h4 (by simp [hz]) hv
      obtain ⟨e, he, hv⟩ := loop_end ih h5 (by omega) hv
      obtain ⟨hb₃, hv⟩ := loop_skip L h6 (by simp [hz]) hv
      obtain ⟨⟨k', rfl⟩, hv⟩ := loop_colon h7 hv
      obtain ⟨hb₄, hv⟩ := loop_skip L h8 (by simp [hz]) hv
      obtain ⟨f, hf, hv⟩ := loop_step ih h9 (by omega) hv
      rw [indexLoop, span_sym] at hv
      cases hv
      have := RIndex.span3 (u := u) (P := c.position) (b := k) (b' := k') hd hb₁ hb₂ (by simpa [Nat.add_assoc, Nat.add_comm, Nat.add_left_comm] using he)
        hb₃ hb₄ (by simpa [Nat.add_assoc, Nat.add_comm, Nat.add_left_comm] using hf)
      simpa [callAt] using this
    · obtain ⟨y, r, m₂, m₅, rfl, rfl, g0, h5⟩ := h.inv_seq.inv_cat
      obtain ⟨y, b₂, m₂, m₄, rfl, rfl, g29, h4⟩ := g0.inv_cat
      obtain ⟨y, k, m₂, m₃, rfl, rfl, g30, h3⟩ := g29.inv_cat
      obtain ⟨y, b₁, m₁, m₂, rfl, rfl, g31, h2⟩ := g30.inv_cat
      simp only [List.length_append] at hn
      rw [← List.append_nil m₅] at hv
      simp only [List.append_assoc] at hv
      obtain ⟨d, hd, hv⟩ := loop_start ih g31 (by omega) hv
      obtain ⟨hb₁, hv⟩ := loop_skip L h2 (by simp [hz]) hv
      obtain ⟨⟨k, rfl⟩, hv⟩ := loop_colon h3 hv
      obtain ⟨hb₂, hv⟩ := loop_skip L h4 (by simp [hz]) hv
      obtain ⟨e, he, hv⟩ := loop_end ih h5 (by omega) hv
      rw [indexLoop, span_sym] at hv
      cases hv
      have := RIndex.span2 (u := u) (P := c.position) (b := k) hd hb₁ hb₂ (by simpa [Nat.add_assoc, Nat.add_comm, Nat.add_left_comm] using he)
      simpa [callAt] using this
  · have h := h.inv_restore
    obtain ⟨m', rfl⟩ := single_expr h
    simp only [indexLoop, Pair.rule, reduceCtorEq, if_true, if_false] at hv
    exact .expr (ih _ _ _ _ _ _ hn h hv)

theorem reads_indices (L : Lawful u) (ih : Under u c n) {i : Nat} {s : Str} {d : List (Pair R)}
    (h : Commas u (ItemAt u .index) i s d) :
    s.length < n → ∀ v, sliceItems c d = some v → RIndices u c.position i s v := by
  induction h with
  | nil h =>
    intro _ v hv
    cases hv
    exact .nil h
  | trail h h' =>
    intro _ v hv
    cases hv
    exact .trail h h'
  | cons h h' hq _ ihs =>
    intro hl v hv
    obtain ⟨z, hz, hd⟩ := hq
    obtain ⟨m, e⟩ := single_index _ _ _ _ hd
    cases e
    simp only [List.length_append] at hl
    simp only [sliceItems, Pair.rule, reduceCtorEq, ↓reduceIte] at hv
    split at hv
    · rename_i h1 h2
      cases hv
      exact .cons h h' (reads_index L ih hd hz (by omega) h1) (ihs (by omega) _ h2)
    · cases hv

theorem reads_slice (L : Lawful u) (ih : Under u c n) (h : Deriv grammar u a (.call .slice) p w z l) (hn : w.length ≤ n) :
    ∃ m, l = [.mk .slice p (p + w.length) w m] ∧ ∀ v, buildSlice c (.mk .slice p (p + w.length) w m) = some v →
      ∃ b x s d k, v = d :: k ∧ w = '[' :: (b ++ (x ++ (s ++ c!"]"))) ∧ Blank u b ∧
        RIndex u c.position (p + ('[' :: b).length) x d ∧
        RIndices u c.position (p + ('[' :: (b ++ x)).length) s k := by
  have h := h.inv_call
  simp only [grammar, body_slice] at h
  obtain ⟨m, rfl, hm⟩ := h.inv_atomic.inv_rule (by decide)
  refine ⟨m, rfl, fun v hv => ?_⟩
  rw [buildSlice] at hv
  obtain ⟨y, k, m₂, m₆, rfl, rfl, g32, h5⟩ := hm.inv_seq.inv_cat
  obtain ⟨y, b₃, m₂, m₅, rfl, rfl, g33, h6⟩ := g32.inv_cat
  obtain ⟨y, o, m₂, m₄, rfl, rfl, g34, h7⟩ := g33.inv_cat
  obtain ⟨y, b₂, m₂, m₃, rfl, rfl, g35, h8⟩ := g34.inv_cat
  obtain ⟨y, r, m₂, m₇, rfl, rfl, g36, h9⟩ := g35.inv_cat
  obtain ⟨y, b₁, m₂, m₈, rfl, rfl, g37, h10⟩ := g36.inv_cat
  obtain ⟨y, x, m₂, m₉, rfl, rfl, g38, h11⟩ := g37.inv_cat
  obtain ⟨y, b, m₂, m₁, rfl, rfl, g39, h12⟩ := g38.inv_cat
  obtain ⟨rfl, rfl⟩ := h5.inv_str
  obtain ⟨rfl, rfl⟩ := g39.inv_str
  have good := sliceItems_good c _ hv
  have hz : c!"]" ++ z ≠ [] := by simp
  rcases skip_or_bad L h12 (by simp) with ⟨rfl, hb⟩ | hb
  swap
  · exact absurd hb fun hb => good (by simp only [bad_append, hb, true_or, or_true])
  rcases deriv_commas (p := p + (c!"[" ++ b ++ x).length) L single_index (by decide) h10
      (by simpa [Nat.add_assoc, Nat.add_comm, Nat.add_left_comm] using h9) h8 h7 h6 hz with bad | good'
  · simp only [List.append_assoc, List.nil_append, List.append_nil] at good
    exact absurd (bad_append.2 (.inr bad)) good
  simp only [List.append_assoc, List.nil_append, List.append_nil] at hv
  simp only [List.length_append, List.length_cons, List.length_nil] at hn
  obtain ⟨m, rfl⟩ := single_index _ _ _ _ h11
  simp only [List.singleton_append, sliceItems, Pair.rule, reduceCtorEq, ↓reduceIte] at hv
  split at hv
  swap
  · cases hv
  rename_i d k h1 h2
  cases hv
  rw [sliceItems_sieve] at h2
  have hd := reads_index L ih h11 (by simp) (by omega) h1
  have hk := reads_indices L ih good' (by simp only [List.length_append]; omega) _ h2
  exact ⟨b, x, b₁ ++ (r ++ (b₂ ++ (o ++ b₃))), d, k, rfl, by simp, hb, by simpa [Nat.add_assoc, Nat.add_comm, Nat.add_left_comm] using hd,
    by simpa [Nat.add_assoc, Nat.add_comm, Nat.add_left_comm] using hk⟩

/-! ### Operands -/

theorem reads_data (L : Lawful u) (ih : Under u c n) (h : Deriv grammar u a (.call .data) p w z l) (hn : w.length ≤ n) :
    ∃ m, l = [.mk .data p (p + w.length) w m] ∧ ∀ v, buildData c (.mk .data p (p + w.length) w m) = some v →
      RNode u c.position p w v := by
  have h := h.inv_call
  simp only [grammar, body_data] at h
  obtain ⟨m, rfl, hm⟩ := h.inv_atomic.inv_rule (by decide)
  refine ⟨m, rfl, fun v hv => ?_⟩
  rcases deriv_literal L c hm with h | h
  · obtain ⟨m', rfl, hm'⟩ := reads_list L ih h hn
    refine hm' v ?_
    simpa [buildData, Pair.rule] using hv
  · exact h _ _ _ _ v hv

theorem reads_node (L : Lawful u) (ih : Under u c n) (h : Deriv grammar u .compound (.call .node) p w z l)
    (hn : w.length ≤ n) :
    ∃ m, l = [.mk .node p (p + w.length) w m] ∧ ∀ v, buildNode c (.mk .node p (p + w.length) w m) = some v →
      RNode u c.position p w v := by
  have h := h.inv_call
  simp only [grammar, body_node] at h
  obtain ⟨m, rfl, hm⟩ := h.inv_rule (by decide)
  refine ⟨m, rfl, fun v hv => ?_⟩
  rcases hm.inv_alt with h | ⟨-, h⟩
  · rcases h.inv_alt with h | ⟨-, h⟩
    · rcases h.inv_alt with h | ⟨-, h⟩
      · rcases h.inv_alt with h | ⟨-, h⟩
        · obtain ⟨y, k, m₂, m₅, rfl, rfl, g0, h5⟩ := h.inv_restore.inv_seq.inv_cat
          obtain ⟨y, b', m₂, m₄, rfl, rfl, g40, h4⟩ := g0.inv_cat
          obtain ⟨y, x, m₂, m₃, rfl, rfl, g41, h3⟩ := g40.inv_cat
          obtain ⟨y, b, m₁, m₂, rfl, rfl, g42, h2⟩ := g41.inv_cat
          obtain ⟨rfl, rfl⟩ := h5.inv_str
          obtain ⟨rfl, rfl⟩ := g42.inv_str
          obtain ⟨rfl, rfl⟩ := deriv_no_skip h2
          obtain ⟨rfl, rfl⟩ := deriv_no_skip h4
          obtain ⟨m, rfl⟩ := single_expr h3
          simp only [List.nil_append, List.append_nil, buildNode, Pair.rule, if_true] at hv
          simp only [List.length_append, List.length_cons, List.length_nil] at hn
          have := RNode.paren (u := u) (P := c.position) (ih _ _ _ _ _ _ (by omega) h3 hv)
          simpa using this
        · obtain ⟨m, rfl, hk⟩ := reads_apply_call L ih h.inv_restore hn
          refine hk v ?_
          simpa [buildNode, Pair.rule] using hv
      · have h := h.inv_restore.inv_call
        simp only [grammar, body_derivative] at h
        obtain ⟨m, rfl, -⟩ := h.inv_atomic.inv_rule (by decide)
        simp [buildNode, Pair.rule] at hv
    · obtain ⟨m, rfl, hk⟩ := deriv_space_call L h.inv_restore
      refine hk c.position v ?_
      simpa [buildNode, Pair.rule, Pair.start, Pair.stop, Pair.inner] using hv
  · obtain ⟨m, rfl, hk⟩ := reads_data L ih h.inv_restore hn
    refine hk v ?_
    simpa [buildNode, Pair.rule] using hv

end SM.Props
