import Verif.Props.Faults
/-
C94: what stands behind a syntax error does not matter.
-/
namespace SM.Props
open SM SM.Peg

variable {u : Uni} {n : Nat}

/-! ### Two texts with the same beginning -/

/-- The states are at the same place of two texts that agree in their first `n` characters, and no quotation mark is
between this place and the `n`-th character. -/
def Agree (n : Nat) (s s' : St R) : Prop :=
  s.pos = s'.pos ∧ ∃ c x y, s.rest = c ++ x ∧ s'.rest = c ++ y ∧ s.pos + c.length = n ∧ '"' ∉ c

/-- The parses of the two texts have come to the same place in the same way. -/
def Together (n : Nat) (x x' : Res R × Tries R) : Prop :=
  x.2 = x'.2 ∧ match x.1, x'.1 with
    | .ok t, .ok t' => Agree n t t'
    | .err t, .err t' => Agree n t t'
    | .crash, .crash => True
    | _, _ => False

theorem Agree.le {s s' : St R} (h : Agree n s s') : s.pos ≤ n := by
  obtain ⟨-, c, x, y, -, -, h, -⟩ := h
  omega

theorem Agree.advance {s s' : St R} (h : Agree n s s') {m : Nat} (hm : s.pos + m ≤ n) :
    Agree n (s.advance m (s.rest.drop m)) (s'.advance m (s'.rest.drop m)) := by
  obtain ⟨h0, c, x, y, h1, h2, h3, h4⟩ := h
  refine ⟨by simp only [St.advance, h0], c.drop m, x, y, ?_, ?_, ?_, fun k => h4 (List.mem_of_mem_drop k)⟩
  · simp only [St.advance, h1]
    rw [List.drop_append_of_le_length (by omega)]
  · simp only [St.advance, h2]
    rw [List.drop_append_of_le_length (by omega)]
  · simp only [St.advance, List.length_drop]
    omega

theorem strip_near {x c a : Str} (h : x.length ≤ c.length) : (strip x (c ++ a)).isSome = (strip x c).isSome := by
  induction x generalizing c with
  | nil => rfl
  | cons d x ih =>
    cases c with
    | nil => simp at h
    | cons e c =>
      simp only [List.cons_append, strip]
      split
      · exact ih (by simpa using h)
      · rfl

theorem stripInsens_near {x c a : Str} (h : x.length ≤ c.length) :
    (stripInsens x (c ++ a)).isSome = (stripInsens x c).isSome := by
  induction x generalizing c with
  | nil => rfl
  | cons d x ih =>
    cases c with
    | nil => simp at h
    | cons e c =>
      simp only [List.cons_append, stripInsens]
      split
      · exact ih (by simpa using h)
      · rfl

/-- The step of an expression that reads at most `j` characters and ends in the same way in both texts. -/
def Stepped (n j : Nat) (s : St R) (r r' : Res R) : Prop :=
  (match r, r' with
    | .ok t, .ok t' => Agree n t t'
    | .err t, .err t' => Agree n t t'
    | .crash, .crash => True
    | _, _ => False) ∧ ∀ t, r = .ok t ∨ r = .err t → t.pos ≤ s.pos + j

theorem stepped_str {s s' : St R} (h : Agree n s s') {x : Str} (hx : s.pos + x.length ≤ n) :
    Stepped n x.length s (s.matchStr x) (s'.matchStr x) := by
  have ha := h.advance hx
  obtain ⟨h0, c, y, z, h1, h2, h3, h4⟩ := h
  have hl : x.length ≤ c.length := by omega
  have e : (strip x s.rest).isSome = (strip x s'.rest).isSome := by rw [h1, h2, strip_near hl, strip_near hl]
  unfold St.matchStr
  cases k : strip x s.rest with
  | none =>
    cases k' : strip x s'.rest with
    | none => exact ⟨⟨h0, c, y, z, h1, h2, h3, h4⟩, by rintro t (h | h) <;> cases h; omega⟩
    | some r => rw [k, k'] at e; cases e
  | some r =>
    cases k' : strip x s'.rest with
    | none => rw [k, k'] at e; cases e
    | some r' =>
      rw [← strip_drop k, ← strip_drop k'] at ha
      exact ⟨ha, by rintro t (h | h) <;> cases h; exact Nat.le_refl _⟩

theorem stepped_insens {s s' : St R} (h : Agree n s s') {x : Str} (hx : s.pos + x.length ≤ n) :
    Stepped n x.length s (match stripInsens x s.rest with | some r => .ok (s.advance x.length r) | none => .err s)
      (match stripInsens x s'.rest with | some r => .ok (s'.advance x.length r) | none => .err s') := by
  have ha := h.advance hx
  obtain ⟨h0, c, y, z, h1, h2, h3, h4⟩ := h
  have hl : x.length ≤ c.length := by omega
  have e : (stripInsens x s.rest).isSome = (stripInsens x s'.rest).isSome := by
    rw [h1, h2, stripInsens_near hl, stripInsens_near hl]
  cases k : stripInsens x s.rest with
  | none =>
    cases k' : stripInsens x s'.rest with
    | none => exact ⟨⟨h0, c, y, z, h1, h2, h3, h4⟩, by rintro t (h | h) <;> cases h; omega⟩
    | some r => rw [k, k'] at e; cases e
  | some r =>
    cases k' : stripInsens x s'.rest with
    | none => rw [k, k'] at e; cases e
    | some r' =>
      rw [← stripInsens_drop k, ← stripInsens_drop k'] at ha
      exact ⟨ha, by rintro t (h | h) <;> cases h; exact Nat.le_refl _⟩

theorem Agree.cons {s s' : St R} (h : Agree n s s') (h1 : s.pos + 1 ≤ n) :
    ∃ d l l', s.rest = d :: l ∧ s'.rest = d :: l' ∧ d ≠ '"' ∧ Agree n (s.advance 1 l) (s'.advance 1 l') := by
  have ha := h.advance h1
  obtain ⟨h0, c, y, z, h2, h3, h4, h5⟩ := h
  cases c with
  | nil => simp at h4; omega
  | cons d c =>
    rw [h2, h3] at ha
    exact ⟨d, c ++ y, c ++ z, h2, h3, fun e => h5 (by rw [e]; exact List.mem_cons_self ..), ha⟩

theorem stepped_char {s s' : St R} (h : Agree n s s') (h1 : s.pos + 1 ≤ n) (p : Char → Bool) :
    Stepped n 1 s (s.charBy p) (s'.charBy p) := by
  obtain ⟨d, l, l', h2, h3, -, h4⟩ := h.cons h1
  unfold St.charBy
  rw [h2, h3]
  dsimp only
  split
  · exact ⟨h4, by rintro t (h | h) <;> cases h; exact Nat.le_refl _⟩
  · exact ⟨h, by rintro t (h | h) <;> cases h; omega⟩

theorem Stepped.same {j : Nat} {s s' : St R} (h : Agree n s s') (ok : Bool) :
    Stepped n j s (if ok then .ok s else .err s) (if ok then .ok s' else .err s') := by
  cases ok
  · exact ⟨h, by rintro t (h | h) <;> cases h; omega⟩
  · exact ⟨h, by rintro t (h | h) <;> cases h; omega⟩

/-! ### Expressions that look at few characters -/

/-- How many characters an expression may look at, if there is a bound. -/
def reads : Nat → PE R → Option Nat
  | 0, _ => none
  | f + 1, e => match e with
    | .call r => reads f (grammar r)
    | .rule _ e | .atomic _ e | .ifNon e | .seq e | .opt e | .restore e | .look _ e => reads f e
    | .alt a b => if back a then (reads f a).bind fun i => (reads f b).map fun j => max i j else none
    | .cat a b => (reads f a).bind fun i => (reads f b).map fun j => i + j
    | .str x | .insens x => some x.length
    | .range _ _ | .uni _ | .any | .eoi => some 1
    | .soi => some 0
    | _ => none

theorem bind_map_some {o o' : Option Nat} {k : Nat → Nat → Nat} {j : Nat}
    (h : (o.bind fun i => o'.map fun j => k i j) = some j) : ∃ a b, o = some a ∧ o' = some b ∧ j = k a b := by
  cases o with
  | none => cases h
  | some a =>
    cases o' with
    | none => cases h
    | some b => cases h; exact ⟨a, b, rfl, rfl, rfl⟩

theorem stepped_traced (N : Nat) : ∀ (f : Nat) (e : PE R) (v : Env) (neg : Bool) (s s' : St R) (a : Tries R) (j : Nat),
    reads f e = some j → Agree n s s' → s.pos + j ≤ n →
    (traced grammar u N e v neg s a).2 = (traced grammar u N e v neg s' a).2 ∧
    Stepped n j s (traced grammar u N e v neg s a).1 (traced grammar u N e v neg s' a).1 := by
  induction N with
  | zero => intro f e v neg s s' a j _ _ _; exact ⟨rfl, trivial, by rintro t (h | h) <;> cases h⟩
  | succ N ih =>
    intro f e v neg s s' a j he hs hj
    cases f with
    | zero => cases he
    | succ f =>
      cases e with
      | call r => exact ih f _ v neg s s' a j he hs hj
      | atomic t e => exact ih f e _ neg s s' a j he hs hj
      | ifNon e =>
        rw [traced, traced]
        split
        · exact ih f e v neg s s' a j he hs hj
        · exact ⟨rfl, Stepped.same hs true⟩
      | rule r e =>
        have h := ih f e v neg (if v.emits then { s with queue := [] } else s) (if v.emits then { s' with queue := [] } else s') a j he
          (by split <;> exact hs) (by split <;> exact hj)
        rw [traced, traced]
        generalize traced grammar u N e v neg (if v.emits then { s with queue := [] } else s) a = x at h ⊢
        generalize traced grammar u N e v neg (if v.emits then { s' with queue := [] } else s') a = x' at h ⊢
        obtain ⟨y, b⟩ := x
        obtain ⟨y', b'⟩ := x'
        obtain ⟨h1, h2, h3⟩ := h
        have h1 : b = b' := h1
        subst h1
        have hp : (if v.emits then ({ s with queue := [] } : St R) else s).pos = s.pos := by split <;> rfl
        rw [hp] at h3
        dsimp only
        have hb : Res.blames neg y = Res.blames neg y' := by
          cases y <;> cases y' <;> first | exact h2.elim | rfl
        rw [hb, hs.1]
        refine ⟨rfl, ?_⟩
        cases v.emits
        · exact ⟨h2, h3⟩
        · cases y <;> cases y' <;> first | exact h2.elim | skip
          · rename_i q q'; exact ⟨h2, fun t h => by rcases h with h | h <;> cases h; exact h3 q (.inl rfl)⟩
          · rename_i q q'; exact ⟨h2, fun t h => by rcases h with h | h <;> cases h; exact h3 q (.inr rfl)⟩
          · exact ⟨trivial, by rintro t (h | h) <;> cases h⟩
      | seq e =>
        have h := ih f e v neg s s' a j he hs hj
        rw [traced, traced]
        generalize traced grammar u N e v neg s a = x at h ⊢
        generalize traced grammar u N e v neg s' a = x' at h ⊢
        obtain ⟨y, b⟩ := x
        obtain ⟨y', b'⟩ := x'
        obtain ⟨h1, h2, h3⟩ := h
        refine ⟨h1, ?_⟩
        cases y <;> cases y' <;> first | exact h2.elim | skip
        · exact ⟨h2, fun t h => by rcases h with h | h <;> cases h; exact h3 _ (.inl rfl)⟩
        · exact ⟨hs, by rintro t (h | h) <;> cases h; exact Nat.le_add_right ..⟩
        · exact ⟨trivial, by rintro t (h | h) <;> cases h⟩
      | opt e =>
        have h := ih f e v neg s s' a j he hs hj
        rw [traced, traced]
        generalize traced grammar u N e v neg s a = x at h ⊢
        generalize traced grammar u N e v neg s' a = x' at h ⊢
        obtain ⟨y, b⟩ := x
        obtain ⟨y', b'⟩ := x'
        obtain ⟨h1, h2, h3⟩ := h
        refine ⟨h1, ?_⟩
        cases y <;> cases y' <;> first | exact h2.elim | skip
        · exact ⟨h2, fun t h => by rcases h with h | h <;> cases h; exact h3 _ (.inl rfl)⟩
        · exact ⟨h2, fun t h => by rcases h with h | h <;> cases h; exact h3 _ (.inr rfl)⟩
        · exact ⟨trivial, by rintro t (h | h) <;> cases h⟩
      | restore e =>
        have h := ih f e v neg s s' a j he hs hj
        rw [traced, traced]
        generalize traced grammar u N e v neg s a = x at h ⊢
        generalize traced grammar u N e v neg s' a = x' at h ⊢
        obtain ⟨y, b⟩ := x
        obtain ⟨y', b'⟩ := x'
        obtain ⟨h1, h2, h3⟩ := h
        refine ⟨h1, ?_⟩
        cases y <;> cases y' <;> first | exact h2.elim | skip
        · exact ⟨h2, fun t h => by rcases h with h | h <;> cases h; exact h3 _ (.inl rfl)⟩
        · rename_i q q'; exact ⟨h2, fun t h => by rcases h with h | h <;> cases h; exact h3 q (.inr rfl)⟩
        · exact ⟨trivial, by rintro t (h | h) <;> cases h⟩
      | look p e =>
        have h := ih f e { v with silent := true } (if p then neg else !neg) s s' a j he hs hj
        rw [traced, traced]
        generalize traced grammar u N e { v with silent := true } (if p then neg else !neg) s a = x at h ⊢
        generalize traced grammar u N e { v with silent := true } (if p then neg else !neg) s' a = x' at h ⊢
        obtain ⟨y, b⟩ := x
        obtain ⟨y', b'⟩ := x'
        obtain ⟨h1, h2, h3⟩ := h
        refine ⟨h1, ?_⟩
        cases y <;> cases y' <;> first | exact h2.elim | skip
        · cases p <;> exact ⟨hs, by rintro t (h | h) <;> cases h; exact Nat.le_add_right ..⟩
        · cases p <;> exact ⟨hs, by rintro t (h | h) <;> cases h; exact Nat.le_add_right ..⟩
        · cases p <;> exact ⟨trivial, by rintro t (h | h) <;> cases h⟩
      | alt e1 e2 =>
        rw [reads] at he
        split at he
        case isFalse => cases he
        case isTrue hb =>
          obtain ⟨i, k, k1, k2, rfl⟩ := bind_map_some he
          have h := ih f e1 v neg s s' a i k1 hs (by omega)
          have hp : ∀ t, (traced grammar u N e1 v neg s a).1 = .err t → t.pos = s.pos := by
            intro t ht
            rw [traced_run] at ht
            exact (run_back grammar_back N e1 v s t hb ht).1
          rw [traced, traced]
          generalize traced grammar u N e1 v neg s a = x at h hp ⊢
          generalize traced grammar u N e1 v neg s' a = x' at h ⊢
          obtain ⟨y, b⟩ := x
          obtain ⟨y', b'⟩ := x'
          obtain ⟨h1, h2, h3⟩ := h
          have h1 : b = b' := h1
          subst h1
          cases y <;> cases y' <;> first | exact h2.elim | skip
          · exact ⟨rfl, h2, by rintro t (h | h) <;> cases h; exact Nat.le_trans (h3 _ (.inl rfl)) (by omega)⟩
          · rename_i t t'
            have hp := hp t rfl
            have h := ih f e2 v neg t t' b k k2 h2 (by omega)
            exact ⟨h.1, h.2.1, fun w hw => Nat.le_trans (h.2.2 w hw) (by omega)⟩
          · exact ⟨rfl, trivial, by rintro t (h | h) <;> cases h⟩
      | cat e1 e2 =>
        obtain ⟨i, k, k1, k2, rfl⟩ := bind_map_some he
        have h := ih f e1 v neg s s' a i k1 hs (by omega)
        rw [traced, traced]
        generalize traced grammar u N e1 v neg s a = x at h ⊢
        generalize traced grammar u N e1 v neg s' a = x' at h ⊢
        obtain ⟨y, b⟩ := x
        obtain ⟨y', b'⟩ := x'
        obtain ⟨h1, h2, h3⟩ := h
        have h1 : b = b' := h1
        subst h1
        cases y <;> cases y' <;> first | exact h2.elim | skip
        · rename_i t t'
          have hp := h3 t (.inl rfl)
          have h := ih f e2 v neg t t' b k k2 h2 (by omega)
          exact ⟨h.1, h.2.1, fun w hw => Nat.le_trans (h.2.2 w hw) (by omega)⟩
        · exact ⟨rfl, h2, by rintro t (h | h) <;> cases h; exact Nat.le_trans (h3 _ (.inr rfl)) (by omega)⟩
        · exact ⟨rfl, trivial, by rintro t (h | h) <;> cases h⟩
      | str x => cases he; exact ⟨rfl, stepped_str hs hj⟩
      | insens x => cases he; exact ⟨rfl, stepped_insens hs hj⟩
      | range p q => cases he; exact ⟨rfl, stepped_char hs hj _⟩
      | uni p => cases he; exact ⟨rfl, stepped_char hs hj _⟩
      | any => cases he; exact ⟨rfl, stepped_char hs hj _⟩
      | soi =>
        cases he
        refine ⟨rfl, ?_⟩
        show Stepped n 0 s (if s.pos = 0 then .ok s else .err s) (if s'.pos = 0 then .ok s' else .err s')
        rw [← hs.1]
        have := Stepped.same (j := 0) hs (decide (s.pos = 0))
        simpa using this
      | eoi =>
        cases he
        refine ⟨rfl, ?_⟩
        obtain ⟨d, l, l', h2, h3, -, -⟩ := hs.cons hj
        show Stepped n 1 s (if s.rest.isEmpty then .ok s else .err s) (if s'.rest.isEmpty then .ok s' else .err s')
        rw [h2, h3]
        exact Stepped.same hs false
      | rep e => cases he
      | push e => cases he
      | peek => cases he
      | pop => cases he

/-! ### Expressions that begin with a quotation mark -/

/-- Nothing is read unless there is a quotation mark. -/
def openQuote : Nat → PE R → Bool
  | 0, _ => false
  | f + 1, e => match e with
    | .call r => openQuote f (grammar r)
    | .rule _ e | .atomic _ e | .seq e | .restore e => openQuote f e
    | .cat a _ => openQuote f a
    | .str x => x = ['"']
    | _ => false

theorem openQuote_traced (N : Nat) : ∀ (f : Nat) (e : PE R) (v : Env) (neg : Bool) (s s' : St R) (a : Tries R),
    openQuote f e = true → Agree n s s' → s.pos + 1 ≤ n → (traced grammar u N e v neg s a).1 ≠ .crash →
    (traced grammar u N e v neg s a).2 = (traced grammar u N e v neg s' a).2 ∧
    ∃ t t', (traced grammar u N e v neg s a).1 = .err t ∧ (traced grammar u N e v neg s' a).1 = .err t' ∧ Agree n t t' := by
  induction N with
  | zero => intro f e v neg s s' a _ _ _ h; exact absurd rfl h
  | succ N ih =>
    intro f e v neg s s' a he hs hj hc
    cases f with
    | zero => cases he
    | succ f =>
      cases e with
      | call r => exact ih f _ v neg s s' a he hs hj hc
      | atomic t e => exact ih f e _ neg s s' a he hs hj hc
      | rule r e =>
        have h := ih f e v neg (if v.emits then { s with queue := [] } else s) (if v.emits then { s' with queue := [] } else s') a he
          (by split <;> exact hs) (by split <;> exact hj)
        rw [traced] at hc
        rw [traced, traced]
        generalize traced grammar u N e v neg (if v.emits then { s with queue := [] } else s) a = x at h hc ⊢
        generalize traced grammar u N e v neg (if v.emits then { s' with queue := [] } else s') a = x' at h ⊢
        obtain ⟨y, b⟩ := x
        obtain ⟨y', b'⟩ := x'
        have hy : y ≠ .crash := by
          intro e
          subst e
          dsimp only at hc
          split at hc <;> exact hc rfl
        obtain ⟨h1, t, t', h2, h3, h4⟩ := h hy
        have h1 : b = b' := h1
        have h2 : y = .err t := h2
        have h3 : y' = .err t' := h3
        subst h1 h2 h3
        refine ⟨by dsimp only; rw [hs.1]; rfl, ?_⟩
        cases v.emits
        · exact ⟨_, _, rfl, rfl, h4⟩
        · exact ⟨_, _, rfl, rfl, h4⟩
      | seq e =>
        have h := ih f e v neg s s' a he hs hj
        rw [traced] at hc
        rw [traced, traced]
        generalize traced grammar u N e v neg s a = x at h hc ⊢
        generalize traced grammar u N e v neg s' a = x' at h ⊢
        obtain ⟨y, b⟩ := x
        obtain ⟨y', b'⟩ := x'
        obtain ⟨h1, t, t', h2, h3, h4⟩ := h (by intro e; dsimp only at e; subst e; exact hc rfl)
        have h2 : y = .err t := h2
        have h3 : y' = .err t' := h3
        subst h2 h3
        exact ⟨h1, _, _, rfl, rfl, hs⟩
      | restore e =>
        have h := ih f e v neg s s' a he hs hj
        rw [traced] at hc
        rw [traced, traced]
        generalize traced grammar u N e v neg s a = x at h hc ⊢
        generalize traced grammar u N e v neg s' a = x' at h ⊢
        obtain ⟨y, b⟩ := x
        obtain ⟨y', b'⟩ := x'
        obtain ⟨h1, t, t', h2, h3, h4⟩ := h (by intro e; dsimp only at e; subst e; exact hc rfl)
        have h2 : y = .err t := h2
        have h3 : y' = .err t' := h3
        subst h2 h3
        exact ⟨h1, _, _, rfl, rfl, h4⟩
      | cat e1 e2 =>
        have h := ih f e1 v neg s s' a he hs hj
        rw [traced] at hc
        rw [traced, traced]
        generalize traced grammar u N e1 v neg s a = x at h hc ⊢
        generalize traced grammar u N e1 v neg s' a = x' at h ⊢
        obtain ⟨y, b⟩ := x
        obtain ⟨y', b'⟩ := x'
        obtain ⟨h1, t, t', h2, h3, h4⟩ := h (by intro e; dsimp only at e; subst e; exact hc rfl)
        have h2 : y = .err t := h2
        have h3 : y' = .err t' := h3
        subst h2 h3
        exact ⟨h1, _, _, rfl, rfl, h4⟩
      | str x =>
        have hx : x = ['"'] := of_decide_eq_true he
        subst hx
        obtain ⟨d, l, l', h2, h3, h4, -⟩ := hs.cons hj
        have h4 : ¬ '"' = d := fun e => h4 e.symm
        refine ⟨rfl, s, s', ?_, ?_, hs⟩
        · simp [traced, run, St.matchStr, strip, h2, h4]
        · simp [traced, run, St.matchStr, strip, h3, h4]
      | _ => cases he

/-! ### Where attempts are recorded -/

/-- Expressions that do not fail. -/
def steady : PE R → Bool
  | .opt _ | .rep _ => true
  | .seq e => steady e
  | .alt _ b => steady b
  | .cat a b => steady a && steady b
  | _ => false

/-- White space, where none is skipped. -/
def idle (t : Atomicity) : PE R → Bool
  | .call r => r = .skip && t != .non
  | _ => false

/-- With `false`: if the expression fails, a rule was tried where it began or later.  With `true`: if it is read, a rule was
tried at its end or later. -/
def leaves : Nat → Bool → Atomicity → PE R → Bool
  | 0, _, _, _ => false
  | f + 1, w, t, e => match e with
    | .call r => leaves f w t (grammar r)
    | .rule _ e => (!w && t != .atomic) || leaves f w t e
    | .atomic t e => leaves f w t e
    | .ifNon e => if t = .non then leaves f w t e else !w
    | .seq e | .restore e => leaves f w t e
    | .opt e => !w || (back e && leaves f true t e && leaves f false t e)
    | .rep e => !w || (back e && leaves f false t e)
    | .alt a b =>
      if w then leaves f true t a && leaves f true t b else back a && (leaves f false t a || leaves f false t b)
    | .cat a b =>
      if w then leaves f true t b || (idle t b && leaves f true t a) else leaves f false t a && (steady b || leaves f true t a || leaves f false t b)
    | _ => false

theorem steady_run (N : Nat) : ∀ (e : PE R) (v : Env) (s t : St R), steady e = true → run grammar u N e v s ≠ .err t := by
  induction N with
  | zero => intro e v s t _ h; cases h
  | succ N ih =>
    intro e v s t he h
    cases e with
    | opt e =>
      rw [run] at h
      generalize run grammar u N e v s = x at h
      cases x <;> cases h
    | rep e =>
      rw [run] at h
      generalize run grammar u N e v s = x at h
      cases x with
      | ok t' => exact ih _ _ _ _ rfl h
      | _ => cases h
    | seq e =>
      rw [run] at h
      obtain ⟨t', h⟩ := err_mapBoth h
      exact ih e _ _ _ he h
    | alt a b =>
      rw [run] at h
      generalize run grammar u N a v s = x at h
      cases x with
      | err t' => exact ih b _ _ _ he h
      | _ => cases h
    | cat a b =>
      simp only [steady, Bool.and_eq_true] at he
      rw [run] at h
      have k := fun t => ih a v s t he.1
      generalize run grammar u N a v s = x at h k
      cases x with
      | ok t' => exact ih b _ _ _ he.2 h
      | err t' => exact k _ rfl
      | crash => cases h
    | _ => cases he

theorem run_further {N : Nat} {e : PE R} {v : Env} {s t : St R} (h : run grammar u N e v s = .ok t) : s.pos ≤ t.pos := by
  have := run_forth grammar u (List.replicate s.pos 'a' ++ s.rest) N e v s ⟨by simp, by simp⟩
  rw [h] at this
  exact this.2.1

theorem tries_le (N : Nat) (e : PE R) (v : Env) (neg : Bool) (s : St R) (a : Tries R) :
    a.pos ≤ (traced grammar u N e v neg s a).2.pos := by
  rcases traced_grows (u := u) N e v neg s a with h | h
  · exact Nat.le_of_lt h
  · exact Nat.le_of_eq h.1

theorem idle_traced {N : Nat} {e : PE R} {v : Env} {s t : St R} {a : Tries R} (he : idle v.atomicity e = true)
    (h : (traced grammar u N e v false s a).1 = .ok t) : t = s := by
  cases e with
  | call r =>
    simp only [idle, Bool.and_eq_true, decide_eq_true_eq, bne_iff_ne, ne_eq] at he
    obtain ⟨rfl, hv⟩ := he
    rcases N with _ | _ | N
    · cases h
    · cases h
    · rw [traced, show grammar .skip = body_skip from rfl, body_skip, traced, if_neg hv] at h
      cases h
      rfl
  | _ => cases he

theorem leaves_traced (N : Nat) : ∀ (f : Nat) (w : Bool) (e : PE R) (v : Env) (s t : St R) (a : Tries R),
    leaves f w v.atomicity e = true → (traced grammar u N e v false s a).1 = (if w then .ok t else .err t) →
    (if w then t.pos else s.pos) ≤ (traced grammar u N e v false s a).2.pos := by
  induction N with
  | zero => intro f w e v s t a _ h; cases w <;> cases h
  | succ N ih =>
    intro f w e v s t a he h
    cases f with
    | zero => cases he
    | succ f =>
      cases e with
      | call r => exact ih f w _ v s t a he h
      | atomic t' e => exact ih f w e { v with atomicity := t' } s t a he h
      | ifNon e =>
        rw [leaves] at he
        rw [traced] at h ⊢
        split at he
        case isTrue hv =>
          rw [if_pos hv] at h ⊢
          exact ih f w e v s t a he h
        case isFalse hv =>
          rw [if_neg hv] at h
          cases w
          · cases h
          · cases he
      | rule r e =>
        simp only [leaves, Bool.or_eq_true, Bool.and_eq_true, Bool.not_eq_true', bne_iff_ne, ne_eq] at he
        have k := fun t => ih f w e v (if v.emits then { s with queue := [] } else s) t a
        rw [traced] at h ⊢
        generalize traced grammar u N e v false (if v.emits then { s with queue := [] } else s) a = x at h k ⊢
        obtain ⟨y, b⟩ := x
        have hp : (if v.emits then ({ s with queue := [] } : St R) else s).pos = s.pos := by split <;> rfl
        rw [hp] at k
        dsimp only at h k ⊢
        cases w with
        | false =>
          have hy : ∃ t, y = .err t := by
            split at h
            · exact err_mapBoth h
            · exact ⟨t, h⟩
          obtain ⟨t', rfl⟩ := hy
          rw [if_pos (show Res.blames false (.err t') = true from rfl)]
          rcases he with he | he
          · exact track_arrives he.2
          · refine Nat.le_trans (k t' he rfl) ?_
            by_cases ht : v.atomicity = .atomic
            · rw [ht]; exact Nat.le_refl _
            · rcases Nat.lt_trichotomy s.pos b.pos with h | h | h
              · rw [track_behind h]
              · rw [h]; exact track_arrives ht
              · rw [track_ahead ht h]; exact Nat.le_of_lt h
        | true =>
          rcases he with he | he
          · cases he.1
          · cases y with
            | ok t' =>
              have := k t' he rfl
              have e : t.pos = t'.pos := by
                generalize v.emits = z at h
                cases z <;> cases h <;> rfl
              show t.pos ≤ b.pos
              rw [e]
              exact this
            | err t' => split at h <;> cases h
            | crash => split at h <;> cases h
      | seq e =>
        have k := fun t => ih f w e v s t a he
        rw [traced] at h ⊢
        generalize traced grammar u N e v false s a = x at h k ⊢
        obtain ⟨y, b⟩ := x
        cases w with
        | false =>
          obtain ⟨t', ht'⟩ := err_mapBoth h
          exact k t' ht'
        | true =>
          cases y with
          | ok t' => cases h; exact k _ rfl
          | _ => cases h
      | restore e =>
        have k := fun t => ih f w e v s t a he
        rw [traced] at h ⊢
        generalize traced grammar u N e v false s a = x at h k ⊢
        obtain ⟨y, b⟩ := x
        cases w with
        | false =>
          obtain ⟨t', ht'⟩ := err_mapBoth h
          exact k t' ht'
        | true =>
          cases y with
          | ok t' => cases h; exact k _ rfl
          | _ => cases h
      | opt e =>
        simp only [leaves, Bool.or_eq_true, Bool.and_eq_true, Bool.not_eq_true'] at he
        have k := fun t => ih f true e v s t a
        have k' := fun t => ih f false e v s t a
        have hb := fun t => run_back (u := u) grammar_back N e v s t
        rw [traced] at h ⊢
        rw [← traced_run N e v false s a] at hb
        generalize traced grammar u N e v false s a = x at h k k' hb ⊢
        obtain ⟨y, b⟩ := x
        cases w with
        | false => cases y <;> cases h
        | true =>
          rcases he with he | ⟨⟨h1, h2⟩, h3⟩
          · cases he
          · cases y with
            | ok t' => cases h; exact k _ h2 rfl
            | err t' =>
              cases h
              have e := (hb _ h1 rfl).1
              show t.pos ≤ b.pos
              rw [e]
              exact k' _ h3 rfl
            | crash => cases h
      | rep e =>
        have hr := he
        simp only [leaves, Bool.or_eq_true, Bool.and_eq_true, Bool.not_eq_true'] at he
        have k := fun t => ih f false e v s t a
        have hb := fun t => run_back (u := u) grammar_back N e v s t
        cases w with
        | false =>
          rw [traced_run] at h
          exact absurd h (steady_run _ _ _ _ _ rfl)
        | true =>
          rcases he with he | ⟨h1, h2⟩
          · cases he
          · rw [traced] at h ⊢
            rw [← traced_run N e v false s a] at hb
            generalize traced grammar u N e v false s a = x at h k hb ⊢
            obtain ⟨y, b⟩ := x
            cases y with
            | ok t' => exact ih (f + 1) true (.rep e) v t' t b hr h
            | err t' =>
              cases h
              have e := (hb _ h1 rfl).1
              show t.pos ≤ b.pos
              rw [e]
              exact k _ h2 rfl
            | crash => cases h
      | alt e1 e2 =>
        rw [leaves] at he
        have hb := fun t => run_back (u := u) grammar_back N e1 v s t
        have k1 := fun t => ih f w e1 v s t a
        have k2 := fun t b => ih f w e2 v t b
        rw [traced] at h ⊢
        rw [← traced_run N e1 v false s a] at hb
        generalize traced grammar u N e1 v false s a = x at h k1 hb ⊢
        obtain ⟨y, b⟩ := x
        cases w with
        | true =>
          simp only [if_true, Bool.and_eq_true] at he
          cases y with
          | ok t' => cases h; exact k1 _ he.1 rfl
          | err t' => exact k2 t' t b he.2 h
          | crash => cases h
        | false =>
          simp only [Bool.false_eq_true, if_false, Bool.and_eq_true, Bool.or_eq_true] at he
          cases y with
          | ok t' => cases h
          | err t' =>
            have e := (hb _ he.1 rfl).1
            rcases he.2 with he2 | he2
            · exact Nat.le_trans (k1 t' he2 rfl) (tries_le N e2 v false t' b)
            · have := k2 t' t b he2 h
              rw [← e]
              exact this
          | crash => cases h
      | cat e1 e2 =>
        rw [leaves] at he
        have k1 := fun w t => ih f w e1 v s t a
        have k2 := fun t b => ih f w e2 v t b
        have ho := fun t => run_further (u := u) (N := N) (e := e1) (v := v) (s := s) (t := t)
        rw [traced] at h ⊢
        rw [← traced_run N e1 v false s a] at ho
        generalize traced grammar u N e1 v false s a = x at h k1 ho ⊢
        obtain ⟨y, b⟩ := x
        cases w with
        | true =>
          simp only [if_true, Bool.or_eq_true, Bool.and_eq_true] at he
          cases y with
          | ok t' =>
            rcases he with he | ⟨he, he2⟩
            · exact k2 t' t b he h
            · have e := idle_traced he h
              subst e
              exact Nat.le_trans (k1 true t he2 rfl) (tries_le N e2 v false t b)
          | err t' => cases h
          | crash => cases h
        | false =>
          simp only [Bool.false_eq_true, if_false, Bool.and_eq_true, Bool.or_eq_true] at he
          cases y with
          | err t' => exact k1 false t' he.1 rfl
          | ok t' =>
            have ho := ho t' rfl
            rcases he.2 with (he2 | he2) | he2
            · rw [traced_run] at h
              exact absurd h (steady_run _ _ _ _ _ he2)
            · exact Nat.le_trans ho (Nat.le_trans (k1 true t' he2 rfl) (tries_le N e2 v false t' b))
            · exact Nat.le_trans ho (k2 t' t b he2 h)
          | crash => cases h
      | _ => cases he

/-! ### All expressions -/

/-- How far behind the place of an error the text still matters: the length of the longest word of the grammar. -/
def reach : Nat := 9

/-- The rules whose bodies are looked into. -/
def token : R → Bool
  | .Positive | .SYMBOL | .Integer | .Derivative => true
  | _ => false

/-- The rules that are called where white space is not skipped. -/
def tight : Atomicity → R → Bool
  | .non, r => r ∉ [.StringText, .PEEK, .POP]
  | .compound, r => r ∈ [.skip, .Prefix, .node, .Suffix, .slice, .expr, .apply_call, .derivative, .space_call, .data, .Symbol, .apply,
      .Number, .dict, .list, .Special, .REPL, .Slot, .String, .Decimal, .Byte, .StringBlock, .StringNormal, .MultiLineComment]
  | .atomic, r => r ∈ [.list, .apply, .Symbol, .MultiLineComment, .Suffix]

/-- How many characters behind its beginning an expression may look at without a rule being tried there or behind, if that
can be told. -/
def views : Nat → Atomicity → PE R → Option Nat
  | 0, _, _ => none
  | f + 1, t, e =>
    match reads 12 e with
    | some j => some j
    | none =>
      if openQuote 12 e then some 1 else
      match e with
      | .call r => if token r then views f t (grammar r) else if tight t r then some reach else none
      | .rule _ e | .seq e | .restore e | .opt e | .rep e => views f t e
      | .atomic t e => views f t e
      | .ifNon e => if t = .non then views f t e else some 0
      | .alt a b => if back a then (views f t a).bind fun i => (views f t b).map fun j => max i j else none
      | .cat a b => (views f t a).bind fun i => (views f t b).bind fun j =>
        if reads 12 a = some i ∧ i + j ≤ reach then some (i + j)
        else if steady b || leaves 40 true t a || leaves 40 false t b then some (max i j) else none
      | _ => none

theorem views_grammar : ∀ (t : Atomicity) (r : R), token r = false → tight t r = true →
    ∃ j, views 40 t (grammar r) = some j ∧ j ≤ reach := by
  have key : ∀ (t : Atomicity) (r : R), token r = false → tight t r = true → (views 40 t (grammar r)).any (· ≤ reach) = true := by
    intro t r
    cases t <;> cases r <;> decide +kernel
  intro t r h1 h2
  have := key t r h1 h2
  generalize views 40 t (grammar r) = o at this
  cases o with
  | none => cases this
  | some j => exact ⟨j, rfl, of_decide_eq_true this⟩

/-- The parses are together, or a rule was tried close to the end of what the texts have in common or behind, or the parse of
the first text has come there. -/
def Close (n : Nat) (x x' : Res R × Tries R) : Prop :=
  Together n x x' ∨ n < x.2.pos + reach ∨ ∃ t, x.1 = .ok t ∧ n < t.pos + reach

theorem close_of_reads {N f : Nat} {e : PE R} {v : Env} {neg : Bool} {s s' : St R} {a : Tries R} {j : Nat}
    (he : reads f e = some j) (hs : Agree n s s') (hj : s.pos + j ≤ n) :
    Close n (traced grammar u N e v neg s a) (traced grammar u N e v neg s' a) :=
  have h := stepped_traced (u := u) N f e v neg s s' a j he hs hj
  .inl ⟨h.1, h.2.1⟩

/-- The first text alone, from a place that is far enough. -/
theorem close_alone {N : Nat} {e : PE R} {v : Env} {t : St R} {a : Tries R} (x' : Res R × Tries R) (ht : n < t.pos + reach)
    (hc : (traced grammar u N e v false t a).1 ≠ .crash)
    (h : steady e = true ∨ t.pos ≤ a.pos ∨ leaves 40 false v.atomicity e = true) :
    Close n (traced grammar u N e v false t a) x' := by
  cases k : (traced grammar u N e v false t a).1 with
  | ok w =>
    rw [traced_run] at k
    have := run_further k
    exact .inr (.inr ⟨w, by rw [traced_run, k], by omega⟩)
  | err w =>
    refine .inr (.inl ?_)
    rcases h with h | h | h
    · rw [traced_run] at k
      exact absurd k (steady_run _ _ _ _ _ h)
    · have := tries_le (u := u) N e v false t a
      omega
    · have := leaves_traced (u := u) N 40 false e v t w a h k
      simp only [Bool.false_eq_true, if_false] at this
      omega
  | crash => exact absurd k hc

theorem close_traced (N : Nat) : ∀ (f : Nat) (e : PE R) (v : Env) (s s' : St R) (a : Tries R) (j : Nat),
    views f v.atomicity e = some j → j ≤ reach → Agree n s s' → s.pos + j ≤ n →
    (traced grammar u N e v false s a).1 ≠ .crash →
    Close n (traced grammar u N e v false s a) (traced grammar u N e v false s' a) := by
  induction N with
  | zero => intro f e v s s' a j _ _ _ _ h; exact absurd rfl h
  | succ N ih =>
    intro f e v s s' a j he hr hs hj hc
    cases f with
    | zero => cases he
    | succ f =>
      have he0 := he
      unfold views at he
      split at he
      case h_1 j' hj' =>
        cases he
        exact close_of_reads hj' hs hj
      case h_2 =>
      split at he
      case isTrue hq =>
        cases he
        obtain ⟨h1, t, t', h2, h3, h4⟩ := openQuote_traced (N + 1) 12 e v false s s' a hq hs hj hc
        exact .inl ⟨h1, by rw [h2, h3]; exact h4⟩
      case isFalse =>
      cases e with
      | call r =>
        simp only at he
        split at he
        · exact ih f _ v s s' a j he hr hs hj hc
        · rename_i h1
          split at he
          · rename_i h2
            cases he
            obtain ⟨i, h3, h4⟩ := views_grammar v.atomicity r (by simpa using h1) h2
            exact ih 40 _ v s s' a i h3 h4 hs (by omega) hc
          · cases he
      | atomic t e => exact ih f e { v with atomicity := t } s s' a j he hr hs hj hc
      | ifNon e =>
        simp only at he
        rw [traced] at hc
        rw [traced, traced]
        split at he
        case isTrue hv =>
          rw [if_pos hv] at hc
          rw [if_pos hv, if_pos hv]
          exact ih f e v s s' a j he hr hs hj hc
        case isFalse hv =>
          rw [if_neg hv, if_neg hv]
          exact .inl ⟨rfl, hs⟩
      | rule r e =>
        have h := ih f e v (if v.emits then { s with queue := [] } else s) (if v.emits then { s' with queue := [] } else s') a j he hr
          (by split <;> exact hs) (by split <;> exact hj)
        have hg := tries_le (u := u) (N + 1) (.rule r e) v false s a
        rw [traced] at hc
        rw [traced, traced]
        generalize traced grammar u N e v false (if v.emits then { s with queue := [] } else s) a = x at h hc ⊢
        generalize traced grammar u N e v false (if v.emits then { s' with queue := [] } else s') a = x' at h ⊢
        obtain ⟨y, b⟩ := x
        obtain ⟨y', b'⟩ := x'
        dsimp only at hc ⊢
        have hy : y ≠ .crash := by
          intro e
          subst e
          generalize v.emits = z at hc
          cases z <;> exact hc rfl
        rcases h hy with ⟨h1, h2⟩ | h | ⟨t, h1, h2⟩
        · have h1 : b = b' := h1
          subst h1
          have hb : Res.blames false y = Res.blames false y' := by
            dsimp only at h2
            cases y <;> cases y' <;> first | exact h2.elim | rfl
          refine .inl ⟨by dsimp only; rw [hb, hs.1], ?_⟩
          dsimp only at h2 ⊢
          generalize v.emits = z
          cases z
          · exact h2
          · cases y <;> cases y' <;> first | exact h2.elim | exact h2
        · refine .inr (.inl ?_)
          dsimp only at h ⊢
          split
          · by_cases ht : v.atomicity = .atomic
            · rw [ht]; exact h
            · rcases Nat.lt_trichotomy s.pos b.pos with k | k | k
              · rw [track_behind k]; exact h
              · have := track_arrives (a := a) (b := b) ht (r := r) (x := s.pos)
                omega
              · have := track_arrives (a := a) (b := b) ht (r := r) (x := s.pos)
                omega
          · exact h
        · have h1 : y = .ok t := h1
          subst h1
          refine .inr (.inr ?_)
          generalize v.emits = z
          cases z
          · exact ⟨_, rfl, h2⟩
          · exact ⟨_, rfl, h2⟩
      | seq e =>
        have h := ih f e v s s' a j he hr hs hj
        rw [traced] at hc
        rw [traced, traced]
        generalize traced grammar u N e v false s a = x at h hc ⊢
        generalize traced grammar u N e v false s' a = x' at h ⊢
        obtain ⟨y, b⟩ := x
        obtain ⟨y', b'⟩ := x'
        rcases h (by intro e; dsimp only at e; subst e; exact hc rfl) with ⟨h1, h2⟩ | h | ⟨t, h1, h2⟩
        · refine .inl ⟨h1, ?_⟩
          dsimp only at h2 ⊢
          cases y <;> cases y' <;> first | exact h2.elim | exact h2 | exact hs
        · exact .inr (.inl h)
        · have h1 : y = .ok t := h1
          subst h1
          exact .inr (.inr ⟨_, rfl, h2⟩)
      | restore e =>
        have h := ih f e v s s' a j he hr hs hj
        rw [traced] at hc
        rw [traced, traced]
        generalize traced grammar u N e v false s a = x at h hc ⊢
        generalize traced grammar u N e v false s' a = x' at h ⊢
        obtain ⟨y, b⟩ := x
        obtain ⟨y', b'⟩ := x'
        rcases h (by intro e; dsimp only at e; subst e; exact hc rfl) with ⟨h1, h2⟩ | h | ⟨t, h1, h2⟩
        · refine .inl ⟨h1, ?_⟩
          dsimp only at h2 ⊢
          cases y <;> cases y' <;> first | exact h2.elim | exact h2
        · exact .inr (.inl h)
        · have h1 : y = .ok t := h1
          subst h1
          exact .inr (.inr ⟨_, rfl, h2⟩)
      | opt e =>
        have h := ih f e v s s' a j he hr hs hj
        rw [traced] at hc
        rw [traced, traced]
        generalize traced grammar u N e v false s a = x at h hc ⊢
        generalize traced grammar u N e v false s' a = x' at h ⊢
        obtain ⟨y, b⟩ := x
        obtain ⟨y', b'⟩ := x'
        rcases h (by intro e; dsimp only at e; subst e; exact hc rfl) with ⟨h1, h2⟩ | h | ⟨t, h1, h2⟩
        · refine .inl ⟨h1, ?_⟩
          dsimp only at h2 ⊢
          cases y <;> cases y' <;> first | exact h2.elim | exact h2
        · exact .inr (.inl h)
        · have h1 : y = .ok t := h1
          subst h1
          exact .inr (.inr ⟨_, rfl, h2⟩)
      | rep e =>
        have h := ih f e v s s' a j he hr hs hj
        rw [traced] at hc
        rw [traced, traced]
        generalize traced grammar u N e v false s a = x at h hc ⊢
        generalize traced grammar u N e v false s' a = x' at h ⊢
        obtain ⟨y, b⟩ := x
        obtain ⟨y', b'⟩ := x'
        rcases h (by intro e; dsimp only at e; subst e; exact hc rfl) with ⟨h1, h2⟩ | h | ⟨t, h1, h2⟩
        · have h1 : b = b' := h1
          subst h1
          dsimp only at h2
          cases y <;> cases y' <;> first | exact h2.elim | skip
          · rename_i t t'
            by_cases hl : t.pos + j ≤ n
            · exact ih (f + 1) (.rep e) v t t' b j he0 hr h2 hl hc
            · exact close_alone _ (by omega) hc (.inl rfl)
          · exact .inl ⟨rfl, h2⟩
          · exact absurd rfl hc
        · refine .inr (.inl ?_)
          have h : n < b.pos + reach := h
          cases y with
          | ok t =>
            have := tries_le (u := u) N (.rep e) v false t b
            dsimp only
            omega
          | _ => exact h
        · have h1 : y = .ok t := h1
          subst h1
          exact close_alone _ h2 hc (.inl rfl)
      | alt e1 e2 =>
        simp only at he
        split at he
        case isFalse => cases he
        case isTrue hb =>
          obtain ⟨i, k, k1, k2, rfl⟩ := bind_map_some he
          have h := ih f e1 v s s' a i k1 (by omega) hs (by omega)
          have hp : ∀ t, (traced grammar u N e1 v false s a).1 = .err t → t.pos = s.pos := by
            intro t ht
            rw [traced_run] at ht
            exact (run_back grammar_back N e1 v s t hb ht).1
          rw [traced] at hc
          rw [traced, traced]
          generalize traced grammar u N e1 v false s a = x at h hp hc ⊢
          generalize traced grammar u N e1 v false s' a = x' at h ⊢
          obtain ⟨y, b⟩ := x
          obtain ⟨y', b'⟩ := x'
          rcases h (by intro e; dsimp only at e; subst e; exact hc rfl) with ⟨h1, h2⟩ | h | ⟨t, h1, h2⟩
          · have h1 : b = b' := h1
            subst h1
            dsimp only at h2
            cases y <;> cases y' <;> first | exact h2.elim | skip
            · exact .inl ⟨rfl, h2⟩
            · rename_i t t'
              have hp := hp t rfl
              exact ih f e2 v t t' b k k2 (by omega) h2 (by omega) hc
            · exact absurd rfl hc
          · refine .inr (.inl ?_)
            have h : n < b.pos + reach := h
            cases y with
            | err t =>
              have := tries_le (u := u) N e2 v false t b
              dsimp only
              omega
            | _ => exact h
          · have h1 : y = .ok t := h1
            subst h1
            exact .inr (.inr ⟨t, rfl, h2⟩)
      | cat e1 e2 =>
        obtain ⟨i, hi, he⟩ := Option.bind_eq_some_iff.1 he
        obtain ⟨k, hk, he⟩ := Option.bind_eq_some_iff.1 he
        split at he
        case isTrue hx =>
          cases he
          have h := stepped_traced (u := u) N 12 e1 v false s s' a i hx.1 hs (by omega)
          rw [traced] at hc
          rw [traced, traced]
          generalize traced grammar u N e1 v false s a = x at h hc ⊢
          generalize traced grammar u N e1 v false s' a = x' at h ⊢
          obtain ⟨y, b⟩ := x
          obtain ⟨y', b'⟩ := x'
          obtain ⟨h1, h2, h3⟩ := h
          have h1 : b = b' := h1
          subst h1
          cases y <;> cases y' <;> first | exact h2.elim | skip
          · rename_i t t'
            have hp := h3 t (.inl rfl)
            exact ih f e2 v t t' b k hk (by omega) h2 (by omega) hc
          · exact .inl ⟨rfl, h2⟩
          · exact absurd rfl hc
        case isFalse =>
        split at he
        case isFalse => cases he
        case isTrue hx =>
          cases he
          have h := ih f e1 v s s' a i hi (by omega) hs (by omega)
          have hl := fun t => leaves_traced (u := u) N 40 true e1 v s t a
          rw [traced] at hc
          rw [traced, traced]
          generalize traced grammar u N e1 v false s a = x at h hl hc ⊢
          generalize traced grammar u N e1 v false s' a = x' at h ⊢
          obtain ⟨y, b⟩ := x
          obtain ⟨y', b'⟩ := x'
          have hy : y ≠ .crash := by intro e; subst e; exact hc rfl
          simp only [Bool.or_eq_true] at hx
          have alone : ∀ t x', y = .ok t → n < t.pos + reach → Close n (traced grammar u N e2 v false t b) x' := by
            intro t x' e ht
            subst e
            refine close_alone _ ht hc ?_
            rcases hx with (hx | hx) | hx
            · exact .inl hx
            · exact .inr (.inl (hl t hx rfl))
            · exact .inr (.inr hx)
          rcases h hy with ⟨h1, h2⟩ | h | ⟨t, h1, h2⟩
          · have h1 : b = b' := h1
            subst h1
            dsimp only at h2
            cases y <;> cases y' <;> first | exact h2.elim | skip
            · rename_i t t'
              by_cases hle : t.pos + k ≤ n
              · exact ih f e2 v t t' b k hk (by omega) h2 hle hc
              · exact alone t _ rfl (by omega)
            · exact .inl ⟨rfl, h2⟩
            · exact absurd rfl hc
          · refine .inr (.inl ?_)
            have h : n < b.pos + reach := h
            cases y with
            | ok t =>
              have := tries_le (u := u) N e2 v false t b
              dsimp only
              omega
            | _ => exact h
          · have h1 : y = .ok t := h1
            subst h1
            exact alone t _ rfl h2
      | _ => cases he

/-! ### The claims -/

/-- **C94**.  What is reported for a refused text depends only on the text up to the reported place and the nine characters
behind it: every other text that begins in the same way is refused with the same report. -/
theorem C94_same {c x : Str} (hq : '"' ∉ c) {a : Tries R} (h : smRefusal u .program (c ++ x) = some a)
    (hp : a.pos + 9 ≤ c.length) (y : Str) : smRefusal u .program (c ++ y) = some a := by
  have alive : ∀ T : Str, (traced grammar u (parseFuel T) (.call .program) Env.init false (St.init T) Tries.init).1 ≠ .crash := by
    intro T e
    rw [traced_run] at e
    have := C33_parse_terminates u .program (by decide) T
    unfold smParse at this
    rw [e] at this
    rcases this with ⟨l, h⟩ | h <;> cases h
  have hs : Agree c.length (St.init (R := R) (c ++ x)) (St.init (c ++ y)) := ⟨rfl, c, x, y, rfl, rfl, Nat.zero_add _, hq⟩
  have key := close_traced (u := u) (parseFuel (c ++ x)) 2 (.call .program) Env.init _ _ Tries.init 9 (by decide +kernel)
    (Nat.le_refl _) hs (by show 0 + 9 ≤ c.length; omega) (alive _)
  have ha := alive (c ++ y)
  have hm := fun k => traced_mono' (u := u) (n := parseFuel (c ++ y)) (m := max (parseFuel (c ++ x)) (parseFuel (c ++ y)))
    (e := .call .program) (v := Env.init) (neg := false) (s := St.init (c ++ y)) (a := Tries.init) k ha
  have hm' := fun k => traced_mono' (u := u) (n := parseFuel (c ++ x)) (m := max (parseFuel (c ++ x)) (parseFuel (c ++ y)))
    (e := .call .program) (v := Env.init) (neg := false) (s := St.init (c ++ y)) (a := Tries.init) k
  unfold smRefusal at h ⊢
  rw [← hm (Nat.le_max_right ..)]
  generalize traced grammar u (parseFuel (c ++ x)) (.call .program) Env.init false (St.init (c ++ x)) Tries.init = z at h key
  obtain ⟨w, b⟩ := z
  cases w with
  | ok t => cases h
  | crash => cases h
  | err t =>
    cases h
    rcases key with ⟨h1, h2⟩ | h | ⟨t, h, -⟩
    · generalize traced grammar u (parseFuel (c ++ x)) (.call .program) Env.init false (St.init (c ++ y)) Tries.init = z at h1 h2 hm'
      obtain ⟨w, b⟩ := z
      dsimp only at h2
      cases w with
      | ok t => exact h2.elim
      | crash => exact h2.elim
      | err t =>
        rw [hm' (Nat.le_max_left ..) (fun h => nomatch h)]
        exact congrArg some h1.symm
    · exact absurd h (by show ¬ c.length < a.pos + 9; omega)
    · cases h

/-- **C94**.  The place in lines and columns and the sentence are the same, whatever is written behind. -/
theorem C94_report {c x : Str} (hq : '"' ∉ c) {p : Nat} (h : errorAt u (c ++ x) = some p) (hp : p + 9 ≤ c.length) (y : Str) :
    errorAt u (c ++ y) = some p ∧ errorPlace u (c ++ y) = errorPlace u (c ++ x) ∧
      errorSentence u (c ++ y) = errorSentence u (c ++ x) := by
  obtain ⟨a, h1, rfl⟩ := errorAt_iff.1 h
  have h2 := C94_same hq h1 hp y
  have h3 := errorAt_iff.2 ⟨a, h2, rfl⟩
  refine ⟨h3, ?_, by rw [errorSentence, errorSentence, h1, h2]⟩
  rw [errorPlace, errorPlace, h, h3]
  simp only [Option.map_some]
  rw [List.take_append_of_le_length (by omega), List.take_append_of_le_length (by omega)]

/-- **C94**.  Where a fault has to be mended: an accepted text that begins like a refused one differs from it before the
reported place or in the nine characters behind it, unless there is a quotation mark in what they have in common. -/
theorem C94_mended {c x y : Str} (hq : '"' ∉ c) {p : Nat} (h : errorAt u (c ++ x) = some p)
    (hy : ∃ l, smParse u .program (c ++ y) = .pairs l) : c.length < p + 9 := by
  refine Nat.lt_of_not_le fun hp => ?_
  obtain ⟨a, h1, -⟩ := errorAt_iff.1 (C94_report hq h hp y).1
  obtain ⟨l, hl⟩ := hy
  rw [(refusal_iff .program (c ++ y)).1 ⟨a, h1⟩] at hl
  cases hl

/-- **C94**.  While an accepted text is typed, an error can be shown only in the last nine characters. -/
theorem C94_typing {c y : Str} (hq : '"' ∉ c) (hy : ∃ l, smParse u .program (c ++ y) = .pairs l) {p : Nat}
    (h : errorAt u c = some p) : c.length < p + 9 :=
  C94_mended (x := []) hq (by rw [List.append_nil]; exact h) hy

/-- **C94**.  An error that is reported further back than that cannot be mended by going on typing, and stays as it is. -/
theorem C94_stays {c : Str} (hq : '"' ∉ c) {p : Nat} (h : errorAt u c = some p) (hp : p + 9 ≤ c.length) (y : Str) :
    errorAt u (c ++ y) = some p ∧ errorSentence u (c ++ y) = errorSentence u c := by
  have := C94_report (x := []) hq (by rw [List.append_nil]; exact h) hp y
  rw [List.append_nil] at this
  exact ⟨this.1, this.2.2⟩

/-! ### Cases -/

/-- Whatever follows, the comma is reported. -/
example (y : Str) : errorPlace asciiUni (c!"\n[,1,2,3,4,5" ++ y) = some (2, 2) := by
  have h : errorAt asciiUni (c!"\n[,1,2,3,4,5" ++ []) = some 2 := by decide +kernel
  rw [(C94_report (by simp) h (by decide) y).2.1]
  decide +kernel

/-- A comment that is being typed: the error is one character before the end. -/
example : errorAt asciiUni c!"a%%" = some 2 ∧ errorAt asciiUni c!"a%%%%%%" = none := by
  constructor <;> decide +kernel

/-- The quotation mark: a string literal that is not closed is reported right behind its mark, and is mended far behind. -/
example : errorAt asciiUni c!"\"123456789" = some 1 ∧ errorAt asciiUni c!"\"123456789\"" = none := by
  constructor <;> decide +kernel

end SM.Props
