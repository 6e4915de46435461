import Verif.Props.Expected
/-
C92: what a syntax error says was expected does not stand there.
-/
namespace SM.Props
open SM SM.Peg

variable {u : Uni}

/-! ### Rules that were tried in vain -/

/-- The rule `r` was tried at offset `p` of the text `T` and did not match. -/
def Vain (u : Uni) (T : Str) (r : R) (p : Nat) : Prop :=
  ∃ v s t, At T s ∧ s.pos = p ∧ sem grammar u (.call r) v s = .err t

/-- All rules named as missing did not match at the position. -/
def Honest (u : Uni) (T : Str) (a : Tries R) : Prop := ∀ r ∈ a.wanted, Vain u T r a.pos

theorem Honest.track {T : Str} {a b : Tries R} (hb : Honest u T b) {t : Atomicity} {neg : Bool} {r : R} {p : Nat}
    (h : neg = false → Vain u T r p) : Honest u T (b.track t neg r p a) := by
  unfold Tries.track
  split
  · exact hb
  split
  · exact hb
  · extract_lets i j c d
    have hc : Honest u T c := by
      show Honest u T (if p = b.pos then _ else b)
      split
      · exact fun r hr => hb r (List.mem_of_mem_take hr)
      · exact hb
    have hd : Honest u T d := by
      show Honest u T (if p > c.pos then _ else c)
      split
      · exact fun _ h => nomatch h
      · exact hc
    split
    next hp =>
      split
      · exact hd
      next hn =>
        intro x hx
        rcases List.mem_append.1 hx with hx | hx
        · exact hd x hx
        · rw [List.mem_singleton.1 hx, ← show p = d.pos from hp]
          exact h (by simpa using hn)
    · exact hd

/-- No rule is named by the expression itself. -/
def untitled : PE R → Bool
  | .rule _ _ => false
  | .atomic _ e | .ifNon e | .seq e | .opt e | .rep e | .restore e | .look _ e | .push e => untitled e
  | .alt e f | .cat e f => untitled e && untitled f
  | _ => true

/-- A body names its own rule, at the outside, or none. -/
def titled (r : R) : PE R → Bool
  | .rule q e => decide (q = r) && untitled e
  | .atomic _ (.rule q e) => decide (q = r) && untitled e
  | e => untitled e

theorem grammar_titled : ∀ r : R, titled r (grammar r) = true := by
  intro r; cases r <;> decide +kernel

theorem traced_honest {T : Str} (n : Nat) : ∀ (e : PE R) (v : Env) (neg : Bool) (s : St R) (a : Tries R),
    untitled e = true → At T s → Honest u T a → Honest u T (traced grammar u n e v neg s a).2 := by
  induction n using Nat.strongRecOn with
  | ind n ih =>
  intro e v neg s a he hs ha
  cases n with
  | zero => exact ha
  | succ n =>
    have next : ∀ (e : PE R) (t : St R), (traced grammar u n e v neg s a).1 = .ok t ∨
        (traced grammar u n e v neg s a).1 = .err t → At T t := by
      intro e t k
      rw [traced_run] at k
      have := run_forth grammar u T n e v s hs
      rcases k with k | k <;> rw [k] at this <;> exact this.1
    have ih' := ih n (Nat.lt_succ_self n)
    cases e with
    | call r =>
      have main : ∀ (m : Nat) (w : Env) (b : PE R), m < n → untitled b = true →
          (traced grammar u n (grammar r) v neg s a) = traced grammar u (m + 1) (.rule r b) w neg s a →
          Honest u T (traced grammar u n (grammar r) v neg s a).2 := by
        intro m w b hm hb e
        have hr := traced_run (g := grammar) (u := u) (n + 1) (.call r) v neg s a
        rw [show traced grammar u (n + 1) (.call r) v neg s a = traced grammar u n (grammar r) v neg s a from rfl] at hr
        rw [e] at hr ⊢
        have hx := ih m (by omega) b w neg (if w.emits then { s with queue := [] } else s) a hb (by split <;> exact hs) ha
        rw [traced] at hr ⊢
        generalize traced grammar u m b w neg (if w.emits then { s with queue := [] } else s) a = x at hx hr
        dsimp only at hr ⊢
        split
        next hbl =>
          refine hx.track fun hn => ?_
          subst hn
          obtain ⟨y, c⟩ := x
          cases y with
          | ok t => cases hbl
          | crash => cases hbl
          | err t =>
            have hr : ∃ t, run grammar u (n + 1) (.call r) v s = .err t := by
              rw [← hr]
              split <;> exact ⟨_, rfl⟩
            obtain ⟨t', hr⟩ := hr
            exact ⟨v, s, t', hs, rfl, by rw [← run_eq_sem (by rw [hr]; simp), hr]⟩
        · exact hx
      show Honest u T (traced grammar u n (grammar r) v neg s a).2
      have ht := grammar_titled r
      unfold titled at ht
      split at ht
      next q e hg =>
        simp only [Bool.and_eq_true, decide_eq_true_eq] at ht
        obtain ⟨rfl, ht⟩ := ht
        cases n with
        | zero => exact ha
        | succ n => exact main n v e (Nat.lt_succ_self n) ht (by rw [hg])
      next t q e hg =>
        simp only [Bool.and_eq_true, decide_eq_true_eq] at ht
        obtain ⟨rfl, ht⟩ := ht
        cases n with
        | zero => exact ha
        | succ n =>
          cases n with
          | zero => rw [hg]; exact ha
          | succ n => exact main n { v with atomicity := t } e (by omega) ht (by rw [hg]; rfl)
      · exact ih' _ _ _ _ _ ht hs ha
    | rule r e => cases he
    | atomic t e => exact ih' e _ neg s a he hs ha
    | ifNon e =>
      rw [traced]
      split
      · exact ih' e _ neg s a he hs ha
      · exact ha
    | seq e => exact ih' e v neg s a he hs ha
    | opt e => exact ih' e v neg s a he hs ha
    | rep e =>
      rw [traced]
      have h1 := ih' e v neg s a he hs ha
      have h2 := next e
      generalize traced grammar u n e v neg s a = x at h1 h2 ⊢
      obtain ⟨y, b⟩ := x
      cases y with
      | ok t => exact ih' (.rep e) _ _ _ _ he (h2 t (.inl rfl)) h1
      | err t => exact h1
      | crash => exact h1
    | alt e f =>
      simp only [untitled, Bool.and_eq_true] at he
      rw [traced]
      have h1 := ih' e v neg s a he.1 hs ha
      have h2 := next e
      generalize traced grammar u n e v neg s a = x at h1 h2 ⊢
      obtain ⟨y, b⟩ := x
      cases y with
      | ok t => exact h1
      | err t => exact ih' _ _ _ _ _ he.2 (h2 t (.inr rfl)) h1
      | crash => exact h1
    | cat e f =>
      simp only [untitled, Bool.and_eq_true] at he
      rw [traced]
      have h1 := ih' e v neg s a he.1 hs ha
      have h2 := next e
      generalize traced grammar u n e v neg s a = x at h1 h2 ⊢
      obtain ⟨y, b⟩ := x
      cases y with
      | ok t => exact ih' _ _ _ _ _ he.2 (h2 t (.inl rfl)) h1
      | err t => exact h1
      | crash => exact h1
    | restore e => exact ih' e v neg s a he hs ha
    | look p e => exact ih' e _ _ s a he hs ha
    | push e => exact ih' e v neg s a he hs ha
    | _ => exact ha

/-- **C92**.  Every rule that is named as missing was tried at the position reported, and did not match there. -/
theorem C92_missing (u : Uni) {T : Str} {a : Tries R} (h : smRefusal u .program T = some a) {r : R} (hr : r ∈ a.wanted) :
    Vain u T r a.pos := by
  unfold smRefusal at h
  have hs := traced_honest (u := u) (T := T) (parseFuel T) (.call .program) Env.init false (St.init T) Tries.init
    rfl (at_init T) (fun _ h => nomatch h)
  generalize traced grammar u (parseFuel T) (.call .program) Env.init false (St.init T) Tries.init = x at h hs
  obtain ⟨y, b⟩ := x
  cases y with
  | ok t => cases h
  | err t => cases h; exact hs r hr
  | crash => cases h

/-! ### What does not stand at the position -/

/-- What a rule may begin with. -/
inductive Opener where
  /-- the text `x` -/
  | word (x : Str)
  /-- a character from `a` to `b` -/
  | between (a b : Char)
  /-- a character of the class -/
  | cls (p : Uc)
  deriving DecidableEq

/-- The text begins so. -/
def Opener.At (u : Uni) : Opener → Str → Prop
  | .word x, w => ∃ z, w = x ++ z
  | .between a b, w => ∃ c z, w = c :: z ∧ a ≤ c ∧ c ≤ b
  | .cls p, w => ∃ c z, w = c :: z ∧ u p c = true

/-- The expression cannot fail. -/
def never : Nat → PE R → Bool
  | 0, _ => false
  | n + 1, e => match e with
    | .call r => never n (grammar r)
    | .rule _ e | .atomic _ e | .seq e | .restore e | .ifNon e => never n e
    | .opt _ | .rep _ => true
    | .cat a b => never n a && never n b
    | .alt _ b => never n b
    | _ => false

/-- Beginnings on which the expression never fails. -/
def openers : Nat → PE R → List Opener
  | 0, _ => []
  | n + 1, e => match e with
    | .call r => openers n (grammar r)
    | .rule _ e | .atomic _ e | .seq e | .restore e => openers n e
    | .str x => [.word x]
    | .range a b => [.between a b]
    | .uni p => [.cls p]
    | .alt a b => openers n a ++ if back a then openers n b else []
    | .cat a b => if never n b then openers n a else []
    | _ => []

/-- On the text `w`, the expression fails in some state. -/
def Lost (u : Uni) (e : PE R) (w : Str) : Prop := ∃ v s t, s.rest = w ∧ sem grammar u e v s = .err t

theorem err_mapBoth {x : Res R} {f k : St R → St R} {t : St R} (h : x.mapBoth f k = .err t) : ∃ t', x = .err t' := by
  cases x with
  | err t' => exact ⟨t', rfl⟩
  | _ => cases h

theorem err_andThen {x : Res R} {f : St R → Res R} {t : St R} (h : x.andThen f = .err t) :
    (∃ t', x = .err t') ∨ ∃ t', x = .ok t' ∧ f t' = .err t := by
  cases x with
  | ok t' => exact .inr ⟨t', rfl, h⟩
  | err t' => exact .inl ⟨t', rfl⟩
  | crash => cases h

theorem err_orElse {x : Res R} {f : St R → Res R} {t : St R} (h : x.orElse f = .err t) :
    ∃ t', x = .err t' ∧ f t' = .err t := by
  cases x with
  | err t' => exact ⟨t', rfl, h⟩
  | _ => cases h

theorem Lost.call {r : R} {w : Str} (h : Lost u (.call r) w) : Lost u (grammar r) w := by
  obtain ⟨v, s, t, hs, h⟩ := h
  exact ⟨v, s, t, hs, by rw [← sem_call, h]⟩

theorem Lost.rule {r : R} {e : PE R} {w : Str} (h : Lost u (.rule r e) w) : Lost u e w := by
  obtain ⟨v, s, t, hs, h⟩ := h
  rw [sem_rule] at h
  split at h
  · obtain ⟨t', h⟩ := err_mapBoth h
    exact ⟨v, { s with queue := [] }, t', hs, h⟩
  · exact ⟨v, s, t, hs, h⟩

theorem Lost.atomic {a : Atomicity} {e : PE R} {w : Str} (h : Lost u (.atomic a e) w) : Lost u e w := by
  obtain ⟨v, s, t, hs, h⟩ := h
  rw [sem_atomic] at h
  exact ⟨_, s, t, hs, h⟩

theorem Lost.seq {e : PE R} {w : Str} (h : Lost u (.seq e) w) : Lost u e w := by
  obtain ⟨v, s, t, hs, h⟩ := h
  rw [sem_seq] at h
  obtain ⟨t', h⟩ := err_mapBoth h
  exact ⟨v, s, t', hs, h⟩

theorem Lost.restore {e : PE R} {w : Str} (h : Lost u (.restore e) w) : Lost u e w := by
  obtain ⟨v, s, t, hs, h⟩ := h
  rw [sem_restore] at h
  obtain ⟨t', h⟩ := err_mapBoth h
  exact ⟨v, s, t', hs, h⟩

theorem Lost.ifNon {e : PE R} {w : Str} (h : Lost u (.ifNon e) w) : Lost u e w := by
  obtain ⟨v, s, t, hs, h⟩ := h
  rw [sem_ifNon] at h
  split at h
  · exact ⟨v, s, t, hs, h⟩
  · cases h

theorem Lost.alt {a b : PE R} {w : Str} (h : Lost u (.alt a b) w) : Lost u a w ∧ ∃ w', Lost u b w' ∧ (back a = true → w' = w) := by
  obtain ⟨v, s, t, hs, h⟩ := h
  rw [sem_alt] at h
  obtain ⟨t', h1, h2⟩ := err_orElse h
  refine ⟨⟨v, s, t', hs, h1⟩, t'.rest, ⟨v, t', t, rfl, h2⟩, fun hb => ?_⟩
  obtain ⟨n, hn⟩ := sem_settles grammar u a v s
  exact ((run_back grammar_back n a v s t' hb ((hn n (Nat.le_refl _)).trans h1)).2).trans hs

theorem Lost.cat {a b : PE R} {w : Str} (h : Lost u (.cat a b) w) : Lost u a w ∨ ∃ w', Lost u b w' := by
  obtain ⟨v, s, t, hs, h⟩ := h
  rw [sem_cat] at h
  rcases err_andThen h with ⟨t', h⟩ | ⟨t', -, h⟩
  · exact .inl ⟨v, s, t', hs, h⟩
  · exact .inr ⟨_, v, t', t, rfl, h⟩

theorem run_rep_lands (n : Nat) (e : PE R) (v : Env) : ∀ (s t : St R), run grammar u n (.rep e) v s ≠ .err t := by
  induction n with
  | zero => intro s t h; cases h
  | succ n ih =>
    intro s t h
    rw [run] at h
    generalize run grammar u n e v s = x at h
    cases x with
    | ok t' => exact ih _ _ h
    | err _ => cases h
    | crash => cases h

theorem Lost.rep {e : PE R} {w : Str} (h : Lost u (.rep e) w) : False := by
  obtain ⟨v, s, t, hs, h⟩ := h
  obtain ⟨n, hn⟩ := sem_settles grammar u (.rep e) v s
  exact run_rep_lands n e v s t ((hn n (Nat.le_refl _)).trans h)

theorem Lost.opt {e : PE R} {w : Str} (h : Lost u (.opt e) w) : False := by
  obtain ⟨v, s, t, hs, h⟩ := h
  rw [sem_opt] at h
  cases hx : sem grammar u e v s <;> rw [hx] at h <;> cases h

theorem never_lost (n : Nat) : ∀ {e : PE R} {w : Str}, never n e = true → ¬ Lost u e w := by
  induction n with
  | zero => intro e w h; cases h
  | succ n ih =>
    intro e w hn h
    cases e with
    | call r => exact ih hn h.call
    | rule r e => exact ih hn h.rule
    | atomic a e => exact ih hn h.atomic
    | seq e => exact ih hn h.seq
    | restore e => exact ih hn h.restore
    | ifNon e => exact ih hn h.ifNon
    | opt e => exact h.opt
    | rep e => exact h.rep
    | cat a b =>
      simp only [never, Bool.and_eq_true] at hn
      rcases h.cat with h | ⟨w', h⟩
      · exact ih hn.1 h
      · exact ih hn.2 h
    | alt a b =>
      obtain ⟨-, w', h, -⟩ := h.alt
      exact ih hn h
    | _ => cases hn

theorem openers_lost (n : Nat) : ∀ {e : PE R} {w : Str} {o : Opener}, o ∈ openers n e → o.At u w → ¬ Lost u e w := by
  induction n with
  | zero => intro e w o h; cases h
  | succ n ih =>
    intro e w o ho hw h
    cases e with
    | call r => exact ih ho hw h.call
    | rule r e => exact ih ho hw h.rule
    | atomic a e => exact ih ho hw h.atomic
    | seq e => exact ih ho hw h.seq
    | restore e => exact ih ho hw h.restore
    | str x =>
      obtain ⟨v, s, t, rfl, h⟩ := h
      obtain rfl := List.mem_singleton.1 ho
      obtain ⟨z, hz⟩ := hw
      rw [sem_str, St.matchStr, hz, strip_self] at h
      cases h
    | range a b =>
      obtain ⟨v, s, t, rfl, h⟩ := h
      obtain rfl := List.mem_singleton.1 ho
      obtain ⟨c, z, hz, h1, h2⟩ := hw
      rw [sem_range, St.charBy, hz] at h
      simp [h1, h2] at h
    | uni p =>
      obtain ⟨v, s, t, rfl, h⟩ := h
      obtain rfl := List.mem_singleton.1 ho
      obtain ⟨c, z, hz, h1⟩ := hw
      rw [sem_uni, St.charBy, hz] at h
      simp [h1] at h
    | alt a b =>
      obtain ⟨h1, w', h2, e⟩ := h.alt
      rcases List.mem_append.1 ho with ho | ho
      · exact ih ho hw h1
      · split at ho
        next hb => rw [e hb] at h2; exact ih ho hw h2
        · cases ho
    | cat a b =>
      rw [openers] at ho
      split at ho
      next hb =>
        rcases h.cat with h | ⟨w', h⟩
        · exact ih ho hw h
        · exact never_lost n hb h
      · cases ho
    | _ => cases ho

theorem Vain.lost {T : Str} {r : R} {p : Nat} (h : Vain u T r p) : Lost u (.call r) (T.drop p) := by
  obtain ⟨v, s, t, hs, rfl, h⟩ := h
  exact ⟨v, s, t, hs.2, h⟩

/-! #### Operands -/

theorem fails_sign {v : Env} {c : Char} (h : c ∉ ['!', '¬', '+', '-', '*']) (z : Str) : Fails u v (.call .Prefix) (c :: z) := by
  refine fails_first (by decide +kernel) (by decide +kernel) (by decide) (by decide) ?_
  rw [show gFirst .Prefix = [.chr '!', .chr '¬', .chr '+', .chr '-', .chr '*'] by decide +kernel]
  simp only [List.mem_cons, List.not_mem_nil, or_false, not_or] at h
  obtain ⟨h1, h2, h3, h4, h5⟩ := h
  simp [hits, CS.has, Ne.symm h1, Ne.symm h2, Ne.symm h3, Ne.symm h4, Ne.symm h5]

/-- What operands may begin with: literals, placeholders and names. -/
def operandTexts : List Opener :=
  [.word c!"null", .word c!"true", .word c!"false", .word c!"¶", .word c!"⁋", .word c!"#", .word c!"0", .between '1' '9',
    .cls .xidStart]

theorem operandTexts_node : ∀ o ∈ operandTexts, o ∈ openers 30 (.call .node) := by decide +kernel

/-- Operands do not begin with a sign. -/
theorem operandTexts_sign (L : Lawful u) {o : Opener} (ho : o ∈ operandTexts) {w : Str} (h : o.At u w) :
    ∃ c z, w = c :: z ∧ c ∉ ['!', '¬', '+', '-', '*'] := by
  simp only [operandTexts, List.mem_cons, List.not_mem_nil, or_false] at ho
  rcases ho with rfl | rfl | rfl | rfl | rfl | rfl | rfl | rfl | rfl
  case inr.inr.inr.inr.inr.inr.inr.inl =>
    obtain ⟨c, z, rfl, h1, h2⟩ := h
    refine ⟨c, z, rfl, fun h => ?_⟩
    revert h1 h2
    simp only [List.mem_cons, List.not_mem_nil, or_false] at h
    rcases h with rfl | rfl | rfl | rfl | rfl <;> decide
  case inr.inr.inr.inr.inr.inr.inr.inr =>
    obtain ⟨c, z, rfl, h⟩ := h
    refine ⟨c, z, rfl, fun hc => ?_⟩
    simp only [List.mem_cons, List.not_mem_nil, or_false] at hc
    rcases hc with rfl | rfl | rfl | rfl | rfl <;> rw [L.plain _ _ (by decide)] at h <;> revert h <;> decide
  all_goals
    obtain ⟨z, rfl⟩ := h
    exact ⟨_, _, rfl, by decide⟩

theorem operandTexts_term (L : Lawful u) {o : Opener} (ho : o ∈ operandTexts) {w : Str} (hw : o.At u w) : ¬ Lost u (.call .term) w := by
  intro h
  obtain ⟨c, z, rfl, hc⟩ := operandTexts_sign L ho hw
  refine openers_lost 30 (operandTexts_node o ho) hw ?_
  have h := h.call
  rw [show grammar .term = body_term from rfl, body_term] at h
  rcases h.atomic.rule.seq.cat with h | ⟨w', h⟩
  · obtain ⟨v, s, t, hs, h⟩ := h
    have hf := fails_sign (u := u) (v := v) hc z s.pos s.stack s.queue
    rw [← hs] at hf
    rw [sem_cat, sem_rep] at h
    rw [show sem grammar u (.call .Prefix) v s = .err s from hf] at h
    exact ⟨v, s, t, hs, h⟩
  · exact h.rep.elim

theorem operandTexts_expr (L : Lawful u) {o : Opener} (ho : o ∈ operandTexts) {w : Str} (hw : o.At u w) : ¬ Lost u (.call .expr) w := by
  intro h
  have h := h.call
  rw [show grammar .expr = body_expr from rfl, body_expr] at h
  rcases h.atomic.rule.seq.cat with h | ⟨w', h⟩
  · rcases h.cat with h | ⟨w', h⟩
    · exact operandTexts_term L ho hw h
    · exact never_lost 30 (by decide +kernel) h
  · exact h.seq.opt.elim

/-! ### The claims -/

/-- What texts a reader takes the names of a sentence for. -/
def standsFor : List (R × List Opener) :=
  [(.Comma, [.word c!",", .word c!"，"]), (.Semicolon, [.word c!";", .word c!"；"]), (.Colon, [.word c!":", .word c!"："]),
    (.Proportion, [.word c!"::", .word c!"∷"]), (.Dot, [.word c!"."]), (.Set, [.word c!"="]), (.Quotation, [.word c!"\""]),
    (.Plus, [.word c!"+"]), (.Minus, [.word c!"-"]), (.Multiply, [.word c!"*", .word c!"×"]),
    (.Divide, [.word c!"/", .word c!"÷"]), (.Quotient, [.word c!"//"]), (.Modulo, [.word c!"%"]), (.Power, [.word c!"^"]),
    (.CenterDot, [.word c!"⋅"]), (.Kronecker, [.word c!"⊗"]), (.TensorProduct, [.word c!"⊙"]),
    (.Equal, [.word c!"=="]), (.GraterEqual, [.word c!">="]), (.Grater, [.word c!">"]),
    (.Prefix, [.word c!"!", .word c!"¬", .word c!"+", .word c!"-", .word c!"*"]),
    (.Suffix, [.word c!"'", .word c!"!!", .word c!"!", .word c!"?"]),
    (.Integer, [.between '0' '9']), (.SYMBOL, [.cls .xidStart]), (.Symbol, [.cls .xidStart]),
    (.Special, [.word c!"null", .word c!"true", .word c!"false"]), (.Slot, [.word c!"#"]), (.REPL, [.word c!"¶", .word c!"⁋"]),
    (.data, operandTexts), (.node, operandTexts), (.term, operandTexts), (.expr, operandTexts)]

/-- All the rules of the table but the last two and the digits are covered by the search. -/
theorem standsFor_openers : ∀ p ∈ standsFor, p.1 ∉ [.Integer, .term, .expr] → ∀ o ∈ p.2, o ∈ openers 30 (.call p.1) := by
  decide +kernel

/-- **C92**.  No text that a listed name stands for stands at the position reported. -/
theorem C92_absent (L : Lawful u) {T : Str} {a : Tries R} (h : smRefusal u .program T = some a) {r : R} (hr : r ∈ a.wanted)
    {l : List Opener} (hl : (r, l) ∈ standsFor) {o : Opener} (ho : o ∈ l) : ¬ o.At u (T.drop a.pos) := by
  intro hw
  have hv := (C92_missing u h hr).lost
  by_cases hc : r ∈ [.Integer, .term, .expr]
  · simp only [List.mem_cons, List.not_mem_nil, or_false] at hc
    rcases hc with rfl | rfl | rfl
    · have : l = [.between '0' '9'] := by
        have : ∀ p ∈ standsFor, p.1 = .Integer → p.2 = [.between '0' '9'] := by decide +kernel
        exact this _ hl rfl
      subst this
      obtain rfl := List.mem_singleton.1 ho
      obtain ⟨c, z, hz, h1, h2⟩ := hw
      by_cases h0 : c = '0'
      · subst h0
        exact openers_lost 30 (o := .word c!"0") (by decide +kernel) ⟨z, hz⟩ hv
      · refine openers_lost 30 (o := .between '1' '9') (by decide +kernel) ⟨c, z, hz, ?_, h2⟩ hv
        have h3 : ('0' : Char).toNat ≤ c.toNat := h1
        have h4 : c.toNat ≠ ('0' : Char).toNat := fun e => h0 (Char.toNat_inj.1 e)
        show ('1' : Char).toNat ≤ c.toNat
        have e0 : ('0' : Char).toNat = 48 := rfl
        have e1 : ('1' : Char).toNat = 49 := rfl
        omega
    · have : l = operandTexts := by
        have : ∀ p ∈ standsFor, p.1 = .term → p.2 = operandTexts := by decide +kernel
        exact this _ hl rfl
      subst this
      exact operandTexts_term L ho hw hv
    · have : l = operandTexts := by
        have : ∀ p ∈ standsFor, p.1 = .expr → p.2 = operandTexts := by decide +kernel
        exact this _ hl rfl
      subst this
      exact operandTexts_expr L ho hw hv
  · exact openers_lost 30 (standsFor_openers _ hl hc o ho) hw hv

/-- **C92**.  If the end of the input is listed, the position is not the end of the text. -/
theorem C92_end (u : Uni) {T : Str} {a : Tries R} (h : smRefusal u .program T = some a) (hr : R.EOI ∈ a.wanted) :
    a.pos < T.length := by
  obtain ⟨v, s, t, hs, hp, he⟩ := C92_missing u h hr
  rw [← hp]
  refine Nat.lt_of_le_of_ne hs.1 fun e => ?_
  have hl : Lost u (.call .EOI) s.rest := ⟨v, s, t, rfl, he⟩
  obtain ⟨v, s', t, hs', he⟩ := hl.call.rule
  rw [sem_eoi, hs', hs.2, e, List.drop_length] at he
  cases he

/-! ### Cases -/

/-- Behind the sign stands `)`: neither a number nor a name. -/
example : errorSentence asciiUni c!"1 + )" = some c!"expected term or MultiLineComment" ∧
    (smRefusal asciiUni .program c!"1 + )").map (·.pos) = some 4 := by decide +kernel

example : ¬ (Opener.cls .xidStart).At asciiUni (c!"1 + )".drop 4) := by
  obtain ⟨a, h⟩ : ∃ a, smRefusal asciiUni .program c!"1 + )" = some a := Option.isSome_iff_exists.1 (by decide +kernel)
  have hp : a.pos = 4 ∧ R.term ∈ a.wanted := by
    have : (smRefusal asciiUni .program c!"1 + )").map (fun a => (a.pos, decide (R.term ∈ a.wanted))) = some (4, true) := by
      decide +kernel
    rw [h] at this
    simpa using this
  have := C92_absent lawful_asciiUni h hp.2 (l := operandTexts) (by decide +kernel) (o := .cls .xidStart) (by decide +kernel)
  rwa [hp.1] at this

/-- A closing bracket too many: the end of the input is missing there, but the text goes on. -/
example : (smRefusal asciiUni .program c!")").map (fun a => (a.pos, decide (R.EOI ∈ a.wanted))) = some (0, true) := by
  decide +kernel

end SM.Props
