import Verif.Props.Lines
import Verif.Props.Hole
import Verif.Props.Honest
/-
C93: a syntax error is the same, whichever way lines end.
-/
namespace SM.Props
open SM SM.Peg

variable {u : Uni} {G : Gauge}

/-! ### Records of attempts in two texts -/

/-- Corresponding offsets are in the same order. -/
def Gauge.Rising (G : Gauge) : Prop := ∀ {a l b m a2 l2 b2 m2}, G.at_ a l b m → G.at_ a2 l2 b2 m2 → (a < a2 ↔ b < b2)

/-- Offsets that correspond. -/
def Paired (G : Gauge) (a b : Nat) : Prop := ∃ l m, G.at_ a l b m

theorem Gauge.Rising.lt (h : G.Rising) {a b a2 b2 : Nat} (h1 : Paired G a b) (h2 : Paired G a2 b2) : a < a2 ↔ b < b2 := by
  obtain ⟨_, _, h1⟩ := h1
  obtain ⟨_, _, h2⟩ := h2
  exact h h1 h2

/-- The same rules were tried, at corresponding offsets. -/
structure SameTries (G : Gauge) (a b : Tries R) : Prop where
  pos : Paired G a.pos b.pos
  wanted : a.wanted = b.wanted
  unwanted : a.unwanted = b.unwanted

/-- The same rules were tried, or none at the offsets `p` and `q` and after them. -/
def NearTries (G : Gauge) (p q : Nat) (a b : Tries R) : Prop := SameTries G a b ∨ (a.pos < p ∧ b.pos < q)

theorem Tries.at_other {a : Tries R} {x : Nat} (h : a.pos ≠ x) : a.at x = 0 := if_neg h

theorem track_behind {a b : Tries R} {t : Atomicity} {r : R} {x : Nat} (h : x < b.pos) : b.track t false r x a = b := by
  unfold Tries.track
  split
  · rfl
  · have h1 : ¬ x = b.pos := by omega
    have h2 : ¬ b.pos < x := by omega
    simp [h1, h2]

theorem track_ahead {a b : Tries R} {t : Atomicity} (ht : t ≠ .atomic) {r : R} {x : Nat} (h : b.pos < x) :
    b.track t false r x a = ⟨x, [r], []⟩ := by
  unfold Tries.track
  have h1 : ¬ x = b.pos := by omega
  rw [Tries.at_other (by omega : b.pos ≠ x), if_neg ht, if_neg (by omega)]
  simp [h1, h]

theorem track_there {a b : Tries R} {t : Atomicity} (ht : t ≠ .atomic) {r : R} : b.track t false r b.pos a =
    if b.wanted.length + b.unwanted.length = a.at b.pos + 1 then b else
    ⟨b.pos, b.wanted.take (if b.pos = a.pos then a.wanted.length else 0) ++ [r],
      b.unwanted.take (if b.pos = a.pos then a.unwanted.length else 0)⟩ := by
  unfold Tries.track
  rw [if_neg ht, show b.at b.pos = b.wanted.length + b.unwanted.length from if_pos rfl]
  split
  · rfl
  · simp

theorem NearTries.track (hR : G.Rising) {p q : Nat} {a a' b b' : Tries R} (ha : NearTries G p q a a')
    (hb : NearTries G p q b b') (h1 : a.pos ≤ b.pos) (h2 : a'.pos ≤ b'.pos) {x x' : Nat} (hx : Paired G x x') (hp : p ≤ x)
    (hq : q ≤ x') (t : Atomicity) (r : R) : NearTries G p q (b.track t false r x a) (b'.track t false r x' a') := by
  by_cases ht : t = .atomic
  · subst ht
    exact hb
  rcases hb with hb | ⟨h3, h4⟩
  · have k1 := hR.lt hx hb.pos
    have k2 := hR.lt hb.pos hx
    by_cases c1 : x < b.pos
    · rw [track_behind c1, track_behind (k1.1 c1)]; exact .inl hb
    by_cases c2 : b.pos < x
    · rw [track_ahead ht c2, track_ahead ht (k2.1 c2)]; exact .inl ⟨hx, rfl, rfl⟩
    have e : x = b.pos := by omega
    have e' : x' = b'.pos := by
      have := fun h => c1 (k1.2 h)
      have := fun h => c2 (k2.2 h)
      omega
    subst e e'
    rw [track_there ht, track_there ht]
    have k : a.at b.pos = a'.at b'.pos ∧
        (if b.pos = a.pos then a.wanted.length else 0) = (if b'.pos = a'.pos then a'.wanted.length else 0) ∧
        (if b.pos = a.pos then a.unwanted.length else 0) = (if b'.pos = a'.pos then a'.unwanted.length else 0) := by
      rcases ha with ha | ⟨h5, h6⟩
      · have l1 := hR.lt ha.pos hx
        have l2 := hR.lt hx ha.pos
        by_cases d : b.pos = a.pos
        · have d' : b'.pos = a'.pos := by omega
          rw [Tries.at, Tries.at, if_pos d.symm, if_pos d'.symm, if_pos d, if_pos d', if_pos d, if_pos d', ha.wanted, ha.unwanted]
          exact ⟨rfl, rfl, rfl⟩
        · have d' : b'.pos ≠ a'.pos := by omega
          rw [Tries.at, Tries.at, if_neg (Ne.symm d), if_neg (Ne.symm d'), if_neg d, if_neg d', if_neg d, if_neg d']
          exact ⟨rfl, rfl, rfl⟩
      · rw [Tries.at_other (by omega : a.pos ≠ b.pos), Tries.at_other (by omega : a'.pos ≠ b'.pos),
          if_neg (by omega), if_neg (by omega), if_neg (by omega), if_neg (by omega)]
        exact ⟨rfl, rfl, rfl⟩
    obtain ⟨k1, k2, k3⟩ := k
    rw [hb.wanted, hb.unwanted, k1, k2, k3]
    split
    · exact .inl hb
    · exact .inl ⟨hb.pos, rfl, rfl⟩
  · rw [track_ahead ht (by omega), track_ahead ht (by omega)]
    exact .inl ⟨hx, rfl, rfl⟩

/-! ### Parts of the grammar that try no rule -/

/-- No rule is reached. -/
def muteE : Nat → PE R → Bool
  | 0, _ => false
  | n + 1, e => match e with
    | .call r => muteE n (grammar r)
    | .rule _ _ => false
    | .atomic _ e | .ifNon e | .seq e | .opt e | .rep e | .restore e | .look _ e | .push e => muteE n e
    | .alt a b | .cat a b => muteE n a && muteE n b
    | _ => true

/-- No rule is tried where it should not match, in what is read without quotation marks. -/
def fairE : PE R → Bool
  | .look p e => p && fairE e || muteE 9 e
  | .rule _ e | .atomic _ e | .ifNon e | .seq e | .opt e | .rep e | .restore e | .push e => fairE e
  | .alt a b => fairE a && fairE b
  | .cat a b => fairE a && (quoteless a || fairE b)
  | _ => true

theorem grammar_fair : ∀ r : R, aside r = false → fairE (grammar r) = true := by
  intro r h1
  cases r <;> first | decide +kernel | exact absurd h1 (by decide)

theorem mute_traced (n : Nat) : ∀ (k : Nat) (e : PE R) (v : Env) (neg : Bool) (s : St R) (a : Tries R), muteE k e = true →
    (traced grammar u n e v neg s a).2 = a := by
  induction n with
  | zero => intro k e v neg s a _; rfl
  | succ n ih =>
    intro k e v neg s a h
    cases k with
    | zero => cases h
    | succ k =>
      cases e with
      | call r => exact ih k _ _ _ _ _ h
      | rule r e => cases h
      | atomic t e => exact ih k _ _ _ _ _ h
      | ifNon e =>
        rw [traced]
        split
        · exact ih k _ _ _ _ _ h
        · rfl
      | seq e => exact ih k _ _ _ _ _ h
      | opt e => exact ih k _ _ _ _ _ h
      | rep e =>
        have h1 := ih k e v neg s a h
        rw [traced]
        generalize traced grammar u n e v neg s a = x at h1 ⊢
        obtain ⟨y, b⟩ := x
        have h1 : b = a := h1
        subst h1
        cases y with
        | ok t => exact ih (k + 1) (.rep e) _ _ _ _ h
        | _ => rfl
      | alt e f =>
        simp only [muteE, Bool.and_eq_true] at h
        have h1 := ih k e v neg s a h.1
        rw [traced]
        generalize traced grammar u n e v neg s a = x at h1 ⊢
        obtain ⟨y, b⟩ := x
        have h1 : b = a := h1
        subst h1
        cases y with
        | err t => exact ih k _ _ _ _ _ h.2
        | _ => rfl
      | cat e f =>
        simp only [muteE, Bool.and_eq_true] at h
        have h1 := ih k e v neg s a h.1
        rw [traced]
        generalize traced grammar u n e v neg s a = x at h1 ⊢
        obtain ⟨y, b⟩ := x
        have h1 : b = a := h1
        subst h1
        cases y with
        | ok t => exact ih k _ _ _ _ _ h.2
        | _ => rfl
      | restore e => exact ih k _ _ _ _ _ h
      | look p e => exact ih k _ _ _ _ _ h
      | push e => exact ih k _ _ _ _ _ h
      | _ => rfl

/-! ### Block comments -/

theorem comment_traced {c : Char} (hc : c = '\n' ∨ c = '\r') {l : Str} {s : St R} (hs : s.rest = c :: l) (k : Nat) (v : Env)
    (a : Tries R) : (traced grammar u k (.call .MultiLineComment) v false s a).2 = a ∨
    (traced grammar u k (.call .MultiLineComment) v false s a).2 = a.track .compound false .MultiLineComment s.pos a := by
  have hc : '%' ≠ c := by rcases hc with rfl | rfl <;> decide
  cases k with
  | zero => exact .inl rfl
  | succ k =>
    rw [traced, show grammar .MultiLineComment = body_MultiLineComment from rfl, body_MultiLineComment]
    cases k with
    | zero => exact .inl rfl
    | succ k =>
      rw [traced]
      cases k with
      | zero => exact .inl rfl
      | succ k =>
        rw [traced]
        have key : ∀ s : St R, s.rest = c :: l → ∀ x, x = traced grammar u k (.seq (.cat (.cat (.str c!"%%%") (.rep inBlock)) (.str c!"%%%")))
            { v with atomicity := .compound } false s a → x.2 = a := by
          intro s hs x hx
          subst hx
          rcases k with _ | _ | _ | _ | k
          · rfl
          · rfl
          · rfl
          · rfl
          · simp [traced, run, St.matchStr, strip, hs, hc]
        dsimp only
        have h := key (if ({ v with atomicity := .compound } : Env).emits = true then { s with queue := [] } else s)
          (by split <;> exact hs) _ rfl
        rw [h]
        generalize Res.blames false _ = z
        cases z with
        | true => exact .inr rfl
        | false => exact .inl rfl

theorem track_self {a : Tries R} {t : Atomicity} {r : R} {x : Nat} : (a.track t false r x a).pos ≤ max a.pos x ∧
    (x < a.pos → a.track t false r x a = a) := by
  refine ⟨?_, track_behind⟩
  by_cases ht : t = .atomic
  · subst ht
    exact Nat.le_max_left ..
  rcases Nat.lt_trichotomy x a.pos with h | h | h
  · rw [track_behind h]; exact Nat.le_max_left ..
  · subst h
    rw [track_there ht]
    split <;> exact Nat.le_max_left ..
  · rw [track_ahead ht h]; exact Nat.le_max_right ..

/-- A line ending in a comment. -/
theorem block_line (L : Lawful u) {c : Char} (hc : c = '\n' ∨ c = '\r') {l : Str} {v : Env} {s : St R} (hs : s.rest = c :: l)
    {n : Nat} (h : run grammar u (n + 1) (.rep inBlock) v s ≠ .crash) (a : Tries R) :
    ∃ b, traced grammar u (n + 1) (.rep inBlock) v false s a = traced grammar u n (.rep inBlock) v false (s.advance 1 l) b ∧
      b.pos ≤ max a.pos s.pos ∧ (s.pos < a.pos → b = a) := by
  have h1 : run grammar u n inBlock v s ≠ .crash := by
    intro e; rw [run, e] at h; exact h rfl
  have h2 := block_step L hc v hs
  rw [← run_eq_sem h1, ← traced_run n inBlock v false s a] at h2
  refine ⟨(traced grammar u n inBlock v false s a).2, ?_, ?_⟩
  · rw [traced]
    generalize traced grammar u n inBlock v false s a = x at h2
    obtain ⟨y, b⟩ := x
    have h2 : y = _ := h2
    subst h2
    rfl
  · have key : (traced grammar u n inBlock v false s a).2 = a ∨
        (traced grammar u n inBlock v false s a).2 = a.track .compound false .MultiLineComment s.pos a := by
      cases n with
      | zero => exact absurd rfl h1
      | succ n =>
        have h3 := comment_traced (u := u) hc hs n v a
        rw [inBlock, traced]
        generalize traced grammar u n (.call .MultiLineComment) v false s a = x at h3
        obtain ⟨y, b⟩ := x
        cases y with
        | err t =>
          dsimp only
          rw [mute_traced (u := u) n 9 _ _ _ _ _ (by decide +kernel)]
          exact h3
        | _ => exact h3
    rcases key with key | key <;> rw [key]
    · exact ⟨Nat.le_max_left .., fun _ => rfl⟩
    · exact track_self

theorem block_lines (L : Lawful u) {x l : Str} (hx : LineEnd x l) {v : Env} {s : St R} (hs : s.rest = x ++ l)
    {n : Nat} (h : run grammar u (n + 1) (.rep inBlock) v s ≠ .crash) (a : Tries R) :
    ∃ b, traced grammar u (n + 1) (.rep inBlock) v false s a =
        traced grammar u n (.rep inBlock) v false (s.advance x.length l) b ∧
      (a.pos < s.pos + x.length → b.pos < s.pos + x.length) ∧ (s.pos + x.length ≤ a.pos → b = a) := by
  have one : ∀ {c : Char}, (c = '\n' ∨ c = '\r') → s.rest = [c] ++ l →
      ∃ b, traced grammar u (n + 1) (.rep inBlock) v false s a =
          traced grammar u n (.rep inBlock) v false (s.advance 1 l) b ∧
        (a.pos < s.pos + 1 → b.pos < s.pos + 1) ∧ (s.pos + 1 ≤ a.pos → b = a) := by
    intro c hc hs
    obtain ⟨b, h1, h2, h3⟩ := block_line L hc hs h a
    exact ⟨b, h1, by omega, h3⟩
  rcases hx with rfl | rfl | ⟨rfl, -⟩
  · exact one (.inl rfl) hs
  · obtain ⟨b, h1, h2, h3⟩ := block_line L (.inr rfl) (l := '\n' :: l) hs h a
    rw [← traced_run (n + 1) _ v false s a, h1, traced_run] at h
    cases n with
    | zero => exact absurd rfl h
    | succ n =>
      obtain ⟨d, k1, k2, k3⟩ := block_line L (.inl rfl) (l := l) (s := s.advance 1 ('\n' :: l)) rfl h b
      refine ⟨d, ?_, ?_, ?_⟩
      · rw [h1, k1]
        refine (traced_mono' (Nat.le_succ n) ?_).symm
        rw [← k1, traced_run]
        exact h
      · have : (s.advance 1 ('\n' :: l)).pos = s.pos + 1 := rfl
        simp only [List.length_cons, List.length_nil]
        omega
      · intro hp
        simp only [List.length_cons, List.length_nil] at hp
        have e : b = a := h3 (by omega)
        rw [← e]
        refine k3 ?_
        show s.pos + 1 < b.pos
        rw [e]; omega
  · exact one (.inr rfl) hs

theorem track_arrives {a b : Tries R} {t : Atomicity} (ht : t ≠ .atomic) {r : R} {x : Nat} : x ≤ (b.track t false r x a).pos := by
  rcases Nat.lt_trichotomy x b.pos with h | h | h
  · rw [track_behind h]; exact Nat.le_of_lt h
  · subst h
    rw [track_there ht]
    split <;> exact Nat.le_refl _
  · rw [track_ahead ht h]

/-- Where a comment is not found, it was looked for. -/
theorem comment_reaches {n : Nat} {v : Env} {s t : St R} {a : Tries R}
    (h : (traced grammar u n (.call .MultiLineComment) v false s a).1 = .err t) :
    s.pos ≤ (traced grammar u n (.call .MultiLineComment) v false s a).2.pos := by
  cases n with
  | zero => cases h
  | succ n =>
    rw [traced, show grammar .MultiLineComment = body_MultiLineComment from rfl, body_MultiLineComment] at h ⊢
    cases n with
    | zero => cases h
    | succ n =>
      rw [traced] at h ⊢
      cases n with
      | zero => cases h
      | succ n =>
        rw [traced] at h ⊢
        generalize traced grammar u n _ _ _ _ a = x at h ⊢
        obtain ⟨y, b⟩ := x
        dsimp only at h ⊢
        have hy : ∃ t, y = .err t := by
          split at h
          · exact err_mapBoth h
          · exact ⟨t, h⟩
        obtain ⟨t', rfl⟩ := hy
        rw [if_pos (show Res.blames false (.err t') = true from rfl)]
        exact track_arrives (show Atomicity.compound ≠ .atomic by decide)

theorem block_reaches (n : Nat) : ∀ (v : Env) (s t : St R) (a : Tries R),
    (traced grammar u n (.rep inBlock) v false s a).1 = .ok t → t.pos ≤ (traced grammar u n (.rep inBlock) v false s a).2.pos := by
  induction n with
  | zero => intro v s t a h; cases h
  | succ n ih =>
    intro v s t a h
    rw [traced] at h ⊢
    have key : ∀ t', (traced grammar u n inBlock v false s a).1 = .err t' → t'.pos ≤ (traced grammar u n inBlock v false s a).2.pos := by
      intro t' ht'
      have hb := run_back (u := u) grammar_back n inBlock v s t' (by decide) (by rw [← ht', traced_run])
      rw [hb.1]
      cases n with
      | zero => cases ht'
      | succ n =>
        rw [inBlock, traced] at ht' ⊢
        have h1 := fun t => comment_reaches (u := u) (n := n) (v := v) (s := s) (t := t) (a := a)
        generalize traced grammar u n (.call .MultiLineComment) v false s a = x at h1 ht' ⊢
        obtain ⟨y, b⟩ := x
        cases y with
        | ok _ => cases ht'
        | crash => cases ht'
        | err t2 =>
          dsimp only at ht' ⊢
          rw [mute_traced (u := u) n 9 _ _ _ _ _ (by decide +kernel)]
          exact h1 _ rfl
    generalize traced grammar u n inBlock v false s a = x at h key ⊢
    obtain ⟨y, b⟩ := x
    cases y with
    | ok t' => exact ih _ _ _ _ h
    | err t' => cases h; exact key t rfl
    | crash => cases h

/-! ### Both texts -/

theorem Both.lives {d : Bool} {s s' : St R} {r r' : Res R} (h : Both u G d s s' r r') : r' ≠ .crash := by
  cases r <;> cases r' <;> first | exact h.elim | exact fun h => nomatch h

/-- A parse that does not crash, with enough fuel. -/
theorem traced_ends {e : PE R} {v : Env} {s : St R} (h : sem grammar u e v s ≠ .crash) (neg : Bool) (a : Tries R) :
    ∃ m, (traced grammar u m e v neg s a).1 ≠ .crash := by
  obtain ⟨m, hm⟩ := sem_settles grammar u e v s
  exact ⟨m, by rw [traced_run, hm m (Nat.le_refl _)]; exact h⟩

/-- The outcome in the two texts. -/
theorem both_traced (L : Lawful u) {n m : Nat} {e : PE R} {v : Env} {neg neg' : Bool} {s s' : St R} {a a' : Tries R}
    (he : blind e = true) (hs : Level u G s s') (hc : (traced grammar u n e v neg s a).1 ≠ .crash)
    (hc' : (traced grammar u m e v neg' s' a').1 ≠ .crash) :
    Both u G (dry e) s s' (traced grammar u n e v neg s a).1 (traced grammar u m e v neg' s' a').1 := by
  rw [traced_run] at hc hc' ⊢
  rw [traced_run, run_eq_sem hc']
  exact both_sem L n e v s s' he hs hc

/-- The second text, with a fuel that suffices. -/
def Follows (u : Uni) (G : Gauge) (p q : Nat) (n : Nat) (e : PE R) (v : Env) (s s' : St R) (a a' : Tries R) : Prop :=
  ∃ m, (traced grammar u m e v false s' a').1 ≠ .crash ∧
    NearTries G p q (traced grammar u n e v false s a).2 (traced grammar u m e v false s' a').2

theorem follows_mute (L : Lawful u) {p q n k : Nat} {e : PE R} {v : Env} {s s' : St R} {a a' : Tries R}
    (hk : muteE k e = true) (he : blind e = true) (hs : Level u G s s') (ha : NearTries G p q a a')
    (hc : run grammar u n e v s ≠ .crash) : Follows u G p q n e v s s' a a' := by
  obtain ⟨m, hm⟩ := traced_ends (both_sem L n e v s s' he hs hc).lives false a'
  exact ⟨m, hm, by rw [mute_traced n k e _ _ _ _ hk, mute_traced m k e _ _ _ _ hk]; exact ha⟩

/-- A line ending in a comment, in both texts. -/
theorem near_line (hR : G.Rising) {p q x x' : Nat} {a a' b b' : Tries R} (ha : NearTries G p q a a') (hx : Paired G x x')
    (hp : p ≤ x) (hq : q ≤ x') (h1 : a.pos < x → b.pos < x) (h2 : x ≤ a.pos → b = a) (h3 : a'.pos < x' → b'.pos < x')
    (h4 : x' ≤ a'.pos → b' = a') : NearTries G x x' b b' := by
  rcases ha with ha | ⟨k1, k2⟩
  · have := hR.lt ha.pos hx
    by_cases c : a.pos < x
    · exact .inr ⟨h1 c, h3 (this.1 c)⟩
    · rw [h2 (by omega), h4 (by omega)]
      exact .inl ha
  · exact .inr ⟨h1 (by omega), h3 (by omega)⟩

theorem near_traced (L : Lawful u) (hR : G.Rising) : ∀ (n : Nat) (e : PE R) (v : Env) (s s' : St R) (a a' : Tries R) (p q : Nat),
    blind e = true → fairE e = true → Level u G s s' → p ≤ s.pos → q ≤ s'.pos → NearTries G p q a a' →
    run grammar u n e v s ≠ .crash → Follows u G p q n e v s s' a a' := by
  intro n
  induction n with
  | zero => intro e v s s' a a' p q _ _ _ _ _ _ h; exact absurd rfl h
  | succ n ih =>
    intro e v s s' a a' p q hb hf hs hp hq ha hc
    cases e with
    | call r =>
      by_cases h1 : r = .NEWLINE
      · subst h1; exact follows_mute L (k := 9) (by decide +kernel) hb hs ha hc
      by_cases h2 : r = .WHITESPACE
      · subst h2; exact follows_mute L (k := 9) (by decide +kernel) hb hs ha hc
      have hr : aside r = false := by simpa [blind] using hb
      obtain ⟨m, k1, k2⟩ := ih _ v s s' a a' p q (grammar_blind r hr h1 h2) (grammar_fair r hr) hs hp hq ha hc
      exact ⟨m + 1, k1, k2⟩
    | rule r e =>
      have hb1 : blind e = true := by
        simp only [blind, Bool.and_eq_true] at hb
        exact hb.1.1
      have hl : Level u G (if v.emits then { s with queue := [] } else s) (if v.emits then { s' with queue := [] } else s') := by
        split
        · exact level_queue hs rfl
        · exact hs
      have hc1 : run grammar u n e v (if v.emits then { s with queue := [] } else s) ≠ .crash := by
        intro h
        rw [run] at hc
        split at hc
        next hv => rw [if_pos hv] at h; rw [h] at hc; exact hc rfl
        next hv => rw [if_neg hv] at h; exact hc h
      have e1 : (if v.emits then { s with queue := [] } else s).pos = s.pos := by split <;> rfl
      have e2 : (if v.emits then { s' with queue := [] } else s').pos = s'.pos := by split <;> rfl
      obtain ⟨m, k1, k2⟩ := ih e v _ _ a a' p q hb1 hf hl (by omega) (by omega) ha hc1
      have hboth := both_traced L (neg := false) (a := a) hb1 hl (by rw [traced_run]; exact hc1) k1
      have g1 := (traced_grows (u := u) n e v false (if v.emits then { s with queue := [] } else s) a).pos
      have g2 := (traced_grows (u := u) m e v false (if v.emits then { s' with queue := [] } else s') a').pos
      refine ⟨m + 1, ?_, ?_⟩
      · rw [traced]
        generalize traced grammar u m e v false (if v.emits then { s' with queue := [] } else s') a' = x at k1
        obtain ⟨y, b⟩ := x
        dsimp only
        split
        · cases y <;> first | exact absurd rfl k1 | exact fun h => nomatch h
        · exact k1
      · rw [traced, traced]
        generalize traced grammar u m e v false (if v.emits then { s' with queue := [] } else s') a' = x' at k1 k2 hboth g2
        generalize traced grammar u n e v false (if v.emits then { s with queue := [] } else s) a = x at k2 hboth g1
        obtain ⟨y, b⟩ := x
        obtain ⟨y', b'⟩ := x'
        dsimp only at k1 k2 hboth g1 g2 ⊢
        cases y <;> cases y' <;> first | exact hboth.elim | skip
        · exact k2
        · exact NearTries.track hR ha k2 g1 g2 ⟨_, _, hs.pos⟩ hp hq _ _
    | atomic t e =>
      obtain ⟨m, k1, k2⟩ := ih e _ s s' a a' p q hb hf hs hp hq ha hc
      exact ⟨m + 1, k1, k2⟩
    | ifNon e =>
      by_cases hv : v.atomicity = .non
      · rw [run, if_pos hv] at hc
        obtain ⟨m, k1, k2⟩ := ih e _ s s' a a' p q hb hf hs hp hq ha hc
        exact ⟨m + 1, by rw [traced, if_pos hv]; exact k1, by rw [traced, traced, if_pos hv, if_pos hv]; exact k2⟩
      · exact ⟨1, (by rw [traced, if_neg hv]; exact fun h => nomatch h), by rw [traced, traced, if_neg hv, if_neg hv]; exact ha⟩
    | seq e =>
      by_cases hl : isLine e = true
      · unfold isLine at hl
        split at hl
        · exact follows_mute L (k := 9) (by decide +kernel) hb hs ha hc
        · cases hl
      have hb : blind e = true := by simpa [blind, hl] using hb
      obtain ⟨m, k1, k2⟩ := ih e v s s' a a' p q hb hf hs hp hq ha (fun h => hc (by rw [run, h]; rfl))
      refine ⟨m + 1, ?_, k2⟩
      rw [traced]
      generalize traced grammar u m e v false s' a' = x at k1
      obtain ⟨y, b⟩ := x
      cases y <;> first | exact absurd rfl k1 | exact fun h => nomatch h
    | opt e =>
      obtain ⟨m, k1, k2⟩ := ih e v s s' a a' p q hb hf hs hp hq ha (fun h => hc (by rw [run, h]; rfl))
      refine ⟨m + 1, ?_, k2⟩
      rw [traced]
      generalize traced grammar u m e v false s' a' = x at k1
      obtain ⟨y, b⟩ := x
      cases y <;> first | exact absurd rfl k1 | exact fun h => nomatch h
    | rep e =>
      have next : Follows u G p q n e v s s' a a' →
          (∀ {y y' : Res R}, run grammar u n e v s = y → sem grammar u e v s' = y' → Both u G false s s' y y') →
          Follows u G p q (n + 1) (.rep e) v s s' a a' := by
        intro h hboth
        have hc1 : run grammar u n e v s ≠ .crash := fun h => hc (by rw [run, h])
        obtain ⟨m, k1, k2⟩ := h
        have hboth := hboth (traced_run n e v false s a).symm
          (show _ = (traced grammar u m e v false s' a').1 by rw [traced_run]; rw [traced_run] at k1; exact (run_eq_sem k1).symm)
        have mono := fun {m'} (h : m ≤ m') => traced_mono' h k1
        have hr := traced_run (g := grammar) (u := u) n e v false s a
        rw [Follows, traced]
        generalize hx : traced grammar u n e v false s a = x at k2 hboth hr ⊢
        generalize hx' : traced grammar u m e v false s' a' = x' at k1 k2 hboth mono
        obtain ⟨y, b⟩ := x
        obtain ⟨y', b'⟩ := x'
        dsimp only at k1 k2 hboth hr ⊢
        cases y <;> cases y' <;> first | exact hboth.elim | skip
        · rename_i t t'
          have hw : Went u G false s s' t t' := hboth
          obtain ⟨w, w', -, -, e3, e4, -⟩ := hw.read
          have hc2 : run grammar u n (.rep e) v t ≠ .crash := by
            rw [run, ← hr] at hc; exact hc
          obtain ⟨m2, l1, l2⟩ := ih (.rep e) v t t' b b' p q hb hf hw.level (by omega) (by omega) k2 hc2
          refine ⟨max m m2 + 1, ?_, ?_⟩ <;> rw [traced, mono (Nat.le_max_left ..)] <;> dsimp only <;>
            rw [traced_mono' (Nat.le_max_right ..) l1]
          · exact l1
          · exact l2
        · refine ⟨m + 1, ?_, ?_⟩ <;> rw [traced, hx']
          · exact fun h => nomatch h
          · exact k2
      by_cases hk : isBlock e = true
      · have he : e = inBlock := by
          unfold isBlock at hk
          split at hk
          · rw [of_decide_eq_true hk]
          · cases hk
        subst he
        have hboth := both_sem L (n + 1) (.rep inBlock) v s s' hb hs hc
        have step : ((s.rest = [] ∧ s'.rest = []) ∨ ∃ c d l m, s.rest = c :: l ∧ s'.rest = d :: m ∧ c ≠ '\n' ∧ c ≠ '\r' ∧ d ≠ '\n' ∧ d ≠ '\r' ∧ Redrawn u l m) →
            Follows u G p q (n + 1) (.rep inBlock) v s s' a a' := by
          intro hl
          have h1 : run grammar u n inBlock v s ≠ .crash := by
            intro e; rw [run, e] at hc; exact hc rfl
          have h2 : run grammar u n (.call .MultiLineComment) v s ≠ .crash := by
            cases n with
            | zero => exact absurd rfl h1
            | succ n =>
              have : run grammar u n (.call .MultiLineComment) v s ≠ .crash := by
                intro e; rw [run, e] at h1; exact h1 rfl
              rw [run_mono' (Nat.le_succ n) this]; exact this
          have h3 := both_sem L n (.call .MultiLineComment) v s s' rfl hs h2
          rw [run_eq_sem h2] at h3
          have h4 : Both u G false s s' (run grammar u n inBlock v s) (sem grammar u inBlock v s') := by
            rw [run_eq_sem h1, sem_alt, sem_alt]
            revert h3
            cases hx : sem grammar u (.call .MultiLineComment) v s <;>
              cases hx' : sem grammar u (.call .MultiLineComment) v s' <;> intro h3 <;> first | exact h3.elim | skip
            · exact h3.weaken (fun h => nomatch h)
            · rw [sem_call_err u _ (by decide) (by decide) hx, sem_call_err u _ (by decide) (by decide) hx']
              exact both_any L v hs hl
          refine next ?_ (by rintro y y' rfl rfl; exact h4)
          obtain ⟨m, k1, k2⟩ := ih (.call .MultiLineComment) v s s' a a' p q rfl rfl hs hp hq ha h2
          obtain ⟨m2, l1⟩ := traced_ends h4.lives false a'
          have same : ∀ {n : Nat} {s : St R} {a : Tries R}, (traced grammar u n inBlock v false s a).1 ≠ .crash →
              (traced grammar u n inBlock v false s a).2 = (traced grammar u n (.call .MultiLineComment) v false s a).2 := by
            intro n s a h
            cases n with
            | zero => exact absurd rfl h
            | succ n =>
              have hm : (traced grammar u n (.call .MultiLineComment) v false s a).1 ≠ .crash := by
                intro e
                rw [inBlock, traced] at h
                generalize traced grammar u n (.call .MultiLineComment) v false s a = x at h e
                obtain ⟨y, b⟩ := x
                have e : y = .crash := e
                subst e
                exact h rfl
              rw [traced_mono' (Nat.le_succ n) hm, inBlock, traced]
              generalize traced grammar u n (.call .MultiLineComment) v false s a = x
              obtain ⟨y, b⟩ := x
              cases y with
              | err t =>
                dsimp only
                rw [mute_traced (u := u) n 9 _ _ _ _ _ (by decide +kernel)]
              | _ => rfl
          refine ⟨max m m2, ?_, ?_⟩
          · rw [traced_mono' (Nat.le_max_right ..) l1]; exact l1
          · rw [same (by rw [traced_run]; exact h1), same (by rw [traced_mono' (Nat.le_max_right ..) l1]; exact l1),
              traced_mono' (Nat.le_max_left ..) k1]
            exact k2
        rcases hs.rest.begin L with h1 | ⟨c, d, l, m, e1, e2, h1, h2, h3, h4, -, h6⟩ | ⟨x, y, l, m, e1, e2, h1, h2, h3⟩
        · exact step (.inl h1)
        · exact step (.inr ⟨c, d, l, m, e1, e2, h1, h2, h3, h4, h6⟩)
        · have hw : Went u G false s s' (s.advance x.length l) (s'.advance y.length m) :=
            hs.went e1 e2 h3 (hs.line e1 e2 h1 h2) _ (fun h => nomatch h)
          obtain ⟨b, j1, j2, j3⟩ := block_lines L h1 e1 hc a
          obtain ⟨m2, l1⟩ := traced_ends hboth.lives false a'
          have hc2 : run grammar u n (.rep inBlock) v (s.advance x.length l) ≠ .crash := by
            rw [← traced_run n _ v false _ b, ← j1, traced_run]; exact hc
          obtain ⟨b', i1, i2, i3⟩ := block_lines L h2 e2 (n := m2) (by
            rw [← traced_run (m2 + 1) _ v false _ a', traced_mono' (Nat.le_succ m2) l1]; exact l1) a'
          have l2 : (traced grammar u m2 (.rep inBlock) v false (s'.advance y.length m) b').1 ≠ .crash := by
            rw [← i1, traced_mono' (Nat.le_succ m2) l1]; exact l1
          have ha' : NearTries G (s.pos + x.length) (s'.pos + y.length) b b' :=
            near_line hR ha ⟨_, _, hw.level.pos⟩ (by show p ≤ s.pos + x.length; omega) (by show q ≤ s'.pos + y.length; omega) j2 j3 i2 i3
          obtain ⟨m1, k1, k2⟩ := ih (.rep inBlock) v _ _ b b' (s.pos + x.length) (s'.pos + y.length) hb hf hw.level
            (Nat.le_refl _) (Nat.le_refl _) ha' hc2
          have e3 : traced grammar u m1 (.rep inBlock) v false (s'.advance y.length m) b' =
              traced grammar u m2 (.rep inBlock) v false (s'.advance y.length m) b' := by
            rw [← traced_mono' (Nat.le_max_left m1 m2) k1, traced_mono' (Nat.le_max_right m1 m2) l2]
          refine ⟨m2 + 1, by rw [i1]; exact l2, ?_⟩
          rw [j1, i1, ← e3]
          rcases k2 with k2 | ⟨k2, -⟩
          · exact .inl k2
          · exfalso
            have hfar := block_reaches (u := u) n v (s.advance x.length l)
            cases hx : (traced grammar u n (.rep inBlock) v false (s.advance x.length l) b).1 with
            | crash => rw [traced_run] at hx; exact hc2 hx
            | err t => rw [traced_run] at hx; exact run_rep_lands n _ _ _ _ hx
            | ok t =>
              have h5 := hfar t b hx
              have h6 := both_sem L n (.rep inBlock) v _ _ hb hw.level hc2
              rw [← traced_run n _ v false _ b, hx] at h6
              have h7 : s.pos + x.length ≤ t.pos := by
                revert h6
                generalize sem grammar u (.rep inBlock) v (s'.advance y.length m) = z
                intro h6
                cases z <;> first | exact h6.elim | skip
                obtain ⟨w, w', -, -, e5, -, -⟩ := Went.read h6
                have : (s.advance x.length l).pos = s.pos + x.length := rfl
                omega
              omega
      have hb0 := hb
      have hb1 : blind e = true := by simpa [blind, hk] using hb
      have hc1 : run grammar u n e v s ≠ .crash := fun h => hc (by rw [run, h])
      refine next (ih e v s s' a a' p q hb1 hf hs hp hq ha hc1) ?_
      rintro y y' rfl rfl
      exact (both_sem L n e v s s' hb1 hs hc1).weaken (fun h => nomatch h)
    | alt e f =>
      simp only [blind, Bool.and_eq_true] at hb
      simp only [fairE, Bool.and_eq_true] at hf
      have hc1 : run grammar u n e v s ≠ .crash := fun h => hc (by rw [run, h]; rfl)
      obtain ⟨m, k1, k2⟩ := ih e v s s' a a' p q hb.1 hf.1 hs hp hq ha hc1
      have hboth := both_traced L (neg := false) (a := a) hb.1 hs (by rw [traced_run]; exact hc1) k1
      have mono := fun {m'} (h : m ≤ m') => traced_mono' h k1
      have hr := traced_run (g := grammar) (u := u) n e v false s a
      rw [Follows, traced]
      generalize hx : traced grammar u n e v false s a = x at k2 hboth hr ⊢
      generalize hx' : traced grammar u m e v false s' a' = x' at k1 k2 hboth mono
      obtain ⟨y, b⟩ := x
      obtain ⟨y', b'⟩ := x'
      dsimp only at k1 k2 hboth hr ⊢
      cases y <;> cases y' <;> first | exact hboth.elim | skip
      · refine ⟨m + 1, ?_, ?_⟩ <;> rw [traced, hx']
        · exact fun h => nomatch h
        · exact k2
      · rename_i t t'
        have hw : Went u G (dry e) s s' t t' := hboth
        obtain ⟨w, w', -, -, e3, e4, -⟩ := hw.read
        have hc2 : run grammar u n f v t ≠ .crash := by
          rw [run, ← hr] at hc; exact hc
        obtain ⟨m2, l1, l2⟩ := ih f v t t' b b' p q hb.2 hf.2 hw.level (by omega) (by omega) k2 hc2
        refine ⟨max m m2 + 1, ?_, ?_⟩ <;> rw [traced, mono (Nat.le_max_left ..)] <;> dsimp only <;>
          rw [traced_mono' (Nat.le_max_right ..) l1]
        · exact l1
        · exact l2
    | cat e f =>
      simp only [blind, Bool.and_eq_true, Bool.or_eq_true] at hb
      simp only [fairE, Bool.and_eq_true, Bool.or_eq_true] at hf
      have hc1 : run grammar u n e v s ≠ .crash := fun h => hc (by rw [run, h]; rfl)
      obtain ⟨m, k1, k2⟩ := ih e v s s' a a' p q hb.1 hf.1 hs hp hq ha hc1
      have hboth := both_traced L (neg := false) (a := a) hb.1 hs (by rw [traced_run]; exact hc1) k1
      have mono := fun {m'} (h : m ≤ m') => traced_mono' h k1
      have hr := traced_run (g := grammar) (u := u) n e v false s a
      rw [Follows, traced]
      generalize hx : traced grammar u n e v false s a = x at k2 hboth hr ⊢
      generalize hx' : traced grammar u m e v false s' a' = x' at k1 k2 hboth mono
      obtain ⟨y, b⟩ := x
      obtain ⟨y', b'⟩ := x'
      dsimp only at k1 k2 hboth hr ⊢
      cases y <;> cases y' <;> first | exact hboth.elim | skip
      · rename_i t t'
        have hw : Went u G (dry e) s s' t t' := hboth
        obtain ⟨w, w', -, -, e3, e4, -⟩ := hw.read
        have hc2 : run grammar u n f v t ≠ .crash := by
          rw [run, ← hr] at hc; exact hc
        have hd : quoteless e ≠ true := by
          intro hd
          exact quoteless_fails (u := u) e hd v s t hs.free (by rw [← run_eq_sem hc1, ← hr])
        obtain ⟨m2, l1, l2⟩ := ih f v t t' b b' p q (hb.2.resolve_left hd) (hf.2.resolve_left hd) hw.level (by omega)
          (by omega) k2 hc2
        refine ⟨max m m2 + 1, ?_, ?_⟩ <;> rw [traced, mono (Nat.le_max_left ..)] <;> dsimp only <;>
          rw [traced_mono' (Nat.le_max_right ..) l1]
        · exact l1
        · exact l2
      · refine ⟨m + 1, ?_, ?_⟩ <;> rw [traced, hx']
        · exact fun h => nomatch h
        · exact k2
    | restore e =>
      obtain ⟨m, k1, k2⟩ := ih e v s s' a a' p q hb hf hs hp hq ha (fun h => hc (by rw [run, h]; rfl))
      refine ⟨m + 1, ?_, k2⟩
      rw [traced]
      generalize traced grammar u m e v false s' a' = x at k1
      obtain ⟨y, b⟩ := x
      cases y <;> first | exact absurd rfl k1 | exact fun h => nomatch h
    | look b e =>
      by_cases hm : muteE 9 e = true
      · exact follows_mute L (k := 10) hm hb hs ha hc
      simp only [fairE, Bool.or_eq_true, Bool.and_eq_true] at hf
      obtain ⟨rfl, hf1⟩ := hf.resolve_right hm
      obtain ⟨m, k1, k2⟩ := ih e { v with silent := true } s s' a a' p q hb hf1 hs hp hq ha (fun h => hc (by rw [run, h]; rfl))
      refine ⟨m + 1, ?_, k2⟩
      rw [traced]
      simp only [if_true]
      generalize traced grammar u m e { v with silent := true } false s' a' = x at k1
      obtain ⟨y, b⟩ := x
      cases y <;> first | exact absurd rfl k1 | exact fun h => nomatch h
    | any => cases hb
    | push e => cases hb
    | peek => cases hb
    | pop => cases hb
    | _ => exact follows_mute L (k := 1) rfl hb hs ha hc

/-! ### Counting characters and line endings -/

/-- `j` characters, a line ending being one, lead to the offset `a` of the text `T`, where `l` is left. -/
inductive Steps (T : Str) : Nat → Nat → Str → Prop
  | zero : Steps T 0 0 T
  | char {j a : Nat} {c : Char} {l : Str} : Steps T j a (c :: l) → c ≠ '\n' → c ≠ '\r' → Steps T (j + 1) (a + 1) l
  | line {j a : Nat} {x l : Str} : Steps T j a (x ++ l) → LineEnd x l → Steps T (j + 1) (a + x.length) l

theorem LineEnd.head {x l : Str} (h : LineEnd x l) {c : Char} {m : Str} (e : x ++ l = c :: m) : c = '\n' ∨ c = '\r' := by
  rcases h with rfl | rfl | ⟨rfl, -⟩ <;> cases e
  · exact .inl rfl
  · exact .inr rfl
  · exact .inr rfl

theorem LineEnd.unique {x l y m : Str} (h : LineEnd x l) (k : LineEnd y m) (e : x ++ l = y ++ m) : x = y ∧ l = m := by
  rcases h with rfl | rfl | ⟨rfl, h⟩ <;> rcases k with rfl | rfl | ⟨rfl, k⟩ <;> simp at e ⊢
  · exact e
  · exact e
  · subst e; exact absurd rfl k
  · subst e; exact absurd rfl h
  · exact e

theorem Steps.unique {T : Str} {j a b : Nat} {l m : Str} (h : Steps T j a l) (k : Steps T j b m) : a = b ∧ l = m := by
  induction h generalizing b m with
  | zero => cases k; exact ⟨rfl, rfl⟩
  | char h h1 h2 ih =>
    cases k with
    | char k k1 k2 =>
      obtain ⟨rfl, e⟩ := ih k
      cases e
      exact ⟨rfl, rfl⟩
    | line k k1 =>
      obtain ⟨-, e⟩ := ih k
      rcases k1.head e.symm with rfl | rfl
      · exact absurd rfl h1
      · exact absurd rfl h2
  | line h h1 ih =>
    cases k with
    | char k k1 k2 =>
      obtain ⟨-, e⟩ := ih k
      rcases h1.head e with rfl | rfl
      · exact absurd rfl k1
      · exact absurd rfl k2
    | line k k1 =>
      obtain ⟨rfl, e⟩ := ih k
      obtain ⟨rfl, rfl⟩ := h1.unique k1 e
      exact ⟨rfl, rfl⟩

theorem Steps.before {T : Str} {j a : Nat} {l : Str} (h : Steps T (j + 1) a l) : ∃ b m, Steps T j b m ∧ b < a := by
  cases h with
  | char h h1 h2 => exact ⟨_, _, h, Nat.lt_succ_self _⟩
  | line h h1 => exact ⟨_, _, h, by have := h1.length; omega⟩

theorem Steps.mono {T : Str} {j a : Nat} {l : Str} (h : Steps T j a l) : ∀ {i b : Nat} {m : Str}, Steps T i b m → j < i → a < b := by
  intro i
  induction i with
  | zero => intro b m _ h; omega
  | succ i ih =>
    intro b m k hj
    obtain ⟨b', m', k1, k2⟩ := k.before
    by_cases e : j = i
    · subst e
      obtain ⟨rfl, -⟩ := h.unique k1
      exact k2
    · exact Nat.lt_trans (ih k1 (by omega)) k2

theorem Steps.lt {T : Str} {j a i b : Nat} {l m : Str} (h : Steps T j a l) (k : Steps T i b m) : a < b ↔ j < i := by
  refine ⟨fun hab => ?_, h.mono k⟩
  rcases Nat.lt_trichotomy j i with e | e | e
  · exact e
  · subst e
    obtain ⟨rfl, -⟩ := h.unique k
    omega
  · have := k.mono h e
    omega

/-- The gauge that lets offsets correspond if as many characters and line endings are before them. -/
def paces (s t : Str) : Gauge where
  at_ a l b m := ∃ j, Steps s j a l ∧ Steps t j b m
  f _ := 0
  f' _ := 0
  zero := by
    rintro a l b m ⟨j, h, k⟩
    have h1 := (Steps.zero (T := s)).lt h
    have k1 := (Steps.zero (T := t)).lt k
    omega
  kept _ := rfl
  char := by
    rintro a b c d l m ⟨j, h, k⟩ h1 h2 h3 h4
    exact ⟨j + 1, h.char h1 h2, k.char h3 h4⟩
  line := by
    rintro a b x y l m ⟨j, h, k⟩ h1 h2
    exact ⟨j + 1, h.line h1, k.line h2⟩

theorem paces_rising (s t : Str) : (paces s t).Rising := by
  rintro a l b m a2 l2 b2 m2 ⟨j, h1, h2⟩ ⟨i, k1, k2⟩
  rw [h1.lt k1, h2.lt k2]

/-- Two gauges at once. -/
def Gauge.also (G H : Gauge) : Gauge where
  at_ a l b m := G.at_ a l b m ∧ H.at_ a l b m
  f := G.f
  f' := G.f'
  zero h := G.zero h.1
  kept h := G.kept h.1
  char h h1 h2 h3 h4 := ⟨G.char h.1 h1 h2 h3 h4, H.char h.2 h1 h2 h3 h4⟩
  line h h1 h2 := ⟨G.line h.1 h1 h2, H.line h.2 h1 h2⟩

/-! ### The claims -/

theorem refusal_both (L : Lawful u) (hR : G.Rising) {s t : Str} (h : Redrawn u s t) (hq : NoQuotes s) (h0 : G.at_ 0 s 0 t) :
    (smRefusal u .program s = none ∧ smRefusal u .program t = none) ∨
    ∃ a b, smRefusal u .program s = some a ∧ smRefusal u .program t = some b ∧ SameTries G a b := by
  have alive : ∀ T : Str, (traced grammar u (parseFuel T) (.call .program) Env.init false (St.init T) Tries.init).1 ≠ .crash := by
    intro T e
    rw [traced_run] at e
    have := C33_parse_terminates u .program (by decide) T
    unfold smParse at this
    rw [e] at this
    rcases this with ⟨l, h⟩ | h <;> cases h
  have hi : NearTries G 0 0 Tries.init Tries.init := .inl ⟨⟨s, t, h0⟩, rfl, rfl⟩
  have hl := level_init h hq h0
  obtain ⟨m, k1, k2⟩ := near_traced L hR (parseFuel s) (.call .program) Env.init _ _ Tries.init Tries.init 0 0 rfl rfl hl
    (Nat.le_refl _) (Nat.le_refl _) hi (by rw [← traced_run _ _ _ false _ Tries.init]; exact alive s)
  have e : traced grammar u m (.call .program) Env.init false (St.init t) Tries.init =
      traced grammar u (parseFuel t) (.call .program) Env.init false (St.init t) Tries.init := by
    rw [← traced_mono' (Nat.le_max_left m (parseFuel t)) k1, traced_mono' (Nat.le_max_right m (parseFuel t)) (alive t)]
  have hb := both_traced (neg := false) (neg' := false) L (show blind (.call .program) = true from rfl) hl (alive s) k1
  rw [e] at k2 hb
  unfold smRefusal
  generalize traced grammar u (parseFuel s) (.call .program) Env.init false (St.init s) Tries.init = x at k2 hb
  generalize traced grammar u (parseFuel t) (.call .program) Env.init false (St.init t) Tries.init = x' at k2 hb
  obtain ⟨y, b⟩ := x
  obtain ⟨y', b'⟩ := x'
  cases y <;> cases y' <;> first | exact hb.elim | skip
  · exact .inl ⟨rfl, rfl⟩
  · refine .inr ⟨b, b', rfl, rfl, ?_⟩
    rcases k2 with k2 | ⟨k2, -⟩
    · exact k2
    · exact absurd k2 (Nat.not_lt_zero _)

/-- The line and the column of the error reported for a text. -/
def errorPlace (u : Uni) (t : Str) : Option (Nat × Nat) := (errorAt u t).map fun p => lineColFrom (1, 1) (t.take p)

/-- **C93**.  Of two texts without string literals that differ in line endings and kinds of white space only, either both
are accepted or both are refused, and what is said to be expected is the same. -/
theorem C93_sentence (L : Lawful u) {s t : Str} (h : Redrawn u s t) (hq : '"' ∉ s) :
    errorSentence u s = errorSentence u t := by
  unfold errorSentence
  rcases refusal_both (G := paces s t) L (paces_rising s t) h hq ⟨0, .zero, .zero⟩ with ⟨h1, h2⟩ | ⟨a, b, h1, h2, h3⟩ <;>
    rw [h1, h2]
  simp only [Option.map_some, Tries.sentence, h3.wanted, h3.unwanted]

/-- **C93**.  If lines end with `\n` or `\r\n`, the error is reported at the same line and the same column. -/
theorem C93_place (L : Lawful u) {s t : Str} (h : Redrawn u s t) (hq : '"' ∉ s) (hs : NoLoneCr s) (ht : NoLoneCr t) :
    errorPlace u s = errorPlace u t := by
  unfold errorPlace errorAt
  rcases refusal_both (G := (paces s t).also (fine 0 s t)) L (fun h k => paces_rising s t h.1 k.1) h hq
    ⟨⟨0, .zero, .zero⟩, [], [], rfl, rfl, rfl, rfl, rfl, Iff.rfl, hs, ht⟩ with ⟨h1, h2⟩ | ⟨a, b, h1, h2, h3⟩ <;>
    rw [h1, h2]
  · rfl
  · obtain ⟨l, m, -, z, z', e1, e2, e3, e4, e5, -⟩ := h3.pos
    simp only [Option.map_some, lineCol_place, e3, e4]
    rw [e1, e2, List.take_left', List.take_left', e5] <;> rfl

/-- **C93**.  Changing all line endings from `\n` to `\r\n` changes neither the place nor the sentence of an error. -/
theorem C93_crlf (L : Lawful u) {t : Str} (hr : '\r' ∉ t) (hq : '"' ∉ t) :
    errorPlace u (toCrlf t) = errorPlace u t ∧ errorSentence u (toCrlf t) = errorSentence u t :=
  ⟨(C93_place L (redrawn_crlf hr) hq (.of_none hr) (toCrlf_lone hr)).symm, (C93_sentence L (redrawn_crlf hr) hq).symm⟩

/-! ### Cases -/

/-- A closing bracket too many on the second line. -/
example : errorPlace asciiUni c!"\r\n)" = some (2, 1) ∧ errorSentence asciiUni c!"\r\n)" = errorSentence asciiUni c!"\n)" := by
  have h := C93_crlf lawful_asciiUni (t := c!"\n)") (by simp) (by simp)
  refine ⟨?_, h.2⟩
  rw [show c!"\r\n)" = toCrlf c!"\n)" from rfl, h.1]
  decide +kernel

/-- A comment that is not closed: the position is the end, however the lines in it end. -/
example : errorPlace asciiUni c!"%%%\r\na" = some (2, 2) := by
  have h := C93_crlf lawful_asciiUni (t := c!"%%%\na") (by simp) (by simp)
  rw [show c!"%%%\r\na" = toCrlf c!"%%%\na" from rfl, h.1]
  decide +kernel

/-- A `\r` alone does not change the sentence, but moves the place: it ends no line where columns are counted. -/
example : errorSentence asciiUni c!"\r)" = errorSentence asciiUni c!"\n)" ∧ errorPlace asciiUni c!"\r)" = some (1, 2) :=
  ⟨C93_sentence lawful_asciiUni (.line (x := ['\r']) (y := ['\n']) (.inr (.inr ⟨rfl, by simp⟩)) (.inl rfl)
    (.same (by decide) .nil)) (by simp), by decide +kernel⟩

end SM.Props
