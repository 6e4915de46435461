import Verif.Props.Reads
import Verif.Props.Brackets
/-
What derivations say about blank space, names, numbers and strings.
-/
namespace SM.Props
open SM SM.Peg

variable {u : Uni} {a : Atomicity} {p : Nat} {w z : Str} {l : List (Pair R)}

/-- A run that is known to eat a text has eaten it. -/
theorem Ran.eats {e : PE R} {x r : Str} {Q : List (Pair R) → Prop} (h : Ran grammar u a e p w z l)
    (hx : w ++ z = x ++ r) (k : ∀ v : Env, v.atomicity = a → v.silent = false → Eats u v e x r Q) :
    w = x ∧ z = r ∧ Q l := by
  obtain ⟨n, v, s, t, hv, hs, hp, hr, htp, htr, hq, h⟩ := h
  obtain ⟨q, hQ, hsem⟩ := k v hv hs s.pos s.stack s.queue
  rw [← hx, ← hr] at hsem
  have : sem grammar u e v s = .ok t := by rw [sem_eq_run (by rw [h]; exact fun e => by cases e), h]
  rw [show sem grammar u e v ⟨s.pos, s.rest, s.stack, s.queue⟩ = sem grammar u e v s from rfl, this] at hsem
  cases hsem
  simp only at htr hq
  subst htr
  refine ⟨List.append_cancel_right hx, rfl, ?_⟩
  rw [List.append_cancel_left hq] at hQ
  exact hQ

/-- A rule matches whether it emits or not. -/
theorem eats_rule_any {v : Env} {r : R} {e : PE R} {x rest : Str} {Q : List (Pair R) → Prop} (h : Eats u v e x rest Q) :
    Eats u v (.rule r e) x rest fun _ => True := by
  cases hv : v.emits with
  | true => exact (eats_rule hv h).imp fun _ _ => trivial
  | false => exact (eats_rule_mute hv h).imp fun _ _ => trivial

/-! ### Blank space -/

theorem deriv_newline (h : Deriv grammar u a (.call .NEWLINE) p w z l) :
    l = [] ∧ w ≠ [] ∧ ∀ c ∈ w, c = '\n' ∨ c = '\x0d' := by
  have h := h.inv_call
  simp only [grammar, body_NEWLINE] at h
  rcases h.inv_alt with h | ⟨-, h⟩
  · rcases h.inv_alt with h | ⟨-, h⟩
    · obtain ⟨rfl, rfl⟩ := h.inv_str
      simp
    · obtain ⟨rfl, rfl⟩ := h.inv_str
      simp
  · obtain ⟨rfl, rfl⟩ := h.inv_str
    simp

theorem deriv_ws (L : Lawful u) (h : Deriv grammar u a (.call .WHITESPACE) p w z l) :
    l = [] ∧ w ≠ [] ∧ ∀ c ∈ w, Ws u c := by
  have h := h.inv_call
  simp only [grammar, body_WHITESPACE] at h
  rcases h.inv_atomic.inv_alt with h | ⟨-, h⟩
  · obtain ⟨rfl, hne, h⟩ := deriv_newline h
    refine ⟨rfl, hne, fun c hc => ?_⟩
    rcases h c hc with rfl | rfl
    · exact ws_newline L
    · exact ws_return L
  · have h := h.inv_call
    simp only [grammar, body_WHITE_SPACE] at h
    obtain ⟨c, rfl, hc, rfl⟩ := h.inv_uni
    exact ⟨rfl, by simp, fun d hd => by rw [List.mem_singleton.1 hd]; exact hc⟩

theorem Refuses.ws {r : Str} (h : Refuses grammar u a (.call .WHITESPACE) r) :
    ∀ c t, r = c :: t → c ≠ '\n' ∧ c ≠ '\x0d' := by
  rintro c t rfl
  constructor
  · rintro rfl
    exact h.not_eats (x := ['\n']) fun v _ => eats_ws_line fun _ => eats_newline t
  · rintro rfl
    by_cases hr : ∃ r', t = '\n' :: r'
    · obtain ⟨r', rfl⟩ := hr
      exact h.not_eats (x := ['\x0d', '\n']) fun v _ => eats_ws_line fun _ => eats_return_newline r'
    · exact h.not_eats (x := ['\x0d']) fun v _ => eats_ws_line fun _ => eats_return fun r' e => hr ⟨r', e⟩

theorem deriv_ws_run (L : Lawful u) (h : Deriv grammar u a (.rep (.call .WHITESPACE)) p w z l) :
    l = [] ∧ (∀ c ∈ w, Ws u c) ∧ ∀ c t, z = c :: t → c ≠ '\n' ∧ c ≠ '\x0d' := by
  refine h.inv_rep (P := fun _ w z l => l = [] ∧ (∀ c ∈ w, Ws u c) ∧ ∀ c t, z = c :: t → c ≠ '\n' ∧ c ≠ '\x0d') ?_ ?_
  · intro q z h
    exact ⟨rfl, by simp, h.ws⟩
  · rintro q w₁ w₂ z l₁ l₂ h ⟨rfl, h2, h3⟩
    obtain ⟨rfl, -, h1⟩ := deriv_ws L h
    refine ⟨rfl, fun c hc => ?_, h3⟩
    rcases List.mem_append.1 hc with hc | hc
    · exact h1 c hc
    · exact h2 c hc

theorem deriv_line_end
    (h : Deriv grammar u a (.rep (.seq (.cat (.look false (.call .NEWLINE)) (.call .ANY)))) p w z l) :
    l = [] ∧ ∀ c t, z = c :: t → c = '\n' ∨ c = '\x0d' := by
  refine h.inv_rep (P := fun _ w z l => l = [] ∧ ∀ c t, z = c :: t → c = '\n' ∨ c = '\x0d') ?_ ?_
  · rintro q z h
    refine ⟨rfl, ?_⟩
    rintro c t rfl
    by_contra hc
    rw [not_or] at hc
    exact h.not_eats (x := [c]) fun v _ => eats_seq (eats_cat (x := []) (y := [c])
      (eats_not (fails_newline_char hc.1 hc.2)) (eats_call (eats_any c t)))
  · rintro q w₁ w₂ z l₁ l₂ h ⟨rfl, h3⟩
    obtain ⟨x, y, l, l', rfl, rfl, h1, h2⟩ := h.inv_seq.inv_cat
    obtain ⟨rfl, rfl, hn⟩ := h1.inv_not
    have h2 := h2.inv_call
    simp only [grammar, body_ANY] at h2
    obtain ⟨c, rfl, rfl⟩ := h2.inv_any
    exact ⟨rfl, h3⟩

/-- A comment is a line comment without pairs, or a `%%%` comment with one pair. -/
theorem deriv_comment (h : Deriv grammar u a (.call .COMMENT) p w z l) :
    (l = [] ∧ ∃ k m, w = '/' :: '/' :: k :: m ∧ k ∈ ['/', '?', '!', '*'] ∧ (∀ c ∈ m, c ≠ '\n' ∧ c ≠ '\x0d') ∧
      ∀ c t, z = c :: t → c = '\n' ∨ c = '\x0d') ∨
    (∃ q, l = [q] ∧ q.rule = .MultiLineComment ∧ ∃ r, w = '%' :: r) := by
  have line : ∀ k ∈ ['/', '?', '!', '*'], Deriv grammar u .atomic (.seq (.cat (.str ['/', '/', k])
      (.rep (.seq (.cat (.look false (.call .NEWLINE)) (.call .ANY)))))) p w z l → (l = [] ∧ ∃ k m, w = '/' :: '/' :: k :: m ∧ k ∈ ['/', '?', '!', '*'] ∧ (∀ c ∈ m, c ≠ '\n' ∧ c ≠ '\x0d') ∧
      ∀ c t, z = c :: t → c = '\n' ∨ c = '\x0d') := by
    intro k hk h
    obtain ⟨x, y, _, _, rfl, rfl, h, hl⟩ := h.inv_seq.inv_cat
    obtain ⟨rfl, rfl⟩ := h.inv_str
    obtain ⟨rfl, he⟩ := deriv_line_end hl
    exact ⟨rfl, k, y, rfl, hk, deriv_line hl, he⟩
  have h := h.inv_call
  simp only [grammar, body_COMMENT] at h
  rcases h.inv_atomic.inv_alt with h | ⟨-, h⟩
  · rcases h.inv_alt with h | ⟨-, h⟩
    · rcases h.inv_alt with h | ⟨-, h⟩
      · rcases h.inv_alt with h | ⟨-, h⟩
        · have h := h.inv_call
          simp only [grammar, body_MultiLineComment] at h
          obtain ⟨m, rfl, hm⟩ := h.inv_atomic.inv_rule (by decide)
          obtain ⟨_, y, _, _, rfl, -, hm, k⟩ := hm.inv_seq.inv_cat
          obtain ⟨x, t, _, _, rfl, -, hx, -⟩ := hm.inv_cat
          obtain ⟨rfl, -⟩ := hx.inv_str
          exact .inr ⟨_, rfl, rfl, _, rfl⟩
        · exact .inl (line _ (by decide) h)
      · exact .inl (line _ (by decide) h)
    · exact .inl (line _ (by decide) h)
  · exact .inl (line _ (by decide) h)

/-- Comments with the white space after each. -/
theorem deriv_comments (L : Lawful u)
    (h : Deriv grammar u a (.rep (.seq (.cat (.call .COMMENT) (.rep (.call .WHITESPACE))))) p w z l) :
    (l = [] ∧ ∃ ks : List LineComment, w = ks.flatMap LineComment.text ∧ ∀ k ∈ ks, k.Ok u) ∨
    (l = [] ∧ z = [] ∧ ∃ (ks : List LineComment) (k : Char) (m : Str), w = ks.flatMap LineComment.text ++ '/' :: '/' :: k :: m ∧
      (∀ k ∈ ks, k.Ok u) ∧ k ∈ ['/', '?', '!', '*'] ∧ ∀ c ∈ m, c ≠ '\n' ∧ c ≠ '\x0d') ∨
    (∃ q l', l = q :: l' ∧ q.rule = .MultiLineComment ∧ ∃ (ks : List LineComment) (r : Str),
      w = ks.flatMap LineComment.text ++ '%' :: r ∧ ∀ k ∈ ks, k.Ok u) := by
  refine h.inv_rep (P := fun _ w z l => 
    (l = [] ∧ ∃ ks : List LineComment, w = ks.flatMap LineComment.text ∧ ∀ k ∈ ks, k.Ok u) ∨
    (l = [] ∧ z = [] ∧ ∃ (ks : List LineComment) (k : Char) (m : Str), w = ks.flatMap LineComment.text ++ '/' :: '/' :: k :: m ∧
      (∀ k ∈ ks, k.Ok u) ∧ k ∈ ['/', '?', '!', '*'] ∧ ∀ c ∈ m, c ≠ '\n' ∧ c ≠ '\x0d') ∨
    (∃ q l', l = q :: l' ∧ q.rule = .MultiLineComment ∧ ∃ (ks : List LineComment) (r : Str),
      w = ks.flatMap LineComment.text ++ '%' :: r ∧ ∀ k ∈ ks, k.Ok u)) ?_ ?_
  · intro q z _
    exact .inl ⟨rfl, [], rfl, by simp⟩
  · intro q w₁ w₂ z l₁ l₂ h ih
    obtain ⟨x, y, m₁, m₂, rfl, rfl, h1, h2⟩ := h.inv_seq.inv_cat
    obtain ⟨rfl, hy, hend⟩ := deriv_ws_run L h2
    rcases deriv_comment h1 with ⟨rfl, k, m, rfl, hk, hm, hz⟩ | ⟨q, rfl, hq, r, rfl⟩
    · cases y with
      | nil =>
        have hnil : w₂ ++ z = [] := by
          cases hT : w₂ ++ z with
          | nil => rfl
          | cons c t =>
            have h1 := hz c t (by simpa using hT)
            have h2 := hend c t hT
            rcases h1 with rfl | rfl
            · exact absurd rfl h2.1
            · exact absurd rfl h2.2
        obtain ⟨rfl, rfl⟩ := List.append_eq_nil_iff.1 hnil
        have hl₂ : l₂ = [] := by
          rcases ih with ⟨h, -⟩ | ⟨h, -⟩ | ⟨q, l', -, -, ks, r, e, -⟩
          · exact h
          · exact h
          · simp at e
        exact .inr (.inl ⟨by simp [hl₂], rfl, [], k, m, by simp, by simp, hk, hm⟩)
      | cons c y =>
        have hc := hz c (y ++ (w₂ ++ z)) rfl
        let K : LineComment := ⟨k, m, c :: y⟩
        have hK : K.Ok u := ⟨hk, hm, ⟨c, y, rfl, hc⟩, hy⟩
        have all : ∀ {ks : List LineComment}, (∀ k ∈ ks, k.Ok u) → ∀ k ∈ K :: ks, k.Ok u := by
          intro ks hks k hk
          rcases List.mem_cons.1 hk with rfl | hk
          · exact hK
          · exact hks k hk
        rcases ih with ⟨hl, ks, rfl, hks⟩ | ⟨hl, rfl, ks, k', m', rfl, hks, hk', hm'⟩ | ⟨q, l', hl, hq, ks, r, rfl, hks⟩
        · exact .inl ⟨by simp [hl], K :: ks, by simp [LineComment.text, K], all hks⟩
        · exact .inr (.inl ⟨by simp [hl], rfl, K :: ks, k', m', by simp [LineComment.text, K], all hks, hk', hm'⟩)
        · exact .inr (.inr ⟨q, l', by simp [hl], hq, K :: ks, r, by simp [LineComment.text, K], all hks⟩)
    · exact .inr (.inr ⟨q, l₂, by simp, hq, [], r ++ (y ++ w₂), by simp, by simp⟩)

/-- Blank space between the parts of an expression. -/
theorem deriv_skip (L : Lawful u) (h : Deriv grammar u .non (.call .skip) p w z l) :
    (l = [] ∧ (Blank u w ∨ z = [] ∧ OpenComment u w)) ∨
    (∃ q l', l = q :: l' ∧ q.rule = .MultiLineComment ∧ Dropped u w) := by
  have h := h.inv_call
  simp only [grammar, body_skip] at h
  obtain ⟨x, y, m₁, m₂, rfl, rfl, h1, h2⟩ := h.inv_ifNon.inv_seq.inv_cat
  obtain ⟨rfl, hx, -⟩ := deriv_ws_run L h1
  rcases deriv_comments L h2 with ⟨rfl, ks, rfl, hks⟩ | ⟨rfl, rfl, ks, k, m, rfl, hks, hk, hm⟩ | ⟨q, l', rfl, hq, ks, r, rfl, hks⟩
  · exact .inl ⟨rfl, .inl ⟨x, ks, rfl, hx, hks⟩⟩
  · exact .inl ⟨rfl, .inr ⟨rfl, x ++ ks.flatMap LineComment.text, k, m, by simp, ⟨x, ks, rfl, hx, hks⟩, hk, hm⟩⟩
  · exact .inr ⟨q, l', rfl, hq, x ++ ks.flatMap LineComment.text, '%', r, by simp, ⟨x, ks, rfl, hx, hks⟩, by decide⟩

/-- Blank space before something. -/
theorem deriv_skip_inner (L : Lawful u) (h : Deriv grammar u .non (.call .skip) p w z l) (hz : z ≠ []) :
    (l = [] ∧ Blank u w) ∨ (∃ q l', l = q :: l' ∧ q.rule = .MultiLineComment ∧ Dropped u w) := by
  rcases deriv_skip L h with ⟨rfl, h | ⟨h, -⟩⟩ | h
  · exact .inl ⟨rfl, h⟩
  · exact absurd h hz
  · exact .inr h

/-- There is no blank space inside atomic rules. -/
theorem deriv_no_skip (h : Deriv grammar u .compound (.call .skip) p w z l) : w = [] ∧ l = [] := by
  have h := h.inv_call
  simp only [grammar, body_skip] at h
  exact h.inv_skip (by decide)

/-- White space within a line. -/
theorem deriv_hspace (L : Lawful u) (h : Deriv grammar u a hspace p w z l) : l = [] ∧ ∀ c ∈ w, HWs u c := by
  refine h.inv_rep (P := fun _ w _ l => l = [] ∧ ∀ c ∈ w, HWs u c) (fun _ _ _ => by simp) ?_
  rintro q w₁ w₂ z l₁ l₂ h ⟨rfl, h3⟩
  obtain ⟨x, y, l, l', rfl, rfl, h1, h2⟩ := h.inv_seq.inv_cat
  obtain ⟨rfl, rfl, hn⟩ := h1.inv_not
  have h2 := h2.inv_call
  simp only [grammar, body_WHITESPACE] at h2
  rcases h2.inv_atomic.inv_alt with h2 | ⟨-, h2⟩
  · obtain ⟨rfl, hne, h⟩ := deriv_newline h2
    cases y with
    | nil => exact absurd rfl hne
    | cons c y =>
      have := hn.newline
      rcases h c (by simp) with rfl | rfl
      · exact absurd rfl this.1
      · exact absurd rfl this.2
  · have h2 := h2.inv_call
    simp only [grammar, body_WHITE_SPACE] at h2
    obtain ⟨c, rfl, hc, rfl⟩ := h2.inv_uni
    refine ⟨rfl, fun d hd => ?_⟩
    simp only [List.nil_append, List.cons_append, List.mem_cons] at hd
    rcases hd with rfl | hd
    · exact ⟨hc, hn.newline⟩
    · exact h3 d hd

/-! ### Marks -/

/-- The rule of a mark that is written in one way emits one pair. -/
theorem deriv_tok {r : R} {x : Str} (hr : grammar r = .rule r (.atomic .atomic (.str x))) (ha : a ≠ .atomic)
    (h : Deriv grammar u a (.call r) p w z l) : w = x ∧ l = [.mk r p (p + x.length) x []] := by
  have h := h.inv_call
  rw [hr] at h
  obtain ⟨m, rfl, hm⟩ := h.inv_rule ha
  obtain ⟨rfl, rfl⟩ := hm.inv_atomic.inv_str
  exact ⟨rfl, rfl⟩

theorem deriv_tok_mute {r : R} {x : Str} (hr : grammar r = .rule r (.atomic .atomic (.str x)))
    (h : Deriv grammar u .atomic (.call r) p w z l) : w = x ∧ l = [] := by
  have h := h.inv_call
  rw [hr] at h
  exact h.inv_quiet.inv_atomic.inv_str

theorem deriv_Comma (ha : a ≠ .atomic) (h : Deriv grammar u a (.call .Comma) p w z l) :
    ∃ b, w = commaText b ∧ ∃ m, l = [.mk .Comma p (p + w.length) w m] := by
  have h := h.inv_call
  simp only [grammar, body_Comma] at h
  obtain ⟨m, rfl, hm⟩ := h.inv_rule ha
  rcases hm.inv_atomic.inv_alt with h | ⟨-, h⟩
  · obtain ⟨rfl, rfl⟩ := h.inv_str
    exact ⟨false, rfl, _, rfl⟩
  · obtain ⟨rfl, rfl⟩ := h.inv_str
    exact ⟨true, rfl, _, rfl⟩

theorem deriv_Colon (ha : a ≠ .atomic) (h : Deriv grammar u a (.call .Colon) p w z l) :
    ∃ b, w = colonText b ∧ ∃ m, l = [.mk .Colon p (p + w.length) w m] := by
  have h := h.inv_call
  simp only [grammar, body_Colon] at h
  obtain ⟨m, rfl, hm⟩ := h.inv_rule ha
  rcases hm.inv_atomic.inv_alt with h | ⟨-, h⟩
  · obtain ⟨rfl, rfl⟩ := h.inv_str
    exact ⟨false, rfl, _, rfl⟩
  · obtain ⟨rfl, rfl⟩ := h.inv_str
    exact ⟨true, rfl, _, rfl⟩

/-! ### Names -/

theorem deriv_conts (h : Deriv grammar u a (.rep (.call .XID_CONTINUE)) p w z l) :
    l = [] ∧ (∀ c ∈ w, u .xidContinue c = true) ∧ NoCont u z := by
  refine h.inv_rep (P := fun _ w z l => l = [] ∧ (∀ c ∈ w, u .xidContinue c = true) ∧ NoCont u z) ?_ ?_
  · intro q z h
    refine ⟨rfl, by simp, ?_⟩
    rintro c r rfl
    by_contra hc
    exact h.not_eats (x := [c]) fun v _ => eats_call (eats_uni r (by simpa using hc))
  · rintro q w₁ w₂ z l₁ l₂ h ⟨rfl, h2, h3⟩
    have h := h.inv_call
    simp only [grammar, body_XID_CONTINUE] at h
    obtain ⟨c, rfl, hc, rfl⟩ := h.inv_uni
    refine ⟨rfl, fun d hd => ?_, h3⟩
    rcases List.mem_cons.1 hd with rfl | hd
    · exact hc
    · exact h2 d hd

theorem deriv_SYMBOL (ha : a ≠ .atomic) (h : Deriv grammar u a (.call .SYMBOL) p w z l) :
    IsIdent u w ∧ NoCont u z ∧ l = [.mk .SYMBOL p (p + w.length) w []] := by
  have h := h.inv_call
  simp only [grammar, body_SYMBOL] at h
  obtain ⟨m, rfl, hm⟩ := h.inv_rule ha
  rcases hm.inv_atomic.inv_alt with h | ⟨-, h⟩
  · obtain ⟨x, y, l₁, l₂, rfl, rfl, h1, h2⟩ := h.inv_seq.inv_cat
    have h1 := h1.inv_call
    simp only [grammar, body_XID_START] at h1
    obtain ⟨c, rfl, hc, rfl⟩ := h1.inv_uni
    obtain ⟨rfl, hy, hz⟩ := deriv_conts h2
    exact ⟨.inl ⟨c, y, rfl, hc, hy⟩, hz, rfl⟩
  · obtain ⟨x, y, l₁, l₂, rfl, rfl, h1, h2⟩ := h.inv_seq.inv_cat
    obtain ⟨x, x', l₁, l₁', rfl, rfl, h1, h3⟩ := h1.inv_cat
    obtain ⟨rfl, rfl⟩ := deriv_tok_mute rfl h1
    have h3 := h3.inv_call
    simp only [grammar, body_XID_CONTINUE] at h3
    obtain ⟨c, rfl, hc, rfl⟩ := h3.inv_uni
    obtain ⟨rfl, hy, hz⟩ := deriv_conts h2
    exact ⟨.inr ⟨c, y, rfl, hc, hy⟩, hz, rfl⟩

theorem deriv_Symbol (ha : a ≠ .atomic) (h : Deriv grammar u a (.call .Symbol) p w z l) :
    ∃ q : Path, q.Ok u ∧ q.text = w ∧ NoCont u z ∧ ∃ m, l = [.mk .Symbol p (p + w.length) w m] := by
  have h := h.inv_call
  simp only [grammar, body_Symbol] at h
  obtain ⟨m, rfl, hm⟩ := h.inv_atomic.inv_rule (by decide)
  obtain ⟨x, y, l₁, l₂, rfl, rfl, h1, h2⟩ := hm.inv_seq.inv_cat
  obtain ⟨hx, hnc, -⟩ := deriv_SYMBOL (by decide) h1
  have : ∃ more : List (Bool × Str), (∀ m ∈ more, IsIdent u m.2) ∧ moreText more = y ∧ (NoCont u (y ++ z) → NoCont u z) := by
    refine h2.inv_rep (P := fun _ y z _ => ∃ more : List (Bool × Str), (∀ m ∈ more, IsIdent u m.2) ∧ moreText more = y ∧ (NoCont u (y ++ z) → NoCont u z)) ?_ ?_
    · intro q z _
      exact ⟨[], by simp, rfl, id⟩
    · rintro q w₁ w₂ z l₁ l₂ h ⟨more, hm, rfl, hn⟩
      obtain ⟨x, y, l₁, l₂, rfl, -, h1, h2⟩ := h.inv_seq.inv_cat
      obtain ⟨hy, hnc, -⟩ := deriv_SYMBOL (by decide) h2
      have hx : ∃ b, x = pathSep b := by
        have h1 := h1.inv_call
        simp only [grammar, body_Proportion] at h1
        obtain ⟨m, -, h1⟩ := h1.inv_rule (by decide)
        rcases h1.inv_atomic.inv_alt with h1 | ⟨-, h1⟩
        · exact ⟨false, h1.inv_str.1⟩
        · exact ⟨true, h1.inv_str.1⟩
      obtain ⟨b, rfl⟩ := hx
      refine ⟨(b, y) :: more, ?_, by simp [moreText], fun _ => hn hnc⟩
      intro m hm'
      rcases List.mem_cons.1 hm' with rfl | hm'
      · exact hy
      · exact hm m hm'
  obtain ⟨more, hmo, rfl, hn⟩ := this
  exact ⟨⟨x, more⟩, ⟨hx, hmo⟩, rfl, hn hnc, _, rfl⟩

/-! ### Numbers -/

theorem deriv_digits (h : Deriv grammar u a (.rep (.call .ASCII_DIGIT)) p w z l) :
    l = [] ∧ (∀ c ∈ w, IsDigit c) ∧ ∀ c t, z = c :: t → ¬ IsDigit c := by
  refine h.inv_rep (P := fun _ w z l => l = [] ∧ (∀ c ∈ w, IsDigit c) ∧ ∀ c t, z = c :: t → ¬ IsDigit c) ?_ ?_
  · intro q z h
    refine ⟨rfl, by simp, ?_⟩
    rintro c r rfl hc
    exact h.not_eats (x := [c]) fun v _ => eats_call (eats_range r hc.1 hc.2)
  · rintro q w₁ w₂ z l₁ l₂ h ⟨rfl, h2, h3⟩
    have h := h.inv_call
    simp only [grammar, body_ASCII_DIGIT] at h
    obtain ⟨c, rfl, hc, hc', rfl⟩ := h.inv_range
    refine ⟨rfl, fun d hd => ?_, h3⟩
    rcases List.mem_cons.1 hd with rfl | hd
    · exact ⟨hc, hc'⟩
    · exact h2 d hd

theorem deriv_Positive_body (h : Deriv grammar u .atomic (.seq (.cat (.call .ASCII_NONZERO_DIGIT) (.rep (.call .ASCII_DIGIT)))) p w z l) :
    l = [] ∧ IsPos w ∧ ∀ c t, z = c :: t → ¬ IsDigit c := by
  obtain ⟨x, y, l₁, l₂, rfl, rfl, h1, h2⟩ := h.inv_seq.inv_cat
  have h1 := h1.inv_call
  simp only [grammar, body_ASCII_NONZERO_DIGIT] at h1
  obtain ⟨c, rfl, hc, hc', rfl⟩ := h1.inv_range
  obtain ⟨rfl, hy, hz⟩ := deriv_digits h2
  exact ⟨rfl, ⟨c, y, rfl, hc, hc', hy⟩, hz⟩

/-- Positive numbers inside atomic rules. -/
theorem deriv_Positive (h : Deriv grammar u .atomic (.call .Positive) p w z l) :
    l = [] ∧ IsPos w ∧ ∀ c t, z = c :: t → ¬ IsDigit c := by
  have h := h.inv_call
  simp only [grammar, body_Positive] at h
  exact deriv_Positive_body h.inv_quiet.inv_atomic

theorem deriv_Integer (ha : a ≠ .atomic) (h : Deriv grammar u a (.call .Integer) p w z l) :
    ∃ n, w = numeral n ∧ l = [.mk .Integer p (p + w.length) w []] ∧ (n ≠ 0 → ∀ c t, z = c :: t → ¬ IsDigit c) := by
  have h := h.inv_call
  simp only [grammar, body_Integer] at h
  obtain ⟨m, rfl, hm⟩ := h.inv_rule ha
  rcases hm.inv_atomic.inv_alt with h | ⟨-, h⟩
  · obtain ⟨rfl, rfl⟩ := h.inv_str
    exact ⟨0, by simp [numeral], rfl, fun h => absurd rfl h⟩
  · obtain ⟨rfl, hp, hz⟩ := deriv_Positive h
    obtain ⟨n, rfl⟩ := int_numeral (.inr hp)
    exact ⟨n, rfl, rfl, fun _ => hz⟩

end SM.Props
