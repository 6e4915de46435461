import Verif.Props.Endings
import Verif.Props.Block
/-
C95: white space behind a text does not matter.
-/
namespace SM.Props
open SM SM.Peg

variable {u : Uni} {w : Str}

/-! ### The relation kept by the parser -/

/-- White space only. -/
def White (u : Uni) (l : Str) : Prop := ∀ c ∈ l, u .whiteSpace c = true

theorem White.suffix {a b : Str} (h : White u (a ++ b)) : White u b := fun c hc => h c (List.mem_append_right _ hc)

namespace Trail

/-- The rest of a text, and of the same text with `w` behind it: once the first is at its end, the second is somewhere in
the white space behind it. -/
def Tail (u : Uni) (w l m : Str) : Prop := (l = [] ∧ White u m) ∨ (l ≠ [] ∧ m = l ++ w)

theorem Tail.of_app (hw : White u w) (l : Str) : Tail u w l (l ++ w) := by
  cases l with
  | nil => exact .inl ⟨rfl, hw⟩
  | cons c l => exact .inr ⟨by simp, rfl⟩

/-- Two states of the parser in a text and in the same text with `w` behind it. -/
structure Even (u : Uni) (w : Str) (s t : St R) : Prop where
  rest : Tail u w s.rest t.rest
  stack : s.stack = t.stack
  queue : gist (fun _ => 0) s.queue = gist (fun _ => 0) t.queue

/-- What the parser read in either text; if `d`, the same. -/
structure Ran (u : Uni) (w : Str) (d : Bool) (s s' t t' : St R) : Prop where
  level : Even u w t t'
  read : ∃ x x' : Str, s.rest = x ++ t.rest ∧ s'.rest = x' ++ t'.rest ∧ t.pos = s.pos + x.length ∧
    t'.pos = s'.pos + x'.length ∧ (d = true → x = x')

/-- The same outcome in either text; if `d`, after reading the same; if `c`, after reading the same if successful. -/
def Twin (u : Uni) (w : Str) (d c : Bool) (s s' : St R) : Res R → Res R → Prop
  | .ok t, .ok t' => Ran u w (c || d) s s' t t'
  | .err t, .err t' => Ran u w d s s' t t'
  | _, _ => False

theorem Ran.stay {s s' t t' : St R} (d : Bool) (h : Even u w t t') (h1 : t.pos = s.pos) (h2 : t.rest = s.rest)
    (h3 : t'.pos = s'.pos) (h4 : t'.rest = s'.rest) : Ran u w d s s' t t' :=
  ⟨h, [], [], by simp [h2], by simp [h4], by simp [h1], by simp [h3], fun _ => rfl⟩

theorem Even.stay {s s' : St R} (d : Bool) (h : Even u w s s') : Ran u w d s s' s s' := .stay d h rfl rfl rfl rfl

theorem Ran.trans {d e : Bool} {s s' t t' x x' : St R} (h : Ran u w d s s' t t') (k : Ran u w e t t' x x') :
    Ran u w (d && e) s s' x x' := by
  obtain ⟨y, y', h1, h2, h3, h4, h5⟩ := h.read
  obtain ⟨z, z', k1, k2, k3, k4, k5⟩ := k.read
  refine ⟨k.level, y ++ z, y' ++ z', by rw [h1, k1, List.append_assoc], by rw [h2, k2, List.append_assoc],
    by rw [k3, h3, List.length_append]; omega, by rw [k4, h4, List.length_append]; omega, fun hd => ?_⟩
  simp only [Bool.and_eq_true] at hd
  rw [h5 hd.1, k5 hd.2]

theorem Ran.weaken {d e : Bool} {s s' t t' : St R} (h : Ran u w d s s' t t') (hd : e = true → d = true) :
    Ran u w e s s' t t' := by
  obtain ⟨y, y', h1, h2, h3, h4, h5⟩ := h.read
  exact ⟨h.level, y, y', h1, h2, h3, h4, fun he => h5 (hd he)⟩

theorem Twin.weaken {d c e : Bool} {s s' : St R} {r r' : Res R} (h : Twin u w d c s s' r r') (hd : e = true → d = true) :
    Twin u w e false s s' r r' := by
  cases r <;> cases r' <;> first | exact h.elim | skip
  · exact Ran.weaken h (fun he => by rw [hd he, Bool.or_true])
  · exact Ran.weaken h hd

theorem Twin.plain {d c : Bool} {s s' : St R} {r r' : Res R} (h : Twin u w d c s s' r r') : Twin u w d false s s' r r' :=
  h.weaken id

theorem Twin.from {d e c : Bool} {s s' t t' : St R} {r r' : Res R} (h : Ran u w d s s' t t')
    (k : Twin u w e c t t' r r') : Twin u w (d && e) false s s' r r' := by
  cases r <;> cases r' <;> first | exact k.elim | skip
  · exact (h.trans k).weaken (fun hd => by
      simp only [Bool.false_or, Bool.and_eq_true, Bool.or_eq_true] at hd ⊢
      exact ⟨hd.1, .inr hd.2⟩)
  · exact h.trans k

/-- Where the text is not at its end, the same was read in both. -/
theorem Ran.same {d : Bool} {s s' t t' : St R} (hs : Even u w s s') (h : Ran u w d s s' t t') (ht : t.rest ≠ []) :
    Ran u w true s s' t t' := by
  obtain ⟨y, y', h1, h2, h3, h4, -⟩ := h.read
  refine ⟨h.level, y, y', h1, h2, h3, h4, fun _ => ?_⟩
  rcases h.level.rest with ⟨e, -⟩ | ⟨-, e⟩
  · exact absurd e ht
  rcases hs.rest with ⟨e', -⟩ | ⟨-, e'⟩
  · rw [e'] at h1
    exact absurd (List.append_eq_nil_iff.1 h1.symm).2 ht
  · rw [h2, h1, e, List.append_assoc] at e'
    exact (List.append_cancel_right e').symm

theorem even_queue {s s' : St R} (h : Even u w s s') {q q' : List (Pair R)}
    (hq : gist (fun _ => 0) q = gist (fun _ => 0) q') : Even u w { s with queue := q } { s' with queue := q' } :=
  ⟨h.rest, h.stack, hq⟩

theorem Even.ran {s s' : St R} (h : Even u w s s') {x x' r r' : Str} (h1 : s.rest = x ++ r) (h2 : s'.rest = x' ++ r')
    (h3 : Tail u w r r') (d : Bool) (hd : d = true → x = x') :
    Ran u w d s s' (s.advance x.length r) (s'.advance x'.length r') :=
  ⟨⟨h3, h.stack, h.queue⟩, x, x', h1, h2, rfl, rfl, hd⟩

/-! ### What the grammar looks at -/

/-- The rules left out: those that read white space, which are looked at together with what is around them, those that are
read at the ends of a program only, those of string blocks, which are looked at as a whole, and those that no text reaches. -/
def astray : R → Bool
  | .program | .SOI | .EOI | .ANY | .WHITE_SPACE | .WHITESPACE | .NEWLINE | .PEEK | .POP | .StringText | .StringBlock | .Load | .Save |
    .LeftShift | .RightShift | .NotEqual | .Remainder | .Surd | .Acute | .LogicOr | .LogicAnd | .Ellipsis |
    .LogicXor => true
  | _ => false

/-- The quotation mark. -/
def isQuote : PE R → Bool
  | .call .Quotation => true
  | _ => false

/-- Expressions that read the same in both texts. -/
def crisp : PE R → Bool
  | .call r => dryR r || decide (r = .Quotation)
  | .rule _ e | .atomic _ e | .ifNon e | .seq e | .opt e | .rep e | .restore e => crisp e
  | .alt a b => crisp a && crisp b
  | .cat a b => crisp a && crisp b
  | .look _ _ => true
  | .str _ | .insens _ | .range _ _ | .uni _ => true
  | .soi | .eoi | .any | .push _ | .peek | .pop => false

/-- Expressions that end with a quotation mark. -/
def shut : PE R → Bool
  | .cat _ b => isQuote b
  | .rule _ e | .atomic _ e | .seq e => shut e
  | _ => false

/-- A string block, which is looked at as a whole. -/
def isBlockString : PE R → Bool
  | .call .StringBlock => true
  | _ => false

/-- What may be repeated within white space. -/
inductive Loose : PE R → Prop
  | space : Loose (.call .WHITESPACE)
  | gap : Loose (.seq (.cat (.look false (.call .NEWLINE)) (.call .WHITESPACE)))
  | line : Loose (.seq (.cat (.look false (.call .NEWLINE)) (.call .ANY)))
  | block : Loose inBlock
  | text : Loose (.alt (.seq (.cat (.call .Escape) (.alt (.call .Quotation) (.call .Escape))))
      (.seq (.cat (.look false (.call .Quotation)) (.call .ANY))))

/-- Is `Loose`. -/
def isLoose : PE R → Bool
  | .call .WHITESPACE => true
  | .seq (.cat (.look false (.call .NEWLINE)) (.call .WHITESPACE)) => true
  | .seq (.cat (.look false (.call .NEWLINE)) (.call .ANY)) => true
  | .alt (.call .MultiLineComment) (.seq (.cat (.look false (.str x)) (.call .ANY))) => decide (x = c!"%%%")
  | .alt (.seq (.cat (.call .Escape) (.alt (.call .Quotation) (.call .Escape))))
      (.seq (.cat (.look false (.call .Quotation)) (.call .ANY))) => true
  | _ => false

theorem loose_of {e : PE R} (h : isLoose e = true) : Loose e := by
  unfold isLoose at h
  split at h
  · exact .space
  · exact .gap
  · exact .line
  · rw [of_decide_eq_true h]; exact .block
  · exact .text
  · cases h

/-- Expressions that do not see white space behind the text; unless `k`, of quotation marks only. -/
def snug (k : Bool) : PE R → Bool
  | .call r => if k then !astray r else decide (r = .Quotation)
  | .rule r e => snug k e && (!texted r || crisp e || shut e) && (decide (r ≠ .apply_call) || headed e)
  | .rep e => k && isLoose e || snug k e
  | .restore e => k && isBlockString e || snug k e
  | .seq e | .atomic _ e | .ifNon e | .opt e | .look _ e => snug k e
  | .alt a b | .cat a b => snug k a && snug k b
  | .str x => x.all firm
  | .insens x => x.all fun c => firm c.toLower
  | .range a b => decide ((a, b) ∈ [('0', '9'), ('1', '9'), ('0', '1'), ('0', '7'), ('a', 'f'), ('A', 'F')])
  | .uni p => decide (p ≠ .whiteSpace)
  | .soi | .eoi | .any | .push _ | .peek | .pop => false

theorem grammar_snug : ∀ (k : Bool) (r : R), snug k (.call r) = true → snug k (grammar r) = true := by
  intro k r h1
  cases k with
  | false => rw [show r = .Quotation from of_decide_eq_true h1]; decide
  | true =>
    have h1 : astray r = false := by simpa [snug] using h1
    cases r <;> first | decide +kernel | exact absurd h1 (by decide)

theorem grammar_crisp : ∀ r : R, (dryR r || decide (r = .Quotation)) = true → crisp (grammar r) = true := by
  intro r h
  cases r <;> first | rfl | cases h

/-! ### Single characters -/

theorem strip_white (L : Lawful u) {x : Str} (hx : x.all firm = true) (h0 : x ≠ []) {m : Str} (hm : White u m) :
    strip x m = none := by
  match x, h0 with
  | c :: x, _ =>
    simp only [List.all_cons, Bool.and_eq_true] at hx
    match m with
    | [] => rfl
    | d :: m =>
      have : c ≠ d := by
        rintro rfl
        have := firm_ws L hx.1
        rw [hm c (List.mem_cons_self ..)] at this
        cases this
      simp [strip, this]

theorem strip_tail (L : Lawful u) (hw : White u w) {x : Str} (hx : x.all firm = true) {l m : Str} (h : Tail u w l m) :
    (strip x l = none ∧ strip x m = none) ∨ ∃ r r', strip x l = some r ∧ strip x m = some r' ∧ Tail u w r r' := by
  induction x generalizing l m with
  | nil => exact .inr ⟨l, m, rfl, rfl, h⟩
  | cons c x ih =>
    rcases h with ⟨rfl, hm⟩ | ⟨h0, rfl⟩
    · exact .inl ⟨rfl, strip_white L hx (by simp) hm⟩
    · match l, h0 with
      | d :: l, _ =>
        simp only [List.all_cons, Bool.and_eq_true] at hx
        by_cases hcd : c = d
        · simp only [List.cons_append, strip, if_pos hcd]
          exact ih hx.2 (.of_app hw l)
        · simp [strip, hcd]

theorem insens_tail (L : Lawful u) (hw : White u w) {x : Str} (hx : ∀ c ∈ x, u .whiteSpace c.toLower = false) {l m : Str}
    (h : Tail u w l m) : (stripInsens x l = none ∧ stripInsens x m = none) ∨
      ∃ z r r', stripInsens x l = some r ∧ stripInsens x m = some r' ∧ Tail u w r r' ∧ z.length = x.length ∧
        l = z ++ r ∧ m = z ++ r' := by
  induction x generalizing l m with
  | nil => exact .inr ⟨[], l, m, rfl, rfl, h, rfl, rfl, rfl⟩
  | cons c x ih =>
    have hc := hx c (List.mem_cons_self ..)
    rcases h with ⟨rfl, hm⟩ | ⟨h0, rfl⟩
    · refine .inl ⟨rfl, ?_⟩
      match m with
      | [] => rfl
      | d :: m =>
        have hd := hm d (List.mem_cons_self ..)
        have : c.toLower ≠ d.toLower := by
          intro h; rw [h, lower_ws L hd, hd] at hc; cases hc
        simp [stripInsens, this]
    · match l, h0 with
      | d :: l, _ =>
        by_cases hcd : c.toLower = d.toLower
        · simp only [List.cons_append, stripInsens, if_pos hcd]
          rcases ih (fun c h => hx c (List.mem_cons_of_mem _ h)) (.of_app hw l) with h |
            ⟨z, r, r', h1, h2, h3, h4, h5, h6⟩
          · exact .inl h
          · exact .inr ⟨d :: z, r, r', h1, h2, h3, by simp [h4], by simp [h5], by simp [h6]⟩
        · simp [stripInsens, hcd]

theorem twin_str (L : Lawful u) (hw : White u w) {x : Str} (hx : x.all firm = true) {s s' : St R} (h : Even u w s s')
    (d : Bool) : Twin u w d false s s' (s.matchStr x) (s'.matchStr x) := by
  unfold St.matchStr
  rcases strip_tail L hw hx h.rest with ⟨e1, e2⟩ | ⟨r, r', e1, e2, h3⟩ <;> rw [e1, e2]
  · exact h.stay _
  · exact h.ran (strip_app e1) (strip_app e2) h3 d (fun _ => rfl)

theorem twin_char (hw : White u w) {p : Char → Bool} (hp : ∀ c, p c = true → u .whiteSpace c = false) {s s' : St R}
    (h : Even u w s s') (d : Bool) : Twin u w d false s s' (s.charBy p) (s'.charBy p) := by
  unfold St.charBy
  rcases h.rest with ⟨e1, hm⟩ | ⟨h0, e2⟩
  · rw [e1]
    cases hr : s'.rest with
    | nil => exact h.stay _
    | cons c m =>
      rw [hr] at hm
      have hc : p c = false := by
        cases hx : p c with
        | false => rfl
        | true => have := hp c hx; rw [hm c (List.mem_cons_self ..)] at this; cases this
      dsimp only
      rw [hc]
      exact h.stay _
  · cases hr : s.rest with
    | nil => exact absurd hr h0
    | cons c l =>
      rw [hr, List.cons_append] at e2
      rw [e2]
      dsimp only
      split
      · exact h.ran (x := [c]) (x' := [c]) hr e2 (.of_app hw l) d (fun _ => rfl)
      · exact h.stay _

/-! ### Within the white space behind the text -/

/-- What `e` does within white space, with the stack `st`: nothing, or read some of it. -/
def Idle (u : Uni) (e : PE R) (v : Env) (st : List Str) : Prop := ∀ s : St R, s.stack = st → White u s.rest →
  sem grammar u e v s = .err s ∨
  ∃ x l, x ≠ [] ∧ s.rest = x ++ l ∧ sem grammar u e v s = .ok (s.advance x.length l)

theorem Idle.rep {e : PE R} {v : Env} {st : List Str} (h : Idle u e v st) : ∀ (n : Nat) (s : St R), s.rest.length ≤ n →
    s.stack = st → White u s.rest → ∃ x l, s.rest = x ++ l ∧ sem grammar u (.rep e) v s = .ok (s.advance x.length l) := by
  intro n
  induction n with
  | zero =>
    intro s hn ht hs
    rw [sem_rep]
    rcases h s ht hs with h1 | ⟨x, l, h0, h1, -⟩
    · rw [h1]; exact ⟨[], s.rest, rfl, rfl⟩
    · have := congrArg List.length h1
      rw [List.length_append] at this
      exact absurd (List.length_eq_zero_iff.1 (by omega)) h0
  | succ n ih =>
    intro s hn ht hs
    rw [sem_rep]
    rcases h s ht hs with h1 | ⟨x, l, h0, h1, h2⟩
    · rw [h1]; exact ⟨[], s.rest, rfl, rfl⟩
    · rw [h2]
      have hx : 0 < x.length := List.length_pos_of_ne_nil h0
      have := congrArg List.length h1
      rw [List.length_append] at this
      rw [h1] at hs
      obtain ⟨y, m, k1, k2⟩ := ih (s.advance x.length l) (by show l.length ≤ n; omega) ht hs.suffix
      have k1 : l = y ++ m := k1
      refine ⟨x ++ y, m, by rw [h1, k1, List.append_assoc], ?_⟩
      dsimp only
      rw [k2]
      simp [St.advance, Nat.add_assoc]

/-- `!x ~ ANY`. -/
theorem any_but {b : PE R} {x : Str} {v : Env} {s : St R} (hb : sem grammar u b { v with silent := true } s = s.matchStr x) :
    sem grammar u (.seq (.cat (.look false b) (.call .ANY))) v s =
      match strip x s.rest with
      | some _ => .err s
      | none => s.charBy fun _ => true := by
  rw [sem_seq, sem_cat, sem_look, hb]
  unfold St.matchStr
  obtain ⟨p, r, st, q⟩ := s
  dsimp only
  cases strip x r with
  | some r => rfl
  | none =>
    simp only [Res.mapBoth, Res.flip, Res.andThen, any_sem, St.charBy, backTo, Bool.false_eq_true, if_false]
    cases r with
    | nil => rfl
    | cons c l => rfl

theorem quote_sem (v : Env) (s : St R) : sem grammar u (.call .Quotation) { v with silent := true } s = s.matchStr ['"'] := by
  rw [sem_call]
  show sem grammar u (.rule .Quotation (.atomic .atomic (.str ['"']))) { v with silent := true } s = _
  rw [sem_rule, if_neg (by simp [Env.emits]), sem_atomic, sem_str]

/-- A rule that begins with a fixed text fails without it. -/
theorem block_absent {v : Env} {s : St R} (h : strip c!"%%%" s.rest = none) :
    sem grammar u (.call .MultiLineComment) v s = .err s := by
  rw [sem_call]
  show sem grammar u body_MultiLineComment v s = _
  rw [body_MultiLineComment, sem_atomic, sem_rule]
  split <;> simp [sem_seq, sem_cat, sem_str, St.matchStr, h, Res.mapBoth, Res.andThen]

theorem escape_absent {v : Env} {s : St R} (h : strip c!"\\" s.rest = none) (e : PE R) :
    sem grammar u (.seq (.cat (.call .Escape) e)) v s = .err s := by
  rw [sem_seq, sem_cat, sem_call]
  have : sem grammar u (grammar .Escape) v s = .err s := by
    show sem grammar u body_Escape v s = _
    rw [body_Escape, sem_rule]
    split <;> simp [sem_atomic, sem_str, St.matchStr, h, Res.mapBoth]
  rw [this]
  rfl

theorem escape_ok {v : Env} {s t : St R} (h : sem grammar u (.call .Escape) v s = .ok t) : t.stack = s.stack := by
  rw [sem_call] at h
  change sem grammar u body_Escape v s = _ at h
  rw [body_Escape, sem_rule, sem_atomic, sem_str, sem_atomic, sem_str] at h
  unfold St.matchStr at h
  dsimp only at h
  cases hr : strip c!"\\" s.rest with
  | none => rw [hr] at h; split at h <;> cases h
  | some r => rw [hr] at h; split at h <;> cases h <;> rfl

theorem escape_err {v : Env} {s t : St R}
    (h : sem grammar u (.seq (.cat (.call .Escape) (.alt (.call .Quotation) (.call .Escape)))) v s = .err t) : t = s := by
  rw [sem_seq, sem_cat] at h
  cases h1 : sem grammar u (.call .Escape) v s with
  | crash => rw [h1] at h; cases h
  | err x =>
    rw [h1, sem_call_err u _ (by decide) (by decide) h1] at h
    cases h
    rfl
  | ok x =>
    rw [h1] at h
    simp only [Res.andThen] at h
    rw [sem_alt] at h
    have hk := escape_ok h1
    cases h2 : sem grammar u (.call .Quotation) v x with
    | ok y => rw [h2] at h; cases h
    | crash => rw [h2] at h; cases h
    | err y =>
      rw [h2, sem_call_err u _ (by decide) (by decide) h2] at h
      simp only [Res.orElse] at h
      cases h3 : sem grammar u (.call .Escape) v x with
      | ok z => rw [h3] at h; cases h
      | crash => rw [h3] at h; cases h
      | err z =>
        rw [h3, sem_call_err u _ (by decide) (by decide) h3] at h
        cases h
        show ({ x with pos := s.pos, rest := s.rest, queue := s.queue } : St R) = s
        rw [hk]

theorem space_sem (L : Lawful u) (v : Env) {s : St R} {c : Char} {l : Str} (hs : s.rest = c :: l) :
    sem grammar u (.call .WHITESPACE) v s =
      if u .whiteSpace c then
        (if c = '\r' ∧ l.head? = some '\n' then .ok (s.advance 2 l.tail) else .ok (s.advance 1 l))
      else .err s := by
  rw [sem_call]
  show sem grammar u body_WHITESPACE v s = _
  rw [body_WHITESPACE, sem_atomic, sem_alt]
  have key : ∀ (v : Env) (s : St R), sem grammar u (.call .WHITE_SPACE) v s = s.charBy (u .whiteSpace) := by
    intro v s; rw [sem_call]; exact sem_uni v s _
  by_cases h1 : c = '\n'
  · subst h1
    rw [newline_ending (x := ['\n']) (l := l) (.inl rfl) _ hs, if_pos (ws_lf L), if_neg (by simp)]
    rfl
  by_cases h2 : c = '\r'
  · subst h2
    rw [if_pos (ws_cr L)]
    by_cases h3 : l.head? = some '\n'
    · rw [if_pos ⟨rfl, h3⟩]
      match l, h3 with
      | d :: l, h3 =>
        simp only [List.head?_cons, Option.some.injEq] at h3
        subst h3
        rw [newline_ending (x := ['\r', '\n']) (l := l) (.inr (.inl rfl)) _ hs]
        rfl
    · rw [if_neg (fun h => h3 h.2), newline_ending (x := ['\r']) (l := l) (.inr (.inr ⟨rfl, h3⟩)) _ hs]
      rfl
  · rw [newline_other h1 h2 _ hs]
    simp only [Res.orElse, key, St.charBy, hs, h2, false_and, if_false]

theorem space_nil (v : Env) {s : St R} (hs : s.rest = []) : sem grammar u (.call .WHITESPACE) v s = .err s := by
  rw [sem_call]
  show sem grammar u body_WHITESPACE v s = _
  rw [body_WHITESPACE, sem_atomic, sem_alt, newline_nil _ hs]
  simp only [Res.orElse]
  rw [sem_call]
  show sem grammar u (.uni .whiteSpace) _ s = _
  rw [sem_uni]
  simp [St.charBy, hs]

/-- Whether a line ends here. -/
theorem newline_sem (v : Env) (s : St R) :
    (∃ x l, LineEnd x l ∧ s.rest = x ++ l ∧ sem grammar u (.call .NEWLINE) v s = .ok (s.advance x.length l)) ∨
    (sem grammar u (.call .NEWLINE) v s = .err s ∧ ∀ c l, s.rest = c :: l → c ≠ '\n' ∧ c ≠ '\r') := by
  rcases text_cases s.rest with h | ⟨x, l, h, hx, -⟩ | ⟨c, l, h, h1, h2⟩
  · exact .inr ⟨newline_nil v h, by intro c l e; rw [h] at e; cases e⟩
  · exact .inl ⟨x, l, hx, h, newline_ending hx v h⟩
  · refine .inr ⟨newline_other h1 h2 v h, ?_⟩
    intro d m e
    rw [h] at e
    cases e
    exact ⟨h1, h2⟩

/-- `!NEWLINE ~ e`. -/
theorem line_but (b : PE R) (v : Env) (s : St R) :
    ((∃ x l, LineEnd x l ∧ s.rest = x ++ l) ∧
      sem grammar u (.seq (.cat (.look false (.call .NEWLINE)) b)) v s = .err s) ∨
    ((∀ c l, s.rest = c :: l → c ≠ '\n' ∧ c ≠ '\r') ∧
      sem grammar u (.seq (.cat (.look false (.call .NEWLINE)) b)) v s = sem grammar u (.seq b) v s) := by
  rw [sem_seq, sem_cat, sem_look]
  rcases newline_sem (u := u) { v with silent := true } s with ⟨x, l, hx, h, e⟩ | ⟨e, h⟩ <;> rw [e]
  · exact .inl ⟨⟨x, l, hx, h⟩, rfl⟩
  · refine .inr ⟨h, ?_⟩
    rw [sem_seq]
    rfl

theorem seq_sem (e : PE R) (v : Env) (s : St R) (h : ∀ t, sem grammar u e v s = .err t → t = s) :
    sem grammar u (.seq e) v s = sem grammar u e v s := by
  rw [sem_seq]
  cases hx : sem grammar u e v s with
  | ok t => rfl
  | crash => rfl
  | err t => rw [h t hx]; rfl

theorem idle_any (s : St R) : s.charBy (fun _ => true) = .err s ∨
    ∃ x l, x ≠ [] ∧ s.rest = x ++ l ∧ s.charBy (fun _ => true) = .ok (s.advance x.length l) := by
  unfold St.charBy
  cases hr : s.rest with
  | nil => exact .inl rfl
  | cons c l => exact .inr ⟨[c], l, by simp, rfl, rfl⟩

theorem idle_space (L : Lawful u) (v : Env) (st : List Str) : Idle u (.call .WHITESPACE) v st := by
  intro s _ hs
  cases hr : s.rest with
  | nil => exact .inl (space_nil v hr)
  | cons c l =>
    rw [space_sem L v hr, if_pos (hs c (by rw [hr]; exact List.mem_cons_self ..))]
    by_cases h : c = '\r' ∧ l.head? = some '\n'
    · rw [if_pos h]
      match l, h with
      | d :: l, h =>
        exact .inr ⟨[c, d], l, by simp, rfl, rfl⟩
    · rw [if_neg h]
      exact .inr ⟨[c], l, by simp, rfl, rfl⟩

theorem space_err (L : Lawful u) (v : Env) (s t : St R) (h : sem grammar u (.call .WHITESPACE) v s = .err t) : t = s := by
  cases hr : s.rest with
  | nil => rw [space_nil v hr] at h; cases h; rfl
  | cons c l =>
    rw [space_sem L v hr] at h
    split at h
    · split at h <;> cases h
    · cases h; rfl

theorem any_err (v : Env) (s t : St R) (h : sem grammar u (.call .ANY) v s = .err t) : t = s := by
  rw [any_sem] at h
  unfold St.charBy at h
  split at h
  · cases h; rfl
  · split at h <;> cases h
    rfl

theorem Loose.idle (L : Lawful u) {e : PE R} (h : Loose e) (v : Env) (st : List Str) : Idle u e v st := by
  cases h with
  | space => exact idle_space L v st
  | gap =>
    intro s ht hs
    rcases line_but (u := u) (.call .WHITESPACE) v s with ⟨-, e⟩ | ⟨-, e⟩ <;> rw [e]
    · exact .inl rfl
    · rw [seq_sem _ _ _ (space_err L v s)]
      exact idle_space L v st s ht hs
  | line =>
    intro s ht hs
    rcases line_but (u := u) (.call .ANY) v s with ⟨-, e⟩ | ⟨-, e⟩ <;> rw [e]
    · exact .inl rfl
    · rw [seq_sem _ _ _ (any_err v s), any_sem]
      exact idle_any s
  | block =>
    intro s ht hs
    have h0 : strip c!"%%%" s.rest = none := strip_white L (by decide) (by decide) hs
    rw [sem_alt, block_absent h0]
    simp only [Res.orElse]
    rw [any_but (sem_str ..), h0]
    exact idle_any s
  | text =>
    intro s ht hs
    have h0 : strip c!"\\" s.rest = none := strip_white L (by decide) (by decide) hs
    have h1 : strip ['"'] s.rest = none := strip_white L (by decide) (by decide) hs
    rw [sem_alt, escape_absent h0]
    simp only [Res.orElse]
    rw [any_but (quote_sem v s), h1]
    exact idle_any s

/-! ### Within the text -/

theorem twin_any (hw : White u w) {s s' : St R} (h : Even u w s s') (h0 : s.rest ≠ []) :
    Twin u w false false s s' (s.charBy fun _ => true) (s'.charBy fun _ => true) := by
  rcases h.rest with ⟨e, -⟩ | ⟨-, e2⟩
  · exact absurd e h0
  unfold St.charBy
  cases hr : s.rest with
  | nil => exact absurd hr h0
  | cons c l =>
    rw [hr, List.cons_append] at e2
    rw [e2]
    exact h.ran (x := [c]) (x' := [c]) hr e2 (.of_app hw l) _ (fun _ => rfl)

theorem twin_but (L : Lawful u) (hw : White u w) {b : PE R} {x : Str} {v : Env} (hx : x.all firm = true)
    (hb : ∀ s : St R, sem grammar u b { v with silent := true } s = s.matchStr x) {s s' : St R} (h : Even u w s s')
    (h0 : s.rest ≠ []) : Twin u w false false s s' (sem grammar u (.seq (.cat (.look false b) (.call .ANY))) v s)
      (sem grammar u (.seq (.cat (.look false b) (.call .ANY))) v s') := by
  rw [any_but (hb s), any_but (hb s')]
  rcases strip_tail L hw hx h.rest with ⟨e1, e2⟩ | ⟨r, r', e1, e2, -⟩ <;> rw [e1, e2]
  · exact twin_any hw h h0
  · exact h.stay _

theorem twin_space (L : Lawful u) (hw : White u w) (v : Env) {s s' : St R} (h : Even u w s s') (h0 : s.rest ≠ []) :
    Twin u w false false s s' (sem grammar u (.call .WHITESPACE) v s) (sem grammar u (.call .WHITESPACE) v s') := by
  rcases h.rest with ⟨e, -⟩ | ⟨-, e2⟩
  · exact absurd e h0
  cases hr : s.rest with
  | nil => exact absurd hr h0
  | cons c l =>
    rw [hr, List.cons_append] at e2
    rw [space_sem L v hr, space_sem L v e2]
    split
    · match l with
      | [] =>
        rw [if_neg (by simp)]
        split
        · rename_i hc
          match w, hc with
          | d :: w, hc =>
            exact h.ran (x := [c]) (x' := [c, d]) hr e2
              (.inl ⟨rfl, fun e he => hw e (List.mem_cons_of_mem _ he)⟩) _ (fun h => nomatch h)
        · exact h.ran (x := [c]) (x' := [c]) hr e2 (.of_app hw []) _ (fun _ => rfl)
      | d :: l =>
        by_cases hd : c = '\r' ∧ (d :: l).head? = some '\n'
        · rw [if_pos hd, if_pos (by exact hd)]
          exact h.ran (x := [c, d]) (x' := [c, d]) hr e2 (.of_app hw l) _ (fun _ => rfl)
        · rw [if_neg hd, if_neg (by exact hd)]
          exact h.ran (x := [c]) (x' := [c]) hr e2 (.of_app hw (d :: l)) _ (fun _ => rfl)
    · exact h.stay _

theorem line_end_head {x l : Str} (h : LineEnd x l) : ∃ c m, x ++ l = c :: m ∧ (c = '\n' ∨ c = '\r') := by
  rcases h with rfl | rfl | ⟨rfl, -⟩
  · exact ⟨_, _, rfl, .inl rfl⟩
  · exact ⟨_, _, rfl, .inr rfl⟩
  · exact ⟨_, _, rfl, .inr rfl⟩

theorem twin_line {b : PE R} {v : Env} {s s' : St R} (h : Even u w s s') (h0 : s.rest ≠ [])
    (hb : Twin u w false false s s' (sem grammar u (.seq b) v s) (sem grammar u (.seq b) v s')) :
    Twin u w false false s s' (sem grammar u (.seq (.cat (.look false (.call .NEWLINE)) b)) v s)
      (sem grammar u (.seq (.cat (.look false (.call .NEWLINE)) b)) v s') := by
  rcases h.rest with ⟨e, -⟩ | ⟨-, e2⟩
  · exact absurd e h0
  cases hr : s.rest with
  | nil => exact absurd hr h0
  | cons c l =>
  rw [hr, List.cons_append] at e2
  rcases line_but (u := u) b v s with ⟨⟨x, m, h1, h2⟩, e⟩ | ⟨h1, e⟩ <;>
    rcases line_but (u := u) b v s' with ⟨⟨x', m', k1, k2⟩, e'⟩ | ⟨k1, e'⟩ <;> rw [e, e']
  · exact h.stay _
  · obtain ⟨d, n, h3, h4⟩ := line_end_head h1
    rw [h3, hr] at h2
    cases h2
    have := k1 _ _ e2
    rcases h4 with rfl | rfl
    · exact absurd rfl this.1
    · exact absurd rfl this.2
  · obtain ⟨d, n, h3, h4⟩ := line_end_head k1
    rw [h3, e2] at k2
    cases k2
    have := h1 _ _ hr
    rcases h4 with rfl | rfl
    · exact absurd rfl this.1
    · exact absurd rfl this.2
  · exact hb

/-! ### Quotation marks -/

theorem quote_ok {v : Env} {s t : St R} (h : sem grammar u (.call .Quotation) v s = .ok t) : s.rest = '"' :: t.rest := by
  rw [sem_call] at h
  change sem grammar u (.rule .Quotation (.atomic .atomic (.str ['"']))) v s = _ at h
  rw [sem_rule] at h
  have key : ∀ q : List (Pair R), ∀ y, ({ s with queue := q } : St R).matchStr ['"'] = .ok y → s.rest = '"' :: y.rest := by
    intro q y hy
    unfold St.matchStr at hy
    cases hr : strip ['"'] s.rest with
    | none => simp only [hr] at hy; cases hy
    | some r => simp only [hr] at hy; cases hy; exact strip_app hr
  split at h
  · rw [sem_atomic, sem_str] at h
    cases hm : ({ s with queue := [] } : St R).matchStr ['"'] with
    | ok x => rw [hm] at h; cases h; exact key [] x hm
    | err x => rw [hm] at h; cases h
    | crash => rw [hm] at h; cases h
  · rw [sem_atomic, sem_str] at h
    exact key s.queue _ h

/-! ### The parser does not see the white space behind the text -/

theorem twin_sem (L : Lawful u) (hw : White u w) (k : Bool) (hk : k = true → ∀ (v : Env) (s s' : St R), Even u w s s' →
    sem grammar u (.restore (.call .StringBlock)) v s ≠ .crash →
    Twin u w false false s s' (sem grammar u (.restore (.call .StringBlock)) v s)
      (sem grammar u (.restore (.call .StringBlock)) v s')) :
    ∀ (n : Nat) (e : PE R) (v : Env) (s s' : St R), snug k e = true →
    Even u w s s' → run grammar u n e v s ≠ .crash →
    Twin u w (crisp e) (shut e) s s' (run grammar u n e v s) (sem grammar u e v s') := by
  intro n
  induction n with
  | zero => intro e v s s' _ _ h; exact absurd rfl h
  | succ n ih =>
    intro e v s s' hb hs hc
    cases e with
    | call r =>
      rw [run] at hc ⊢
      rw [sem_call]
      exact (ih _ v s s' (grammar_snug k r hb) hs hc).weaken (grammar_crisp r)
    | rule r e =>
      simp only [snug, Bool.and_eq_true, Bool.or_eq_true, Bool.not_eq_true'] at hb
      obtain ⟨⟨hb1, hb2⟩, hb3⟩ := hb
      rw [run] at hc ⊢
      rw [sem_rule]
      split at hc <;> rename_i hv
      · rw [if_pos hv, if_pos hv]
        have hc' : run grammar u n e v { s with queue := [] } ≠ .crash := fun h => hc (by rw [h]; rfl)
        have h := ih e v { s with queue := [] } { s' with queue := [] } hb1 (even_queue hs rfl) hc'
        have hh : ∀ t, run grammar u n e v { s with queue := [] } = .ok t → headed e = true →
            ∃ p m, t.queue = p :: m ∧ p.rule = .Symbol := by
          intro t ht hd
          exact headed_first (u := u) hd hv (s := { s with queue := [] }) rfl (by rw [← run_eq_sem hc', ht])
        revert h hh
        generalize run grammar u n e v { s with queue := [] } = x
        generalize sem grammar u e v { s' with queue := [] } = x'
        intro h hh
        cases x with
        | crash => cases x' <;> exact h.elim
        | err t =>
          cases x' with
          | err t' => exact ⟨even_queue h.level hs.queue, h.read⟩
          | ok _ => exact h.elim
          | crash => exact h.elim
        | ok t =>
          cases x' with
          | err _ => exact h.elim
          | crash => exact h.elim
          | ok t' =>
            refine ⟨even_queue h.level ?_, h.read⟩
            rw [gist_append, gist_append, hs.queue]
            congr 1
            obtain ⟨y, y', e1, e2, e3, e4, e5⟩ := h.read
            dsimp only at e1 e2 e3 e4
            refine gist_mk rfl rfl ?_ h.level.queue ?_
            · intro ht
              have : y = y' := by
                rcases hb2 with (hb2 | hb2) | hb2
                · rw [ht] at hb2; cases hb2
                · exact e5 (by rw [hb2, Bool.or_true])
                · exact e5 (by rw [hb2, Bool.true_or])
              simp only [St.between, e1, e2, e3, e4, Nat.add_sub_cancel_left, this, List.take_left']
            · intro hr
              rcases hb3 with hb3 | hb3
              · exact absurd hr (of_decide_eq_true hb3)
              · exact hh t rfl hb3
      · rw [if_neg hv, if_neg hv]
        exact ih e v s s' hb1 hs hc
    | atomic a e =>
      rw [run] at hc ⊢
      rw [sem_atomic]
      exact ih e _ s s' hb hs hc
    | ifNon e =>
      rw [run] at hc ⊢
      rw [sem_ifNon]
      split at hc <;> rename_i hv
      · rw [if_pos hv, if_pos hv]; exact (ih e v s s' hb hs hc).plain
      · rw [if_neg hv, if_neg hv]; exact hs.stay _
    | seq e =>
      rw [run] at hc ⊢
      rw [sem_seq]
      have h := ih e v s s' hb hs (fun h => hc (by rw [h]; rfl))
      revert h
      generalize run grammar u n e v s = x
      generalize sem grammar u e v s' = x'
      intro h
      cases x <;> cases x' <;> first | exact h.elim | skip
      · exact h
      · exact .stay _ ⟨hs.rest, h.level.stack, hs.queue⟩ rfl rfl rfl rfl
    | opt e =>
      rw [run] at hc ⊢
      rw [sem_opt]
      have h := (ih e v s s' hb hs (fun h => hc (by rw [h]; rfl))).plain
      revert h
      generalize run grammar u n e v s = x
      generalize sem grammar u e v s' = x'
      intro h
      cases x <;> cases x' <;> first | exact h.elim | exact h
    | rep e =>
      by_cases hq : (k && isLoose e) = true
      · obtain ⟨hkk, hq⟩ := Bool.and_eq_true_iff.1 hq
        have hl := loose_of hq
        by_cases h0 : s.rest = []
        · rw [run_eq_sem hc]
          rcases hs.rest with ⟨-, hm⟩ | ⟨h1, -⟩
          · obtain ⟨x, l, e1, e2⟩ := (hl.idle L v _).rep _ s (Nat.le_refl _) rfl (by rw [h0]; exact fun _ h => nomatch h)
            obtain ⟨x', l', e1', e2'⟩ := (hl.idle L v _).rep _ s' (Nat.le_refl _) rfl hm
            rw [e2, e2']
            have hx := List.append_eq_nil_iff.1 (e1.symm.trans h0)
            rw [e1'] at hm
            exact hs.ran e1 e1' (.inl ⟨hx.2, hm.suffix⟩) _ (fun hd => by cases hl <;> cases hd)
          · exact absurd h0 h1
        · have next : Twin u w false false s s' (run grammar u n e v s) (sem grammar u e v s') := by
            have h1 : run grammar u n e v s ≠ .crash := by
              intro e; rw [run, e] at hc; exact hc rfl
            have two : ∀ {a b : PE R}, snug k a = true → e = .alt a b →
                (∀ t, sem grammar u a v s = .err t → t = s) → (∀ t, sem grammar u a v s' = .err t → t = s') →
                Twin u w false false s s' (sem grammar u b v s) (sem grammar u b v s') →
                Twin u w false false s s' (run grammar u n e v s) (sem grammar u e v s') := by
              intro a b ha he hsa hsa' hbb
              subst he
              have h2 : run grammar u n a v s ≠ .crash := by
                cases n with
                | zero => exact absurd rfl h1
                | succ n =>
                  have : run grammar u n a v s ≠ .crash := by
                    intro e; rw [run, e] at h1; exact h1 rfl
                  rw [run_mono' (Nat.le_succ n) this]; exact this
              have h3 := ih a v s s' ha hs h2
              rw [run_eq_sem h2] at h3
              rw [run_eq_sem h1, sem_alt, sem_alt]
              revert h3
              cases hx : sem grammar u a v s <;>
                cases hx' : sem grammar u a v s' <;> intro h3 <;> first | exact h3.elim | skip
              · exact h3.weaken (fun h => nomatch h)
              · rw [hsa _ hx, hsa' _ hx']
                exact hbb
            cases hl with
            | space => rw [run_eq_sem h1]; exact twin_space L hw v hs h0
            | gap =>
              rw [run_eq_sem h1]
              refine twin_line hs h0 ?_
              rw [seq_sem _ _ _ (space_err L v s), seq_sem _ _ _ (space_err L v s')]
              exact twin_space L hw v hs h0
            | line =>
              rw [run_eq_sem h1]
              refine twin_line hs h0 ?_
              rw [seq_sem _ _ _ (any_err v s), seq_sem _ _ _ (any_err v s'), any_sem, any_sem]
              exact twin_any hw hs h0
            | block =>
              exact two (by rw [hkk]; rfl) rfl (fun t h => sem_call_err u _ (by decide) (by decide) h)
                (fun t h => sem_call_err u _ (by decide) (by decide) h)
                (twin_but L hw (by decide) (fun s => sem_str ..) hs h0)
            | text =>
              have key : ∀ s t : St R, sem grammar u (.seq (.cat (.call .Escape) (.alt (.call .Quotation) (.call .Escape)))) v s = .err t → t = s := by
                intro s t h
                exact escape_err h
              exact two (by rw [hkk]; rfl) rfl (key s) (key s') (twin_but L hw (by decide) (quote_sem v) hs h0)
          rw [run] at hc ⊢
          rw [sem_rep]
          revert next hc
          generalize run grammar u n e v s = x
          generalize sem grammar u e v s' = x'
          intro hc h
          cases x <;> cases x' <;> first | exact h.elim | skip
          · rename_i t t'
            exact (Twin.from h (ih (.rep e) v t t' hb h.level hc)).weaken (fun hd => by cases hl <;> cases hd)
          · exact Ran.weaken h (fun hd => by cases hl <;> cases hd)
      have hb0 := hb
      have hb : snug k e = true := by
        simp only [snug, Bool.or_eq_true] at hb
        rcases hb with hb | hb
        · exact absurd hb hq
        · exact hb
      rw [run] at hc ⊢
      rw [sem_rep]
      have h := (ih e v s s' hb hs (fun h => hc (by rw [h]))).plain
      revert h hc
      generalize run grammar u n e v s = x
      generalize sem grammar u e v s' = x'
      intro hc h
      cases x <;> cases x' <;> first | exact h.elim | skip
      · rename_i t t'
        exact (Twin.from h (ih (.rep e) v t t' hb0 h.level hc)).weaken (fun hd => by simpa [crisp] using hd)
      · exact h
    | alt a b =>
      simp only [snug, Bool.and_eq_true] at hb
      rw [run] at hc ⊢
      rw [sem_alt]
      have h := (ih a v s s' hb.1 hs (fun h => hc (by rw [h]; rfl))).plain
      revert h hc
      generalize run grammar u n a v s = x
      generalize sem grammar u a v s' = x'
      intro hc h
      cases x <;> cases x' <;> first | exact h.elim | skip
      · exact Ran.weaken h (fun hd => by
          have hd : (crisp a && crisp b) = true := hd
          exact (Bool.and_eq_true_iff.1 hd).1)
      · rename_i t t'
        exact Twin.from h (ih b v t t' hb.2 h.level hc)
    | cat a b =>
      simp only [snug, Bool.and_eq_true] at hb
      rw [run] at hc ⊢
      rw [sem_cat]
      have hc' : run grammar u n a v s ≠ .crash := fun h => hc (by rw [h]; rfl)
      have h := ih a v s s' hb.1 hs hc'
      revert h hc
      generalize run grammar u n a v s = x
      generalize sem grammar u a v s' = x'
      intro hc h
      cases x <;> cases x' <;> first | exact h.elim | skip
      · rename_i t t'
        have k := ih b v t t' hb.2 h.level hc
        cases hq : isQuote b with
        | true =>
          have e : b = .call .Quotation := by
            unfold isQuote at hq
            split at hq
            · rfl
            · cases hq
          subst e
          have ht : ∀ y, run grammar u n (.call .Quotation) v t = .ok y → t.rest ≠ [] := by
            intro y hy
            rw [run_eq_sem hc] at hy
            rw [quote_ok hy]
            simp
          revert k ht
          show Twin .. → (∀ y, _ = _ → _) → Twin u w _ _ _ _ (run grammar u n (.call .Quotation) v t) (sem grammar u (.call .Quotation) v t')
          generalize run grammar u n (.call .Quotation) v t = y
          generalize sem grammar u (.call .Quotation) v t' = y'
          intro k ht
          cases y <;> cases y' <;> first | exact k.elim | skip
          · exact ((Ran.same hs h (ht _ rfl)).trans k).weaken (fun _ => rfl)
          · exact (Ran.trans h k).weaken (fun hd => by
              simp only [crisp, Bool.and_eq_true, Bool.or_eq_true] at hd ⊢
              exact ⟨.inr hd.1, hd.2⟩)
        | false =>
          show Twin u w (crisp a && crisp b) (isQuote b) _ _ _ _
          rw [hq]
          exact Twin.from (Ran.weaken h (fun hd => by rw [hd, Bool.or_true])) k
      · exact Ran.weaken h (fun hd => by simp only [crisp, Bool.and_eq_true] at hd; exact hd.1)
    | restore e =>
      by_cases hq : (k && isBlockString e) = true
      · obtain ⟨hkk, hq⟩ := Bool.and_eq_true_iff.1 hq
        have he : e = .call .StringBlock := by
          unfold isBlockString at hq
          split at hq
          · rfl
          · cases hq
        subst he
        have e := run_eq_sem hc
        rw [e] at hc ⊢
        exact hk hkk v s s' hs hc
      have hb : snug k e = true := by
        simp only [snug, Bool.or_eq_true] at hb
        rcases hb with hb | hb
        · exact absurd hb hq
        · exact hb
      rw [run] at hc ⊢
      rw [sem_restore]
      have h := (ih e v s s' hb hs (fun h => hc (by rw [h]; rfl))).plain
      revert h
      generalize run grammar u n e v s = x
      generalize sem grammar u e v s' = x'
      intro h
      cases x <;> cases x' <;> first | exact h.elim | skip
      · exact h
      · exact ⟨⟨h.level.rest, hs.stack, h.level.queue⟩, h.read⟩
    | look p e =>
      rw [run] at hc ⊢
      rw [sem_look]
      have hc' : run grammar u n e { v with silent := true } s ≠ .crash := by
        intro h; apply hc; rw [h]; cases p <;> rfl
      have h := (ih e { v with silent := true } s s' hb hs hc').plain
      revert h
      generalize run grammar u n e { v with silent := true } s = x
      generalize sem grammar u e { v with silent := true } s' = x'
      intro h
      have key : ∀ t t' : St R, Ran u w (crisp e) s s' t t' → Ran u w (crisp (.look p e)) s s' (backTo s t) (backTo s' t') :=
        fun t t' h => .stay _ ⟨hs.rest, hs.stack, h.level.queue⟩ rfl rfl rfl rfl
      cases x <;> cases x' <;> first | exact h.elim | (cases p <;> exact key _ _ h)
    | str x =>
      rw [run, sem_str]
      exact twin_str L hw hb hs _
    | insens x =>
      rw [run, sem_insens]
      rcases insens_tail L hw (fun c hx => firm_ws L (List.all_eq_true.1 hb c hx)) hs.rest with ⟨e1, e2⟩ |
        ⟨z, r, r', e1, e2, h3, h4, h5, h6⟩ <;> rw [e1, e2]
      · exact hs.stay _
      · dsimp only
        rw [← h4]
        exact hs.ran h5 h6 h3 _ (fun _ => rfl)
    | range a b =>
      rw [run, sem_range]
      refine twin_char hw (fun c hx => ?_) hs _
      simp only [Bool.and_eq_true, decide_eq_true_eq] at hx
      have hb : (a, b) ∈ [('0', '9'), ('1', '9'), ('0', '1'), ('0', '7'), ('a', 'f'), ('A', 'F')] := of_decide_eq_true hb
      have h1 : 48 ≤ c.toNat ∧ c.toNat < 128 := by
        have h1 : a.toNat ≤ c.toNat := hx.1
        have h2 : c.toNat ≤ b.toNat := hx.2
        simp only [List.mem_cons, Prod.mk.injEq, List.not_mem_nil, or_false] at hb
        rcases hb with ⟨rfl, rfl⟩ | ⟨rfl, rfl⟩ | ⟨rfl, rfl⟩ | ⟨rfl, rfl⟩ | ⟨rfl, rfl⟩ | ⟨rfl, rfl⟩ <;>
          (simp only [Char.reduceToNat] at h1 h2; omega)
      rw [L.plain _ _ (.inl h1.2)]
      simp only [asciiUni, decide_eq_false_iff_not, List.mem_cons, List.not_mem_nil, or_false]
      rintro (rfl | rfl | rfl | rfl | rfl | rfl) <;> (simp only [Char.reduceToNat] at h1; omega)
    | uni p =>
      rw [run, sem_uni]
      refine twin_char hw (fun c hx => ?_) hs _
      cases p with
      | xidStart => exact L.cont_ws c (L.start_cont c hx)
      | xidContinue => exact L.cont_ws c hx
      | whiteSpace => exact absurd hb (by simp [snug])
    | any => cases hb
    | soi => cases hb
    | eoi => cases hb
    | push e => cases hb
    | peek => cases hb
    | pop => cases hb

theorem twin_of (L : Lawful u) (hw : White u w) {k : Bool} (hk : k = true → ∀ (v : Env) (s s' : St R), Even u w s s' →
    sem grammar u (.restore (.call .StringBlock)) v s ≠ .crash →
    Twin u w false false s s' (sem grammar u (.restore (.call .StringBlock)) v s)
      (sem grammar u (.restore (.call .StringBlock)) v s')) {e : PE R} (v : Env) {s s' : St R} (he : snug k e = true)
    (hs : Even u w s s') : sem grammar u e v s = .crash ∨
      (∃ t t', sem grammar u e v s = .ok t ∧ sem grammar u e v s' = .ok t' ∧ Ran u w (crisp e) s s' t t') ∨
      (∃ t t', sem grammar u e v s = .err t ∧ sem grammar u e v s' = .err t') := by
  by_cases hc : sem grammar u e v s = .crash
  · exact .inl hc
  obtain ⟨n, hn⟩ := sem_settles grammar u e v s
  have hn := hn n (Nat.le_refl n)
  have h := twin_sem L hw k hk n e v s s' he hs (by rw [hn]; exact hc)
  rw [hn] at h
  revert h
  generalize sem grammar u e v s = x
  generalize sem grammar u e v s' = x'
  intro h
  cases x <;> cases x' <;> first | exact h.elim | skip
  · exact .inr (.inl ⟨_, _, rfl, rfl, Ran.weaken h (fun hd => by rw [hd, Bool.or_true])⟩)
  · exact .inr (.inr ⟨_, _, rfl, rfl⟩)

/-! ### String blocks -/

theorem quotes_firm (n : Nat) : (quotes n).all firm = true := by
  induction n with
  | zero => rfl
  | succ n ih =>
    rw [quotes, List.replicate_succ, List.all_cons]
    exact Bool.and_eq_true_iff.2 ⟨by decide, ih⟩

theorem unit_sem {n : Nat} {st : List Str} (v : Env) {s : St R} (hs : s.stack = quotes n :: st) :
    sem grammar u blockUnit v s =
      match strip (quotes (n + 3)) s.rest with
      | some _ => .err s
      | none => s.charBy fun _ => true := by
  refine any_but (b := blockEnd) ?_
  obtain ⟨p, r, sk, q⟩ := s
  have hs : sk = quotes n :: st := hs
  subst hs
  unfold St.matchStr
  cases h : strip (quotes (n + 3)) r with
  | none => exact failsS_blockEnd (emits_silent v) st h p q
  | some t =>
    dsimp only
    obtain ⟨z, hz, e⟩ := eatsS_blockEnd (u := u) (emits_silent v) n t st p q
    have hz : z = [] := hz
    rw [strip_some h, e, hz, List.append_nil]
    rfl

theorem unit_idle (L : Lawful u) {n : Nat} {st : List Str} (v : Env) : Idle u blockUnit v (quotes n :: st) := by
  intro s ht hs
  rw [unit_sem v ht, strip_white L (quotes_firm _) (by simp [quotes]) hs]
  exact idle_any s

theorem text_loop (L : Lawful u) (hw : White u w) {n : Nat} {st : List Str} (v : Env) : ∀ (r : Str) (s s' : St R),
    s.rest = r → Tail u w s.rest s'.rest → s.stack = quotes n :: st → s'.stack = quotes n :: st →
    ∃ x l x' l', s.rest = x ++ l ∧ s'.rest = x' ++ l' ∧
      sem grammar u (.rep blockUnit) v s = .ok (s.advance x.length l) ∧
      sem grammar u (.rep blockUnit) v s' = .ok (s'.advance x'.length l') ∧
      ((l = [] ∧ White u l') ∨ (l ≠ [] ∧ l' = l ++ w ∧ x = x')) := by
  intro r
  induction r with
  | nil =>
    intro s s' hr ht h1 h2
    rcases ht with ⟨-, hm⟩ | ⟨h0, -⟩
    · obtain ⟨x, l, e1, e2⟩ := (unit_idle L v).rep _ s (Nat.le_refl _) h1 (by rw [hr]; exact fun _ h => nomatch h)
      obtain ⟨x', l', e1', e2'⟩ := (unit_idle L v).rep _ s' (Nat.le_refl _) h2 hm
      have hx := List.append_eq_nil_iff.1 (e1.symm.trans hr)
      rw [e1'] at hm
      exact ⟨x, l, x', l', e1, e1', e2, e2', .inl ⟨hx.2, hm.suffix⟩⟩
    · exact absurd hr h0
  | cons c r ih =>
    intro s s' hr ht h1 h2
    rcases ht with ⟨h0, -⟩ | ⟨h0, e2⟩
    · rw [hr] at h0; cases h0
    have hr' : s'.rest = c :: (r ++ w) := by rw [e2, hr]; rfl
    rw [sem_rep, sem_rep (s := s'), unit_sem v h1, unit_sem v h2]
    rcases strip_tail L hw (quotes_firm (n + 3)) (.inr ⟨h0, e2⟩ : Tail u w s.rest s'.rest) with ⟨k1, k2⟩ |
      ⟨y, y', k1, k2, -⟩ <;> rw [k1, k2]
    · simp only [St.charBy, hr, hr', if_true]
      obtain ⟨x, l, x', l', g1, g2, g3, g4, g5⟩ := ih (s.advance 1 r) (s'.advance 1 (r ++ w)) rfl (.of_app hw r) h1 h2
      have g1 : r = x ++ l := g1
      have g2 : r ++ w = x' ++ l' := g2
      refine ⟨c :: x, l, c :: x', l', by rw [g1]; rfl, by rw [g2]; rfl, ?_, ?_, ?_⟩
      · rw [g3]; simp [St.advance, Nat.add_assoc, Nat.add_comm 1]
      · rw [g4]; simp [St.advance, Nat.add_assoc, Nat.add_comm 1]
      · rcases g5 with g5 | ⟨g5, g6, g7⟩
        · exact .inl g5
        · exact .inr ⟨g5, g6, by rw [g7]⟩
    · exact ⟨[], s.rest, [], s'.rest, rfl, rfl, rfl, rfl, .inr ⟨h0, e2, rfl⟩⟩

/-- The text of a string block. -/
abbrev blockChars : PE R := .seq (.cat blockUnit (.rep blockUnit))

theorem twin_chars (L : Lawful u) (hw : White u w) {n : Nat} {st : List Str} (v : Env) (s s' : St R)
    (ht : Tail u w s.rest s'.rest) (h1 : s.stack = quotes n :: st) (h2 : s'.stack = quotes n :: st) :
    ((∃ t, sem grammar u blockChars v s = .err t) ∧
      ((∃ t, sem grammar u blockChars v s' = .err t) ∨
        ∃ x' l', sem grammar u blockChars v s' = .ok (s'.advance x' l') ∧ White u l')) ∨
    ∃ x l x' l', s.rest = x ++ l ∧ s'.rest = x' ++ l' ∧
      sem grammar u blockChars v s = .ok (s.advance x.length l) ∧
      sem grammar u blockChars v s' = .ok (s'.advance x'.length l') ∧
      ((l = [] ∧ White u l') ∨ (l ≠ [] ∧ l' = l ++ w ∧ x = x')) := by
  rw [blockChars, sem_seq, sem_seq, sem_cat, sem_cat]
  rcases ht with ⟨h0, hm⟩ | ⟨h0, e2⟩
  · refine .inl ⟨?_, ?_⟩
    · rw [unit_sem v h1]
      simp only [h0, St.charBy]
      rw [show strip (quotes (n + 3)) [] = none from rfl]
      exact ⟨_, rfl⟩
    · rcases unit_idle L v s' h2 hm with e | ⟨x, l, -, e1, e⟩ <;> rw [e]
      · exact .inl ⟨_, rfl⟩
      · rw [e1] at hm
        obtain ⟨y, m, k1, k2⟩ := (unit_idle L v).rep _ (s'.advance x.length l) (Nat.le_refl _) h2 hm.suffix
        refine .inr ⟨x.length + y.length, m, ?_, ?_⟩
        · simp only [Res.andThen]
          rw [k2]
          simp [St.advance, Res.mapBoth, Nat.add_assoc]
        · have k1 : l = y ++ m := k1
          have := hm.suffix
          rw [k1] at this
          exact this.suffix
  · cases hr : s.rest with
    | nil => exact absurd hr h0
    | cons c r =>
      have hr' : s'.rest = c :: (r ++ w) := by rw [e2, hr]; rfl
      rw [unit_sem v h1, unit_sem v h2]
      rcases strip_tail L hw (quotes_firm (n + 3)) (.inr ⟨h0, e2⟩ : Tail u w s.rest s'.rest) with ⟨k1, k2⟩ |
        ⟨y, y', k1, k2, -⟩ <;> rw [k1, k2]
      · refine .inr ?_
        simp only [St.charBy, hr, hr', if_true, Res.andThen]
        obtain ⟨x, l, x', l', g1, g2, g3, g4, g5⟩ :=
          text_loop L hw v r (s.advance 1 r) (s'.advance 1 (r ++ w)) rfl (.of_app hw r) h1 h2
        have g1 : r = x ++ l := g1
        have g2 : r ++ w = x' ++ l' := g2
        refine ⟨c :: x, l, c :: x', l', by rw [g1]; rfl, by rw [g2]; rfl, ?_, ?_, ?_⟩
        · rw [g3]; simp [St.advance, Nat.add_assoc, Nat.add_comm 1, Res.mapBoth]
        · rw [g4]; simp [St.advance, Nat.add_assoc, Nat.add_comm 1, Res.mapBoth]
        · rcases g5 with g5 | ⟨g5, g6, g7⟩
          · exact .inl g5
          · exact .inr ⟨g5, g6, by rw [g7]⟩
      · exact .inl ⟨⟨_, rfl⟩, .inl ⟨_, rfl⟩⟩

/-- The outcome of reading the text of a string block: failure, or too far, or the same. -/
theorem twin_text (L : Lawful u) (hw : White u w) {n : Nat} {st : List Str} (v : Env) {s s' : St R} (hs : Even u w s s')
    (h1 : s.stack = quotes n :: st) :
    ((∃ t, sem grammar u (.call .StringText) v s = .err t) ∧
      ((∃ t, sem grammar u (.call .StringText) v s' = .err t) ∨
        ∃ t', sem grammar u (.call .StringText) v s' = .ok t' ∧ White u t'.rest ∧ t'.stack = quotes n :: st)) ∨
    (∃ t t', sem grammar u (.call .StringText) v s = .ok t ∧ sem grammar u (.call .StringText) v s' = .ok t' ∧
      White u t.rest ∧ White u t'.rest ∧ t.stack = quotes n :: st ∧ t'.stack = quotes n :: st) ∨
    ∃ t t', sem grammar u (.call .StringText) v s = .ok t ∧ sem grammar u (.call .StringText) v s' = .ok t' ∧
      Ran u w false s s' t t' ∧ t.stack = quotes n :: st := by
  have h2 : s'.stack = quotes n :: st := by rw [← hs.stack, h1]
  rw [sem_call, sem_call]
  have hg : grammar .StringText = .rule .StringText (.atomic .atomic blockChars) := rfl
  rw [hg, sem_rule, sem_rule]
  by_cases hv : v.emits = true
  · rw [if_pos hv, if_pos hv, sem_atomic, sem_atomic]
    rcases twin_chars L hw { v with atomicity := .atomic } { s with queue := [] } { s' with queue := [] } hs.rest h1 h2 with
      ⟨⟨t, e1⟩, ⟨t', e2⟩ | ⟨x', l', e2, hl⟩⟩ | ⟨x, l, x', l', g1, g2, g3, g4, ⟨g5, g6⟩ | ⟨g5, g6, g7⟩⟩
    · rw [e1, e2]; exact .inl ⟨⟨_, rfl⟩, .inl ⟨_, rfl⟩⟩
    · rw [e1, e2]; exact .inl ⟨⟨_, rfl⟩, .inr ⟨_, rfl, hl, h2⟩⟩
    · rw [g3, g4]
      refine .inr (.inl ⟨_, _, rfl, rfl, ?_, g6, h1, h2⟩)
      show White u l
      rw [g5]; exact fun _ h => nomatch h
    · rw [g3, g4]
      refine .inr (.inr ⟨_, _, rfl, rfl, ⟨⟨.inr ⟨g5, g6⟩, hs.stack, ?_⟩, x, x', g1, g2, rfl, rfl, fun h => nomatch h⟩, h1⟩)
      have g1 : s.rest = x ++ l := g1
      have g2 : s'.rest = x' ++ l' := g2
      show gist _ (s.queue ++ [_]) = gist _ (s'.queue ++ [_])
      rw [gist_append, gist_append, hs.queue]
      congr 1
      refine gist_mk rfl rfl (fun _ => ?_) rfl (fun h => nomatch h)
      simp [St.between, St.advance, g1, g2, g7]
  · rw [if_neg hv, if_neg hv, sem_atomic, sem_atomic]
    rcases twin_chars L hw { v with atomicity := .atomic } s s' hs.rest h1 h2 with
      ⟨⟨t, e1⟩, ⟨t', e2⟩ | ⟨x', l', e2, hl⟩⟩ | ⟨x, l, x', l', g1, g2, g3, g4, ⟨g5, g6⟩ | ⟨g5, g6, g7⟩⟩
    · rw [e1, e2]; exact .inl ⟨⟨_, rfl⟩, .inl ⟨_, rfl⟩⟩
    · rw [e1, e2]; exact .inl ⟨⟨_, rfl⟩, .inr ⟨_, rfl, hl, h2⟩⟩
    · rw [g3, g4]
      refine .inr (.inl ⟨_, _, rfl, rfl, ?_, g6, h1, h2⟩)
      show White u l
      rw [g5]; exact fun _ h => nomatch h
    · rw [g3, g4]
      exact .inr (.inr ⟨_, _, rfl, rfl, hs.ran g1 g2 (.inr ⟨g5, g6⟩) _ (fun h => nomatch h), h1⟩)

theorem quote_white (L : Lawful u) (v : Env) {s : St R} (hs : White u s.rest) :
    ∃ t, sem grammar u (.call .Quotation) v s = .err t := by
  cases h : sem grammar u (.call .Quotation) v s with
  | err t => exact ⟨t, rfl⟩
  | crash => exact absurd h (sem_total u .Quotation (by decide) v s)
  | ok t =>
    have e := quote_ok h
    have := hs '"' (by rw [e]; exact List.mem_cons_self ..)
    rw [firm_ws L (by decide)] at this
    cases this

/-- The end of a string block does not stand in white space. -/
theorem pop_white (L : Lawful u) (v : Env) {n : Nat} {st : List Str} {s : St R} (hs : White u s.rest)
    (h1 : s.stack = quotes n :: st) :
    ∃ t, ((sem grammar u (.call .POP) v s).andThen (sem grammar u (.call .Quotation) v)) = .err t := by
  rw [sem_call]
  show ∃ t, ((sem grammar u .pop v s).andThen _) = _
  rw [sem_pop, h1]
  dsimp only
  unfold St.matchStr
  cases h : strip (quotes n) s.rest with
  | none => exact ⟨_, rfl⟩
  | some r =>
    rw [strip_app h] at hs
    obtain ⟨t, ht⟩ := quote_white L v (s := ({ s with stack := st } : St R).advance (quotes n).length r) hs.suffix
    exact ⟨t, ht⟩

theorem rep_quotes {v : Env} : ∀ (n : Nat) {s t : St R}, run grammar u n (.rep (.call .Quotation)) v s = .ok t →
    ∃ m, s.rest = quotes m ++ t.rest := by
  intro n
  induction n with
  | zero => intro s t h; cases h
  | succ n ih =>
    intro s t h
    rw [run] at h
    cases hx : run grammar u n (.call .Quotation) v s with
    | crash => rw [hx] at h; cases h
    | ok y =>
      rw [hx] at h
      obtain ⟨m, hm⟩ := ih h
      rw [run_eq_sem (by rw [hx]; exact fun h => nomatch h)] at hx
      exact ⟨m + 1, by rw [quote_ok hx, hm]; rfl⟩
    | err y =>
      rw [hx] at h
      cases h
      rw [run_eq_sem (by rw [hx]; exact fun h => nomatch h)] at hx
      rw [sem_call_err u _ (by decide) (by decide) hx]
      exact ⟨0, rfl⟩

/-- What a string block consists of. -/
abbrev blockParts : PE R := .cat (.cat (.cat (.cat (.cat (.cat three (.push (.rep (.call .Quotation)))) (.call .StringText))
  (.call .POP)) (.call .Quotation)) (.call .Quotation)) (.call .Quotation)

theorem twin_parts (L : Lawful u) (hw : White u w) (v : Env) {s s' : St R} (hs : Even u w s s') :
    sem grammar u blockParts v s = .crash ∨
    (∃ t t', sem grammar u blockParts v s = .ok t ∧ sem grammar u blockParts v s' = .ok t' ∧ Ran u w false s s' t t') ∨
    (∃ t t', sem grammar u blockParts v s = .err t ∧ sem grammar u blockParts v s' = .err t') := by
  have step : ∀ {e : PE R} {s s' : St R}, snug false e = true → Even u w s s' → _ :=
    fun {e s s'} he hs => twin_of (e := e) (s := s) (s' := s') L hw (k := false) (fun h => nomatch h) v he hs
  simp only [blockParts, sem_cat]
  rcases step (e := three) rfl hs with h1 | ⟨t, t', h1, h2, h3⟩ | ⟨t, t', h1, h2⟩
  · rw [h1]; exact .inl rfl
  rotate_left
  · rw [h1, h2]; exact .inr (.inr ⟨_, _, rfl, rfl⟩)
  rw [h1, h2]
  simp only [Res.andThen]
  rw [sem_push, sem_push]
  rcases step (e := .rep (.call .Quotation)) rfl h3.level with k1 | ⟨y, y', k1, k2, k3⟩ | ⟨y, y', k1, k2⟩
  · rw [k1]; exact .inl rfl
  rotate_left
  · rw [k1, k2]; exact .inr (.inr ⟨_, _, rfl, rfl⟩)
  obtain ⟨n, hn⟩ := sem_settles grammar u (.rep (.call .Quotation)) v t
  obtain ⟨m, hm⟩ := rep_quotes n ((hn n (Nat.le_refl n)).trans k1)
  rw [k1, k2]
  simp only [Res.mapBoth]
  obtain ⟨x, x', r1, r2, r3, r4, r5⟩ := k3.read
  have r5 := r5 rfl
  have hx : x = quotes m := List.append_cancel_right (r1.symm.trans hm)
  have b1 : t.between y = quotes m := by simp [St.between, r1, r3, hx]
  have b2 : t'.between y' = quotes m := by simp [St.between, r2, r4, ← r5, hx]
  rw [b1, b2]
  have hz : Ran u w true t t' { y with stack := quotes m :: y.stack } { y' with stack := quotes m :: y'.stack } :=
    ⟨⟨k3.level.rest, by rw [k3.level.stack], k3.level.queue⟩, k3.read⟩
  rcases twin_text L hw v hz.level rfl with ⟨⟨z, e1⟩, ⟨z', e2⟩ | ⟨z', e2, e3, e4⟩⟩ |
    ⟨z, z', e1, e2, e3, e4, e5, e6⟩ | ⟨z, z', e1, e2, e3, e4⟩
  · rw [e1, e2]; exact .inr (.inr ⟨_, _, rfl, rfl⟩)
  · rw [e1, e2]
    obtain ⟨p, hp⟩ := pop_white L v e3 e4
    refine .inr (.inr ⟨_, p, rfl, ?_⟩)
    simp only [Res.andThen] at hp ⊢
    rw [hp]
  · rw [e1, e2]
    obtain ⟨p, hp⟩ := pop_white L v e3 e5
    obtain ⟨p', hp'⟩ := pop_white L v e4 e6
    refine .inr (.inr ⟨p, p', ?_, ?_⟩)
    · simp only [Res.andThen] at hp ⊢
      rw [hp]
    · simp only [Res.andThen] at hp' ⊢
      rw [hp']
  rw [e1, e2]
  dsimp only
  have e5 : z'.stack = quotes m :: y.stack := by rw [← e3.level.stack, e4]
  have hpop : ∀ {a : St R}, a.stack = quotes m :: y.stack →
      sem grammar u (.call .POP) v a = ({ a with stack := y.stack } : St R).matchStr (quotes m) := by
    intro a ha
    rw [sem_call]
    show sem grammar u .pop v a = _
    rw [sem_pop, ha]
  rw [hpop e4, hpop e5]
  have tw := twin_str L hw (quotes_firm m) (s := { z with stack := y.stack }) (s' := { z' with stack := y.stack })
    ⟨e3.level.rest, rfl, e3.level.queue⟩ false
  revert tw
  generalize ({ z with stack := y.stack } : St R).matchStr (quotes m) = a
  generalize ({ z' with stack := y.stack } : St R).matchStr (quotes m) = a'
  intro tw
  cases a <;> cases a' <;> first | exact tw.elim | skip
  rotate_left
  · exact .inr (.inr ⟨_, _, rfl, rfl⟩)
  rename_i a a'
  have tw : Ran u w false z z' a a' := ⟨tw.level, tw.read⟩
  dsimp only
  rcases step (e := .call .Quotation) rfl tw.level with q1 | ⟨b, b', q1, q2, q3⟩ | ⟨b, b', q1, q2⟩
  · rw [q1]; exact .inl rfl
  rotate_left
  · rw [q1, q2]; exact .inr (.inr ⟨_, _, rfl, rfl⟩)
  rw [q1, q2]
  dsimp only
  rcases step (e := .call .Quotation) rfl q3.level with q4 | ⟨d, d', q4, q5, q6⟩ | ⟨d, d', q4, q5⟩
  · rw [q4]; exact .inl rfl
  rotate_left
  · rw [q4, q5]; exact .inr (.inr ⟨_, _, rfl, rfl⟩)
  rw [q4, q5]
  dsimp only
  rcases step (e := .call .Quotation) rfl q6.level with q7 | ⟨f, f', q7, q8, q9⟩ | ⟨f, f', q7, q8⟩
  · exact .inl q7
  rotate_left
  · exact .inr (.inr ⟨_, _, q7, q8⟩)
  refine .inr (.inl ⟨_, _, q7, q8, ?_⟩)
  exact (((((h3.trans hz).trans e3).trans tw).trans q3).trans (q6.trans q9)).weaken (fun h => nomatch h)

theorem twin_block (L : Lawful u) (hw : White u w) (v : Env) (s s' : St R) (hs : Even u w s s')
    (hc : sem grammar u (.restore (.call .StringBlock)) v s ≠ .crash) :
    Twin u w false false s s' (sem grammar u (.restore (.call .StringBlock)) v s)
      (sem grammar u (.restore (.call .StringBlock)) v s') := by
  have hg : grammar .StringBlock = .atomic .compound (.rule .StringBlock (.seq blockParts)) := rfl
  rw [sem_restore, sem_call, hg, sem_atomic, sem_rule] at hc ⊢
  rw [sem_restore, sem_call, hg, sem_atomic, sem_rule]
  by_cases hv : ({ v with atomicity := Atomicity.compound } : Env).emits = true
  · rw [if_pos hv, sem_seq] at hc ⊢
    rw [if_pos hv, sem_seq]
    rcases twin_parts L hw { v with atomicity := .compound } (s := { s with queue := [] }) (s' := { s' with queue := [] })
      (even_queue hs rfl) with h | ⟨t, t', h1, h2, h3⟩ | ⟨t, t', h1, h2⟩
    · rw [h] at hc; exact absurd rfl hc
    · rw [h1, h2]
      refine ⟨even_queue h3.level ?_, h3.read⟩
      rw [gist_append, gist_append, hs.queue]
      congr 1
      exact gist_mk rfl rfl (fun h => nomatch h) h3.level.queue (fun h => nomatch h)
    · rw [h1, h2]
      exact hs.stay _
  · rw [if_neg hv, sem_seq] at hc ⊢
    rw [if_neg hv, sem_seq]
    rcases twin_parts L hw { v with atomicity := .compound } hs with h | ⟨t, t', h1, h2, h3⟩ | ⟨t, t', h1, h2⟩
    · rw [h] at hc; exact absurd rfl hc
    · rw [h1, h2]; exact h3
    · rw [h1, h2]
      exact hs.stay _

/-! ### Where skipping ends -/

/-- Does not begin with white space. -/
def Bald (u : Uni) (l : Str) : Prop := ∀ c m, l = c :: m → u .whiteSpace c = false

theorem rep_last {e : PE R} {v : Env} : ∀ (n : Nat) {s t : St R}, run grammar u n (.rep e) v s = .ok t →
    ∃ x, sem grammar u e v x = .err t := by
  intro n
  induction n with
  | zero => intro s t h; cases h
  | succ n ih =>
    intro s t h
    rw [run] at h
    cases hx : run grammar u n e v s with
    | ok y => rw [hx] at h; exact ih h
    | crash => rw [hx] at h; cases h
    | err y =>
      rw [hx] at h
      cases h
      exact ⟨s, by rw [← run_eq_sem (by rw [hx]; exact fun h => nomatch h), hx]⟩

theorem spaces_bald (L : Lawful u) {v : Env} {s t : St R} (h : sem grammar u (.rep (.call .WHITESPACE)) v s = .ok t) :
    Bald u t.rest := by
  obtain ⟨n, hn⟩ := sem_settles grammar u (.rep (.call .WHITESPACE)) v s
  obtain ⟨x, hx⟩ := rep_last n ((hn n (Nat.le_refl n)).trans h)
  have := space_err L v x t hx
  subst this
  intro c m hr
  rw [space_sem L v hr] at hx
  cases hc : u .whiteSpace c with
  | false => rfl
  | true =>
    rw [hc, if_pos rfl] at hx
    split at hx <;> cases hx

theorem comments_bald (L : Lawful u) {v : Env} : ∀ (n : Nat) {s t : St R}, Bald u s.rest →
    run grammar u n (.rep (.seq (.cat (.call .COMMENT) (.rep (.call .WHITESPACE))))) v s = .ok t → Bald u t.rest := by
  intro n
  induction n with
  | zero => intro s t _ h; cases h
  | succ n ih =>
    intro s t hs h
    rw [run] at h
    cases hx : run grammar u n (.seq (.cat (.call .COMMENT) (.rep (.call .WHITESPACE)))) v s with
    | crash => rw [hx] at h; cases h
    | ok y =>
      have hy := hx
      rw [run_eq_sem (by rw [hx]; exact fun h => nomatch h), sem_seq, sem_cat] at hy
      rw [hx] at h
      refine ih ?_ h
      cases h1 : sem grammar u (.call .COMMENT) v s with
      | err z => rw [h1] at hy; cases hy
      | crash => rw [h1] at hy; cases hy
      | ok z =>
        rw [h1] at hy
        simp only [Res.andThen] at hy
        cases h2 : sem grammar u (.rep (.call .WHITESPACE)) v z with
        | err z => rw [h2] at hy; cases hy
        | crash => rw [h2] at hy; cases hy
        | ok z => rw [h2] at hy; cases hy; exact spaces_bald L h2
    | err y =>
      have hy := hx
      rw [run_eq_sem (by rw [hx]; exact fun h => nomatch h), sem_seq] at hy
      rw [hx] at h
      cases h
      cases h1 : sem grammar u (.cat (.call .COMMENT) (.rep (.call .WHITESPACE))) v s with
      | ok z => rw [h1] at hy; cases hy
      | crash => rw [h1] at hy; cases hy
      | err z => rw [h1] at hy; cases hy; exact hs

theorem skip_bald (L : Lawful u) {s t : St R} (h : sem grammar u (.call .skip) Env.init s = .ok t) : Bald u t.rest := by
  rw [sem_call] at h
  change sem grammar u body_skip Env.init s = _ at h
  rw [body_skip, sem_ifNon, if_pos (by rfl), sem_seq, sem_cat] at h
  cases h1 : sem grammar u (.rep (.call .WHITESPACE)) Env.init s with
  | err x => rw [h1] at h; cases h
  | crash => rw [h1] at h; cases h
  | ok x =>
    rw [h1] at h
    simp only [Res.andThen] at h
    cases h2 : sem grammar u (.rep (.seq (.cat (.call .COMMENT) (.rep (.call .WHITESPACE))))) Env.init x with
    | err y => rw [h2] at h; cases h
    | crash => rw [h2] at h; cases h
    | ok y =>
      rw [h2] at h
      cases h
      obtain ⟨n, hn⟩ := sem_settles grammar u (.rep (.seq (.cat (.call .COMMENT) (.rep (.call .WHITESPACE))))) Env.init x
      exact comments_bald L n (spaces_bald L h1) ((hn n (Nat.le_refl n)).trans h2)

/-! ### The whole program -/

theorem smParse_tail (L : Lawful u) (hw : White u w) (l : Str) :
    (smParse u .program l = .error ∧ smParse u .program (l ++ w) = .error) ∨
    ∃ p q, smParse u .program l = .pairs p ∧ smParse u .program (l ++ w) = .pairs q ∧
      gist (fun _ => 0) p = gist (fun _ => 0) q := by
  rw [smParse_eq u .program (by decide), smParse_eq u .program (by decide)]
  have ht := sem_total u .program (by decide) Env.init (St.init l)
  revert ht
  rw [sem_call, sem_call]
  show sem grammar u body_program _ _ ≠ _ → (Parsed.ofRes (sem grammar u body_program _ _) = _ ∧
    Parsed.ofRes (sem grammar u body_program _ _) = _) ∨ ∃ p q, Parsed.ofRes (sem grammar u body_program _ _) = _ ∧
    Parsed.ofRes (sem grammar u body_program _ _) = _ ∧ _
  have soi : ∀ x : Str, sem grammar u (.call .SOI) Env.init (St.init x) = .ok (St.init x) := by
    intro x
    rw [sem_call]
    show sem grammar u .soi _ _ = _
    rw [sem_soi, if_pos (by rfl)]
  have h0 : Even u w (St.init l) (St.init (l ++ w)) := ⟨.of_app hw l, rfl, rfl⟩
  rw [body_program]
  generalize hm : (PE.seq (.opt (.cat (.restore (.call R.statement)) (.rep (.seq (.cat (.call R.skip) (.restore (.call R.statement)))))))) = mid
  have hmid : snug true mid = true := by rw [← hm]; rfl
  clear hm
  simp only [sem_seq, sem_cat, soi, Res.andThen]
  intro ht
  have step : ∀ {e : PE R} {s s' : St R}, snug true e = true → Even u w s s' →
      (sem grammar u e Env.init s = .crash) ∨
      (∃ t t', sem grammar u e Env.init s = .ok t ∧ sem grammar u e Env.init s' = .ok t' ∧ Even u w t t') ∨
      (∃ t t', sem grammar u e Env.init s = .err t ∧ sem grammar u e Env.init s' = .err t') := by
    intro e s s' he hs
    rcases twin_of L hw (fun _ => twin_block L hw) Env.init he hs with h | ⟨t, t', h1, h2, h3⟩ | h
    · exact .inl h
    · exact .inr (.inl ⟨t, t', h1, h2, h3.level⟩)
    · exact .inr (.inr h)
  rcases step (e := .call .skip) rfl h0 with h1 | ⟨t, t', h1, h2, h3⟩ | ⟨t, t', h1, h2⟩
  · rw [h1] at ht; exact absurd rfl ht
  rotate_left
  · rw [h1, h2]; exact .inl ⟨rfl, rfl⟩
  rw [h1] at ht ⊢
  rw [h2]
  dsimp only at ht ⊢
  rcases step hmid h3 with k1 | ⟨x, x', k1, k2, k3⟩ | ⟨x, x', k1, k2⟩
  · rw [k1] at ht; exact absurd rfl ht
  rotate_left
  · rw [k1, k2]; exact .inl ⟨rfl, rfl⟩
  rw [k1] at ht ⊢
  rw [k2]
  dsimp only at ht ⊢
  rcases step (e := .call .skip) rfl k3 with m1 | ⟨y, y', m1, m2, m3⟩ | ⟨y, y', m1, m2⟩
  · rw [m1] at ht; exact absurd rfl ht
  rotate_left
  · rw [m1, m2]; exact .inl ⟨rfl, rfl⟩
  rw [m1, m2]
  dsimp only
  have hy' := skip_bald L m2
  have eoi : ∀ s : St R, (s.rest ≠ [] → sem grammar u (.call .EOI) Env.init s = .err s) ∧
      (s.rest = [] → sem grammar u (.call .EOI) Env.init s =
        .ok { s with queue := s.queue ++ [.mk .EOI s.pos s.pos [] []] }) := by
    intro s
    rw [sem_call]
    show (_ → sem grammar u (.rule .EOI .eoi) _ s = _) ∧ (_ → sem grammar u (.rule .EOI .eoi) _ s = _)
    rw [sem_rule, if_pos (by rfl), sem_eoi]
    constructor
    · intro h
      rw [if_neg (by simpa using h)]
      rfl
    · intro h
      rw [if_pos (by simpa using h)]
      simp [Res.mapBoth, St.between, h]
  rcases m3.rest with ⟨e1, e2⟩ | ⟨e1, e2⟩
  · have e3 : y'.rest = [] := by
      match hr : y'.rest with
      | [] => rfl
      | c :: m =>
        have := hy' c m hr
        rw [e2 c (by rw [hr]; exact List.mem_cons_self ..)] at this
        cases this
    rw [(eoi y).2 e1, (eoi y').2 e3]
    refine .inr ⟨_, _, rfl, rfl, ?_⟩
    show gist _ (y.queue ++ _) = gist _ (y'.queue ++ _)
    rw [gist_append, gist_append, m3.queue]
    rfl
  · have e3 : y'.rest ≠ [] := by rw [e2]; simp [e1]
    rw [(eoi y).1 e1, (eoi y').1 e3]
    exact .inl ⟨rfl, rfl⟩

end Trail

theorem smParse_trailing (L : Lawful u) (hw : White u w) (l : Str) :
    (smParse u .program l = .error ∧ smParse u .program (l ++ w) = .error) ∨
    ∃ p q, smParse u .program l = .pairs p ∧ smParse u .program (l ++ w) = .pairs q ∧
      barePairs (thinL p) = barePairs (thinL q) := by
  rcases Trail.smParse_tail L hw l with h | ⟨p, q, h1, h2, h3⟩
  · exact .inl h
  · refine .inr ⟨p, q, h1, h2, ?_⟩
    rw [← bare_movedL (fun _ => 0) (thinL p), ← bare_movedL (fun _ => 0) (thinL q)]
    exact congrArg barePairs h3

/-- **C95**.  White space behind a text changes nothing, whether the text is accepted, rejected or
makes the parser panic, but for positions. -/
theorem C95_trailing (L : Lawful u) (hw : White u w) {c d : Cfg} (hi : d.input = c.input ++ w)
    (hm : d.errorText = c.errorText) : eraseR (parseText u d) = eraseR (parseText u c) := by
  rw [parseText, parseText, hi]
  rcases smParse_trailing L hw c.input with ⟨e1, e2⟩ | ⟨p, q, e1, e2, hp⟩ <;> rw [e1, e2]
  · rw [hm]
  · exact (pairs_same hp c d).symm

/-- **C95**.  A text is rejected exactly if it is with white space behind it. -/
theorem C95_rejected (L : Lawful u) (hw : White u w) {t : Str} {c d : Cfg} (hc : c.input = t)
    (hd : d.input = t ++ w) :
    parseText u d = .err (.parseError d.errorText) ↔ parseText u c = .err (.parseError c.errorText) := by
  have key : ∀ (e : Cfg) (l : List (Pair R)), parsePairs e l ≠ .err (.parseError e.errorText) := by
    intro e l
    induction l with
    | nil => exact fun h => nomatch h
    | cons p l ih =>
      rw [parsePairs]
      split
      · exact ih
      · split
        · cases buildExpression e p.inner .empty <;> exact fun h => nomatch h
        · split
          · exact ih
          · exact fun h => nomatch h
  rw [parseText, parseText, hc, hd]
  rcases smParse_trailing L hw t with ⟨e1, e2⟩ | ⟨p, q, e1, e2, -⟩ <;> rw [e1, e2]
  · exact ⟨fun _ => rfl, fun _ => rfl⟩
  · exact ⟨fun h => absurd h (key _ _), fun h => absurd h (key _ _)⟩

variable {msg : Str → Str} {wd : Width}

/-- **C95**.  The session computes the same value for both, if the text is not rejected. -/
theorem C95_value (L : Lawful u) (hw : White u w) {t : Str}
    (ht : replParse u msg t ≠ .err (.parseError (msg t))) :
    value wd (replParse u msg) (t ++ w) = value wd (replParse u msg) t := by
  apply value_erased
  show eraseR (parseText u (replCfg msg (t ++ w))) = eraseR (parseText u (replCfg msg t))
  have ht : parseText u (replCfg msg t) ≠ .err (.parseError (msg t)) := ht
  rw [parseText] at ht ⊢
  rw [parseText]
  have e : (replCfg msg t).input = t := rfl
  have e' : (replCfg msg (t ++ w)).input = t ++ w := rfl
  rw [e] at ht ⊢
  rw [e']
  rcases smParse_trailing L hw t with ⟨e1, e2⟩ | ⟨p, q, e1, e2, hp⟩ <;> rw [e1] at ht <;> rw [e1, e2]
  · exact absurd rfl ht
  · exact (pairs_same hp _ _).symm

/-- **C95**.  The session gives the same answer to both. -/
theorem C95_answers (L : Lawful u) (hw : White u w) {t : Str} {r : SMResult Str}
    (h : Answers u msg wd t r) (hr : ∀ m, r ≠ .err (.parseError m)) : Answers u msg wd (t ++ w) r := by
  have ht : replParse u msg t ≠ .err (.parseError (msg t)) := by
    intro he
    have := printed_of_answers h
    rw [printed, value, he] at this
    exact hr _ this.symm
  intro hist
  rw [C22_outcome_independent_of_history, printed, C95_value L hw ht, ← printed]
  exact printed_of_answers h

/-- **C95**.  Blanks and line comments in front and white space behind together. -/
theorem C95_around (L : Lawful u) {b : Str} (hb : Blank u b) (hw : White u w) {t : Str}
    {r : SMResult Str} (h : Answers u msg wd t r) (hr : ∀ m, r ≠ .err (.parseError m)) :
    Answers u msg wd (b ++ (t ++ w)) r :=
  C65_answers L hb (C95_answers L hw h hr) hr

/-- The end of a line and a tab. -/
theorem white_line (L : Lawful u) : White u c!"\r\n\t" := by
  intro c hc
  have h : c = '\r' ∨ c = '\n' ∨ c = '\t' := by simpa using hc
  rcases h with rfl | rfl | rfl
  · exact ws_cr L
  · exact ws_lf L
  · rw [L.plain _ _ (by decide)]; decide

/-- A product with the end of a line behind it. -/
example (L : Lawful u) : Answers u msg wd c!"2*3\r\n\t" (.ok c!"6") := by
  have h := C54_times L msg wd (.mk [] (.atom (.int 2)) []) (.mk [] (.atom (.int 3)) []) [] []
    (intBinary_ok 2 3 blank_nil blank_nil (by decide) (fun h => nomatch h)) blank_nil blank_nil
    (by rw [binaryText, intTerm_text]; exact numeral_wordless 2 _) (intTerm_value 2) (intTerm_value 3)
  rw [binaryText, intTerm_text, intTerm_text] at h
  replace h : Answers u msg wd c!"2*3" (.ok c!"6") := h
  exact C95_answers L (white_line L) (t := c!"2*3") h (fun _ h => nomatch h)

/-- A string literal keeps its line ending; the one behind it is left out. -/
example (L : Lawful u) (f : Str) : eraseR (parseText u ⟨f, c!"\"\n\"\r\n\t", []⟩) = .ok (.string c!"\n") := by
  rw [C95_trailing L (white_line L) (c := ⟨f, c!"\"\n\"", []⟩) (d := ⟨f, c!"\"\n\"\r\n\t", []⟩) rfl rfl]
  exact congrArg eraseR (parse_pairs L (x := c!"\"\n\"") (l := [.mk .expression 0 3 c!"\"\n\"" [.mk .expr 0 3 c!"\"\n\"" [
      .mk .term 0 3 c!"\"\n\"" [.mk .node 0 3 c!"\"\n\"" [.mk .data 0 3 c!"\"\n\"" [.mk .String 0 3 c!"\"\n\"" [
      .mk .StringNormal 0 3 c!"\"\n\"" []]]]]]], .mk .EOI 3 3 c!"" []]) (by decide +kernel) (by decide) _ rfl)

/-- The same for a string block of three or more marks, whatever it says. -/
example (L : Lawful u) (f : Str) {n : Nat} {x : Str} (hn : 3 ≤ n) (h1 : x ≠ []) (h2 : '"' ∉ x) :
    eraseR (parseText u ⟨f, (List.replicate n '"' ++ (x ++ List.replicate n '"')) ++ c!"\r\n\t", []⟩) = .ok (.string x) := by
  rw [C95_trailing L (white_line L) (c := ⟨f, List.replicate n '"' ++ (x ++ List.replicate n '"'), []⟩)
    (d := ⟨f, (List.replicate n '"' ++ (x ++ List.replicate n '"')) ++ c!"\r\n\t", []⟩) rfl rfl,
    C41_plain_block L ⟨f, _, []⟩ hn h1 h2 rfl]
  rfl

/-- An open bracket is rejected with and without the end of a line behind it. -/
example (L : Lawful u) (c d : Cfg) (hc : c.input = c!"(") (hd : d.input = c!"(\r\n\t") :
    parseText u d = .err (.parseError d.errorText) ↔ parseText u c = .err (.parseError c.errorText) :=
  C95_rejected L (white_line L) (t := c!"(") hc hd

end SM.Props
