import Verif.Props.Moved
import Verif.Props.Leading
import Verif.Props.Comment
/-
C90: line endings and kinds of white space do not matter.
-/
namespace SM.Props
open SM SM.Peg

variable {u : Uni}

/-! ### Texts alike but for line endings and kinds of white space -/

/-- `x` is a line ending, where `l` follows: `\n`, `\r\n`, or `\r` not followed by `\n`. -/
def LineEnd (x l : Str) : Prop := x = ['\n'] ∨ x = ['\r', '\n'] ∨ (x = ['\r'] ∧ l.head? ≠ some '\n')

theorem LineEnd.length {x l : Str} (h : LineEnd x l) : x.length ≠ 0 := by
  rcases h with rfl | rfl | ⟨rfl, -⟩ <;> simp

/-- White space within a line. -/
def Gap (u : Uni) (c : Char) : Prop := u .whiteSpace c = true ∧ c ≠ '\n' ∧ c ≠ '\r'

/-- Two texts that differ in line endings, and in which character stands for a white space character, only. -/
inductive Redrawn (u : Uni) : Str → Str → Prop
  | nil : Redrawn u [] []
  | same {c : Char} {l m : Str} : u .whiteSpace c = false → Redrawn u l m → Redrawn u (c :: l) (c :: m)
  | gap {c d : Char} {l m : Str} : Gap u c → Gap u d → Redrawn u l m → Redrawn u (c :: l) (d :: m)
  | line {x y l m : Str} : LineEnd x l → LineEnd y m → Redrawn u l m → Redrawn u (x ++ l) (y ++ m)

/-- No string literal. -/
def NoQuotes (t : Str) : Prop := '"' ∉ t

theorem NoQuotes.suffix {w t : Str} (h : NoQuotes (w ++ t)) : NoQuotes t :=
  fun hm => h (List.mem_append_right _ hm)

/-! ### The relation kept by the parser -/

/-- Pairs without texts that are not looked at, and with the spans changed by `f`. -/
def gist (f : Nat → Nat) (l : List (Pair R)) : List (Pair R) := movedL f (thinL l)

theorem gist_append (f : Nat → Nat) : ∀ l m : List (Pair R), gist f (l ++ m) = gist f l ++ gist f m
  | [], _ => rfl
  | p :: l, m => by
    have := gist_append f l m
    simp only [gist, List.cons_append, thinL, movedL] at this ⊢
    rw [this]

theorem gist_mk {f f' : Nat → Nat} {r : R} {a b a' b' : Nat} {w w' : Str} {l l' : List (Pair R)}
    (ha : f a = f' a') (hb : f b = f' b') (ht : texted r = true → w = w')
    (hl : gist f l = gist f' l') (hh : r = .apply_call → ∃ p m, l = p :: m ∧ p.rule = .Symbol) :
    gist f [.mk r a b w l] = gist f' [.mk r a' b' w' l'] := by
  simp only [gist, thinL, movedL, thin, moved, ha, hb]
  congr 2
  · by_cases h : texted r = true
    · rw [ht h]
    · rw [if_neg h, if_neg h]
  · split
    · rename_i h
      obtain ⟨p, m, rfl, hp⟩ := hh h
      obtain ⟨r1, a1, b1, t1, l1⟩ := p
      have hp : r1 = .Symbol := hp
      subst hp
      match l', hl with
      | [], hl => cases hl
      | .mk r2 a2 b2 t2 l2 :: m2, hl =>
        simp only [gist, thinL, movedL, thin, moved, List.cons.injEq, Pair.mk.injEq] at hl
        obtain ⟨⟨rfl, h5, h6, h1, h2⟩, h3⟩ := hl
        simp only [thinHead, movedL, moved, h3, h5, h6]
        rw [show t1 = t2 from h1]
        rw [show movedL f _ = movedL f' _ from h2]
    · exact hl

/-- What is kept of offsets in two texts.  `at_` says that an offset in one, with the text after it, corresponds to one in
the other; `f` and `f'` give what is kept of corresponding offsets. -/
structure Gauge where
  at_ : Nat → Str → Nat → Str → Prop
  f : Nat → Nat
  f' : Nat → Nat
  zero : ∀ {a l b m}, at_ a l b m → (a = 0 ↔ b = 0)
  kept : ∀ {a l b m}, at_ a l b m → f a = f' b
  char : ∀ {a b : Nat} {c d : Char} {l m : Str}, at_ a (c :: l) b (d :: m) → c ≠ '\n' → c ≠ '\r' → d ≠ '\n' → d ≠ '\r' →
    at_ (a + 1) l (b + 1) m
  line : ∀ {a b : Nat} {x y l m : Str}, at_ a (x ++ l) b (y ++ m) → LineEnd x l → LineEnd y m →
    at_ (a + x.length) l (b + y.length) m

variable {G : Gauge}

/-- Two states of the parser in texts that differ in line endings and kinds of white space. -/
structure Level (u : Uni) (G : Gauge) (s t : St R) : Prop where
  rest : Redrawn u s.rest t.rest
  free : NoQuotes s.rest
  left : s.stack = []
  right : t.stack = []
  queue : gist G.f s.queue = gist G.f' t.queue
  pos : G.at_ s.pos s.rest t.pos t.rest

/-- What the parser read in either text; if `d`, the same. -/
structure Went (u : Uni) (G : Gauge) (d : Bool) (s s' t t' : St R) : Prop where
  level : Level u G t t'
  read : ∃ w w' : Str, s.rest = w ++ t.rest ∧ s'.rest = w' ++ t'.rest ∧ t.pos = s.pos + w.length ∧
    t'.pos = s'.pos + w'.length ∧ (d = true → w = w')

/-- The same outcome in either text. -/
def Both (u : Uni) (G : Gauge) (d : Bool) (s s' : St R) : Res R → Res R → Prop
  | .ok t, .ok t' => Went u G d s s' t t'
  | .err t, .err t' => Went u G d s s' t t'
  | _, _ => False

theorem Went.stay {s s' t t' : St R} (d : Bool) (h : Level u G t t') (h1 : t.pos = s.pos) (h2 : t.rest = s.rest)
    (h3 : t'.pos = s'.pos) (h4 : t'.rest = s'.rest) : Went u G d s s' t t' :=
  ⟨h, [], [], by simp [h2], by simp [h4], by simp [h1], by simp [h3], fun _ => rfl⟩

theorem Level.stay {s s' : St R} (d : Bool) (h : Level u G s s') : Went u G d s s' s s' := .stay d h rfl rfl rfl rfl

theorem Went.trans {d e : Bool} {s s' t t' x x' : St R} (h : Went u G d s s' t t') (k : Went u G e t t' x x') :
    Went u G (d && e) s s' x x' := by
  obtain ⟨w, w', h1, h2, h3, h4, h5⟩ := h.read
  obtain ⟨z, z', k1, k2, k3, k4, k5⟩ := k.read
  refine ⟨k.level, w ++ z, w' ++ z', by rw [h1, k1, List.append_assoc], by rw [h2, k2, List.append_assoc],
    by rw [k3, h3, List.length_append]; omega, by rw [k4, h4, List.length_append]; omega, fun hd => ?_⟩
  simp only [Bool.and_eq_true] at hd
  rw [h5 hd.1, k5 hd.2]

theorem Went.weaken {d e : Bool} {s s' t t' : St R} (h : Went u G d s s' t t') (hd : e = true → d = true) :
    Went u G e s s' t t' := by
  obtain ⟨w, w', h1, h2, h3, h4, h5⟩ := h.read
  exact ⟨h.level, w, w', h1, h2, h3, h4, fun he => h5 (hd he)⟩

theorem Both.weaken {d e : Bool} {s s' : St R} {r r' : Res R} (h : Both u G d s s' r r') (hd : e = true → d = true) :
    Both u G e s s' r r' := by
  cases r <;> cases r' <;> first | exact h.elim | exact Went.weaken h hd

theorem Both.from {d e : Bool} {s s' t t' : St R} {r r' : Res R} (h : Went u G d s s' t t') (k : Both u G e t t' r r') :
    Both u G (d && e) s s' r r' := by
  cases r <;> cases r' <;> first | exact k.elim | exact h.trans k

/-! ### What the grammar looks at -/

/-- A character known not to be white space. -/
def firm (c : Char) : Bool := decide (Plain c) && !asciiUni .whiteSpace c

/-- The rules left out: those read behind quotation marks, those that read white space and line endings without
distinction, and those that no text reaches. -/
def aside : R → Bool
  | .ANY | .WHITE_SPACE | .PEEK | .POP | .StringText | .Load | .Save | .LeftShift | .RightShift | .NotEqual |
    .Remainder | .Surd | .Acute | .LogicOr | .LogicAnd | .Ellipsis | .LogicXor => true
  | _ => false

/-- The rules that read no white space. -/
def dryR : R → Bool
  | .Plus | .Minus | .Multiply | .Divide | .Power | .Map | .Dot | .Prefix | .Suffix | .Integer | .Byte | .Decimal |
    .Special | .REPL | .Slot | .SYMBOL | .Symbol | .Positive | .Star | .Slash | .Bang | .Not | .Derivative |
    .DoubleBang | .Question | .Underline | .Proportion | .XID_START | .XID_CONTINUE | .ASCII_DIGIT |
    .ASCII_NONZERO_DIGIT | .ASCII_BIN_DIGIT | .ASCII_OCT_DIGIT | .ASCII_HEX_DIGIT => true
  | _ => false

/-- Expressions that read no white space. -/
def dry : PE R → Bool
  | .call r => dryR r
  | .rule _ e | .atomic _ e | .ifNon e | .seq e | .opt e | .rep e | .restore e => dry e
  | .alt a b | .cat a b => dry a && dry b
  | .look _ _ => true
  | .str _ | .insens _ | .range _ _ | .uni _ | .soi | .eoi => true
  | .any | .push _ | .peek | .pop => false

/-- Expressions that fail where there are no quotation marks. -/
def quoteless : PE R → Bool
  | .call r => decide (r = .Quotation)
  | .str x => decide (x = ['"'])
  | .rule _ e | .atomic _ e | .seq e => quoteless e
  | .cat a _ => quoteless a
  | _ => false

/-- `!NEWLINE ~ ANY`. -/
def isLine : PE R → Bool
  | .cat (.look false (.call .NEWLINE)) (.call .ANY) => true
  | _ => false

/-- What stands in a block comment: `MultiLineComment | !"%%%" ~ ANY`. -/
abbrev inBlock : PE R := .alt (.call .MultiLineComment) (.seq (.cat (.look false (.str c!"%%%")) (.call .ANY)))

/-- Is `inBlock`. -/
def isBlock : PE R → Bool
  | .alt (.call .MultiLineComment) (.seq (.cat (.look false (.str x)) (.call .ANY))) => decide (x = c!"%%%")
  | _ => false

/-- Begins with a name. -/
def headed : PE R → Bool
  | .seq (.cat (.cat (.call .Symbol) _) _) => true
  | _ => false

/-- Expressions that do not see the difference between line endings and between white space characters. -/
def blind : PE R → Bool
  | .call r => !aside r
  | .rule r e => blind e && (!texted r || dry e || quoteless e) && (decide (r ≠ .apply_call) || headed e)
  | .seq e => isLine e || blind e
  | .rep e => isBlock e || blind e
  | .atomic _ e | .ifNon e | .opt e | .restore e | .look _ e => blind e
  | .alt a b => blind a && blind b
  | .cat a b => blind a && (quoteless a || blind b)
  | .str x => x.all firm
  | .insens x => x.all fun c => firm c.toLower
  | .range a b => decide ((a, b) ∈ [('0', '9'), ('1', '9'), ('0', '1'), ('0', '7'), ('a', 'f'), ('A', 'F')])
  | .uni p => decide (p ≠ .whiteSpace)
  | .soi | .eoi => true
  | .any | .push _ | .peek | .pop => false

theorem grammar_blind : ∀ r : R, aside r = false → r ≠ .NEWLINE → r ≠ .WHITESPACE → blind (grammar r) = true := by
  intro r h1 h2 h3
  cases r <;> first | decide +kernel | exact absurd h1 (by decide) | exact absurd rfl h2 | exact absurd rfl h3

theorem grammar_dry : ∀ r : R, dryR r = true → dry (grammar r) = true := by
  intro r h
  cases r <;> first | rfl | cases h

/-! ### Single characters -/

theorem firm_ws (L : Lawful u) {c : Char} (h : firm c = true) : u .whiteSpace c = false := by
  simp only [firm, Bool.and_eq_true, decide_eq_true_eq, Bool.not_eq_true'] at h
  rw [L.plain _ _ h.1]; exact h.2

theorem ws_lf (L : Lawful u) : u .whiteSpace '\n' = true := by rw [L.plain _ _ (by decide)]; decide
theorem ws_cr (L : Lawful u) : u .whiteSpace '\r' = true := by rw [L.plain _ _ (by decide)]; decide

theorem Redrawn.view (L : Lawful u) {l m : Str} (h : Redrawn u l m) :
    (l = [] ∧ m = []) ∨ (∃ c l' m', l = c :: l' ∧ m = c :: m' ∧ u .whiteSpace c = false ∧ Redrawn u l' m') ∨
    (∃ c d l' m', l = c :: l' ∧ m = d :: m' ∧ u .whiteSpace c = true ∧ u .whiteSpace d = true) := by
  cases h with
  | nil => exact .inl ⟨rfl, rfl⟩
  | same hc h => exact .inr (.inl ⟨_, _, _, rfl, rfl, hc, h⟩)
  | gap hc hd h => exact .inr (.inr ⟨_, _, _, _, rfl, rfl, hc.1, hd.1⟩)
  | line hx hy h =>
    refine .inr (.inr ?_)
    rcases hx with rfl | rfl | ⟨rfl, -⟩ <;> rcases hy with rfl | rfl | ⟨rfl, -⟩ <;>
      exact ⟨_, _, _, _, rfl, rfl, by first | exact ws_lf L | exact ws_cr L, by first | exact ws_lf L | exact ws_cr L⟩

theorem strip_redrawn (L : Lawful u) {x : Str} (hx : ∀ c ∈ x, u .whiteSpace c = false) {l m : Str}
    (h : Redrawn u l m) :
    (strip x l = none ∧ strip x m = none) ∨ ∃ r r', strip x l = some r ∧ strip x m = some r' ∧ Redrawn u r r' := by
  induction x generalizing l m with
  | nil => exact .inr ⟨l, m, rfl, rfl, h⟩
  | cons c x ih =>
    have hc := hx c (List.mem_cons_self ..)
    rcases h.view L with ⟨rfl, rfl⟩ | ⟨d, l', m', rfl, rfl, hd, h'⟩ | ⟨d, e, l', m', rfl, rfl, hd, he⟩
    · exact .inl ⟨rfl, rfl⟩
    · by_cases hcd : c = d
      · simp only [strip, if_pos hcd]
        exact ih (fun c h => hx c (List.mem_cons_of_mem _ h)) h'
      · simp [strip, hcd]
    · have h1 : c ≠ d := by rintro rfl; rw [hc] at hd; cases hd
      have h2 : c ≠ e := by rintro rfl; rw [hc] at he; cases he
      simp [strip, h1, h2]

theorem lower_ws (L : Lawful u) {c : Char} (h : u .whiteSpace c = true) : c.toLower = c := by
  by_cases hc : 'A' ≤ c ∧ c ≤ 'Z'
  · have h1 : c.toNat < 128 := by
      have : c.toNat ≤ 'Z'.toNat := hc.2
      have : 'Z'.toNat = 90 := rfl
      omega
    rw [L.plain _ _ (.inl h1)] at h
    simp only [asciiUni, decide_eq_true_eq, List.mem_cons, List.not_mem_nil, or_false] at h
    rcases h with rfl | rfl | rfl | rfl | rfl | rfl <;> rfl
  · unfold Char.toLower
    rw [dif_neg]
    intro h
    exact hc ⟨h.1, h.2⟩

theorem insens_redrawn (L : Lawful u) {x : Str} (hx : ∀ c ∈ x, u .whiteSpace c.toLower = false) {l m : Str}
    (h : Redrawn u l m) : (stripInsens x l = none ∧ stripInsens x m = none) ∨
      ∃ w r r', stripInsens x l = some r ∧ stripInsens x m = some r' ∧ Redrawn u r r' ∧ w.length = x.length ∧
        l = w ++ r ∧ m = w ++ r' ∧ ∀ c ∈ w, u .whiteSpace c = false := by
  induction x generalizing l m with
  | nil => exact .inr ⟨[], l, m, rfl, rfl, h, rfl, rfl, rfl, by simp⟩
  | cons c x ih =>
    have hc := hx c (List.mem_cons_self ..)
    rcases h.view L with ⟨rfl, rfl⟩ | ⟨d, l', m', rfl, rfl, hd, h'⟩ | ⟨d, e, l', m', rfl, rfl, hd, he⟩
    · exact .inl ⟨rfl, rfl⟩
    · by_cases hcd : c.toLower = d.toLower
      · simp only [stripInsens, if_pos hcd]
        rcases ih (fun c h => hx c (List.mem_cons_of_mem _ h)) h' with h | ⟨w, r, r', h1, h2, h3, h4, h5, h6, h7⟩
        · exact .inl h
        · exact .inr ⟨d :: w, r, r', h1, h2, h3, by simp [h4], by simp [h5], by simp [h6], by
            simpa [hd] using h7⟩
      · simp [stripInsens, hcd]
    · have h1 : c.toLower ≠ d.toLower := by
        intro h; rw [h, lower_ws L hd, hd] at hc; cases hc
      have h2 : c.toLower ≠ e.toLower := by
        intro h; rw [h, lower_ws L he, he] at hc; cases hc
      simp [stripInsens, h1, h2]

theorem Level.went {s s' : St R} (h : Level u G s s') {w w' r r' : Str} (h1 : s.rest = w ++ r) (h2 : s'.rest = w' ++ r')
    (h3 : Redrawn u r r') (hw : G.at_ (s.pos + w.length) r (s'.pos + w'.length) r') (d : Bool) (hd : d = true → w = w') :
    Went u G d s s' (s.advance w.length r) (s'.advance w'.length r') := by
  refine ⟨⟨h3, ?_, h.left, h.right, h.queue, hw⟩, w, w', h1, h2, rfl, rfl, hd⟩
  have := h.free; rw [h1] at this; exact this.suffix

theorem solid_ne (L : Lawful u) {c : Char} (hc : u .whiteSpace c = false) : c ≠ '\n' ∧ c ≠ '\r' :=
  ⟨(by rintro rfl; rw [ws_lf L] at hc; cases hc), (by rintro rfl; rw [ws_cr L] at hc; cases hc)⟩

theorem Gauge.same (L : Lawful u) {w : Str} (hw : ∀ c ∈ w, u .whiteSpace c = false) {a b : Nat} {r r' : Str}
    (h : G.at_ a (w ++ r) b (w ++ r')) : G.at_ (a + w.length) r (b + w.length) r' := by
  induction w generalizing a b with
  | nil => exact h
  | cons c w ih =>
    have hc := solid_ne L (hw c (List.mem_cons_self ..))
    have := ih (fun c h => hw c (List.mem_cons_of_mem _ h)) (G.char h hc.1 hc.2 hc.1 hc.2)
    rwa [Nat.add_right_comm a, Nat.add_right_comm b] at this

theorem Level.char {s s' : St R} (h : Level u G s s') {c d : Char} {l m : Str} (e1 : s.rest = c :: l)
    (e2 : s'.rest = d :: m) (h3 : c ≠ '\n') (h4 : c ≠ '\r') (h5 : d ≠ '\n') (h6 : d ≠ '\r') :
    G.at_ (s.pos + 1) l (s'.pos + 1) m := by
  have := h.pos
  rw [e1, e2] at this
  exact G.char this h3 h4 h5 h6

theorem Level.line {s s' : St R} (h : Level u G s s') {x y l m : Str} (e1 : s.rest = x ++ l)
    (e2 : s'.rest = y ++ m) (h3 : LineEnd x l) (h4 : LineEnd y m) :
    G.at_ (s.pos + x.length) l (s'.pos + y.length) m := by
  have := h.pos
  rw [e1, e2] at this
  exact G.line this h3 h4

theorem both_str (L : Lawful u) {x : Str} (hx : ∀ c ∈ x, u .whiteSpace c = false) {s s' : St R} (h : Level u G s s') (d : Bool) :
    Both u G d s s' (s.matchStr x) (s'.matchStr x) := by
  unfold St.matchStr
  rcases strip_redrawn L hx h.rest with ⟨e1, e2⟩ | ⟨r, r', e1, e2, h3⟩ <;> rw [e1, e2]
  · exact h.stay _
  · have := h.pos
    rw [strip_app e1, strip_app e2] at this
    exact h.went (strip_app e1) (strip_app e2) h3 (G.same L hx this) d (fun _ => rfl)

theorem both_char (L : Lawful u) {p : Char → Bool} (hp : ∀ c, p c = true → u .whiteSpace c = false) {s s' : St R}
    (h : Level u G s s') (d : Bool) : Both u G d s s' (s.charBy p) (s'.charBy p) := by
  unfold St.charBy
  rcases h.rest.view L with ⟨e1, e2⟩ | ⟨c, l, m, e1, e2, hc, h3⟩ | ⟨c, e, l, m, e1, e2, hc, he⟩ <;> rw [e1, e2]
  · exact h.stay _
  · dsimp only
    split
    · have hn := solid_ne L hc
      exact h.went (w := [c]) (w' := [c]) e1 e2 h3 (h.char e1 e2 hn.1 hn.2 hn.1 hn.2) d (fun _ => rfl)
    · exact h.stay _
  · have h1 : p c = false := by
      cases hx : p c with
      | false => rfl
      | true => rw [hp c hx] at hc; cases hc
    have h2 : p e = false := by
      cases hx : p e with
      | false => rfl
      | true => rw [hp e hx] at he; cases he
    dsimp only
    rw [h1, h2]
    exact h.stay _

/-! ### Line endings and white space -/

theorem newline_ending {x l : Str} (h : LineEnd x l) (v : Env) {s : St R} (hs : s.rest = x ++ l) :
    sem grammar u (.call .NEWLINE) v s = .ok (s.advance x.length l) := by
  rw [sem_call]
  show sem grammar u body_NEWLINE v s = _
  rcases h with rfl | rfl | ⟨rfl, h⟩
  · simp [body_NEWLINE, sem_alt, sem_str, St.matchStr, hs, strip, Res.orElse]
  · simp [body_NEWLINE, sem_alt, sem_str, St.matchStr, hs, strip, Res.orElse]
  · match l, h with
    | [], _ => simp [body_NEWLINE, sem_alt, sem_str, St.matchStr, hs, strip, Res.orElse]
    | c :: l, h =>
      have : '\n' ≠ c := fun e => h (by rw [e]; rfl)
      simp [body_NEWLINE, sem_alt, sem_str, St.matchStr, hs, strip, Res.orElse, this]

theorem newline_nil (v : Env) {s : St R} (hs : s.rest = []) : sem grammar u (.call .NEWLINE) v s = .err s := by
  rw [sem_call]
  show sem grammar u body_NEWLINE v s = _
  simp [body_NEWLINE, sem_alt, sem_str, St.matchStr, hs, strip, Res.orElse]

theorem newline_other {c : Char} {l : Str} (h1 : c ≠ '\n') (h2 : c ≠ '\r') (v : Env) {s : St R} (hs : s.rest = c :: l) :
    sem grammar u (.call .NEWLINE) v s = .err s := by
  rw [sem_call]
  show sem grammar u body_NEWLINE v s = _
  simp [body_NEWLINE, sem_alt, sem_str, St.matchStr, hs, strip, Res.orElse, h1.symm, h2.symm]

/-- The three kinds of beginnings. -/
theorem Redrawn.begin (L : Lawful u) {l m : Str} (h : Redrawn u l m) :
    (l = [] ∧ m = []) ∨
    (∃ c d l' m', l = c :: l' ∧ m = d :: m' ∧ c ≠ '\n' ∧ c ≠ '\r' ∧ d ≠ '\n' ∧ d ≠ '\r' ∧
      u .whiteSpace c = u .whiteSpace d ∧ Redrawn u l' m') ∨
    (∃ x y l' m', l = x ++ l' ∧ m = y ++ m' ∧ LineEnd x l' ∧ LineEnd y m' ∧ Redrawn u l' m') := by
  cases h with
  | nil => exact .inl ⟨rfl, rfl⟩
  | @same c l m hc h =>
    have h1 : c ≠ '\n' := by rintro rfl; rw [ws_lf L] at hc; cases hc
    have h2 : c ≠ '\r' := by rintro rfl; rw [ws_cr L] at hc; cases hc
    exact .inr (.inl ⟨c, c, l, m, rfl, rfl, h1, h2, h1, h2, rfl, h⟩)
  | @gap c d l m hc hd h =>
    exact .inr (.inl ⟨c, d, l, m, rfl, rfl, hc.2.1, hc.2.2, hd.2.1, hd.2.2, by rw [hc.1, hd.1], h⟩)
  | line hx hy h => exact .inr (.inr ⟨_, _, _, _, rfl, rfl, hx, hy, h⟩)

theorem both_newline (L : Lawful u) (v : Env) {s s' : St R} (h : Level u G s s') :
    Both u G false s s' (sem grammar u (.call .NEWLINE) v s) (sem grammar u (.call .NEWLINE) v s') := by
  rcases h.rest.begin L with ⟨e1, e2⟩ | ⟨c, d, l, m, e1, e2, h1, h2, h3, h4, -, h5⟩ | ⟨x, y, l, m, e1, e2, h1, h2, h3⟩
  · rw [newline_nil v e1, newline_nil v e2]; exact h.stay _
  · rw [newline_other h1 h2 v e1, newline_other h3 h4 v e2]; exact h.stay _
  · rw [newline_ending h1 v e1, newline_ending h2 v e2]
    exact h.went e1 e2 h3 (h.line e1 e2 h1 h2) _ (fun h => nomatch h)

theorem both_space (L : Lawful u) (v : Env) {s s' : St R} (h : Level u G s s') :
    Both u G false s s' (sem grammar u (.call .WHITESPACE) v s) (sem grammar u (.call .WHITESPACE) v s') := by
  rw [sem_call, sem_call]
  show Both u G false s s' (sem grammar u body_WHITESPACE v s) (sem grammar u body_WHITESPACE v s')
  rw [body_WHITESPACE, sem_atomic, sem_atomic, sem_alt, sem_alt]
  have key : ∀ (v : Env) (s : St R), sem grammar u (.call .WHITE_SPACE) v s = s.charBy (u .whiteSpace) := by
    intro v s; rw [sem_call]; exact sem_uni v s _
  rcases h.rest.begin L with ⟨e1, e2⟩ | ⟨c, d, l, m, e1, e2, h1, h2, h3, h4, h5, h6⟩ | ⟨x, y, l, m, e1, e2, h1, h2, h3⟩
  · rw [newline_nil _ e1, newline_nil _ e2]
    simp only [Res.orElse, key, St.charBy, e1, e2]
    exact h.stay _
  · rw [newline_other h1 h2 _ e1, newline_other h3 h4 _ e2]
    simp only [Res.orElse, key, St.charBy, e1, e2, h5]
    split
    · exact h.went (w := [c]) (w' := [d]) e1 e2 h6 (h.char e1 e2 h1 h2 h3 h4) _ (fun h => nomatch h)
    · exact h.stay _
  · rw [newline_ending h1 _ e1, newline_ending h2 _ e2]
    exact h.went e1 e2 h3 (h.line e1 e2 h1 h2) _ (fun h => nomatch h)

theorem both_line (L : Lawful u) (v : Env) {s s' : St R} (h : Level u G s s') :
    Both u G false s s' (sem grammar u (.seq (.cat (.look false (.call .NEWLINE)) (.call .ANY))) v s)
      (sem grammar u (.seq (.cat (.look false (.call .NEWLINE)) (.call .ANY))) v s') := by
  have key : ∀ (v : Env) (s : St R), sem grammar u (.call .ANY) v s = s.charBy fun _ => true := by
    intro v s; rw [sem_call]; exact sem_any v s
  rw [sem_seq, sem_seq, sem_cat, sem_cat, sem_look, sem_look]
  rcases h.rest.begin L with ⟨e1, e2⟩ | ⟨c, d, l, m, e1, e2, h1, h2, h3, h4, h5, h6⟩ | ⟨x, y, l, m, e1, e2, h1, h2, h3⟩
  · rw [newline_nil _ e1, newline_nil _ e2]
    simp only [Res.mapBoth, Res.flip, Res.andThen, key, St.charBy, backTo, e1, e2]
    exact .stay _ ⟨.nil, by simpa [e1] using h.free, h.left, h.right, h.queue, by simpa [e1, e2] using h.pos⟩ rfl
      (by simp [e1]) rfl (by simp [e2])
  · rw [newline_other h1 h2 _ e1, newline_other h3 h4 _ e2]
    simp only [Res.mapBoth, Res.flip, Res.andThen, key, St.charBy, backTo, e1, e2]
    exact (h.went (w := [c]) (w' := [d]) e1 e2 h6 (h.char e1 e2 h1 h2 h3 h4) _ (fun h => nomatch h))
  · rw [newline_ending h1 _ e1, newline_ending h2 _ e2]
    simp only [Res.mapBoth, Res.flip, Res.andThen, backTo, St.advance]
    exact h.stay _

/-! ### Where the parser stops at once -/

theorem no_quote {s t : St R} (h : NoQuotes s.rest) : s.matchStr ['"'] ≠ .ok t := by
  unfold St.matchStr
  cases hr : strip ['"'] s.rest with
  | none => simp
  | some r =>
    have e := strip_app hr
    exact absurd (by rw [e]; simp) h

theorem quoteless_fails : ∀ (e : PE R), quoteless e = true → ∀ (v : Env) (s t : St R), NoQuotes s.rest →
    sem grammar u e v s ≠ .ok t
  | .call r, h, v, s, t, hs => by
    have h : r = .Quotation := of_decide_eq_true h
    subst h
    rw [sem_call]
    show sem grammar u (.rule .Quotation (.atomic .atomic (.str ['"']))) v s ≠ _
    rw [sem_rule]
    split
    · rw [sem_atomic, sem_str]
      cases hm : ({ s with queue := [] } : St R).matchStr ['"'] with
      | ok x => exact absurd hm (no_quote hs)
      | err x => simp [Res.mapBoth]
      | crash => simp [Res.mapBoth]
    · rw [sem_atomic, sem_str]; exact no_quote hs
  | .str x, h, v, s, t, hs => by
    have h : x = ['"'] := of_decide_eq_true h
    subst h
    rw [sem_str]
    exact no_quote hs
  | .rule r e, h, v, s, t, hs => by
    rw [sem_rule]
    split
    · cases hm : sem grammar u e v { s with queue := [] } with
      | ok x => exact absurd hm (quoteless_fails e h _ _ _ hs)
      | err x => simp [Res.mapBoth]
      | crash => simp [Res.mapBoth]
    · exact quoteless_fails e h _ _ _ hs
  | .atomic a e, h, v, s, t, hs => by rw [sem_atomic]; exact quoteless_fails e h _ _ _ hs
  | .seq e, h, v, s, t, hs => by
    rw [sem_seq]
    cases hm : sem grammar u e v s with
    | ok x => exact absurd hm (quoteless_fails e h _ _ _ hs)
    | err x => simp [Res.mapBoth]
    | crash => simp [Res.mapBoth]
  | .cat a b, h, v, s, t, hs => by
    rw [sem_cat]
    cases hm : sem grammar u a v s with
    | ok x => exact absurd hm (quoteless_fails a h _ _ _ hs)
    | err x => simp [Res.andThen]
    | crash => simp [Res.andThen]
  | .ifNon _, h, _, _, _, _ => nomatch h
  | .opt _, h, _, _, _, _ => nomatch h
  | .rep _, h, _, _, _, _ => nomatch h
  | .alt _ _, h, _, _, _, _ => nomatch h
  | .restore _, h, _, _, _, _ => nomatch h
  | .look _ _, h, _, _, _, _ => nomatch h
  | .insens _, h, _, _, _, _ => nomatch h
  | .range _ _, h, _, _, _, _ => nomatch h
  | .uni _, h, _, _, _, _ => nomatch h
  | .any, h, _, _, _, _ => nomatch h
  | .soi, h, _, _, _, _ => nomatch h
  | .eoi, h, _, _, _, _ => nomatch h
  | .push _, h, _, _, _, _ => nomatch h
  | .peek, h, _, _, _, _ => nomatch h
  | .pop, h, _, _, _, _ => nomatch h

/-! ### Calls begin with their name -/

theorem queue_grows {e : PE R} {v : Env} {s t : St R} (h : sem grammar u e v s = .ok t) :
    ∃ z, t.queue = s.queue ++ z := by
  have := sem_frame (u := u) grammar s.queue e v { s with queue := [] }
  rw [show frameSt s.queue { s with queue := [] } = s by simp [frameSt], h] at this
  cases hx : sem grammar u e v { s with queue := [] } with
  | ok x => rw [hx] at this; cases this; exact ⟨x.queue, rfl⟩
  | err x => rw [hx] at this; cases this
  | crash => rw [hx] at this; cases this

theorem headed_first {e : PE R} (he : headed e = true) {v : Env} (hv : v.emits = true) {s t : St R} (hs : s.queue = [])
    (h : sem grammar u e v s = .ok t) : ∃ p m, t.queue = p :: m ∧ p.rule = .Symbol := by
  unfold headed at he
  split at he
  · rename_i b c
    rw [sem_seq, sem_cat, sem_cat] at h
    rw [sem_call] at h
    change ((((sem grammar u body_Symbol v s).andThen _).andThen _).mapBoth _ _) = _ at h
    rw [body_Symbol, sem_atomic, sem_rule, if_pos (by
      simp only [Env.emits, Bool.and_eq_true, Bool.not_eq_true'] at hv ⊢
      exact ⟨hv.1, rfl⟩)] at h
    generalize sem grammar u _ _ { s with queue := [] } = x at h
    cases x with
    | err x => cases h
    | crash => cases h
    | ok x =>
      simp only [Res.mapBoth, Res.andThen, id] at h
      cases h1 : sem grammar u b v { x with queue := s.queue ++ [.mk .Symbol s.pos x.pos (s.between x) x.queue] } with
      | err y => rw [h1] at h; cases h
      | crash => rw [h1] at h; cases h
      | ok y =>
        rw [h1] at h
        dsimp only at h
        cases h2 : sem grammar u c v y with
        | err z => rw [h2] at h; cases h
        | crash => rw [h2] at h; cases h
        | ok z =>
          rw [h2] at h
          cases h
          obtain ⟨z1, e1⟩ := queue_grows h1
          obtain ⟨z2, e2⟩ := queue_grows h2
          exact ⟨.mk .Symbol s.pos x.pos (s.between x) x.queue, z1 ++ z2, by rw [e2, e1, hs]; simp, rfl⟩
  · cases he

/-! ### Block comments -/

theorem any_sem (v : Env) (s : St R) : sem grammar u (.call .ANY) v s = s.charBy fun _ => true := by
  rw [sem_call]; exact sem_any v s

theorem block_step (L : Lawful u) {c : Char} (hc : c = '\n' ∨ c = '\r') {l : Str} (v : Env) {s : St R}
    (hs : s.rest = c :: l) : sem grammar u inBlock v s = .ok (s.advance 1 l) := by
  obtain ⟨p, r, st, q⟩ := s
  have hs : r = c :: l := hs
  subst hs
  have h : sem grammar u (.call .MultiLineComment) v ⟨p, c :: l, st, q⟩ = .err ⟨p, c :: l, st, q⟩ := by
    refine fails_plain L ?_ l p st q
    rcases hc with rfl | rfl <;> decide
  have h2 : '%' ≠ c := by rcases hc with rfl | rfl <;> decide
  rw [sem_alt, h]
  simp only [Res.orElse]
  rw [sem_seq, sem_cat, sem_look, sem_str]
  simp [St.matchStr, strip, h2, Res.mapBoth, Res.flip, Res.andThen, any_sem, St.charBy, backTo, St.advance]

theorem block_ending (L : Lawful u) {x l : Str} (h : LineEnd x l) (v : Env) {s : St R} (hs : s.rest = x ++ l) :
    sem grammar u (.rep inBlock) v s = sem grammar u (.rep inBlock) v (s.advance x.length l) := by
  rcases h with rfl | rfl | ⟨rfl, -⟩
  · rw [sem_rep, block_step L (.inl rfl) v hs]; rfl
  · rw [sem_rep, block_step L (.inr rfl) v hs]
    dsimp only
    rw [sem_rep, block_step L (.inl rfl) v rfl]
    rfl
  · rw [sem_rep, block_step L (.inr rfl) v hs]; rfl

theorem block_runs (L : Lawful u) {c : Char} (hc : c = '\n' ∨ c = '\r') {l : Str} {v : Env} {s : St R}
    (hs : s.rest = c :: l) {n : Nat} (h : run grammar u n (.rep inBlock) v s ≠ .crash) :
    run grammar u n (.rep inBlock) v (s.advance 1 l) ≠ .crash := by
  cases n with
  | zero => exact absurd rfl h
  | succ n =>
    have h1 : run grammar u n inBlock v s ≠ .crash := by
      intro e; rw [run, e] at h; exact h rfl
    have h2 := block_step L hc v hs
    rw [← run_eq_sem h1] at h2
    rw [run, h2] at h
    rw [run_mono' (Nat.le_succ n) h]
    exact h

theorem block_runs_ending (L : Lawful u) {x l : Str} (hx : LineEnd x l) {v : Env} {s : St R} (hs : s.rest = x ++ l)
    {n : Nat} (h : run grammar u (n + 1) (.rep inBlock) v s ≠ .crash) :
    run grammar u n (.rep inBlock) v (s.advance x.length l) ≠ .crash := by
  have first : ∀ {c : Char} {l : Str}, (c = '\n' ∨ c = '\r') → s.rest = c :: l →
      run grammar u n (.rep inBlock) v (s.advance 1 l) ≠ .crash := by
    intro c l hc hs
    have h1 : run grammar u n inBlock v s ≠ .crash := by
      intro e; rw [run, e] at h; exact h rfl
    have h2 := block_step L hc v hs
    rw [← run_eq_sem h1] at h2
    rw [run, h2] at h
    exact h
  rcases hx with rfl | rfl | ⟨rfl, -⟩
  · exact first (.inl rfl) hs
  · exact block_runs L (.inl rfl) (l := l) rfl (first (.inr rfl) hs)
  · exact first (.inr rfl) hs

theorem both_any (L : Lawful u) (v : Env) {s s' : St R} (h : Level u G s s')
    (hl : (s.rest = [] ∧ s'.rest = []) ∨ ∃ c d l m, s.rest = c :: l ∧ s'.rest = d :: m ∧ c ≠ '\n' ∧ c ≠ '\r' ∧ d ≠ '\n' ∧ d ≠ '\r' ∧ Redrawn u l m) :
    Both u G false s s' (sem grammar u (.seq (.cat (.look false (.str c!"%%%")) (.call .ANY))) v s)
      (sem grammar u (.seq (.cat (.look false (.str c!"%%%")) (.call .ANY))) v s') := by
  rw [sem_seq, sem_seq, sem_cat, sem_cat, sem_look, sem_look, sem_str, sem_str]
  have hf : ∀ c ∈ c!"%%%", u .whiteSpace c = false :=
    fun c hc => firm_ws L (List.all_eq_true.1 (show (c!"%%%").all firm = true by decide) c hc)
  simp only [St.matchStr]
  rcases strip_redrawn L hf h.rest with ⟨e1, e2⟩ | ⟨r, r', e1, e2, h3⟩ <;> rw [e1, e2]
  · simp only [Res.mapBoth, Res.flip, Res.andThen, any_sem, St.charBy, backTo, Bool.false_eq_true, if_false]
    rcases hl with ⟨e1, e2⟩ | ⟨c, d, l, m, e1, e2, h1, h2, h3, h4, h6⟩
    · simp only [e1, e2]
      exact .stay _ ⟨.nil, by simpa [e1] using h.free, h.left, h.right, h.queue, by simpa [e1, e2] using h.pos⟩ rfl (by simp [e1]) rfl
        (by simp [e2])
    · simp only [e1, e2, if_true]
      exact h.went (w := [c]) (w' := [d]) e1 e2 h6 (h.char e1 e2 h1 h2 h3 h4) _ (fun h => nomatch h)
  · simp only [Res.mapBoth, Res.flip, Res.andThen, backTo, St.advance, Bool.false_eq_true, if_false]
    exact h.stay _

/-! ### The parser does not see the difference -/

theorem level_queue {s s' : St R} (h : Level u G s s') {q q' : List (Pair R)} (hq : gist G.f q = gist G.f' q') :
    Level u G { s with queue := q } { s' with queue := q' } := ⟨h.rest, h.free, h.left, h.right, hq, h.pos⟩

theorem both_sem (L : Lawful u) : ∀ (n : Nat) (e : PE R) (v : Env) (s s' : St R), blind e = true → Level u G s s' →
    run grammar u n e v s ≠ .crash → Both u G (dry e) s s' (run grammar u n e v s) (sem grammar u e v s') := by
  intro n
  induction n with
  | zero => intro e v s s' _ _ h; exact absurd rfl h
  | succ n ih =>
    intro e v s s' hb hs hc
    cases e with
    | call r =>
      by_cases h1 : r = .NEWLINE
      · subst h1; rw [run_eq_sem hc]; exact both_newline L v hs
      by_cases h2 : r = .WHITESPACE
      · subst h2; rw [run_eq_sem hc]; exact both_space L v hs
      have ha : aside r = false := by simpa [blind] using hb
      rw [run] at hc ⊢
      rw [sem_call]
      exact (ih _ v s s' (grammar_blind r ha h1 h2) hs hc).weaken (grammar_dry r)
    | rule r e =>
      simp only [blind, Bool.and_eq_true, Bool.or_eq_true, Bool.not_eq_true'] at hb
      obtain ⟨⟨hb1, hb2⟩, hb3⟩ := hb
      rw [run] at hc ⊢
      rw [sem_rule]
      split at hc <;> rename_i hv
      · rw [if_pos hv, if_pos hv]
        have hc' : run grammar u n e v { s with queue := [] } ≠ .crash := fun h => hc (by rw [h]; rfl)
        have h := ih e v { s with queue := [] } { s' with queue := [] } hb1 (level_queue hs rfl) hc'
        have hd : ∀ t, run grammar u n e v { s with queue := [] } = .ok t → quoteless e = true → False := by
          intro t ht hd
          exact quoteless_fails (u := u) e hd v { s with queue := [] } t hs.free (by rw [← run_eq_sem hc', ht])
        have hh : ∀ t, run grammar u n e v { s with queue := [] } = .ok t → headed e = true →
            ∃ p m, t.queue = p :: m ∧ p.rule = .Symbol := by
          intro t ht hd
          exact headed_first (u := u) hd hv (s := { s with queue := [] }) rfl (by rw [← run_eq_sem hc', ht])
        revert h hd hh
        generalize run grammar u n e v { s with queue := [] } = x
        generalize sem grammar u e v { s' with queue := [] } = x'
        intro h hd hh
        cases x with
        | crash => cases x' <;> exact h.elim
        | err t =>
          cases x' with
          | err t' => exact ⟨level_queue h.level hs.queue, h.read⟩
          | ok _ => exact h.elim
          | crash => exact h.elim
        | ok t =>
          cases x' with
          | err _ => exact h.elim
          | crash => exact h.elim
          | ok t' =>
            refine ⟨level_queue h.level ?_, h.read⟩
            rw [gist_append, gist_append, hs.queue]
            congr 1
            obtain ⟨w, w', e1, e2, e3, e4, e5⟩ := h.read
            dsimp only at e1 e2 e3 e4
            refine gist_mk (G.kept hs.pos) (G.kept h.level.pos) ?_ h.level.queue ?_
            · intro ht
              have : w = w' := by
                rcases hb2 with (hb2 | hb2) | hb2
                · rw [ht] at hb2; cases hb2
                · exact e5 hb2
                · exact (hd t rfl hb2).elim
              simp only [St.between, e1, e2, e3, e4, Nat.add_sub_cancel_left, this, List.take_left']
            · intro hr
              rcases hb3 with hb3 | hb3
              · exact absurd hr (of_decide_eq_true hb3)
              · exact hh t rfl hb3
      · rw [if_neg hv, if_neg hv]
        exact ih e v s s' hb1 hs hc
    | atomic a e =>
      rw [run] at hc ⊢
      rw [sem_atomic]
      exact ih e _ s s' hb hs hc
    | ifNon e =>
      rw [run] at hc ⊢
      rw [sem_ifNon]
      split at hc <;> rename_i hv
      · rw [if_pos hv, if_pos hv]; exact ih e v s s' hb hs hc
      · rw [if_neg hv, if_neg hv]; exact hs.stay _
    | seq e =>
      by_cases hl : isLine e = true
      · unfold isLine at hl
        split at hl
        · rw [run_eq_sem hc]; exact both_line L v hs
        · cases hl
      have hb : blind e = true := by simpa [blind, hl] using hb
      rw [run] at hc ⊢
      rw [sem_seq]
      have h := ih e v s s' hb hs (fun h => hc (by rw [h]; rfl))
      revert h
      generalize run grammar u n e v s = x
      generalize sem grammar u e v s' = x'
      intro h
      cases x <;> cases x' <;> first | exact h.elim | skip
      · exact h
      · exact .stay _ ⟨hs.rest, hs.free, h.level.left, h.level.right, hs.queue, hs.pos⟩ rfl rfl rfl rfl
    | opt e =>
      rw [run] at hc ⊢
      rw [sem_opt]
      have h := ih e v s s' hb hs (fun h => hc (by rw [h]; rfl))
      revert h
      generalize run grammar u n e v s = x
      generalize sem grammar u e v s' = x'
      intro h
      cases x <;> cases x' <;> first | exact h.elim | exact h
    | rep e =>
      by_cases hk : isBlock e = true
      · have he : e = inBlock := by
          unfold isBlock at hk
          split at hk
          · rw [of_decide_eq_true hk]
          · cases hk
        subst he
        have next : Both u G false s s' (run grammar u n inBlock v s) (sem grammar u inBlock v s') →
            Both u G (dry (.rep inBlock)) s s' (run grammar u (n + 1) (.rep inBlock) v s)
              (sem grammar u (.rep inBlock) v s') := by
          intro h
          rw [run] at hc ⊢
          rw [sem_rep]
          revert h hc
          generalize run grammar u n inBlock v s = x
          generalize sem grammar u inBlock v s' = x'
          intro hc h
          cases x <;> cases x' <;> first | exact h.elim | skip
          · rename_i t t'
            exact (Both.from h (ih (.rep inBlock) v t t' hb h.level hc)).weaken (fun hd => nomatch hd)
          · exact h
        have step : ((s.rest = [] ∧ s'.rest = []) ∨ ∃ c d l m, s.rest = c :: l ∧ s'.rest = d :: m ∧ c ≠ '\n' ∧ c ≠ '\r' ∧ d ≠ '\n' ∧ d ≠ '\r' ∧ Redrawn u l m) →
            Both u G (dry (.rep inBlock)) s s' (run grammar u (n + 1) (.rep inBlock) v s)
              (sem grammar u (.rep inBlock) v s') := by
          intro hl
          refine next ?_
          have h1 : run grammar u n inBlock v s ≠ .crash := by
            intro e; rw [run, e] at hc; exact hc rfl
          have h2 : run grammar u n (.call .MultiLineComment) v s ≠ .crash := by
            cases n with
            | zero => exact absurd rfl h1
            | succ n =>
              have : run grammar u n (.call .MultiLineComment) v s ≠ .crash := by
                intro e; rw [run, e] at h1; exact h1 rfl
              rw [run_mono' (Nat.le_succ n) this]; exact this
          have h3 := ih (.call .MultiLineComment) v s s' rfl hs h2
          rw [run_eq_sem h2] at h3
          rw [run_eq_sem h1, sem_alt, sem_alt]
          revert h3
          cases hx : sem grammar u (.call .MultiLineComment) v s <;>
            cases hx' : sem grammar u (.call .MultiLineComment) v s' <;> intro h3 <;> first | exact h3.elim | skip
          · exact h3.weaken (fun h => nomatch h)
          · rw [sem_call_err u _ (by decide) (by decide) hx, sem_call_err u _ (by decide) (by decide) hx']
            exact both_any L v hs hl
        rcases hs.rest.begin L with h1 | ⟨c, d, l, m, e1, e2, h1, h2, h3, h4, -, h6⟩ | ⟨x, y, l, m, e1, e2, h1, h2, h3⟩
        · exact step (.inl h1)
        · exact step (.inr ⟨c, d, l, m, e1, e2, h1, h2, h3, h4, h6⟩)
        · have hw : Went u G false s s' (s.advance x.length l) (s'.advance y.length m) :=
            hs.went e1 e2 h3 (hs.line e1 e2 h1 h2) _ (fun h => nomatch h)
          have hr := block_runs_ending L h1 e1 hc
          have h := ih (.rep inBlock) v _ _ hb hw.level hr
          rw [run_eq_sem hr] at h
          rw [run_eq_sem hc, block_ending L h1 v e1, block_ending L h2 v e2]
          exact (Both.from hw h).weaken (fun hd => nomatch hd)
      have hb0 := hb
      have hb : blind e = true := by simpa [blind, hk] using hb
      rw [run] at hc ⊢
      rw [sem_rep]
      have h := ih e v s s' hb hs (fun h => hc (by rw [h]))
      revert h hc
      generalize run grammar u n e v s = x
      generalize sem grammar u e v s' = x'
      intro hc h
      cases x <;> cases x' <;> first | exact h.elim | skip
      · rename_i t t'
        exact (Both.from h (ih (.rep e) v t t' hb0 h.level hc)).weaken (fun hd => by simpa [dry] using hd)
      · exact h
    | alt a b =>
      simp only [blind, Bool.and_eq_true] at hb
      rw [run] at hc ⊢
      rw [sem_alt]
      have h := ih a v s s' hb.1 hs (fun h => hc (by rw [h]; rfl))
      revert h hc
      generalize run grammar u n a v s = x
      generalize sem grammar u a v s' = x'
      intro hc h
      cases x <;> cases x' <;> first | exact h.elim | skip
      · exact Went.weaken h (fun hd => by simp only [dry, Bool.and_eq_true] at hd; exact hd.1)
      · rename_i t t'
        exact Both.from h (ih b v t t' hb.2 h.level hc)
    | cat a b =>
      simp only [blind, Bool.and_eq_true, Bool.or_eq_true] at hb
      rw [run] at hc ⊢
      rw [sem_cat]
      have hc' : run grammar u n a v s ≠ .crash := fun h => hc (by rw [h]; rfl)
      have h := ih a v s s' hb.1 hs hc'
      have hd : ∀ t, run grammar u n a v s = .ok t → quoteless a = true → False := by
        intro t ht hd
        exact quoteless_fails (u := u) a hd v s t hs.free (by rw [← run_eq_sem hc', ht])
      revert h hc hd
      generalize run grammar u n a v s = x
      generalize sem grammar u a v s' = x'
      intro hc h hd
      cases x <;> cases x' <;> first | exact h.elim | skip
      · rename_i t t'
        rcases hb.2 with h2 | h2
        · exact (hd t rfl h2).elim
        · exact Both.from h (ih b v t t' h2 h.level hc)
      · exact Went.weaken h (fun hd => by simp only [dry, Bool.and_eq_true] at hd; exact hd.1)
    | restore e =>
      rw [run] at hc ⊢
      rw [sem_restore]
      have h := ih e v s s' hb hs (fun h => hc (by rw [h]; rfl))
      revert h
      generalize run grammar u n e v s = x
      generalize sem grammar u e v s' = x'
      intro h
      cases x <;> cases x' <;> first | exact h.elim | skip
      · exact h
      · exact ⟨⟨h.level.rest, h.level.free, hs.left, hs.right, h.level.queue, h.level.pos⟩, h.read⟩
    | look p e =>
      rw [run] at hc ⊢
      rw [sem_look]
      have hc' : run grammar u n e { v with silent := true } s ≠ .crash := by
        intro h; apply hc; rw [h]; cases p <;> rfl
      have h := ih e { v with silent := true } s s' hb hs hc'
      revert h
      generalize run grammar u n e { v with silent := true } s = x
      generalize sem grammar u e { v with silent := true } s' = x'
      intro h
      have key : ∀ t t' : St R, Went u G (dry e) s s' t t' → Went u G (dry (.look p e)) s s' (backTo s t) (backTo s' t') :=
        fun t t' h => .stay _ ⟨hs.rest, hs.free, hs.left, hs.right, h.level.queue, hs.pos⟩ rfl rfl rfl rfl
      cases x <;> cases x' <;> first | exact h.elim | (cases p <;> exact key _ _ h)
    | str x =>
      rw [run, sem_str]
      exact both_str L (fun c hx => firm_ws L (List.all_eq_true.1 hb c hx)) hs _
    | insens x =>
      rw [run, sem_insens]
      rcases insens_redrawn L (fun c hx => firm_ws L (List.all_eq_true.1 hb c hx)) hs.rest with ⟨e1, e2⟩ |
        ⟨w, r, r', e1, e2, h3, h4, h5, h6, h7⟩ <;> rw [e1, e2]
      · exact hs.stay _
      · dsimp only
        rw [← h4]
        have hp := hs.pos
        rw [h5, h6] at hp
        exact hs.went h5 h6 h3 (G.same L h7 hp) _ (fun _ => rfl)
    | range a b =>
      rw [run, sem_range]
      refine both_char L (fun c hx => ?_) hs _
      simp only [Bool.and_eq_true, decide_eq_true_eq] at hx
      have hb : (a, b) ∈ [('0', '9'), ('1', '9'), ('0', '1'), ('0', '7'), ('a', 'f'), ('A', 'F')] := of_decide_eq_true hb
      have h1 : 48 ≤ c.toNat ∧ c.toNat < 128 := by
        have h1 : a.toNat ≤ c.toNat := hx.1
        have h2 : c.toNat ≤ b.toNat := hx.2
        simp only [List.mem_cons, Prod.mk.injEq, List.not_mem_nil, or_false] at hb
        rcases hb with ⟨rfl, rfl⟩ | ⟨rfl, rfl⟩ | ⟨rfl, rfl⟩ | ⟨rfl, rfl⟩ | ⟨rfl, rfl⟩ | ⟨rfl, rfl⟩ <;>
          (simp only [Char.reduceToNat] at h1 h2; omega)
      rw [L.plain _ _ (.inl h1.2)]
      simp only [asciiUni, decide_eq_false_iff_not, List.mem_cons, List.not_mem_nil, or_false]
      rintro (rfl | rfl | rfl | rfl | rfl | rfl) <;> (simp only [Char.reduceToNat] at h1; omega)
    | uni p =>
      rw [run, sem_uni]
      refine both_char L (fun c hx => ?_) hs _
      cases p with
      | xidStart => exact L.cont_ws c (L.start_cont c hx)
      | xidContinue => exact L.cont_ws c hx
      | whiteSpace => exact absurd hb (by decide)
    | any => cases hb
    | soi =>
      rw [run, sem_soi]
      by_cases hp : s.pos = 0
      · rw [if_pos hp, if_pos ((G.zero hs.pos).1 hp)]; exact hs.stay _
      · rw [if_neg hp, if_neg (fun h => hp ((G.zero hs.pos).2 h))]; exact hs.stay _
    | eoi =>
      rw [run, sem_eoi]
      rcases hs.rest.view L with ⟨e1, e2⟩ | ⟨c, l, m, e1, e2, -, -⟩ | ⟨c, d, l, m, e1, e2, -, -⟩ <;>
        (rw [e1, e2]; exact hs.stay _)
    | push e => cases hb
    | peek => cases hb
    | pop => cases hb

/-- The start of a parse. -/
theorem level_init {l m : Str} (h : Redrawn u l m) (hl : NoQuotes l) (h0 : G.at_ 0 l 0 m) :
    Level u G (St.init l) (St.init m) := ⟨h, hl, rfl, rfl, rfl, h0⟩

theorem smParse_gauge (L : Lawful u) {l m : Str} (h : Redrawn u l m) (hl : NoQuotes l) (h0 : G.at_ 0 l 0 m) :
    (smParse u .program l = .error ∧ smParse u .program m = .error) ∨
    ∃ p q, smParse u .program l = .pairs p ∧ smParse u .program m = .pairs q ∧ gist G.f p = gist G.f' q := by
  rw [smParse_eq u .program (by decide), smParse_eq u .program (by decide)]
  have ht := sem_total u .program (by decide) Env.init (St.init l)
  obtain ⟨n, hn⟩ := sem_settles grammar u (.call .program) Env.init (St.init l)
  have hb := both_sem L n (.call .program) Env.init _ _ rfl (level_init h hl h0) (by rw [hn n (Nat.le_refl n)]; exact ht)
  rw [hn n (Nat.le_refl n)] at hb
  revert hb
  generalize sem grammar u (.call .program) Env.init (St.init l) = x
  generalize sem grammar u (.call .program) Env.init (St.init m) = x'
  intro hb
  cases x <;> cases x' <;> first | exact hb.elim | skip
  · exact .inr ⟨_, _, rfl, rfl, hb.level.queue⟩
  · exact .inl ⟨rfl, rfl⟩

/-- The gauge that keeps nothing of offsets. -/
def coarse : Gauge where
  at_ a _ b _ := a = 0 ↔ b = 0
  f _ := 0
  f' _ := 0
  zero h := h
  kept _ := rfl
  char _ _ _ _ _ := by omega
  line h hx hy := by have := hx.length; have := hy.length; omega

theorem smParse_redrawn (L : Lawful u) {l m : Str} (h : Redrawn u l m) (hl : NoQuotes l) :
    (smParse u .program l = .error ∧ smParse u .program m = .error) ∨
    ∃ p q, smParse u .program l = .pairs p ∧ smParse u .program m = .pairs q ∧
      barePairs (thinL p) = barePairs (thinL q) := by
  rcases smParse_gauge (G := coarse) L h hl Iff.rfl with h | ⟨p, q, h1, h2, h3⟩
  · exact .inl h
  · refine .inr ⟨p, q, h1, h2, ?_⟩
    rw [← bare_movedL coarse.f (thinL p), ← bare_movedL coarse.f' (thinL q)]
    exact congrArg barePairs h3

/-- **C90**.  Two texts without string literals that differ in line endings and kinds of white space only are read alike,
whether they are accepted, rejected or make the parser panic, but for positions. -/
theorem C90_alike (L : Lawful u) {c d : Cfg} (h : Redrawn u c.input d.input) (hq : '"' ∉ c.input)
    (hm : c.errorText = d.errorText) : eraseR (parseText u c) = eraseR (parseText u d) := by
  rw [parseText, parseText]
  rcases smParse_redrawn L h hq with ⟨e1, e2⟩ | ⟨p, q, e1, e2, hp⟩ <;> rw [e1, e2]
  · rw [hm]
  · exact pairs_same hp c d

/-- **C90**.  One of two such texts is rejected exactly if the other is. -/
theorem C90_rejected (L : Lawful u) {c d : Cfg} (h : Redrawn u c.input d.input) (hq : '"' ∉ c.input) :
    parseText u c = .err (.parseError c.errorText) ↔ parseText u d = .err (.parseError d.errorText) := by
  have key : ∀ (e : Cfg) (l : List (Pair R)), parsePairs e l ≠ .err (.parseError e.errorText) := by
    intro e l
    induction l with
    | nil => exact fun h => nomatch h
    | cons p l ih =>
      rw [parsePairs]
      split
      · exact ih
      · split
        · cases buildExpression e p.inner .empty <;> exact fun h => nomatch h
        · split
          · exact ih
          · exact fun h => nomatch h
  rw [parseText, parseText]
  rcases smParse_redrawn L h hq with ⟨e1, e2⟩ | ⟨p, q, e1, e2, -⟩ <;> rw [e1, e2]
  · exact ⟨fun _ => rfl, fun _ => rfl⟩
  · exact ⟨fun h => absurd h (key _ _), fun h => absurd h (key _ _)⟩

variable {msg : Str → Str} {w : Width}

/-- **C90**.  The session computes the same value for both, if they are not rejected. -/
theorem C90_value (L : Lawful u) {s t : Str} (h : Redrawn u s t) (hq : '"' ∉ s)
    (hs : replParse u msg s ≠ .err (.parseError (msg s))) :
    value w (replParse u msg) t = value w (replParse u msg) s := by
  apply value_erased
  show eraseR (parseText u (replCfg msg t)) = eraseR (parseText u (replCfg msg s))
  have hs : parseText u (replCfg msg s) ≠ .err (.parseError (msg s)) := hs
  rw [parseText] at hs ⊢
  rw [parseText]
  have e : (replCfg msg s).input = s := rfl
  have e' : (replCfg msg t).input = t := rfl
  rw [e] at hs ⊢
  rw [e']
  rcases smParse_redrawn L h hq with ⟨e1, e2⟩ | ⟨p, q, e1, e2, hp⟩ <;> rw [e1] at hs <;> rw [e1, e2]
  · exact absurd rfl hs
  · exact (pairs_same hp _ _).symm

/-- **C90**.  The session gives the same answer to both. -/
theorem C90_answers (L : Lawful u) {s t : Str} (h : Redrawn u s t) (hq : '"' ∉ s) {r : SMResult Str}
    (ha : Answers u msg w s r) (hr : ∀ m, r ≠ .err (.parseError m)) : Answers u msg w t r := by
  have hs : replParse u msg s ≠ .err (.parseError (msg s)) := by
    intro he
    have := printed_of_answers ha
    rw [printed, value, he] at this
    exact hr _ this.symm
  intro hist
  rw [C22_outcome_independent_of_history, printed, C90_value L h hq hs, ← printed]
  exact printed_of_answers ha

/-! ### A standard form -/

/-- Every line ending as `\n`, every other white space as a space. -/
def unify (u : Uni) : Str → Str
  | '\r' :: '\n' :: l => '\n' :: unify u l
  | '\r' :: l => '\n' :: unify u l
  | '\n' :: l => '\n' :: unify u l
  | c :: l => (if u .whiteSpace c then ' ' else c) :: unify u l
  | [] => []

theorem unify_other {c : Char} (h1 : c ≠ '\r') (h2 : c ≠ '\n') (l : Str) :
    unify u (c :: l) = (if u .whiteSpace c then ' ' else c) :: unify u l := by
  rw [unify]
  · intro _ e; exact absurd e h1
  · exact h1
  · exact h2

theorem unify_cr {l : Str} (h : l.head? ≠ some '\n') : unify u ('\r' :: l) = '\n' :: unify u l := by
  rw [unify]
  rintro m rfl
  exact h rfl

theorem unify_ending {x l : Str} (h : LineEnd x l) : unify u (x ++ l) = '\n' :: unify u l := by
  rcases h with rfl | rfl | ⟨rfl, h⟩
  · exact unify.eq_3 u l
  · exact unify.eq_1 u l
  · exact unify_cr h

theorem ws_blank (L : Lawful u) : u .whiteSpace ' ' = true := by rw [L.plain _ _ (by decide)]; decide

/-- How a text begins. -/
theorem text_cases (t : Str) : t = [] ∨ (∃ x l, t = x ++ l ∧ LineEnd x l ∧ l.length < t.length) ∨
    ∃ c l, t = c :: l ∧ c ≠ '\n' ∧ c ≠ '\r' := by
  match t with
  | [] => exact .inl rfl
  | c :: l =>
    by_cases h1 : c = '\n'
    · exact .inr (.inl ⟨['\n'], l, by rw [h1]; rfl, .inl rfl, by simp⟩)
    by_cases h2 : c = '\r'
    · subst h2
      match l with
      | [] => exact .inr (.inl ⟨['\r'], [], rfl, .inr (.inr ⟨rfl, by simp⟩), by simp⟩)
      | d :: l =>
        by_cases h3 : d = '\n'
        · exact .inr (.inl ⟨['\r', '\n'], l, by rw [h3]; rfl, .inr (.inl rfl), by simp; omega⟩)
        · exact .inr (.inl ⟨['\r'], d :: l, rfl, .inr (.inr ⟨rfl, by simpa using h3⟩), by simp⟩)
    · exact .inr (.inr ⟨c, l, rfl, h1, h2⟩)

/-- **C90**.  Two texts differ in line endings and kinds of white space only exactly if they become the same text when
every line ending is written `\n` and every other white space character as a space. -/
theorem C90_unify (L : Lawful u) (s t : Str) : Redrawn u s t ↔ unify u s = unify u t := by
  constructor
  · intro h
    induction h with
    | nil => rfl
    | @same c l m hc h ih =>
      have h1 : c ≠ '\n' := by rintro rfl; rw [ws_lf L] at hc; cases hc
      have h2 : c ≠ '\r' := by rintro rfl; rw [ws_cr L] at hc; cases hc
      rw [unify_other h2 h1, unify_other h2 h1, ih]
    | gap hc hd h ih => rw [unify_other hc.2.2 hc.2.1, unify_other hd.2.2 hd.2.1, hc.1, hd.1, ih]; rfl
    | line hx hy h ih => rw [unify_ending hx, unify_ending hy, ih]
  · intro h
    have lf : '\n' ≠ ' ' := by decide
    induction hn : s.length using Nat.strongRecOn generalizing s t with
    | _ n ih =>
      subst hn
      rcases text_cases s with rfl | ⟨x, l, rfl, hx, hl⟩ | ⟨c, l, rfl, h1, h2⟩ <;>
        rcases text_cases t with rfl | ⟨y, m, rfl, hy, hm⟩ | ⟨d, m, rfl, h3, h4⟩
      · exact .nil
      · rw [unify_ending hy] at h; cases h
      · rw [unify_other h4 h3] at h; cases h
      · rw [unify_ending hx] at h; cases h
      · rw [unify_ending hx, unify_ending hy] at h
        exact .line hx hy (ih _ hl l m (List.cons.inj h).2 rfl)
      · rw [unify_ending hx, unify_other h4 h3] at h
        obtain ⟨e, -⟩ := List.cons.inj h
        split at e
        · exact absurd e lf
        · exact absurd e.symm h3
      · rw [unify_other h2 h1] at h; cases h
      · rw [unify_ending hy, unify_other h2 h1] at h
        obtain ⟨e, -⟩ := List.cons.inj h
        split at e
        · exact absurd e.symm lf
        · exact absurd e h1
      · rw [unify_other h2 h1, unify_other h4 h3] at h
        obtain ⟨e, h⟩ := List.cons.inj h
        have hr := ih l.length (by simp) l m h rfl
        cases hc : u .whiteSpace c <;> cases hd : u .whiteSpace d <;> rw [hc, hd] at e <;> simp at e
        · subst e; exact .same hc hr
        · subst e; rw [ws_blank L] at hc; cases hc
        · subst e; rw [ws_blank L] at hd; cases hd
        · exact .gap ⟨hc, h1, h2⟩ ⟨hd, h3, h4⟩ hr

/-- Every `\n` as `\r\n`. -/
def toCrlf (t : Str) : Str := t.flatMap fun c => if c = '\n' then ['\r', '\n'] else [c]

theorem redrawn_crlf {t : Str} (hr : '\r' ∉ t) : Redrawn u t (toCrlf t) := by
  induction t with
  | nil => exact .nil
  | cons x l ih =>
    have hl := ih (fun h => hr (List.mem_cons_of_mem _ h))
    by_cases hx : x = '\n'
    · subst hx; exact .line (x := ['\n']) (y := ['\r', '\n']) (.inl rfl) (.inr (.inl rfl)) hl
    · have h1 : x ≠ '\r' := by rintro rfl; exact hr (List.mem_cons_self ..)
      rw [toCrlf, List.flatMap_cons, if_neg hx]
      cases hw : u .whiteSpace x with
      | false => exact .same hw hl
      | true => exact .gap ⟨hw, hx, h1⟩ ⟨hw, hx, h1⟩ hl

/-- **C90**.  A text without string literals and with line endings `\n` is read alike with line endings `\r\n`. -/
theorem C90_crlf (L : Lawful u) {c d : Cfg} (h : d.input = toCrlf c.input) (hr : '\r' ∉ c.input) (hq : '"' ∉ c.input)
    (hm : c.errorText = d.errorText) : eraseR (parseText u c) = eraseR (parseText u d) := by
  refine C90_alike L ?_ hq hm
  rw [h]
  exact redrawn_crlf hr

/-- A text with a line comment, a block comment, a tab and three kinds of line endings. -/
example (L : Lawful u) : Redrawn u c!"//! one\n%%% two\n\n%%%1\t+\n2" c!"//! one\r%%% two\n\r\n%%%1 +\r2" := by
  rw [C90_unify L]
  have ws : ∀ c ∈ ['/', '!', ' ', 'o', 'n', 'e', '%', 't', 'w', '1', '\t', '+', '2'],
      u .whiteSpace c = asciiUni .whiteSpace c := by
    intro c hc; exact L.plain _ _ ((by decide : ∀ c ∈ ['/', '!', ' ', 'o', 'n', 'e', '%', 't', 'w', '1', '\t', '+', '2'], Plain c) c hc)
  simp [unify, ws, asciiUni]

/-- A product over two lines. -/
example (L : Lawful u) : Answers u msg w c!"2*\r\n\t3" (.ok c!"6") := by
  have hb : Blank u c!"\n " := blank_ws fun c hc => by
    rcases List.mem_cons.1 hc with rfl | hc
    · exact ws_lf L
    · rw [List.mem_singleton.1 hc]; exact ws_blank L
  have h := C54_times L msg w (.mk [] (.atom (.int 2)) []) (.mk [] (.atom (.int 3)) []) [] c!"\n "
    (intBinary_ok 2 3 blank_nil hb (by decide) (fun h => nomatch h)) blank_nil blank_nil
    (by rw [binaryText, intTerm_text]; exact numeral_wordless 2 _) (intTerm_value 2) (intTerm_value 3)
  rw [binaryText, intTerm_text, intTerm_text] at h
  replace h : Answers u msg w c!"2*\n 3" (.ok c!"6") := h
  refine C90_answers L ?_ (by decide) h (fun _ h => nomatch h)
  rw [C90_unify L]
  have ws : ∀ c ∈ ['2', '*', ' ', '\t', '3'], u .whiteSpace c = asciiUni .whiteSpace c := by
    intro c hc; exact L.plain _ _ ((by decide : ∀ c ∈ ['2', '*', ' ', '\t', '3'], Plain c) c hc)
  simp [unify, ws, asciiUni]

/-- String literals keep their line endings, so they have to be left out. -/
example (L : Lawful u) (f : Str) : parseText u ⟨f, c!"\"\n\"", []⟩ = .ok (.string c!"\n") ∧
    parseText u ⟨f, c!"\"\r\n\"", []⟩ = .ok (.string c!"\r\n") := by
  constructor
  · exact parse_pairs L (x := c!"\"\n\"") (l := [.mk .expression 0 3 c!"\"\n\"" [.mk .expr 0 3 c!"\"\n\"" [
      .mk .term 0 3 c!"\"\n\"" [.mk .node 0 3 c!"\"\n\"" [.mk .data 0 3 c!"\"\n\"" [.mk .String 0 3 c!"\"\n\"" [
      .mk .StringNormal 0 3 c!"\"\n\"" []]]]]]], .mk .EOI 3 3 c!"" []]) (by decide +kernel) (by decide) _ rfl
  · exact parse_pairs L (x := c!"\"\r\n\"") (l := [.mk .expression 0 4 c!"\"\r\n\"" [.mk .expr 0 4 c!"\"\r\n\"" [
      .mk .term 0 4 c!"\"\r\n\"" [.mk .node 0 4 c!"\"\r\n\"" [.mk .data 0 4 c!"\"\r\n\"" [.mk .String 0 4 c!"\"\r\n\"" [
      .mk .StringNormal 0 4 c!"\"\r\n\"" []]]]]]], .mk .EOI 4 4 c!"" []]) (by decide +kernel) (by decide) _ rfl

/-- A space in place of a line ending does matter. -/
example : ¬ Redrawn asciiUni c!"f\n(x)" c!"f (x)" := by
  rw [C90_unify lawful_asciiUni]
  decide

end SM.Props
