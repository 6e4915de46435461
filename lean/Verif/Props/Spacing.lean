import Verif.Props.Trailing
/-
C96: how much white space stands in a gap does not matter.
-/
namespace SM.Props
open SM SM.Peg

variable {u : Uni}

/-! ### Texts that differ in their gaps -/

/-- Contains the end of a line. -/
def Broken (w : Str) : Prop := '\n' ∈ w ∨ '\r' ∈ w

/-- Does not begin with white space. -/
def Blunt (u : Uni) (l : Str) : Prop := ∀ c m, l = c :: m → u .whiteSpace c = false

/-- White space, and behind it comments that end with their lines, in which there is no mark of a block comment. -/
def Hollow (u : Uni) (w : Str) : Prop :=
  ∃ (r : Str) (ks : List LineComment), w = r ++ ks.flatMap LineComment.text ∧ White u r ∧ r ≠ [] ∧ (∀ k ∈ ks, k.Ok u) ∧
    ∀ k ∈ ks, ∀ a b, k.body ≠ a ++ (c!"%%%" ++ b)

/-- Two texts that differ only in what gaps they have where both have one; a line ends in one such gap exactly if
one does in the other.  String literals are the same in both, are on one line and do not contain the mark of a block
comment; there are no other quotation marks. -/
inductive Respaced (u : Uni) : Str → Str → Prop
  | nil : Respaced u [] []
  | char {c : Char} {l l' : Str} : u .whiteSpace c = false → c ≠ '"' → Respaced u l l' → Respaced u (c :: l) (c :: l')
  | gap {w w' l l' : Str} : Hollow u w → Hollow u w' → (Broken w ↔ Broken w') → Blunt u l → Blunt u l' →
      Respaced u l l' → Respaced u (w ++ l) (w' ++ l')
  | text {q l l' : Str} : contentOk q = true → ¬ Broken q → (∀ a b, q ≠ a ++ (c!"%%%" ++ b)) → (∀ r, l ≠ '"' :: r) →
      (∀ r, l' ≠ '"' :: r) → Respaced u l l' → Respaced u (quoted q ++ l) (quoted q ++ l')

/-- White space is a gap. -/
theorem gap_white {w : Str} (h : White u w) (h0 : w ≠ []) : Hollow u w :=
  ⟨w, [], by simp, h, h0, by simp, by simp⟩

theorem Hollow.head {w : Str} (h : Hollow u w) : ∃ c m, w = c :: m ∧ u .whiteSpace c = true := by
  obtain ⟨r, ks, rfl, h1, h2, -⟩ := h
  match r, h2 with
  | c :: r, _ => exact ⟨c, _, rfl, h1 c (List.mem_cons_self ..)⟩

theorem Hollow.ne {w : Str} (h : Hollow u w) : w ≠ [] := by
  obtain ⟨c, m, rfl, -⟩ := h.head
  simp

theorem Broken.left {a : Str} (h : Broken a) (b : Str) : Broken (a ++ b) := by
  rcases h with h | h
  · exact .inl (List.mem_append_left _ h)
  · exact .inr (List.mem_append_left _ h)

theorem Broken.right {b : Str} (h : Broken b) (a : Str) : Broken (a ++ b) := by
  rcases h with h | h
  · exact .inl (List.mem_append_right _ h)
  · exact .inr (List.mem_append_right _ h)

theorem comment_broken {k : LineComment} (h : k.Ok u) : Broken k.text := by
  obtain ⟨-, -, ⟨c, t, e, hc⟩, -⟩ := h
  rcases hc with rfl | rfl
  · exact .inl (by simp [LineComment.text, e])
  · exact .inr (by simp [LineComment.text, e])

/-- A gap within a line is white space. -/
theorem Hollow.white {w : Str} (h : Hollow u w) (hb : ¬ Broken w) : White u w := by
  obtain ⟨r, ks, rfl, h1, -, h2, -⟩ := h
  match ks with
  | [] => simpa using h1
  | k :: ks =>
    refine absurd (Broken.right ?_ r) hb
    exact (comment_broken (h2 k (List.mem_cons_self ..))).left _

/-- A text begins with white space, which ends somewhere. -/
theorem white_span (u : Uni) : ∀ l : Str, ∃ v m, l = v ++ m ∧ White u v ∧ Blunt u m
  | [] => ⟨[], [], rfl, (fun _ h => nomatch h), fun _ _ h => nomatch h⟩
  | c :: l => by
    cases hc : u .whiteSpace c with
    | false => exact ⟨[], c :: l, rfl, (fun _ h => nomatch h), fun d m h => by cases h; exact hc⟩
    | true =>
      obtain ⟨v, m, h1, h2, h3⟩ := white_span u l
      refine ⟨c :: v, m, by rw [h1]; rfl, fun d hd => ?_, h3⟩
      rcases List.mem_cons.1 hd with rfl | hd
      · exact hc
      · exact h2 d hd

theorem Respaced.refl (u : Uni) : ∀ (n : Nat) (l : Str), l.length ≤ n → '"' ∉ l → Respaced u l l := by
  intro n
  induction n with
  | zero => intro l hn _; rw [List.length_eq_zero_iff.1 (Nat.le_zero.1 hn)]; exact .nil
  | succ n ih =>
    intro l hn hq
    obtain ⟨v, m, h1, h2, h3⟩ := white_span u l
    cases v with
    | cons c v =>
      subst h1
      refine .gap (gap_white h2 (by simp)) (gap_white h2 (by simp)) Iff.rfl h3 h3 (ih m ?_ (fun h => hq (List.mem_append_right _ h)))
      simp only [List.length_append, List.length_cons] at hn
      omega
    | nil =>
      rw [List.nil_append] at h1
      subst h1
      match l with
      | [] => exact .nil
      | c :: l =>
        exact .char (h3 c l rfl) (fun h => hq (by rw [h]; exact List.mem_cons_self ..))
          (ih l (by simpa using hn) (fun h => hq (List.mem_cons_of_mem _ h)))

/-- A text whose string literals are closed, on one line each, and do not contain the mark of a block comment. -/
def Orderly (u : Uni) (l : Str) : Prop := Respaced u l l

theorem orderly_plain {l : Str} (h : '"' ∉ l) : Orderly u l := .refl u _ l (Nat.le_refl _) h

/-- A gap ends with white space. -/
theorem Hollow.last {w : Str} (h : Hollow u w) : ∃ x c, w = x ++ [c] ∧ u .whiteSpace c = true := by
  have key : ∀ {r : Str}, White u r → r ≠ [] → ∃ x c, r = x ++ [c] ∧ u .whiteSpace c = true := fun {r} h h0 =>
    ⟨r.dropLast, r.getLast h0, (List.dropLast_append_getLast h0).symm, h _ (List.getLast_mem _)⟩
  obtain ⟨r, ks, rfl, h1, h2, h3, -⟩ := h
  by_cases hk : ks = []
  · subst hk
    simpa using key h1 h2
  · obtain ⟨js, k, rfl⟩ : ∃ js k, ks = js ++ [k] := ⟨ks.dropLast, ks.getLast hk, (List.dropLast_append_getLast hk).symm⟩
    obtain ⟨-, -, ⟨c, t, e, -⟩, k5⟩ := h3 k (by simp)
    obtain ⟨x, d, e1, e2⟩ := key (r := k.after) k5 (by rw [e]; simp)
    exact ⟨r ++ (js.flatMap LineComment.text ++ ('/' :: '/' :: k.kind :: (k.body ++ x))), d, by simp [LineComment.text, e1], e2⟩

/-- A single gap of a text is exchanged. -/
theorem Respaced.around (L : Lawful u) {w w' a b : Str} (ha : Orderly u a) (hw : Hollow u w) (hw' : Hollow u w')
    (hn : Broken w ↔ Broken w') (hb : Blunt u b) (hq : Orderly u b)
    (hl : ∀ x c, a = x ++ [c] → u .whiteSpace c = false) : Respaced u (a ++ (w ++ b)) (a ++ (w' ++ b)) := by
  have key : ∀ {a a' : Str}, Respaced u a a' → (∀ x c, a = x ++ [c] → u .whiteSpace c = false) →
      (∀ x c, a' = x ++ [c] → u .whiteSpace c = false) → Respaced u (a ++ (w ++ b)) (a' ++ (w' ++ b)) := by
    have quote : ∀ {w r : Str}, Hollow u w → ∀ m, w ++ m ≠ '"' :: r := by
      intro w r h m e
      obtain ⟨c, y, rfl, hc⟩ := h.head
      cases e
      rw [L.plain _ _ (by decide)] at hc
      exact absurd hc (by decide)
    have blunt : ∀ {l y : Str}, l ≠ [] → Blunt u l → Blunt u (l ++ y) := by
      intro l y h0 h c m e
      match l, h0 with
      | d :: l, _ => cases e; exact h _ _ rfl
    intro a a' h
    induction h with
    | nil => exact fun _ _ => (Respaced.gap hw hw' hn hb hb hq : Respaced u (w ++ b) (w' ++ b))
    | @char c l l' h1 h2 h3 ih =>
      intro k k'
      exact .char h1 h2 (ih (fun x d e => k (c :: x) d (by rw [e]; rfl)) (fun x d e => k' (c :: x) d (by rw [e]; rfl)))
    | @gap v v' l l' h1 h2 h3 h4 h5 h6 ih =>
      intro k k'
      have full : ∀ {v l : Str}, Hollow u v → (∀ x c, v ++ l = x ++ [c] → u .whiteSpace c = false) → l ≠ [] := by
        rintro v l h k rfl
        obtain ⟨x, c, e, hc⟩ := h.last
        rw [k x c (by rw [e]; simp)] at hc
        cases hc
      rw [List.append_assoc, List.append_assoc]
      exact .gap h1 h2 h3 (blunt (full h1 k) h4) (blunt (full h2 k') h5)
        (ih (fun x d e => k (v ++ x) d (by rw [e, List.append_assoc])) (fun x d e => k' (v' ++ x) d (by rw [e, List.append_assoc])))
    | @text q l l' h1 h2 h3 h4 h5 h6 ih =>
      intro k k'
      rw [List.append_assoc, List.append_assoc]
      refine .text h1 h2 h3 ?_ ?_
        (ih (fun x d e => k (quoted q ++ x) d (by rw [e, List.append_assoc])) (fun x d e => k' (quoted q ++ x) d (by rw [e, List.append_assoc])))
      · intro r e
        match l with
        | [] => exact quote hw b e
        | d :: l => cases e; exact h4 _ rfl
      · intro r e
        match l' with
        | [] => exact quote hw' b e
        | d :: l' => cases e; exact h5 _ rfl
  exact key ha hl hl

namespace Spread

/-- Where two such texts stand next. -/
theorem _root_.SM.Props.Respaced.cases' {l l' : Str} (h : Respaced u l l') :
    (l = [] ∧ l' = []) ∨
    (∃ c m m', l = c :: m ∧ l' = c :: m' ∧ u .whiteSpace c = false ∧ c ≠ '"' ∧ Respaced u m m') ∨
    (∃ w w' m m', l = w ++ m ∧ l' = w' ++ m' ∧ Hollow u w ∧ Hollow u w' ∧ (Broken w ↔ Broken w') ∧
      Blunt u m ∧ Blunt u m' ∧ Respaced u m m') ∨
    ∃ q m m', l = quoted q ++ m ∧ l' = quoted q ++ m' ∧ contentOk q = true ∧ ¬ Broken q ∧
      (∀ a b, q ≠ a ++ (c!"%%%" ++ b)) ∧ (∀ r, m ≠ '"' :: r) ∧ (∀ r, m' ≠ '"' :: r) ∧ Respaced u m m' := by
  cases h with
  | nil => exact .inl ⟨rfl, rfl⟩
  | char h1 h2 h3 => exact .inr (.inl ⟨_, _, _, rfl, rfl, h1, h2, h3⟩)
  | gap h1 h2 h3 h4 h5 h6 => exact .inr (.inr (.inl ⟨_, _, _, _, rfl, rfl, h1, h2, h3, h4, h5, h6⟩))
  | text h1 h2 h3 h4 h5 h6 => exact .inr (.inr (.inr ⟨_, _, _, rfl, rfl, h1, h2, h3, h4, h5, h6⟩))

/-- Two states of the parser in two such texts. -/
structure Even (u : Uni) (s t : St R) : Prop where
  rest : Respaced u s.rest t.rest
  stack : s.stack = t.stack
  queue : gist (fun _ => 0) s.queue = gist (fun _ => 0) t.queue

/-- What the parser read in either text; if `d`, the same. -/
structure Ran (u : Uni) (d : Bool) (s s' t t' : St R) : Prop where
  level : Even u t t'
  read : ∃ x x' : Str, s.rest = x ++ t.rest ∧ s'.rest = x' ++ t'.rest ∧ t.pos = s.pos + x.length ∧
    t'.pos = s'.pos + x'.length ∧ (d = true → x = x')

/-- The same outcome in either text; if `d`, after reading the same. -/
def Twin (u : Uni) (d : Bool) (s s' : St R) : Res R → Res R → Prop
  | .ok t, .ok t' => Ran u d s s' t t'
  | .err t, .err t' => Ran u d s s' t t'
  | _, _ => False

theorem Ran.stay {s s' t t' : St R} (d : Bool) (h : Even u t t') (h1 : t.pos = s.pos) (h2 : t.rest = s.rest)
    (h3 : t'.pos = s'.pos) (h4 : t'.rest = s'.rest) : Ran u d s s' t t' :=
  ⟨h, [], [], by simp [h2], by simp [h4], by simp [h1], by simp [h3], fun _ => rfl⟩

theorem Even.stay {s s' : St R} (d : Bool) (h : Even u s s') : Ran u d s s' s s' := .stay d h rfl rfl rfl rfl

theorem Ran.trans {d e : Bool} {s s' t t' x x' : St R} (h : Ran u d s s' t t') (k : Ran u e t t' x x') :
    Ran u (d && e) s s' x x' := by
  obtain ⟨y, y', h1, h2, h3, h4, h5⟩ := h.read
  obtain ⟨z, z', k1, k2, k3, k4, k5⟩ := k.read
  refine ⟨k.level, y ++ z, y' ++ z', by rw [h1, k1, List.append_assoc], by rw [h2, k2, List.append_assoc],
    by rw [k3, h3, List.length_append]; omega, by rw [k4, h4, List.length_append]; omega, fun hd => ?_⟩
  simp only [Bool.and_eq_true] at hd
  rw [h5 hd.1, k5 hd.2]

theorem Ran.weaken {d e : Bool} {s s' t t' : St R} (h : Ran u d s s' t t') (hd : e = true → d = true) :
    Ran u e s s' t t' := by
  obtain ⟨y, y', h1, h2, h3, h4, h5⟩ := h.read
  exact ⟨h.level, y, y', h1, h2, h3, h4, fun he => h5 (hd he)⟩

theorem Twin.weaken {d e : Bool} {s s' : St R} {r r' : Res R} (h : Twin u d s s' r r') (hd : e = true → d = true) :
    Twin u e s s' r r' := by
  cases r <;> cases r' <;> first | exact h.elim | exact Ran.weaken h hd

theorem Twin.from {d e : Bool} {s s' t t' : St R} {r r' : Res R} (h : Ran u d s s' t t')
    (k : Twin u e t t' r r') : Twin u (d && e) s s' r r' := by
  cases r <;> cases r' <;> first | exact k.elim | exact h.trans k

theorem even_queue {s s' : St R} (h : Even u s s') {q q' : List (Pair R)}
    (hq : gist (fun _ => 0) q = gist (fun _ => 0) q') : Even u { s with queue := q } { s' with queue := q' } :=
  ⟨h.rest, h.stack, hq⟩

theorem Even.ran {s s' : St R} (h : Even u s s') {x x' r r' : Str} (h1 : s.rest = x ++ r) (h2 : s'.rest = x' ++ r')
    (h3 : Respaced u r r') (d : Bool) (hd : d = true → x = x') :
    Ran u d s s' (s.advance x.length r) (s'.advance x'.length r') :=
  ⟨⟨h3, h.stack, h.queue⟩, x, x', h1, h2, rfl, rfl, hd⟩

/-! ### What the grammar looks at -/

/-- The rules left out: those that read white space, which are looked at together with what is around them, those that are
read at the ends of a program only, those behind quotation marks, and those that no text reaches. -/
def astray : R → Bool
  | .program | .SOI | .EOI | .ANY | .WHITE_SPACE | .WHITESPACE | .NEWLINE | .PEEK | .POP | .StringText | .Quotation | .Load | .Save |
    .LeftShift | .RightShift | .NotEqual | .Remainder | .Surd | .Acute | .LogicOr | .LogicAnd | .Ellipsis |
    .LogicXor => true
  | _ => false

/-- The rules that begin with a quotation mark. -/
def marked : R → Bool
  | .StringBlock | .StringNormal => true
  | _ => false

/-- Expressions that read no white space. -/
def crisp : PE R → Bool
  | .call r => dryR r
  | .rule _ e | .atomic _ e | .ifNon e | .seq e | .opt e | .rep e | .restore e => crisp e
  | .alt a b => crisp a && crisp b
  | .cat a b => crisp a && crisp b
  | .look _ _ => true
  | .str _ | .insens _ | .range _ _ | .uni _ => true
  | .soi | .eoi | .any | .push _ | .peek | .pop => false

/-- What may be repeated within white space; if `b`, lines end it. -/
inductive Loose : Bool → PE R → Prop
  | line : Loose true (.seq (.cat (.look false (.call .NEWLINE)) (.call .ANY)))
  | block : Loose false inBlock

/-- Is `Loose`. -/
def isLoose : PE R → Bool
  | .seq (.cat (.look false (.call .NEWLINE)) (.call .ANY)) => true
  | .alt (.call .MultiLineComment) (.seq (.cat (.look false (.str x)) (.call .ANY))) => decide (x = c!"%%%")
  | _ => false

theorem loose_of {e : PE R} (h : isLoose e = true) : ∃ b, Loose b e := by
  unfold isLoose at h
  split at h
  · exact ⟨_, .line⟩
  · rw [of_decide_eq_true h]; exact ⟨_, .block⟩
  · cases h

/-- White space within a line. -/
def nearby : PE R := .rep (.seq (.cat (.look false (.call .NEWLINE)) (.call .WHITESPACE)))

/-- What the grammar looks for behind it. -/
inductive Near : PE R → Prop
  | apply : Near (.call .apply)
  | slice : Near (.call .slice)
  | operand : Near (.alt (.alt (.restore (.call .apply_call)) (.call .Number)) (.call .Symbol))

/-- Such a thing behind white space within a line. -/
def isNear : PE R → Bool
  | .cat (.rep (.seq (.cat (.look false (.call .NEWLINE)) (.call .WHITESPACE)))) (.call .apply) => true
  | .cat (.rep (.seq (.cat (.look false (.call .NEWLINE)) (.call .WHITESPACE)))) (.call .slice) => true
  | .cat (.rep (.seq (.cat (.look false (.call .NEWLINE)) (.call .WHITESPACE))))
      (.alt (.alt (.restore (.call .apply_call)) (.call .Number)) (.call .Symbol)) => true
  | _ => false

theorem near_of {e : PE R} (h : isNear e = true) : ∃ x, e = .cat nearby x ∧ Near x := by
  unfold isNear at h
  split at h
  · exact ⟨_, rfl, .apply⟩
  · exact ⟨_, rfl, .slice⟩
  · exact ⟨_, rfl, .operand⟩
  · cases h

/-- A name with its marks of differentiation. -/
def primed : PE R := .cat (.call .Symbol) (.call .Derivative)

/-- Arguments behind it, on the same line. -/
def isFar : PE R → Bool
  | .cat (.cat (.cat (.call .Symbol) (.call .Derivative))
      (.rep (.seq (.cat (.look false (.call .NEWLINE)) (.call .WHITESPACE))))) (.call .apply) => true
  | _ => false

theorem far_of {e : PE R} (h : isFar e = true) : e = .cat (.cat primed nearby) (.call .apply) := by
  unfold isFar at h
  split at h
  · rfl
  · cases h

/-- Neither white space nor a quotation mark. -/
def sharp (c : Char) : Bool := firm c && decide (c ≠ '"')

/-- Expressions that do not see how long gaps are; unless `k`, only those that comments are made of. -/
def snug (k : Bool) : PE R → Bool
  | .call r => if k then !astray r else decide (r = .COMMENT ∨ r = .MultiLineComment)
  | .rule r e => snug k e && (!texted r || crisp e) && (decide (r ≠ .apply_call) || headed e)
  | .rep e => isLoose e || snug k e
  | .seq e => (k && (isNear e || isFar e)) || snug k e
  | .restore e | .atomic _ e | .ifNon e | .opt e | .look _ e => snug k e
  | .alt a b | .cat a b => snug k a && snug k b
  | .str x => x.all sharp
  | .insens x => x.all fun c => sharp c.toLower
  | .range a b => decide ((a, b) ∈ [('0', '9'), ('1', '9'), ('0', '1'), ('0', '7'), ('a', 'f'), ('A', 'F')])
  | .uni p => decide (p ≠ .whiteSpace)
  | .soi | .eoi | .any | .push _ | .peek | .pop => false

theorem grammar_snug : ∀ (k : Bool) (r : R), snug k (.call r) = true → marked r = false → r ≠ .skip →
    snug k (grammar r) = true := by
  intro k r h1 h2 h3
  cases k
  · have h : r = .COMMENT ∨ r = .MultiLineComment := by simpa [snug] using h1
    rcases h with rfl | rfl <;> decide +kernel
  · have h1 : astray r = false := by simpa [snug] using h1
    cases r <;> first | decide +kernel | exact absurd h1 (by decide) | exact absurd h2 (by decide) | exact absurd rfl h3

theorem grammar_crisp : ∀ r : R, dryR r = true → crisp (grammar r) = true := by
  intro r h
  cases r <;> first | rfl | cases h

/-! ### Single characters -/

theorem strip_gap (L : Lawful u) {x : Str} (hx : x.all sharp = true) {l l' : Str} (h : Respaced u l l') :
    (strip x l = none ∧ strip x l' = none) ∨ ∃ r r', strip x l = some r ∧ strip x l' = some r' ∧ Respaced u r r' := by
  induction x generalizing l l' with
  | nil => exact .inr ⟨l, l', rfl, rfl, h⟩
  | cons c x ih =>
    simp only [List.all_cons, Bool.and_eq_true, sharp, decide_eq_true_eq] at hx
    rcases h.cases' with ⟨rfl, rfl⟩ | ⟨d, m, m', rfl, rfl, -, -, h⟩ |
      ⟨w, w', m, m', rfl, rfl, hw, hw', -⟩ | ⟨q, m, m', rfl, rfl, -⟩
    · exact .inl ⟨rfl, rfl⟩
    · by_cases hcd : c = d
      · simp only [strip, if_pos hcd]
        exact ih (by simpa [sharp] using hx.2) h
      · simp [strip, hcd]
    · have key : ∀ {w m : Str}, Hollow u w → strip (c :: x) (w ++ m) = none := by
        intro w m hw
        obtain ⟨d, w, rfl, hd⟩ := hw.head
        have : c ≠ d := by
          rintro rfl
          rw [firm_ws L hx.1.1] at hd
          cases hd
        simp [strip, this]
      exact .inl ⟨key hw, key hw'⟩
    · exact .inl ⟨by simp [strip, quoted, hx.1.2], by simp [strip, quoted, hx.1.2]⟩

theorem insens_gap (L : Lawful u) {x : Str} (hx : ∀ c ∈ x, u .whiteSpace c.toLower = false ∧ c.toLower ≠ '"') {l l' : Str}
    (h : Respaced u l l') : (stripInsens x l = none ∧ stripInsens x l' = none) ∨
      ∃ z r r', stripInsens x l = some r ∧ stripInsens x l' = some r' ∧ Respaced u r r' ∧ z.length = x.length ∧
        l = z ++ r ∧ l' = z ++ r' := by
  induction x generalizing l l' with
  | nil => exact .inr ⟨[], l, l', rfl, rfl, h, rfl, rfl, rfl⟩
  | cons c x ih =>
    have hc := (hx c (List.mem_cons_self ..)).1
    rcases h.cases' with ⟨rfl, rfl⟩ | ⟨d, m, m', rfl, rfl, -, -, h⟩ |
      ⟨w, w', m, m', rfl, rfl, hw, hw', -⟩ | ⟨q, m, m', rfl, rfl, -⟩
    · exact .inl ⟨rfl, rfl⟩
    · by_cases hcd : c.toLower = d.toLower
      · simp only [stripInsens, if_pos hcd]
        rcases ih (fun c h => hx c (List.mem_cons_of_mem _ h)) h with h | ⟨z, r, r', h1, h2, h3, h4, h5, h6⟩
        · exact .inl h
        · exact .inr ⟨d :: z, r, r', h1, h2, h3, by simp [h4], by simp [h5], by simp [h6]⟩
      · simp [stripInsens, hcd]
    · have key : ∀ {w m : Str}, Hollow u w → stripInsens (c :: x) (w ++ m) = none := by
        intro w m hw
        obtain ⟨d, w, rfl, hd⟩ := hw.head
        have : c.toLower ≠ d.toLower := by
          intro h; rw [h, lower_ws L hd, hd] at hc; cases hc
        simp [stripInsens, this]
      exact .inl ⟨key hw, key hw'⟩
    · have : c.toLower ≠ '"' := (hx c (List.mem_cons_self ..)).2
      exact .inl ⟨by simp [stripInsens, quoted, this], by simp [stripInsens, quoted, this]⟩

theorem twin_str (L : Lawful u) {x : Str} (hx : x.all sharp = true) {s s' : St R} (h : Even u s s')
    (d : Bool) : Twin u d s s' (s.matchStr x) (s'.matchStr x) := by
  unfold St.matchStr
  rcases strip_gap L hx h.rest with ⟨e1, e2⟩ | ⟨r, r', e1, e2, h3⟩ <;> rw [e1, e2]
  · exact h.stay _
  · exact h.ran (strip_app e1) (strip_app e2) h3 d (fun _ => rfl)

theorem twin_char {p : Char → Bool} (hp : ∀ c, p c = true → u .whiteSpace c = false ∧ c ≠ '"') {s s' : St R}
    (h : Even u s s') (d : Bool) : Twin u d s s' (s.charBy p) (s'.charBy p) := by
  unfold St.charBy
  rcases h.rest.cases' with ⟨e1, e2⟩ | ⟨c, m, m', e1, e2, -, -, k⟩ | ⟨w, w', m, m', e1, e2, hw, hw', -⟩ |
    ⟨q, m, m', e1, e2, -⟩
  · rw [e1, e2]; exact h.stay _
  · rw [e1, e2]
    dsimp only
    split
    · exact h.ran (x := [c]) (x' := [c]) e1 e2 k d (fun _ => rfl)
    · exact h.stay _
  · obtain ⟨c, w, rfl, hc⟩ := hw.head
    obtain ⟨c', w', rfl, hc'⟩ := hw'.head
    have key : ∀ {c : Char}, u .whiteSpace c = true → p c = false := by
      intro c hc
      cases hx : p c with
      | false => rfl
      | true => have := (hp c hx).1; rw [hc] at this; cases this
    rw [e1, e2]
    dsimp only [List.cons_append]
    rw [key hc, key hc']
    exact h.stay _
  · have hq : p '"' = false := by
      cases hx : p '"' with
      | false => rfl
      | true => exact absurd rfl (hp _ hx).2
    rw [e1, e2]
    dsimp only [quoted, List.cons_append]
    rw [hq]
    exact h.stay _

/-! ### Within a gap -/

/-- What is repeated reads on through the white space `a` in front of `m`. -/
def Gulps (u : Uni) (e : PE R) (v : Env) (m : Str) (a : Str) : Prop := ∀ (x y : Str) (s : St R), a = x ++ y → y ≠ [] →
  s.rest = y ++ m → ∃ p q, p ≠ [] ∧ y = p ++ q ∧ sem grammar u e v s = .ok (s.advance p.length (q ++ m))

theorem advance_advance (s : St R) (a b : Nat) (l m : Str) : (s.advance a l).advance b m = s.advance (a + b) m := by
  simp [St.advance, Nat.add_assoc]

theorem Gulps.rep {e : PE R} {v : Env} {m a : Str} (h : Gulps u e v m a) : ∀ (n : Nat) (x y : Str) (s : St R),
    y.length ≤ n → a = x ++ y → s.rest = y ++ m →
    sem grammar u (.rep e) v s = sem grammar u (.rep e) v (s.advance y.length m) ∧
    ∀ k, run grammar u k (.rep e) v s ≠ .crash → ∃ k', k' + (if y = [] then 0 else 1) ≤ k ∧
      run grammar u k (.rep e) v s = run grammar u k' (.rep e) v (s.advance y.length m) := by
  intro n
  induction n with
  | zero =>
    intro x y s hn _ hs
    have := List.length_eq_zero_iff.1 (Nat.le_zero.1 hn)
    subst this
    have e : s.advance ([] : Str).length m = s := by rw [show m = s.rest from hs.symm]; rfl
    rw [e]
    exact ⟨rfl, fun k _ => ⟨k, by simp, rfl⟩⟩
  | succ n ih =>
    intro x y s hn ha hs
    by_cases h0 : y = []
    · subst h0
      have e : s.advance ([] : Str).length m = s := by rw [show m = s.rest from hs.symm]; rfl
      rw [e]
      exact ⟨rfl, fun k _ => ⟨k, by simp, rfl⟩⟩
    obtain ⟨p, q, h1, h2, h3⟩ := h x y s ha h0 hs
    have hp : 0 < p.length := List.length_pos_of_ne_nil h1
    have hl : y.length = p.length + q.length := by rw [h2, List.length_append]
    obtain ⟨i1, i2⟩ := ih (x ++ p) q (s.advance p.length (q ++ m)) (by omega) (by rw [ha, h2, List.append_assoc]) rfl
    rw [advance_advance, ← hl] at i1 i2
    refine ⟨by rw [sem_rep, h3]; exact i1, fun k hk => ?_⟩
    cases k with
    | zero => exact absurd rfl hk
    | succ k =>
      have hk' : run grammar u k e v s ≠ .crash := by
        intro h; rw [run, h] at hk; exact hk rfl
      have e1 := run_eq_sem hk'
      rw [h3] at e1
      rw [run, e1] at hk ⊢
      obtain ⟨k', h4, h5⟩ := i2 k hk
      refine ⟨k', ?_, h5⟩
      rw [if_neg h0]
      split at h4 <;> omega

theorem any_ok (s : St R) {c : Char} {l : Str} (h : s.rest = c :: l) :
    s.charBy (fun _ => true) = .ok (s.advance 1 l) := by
  simp [St.charBy, h]

/-- No line ends here. -/
theorem no_line (b : PE R) (v : Env) {s : St R} {c : Char} {l : Str} (hs : s.rest = c :: l) (h1 : c ≠ '\n') (h2 : c ≠ '\r') :
    sem grammar u (.seq (.cat (.look false (.call .NEWLINE)) b)) v s = sem grammar u (.seq b) v s := by
  rcases Trail.line_but (u := u) b v s with ⟨⟨x, m, k1, k2⟩, -⟩ | ⟨-, e⟩
  · obtain ⟨d, n, h3, h4⟩ := Trail.line_end_head k1
    rw [h3, hs] at k2
    cases k2
    rcases h4 with rfl | rfl
    · exact absurd rfl h1
    · exact absurd rfl h2
  · exact e

/-- A line ends here. -/
theorem at_line (b : PE R) (v : Env) {s : St R} {c : Char} {l : Str} (hs : s.rest = c :: l) (h1 : c = '\n' ∨ c = '\r') :
    sem grammar u (.seq (.cat (.look false (.call .NEWLINE)) b)) v s = .err s := by
  rcases Trail.line_but (u := u) b v s with ⟨-, e⟩ | ⟨h, -⟩
  · exact e
  · have := h _ _ hs
    rcases h1 with h1 | h1
    · exact absurd h1 this.1
    · exact absurd h1 this.2

theorem gulps_line (v : Env) {m a : Str} (hb : ¬ Broken a) :
    Gulps u (.seq (.cat (.look false (.call .NEWLINE)) (.call .ANY))) v m a := by
  intro x y s hxy h0 hs
  match y, h0 with
  | c :: y, _ =>
    have h1 : c ≠ '\n' := fun e => hb (.inl (by rw [hxy, e]; simp))
    have h2 : c ≠ '\r' := fun e => hb (.inr (by rw [hxy, e]; simp))
    rw [no_line _ v hs h1 h2, Trail.seq_sem _ _ _ (Trail.any_err v s), any_sem, any_ok s hs]
    exact ⟨[c], y, by simp, rfl, rfl⟩

/-- No mark of a block comment begins in the text, whatever follows it. -/
def Unmarked (w : Str) : Prop := ∀ x y m, w = x ++ y → y ≠ [] → strip c!"%%%" (y ++ m) = none

theorem Unmarked.append {a b : Str} (ha : Unmarked a) (hb : Unmarked b) : Unmarked (a ++ b) := by
  intro x y m h h0
  rcases List.append_eq_append_iff.1 h with ⟨z, h1, h2⟩ | ⟨z, h1, h2⟩
  · exact hb z y m h2 h0
  · by_cases hz : z = []
    · subst hz
      exact hb [] y m (by rw [h2]; simp) h0
    · rw [h2, List.append_assoc]
      exact ha x z _ h1 hz

theorem unmarked_one {c : Char} (h : c ≠ '%') : Unmarked [c] := by
  intro x y m e h0
  match x with
  | [] =>
    have e : [c] = y := e
    subst e
    simp [strip, h.symm]
  | d :: x =>
    simp only [List.cons_append, List.cons.injEq] at e
    have := e.2.symm
    rw [List.append_eq_nil_iff] at this
    exact absurd this.2 h0

theorem unmarked_all : ∀ {w : Str}, '%' ∉ w → Unmarked w
  | [], _ => fun x y m e h0 => by
    have := e.symm
    rw [List.append_eq_nil_iff] at this
    exact absurd this.2 h0
  | c :: w, h => by
    have h1 : c ≠ '%' := fun e => h (by rw [e]; exact List.mem_cons_self ..)
    exact (unmarked_one h1).append (unmarked_all fun k => h (List.mem_cons_of_mem _ k))

theorem unmarked_body {q : Str} (hq : ∀ a b, q ≠ a ++ (c!"%%%" ++ b)) {c : Char} (hc : c ≠ '%') : Unmarked (q ++ [c]) := by
  intro x y m h h0
  cases hs : strip c!"%%%" (y ++ m) with
  | none => rfl
  | some r =>
    have e := strip_app hs
    obtain ⟨z, d, rfl⟩ : ∃ z d, y = z ++ [d] := ⟨y.dropLast, y.getLast h0, (List.dropLast_append_getLast h0).symm⟩
    rw [← List.append_assoc] at h
    obtain ⟨h2, h3⟩ := List.append_inj' h rfl
    cases h3
    match z, e with
    | [], e => simp [hc] at e
    | [_], e => simp [hc] at e
    | [_, _], e => simp [hc] at e
    | a :: b :: d :: z, e =>
      simp only [List.append_assoc, List.cons_append, List.cons.injEq] at e
      obtain ⟨rfl, rfl, rfl, -⟩ := e
      exact absurd h2 (hq x z)

theorem unmarked_text {q : Str} (hq : ∀ a b, q ≠ a ++ (c!"%%%" ++ b)) : Unmarked (quoted q) :=
  Unmarked.append (a := ['"']) (unmarked_one (by decide)) (unmarked_body hq (by decide))

theorem unmarked_white (L : Lawful u) {w : Str} (h : White u w) : Unmarked w := by
  apply unmarked_all
  intro k
  have := h _ k
  rw [firm_ws L (by decide)] at this
  cases this

theorem _root_.SM.Props.Hollow.unmarked (L : Lawful u) {w : Str} (h : Hollow u w) : Unmarked w := by
  obtain ⟨r, ks, rfl, h1, -, h2, h3⟩ := h
  refine (unmarked_white L h1).append ?_
  clear h1
  induction ks with
  | nil => exact unmarked_all (by simp)
  | cons k ks ih =>
    rw [List.flatMap_cons]
    refine Unmarked.append ?_ (ih (fun k h => h2 k (List.mem_cons_of_mem _ h)) (fun k h => h3 k (List.mem_cons_of_mem _ h)))
    obtain ⟨k1, -, ⟨c, t, k2, k3⟩, k4⟩ := h2 k (List.mem_cons_self ..)
    have hc : c ≠ '%' := by rcases k3 with rfl | rfl <;> decide
    have hk : k.kind ≠ '%' := by intro e; rw [e] at k1; exact absurd k1 (by decide)
    have e : k.text = c!"//" ++ ([k.kind] ++ ((k.body ++ [c]) ++ t)) := by simp [LineComment.text, k2]
    rw [e]
    refine (unmarked_all (by decide)).append ((unmarked_one hk).append
      ((unmarked_body (h3 k (List.mem_cons_self ..)) hc).append (unmarked_white L ?_)))
    intro d hd
    exact k4 d (by rw [k2]; exact List.mem_cons_of_mem _ hd)

theorem gulps_block (v : Env) {m a : Str} (h : Unmarked a) : Gulps u inBlock v m a := by
  intro x y s hxy h0 hs
  have hy := h x y m hxy h0
  match y, h0 with
  | c :: y, _ =>
    rw [← hs] at hy
    rw [sem_alt, Trail.block_absent hy]
    simp only [Res.orElse]
    rw [Trail.any_but (sem_str ..), hy, any_ok s hs]
    exact ⟨[c], y, by simp, rfl, rfl⟩

theorem Loose.gulps {b : Bool} {e : PE R} (h : Loose b e) (v : Env) {m a : Str}
    (hb : b = true → ¬ Broken a) (hm : b = false → Unmarked a) : Gulps u e v m a := by
  cases h with
  | line => exact gulps_line v (hb rfl)
  | block => exact gulps_block v (hm rfl)

/-- The part of a gap in front of the first end of a line. -/
theorem line_span : ∀ w : Str, ∃ a b, w = a ++ b ∧ ¬ Broken a ∧ (Broken w ↔ b ≠ []) ∧
    ∀ c m, b = c :: m → c = '\n' ∨ c = '\r'
  | [] => ⟨[], [], rfl, by simp [Broken], by simp [Broken], fun _ _ h => nomatch h⟩
  | c :: w => by
    by_cases hc : c = '\n' ∨ c = '\r'
    · refine ⟨[], c :: w, rfl, by simp [Broken], ⟨fun _ => by simp, fun _ => ?_⟩, fun d m h => by cases h; exact hc⟩
      rcases hc with rfl | rfl
      · exact .inl (List.mem_cons_self ..)
      · exact .inr (List.mem_cons_self ..)
    · obtain ⟨a, b, h1, h2, h3, h4⟩ := line_span w
      refine ⟨c :: a, b, by rw [h1]; rfl, ?_, ?_, h4⟩
      · rintro (h | h) <;> rcases List.mem_cons.1 h with h | h
        · exact hc (.inl h.symm)
        · exact h2 (.inl h)
        · exact hc (.inr h.symm)
        · exact h2 (.inr h)
      · rw [← h3]
        constructor
        · rintro (h | h) <;> rcases List.mem_cons.1 h with h | h
          · exact absurd (.inl h.symm) hc
          · exact .inl h
          · exact absurd (.inr h.symm) hc
          · exact .inr h
        · rintro (h | h)
          · exact .inl (List.mem_cons_of_mem _ h)
          · exact .inr (List.mem_cons_of_mem _ h)

theorem broken_head {d : Str} (hd : d ≠ []) (k : ∀ c m, d = c :: m → c = '\n' ∨ c = '\r') : Broken d := by
  match d, hd with
  | c :: d, _ =>
    rcases k c d rfl with rfl | rfl
    · exact .inl (List.mem_cons_self ..)
    · exact .inr (List.mem_cons_self ..)

/-- The first end of a line in a gap. -/
theorem _root_.SM.Props.Hollow.split {w : Str} (h : Hollow u w) (hb : Broken w) : ∃ a g, w = a ++ g ∧ ¬ Broken a ∧ Hollow u g ∧
    Broken g ∧ ∃ c m, g = c :: m ∧ (c = '\n' ∨ c = '\r') := by
  obtain ⟨r, ks, rfl, h1, h2, h3, h4⟩ := h
  by_cases hr : Broken r
  · obtain ⟨a, d, k1, k2, k3, k4⟩ := line_span r
    have hd := k3.1 hr
    subst k1
    refine ⟨a, d ++ ks.flatMap LineComment.text, by rw [List.append_assoc], k2,
      ⟨d, ks, rfl, fun c hc => h1 c (List.mem_append_right _ hc), hd, h3, h4⟩, (broken_head hd k4).left _, ?_⟩
    match d, hd with
    | c :: d, _ => exact ⟨c, _, rfl, k4 c d rfl⟩
  · match ks with
    | [] => exact absurd (by simpa using hb) hr
    | k :: ks =>
      obtain ⟨k1, k2, ⟨c, t, k3, k4⟩, k5⟩ := h3 k (List.mem_cons_self ..)
      have hd : k.after ≠ [] := by rw [k3]; simp
      have hn : ∀ d m, k.after = d :: m → d = '\n' ∨ d = '\r' := by
        intro d m e
        rw [k3] at e
        cases e
        exact k4
      refine ⟨r ++ ('/' :: '/' :: k.kind :: k.body), k.after ++ ks.flatMap LineComment.text, ?_, ?_,
        ⟨k.after, ks, rfl, k5, hd, fun k h => h3 k (List.mem_cons_of_mem _ h), fun k h => h4 k (List.mem_cons_of_mem _ h)⟩,
        (broken_head hd hn).left _, c, t ++ ks.flatMap LineComment.text, by rw [k3]; rfl, k4⟩
      · simp [LineComment.text]
      · have k6 : k.kind ≠ '\n' ∧ k.kind ≠ '\r' := by
          constructor <;> (intro e; rw [e] at k1; exact absurd k1 (by decide))
        rintro (h | h) <;> rcases List.mem_append.1 h with h | h
        · exact hr (.inl h)
        · simp only [List.mem_cons] at h
          rcases h with h | h | h | h
          · exact absurd h (by decide)
          · exact absurd h (by decide)
          · exact k6.1 h.symm
          · exact (k2 _ h).1 rfl
        · exact hr (.inr h)
        · simp only [List.mem_cons] at h
          rcases h with h | h | h | h
          · exact absurd h (by decide)
          · exact absurd h (by decide)
          · exact k6.2 h.symm
          · exact (k2 _ h).2 rfl

/-- What ends the white space of a line, if not code. -/
def halts : List Char := ['\n', '\r', '/']

/-- The white space in front of the first end of a line or comment in a gap. -/
theorem _root_.SM.Props.Hollow.halt {w : Str} (h : Hollow u w) (hb : Broken w) : ∃ a g, w = a ++ g ∧ White u a ∧ ¬ Broken a ∧
    ∃ c m, g = c :: m ∧ c ∈ halts := by
  obtain ⟨r, ks, rfl, h1, h2, h3, h4⟩ := h
  by_cases hr : Broken r
  · obtain ⟨a, d, k1, k2, k3, k4⟩ := line_span r
    have hd := k3.1 hr
    subst k1
    refine ⟨a, d ++ ks.flatMap LineComment.text, by rw [List.append_assoc], fun c hc => h1 c (List.mem_append_left _ hc), k2, ?_⟩
    match d, hd with
    | c :: d, _ =>
      refine ⟨c, _, rfl, ?_⟩
      rcases k4 c d rfl with rfl | rfl <;> decide
  · match ks with
    | [] => exact absurd (by simpa using hb) hr
    | k :: ks => exact ⟨r, _, rfl, h1, hr, '/', _, rfl, by decide⟩

/-! ### Beside each other -/

theorem Near.fails (L : Lawful u) {x : PE R} (hx : Near x) (v : Env) {s : St R} {c : Char} {m : Str} (hs : s.rest = c :: m)
    (hc : c ∈ halts) : sem grammar u x v s = .err s := by
  have key : ∀ r : R, (∀ c ∈ halts, noStart r c = true) → Fails u v (.call r) (c :: m) :=
    fun r h => fails_plain L (h c hc) m
  have : Fails u v x (c :: m) := by
    cases hx with
    | apply => exact key _ (by decide +kernel)
    | slice => exact key _ (by decide +kernel)
    | operand =>
      exact fails_alt (fails_alt (fails_restore (key _ (by decide +kernel))) (key _ (by decide +kernel)))
        (key _ (by decide +kernel))
  have := this s.pos s.stack s.queue
  rw [← hs] at this
  exact this

theorem nearby_sem (L : Lawful u) (v : Env) {a g : Str} {s : St R} (hs : s.rest = a ++ g) (ha : White u a) (hb : ¬ Broken a)
    (hg : ∀ c m, g = c :: m → u .whiteSpace c = false ∨ c = '\n' ∨ c = '\r') :
    sem grammar u nearby v s = .ok (s.advance a.length g) := by
  have go : Gulps u (.seq (.cat (.look false (.call .NEWLINE)) (.call .WHITESPACE))) v g a := by
    intro x y s hxy h0 hs'
    match y, h0 with
    | c :: y, _ =>
      have h1 : c ≠ '\n' := fun e => hb (.inl (by rw [hxy, e]; simp))
      have h2 : c ≠ '\r' := fun e => hb (.inr (by rw [hxy, e]; simp))
      subst hxy
      have hs : s.rest = c :: (y ++ g) := hs'
      rw [no_line _ v hs h1 h2, Trail.seq_sem _ _ _ (Trail.space_err L v s), Trail.space_sem L v hs, if_pos (ha c (by simp)),
        if_neg (fun h => h2 h.1)]
      exact ⟨[c], y, by simp, rfl, rfl⟩
  rw [nearby, (go.rep _ [] a s (Nat.le_refl _) rfl hs).1, sem_rep]
  have : sem grammar u (.seq (.cat (.look false (.call .NEWLINE)) (.call .WHITESPACE))) v (s.advance a.length g) =
      .err (s.advance a.length g) := by
    match g with
    | [] =>
      rcases Trail.line_but (u := u) (.call .WHITESPACE) v (s.advance a.length []) with ⟨-, e⟩ | ⟨-, e⟩
      · exact e
      · rw [e, sem_seq, Trail.space_nil v rfl]; rfl
    | c :: m =>
      by_cases h : c = '\n' ∨ c = '\r'
      · exact at_line _ v (c := c) (l := m) rfl h
      · have hw : u .whiteSpace c = false := by
          rcases hg c m rfl with k | k
          · exact k
          · exact absurd k h
        rw [no_line _ v (c := c) (l := m) rfl (fun e => h (.inl e)) (fun e => h (.inr e)), sem_seq,
          Trail.space_sem L v (c := c) (l := m) rfl, if_neg (by simp [hw])]
        rfl
  rw [this]

/-! ### Skipping -/

/-- What skipping repeats behind white space. -/
def remark : PE R := .seq (.cat (.call .COMMENT) (.rep (.call .WHITESPACE)))

theorem rep_ne_err (e : PE R) (v : Env) : ∀ (n : Nat) (s t : St R), run grammar u n (.rep e) v s ≠ .err t := by
  intro n
  induction n with
  | zero => intro s t h; cases h
  | succ n ih =>
    intro s t h
    rw [run] at h
    revert h
    generalize run grammar u n e v s = x
    cases x with
    | ok y => exact ih y t
    | err y => exact fun h => nomatch h
    | crash => exact fun h => nomatch h

theorem sem_rep_ne_err (e : PE R) (v : Env) (s t : St R) : sem grammar u (.rep e) v s ≠ .err t := by
  obtain ⟨n, hn⟩ := sem_settles grammar u (.rep e) v s
  rw [← hn n (Nat.le_refl n)]
  exact rep_ne_err e v n s t

theorem skip_sem {v : Env} (hv : v.atomicity = .non) (s : St R) : sem grammar u (.call .skip) v s =
    (sem grammar u (.rep (.call .WHITESPACE)) v s).andThen (sem grammar u (.rep remark) v) := by
  rw [sem_call]
  show sem grammar u body_skip v s = _
  rw [body_skip, sem_ifNon, if_pos hv, sem_seq, sem_cat]
  show (Res.andThen _ (sem grammar u (.rep remark) v)).mapBoth _ _ = _
  cases h : sem grammar u (.rep (.call .WHITESPACE)) v s with
  | ok t =>
    simp only [Res.andThen]
    cases h' : sem grammar u (.rep remark) v t with
    | ok y => rfl
    | err y => exact absurd h' (sem_rep_ne_err _ _ _ _)
    | crash => rfl
  | err t => exact absurd h (sem_rep_ne_err _ _ _ _)
  | crash => rfl

theorem eats_nil_sem {e : PE R} {v : Env} {x rest : Str} (h : Eats u v e x rest Nil) {s : St R} (hs : s.rest = x ++ rest) :
    sem grammar u e v s = .ok (s.advance x.length rest) := by
  obtain ⟨q, hq, k⟩ := h s.pos s.stack s.queue
  have hq : q = [] := hq
  subst hq
  rw [← hs, List.append_nil] at k
  exact k

theorem blunt_white (L : Lawful u) (v : Env) {s : St R} (hs : Blunt u s.rest) :
    sem grammar u (.rep (.call .WHITESPACE)) v s = .ok s := by
  rw [sem_rep]
  cases h : s.rest with
  | nil => rw [Trail.space_nil v h]
  | cons c l => rw [Trail.space_sem L v h, if_neg (by simp [hs c l h])]

theorem blunt_remarks (L : Lawful u) {l : Str} (hl : Blunt u l) (ks : List LineComment) :
    Blunt u (ks.flatMap LineComment.text ++ l) := by
  cases ks with
  | nil => exact hl
  | cons k ks =>
    intro c m h
    simp only [List.flatMap_cons, LineComment.text, List.cons_append, List.cons.injEq] at h
    rw [← h.1]
    exact firm_ws L (by decide)

theorem blunt_noWs {l : Str} (h : Blunt u l) : NoWs u l := by
  intro c m e hc
  have hc : u .whiteSpace c = true := hc
  rw [h c m e] at hc
  cases hc

/-- Comments on lines of their own are skipped. -/
theorem remarks_sem (L : Lawful u) (v : Env) {l : Str} (hl : Blunt u l) : ∀ (ks : List LineComment) (s : St R),
    (∀ k ∈ ks, k.Ok u) → s.rest = ks.flatMap LineComment.text ++ l →
    sem grammar u (.rep remark) v s =
      sem grammar u (.rep remark) v (s.advance (ks.flatMap LineComment.text).length l) := by
  intro ks
  induction ks with
  | nil =>
    intro s _ hs
    have : s.advance (([] : List LineComment).flatMap LineComment.text).length l = s := by
      have hs : s.rest = l := hs
      rw [← hs]; rfl
    rw [this]
  | cons k ks ih =>
    intro s hk hs
    obtain ⟨hk1, hk2, ⟨c, t, hk3, hk4⟩, hk5⟩ := hk k (List.mem_cons_self ..)
    have hx : Eats u v remark k.text (ks.flatMap LineComment.text ++ l) Nil := by
      apply eats_seq
      have e : k.text = ('/' :: '/' :: k.kind :: k.body) ++ k.after := by simp [LineComment.text]
      rw [e]
      refine (eats_cat ?_ (eats_ws_run L (blunt_noWs (blunt_remarks L hl ks)) _ k.after (Nat.le_refl _) hk5)).imp
        fun q => then_nil
      rw [hk3]
      exact eats_comment hk1 hk2 hk4
    rw [sem_rep, eats_nil_sem hx (by rw [hs, List.flatMap_cons, List.append_assoc])]
    dsimp only
    rw [ih _ (fun k h => hk k (List.mem_cons_of_mem _ h)) rfl, advance_advance, List.flatMap_cons, List.length_append]

/-- A gap is skipped. -/
theorem skip_gap (L : Lawful u) {v : Env} (hv : v.atomicity = .non) {w l : Str} (hw : Hollow u w) (hl : Blunt u l) {s : St R}
    (hs : s.rest = w ++ l) :
    sem grammar u (.call .skip) v s = sem grammar u (.call .skip) v (s.advance w.length l) := by
  obtain ⟨r, ks, rfl, h1, -, h2, -⟩ := hw
  rw [skip_sem hv, skip_sem hv, blunt_white L v (s := s.advance _ l) hl,
    eats_nil_sem (eats_ws_run L (blunt_noWs (blunt_remarks L hl ks)) _ r (Nat.le_refl _) h1)
      (by rw [hs, List.append_assoc])]
  simp only [Res.andThen]
  rw [remarks_sem L v hl ks _ h2 rfl, advance_advance, List.length_append]

/-- Where there is no white space, a comment may be skipped, and what is behind it. -/
theorem skip_blunt (L : Lawful u) {v : Env} (hv : v.atomicity = .non) {s : St R} (hs : Blunt u s.rest) :
    sem grammar u (.call .skip) v s = match sem grammar u (.call .COMMENT) v s with
      | .ok t => sem grammar u (.call .skip) v t
      | .err _ => .ok s
      | .crash => .crash := by
  rw [skip_sem hv, blunt_white L v hs]
  simp only [Res.andThen]
  rw [sem_rep, remark, sem_seq, sem_cat]
  cases h : sem grammar u (.call .COMMENT) v s with
  | ok t =>
    simp only [Res.andThen]
    rw [skip_sem hv]
    cases h' : sem grammar u (.rep (.call .WHITESPACE)) v t with
    | ok y => rfl
    | err y => exact absurd h' (sem_rep_ne_err _ _ _ _)
    | crash => rfl
  | err t =>
    rw [sem_call_err u _ (by decide) (by decide) h]
    rfl
  | crash => rfl

theorem comment_shorter {v : Env} {s t : St R} (h : sem grammar u (.call .COMMENT) v s = .ok t) :
    t.rest.length < s.rest.length := by
  have k := run_grammar_total u v .COMMENT s _ (by decide) (Nat.le_refl _)
  rw [run_eq_sem_of_fuel u v .COMMENT s _ (by decide) (Nat.le_refl _), h] at k
  exact k.2.1 rfl

theorem Respaced.blunt {l l' : Str} (L : Lawful u) (h : Respaced u l l') : (Blunt u l ∧ Blunt u l') ∨
    ∃ w w' m m', l = w ++ m ∧ l' = w' ++ m' ∧ Hollow u w ∧ Hollow u w' ∧ (Broken w ↔ Broken w') ∧
      Blunt u m ∧ Blunt u m' ∧ Respaced u m m' := by
  rcases h.cases' with ⟨rfl, rfl⟩ | ⟨c, m, m', rfl, rfl, hc, -⟩ | h | ⟨q, m, m', rfl, rfl, -⟩
  · exact .inl ⟨(fun _ _ h => nomatch h), fun _ _ h => nomatch h⟩
  · exact .inl ⟨fun _ _ h => (by cases h; exact hc), fun _ _ h => (by cases h; exact hc)⟩
  · exact .inr h
  · have wq : u .whiteSpace '"' = false := firm_ws L (by decide)
    exact .inl ⟨fun _ _ h => (by cases h; exact wq), fun _ _ h => (by cases h; exact wq)⟩

theorem twin_skip (L : Lawful u) (hC : ∀ (v : Env) (s s' : St R), Even u s s' →
      Twin u false s s' (sem grammar u (.call .COMMENT) v s) (sem grammar u (.call .COMMENT) v s')) (v : Env) :
    ∀ (n : Nat) (s s' : St R), s.rest.length ≤ n → Even u s s' →
      Twin u false s s' (sem grammar u (.call .skip) v s) (sem grammar u (.call .skip) v s') := by
  by_cases hv : v.atomicity = .non
  rotate_left
  · intro n s s' _ hs
    have key : ∀ s : St R, sem grammar u (.call .skip) v s = .ok s := by
      intro s
      rw [sem_call]
      show sem grammar u body_skip v s = _
      rw [body_skip, sem_ifNon, if_neg hv]
    rw [key, key]
    exact hs.stay _
  intro n
  induction n with
  | zero =>
    intro s s' hn hs
    have h0 := List.length_eq_zero_iff.1 (Nat.le_zero.1 hn)
    rcases hs.rest.cases' with ⟨e1, e2⟩ | ⟨c, m, m', e1, -⟩ | ⟨w, w', m, m', e1, -, hw, -⟩ | ⟨q, m, m', e1, -⟩
    · have key : ∀ s : St R, s.rest = [] → sem grammar u (.call .skip) v s = .ok s := by
        intro s hs
        rw [skip_blunt L hv (by rw [hs]; exact fun _ _ h => nomatch h)]
        cases h : sem grammar u (.call .COMMENT) v s with
        | ok t => have := comment_shorter h; rw [hs] at this; exact absurd this (Nat.not_lt_zero _)
        | err t => rfl
        | crash => exact absurd h (sem_total u .COMMENT (by decide) v s)
      rw [key s e1, key s' e2]
      exact hs.stay _
    · rw [e1] at h0; cases h0
    · rw [e1] at h0; exact absurd (List.append_eq_nil_iff.1 h0).1 hw.ne
    · rw [e1] at h0; simp [quoted] at h0
  | succ n ih =>
    intro s s' hn hs
    rcases Respaced.blunt L hs.rest with ⟨h1, h2⟩ | ⟨w, w', m, m', e1, e2, hw, hw', -, hm, hm', hr⟩
    · rw [skip_blunt L hv h1, skip_blunt L hv h2]
      have h := hC v s s' hs
      revert h
      cases hx : sem grammar u (.call .COMMENT) v s <;> cases hx' : sem grammar u (.call .COMMENT) v s' <;> intro h <;>
        first | exact h.elim | skip
      · have := comment_shorter hx
        exact (Twin.from h (ih _ _ (by omega) h.level)).weaken (fun h => nomatch h)
      · exact hs.stay _
    · rw [skip_gap L hv hw hm e1, skip_gap L hv hw' hm' e2]
      have key := hs.ran e1 e2 hr false (fun h => nomatch h)
      have hl : m.length < s.rest.length := by
        have := List.length_pos_of_ne_nil hw.ne
        rw [e1, List.length_append]; omega
      exact (Twin.from key (ih _ _ (by show m.length ≤ n; omega) key.level)).weaken (fun h => nomatch h)

/-- Where two such texts have code next on the line, or not. -/
theorem near_cases (L : Lawful u) {l l' : Str} (h : Respaced u l l') :
    (∃ a g a' g', l = a ++ g ∧ l' = a' ++ g' ∧ White u a ∧ White u a' ∧ ¬ Broken a ∧ ¬ Broken a' ∧
      (∃ c m, g = c :: m ∧ c ∈ halts) ∧ ∃ c m, g' = c :: m ∧ c ∈ halts) ∨
    ∃ a g a' g', l = a ++ g ∧ l' = a' ++ g' ∧ White u a ∧ White u a' ∧ ¬ Broken a ∧ ¬ Broken a' ∧
      Blunt u g ∧ Blunt u g' ∧ Respaced u g g' := by
  rcases Respaced.blunt L h with ⟨h1, h2⟩ | ⟨w, w', m, m', e1, e2, hw, hw', hn, hm, hm', hr⟩
  · exact .inr ⟨[], _, [], _, rfl, rfl, (fun _ h => nomatch h), (fun _ h => nomatch h), by simp [Broken],
      by simp [Broken], h1, h2, h⟩
  · by_cases hbw : Broken w
    · obtain ⟨a, g, k1, k2, k3, c, y, k4, k5⟩ := hw.halt hbw
      obtain ⟨a', g', k1', k2', k3', c', y', k4', k5'⟩ := hw'.halt (hn.1 hbw)
      exact .inl ⟨a, g ++ m, a', g' ++ m', by rw [e1, k1, List.append_assoc], by rw [e2, k1', List.append_assoc], k2, k2',
        k3, k3', ⟨c, y ++ m, by rw [k4]; rfl, k5⟩, ⟨c', y' ++ m', by rw [k4']; rfl, k5'⟩⟩
    · have hbw' : ¬ Broken w' := fun h => hbw (hn.2 h)
      exact .inr ⟨w, m, w', m', e1, e2, hw.white hbw, hw'.white hbw', hbw, hbw', hm, hm', hr⟩

theorem nearby_halts (L : Lawful u) {x : PE R} (hx : Near x) (v : Env) {a g : Str} {s : St R} (hs : s.rest = a ++ g)
    (ha : White u a) (hb : ¬ Broken a) (hg : ∃ c m, g = c :: m ∧ c ∈ halts) :
    (sem grammar u nearby v s).andThen (sem grammar u x v) = .err (s.advance a.length g) := by
  obtain ⟨c, m, rfl, hc⟩ := hg
  rw [nearby_sem L v hs ha hb ?_]
  · simp only [Res.andThen]
    exact hx.fails L v (s := s.advance a.length (c :: m)) rfl hc
  · intro d y h
    cases h
    simp only [halts, List.mem_cons, List.not_mem_nil, or_false] at hc
    rcases hc with rfl | rfl | rfl
    · exact .inr (.inl rfl)
    · exact .inr (.inr rfl)
    · exact .inl (firm_ws L (by decide))

/-- What is looked for behind white space within a line is found alike. -/
def Ends (u : Uni) (s s' : St R) : Res R → Res R → Prop
  | .ok t, .ok t' => Ran u false s s' t t'
  | .err t, .err t' => t.stack = t'.stack
  | _, _ => False

theorem Ends.from {d : Bool} {s s' t t' : St R} (h : Ran u d s s' t t') {y y' : Res R} (k : Ends u t t' y y') :
    Ends u s s' y y' := by
  cases y <;> cases y' <;> first | exact k.elim | skip
  · exact Ran.weaken (Ran.trans h k) (fun h => nomatch h)
  · exact k

/-! ### Quotation marks -/

theorem quote_absent (v : Env) {s : St R} (h : strip ['"'] s.rest = none) : sem grammar u (.call .Quotation) v s = .err s := by
  rw [sem_call]
  show sem grammar u (.rule .Quotation (.atomic .atomic (.str ['"']))) v s = _
  rw [sem_rule]
  split <;> simp [sem_atomic, sem_str, St.matchStr, h, Res.mapBoth]

theorem marked_absent {r : R} (hr : marked r = true) (v : Env) {s : St R} (h : strip ['"'] s.rest = none) :
    sem grammar u (.call r) v s = .err s := by
  have hq : ∀ (v : Env) (q : List (Pair R)), sem grammar u (.call .Quotation) v { s with queue := q } = .err { s with queue := q } :=
    fun v q => quote_absent v h
  have hq' : ∀ v : Env, sem grammar u (.call .Quotation) v s = .err s := fun v => quote_absent v h
  rw [sem_call]
  cases r <;> first | (exact absurd hr (by decide)) | skip
  · show sem grammar u body_StringNormal v s = _
    rw [body_StringNormal, sem_rule]
    split
    · rw [sem_atomic, sem_seq, sem_cat, sem_cat, hq]; rfl
    · rw [sem_atomic, sem_seq, sem_cat, sem_cat, hq']; rfl
  · show sem grammar u body_StringBlock v s = _
    rw [body_StringBlock, sem_atomic, sem_rule]
    split
    · simp only [sem_seq, sem_cat, hq]; rfl
    · simp only [sem_seq, sem_cat, hq']; rfl

theorem mute_StringNormal {v : Env} (hv : v.emits = false) {q : Str} (hq : contentOk q = true) (rest : Str) :
    Eats u v (.call .StringNormal) (quoted q) rest Nil := by
  have hv' := emits_atomic' v
  refine eats_call (eats_rule_mute hv (eats_atomic (eats_seq ?_)))
  have e : quoted q = (['"'] ++ q) ++ ['"'] := by simp [quoted]
  rw [e]
  refine (eats_cat (eats_cat (eats_quote_mute hv' _) (eats_content hv' rest _ q (Nat.le_refl _) hq))
    (eats_quote_mute hv' rest)).imp ?_
  rintro q ⟨a, b, rfl, ha, hb⟩
  rw [show a = [] from then_nil ha, show b = [] from hb]
  rfl

theorem mute_StringBlock {v : Env} (hv : v.silent = true) {q rest : Str} (hq : contentOk q = true)
    (hr : ∀ r, rest ≠ '"' :: r) : Fails u v (.call .StringBlock) (quoted q ++ rest) := by
  refine fails_call (fails_atomic (fails_rule (fails_seq ?_)))
  refine breaks_cat (breaks_cat (breaks_cat (breaks_cat (breaks_cat (breaks_cat (Fails.breaks (fails_three ?_ ?_)))))))
  · simp [Env.emits, hv]
  · match q, rest with
    | [], [] => rfl
    | [], c :: rest =>
      have : '"' ≠ c := fun e => hr rest (by rw [e])
      simp [strip, quoted, this]
    | c :: q, rest =>
      have : '"' ≠ c := by rintro rfl; simp [contentOk] at hq
      simp [strip, quoted, this]

theorem twin_marked (L : Lawful u) {r : R} (hr : marked r = true) (v : Env) {s s' : St R} (hs : Even u s s') :
    Twin u false s s' (sem grammar u (.call r) v s) (sem grammar u (.call r) v s') := by
  rcases hs.rest.cases' with ⟨e1, e2⟩ | ⟨c, m, m', e1, e2, -, h0, -⟩ | ⟨w, w', m, m', e1, e2, hw, hw', -⟩ |
    ⟨q, m, m', e1, e2, h1, -, -, h2, h3, h4⟩
  · rw [marked_absent hr v (by rw [e1]; rfl), marked_absent hr v (by rw [e2]; rfl)]
    exact hs.stay _
  · have h0 : '"' ≠ c := fun e => h0 e.symm
    rw [marked_absent hr v (by rw [e1]; simp [strip, h0]), marked_absent hr v (by rw [e2]; simp [strip, h0])]
    exact hs.stay _
  · have key : ∀ {w m : Str}, Hollow u w → strip ['"'] (w ++ m) = none := by
      intro w m hw
      obtain ⟨c, w, rfl, hc⟩ := hw.head
      have : '"' ≠ c := by
        rintro rfl
        rw [firm_ws L (by decide)] at hc
        cases hc
      simp [strip, this]
    rw [marked_absent hr v (by rw [e1]; exact key hw), marked_absent hr v (by rw [e2]; exact key hw')]
    exact hs.stay _
  · have hr : r = .StringBlock ∨ r = .StringNormal := by
      cases r <;> first | exact absurd hr (by decide) | exact .inl rfl | exact .inr rfl
    rcases hr with rfl | rfl
    · have key : ∀ {m : Str}, (∀ r, m ≠ '"' :: r) → Fails u v (.call .StringBlock) (quoted q ++ m) := by
        intro m hm
        cases hv : v.silent with
        | true => exact mute_StringBlock hv h1 hm
        | false => exact fails_StringBlock hv h1 hm
      have k1 : sem grammar u (.call .StringBlock) v s = .err s := by
        have := key h2 s.pos s.stack s.queue
        rw [← e1] at this
        exact this
      have k2 : sem grammar u (.call .StringBlock) v s' = .err s' := by
        have := key h3 s'.pos s'.stack s'.queue
        rw [← e2] at this
        exact this
      rw [k1, k2]
      exact hs.stay _
    · cases hv : v.emits with
      | true =>
        obtain ⟨z, ⟨a, b, l, rfl, hl⟩, k1⟩ := eats_StringNormal (u := u) hv h1 m s.pos s.stack s.queue
        obtain ⟨z', ⟨a', b', l', rfl, hl'⟩, k2⟩ := eats_StringNormal (u := u) hv h1 m' s'.pos s'.stack s'.queue
        rw [← e1] at k1
        rw [← e2] at k2
        have hl : l = [] := hl
        have hl' : l' = [] := hl'
        subst hl hl'
        have k1 : sem grammar u (.call .StringNormal) v s = _ := k1
        have k2 : sem grammar u (.call .StringNormal) v s' = _ := k2
        rw [k1, k2]
        refine ⟨⟨h4, hs.stack, ?_⟩, quoted q, quoted q, e1, e2, rfl, rfl, fun _ => rfl⟩
        show gist _ (s.queue ++ _) = gist _ (s'.queue ++ _)
        rw [gist_append, gist_append, hs.queue]
        congr 1
      | false =>
        obtain ⟨z, hz, k1⟩ := mute_StringNormal (u := u) hv h1 m s.pos s.stack s.queue
        obtain ⟨z', hz', k2⟩ := mute_StringNormal (u := u) hv h1 m' s'.pos s'.stack s'.queue
        rw [← e1] at k1
        rw [← e2] at k2
        have hz : z = [] := hz
        have hz' : z' = [] := hz'
        subst hz hz'
        have k1 : sem grammar u (.call .StringNormal) v s = _ := k1
        have k2 : sem grammar u (.call .StringNormal) v s' = _ := k2
        rw [k1, k2]
        refine ⟨⟨h4, hs.stack, ?_⟩, quoted q, quoted q, e1, e2, rfl, rfl, fun _ => rfl⟩
        show gist _ (s.queue ++ []) = gist _ (s'.queue ++ [])
        rw [List.append_nil, List.append_nil]
        exact hs.queue

/-! ### The parser does not see how much white space there is -/

theorem twin_sem (L : Lawful u) {k : Bool} (hk : k = true → ∀ (v : Env) (s s' : St R), Even u s s' →
      Twin u false s s' (sem grammar u (.call .skip) v s) (sem grammar u (.call .skip) v s')) :
    ∀ (n : Nat) (e : PE R) (v : Env) (s s' : St R), snug k e = true →
    Even u s s' → run grammar u n e v s ≠ .crash →
    Twin u (crisp e) s s' (run grammar u n e v s) (sem grammar u e v s') := by
  intro n
  induction n with
  | zero => intro e v s s' _ _ h; exact absurd rfl h
  | succ n ih =>
    intro e v s s' hb hs hc
    cases e with
    | call r =>
      by_cases hm : marked r = true
      · rw [run_eq_sem hc]
        exact (twin_marked L hm v hs).weaken (fun hd => by
          cases r <;> first | exact absurd hm (by decide) | exact absurd hd (by decide))
      by_cases hsk : r = .skip
      · subst hsk
        rw [run_eq_sem hc]
        have : k = true := by
          cases k
          · exact absurd hb (by decide)
          · rfl
        exact (hk this v s s' hs).weaken (fun hd => absurd hd (by decide))
      · rw [run] at hc ⊢
        rw [sem_call]
        exact (ih _ v s s' (grammar_snug k r hb (by simpa using hm) hsk) hs hc).weaken (grammar_crisp r)
    | rule r e =>
      simp only [snug, Bool.and_eq_true, Bool.or_eq_true, Bool.not_eq_true'] at hb
      obtain ⟨⟨hb1, hb2⟩, hb3⟩ := hb
      rw [run] at hc ⊢
      rw [sem_rule]
      split at hc <;> rename_i hv
      · rw [if_pos hv, if_pos hv]
        have hc' : run grammar u n e v { s with queue := [] } ≠ .crash := fun h => hc (by rw [h]; rfl)
        have h := ih e v { s with queue := [] } { s' with queue := [] } hb1 (even_queue hs rfl) hc'
        have hh : ∀ t, run grammar u n e v { s with queue := [] } = .ok t → headed e = true →
            ∃ p m, t.queue = p :: m ∧ p.rule = .Symbol := by
          intro t ht hd
          exact headed_first (u := u) hd hv (s := { s with queue := [] }) rfl (by rw [← run_eq_sem hc', ht])
        revert h hh
        generalize run grammar u n e v { s with queue := [] } = x
        generalize sem grammar u e v { s' with queue := [] } = x'
        intro h hh
        cases x <;> cases x' <;> first | exact h.elim | skip
        · rename_i t t'
          refine ⟨even_queue h.level ?_, h.read⟩
          rw [gist_append, gist_append, hs.queue]
          congr 1
          obtain ⟨y, y', e1, e2, e3, e4, e5⟩ := h.read
          dsimp only at e1 e2 e3 e4
          refine gist_mk rfl rfl ?_ h.level.queue ?_
          · intro ht
            have : y = y' := by
              rcases hb2 with hb2 | hb2
              · rw [ht] at hb2; cases hb2
              · exact e5 hb2
            simp only [St.between, e1, e2, e3, e4, Nat.add_sub_cancel_left, this, List.take_left']
          · intro hr
            rcases hb3 with hb3 | hb3
            · exact absurd hr (of_decide_eq_true hb3)
            · exact hh t rfl hb3
        · exact ⟨even_queue h.level hs.queue, h.read⟩
      · rw [if_neg hv, if_neg hv]
        exact ih e v s s' hb1 hs hc
    | atomic a e =>
      rw [run] at hc ⊢
      rw [sem_atomic]
      exact ih e _ s s' hb hs hc
    | ifNon e =>
      rw [run] at hc ⊢
      rw [sem_ifNon]
      split at hc <;> rename_i hv
      · rw [if_pos hv, if_pos hv]; exact ih e v s s' hb hs hc
      · rw [if_neg hv, if_neg hv]; exact hs.stay _
    | seq e =>
      have step : ∀ (x : PE R) (t t' : St R), Near x → snug k x = true → Even u t t' →
          (∀ z, sem grammar u nearby v t = .ok z → run grammar u n x v z ≠ .crash) →
          Ends u t t' ((sem grammar u nearby v t).andThen (sem grammar u x v))
            ((sem grammar u nearby v t').andThen (sem grammar u x v)) := by
        intro x t t' hx hsx ht hrun
        rcases near_cases L ht.rest with ⟨a, g, a', g', e1, e2, k1, k1', k2, k2', k3, k3'⟩ |
          ⟨a, g, a', g', e1, e2, k1, k1', k2, k2', k3, k3', hr⟩
        · rw [nearby_halts L hx v e1 k1 k2 k3, nearby_halts L hx v e2 k1' k2' k3']
          exact ht.stack
        · have r1 := nearby_sem L v e1 k1 k2 (fun c m h => .inl (k3 c m h))
          have r2 := nearby_sem L v e2 k1' k2' (fun c m h => .inl (k3' c m h))
          have key := ht.ran e1 e2 hr false (fun h => nomatch h)
          have hx' := hrun _ r1
          have h := ih x v _ _ hsx key.level hx'
          rw [run_eq_sem hx'] at h
          rw [r1, r2]
          simp only [Res.andThen]
          revert h
          generalize sem grammar u x v (t.advance a.length g) = y
          generalize sem grammar u x v (t'.advance a'.length g') = y'
          intro h
          cases y <;> cases y' <;> first | exact h.elim | skip
          · exact Ran.weaken (key.trans h) (fun h => nomatch h)
          · exact h.level.stack
      by_cases hq : (k && (isNear e || isFar e)) = true
      · simp only [Bool.and_eq_true, Bool.or_eq_true] at hq
        obtain ⟨rfl, hq⟩ := hq
        have done : ∀ {y y' : Res R}, Ends u s s' y y' → Twin u false s s' (y.mapBoth id fun t => { s with stack := t.stack })
            (y'.mapBoth id fun t => { s' with stack := t.stack }) := by
          intro y y' h
          cases y <;> cases y' <;> first | exact h.elim | skip
          · exact h
          · exact .stay _ ⟨hs.rest, h, hs.queue⟩ rfl rfl rfl rfl
        rcases hq with hq | hq
        · obtain ⟨x, rfl, hx⟩ := near_of hq
          have hcr : crisp (.seq (.cat nearby x)) = false := rfl
          rw [hcr, run_eq_sem hc, sem_seq, sem_seq, sem_cat, sem_cat]
          refine done (step x s s' hx (by cases hx <;> rfl) hs ?_)
          intro z hz
          cases n with
          | zero => exact absurd rfl hc
          | succ j =>
            have h1 : run grammar u (j + 1) (.cat nearby x) v s ≠ .crash := by
              intro e; rw [run, e] at hc; exact hc rfl
            rw [run] at h1
            have h2 : run grammar u j nearby v s ≠ .crash := by
              intro e; rw [e] at h1; exact h1 rfl
            rw [run_eq_sem h2, hz] at h1
            have h3 : run grammar u j x v z ≠ .crash := h1
            rw [run_mono' (Nat.le_succ j) h3]; exact h3
        · have := far_of hq
          subst this
          have hcr : crisp (.seq (.cat (.cat primed nearby) (.call .apply))) = false := by decide
          rw [hcr, run_eq_sem hc, sem_seq, sem_seq, sem_cat, sem_cat, sem_cat, sem_cat]
          match n, hc with
          | 0, hc => exact absurd rfl hc
          | 1, hc =>
            exact absurd rfl hc
          | j + 2, hc =>
            have h1 : run grammar u (j + 2) (.cat (.cat primed nearby) (.call .apply)) v s ≠ .crash := by
              intro e; rw [run, e] at hc; exact hc rfl
            rw [run, run] at h1
            have h2 : run grammar u j primed v s ≠ .crash := by
              intro e; rw [e] at h1; exact h1 rfl
            have h3 : run grammar u (j + 2) primed v s ≠ .crash := by
              rw [run_mono' (by omega : j ≤ j + 2) h2]; exact h2
            have h := ih primed v s s' (by decide) hs h3
            rw [run_eq_sem h3] at h
            rw [run_eq_sem h2] at h1
            revert h h1
            generalize sem grammar u primed v s = y
            generalize sem grammar u primed v s' = y'
            intro h1 h
            refine done ?_
            cases y <;> cases y' <;> first | exact h.elim | skip
            · rename_i t t'
              have k := step (.call .apply) t t' .apply rfl h.level ?_
              · exact Ends.from h k
              · intro z hz
                have h4 : run grammar u j nearby v t ≠ .crash := by
                  intro e; simp only [Res.andThen, e] at h1; exact h1 rfl
                have h5 : run grammar u (j + 1) (.call .apply) v z ≠ .crash := by
                  have e := run_eq_sem h4
                  rw [hz] at e
                  simp only [Res.andThen, e] at h1
                  exact h1
                rw [run_mono' (Nat.le_succ _) h5]; exact h5
            · exact h.level.stack
      have hb : snug k e = true := by
        simp only [snug, Bool.or_eq_true] at hb
        rcases hb with hb | hb
        · exact absurd hb hq
        · exact hb
      rw [run] at hc ⊢
      rw [sem_seq]
      have h := ih e v s s' hb hs (fun h => hc (by rw [h]; rfl))
      revert h
      generalize run grammar u n e v s = x
      generalize sem grammar u e v s' = x'
      intro h
      cases x <;> cases x' <;> first | exact h.elim | skip
      · exact h
      · exact .stay _ ⟨hs.rest, h.level.stack, hs.queue⟩ rfl rfl rfl rfl
    | opt e =>
      rw [run] at hc ⊢
      rw [sem_opt]
      have h := ih e v s s' hb hs (fun h => hc (by rw [h]; rfl))
      revert h
      generalize run grammar u n e v s = x
      generalize sem grammar u e v s' = x'
      intro h
      cases x <;> cases x' <;> first | exact h.elim | exact h
    | rep e =>
      by_cases hq : isLoose e = true
      · obtain ⟨b, hl⟩ := loose_of hq
        have hcr : crisp (.rep e) = false := by cases hl <;> rfl
        rw [hcr]
        rcases hs.rest.cases' with h0 | h0 | ⟨w, w', m, m', e1, e2, hw, hw', hn, hm, hm', hr⟩ |
          ⟨q, m, m', e1, e2, h1, h2, h3, -, -, hr⟩
        rotate_left 2
        · -- in a gap
          by_cases hbr : b = true ∧ Broken w
          · obtain ⟨rfl, hbw⟩ := hbr
            obtain ⟨a, d, k1, k3, k4, k5, k6⟩ := hw.split hbw
            obtain ⟨a', d', k1', k3', k4', k5', k6'⟩ := hw'.split (hn.1 hbw)
            subst k1 k1'
            have stop : ∀ {a d m : Str} {s : St R}, s.rest = (a ++ d) ++ m → ¬ Broken a →
                (∃ c m, d = c :: m ∧ (c = '\n' ∨ c = '\r')) →
                sem grammar u (.rep e) v s = .ok (s.advance a.length (d ++ m)) := by
              intro a d m s e1 k2 k4
              have g := hl.gulps (u := u) v (m := d ++ m) (a := a) (fun _ => k2) (fun h => nomatch h)
              rw [(g.rep _ [] a s (Nat.le_refl _) rfl (by rw [e1, List.append_assoc])).1, sem_rep]
              obtain ⟨c, d, rfl, k4⟩ := k4
              have : sem grammar u e v (s.advance a.length (c :: d ++ m)) = .err (s.advance a.length (c :: d ++ m)) := by
                cases hl with
                | line => exact at_line _ v (c := c) (l := d ++ m) rfl k4
              rw [this]
            rw [run_eq_sem hc, stop e1 k3 k6, stop e2 k3' k6']
            refine hs.ran (by rw [e1, List.append_assoc]) (by rw [e2, List.append_assoc]) ?_ _ (fun h => nomatch h)
            exact .gap k4 k4' ⟨fun _ => k5', fun _ => k5⟩ hm hm' hr
          · have hnb : b = true → ¬ Broken w := fun h1 h2 => hbr ⟨h1, h2⟩
            have hnb' : b = true → ¬ Broken w' := fun h1 h2 => hbr ⟨h1, hn.2 h2⟩
            obtain ⟨-, g⟩ := (hl.gulps (u := u) v (m := m) hnb (fun _ => hw.unmarked L)).rep _ [] w s (Nat.le_refl _) rfl e1
            obtain ⟨g', -⟩ := (hl.gulps (u := u) v (m := m') hnb' (fun _ => hw'.unmarked L)).rep _ [] w' s' (Nat.le_refl _) rfl e2
            obtain ⟨j, hj, hj'⟩ := g _ hc
            rw [if_neg hw.ne] at hj
            have hc2 : run grammar u j (.rep e) v (s.advance w.length m) ≠ .crash := by rw [← hj']; exact hc
            rw [hj', ← run_mono' (show j ≤ n by omega) hc2, g']
            have hc3 : run grammar u n (.rep e) v (s.advance w.length m) ≠ .crash := by
              rw [run_mono' (show j ≤ n by omega) hc2]; exact hc2
            have key := hs.ran e1 e2 hr false (fun h => nomatch h)
            exact (Twin.from key (ih (.rep e) v _ _ hb key.level hc3)).weaken (fun h => nomatch h)
        · -- at a string literal
          have on : Gulps u e v m (quoted q) → Gulps u e v m' (quoted q) →
              Twin u false s s' (run grammar u (n + 1) (.rep e) v s) (sem grammar u (.rep e) v s') := by
            intro g g'
            obtain ⟨-, g⟩ := g.rep _ [] (quoted q) s (Nat.le_refl _) rfl e1
            obtain ⟨g', -⟩ := g'.rep _ [] (quoted q) s' (Nat.le_refl _) rfl e2
            obtain ⟨j, hj, hj'⟩ := g _ hc
            rw [if_neg (by simp [quoted])] at hj
            have hc2 : run grammar u j (.rep e) v (s.advance (quoted q).length m) ≠ .crash := by rw [← hj']; exact hc
            rw [hj', ← run_mono' (show j ≤ n by omega) hc2, g']
            have hc3 : run grammar u n (.rep e) v (s.advance (quoted q).length m) ≠ .crash := by
              rw [run_mono' (show j ≤ n by omega) hc2]; exact hc2
            have key := hs.ran e1 e2 hr false (fun h => nomatch h)
            exact (Twin.from key (ih (.rep e) v _ _ hb key.level hc3)).weaken (fun h => nomatch h)
          have nb : ¬ Broken (quoted q) := by
            intro h
            apply h2
            simpa [Broken, quoted] using h
          cases hl with
          | line => exact on (gulps_line v nb) (gulps_line v nb)
          | block => exact on (gulps_block v (unmarked_text h3)) (gulps_block v (unmarked_text h3))
        all_goals
          have next : Twin u false s s' (run grammar u n e v s) (sem grammar u e v s') := by
            have h1 : run grammar u n e v s ≠ .crash := by
              intro e; rw [run, e] at hc; exact hc rfl
            have an : Twin u false s s' (s.charBy fun _ => true) (s'.charBy fun _ => true) := by
              first
              | (obtain ⟨c, m, m', e1, e2, -, -, hr⟩ := h0
                 rw [any_ok s e1, any_ok s' e2]
                 exact hs.ran (x := [c]) (x' := [c]) e1 e2 hr _ (fun _ => rfl))
              | (simp only [St.charBy, h0.1, h0.2]
                 exact hs.stay _)
            have ln : ∀ b : PE R, sem grammar u (.seq (.cat (.look false (.call .NEWLINE)) b)) v s = sem grammar u (.seq b) v s ∧
                sem grammar u (.seq (.cat (.look false (.call .NEWLINE)) b)) v s' = sem grammar u (.seq b) v s' := by
              intro b
              first
              | (obtain ⟨c, m, m', e1, e2, hcw, -, -⟩ := h0
                 have n1 : c ≠ '\n' := by rintro rfl; rw [ws_lf L] at hcw; cases hcw
                 have n2 : c ≠ '\r' := by rintro rfl; rw [ws_cr L] at hcw; cases hcw
                 exact ⟨no_line b v e1 n1 n2, no_line b v e2 n1 n2⟩)
              | (have key : ∀ s : St R, s.rest = [] → sem grammar u (.seq (.cat (.look false (.call .NEWLINE)) b)) v s = sem grammar u (.seq b) v s := by
                   intro s hs
                   rcases Trail.line_but (u := u) b v s with ⟨⟨x, m, k1, k2⟩, -⟩ | ⟨-, e⟩
                   · obtain ⟨d, n, h3, -⟩ := Trail.line_end_head k1
                     rw [h3, hs] at k2
                     cases k2
                   · exact e
                 exact ⟨key s h0.1, key s' h0.2⟩)
            cases hl with
            | line =>
              rw [run_eq_sem h1, (ln _).1, (ln _).2, Trail.seq_sem _ _ _ (Trail.any_err v s),
                Trail.seq_sem _ _ _ (Trail.any_err v s'), any_sem, any_sem]
              exact an
            | block =>
              have h2 : run grammar u n (.call .MultiLineComment) v s ≠ .crash := by
                cases n with
                | zero => exact absurd rfl h1
                | succ n =>
                  have : run grammar u n (.call .MultiLineComment) v s ≠ .crash := by
                    intro e; rw [run, e] at h1; exact h1 rfl
                  rw [run_mono' (Nat.le_succ n) this]; exact this
              have h3 := ih (.call .MultiLineComment) v s s' (by cases k <;> rfl) hs h2
              rw [run_eq_sem h2] at h3
              rw [run_eq_sem h1, sem_alt, sem_alt]
              revert h3
              cases hx : sem grammar u (.call .MultiLineComment) v s <;>
                cases hx' : sem grammar u (.call .MultiLineComment) v s' <;> intro h3 <;> first | exact h3.elim | skip
              · exact h3.weaken (fun h => nomatch h)
              · rw [sem_call_err u _ (by decide) (by decide) hx, sem_call_err u _ (by decide) (by decide) hx']
                simp only [Res.orElse]
                rw [Trail.any_but (sem_str ..), Trail.any_but (sem_str ..)]
                rcases strip_gap L (x := c!"%%%") (by decide) hs.rest with ⟨q1, q2⟩ | ⟨r, r', q1, q2, -⟩ <;> rw [q1, q2]
                · exact an
                · exact hs.stay _
          rw [run] at hc ⊢
          rw [sem_rep]
          revert next hc
          generalize run grammar u n e v s = x
          generalize sem grammar u e v s' = x'
          intro hc h
          cases x <;> cases x' <;> first | exact h.elim | skip
          · rename_i t t'
            exact (Twin.from h (ih (.rep e) v t t' hb h.level hc)).weaken (fun hd => by cases hd)
          · exact Ran.weaken h (fun hd => by cases hd)
      have hb0 := hb
      have hb : snug k e = true := by
        simp only [snug, Bool.or_eq_true] at hb
        rcases hb with hb | hb
        · exact absurd hb hq
        · exact hb
      rw [run] at hc ⊢
      rw [sem_rep]
      have h := ih e v s s' hb hs (fun h => hc (by rw [h]))
      revert h hc
      generalize run grammar u n e v s = x
      generalize sem grammar u e v s' = x'
      intro hc h
      cases x <;> cases x' <;> first | exact h.elim | skip
      · rename_i t t'
        exact (Twin.from h (ih (.rep e) v t t' hb0 h.level hc)).weaken (fun hd => by simpa [crisp] using hd)
      · exact h
    | alt a b =>
      simp only [snug, Bool.and_eq_true] at hb
      rw [run] at hc ⊢
      rw [sem_alt]
      have h := ih a v s s' hb.1 hs (fun h => hc (by rw [h]; rfl))
      revert h hc
      generalize run grammar u n a v s = x
      generalize sem grammar u a v s' = x'
      intro hc h
      cases x <;> cases x' <;> first | exact h.elim | skip
      · exact Ran.weaken h (fun hd => by
          have hd : (crisp a && crisp b) = true := hd
          exact (Bool.and_eq_true_iff.1 hd).1)
      · rename_i t t'
        exact Twin.from h (ih b v t t' hb.2 h.level hc)
    | cat a b =>
      simp only [snug, Bool.and_eq_true] at hb
      rw [run] at hc ⊢
      rw [sem_cat]
      have h := ih a v s s' hb.1 hs (fun h => hc (by rw [h]; rfl))
      revert h hc
      generalize run grammar u n a v s = x
      generalize sem grammar u a v s' = x'
      intro hc h
      cases x <;> cases x' <;> first | exact h.elim | skip
      · rename_i t t'
        exact Twin.from h (ih b v t t' hb.2 h.level hc)
      · exact Ran.weaken h (fun hd => by simp only [crisp, Bool.and_eq_true] at hd; exact hd.1)
    | restore e =>
      rw [run] at hc ⊢
      rw [sem_restore]
      have h := ih e v s s' hb hs (fun h => hc (by rw [h]; rfl))
      revert h
      generalize run grammar u n e v s = x
      generalize sem grammar u e v s' = x'
      intro h
      cases x <;> cases x' <;> first | exact h.elim | skip
      · exact h
      · exact ⟨⟨h.level.rest, hs.stack, h.level.queue⟩, h.read⟩
    | look p e =>
      rw [run] at hc ⊢
      rw [sem_look]
      have hc' : run grammar u n e { v with silent := true } s ≠ .crash := by
        intro h; apply hc; rw [h]; cases p <;> rfl
      have h := ih e { v with silent := true } s s' hb hs hc'
      revert h
      generalize run grammar u n e { v with silent := true } s = x
      generalize sem grammar u e { v with silent := true } s' = x'
      intro h
      have key : ∀ t t' : St R, Ran u (crisp e) s s' t t' → Ran u (crisp (.look p e)) s s' (backTo s t) (backTo s' t') :=
        fun t t' h => .stay _ ⟨hs.rest, hs.stack, h.level.queue⟩ rfl rfl rfl rfl
      cases x <;> cases x' <;> first | exact h.elim | (cases p <;> exact key _ _ h)
    | str x =>
      rw [run, sem_str]
      exact twin_str L hb hs _
    | insens x =>
      rw [run, sem_insens]
      have hb : ∀ c ∈ x, firm c.toLower = true ∧ c.toLower ≠ '"' := by
        intro c hx
        simpa [sharp] using List.all_eq_true.1 hb c hx
      rcases insens_gap L (fun c hx => ⟨firm_ws L (hb c hx).1, (hb c hx).2⟩) hs.rest with ⟨e1, e2⟩ |
        ⟨z, r, r', e1, e2, h3, h4, h5, h6⟩ <;> rw [e1, e2]
      · exact hs.stay _
      · dsimp only
        rw [← h4]
        exact hs.ran h5 h6 h3 _ (fun _ => rfl)
    | range a b =>
      rw [run, sem_range]
      refine twin_char (fun c hx => ?_) hs _
      simp only [Bool.and_eq_true, decide_eq_true_eq] at hx
      have hb : (a, b) ∈ [('0', '9'), ('1', '9'), ('0', '1'), ('0', '7'), ('a', 'f'), ('A', 'F')] := of_decide_eq_true hb
      have h1 : 48 ≤ c.toNat ∧ c.toNat < 128 := by
        have h1 : a.toNat ≤ c.toNat := hx.1
        have h2 : c.toNat ≤ b.toNat := hx.2
        simp only [List.mem_cons, Prod.mk.injEq, List.not_mem_nil, or_false] at hb
        rcases hb with ⟨rfl, rfl⟩ | ⟨rfl, rfl⟩ | ⟨rfl, rfl⟩ | ⟨rfl, rfl⟩ | ⟨rfl, rfl⟩ | ⟨rfl, rfl⟩ <;>
          (simp only [Char.reduceToNat] at h1 h2; omega)
      refine ⟨?_, by rintro rfl; simp only [Char.reduceToNat] at h1; omega⟩
      rw [L.plain _ _ (.inl h1.2)]
      simp only [asciiUni, decide_eq_false_iff_not, List.mem_cons, List.not_mem_nil, or_false]
      rintro (rfl | rfl | rfl | rfl | rfl | rfl) <;> (simp only [Char.reduceToNat] at h1; omega)
    | uni p =>
      rw [run, sem_uni]
      refine twin_char (fun c hx => ?_) hs _
      have quo : u .xidContinue c = true → c ≠ '"' := by
        rintro h rfl
        rw [L.plain _ _ (by decide)] at h
        exact absurd h (by decide)
      cases p with
      | xidStart => exact ⟨L.cont_ws c (L.start_cont c hx), quo (L.start_cont c hx)⟩
      | xidContinue => exact ⟨L.cont_ws c hx, quo hx⟩
      | whiteSpace => exact absurd hb (by simp [snug])
    | any => cases hb
    | soi => cases hb
    | eoi => cases hb
    | push e => cases hb
    | peek => cases hb
    | pop => cases hb

/-- Comments are found alike. -/
theorem twin_comment (L : Lawful u) (v : Env) (s s' : St R) (hs : Even u s s') :
    Twin u false s s' (sem grammar u (.call .COMMENT) v s) (sem grammar u (.call .COMMENT) v s') := by
  obtain ⟨n, hn⟩ := sem_settles grammar u (.call .COMMENT) v s
  have hn := hn n (Nat.le_refl n)
  have h := twin_sem L (k := false) (fun h => nomatch h) n (.call .COMMENT) v s s' rfl hs
    (by rw [hn]; exact sem_total u .COMMENT (by decide) v s)
  rw [hn] at h
  exact h.weaken (fun h => nomatch h)

/-! ### The whole program -/

theorem smParse_gist (L : Lawful u) {l l' : Str} (hl : Respaced u l l') :
    (smParse u .program l = .error ∧ smParse u .program l' = .error) ∨
    ∃ p q, smParse u .program l = .pairs p ∧ smParse u .program l' = .pairs q ∧
      gist (fun _ => 0) p = gist (fun _ => 0) q := by
  rw [smParse_eq u .program (by decide), smParse_eq u .program (by decide)]
  have ht := sem_total u .program (by decide) Env.init (St.init l)
  revert ht
  rw [sem_call, sem_call]
  show sem grammar u body_program _ _ ≠ _ → (Parsed.ofRes (sem grammar u body_program _ _) = _ ∧
    Parsed.ofRes (sem grammar u body_program _ _) = _) ∨ ∃ p q, Parsed.ofRes (sem grammar u body_program _ _) = _ ∧
    Parsed.ofRes (sem grammar u body_program _ _) = _ ∧ _
  have soi : ∀ x : Str, sem grammar u (.call .SOI) Env.init (St.init x) = .ok (St.init x) := by
    intro x
    rw [sem_call]
    show sem grammar u .soi _ _ = _
    rw [sem_soi, if_pos (by rfl)]
  have h0 : Even u (St.init l) (St.init l') := ⟨hl, rfl, rfl⟩
  rw [body_program]
  generalize hm : (PE.cat (.cat (.call R.skip) (.seq (.opt (.cat (.restore (.call R.statement)) (.rep (.seq (.cat (.call R.skip) (.restore (.call R.statement))))))))) (.call R.skip)) = mid
  have hmid : snug true mid = true := by rw [← hm]; rfl
  have assoc : ∀ x : Str, sem grammar u (.cat (.cat (.cat (.cat (.call .SOI) (.call .skip)) (.seq (.opt (.cat (.restore (.call .statement)) (.rep (.seq (.cat (.call .skip) (.restore (.call .statement))))))))) (.call .skip)) (.call .EOI)) Env.init (St.init x) =
      (sem grammar u mid Env.init (St.init x)).andThen (sem grammar u (.call .EOI) Env.init) := by
    intro x
    rw [← hm]
    simp only [sem_cat, soi, Res.andThen]
  clear hm
  rw [sem_seq, sem_seq, assoc, assoc]
  intro ht
  have hc : sem grammar u mid Env.init (St.init l) ≠ .crash := fun h => ht (by rw [h]; rfl)
  obtain ⟨n, hn⟩ := sem_settles grammar u mid Env.init (St.init l)
  have hn := hn n (Nat.le_refl n)
  have h := twin_sem L (k := true) (fun _ v s s' hs => twin_skip L (twin_comment L) v _ s s' (Nat.le_refl _) hs) n mid Env.init (St.init l) (St.init l') hmid h0 (by rw [hn]; exact hc)
  rw [hn] at h
  clear ht hc hn
  revert h
  generalize sem grammar u mid Env.init (St.init l) = x
  generalize sem grammar u mid Env.init (St.init l') = x'
  intro h
  cases x <;> cases x' <;> first | exact h.elim | skip
  rotate_left
  · exact .inl ⟨rfl, rfl⟩
  rename_i y y'
  have m3 := h.level
  simp only [Res.andThen]
  have eoi : ∀ s : St R, (s.rest ≠ [] → sem grammar u (.call .EOI) Env.init s = .err s) ∧
      (s.rest = [] → sem grammar u (.call .EOI) Env.init s =
        .ok { s with queue := s.queue ++ [.mk .EOI s.pos s.pos [] []] }) := by
    intro s
    rw [sem_call]
    show (_ → sem grammar u (.rule .EOI .eoi) _ s = _) ∧ (_ → sem grammar u (.rule .EOI .eoi) _ s = _)
    rw [sem_rule, if_pos (by rfl), sem_eoi]
    constructor
    · intro h
      rw [if_neg (by simpa using h)]
      rfl
    · intro h
      rw [if_pos (by simpa using h)]
      simp [Res.mapBoth, St.between, h]
  have none : (y.rest ≠ [] ∧ y'.rest ≠ []) ∨ (y.rest = [] ∧ y'.rest = []) := by
    rcases m3.rest.cases' with h | ⟨c, m, m', e1, e2, -⟩ | ⟨w, w', m, m', e1, e2, h0, h0', -⟩ |
      ⟨q, m, m', e1, e2, -⟩
    · exact .inr h
    · exact .inl ⟨by rw [e1]; simp, by rw [e2]; simp⟩
    · exact .inl ⟨by rw [e1]; simp [h0.ne], by rw [e2]; simp [h0'.ne]⟩
    · exact .inl ⟨by rw [e1]; simp [quoted], by rw [e2]; simp [quoted]⟩
  rcases none with ⟨e1, e2⟩ | ⟨e1, e2⟩
  · rw [(eoi y).1 e1, (eoi y').1 e2]
    exact .inl ⟨rfl, rfl⟩
  · rw [(eoi y).2 e1, (eoi y').2 e2]
    refine .inr ⟨_, _, rfl, rfl, ?_⟩
    show gist _ (y.queue ++ _) = gist _ (y'.queue ++ _)
    rw [gist_append, gist_append, m3.queue]
    rfl

end Spread

theorem smParse_respaced (L : Lawful u) {l l' : Str} (hl : Respaced u l l') :
    (smParse u .program l = .error ∧ smParse u .program l' = .error) ∨
    ∃ p q, smParse u .program l = .pairs p ∧ smParse u .program l' = .pairs q ∧
      barePairs (thinL p) = barePairs (thinL q) := by
  rcases Spread.smParse_gist L hl with h | ⟨p, q, h1, h2, h3⟩
  · exact .inl h
  · refine .inr ⟨p, q, h1, h2, ?_⟩
    rw [← bare_movedL (fun _ => 0) (thinL p), ← bare_movedL (fun _ => 0) (thinL q)]
    exact congrArg barePairs h3

/-- **C96**.  Two texts that differ only in their gaps are read alike, whether they are accepted, rejected or make the
parser panic, but for positions. -/
theorem C96_respaced (L : Lawful u) {c d : Cfg} (hi : Respaced u c.input d.input)
    (hm : d.errorText = c.errorText) : eraseR (parseText u d) = eraseR (parseText u c) := by
  rw [parseText, parseText]
  rcases smParse_respaced L hi with ⟨e1, e2⟩ | ⟨p, q, e1, e2, hp⟩ <;> rw [e1, e2]
  · rw [hm]
  · exact (pairs_same hp c d).symm

/-- **C96**.  One is rejected exactly if the other is. -/
theorem C96_rejected (L : Lawful u) {c d : Cfg} (hi : Respaced u c.input d.input) :
    parseText u d = .err (.parseError d.errorText) ↔ parseText u c = .err (.parseError c.errorText) := by
  have key : ∀ (e : Cfg) (l : List (Pair R)), parsePairs e l ≠ .err (.parseError e.errorText) := by
    intro e l
    induction l with
    | nil => exact fun h => nomatch h
    | cons p l ih =>
      rw [parsePairs]
      split
      · exact ih
      · split
        · cases buildExpression e p.inner .empty <;> exact fun h => nomatch h
        · split
          · exact ih
          · exact fun h => nomatch h
  rw [parseText, parseText]
  rcases smParse_respaced L hi with ⟨e1, e2⟩ | ⟨p, q, e1, e2, -⟩ <;> rw [e1, e2]
  · exact ⟨fun _ => rfl, fun _ => rfl⟩
  · exact ⟨fun h => absurd h (key _ _), fun h => absurd h (key _ _)⟩

/-- **C96**.  A gap of a text is made longer or shorter. -/
theorem C96_gap (L : Lawful u) {a b w w' : Str} (hw : White u w) (hw' : White u w') (h0 : w ≠ []) (h0' : w' ≠ [])
    (hn : Broken w ↔ Broken w') (ha : Orderly u a) (hb : Orderly u b) (hl : ∀ x c, a = x ++ [c] → u .whiteSpace c = false)
    (hr : ∀ c m, b = c :: m → u .whiteSpace c = false) {c d : Cfg} (hc : c.input = a ++ (w ++ b))
    (hd : d.input = a ++ (w' ++ b)) (hm : d.errorText = c.errorText) :
    eraseR (parseText u d) = eraseR (parseText u c) :=
  C96_respaced L (by rw [hc, hd]; exact .around L ha (gap_white hw h0) (gap_white hw' h0') hn hr hb hl) hm

variable {msg : Str → Str} {wd : Width}

/-- **C96**.  The session computes the same value for both, if they are not rejected. -/
theorem C96_value (L : Lawful u) {t t' : Str} (hi : Respaced u t t')
    (ht : replParse u msg t ≠ .err (.parseError (msg t))) :
    value wd (replParse u msg) t' = value wd (replParse u msg) t := by
  apply value_erased
  show eraseR (parseText u (replCfg msg t')) = eraseR (parseText u (replCfg msg t))
  have ht : parseText u (replCfg msg t) ≠ .err (.parseError (msg t)) := ht
  rw [parseText] at ht ⊢
  rw [parseText]
  have e : (replCfg msg t).input = t := rfl
  have e' : (replCfg msg t').input = t' := rfl
  rw [e] at ht ⊢
  rw [e']
  rcases smParse_respaced L hi with ⟨e1, e2⟩ | ⟨p, q, e1, e2, hp⟩ <;> rw [e1] at ht <;> rw [e1, e2]
  · exact absurd rfl ht
  · exact (pairs_same hp _ _).symm

/-- **C96**.  The session gives the same answer to both. -/
theorem C96_answers (L : Lawful u) {t t' : Str} (hi : Respaced u t t') {r : SMResult Str}
    (h : Answers u msg wd t r) (hr : ∀ m, r ≠ .err (.parseError m)) : Answers u msg wd t' r := by
  have ht : replParse u msg t ≠ .err (.parseError (msg t)) := by
    intro he
    have := printed_of_answers h
    rw [printed, value, he] at this
    exact hr _ this.symm
  intro hist
  rw [C22_outcome_independent_of_history, printed, C96_value L hi ht, ← printed]
  exact printed_of_answers h

theorem white_blanks (L : Lawful u) : White u c!" \t " := by
  intro c hc
  have h : c = ' ' ∨ c = '\t' ∨ c = ' ' := by simpa using hc
  rcases h with rfl | rfl | rfl <;> (rw [L.plain _ _ (by decide)]; decide)

theorem white_blank (L : Lawful u) : White u c!" " := by
  intro c hc
  have h : c = ' ' := by simpa using hc
  rw [h, L.plain _ _ (by decide)]; decide

/-- A product, written with one blank and with more. -/
example (L : Lawful u) : Answers u msg wd c!"2 \t *3" (.ok c!"6") := by
  have h := C54_times L msg wd (.mk [] (.atom (.int 2)) []) (.mk [] (.atom (.int 3)) []) c!" " []
    (intBinary_ok 2 3 (blank_ws (white_blank L)) blank_nil (by decide) (fun h => nomatch h)) blank_nil blank_nil
    (by rw [binaryText, intTerm_text]; exact numeral_wordless 2 _) (intTerm_value 2) (intTerm_value 3)
  rw [binaryText, intTerm_text, intTerm_text] at h
  replace h : Answers u msg wd c!"2 *3" (.ok c!"6") := h
  have two : u .whiteSpace '2' = false := by rw [L.plain _ _ (by decide)]; decide
  have star : u .whiteSpace '*' = false := by rw [L.plain _ _ (by decide)]; decide
  have three : u .whiteSpace '3' = false := by rw [L.plain _ _ (by decide)]; decide
  have hi : Respaced u c!"2 *3" c!"2 \t *3" :=
    .char two (by decide) (.gap (w := c!" ") (w' := c!" \t ") (gap_white (white_blank L) (by simp)) (gap_white (white_blanks L) (by simp))
      (by simp [Broken]) (fun c m h => by cases h; exact star) (fun c m h => by cases h; exact star)
      (.char star (by decide) (.char three (by decide) .nil)))
  exact C96_answers L hi h (fun _ h => nomatch h)

/-- The end of a line between a name and a bracket may have blanks around it; what is said is the same. -/
example (L : Lawful u) (f : Str) : eraseR (parseText u ⟨f, c!"f\r\n\t(2)", []⟩) = eraseR (parseText u ⟨f, c!"f\n(2)", []⟩) := by
  have hf : u .whiteSpace 'f' = false := by rw [L.plain _ _ (by decide)]; decide
  have ho : u .whiteSpace '(' = false := by rw [L.plain _ _ (by decide)]; decide
  refine C96_gap L (a := c!"f") (b := c!"(2)") (w := c!"\n") (w' := c!"\r\n\t") ?_ (white_line L) (by simp) (by simp)
    (by simp [Broken]) (orderly_plain (by decide)) (orderly_plain (by decide)) ?_ (fun c m h => by cases h; exact ho) rfl rfl rfl
  · intro c hc
    have h : c = '\n' := by simpa using hc
    rw [h]; exact ws_lf L
  · intro x c h
    match x with
    | [] => cases h; exact hf
    | [_] => cases h
    | _ :: _ :: _ => cases h

/-- The blanks in a string literal count, those behind it do not. -/
example (L : Lawful u) (f : Str) :
    eraseR (parseText u ⟨f, c!"\"a  b\" \t ;", []⟩) = eraseR (parseText u ⟨f, c!"\"a  b\" ;", []⟩) := by
  have hs : u .whiteSpace ';' = false := by rw [L.plain _ _ (by decide)]; decide
  have hi : Respaced u (quoted c!"a  b" ++ (c!" " ++ c!";")) (quoted c!"a  b" ++ (c!" \t " ++ c!";")) := by
    refine .text (by decide) (by simp [Broken]) ?_ (fun r h => by cases h) (fun r h => by cases h)
      (.gap (gap_white (white_blank L) (by simp)) (gap_white (white_blanks L) (by simp)) (by simp [Broken]) (fun c m h => by cases h; exact hs)
        (fun c m h => by cases h; exact hs) (.char hs (by decide) .nil))
    intro a b h
    have : '%' ∈ c!"a  b" := by rw [h]; simp
    simp at this
  exact C96_respaced L (c := ⟨f, c!"\"a  b\" ;", []⟩) (d := ⟨f, c!"\"a  b\" \t ;", []⟩) hi rfl

end SM.Props
