import Verif.Props.DerivInv
import Verif.Props.PegTables
import Verif.Props.PegAgree
import Verif.Props.Lit2
/-
C55: every accepted text is well bracketed.
-/
namespace SM.Props
open SM SM.Peg

/-- The closing bracket of an opening bracket. -/
def closer : Char → Option Char
  | '(' => some ')'
  | '[' => some ']'
  | '{' => some '}'
  | _ => none

/-- The characters that have a meaning of their own: brackets and the quotation mark. -/
def Marked (c : Char) : Prop := c ∈ ['(', ')', '[', ']', '{', '}', '"']

instance (c : Char) : Decidable (Marked c) := inferInstanceAs (Decidable (c ∈ _))

/-- String literals and comments. -/
inductive Opaque : Str → Prop where
  | string {m : Str} : contentOk m = true → Opaque ('"' :: m ++ ['"'])
  | block {m : Str} : m ≠ [] → Opaque (c!"\"\"\"" ++ m ++ c!"\"\"\"")
  | line {m : Str} : (∀ c ∈ m, c ≠ '\n' ∧ c ≠ '\r') → Opaque ('/' :: '/' :: m)
  | comment {m : Str} : Opaque (c!"%%%" ++ m ++ c!"%%%")

/-- Reading `w` with the closing brackets `st` awaited leaves `st'` awaited.  String literals and comments
are passed over as a whole. -/
inductive Nest : Str → Str → Str → Prop where
  | nil {st} : Nest st [] st
  | plain {c st w st'} : ¬ Marked c → Nest st w st' → Nest st (c :: w) st'
  | opening {c d st w st'} : closer c = some d → Nest (d :: st) w st' → Nest st (c :: w) st'
  | closing {c st w st'} : c ∈ [')', ']', '}'] → Nest st w st' → Nest (c :: st) (c :: w) st'
  | piece {x st w st'} : Opaque x → Nest st w st' → Nest st (x ++ w) st'

theorem Nest.append {a b c w w' : Str} (h : Nest a w b) : Nest b w' c → Nest a (w ++ w') c := by
  intro k
  induction h with
  | nil => exact k
  | plain hc _ ih => exact .plain hc (ih k)
  | opening hc _ ih => exact .opening hc (ih k)
  | closing hc _ ih => exact .closing hc (ih k)
  | piece hx _ ih => rw [List.append_assoc]; exact .piece hx (ih k)

theorem Nest.of_opaque {x st : Str} (h : Opaque x) : Nest st x st := by
  have := Nest.piece (st := st) h .nil
  rwa [List.append_nil] at this

/-- The effect of a literal text on the awaited closing brackets. -/
def fxStr : Str → Str → Option Str
  | [], st => some st
  | c :: x, st =>
    if c = '"' then none else
    match closer c with
    | some d => fxStr x (d :: st)
    | none =>
      if c ∈ [')', ']', '}'] then
        match st with
        | d :: st => if c = d then fxStr x st else none
        | [] => none
      else fxStr x st

theorem fxStr_sound {x st st' : Str} (h : fxStr x st = some st') (ρ : Str) : Nest (st ++ ρ) x (st' ++ ρ) := by
  induction x generalizing st with
  | nil => cases h; exact .nil
  | cons c x ih =>
    rw [fxStr.eq_def] at h
    simp only at h
    split at h
    · cases h
    · rename_i hq
      split at h
      · rename_i d hd
        exact .opening hd (ih h)
      · rename_i hd
        split at h
        · rename_i hc
          split at h
          · split at h
            · rename_i hcd
              subst hcd
              exact .closing hc (ih h)
            · cases h
          · cases h
        · rename_i hc
          refine .plain ?_ (ih h)
          intro hm
          simp only [Marked, List.mem_cons, List.not_mem_nil, or_false] at hm
          rcases hm with rfl | rfl | rfl | rfl | rfl | rfl | rfl
          all_goals first | exact absurd rfl hq | (exact absurd hd (by decide)) | exact hc (by decide)

/-- The rules whose whole text is a string literal or a comment. -/
def isOpaque : R → Bool
  | .StringNormal | .StringBlock | .COMMENT | .MultiLineComment => true
  | _ => false

/-- The rules that are used only inside string literals and comments. -/
def isInner : R → Bool
  | .ANY | .PEEK | .POP | .StringText | .Quotation => true
  | _ => false

/-- The effect of an expression on the awaited closing brackets, where it has one. -/
def fxE : PE R → Str → Option Str
  | .call r, st => if isInner r then none else some st
  | .rule _ e, st => fxE e st
  | .atomic _ e, st => fxE e st
  | .ifNon e, st => if fxE e st = some st then some st else none
  | .seq e, st => fxE e st
  | .opt e, st => if fxE e st = some st then some st else none
  | .rep e, st => if fxE e st = some st then some st else none
  | .alt e f, st => if fxE e st = fxE f st then fxE e st else none
  | .cat e f, st => (fxE e st).bind (fxE f)
  | .restore e, st => fxE e st
  | .push e, st => fxE e st
  | .look _ _, st => some st
  | .str x, st => fxStr x st
  | .insens x, st => if (x.map Char.toLower).any (fun c => decide (Marked c)) then none else some st
  | .range c d, st => if ['(', ')', '[', ']', '{', '}', '"'].any (fun x => decide (c ≤ x) && decide (x ≤ d)) then none
      else some st
  | .uni _, st => some st
  | .any, _ => none
  | .soi, st => some st
  | .eoi, st => some st
  | .peek, _ => none
  | .pop, _ => none

/-- Every rule outside string literals and comments leaves the awaited brackets as they were. -/
theorem fx_ok : ∀ r, isOpaque r = false → isInner r = false → fxE (grammar r) [] = some [] := by
  intro r; cases r <;> decide

section
variable {u : Uni} {a : Atomicity} {p : Nat} {w z : Str} {l : List (Pair R)}

theorem deriv_quotation (h : Deriv grammar u a (.call .Quotation) p w z l) : w = c!"\"" := by
  have h := h.inv_call
  simp only [grammar, body_Quotation] at h
  by_cases ha : a = .atomic
  · subst ha; exact h.inv_quiet.inv_atomic.inv_str.1
  · obtain ⟨m, -, h⟩ := h.inv_rule ha
    exact h.inv_atomic.inv_str.1

theorem deriv_escape (h : Deriv grammar u a (.call .Escape) p w z l) : w = c!"\\" := by
  have h := h.inv_call
  simp only [grammar, body_Escape] at h
  by_cases ha : a = .atomic
  · subst ha; exact h.inv_quiet.inv_atomic.inv_str.1
  · obtain ⟨m, -, h⟩ := h.inv_rule ha
    exact h.inv_atomic.inv_str.1

theorem deriv_any (h : Deriv grammar u a (.call .ANY) p w z l) : ∃ c, w = [c] := by
  have h := h.inv_call
  simp only [grammar, body_ANY] at h
  obtain ⟨c, h, -⟩ := h.inv_any
  exact ⟨c, h⟩

/-- The inside of a rule, whether it emits or not. -/
theorem Deriv.inside {r : R} {e : PE R} (h : Deriv grammar u a (.rule r e) p w z l) :
    ∃ m, Deriv grammar u a e p w z m := by
  by_cases ha : a = .atomic
  · subst ha; exact ⟨_, h.inv_quiet⟩
  · obtain ⟨m, -, h⟩ := h.inv_rule ha
    exact ⟨m, h⟩

theorem Refuses.not_eats {e : PE R} {x r : Str} {P : List (Pair R) → Prop} (h : Refuses grammar u a e (x ++ r))
    (k : ∀ v : Env, v.atomicity = a → Eats u v e x r P) : False := by
  obtain ⟨n, v, s, t, hv, hr, h⟩ := h
  obtain ⟨q, -, hs⟩ := k v hv s.pos s.stack s.queue
  rw [← hr] at hs
  have : sem grammar u e v s = .err t := by rw [sem_eq_run (by rw [h]; exact fun e => by cases e), h]
  rw [show sem grammar u e v ⟨s.pos, s.rest, s.stack, s.queue⟩ = sem grammar u e v s from rfl, this] at hs
  cases hs

theorem eats_strEscape {v : Env} (hv : v.emits = false) {d : Char} (rest : Str) (hd : d = '"' ∨ d = '\\') :
    Eats u v (.seq (.cat (.call .Escape) (.alt (.call .Quotation) (.call .Escape)))) ['\\', d] rest Nil := by
  refine eats_seq ((eats_cat (x := ['\\']) (y := [d]) (eats_tok_mute rfl hv _) ?_).imp fun q => then_nil)
  rcases hd with rfl | rfl
  · exact eats_alt_left (eats_tok_mute rfl hv _)
  · exact eats_alt_right (fails_quote (by decide)) (eats_tok_mute rfl hv _)

theorem Refuses.newline {c : Char} {r : Str} (h : Refuses grammar u a (.call .NEWLINE) (c :: r)) :
    c ≠ '\n' ∧ c ≠ '\x0d' := by
  constructor
  · rintro rfl
    exact h.not_eats (x := ['\n']) (fun v _ => eats_newline r)
  · rintro rfl
    by_cases hr : ∃ r', r = '\n' :: r'
    · obtain ⟨r', rfl⟩ := hr
      exact h.not_eats (x := ['\x0d', '\n']) (fun v _ => eats_return_newline r')
    · exact h.not_eats (x := ['\x0d']) (fun v _ => eats_return fun r' e => hr ⟨r', e⟩)

/-- The rest of a line. -/
theorem deriv_line (h : Deriv grammar u a (.rep (.seq (.cat (.look false (.call .NEWLINE)) (.call .ANY)))) p w z l) :
    ∀ c ∈ w, c ≠ '\n' ∧ c ≠ '\x0d' := by
  refine h.inv_rep (P := fun _ w _ _ => ∀ c ∈ w, c ≠ '\n' ∧ c ≠ '\x0d') (fun _ _ _ => by simp) ?_
  intro q w₁ w₂ z l₁ l₂ h ih
  obtain ⟨x, y, l, l', rfl, -, h1, h2⟩ := h.inv_seq.inv_cat
  obtain ⟨rfl, -, h1⟩ := h1.inv_not
  obtain ⟨c, rfl⟩ := deriv_any h2
  have := h1.newline
  intro d hd
  simp only [List.nil_append, List.cons_append, List.mem_cons] at hd
  rcases hd with rfl | hd
  · exact this
  · exact ih d hd

/-- The content of a string literal. -/
theorem deriv_content (h : Deriv grammar u .atomic (.rep strUnit) p w ('"' :: z) l) : contentOk w = true := by
  refine h.inv_rep (P := fun _ w z' _ => (∃ t, z' = '"' :: t) → contentOk w = true) (fun _ _ _ _ => rfl) ?_ ⟨z, rfl⟩
  rintro q w₁ w₂ - l₁ l₂ h ih ⟨t, rfl⟩
  have ih := ih ⟨t, rfl⟩
  rcases h.inv_alt with h | ⟨hr, h⟩
  · obtain ⟨x, y, l, l', rfl, -, h1, h2⟩ := h.inv_seq.inv_cat
    have := deriv_escape h1
    subst this
    have hy : y = c!"\"" ∨ y = c!"\\" := by
      rcases h2.inv_alt with h2 | ⟨-, h2⟩
      · exact .inl (deriv_quotation h2)
      · exact .inr (deriv_escape h2)
    rcases hy with rfl | rfl <;> simpa [contentOk] using ih
  · obtain ⟨x, y, l, l', rfl, -, h1, h2⟩ := h.inv_seq.inv_cat
    obtain ⟨rfl, -, h1⟩ := h1.inv_not
    obtain ⟨c, rfl⟩ := deriv_any h2
    have hc : c ≠ '"' := by
      rintro rfl
      exact h1.not_eats (x := ['"']) (fun v hv => eats_quote_mute (by simp [Env.emits, hv]) _)
    simp only [List.nil_append, List.cons_append] at hr ⊢
    by_cases hb : c = '\\'
    · subst hb
      cases w₂ with
      | nil =>
        exact absurd (hr.not_eats (x := ['\\', '"']) fun v hv => eats_strEscape (by simp [Env.emits, hv]) t (.inl rfl)) id
      | cons d m =>
        have hd : ¬ (d = '"' ∨ d = '\\') := fun hd =>
          hr.not_eats (x := ['\\', d]) fun v hv => eats_strEscape (by simp [Env.emits, hv]) _ hd
        rw [contentOk, if_neg hd]
        exact ih
    · rw [contentOk]
      · exact ih
      · rintro rfl; exact absurd rfl hb
      · intro _ _ e; exact absurd e hb
      · exact hc

theorem opaque_StringNormal (h : Deriv grammar u a (.call .StringNormal) p w z l) : Opaque w := by
  have h := h.inv_call
  simp only [grammar, body_StringNormal] at h
  obtain ⟨m, h⟩ := h.inside
  obtain ⟨x, y, _, _, rfl, -, h1, h2⟩ := h.inv_atomic.inv_seq.inv_cat
  obtain ⟨x1, x2, _, _, rfl, -, h3, h4⟩ := h1.inv_cat
  obtain rfl := deriv_quotation h2
  obtain rfl := deriv_quotation h3
  exact .string (deriv_content h4)

theorem deriv_text_ne (h : Deriv grammar u a (.call .StringText) p w z l) : w ≠ [] := by
  have h := h.inv_call
  simp only [grammar, body_StringText] at h
  obtain ⟨m, h⟩ := h.inside
  obtain ⟨x, y, _, _, rfl, -, h1, h2⟩ := h.inv_atomic.inv_seq.inv_cat
  obtain ⟨x1, x2, _, _, rfl, -, -, h4⟩ := h1.inv_seq.inv_cat
  obtain ⟨c, rfl⟩ := deriv_any h4
  simp

theorem opaque_StringBlock (h : Deriv grammar u a (.call .StringBlock) p w z l) : Opaque w := by
  have h := h.inv_call
  simp only [grammar, body_StringBlock] at h
  obtain ⟨m, h⟩ := h.inv_atomic.inside
  obtain ⟨_, y1, _, _, rfl, -, h, k1⟩ := h.inv_seq.inv_cat
  obtain ⟨_, y2, _, _, rfl, -, h, k2⟩ := h.inv_cat
  obtain ⟨_, y3, _, _, rfl, -, h, k3⟩ := h.inv_cat
  obtain ⟨_, y4, _, _, rfl, -, h, -⟩ := h.inv_cat
  obtain ⟨_, y5, _, _, rfl, -, h, k5⟩ := h.inv_cat
  obtain ⟨x, y6, _, _, rfl, -, h, -⟩ := h.inv_cat
  obtain ⟨_, x3, _, _, rfl, -, h, j3⟩ := h.inv_seq.inv_cat
  obtain ⟨x1, x2, _, _, rfl, -, j1, j2⟩ := h.inv_cat
  obtain rfl := deriv_quotation k1
  obtain rfl := deriv_quotation k2
  obtain rfl := deriv_quotation k3
  obtain rfl := deriv_quotation j1
  obtain rfl := deriv_quotation j2
  obtain rfl := deriv_quotation j3
  have := Opaque.block (m := y6 ++ y5 ++ y4) (by
    have := deriv_text_ne k5
    intro e
    simp only [List.append_eq_nil_iff] at e
    exact this e.1.2)
  simpa only [List.append_assoc, List.cons_append, List.nil_append] using this

theorem opaque_MultiLineComment (h : Deriv grammar u a (.call .MultiLineComment) p w z l) : Opaque w := by
  have h := h.inv_call
  simp only [grammar, body_MultiLineComment] at h
  obtain ⟨m, h⟩ := h.inv_atomic.inside
  obtain ⟨_, y, _, _, rfl, -, h, k⟩ := h.inv_seq.inv_cat
  obtain ⟨x, t, _, _, rfl, -, h, -⟩ := h.inv_cat
  obtain ⟨rfl, -⟩ := k.inv_str
  obtain ⟨rfl, -⟩ := h.inv_str
  exact .comment

theorem opaque_lineComment {k : Char} (hk : k ≠ '\n' ∧ k ≠ '\x0d')
    (h : Deriv grammar u a (.seq (.cat (.str ['/', '/', k])
      (.rep (.seq (.cat (.look false (.call .NEWLINE)) (.call .ANY)))))) p w z l) : Opaque w := by
  obtain ⟨x, y, _, _, rfl, -, h, hl⟩ := h.inv_seq.inv_cat
  obtain ⟨rfl, -⟩ := h.inv_str
  refine Opaque.line (m := k :: y) ?_
  intro c hc
  rcases List.mem_cons.1 hc with rfl | hc
  · exact hk
  · exact deriv_line hl c hc

theorem opaque_COMMENT (h : Deriv grammar u a (.call .COMMENT) p w z l) : Opaque w := by
  have h := h.inv_call
  simp only [grammar, body_COMMENT] at h
  rcases h.inv_atomic.inv_alt with h | ⟨-, h⟩
  · rcases h.inv_alt with h | ⟨-, h⟩
    · rcases h.inv_alt with h | ⟨-, h⟩
      · rcases h.inv_alt with h | ⟨-, h⟩
        · exact opaque_MultiLineComment h
        · exact opaque_lineComment (by decide) h
      · exact opaque_lineComment (by decide) h
    · exact opaque_lineComment (by decide) h
  · exact opaque_lineComment (by decide) h

theorem opaque_call {r : R} (hr : isOpaque r = true) (h : Deriv grammar u a (.call r) p w z l) : Opaque w := by
  cases r <;> first | cases hr | done
  · exact opaque_StringNormal h
  · exact opaque_StringBlock h
  · exact opaque_COMMENT h
  · exact opaque_MultiLineComment h

theorem Nest.plains {w st : Str} (h : ∀ c ∈ w, ¬ Marked c) : Nest st w st := by
  induction w with
  | nil => exact .nil
  | cons c w ih => exact .plain (h c (by simp)) (ih fun d hd => h d (by simp [hd]))

theorem Lawful.not_marked (L : Lawful u) {q : Uc} {c : Char} (h : u q c = true) : ¬ Marked c := by
  intro hm
  have key : ∀ d, Marked d → Plain d ∧ ∀ q, asciiUni q d = false := by
    intro d hd
    simp only [Marked, List.mem_cons, List.not_mem_nil, or_false] at hd
    rcases hd with rfl | rfl | rfl | rfl | rfl | rfl | rfl <;> exact ⟨by decide, fun q => by cases q <;> decide⟩
  obtain ⟨h1, h2⟩ := key c hm
  rw [L.plain c q h1, h2 q] at h
  cases h

/-- What the effect says of derivations. -/
theorem fx_sound (L : Lawful u) {e : PE R} (h : Deriv grammar u a e p w z l) :
    ∀ st st' ρ, fxE e st = some st' → Nest (st ++ ρ) w (st' ++ ρ) := by
  induction h with
  | @call a r p w z l hran hd ih =>
    intro st st' ρ hf
    rw [fxE] at hf
    split at hf
    · cases hf
    · rename_i hi
      cases hf
      by_cases ho : isOpaque r = true
      · exact .of_opaque (opaque_call ho (.call hran hd))
      · exact ih [] [] (st ++ ρ) (fx_ok r (by simpa using ho) (by simpa using hi))
  | rule _ _ ih => exact ih
  | quiet _ ih => exact ih
  | atomic _ ih => exact ih
  | ifNon _ ih =>
    intro st st' ρ hf
    rw [fxE] at hf
    split at hf
    · cases hf; exact ih _ _ _ ‹_›
    · cases hf
  | ifNonSkip _ =>
    intro st st' ρ hf
    rw [fxE] at hf
    split at hf
    · cases hf; exact .nil
    · cases hf
  | seq _ ih => exact ih
  | optNone _ =>
    intro st st' ρ hf
    rw [fxE] at hf
    split at hf
    · cases hf; exact .nil
    · cases hf
  | optSome _ ih =>
    intro st st' ρ hf
    rw [fxE] at hf
    split at hf
    · cases hf; exact ih _ _ _ ‹_›
    · cases hf
  | repNil _ =>
    intro st st' ρ hf
    rw [fxE] at hf
    split at hf
    · cases hf; exact .nil
    · cases hf
  | repCons _ _ ih ih' =>
    intro st st' ρ hf
    have hf' := hf
    rw [fxE] at hf
    split at hf
    · cases hf; exact (ih _ _ _ ‹_›).append (ih' _ _ _ hf')
    · cases hf
  | altL _ ih =>
    intro st st' ρ hf
    rw [fxE] at hf
    split at hf
    · exact ih _ _ _ hf
    · cases hf
  | altR _ _ ih =>
    intro st st' ρ hf
    rw [fxE] at hf
    split at hf
    · rename_i he; rw [he] at hf; exact ih _ _ _ hf
    · cases hf
  | cat _ _ ih ih' =>
    intro st st' ρ hf
    rw [fxE, Option.bind_eq_some_iff] at hf
    obtain ⟨st₁, h1, h2⟩ := hf
    exact (ih _ _ _ h1).append (ih' _ _ _ h2)
  | restore _ ih => exact ih
  | push _ ih => exact ih
  | lookNot _ => intro st st' ρ hf; rw [fxE] at hf; cases hf; exact .nil
  | look _ => intro st st' ρ hf; rw [fxE] at hf; cases hf; exact .nil
  | str => intro st st' ρ hf; exact fxStr_sound hf ρ
  | @insens a x p w z hx =>
    intro st st' ρ hf
    rw [fxE] at hf
    split at hf
    · cases hf
    · rename_i hn
      cases hf
      refine .plains fun c hc hm => hn ?_
      have hl : c.toLower = c := by
        simp only [Marked, List.mem_cons, List.not_mem_nil, or_false] at hm
        rcases hm with rfl | rfl | rfl | rfl | rfl | rfl | rfl <;> decide
      rw [List.any_eq_true]
      refine ⟨c, ?_, decide_eq_true hm⟩
      rw [← hx]
      exact List.mem_map.2 ⟨c, hc, hl⟩
  | @range a c d x p z h1 h2 =>
    intro st st' ρ hf
    rw [fxE] at hf
    split at hf
    · cases hf
    · rename_i hn
      cases hf
      refine .plains fun y hy hm => hn ?_
      rw [List.mem_singleton] at hy
      subst hy
      rw [List.any_eq_true]
      exact ⟨y, hm, by simp [h1, h2]⟩
  | uni h =>
    intro st st' ρ hf
    rw [fxE] at hf
    cases hf
    exact .plain (L.not_marked h) .nil
  | any => intro st st' ρ hf; cases hf
  | soi => intro st st' ρ hf; rw [fxE] at hf; cases hf; exact .nil
  | eoi => intro st st' ρ hf; rw [fxE] at hf; cases hf; exact .nil
  | peek => intro st st' ρ hf; cases hf
  | pop => intro st st' ρ hf; cases hf

/-- **C55**.  In an accepted text every bracket is closed by its own kind, in order, and none is closed that was not
opened, when string literals and comments are passed over. -/
theorem C55_brackets (L : Lawful u) {input : Str} {l : List (Pair R)} (h : smParse u .program input = .pairs l) :
    Nest [] input [] :=
  fx_sound L (C34_derivation u input l h) [] [] [] (by decide)

/-- The usual check with a stack. -/
def balanced : Str → Str → Bool
  | st, [] => st.isEmpty
  | st, c :: w =>
    match closer c with
    | some d => balanced (d :: st) w
    | none =>
      if c ∈ [')', ']', '}'] then
        match st with
        | d :: st => decide (c = d) && balanced st w
        | [] => false
      else balanced st w

/-- A text in which no string literal and no comment can begin. -/
structure Bare (w : Str) : Prop where
  quote : '"' ∉ w
  line : ¬ ['/', '/'] <:+: w
  percent : ¬ ['%', '%', '%'] <:+: w

theorem Bare.tail {x w : Str} (h : Bare (x ++ w)) : Bare w :=
  ⟨fun k => h.quote (List.mem_append_right _ k), fun k => h.line (k.trans (List.suffix_append x w).isInfix),
    fun k => h.percent (k.trans (List.suffix_append x w).isInfix)⟩

theorem Bare.not_opaque {x w : Str} (h : Bare (x ++ w)) : ¬ Opaque x := by
  intro k
  cases k with
  | string => exact h.quote (by simp)
  | block => exact h.quote (by simp)
  | line => exact h.line ⟨[], _, rfl⟩
  | @comment m => exact h.percent ⟨[], m ++ (['%', '%', '%'] ++ w), by simp only [List.append_assoc, List.nil_append]⟩

theorem Nest.balanced {st w : Str} {st' : Str} (h : Nest st w st') (he : st' = []) (hb : Bare w) :
    balanced st w = true := by
  induction h with
  | nil => subst he; rfl
  | @plain c st w st' hc _ ih =>
    have hn : closer c = none ∧ c ∉ [')', ']', '}'] := by
      constructor
      · unfold closer
        split <;> first | rfl | exact absurd (by decide) hc
      · intro hm
        apply hc
        simp only [List.mem_cons, List.not_mem_nil, or_false] at hm
        rcases hm with rfl | rfl | rfl <;> decide
    rw [Props.balanced.eq_def]
    simp only [hn.1, if_neg hn.2]
    exact ih he (hb.tail (x := [c]))
  | @opening c d st w st' hc _ ih =>
    rw [Props.balanced.eq_def]
    simp only [hc]
    exact ih he (hb.tail (x := [c]))
  | @closing c st w st' hc _ ih =>
    have hn : closer c = none := by
      simp only [List.mem_cons, List.not_mem_nil, or_false] at hc
      rcases hc with rfl | rfl | rfl <;> rfl
    rw [Props.balanced.eq_def]
    simp only [hn, if_pos hc, decide_true, Bool.true_and]
    exact ih he (hb.tail (x := [c]))
  | piece hx _ _ => exact absurd hx hb.not_opaque

/-- **C55**.  A text without quotation marks, `//` and `%%%` whose brackets do not match is refused with a parse
error. -/
theorem C55_unbalanced_refused (L : Lawful u) (c : Cfg) (hb : Bare c.input) (h : balanced [] c.input = false) :
    parseText u c = .err (.parseError c.errorText) := by
  unfold parseText
  cases hs : smParse u .program c.input with
  | error => rfl
  | pairs l =>
    rw [(C55_brackets L hs).balanced rfl hb] at h
    cases h
  | crash =>
    rcases C33_parse_terminates u .program (by decide) c.input with ⟨l, h⟩ | h <;> rw [h] at hs <;> cases hs

/-- As many brackets are closed as are opened. -/
theorem Nest.count {k d : Char} (hk : closer k = some d) {st w st' : Str} (h : Nest st w st') (hb : Bare w) :
    w.count k + st.count d = w.count d + st'.count d := by
  have hkd : k ∈ ['(', '[', '{'] ∧ d ∈ [')', ']', '}'] := by
    unfold closer at hk
    split at hk <;> cases hk <;> decide
  have sep : ∀ x ∈ ['(', '[', '{'], ∀ y ∈ [')', ']', '}'], x ≠ y := by decide
  have inj : ∀ x y d, closer x = some d → closer y = some d → x = y := by
    intro x y d hx hy
    unfold closer at hx
    split at hx <;> cases hx <;> (unfold closer at hy; split at hy <;> first | rfl | cases hy)
  induction h with
  | nil => simp
  | @plain c st w st' hc _ ih =>
    have h1 : c ≠ k := by
      rintro rfl
      exact hc ((by decide : ∀ x ∈ ['(', '[', '{'], Marked x) c hkd.1)
    have h2 : c ≠ d := by
      rintro rfl
      exact hc ((by decide : ∀ x ∈ [')', ']', '}'], Marked x) c hkd.2)
    have := ih (hb.tail (x := [c]))
    simp only [List.count_cons_of_ne h1, List.count_cons_of_ne h2]
    exact this
  | @opening c e st w st' hc _ ih =>
    have hce : c ∈ ['(', '[', '{'] ∧ e ∈ [')', ']', '}'] := by
      unfold closer at hc
      split at hc <;> cases hc <;> decide
    have := ih (hb.tail (x := [c]))
    have hcd : c ≠ d := sep c hce.1 d hkd.2
    by_cases hck : c = k
    · subst hck
      rw [hc] at hk
      cases hk
      rw [List.count_cons_self, List.count_cons_of_ne hcd]
      rw [List.count_cons_self] at this
      omega
    · have hed : e ≠ d := fun e' => hck (inj _ _ _ (e' ▸ hc) hk)
      rw [List.count_cons_of_ne hck, List.count_cons_of_ne hcd]
      rw [List.count_cons_of_ne hed] at this
      omega
  | @closing c st w st' hc _ ih =>
    have := ih (hb.tail (x := [c]))
    have hck : c ≠ k := fun e => sep k hkd.1 c hc e.symm
    rw [List.count_cons_of_ne hck]
    by_cases hcd : c = d
    · subst hcd
      rw [List.count_cons_self, List.count_cons_self]
      omega
    · rw [List.count_cons_of_ne hcd, List.count_cons_of_ne hcd]
      omega
  | piece hx _ _ => exact absurd hx hb.not_opaque

/-- **C55**.  In an accepted text without quotation marks, `//` and `%%%` there are as many opening brackets of each
kind as closing ones. -/
theorem C55_counts (L : Lawful u) {input : Str} {l : List (Pair R)} (h : smParse u .program input = .pairs l)
    (hb : Bare input) : input.count '(' = input.count ')' ∧ input.count '[' = input.count ']' ∧
      input.count '{' = input.count '}' := by
  have k := C55_brackets L h
  have h1 := k.count (k := '(') rfl hb
  have h2 := k.count (k := '[') rfl hb
  have h3 := k.count (k := '{') rfl hb
  simp only [List.count_nil, Nat.add_zero] at h1 h2 h3
  exact ⟨h1, h2, h3⟩

/-- `f([1, (2]))` is refused: the brackets are as many but cross. -/
example (L : Lawful u) (file msg : Str) :
    parseText u ⟨file, c!"f([1, (2]))", msg⟩ = .err (.parseError msg) :=
  C55_unbalanced_refused L ⟨file, c!"f([1, (2]))", msg⟩
    (show Bare c!"f([1, (2]))" from ⟨by decide, by decide, by decide⟩) (show balanced [] c!"f([1, (2]))" = false by decide)

/-- `f([1, (2)])` passes the check. -/
example : balanced [] c!"f([1, (2)])" = true := by decide

/-- `f(")")`: the bracket in the string literal does not count. -/
example : Nest [] c!"f(\")\")" [] :=
  .plain (by decide) (.opening (d := ')') rfl (.piece (x := c!"\")\"") (.string (m := c!")") (by decide))
    (.closing (by decide) .nil)))

end
end SM.Props
