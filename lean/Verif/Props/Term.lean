import Verif.Props.Chain
/-
Terms: an operand with prefix operators before it and suffix operators and indices after it.
-/
namespace SM.Props
open SM SM.Peg

variable {u : Uni} {v : Env}

/-! ### What may follow a term -/

/-- Characters after which nothing continues a term. -/
def termStops : List Char := afterChars ++ ['\n', '\x0d']

/-- What may follow a term: within the line, white space only, then an operator, a separator, a closing bracket,
a comment or the end of the line. -/
structure Follow (u : Uni) (rest : Str) : Prop where
  split : EndsIn u termStops rest
  path : NoPath u rest

theorem endsIn_ws {S : List Char} {z : Str} (hz : HeadIn (S ++ ['\n', '\x0d']) z) :
    ∀ r0 : Str, (∀ c ∈ r0, Ws u c) → EndsIn u (S ++ ['\n', '\x0d']) (r0 ++ z) := by
  intro r0
  induction r0 with
  | nil => exact fun _ => ⟨[], z, rfl, by simp, hz⟩
  | cons c r0 ih =>
    intro h
    by_cases h1 : c = '\n' ∨ c = '\x0d'
    · refine ⟨[], c :: (r0 ++ z), rfl, by simp, .inr ⟨c, _, rfl, ?_⟩⟩
      rcases h1 with rfl | rfl <;> simp
    · obtain ⟨w, z', e, hw, hz'⟩ := ih fun d hd => h d (by simp [hd])
      refine ⟨c :: w, z', by rw [List.cons_append, e]; rfl, ?_, hz'⟩
      intro d hd
      rcases List.mem_cons.1 hd with rfl | hd
      · exact ⟨h d (by simp), fun e => h1 (.inl e), fun e => h1 (.inr e)⟩
      · exact hw d hd

theorem blank_endsIn {S : List Char} (hS : '/' ∈ S) {w r : Str} (hw : Blank u w) (hr : HeadIn S r) :
    EndsIn u (S ++ ['\n', '\x0d']) (w ++ r) := by
  obtain ⟨r0, ks, rfl, h1, h2⟩ := hw
  rw [List.append_assoc]
  refine endsIn_ws ?_ r0 h1
  cases ks with
  | nil => exact hr.mono fun c hc => by simp [hc]
  | cons k ks => exact .inr ⟨'/', _, rfl, by simp [hS]⟩

theorem Follow.endsIn {rest : Str} (h : Follow u rest) : EndsIn u termStops rest := h.split

theorem Follow.ends (L : Lawful u) {rest : Str} (h : Follow u rest) : Ends u rest := by
  obtain ⟨w, z, e, hw, hz⟩ := h.endsIn
  exact ⟨⟨w, z, e, hw, hz.mono (by decide)⟩, h.path, fun _ _ _ _ e => h.endsIn.head_ne L (d := '\'') (by decide) (by decide) _ e⟩

/-! ### Terms -/

/-- Characters that begin a term, other than letters. -/
def termChars : List Char := operandChars ++ ['!', '¬', '+', '-', '*']

/-- A term: a text that `term` consumes, whatever may follow, and that means `d`.  The flag tells that it ends
in an integer. -/
structure IsTerm (u : Uni) (num : Bool) (x : Str) (d : Option AST) : Prop where
  head : ∃ c r, x = c :: r ∧ (IdStart u c ∨ c ∈ termChars)
  eats : ∀ rest, Follow u rest → (num = true → NoDec rest) → Eats u vN (.call .term) x rest (Den .term buildTerm d)
  kv : ∀ rest, Follow u rest → NoColon u rest → Fails u vN kvAlt (x ++ rest)

/-! ### Prefix operators -/

/-- The prefix operators. -/
inductive Pre where
  | bang | neg | plus | minus | star
  deriving DecidableEq

/-- How a prefix operator is written. -/
def Pre.char : Pre → Char
  | .bang => '!'
  | .neg => '¬'
  | .plus => '+'
  | .minus => '-'
  | .star => '*'

/-- What a prefix operator makes of its operand; `¬` is not implemented. -/
def Pre.apply (p : Pre) (a : AST) : Option AST :=
  let call (n : Str) : Option AST :=
    some (.function ⟨[c!"std", c!"prefix"], n, .prefix [p.char], 0⟩ [.mk [a] [] noPos])
  match p with
  | .bang => call c!"not"
  | .neg => none
  | .plus => call c!"plus"
  | .minus => call c!"minus"
  | .star => call c!"unpack"

theorem eats_Prefix (L : Lawful u) (hv : v.emits = true) (p : Pre) (rest : Str) :
    Eats u v (.call .Prefix) [p.char] rest (One .Prefix [p.char] Nil) := by
  refine eats_call (eats_rule hv (eats_atomic ?_))
  have hv' := emits_atomic' v
  cases p with
  | bang => exact eats_alt_left (eats_alt_left (eats_alt_left (eats_alt_left (eats_tok_mute rfl hv' _))))
  | neg =>
    refine eats_alt_left (eats_alt_left (eats_alt_left (eats_alt_right ?_ (eats_tok_mute rfl hv' _))))
    exact fails_plain L (by decide) _
  | plus =>
    refine eats_alt_left (eats_alt_left (eats_alt_right (fails_alt ?_ ?_) (eats_tok_mute rfl hv' _))) <;>
      exact fails_plain L (by decide) _
  | minus =>
    refine eats_alt_left (eats_alt_right (fails_alt (fails_alt ?_ ?_) ?_) (eats_tok_mute rfl hv' _)) <;>
      exact fails_plain L (by decide) _
  | star =>
    refine eats_alt_right (fails_alt (fails_alt (fails_alt ?_ ?_) ?_) ?_) (eats_tok_mute rfl hv' _) <;>
      exact fails_plain L (by decide) _

/-- The pairs are those of the prefix operators. -/
def PrePairs (ps : List Pre) (q : List (Pair R)) : Prop :=
  List.Forall₂ (fun p x => x.rule = .Prefix ∧ x.text = [p.char]) ps q

theorem eats_prefixes (L : Lawful u) (hv : v.emits = true) {rest : Str} (hr : Fails u v (.call .Prefix) rest) :
    ∀ ps : List Pre, Eats u v (.rep (.call .Prefix)) (ps.map Pre.char) rest (PrePairs ps) := by
  intro ps
  induction ps with
  | nil => exact (eats_rep_nil hr).imp fun q hq => by rw [show q = [] from hq]; exact .nil
  | cons p ps ih =>
    refine (eats_rep_cons (x := [p.char]) (eats_Prefix L hv p _) ih).imp ?_
    rintro q ⟨a, b, rfl, ⟨_, _, _, rfl, _⟩, hb⟩
    exact .cons ⟨rfl, rfl⟩ hb

/-- Apply prefix operators, the last one first. -/
def preFold : List Pre → AST → Option AST
  | [], a => some a
  | p :: ps, a => (preFold ps a).bind p.apply

theorem prefixMap_apply (p : Pre) (pos : Position) (a : AST) :
    ((prefixMap [p.char]).map fun s => erase (.function s [.mk [a] [] pos])) = p.apply (erase a) := by
  cases p <;> simp [prefixMap, Pre.char, Pre.apply, erase, eraseP, eraseParam, eraseL, eraseO]

theorem applyPrefixes_eq {ps : List Pre} {q : List (Str × Position)}
    (h : List.Forall₂ (fun p x => x.1 = [p.char]) ps q) (a : AST) :
    (applyPrefixes q a).map erase = preFold ps (erase a) := by
  induction h with
  | nil => rfl
  | @cons p x ps q h1 _ ih =>
    obtain ⟨t, pos⟩ := x
    simp only at h1
    subst h1
    rw [applyPrefixes, preFold, ← ih]
    cases applyPrefixes q a with
    | none => rfl
    | some b =>
      simp only [Option.map_some, Option.bind_some]
      rw [← prefixMap_apply p pos b]
      cases prefixMap [p.char] <;> rfl

/-! ### Suffix operators -/

/-- A suffix operator or an index. -/
abbrev sfx : PE R := .alt (.call .Suffix) (.restore (.seq (.cat hspace (.call .slice))))

/-- The pair acts on the value before it as `F` does. -/
def SufDen (F : AST → Option AST) (p : Pair R) : Prop :=
  ∃ G : Cfg → AST → Option AST,
    (∀ c l base pre, termLoop c (p :: l) base pre = (G c base).bind fun b => termLoop c l b pre) ∧
    ∀ c base, (G c base).map erase = F (erase base)

/-- Characters that begin a suffix. -/
def sfxChars : List Char := ['!', '?', '[', '\'']

/-- The character that cannot follow a suffix directly, because it would belong to the suffix. -/
def clash : Str → Option Char
  | ['!'] => some '!'
  | '\'' :: _ => some '\''
  | _ => none

/-- A suffix: a text that is consumed after an operand and acts as `F`. -/
structure IsSuffix (u : Uni) (y : Str) (F : AST → Option AST) : Prop where
  shape : (∃ h c z, y = h ++ c :: z ∧ (∀ d ∈ h, HWs u d) ∧ c ∈ ['!', '?', '[']) ∨
    ∃ k, y = '\'' :: List.replicate k '\''
  eats : ∀ rest, (∀ c, clash y = some c → ∀ r, rest ≠ c :: r) →
    Eats u vC sfx y rest fun q => ∃ p, q = [p] ∧ SufDen F p

theorem IsSuffix.head {y : Str} {F : AST → Option AST} (h : IsSuffix u y F) :
    ∃ h c z, y = h ++ c :: z ∧ (∀ d ∈ h, HWs u d) ∧ c ∈ sfxChars := by
  rcases h.shape with ⟨h, c, z, e, hh, hc⟩ | ⟨k, e⟩
  · have key : ∀ c ∈ ['!', '?', '['], c ∈ sfxChars := by decide
    exact ⟨h, c, z, e, hh, key c hc⟩
  · exact ⟨[], _, _, e, by simp, by decide⟩

/-- Suffixes that may follow each other. -/
def SfxsOk (u : Uni) : List (Str × (AST → Option AST)) → Prop
  | [] => True
  | s :: l => IsSuffix u s.1 s.2 ∧ (∀ c, clash s.1 = some c → ∀ s' l', l = s' :: l' → ∀ r, s'.1 ≠ c :: r) ∧ SfxsOk u l

/-- The text of suffixes. -/
def sfxText (l : List (Str × (AST → Option AST))) : Str := l.flatMap Prod.fst

/-- Apply suffixes, the first one first. -/
def sfxFold : List (Str × (AST → Option AST)) → AST → Option AST
  | [], a => some a
  | s :: l, a => (s.2 a).bind (sfxFold l)

/-- The suffix operators: `!`, `!!`, `?` and any number of primes. -/
def IsSuf (y : Str) : Prop := y ∈ [c!"!", c!"!!", c!"?"] ∨ ∃ k, y = '\'' :: List.replicate k '\''

theorem eats_Suffix (L : Lawful u) (hv : v.emits = true) {y rest : Str} (hy : IsSuf y)
    (hr : ∀ c, clash y = some c → ∀ r, rest ≠ c :: r) : Eats u v (.call .Suffix) y rest (One .Suffix y Nil) := by
  refine eats_call (eats_rule hv (eats_atomic ?_))
  have hv' := emits_atomic' v
  rcases hy with hy | ⟨k, rfl⟩
  swap
  · refine eats_alt_left (eats_alt_left (eats_alt_left ?_))
    refine eats_call (eats_rule_mute hv' (eats_atomic ((eats_seq (eats_cat (x := ['\'']) (eats_str _ _)
      (eats_primes k (hr _ rfl)))).imp fun q => then_nil)))
  simp only [List.mem_cons, List.not_mem_nil, or_false] at hy
  rcases hy with rfl | rfl | rfl
  · refine eats_alt_left (eats_alt_right (fails_alt (fails_plain L (by decide) _) ?_) (eats_tok_mute rfl hv' _))
    refine fails_tok (x := c!"!!") rfl ?_
    cases rest with
    | nil => rfl
    | cons c r =>
      have : '!' ≠ c := fun e => hr _ rfl r (by rw [e])
      simp [strip, this]
  · exact eats_alt_left (eats_alt_left (eats_alt_right (fails_plain L (by decide) _) (eats_tok_mute rfl hv' _)))
  · refine eats_alt_right (fails_alt (fails_alt ?_ ?_) ?_) (eats_tok_mute rfl hv' _) <;>
      exact fails_plain L (by decide) _

/-- What a suffix operator makes of its operand; `?` and primes are not implemented. -/
def sufApply (y : Str) (a : AST) : Option AST :=
  let call (n : Str) : Option AST := some (.function ⟨[c!"std", c!"suffix"], n, .suffix y, 0⟩ [.mk [a] [] noPos])
  if y = c!"!" then call c!"factorial" else if y = c!"!!" then call c!"factorial2" else none

/-- The suffix operators. -/
theorem suffix_op (L : Lawful u) {y : Str} (hy : IsSuf y) : IsSuffix u y (sufApply y) where
  shape := by
    rcases hy with hy | hy
    · simp only [List.mem_cons, List.not_mem_nil, or_false] at hy
      rcases hy with rfl | rfl | rfl <;> exact .inl ⟨[], _, _, rfl, by simp, by decide⟩
    · exact .inr hy
  eats rest hr := by
    refine (eats_alt_left (eats_Suffix (v := vC) L rfl hy hr)).imp ?_
    rintro q ⟨a, b, l, rfl, _⟩
    refine ⟨_, rfl, fun c base => (suffixMap y).map fun s => .function s [.mk [base] [] (c.position a b)], ?_, ?_⟩
    · intro c l' base pre
      rw [termLoop]
      simp only [Pair.rule, reduceCtorEq, if_false, if_true, Pair.text, Pair.start, Pair.stop]
      cases suffixMap y <;> rfl
    · intro c base
      rcases hy with hy | ⟨k, rfl⟩
      · simp only [List.mem_cons, List.not_mem_nil, or_false] at hy
        rcases hy with rfl | rfl | rfl <;>
          simp [suffixMap, sufApply, erase, eraseP, eraseParam, eraseL, eraseO]
      · simp [suffixMap, sufApply]

theorem fails_Suffix {z : Str} (h1 : ∀ r, z ≠ '\'' :: r) (h2 : ∀ r, z ≠ '!' :: r) (h3 : ∀ r, z ≠ '?' :: r) :
    Fails u v (.call .Suffix) z := by
  have no : ∀ (d : Char) (t : Str), (∀ r, z ≠ d :: r) → strip (d :: t) z = none := by
    intro d t h
    cases z with
    | nil => rfl
    | cons c r =>
      have : d ≠ c := fun e => h r (by rw [e])
      simp [strip, this]
  exact fails_call (fails_rule (fails_atomic (fails_alt (fails_alt (fails_alt (fails_Derivative h1)
    (fails_tok (x := c!"!!") rfl (no _ _ h2))) (fails_tok (x := c!"!") rfl (no _ _ h2)))
    (fails_tok (x := c!"?") rfl (no _ _ h3)))))

theorem stops_term_notHws : ∀ c ∈ termStops, notHws c = true := by decide

theorem Follow.fails_sfx (L : Lawful u) {rest : Str} (h : Follow u rest) : Fails u vC sfx rest := by
  have he := h.endsIn
  refine fails_alt (fails_Suffix (he.head_ne L (by decide) (by decide)) (he.head_ne L (by decide) (by decide))
    (he.head_ne L (by decide) (by decide))) (fails_restore (fails_seq ?_))
  exact he.breaks L stops_term_notHws fun z hz => fails_head L hz (by decide) (by decide)

theorem sfx_head {s : Str × (AST → Option AST)} {l : List (Str × (AST → Option AST))} (h : SfxsOk u (s :: l))
    (rest : Str) : ∃ w c z, sfxText (s :: l) ++ rest = w ++ c :: z ∧ (∀ d ∈ w, HWs u d) ∧ c ∈ sfxChars := by
  obtain ⟨w, c, z, e, hw, hc⟩ := h.1.head
  exact ⟨w, c, z ++ (sfxText l ++ rest), by simp [sfxText, e], hw, hc⟩

theorem noPath_split (L : Lawful u) {w z : Str} {c : Char} (hw : ∀ d ∈ w, HWs u d) (h1 : c ≠ ':')
    (h2 : c ≠ '∷') : NoPath u (w ++ c :: z) := by
  cases w with
  | nil => exact noPath_cons h1 h2 z
  | cons d w =>
    have := hw d (by simp)
    exact noPath_cons (hws_first L this (by decide) (by decide)) (hws_first L this (by decide) (by decide)) _

theorem sfxChars_stops : ∀ c ∈ sfxChars, c ∈ nodeStops ∧ c ≠ ':' ∧ c ≠ '∷' := by decide

/-- A text that begins, after white space, with one of some characters, begins with no other one. -/
theorem EndsIn.mem (L : Lawful u) {S : List Char} (hS : ∀ c ∈ S, notHws c = true) {c : Char} (hc : notHws c = true)
    {t : Str} : ∀ {h : Str}, (∀ d ∈ h, HWs u d) → EndsIn u S (h ++ c :: t) → c ∈ S := by
  intro h hh
  rintro ⟨w, z, e, hw, hz⟩
  induction h generalizing w with
  | nil =>
    cases w with
    | nil =>
      rcases hz with rfl | ⟨c', r, rfl, h'⟩
      · cases e
      · cases e; exact h'
    | cons d w =>
      cases e
      exact absurd rfl (hws_ne L (hw c (by simp)) hc)
  | cons d h ih =>
    cases w with
    | nil =>
      rcases hz with rfl | ⟨c', r, rfl, h'⟩
      · cases e
      · cases e
        exact absurd rfl (hws_ne L (hh d (by simp)) (hS _ h'))
    | cons d' w =>
      exact ih (fun d hd => hh d (by simp [hd])) w (List.cons.inj e).2 (fun d hd => hw d (by simp [hd]))

theorem primes_unique (L : Lawful u) {S : List Char} (hS : ∀ c ∈ S, notHws c = true) (h1 : '(' ∉ S) (h2 : '\'' ∉ S)
    {y : Str} (hy : EndsIn u S y) {h t : Str} (hh : ∀ d ∈ h, HWs u d) :
    ∀ k k', List.replicate k '\'' ++ y ≠ List.replicate k' '\'' ++ (h ++ '(' :: t) := by
  intro k
  induction k with
  | zero =>
    intro k' e
    cases k' with
    | zero =>
      simp only [List.replicate_zero, List.nil_append] at e
      rw [e] at hy
      exact h1 (hy.mem L hS (by decide) hh)
    | succ k' => exact hy.head_ne L (d := '\'') (by decide) h2 _ e
  | succ k ih =>
    intro k' e
    cases k' with
    | zero =>
      simp only [List.replicate_zero, List.nil_append, List.replicate_succ, List.cons_append] at e
      cases h with
      | nil => exact absurd (List.cons.inj e).1 (by decide)
      | cons d h => exact hws_ne L (hh d (by simp)) (d := '\'') (by decide) (List.cons.inj e).1.symm
    | succ k' => exact ih k' (List.cons.inj e).2

/-- Suffixes are not primes with an argument list. -/
theorem sfx_noPrime (L : Lawful u) {l : List (Str × (AST → Option AST))} (h : SfxsOk u l) {S : List Char} {rest : Str}
    (hr : EndsIn u S rest) (hS : ∀ c ∈ S, notHws c = true) (h1 : '(' ∉ S) (h2 : '\'' ∉ S) :
    NoPrime u (sfxText l ++ rest) := by
  intro k w t hw e
  cases l with
  | nil => exact hr.head_ne L (d := '\'') (by decide) h2 _ e
  | cons s l =>
    have es : sfxText (s :: l) ++ rest = s.1 ++ (sfxText l ++ rest) := by simp [sfxText]
    rw [es] at e
    have key : ∀ c ∈ ['!', '?', '['], notHws c = true ∧ c ≠ '\'' := by decide
    rcases h.1.shape with ⟨g, c, z, e2, hg, hc⟩ | ⟨m, e2⟩
    · rw [e2] at e
      cases g with
      | cons d g => exact hws_ne L (hg d (by simp)) (d := '\'') (by decide) (List.cons.inj e).1
      | nil => exact (key c hc).2 (List.cons.inj e).1
    · rw [e2] at e
      have e' := (List.cons.inj e).2
      cases l with
      | nil => exact primes_unique L hS h1 h2 (y := rest) hr hw m k e'
      | cons s' l =>
        have hn := h.2.1 '\'' (by rw [e2]; rfl) s' l rfl
        rcases h.2.2.1.shape with ⟨g, c, z', e3, hg, hc⟩ | ⟨m', e3⟩
        · refine primes_unique L (S := ['!', '?', '[']) (fun c hc => (key c hc).1) (by decide) (by decide)
            (y := sfxText (s' :: l) ++ rest) ⟨g, c :: (z' ++ (sfxText l ++ rest)), ?_, hg, .inr ⟨c, _, rfl, hc⟩⟩ hw m k e'
          simp [sfxText, e3]
        · exact hn _ e3

/-- What follows the inner part of a term. -/
theorem sfx_ends (L : Lawful u) {l : List (Str × (AST → Option AST))} (h : SfxsOk u l) {rest : Str}
    (hr : Follow u rest) : Ends u (sfxText l ++ rest) := by
  cases l with
  | nil => exact hr.ends L
  | cons s l =>
    have np := sfx_noPrime L h hr.endsIn stops_term_notHws (by decide) (by decide)
    obtain ⟨w, c, z, e, hw, hc⟩ := sfx_head h rest
    rw [e] at np ⊢
    obtain ⟨h1, h2, h3⟩ := sfxChars_stops c hc
    exact ⟨⟨w, c :: z, rfl, hw, .inr ⟨c, z, rfl, h1⟩⟩, noPath_split L hw h2 h3, np⟩

theorem sfx_noDec (L : Lawful u) {s : Str × (AST → Option AST)} {l : List (Str × (AST → Option AST))}
    (h : SfxsOk u (s :: l)) (rest : Str) : NoDec (sfxText (s :: l) ++ rest) := by
  obtain ⟨w, c, z, e, hw, hc⟩ := sfx_head h rest
  rw [e]
  intro d r e'
  exfalso
  cases w with
  | nil =>
    have key : ∀ c ∈ sfxChars, c ≠ '.' := by decide
    simp only [List.nil_append, List.cons.injEq] at e'
    exact key c hc e'.1
  | cons d' w =>
    simp only [List.cons_append, List.cons.injEq] at e'
    exact hws_first L (hw d' (by simp)) (d := '.') (by decide) (by decide) e'.1

theorem sfx_noColon (L : Lawful u) {l : List (Str × (AST → Option AST))} (h : SfxsOk u l) {rest : Str}
    (hr : NoColon u rest) : NoColon u (sfxText l ++ rest) := by
  cases l with
  | nil => exact hr
  | cons s l =>
    obtain ⟨w, c, z, e, hw, hc⟩ := sfx_head h rest
    rw [e]
    have key : ∀ c ∈ sfxChars, Plain c ∧ asciiUni .whiteSpace c = false ∧ c ≠ '%' ∧ c ≠ '/' ∧
      c ≠ ':' ∧ c ≠ '：' := by decide
    obtain ⟨h1, h2, h3, h4, h5, h6⟩ := key c hc
    refine ⟨w, c :: z, rfl, blank_ws fun d hd => (hw d hd).1, solid_cons L h1 h2 h3 h4 z, ?_⟩
    intro c' r e'
    cases e'
    exact ⟨h5, h6⟩

/-- The pairs of suffixes. -/
def SfxPairs (l : List (Str × (AST → Option AST))) (q : List (Pair R)) : Prop :=
  List.Forall₂ (fun s p => SufDen s.2 p) l q

theorem clash_char {y : Str} {d : Char} (h : clash y = some d) :
    notHws d = true ∧ d ∉ termStops ∧ d ∈ ['!', '?', '\'', '['] := by
  unfold clash at h
  split at h <;> cases h <;> decide

/-- Suffixes do not run into each other. -/
theorem sfx_apart (L : Lawful u) {y rest : Str} {l : List (Str × (AST → Option AST))}
    (h2 : ∀ c, clash y = some c → ∀ s' l', l = s' :: l' → ∀ r, s'.1 ≠ c :: r) (h3 : SfxsOk u l)
    (hr : ∀ c, clash y = some c → ∀ r, rest ≠ c :: r) :
    ∀ c, clash y = some c → ∀ r, sfxText l ++ rest ≠ c :: r := by
  intro c e r e'
  cases l with
  | nil => exact hr c e r e'
  | cons s' l =>
    obtain ⟨w, d, z, e2, hw, hc⟩ := h3.1.head
    have := h2 c e s' l rfl
    cases w with
    | nil =>
      simp only [sfxText, List.flatMap_cons, e2, List.nil_append, List.cons_append, List.cons.injEq] at e'
      exact this z (by rw [e2, List.nil_append, e'.1])
    | cons d w =>
      simp only [sfxText, List.flatMap_cons, e2, List.cons_append, List.cons.injEq] at e'
      exact hws_ne L (hw d (by simp)) (clash_char e).1 e'.1

theorem eats_sfxs (L : Lawful u) {rest : Str} (hr : Follow u rest) :
    ∀ l : List (Str × (AST → Option AST)), SfxsOk u l → Eats u vC (.rep sfx) (sfxText l) rest (SfxPairs l) := by
  intro l
  induction l with
  | nil => exact fun _ => (eats_rep_nil (hr.fails_sfx L)).imp fun q hq => by rw [show q = [] from hq]; exact .nil
  | cons s l ih =>
    rintro ⟨h1, h2, h3⟩
    refine (eats_rep_cons (h1.eats (sfxText l ++ rest) ?_) (ih h3)).imp ?_
    · exact sfx_apart L h2 h3 (fun d hd => hr.endsIn.head_ne L (clash_char hd).1 (clash_char hd).2.1)
    · rintro q ⟨a, b, rfl, ⟨p, rfl, hp⟩, hb⟩
      exact .cons hp hb

/-! ### The value of a term -/

theorem termLoop_prefixes {ps : List Pre} {q : List (Pair R)} (h : PrePairs ps q) (c : Cfg) (l : List (Pair R))
    (base : AST) : ∀ pre : List (Str × Position), termLoop c (q ++ l) base pre =
      termLoop c l base (pre ++ q.map fun p => (p.text, c.position p.start p.stop)) := by
  induction h with
  | nil => intro pre; simp
  | @cons p x ps q h1 _ ih =>
    intro pre
    obtain ⟨h1, _⟩ := h1
    rw [List.cons_append, termLoop]
    rw [if_neg (by rw [h1]; decide), if_pos h1, ih]
    simp

theorem termLoop_sfxs {l : List (Str × (AST → Option AST))} {q : List (Pair R)} (h : SfxPairs l q) (c : Cfg)
    {ps : List Pre} {pre : List (Str × Position)} (hp : List.Forall₂ (fun p x => x.1 = [p.char]) ps pre) :
    ∀ base : AST, (termLoop c q base pre).map erase = (sfxFold l (erase base)).bind (preFold ps) := by
  induction h with
  | nil =>
    intro base
    rw [termLoop, applyPrefixes_eq hp]
    rfl
  | @cons s p l q h1 _ ih =>
    intro base
    obtain ⟨G, hG, hF⟩ := h1
    rw [hG, sfxFold, ← hF c base]
    cases G c base with
    | none => rfl
    | some b => exact ih b

/-- A term made of prefix operators, an operand and suffixes. -/
theorem term_of (L : Lawful u) (ps : List Pre) {num : Bool} {x : Str} {d : Option AST} (hx : IsNode u num x d)
    (l : List (Str × (AST → Option AST))) (hl : SfxsOk u l) :
    IsTerm u (num && l.isEmpty) (ps.map Pre.char ++ (x ++ sfxText l))
      (d.bind fun a => (sfxFold l a).bind (preFold ps)) := by
  obtain ⟨c, t, hxe, hc⟩ := hx.head
  refine ⟨?_, fun rest hr hn => ?_, fun rest hr hcol => ?_⟩
  · cases ps with
    | nil =>
      refine ⟨c, t ++ sfxText l, by simp [hxe], ?_⟩
      rcases hc with hc | hc
      · exact .inl hc
      · exact .inr (by simp [termChars, hc])
    | cons p ps =>
      refine ⟨p.char, _, rfl, .inr ?_⟩
      cases p <;> decide
  · have hends := sfx_ends L hl hr
    have hnode := hx.eats _ hends (by
      intro hnum
      cases l with
      | nil => exact hn (by simp [hnum])
      | cons s l => exact sfx_noDec L hl rest)
    have hpre : Fails u vC (.call .Prefix) (x ++ (sfxText l ++ rest)) := by
      rw [hxe]
      rcases hc with hc | hc
      · exact fails_id L hc (by decide) _
      · have key : ∀ c ∈ operandChars, noStart .Prefix c = true := by decide
        exact fails_plain L (key c hc) _
    refine eats_call (eats_atomic ((eats_rule (v := vC) rfl (eats_seq
      ((eats_cat (eats_cat (eats_prefixes (v := vC) L rfl hpre ps) hnode) (eats_sfxs L hr l hl)).cast
        (List.append_assoc _ _ _)))).imp ?_))
    rintro q ⟨a, b, k, rfl, k1, k2, rfl, ⟨k3, k4, rfl, h3, ⟨n, rfl, hn1, hn2⟩⟩, h2⟩
    refine ⟨_, rfl, rfl, fun cfg => ?_⟩
    rw [buildTerm, List.append_assoc, termLoop_prefixes h3, List.singleton_append, termLoop, if_pos hn1,
      ← hn2 cfg]
    cases buildNode cfg n with
    | none => rfl
    | some base =>
      simp only [Option.map_some, Option.bind_some]
      refine termLoop_sfxs h2 cfg ?_ base
      rw [List.nil_append]
      clear hpre
      induction h3 with
      | nil => exact .nil
      | cons h _ ih => exact .cons h.2 ih
  · cases ps with
    | nil =>
      rw [List.map_nil, List.nil_append, List.append_assoc]
      exact hx.kv _ (sfx_ends L hl hr) (sfx_noColon L hl hcol)
    | cons p ps =>
      refine fails_kv_plain L ?_
      intro c' r e
      cases e
      have key : ∀ p : Pre, Plain p.char ∧ asciiUni .xidStart p.char = false ∧ p.char ≠ '_' := by
        intro p; cases p <;> decide
      obtain ⟨h1, h2, h3⟩ := key p
      exact not_idStart L h1 h2 h3

end SM.Props
