import Verif.Props.Goes
/-
C75: the statements of the language.  A text of statements is accepted; unless the first statement is an expression,
the parser then panics.
-/
namespace SM.Props
open SM SM.Peg

/-! ### The statements of the language

The language of the grammar file, described with the text before and the text after each part. -/

/-- What may stand at the beginning of a line that begins a new statement. -/
def LineStart (u : Uni) (r : Str) : Prop :=
  (∀ c t, r = c :: t → ¬ Ws u c ∧ c ∉ operatorChars ++ [';', '；', '{', ':', '：', ',', '，', '|']) ∧
    strip c!"else" r = none ∧ strip c!"otherwise" r = none

/-- The text does not begin with a semicolon. -/
def NoSemi (r : Str) : Prop := ∀ c t, r = c :: t → c ≠ ';' ∧ c ≠ '；'

/-- After the blank space `w` stands one of the characters, the end of the text, or a new line. -/
def Parted (u : Uni) (S : List Char) (w s : Str) : Prop := HeadIn S s ∨ Breaking w ∧ LineStart u s

/-- What follows a statement: a semicolon; a closing brace, a comma or the end of the text; a new line. -/
inductive Closing (u : Uni) : Str → Str → Prop
  | semi {b : Bool} {w r : Str} : Blank u w → Solid u r → NoSemi r → Closing u (semiText b ++ (w ++ r)) r
  | close {r : Str} : HeadIn ['}', ',', '，'] r → Closing u r r
  | line {r : Str} : LineStart u r → Closing u r r

/-- The end of a statement, with the blank space before it. -/
def Ending (u : Uni) (t r : Str) : Prop :=
  ∃ w s, t = w ++ s ∧ Blank u w ∧ Parted u [';', '；', '}', ',', '，'] w s ∧ Closing u s r

/-- Names with commas between them, and possibly after the last. -/
inductive Names (u : Uni) : Str → Str → Prop
  | one {x w s : Str} : IsIdent u x → Blank u w → Parted u [':', '：', '=', '{', ';', '；', '}', ')'] w s →
      (∀ t, s ≠ ':' :: ':' :: t) → Names u (x ++ (w ++ s)) s
  | more {x w w' t s : Str} {b : Bool} : IsIdent u x → Blank u w → Blank u w' → Names u t s →
      Names u (x ++ (w ++ (commaText b ++ (w' ++ t)))) s
  | comma {x w w' s : Str} {b : Bool} : IsIdent u x → Blank u w → Blank u w' → HeadIn [':', '：', '=', '{', ';', '；', '}', ')'] s →
      Names u (x ++ (w ++ (commaText b ++ (w' ++ s)))) s

/-- A parameter of a definition: a name, with or without type, with or without default. -/
inductive Parameter (u : Uni) : Str → Str → Prop
  | plain {x w s : Str} : IsIdent u x → Blank u w → HeadIn [',', '，', ')'] s → Parameter u (x ++ (w ++ s)) s
  | typed {x w w1 w2 s : Str} {b : Bool} {T : STerm} : IsIdent u x → Blank u w → Blank u w1 → T.Ok u → Blank u w2 →
      HeadIn [',', '，', ')'] s → Parameter u (x ++ (w ++ (colonText b ++ (w1 ++ (T.text ++ (w2 ++ s)))))) s
  | default {x w w3 w4 s : Str} {e : SExpr} : IsIdent u x → Blank u w → Blank u w3 → e.Ok u → Blank u w4 →
      HeadIn [',', '，', ')'] s → Parameter u (x ++ (w ++ ('=' :: (w3 ++ (e.text ++ (w4 ++ s)))))) s
  | both {x w w1 w2 w3 w4 s : Str} {b : Bool} {T : STerm} {e : SExpr} : IsIdent u x → Blank u w → Blank u w1 → T.Ok u →
      Blank u w2 → Blank u w3 → e.Ok u → Blank u w4 → HeadIn [',', '，', ')'] s →
      Parameter u (x ++ (w ++ (colonText b ++ (w1 ++ (T.text ++ (w2 ++ ('=' :: (w3 ++ (e.text ++ (w4 ++ s)))))))))) s

/-- Parameters with commas between them, and possibly after the last, up to the closing bracket. -/
inductive Parameters (u : Uni) : Str → Str → Prop
  | one {t s : Str} : Parameter u t (')' :: s) → Parameters u t s
  | more {t w t' s : Str} {b : Bool} : Parameter u t (commaText b ++ (w ++ t')) → Blank u w → Parameters u t' s →
      Parameters u t s
  | comma {t w s : Str} {b : Bool} : Parameter u t (commaText b ++ (w ++ (')' :: s))) → Blank u w → Parameters u t s

/-- The condition of an `if`: in round brackets, or any expression that does not begin with one. -/
inductive Condition (u : Uni) : Str → Str → Prop
  | paren {w w' w'' s : Str} {e : SExpr} : Blank u w → e.Ok u → Blank u w' → Blank u w'' →
      Condition u ('(' :: (w ++ (e.text ++ (w' ++ (')' :: (w'' ++ s)))))) s
  | bare {w s : Str} {e : SExpr} : e.Ok u → (∀ t, e.text ≠ '(' :: t) → Blank u w → Parted u ['{'] w s →
      Condition u (e.text ++ (w ++ s)) s

/-- The signs between the names of a path. -/
def splitTexts : List Str := [c!".", c!"::", c!"∷"]

/-- Names with such signs between them. -/
inductive Module (u : Uni) : Str → Str → Prop
  | one {x r : Str} : IsIdent u x → NoCont u r → Module u (x ++ r) r
  | more {x w k w' t r : Str} : IsIdent u x → Blank u w → k ∈ splitTexts → Blank u w' → Module u t r →
      Module u (x ++ (w ++ (k ++ (w' ++ t)))) r

/-- The parts of an import: what is imported; what follows the first part of a group. -/
inductive UsePart where
  | item | rest

/-- What can be imported: a path; everything in it; some parts of it; a path or a file under another name. -/
inductive Use (u : Uni) : UsePart → Str → Str → Prop
  | plain {t w s : Str} : Module u t (w ++ s) → Blank u w → Parted u [';', '；', '}', ',', '，'] w s → strip c!"as" s = none →
      (∀ z, s ≠ '∷' :: z) → Use u .item t s
  | all {t w k w' r : Str} : Module u t (w ++ (k ++ (w' ++ ('*' :: r)))) → Blank u w → k ∈ splitTexts → Blank u w' → Use u .item t r
  | group {t w k w' w1 t1 w2 s r : Str} : Module u t (w ++ (k ++ (w' ++ ('{' :: (w1 ++ t1))))) → Blank u w → k ∈ splitTexts →
      Blank u w' → Blank u w1 → Use u .item t1 (w2 ++ s) → Blank u w2 → Use u .rest s r → Use u .item t r
  | named {t w w' x r : Str} : Module u t (w ++ (c!"as" ++ (w' ++ (x ++ r)))) → Blank u w → Blank u w' → IsIdent u x → NoCont u r →
      Use u .item t r
  | file {s w w' x r : Str} : contentOk s = true → Blank u w → Blank u w' → IsIdent u x → NoCont u r →
      Use u .item ('"' :: (s ++ ('"' :: (w ++ (c!"as" ++ (w' ++ (x ++ r))))))) r
  | close {r : Str} : Use u .rest ('}' :: r) r
  | comma {b : Bool} {w t w' s r : Str} : Blank u w → Use u .item t (w' ++ s) → Blank u w' → Use u .rest s r →
      Use u .rest (commaText b ++ (w ++ t)) r
  | semi {b : Bool} {w t w' s r : Str} : Blank u w → Use u .item t (w' ++ s) → Blank u w' → Use u .rest s r →
      Use u .rest (semiText b ++ (w ++ t)) r
  | next {t w' s r : Str} : Use u .item t (w' ++ s) → Blank u w' → Use u .rest s r → Use u .rest t r
  | closeComma {b : Bool} {w r : Str} : Blank u w → Use u .rest (commaText b ++ (w ++ ('}' :: r))) r
  | closeSemi {b : Bool} {w r : Str} : Blank u w → Use u .rest (semiText b ++ (w ++ ('}' :: r))) r

/-- Dots with blank space after each. -/
inductive Dots (u : Uni) : Str → Str → Prop
  | none {t : Str} : Dots u t t
  | more {w t r : Str} : Blank u w → Dots u t r → Dots u ('.' :: (w ++ t)) r

/-- What may stand after the at sign of an annotation, apart from names: a list, or arguments in brackets. -/
inductive Mark (u : Uni) : Str → Prop
  | nil {w : Str} : Blank u w → Mark u ('[' :: (w ++ [']']))
  | list {i : SItem} {l : List SItem} {o : Trail} : (SNode.list i l o).Ok u → Mark u (SNode.list i l o).text
  | args {a : SArgs} {z : Str} : a.Ok u → a.text = '(' :: z → Mark u a.text

/-- Annotations before a statement: names, lists or arguments with an at sign. -/
inductive Notes (u : Uni) : Str → Str → Prop
  | one {x w t : Str} : IsIdent u x → Blank u w → w ≠ [] → Solid u t → (∀ z, t ≠ '@' :: z) → Notes u ('@' :: (x ++ (w ++ t))) t
  | more {x w t s : Str} : IsIdent u x → Blank u w → Notes u t s → Notes u ('@' :: (x ++ (w ++ t))) s
  | mark {y w t : Str} : Mark u y → Blank u w → Solid u t → (∀ z, t ≠ '@' :: z) → Notes u ('@' :: (y ++ (w ++ t))) t
  | marks {y w t s : Str} : Mark u y → Blank u w → Notes u t s → Notes u ('@' :: (y ++ (w ++ t))) s

/-- The parts of statements: a statement, which is or is not an expression; any number of statements, up to a closing
brace or the end of the text; a block; what follows the names of a definition, without and with a type; what follows
the condition of an `if`; a member of a class, any number of members, and the members in braces. -/
inductive CmdPart where
  | stmt (expression : Bool) | many | block | bound | hinted | arms | member | members | short

/-- The first text begins with such a part, and what follows is the second text. -/
inductive Cmd (u : Uni) : CmdPart → Str → Str → Prop
  | expr {e : SExpr} {t r : Str} : e.Ok u → Wordless e.text → Ending u t r → Cmd u (.stmt true) (e.text ++ t) r
  | empty {b : Bool} {w r : Str} : Blank u w → Solid u r → NoSemi r → Cmd u (.stmt false) (semiText b ++ (w ++ r)) r
  | ret {w t r : Str} {e : SExpr} : Blank u w → e.Ok u → Ending u t r →
      Cmd u (.stmt false) (c!"return" ++ (w ++ (e.text ++ t))) r
  | word {k t r : Str} : k ∈ [c!"break", c!"pass"] → Ending u t r → Cmd u (.stmt false) (k ++ t) r
  | assign {w t s r : Str} : Blank u w → Names u t s → Cmd u .hinted s r → Cmd u (.stmt false) (c!"let" ++ (w ++ t)) r
  | assigns {w w1 w2 t s r : Str} : Blank u w → Blank u w1 → Names u t (')' :: (w2 ++ s)) → Blank u w2 →
      Cmd u .hinted s r → Cmd u (.stmt false) (c!"let" ++ (w ++ ('(' :: (w1 ++ t)))) r
  | define {w x w1 w2 t w3 s r : Str} : Blank u w → IsIdent u x → Blank u w1 → Blank u w2 → Parameters u t (w3 ++ s) →
      Blank u w3 → Cmd u .hinted s r → Cmd u (.stmt false) (c!"def" ++ (w ++ (x ++ (w1 ++ ('(' :: (w2 ++ t)))))) r
  | constant {w x w1 w2 w3 s r : Str} : Blank u w → IsIdent u x → Blank u w1 → Blank u w2 → Blank u w3 →
      Cmd u .hinted s r → Cmd u (.stmt false) (c!"def" ++ (w ++ (x ++ (w1 ++ ('(' :: (w2 ++ (')' :: (w3 ++ s)))))))) r
  | branch {w t s r : Str} : Blank u w → Condition u t s → Cmd u .arms s r → Cmd u (.stmt false) (c!"if" ++ (w ++ t)) r
  | loop {w x w1 w2 w3 t s r : Str} {e : SExpr} : Blank u w → IsIdent u x → Blank u w1 → w1 ≠ [] → Blank u w2 → e.Ok u →
      Blank u w3 → Cmd u .block t s → Ending u s r →
      Cmd u (.stmt false) (c!"for" ++ (w ++ (x ++ (w1 ++ (c!"in" ++ (w2 ++ (e.text ++ (w3 ++ t)))))))) r
  | none {r : Str} : HeadIn ['}'] r → Cmd u .many r r
  | next {b : Bool} {t s r : Str} : Cmd u (.stmt b) t s → Cmd u .many s r → Cmd u .many t r
  | block {b : Bool} {w t s r : Str} : Blank u w → Cmd u (.stmt b) t s → Cmd u .many s ('}' :: r) →
      Cmd u .block ('{' :: (w ++ t)) r
  | bare {t r : Str} : Closing u t r → Cmd u .bound t r
  | set {b : Bool} {w t r : Str} : Blank u w → Cmd u (.stmt b) t r → Cmd u .bound ('=' :: (w ++ t)) r
  | body {t s r : Str} : Cmd u .block t s → Ending u s r → Cmd u .bound t r
  | untyped {t r : Str} : Cmd u .bound t r → Cmd u .hinted t r
  | typed {b : Bool} {w w' t r : Str} {T : STerm} : Blank u w → T.Ok u → Blank u w' →
      Parted u ['=', '{', ';', '；', '}', ',', '，'] w' t → Cmd u .bound t r →
      Cmd u .hinted (colonText b ++ (w ++ (T.text ++ (w' ++ t)))) r
  | arm {b : Bool} {w t s r : Str} : Blank u w → Cmd u (.stmt b) t ('}' :: s) → Ending u s r →
      Cmd u .arms ('{' :: (w ++ t)) r
  | arms {b b' d : Bool} {w t w' t' s r : Str} : Blank u w → Cmd u (.stmt b) t (commaText d ++ (w' ++ t')) → Blank u w' →
      Cmd u (.stmt b') t' ('}' :: s) → Ending u s r → Cmd u .arms ('{' :: (w ++ t)) r
  | armss {b b' b'' d d' : Bool} {w t w' t' w'' t'' s r : Str} : Blank u w →
      Cmd u (.stmt b) t (commaText d ++ (w' ++ t')) → Blank u w' →
      Cmd u (.stmt b') t' (commaText d' ++ (w'' ++ t'')) → Blank u w'' →
      Cmd u (.stmt b'') t'' ('}' :: s) → Ending u s r → Cmd u .arms ('{' :: (w ++ t)) r
  | then' {w t s r : Str} : Blank u w → Cmd u .block t s → Ending u s r → Cmd u .arms (c!"then" ++ (w ++ t)) r
  | else' {w t w1 w2 t' s r : Str} : Blank u w → Cmd u .block t (w1 ++ (c!"else" ++ (w2 ++ t'))) → Blank u w1 → Blank u w2 →
      Cmd u .block t' s → Ending u s r → Cmd u .arms (c!"then" ++ (w ++ t)) r
  | otherwise {w t w1 w2 t' s r : Str} : Blank u w → Cmd u .block t (w1 ++ (c!"otherwise" ++ (w2 ++ t'))) → Blank u w1 →
      Blank u w2 → Cmd u .block t' s → Ending u s r → Cmd u .arms (c!"then" ++ (w ++ t)) r
  | elseOtherwise {w t w1 w2 t' w3 w4 t'' s r : Str} : Blank u w → Cmd u .block t (w1 ++ (c!"else" ++ (w2 ++ t'))) →
      Blank u w1 → Blank u w2 → Cmd u .block t' (w3 ++ (c!"otherwise" ++ (w4 ++ t''))) → Blank u w3 → Blank u w4 →
      Cmd u .block t'' s → Ending u s r → Cmd u .arms (c!"then" ++ (w ++ t)) r

  | use {w t s w' z r : Str} : Blank u w → Dots u t s → Use u .item s (w' ++ z) → Blank u w' → Closing u z r →
      Cmd u (.stmt false) (c!"using" ++ (w ++ t)) r
  | kind {k w x t r : Str} : k ∈ [c!"class", c!"trait"] → Blank u w → IsIdent u x → Ending u t r →
      Cmd u (.stmt false) (k ++ (w ++ (x ++ t))) r
  | kinds {k w x w1 t s r : Str} : k ∈ [c!"class", c!"trait"] → Blank u w → IsIdent u x → Blank u w1 → Cmd u .short t s →
      Ending u s r → Cmd u (.stmt false) (k ++ (w ++ (x ++ (w1 ++ t)))) r
  | extend {w x w1 t s r : Str} : Blank u w → IsIdent u x → Blank u w1 → Cmd u .short t s → Ending u s r →
      Cmd u (.stmt false) (c!"extends" ++ (w ++ (x ++ (w1 ++ t)))) r
  | extends' {w x w1 w2 y w3 t s r : Str} : Blank u w → IsIdent u x → Blank u w1 → w1 ≠ [] → Blank u w2 → IsIdent u y →
      Blank u w3 → Cmd u .short t s → Ending u s r →
      Cmd u (.stmt false) (c!"extends" ++ (w ++ (x ++ (w1 ++ (c!"with" ++ (w2 ++ (y ++ (w3 ++ t)))))))) r
  | noted {b : Bool} {t s r : Str} : Notes u t s → Cmd u (.stmt b) s r → Cmd u (.stmt false) t r
  | short {w t r : Str} : Blank u w → Cmd u .members t ('}' :: r) → Cmd u .short ('{' :: (w ++ t)) r
  | noMember {r : Str} : Cmd u .members ('}' :: r) ('}' :: r)
  | member {t s r : Str} : Cmd u .member t s → Cmd u .members s r → Cmd u .members t r
  | emptyMember {b : Bool} {w r : Str} : Blank u w → Solid u r → NoSemi r → Cmd u .member (semiText b ++ (w ++ r)) r
  | method {x w1 w2 t w3 s r : Str} : IsIdent u x → strip c!"def" x = none → Blank u w1 → Blank u w2 →
      Parameters u t (w3 ++ s) → Blank u w3 → Cmd u .hinted s r → Cmd u .member (x ++ (w1 ++ ('(' :: (w2 ++ t)))) r
  | defMethod {w x w1 w2 t w3 s r : Str} : Blank u w → IsIdent u x → Blank u w1 → Blank u w2 →
      Parameters u t (w3 ++ s) → Blank u w3 → Cmd u .hinted s r → Cmd u .member (c!"def" ++ (w ++ (x ++ (w1 ++ ('(' :: (w2 ++ t)))))) r
  | getter {x w1 w2 w3 s r : Str} : IsIdent u x → strip c!"def" x = none → Blank u w1 → Blank u w2 → Blank u w3 →
      Cmd u .hinted s r → Cmd u .member (x ++ (w1 ++ ('(' :: (w2 ++ (')' :: (w3 ++ s)))))) r
  | defGetter {w x w1 w2 w3 s r : Str} : Blank u w → IsIdent u x → Blank u w1 → Blank u w2 → Blank u w3 →
      Cmd u .hinted s r → Cmd u .member (c!"def" ++ (w ++ (x ++ (w1 ++ ('(' :: (w2 ++ (')' :: (w3 ++ s)))))))) r
  | field {t s r : Str} : Names u t s → strip c!"def" t = none → strip c!"let" t = none → (∀ z, s ≠ '(' :: z) →
      Cmd u .hinted s r → Cmd u .member t r
  | letField {w t s r : Str} : Blank u w → w ≠ [] → Names u t s → Cmd u .hinted s r → Cmd u .member (c!"let" ++ (w ++ t)) r
  | notedMember {t s r : Str} : Notes u t s → Cmd u .member s r → Cmd u .member t r

variable {u : Uni}

/-! ### What may follow -/

theorem LineStart.anew {r : Str} (h : LineStart u r) : Anew u r := by
  intro c t e
  obtain ⟨h1, h2⟩ := h.1 c t e
  simp only [List.mem_append, not_or] at h2
  refine ⟨h1, h2.1, ?_, ?_⟩ <;> rintro rfl <;> exact h2.2 (by decide)

theorem LineStart.head {r : Str} (h : LineStart u r) {c : Char} (hc : c ∈ operatorChars ++ [';', '；', '{', ':', '：', ',', '，', '|']) :
    ∀ t, r ≠ c :: t := fun t e => (h.1 c t e).2 hc

/-- All characters that may follow the parts. -/
def partEnds : List Char := [':', '：', '=', '{', ';', '；', '}', ')', ',', '，']

theorem Parted.mono {S S' : List Char} {w s : Str} (h : Parted u S w s) (hS : ∀ c ∈ S, c ∈ S') : Parted u S' w s :=
  h.imp (fun h => h.mono hS) id

theorem Parted.solid (L : Lawful u) {w s : Str} (h : Parted u partEnds w s) : Solid u s := by
  rcases h with h | ⟨-, h⟩
  · exact solid_head L h (by decide)
  · exact h.anew.solid

theorem head_noCont (L : Lawful u) {S : List Char} {s : Str} (h : HeadIn S s)
    (hS : ∀ c ∈ S, Plain c ∧ asciiUni .xidContinue c = false) : NoCont u s := by
  rintro c t rfl
  rcases h with h | ⟨d, t', h, hd⟩
  · cases h
  · cases h
    rw [L.plain _ _ (hS c hd).1]; exact (hS c hd).2

theorem Parted.noCont (L : Lawful u) {w s : Str} (hw : Blank u w) (h : Parted u partEnds w s) : NoCont u (w ++ s) := by
  rcases h with h | ⟨h, -⟩
  · exact noCont_blank L hw (head_noCont L h (by decide))
  · exact breaking_noCont L hw h s

theorem head_first (L : Lawful u) {S : List Char} {w s : Str} (hw : Blank u w) (h : HeadIn S s) {d : Char} (hd : Plain d)
    (hd2 : asciiUni .whiteSpace d = false) (hd3 : d ≠ '/') (hS : d ∉ S) : ∀ t, w ++ s ≠ d :: t := by
  refine blank_first L hw hd hd2 hd3 fun _ t e => ?_
  rcases h with h | ⟨c, t', h, hc⟩
  · rw [h] at e; cases e
  · rw [h] at e; cases e; exact hS hc

theorem Parted.first (L : Lawful u) {S : List Char} {w s : Str} (hw : Blank u w) (h : Parted u S w s) {d : Char} (hd : Plain d)
    (hd2 : asciiUni .whiteSpace d = false) (hd3 : d ≠ '/') (hS : d ∉ S) : ∀ t, w ++ s ≠ d :: t := by
  rcases h with h | ⟨h, -⟩
  · exact head_first L hw h hd hd2 hd3 hS
  · refine blank_first L hw hd hd2 hd3 fun e => ?_
    subst e
    rcases h with h | h <;> cases h

/-- What may follow an expression within a statement. -/
def exprEnds : List Char := ['=', '{', ';', '；', '}', ')', ',', '，']

theorem Parted.follow (L : Lawful u) {w s : Str} (hw : Blank u w) (h : Parted u exprEnds w s) : Follow u (w ++ s) := by
  rcases h with h | ⟨h, -⟩
  · exact ⟨blank_endsIn (by decide) hw (h.mono (by decide)),
      noPath_first (head_first L hw h (by decide) (by decide) (by decide) (by decide))
        (head_first L hw h (by decide) (by decide) (by decide) (by decide))⟩
  · exact breaking_follow L hw h s

theorem Parted.stop (L : Lawful u) {w s : Str} (h : Parted u ['{', ';', '；', '}', ')', ',', '，'] w s) : Stop u s := by
  rcases h with h | ⟨-, h⟩
  · exact ⟨solid_head L h (by decide), fun _ => fails_head L h (by decide) (by decide)⟩
  · exact h.anew.stop

/-- An expression and what follows it. -/
theorem goes_expr (L : Lawful u) {e : SExpr} (he : e.Ok u) {w s : Str} (hw : Blank u w)
    (h : Parted u ['{', ';', '；', '}', ')', ',', '，'] w s) :
    Goes u vN (.call .expr) (e.text ++ (w ++ s)) (left e.solo w ++ s) := by
  have := goes_eats ((SExpr.read L e he).eats vN rfl w s hw (h.stop L) ((h.mono (by decide)).follow L hw))
  rwa [List.append_assoc, taken_left] at this

/-- A type and what follows it. -/
theorem goes_hint (L : Lawful u) {T : STerm} (hT : T.Ok u) (b : Bool) {w w' s : Str} (hw : Blank u w) (hw' : Blank u w')
    (h : Parted u exprEnds w' s) :
    Goes u vN (.call .type_hint) (colonText b ++ (w ++ (T.text ++ (w' ++ s)))) s := by
  have hx := STerm.read L T hT
  have hs : Solid u s := (h.mono (by decide : ∀ c ∈ exprEnds, c ∈ partEnds)).solid L
  have no : ∀ t, s ≠ '|' :: t := by
    intro t e
    rcases h with h | ⟨-, h⟩
    · rcases h with h | ⟨c, t', h, hc⟩
      · rw [h] at e; cases e
      · rw [h] at e; cases e; exact absurd hc (by decide)
    · exact h.head (by decide) t e
  refine goes_call (goes_rule (goes_seq (goes_cat (goes_cat (goes_eats (eats_Colon rfl b _))
    (goes_skip L hw (term_head_solid L hx.head _))) ?_)))
  refine goes_call (goes_seq (goes_cat (goes_cat (goes_eats (hx.eats _ (h.follow L hw') ?_)) (goes_skip L hw' hs)) ?_))
  · intro _ c r e
    exact absurd e (h.first L hw' (by decide) (by decide) (by decide) (by decide) _)
  · refine goes_seq (goes_opt_nil (fails_cat (fails_restore (fails_seq (breaks_cat (breaks_cat (Fails.breaks ?_)))))))
    refine fails_call (fails_rule (fails_atomic (fails_call (fails_rule (fails_atomic (fails_str ?_))))))
    cases s with
    | nil => rfl
    | cons c t =>
      have : '|' ≠ c := fun e => no t (by rw [e])
      simp [strip, this]

/-! ### Names and parameters -/

theorem ident_solid (L : Lawful u) {x : Str} (hx : IsIdent u x) (t : Str) : Solid u (x ++ t) := by
  obtain ⟨a, z, e, ha⟩ := hx.start
  rw [e]; exact id_solid L (ident_cont L hx a (by simp [e])) _

theorem ident_head (L : Lawful u) {x : Str} (hx : IsIdent u x) {d : Char} (h1 : Plain d) (h2 : asciiUni .xidContinue d = false)
    (t : Str) : ∀ z, x ++ t ≠ d :: z := by
  obtain ⟨a, z, e, ha⟩ := hx.start
  intro y h
  rw [e] at h
  exact cont_ne L (ident_cont L hx a (by simp [e])) h1 h2 (List.cons.inj h).1

theorem goes_name (L : Lawful u) {x z : Str} (hx : IsIdent u x) (h1 : NoCont u z) (h2 : NoPath u z) :
    Goes u vN (.call .assign_pair) (x ++ z) z := by
  have := eats_Symbol L (p := ⟨x, []⟩) ⟨hx, by simp⟩ h1 h2 (v := vN) rfl
  rw [show (Path.mk x []).text = x by simp [Path.text, moreText]] at this
  exact goes_eats (eats_call (eats_rule_any this))

theorem goes_comma (b : Bool) (z : Str) : Goes u vN (.call .Comma) (commaText b ++ z) z := goes_eats (eats_Comma rfl b z)

theorem comma_first (L : Lawful u) {w : Str} (hw : Blank u w) (b : Bool) (t : Str) :
    NoCont u (w ++ (commaText b ++ t)) ∧ NoPath u (w ++ (commaText b ++ t)) := by
  have h : HeadIn closeChars (commaText b ++ t) := by
    cases b
    · exact .inr ⟨',', t, rfl, by decide⟩
    · exact .inr ⟨'，', t, rfl, by decide⟩
  have h' : HeadIn [',', '，'] (commaText b ++ t) := by
    cases b
    · exact .inr ⟨',', t, rfl, by decide⟩
    · exact .inr ⟨'，', t, rfl, by decide⟩
  exact ⟨noCont_blank L hw (noCont_close L h), noPath_first
    (head_first L hw h' (by decide) (by decide) (by decide) (by decide))
    (head_first L hw h' (by decide) (by decide) (by decide) (by decide))⟩

theorem noPath_parted (L : Lawful u) {w s : Str} (hw : Blank u w) (h : Parted u partEnds w s) (hs : ∀ t, s ≠ ':' :: ':' :: t) :
    NoPath u (w ++ s) := by
  refine ⟨fun c r e => ?_, h.first L hw (by decide) (by decide) (by decide) (by decide)⟩
  cases w with
  | nil => exact absurd e (hs _)
  | cons a w' =>
    exfalso
    rcases h with h | ⟨hb, -⟩
    · refine absurd (List.cons.inj e).1 ?_
      rcases blank_head hw with h0 | ⟨a', w'', h0, ha⟩
      · cases h0
      · cases h0
        rcases ha with ha | rfl
        · rintro rfl
          unfold Ws at ha
          rw [L.plain _ _ (by decide)] at ha
          exact absurd ha (by decide)
        · decide
    · exact blank_first L hw (by decide) (by decide) (by decide) (fun e => by cases e) _ e

/-- The names after the first. -/
theorem names_goes (L : Lawful u) {t s : Str} (h : Names u t s) :
    Solid u t ∧ (∀ z, t ≠ '(' :: z) ∧ Solid u s ∧
    ∃ w t' s' w', Blank u w ∧ Goes u vN (.call .assign_pair) t (w ++ t') ∧
      Items u (.seq (.cat (.cat (.call .Comma) (.call .skip)) (.call .assign_pair))) t' s' ∧ Blank u w' ∧
      Goes u vN (.opt (.call .Comma)) s' (w' ++ s) := by
  induction h with
  | @one x w s hx hw hp hs =>
    have hs1 : Parted u partEnds w s := hp.mono (by decide)
    have hno : ∀ c z, s = c :: z → c ≠ ',' ∧ c ≠ '，' := by
      rintro c z rfl
      rcases hp with h | ⟨-, h⟩
      · rcases h with h | ⟨d, t', h, hd⟩
        · cases h
        · cases h
          constructor <;> rintro rfl <;> exact absurd hd (by decide)
      · exact ⟨fun e => h.head (c := ',') (by decide) z (by rw [e]), fun e => h.head (c := '，') (by decide) z (by rw [e])⟩
    exact ⟨ident_solid L hx _, ident_head L hx (by decide) (by decide) _, hs1.solid L, w, s, s, [], hw,
      goes_name L hx (hs1.noCont L hw) (noPath_parted L hw hs1 hs),
      .stop (hs1.solid L) (fails_seq (breaks_cat (breaks_cat (fails_Comma hno).breaks))), blank_nil, goes_opt_nil (fails_Comma hno)⟩
  | @more x w w' t s b hx hw hw' _ ih =>
    obtain ⟨i1, -, i3, v, t', s', v', i5, i6, i7, i8, i9⟩ := ih
    obtain ⟨c1, c2⟩ := comma_first L hw b (w' ++ t)
    exact ⟨ident_solid L hx _, ident_head L hx (by decide) (by decide) _, i3, w, _, s', v', hw, goes_name L hx c1 c2,
      .step (comma_solid L b _) i5 (goes_seq (goes_cat (goes_cat (goes_comma b _) (goes_skip L hw' i1)) i6)) i7, i8, i9⟩
  | @comma x w w' s b hx hw hw' hs =>
    have hsol : Solid u s := solid_head L hs (by decide)
    obtain ⟨c1, c2⟩ := comma_first L hw b (w' ++ s)
    exact ⟨ident_solid L hx _, ident_head L hx (by decide) (by decide) _, hsol, w, _, _, w', hw, goes_name L hx c1 c2,
      .stop (comma_solid L b _) (fails_seq (breaks_goes (goes_cat (goes_comma b _) (goes_skip L hw' hsol))
        (fails_head L hs (by decide) (by decide)).breaks)), hw', goes_opt (goes_comma b _)⟩

theorem goes_names (L : Lawful u) {t s : Str} (h : Names u t s) : ∃ w, Blank u w ∧ Goes u vN (.call .assign_name) t (w ++ s) := by
  obtain ⟨-, -, h1, w, t', s', v, h3, h4, h5, h8, h9⟩ := names_goes L h
  obtain ⟨w', h6, h7⟩ := h5.opt L
  exact ⟨v, h8, goes_call (goes_seq (goes_cat (goes_cat (goes_cat (goes_cat h4 (goes_skip L h3 h5.solid.1)) (goes_seq h7))
    (goes_skip L h6 h5.solid.2)) h9))⟩

theorem goes_set (z : Str) : Goes u vN (.call .Set) ('=' :: z) z := goes_eats (eats_tok (x := ['=']) rfl rfl z)

theorem fails_set {z : Str} (h : ∀ t, z ≠ '=' :: t) {v : Env} : Fails u v (.call .Set) z := by
  refine fails_tok (x := ['=']) rfl ?_
  cases z with
  | nil => rfl
  | cons c t =>
    have : '=' ≠ c := fun e => h t (by rw [e])
    simp [strip, this]

theorem fails_hint {z : Str} (h : ∀ c t, z = c :: t → c ≠ ':' ∧ c ≠ '：') {v : Env} : Fails u v (.call .type_hint) z := by
  refine fails_call (fails_rule (fails_seq (breaks_cat (breaks_cat (Fails.breaks (fails_call (fails_rule (fails_atomic
    (fails_alt (fails_str ?_) (fails_str ?_))))))))))
  all_goals
    cases z with
    | nil => rfl
    | cons c t =>
      obtain ⟨h1, h2⟩ := h c t rfl
      simp [strip, Ne.symm h1, Ne.symm h2]

theorem head_not {S : List Char} {s : Str} (h : HeadIn S s) {d : Char} (hd : d ∉ S) : ∀ t, s ≠ d :: t := by
  rintro t rfl
  rcases h with h | ⟨c, t', h, hc⟩
  · cases h
  · cases h; exact hd hc

theorem head_nots {S : List Char} {s : Str} (h : HeadIn S s) {d d' : Char} (hd : d ∉ S) (hd' : d' ∉ S) :
    ∀ c t, s = c :: t → c ≠ d ∧ c ≠ d' := by
  rintro c t rfl
  exact ⟨fun e => head_not h hd t (by rw [e]), fun e => head_not h hd' t (by rw [e])⟩

theorem colon_head (b : Bool) (t : Str) : HeadIn [':', '：'] (colonText b ++ t) := by
  cases b
  · exact .inr ⟨':', t, rfl, by decide⟩
  · exact .inr ⟨'：', t, rfl, by decide⟩

/-- A parameter. -/
theorem goes_parameter (L : Lawful u) {t s : Str} (h : Parameter u t s) :
    Solid u t ∧ (∀ z, t ≠ ')' :: z) ∧ Solid u s ∧ ∃ w, Blank u w ∧ Goes u vN (.call .define_pair) t (w ++ s) := by
  have name : ∀ {x w z : Str}, IsIdent u x → Blank u w → HeadIn partEnds z →
      Goes u vN (.cat (.call .SYMBOL) (.call .skip)) (x ++ (w ++ z)) z := by
    intro x w z hx hw hz
    exact goes_cat (goes_eats (eats_SYMBOL L rfl hx (noCont_blank L hw (head_noCont L hz (by decide)))))
      (goes_skip L hw (solid_head L hz (by decide)))
  have nodef : ∀ {z : Str}, HeadIn [',', '，', ')'] z →
      Goes u vN (.opt (.restore (.seq (.cat (.cat (.call .Set) (.call .skip)) (.call .expr))))) z z := by
    intro z hz
    exact goes_opt_nil (fails_restore (fails_seq (breaks_cat (breaks_cat (fails_set (head_not hz (by decide))).breaks))))
  have nohint : ∀ {z : Str}, HeadIn ['=', ',', '，', ')'] z → Goes u vN (.opt (.restore (.call .type_hint))) z z := by
    intro z hz
    exact goes_opt_nil (fails_restore (fails_hint (head_nots hz (by decide) (by decide))))
  have def' : ∀ {w3 w4 z : Str} {e : SExpr}, Blank u w3 → e.Ok u → Blank u w4 → HeadIn [',', '，', ')'] z →
      Goes u vN (.opt (.restore (.seq (.cat (.cat (.call .Set) (.call .skip)) (.call .expr)))))
        ('=' :: (w3 ++ (e.text ++ (w4 ++ z)))) (left e.solo w4 ++ z) := by
    intro w3 w4 z e h3 he h4 hz
    exact goes_opt (goes_restore (goes_seq (goes_cat (goes_cat (goes_set _)
      (goes_skip L h3 (term_head_solid L (SExpr.read L e he).head _))) (goes_expr L he h4 (.inl (hz.mono (by decide)))))))
  have eq : ∀ t : Str, HeadIn ['='] ('=' :: t) := fun t => .inr ⟨_, _, rfl, by simp⟩
  cases h with
  | @plain x w _ hx hw hs =>
    have hsol : Solid u s := solid_head L hs (by decide)
    exact ⟨ident_solid L hx _, ident_head L hx (by decide) (by decide) _, hsol, [], blank_nil,
      goes_call (goes_rule (goes_seq (goes_cat (goes_cat (goes_cat (name hx hw (hs.mono (by decide)))
        (nohint (hs.mono (by decide)))) (goes_skip_nil L hsol)) (nodef hs))))⟩
  | @typed x w w1 w2 _ b T hx hw h1 hT h2 hs =>
    have hsol : Solid u s := solid_head L hs (by decide)
    exact ⟨ident_solid L hx _, ident_head L hx (by decide) (by decide) _, hsol, [], blank_nil,
      goes_call (goes_rule (goes_seq (goes_cat (goes_cat (goes_cat (name hx hw ((colon_head b _).mono (by decide)))
        (goes_opt (goes_restore (goes_hint L hT b h1 h2 (.inl (hs.mono (by decide))))))) (goes_skip_nil L hsol)) (nodef hs))))⟩
  | @default x w w3 w4 _ e hx hw h3 he h4 hs =>
    have hsol : Solid u s := solid_head L hs (by decide)
    exact ⟨ident_solid L hx _, ident_head L hx (by decide) (by decide) _, hsol, left e.solo w4, blank_left h4 _,
      goes_call (goes_rule (goes_seq (goes_cat (goes_cat (goes_cat (name hx hw ((eq _).mono (by decide)))
        (nohint ((eq _).mono (by decide)))) (goes_skip_nil L (solid_head L (eq _) (by decide)))) (def' h3 he h4 hs))))⟩
  | @both x w w1 w2 w3 w4 _ b T e hx hw h1 hT h2 h3 he h4 hs =>
    have hsol : Solid u s := solid_head L hs (by decide)
    exact ⟨ident_solid L hx _, ident_head L hx (by decide) (by decide) _, hsol, left e.solo w4, blank_left h4 _,
      goes_call (goes_rule (goes_seq (goes_cat (goes_cat (goes_cat (name hx hw ((colon_head b _).mono (by decide)))
        (goes_opt (goes_restore (goes_hint L hT b h1 h2 (.inl ((eq _).mono (by decide)))))))
        (goes_skip_nil L (solid_head L (eq _) (by decide)))) (def' h3 he h4 hs))))⟩

/-- Parameters. -/
theorem parameters_goes (L : Lawful u) {t s : Str} (h : Parameters u t s) :
    Solid u t ∧ (∀ z, t ≠ ')' :: z) ∧ ∃ w t' s' w', Blank u w ∧ Goes u vN (.call .define_pair) t (w ++ t') ∧
      Items u (.restore (.seq (.cat (.cat (.call .Comma) (.call .skip)) (.call .define_pair)))) t' s' ∧ Blank u w' ∧
      Goes u vN (.opt (.call .Comma)) s' (w' ++ ')' :: s) := by
  induction h with
  | one h =>
    obtain ⟨h1, h2, h3, w, h4, h5⟩ := goes_parameter L h
    have hc : ∀ {s : Str}, Fails u vN (.call .Comma) (')' :: s) := fails_Comma (by rintro c z e; cases e; decide)
    exact ⟨h1, h2, w, _, _, [], h4, h5, .stop h3 (fails_restore (fails_seq (breaks_cat (breaks_cat hc.breaks)))), blank_nil,
      goes_opt_nil hc⟩
  | @more t w t' s b h hw _ ih =>
    obtain ⟨h1, h2, h3, v, h4, h5⟩ := goes_parameter L h
    obtain ⟨i1, -, v', t'', s', w', i2, i3, i4, i5, i6⟩ := ih
    exact ⟨h1, h2, v, _, s', w', h4, h5, .step h3 i2 (goes_restore (goes_seq (goes_cat (goes_cat (goes_comma b _)
      (goes_skip L hw i1)) i3))) i4, i5, i6⟩
  | @comma t w s b h hw =>
    obtain ⟨h1, h2, h3, v, h4, h5⟩ := goes_parameter L h
    have hs : Solid u (')' :: s) := close_solid L (.inr ⟨_, _, rfl, by decide⟩)
    exact ⟨h1, h2, v, _, _, w, h4, h5, .stop h3 (fails_restore (fails_seq (breaks_goes (goes_cat (goes_comma b _)
      (goes_skip L hw hs)) (fails_plain L (by decide) _).breaks))), hw, goes_opt (goes_comma b _)⟩

theorem goes_parameters (L : Lawful u) {w t s : Str} (hw : Blank u w) (h : Parameters u t s) :
    Goes u vN (.call .define_parameter) ('(' :: (w ++ t)) s := by
  obtain ⟨h1, h2, w1, t', s', w', h3, h4, h5, h8, h9⟩ := parameters_goes L h
  obtain ⟨w2, h6, h7⟩ := h5.opt L
  have hs : Solid u (')' :: s) := close_solid L (.inr ⟨_, _, rfl, by decide⟩)
  exact goes_call (goes_rule (goes_seq (goes_cat (goes_cat (goes_str ['(']) (goes_skip L hw h1)) (goes_left
    (goes_restore (goes_seq (goes_cat (goes_cat (goes_cat (goes_cat (goes_cat (goes_cat h4 (goes_skip L h3 h5.solid.1))
      (goes_seq h7)) (goes_skip L h6 h5.solid.2)) h9) (goes_skip L h8 hs)) (goes_str [')']))))))))

theorem goes_no_parameters (L : Lawful u) {w s : Str} (hw : Blank u w) :
    Goes u vN (.call .define_parameter) ('(' :: (w ++ (')' :: s))) s := by
  have hs : Solid u (')' :: s) := close_solid L (.inr ⟨_, _, rfl, by decide⟩)
  refine goes_call (goes_rule (goes_seq (goes_cat (goes_cat (goes_str ['(']) (goes_skip L hw hs)) (goes_right
    (fails_restore (fails_seq (breaks_cat (breaks_cat (breaks_cat (breaks_cat (breaks_cat (breaks_cat (Fails.breaks
      (fails_plain L (by decide) _)))))))))) (goes_str [')'])))))

/-! ### The end of a statement -/

/-- What remains of a statement is its end. -/
def Finish (u : Uni) (t r : Str) : Prop :=
  ∃ w s v, t = w ++ s ∧ Blank u w ∧ Solid u s ∧ Blank u v ∧ Goes u vN (.opt (.call .eos)) s (v ++ r) ∧ Solid u r ∧ NoSemi r

theorem semi_head (b : Bool) (t : Str) : HeadIn [';', '；'] (semiText b ++ t) := by
  cases b
  · exact .inr ⟨';', t, rfl, by decide⟩
  · exact .inr ⟨'；', t, rfl, by decide⟩

theorem head_strip {S : List Char} {s : Str} (h : HeadIn S s) {d : Char} (hd : d ∉ S) (k : Str) : strip (d :: k) s = none := by
  cases s with
  | nil => rfl
  | cons c t =>
    have : d ≠ c := fun e => head_not h hd t (by rw [e])
    simp [strip, this]

theorem closing_goes (L : Lawful u) {s r : Str} (h : Closing u s r) :
    Solid u s ∧ Solid u r ∧ NoSemi r ∧ (∃ v, Blank u v ∧ Goes u vN (.opt (.call .eos)) s (v ++ r)) ∧
    (∀ d ∈ [':', '：', '=', '{'], ∀ t, s ≠ d :: t) ∧ strip c!"else" s = none ∧ strip c!"otherwise" s = none := by
  cases h with
  | @semi b w _ hw hr hn =>
    refine ⟨close_solid L (semi_close b _), hr, hn, ⟨w, hw, goes_opt (goes_eats (eats_eos b _))⟩, ?_,
      head_strip (semi_head b _) (by decide) _, head_strip (semi_head b _) (by decide) _⟩
    intro d hd
    refine head_not (semi_head b _) ?_
    revert hd d; decide
  | close hr =>
    have hn : NoSemi s := fun c t e => ⟨fun e' => head_not hr (d := ';') (by decide) t (by rw [e, e']),
      fun e' => head_not hr (d := '；') (by decide) t (by rw [e, e'])⟩
    refine ⟨solid_head L hr (by decide), solid_head L hr (by decide), hn, ⟨[], blank_nil, goes_opt_nil (fails_eos hn)⟩, ?_,
      head_strip hr (by decide) _, head_strip hr (by decide) _⟩
    intro d hd
    refine head_not hr ?_
    revert hd d; decide
  | line hr =>
    have hn : NoSemi s := fun c t e => (hr.anew c t e).2.2
    refine ⟨hr.anew.solid, hr.anew.solid, hn, ⟨[], blank_nil, goes_opt_nil (fails_eos hn)⟩, ?_, hr.2.1, hr.2.2⟩
    intro d hd
    refine hr.head ?_
    revert hd d; decide

theorem closing_finish (L : Lawful u) {s r : Str} (h : Closing u s r) : Finish u s r := by
  obtain ⟨h1, h2, h3, ⟨v, h4, h5⟩, -⟩ := closing_goes L h
  exact ⟨[], s, v, rfl, blank_nil, h1, h4, h5, h2, h3⟩

theorem ending_finish (L : Lawful u) {t r : Str} (h : Ending u t r) : Finish u t r := by
  obtain ⟨w, s, rfl, hw, -, h⟩ := h
  obtain ⟨h1, h2, h3, ⟨v, h4, h5⟩, -⟩ := closing_goes L h
  exact ⟨w, s, v, rfl, hw, h1, h4, h5, h2, h3⟩

theorem blank_finish {w r : Str} (hw : Blank u w) (h1 : Solid u r) (h2 : NoSemi r) : Finish u (w ++ r) r :=
  ⟨w, r, [], rfl, hw, h1, blank_nil, goes_opt_nil (fails_eos h2), h1, h2⟩

/-- A statement and its end. -/
theorem goes_finish (L : Lawful u) {e : PE R} {t s r : Str} (h1 : Goes u vN e t s) (h2 : Finish u s r) :
    ∃ v, Blank u v ∧ Goes u vN (.restore (.seq (.cat (.cat e (.call .skip)) (.opt (.call .eos))))) t (v ++ r) := by
  obtain ⟨w, s', v, rfl, hw, hs, hv, hg, -⟩ := h2
  exact ⟨v, hv, goes_restore (goes_seq (goes_cat (goes_cat h1 (goes_skip L hw hs)) hg))⟩

theorem Finish.solid {s r : Str} (h : Finish u s r) : Solid u r ∧ NoSemi r := by
  obtain ⟨_, _, _, _, _, _, _, _, h⟩ := h
  exact h

/-- An expression and the end of the statement. -/
theorem goes_expr_end (L : Lawful u) {e : SExpr} (he : e.Ok u) {t r : Str} (h : Ending u t r) :
    ∃ s, Goes u vN (.call .expr) (e.text ++ t) s ∧ Finish u s r := by
  obtain ⟨w, s, rfl, hw, hp, h⟩ := h
  obtain ⟨h1, h2, h3, ⟨v, h4, h5⟩, -⟩ := closing_goes L h
  exact ⟨_, goes_expr L he hw (hp.mono (by decide)), _, s, v, rfl, blank_left hw _, h1, h4, h5, h2, h3⟩

/-! ### Which statement it is -/

theorem word_empty (L : Lawful u) {k : Str} (hk : k ∈ statementWords) (z : Str) :
    Fails u vN (.call .emptyStatement) (k ++ z) := by
  have key : ∀ k ∈ statementWords, ∃ c r, k = c :: r ∧ Plain c ∧ asciiUni .xidStart c = true := by
    intro k hk
    simp only [statementWords, List.mem_cons, List.not_mem_nil, or_false] at hk
    rcases hk with rfl | rfl | rfl | rfl | rfl | rfl | rfl | rfl | rfl | rfl | rfl <;>
      exact ⟨_, _, rfl, by decide, by decide⟩
  obtain ⟨c, r, rfl, h1, h2⟩ := key k hk
  exact fails_empty L (.inl (by rw [L.plain _ _ h1]; exact h2)) _

theorem word_solid (L : Lawful u) {k : Str} (hk : k ∈ statementWords) (z : Str) : Solid u (k ++ z) := by
  cases k with
  | nil => exact absurd hk (by decide)
  | cons c k => exact id_solid L (words_cont L _ hk c (by simp)) _

theorem before_control (L : Lawful u) {k z : Str} (hk : k ∈ statementWords)
    (h : k ∉ [c!"using", c!"class", c!"trait", c!"extends"]) :
    Fails u vN (.alt (.alt (.alt (.alt (.call .emptyStatement)
    (.restore (.seq (.cat (.cat (.call .importStatement) (.call .skip)) (.opt (.call .eos))))))
    (.restore (.seq (.cat (.cat (.call .classStatement) (.call .skip)) (.opt (.call .eos))))))
    (.restore (.seq (.cat (.cat (.call .traitStatement) (.call .skip)) (.opt (.call .eos))))))
    (.restore (.seq (.cat (.cat (.call .extendStatement) (.call .skip)) (.opt (.call .eos)))))) (k ++ z) := by
  have no : ∀ k' ∈ [c!"using", c!"class", c!"trait", c!"extends"], strip k' (k ++ z) = none := by
    intro k' hk'
    refine strip_other hk ?_ (fun e => h (e ▸ hk')) z
    revert hk' k'; decide
  exact fails_alt (fails_alt (fails_alt (fails_alt (word_empty L hk z)
    (fails_done (fails_import (no _ (by decide))))) (fails_done (fails_class (no _ (by decide)))))
    (fails_done (fails_trait (no _ (by decide))))) (fails_done (fails_extend (no _ (by decide))))

theorem control_words : ∀ k ∈ [c!"return", c!"break", c!"pass", c!"if", c!"for"], k ∈ statementWords ∧
    k ∉ [c!"using", c!"class", c!"trait", c!"extends"] := by decide

theorem other_control (L : Lawful u) {k z s : Str} (hk : k ∈ [c!"return", c!"break", c!"pass", c!"if", c!"for"])
    (h : Goes u vN (.restore (.seq (.cat (.cat (.call .controlFlow) (.call .skip)) (.opt (.call .eos))))) (k ++ z) s) :
    Goes u vN otherStatements (k ++ z) s :=
  goes_left (goes_left (goes_left (goes_right (before_control L (control_words k hk).1 (control_words k hk).2) h)))

theorem no_control {k z : Str} (hk : k ∈ [c!"let", c!"def"]) :
    Fails u vN (.restore (.seq (.cat (.cat (.call .controlFlow) (.call .skip)) (.opt (.call .eos))))) (k ++ z) := by
  have no : ∀ k' ∈ [c!"return", c!"break", c!"pass", c!"if", c!"for"], strip k' (k ++ z) = none := by
    intro k' hk'
    refine strip_other (by revert hk k; decide) (by revert hk' k'; decide) ?_ z
    rintro rfl
    revert hk' k'; decide
  refine fails_done (fails_call (fails_alt (fails_alt (fails_restore (fails_re ?_))
    (fails_restore (fails_if (no _ (by decide))))) (fails_restore (fails_for (no _ (by decide))))))
  intro k' hk'
  exact no k' (by revert hk' k'; decide)

theorem other_let (L : Lawful u) {z s : Str}
    (h : Goes u vN (.restore (.seq (.cat (.cat (.call .assignStatement) (.call .skip)) (.opt (.call .eos))))) (c!"let" ++ z) s) :
    Goes u vN otherStatements (c!"let" ++ z) s :=
  goes_left (goes_left (goes_right (fails_alt (before_control L (by decide) (by decide)) (no_control (by decide))) h))

theorem other_def (L : Lawful u) {z s : Str}
    (h : Goes u vN (.restore (.seq (.cat (.cat (.call .defineStatement) (.call .skip)) (.opt (.call .eos))))) (c!"def" ++ z) s) :
    Goes u vN otherStatements (c!"def" ++ z) s :=
  goes_left (goes_right (fails_alt (fails_alt (before_control L (by decide) (by decide)) (no_control (by decide)))
    (fails_done (fails_let (strip_other (by decide) (by decide) (by decide) z)))) h)

theorem statement_other {t s : Str} (h : Goes u vN otherStatements t s) : Goes u vN (.call .statement) t s := by
  refine goes_call ?_
  rw [statement_split]
  exact goes_left h

/-! ### Imports -/

theorem brace_solid (L : Lawful u) (t : Str) : Solid u ('{' :: t) ∧ Solid u ('}' :: t) :=
  ⟨solid_head L (.inr ⟨'{', t, rfl, List.mem_cons_self⟩) (S := ['{']) (by decide),
    solid_head L (.inr ⟨'}', t, rfl, List.mem_cons_self⟩) (S := ['}']) (by decide)⟩

theorem plain_solid (L : Lawful u) {c : Char} (h : Plain c) (h' : asciiUni .xidContinue c = true) (t : Str) : Solid u (c :: t) :=
  id_solid L (by rw [L.plain _ _ h]; exact h') t

/-- A name after a sign. -/
def splitItem : PE R := .seq (.cat (.cat (.call .ModuleSplit) (.call .skip)) (.call .SYMBOL))

theorem goes_split {k : Str} (hk : k ∈ splitTexts) (z : Str) : Goes u vN (.call .ModuleSplit) (k ++ z) z := by
  simp only [splitTexts, List.mem_cons, List.not_mem_nil, or_false] at hk
  rcases hk with rfl | rfl | rfl
  · exact goes_call (goes_left (goes_eats (eats_tok rfl rfl z)))
  · exact goes_call (goes_right (fails_tok rfl rfl) (goes_eats (eats_Proportion rfl false z)))
  · exact goes_call (goes_right (fails_tok rfl rfl) (goes_eats (eats_Proportion rfl true z)))

theorem split_head {k : Str} (hk : k ∈ splitTexts) (z : Str) : HeadIn ['.', ':', '∷'] (k ++ z) := by
  simp only [splitTexts, List.mem_cons, List.not_mem_nil, or_false] at hk
  rcases hk with rfl | rfl | rfl
  · exact .inr ⟨'.', _, rfl, by decide⟩
  · exact .inr ⟨':', _, rfl, by decide⟩
  · exact .inr ⟨'∷', _, rfl, by decide⟩

theorem fails_split {z : Str} (h : ∀ c t, z = c :: t → c ≠ '.' ∧ c ≠ ':' ∧ c ≠ '∷') : Fails u vN (.call .ModuleSplit) z := by
  refine fails_call (fails_alt (fails_tok rfl ?_) (fails_call (fails_rule (fails_atomic (fails_alt (fails_str ?_) (fails_str ?_))))))
  all_goals
    cases z with
    | nil => rfl
    | cons c t =>
      obtain ⟨h1, h2, h3⟩ := h c t rfl
      simp [strip, h1.symm, h2.symm, h3.symm]

/-- The names of a path after the first. -/
theorem module_goes (L : Lawful u) {t r : Str} (h : Module u t r) {w s : Str} (e : r = w ++ s) (hw : Blank u w) (hs : Solid u s)
    (hf : Fails u vN splitItem s) :
    Solid u t ∧ ∃ v t', Blank u v ∧ Goes u vN (.call .SYMBOL) t (v ++ t') ∧ Items u splitItem t' s := by
  induction h with
  | @one x r hx hr =>
    subst e
    exact ⟨ident_solid L hx _, w, s, hw, goes_eats (eats_SYMBOL L rfl hx hr), .stop hs hf⟩
  | @more x w0 k w' t r hx hw0 hk hw' _ ih =>
    obtain ⟨i1, v, t', i2, i3, i4⟩ := ih e
    have hh := split_head hk (w' ++ t)
    have hc := noCont_blank L hw0 (head_noCont L hh (by decide))
    exact ⟨ident_solid L hx _, w0, _, hw0, goes_eats (eats_SYMBOL L rfl hx hc),
      .step (solid_head L hh (by decide)) i2 (goes_seq (goes_cat (goes_cat (goes_split hk _) (goes_skip L hw' i1)) i3)) i4⟩

/-- The path within an import. -/
def pathRule : PE R :=
  .cat (.cat (.cat (.call .SYMBOL) (.call .skip)) (.seq (.opt (.cat splitItem (.rep (.seq (.cat (.call .skip) splitItem))))))) (.call .skip)

theorem goes_path (L : Lawful u) {t w s : Str} (h : Module u t (w ++ s)) (hw : Blank u w) (hs : Solid u s)
    (hf : Fails u vN splitItem s) : Goes u vN pathRule t s := by
  obtain ⟨-, v, t', h1, h2, h3⟩ := module_goes L h rfl hw hs hf
  obtain ⟨w', h4, h5⟩ := h3.opt L
  exact goes_cat (goes_cat (goes_cat h2 (goes_skip L h1 h3.solid.1)) (goes_seq h5)) (goes_skip L h4 hs)

theorem module_first (L : Lawful u) {t w s : Str} (h : Module u t (w ++ s)) (hw : Blank u w) (hq : w = [] → ∀ z, s ≠ '"' :: z) :
    ∃ x r, t = x ++ r ∧ IsIdent u x ∧ NoCont u r ∧ ∀ z, r ≠ '"' :: z := by
  generalize e : w ++ s = r at h
  cases h with
  | @one x r hx hr =>
    subst e
    exact ⟨x, _, rfl, hx, hr, blank_first L hw (by decide) (by decide) (by decide) hq⟩
  | @more x w0 k w' t r hx hw0 hk hw' _ =>
    have hh := split_head hk (w' ++ t)
    exact ⟨x, _, rfl, hx, noCont_blank L hw0 (head_noCont L hh (by decide)),
      head_first L hw0 hh (by decide) (by decide) (by decide) (by decide)⟩

/-- A path is no string. -/
theorem module_no_string (L : Lawful u) {t w s : Str} (h : Module u t (w ++ s)) (hw : Blank u w) (hq : w = [] → ∀ z, s ≠ '"' :: z) :
    Fails u vN (.call .String) t := by
  obtain ⟨x, r, rfl, hx, hr, hq⟩ := module_first L h hw hq
  have q : ∀ {v : Env}, Fails u v (.call .Quotation) r := fails_mark rfl hq
  have q1 : Fails u vC (.call .StringBlock) r := by
    refine fails_call (fails_atomic (v := vC) (fails_rule (fails_seq ?_)))
    exact breaks_cat (breaks_cat (breaks_cat (breaks_cat (breaks_cat (breaks_cat
      (Fails.breaks (fails_seq (breaks_cat (breaks_cat q.breaks)))))))))
  have q2 : Fails u vC (.call .StringNormal) r :=
    fails_call (fails_rule (fails_atomic (fails_seq (breaks_cat (breaks_cat q.breaks)))))
  exact fails_call (fails_atomic (v := vN) (fails_rule (fails_seq (breaks_cat_right (eats_opt (eats_SYMBOL (v := vC) L rfl hx hr))
    (Fails.breaks (fails_alt (fails_restore q1) q2))))))

/-- A path that is given no other name. -/
theorem fails_alias (L : Lawful u) {t w s : Str} (h : Module u t (w ++ s)) (hw : Blank u w) (hs : Solid u s)
    (hf : Fails u vN splitItem s) (hq : w = [] → ∀ z, s ≠ '"' :: z) (ha : strip c!"as" s = none) : Fails u vN (.call .use_alias) t :=
  fails_call (fails_atomic (v := vN) (fails_rule (fails_alt (fails_restore (fails_seq (breaks_cat (breaks_cat (breaks_cat (breaks_cat
    (module_no_string L h hw hq).breaks)))))) (fails_seq (breaks_cat (breaks_cat (breaks_goes (goes_path L h hw hs hf)
      (Fails.breaks (fails_tok rfl ha)))))))))

/-- What may be imported, in the grammar. -/
def useRule : PE R := .alt (.restore (.call .use_alias)) (.restore (.call .use_module_select))

/-- A further part of a group. -/
def groupItem : PE R := .restore (.seq (.cat (.cat (.opt (.call .comma_or_semi)) (.call .skip)) (.call .module_tuple)))

/-- What the grammar does with the parts. -/
def UseReading (u : Uni) : UsePart → Str → Str → Prop
  | .item, t, r => Solid u t ∧ Goes u vN useRule t r
  | .rest, t, r => ∃ s w, Items u groupItem t s ∧ Blank u w ∧ Goes u vN (.opt (.call .comma_or_semi)) s (w ++ '}' :: r)

theorem goes_semi (b : Bool) (z : Str) : Goes u vN (.call .Semicolon) (semiText b ++ z) z := by
  refine goes_call (goes_rule (goes_atomic ?_))
  cases b with
  | false => exact goes_left (goes_str _)
  | true => exact goes_right (fails_str (by simp [semiText, strip])) (goes_str _)

theorem goes_As (z : Str) : Goes u vN (.call .As) (c!"as" ++ z) z := goes_eats (eats_tok rfl rfl z)

theorem module_solid (L : Lawful u) {t r : Str} (h : Module u t r) : Solid u t := by
  cases h with
  | one hx _ => exact ident_solid L hx _
  | more hx _ _ _ _ => exact ident_solid L hx _

theorem as_solid (L : Lawful u) (z : Str) : Solid u (c!"as" ++ z) := plain_solid L (c := 'a') (by decide) (by decide) _

theorem use_plain (L : Lawful u) {t w s : Str} (h : Module u t (w ++ s)) (hw : Blank u w) (hp : Parted u [';', '；', '}', ',', '，'] w s)
    (ha : strip c!"as" s = none) (hs : ∀ z, s ≠ '∷' :: z) : Goes u vN useRule t s := by
  have hsol : Solid u s := (hp.mono (by decide : ∀ c ∈ [';', '；', '}', ',', '，'], c ∈ partEnds)).solid L
  have hno : ∀ c t, s = c :: t → c ≠ '.' ∧ c ≠ ':' ∧ c ≠ '∷' := by
    rintro c t rfl
    refine ⟨?_, ?_, fun e => hs t (by rw [e])⟩ <;> rintro rfl
    · rcases hp with hp | ⟨-, hp⟩
      · exact head_not hp (by decide) t rfl
      · exact hp.head (by decide) t rfl
    · rcases hp with hp | ⟨-, hp⟩
      · exact head_not hp (by decide) t rfl
      · exact hp.head (by decide) t rfl
  have hf : Fails u vN splitItem s := fails_seq (breaks_cat (breaks_cat (fails_split hno).breaks))
  have hq : w = [] → ∀ z, s ≠ '"' :: z := by
    rintro rfl
    exact hp.first L hw (by decide) (by decide) (by decide) (by decide)
  exact goes_right (fails_restore (fails_alias L h hw hsol hf hq ha)) (goes_restore (goes_call (goes_atomic (v := vN) (goes_rule
    (goes_seq (goes_cat (goes_path L h hw hsol hf) (goes_opt_nil (fails_seq (breaks_cat (breaks_cat (fails_split hno).breaks))))))))))

/-- A sign after the path with something else than a name after it. -/
theorem use_split (L : Lawful u) {t w k w' z r : Str} (h : Module u t (w ++ (k ++ (w' ++ z)))) (hw : Blank u w) (hk : k ∈ splitTexts)
    (hw' : Blank u w') (hz : HeadIn ['*', '{'] z)
    (hg : Goes u vN (.alt (.restore (.call .module_block)) (.call .Star)) z r) : Goes u vN useRule t r := by
  have hh := split_head hk (w' ++ z)
  have hsol : Solid u (k ++ (w' ++ z)) := solid_head L hh (by decide)
  have hzs : Solid u z := solid_head L hz (by decide)
  have hf : Fails u vN splitItem (k ++ (w' ++ z)) := fails_seq (breaks_goes (goes_cat (goes_split hk _) (goes_skip L hw' hzs))
    (fails_head L hz (by decide) (by decide)).breaks)
  refine goes_right (fails_restore (fails_alias L h hw hsol hf (fun _ => head_not hh (by decide)) (head_strip hh (by decide) _))) (goes_restore
    (goes_call (goes_atomic (v := vN) (goes_rule (goes_seq (goes_cat (goes_path L h hw hsol hf) (goes_opt (goes_seq (goes_cat
      (goes_cat (goes_split hk _) (goes_skip L hw' hzs)) hg)))))))))

theorem use_group (L : Lawful u) {w1 t1 w2 s r : Str} (hw1 : Blank u w1) (h1 : UseReading u .item t1 (w2 ++ s)) (hw2 : Blank u w2)
    (h2 : UseReading u .rest s r) : Goes u vN (.alt (.restore (.call .module_block)) (.call .Star)) ('{' :: (w1 ++ t1)) r := by
  obtain ⟨s', w4, h2, h5, h6⟩ := h2
  obtain ⟨w3, h3, h4⟩ := h2.opt L
  exact goes_left (goes_restore (goes_call (goes_rule (goes_seq (goes_cat (goes_cat (goes_cat (goes_cat (goes_cat (goes_cat (goes_cat
    (goes_cat (goes_str ['{']) (goes_skip L hw1 h1.1)) (goes_call (goes_rule h1.2))) (goes_skip L hw2 h2.solid.1)) (goes_seq h4))
    (goes_skip L h3 h2.solid.2)) h6) (goes_skip L h5 (brace_solid L r).2)) (goes_str ['}']))))))

theorem use_named (L : Lawful u) {t w w' x r : Str} (h : Module u t (w ++ (c!"as" ++ (w' ++ (x ++ r))))) (hw : Blank u w) (hw' : Blank u w')
    (hx : IsIdent u x) (hr : NoCont u r) : Goes u vN useRule t r := by
  have hno : Fails u vN (.call .ModuleSplit) (c!"as" ++ (w' ++ (x ++ r))) := fails_split (by rintro c t e; cases e; decide)
  have hf : Fails u vN splitItem (c!"as" ++ (w' ++ (x ++ r))) := fails_seq (breaks_cat (breaks_cat hno.breaks))
  refine goes_left (goes_restore (goes_call (goes_atomic (v := vN) (goes_rule (goes_right (fails_restore (fails_seq (breaks_cat (breaks_cat
    (breaks_cat (breaks_cat (module_no_string L h hw (fun _ => by simp)).breaks)))))) (goes_seq (goes_cat (goes_cat (goes_cat
      (goes_path L h hw (as_solid L _) hf) (goes_As _)) (goes_skip L hw' (ident_solid L hx _))) (goes_eats (eats_SYMBOL L rfl hx hr)))))))))

theorem use_file (L : Lawful u) {s w w' x r : Str} (hs : contentOk s = true) (hw : Blank u w) (hw' : Blank u w') (hx : IsIdent u x)
    (hr : NoCont u r) : Goes u vN useRule ('"' :: (s ++ ('"' :: (w ++ (c!"as" ++ (w' ++ (x ++ r))))))) r := by
  have hq : ∀ z, w ++ (c!"as" ++ (w' ++ (x ++ r))) ≠ '"' :: z :=
    blank_first L hw (by decide) (by decide) (by decide) fun _ t e => nomatch e
  have h := goes_eats (eats_String (v := vN) L rfl hs hq)
  have e : quoted s ++ (w ++ (c!"as" ++ (w' ++ (x ++ r)))) = '"' :: (s ++ ('"' :: (w ++ (c!"as" ++ (w' ++ (x ++ r)))))) := by simp [quoted]
  rw [e] at h
  exact goes_left (goes_restore (goes_call (goes_atomic (v := vN) (goes_rule (goes_left (goes_restore (goes_seq (goes_cat (goes_cat (goes_cat
    (goes_cat h (goes_skip L hw (as_solid L _))) (goes_As _)) (goes_skip L hw' (ident_solid L hx _))) (goes_eats (eats_SYMBOL L rfl hx hr))))))))))

theorem use_start (L : Lawful u) {t r : Str} (h : Use u .item t r) : Fails u vN (.call .Dot) t := by
  have : ∀ {r}, Module u t r → Fails u vN (.call .Dot) t := by
    intro r h
    cases h with
    | one hx _ => obtain ⟨a, z, e, ha⟩ := hx.start; rw [e]; exact fails_id L ha (by decide) _
    | more hx _ _ _ _ => obtain ⟨a, z, e, ha⟩ := hx.start; rw [e]; exact fails_id L ha (by decide) _
  cases h with
  | plain h _ _ _ _ => exact this h
  | all h _ _ _ => exact this h
  | group h _ _ _ _ _ _ _ => exact this h
  | named h _ _ _ _ => exact this h
  | file _ _ _ _ _ => exact fails_tok rfl rfl

theorem use_no_sep (L : Lawful u) {t r : Str} (h : Use u .item t r) : Fails u vN (.call .comma_or_semi) t := by
  have : ∀ {r}, Module u t r → Fails u vN (.call .comma_or_semi) t := by
    intro r h
    cases h with
    | one hx _ => obtain ⟨a, z, e, ha⟩ := hx.start; rw [e]; exact fails_id L ha (by decide) _
    | more hx _ _ _ _ => obtain ⟨a, z, e, ha⟩ := hx.start; rw [e]; exact fails_id L ha (by decide) _
  cases h with
  | plain h _ _ _ _ => exact this h
  | all h _ _ _ => exact this h
  | group h _ _ _ _ _ _ _ => exact this h
  | named h _ _ _ _ => exact this h
  | file _ _ _ _ _ => exact fails_plain L (by decide) _

theorem goes_group_comma (b : Bool) (z : Str) : Goes u vN (.call .comma_or_semi) (commaText b ++ z) z :=
  goes_call (goes_left (goes_comma b _))

theorem goes_group_semi (b : Bool) (z : Str) : Goes u vN (.call .comma_or_semi) (semiText b ++ z) z :=
  goes_call (goes_right (fails_Comma (by cases b <;> rintro c z e <;> cases e <;> decide)) (goes_semi b _))

theorem Use.reading (L : Lawful u) {k : UsePart} {t r : Str} (h : Use u k t r) : UseReading u k t r := by
  induction h with
  | plain h hw hp ha hs => exact ⟨module_solid L h, use_plain L h hw hp ha hs⟩
  | all h hw hk hw' => exact ⟨module_solid L h, use_split L h hw hk hw' (.inr ⟨'*', _, rfl, by decide⟩)
      (goes_right (fails_restore (fails_plain L (by decide) _)) (goes_eats (eats_tok (x := ['*']) rfl rfl _)))⟩
  | group h hw hk hw' hw1 _ hw2 _ ih ih' => exact ⟨module_solid L h, use_split L h hw hk hw' (.inr ⟨'{', _, rfl, by decide⟩)
      (use_group L hw1 ih hw2 ih')⟩
  | named h hw hw' hx hr => exact ⟨module_solid L h, use_named L h hw hw' hx hr⟩
  | file hs hw hw' hx hr => exact ⟨solid_head L (.inr ⟨'"', _, rfl, List.mem_cons_self⟩) (S := ['"']) (by decide), use_file L hs hw hw' hx hr⟩
  | close => exact ⟨_, [], .stop (brace_solid L _).2 (fails_restore (fails_seq (breaks_goes (goes_cat (goes_opt_nil
      (fails_plain L (by decide) _)) (goes_skip_nil L (brace_solid L _).2)) (fails_plain L (by decide) _).breaks))), blank_nil,
      goes_opt_nil (fails_plain L (by decide) _)⟩
  | @comma b w t w' s r hw _ hw' _ ih ih' =>
    obtain ⟨s', w'', h1, h2, h3⟩ := ih'
    exact ⟨s', w'', .step (comma_solid L b _) hw' (goes_restore (goes_seq (goes_cat (goes_cat (goes_opt (goes_group_comma b _))
      (goes_skip L hw ih.1)) (goes_call (goes_rule ih.2))))) h1, h2, h3⟩
  | @semi b w t w' s r hw _ hw' _ ih ih' =>
    obtain ⟨s', w'', h1, h2, h3⟩ := ih'
    exact ⟨s', w'', .step (solid_head L (semi_head b _) (by decide)) hw' (goes_restore (goes_seq (goes_cat (goes_cat (goes_opt
      (goes_group_semi b _)) (goes_skip L hw ih.1)) (goes_call (goes_rule ih.2))))) h1, h2, h3⟩
  | @next t w' s r h hw' _ ih ih' =>
    obtain ⟨s', w'', h1, h2, h3⟩ := ih'
    exact ⟨s', w'', .step ih.1 hw' (goes_restore (goes_seq (goes_cat (goes_cat (goes_opt_nil (use_no_sep L h))
      (goes_skip_nil L ih.1)) (goes_call (goes_rule ih.2))))) h1, h2, h3⟩
  | @closeComma b w r hw =>
    exact ⟨_, w, .stop (comma_solid L b _) (fails_restore (fails_seq (breaks_goes (goes_cat (goes_opt (goes_group_comma b _))
      (goes_skip L hw (brace_solid L _).2)) (fails_plain L (by decide) _).breaks))), hw, goes_opt (goes_group_comma b _)⟩
  | @closeSemi b w r hw =>
    exact ⟨_, w, .stop (solid_head L (semi_head b _) (by decide)) (fails_restore (fails_seq (breaks_goes (goes_cat (goes_opt
      (goes_group_semi b _)) (goes_skip L hw (brace_solid L _).2)) (fails_plain L (by decide) _).breaks))), hw,
      goes_opt (goes_group_semi b _)⟩

theorem Dots.items (L : Lawful u) {t r : Str} (h : Dots u t r) (hr : Solid u r) (hf : Fails u vN (.call .Dot) r) : Items u (.call .Dot) t r := by
  induction h with
  | none => exact .stop hr hf
  | @more w t r hw _ ih =>
    have := goes_eats (eats_tok (u := u) (v := vN) (r := .Dot) (x := ['.']) rfl rfl (w ++ t))
    exact .step (solid_head L (.inr ⟨'.', _, rfl, List.mem_cons_self⟩) (S := ['.']) (by decide)) hw this (ih hr hf)

/-- Imports. -/
theorem goes_import (L : Lawful u) {w t s r : Str} (hw : Blank u w) (hd : Dots u t s) (h : Use u .item s r) :
    Goes u vN (.call .importStatement) (c!"using" ++ (w ++ t)) r := by
  obtain ⟨h1, h2⟩ := h.reading L
  have hi := hd.items L h1 (use_start L h)
  obtain ⟨w', h3, h4⟩ := hi.opt L
  exact goes_call (goes_rule (goes_seq (goes_cat (goes_cat (goes_cat (goes_cat (goes_str _) (goes_skip L hw hi.solid.1)) (goes_seq h4))
    (goes_skip L h3 h1)) h2)))

/-! ### All parts -/

/-- What follows the condition of an `if`, in the grammar. -/
def armsRule : PE R :=
  .alt (.restore (.seq (.cat (.cat (.cat (.cat (.cat (.cat (.str c!"then") (.call .skip)) (.call .«block»)) (.call .skip)) (.opt (.restore (.seq (.cat (.cat (.str c!"else") (.call .skip)) (.call .«block»)))))) (.call .skip)) (.opt (.restore (.seq (.cat (.cat (.str c!"otherwise") (.call .skip)) (.call .«block»)))))))) (.restore (.seq (.cat (.cat (.cat (.cat (.cat (.cat (.cat (.cat (.cat (.cat (.str c!"{") (.call .skip)) (.call .statement)) (.call .skip)) (.opt (.restore (.seq (.cat (.cat (.call .Comma) (.call .skip)) (.call .statement)))))) (.call .skip)) (.opt (.restore (.seq (.cat (.cat (.call .Comma) (.call .skip)) (.call .statement)))))) (.call .skip)) (.opt (.call .Comma))) (.call .skip)) (.str c!"}"))))

/-- What the grammar does with the parts. -/
def Reading (u : Uni) : CmdPart → Str → Str → Prop
  | .stmt b, t, r => Solid u t ∧ Solid u r ∧ NoSemi r ∧ ∃ v, Blank u v ∧ Goes u vN (.call .statement) t (v ++ r) ∧
      (b = false → Goes u vN otherStatements t (v ++ r))
  | .many, t, r => Items u (.restore (.call .statement)) t r
  | .block, t, r => (∃ z, t = '{' :: z) ∧ Goes u vN (.call .«block») t r
  | .bound, t, r => Solid u t ∧ (∀ c z, t = c :: z → c ≠ ':' ∧ c ≠ '：') ∧
      ∃ s, Goes u vN (.opt (.restore (.call .block_or_stmt))) t s ∧ Finish u s r
  | .hinted, t, r => Solid u t ∧ ∃ z s, Goes u vN (.opt (.restore (.call .type_hint))) t z ∧ Solid u z ∧
      Goes u vN (.opt (.restore (.call .block_or_stmt))) z s ∧ Finish u s r
  | .arms, t, r => Solid u t ∧ ∃ s, Goes u vN armsRule t s ∧ Finish u s r
  | .member, t, r => Solid u t ∧ Solid u r ∧ NoSemi r ∧ ∃ v, Blank u v ∧ Goes u vN (.call .short_statement) t (v ++ r)
  | .members, t, r => Items u (.restore (.call .short_statement)) t r
  | .short, t, r => (∃ z, t = '{' :: z) ∧ Goes u vN (.call .short_block) t r

/-- Another statement, by its word. -/
theorem reading_other (L : Lawful u) {k z r : Str} (hk : k ∈ statementWords)
    (h : ∃ v, Blank u v ∧ Goes u vN otherStatements (k ++ z) (v ++ r)) (h1 : Solid u r ∧ NoSemi r) :
    Reading u (.stmt false) (k ++ z) r := by
  obtain ⟨v, hv, h⟩ := h
  exact ⟨word_solid L hk z, h1.1, h1.2, v, hv, statement_other h, fun _ => h⟩

theorem reading_control (L : Lawful u) {k z s r : Str} (hk : k ∈ [c!"return", c!"break", c!"pass", c!"if", c!"for"])
    (h : Goes u vN (.call .controlFlow) (k ++ z) s) (hf : Finish u s r) : Reading u (.stmt false) (k ++ z) r := by
  obtain ⟨v, hv, h⟩ := goes_finish L h hf
  exact reading_other L (control_words k hk).1 ⟨v, hv, other_control L hk h⟩ hf.solid

theorem goes_if {z s : Str} (h : Goes u vN (.call .if_statement) (c!"if" ++ z) s) :
    Goes u vN (.call .controlFlow) (c!"if" ++ z) s := by
  refine goes_call (goes_left (goes_right (fails_restore (fails_re ?_)) (goes_restore h)))
  intro k hk
  exact strip_other (by decide) (by revert hk k; decide) (by revert hk k; decide) z

theorem goes_for {z s : Str} (h : Goes u vN (.call .for_statement) (c!"for" ++ z) s) :
    Goes u vN (.call .controlFlow) (c!"for" ++ z) s := by
  refine goes_call (goes_right (fails_alt (fails_restore (fails_re ?_)) (fails_restore (fails_if ?_))) (goes_restore h))
  · intro k hk
    exact strip_other (by decide) (by revert hk k; decide) (by revert hk k; decide) z
  · exact strip_other (by decide) (by decide) (by decide) z

theorem reading_return (L : Lawful u) {w t r : Str} {e : SExpr} (hw : Blank u w) (he : e.Ok u) (h : Ending u t r) :
    Reading u (.stmt false) (c!"return" ++ (w ++ (e.text ++ t))) r := by
  obtain ⟨s, h1, h2⟩ := goes_expr_end L he h
  exact reading_control L (by decide) (goes_call (goes_left (goes_left (goes_restore (goes_call (goes_rule (goes_left (goes_left
    (goes_restore (goes_seq (goes_cat (goes_cat (goes_eats (eats_tok rfl rfl _))
      (goes_skip L hw (term_head_solid L (SExpr.read L e he).head _))) h1))))))))))) h2

theorem reading_word (L : Lawful u) {k t r : Str} (hk : k ∈ [c!"break", c!"pass"]) (h : Ending u t r) :
    Reading u (.stmt false) (k ++ t) r := by
  refine reading_control L (by revert hk k; decide) (s := t) (goes_call (goes_left (goes_left (goes_restore (goes_call (goes_rule ?_))))))
    (ending_finish L h)
  have ret : ∀ {k' : Str}, k' ∈ [c!"break", c!"pass"] → Fails u vN (.restore (.seq (.cat (.cat (.call .Return) (.call .skip)) (.call .expr)))) (k' ++ t) := by
    intro k' hk'
    refine fails_restore (fails_seq (breaks_cat (breaks_cat (Fails.breaks (fails_tok rfl ?_)))))
    exact strip_other (by revert hk' k'; decide) (by decide) (by revert hk' k'; decide) t
  simp only [List.mem_cons, List.not_mem_nil, or_false] at hk
  rcases hk with rfl | rfl
  · exact goes_left (goes_right (ret (by decide)) (goes_eats (eats_tok rfl rfl _)))
  · exact goes_right (fails_alt (ret (by decide)) (fails_tok rfl (strip_other (k := c!"pass") (by decide) (by decide) (by decide) t)))
      (goes_eats (eats_tok rfl rfl _))

theorem reading_expr (L : Lawful u) {e : SExpr} {t r : Str} (he : e.Ok u) (hn : Wordless e.text) (h : Ending u t r) :
    Reading u (.stmt true) (e.text ++ t) r := by
  obtain ⟨w', s', v, e1, hw', hs', hv, hg, hr⟩ : ∃ w s v, _ := (goes_expr_end L he h).choose_spec.2
  have hx := (goes_expr_end L he h).choose_spec.1
  rw [e1] at hx
  obtain ⟨w, s, rfl, hw, hp, hc⟩ := h
  have hh := (SExpr.read L e he).head
  refine ⟨term_head_solid L hh _, hr.1, hr.2, v, hv, ?_, fun h => nomatch h⟩
  obtain ⟨f, hf1, hf2⟩ := statement_fails L (z := w ++ s) hh fun k hk =>
    strip_more ((hp.mono (by decide : ∀ c ∈ [';', '；', '}', ',', '，'], c ∈ partEnds)).noCont L hw) (words_cont L k hk) (hn k hk)
  refine goes_call ?_
  rw [hf1]
  exact goes_right hf2 (goes_restore (goes_call (goes_rule (goes_seq (goes_cat (goes_cat hx (goes_skip L hw' hs')) hg)))))

theorem fails_body {z : Str} (h : ∀ t, z ≠ '{' :: t) {v : Env} : Fails u v (.call .«block») z := by
  refine fails_call (fails_atomic (fails_rule (fails_seq (breaks_cat (breaks_cat (breaks_cat (breaks_cat (Fails.breaks
    (fails_str ?_)))))))))
  cases z with
  | nil => rfl
  | cons c t =>
    have : '{' ≠ c := fun e => h t (by rw [e])
    simp [strip, this]

theorem fails_bound {z : Str} (h1 : ∀ t, z ≠ '{' :: t) (h2 : ∀ t, z ≠ '=' :: t) {v : Env} :
    Fails u v (.restore (.call .block_or_stmt)) z :=
  fails_restore (fails_call (fails_alt (fails_restore (fails_body h1))
    (fails_restore (fails_seq (breaks_cat (breaks_cat (fails_set h2).breaks))))))

theorem reading_let (L : Lawful u) {w t s r : Str} (hw : Blank u w) (hn : Names u t s) (h : Reading u .hinted s r) :
    Reading u (.stmt false) (c!"let" ++ (w ++ t)) r := by
  obtain ⟨h0, z, s', h1, h2, h3, h4⟩ := h
  obtain ⟨n1, n2, n3, -⟩ := names_goes L hn
  obtain ⟨n4, n5, n6⟩ := goes_names L hn
  obtain ⟨v, hv, hg⟩ := goes_finish L (e := .call .assignStatement) (t := c!"let" ++ (w ++ t)) (s := s') (goes_call (goes_rule (goes_seq
    (goes_cat (goes_cat (goes_str _) (goes_skip L hw n1)) (goes_call (goes_right (fails_seq (breaks_cat (breaks_cat (breaks_cat
      (breaks_cat (breaks_cat (breaks_cat (breaks_cat (breaks_cat (Fails.breaks (fails_str (by
        cases t with
        | nil => rfl
        | cons c t =>
          have : '(' ≠ c := fun e => n2 t (by rw [e])
          simp [strip, this])))))))))))) (goes_seq (goes_cat (goes_cat (goes_cat (goes_cat n6
      (goes_skip L n5 n3)) h1) (goes_skip_nil L h2)) h3))))))) ) h4
  exact reading_other L (by decide) ⟨v, hv, other_let L hg⟩ h4.solid

theorem reading_lets (L : Lawful u) {w w1 w2 t s r : Str} (hw : Blank u w) (hw1 : Blank u w1)
    (hn : Names u t (')' :: (w2 ++ s))) (hw2 : Blank u w2) (h : Reading u .hinted s r) :
    Reading u (.stmt false) (c!"let" ++ (w ++ ('(' :: (w1 ++ t)))) r := by
  obtain ⟨h0, z, s', h1, h2, h3, h4⟩ := h
  obtain ⟨n1, n2, n3, -⟩ := names_goes L hn
  obtain ⟨n4, n5, n6⟩ := goes_names L hn
  have hp : Solid u ('(' :: (w1 ++ t)) := solid_head L (.inr ⟨'(', _, rfl, List.mem_cons_self⟩) (S := ['(']) (by decide)
  obtain ⟨v, hv, hg⟩ := goes_finish L (e := .call .assignStatement) (t := c!"let" ++ (w ++ ('(' :: (w1 ++ t)))) (s := s')
    (goes_call (goes_rule (goes_seq (goes_cat (goes_cat (goes_str _) (goes_skip L hw hp)) (goes_call (goes_left (goes_seq
      (goes_cat (goes_cat (goes_cat (goes_cat (goes_cat (goes_cat (goes_cat (goes_cat (goes_str ['(']) (goes_skip L hw1 n1))
      n6) (goes_skip L n5 n3)) (goes_str [')'])) (goes_skip L hw2 h0)) h1) (goes_skip_nil L h2)) h3)))))))) h4
  exact reading_other L (by decide) ⟨v, hv, other_let L hg⟩ h4.solid

theorem reading_def (L : Lawful u) {w x w1 z w3 s r : Str} (hw : Blank u w) (hx : IsIdent u x) (hw1 : Blank u w1)
    (hz : Goes u vN (.call .define_parameter) ('(' :: z) (w3 ++ s)) (hw3 : Blank u w3) (h : Reading u .hinted s r) :
    Reading u (.stmt false) (c!"def" ++ (w ++ (x ++ (w1 ++ ('(' :: z))))) r := by
  obtain ⟨h0, z', s', h1, h2, h3, h4⟩ := h
  have hp : HeadIn ['('] ('(' :: z) := .inr ⟨'(', _, rfl, List.mem_cons_self⟩
  obtain ⟨v, hv, hg⟩ := goes_finish L (e := .call .defineStatement) (t := c!"def" ++ (w ++ (x ++ (w1 ++ ('(' :: z))))) (s := s')
    (goes_call (goes_rule (goes_seq (goes_cat (goes_cat (goes_str _) (goes_skip L hw (ident_solid L hx _))) (goes_call (goes_seq
      (goes_cat (goes_cat (goes_cat (goes_cat (goes_cat (goes_cat (goes_name L hx
        (noCont_blank L hw1 (head_noCont L hp (by decide))) (noPath_first
          (head_first L hw1 hp (by decide) (by decide) (by decide) (by decide))
          (head_first L hw1 hp (by decide) (by decide) (by decide) (by decide))))
      (goes_skip L hw1 (solid_head L hp (by decide)))) hz) (goes_skip L hw3 h0)) h1) (goes_skip_nil L h2)) h3))))))) h4
  exact reading_other L (by decide) ⟨v, hv, other_def L hg⟩ h4.solid

theorem reading_if (L : Lawful u) {w t s r : Str} (hw : Blank u w) (hc : Condition u t s) (h : Reading u .arms s r) :
    Reading u (.stmt false) (c!"if" ++ (w ++ t)) r := by
  obtain ⟨h0, s', h1, h2⟩ := h
  have key : Solid u t ∧ ∃ v, Blank u v ∧ Goes u vN (.alt (.restore (.seq (.cat (.cat (.cat (.cat (.str c!"(") (.call .skip))
      (.call .expr)) (.call .skip)) (.str c!")")))) (.restore (.call .expr))) t (v ++ s) := by
    cases hc with
    | @paren w w' w'' _ e hw he hw' hw'' =>
      refine ⟨solid_head L (.inr ⟨'(', _, rfl, List.mem_cons_self⟩) (S := ['(']) (by decide), w'', hw'', goes_left (goes_restore
        (goes_seq (goes_cat (goes_cat (goes_cat (goes_cat (goes_str ['(']) (goes_skip L hw
          (term_head_solid L (SExpr.read L e he).head _))) (goes_expr L he hw' (.inl (.inr ⟨')', _, rfl, by decide⟩))))
          (goes_skip L (blank_left hw' _) (close_solid L (.inr ⟨')', _, rfl, by decide⟩)))) (goes_str [')']))))⟩
    | @bare w _ e he hp hw hs =>
      refine ⟨term_head_solid L (SExpr.read L e he).head _, left e.solo w, blank_left hw _, goes_right (fails_restore (fails_seq
        (breaks_cat (breaks_cat (breaks_cat (breaks_cat (Fails.breaks (fails_str ?_)))))))) (goes_restore (goes_expr L he hw
          (hs.mono (by decide))))⟩
      obtain ⟨c, t, e1, hc⟩ := (SExpr.read L e he).head
      rw [e1, List.cons_append]
      have : '(' ≠ c := fun e' => hp t (by rw [e1, e'])
      simp [strip, this]
  obtain ⟨h3, v, h4, h5⟩ := key
  exact reading_control L (by decide) (goes_if (goes_call (goes_rule (goes_seq (goes_cat (goes_cat (goes_cat (goes_cat (goes_str _)
    (goes_skip L hw h3)) h5) (goes_skip L h4 h0)) h1))))) h2

theorem reading_for (L : Lawful u) {w x w1 w2 w3 t s r : Str} {e : SExpr} (hw : Blank u w) (hx : IsIdent u x)
    (hw1 : Blank u w1) (hne : w1 ≠ []) (hw2 : Blank u w2) (he : e.Ok u) (hw3 : Blank u w3) (h : Reading u .block t s)
    (hs : Ending u s r) :
    Reading u (.stmt false) (c!"for" ++ (w ++ (x ++ (w1 ++ (c!"in" ++ (w2 ++ (e.text ++ (w3 ++ t)))))))) r := by
  obtain ⟨⟨z, rfl⟩, h⟩ := h
  have hin : Solid u (c!"in" ++ (w2 ++ (e.text ++ (w3 ++ '{' :: z)))) :=
    id_solid L (c := 'i') (by rw [L.plain _ _ (by decide)]; decide) _
  have hc : NoCont u (w1 ++ (c!"in" ++ (w2 ++ (e.text ++ (w3 ++ '{' :: z))))) := by
    have := noCont_end L hw1
    cases w1 with
    | nil => exact absurd rfl hne
    | cons a w1 =>
      intro c r e
      cases e
      exact this _ _ rfl
  exact reading_control L (by decide) (goes_for (goes_call (goes_rule (goes_seq (goes_cat (goes_cat (goes_str _)
    (goes_skip L hw (ident_solid L hx _))) (goes_call (goes_rule (goes_seq (goes_cat (goes_cat (goes_cat (goes_cat (goes_cat
      (goes_cat (goes_eats (eats_SYMBOL L rfl hx hc)) (goes_skip L hw1 hin)) (goes_str _))
      (goes_skip L hw2 (term_head_solid L (SExpr.read L e he).head _)))
      (goes_expr L he hw3 (.inl (.inr ⟨'{', _, rfl, by decide⟩)))) (goes_skip L (blank_left hw3 _) (brace_solid L z).1)) h))))))))) 
    (ending_finish L hs)

theorem reading_next {b : Bool} {t s r : Str} (h1 : Reading u (.stmt b) t s) (h2 : Reading u .many s r) : Reading u .many t r := by
  obtain ⟨s1, -, -, v, hv, hg, -⟩ := h1
  exact .step s1 hv (goes_restore hg) h2

theorem reading_block (L : Lawful u) {b : Bool} {w t s r : Str} (hw : Blank u w) (h1 : Reading u (.stmt b) t s)
    (h2 : Reading u .many s ('}' :: r)) : Reading u .block ('{' :: (w ++ t)) r := by
  obtain ⟨s1, s2, -, v, hv, hg, -⟩ := h1
  obtain ⟨v', hv', hg'⟩ := Items.opt L h2
  exact ⟨⟨_, rfl⟩, goes_call (goes_atomic (v := vN) (goes_rule (goes_seq (goes_cat (goes_cat (goes_cat (goes_cat (goes_str ['{'])
    (goes_skip L hw s1)) (goes_seq (goes_cat (goes_cat hg (goes_skip L hv s2)) (goes_seq hg')))) (goes_skip L hv' (brace_solid L r).2))
    (goes_str ['}'])))))⟩

theorem reading_bare (L : Lawful u) {t r : Str} (h : Closing u t r) : Reading u .bound t r := by
  obtain ⟨h1, -, -, -, h2, -⟩ := closing_goes L h
  exact ⟨h1, fun c z e => ⟨fun e' => h2 ':' (by decide) z (by rw [e, e']), fun e' => h2 '：' (by decide) z (by rw [e, e'])⟩, t,
    goes_opt_nil (fails_bound (h2 _ (by decide)) (h2 _ (by decide))), closing_finish L h⟩

theorem reading_set (L : Lawful u) {b : Bool} {w t r : Str} (hw : Blank u w) (h : Reading u (.stmt b) t r) :
    Reading u .bound ('=' :: (w ++ t)) r := by
  obtain ⟨s1, s2, s3, v, hv, hg, -⟩ := h
  refine ⟨solid_head L (.inr ⟨'=', _, rfl, List.mem_cons_self⟩) (S := ['=']) (by decide), fun c z e => ?_, _,
    goes_opt (goes_restore (goes_call (goes_right (fails_restore (fails_body fun t e => by cases e)) (goes_restore (goes_seq
      (goes_cat (goes_cat (goes_set _) (goes_skip L hw s1)) hg)))))), blank_finish hv s2 s3⟩
  cases e; decide

theorem reading_body (L : Lawful u) {t s r : Str} (h : Reading u .block t s) (hs : Ending u s r) : Reading u .bound t r := by
  obtain ⟨⟨z, rfl⟩, h⟩ := h
  refine ⟨(brace_solid L z).1, fun c z e => ?_, _, goes_opt (goes_restore (goes_call (goes_left (goes_restore h)))), ending_finish L hs⟩
  cases e; decide

theorem reading_untyped {t r : Str} (h : Reading u .bound t r) : Reading u .hinted t r := by
  obtain ⟨h1, h2, s, h3, h4⟩ := h
  exact ⟨h1, t, s, goes_opt_nil (fails_restore (fails_hint h2)), h1, h3, h4⟩

theorem reading_typed (L : Lawful u) {b : Bool} {w w' t r : Str} {T : STerm} (hw : Blank u w) (hT : T.Ok u) (hw' : Blank u w')
    (hp : Parted u ['=', '{', ';', '；', '}', ',', '，'] w' t) (h : Reading u .bound t r) :
    Reading u .hinted (colonText b ++ (w ++ (T.text ++ (w' ++ t)))) r := by
  obtain ⟨h1, h2, s, h3, h4⟩ := h
  exact ⟨close_solid L (colon_close b _), t, s, goes_opt (goes_restore (goes_hint L hT b hw hw' (hp.mono (by decide)))), h1, h3, h4⟩

theorem arms_brace (L : Lawful u) {z s : Str} (h : Goes u vN (.cat (.cat (.cat (.cat (.cat (.cat (.cat (.cat (.cat (.cat (.str c!"{") (.call .skip)) (.call .statement)) (.call .skip)) (.opt (.restore (.seq (.cat (.cat (.call .Comma) (.call .skip)) (.call .statement)))))) (.call .skip)) (.opt (.restore (.seq (.cat (.cat (.call .Comma) (.call .skip)) (.call .statement)))))) (.call .skip)) (.opt (.call .Comma))) (.call .skip)) (.str c!"}")) ('{' :: z) s)
    {r : Str} (hs : Finish u s r) : Reading u .arms ('{' :: z) r :=
  ⟨(brace_solid L z).1, s, goes_right (fails_restore (fails_seq (breaks_cat (breaks_cat (breaks_cat (breaks_cat (breaks_cat
    (breaks_cat (Fails.breaks (fails_str (by simp [strip]))))))))))) (goes_restore (goes_seq h)), hs⟩

/-- No further branch before the closing brace. -/
theorem goes_no_arm (z : Str) : Goes u vN (.opt (.restore (.seq (.cat (.cat (.call .Comma) (.call .skip)) (.call .statement)))))
    ('}' :: z) ('}' :: z) :=
  goes_opt_nil (fails_restore (fails_seq (breaks_cat (breaks_cat (Fails.breaks (fails_Comma (by
    rintro c z e; cases e; decide)))))))

theorem goes_no_comma (z : Str) : Goes u vN (.opt (.call .Comma)) ('}' :: z) ('}' :: z) :=
  goes_opt_nil (fails_Comma (by rintro c z e; cases e; decide))

theorem reading_arm (L : Lawful u) {b : Bool} {w t s r : Str} (hw : Blank u w) (h : Reading u (.stmt b) t ('}' :: s))
    (hs : Ending u s r) : Reading u .arms ('{' :: (w ++ t)) r := by
  obtain ⟨s1, s2, s3, v, hv, hg, -⟩ := h
  exact arms_brace L (goes_cat (goes_cat (goes_cat (goes_cat (goes_cat (goes_cat (goes_cat (goes_cat (goes_cat (goes_cat
    (goes_str ['{']) (goes_skip L hw s1)) hg) (goes_skip L hv s2)) (goes_no_arm s)) (goes_skip_nil L s2)) (goes_no_arm s))
    (goes_skip_nil L s2)) (goes_no_comma s)) (goes_skip_nil L s2)) (goes_str ['}'])) (ending_finish L hs)

/-- A further branch. -/
theorem goes_arm (L : Lawful u) (d : Bool) {w t s : Str} (hw : Blank u w) (ht : Solid u t) (h : Goes u vN (.call .statement) t s) :
    Goes u vN (.opt (.restore (.seq (.cat (.cat (.call .Comma) (.call .skip)) (.call .statement))))) (commaText d ++ (w ++ t)) s :=
  goes_opt (goes_restore (goes_seq (goes_cat (goes_cat (goes_comma d _) (goes_skip L hw ht)) h)))

theorem reading_arms (L : Lawful u) {b b' d : Bool} {w t w' t' s r : Str} (hw : Blank u w)
    (h : Reading u (.stmt b) t (commaText d ++ (w' ++ t'))) (hw' : Blank u w') (h' : Reading u (.stmt b') t' ('}' :: s))
    (hs : Ending u s r) : Reading u .arms ('{' :: (w ++ t)) r := by
  obtain ⟨s1, s2, s3, v, hv, hg, -⟩ := h
  obtain ⟨s1', s2', s3', v', hv', hg', -⟩ := h'
  exact arms_brace L (goes_cat (goes_cat (goes_cat (goes_cat (goes_cat (goes_cat (goes_cat (goes_cat (goes_cat (goes_cat
    (goes_str ['{']) (goes_skip L hw s1)) hg) (goes_skip L hv s2)) (goes_arm L d hw' s1' hg')) (goes_skip L hv' s2')) (goes_no_arm s))
    (goes_skip_nil L s2')) (goes_no_comma s)) (goes_skip_nil L s2')) (goes_str ['}'])) (ending_finish L hs)

theorem reading_armss (L : Lawful u) {b b' b'' d d' : Bool} {w t w' t' w'' t'' s r : Str} (hw : Blank u w)
    (h : Reading u (.stmt b) t (commaText d ++ (w' ++ t'))) (hw' : Blank u w')
    (h' : Reading u (.stmt b') t' (commaText d' ++ (w'' ++ t''))) (hw'' : Blank u w'')
    (h'' : Reading u (.stmt b'') t'' ('}' :: s))
    (hs : Ending u s r) : Reading u .arms ('{' :: (w ++ t)) r := by
  obtain ⟨s1, s2, s3, v, hv, hg, -⟩ := h
  obtain ⟨s1', s2', s3', v', hv', hg', -⟩ := h'
  obtain ⟨s1'', s2'', s3'', v'', hv'', hg'', -⟩ := h''
  exact arms_brace L (goes_cat (goes_cat (goes_cat (goes_cat (goes_cat (goes_cat (goes_cat (goes_cat (goes_cat (goes_cat
    (goes_str ['{']) (goes_skip L hw s1)) hg) (goes_skip L hv s2)) (goes_arm L d hw' s1' hg')) (goes_skip L hv' s2'))
    (goes_arm L d' hw'' s1'' hg'')) (goes_skip L hv'' s2'')) (goes_no_comma s)) (goes_skip_nil L s2'')) (goes_str ['}'])) (ending_finish L hs)

theorem block_solid (L : Lawful u) {t s : Str} (h : Reading u .block t s) : Solid u t := by
  obtain ⟨⟨z, rfl⟩, -⟩ := h
  exact (brace_solid L z).1

/-- No block with this word. -/
theorem goes_no_word {k z : Str} (h : strip k z = none) :
    Goes u vN (.opt (.restore (.seq (.cat (.cat (.str k) (.call .skip)) (.call .«block»))))) z z :=
  goes_opt_nil (fails_restore (fails_seq (breaks_cat (breaks_cat (fails_str h).breaks))))

/-- A block with this word. -/
theorem goes_word (L : Lawful u) (k : Str) {w t s : Str} (hw : Blank u w) (h : Reading u .block t s) :
    Goes u vN (.opt (.restore (.seq (.cat (.cat (.str k) (.call .skip)) (.call .«block»))))) (k ++ (w ++ t)) s :=
  goes_opt (goes_restore (goes_seq (goes_cat (goes_cat (goes_str k) (goes_skip L hw (block_solid L h))) h.2)))

/-- What may follow the `then` block. -/
theorem reading_thens (L : Lawful u) {w t w' z' m m' s r : Str} (hw : Blank u w) (h : Reading u .block t (w' ++ z'))
    (hw' : Blank u w') (hz' : Solid u z')
    (h1 : Goes u vN (.opt (.restore (.seq (.cat (.cat (.str c!"else") (.call .skip)) (.call .«block»))))) z' m)
    (h2 : Goes u vN (.call .skip) m m')
    (h3 : Goes u vN (.opt (.restore (.seq (.cat (.cat (.str c!"otherwise") (.call .skip)) (.call .«block»))))) m' s)
    (hs : Finish u s r) : Reading u .arms (c!"then" ++ (w ++ t)) r :=
  ⟨plain_solid L (c := 't') (by decide) (by decide) _, s, goes_left (goes_restore (goes_seq (goes_cat (goes_cat (goes_cat (goes_cat
    (goes_cat (goes_cat (goes_str c!"then") (goes_skip L hw (block_solid L h))) h.2) (goes_skip L hw' hz')) h1) h2) h3))), hs⟩

theorem reading_empty (L : Lawful u) {b : Bool} {w r : Str} (hw : Blank u w) (hr : Solid u r) (hn : NoSemi r) :
    Reading u (.stmt false) (semiText b ++ (w ++ r)) r := by
  have h : Goes u vN otherStatements (semiText b ++ (w ++ r)) (w ++ r) :=
    goes_left (goes_left (goes_left (goes_left (goes_left (goes_left (goes_left (goes_left (goes_call (goes_rule (goes_left
      (goes_eats (eats_eos b _))))))))))))
  exact ⟨close_solid L (semi_close b _), hr, hn, w, hw, statement_other h, fun _ => h⟩

theorem reading_then (L : Lawful u) {w t s r : Str} (hw : Blank u w) (h : Reading u .block t s) (hs : Ending u s r) :
    Reading u .arms (c!"then" ++ (w ++ t)) r := by
  obtain ⟨w', s', rfl, hw', -, hc⟩ := hs
  obtain ⟨h1, -, -, -, -, h2, h3⟩ := closing_goes L hc
  exact reading_thens L hw h hw' h1 (goes_no_word h2) (goes_skip_nil L h1) (goes_no_word h3) (closing_finish L hc)

theorem reading_else (L : Lawful u) {w t w1 w2 t' s r : Str} (hw : Blank u w)
    (h : Reading u .block t (w1 ++ (c!"else" ++ (w2 ++ t')))) (hw1 : Blank u w1) (hw2 : Blank u w2)
    (h' : Reading u .block t' s) (hs : Ending u s r) : Reading u .arms (c!"then" ++ (w ++ t)) r := by
  obtain ⟨w', s', rfl, hw', -, hc⟩ := hs
  obtain ⟨h1, -, -, -, -, -, h3⟩ := closing_goes L hc
  exact reading_thens L hw h hw1 (plain_solid L (c := 'e') (by decide) (by decide) _) (goes_word L _ hw2 h') (goes_skip L hw' h1)
    (goes_no_word h3) (closing_finish L hc)

theorem reading_otherwise (L : Lawful u) {w t w1 w2 t' s r : Str} (hw : Blank u w)
    (h : Reading u .block t (w1 ++ (c!"otherwise" ++ (w2 ++ t')))) (hw1 : Blank u w1) (hw2 : Blank u w2)
    (h' : Reading u .block t' s) (hs : Ending u s r) : Reading u .arms (c!"then" ++ (w ++ t)) r :=
  have ho : Solid u (c!"otherwise" ++ (w2 ++ t')) := plain_solid L (c := 'o') (by decide) (by decide) _
  reading_thens L hw h hw1 ho (goes_no_word (by simp [strip])) (goes_skip_nil L ho) (goes_word L _ hw2 h') (ending_finish L hs)

theorem reading_elseOtherwise (L : Lawful u) {w t w1 w2 t' w3 w4 t'' s r : Str} (hw : Blank u w)
    (h : Reading u .block t (w1 ++ (c!"else" ++ (w2 ++ t')))) (hw1 : Blank u w1) (hw2 : Blank u w2)
    (h' : Reading u .block t' (w3 ++ (c!"otherwise" ++ (w4 ++ t'')))) (hw3 : Blank u w3) (hw4 : Blank u w4)
    (h'' : Reading u .block t'' s) (hs : Ending u s r) : Reading u .arms (c!"then" ++ (w ++ t)) r :=
  reading_thens L hw h hw1 (plain_solid L (c := 'e') (by decide) (by decide) _) (goes_word L _ hw2 h')
    (goes_skip L hw3 (plain_solid L (c := 'o') (by decide) (by decide) _)) (goes_word L _ hw4 h'') (ending_finish L hs)

/-- An import and its end. -/
theorem reading_use (L : Lawful u) {w t s w' z r : Str} (hw : Blank u w) (hd : Dots u t s) (h : Use u .item s (w' ++ z)) (hw' : Blank u w')
    (hc : Closing u z r) : Reading u (.stmt false) (c!"using" ++ (w ++ t)) r := by
  obtain ⟨h1, h2, h3, ⟨v, h4, h5⟩, -⟩ := closing_goes L hc
  have hf : Finish u (w' ++ z) r := ⟨w', z, v, rfl, hw', h1, h4, h5, h2, h3⟩
  obtain ⟨v, hv, hg⟩ := goes_finish L (goes_import L hw hd h) hf
  exact reading_other L (by decide) ⟨v, hv, goes_left (goes_left (goes_left (goes_left (goes_left (goes_left (goes_left (goes_right
    (word_empty L (k := c!"using") (by decide) _) hg)))))))⟩ hf.solid

/-- No members. -/
theorem fails_short {z : Str} (h : ∀ t, z ≠ '{' :: t) {v : Env} : Fails u v (.call .short_block) z := by
  refine fails_call (fails_rule (fails_seq (breaks_cat (breaks_cat (breaks_cat (breaks_cat (Fails.breaks (fails_str ?_))))))))
  cases z with
  | nil => rfl
  | cons c t =>
    have : '{' ≠ c := fun e => h t (by rw [e])
    simp [strip, this]

/-- What follows the word of a class or a trait. -/
theorem reading_class (L : Lawful u) {k z z1 z2 z3 s r : Str} (hk : k ∈ [c!"class", c!"trait"])
    (h1 : Goes u vN (.call .skip) z z1) (h2 : Goes u vN (.call .assign_pair) z1 z2) (h3 : Goes u vN (.call .skip) z2 z3)
    (h4 : Goes u vN (.opt (.restore (.call .short_block))) z3 s)
    (hf : Finish u s r) : Reading u (.stmt false) (k ++ z) r := by
  have hw : k ∈ statementWords := by revert hk k; decide
  have no : ∀ k' ∈ statementWords, k' ≠ k → strip k' (k ++ z) = none := fun k' hk' ne => strip_other hw hk' ne z
  have hi : Fails u vN (.call .importStatement) (k ++ z) := fails_import (no _ (by decide) (by rintro rfl; revert hk; decide))
  simp only [List.mem_cons, List.not_mem_nil, or_false] at hk
  rcases hk with rfl | rfl
  · obtain ⟨v, hv, hg⟩ := goes_finish L (e := .call .classStatement) (goes_call (goes_rule (goes_seq (goes_cat (goes_cat (goes_cat
      (goes_cat (goes_str c!"class") h1) h2) h3) h4)))) hf
    exact reading_other L hw ⟨v, hv, goes_left (goes_left (goes_left (goes_left (goes_left (goes_left (goes_right
      (fails_alt (word_empty L hw _) (fails_done hi)) hg))))))⟩ hf.solid
  · obtain ⟨v, hv, hg⟩ := goes_finish L (e := .call .traitStatement) (goes_call (goes_rule (goes_seq (goes_cat (goes_cat (goes_cat
      (goes_cat (goes_str c!"trait") h1) h2) h3) h4)))) hf
    exact reading_other L hw ⟨v, hv, goes_left (goes_left (goes_left (goes_left (goes_left (goes_right
      (fails_alt (fails_alt (word_empty L hw _) (fails_done hi)) (fails_done (fails_class (no _ (by decide) (by decide))))) hg)))))⟩ hf.solid

theorem reading_kind (L : Lawful u) {k w x t r : Str} (hk : k ∈ [c!"class", c!"trait"]) (hw : Blank u w) (hx : IsIdent u x)
    (h : Ending u t r) : Reading u (.stmt false) (k ++ (w ++ (x ++ t))) r := by
  obtain ⟨w', s, rfl, hw', hp, hc⟩ := h
  obtain ⟨h1, -, -, -, h2, -⟩ := closing_goes L hc
  have hp' : Parted u partEnds w' s := hp.mono (by decide)
  exact reading_class L hk (goes_skip L hw (ident_solid L hx _)) (goes_name L hx (hp'.noCont L hw')
    (noPath_parted L hw' hp' fun t => h2 ':' (by decide) _)) (goes_skip L hw' h1)
    (goes_opt_nil (fails_restore (fails_short (h2 _ (by decide))))) (closing_finish L hc)

/-- A name before a brace. -/
theorem goes_name_brace (L : Lawful u) {x w z : Str} (hx : IsIdent u x) (hw : Blank u w) {d : Char} (hd : d ∈ ['{', '(']) :
    Goes u vN (.call .assign_pair) (x ++ (w ++ (d :: z))) (w ++ (d :: z)) := by
  have hp : HeadIn ['{', '('] (d :: z) := .inr ⟨d, _, rfl, hd⟩
  exact goes_name L hx (noCont_blank L hw (head_noCont L hp (by decide))) (noPath_first
    (head_first L hw hp (by decide) (by decide) (by decide) (by decide))
    (head_first L hw hp (by decide) (by decide) (by decide) (by decide)))

theorem reading_kinds (L : Lawful u) {k w x w1 t s r : Str} (hk : k ∈ [c!"class", c!"trait"]) (hw : Blank u w) (hx : IsIdent u x)
    (hw1 : Blank u w1) (h : Reading u .short t s) (hs : Ending u s r) : Reading u (.stmt false) (k ++ (w ++ (x ++ (w1 ++ t)))) r := by
  obtain ⟨⟨z, rfl⟩, h⟩ := h
  exact reading_class L hk (goes_skip L hw (ident_solid L hx _)) (goes_name_brace L hx hw1 (by decide))
    (goes_skip L hw1 (brace_solid L z).1) (goes_opt (goes_restore h)) (ending_finish L hs)

/-- A name by itself. -/
theorem goes_Symbol (L : Lawful u) {x z : Str} (hx : IsIdent u x) (h1 : NoCont u z) (h2 : NoPath u z) {v : Env} (hv : v.silent = false) :
    Goes u v (.call .Symbol) (x ++ z) z := by
  have := eats_Symbol L (p := ⟨x, []⟩) ⟨hx, by simp⟩ h1 h2 hv
  rw [show (Path.mk x []).text = x by simp [Path.text, moreText]] at this
  exact goes_eats this

theorem goes_Symbol_brace (L : Lawful u) {x w z : Str} (hx : IsIdent u x) (hw : Blank u w) :
    Goes u vN (.call .Symbol) (x ++ (w ++ ('{' :: z))) (w ++ ('{' :: z)) := by
  have hp : HeadIn ['{'] ('{' :: z) := .inr ⟨_, _, rfl, List.mem_cons_self⟩
  exact goes_Symbol L hx (noCont_blank L hw (head_noCont L hp (by decide))) (noPath_first
    (head_first L hw hp (by decide) (by decide) (by decide) (by decide))
    (head_first L hw hp (by decide) (by decide) (by decide) (by decide))) rfl

/-- What follows the word of an extension. -/
theorem reading_extending (L : Lawful u) {z z1 z2 z3 z4 z5 s r : Str} (h1 : Goes u vN (.call .skip) z z1)
    (h2 : Goes u vN (.call .Symbol) z1 z2) (h3 : Goes u vN (.call .skip) z2 z3) (h4 : Goes u vN (.opt (.call .with_trait)) z3 z4)
    (h5 : Goes u vN (.call .skip) z4 z5) (h6 : Goes u vN (.call .short_block) z5 s) (hf : Finish u s r) :
    Reading u (.stmt false) (c!"extends" ++ z) r := by
  have no : ∀ k' ∈ statementWords, k' ≠ c!"extends" → strip k' (c!"extends" ++ z) = none :=
    fun k' hk' ne => strip_other (by decide) hk' ne z
  obtain ⟨v, hv, hg⟩ := goes_finish L (e := .call .extendStatement) (goes_call (goes_rule (goes_seq (goes_cat (goes_cat (goes_cat
    (goes_cat (goes_cat (goes_cat (goes_str c!"extends") h1) h2) h3) h4) h5) h6)))) hf
  exact reading_other L (by decide) ⟨v, hv, goes_left (goes_left (goes_left (goes_left (goes_right
    (fails_alt (fails_alt (fails_alt (word_empty L (by decide) _) (fails_done (fails_import (no _ (by decide) (by decide)))))
      (fails_done (fails_class (no _ (by decide) (by decide))))) (fails_done (fails_trait (no _ (by decide) (by decide))))) hg))))⟩ hf.solid

theorem reading_extend (L : Lawful u) {w x w1 t s r : Str} (hw : Blank u w) (hx : IsIdent u x)
    (hw1 : Blank u w1) (h : Reading u .short t s) (hs : Ending u s r) : Reading u (.stmt false) (c!"extends" ++ (w ++ (x ++ (w1 ++ t)))) r := by
  obtain ⟨⟨z, rfl⟩, h⟩ := h
  exact reading_extending L (goes_skip L hw (ident_solid L hx _)) (goes_Symbol_brace L hx hw1) (goes_skip L hw1 (brace_solid L z).1)
    (goes_opt_nil (fails_plain L (by decide) _)) (goes_skip_nil L (brace_solid L z).1) h (ending_finish L hs)

/-- Blank space ends a name. -/
theorem blank_ends (L : Lawful u) {w : Str} (hw : Blank u w) (hne : w ≠ []) (z : Str) : NoCont u (w ++ z) ∧ NoPath u (w ++ z) := by
  refine ⟨?_, noPath_first (blank_first L hw (by decide) (by decide) (by decide) fun e => absurd e hne)
    (blank_first L hw (by decide) (by decide) (by decide) fun e => absurd e hne)⟩
  have := noCont_end L hw
  cases w with
  | nil => exact absurd rfl hne
  | cons a w =>
    intro c r e
    cases e
    exact this _ _ rfl

theorem reading_extends (L : Lawful u) {w x w1 w2 y w3 t s r : Str} (hw : Blank u w) (hx : IsIdent u x)
    (hw1 : Blank u w1) (hne : w1 ≠ []) (hw2 : Blank u w2) (hy : IsIdent u y) (hw3 : Blank u w3) (h : Reading u .short t s)
    (hs : Ending u s r) : Reading u (.stmt false) (c!"extends" ++ (w ++ (x ++ (w1 ++ (c!"with" ++ (w2 ++ (y ++ (w3 ++ t)))))))) r := by
  obtain ⟨⟨z, rfl⟩, h⟩ := h
  obtain ⟨h1, h2⟩ := blank_ends L hw1 hne (c!"with" ++ (w2 ++ (y ++ (w3 ++ '{' :: z))))
  exact reading_extending L (goes_skip L hw (ident_solid L hx _)) (goes_Symbol L hx h1 h2 rfl)
    (goes_skip L hw1 (plain_solid L (c := 'w') (by decide) (by decide) _))
    (goes_opt (goes_call (goes_rule (goes_seq (goes_cat (goes_cat (goes_str c!"with") (goes_skip L hw2 (ident_solid L hy _)))
      (goes_Symbol_brace L hy hw3)))))) (goes_skip L hw3 (brace_solid L z).1) h (ending_finish L hs)

/-! ### Annotations -/

theorem goes_note (L : Lawful u) {x z : Str} (hx : IsIdent u x) (h1 : NoCont u z) (h2 : NoPath u z) :
    Goes u vN (.call .annotation_call) ('@' :: (x ++ z)) z := by
  obtain ⟨a, y, e, ha⟩ := hx.start
  have hl : ∀ {v : Env} {r : R}, noId r = true → Fails u v (.call r) (x ++ z) := by
    intro v r h
    rw [e]
    exact fails_id L ha h _
  exact goes_call (goes_rule (goes_atomic (goes_seq (goes_cat (goes_eats (eats_tok_mute (x := ['@']) rfl rfl _)) (goes_right
    (fails_alt (fails_restore (hl (by decide))) (fails_restore (hl (by decide)))) (goes_Symbol L hx h1 h2 rfl))))))

theorem goes_mark (L : Lawful u) {y : Str} (h : Mark u y) (z : Str) : Goes u vN (.call .annotation_call) ('@' :: (y ++ z)) z := by
  have list : ∀ {y : Str} {P}, Eats u vN listPE y z P → Goes u vN (.call .annotation_call) ('@' :: (y ++ z)) z := fun h =>
    goes_call (goes_rule (goes_atomic (goes_seq (goes_cat (goes_eats (eats_tok_mute (x := ['@']) rfl rfl _)) (goes_left (goes_left
      (goes_restore (goes_call (goes_atomic (v := ⟨.atomic, false⟩) (goes_rule (goes_seq (goes_eats (v := vN) h)))))))))))) 
  cases h with
  | @nil w hw => exact list (eats_list_nil_body L hw z)
  | @list i l o hk =>
    rw [SNode.Ok] at hk
    obtain ⟨h1, h2, h3⟩ := hk
    have hi := SItem.read L SContent.isExpr i h1
    have hl := items_read L SContent.isExpr l h2
    rw [SNode.text]
    obtain ⟨b, wa, c, wb⟩ := i
    obtain ⟨h4, h5, h6, h7⟩ := hi
    have := eats_list_body L h4 (h7.1 h6) h5 (l := l.map SItem.more) (by
      intro m hm
      obtain ⟨i, hi, rfl⟩ := List.mem_map.1 hm
      have := hl i hi
      obtain ⟨b, wa, c, wb⟩ := i
      exact ⟨this.1, this.2.1, this.2.2.2.1 this.2.2.1⟩) h3 z
    rw [items_more] at this
    rw [SItem.text]
    have := list this
    simpa only [List.append_assoc] using this
  | @args a y hk e =>
    obtain ⟨a', d1, -, d3, d4⟩ := SArgs.read L a hk
    obtain ⟨r, hr⟩ := d4.head
    have hh : a'.h = [] := by
      cases hh : a'.h with
      | nil => rfl
      | cons c h' =>
        rw [hh, e] at d1
        have hc := d3 c (by rw [hh]; exact List.mem_cons_self)
        injection d1 with d1 _
        subst d1
        exact absurd hc.1 (by unfold Ws; rw [L.plain _ _ (by decide)]; decide)
    have hf : Fails u ⟨.atomic, false⟩ (.call .list) (a.text ++ z) := by rw [e]; exact fails_plain L (by decide) _
    rw [hh, List.nil_append] at d1
    obtain ⟨x, e1, e2⟩ := goes_eats (d4.eats z)
    rw [← d1] at hf ⊢
    refine goes_call (goes_rule (goes_atomic (goes_seq (goes_cat (goes_eats (eats_tok_mute (x := ['@']) rfl rfl _)) (goes_left
      (goes_right (fails_restore hf) (goes_restore ⟨x, e1, ?_⟩)))))))
    intro pos stack queue
    have := e2 pos stack queue
    rw [sem_call, grammar, body_apply, sem_atomic] at this ⊢
    exact this

theorem notes_head {t s : Str} (h : Notes u t s) : ∃ z, t = '@' :: z := by
  cases h with
  | one => exact ⟨_, rfl⟩
  | more => exact ⟨_, rfl⟩
  | mark => exact ⟨_, rfl⟩
  | marks => exact ⟨_, rfl⟩

theorem at_solid (L : Lawful u) (z : Str) : Solid u ('@' :: z) :=
  solid_head L (.inr ⟨'@', _, rfl, List.mem_cons_self⟩) (S := ['@']) (by decide)

/-- The annotations after the first. -/
theorem notes_goes (L : Lawful u) {t s : Str} (h : Notes u t s) :
    ∃ w t', Blank u w ∧ Goes u vN (.call .annotation_call) t (w ++ t') ∧ Items u (.restore (.call .annotation_call)) t' s := by
  induction h with
  | @one x w t hx hw hne ht hn =>
    obtain ⟨h1, h2⟩ := blank_ends L hw hne t
    refine ⟨w, t, hw, goes_note L hx h1 h2, .stop ht (fails_restore (fails_call (fails_rule (fails_atomic (fails_seq (breaks_cat
      (Fails.breaks (fails_mark rfl hn))))))))⟩
  | @more x w t s hx hw h ih =>
    obtain ⟨w', t', i1, i2, i3⟩ := ih
    obtain ⟨z, rfl⟩ := notes_head h
    have hp : HeadIn ['@'] ('@' :: z) := .inr ⟨_, _, rfl, List.mem_cons_self⟩
    exact ⟨w, _, hw, goes_note L hx (noCont_blank L hw (head_noCont L hp (by decide))) (noPath_first
      (head_first L hw hp (by decide) (by decide) (by decide) (by decide))
      (head_first L hw hp (by decide) (by decide) (by decide) (by decide))), .step (at_solid L z) i1 (goes_restore i2) i3⟩
  | @mark y w t hm hw ht hn =>
    exact ⟨w, t, hw, goes_mark L hm _, .stop ht (fails_restore (fails_call (fails_rule (fails_atomic (fails_seq (breaks_cat
      (Fails.breaks (fails_mark rfl hn))))))))⟩
  | @marks y w t s hm hw h ih =>
    obtain ⟨w', t', i1, i2, i3⟩ := ih
    obtain ⟨z, rfl⟩ := notes_head h
    exact ⟨w, _, hw, goes_mark L hm _, .step (at_solid L z) i1 (goes_restore i2) i3⟩

theorem goes_notes (L : Lawful u) {t s : Str} (h : Notes u t s) : Solid u s ∧
    ∃ v, Blank u v ∧ Goes u vN (.seq (.cat (.cat (.call .annotation_call) (.call .skip)) (.seq (.opt (.cat (.restore (.call .annotation_call)) (.rep (.seq (.cat (.call .skip) (.restore (.call .annotation_call)))))))))) t (v ++ s) := by
  obtain ⟨w, t', h1, h2, h3⟩ := notes_goes L h
  obtain ⟨v, h4, h5⟩ := h3.opt L
  exact ⟨h3.solid.2, v, h4, goes_seq (goes_cat (goes_cat h2 (goes_skip L h1 h3.solid.1)) (goes_seq h5))⟩

theorem reading_noted (L : Lawful u) {b : Bool} {t s r : Str} (hn : Notes u t s) (h : Reading u (.stmt b) s r) :
    Reading u (.stmt false) t r := by
  obtain ⟨s1, s2, s3, v, hv, hg, -⟩ := h
  obtain ⟨-, v', hv', hg'⟩ := goes_notes L hn
  obtain ⟨z, rfl⟩ := notes_head hn
  have no : ∀ {v : Env} {r : R}, noStart r '@' = true → Fails u v (.call r) ('@' :: z) := fun h => fails_plain L h z
  obtain ⟨v2, hv2, hg2⟩ := goes_finish L (e := .call .annotation) (goes_call (goes_rule (goes_seq (goes_cat (goes_cat hg'
    (goes_skip L hv' s1)) hg)))) (blank_finish hv s2 s3)
  have : Goes u vN otherStatements ('@' :: z) (v2 ++ r) := goes_right (fails_alt (fails_alt (fails_alt (fails_alt (fails_alt (fails_alt (fails_alt (no (by decide)) (fails_done (no (by decide))))
      (fails_done (no (by decide)))) (fails_done (no (by decide)))) (fails_done (no (by decide)))) (fails_done (no (by decide))))
      (fails_done (no (by decide)))) (fails_done (no (by decide)))) hg2
  exact ⟨at_solid L z, s2, s3, v2, hv2, statement_other this, fun _ => this⟩

/-! ### Members -/

theorem reading_short (L : Lawful u) {w t r : Str} (hw : Blank u w) (h : Reading u .members t ('}' :: r)) :
    Reading u .short ('{' :: (w ++ t)) r := by
  obtain ⟨v, hv, hg⟩ := Items.opt L h
  exact ⟨⟨_, rfl⟩, goes_call (goes_rule (goes_seq (goes_cat (goes_cat (goes_cat (goes_cat (goes_str ['{'])
    (goes_skip L hw (Items.solid h).1)) (goes_seq hg)) (goes_skip L hv (brace_solid L r).2)) (goes_str ['}']))))⟩

theorem reading_member {t s r : Str} (h1 : Reading u .member t s) (h2 : Reading u .members s r) : Reading u .members t r := by
  obtain ⟨s1, -, -, v, hv, hg⟩ := h1
  exact .step s1 hv (goes_restore hg) h2

theorem reading_emptyMember (L : Lawful u) {b : Bool} {w r : Str} (hw : Blank u w) (hr : Solid u r) (hn : NoSemi r) :
    Reading u .member (semiText b ++ (w ++ r)) r :=
  ⟨close_solid L (semi_close b _), hr, hn, w, hw, goes_call (goes_rule (goes_left (goes_left (goes_left (goes_call (goes_rule (goes_left
      (goes_eats (eats_eos b _))))))))) ⟩

/-- The terms of a method. -/
theorem goes_method (L : Lawful u) {x w1 z w3 s r : Str} (hx : IsIdent u x) (hw1 : Blank u w1)
    (hz : Goes u vN (.call .define_parameter) ('(' :: z) (w3 ++ s)) (hw3 : Blank u w3) (h : Reading u .hinted s r) :
    ∃ s', Goes u vN (.call .define_terms) (x ++ (w1 ++ ('(' :: z))) s' ∧ Finish u s' r := by
  obtain ⟨h0, z', s', h1, h2, h3, h4⟩ := h
  exact ⟨s', goes_call (goes_seq (goes_cat (goes_cat (goes_cat (goes_cat (goes_cat (goes_cat (goes_name_brace L hx hw1 (by decide))
    (goes_skip L hw1 (solid_head L (.inr ⟨'(', _, rfl, List.mem_cons_self⟩) (S := ['(']) (by decide)))) hz) (goes_skip L hw3 h0)) h1)
    (goes_skip_nil L h2)) h3)), h4⟩

/-- A member that is a definition. -/
theorem member_define (L : Lawful u) {a : Char} {y z s r : Str} (ha : IdStart u a) (hs : Solid u (a :: y))
    (h1 : Goes u vN (.opt (.str c!"def")) (a :: y) z) {z' : Str} (h2 : Goes u vN (.call .skip) z z')
    (h3 : Goes u vN (.call .define_terms) z' s) (hf : Finish u s r) : Reading u .member (a :: y) r := by
  obtain ⟨w, s', v, rfl, hw, hs', hv, hg, hr⟩ := hf
  exact ⟨hs, hr.1, hr.2, v, hv, goes_call (goes_rule (goes_left (goes_left (goes_right (fails_empty L ha y) (goes_restore (goes_seq
    (goes_cat (goes_cat (goes_cat (goes_cat h1 h2) h3) (goes_skip L hw hs')) hg))))))) ⟩

theorem reading_method (L : Lawful u) {x w1 z w3 s r : Str} (hx : IsIdent u x) (hd : strip c!"def" x = none) (hw1 : Blank u w1)
    (hz : Goes u vN (.call .define_parameter) ('(' :: z) (w3 ++ s)) (hw3 : Blank u w3) (h : Reading u .hinted s r) :
    Reading u .member (x ++ (w1 ++ ('(' :: z))) r := by
  obtain ⟨s', h1, h2⟩ := goes_method L hx hw1 hz hw3 h
  obtain ⟨a, y, e, ha⟩ := hx.start
  have hs := ident_solid L hx (w1 ++ ('(' :: z))
  have hp : HeadIn ['('] ('(' :: z) := .inr ⟨_, _, rfl, List.mem_cons_self⟩
  have hd' : strip c!"def" (x ++ (w1 ++ ('(' :: z))) = none :=
    strip_more (noCont_blank L hw1 (head_noCont L hp (by decide))) (words_cont L _ (by decide)) hd
  rw [e] at hs hd' h1 ⊢
  exact member_define L ha hs (goes_opt_nil (fails_str hd')) (goes_skip_nil L hs) h1 h2

theorem reading_defMethod (L : Lawful u) {w x w1 z w3 s r : Str} (hw : Blank u w) (hx : IsIdent u x) (hw1 : Blank u w1)
    (hz : Goes u vN (.call .define_parameter) ('(' :: z) (w3 ++ s)) (hw3 : Blank u w3) (h : Reading u .hinted s r) :
    Reading u .member (c!"def" ++ (w ++ (x ++ (w1 ++ ('(' :: z))))) r := by
  obtain ⟨s', h1, h2⟩ := goes_method L hx hw1 hz hw3 h
  exact member_define L (.inl (by rw [L.plain _ _ (by decide)]; decide)) (plain_solid L (by decide) (by decide) _)
    (goes_opt (goes_str c!"def")) (goes_skip L hw (ident_solid L hx _)) h1 h2

/-- Parameters begin with a bracket. -/
theorem fails_parameters {z : Str} (h : ∀ t, z ≠ '(' :: t) {v : Env} : Fails u v (.call .define_parameter) z := by
  refine fails_call (fails_rule (fails_seq (breaks_cat (breaks_cat (Fails.breaks (fails_str ?_))))))
  cases z with
  | nil => rfl
  | cons c t =>
    have : '(' ≠ c := fun e => h t (by rw [e])
    simp [strip, this]

/-- A member that is an assignment. -/
theorem member_assign (L : Lawful u) {a : Char} {y m w z0 z z' r : Str} (ha : IdStart u a) (hs : Solid u (a :: y))
    (hd : strip c!"def" (a :: y) = none) (h0 : Goes u vN (.call .assign_pair) (a :: y) (w ++ m)) (hw : Blank u w) (hm : Solid u m)
    (hn : ∀ t, m ≠ '(' :: t) (h1 : Goes u vN (.opt (.str c!"let")) (a :: y) z) (h2 : Goes u vN (.call .skip) z z')
    (hz : Names u z' z0) (h : Reading u .hinted z0 r) : Reading u .member (a :: y) r := by
  obtain ⟨n0, z1, s', n1, n2, n3, n4⟩ := h
  obtain ⟨m1, m2, m3, -⟩ := names_goes L hz
  obtain ⟨m4, m5, m6⟩ := goes_names L hz
  have hg : Goes u vN (.call .assign_terms) z' s' := goes_call (goes_right (fails_seq (breaks_cat (breaks_cat (breaks_cat
      (breaks_cat (breaks_cat (breaks_cat (breaks_cat (breaks_cat (Fails.breaks (fails_str (by
        cases z' with
        | nil => rfl
        | cons c t =>
          have : '(' ≠ c := fun e => m2 t (by rw [e])
          simp [strip, this])))))))))))) (goes_seq (goes_cat (goes_cat (goes_cat (goes_cat m6
      (goes_skip L m5 m3)) n1) (goes_skip_nil L n2)) n3)))
  obtain ⟨w', s2, v, rfl, hw', hs2, hv, hg2, hr⟩ := n4
  have hf : Fails u vN (.call .define_terms) (a :: y) := fails_call (fails_seq (breaks_cat (breaks_cat (breaks_cat (breaks_cat
    (breaks_goes (goes_cat h0 (goes_skip L hw hm)) (fails_parameters hn).breaks))))))
  refine ⟨hs, hr.1, hr.2, v, hv, goes_call (goes_rule (goes_left (goes_right (fails_alt (fails_empty L ha y) (fails_restore (fails_seq
    (breaks_cat (breaks_cat (breaks_goes (goes_cat (goes_opt_nil (fails_str hd)) (goes_skip_nil L hs)) hf.breaks)))))) ?_)))⟩
  exact goes_restore (goes_seq (goes_cat (goes_cat (goes_cat (goes_cat h1 h2) hg) (goes_skip L hw' hs2)) hg2))

/-- The first name and what follows it. -/
theorem names_first (L : Lawful u) {t s : Str} (h : Names u t s) (hs : ∀ z, s ≠ '(' :: z) :
    (∃ a y, t = a :: y ∧ IdStart u a) ∧
    ∃ w m, Blank u w ∧ Goes u vN (.call .assign_pair) t (w ++ m) ∧ Solid u m ∧ ∀ z, m ≠ '(' :: z := by
  have start : ∀ {x z : Str}, IsIdent u x → ∃ a y, x ++ z = a :: y ∧ IdStart u a := by
    intro x z hx
    obtain ⟨a, y, e, ha⟩ := hx.start
    exact ⟨a, y ++ z, by rw [e]; rfl, ha⟩
  cases h with
  | @one x w s hx hw hp hs' =>
    have hs1 : Parted u partEnds w s := hp.mono (by decide)
    exact ⟨start hx, w, s, hw, goes_name L hx (hs1.noCont L hw) (noPath_parted L hw hs1 hs'), hs1.solid L, hs⟩
  | @more x w w' t s b hx hw hw' h =>
    obtain ⟨c1, c2⟩ := comma_first L hw b (w' ++ t)
    exact ⟨start hx, w, _, hw, goes_name L hx c1 c2, comma_solid L b _, by cases b <;> simp [commaText]⟩
  | @comma x w w' s b hx hw hw' h =>
    obtain ⟨c1, c2⟩ := comma_first L hw b (w' ++ s)
    exact ⟨start hx, w, _, hw, goes_name L hx c1 c2, comma_solid L b _, by cases b <;> simp [commaText]⟩

theorem reading_field (L : Lawful u) {t s r : Str} (hn : Names u t s) (hd : strip c!"def" t = none) (hl : strip c!"let" t = none)
    (hs : ∀ z, s ≠ '(' :: z) (h : Reading u .hinted s r) : Reading u .member t r := by
  obtain ⟨⟨a, y, rfl, ha⟩, w, m, hw, hg, hm, hm'⟩ := names_first L hn hs
  have hs := (names_goes L hn).1
  exact member_assign L ha hs hd hg hw hm hm' (goes_opt_nil (fails_str hl)) (goes_skip_nil L hs) hn h

theorem reading_letField (L : Lawful u) {w t s r : Str} (hw : Blank u w) (hne : w ≠ []) (hn : Names u t s)
    (h : Reading u .hinted s r) : Reading u .member (c!"let" ++ (w ++ t)) r := by
  obtain ⟨n1, n2, -⟩ := names_goes L hn
  obtain ⟨b1, b2⟩ := blank_ends L hw hne t
  have hx : IsIdent u c!"let" := .inl ⟨'l', c!"et", rfl, by rw [L.plain _ _ (by decide)]; decide, by
    intro c hc
    have key : ∀ c ∈ c!"et", Plain c ∧ asciiUni .xidContinue c = true := by decide
    rw [L.plain _ _ (key c hc).1]
    exact (key c hc).2⟩
  exact member_assign L (a := 'l') (.inl (by rw [L.plain _ _ (by decide)]; decide)) (plain_solid L (by decide) (by decide) _)
    (by simp [strip]) (goes_name L hx b1 b2) hw n1 n2 (goes_opt (goes_str c!"let")) (goes_skip L hw n1) hn h

theorem reading_notedMember (L : Lawful u) {t s r : Str} (hn : Notes u t s) (h : Reading u .member s r) : Reading u .member t r := by
  obtain ⟨s1, s2, s3, v, hv, hg⟩ := h
  obtain ⟨-, v', hv', hg'⟩ := goes_notes L hn
  obtain ⟨z, rfl⟩ := notes_head hn
  have no : ∀ {v : Env} {r : R}, noStart r '@' = true → Fails u v (.call r) ('@' :: z) := fun h => fails_plain L h z
  obtain ⟨v2, hv2, hg2⟩ := goes_finish L (e := .call .short_annotation) (goes_call (goes_rule (goes_seq (goes_cat (goes_cat hg'
    (goes_skip L hv' s1)) hg)))) (blank_finish hv s2 s3)
  exact ⟨at_solid L z, s2, s3, v2, hv2, goes_call (goes_rule (goes_right (fails_alt (fails_alt (no (by decide)) (fails_restore (fails_seq
    (breaks_cat (breaks_cat (breaks_goes (goes_cat (goes_opt_nil (fails_str (by simp [strip]))) (goes_skip_nil L (at_solid L z)))
      (Fails.breaks (no (by decide)))))))))
    (fails_restore (fails_seq
    (breaks_cat (breaks_cat (breaks_goes (goes_cat (goes_opt_nil (fails_str (by simp [strip]))) (goes_skip_nil L (at_solid L z)))
      (Fails.breaks (no (by decide))))))))) hg2))⟩

/-- The grammar reads all parts. -/
theorem Cmd.reading (L : Lawful u) {k : CmdPart} {t r : Str} (h : Cmd u k t r) : Reading u k t r := by
  induction h with
  | expr he hn h => exact reading_expr L he hn h
  | empty hw hr hn => exact reading_empty L hw hr hn
  | ret hw he h => exact reading_return L hw he h
  | word hk h => exact reading_word L hk h
  | assign hw hn _ ih => exact reading_let L hw hn ih
  | assigns hw hw1 hn hw2 _ ih => exact reading_lets L hw hw1 hn hw2 ih
  | define hw hx hw1 hw2 hp hw3 _ ih => exact reading_def L hw hx hw1 (goes_parameters L hw2 hp) hw3 ih
  | constant hw hx hw1 hw2 hw3 _ ih => exact reading_def L hw hx hw1 (goes_no_parameters L hw2) hw3 ih
  | branch hw hc _ ih => exact reading_if L hw hc ih
  | loop hw hx hw1 hne hw2 he hw3 _ hs ih => exact reading_for L hw hx hw1 hne hw2 he hw3 ih hs
  | none h => exact .stop (solid_head L h (by decide)) (fails_restore (fails_head L h (by decide) (by decide)))
  | next _ _ ih ih' => exact reading_next ih ih'
  | block hw _ _ ih ih' => exact reading_block L hw ih ih'
  | bare h => exact reading_bare L h
  | set hw _ ih => exact reading_set L hw ih
  | body _ hs ih => exact reading_body L ih hs
  | untyped _ ih => exact reading_untyped ih
  | typed hw hT hw' hp _ ih => exact reading_typed L hw hT hw' hp ih
  | arm hw _ hs ih => exact reading_arm L hw ih hs
  | arms hw _ hw' _ hs ih ih' => exact reading_arms L hw ih hw' ih' hs
  | armss hw _ hw' _ hw'' _ hs ih ih' ih'' => exact reading_armss L hw ih hw' ih' hw'' ih'' hs
  | then' hw _ hs ih => exact reading_then L hw ih hs
  | else' hw _ hw1 hw2 _ hs ih ih' => exact reading_else L hw ih hw1 hw2 ih' hs
  | «otherwise» hw _ hw1 hw2 _ hs ih ih' => exact reading_otherwise L hw ih hw1 hw2 ih' hs
  | elseOtherwise hw _ hw1 hw2 _ hw3 hw4 _ hs ih ih' ih'' => exact reading_elseOtherwise L hw ih hw1 hw2 ih' hw3 hw4 ih'' hs
  | use hw hd h hw' hc => exact reading_use L hw hd h hw' hc
  | kind hk hw hx h => exact reading_kind L hk hw hx h
  | kinds hk hw hx hw1 _ hs ih => exact reading_kinds L hk hw hx hw1 ih hs
  | extend hw hx hw1 _ hs ih => exact reading_extend L hw hx hw1 ih hs
  | extends' hw hx hw1 hne hw2 hy hw3 _ hs ih => exact reading_extends L hw hx hw1 hne hw2 hy hw3 ih hs
  | noted hn _ ih => exact reading_noted L hn ih
  | short hw _ ih => exact reading_short L hw ih
  | noMember => exact .stop (brace_solid L _).2 (fails_restore (fails_plain L (by decide) _))
  | member _ _ ih ih' => exact reading_member ih ih'
  | emptyMember hw hr hn => exact reading_emptyMember L hw hr hn
  | method hx hd hw1 hw2 hp hw3 _ ih => exact reading_method L hx hd hw1 (goes_parameters L hw2 hp) hw3 ih
  | defMethod hw hx hw1 hw2 hp hw3 _ ih => exact reading_defMethod L hw hx hw1 (goes_parameters L hw2 hp) hw3 ih
  | getter hx hd hw1 hw2 hw3 _ ih => exact reading_method L hx hd hw1 (goes_no_parameters L hw2) hw3 ih
  | defGetter hw hx hw1 hw2 hw3 _ ih => exact reading_defMethod L hw hx hw1 (goes_no_parameters L hw2) hw3 ih
  | field hn hd hl hs _ ih => exact reading_field L hn hd hl hs ih
  | letField hw hne hn _ ih => exact reading_letField L hw hne hn ih
  | notedMember hn _ ih => exact reading_notedMember L hn ih

/-! ### The statements panic -/

/-- **C75**.  A text of statements whose first statement is not an expression makes the parser panic. -/
theorem C75_panics (L : Lawful u) {w t s : Str} (hw : Blank u w) (h : Cmd u (.stmt false) t s) (h' : Cmd u .many s []) {c : Cfg}
    (hc : c.input = w ++ t) : parseText u c = .panic := by
  have hr := h.reading L
  obtain ⟨h1, -, -, v, -, -, h2⟩ := hr
  exact (parse_sure L hw h1 (sure_goes (h2 rfl)) hc).resolve_right (parse_items L hw ((Cmd.next h h').reading L) hc)

/-- **C75**.  Statements after the first are read and forgotten if the first is an expression. -/
theorem C75_forgotten (L : Lawful u) {w t r : Str} {e : SExpr} (he : e.Ok u) (hn : Wordless e.text) (hw : Blank u w)
    (h : Ending u t r) (h' : Cmd u .many r []) {c : Cfg} (hc : c.input = w ++ (e.text ++ t)) :
    eraseR (parseText u c) = answer e.value := by
  have hr : parseText u ⟨[], r, []⟩ ≠ .err (.parseError []) := parse_items (c := ⟨[], r, []⟩) L blank_nil (h'.reading L) rfl
  obtain ⟨w', s, rfl, hw', hp, hcl⟩ := h
  obtain ⟨h1, h2, h3, -⟩ := closing_goes L hcl
  have other (hs : s = r) : eraseR (parseText u c) = answer e.value := by
    subst hs
    exact (parse_first (d := ⟨[], s, []⟩) L e he hn hw hw' none h2 ⟨(hp.mono (by decide)).stop L,
      (hp.mono (by decide)).follow L hw', (hp.mono (by decide)).noCont L hw', h3⟩ hc rfl).2 hr
  cases hcl with
  | @semi b w'' _ hw'' _ _ => exact (C68_semicolon (d := ⟨[], r, []⟩) L e he hn hw hw' hw'' b h2 hc rfl).2 hr
  | close _ => exact other rfl
  | line _ => exact other rfl

/-! ### What is refused -/

/-- In braces, no dictionary but what begins like a key. -/
theorem fails_no_dict (L : Lawful u) {w : Str} (hw : Blank u w) {k : SKey} (hk : k.Ok u) {w' z : Str} (hw' : Blank u w')
    (hz : Solid u z) (hn : NoCont u (w' ++ z)) (hq : ∀ t, w' ++ z ≠ '"' :: t) (hc : ∀ c t, z = c :: t → c ≠ ':' ∧ c ≠ '：')
    {a : Atomicity} : Fails u ⟨a, false⟩ (.call .dict) ('{' :: (w ++ (k.text ++ (w' ++ z)))) := by
  obtain ⟨c, t, e, hh⟩ := k.head hk
  have hs : Solid u (k.text ++ (w' ++ z)) := term_head_solid L (head_term ⟨c, t, e, hh⟩) _
  have h1 : Fails u vN (.call .key_value) (k.text ++ (w' ++ z)) :=
    fails_call (fails_atomic (fails_rule (fails_seq (breaks_cat (breaks_cat (breaks_goes (goes_cat
      (goes_eats (eats_key L k hk hn hq)) (goes_skip L hw' hz)) (Fails.breaks (fails_Colon hc))))))))
  have h2 : strip c!"}" (k.text ++ (w' ++ z)) = none := by
    have : '}' ≠ c := by
      rintro rfl
      rcases hh with h | h
      · rw [IdStart, L.plain _ _ (by decide)] at h
        revert h; decide
      · revert h; decide
    rw [e]
    simp [strip, this]
  exact fails_call (fails_atomic (fails_rule (fails_seq (breaks_goes (goes_cat (goes_str ['{']) (goes_skip L hw hs))
    (Fails.breaks (fails_alt (fails_str h2) (fails_restore (fails_seq (breaks_cat (breaks_cat (breaks_cat (breaks_cat (breaks_cat
    (breaks_cat h1.breaks))))))))))))))

theorem fails_brace (L : Lawful u) {z : Str} (h : Fails u ⟨.compound, false⟩ (.call .dict) ('{' :: z)) :
    Fails u vN (.call .statement) ('{' :: z) := by
  have no : ∀ {v : Env} {r : R}, noStart r '{' = true → Fails u v (.call r) ('{' :: z) := fun h => fails_plain L h z
  have fd : Fails u ⟨.compound, false⟩ (.call .data) ('{' :: z) :=
    fails_call (fails_atomic (fails_rule (fails_alt (fails_alt (fails_alt (fails_alt (fails_alt (fails_alt (fails_alt
      (fails_restore h) (fails_restore (no (by decide))))
      (no (by decide))) (no (by decide))) (no (by decide))) (no (by decide)))
      (fails_restore (no (by decide)))) (no (by decide)))))
  have fn : Fails u ⟨.compound, false⟩ (.call .node) ('{' :: z) :=
    fails_call (fails_rule (fails_alt (fails_alt (fails_alt (fails_alt (fails_restore (fails_seq (breaks_cat (breaks_cat
      (breaks_cat (breaks_cat (Fails.breaks (fails_str (by simp [strip]))))))))) (fails_restore (no (by decide))))
      (fails_restore (no (by decide)))) (fails_restore (no (by decide)))) (fails_restore fd)))
  refine fails_call ?_
  rw [statement_split]
  refine fails_alt ?_ (fails_restore (fails_call (fails_rule (fails_seq (breaks_cat (breaks_cat (Fails.breaks ?_)))))))
  · exact fails_alt (fails_alt (fails_alt (fails_alt (fails_alt (fails_alt (fails_alt (fails_alt (no (by decide)) (fails_done (no (by decide))))
      (fails_done (no (by decide)))) (fails_done (no (by decide)))) (fails_done (no (by decide)))) (fails_done (no (by decide))))
      (fails_done (no (by decide)))) (fails_done (no (by decide)))) (fails_done (no (by decide)))
  exact fails_call (fails_atomic (fails_rule (fails_seq (breaks_cat (breaks_cat (Fails.breaks (fails_call
    (fails_atomic (fails_rule (fails_seq (breaks_cat (breaks_cat_right (x := [])
      (eats_rep_nil (no (by decide))) fn.breaks))))))))))))

/-- The word `else` by itself is an expression. -/
theorem goes_else (L : Lawful u) {w z : Str} (hw : Blank u w) :
    ∃ v, Blank u v ∧ Goes u vN (.call .statement) (c!"else" ++ (w ++ '{' :: z)) (v ++ '{' :: z) := by
  have hf : IsIdent u c!"else" := .inl ⟨'e', c!"lse", rfl, by rw [L.plain _ _ (by decide)]; decide, by
    intro c hc
    have key : ∀ c ∈ c!"lse", Plain c ∧ asciiUni .xidContinue c = true := by decide
    rw [L.plain _ _ (key c hc).1]
    exact (key c hc).2⟩
  have ho : (SExpr.node (.atom (.sym ⟨c!"else", []⟩))).Ok u := node_ok (by
    rw [SNode.Ok]; exact ⟨⟨hf, by simp⟩, by unfold Path.Free; decide⟩)
  have ht : (SExpr.node (.atom (.sym ⟨c!"else", []⟩))).text = c!"else" := by decide
  have hp : HeadIn ['{'] ('{' :: z) := .inr ⟨'{', z, rfl, List.mem_cons_self⟩
  have hg := goes_expr L ho hw (.inl (hp.mono (by decide)))
  rw [ht] at hg
  obtain ⟨f, hf1, hf2⟩ := statement_fails L (x := c!"else") (z := w ++ '{' :: z) ⟨'e', c!"lse", rfl, .inl (by
    rw [IdStart, L.plain _ _ (by decide)]; decide)⟩ fun k hk =>
      strip_more (noCont_blank L hw (head_noCont L hp (by decide))) (words_cont L k hk) (by revert hk k; decide)
  refine ⟨[], blank_nil, goes_call ?_⟩
  rw [hf1]
  exact goes_right hf2 (goes_restore (goes_call (goes_rule (goes_seq (goes_cat (goes_cat hg (goes_skip L (blank_left hw _)
    (brace_solid L z).1)) (goes_opt_nil (fails_eos (by rintro c t e; cases e; decide))))))))

/-- **C75**.  The form of the documentation, `if c {a} else {b}`, is refused: the word `else` is an expression of its own, and
braces are a dictionary. -/
theorem C75_else (L : Lawful u) {w0 w t w1 t1 w2 w3 w4 w5 z s : Str} {b : Bool} {k : SKey} (hw0 : Blank u w0) (hw : Blank u w)
    (hc : Condition u t ('{' :: (w1 ++ t1))) (hw1 : Blank u w1) (h : Cmd u (.stmt b) t1 ('}' :: (w2 ++ (c!"else" ++ (w3 ++ s)))))
    (hw2 : Blank u w2) (hw3 : Blank u w3) (hs : s = '{' :: (w4 ++ (k.text ++ (w5 ++ z)))) (hw4 : Blank u w4) (hk : k.Ok u)
    (hw5 : Blank u w5) (hz : Solid u z) (hn : NoCont u (w5 ++ z)) (hq : ∀ t, w5 ++ z ≠ '"' :: t)
    (hl : ∀ c t, z = c :: t → c ≠ ':' ∧ c ≠ '：') {c : Cfg} (hi : c.input = w0 ++ (c!"if" ++ (w ++ t))) :
    parseText u c = .err (.parseError c.errorText) := by
  subst hs
  have he : Solid u (c!"else" ++ (w3 ++ '{' :: (w4 ++ (k.text ++ (w5 ++ z))))) :=
    plain_solid L (c := 'e') (by decide) (by decide) _
  have h1 : Reading u .arms ('{' :: (w1 ++ t1)) (c!"else" ++ (w3 ++ '{' :: (w4 ++ (k.text ++ (w5 ++ z))))) := by
    obtain ⟨s1, s2, s3, v, hv, hg, -⟩ := h.reading L
    exact arms_brace L (goes_cat (goes_cat (goes_cat (goes_cat (goes_cat (goes_cat (goes_cat (goes_cat (goes_cat (goes_cat
      (goes_str ['{']) (goes_skip L hw1 s1)) hg) (goes_skip L hv s2)) (goes_no_arm _)) (goes_skip_nil L s2)) (goes_no_arm _))
      (goes_skip_nil L s2)) (goes_no_comma _)) (goes_skip_nil L s2)) (goes_str ['}']))
      (blank_finish hw2 he (by rintro c t e; cases e; decide))
  obtain ⟨s1, -, -, v, hv, hg, -⟩ := reading_if L hw hc h1
  obtain ⟨v', hv', hg'⟩ := goes_else L (z := w4 ++ (k.text ++ (w5 ++ z))) hw3
  exact parse_stuck L hw0 (.step s1 hv (goes_restore hg) (.step he hv' (goes_restore hg') (.stop (brace_solid L _).1
    (fails_restore (fails_brace L (fails_no_dict L hw4 hk hw5 hz hn hq hl)))))) (by simp) hi

/-! ### Examples -/

/-- A letter as an expression. -/
abbrev letter (c : Char) : SExpr := SExpr.node (.atom (.sym ⟨[c], []⟩))

theorem letter_ident {c : Char} (h : c ∈ ['a', 'b', 'c', 'f', 'i', 'x']) : IsIdent asciiUni [c] :=
  .inl ⟨c, [], rfl, by revert h c; decide, by simp⟩

theorem letter_ok {c : Char} (h : c ∈ ['a', 'b', 'c', 'f', 'i', 'x']) : (letter c).Ok asciiUni := node_ok (by
  rw [SNode.Ok]
  refine ⟨⟨letter_ident h, by simp⟩, ?_⟩
  revert h c
  unfold Path.Free
  decide)

theorem letter_wordless {c : Char} (h : c ∈ ['a', 'b', 'c', 'f', 'i', 'x']) : Wordless (letter c).text := by
  rw [show (letter c).text = [c] from rfl]
  revert h c
  unfold Wordless
  decide

theorem space_blank : Blank asciiUni c!" " := blank_ws (by unfold Ws; decide)

/-- The end of the text, or a closing brace, or a comma, directly after a statement. -/
theorem ending_close {r : Str} (h : HeadIn ['}', ',', '，'] r) : Ending asciiUni r r :=
  ⟨[], r, rfl, blank_nil, .inl (h.mono (by decide)), .close h⟩

/-- `let x = if a {b, c}` panics: an assignment of a conditional with two branches. -/
example : parseText asciiUni ⟨[], c!"let x = if a {b, c}", []⟩ = .panic := by
  have h1 : Cmd asciiUni (.stmt true) c!"b, c}" c!", c}" :=
    .expr (e := letter 'b') (letter_ok (by decide)) (letter_wordless (by decide)) (ending_close (.inr ⟨',', _, rfl, by decide⟩))
  have h2 : Cmd asciiUni (.stmt true) c!"c}" c!"}" :=
    .expr (e := letter 'c') (letter_ok (by decide)) (letter_wordless (by decide)) (ending_close (.inr ⟨'}', _, rfl, by decide⟩))
  have h3 : Cmd asciiUni .arms c!"{b, c}" [] :=
    .arms (w := []) (d := false) (w' := c!" ") blank_nil h1 space_blank h2 (ending_close (.inl rfl))
  have h4 : Cmd asciiUni (.stmt false) c!"if a {b, c}" [] :=
    .branch (w := c!" ") (t := c!"a {b, c}") space_blank (.bare (e := letter 'a') (w := c!" ") (letter_ok (by decide))
      (fun t e => by cases e) space_blank (.inl (.inr ⟨'{', _, rfl, by decide⟩))) h3
  have h5 : Cmd asciiUni (.stmt false) c!"let x = if a {b, c}" [] :=
    .assign (w := c!" ") (t := c!"x = if a {b, c}") space_blank
      (.one (w := c!" ") (letter_ident (c := 'x') (by decide)) space_blank (.inl (.inr ⟨'=', _, rfl, by decide⟩)) (fun t e => by cases e))
      (.untyped (.set (w := c!" ") space_blank h4))
  exact C75_panics lawful_asciiUni (w := []) blank_nil h5 (.none (.inl rfl)) rfl

/-- `a`, and on the next line a definition with a loop inside: the answer is `a`. -/
example : eraseR (parseText asciiUni ⟨[], c!"a\ndef f(x) {for i in x {break}; return i}", []⟩) = .ok (.mkSymbol c!"a") := by
  have h2 : Cmd asciiUni .block c!"{break}; return i}" c!"; return i}" :=
    .block (w := []) blank_nil (.word (k := c!"break") (by decide) (ending_close (.inr ⟨'}', _, rfl, by decide⟩)))
      (.none (.inr ⟨'}', _, rfl, by decide⟩))
  have h3 : Cmd asciiUni (.stmt false) c!"for i in x {break}; return i}" c!"return i}" :=
    .loop (w := c!" ") (x := c!"i") (w1 := c!" ") (w2 := c!" ") (w3 := c!" ") (e := letter 'x') space_blank
      (letter_ident (by decide)) space_blank (by decide) space_blank (letter_ok (by decide)) space_blank h2
      ⟨[], _, rfl, blank_nil, .inl (.inr ⟨';', _, rfl, by decide⟩), .semi (b := false) (w := c!" ") space_blank
        (plain_solid lawful_asciiUni (c := 'r') (by decide) (by decide) _) (by rintro c t e; cases e; decide)⟩
  have h4 : Cmd asciiUni (.stmt false) c!"return i}" c!"}" :=
    .ret (w := c!" ") (e := letter 'i') space_blank (letter_ok (by decide)) (ending_close (.inr ⟨'}', _, rfl, by decide⟩))
  have h5 : Cmd asciiUni .block c!"{for i in x {break}; return i}" [] :=
    .block (w := []) blank_nil h3 (.next h4 (.none (.inr ⟨'}', _, rfl, by decide⟩)))
  have h6 : Cmd asciiUni (.stmt false) c!"def f(x) {for i in x {break}; return i}" [] :=
    .define (w := c!" ") (x := c!"f") (w1 := []) (w2 := []) (w3 := c!" ") space_blank (letter_ident (by decide)) blank_nil blank_nil
      (.one (.plain (x := c!"x") (w := []) (letter_ident (by decide)) blank_nil (.inr ⟨')', _, rfl, by decide⟩))) space_blank
      (.untyped (.body h5 (ending_close (.inl rfl))))
  have h7 := C75_forgotten lawful_asciiUni (w := []) (e := letter 'a') (t := c!"\ndef f(x) {for i in x {break}; return i}")
    (letter_ok (by decide)) (letter_wordless (by decide)) blank_nil
    ⟨c!"\n", _, rfl, blank_ws (by unfold Ws; decide), .inr ⟨.inl (by decide), ?_⟩, .line ?_⟩
    (.next h6 (.none (.inl rfl))) (c := ⟨[], c!"a\ndef f(x) {for i in x {break}; return i}", []⟩) rfl
  · rw [h7, node_value, SNode.value]
    rfl
  all_goals
    refine ⟨?_, by decide, by decide⟩
    rintro c t e
    cases e
    exact ⟨by unfold Ws; decide, by decide⟩

/-- `using ..a.b::{c, f as x}; @i class x {a, b; let c = i; f(x) = x}` panics: an import with a group, and an annotated class. -/
example : parseText asciiUni ⟨[], c!"using ..a.b::{c, f as x}; @i class x {a, b; let c = i; f(x) = x}", []⟩ = .panic := by
  have id {c : Char} (h : c ∈ ['a', 'b', 'c', 'f', 'i', 'x']) := letter_ident h
  have sl {c : Char} (h : Plain c ∧ asciiUni .xidContinue c = true) (t : Str) : Solid asciiUni (c :: t) :=
    plain_solid lawful_asciiUni h.1 h.2 t
  have semi {c : Char} {t : Str} (h : Plain c ∧ asciiUni .xidContinue c = true) : Closing asciiUni (';' :: ' ' :: c :: t) (c :: t) :=
    .semi (b := false) (w := c!" ") space_blank (sl h t) (by
      rintro d z e
      obtain ⟨rfl, rfl⟩ := List.cons.inj e
      constructor <;> rintro rfl <;> exact absurd h.2 (by decide))
  have u1 : Use asciiUni .item c!"c, f as x}; @i class x {a, b; let c = i; f(x) = x}" c!", f as x}; @i class x {a, b; let c = i; f(x) = x}" :=
    .plain (w := []) (.one (x := c!"c") (id (by decide)) (by rintro c t e; cases e; decide)) blank_nil (.inl (.inr ⟨',', _, rfl, by decide⟩))
      rfl (fun z e => by cases e)
  have u2 : Use asciiUni .item c!"f as x}; @i class x {a, b; let c = i; f(x) = x}" c!"}; @i class x {a, b; let c = i; f(x) = x}" :=
    .named (w := c!" ") (w' := c!" ") (x := c!"x") (.one (x := c!"f") (id (by decide)) (by rintro c t e; cases e; decide)) space_blank
      space_blank (id (by decide)) (by rintro c t e; cases e; decide)
  have u3 : Use asciiUni .item c!"a.b::{c, f as x}; @i class x {a, b; let c = i; f(x) = x}" c!"; @i class x {a, b; let c = i; f(x) = x}" :=
    .group (w := []) (k := c!"::") (w' := []) (w1 := []) (w2 := [])
      (.more (x := c!"a") (w := []) (k := c!".") (w' := []) (id (by decide)) blank_nil (by decide) blank_nil
        (.one (x := c!"b") (id (by decide)) (by rintro c t e; cases e; decide)))
      blank_nil (by decide) blank_nil blank_nil u1 blank_nil (.comma (b := false) (w := c!" ") (w' := []) space_blank u2 blank_nil .close)
  have u4 : Cmd asciiUni (.stmt false) c!"using ..a.b::{c, f as x}; @i class x {a, b; let c = i; f(x) = x}" c!"@i class x {a, b; let c = i; f(x) = x}" :=
    .use (w := c!" ") (w' := []) space_blank (.more (w := []) blank_nil (.more (w := []) blank_nil .none)) u3 blank_nil
      (.semi (b := false) (w := c!" ") space_blank (at_solid lawful_asciiUni _) (by rintro c t e; cases e; decide))
  have m1 : Cmd asciiUni .member c!"a, b; let c = i; f(x) = x}" c!"let c = i; f(x) = x}" :=
    .field (.more (x := c!"a") (w := []) (b := false) (w' := c!" ") (id (by decide)) blank_nil space_blank
      (.one (x := c!"b") (w := []) (s := c!"; let c = i; f(x) = x}") (id (by decide)) blank_nil (.inl (.inr ⟨';', _, rfl, by decide⟩))
        (fun t e => by cases e))) rfl rfl (fun z e => by cases e) (.untyped (.bare (semi (by decide))))
  have m2 : Cmd asciiUni .member c!"let c = i; f(x) = x}" c!"f(x) = x}" :=
    .letField (w := c!" ") space_blank (by decide) (.one (x := c!"c") (w := c!" ") (s := c!"= i; f(x) = x}") (id (by decide)) space_blank
      (.inl (.inr ⟨'=', _, rfl, by decide⟩)) (fun t e => by cases e))
      (.untyped (.set (w := c!" ") space_blank (.expr (e := letter 'i') (letter_ok (by decide)) (letter_wordless (by decide))
        ⟨[], _, rfl, blank_nil, .inl (.inr ⟨';', _, rfl, by decide⟩), semi (by decide)⟩)))
  have m3 : Cmd asciiUni .member c!"f(x) = x}" c!"}" :=
    .method (x := c!"f") (w1 := []) (w2 := []) (w3 := c!" ") (id (by decide)) rfl blank_nil blank_nil
      (.one (.plain (x := c!"x") (w := []) (id (by decide)) blank_nil (.inr ⟨')', _, rfl, by decide⟩))) space_blank
      (.untyped (.set (w := c!" ") space_blank (.expr (e := letter 'x') (letter_ok (by decide)) (letter_wordless (by decide))
        (ending_close (.inr ⟨'}', _, rfl, by decide⟩)))))
  have c1 : Cmd asciiUni (.stmt false) c!"class x {a, b; let c = i; f(x) = x}" [] :=
    .kinds (k := c!"class") (w := c!" ") (x := c!"x") (w1 := c!" ") (by decide) space_blank (id (by decide)) space_blank
      (.short (w := []) blank_nil (.member m1 (.member m2 (.member m3 .noMember)))) (ending_close (.inl rfl))
  have c2 : Cmd asciiUni (.stmt false) c!"@i class x {a, b; let c = i; f(x) = x}" [] :=
    .noted (.one (x := c!"i") (w := c!" ") (id (by decide)) space_blank (by decide) (sl (by decide) _) (fun z e => by cases e)) c1
  exact C75_panics lawful_asciiUni (w := []) blank_nil u4 (.next c2 (.none (.inl rfl))) rfl

/-- `if a {b} else {c}` is refused, and so is `if a then {b} else {c}`, where the condition is `a then`. -/
example : parseText asciiUni ⟨[], c!"if a {b} else {c}", []⟩ = .err (.parseError []) ∧
    parseText asciiUni ⟨[], c!"if a then {b} else {c}", []⟩ = .err (.parseError []) := by
  refine ⟨?_, parse_rejects lawful_asciiUni (by decide +kernel) (by decide) _ rfl⟩
  exact C75_else lawful_asciiUni (w0 := []) (w := c!" ") (t := c!"a {b} else {c}") (w1 := []) (t1 := c!"b} else {c}") (w2 := c!" ")
    (w3 := c!" ") (w4 := []) (k := .word c!"c") (w5 := []) (z := c!"}") blank_nil space_blank
    (.bare (e := letter 'a') (w := c!" ") (letter_ok (by decide)) (fun t e => by cases e) space_blank
      (.inl (.inr ⟨'{', _, rfl, by decide⟩))) blank_nil
    (.expr (e := letter 'b') (letter_ok (by decide)) (letter_wordless (by decide)) (ending_close (.inr ⟨'}', _, rfl, by decide⟩)))
    space_blank space_blank rfl blank_nil (letter_ident (by decide)) blank_nil (brace_solid lawful_asciiUni []).2
    (by rintro c t e; cases e; decide) (fun t e => by cases e) (by rintro c t e; cases e; decide) rfl

/-- `@[] @(a) let x, = b` panics: an empty list and arguments as annotations, and a comma after the last name. -/
example : parseText asciiUni ⟨[], c!"@[] @(a) let x, = b", []⟩ = .panic := by
  have hb : Cmd asciiUni (.stmt true) c!"b" [] :=
    .expr (e := letter 'b') (letter_ok (by decide)) (letter_wordless (by decide)) (ending_close (.inl rfl))
  have h1 : Cmd asciiUni (.stmt false) c!"let x, = b" [] :=
    .assign (w := c!" ") (t := c!"x, = b") space_blank
      (.comma (w := []) (b := false) (w' := c!" ") (letter_ident (c := 'x') (by decide)) blank_nil space_blank
        (.inr ⟨'=', _, rfl, by decide⟩))
      (.untyped (.set (w := c!" ") space_blank hb))
  have ha : SArgs.Ok asciiUni (.some [] ⟨false, [], .expr (letter 'a'), []⟩ [] none) := by
    rw [SArgs.Ok]
    exact ⟨by simp, ⟨blank_nil, blank_nil, rfl, letter_ok (by decide)⟩, trivial, fun _ _ h => by cases h⟩
  have m2 : Mark asciiUni c!"(a)" := .args (a := .some [] ⟨false, [], .expr (letter 'a'), []⟩ [] none) (z := c!"a)") ha rfl
  have n2 : Notes asciiUni c!"@(a) let x, = b" c!"let x, = b" :=
    .mark (y := c!"(a)") (w := c!" ") m2 space_blank (plain_solid lawful_asciiUni (c := 'l') (by decide) (by decide) _)
      (fun z e => by cases e)
  have n1 : Notes asciiUni c!"@[] @(a) let x, = b" c!"let x, = b" :=
    .marks (y := c!"[]") (w := c!" ") (.nil (w := []) blank_nil) space_blank n2
  exact C75_panics lawful_asciiUni (w := []) blank_nil (.noted n1 h1) (.none (.inl rfl)) rfl

/-- `if (a)+b {c}` is refused: the condition ends with the bracket.  `if a {b; c}` is refused: a branch is one statement. -/
example (L : Lawful u) (c : Cfg) (h : c.input ∈ [c!"if (a)+b {c}", c!"if a {b; c}"]) :
    parseText u c = .err (.parseError c.errorText) := by
  refine parse_rejects (x := c.input) L ?_ ?_ _ rfl
  · revert h
    generalize c.input = x
    revert x
    decide +kernel
  · revert h
    generalize c.input = x
    revert x
    decide +kernel

end SM.Props
