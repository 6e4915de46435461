import Verif.Props.Tex
/-
C62: what TeX rendering writes.
-/
namespace SM.Props
open SM

/-- A call of `f` with one argument list. -/
def oneList (f : Sym) (args : List AST) (opts : BMap AST AST) (pos : Position) : AST := .function f [.mk args opts pos]

/-- The texts are the formulas of the expressions, in order. -/
inductive Formulas : List AST → List Str → Prop
  | nil : Formulas [] []
  | cons {a : AST} {t : Str} {as : List AST} {ts : List Str} : a.toTex = some t → Formulas as ts → Formulas (a :: as) (t :: ts)

theorem texArgs_iff (as : List AST) (ts : List Str) : texArgs as = some ts ↔ Formulas as ts := by
  induction as generalizing ts with
  | nil =>
    rw [texArgs]
    constructor
    · intro h; cases h; exact .nil
    · intro h; cases h; rfl
  | cons a as ih =>
    rw [texArgs]
    constructor
    · intro h
      cases ha : a.toTex with
      | none => rw [ha] at h; cases h
      | some t =>
        cases hs : texArgs as with
        | none => rw [ha, hs] at h; cases h
        | some us =>
          rw [ha, hs] at h
          cases h
          exact .cons ha ((ih us).1 hs)
    · intro h
      cases h with
      | cons ha hs => rw [ha, (ih _).2 hs]

/-- Texts separated by a comma and a space. -/
def commas : List Str → Str
  | [] => []
  | [t] => t
  | t :: u :: l => t ++ c!", " ++ commas (u :: l)

theorem join_commas (l : List Str) : join c!", " l = commas l := by
  induction l with
  | nil => rfl
  | cons t l ih =>
    cases l with
    | nil => rfl
    | cons u l => rw [join, commas, ih]

/-- An operator of the expression language, by its name space. -/
def IsOperator (s : Sym) : Prop :=
  s.nameSpace ∈ [[c!"std", c!"prefix"], [c!"std", c!"infix"], [c!"std", c!"suffix"]]

theorem not_operator {s : Sym} (h : ¬ IsOperator s) : s.nameSpace ≠ [c!"std", c!"prefix"] ∧ s.nameSpace ≠ [c!"std", c!"infix"] ∧
    s.nameSpace ≠ [c!"std", c!"suffix"] := by
  simpa [IsOperator, not_or] using h

/-- **C62**.  Numbers are written as they are printed, symbols without their name space, strings inside `\\text{}`, truth
values inside `\\mathtt{}`.  (Violation: `\\` here and below are two characters, which in TeX end a line, while a command
begins with one.) -/
theorem C62_atoms :
    (∀ n : Int, AST.toTex (.integer n) = (AST.integer n).display) ∧
    (∀ d : Dec, AST.toTex (.decimal d) = (AST.decimal d).display) ∧
    (∀ s : Sym, AST.toTex (.symbol s) = some s.name) ∧
    (∀ s : Str, AST.toTex (.string s) = some (['\\', '\\', 't', 'e', 'x', 't', '{'] ++ s ++ ['}'])) ∧
    (AST.toTex (.boolean true) = some (['\\', '\\'] ++ c!"mathtt{true}")) ∧
    (AST.toTex (.boolean false) = some (['\\', '\\'] ++ c!"mathtt{false}")) := by
  refine ⟨fun n => ?_, fun d => ?_, fun s => ?_, fun s => ?_, ?_, ?_⟩
  · rw [AST.toTex, AST.display]
  · rw [AST.toTex, AST.display]
  · rw [AST.toTex]
  · rw [AST.toTex]
  · rw [AST.toTex]; rfl
  · rw [AST.toTex]; rfl

/-- The functions written without brackets around a simple argument: as a TeX command, or as `\\operatorname{}`. -/
def commandNames : List Str :=
  [c!"sin", c!"cos", c!"tan", c!"cot", c!"sec", c!"csc", c!"arcsin", c!"arccos", c!"arctan"]

/-- The functions written without brackets around a simple argument, as `\\operatorname{}`. -/
def roundNames : List Str :=
  [c!"arccot", c!"arcsec", c!"arccsc", c!"arcsinh", c!"arccosh", c!"arctanh", c!"arccoth", c!"arcsech", c!"arccsch"]

/-- How a function of these two groups begins. -/
def opening (f : Sym) : Option Str :=
  if f.name ∈ commandNames then some (['\\', '\\'] ++ f.display)
  else if f.name ∈ roundNames then some (['\\', '\\'] ++ c!"operatorname{" ++ f.display ++ c!"}")
  else none

/-- An argument that gets brackets: an infix operation with two or more operands. -/
def Wide : AST → Prop
  | .function s (p :: _) => s.nameSpace = [c!"std", c!"infix"] ∧ 2 ≤ p.arguments.length
  | _ => False

theorem toTex_named {f : Sym} {o : Str} (hf : ¬ IsOperator f) (ho : opening f = some o) (p : Param) (ps : List Param) :
    AST.toTex (.function f (p :: ps)) = (texOmit [p]).map (o ++ ·) := by
  obtain ⟨h1, h2, h3⟩ := not_operator hf
  have e : texOmit (p :: ps) = texOmit [p] := by cases p; simp only [texOmit]
  rw [AST.toTex, if_neg h1, if_neg h2, if_neg h3, e]
  have ht : (f.name ∈ trigNames) = (f.name ∈ commandNames) := rfl
  have hn : (f.name ∈ operatorNames) = (f.name ∈ roundNames) := rfl
  rw [opening] at ho
  by_cases hc : f.name ∈ commandNames
  · rw [if_pos hc] at ho
    cases ho
    rw [if_pos (ht ▸ hc)]
    cases texOmit [p] <;> rfl
  · rw [if_neg hc] at ho
    rw [if_neg (ht ▸ hc)]
    by_cases hr : f.name ∈ roundNames
    · rw [if_pos hr] at ho
      cases ho
      rw [if_pos (hn ▸ hr)]
      cases texOmit [p] <;> rfl
    · rw [if_neg hr] at ho
      cases ho

/-- **C62**.  The functions of the two groups: no argument gives `()`, one argument follows a space unless it is an
operation between operands, which gets brackets, and several arguments get brackets and commas. -/
theorem C62_named (f : Sym) (o : Str) (hf : ¬ IsOperator f) (ho : opening f = some o) (opts : BMap AST AST) (pos : Position)
    (ps : List Param) :
    AST.toTex (.function f (.mk [] opts pos :: ps)) = some (o ++ c!"()") ∧
    (∀ a t, a.toTex = some t → ¬ Wide a → AST.toTex (.function f (.mk [a] opts pos :: ps)) = some (o ++ c!" " ++ t)) ∧
    (∀ a t, a.toTex = some t → Wide a →
      AST.toTex (.function f (.mk [a] opts pos :: ps)) = some (o ++ c!"(" ++ t ++ c!")")) ∧
    (∀ a b as ts, Formulas (a :: b :: as) ts →
      AST.toTex (.function f (.mk (a :: b :: as) opts pos :: ps)) = some (o ++ c!"(" ++ commas ts ++ c!")")) := by
  have hh : ∀ args, ¬ (Param.mk args opts pos).height > 1 := fun args => by
    have := C30_parameter_height (.mk args opts pos)
    omega
  refine ⟨?_, fun a t ht hw => ?_, fun a t ht hw => ?_, fun a b as ts h => ?_⟩
  · rw [toTex_named hf ho]
    rfl
  · rw [toTex_named hf ho]
    have hwd : ∃ k, a.width = some k ∧ k ≤ 1 := by
      cases a with
      | function s qs =>
        rw [AST.toTex.eq_def] at ht
        dsimp only at ht
        by_cases h1 : s.nameSpace = [c!"std", c!"prefix"]
        · rw [if_pos h1] at ht; cases ht
        rw [if_neg h1] at ht
        by_cases h2 : s.nameSpace = [c!"std", c!"infix"]
        · cases qs with
          | nil => rw [if_pos h2] at ht; cases ht
          | cons q qs =>
            refine ⟨q.arguments.length, by rw [AST.width, if_neg h1, if_pos h2], ?_⟩
            have : ¬ 2 ≤ q.arguments.length := fun hc => hw ⟨h2, hc⟩
            omega
        · rw [if_neg h2] at ht
          by_cases h3 : s.nameSpace = [c!"std", c!"suffix"]
          · rw [if_pos h3] at ht; cases ht
          · exact ⟨1, by rw [AST.width.eq_def]; dsimp only; rw [if_neg h1, if_neg h2, if_neg h3], Nat.le_refl 1⟩
      | empty => exact ⟨0, rfl, by decide⟩
      | _ => exact ⟨1, rfl, Nat.le_refl 1⟩
    obtain ⟨k, hk, hk1⟩ := hwd
    have hts : texArgs [a] = some [t] := (texArgs_iff _ _).2 (.cons ht .nil)
    simp only [texOmit, List.length_singleton, List.head?_cons, Option.bind_some, hk, hts, if_pos hk1, join]
    simp
  · rw [toTex_named hf ho]
    have hwd : ∃ k, a.width = some k ∧ ¬ k ≤ 1 := by
      match a, hw with
      | .function s (q :: qs), hw =>
        refine ⟨q.arguments.length, ?_, ?_⟩
        · rw [AST.width, if_neg (by rw [hw.1]; decide), if_pos hw.1]
        · have := hw.2
          omega
    obtain ⟨k, hk, hk1⟩ := hwd
    have hts : texArgs [a] = some [t] := (texArgs_iff _ _).2 (.cons ht .nil)
    simp only [texOmit, List.length_singleton, List.head?_cons, Option.bind_some, hk, hts, if_neg hk1, join, if_neg (hh [a])]
    simp
  · rw [toTex_named hf ho]
    have hts := (texArgs_iff _ _).2 h
    simp only [texOmit, List.length_cons, hts, if_neg (hh _), join_commas]
    simp

/-- One argument list of an ordinary call, with `\\left(` and `\\right)`. -/
def bracketed (ts : List Str) : Str := ['\\', '\\'] ++ c!"left(" ++ commas ts ++ ['\\', '\\'] ++ c!"right)"

/-- The texts are the formulas of the arguments in the lists, in order. -/
inductive FormulaLists : List Param → List (List Str) → Prop
  | nil : FormulaLists [] []
  | cons {p : Param} {ts : List Str} {ps : List Param} {l : List (List Str)} : Formulas p.arguments ts → FormulaLists ps l →
      FormulaLists (p :: ps) (ts :: l)

theorem texParams_of {ps : List Param} {l : List (List Str)} (h : FormulaLists ps l) : texParams ps = some (l.map bracketed) := by
  induction h with
  | nil => rfl
  | @cons p ts ps l h _ ih =>
    obtain ⟨as, os, pos⟩ := p
    rw [texParams, (texArgs_iff as ts).2 h, ih]
    simp [bracketed, join_commas]

theorem join_nil (l : List Str) : join [] l = l.flatten := by
  induction l with
  | nil => rfl
  | cons t l ih =>
    cases l with
    | nil => simp [join]
    | cons u l => rw [join, ih]; simp

/-- **C62**.  Any other function: its name without the name space as `\\operatorname{}`, then every argument list between
`\\left(` and `\\right)`. -/
theorem C62_call (f : Sym) (hf : ¬ IsOperator f) (ho : opening f = none) (hl : f.name ≠ c!"List") (ps : List Param)
    (l : List (List Str)) (h : FormulaLists ps l) :
    AST.toTex (.function f ps) = some (['\\', '\\'] ++ c!"operatorname{" ++ f.name ++ c!"}" ++ (l.map bracketed).flatten) := by
  obtain ⟨h1, h2, h3⟩ := not_operator hf
  have h4 : f.name ∉ trigNames := by
    intro hc
    rw [opening, if_pos (show f.name ∈ commandNames from hc)] at ho
    cases ho
  have h5 : f.name ∉ operatorNames := by
    intro hc
    rw [opening, if_neg (show f.name ∉ commandNames from h4), if_pos (show f.name ∈ roundNames from hc)] at ho
    cases ho
  rw [AST.toTex.eq_def]
  dsimp only
  rw [if_neg h1, if_neg h2, if_neg h3, if_neg h4, if_neg h5, if_neg hl, texParams_of h]
  dsimp only
  rw [join_nil]
  rfl

/-- **C62**.  A list: its elements between `\\{` and `\\}`. -/
theorem C62_list (f : Sym) (hf : ¬ IsOperator f) (hl : f.name = c!"List") (args : List AST) (hne : args ≠ []) (ts : List Str)
    (h : Formulas args ts) (opts : BMap AST AST) (pos : Position) (ps : List Param) :
    AST.toTex (.function f (.mk args opts pos :: ps)) = some (['\\', '\\', '{'] ++ commas ts ++ ['\\', '\\', '}']) := by
  obtain ⟨h1, h2, h3⟩ := not_operator hf
  have h4 : f.name ∉ trigNames := by rw [hl]; decide
  have h5 : f.name ∉ operatorNames := by rw [hl]; decide
  have h6 : args.length ≠ 0 := fun hc => hne (List.eq_nil_of_length_eq_zero hc)
  have h7 : ¬ maxHeight args > 1 := by
    have := maxHeight_le args
    omega
  rw [AST.toTex, if_neg h1, if_neg h2, if_neg h3, if_neg h4, if_neg h5, if_pos hl]
  simp only [texList, if_neg h6, (texArgs_iff _ _).2 h, if_neg h7, join_commas]

/-- How an infix operation is written between its operands. -/
def sign (name : Str) : Str := if name = c!"times" then c!" " else if name = c!"add" then c!" + " else c!" " ++ name ++ c!" "

/-- **C62**.  An infix operation: the first two operands as they are printed, and between them a space for `times`, a plus
sign for `add`.  (Violations: any other operator appears with its name, so that a difference is set as `a subtract b`;
operands after the second are dropped; operands are not set as formulas, and have no brackets.) -/
theorem C62_infix (f : Sym) (hf : f.nameSpace = [c!"std", c!"infix"]) (a b : AST) (as : List AST) (opts : BMap AST AST)
    (pos : Position) (ps : List Param) (s t : Str) (ha : a.display = some s) (hb : b.display = some t) :
    AST.toTex (.function f (.mk (a :: b :: as) opts pos :: ps)) = some (s ++ sign f.name ++ t) := by
  rw [AST.toTex, if_neg (by rw [hf]; decide), if_pos hf]
  simp only [infixTex, Param.arguments, ha, hb, sign]
  by_cases ht : f.name = c!"times"
  · simp [ht]
  · by_cases hp : f.name = c!"add" <;> simp [ht, hp]

/-- **C62** (violation).  The formula does not depend on the operands after the second, so that different products have the
same formula. -/
theorem C62_operands_lost (f : Sym) (hf : f.nameSpace = [c!"std", c!"infix"]) (a b : AST) (as as' : List AST)
    (opts : BMap AST AST) (pos : Position) (ps : List Param) :
    AST.toTex (.function f (.mk (a :: b :: as) opts pos :: ps)) = AST.toTex (.function f (.mk (a :: b :: as') opts pos :: ps)) := by
  simp only [AST.toTex, if_neg (show f.nameSpace ≠ [c!"std", c!"prefix"] by rw [hf]; decide), if_pos hf, infixTex,
    Param.arguments]

/-- **C62** (violation).  Brackets that the reader needs are missing: the formula of `(x + y) * z` begins with the sum
written without brackets. -/
theorem C62_brackets_lost (plus times : Sym) (hp : plus.kind = .infix c!"+" 80) (ht : times.nameSpace = [c!"std", c!"infix"])
    (hn : times.name = c!"times") (x y z : Int) (pos pos' : Position) :
    AST.toTex (.function times [.mk [.function plus [.mk [.integer x, .integer y] [] pos], .integer z] [] pos']) =
      some (intStr x ++ c!"+" ++ intStr y ++ c!" " ++ intStr z) := by
  have h := C62_infix times ht (.function plus [.mk [.integer x, .integer y] [] pos]) (.integer z) [] [] pos' []
    (intStr x ++ c!"+" ++ intStr y) (intStr z) (by
      simp only [AST.display, hp, displayInfix, displayArgs, AST.precedence]
      simp [join]) (by rw [AST.display])
  rw [h, sign, if_pos hn]

/-- **C62** (violation).  Named arguments do not appear in any formula of a call, a list or an operation. -/
theorem C62_options_lost (f : Sym) (args : List AST) (opts opts' : BMap AST AST) (pos pos' : Position) :
    AST.toTex (oneList f args opts pos) = AST.toTex (oneList f args opts' pos') := by
  simp only [oneList, AST.toTex, texOmit, texList, texParams, infixTex, Param.arguments, Param.height]
  rfl

/-- `sin(x, y)`, `arccot(x + y)`, `f(x)(y)` and `x - y`. -/
example : AST.toTex (.function (Sym.ofStr c!"sin") [.mk [.mkSymbol c!"x", .mkSymbol c!"y"] [] Position.dflt]) =
    some c!"\\\\sin(x, y)" :=
  ((C62_named (Sym.ofStr c!"sin") c!"\\\\sin" (by unfold IsOperator; decide) (by decide) [] Position.dflt []).2.2.2 _ _ []
    [c!"x", c!"y"] (.cons rfl (.cons rfl .nil)))

example : AST.toTex (.function (Sym.ofStr c!"arccot") [.mk [.function ⟨[c!"std", c!"infix"], c!"add", .infix c!"+" 80, 0⟩
    [.mk [.mkSymbol c!"x", .mkSymbol c!"y"] [] Position.dflt]] [] Position.dflt]) = some c!"\\\\operatorname{arccot}(x + y)" :=
  ((C62_named (Sym.ofStr c!"arccot") c!"\\\\operatorname{arccot}" (by unfold IsOperator; decide) (by decide) []
    Position.dflt []).2.2.1 _ c!"x + y" (C62_infix _ rfl _ _ [] [] _ [] c!"x" c!"y" rfl rfl) ⟨rfl, by decide⟩)

example : AST.toTex (.function (Sym.ofStr c!"f") [.mk [.mkSymbol c!"x"] [] Position.dflt, .mk [.mkSymbol c!"y"] [] Position.dflt]) =
    some c!"\\\\operatorname{f}\\\\left(x\\\\right)\\\\left(y\\\\right)" :=
  C62_call (Sym.ofStr c!"f") (by unfold IsOperator; decide) (by decide) (by decide) _ [[c!"x"], [c!"y"]]
    (.cons (.cons rfl .nil) (.cons (.cons rfl .nil) .nil))

example : AST.toTex (.function ⟨[c!"std", c!"infix"], c!"subtract", .infix c!"-" 80, 0⟩
    [.mk [.mkSymbol c!"x", .mkSymbol c!"y"] [] Position.dflt]) = some c!"x subtract y" :=
  C62_infix _ rfl _ _ [] [] _ [] c!"x" c!"y" rfl rfl

end SM.Props
