import Verif.Props.Place
import Verif.Props.Click
import Verif.Props.Crash
import Verif.Export.Wolfram
/-
C65: what stands in front of a text, and where an expression stands in it, do not matter.
-/
namespace SM.Props
open SM SM.Peg

/-! ### Rendering does not look at positions -/

theorem eraseL_length (l : List AST) : (eraseL l).length = l.length := by rw [eraseL_eq, List.length_map]

theorem precedence_erase (a : AST) : (erase a).precedence = a.precedence := by cases a <;> rfl

mutual
theorem display_erase : ∀ a : AST, (erase a).display = a.display
  | .empty => rfl
  | .program l => by rw [erase, AST.display, AST.display]
  | .function s ps => by
    rw [erase, AST.display, AST.display]
    cases s.kind with
    | normal => rfl
    | «alias» => rfl
    | «prefix» o => exact unary_erase o [] ps
    | «infix» o p => exact infix_erase o p ps
    | suffix o => exact unary_erase [] o ps
  | .boolean b => rfl
  | .integer n => rfl
  | .decimal n => rfl
  | .symbol n => rfl
  | .string n => rfl
termination_by structural a => a
theorem unary_erase (x y : Str) : ∀ l : List Param, displayUnary x y (eraseP l) = displayUnary x y l
  | [] => rfl
  | [.mk a [] q] => by rw [eraseP, eraseParam, eraseO, eraseP, displayUnary, displayUnary]; exact one_erase x y a
  | [.mk a (e :: o) q] => by rw [eraseP, eraseParam, eraseO, eraseP]; rfl
  | .mk a [] x :: .mk b t y :: l => by rw [eraseP, eraseP, eraseParam, eraseParam, eraseO]; rfl
  | .mk a (e :: o) x :: .mk b t y :: l => by rw [eraseP, eraseP, eraseParam, eraseParam, eraseO]; rfl
termination_by structural l => l
theorem one_erase (x y : Str) : ∀ l : List AST, displayOne x y (eraseL l) = displayOne x y l
  | [] => rfl
  | [a] => by rw [eraseL, eraseL, displayOne, displayOne, display_erase a]
  | a :: b :: l => by rw [eraseL, eraseL]; rfl
termination_by structural l => l
theorem infix_erase (o : Str) (n : Nat) : ∀ l : List Param, displayInfix o n (eraseP l) = displayInfix o n l
  | [] => rfl
  | [.mk a [] q] => by
    rw [eraseP, eraseParam, eraseO, eraseP, displayInfix, displayInfix, args_erase n a, eraseL_length]
  | [.mk a (e :: t) q] => by rw [eraseP, eraseParam, eraseO, eraseP]; rfl
  | .mk a [] x :: .mk b t y :: l => by rw [eraseP, eraseP, eraseParam, eraseParam, eraseO]; rfl
  | .mk a (e :: o) x :: .mk b t y :: l => by rw [eraseP, eraseP, eraseParam, eraseParam, eraseO]; rfl
termination_by structural l => l
theorem args_erase (n : Nat) : ∀ l : List AST, displayArgs n (eraseL l) = displayArgs n l
  | [] => rfl
  | a :: l => by rw [eraseL, displayArgs, displayArgs, display_erase a, args_erase n l, precedence_erase]
termination_by structural l => l
end

theorem height_erase (a : AST) : (erase a).height = a.height := by cases a <;> rfl

theorem maxHeight_erase (l : List AST) : maxHeight (eraseL l) = maxHeight l := by
  induction l with
  | nil => rfl
  | cons a l ih => rw [eraseL, maxHeight, maxHeight, ih, height_erase]

theorem width_erase (a : AST) : (erase a).width = a.width := by
  cases a with
  | function s p =>
    rw [erase, AST.width.eq_def, AST.width.eq_def]
    cases p with
    | nil => rfl
    | cons p l => obtain ⟨x, o, q⟩ := p; simp [eraseP, eraseParam, Param.arguments, eraseL_length]
  | _ => rfl

theorem infixTex_erase (s : Sym) (p : Param) : infixTex s (eraseParam p) = infixTex s p := by
  obtain ⟨x, o, q⟩ := p
  match x with
  | [] => rfl
  | [a] => simp [eraseParam, eraseL, infixTex, Param.arguments]
  | a :: b :: l => simp [eraseParam, eraseL, infixTex, Param.arguments, display_erase]

mutual
theorem toTex_erase : ∀ a : AST, (erase a).toTex = a.toTex
  | .empty => rfl
  | .program l => by rw [erase, AST.toTex, AST.toTex]
  | .function s ps => by
    rw [erase, AST.toTex.eq_def, AST.toTex.eq_def]
    dsimp only
    rw [texOmit_erase ps, texList_erase ps, texParams_erase ps]
    cases ps with
    | nil => rfl
    | cons p l => rw [eraseP]; dsimp only; rw [infixTex_erase]
  | .boolean b => rfl
  | .integer n => rfl
  | .decimal n => rfl
  | .symbol n => rfl
  | .string n => rfl
termination_by structural a => a
theorem texOmit_erase : ∀ l : List Param, texOmit (eraseP l) = texOmit l
  | [] => rfl
  | .mk a o q :: l => by
    rw [eraseP, eraseParam, texOmit, texOmit, texArgs_erase a, eraseL_length]
    have h1 : (eraseL a).head?.bind AST.width = a.head?.bind AST.width := by
      cases a with
      | nil => rfl
      | cons b a => rw [eraseL]; exact width_erase b
    have h2 : (Param.mk (eraseL a) (eraseO o) noPos).height = (Param.mk a o q).height := by
      simp [Param.height, Param.arguments, eraseL_length, maxHeight_erase]
    rw [h1, h2]
termination_by structural l => l
theorem texList_erase : ∀ l : List Param, texList (eraseP l) = texList l
  | [] => rfl
  | .mk a o q :: l => by
    rw [eraseP, eraseParam, texList, texList, texArgs_erase a, eraseL_length, maxHeight_erase]
termination_by structural l => l
theorem texParams_erase : ∀ l : List Param, texParams (eraseP l) = texParams l
  | [] => rfl
  | .mk a o q :: l => by rw [eraseP, eraseParam, texParams, texParams, texArgs_erase a, texParams_erase l]
termination_by structural l => l
theorem texArgs_erase : ∀ l : List AST, texArgs (eraseL l) = texArgs l
  | [] => rfl
  | a :: l => by rw [eraseL, texArgs, texArgs, toTex_erase a, texArgs_erase l]
termination_by structural l => l
end

mutual
theorem wolfram_erase (cap : Str → Str) : ∀ a : AST, (erase a).toWolfram cap = a.toWolfram cap
  | .empty => rfl
  | .program l => by rw [erase, AST.toWolfram, AST.toWolfram, wolframArgs_erase cap l]
  | .function s ps => by rw [erase, AST.toWolfram, AST.toWolfram, wolframParams_erase cap ps]
  | .boolean b => rfl
  | .integer n => rfl
  | .decimal n => rfl
  | .symbol n => rfl
  | .string n => rfl
termination_by structural a => a
theorem wolframParams_erase (cap : Str → Str) : ∀ (l : List Param) (h : WValue),
    wolframParams cap h (eraseP l) = wolframParams cap h l
  | [], _ => rfl
  | .mk a o q :: l, h => by
    rw [eraseP, eraseParam, wolframParams, wolframParams, wolframArgs_erase cap a, wolframOpts_erase cap o,
      wolframParams_erase cap l]
termination_by structural l => l
theorem wolframArgs_erase (cap : Str → Str) : ∀ l : List AST, wolframArgs cap (eraseL l) = wolframArgs cap l
  | [] => rfl
  | a :: l => by rw [eraseL, wolframArgs, wolframArgs, wolfram_erase cap a, wolframArgs_erase cap l]
termination_by structural l => l
theorem wolframOpts_erase (cap : Str → Str) : ∀ l : List (AST × AST), wolframOpts cap (eraseO l) = wolframOpts cap l
  | [] => rfl
  | e :: l => by rw [eraseO, wolframOpts, wolframOpts, wolframRule_erase cap e, wolframOpts_erase cap l]
termination_by structural l => l
theorem wolframRule_erase (cap : Str → Str) : ∀ e : AST × AST, wolframRule cap (eraseE e) = wolframRule cap e
  | (k, v) => by rw [eraseE, wolframRule, wolframRule, wolfram_erase cap k, wolfram_erase cap v]
termination_by structural e => e
end

/-- **C65**.  Two expressions that differ in positions only are printed, set as formulas and exported alike. -/
theorem C65_rendering {a b : AST} (h : erase a = erase b) (cap : Str → Str) :
    a.display = b.display ∧ a.toTex = b.toTex ∧ a.toWolfram cap = b.toWolfram cap := by
  refine ⟨?_, ?_, ?_⟩
  · rw [← display_erase a, h, display_erase]
  · rw [← toTex_erase a, h, toTex_erase]
  · rw [← wolfram_erase cap a, h, wolfram_erase]

variable {u : Uni}

/-! ### Parsing -/

/-- **C65**.  Blank space in front of any text, whether the text is accepted, rejected or makes the parser panic, and the
file name, have no influence on the result but for positions. -/
theorem C65_leading (L : Lawful u) {b : Str} (hb : Blank u b) {c d : Cfg} (hi : d.input = b ++ c.input)
    (hm : d.errorText = c.errorText) : eraseR (parseText u d) = eraseR (parseText u c) := by
  rw [parseText, parseText, hi, smParse_blank L hb]
  cases smParse u .program c.input with
  | error => rw [← hm]; rfl
  | crash => rfl
  | pairs l =>
    show eraseR (parsePairs d (shiftPairs _ l)) = eraseR (parsePairs c l)
    rw [pairs_bare d c, bare_shifts, ← pairs_bare c c]

/-- **C65**.  The name of the file has no influence on the result but for positions. -/
theorem C65_file_name (c : Cfg) (f : Str) : eraseR (parseText u { c with file := f }) = eraseR (parseText u c) := by
  rw [parseText, parseText]
  cases smParse u .program c.input with
  | error => rfl
  | crash => rfl
  | pairs l =>
    show eraseR (parsePairs { c with file := f } l) = eraseR (parsePairs c l)
    rw [pairs_bare { c with file := f } c, ← pairs_bare c c]

/-- **C65**.  Blank space in front of a text does not change whether it is rejected. -/
theorem C65_rejected (L : Lawful u) {b : Str} (hb : Blank u b) (t : Str) {c d : Cfg} (hc : c.input = t)
    (hd : d.input = b ++ t) :
    parseText u d = .err (.parseError d.errorText) ↔ parseText u c = .err (.parseError c.errorText) := by
  have key : ∀ e : Cfg, parseText u e = .err (.parseError e.errorText) ↔ smParse u .program e.input = .error := by
    intro e
    rw [parseText]
    cases h : smParse u .program e.input with
    | error => simp
    | crash => simp
    | pairs l =>
      simp only [reduceCtorEq, iff_false]
      intro hp
      clear h
      induction l with
      | nil => cases hp
      | cons p l ih =>
        rw [parsePairs] at hp
        split at hp
        · exact ih hp
        · split at hp
          · cases hx : buildExpression e p.inner .empty <;> rw [hx] at hp <;> cases hp
          · split at hp
            · exact ih hp
            · cases hp
  rw [key, key, hc, hd, smParse_blank L hb]
  cases smParse u .program t <;> simp [shiftParsed]

/-! ### Sessions and the page -/

variable {msg : Str → Str} {w : Width}

theorem value_erased {s t : Str} (h : eraseR (replParse u msg s) = eraseR (replParse u msg t)) :
    value w (replParse u msg) s = value w (replParse u msg) t := by
  have key : ∀ r : SMResult AST, (r >>= forward w) = (eraseR r >>= forward w) := by
    intro r
    cases r with
    | ok a => show forward w a = forward w (erase a); rw [forward_erase]
    | err e => rfl
    | panic => rfl
  rw [value, value, key, h, ← key]

/-- **C65**.  A text that is not rejected has the same value with blank space in front. -/
theorem C65_value (L : Lawful u) {b : Str} (hb : Blank u b) {t : Str}
    (ht : replParse u msg t ≠ .err (.parseError (msg t))) :
    value w (replParse u msg) (b ++ t) = value w (replParse u msg) t := by
  have h1 : replParse u msg (b ++ t) = parseText u (replCfg msg (b ++ t)) := rfl
  have h2 : parseText u (replCfg msg (b ++ t)) ≠ .err (.parseError (msg (b ++ t))) := fun h =>
    ht ((C65_rejected L hb t (c := replCfg msg t) (d := replCfg msg (b ++ t)) rfl rfl).1 h)
  apply value_erased
  show eraseR (parseText u (replCfg msg (b ++ t))) = eraseR (parseText u (replCfg msg t))
  rw [← C65_leading L hb (c := replCfg msg t) (d := { replCfg msg (b ++ t) with errorText := msg t }) rfl rfl]
  rw [parseText, parseText]
  rw [parseText] at h2
  show eraseR (match smParse u .program (b ++ t) with | .pairs l => _ | .error => _ | .crash => _) =
    eraseR (match smParse u .program (b ++ t) with | .pairs l => _ | .error => _ | .crash => _)
  cases hx : smParse u .program (b ++ t) with
  | error => rw [show (replCfg msg (b ++ t)).input = b ++ t from rfl, hx] at h2; exact absurd rfl h2
  | crash => rfl
  | pairs l =>
    show eraseR (parsePairs _ l) = eraseR (parsePairs _ l)
    rw [pairs_bare _ (replCfg msg t), ← pairs_bare]

/-- **C65**.  The session answers a text that is not rejected in the same way with blank space in front. -/
theorem C65_answers (L : Lawful u) {b : Str} (hb : Blank u b) {t : Str} {r : SMResult Str} (h : Answers u msg w t r)
    (hr : ∀ m, r ≠ .err (.parseError m)) : Answers u msg w (b ++ t) r := by
  have ht : replParse u msg t ≠ .err (.parseError (msg t)) := by
    intro he
    have := printed_of_answers h
    rw [printed, value, he] at this
    exact hr _ this.symm
  intro hist
  rw [C22_outcome_independent_of_history, printed, C65_value L hb ht, ← printed]
  exact printed_of_answers h

/-- **C65**.  The page shows the same for it. -/
theorem C65_page (L : Lawful u) {b : Str} (hb : Blank u b) {t : Str} (tex : AST → Option Str) (dbg : SMError → Str)
    (ht : replParse u msg t ≠ .err (.parseError (msg t))) :
    alone w (replParse u msg) tex dbg (b ++ t) = alone w (replParse u msg) tex dbg t := by
  rw [alone, alone, C65_value L hb ht]

/-- A line comment and an empty line. -/
def note : Str := c!"//! note\n \n"

theorem note_blank (L : Lawful u) : Blank u note := by
  refine ⟨[], [⟨'!', c!" note", c!"\n \n"⟩], rfl, by simp, ?_⟩
  intro k hk
  simp only [List.mem_singleton] at hk
  subst hk
  refine ⟨by decide, by decide, ⟨'\n', c!" \n", rfl, .inl rfl⟩, ?_⟩
  intro c hc
  unfold Ws
  have : c = '\n' ∨ c = ' ' ∨ c = '\n' := by simpa using hc
  rcases this with rfl | rfl | rfl <;> rw [L.plain _ _ (by decide)] <;> decide

/-- The comment in front of a rejected text, of a text that makes the parser panic, and of a product. -/
example (L : Lawful u) (c : Cfg) (hc : c.input = note ++ c!"1+") (hm : c.errorText = c!"no") :
    parseText u c = .err (.parseError c!"no") := by
  rw [← hm]
  refine (C65_rejected L (note_blank L) c!"1+" (c := ⟨[], c!"1+", []⟩) rfl hc).2 ?_
  exact parse_rejects L (by decide +kernel) (by decide) _ rfl

example (L : Lawful u) (c : Cfg) (hc : c.input = note ++ c!"{}") : parseText u c = .panic := by
  have h := C65_leading L (note_blank L) (c := ⟨[], c!"{}", c.errorText⟩) hc rfl
  rw [C60_pieces L ⟨[], c!"{}", c.errorText⟩ (by simp)] at h
  cases hp : parseText u c with
  | panic => rfl
  | ok a => rw [hp] at h; cases h
  | err e => rw [hp] at h; cases h

example (L : Lawful u) : Answers u msg w (note ++ c!"6 7") (.ok c!"42") := by
  have h := C54_juxtaposition L msg w 6 7 (g := [' ']) (by simp) (by
    intro c hc
    simp only [List.mem_singleton] at hc
    subst hc
    unfold HWs Ws
    rw [L.plain _ _ (by decide)]
    decide) (blank_nil (u := u)) (blank_nil (u := u))
  exact C65_answers L (note_blank L) h (fun _ h => by cases h)

end SM.Props
