import Verif.Props.Sound
import Verif.Props.Symbol
/-
C72: answers can be typed in again.
-/
namespace SM.Props
open SM SM.Peg

variable {u : Uni} {msg : Str → Str} {w : Width}

/-- How `null` is stored: a symbol that cannot be typed. -/
def nullSym : Sym := Sym.ofStr c!"std::constant:Null"

theorem tree_symbol {q : Position} : ∀ (t : OpTree AST Op) {s : Sym},
    evalTree some (Op.applyAt q) t = some (.symbol s) → t.steps.1 = .symbol s
  | .leaf x, s, h => by cases h; rfl
  | .node l o r, s, h => by
    exfalso
    simp only [evalTree] at h
    split at h
    · rename_i a b _ _
      cases o with
      | dot =>
        simp only [Op.applyAt] at h
        cases b with
        | function f ps =>
          match ps, h with
          | .mk _ _ _ :: _, h => cases h
        | _ => cases h
      | _ => cases h
    · cases h

/-- An expression that stands for a name is the name, perhaps in brackets, or `null`. -/
theorem reads_symbol {P : Nat → Nat → Position} {i : Nat} {x : Str} {a : AST} (h : RExpr u P i x a) :
    ∀ s, a = .symbol s → s = nullSym ∨ ∃ p : Path, p.Ok u ∧ p.Free ∧ s = Sym.ofStr p.text := by
  refine RExpr.rec (u := u) (P := P)
    (motive_1 := fun _ _ a _ => ∀ s, a = .symbol s → s = nullSym ∨ ∃ p : Path, p.Ok u ∧ p.Free ∧ s = Sym.ofStr p.text)
    (motive_2 := fun _ _ _ _ => True)
    (motive_3 := fun _ _ a _ => ∀ s, a = .symbol s → s = nullSym ∨ ∃ p : Path, p.Ok u ∧ p.Free ∧ s = Sym.ofStr p.text)
    (motive_4 := fun _ _ a _ => ∀ s, a = .symbol s → s = nullSym ∨ ∃ p : Path, p.Ok u ∧ p.Free ∧ s = Sym.ofStr p.text)
    (motive_5 := fun _ _ a _ => ∀ s, a = .symbol s → s = nullSym ∨ ∃ p : Path, p.Ok u ∧ p.Free ∧ s = Sym.ofStr p.text)
    (motive_6 := fun _ _ _ _ => True) (motive_7 := fun _ _ _ _ => True) (motive_8 := fun _ _ _ _ => True)
    (motive_9 := fun _ _ _ _ => True) (motive_10 := fun _ _ _ _ => True) (motive_11 := fun _ _ _ _ => True)
    (motive_12 := fun _ _ _ _ => True)
    ?_ ?_ ?_ ?_ ?_ ?_ ?_ ?_ ?_ ?_ ?_ ?_ ?_ ?_ ?_ ?_ ?_ ?_ ?_ ?_ ?_ ?_ ?_ ?_ ?_ ?_ ?_ ?_ ?_ ?_ ?_ ?_ ?_ h
  · intro i t s j b l v _ _ _ h4 k1 _ y hy
    subst hy
    have := tree_symbol _ h4
    rw [(group_spec b l).2] at this
    exact k1 y this
  · intros; trivial
  · intros; trivial
  · intro i x a _ k; exact k
  · intro i c n x a _ _ _ s hs; cases hs
  · intro i x a _ k; exact k
  · intro i x y n a _ _ _ s hs; cases hs
  · intro i x h b y s a d l _ _ _ _ _ _ _ _ s hs; cases hs
  · intro i a v _ ho hv s hs
    cases a with
    | null => cases hv; cases hs; exact .inl rfl
    | sym p => cases hv; cases hs; exact .inr ⟨p, ho.1, ho.2, rfl⟩
    | radix r k d ds =>
      simp only [SAtom.value] at hv
      split at hv <;> cases hv
      cases hs
    | _ => cases hv <;> cases hs
  · intro i f m l _ _ s hs; cases hs
  · intro i x a _ k; exact k
  · intro i x _ s hs; cases hs
  · intro i x y s a l _ _ _ _ _ z hz; cases hz
  · intro i p s q l _ _ _ z hz; cases hz
  all_goals intros; trivial

theorem worth_symbol {v : AST} {s : Sym} (h : Worth v (.symbol s)) : v = .symbol s := by cases h; rfl

theorem worth_decimal {v : AST} {d : Dec} (h : Worth v (.decimal d)) : v = .decimal d := by cases h; rfl

theorem typed_of_call {f : Str} (hf : f ≠ c!"input" ∧ f ≠ c!"output") {as : List AST} {v : AST} (hc : CallOf f as v)
    (h : Typed v) : ∀ a ∈ as, Typed a := by
  cases hc
  rcases typed_args_of h with h | rfl | rfl
  · exact h
  · exact absurd (by decide) hf.2
  · exact absurd (by decide) hf.1

theorem decimal_typed {v : AST} {d : Dec} (ht : Typed v) (h : Worth v (.decimal d) ∨ Deviates v (.decimal d)) :
    Typed (.decimal d) := by
  rcases h with h | h
  · rw [← worth_decimal h]; exact ht
  · cases h with
    | decimal hf hc =>
      refine typed_of_call ?_ hc ht _ (by simp)
      simp only [List.mem_cons, List.not_mem_nil, or_false] at hf
      rcases hf with rfl | rfl <;> decide
    | ignored _ _ hc hw =>
      rw [worth_decimal hw] at hc
      cases hc

/-- What a submitted text evaluates to, when it is answered. -/
theorem value_of_answers {s t : Str} (h : Answers u msg w s (.ok t)) :
    ∃ v r, parseText u (replCfg msg s) = .ok v ∧ forward w v = .ok r ∧ r.display = some t := by
  have hp := printed_of_answers h
  rw [printed, value, replParse] at hp
  cases hv : parseText u (replCfg msg s) with
  | err e => rw [hv] at hp; cases hp
  | panic => rw [hv] at hp; cases hp
  | ok v =>
    rw [hv, Out.ok_bind] at hp
    cases hr : forward w v with
    | err e => rw [hr] at hp; cases hp
    | panic => rw [hr] at hp; cases hp
    | ok r =>
      rw [hr, Out.ok_bind] at hp
      refine ⟨v, r, rfl, hr, ?_⟩
      cases hd : r.display with
      | none => rw [hd] at hp; cases hp
      | some t' => rw [hd] at hp; cases hp; rfl

theorem value_of_erased {s : Str} {b : AST} (h : eraseR (parseText u (replCfg msg s)) = .ok b) :
    value w (replParse u msg) s = forward w b := by
  rw [value, replParse]
  cases hv : parseText u (replCfg msg s) with
  | err e => rw [hv] at h; cases h
  | panic => rw [hv] at h; cases h
  | ok v =>
    rw [hv] at h
    cases h
    rw [forward_erase]
    rfl

/-- What is typed and printed back in the same way is answered with itself. -/
theorem answers_self (L : Lawful u) (a : SAtom) (ha : a.Ok u) (hn : Wordless a.text) {v : AST} (hv : a.value = some v)
    (hl : Leaf v) (hd : v.display = some a.text) : Answers u msg w a.text (.ok a.text) := by
  refine answers_leaf hl (eraseR_leaf hl ?_) hd
  rw [parse_atom L (replCfg msg a.text) a ha hn (w := []) (w' := []) blank_nil blank_nil (by simp [replCfg]), hv]
  rfl

/-- **C72**.  Whatever text is submitted, at any time: if it gets an answer, then the answer, submitted at any time, gets
itself as the answer, unless it is the content of a string, or a name that begins with a word that begins a statement,
or the name that stands for `null`. -/
theorem C72_again (L : Lawful u) (s t : Str) (h : Answers u msg w s (.ok t)) :
    Answers u msg w t (.ok t) ∨ value w (replParse u msg) s = .ok (.string t) ∨
      (value w (replParse u msg) s = .ok (.mkSymbol t) ∧
        (t = c!"std::constant:Null" ∨ ∃ p : Path, p.Ok u ∧ t = p.text ∧ ¬ Wordless t)) := by
  obtain ⟨v, r, hv, hr, hd⟩ := value_of_answers h
  rcases C56_answers_are_readings L _ v hv with ⟨rfl, -⟩ | ⟨_, _, _, _, _, hx⟩
  · cases hr
    rw [AST.display] at hd
    cases hd
  have ht := typed_expr hx
  have hright := right_typed w ht hr
  have hatom := C20_result_is_atom w _ _ hr
  cases r with
  | empty => rw [AST.display] at hd; cases hd
  | program l => exact hatom.elim
  | function s ps => exact hatom.elim
  | boolean b =>
    rw [AST.display] at hd
    cases hd
    exact .inl (answers_self L (.bool b) trivial (by cases b <;> (unfold Wordless; decide)) rfl trivial
      (by rw [AST.display]; rfl))
  | integer n =>
    left
    have hn := C57_no_negative_answer L _ v hv w _ hr
    simp only [Negative] at hn
    obtain ⟨k, rfl⟩ : ∃ k : Nat, n = (k : Int) := ⟨n.natAbs, by omega⟩
    rw [AST.display] at hd
    have h1 := answers_self (msg := msg) (w := w) L (.int k) trivial (by simpa [SAtom.text] using numeral_wordless k []) rfl
      trivial (by rw [AST.display]; rfl)
    have : t = numeral k := (Option.some.inj hd).symm
    rw [this]
    exact h1
  | decimal d =>
    left
    have hd' := decimal_typed ht hright
    generalize hy : AST.decimal d = y at hd'
    cases hd' with
    | decimal i f =>
      cases hy
      rw [AST.display, decStr_literal] at hd
      cases hd
      exact answers_self L (.dec i f) trivial (numeral_wordless i _) rfl trivial (by rw [AST.display, decStr_literal]; rfl)
    | boolean | integer | string | symbol | call | operator | history => cases hy
  | symbol y =>
    have hy : v = .symbol y := by
      rcases hright with h | h
      · exact worth_symbol h
      · cases h with
        | ignored _ _ hc hw => rw [worth_symbol hw] at hc; cases hc
    rw [AST.display] at hd
    rcases reads_symbol hx y hy with rfl | ⟨p, hp, hf, rfl⟩
    · cases hd
      exact .inr (.inr ⟨by rw [value, replParse, hv]; exact hr, .inl rfl⟩)
    · rw [show (Sym.ofStr p.text).display = p.text by rw [display_eq_join, ofStr_parts, join_splitColons]] at hd
      cases hd
      by_cases hn : Wordless p.text
      · exact .inl (answers_self L (.sym p) ⟨hp, hf⟩ hn rfl trivial (by
          rw [AST.mkSymbol, AST.display, display_eq_join, ofStr_parts, join_splitColons]; rfl))
      · exact .inr (.inr ⟨by rw [value, replParse, hv]; exact hr, .inr ⟨p, hp, rfl, hn⟩⟩)
  | string x =>
    right; left
    rw [AST.display] at hd
    cases hd
    rw [value, replParse, hv]
    exact hr

/-- **C72**.  A number is always accepted back. -/
theorem C72_numbers (L : Lawful u) (s t : Str) (h : Answers u msg w s (.ok t))
    (hn : (∃ n, value w (replParse u msg) s = .ok (.integer n)) ∨ ∃ d, value w (replParse u msg) s = .ok (.decimal d)) :
    Answers u msg w t (.ok t) := by
  rcases C72_again L s t h with h | h | ⟨h, -⟩
  · exact h
  · rcases hn with ⟨n, hn⟩ | ⟨n, hn⟩ <;> rw [h] at hn <;> cases hn
  · rcases hn with ⟨n, hn⟩ | ⟨n, hn⟩ <;> rw [h] at hn <;> cases hn

/-- The answer to `2*3` is 6, and so is the answer to that. -/
example (L : Lawful u) : Answers u msg w c!"6" (.ok c!"6") := by
  have h1 := C54_times L msg w (.mk [] (.atom (.int 2)) []) (.mk [] (.atom (.int 3)) []) [] []
    (intBinary_ok 2 3 blank_nil blank_nil (by decide) (fun h => nomatch h)) blank_nil blank_nil
    (by rw [binaryText, intTerm_text]; exact numeral_wordless 2 _) (intTerm_value 2) (intTerm_value 3)
  have h2 := parse_binary L (replCfg msg _) (.mk [] (.atom (.int 2)) []) (.mk [] (.atom (.int 3)) []) .star [] []
    (intBinary_ok 2 3 blank_nil blank_nil (by decide) (fun h => nomatch h)) blank_nil blank_nil
    (by rw [intTerm_text]; exact numeral_wordless 2 _) rfl
  rw [intTerm_value, intTerm_value] at h2
  exact C72_numbers L _ _ h1 (.inl ⟨6, value_of_erased h2⟩)

/-- **C72**.  Every name is answered with itself when it stands in brackets, whatever word it begins with, unless that
is `null`, `true` or `false`. -/
theorem C72_names (L : Lawful u) (p : Path) (hp : p.Ok u) (hf : p.Free) :
    Answers u msg w ('(' :: (p.text ++ c!")")) (.ok p.text) := by
  have h := C54_expressions L msg w (.node (.paren (.node (.atom (.sym p))) []))
    (node_ok (by rw [SNode.Ok]; exact ⟨node_ok (by rw [SNode.Ok]; exact ⟨hp, hf⟩), blank_nil, .inr rfl⟩))
    (by rw [node_text, SNode.text]; exact wordless_head rfl (by decide)) blank_nil blank_nil
  rw [node_value, node_text, SNode.value, SNode.text, node_value, node_text, SNode.value, SNode.text] at h
  have e : shown w (answer (SAtom.sym p).value) = .ok p.text := by
    simp only [SAtom.value, answer, shown, forward, Out.ok_bind, AST.mkSymbol, AST.display]
    rw [display_eq_join, ofStr_parts, join_splitColons]
    rfl
  rw [e] at h
  simpa [SAtom.text] using h

/-- **C72** (violations).  A string is printed without its quotes, so that the answer to `"2*3"` is `2*3` and the answer
to that is 6.  A name that begins with `let` is answered when it stands in brackets, but the answer makes the call panic
when it is typed.  The answer to `null` is refused. -/
theorem C72_not_again (L : Lawful u) :
    (Answers u msg w c!"\"2*3\"" (.ok c!"2*3") ∧ Answers u msg w c!"2*3" (.ok c!"6")) ∧
    (Answers u msg w c!"(letter)" (.ok c!"letter") ∧ Answers u msg w c!"letter" .panic) ∧
    (Answers u msg w c!"null" (.ok c!"std::constant:Null") ∧
      Answers u msg w c!"std::constant:Null" (.err (.parseError (msg c!"std::constant:Null")))) := by
  refine ⟨⟨?_, ?_⟩, ⟨?_, ?_⟩, ?_, ?_⟩
  · exact (C54_literals (wl := []) (wr := []) L msg w blank_nil blank_nil).2.2.1 c!"2*3" (by decide)
  · have := C54_times L msg w (.mk [] (.atom (.int 2)) []) (.mk [] (.atom (.int 3)) []) [] []
      (intBinary_ok 2 3 blank_nil blank_nil (by decide) (fun h => nomatch h)) blank_nil blank_nil
      (by rw [binaryText, intTerm_text]; exact numeral_wordless 2 _) (intTerm_value 2) (intTerm_value 3)
    rw [binaryText, intTerm_text, intTerm_text] at this
    exact this
  · exact C72_names (p := ⟨c!"letter", []⟩) L
      ⟨(C42_letter L (replCfg msg c!"letter") rfl).1, by simp⟩ (by unfold Path.Free; decide)
  · have := answers_of (u := u) (msg := msg) (w := w) (s := c!"letter") (r := .panic)
      (by rw [(C42_letter L (replCfg msg c!"letter") rfl).2]; rfl)
    exact this
  · exact answers_leaf (a := .symbol nullSym) trivial (eraseR_leaf trivial (parse_atom L (replCfg msg c!"null") .null trivial
      (by unfold Wordless; decide) (w := []) (w' := []) blank_nil blank_nil rfl)) (by rw [AST.display]; rfl)
  · exact answers_of (by
      rw [parse_rejects L (x := c!"std::constant:Null") (by decide +kernel) (by decide) (replCfg msg _) rfl])

end SM.Props
