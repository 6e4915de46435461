import Verif.Props.Endings
/-
C91: positions are the same, whichever way lines end.
-/
namespace SM.Props
open SM SM.Peg

variable {u : Uni}

/-- Every `\r` is followed by `\n`. -/
def NoLoneCr (t : Str) : Prop := ∀ a b, t = a ++ '\r' :: b → b.head? = some '\n'

theorem NoLoneCr.suffix {w t : Str} (h : NoLoneCr (w ++ t)) : NoLoneCr t := by
  rintro a b rfl
  exact h (w ++ a) b (by simp)

theorem NoLoneCr.of_none {t : Str} (h : '\r' ∉ t) : NoLoneCr t := by
  rintro a b rfl
  exact absurd (by simp) h

theorem NoLoneCr.line {x l : Str} (h : NoLoneCr (x ++ l)) (hx : LineEnd x l) (z : Str) :
    place (z ++ x) = ((place z).1 + 1, 1) := by
  rcases hx with rfl | rfl | ⟨rfl, hl⟩
  · exact place_lf z
  · rw [show z ++ ['\r', '\n'] = (z ++ ['\r']) ++ ['\n'] by simp, place_lf, place_char (by decide)]
  · exact absurd (h [] l rfl) hl

/-- The gauge that keeps the places of offsets in two texts. -/
def fine (k : Nat) (s t : Str) : Gauge where
  at_ a l b m := ∃ z z', s = z ++ l ∧ t = z' ++ m ∧ a = z.length ∧ b = z'.length ∧ place z = place z' ∧
    (a = 0 ↔ b = 0) ∧ NoLoneCr l ∧ NoLoneCr m
  f := label k s
  f' := label k t
  zero := by rintro a l b m ⟨z, z', -, -, -, -, -, h, -⟩; exact h
  kept := by
    rintro a l b m ⟨z, z', rfl, rfl, rfl, rfl, h, -⟩
    simp only [label, List.take_left', h]
  char := by
    rintro a b c d l m ⟨z, z', h1, h2, rfl, rfl, h3, h4, h5, h6⟩ hc - hd -
    refine ⟨z ++ [c], z' ++ [d], by simp [h1], by simp [h2], by simp, by simp, ?_, by simp,
      h5.suffix (w := [c]), h6.suffix (w := [d])⟩
    rw [place_char hc, place_char hd, h3]
  line := by
    rintro a b x y l m ⟨z, z', h1, h2, rfl, rfl, h3, h4, h5, h6⟩ hx hy
    have hx' := hx.length
    have hy' := hy.length
    refine ⟨z ++ x, z' ++ y, by simp [h1], by simp [h2], by simp, by simp, ?_, by omega, h5.suffix, h6.suffix⟩
    rw [h5.line hx, h6.line hy, h3]

/-- **C91**.  Two texts without string literals that differ in kinds of white space, and in whether lines end with `\n` or
`\r\n`, give the same expression with the same positions: every line and every column is the same. -/
theorem C91_positions (L : Lawful u) {c d : Cfg} (h : Redrawn u c.input d.input) (hq : '"' ∉ c.input)
    (hc : NoLoneCr c.input) (hd : NoLoneCr d.input) (hf : c.file = d.file) (hm : c.errorText = d.errorText) :
    parseText u c = parseText u d := by
  rw [parseText, parseText]
  rcases smParse_gauge (G := fine (c.input.length + d.input.length) c.input d.input) L h hq
    ⟨[], [], rfl, rfl, rfl, rfl, rfl, Iff.rfl, hc, hd⟩ with ⟨e1, e2⟩ | ⟨p, q, e1, e2, hp⟩ <;> rw [e1, e2]
  · rw [hm]
  · show parsePairs c p = parsePairs d q
    rw [← pairs_thin c p, ← pairs_thin d q]
    exact pairs_placed hf (Nat.le_add_right ..) (Nat.le_add_left ..) hp

theorem toCrlf_lone {t : Str} (hr : '\r' ∉ t) : NoLoneCr (toCrlf t) := by
  induction t with
  | nil => exact .of_none (by simp [toCrlf])
  | cons x l ih =>
    have hl := ih (fun h => hr (List.mem_cons_of_mem _ h))
    have h1 : x ≠ '\r' := by rintro rfl; exact hr (List.mem_cons_self ..)
    intro a b e
    by_cases hx : x = '\n'
    · subst hx
      have e : '\r' :: '\n' :: toCrlf l = a ++ '\r' :: b := by rw [← e]; simp [toCrlf]
      match a, e with
      | [], e => cases e; rfl
      | [_], e => cases e
      | _ :: _ :: a, e => simp only [List.cons_append, List.cons.injEq] at e; exact hl a b e.2.2
    · have e : x :: toCrlf l = a ++ '\r' :: b := by rw [← e]; simp [toCrlf, hx]
      match a, e with
      | [], e => cases e; exact absurd rfl h1
      | _ :: a, e => simp only [List.cons_append, List.cons.injEq] at e; exact hl a b e.2

/-- **C91**.  A text without string literals gives the same expression, with the same positions, when all its line endings
are changed from `\n` to `\r\n`. -/
theorem C91_crlf (L : Lawful u) {c d : Cfg} (h : d.input = toCrlf c.input) (hr : '\r' ∉ c.input) (hq : '"' ∉ c.input)
    (hf : c.file = d.file) (hm : c.errorText = d.errorText) : parseText u c = parseText u d := by
  refine C91_positions L ?_ hq (.of_none hr) ?_ hf hm <;> rw [h]
  · exact redrawn_crlf hr
  · exact toCrlf_lone hr

/-- An empty list on the second line, with either line ending. -/
example (L : Lawful u) (f : Str) : parseText u ⟨f, c!"\r\n[]", []⟩ =
    .ok (.function (Sym.ofStr c!"std::containers::List") [.mk [] [] ⟨f, (2, 1), (2, 3)⟩]) := by
  rw [← C91_crlf (c := ⟨f, c!"\n[]", []⟩) (d := ⟨f, c!"\r\n[]", []⟩) L rfl (by simp) (by simp) rfl rfl]
  exact parse_pairs L (x := c!"\n[]") (l := [.mk .expression 1 3 c!"[]" [.mk .expr 1 3 c!"[]" [
      .mk .term 1 3 c!"[]" [.mk .node 1 3 c!"[]" [.mk .data 1 3 c!"[]" [.mk .list 1 3 c!"[]" []]]]]],
      .mk .EOI 3 3 c!"" []]) (by decide +kernel) (by decide) _ rfl

/-- A single `\r` ends a line for the grammar, but is a column of the same line for positions. -/
example (L : Lawful u) (f : Str) : parseText u ⟨f, c!"\r[]", []⟩ =
    .ok (.function (Sym.ofStr c!"std::containers::List") [.mk [] [] ⟨f, (1, 2), (1, 4)⟩]) :=
  parse_pairs L (x := c!"\r[]") (l := [.mk .expression 1 3 c!"[]" [.mk .expr 1 3 c!"[]" [
      .mk .term 1 3 c!"[]" [.mk .node 1 3 c!"[]" [.mk .data 1 3 c!"[]" [.mk .list 1 3 c!"[]" []]]]]],
      .mk .EOI 3 3 c!"" []]) (by decide +kernel) (by decide) _ rfl

end SM.Props
