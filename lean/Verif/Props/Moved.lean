import Verif.Props.Thin
import Verif.Props.Positions
/-
Building an expression looks at spans only to compute positions.
-/
namespace SM.Props
open SM SM.Peg

variable {c d : Cfg} {g : Nat → Nat}

mutual
/-- A pair with spans changed by `g`. -/
def moved (g : Nat → Nat) : Pair R → Pair R
  | .mk r a b t l => .mk r (g a) (g b) t (movedL g l)
termination_by structural p => p
/-- Pairs with spans changed by `g`. -/
def movedL (g : Nat → Nat) : List (Pair R) → List (Pair R)
  | [] => []
  | p :: l => moved g p :: movedL g l
termination_by structural l => l
end

@[simp] theorem moved_rule (p : Pair R) : (moved g p).rule = p.rule := by cases p; rfl
@[simp] theorem moved_start (p : Pair R) : (moved g p).start = g p.start := by cases p; rfl
@[simp] theorem moved_stop (p : Pair R) : (moved g p).stop = g p.stop := by cases p; rfl
@[simp] theorem moved_text (p : Pair R) : (moved g p).text = p.text := by cases p; rfl
@[simp] theorem moved_inner (p : Pair R) : (moved g p).inner = movedL g p.inner := by cases p; rfl

/-- Offsets in one text stand for the same positions as those in the other. -/
def SamePlaces (c d : Cfg) (g : Nat → Nat) : Prop := ∀ a b, d.position (g a) (g b) = c.position a b

/-- An item with its spans changed. -/
def movedItem (g : Nat → Nat) (x : Item AST) : Item AST := (moved g x.1, x.2)

/-- The outcome of climbing, with its spans changed. -/
def movedOut (g : Nat → Nat) : AST × List (Item AST) → AST × List (Item AST) := fun x => (x.1, x.2.map (movedItem g))

theorem climb_moved {f : AST → Pair R → AST → Option AST}
    (hf : ∀ a p b, f a (moved g p) b = f a p b) : ∀ n : Nat,
    (∀ a m l, climbRec f n a m (l.map (movedItem g)) = (climbRec f n a m l).map (movedOut g)) ∧
    (∀ a m l, climbInner f n a m (l.map (movedItem g)) = (climbInner f n a m l).map (movedOut g)) := by
  intro n
  induction n with
  | zero => exact ⟨fun _ _ _ => by simp [climbRec], fun _ _ _ => by simp [climbInner]⟩
  | succ n ih =>
    obtain ⟨ih1, ih2⟩ := ih
    constructor
    · intro a m l
      match l with
      | [] => simp [climbRec, movedOut]
      | (op, o) :: r =>
        simp only [List.map_cons, movedItem, climbRec, moved_rule]
        cases ho : opTable op.rule with
        | none => simp [movedOut, movedItem]
        | some z =>
          obtain ⟨p, z⟩ := z
          dsimp only
          split
          · match r with
            | [] => rfl
            | (op2, o2) :: r =>
              simp only [List.map_cons, movedItem]
              cases o2 with
              | none => rfl
              | some c =>
                dsimp only
                rw [show (List.map (movedItem g) r) = r.map (movedItem g) from rfl, ih2]
                cases climbInner f n c p r with
                | none => rfl
                | some w =>
                  obtain ⟨c2, r2⟩ := w
                  simp only [Option.map_some, movedOut]
                  rw [hf]
                  cases f a op c2 with
                  | none => rfl
                  | some a2 => exact ih1 a2 m r2
          · simp [movedOut, movedItem]
    · intro a m l
      match l with
      | [] => simp [climbInner, movedOut]
      | (op, o) :: r =>
        have h := fun k => ih1 a k ((op, o) :: r)
        simp only [List.map_cons, movedItem] at h
        simp only [List.map_cons, movedItem, climbInner, moved_rule]
        cases ho : opTable op.rule with
        | none => simp [movedOut, movedItem]
        | some z =>
          obtain ⟨q, z⟩ := z
          dsimp only
          split
          · rw [h]
            cases climbRec f n a q ((op, o) :: r) with
            | none => rfl
            | some w => exact ih2 _ _ _
          · simp [movedOut, movedItem]

theorem climb_moved' {f : AST → Pair R → AST → Option AST}
    (hf : ∀ a p b, f a (moved g p) b = f a p b) (l : List (Item AST)) :
    climb f (l.map (movedItem g)) = climb f l := by
  match l with
  | [] => rfl
  | (p, none) :: r => rfl
  | (p, some a) :: r =>
    simp only [List.map_cons, movedItem, climb, List.length_map]
    rw [(climb_moved hf _).1]
    cases climbRec f (2 * r.length + 1) a 0 r with
    | none => rfl
    | some w => rfl

theorem infix_moved (pos : Position) (a : AST) (p : Pair R) (b : AST) :
    infixCall pos a (moved g p) b = infixCall pos a p b := by
  simp only [infixCall, moved_rule, moved_text]

theorem slotArgs_moved : ∀ l : List (Pair R), slotArgs (movedL g l) = slotArgs l
  | [] => rfl
  | p :: l => by
    simp only [movedL, slotArgs, moved_rule, slotArgs_moved l]
    split
    · rw [moved_text]
    · split
      · rw [moved_text]
      · rfl

theorem blockText_moved : ∀ (l : List (Pair R)) (s : Str), blockText (movedL g l) s = blockText l s
  | [], _ => rfl
  | p :: l, s => by
    simp only [movedL, blockText, moved_rule, blockText_moved l]
    split
    · rfl
    · split
      · rw [moved_text]
      · rfl

theorem stringText_moved : ∀ (l : List (Pair R)) (s : Str), stringText (movedL g l) s = stringText l s
  | [], _ => rfl
  | p :: l, s => by
    simp only [movedL, stringText, moved_rule, stringText_moved l]
    split
    · rfl
    · split
      · rw [moved_text]
      · split
        · rw [moved_inner, blockText_moved]
        · rfl

theorem spaceArgs_moved : ∀ l : List (Pair R), spaceArgs (movedL g l) = spaceArgs l
  | [] => rfl
  | p :: l => by
    simp only [movedL, spaceArgs, moved_rule, spaceArgs_moved l]
    split
    · rfl
    · split
      · rw [moved_text]
      · split
        · rw [moved_text]
        · rfl

mutual
theorem expr_moved (H : SamePlaces c d g) : ∀ p : Pair R, buildExpr d (moved g p) = buildExpr c p
  | .mk r a b t l => by
    rw [moved, buildExpr, buildExpr]
    rw [H, items_moved H l, climb_moved' (infix_moved _)]
termination_by structural p => p
theorem items_moved (H : SamePlaces c d g) : ∀ l : List (Pair R), exprItems d (movedL g l) = (exprItems c l).map (movedItem g)
  | [] => by rw [movedL, exprItems]; rfl
  | p :: l => by
    rw [movedL, exprItems, exprItems, items_moved H l, List.map_cons, movedItem]
    dsimp only
    rw [moved_rule]
    congr 2
    split
    · exact expr_moved H p
    · split
      · exact term_moved H p
      · rfl
termination_by structural l => l
theorem term_moved (H : SamePlaces c d g) : ∀ p : Pair R, buildTerm d (moved g p) = buildTerm c p
  | .mk r a b t l => by
    rw [moved, buildTerm, buildTerm, termLoop_moved H l]
termination_by structural p => p
theorem termLoop_moved (H : SamePlaces c d g) : ∀ (l : List (Pair R)) (x : AST) (m : List (Str × Position)),
    termLoop d (movedL g l) x m = termLoop c l x m
  | [], x, m => by rw [movedL, termLoop, termLoop]
  | p :: l, x, m => by
    rw [movedL, termLoop, termLoop, moved_rule, moved_start, moved_stop, H]
    split
    · rename_i h
      rw [node_moved H p]
      cases buildNode c p with
      | none => rfl
      | some a => exact termLoop_moved H l _ _
    · split
      · rw [moved_text]; exact termLoop_moved H l _ _
      · split
        · rw [moved_text]
          cases suffixMap p.text with
          | none => rfl
          | some s => exact termLoop_moved H l _ _
        · split
          · rename_i h
            rw [slice_moved H p]
            cases buildSlice c p with
            | none => rfl
            | some v => exact termLoop_moved H l _ _
          · rfl
termination_by structural l => l
theorem node_moved (H : SamePlaces c d g) : ∀ p : Pair R, buildNode d (moved g p) = buildNode c p
  | .mk r a b t [] => by
    rw [moved, movedL, buildNode, buildNode]
  | .mk r a b t (p :: l) => by
    rw [moved, movedL, buildNode, buildNode, moved_rule, moved_start, moved_stop, H]
    split
    · exact expr_moved H p
    · split
      · exact data_moved H p
      · split
        · exact call_moved H p
        · split
          · rw [parseSpaceCall, parseSpaceCall, moved_inner, spaceArgs_moved]
          · rfl
termination_by structural p => p
theorem call_moved (H : SamePlaces c d g) : ∀ p : Pair R, buildApplyCall d (moved g p) = buildApplyCall c p
  | .mk r a b t [] => by
    rw [moved, movedL, buildApplyCall, buildApplyCall]
  | .mk r a b t (.mk r' a' b' t' l' :: l) => by
    rw [moved, movedL, buildApplyCall, buildApplyCall, applyLists_moved H l]
    rfl
termination_by structural p => p
theorem applyLists_moved (H : SamePlaces c d g) : ∀ l : List (Pair R), applyLists d (movedL g l) = applyLists c l
  | [] => by rw [movedL, applyLists, applyLists]
  | p :: l => by
    rw [movedL, applyLists, applyLists, moved_rule]
    split
    · rw [apply_moved H p, applyLists_moved H l]
    · rfl
termination_by structural l => l
theorem apply_moved (H : SamePlaces c d g) : ∀ p : Pair R, buildApply d (moved g p) = buildApply c p
  | .mk r a b t l => by
    rw [moved, buildApply, buildApply, H, applyArgs_moved H l]
termination_by structural p => p
theorem applyArgs_moved (H : SamePlaces c d g) : ∀ (l : List (Pair R)) (x : List AST) (m : BMap AST AST),
    applyArgs d (movedL g l) x m = applyArgs c l x m
  | [], x, m => by rw [movedL, applyArgs, applyArgs]
  | p :: l, x, m => by
    rw [movedL, applyArgs, applyArgs, moved_rule]
    split
    · exact applyArgs_moved H l _ _
    · split
      · exact applyArgs_moved H l _ _
      · split
        · rename_i h
          rw [kv_moved H p]
          cases buildKv c p with
          | none => rfl
          | some e =>
            obtain ⟨k, v⟩ := e
            cases k <;> exact applyArgs_moved H l _ _
        · rfl
termination_by structural l => l
theorem kv_moved (H : SamePlaces c d g) : ∀ p : Pair R, buildKv d (moved g p) = buildKv c p
  | .mk r a b t l => by
    rw [moved, buildKv, buildKv, kvLoop_moved H l]
termination_by structural p => p
theorem kvLoop_moved (H : SamePlaces c d g) : ∀ (l : List (Pair R)) (k x : AST), kvLoop d (movedL g l) k x = kvLoop c l k x
  | [], k, x => by rw [movedL, kvLoop, kvLoop]
  | p :: l, k, x => by
    rw [movedL, kvLoop, kvLoop, moved_rule]
    split
    · exact kvLoop_moved H l _ _
    · split
      · rw [moved_text]; exact kvLoop_moved H l _ _
      · split
        · rename_i h
          rw [expr_moved H p]
          cases buildExpr c p with
          | none => rfl
          | some a => exact kvLoop_moved H l _ _
        · rfl
termination_by structural l => l
theorem slice_moved (H : SamePlaces c d g) : ∀ p : Pair R, buildSlice d (moved g p) = buildSlice c p
  | .mk r a b t l => by
    rw [moved, buildSlice, buildSlice, sliceItems_moved H l]
termination_by structural p => p
theorem sliceItems_moved (H : SamePlaces c d g) : ∀ l : List (Pair R), sliceItems d (movedL g l) = sliceItems c l
  | [] => by rw [movedL, sliceItems, sliceItems]
  | p :: l => by
    rw [movedL, sliceItems, sliceItems, moved_rule]
    split
    · exact sliceItems_moved H l
    · split
      · rw [index_moved H p, sliceItems_moved H l]
      · rfl
termination_by structural l => l
theorem index_moved (H : SamePlaces c d g) : ∀ p : Pair R, buildIndex d (moved g p) = buildIndex c p
  | .mk r a b t l => by
    rw [moved, buildIndex, buildIndex, H, indexLoop_moved H _ l]
termination_by structural p => p
theorem indexLoop_moved (H : SamePlaces c d g) (z : Position) : ∀ (l : List (Pair R)) (a b s : AST),
    indexLoop d z (movedL g l) a b s = indexLoop c z l a b s
  | [], a, b, s => by rw [movedL, indexLoop, indexLoop]
  | p :: l, a, b, s => by
    rw [movedL, indexLoop, indexLoop, moved_rule]
    split
    · exact indexLoop_moved H z l _ _ _
    · split
      · rename_i h
        rw [first_moved H p]
        cases buildFirst c p with
        | none => rfl
        | some e => exact indexLoop_moved H z l _ _ _
      · split
        · rename_i h
          rw [first_moved H p]
          cases buildFirst c p with
          | none => rfl
          | some e => exact indexLoop_moved H z l _ _ _
        · split
          · rename_i h
            rw [first_moved H p]
            cases buildFirst c p with
            | none => rfl
            | some e => exact indexLoop_moved H z l _ _ _
          · split
            · exact expr_moved H p
            · rfl
termination_by structural l => l
theorem first_moved (H : SamePlaces c d g) : ∀ p : Pair R,
    buildFirst d (moved g p) = buildFirst c p
  | .mk r a b t [] => by
    rw [moved, movedL, buildFirst, buildFirst]
  | .mk r a b t (p :: l) => by
    rw [moved, movedL, buildFirst, buildFirst]
    exact expr_moved H p
termination_by structural p => p
theorem data_moved (H : SamePlaces c d g) : ∀ p : Pair R, buildData d (moved g p) = buildData c p
  | .mk r a b t [] => by
    rw [moved, movedL, buildData, buildData]
  | .mk r a b t (p :: l) => by
    rw [moved, movedL, buildData, buildData, moved_rule, moved_start, moved_stop, H]
    split
    · exact list_moved H p
    · split
      · rw [moved_text]
      · split
        · rw [parseString, parseString, moved_inner, stringText_moved]
        · split
          · rw [moved_text]
          · split
            · rw [moved_text]
            · split
              · rw [moved_text]
              · split
                · rw [moved_text]
                · split
                  · rw [moved_text]
                  · split
                    · rename_i h
                      rw [parseSlot, parseSlot, moved_text, moved_inner, slotArgs_moved]
                    · rfl
termination_by structural p => p
theorem list_moved (H : SamePlaces c d g) : ∀ p : Pair R, buildList d (moved g p) = buildList c p
  | .mk r a b t l => by
    rw [moved, buildList, buildList, H, listItems_moved H l]
termination_by structural p => p
theorem listItems_moved (H : SamePlaces c d g) : ∀ l : List (Pair R), listItems d (movedL g l) = listItems c l
  | [] => by rw [movedL, listItems, listItems]
  | p :: l => by
    rw [movedL, listItems, listItems, moved_rule]
    split
    · exact listItems_moved H l
    · split
      · rw [expr_moved H p, listItems_moved H l]
      · rfl
termination_by structural l => l
end

theorem expression_moved (H : SamePlaces c d g) : ∀ (l : List (Pair R)) (x : AST), buildExpression d (movedL g l) x = buildExpression c l x
  | [], x => rfl
  | p :: l, x => by
    simp only [movedL, buildExpression, moved_rule]
    split
    · rw [expr_moved H p]
      cases buildExpr c p with
      | none => rfl
      | some a => exact expression_moved H l a
    · split
      · exact expression_moved H l x
      · rfl

/-- Spans that stand for the same positions give the same expression, with positions. -/
theorem pairs_moved (H : SamePlaces c d g) : ∀ l : List (Pair R), parsePairs d (movedL g l) = parsePairs c l
  | [] => rfl
  | p :: l => by
    simp only [movedL, parsePairs, moved_rule]
    split
    · exact pairs_moved H l
    · split
      · rename_i h
        rw [moved_inner, expression_moved H]
      · split
        · exact pairs_moved H l
        · rfl

/-! ### Positions in two texts -/

theorem afterBreak_char {c : Char} (hc : c ≠ '\n') : ∀ z : Str, afterBreak (z ++ [c]) = afterBreak z ++ [c]
  | [] => by simp [afterBreak, hc.symm]
  | e :: z => by
    have hm : '\n' ∈ e :: (z ++ [c]) ↔ '\n' ∈ e :: z := by simp [hc.symm]
    rw [List.cons_append, afterBreak, afterBreak, afterBreak_char hc z]
    by_cases h : '\n' ∈ e :: z
    · rw [if_pos h, if_pos (hm.2 h)]
    · rw [if_neg h, if_neg (fun k => h (hm.1 k))]; rfl

theorem afterBreak_lf : ∀ z : Str, afterBreak (z ++ ['\n']) = []
  | [] => by simp [afterBreak]
  | e :: z => by rw [List.cons_append, afterBreak, if_pos (by simp), afterBreak_lf z]

theorem place_char {c : Char} (hc : c ≠ '\n') (z : Str) : place (z ++ [c]) = ((place z).1, (place z).2 + 1) := by
  simp [place, afterBreak_char hc, hc]

theorem place_lf (z : Str) : place (z ++ ['\n']) = ((place z).1 + 1, 1) := by
  simp [place, afterBreak_lf]

theorem afterBreak_length : ∀ z : Str, (afterBreak z).length ≤ z.length
  | [] => Nat.le_refl _
  | e :: z => by
    rw [afterBreak]
    split
    · exact Nat.le_succ_of_le (afterBreak_length z)
    · exact Nat.le_refl _

/-- A text of `n` lines of `m` spaces. -/
def sheet (m : Nat) : Nat → Str
  | 0 => []
  | n + 1 => sheet m n ++ (List.replicate m ' ' ++ ['\n'])

theorem sheet_length (m : Nat) : ∀ n, (sheet m n).length = n * (m + 1)
  | 0 => by simp [sheet]
  | n + 1 => by simp [sheet, sheet_length m n, Nat.add_mul]

theorem sheet_take (m : Nat) {i j n : Nat} (hj : j ≤ m) (hi : i < n) :
    (sheet m n).take (i * (m + 1) + j) = sheet m i ++ List.replicate j ' ' := by
  induction n with
  | zero => omega
  | succ n ih =>
    by_cases h : i = n
    · subst h
      rw [sheet, ← sheet_length, List.take_length_add_append, List.take_append_of_le_length (by simpa using hj),
        List.take_replicate, Nat.min_eq_left hj]
    · have hi : i < n := by omega
      have hl : i * (m + 1) + j ≤ (sheet m n).length := by
        have : (i + 1) * (m + 1) ≤ n * (m + 1) := Nat.mul_le_mul_right _ hi
        rw [sheet_length]
        rw [Nat.add_mul] at this
        omega
      rw [sheet, List.take_append_of_le_length hl, ih hi]

theorem place_spaces (z : Str) : ∀ j, place (z ++ List.replicate j ' ') = ((place z).1, (place z).2 + j)
  | 0 => by simp
  | j + 1 => by
    rw [List.replicate_succ', ← List.append_assoc, place_char (by decide), place_spaces z j]
    rfl

theorem place_sheet (m : Nat) : ∀ i, place (sheet m i) = (i + 1, 1)
  | 0 => rfl
  | i + 1 => by
    rw [sheet, ← List.append_assoc, place_lf, place_spaces, place_sheet m i]

/-- The offset, in a text of lines of `m` spaces, of the place of an offset. -/
def label (m : Nat) (t : Str) (a : Nat) : Nat :=
  ((place (t.take a)).1 - 1) * (m + 1) + ((place (t.take a)).2 - 1)

theorem place_label {m : Nat} {t : Str} (h : t.length ≤ m) (a : Nat) :
    place ((sheet m (m + 1)).take (label m t a)) = place (t.take a) := by
  have hl : (t.take a).length ≤ m := by rw [List.length_take]; omega
  have h1 : (t.take a).count '\n' ≤ (t.take a).length := List.count_le_length
  have h2 := afterBreak_length (t.take a)
  have e : place (t.take a) = ((t.take a).count '\n' + 1, (afterBreak (t.take a)).length + 1) := rfl
  rw [label, e]
  simp only [Nat.add_sub_cancel]
  rw [sheet_take m (by omega) (by omega), place_spaces, place_sheet]
  congr 1
  omega

/-- Pairs that agree on everything but on offsets, and on the places of those, give the same expression. -/
theorem pairs_placed (hf : c.file = d.file) {m : Nat} (h1 : c.input.length ≤ m) (h2 : d.input.length ≤ m)
    {p q : List (Pair R)} (h : movedL (label m c.input) p = movedL (label m d.input) q) :
    parsePairs c p = parsePairs d q := by
  have e1 : SamePlaces c ⟨c.file, sheet m (m + 1), []⟩ (label m c.input) := by
    intro a b
    simp only [Cfg.position, lineCol_place, place_label h1]
  have e2 : SamePlaces d ⟨c.file, sheet m (m + 1), []⟩ (label m d.input) := by
    intro a b
    simp only [Cfg.position, lineCol_place, place_label h2, hf]
  rw [← pairs_moved e1, h, pairs_moved e2]

mutual
theorem bare_moved (g : Nat → Nat) : ∀ p : Pair R, barePair (moved g p) = barePair p
  | .mk r a b t l => by rw [moved, barePair, barePair, bare_movedL g l]
termination_by structural p => p
theorem bare_movedL (g : Nat → Nat) : ∀ l : List (Pair R), barePairs (movedL g l) = barePairs l
  | [] => rfl
  | p :: l => by rw [movedL, barePairs, barePairs, bare_moved g p, bare_movedL g l]
termination_by structural l => l
end

end SM.Props
