import Verif.Props.PegSpan
import Verif.Props.PegAgree
/-
C47: positions attached to parsed expressions.
-/
namespace SM.Props
open SM SM.Peg

/-! ### Lines and columns -/

/-- The characters after the last line break. -/
def afterBreak : Str → Str
  | [] => []
  | c :: s => if '\n' ∈ c :: s then afterBreak s else c :: s

/-- Line and column at the end of a text: one more than the number of line breaks, and one more than the number of
characters since the last one. -/
def place (s : Str) : Nat × Nat := (s.count '\n' + 1, (afterBreak s).length + 1)

theorem afterBreak_none {s : Str} (h : '\n' ∉ s) : afterBreak s = s := by
  cases s with
  | nil => rfl
  | cons c s => rw [afterBreak, if_neg h]

theorem lineColFrom_eq : ∀ (s : Str) (a b : Nat), lineColFrom (a, b) s =
    (a + s.count '\n', if '\n' ∈ s then (afterBreak s).length + 1 else b + s.length) := by
  have step : ∀ (c : Char) (s : Str) (a b : Nat), (∀ a b, lineColFrom (a, b) s =
      (a + s.count '\n', if '\n' ∈ s then (afterBreak s).length + 1 else b + s.length)) → c ≠ '\n' →
      lineColFrom (a, b) (c :: s) = lineColFrom (a, b + 1) s →
      lineColFrom (a, b) (c :: s) = (a + (c :: s).count '\n',
        if '\n' ∈ c :: s then (afterBreak (c :: s)).length + 1 else b + (c :: s).length) := by
    intro c s a b ih hc e
    rw [e, ih, List.count_cons_of_ne hc]
    have hm : '\n' ∈ c :: s ↔ '\n' ∈ s := by simp [Ne.symm hc]
    by_cases h : '\n' ∈ s
    · rw [if_pos h, if_pos (hm.2 h), afterBreak, if_pos (hm.2 h)]
    · rw [if_neg h, if_neg (fun e => h (hm.1 e)), List.length_cons]
      congr 1; omega
  have nl : ∀ (s : Str) (a : Nat), (∀ a b, lineColFrom (a, b) s =
      (a + s.count '\n', if '\n' ∈ s then (afterBreak s).length + 1 else b + s.length)) →
      lineColFrom (a + 1, 1) s = (a + ('\n' :: s).count '\n', (afterBreak ('\n' :: s)).length + 1) := by
    intro s a ih
    have e : afterBreak ('\n' :: s) = afterBreak s := by
      rw [afterBreak, if_pos List.mem_cons_self]
    rw [ih, List.count_cons_self, e]
    by_cases h : '\n' ∈ s
    · rw [if_pos h]; congr 1; omega
    · rw [if_neg h, afterBreak_none h]; congr 1 <;> omega
  have main : ∀ (n : Nat) (s : Str), s.length ≤ n → ∀ a b, lineColFrom (a, b) s =
      (a + s.count '\n', if '\n' ∈ s then (afterBreak s).length + 1 else b + s.length) := by
    intro n
    induction n with
    | zero =>
      intro s hs a b
      have : s = [] := List.length_eq_zero_iff.1 (by omega)
      subst this
      simp [lineColFrom]
    | succ n ih =>
      intro s hs a b
      cases s with
      | nil => simp [lineColFrom]
      | cons c s =>
      rw [List.length_cons] at hs
      by_cases hc : c = '\n'
      · subst hc
        rw [lineColFrom, nl s a (ih s (by omega)), if_pos List.mem_cons_self]
      · by_cases hr : c = '\r' ∧ ∃ t, s = '\n' :: t
        · obtain ⟨rfl, t, rfl⟩ := hr
          rw [List.length_cons] at hs
          have e : afterBreak ('\r' :: '\n' :: t) = afterBreak ('\n' :: t) := by
            rw [afterBreak, if_pos (by simp)]
          rw [lineColFrom, nl t a (ih t (by omega)), if_pos (by simp), e,
            List.count_cons_of_ne (a := '\n') (b := '\r') (by decide)]
        · refine step c s a b (ih s (by omega)) hc ?_
          rw [lineColFrom.eq_def]
          split
          · cases ‹_ = []›
          · rename_i e; cases e; exact absurd rfl hc
          · rename_i t e; cases e; exact absurd ⟨rfl, t, rfl⟩ hr
          · rename_i e; cases e; rfl
  exact fun s => main s.length s (Nat.le_refl _)

theorem lineCol_place (s : Str) : lineColFrom (1, 1) s = place s := by
  rw [lineColFrom_eq, place]
  by_cases h : '\n' ∈ s
  · rw [if_pos h]; congr 1; omega
  · rw [if_neg h, afterBreak_none h]; congr 1 <;> omega

/-- A place is not after another one. -/
def Before (p q : Nat × Nat) : Prop := p.1 < q.1 ∨ p.1 = q.1 ∧ p.2 ≤ q.2

theorem afterBreak_append {t : Str} (h : '\n' ∉ t) : ∀ s : Str, afterBreak (s ++ t) = afterBreak s ++ t := by
  intro s
  induction s with
  | nil => simp [afterBreak, afterBreak_none h]
  | cons c s ih =>
    rw [List.cons_append, afterBreak, afterBreak]
    have : '\n' ∈ c :: (s ++ t) ↔ '\n' ∈ c :: s := by simp [h]
    by_cases hm : '\n' ∈ c :: s
    · rw [if_pos hm, if_pos (this.2 hm), ih]
    · rw [if_neg hm, if_neg (fun e => hm (this.1 e)), List.cons_append]

theorem place_append (s t : Str) : Before (place s) (place (s ++ t)) := by
  by_cases h : '\n' ∈ t
  · left
    have := List.count_pos_iff.2 h
    simp only [place, List.count_append]
    omega
  · right
    rw [place, place, List.count_append, List.count_eq_zero.2 h, afterBreak_append h, List.length_append]
    exact ⟨by simp, by omega⟩

theorem place_take (x : Str) {i j : Nat} (h : i ≤ j) : Before (place (x.take i)) (place (x.take j)) := by
  have : x.take j = x.take i ++ (x.take j).drop i := by
    conv => lhs; rw [← List.take_append_drop i (x.take j)]
    rw [List.take_take, Nat.min_eq_left h]
  rw [this]
  exact place_append _ _

/-! ### Positions in expressions -/

mutual
/-- All positions in an expression satisfy `P`. -/
def PosIn (P : Position → Prop) : AST → Prop
  | .program l => PosInL P l
  | .function _ ps => PosInP P ps
  | _ => True
termination_by structural a => a
/-- All positions in expressions satisfy `P`. -/
def PosInL (P : Position → Prop) : List AST → Prop
  | [] => True
  | a :: l => PosIn P a ∧ PosInL P l
termination_by structural a => a
/-- All positions in argument lists satisfy `P`. -/
def PosInP (P : Position → Prop) : List Param → Prop
  | [] => True
  | p :: l => PosInParam P p ∧ PosInP P l
termination_by structural a => a
/-- All positions in an argument list satisfy `P`. -/
def PosInParam (P : Position → Prop) : Param → Prop
  | .mk a o q => P q ∧ PosInL P a ∧ PosInO P o
termination_by structural a => a
/-- All positions in options satisfy `P`. -/
def PosInO (P : Position → Prop) : List (AST × AST) → Prop
  | [] => True
  | e :: l => PosInE P e ∧ PosInO P l
termination_by structural a => a
/-- All positions in an option satisfy `P`. -/
def PosInE (P : Position → Prop) : AST × AST → Prop
  | (k, v) => PosIn P k ∧ PosIn P v
termination_by structural a => a
end

variable {P : Position → Prop}

theorem posInL_append {l l' : List AST} (h : PosInL P l) (h' : PosInL P l') : PosInL P (l ++ l') := by
  induction l with
  | nil => exact h'
  | cons a l ih =>
    rw [PosInL] at h
    rw [List.cons_append, PosInL]
    exact ⟨h.1, ih h.2⟩

theorem posInL_one {a : AST} (h : PosIn P a) : PosInL P [a] := by
  rw [PosInL, PosInL]; exact ⟨h, trivial⟩

theorem posIn_call1 {s : Sym} {a : AST} {q : Position} (hq : P q) (h : PosIn P a) : PosIn P (.function s [.mk [a] [] q]) := by
  rw [PosIn, PosInP, PosInP, PosInParam, PosInO]
  exact ⟨⟨hq, posInL_one h, trivial⟩, trivial⟩

theorem posIn_call {s : Sym} {l : List AST} {q : Position} (hq : P q) (h : PosInL P l) : PosIn P (.function s [.mk l [] q]) := by
  rw [PosIn, PosInP, PosInP, PosInParam, PosInO]
  exact ⟨⟨hq, h, trivial⟩, trivial⟩

theorem posInO_insert {k v : AST} (hk : PosIn P k) (hv : PosIn P v) : ∀ m : BMap AST AST, PosInO P m →
    PosInO P (BMap.insert astCmp k v m) := by
  intro m
  induction m with
  | nil =>
    intro _
    rw [BMap.insert, PosInO, PosInO, PosInE]
    exact ⟨⟨hk, hv⟩, trivial⟩
  | cons e m ih =>
    obtain ⟨k', v'⟩ := e
    intro h
    rw [PosInO, PosInE] at h
    simp only [BMap.insert]
    cases astCmp k k' with
    | lt => simp only [PosInO, PosInE]; exact ⟨⟨hk, hv⟩, h⟩
    | eq => simp only [PosInO, PosInE]; exact ⟨⟨h.1.1, hv⟩, h.2⟩
    | gt => simp only [PosInO, PosInE]; exact ⟨h.1, ih h.2⟩

/-- Precedence climbing keeps a property of values. -/
theorem climb_all {α : Type} {Q : α → Prop} {infx : α → Pair R → α → Option α}
    (hi : ∀ a p b r, Q a → Q b → infx a p b = some r → Q r) : ∀ n : Nat,
    (∀ lhs m items r rest, Q lhs → (∀ i ∈ items, ∀ a, i.2 = some a → Q a) → climbRec infx n lhs m items = some (r, rest) →
      Q r ∧ ∀ i ∈ rest, ∀ a, i.2 = some a → Q a) ∧
    (∀ lhs m items r rest, Q lhs → (∀ i ∈ items, ∀ a, i.2 = some a → Q a) →
      climbInner infx n lhs m items = some (r, rest) → Q r ∧ ∀ i ∈ rest, ∀ a, i.2 = some a → Q a) := by
  intro n
  induction n with
  | zero => exact ⟨fun _ _ _ _ _ _ _ h => by simp [climbRec] at h, fun _ _ _ _ _ _ _ h => by simp [climbInner] at h⟩
  | succ n ih =>
    obtain ⟨ih1, ih2⟩ := ih
    constructor
    · intro lhs m items r rest hl hit h
      rw [climbRec.eq_def] at h
      simp only at h
      split at h
      · simp only [Option.some.injEq, Prod.mk.injEq] at h
        obtain ⟨rfl, rfl⟩ := h
        exact ⟨hl, by simp⟩
      · rename_i op o rest0
        split at h
        · simp only [Option.some.injEq, Prod.mk.injEq] at h
          obtain ⟨rfl, rfl⟩ := h
          exact ⟨hl, hit⟩
        · split at h
          · split at h
            · cases h
            · rename_i q prim rest1
              split at h
              · cases h
              · rename_i rhs
                split at h
                · cases h
                · rename_i rhs' rest2 he
                  have h2 := ih2 _ _ _ _ _ (hit (q, some rhs) (by simp) rhs rfl) (fun i hi' => hit i (by simp [hi'])) he
                  split at h
                  · cases h
                  · rename_i lhs' hf
                    exact ih1 _ _ _ _ _ (hi _ _ _ _ hl h2.1 hf) h2.2 h
          · simp only [Option.some.injEq, Prod.mk.injEq] at h
            obtain ⟨rfl, rfl⟩ := h
            exact ⟨hl, hit⟩
    · intro lhs m items r rest hl hit h
      rw [climbInner.eq_def] at h
      simp only at h
      split at h
      · simp only [Option.some.injEq, Prod.mk.injEq] at h
        obtain ⟨rfl, rfl⟩ := h
        exact ⟨hl, by simp⟩
      · split at h
        · simp only [Option.some.injEq, Prod.mk.injEq] at h
          obtain ⟨rfl, rfl⟩ := h
          exact ⟨hl, hit⟩
        · split at h
          · split at h
            · cases h
            · rename_i he
              have h2 := ih1 _ _ _ _ _ hl hit he
              exact ih2 _ _ _ _ _ h2.1 h2.2 h
          · simp only [Option.some.injEq, Prod.mk.injEq] at h
            obtain ⟨rfl, rfl⟩ := h
            exact ⟨hl, hit⟩

theorem climb_keeps {α : Type} {Q : α → Prop} {infx : α → Pair R → α → Option α}
    (hi : ∀ a p b r, Q a → Q b → infx a p b = some r → Q r) {items : List (Item α)} {r : α}
    (hit : ∀ i ∈ items, ∀ a, i.2 = some a → Q a) (h : climb infx items = some r) : Q r := by
  rw [climb.eq_def] at h
  split at h
  · cases h
  · cases h
  · rename_i p0 lhs rest
    split at h
    · cases h
    · rename_i he
      cases h
      exact ((climb_all hi _).1 _ _ _ _ _ (hit (p0, some lhs) (by simp) lhs rfl) (fun i hi' => hit i (by simp [hi'])) he).1

theorem infixCall_pos {q : Position} (hq : P q) (a : AST) (p : Pair R) (b r : AST) (ha : PosIn P a) (hb : PosIn P b)
    (h : infixCall q a p b = some r) : PosIn P r := by
  rw [infixCall] at h
  split at h
  · rw [dotCall.eq_def] at h
    split at h
    · cases h; exact posIn_call1 hq ha
    · cases h
      rw [PosIn, PosInP, PosInParam] at hb ⊢
      exact ⟨⟨hb.1.1, by rw [PosInL]; exact ⟨ha, hb.1.2.1⟩, hb.1.2.2⟩, hb.2⟩
    · cases h
      exact posIn_call hq (by rw [PosInL]; exact ⟨ha, posInL_one hb⟩)
    · cases h
  · cases h
    exact posIn_call hq (by rw [PosInL]; exact ⟨ha, posInL_one hb⟩)

theorem applyPrefixes_pos {l : List (Str × Position)} (hl : ∀ e ∈ l, P e.2) {a r : AST} (ha : PosIn P a)
    (h : applyPrefixes l a = some r) : PosIn P r := by
  induction l generalizing r with
  | nil => cases h; exact ha
  | cons e l ih =>
    obtain ⟨t, q⟩ := e
    rw [applyPrefixes] at h
    split at h
    · cases h
    · rename_i b hb
      have := ih (fun e he => hl e (by simp [he])) hb
      split at h
      · cases h
      · cases h
        exact posIn_call1 (hl (t, q) (by simp)) this

/-! Leaves of the parse tree. -/

theorem parseInteger_pos {t : Str} {a : AST} (h : parseInteger t = some a) : PosIn P a := by
  rw [parseInteger] at h
  split at h <;> cases h
  trivial

theorem parseByte_pos {t : Str} {a : AST} (h : parseByte t = some a) : PosIn P a := by
  rw [parseByte.eq_def] at h
  split at h
  · simp only at h
    split at h
    · cases h
    · split at h <;> cases h
      trivial
  · cases h

theorem parseDecimal_pos {t : Str} {a : AST} (h : parseDecimal t = some a) : PosIn P a := by
  rw [parseDecimal] at h
  split at h <;> split at h <;> cases h <;> trivial

theorem parseSpecial_pos {t : Str} {a : AST} (h : parseSpecial t = some a) : PosIn P a := by
  rw [parseSpecial] at h
  split at h
  · cases h; trivial
  · split at h
    · cases h; trivial
    · split at h <;> cases h
      trivial

theorem parseInOut_pos {q : Position} (hq : P q) {t : Str} {a : AST} (h : parseInOut q t = some a) : PosIn P a := by
  rw [parseInOut] at h
  simp only at h
  split at h
  · cases h
    exact posIn_call1 hq trivial
  · cases h

theorem slotArgs_pos : ∀ {l : List (Pair R)} {v : List AST}, slotArgs l = some v → PosInL P v := by
  intro l
  induction l with
  | nil => intro v h; cases h; trivial
  | cons p l ih =>
    intro v h
    rw [slotArgs] at h
    split at h
    · split at h
      · rename_i hv
        cases h
        exact ⟨trivial, ih hv⟩
      · cases h
    · split at h
      · split at h
        · rename_i hv
          cases h
          exact ⟨trivial, ih hv⟩
        · cases h
      · cases h

theorem parseSlot_pos {q : Position} (hq : P q) {t : Str} {l : List (Pair R)} {a : AST} (h : parseSlot q t l = some a) :
    PosIn P a := by
  rw [parseSlot] at h
  split at h
  · rename_i hv
    cases h
    exact posIn_call hq (slotArgs_pos hv)
  · cases h

theorem parseString_pos {l : List (Pair R)} {a : AST} (h : parseString l = some a) : PosIn P a := by
  rw [parseString] at h
  split at h <;> cases h
  trivial

theorem spaceArgs_pos : ∀ {l : List (Pair R)} {v : List AST}, spaceArgs l = some v → PosInL P v := by
  intro l
  induction l with
  | nil => intro v h; cases h; trivial
  | cons p l ih =>
    intro v h
    rw [spaceArgs] at h
    split at h
    · exact ih h
    · split at h
      · split at h
        · rename_i hv
          cases h
          exact ⟨trivial, ih hv⟩
        · cases h
      · split at h
        · split at h
          · rename_i hi hv
            cases h
            exact ⟨parseInteger_pos hi, ih hv⟩
          · cases h
        · cases h

theorem parseSpaceCall_pos {q : Position} (hq : P q) {l : List (Pair R)} {a : AST} (h : parseSpaceCall q l = some a) :
    PosIn P a := by
  rw [parseSpaceCall] at h
  split at h
  · rename_i hv
    cases h
    exact posIn_call hq (spaceArgs_pos hv)
  · cases h

/-! Inner nodes. -/

mutual
/-- The spans of a pair and of everything below it give positions that satisfy `P`. -/
def Spots (P : Position → Prop) (c : Cfg) : Pair R → Prop
  | .mk _ a b _ l => P (c.position a b) ∧ SpotsL P c l
termination_by structural p => p
/-- The same for lists of pairs. -/
def SpotsL (P : Position → Prop) (c : Cfg) : List (Pair R) → Prop
  | [] => True
  | p :: l => Spots P c p ∧ SpotsL P c l
termination_by structural l => l
end

variable {c : Cfg}

theorem Spots.here : ∀ {p : Pair R}, Spots P c p → P (c.position p.start p.stop)
  | .mk _ _ _ _ _, h => by rw [Spots] at h; exact h.1

mutual
theorem buildExpr_pos : ∀ (p : Pair R) (a : AST), Spots P c p → buildExpr c p = some a → PosIn P a
  | .mk _ i j _ inner, a, hp, h => by
    rw [Spots] at hp
    have hit := exprItems_pos inner hp.2
    rw [buildExpr] at h
    exact climb_keeps (Q := PosIn P) (infixCall_pos hp.1) hit h
termination_by structural p => p
theorem exprItems_pos : ∀ l : List (Pair R), SpotsL P c l → ∀ i ∈ exprItems c l, ∀ a, i.2 = some a → PosIn P a
  | [], _, i, hi => by simp [exprItems] at hi
  | p :: l, hl, i, hi => by
    rw [SpotsL] at hl
    have h1 := buildExpr_pos p
    have h2 := buildTerm_pos p
    have h3 := exprItems_pos l hl.2
    rw [exprItems] at hi
    rcases List.mem_cons.1 hi with rfl | hi
    · intro a ha
      simp only at ha
      split at ha
      · exact h1 a hl.1 ha
      · split at ha
        · exact h2 a hl.1 ha
        · cases ha
    · exact h3 i hi
termination_by structural l => l
theorem buildTerm_pos : ∀ (p : Pair R) (a : AST), Spots P c p → buildTerm c p = some a → PosIn P a
  | .mk _ i j _ inner, a, hp, h => by
    rw [Spots] at hp
    rw [buildTerm] at h
    exact termLoop_pos inner .empty [] a hp.2 trivial (by simp) h
termination_by structural p => p
theorem termLoop_pos : ∀ (l : List (Pair R)) (base : AST) (pre : List (Str × Position)) (a : AST), SpotsL P c l →
    PosIn P base → (∀ e ∈ pre, P e.2) → termLoop c l base pre = some a → PosIn P a
  | [], base, pre, a, _, hb, hpre, h => by
    rw [termLoop] at h
    exact applyPrefixes_pos hpre hb h
  | p :: l, base, pre, a, hl, hb, hpre, h => by
    rw [SpotsL] at hl
    have h1 := buildNode_pos p
    have h2 := buildSlice_pos p
    have h3 := termLoop_pos l
    rw [termLoop] at h
    split at h
    · split at h
      · rename_i b hb'
        exact h3 b pre a hl.2 (h1 b hl.1 hb') hpre h
      · cases h
    · split at h
      · refine h3 base _ a hl.2 hb ?_ h
        intro e he
        rcases List.mem_append.1 he with he | he
        · exact hpre e he
        · simp only [List.mem_cons, List.not_mem_nil, or_false] at he
          subst he
          exact hl.1.here
      · split at h
        · split at h
          · exact h3 _ pre a hl.2 (posIn_call1 hl.1.here hb) hpre h
          · cases h
        · split at h
          · split at h
            · rename_i v hv
              refine h3 _ pre a hl.2 (posIn_call hl.1.here ?_) hpre h
              rw [PosInL]
              exact ⟨hb, h2 v hl.1 hv⟩
            · cases h
          · cases h
termination_by structural l => l
theorem buildNode_pos : ∀ (p : Pair R) (a : AST), Spots P c p → buildNode c p = some a → PosIn P a
  | .mk _ i j _ [], a, _, h => by simp [buildNode] at h
  | .mk _ i j _ (p :: l), a, hp, h => by
    rw [Spots, SpotsL] at hp
    have h1 := buildExpr_pos p a hp.2.1
    have h2 := buildData_pos p a hp.2.1
    have h3 := buildApplyCall_pos p a hp.2.1
    rw [buildNode] at h
    split at h
    · exact h1 h
    · split at h
      · exact h2 h
      · split at h
        · exact h3 h
        · split at h
          · exact parseSpaceCall_pos hp.2.1.here h
          · cases h
termination_by structural p => p
theorem buildApplyCall_pos : ∀ (p : Pair R) (a : AST), Spots P c p → buildApplyCall c p = some a → PosIn P a
  | .mk _ i j _ [], a, _, h => by simp [buildApplyCall] at h
  | .mk _ i j _ (p :: l), a, hp, h => by
    rw [Spots, SpotsL] at hp
    have h1 := applyLists_pos l
    rw [buildApplyCall] at h
    split at h
    · rename_i ps hps
      cases h
      exact h1 ps hp.2.2 hps
    · cases h
termination_by structural p => p
theorem applyLists_pos : ∀ (l : List (Pair R)) (ps : List Param), SpotsL P c l → applyLists c l = some ps → PosInP P ps
  | [], ps, _, h => by rw [applyLists] at h; cases h; trivial
  | p :: l, ps, hl, h => by
    rw [SpotsL] at hl
    have h1 := buildApply_pos p
    have h2 := applyLists_pos l
    rw [applyLists] at h
    split at h
    · split at h
      · rename_i q qs hq hqs
        cases h
        exact ⟨h1 q hl.1 hq, h2 qs hl.2 hqs⟩
      · cases h
    · cases h
termination_by structural l => l
theorem buildApply_pos : ∀ (p : Pair R) (q : Param), Spots P c p → buildApply c p = some q → PosInParam P q
  | .mk _ i j _ inner, q, hp, h => by
    rw [Spots] at hp
    have h1 := applyArgs_pos inner [] []
    rw [buildApply] at h
    split at h
    · rename_i args kws he
      cases h
      have := h1 args kws hp.2 trivial trivial he
      exact ⟨hp.1, this.1, this.2⟩
    · cases h
termination_by structural p => p
theorem applyArgs_pos : ∀ (l : List (Pair R)) (args : List AST) (kws : BMap AST AST) (args' : List AST)
    (kws' : BMap AST AST), SpotsL P c l → PosInL P args → PosInO P kws → applyArgs c l args kws = some (args', kws') →
    PosInL P args' ∧ PosInO P kws'
  | [], args, kws, args', kws', _, ha, hk, h => by
    rw [applyArgs] at h
    cases h
    exact ⟨ha, hk⟩
  | p :: l, args, kws, args', kws', hl, ha, hk, h => by
    rw [SpotsL] at hl
    have h1 := buildKv_pos p
    have h2 := applyArgs_pos l
    rw [applyArgs] at h
    split at h
    · exact h2 _ _ _ _ hl.2 ha hk h
    · split at h
      · exact h2 _ _ _ _ hl.2 ha hk h
      · split at h
        · split at h
          · cases h
          · rename_i v hv
            exact h2 _ _ _ _ hl.2 (posInL_append ha (posInL_one (h1 _ _ hl.1 hv).2)) hk h
          · rename_i k v _ hv
            have := h1 _ _ hl.1 hv
            exact h2 _ _ _ _ hl.2 ha (posInO_insert this.1 this.2 kws hk) h
        · cases h
termination_by structural l => l
theorem buildKv_pos : ∀ (p : Pair R) (k v : AST), Spots P c p → buildKv c p = some (k, v) → PosIn P k ∧ PosIn P v
  | .mk _ i j _ inner, k, v, hp, h => by
    rw [Spots] at hp
    rw [buildKv] at h
    exact kvLoop_pos inner .empty .empty k v hp.2 trivial trivial h
termination_by structural p => p
theorem kvLoop_pos : ∀ (l : List (Pair R)) (k v k' v' : AST), SpotsL P c l → PosIn P k → PosIn P v →
    kvLoop c l k v = some (k', v') → PosIn P k' ∧ PosIn P v'
  | [], k, v, k', v', _, hk, hv, h => by rw [kvLoop] at h; cases h; exact ⟨hk, hv⟩
  | p :: l, k, v, k', v', hl, hk, hv, h => by
    rw [SpotsL] at hl
    have h1 := buildExpr_pos p
    have h2 := kvLoop_pos l
    rw [kvLoop] at h
    split at h
    · exact h2 _ _ _ _ hl.2 hk hv h
    · split at h
      · exact h2 _ _ _ _ hl.2 (by trivial) hv h
      · split at h
        · split at h
          · rename_i e he
            exact h2 _ _ _ _ hl.2 hk (h1 e hl.1 he) h
          · cases h
        · cases h
termination_by structural l => l
theorem buildSlice_pos : ∀ (p : Pair R) (v : List AST), Spots P c p → buildSlice c p = some v → PosInL P v
  | .mk _ i j _ inner, v, hp, h => by
    rw [Spots] at hp
    rw [buildSlice] at h
    exact sliceItems_pos inner v hp.2 h
termination_by structural p => p
theorem sliceItems_pos : ∀ (l : List (Pair R)) (v : List AST), SpotsL P c l → sliceItems c l = some v → PosInL P v
  | [], v, _, h => by rw [sliceItems] at h; cases h; trivial
  | p :: l, v, hl, h => by
    rw [SpotsL] at hl
    have h1 := buildIndex_pos p
    have h2 := sliceItems_pos l
    rw [sliceItems] at h
    split at h
    · exact h2 v hl.2 h
    · split at h
      · split at h
        · rename_i a w ha hw
          cases h
          exact ⟨h1 a hl.1 ha, h2 w hl.2 hw⟩
        · cases h
      · cases h
termination_by structural l => l
theorem buildIndex_pos : ∀ (p : Pair R) (a : AST), Spots P c p → buildIndex c p = some a → PosIn P a
  | .mk _ i j _ inner, a, hp, h => by
    rw [Spots] at hp
    rw [buildIndex] at h
    exact indexLoop_pos (c.position i j) hp.1 inner _ _ _ a hp.2 (by trivial) (by trivial) (by trivial) h
termination_by structural p => p
theorem indexLoop_pos (q : Position) (hq : P q) : ∀ (l : List (Pair R)) (x y z a : AST), SpotsL P c l → PosIn P x →
    PosIn P y → PosIn P z → indexLoop c q l x y z = some a → PosIn P a
  | [], x, y, z, a, _, hx, hy, hz, h => by
    rw [indexLoop] at h
    cases h
    refine posIn_call hq ?_
    rw [PosInL, PosInL]
    exact ⟨hx, hy, posInL_one hz⟩
  | p :: l, x, y, z, a, hl, hx, hy, hz, h => by
    rw [SpotsL] at hl
    have h1 := buildExpr_pos p
    have h2 := buildFirst_pos p
    have h3 := indexLoop_pos q hq l
    rw [indexLoop] at h
    split at h
    · exact h3 _ _ _ _ hl.2 hx hy hz h
    · split at h
      · split at h
        · rename_i e he
          exact h3 _ _ _ _ hl.2 (h2 e hl.1 he) hy hz h
        · cases h
      · split at h
        · split at h
          · rename_i e he
            exact h3 _ _ _ _ hl.2 hx (h2 e hl.1 he) hz h
          · cases h
        · split at h
          · split at h
            · rename_i e he
              exact h3 _ _ _ _ hl.2 hx hy (h2 e hl.1 he) h
            · cases h
          · split at h
            · exact h1 a hl.1 h
            · cases h
termination_by structural l => l
theorem buildFirst_pos : ∀ (p : Pair R) (a : AST), Spots P c p → buildFirst c p = some a → PosIn P a
  | .mk _ i j _ [], a, _, h => by simp [buildFirst] at h
  | .mk _ i j _ (e :: l), a, hp, h => by
    rw [Spots, SpotsL] at hp
    have h1 := buildExpr_pos e a hp.2.1
    rw [buildFirst] at h
    exact h1 h
termination_by structural p => p
theorem buildData_pos : ∀ (p : Pair R) (a : AST), Spots P c p → buildData c p = some a → PosIn P a
  | .mk _ i j _ [], a, _, h => by simp [buildData] at h
  | .mk _ i j _ (p :: l), a, hp, h => by
    rw [Spots, SpotsL] at hp
    have h1 := buildList_pos p a hp.2.1
    rw [buildData] at h
    split at h
    · exact h1 h
    split at h
    · cases h; trivial
    split at h
    · exact parseString_pos h
    split at h
    · exact parseDecimal_pos h
    split at h
    · exact parseInteger_pos h
    split at h
    · exact parseByte_pos h
    split at h
    · exact parseSpecial_pos h
    split at h
    · exact parseInOut_pos hp.2.1.here h
    split at h
    · exact parseSlot_pos hp.2.1.here h
    · cases h
termination_by structural p => p
theorem buildList_pos : ∀ (p : Pair R) (a : AST), Spots P c p → buildList c p = some a → PosIn P a
  | .mk _ i j _ inner, a, hp, h => by
    rw [Spots] at hp
    have h1 := listItems_pos inner
    rw [buildList] at h
    split at h
    · rename_i v hv
      cases h
      exact posIn_call hp.1 (h1 v hp.2 hv)
    · cases h
termination_by structural p => p
theorem listItems_pos : ∀ (l : List (Pair R)) (v : List AST), SpotsL P c l → listItems c l = some v → PosInL P v
  | [], v, _, h => by rw [listItems] at h; cases h; trivial
  | p :: l, v, hl, h => by
    rw [SpotsL] at hl
    have h1 := buildExpr_pos p
    have h2 := listItems_pos l
    rw [listItems] at h
    split at h
    · exact h2 v hl.2 h
    · split at h
      · split at h
        · rename_i a w ha hw
          cases h
          exact ⟨h1 a hl.1 ha, h2 w hl.2 hw⟩
        · cases h
      · cases h
termination_by structural l => l
end

theorem buildExpression_pos : ∀ (l : List (Pair R)) (base a : AST), SpotsL P c l → PosIn P base →
    buildExpression c l base = some a → PosIn P a := by
  intro l
  induction l with
  | nil => intro base a _ hb h; cases h; exact hb
  | cons p l ih =>
    intro base a hl hb h
    rw [SpotsL] at hl
    rw [buildExpression] at h
    split at h
    · split at h
      · rename_i b hb'
        exact ih b a hl.2 (buildExpr_pos p b hl.1 hb') h
      · cases h
    · split at h
      · exact ih base a hl.2 hb h
      · cases h

theorem parsePairs_pos : ∀ (l : List (Pair R)) (a : AST), SpotsL P c l → parsePairs c l = .ok a → PosIn P a := by
  intro l
  induction l with
  | nil => intro a _ h; cases h; trivial
  | cons p l ih =>
    intro a hl h
    rw [SpotsL] at hl
    rw [parsePairs] at h
    split at h
    · exact ih a hl.2 h
    · split at h
      · split at h
        · rename_i b hb
          cases h
          obtain ⟨r, i, j, t, inner⟩ := p
          rw [Spots] at hl
          exact buildExpression_pos inner .empty _ hl.1.2 trivial hb
        · cases h
      · split at h
        · exact ih a hl.2 h
        · cases h

/-! ### C47 -/

/-- The position of a piece of the text: its file is the given one, and it begins and ends at the lines and columns at
which the text before the piece, and the text up to its end, end. -/
def PieceOf (file text : Str) (p : Position) : Prop :=
  ∃ a x b, text = a ++ (x ++ b) ∧ p = ⟨file, place a, place (a ++ x)⟩

mutual
theorem spots_of_span : ∀ p : Pair R, SpanOk c.input p → Spots (PieceOf c.file c.input) c p
  | .mk _ i j t l, h => by
    rw [SpanOk] at h
    have := spotsL_of_spans l i j h.2.2.2
    rw [Spots]
    refine ⟨⟨c.input.take i, (c.input.take j).drop i, c.input.drop j, ?_, ?_⟩, this⟩
    · have e : c.input.take j = c.input.take i ++ (c.input.take j).drop i := by
        conv => lhs; rw [← List.take_append_drop i (c.input.take j)]
        rw [List.take_take, Nat.min_eq_left h.1]
      rw [← List.append_assoc, ← e, List.take_append_drop]
    · have e : c.input.take i ++ (c.input.take j).drop i = c.input.take j := by
        conv => rhs; rw [← List.take_append_drop i (c.input.take j)]
        rw [List.take_take, Nat.min_eq_left h.1]
      rw [e, Cfg.position, lineCol_place, lineCol_place]
termination_by structural p => p
theorem spotsL_of_spans : ∀ (l : List (Pair R)) (lo hi : Nat), SpansOk c.input lo hi l →
    SpotsL (PieceOf c.file c.input) c l
  | [], _, _, _ => by rw [SpotsL]; trivial
  | p :: l, lo, hi, h => by
    rw [SpansOk] at h
    have h1 := spots_of_span p
    have h2 := spotsL_of_spans l
    rw [SpotsL]
    exact ⟨h1 h.2.1, h2 _ _ h.2.2⟩
termination_by structural l => l
end

/-- **C47**.  Every position in a parsed expression is the position of a piece of the text, in the configured file. -/
theorem C47_positions (u : Uni) (c : Cfg) {a : AST} (h : parseText u c = .ok a) : PosIn (PieceOf c.file c.input) a := by
  rw [parseText] at h
  split at h
  · rename_i l hl
    exact parsePairs_pos l a (spotsL_of_spans l _ _ (C34_spans u c.input l hl).1) h
  · cases h
  · cases h

/-- **C47**.  Such a position names the file, and its start is not after its end. -/
theorem C47_start_before_end {file text : Str} {p : Position} (h : PieceOf file text p) :
    p.file = file ∧ Before p.start p.stop := by
  obtain ⟨a, x, b, _, rfl⟩ := h
  exact ⟨rfl, place_append a x⟩

/-- `b` in `a\nb` is at line 2, columns 1 to 2. -/
example : PieceOf c!"f" c!"a\nb" ⟨c!"f", (2, 1), (2, 2)⟩ := ⟨c!"a\n", c!"b", [], by decide, by decide⟩

/-- `a +\nf(x)`: the sum carries the position of the whole text, the call that of its argument list. -/
example {u : Uni} (L : Lawful u) (file : Str) : parseText u ⟨file, c!"a +\nf(x)", []⟩ =
    .ok (.function (infixMap c!"+") [.mk [.mkSymbol c!"a",
      .function (Sym.ofStr c!"f") [.mk [.mkSymbol c!"x"] [] ⟨file, (2, 2), (2, 5)⟩]] [] ⟨file, (1, 1), (2, 5)⟩]) := by
  rw [parse_pairs L (x := c!"a +\nf(x)") (l := [.mk .expression 0 8 c!"a +\nf(x)" [.mk .expr 0 8 c!"a +\nf(x)" [.mk .term 0 1 c!"a" [.mk .node 0 1 c!"a" [.mk .data 0 1 c!"a" [.mk .Symbol 0 1 c!"a" [.mk .SYMBOL 0 1 c!"a" []]]]], .mk .Plus 2 3 c!"+" [], .mk .term 4 8 c!"f(x)" [.mk .node 4 8 c!"f(x)" [.mk .apply_call 4 8 c!"f(x)" [.mk .Symbol 4 5 c!"f" [.mk .SYMBOL 4 5 c!"f" []], .mk .apply 5 8 c!"(x)" [.mk .apply_kv 6 7 c!"x" [.mk .expr 6 7 c!"x" [.mk .term 6 7 c!"x" [.mk .node 6 7 c!"x" [.mk .data 6 7 c!"x" [.mk .Symbol 6 7 c!"x" [.mk .SYMBOL 6 7 c!"x" []]]]]]]]]]]]], .mk .EOI 8 8 c!"" []])
    (by decide +kernel) (by decide) _ rfl]
  rfl

end SM.Props
