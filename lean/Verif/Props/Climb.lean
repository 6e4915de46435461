import Verif.Peg.Build
import Mathlib.Tactic.Common
import Mathlib.Data.List.Forall2
/-
C36, C37: the tree that precedence climbing builds.
-/
namespace SM.Props
open SM SM.Peg

variable {α : Type}

/-- Trees of binary operators over operands. -/
inductive OpTree (ι ω : Type) where
  | leaf (x : ι)
  | node (l : OpTree ι ω) (op : ω) (r : OpTree ι ω)

namespace OpTree
variable {ι ω : Type}

/-- The first operand and then, from left to right, each operator with the operand after it. -/
def steps : OpTree ι ω → ι × List (ω × ι)
  | .leaf x => (x, [])
  | .node l op r => (l.steps.1, l.steps.2 ++ (op, r.steps.1) :: r.steps.2)

/-- The operator at the root. -/
def root : OpTree ι ω → Option ω
  | .leaf _ => none
  | .node _ op _ => some op

end OpTree

/-- The operator `q` may be the root of the left operand of `p`: it binds tighter, or equally tight and
they group to the left. -/
def LeftOk (q p : Nat × Bool) : Prop := p.1 < q.1 ∨ (q.1 = p.1 ∧ p.2 = false)

/-- The operator `q` may be the root of the right operand of `p`: it binds tighter, or equally tight and
they group to the right. -/
def RightOk (p q : Nat × Bool) : Prop := p.1 < q.1 ∨ (q.1 = p.1 ∧ p.2 = true)

/-- The tree is grouped by a table of precedences and associativities (`true`: to the right). -/
def Grouped {ι ω : Type} (pr : ω → Option (Nat × Bool)) : OpTree ι ω → Prop
  | .leaf _ => True
  | .node l op r => Grouped pr l ∧ Grouped pr r ∧ ∃ p, pr op = some p ∧
      (∀ o, l.root = some o → ∃ q, pr o = some q ∧ LeftOk q p) ∧
      (∀ o, r.root = some o → ∃ q, pr o = some q ∧ RightOk p q)

/-- The value of a tree: combine the values of the operands; a panic anywhere is a panic. -/
def evalTree {ι ω α : Type} (val : ι → Option α) (infx : α → ω → α → Option α) : OpTree ι ω → Option α
  | .leaf x => val x
  | .node l op r =>
    match evalTree val infx l, evalTree val infx r with
    | some a, some b => infx a op b
    | _, _ => none

/-- Precedence and associativity of a pair that is an operator of the table. -/
def opOf (x : Pair R) : Option (Nat × Bool) := opTable x.rule

/-- The trees that climbing builds. -/
abbrev ITree (α : Type) := OpTree (Item α) (Pair R)

/-! ### The free climber -/

/-- The combination that just builds a tree. -/
def freeInfx (l : ITree α) (op : Pair R) (r : ITree α) : Option (ITree α) := some (.node l op r)

/-- Associativity is determined by precedence. -/
theorem assoc_of_prec {r : R} {p : Nat} {b : Bool} (h : opTable r = some (p, b)) : b = decide (p = 590) := by
  cases r <;> simp [opTable] at h <;> (obtain ⟨rfl, rfl⟩ := h; rfl)

/-- An operator followed by its right operand. -/
abbrev Step (α : Type) := Item α × Item α

/-- The items of a list of steps. -/
def stepItems (L : List (Step α)) : List (Item α) := L.flatMap fun s => [s.1, s.2]

@[simp] theorem stepItems_nil : stepItems ([] : List (Step α)) = [] := rfl
@[simp] theorem stepItems_cons (o x : Item α) (L : List (Step α)) :
    stepItems ((o, x) :: L) = o :: x :: stepItems L := rfl

/-- An item as an item with a tree as its value. -/
def leafItem (x : Item α) : Item (ITree α) := (x.1, some (.leaf x))

/-- The steps of a tree, given as items: what is attached to the operators is not used. -/
def opSteps (L : List (Step α)) : List (Pair R × Item α) := L.map fun s => (s.1.1, s.2)

@[simp] theorem opSteps_nil : opSteps ([] : List (Step α)) = [] := rfl
@[simp] theorem opSteps_cons (o x : Item α) (L : List (Step α)) :
    opSteps ((o, x) :: L) = (o.1, x) :: opSteps L := rfl

/-- The first item is not an operator of the table. -/
def Stops (tail : List (Item α)) : Prop := ∀ h l, tail = h :: l → opOf h.1 = none

/-- All operators are in the table. -/
def Known (L : List (Step α)) : Prop := ∀ s ∈ L, ∃ p, opOf s.1.1 = some p

section free
variable (tail : List (Item α))

/-- What the climber works on. -/
def work (L : List (Step α)) : List (Item (ITree α)) :=
  (stepItems L ++ tail).map leafItem

/-- The next operator may take `t` as its left operand, if its precedence is at least `m`. -/
def TakesLeft (m : Nat) (t : ITree α) (L : List (Step α)) : Prop :=
  ∀ s L' p o q, L = s :: L' → opOf s.1.1 = some p → m ≤ p.1 → t.root = some o → opOf o = some q → LeftOk q p

/-- The next operator binds less than `m`. -/
def Below (m : Nat) (L : List (Step α)) : Prop :=
  ∀ s L' p, L = s :: L' → opOf s.1.1 = some p → p.1 < m

/-- The next operator is not to be absorbed by the right operand of `p`. -/
def Yields (p : Nat × Bool) (L : List (Step α)) : Prop :=
  ∀ s L' q, L = s :: L' → opOf s.1.1 = some q → ¬ (p.1 < q.1 ∨ (q.2 = true ∧ q.1 = p.1))

/-- The root binds at least as tight as `m`. -/
def RootAtLeast (m : Nat) (t : ITree α) : Prop :=
  ∀ o, t.root = some o → ∃ q, opOf o = some q ∧ m ≤ q.1

/-- All operands and operators of a tree and of the steps after it. -/
def whole (t : ITree α) (L : List (Step α)) : Item α × List (Pair R × Item α) :=
  (t.steps.1, t.steps.2 ++ opSteps L)

theorem climb_free (hstop : Stops tail) : ∀ n : Nat,
    (∀ (t : ITree α) (m : Nat) (L : List (Step α)), 2 * L.length + 1 ≤ n → Known L → Grouped opOf t →
      TakesLeft m t L →
      ∃ t' L', climbRec freeInfx n t m (work tail L) = some (t', work tail L') ∧ Grouped opOf t' ∧ Known L' ∧
        whole t' L' = whole t L ∧ Below m L' ∧
        ((t' = t ∧ L' = L) ∨ (L'.length < L.length ∧ RootAtLeast m t'))) ∧
    (∀ (t : ITree α) (op : Pair R) (p : Nat × Bool) (L : List (Step α)), 2 * L.length + 2 ≤ n →
      opOf op = some p → Known L → Grouped opOf t →
      (∀ o, t.root = some o → ∃ q, opOf o = some q ∧ RightOk p q ∧ Below q.1 L) →
      ∃ t' L', climbInner freeInfx n t p.1 (work tail L) = some (t', work tail L') ∧ Grouped opOf t' ∧ Known L' ∧
        whole t' L' = whole t L ∧ Yields p L' ∧ L'.length ≤ L.length ∧
        (∀ o, t'.root = some o → ∃ q, opOf o = some q ∧ RightOk p q)) := by
  intro n
  induction n with
  | zero => exact ⟨fun t m L h => by omega, fun t op p L h => by omega⟩
  | succ n ih =>
    obtain ⟨ihR, ihI⟩ := ih
    constructor
    · intro t m L hn hK hG hT
      cases L with
      | nil =>
        refine ⟨t, [], ?_, hG, hK, rfl, fun _ _ _ h => (nomatch h), .inl ⟨rfl, rfl⟩⟩
        cases htl : tail with
        | nil => simp [work, climbRec]
        | cons h tl =>
          have := hstop h tl htl
          unfold opOf at this
          simp [work, climbRec, leafItem, this]
      | cons s L =>
        obtain ⟨o, x⟩ := s
        obtain ⟨p, hp⟩ := hK (o, x) (by simp)
        have hp' : opTable o.1.rule = some p := hp
        have hK' : Known L := fun s hs => hK s (List.mem_cons_of_mem _ hs)
        by_cases hm : m ≤ p.1
        · -- the operator is applied
          obtain ⟨r, L1, hr1, hr2, hr3, hr4, hr5, hr6, hr7⟩ := ihI (.leaf x) o.1 p L
            (by simp at hn; omega) hp hK' True.intro (fun o h => nomatch h)
          have hGn : Grouped opOf (.node t o.1 r) := by
            refine ⟨hG, hr2, p, hp, ?_, hr7⟩
            intro o' ho'
            cases t with
            | leaf => cases ho'
            | node tl top tr =>
              obtain ⟨_, _, q, hq, _⟩ := hG
              cases ho'
              exact ⟨q, hq, hT _ _ p _ q rfl hp hm rfl hq⟩
          obtain ⟨t', L2, h1, h2, h3, h4, h5, h6⟩ := ihR (.node t o.1 r) m L1
            (by simp at hn; omega) hr3 hGn (by
              intro s L' q o' p' hL hq hmq ho' hp''
              cases ho'
              have : p' = p := by
                rw [hp] at hp''; cases hp''; rfl
              subst this
              have hy := hr5 s L' q hL hq
              have ha := assoc_of_prec (r := s.1.1.rule) (p := q.1) (b := q.2) hq
              unfold LeftOk
              by_cases hlt : q.1 < p'.1
              · exact .inl hlt
              · right
                have heq : q.1 = p'.1 := by
                  by_contra hne
                  exact hy (.inl (by omega))
                refine ⟨heq.symm, ?_⟩
                cases hb : q.2 with
                | false => rfl
                | true => exact absurd (.inr ⟨hb, heq⟩) hy)
          refine ⟨t', L2, ?_, h2, h3, ?_, h5, .inr ⟨?_, ?_⟩⟩
          · obtain ⟨p1, p2⟩ := p
            simp only [work, stepItems_cons, List.cons_append, List.map_cons, leafItem, climbRec] at hr1 h1 ⊢
            rw [hp']
            simp only
            rw [if_pos hm, hr1]
            exact h1
          · rw [h4]
            simp only [whole, OpTree.steps, Prod.mk.injEq, opSteps_cons, List.append_assoc, List.cons_append,
              List.nil_append] at hr4 ⊢
            rw [hr4.1, hr4.2]
            exact ⟨trivial, rfl⟩
          · rcases h6 with ⟨_, rfl⟩ | ⟨h6, _⟩
            · simp; omega
            · simp; omega
          · rcases h6 with ⟨rfl, _⟩ | ⟨_, h6⟩
            · intro o' ho'
              cases ho'
              exact ⟨p, hp, hm⟩
            · exact h6
        · refine ⟨t, (o, x) :: L, ?_, hG, hK, rfl, ?_, .inl ⟨rfl, rfl⟩⟩
          · obtain ⟨p1, p2⟩ := p
            simp only [work, stepItems_cons, List.cons_append, List.map_cons, leafItem, climbRec]
            rw [hp']
            simp only
            rw [if_neg hm]
          · intro s L' q hL hq
            cases hL
            have : q = p := by rw [hp] at hq; cases hq; rfl
            subst this
            omega
    · intro t op p L hn hop hK hG hT
      cases L with
      | nil =>
        refine ⟨t, [], ?_, hG, hK, rfl, fun _ _ _ h => (nomatch h), Nat.le_refl _, ?_⟩
        · cases htl : tail with
          | nil => simp [work, climbInner]
          | cons h tl =>
            have := hstop h tl htl
            unfold opOf at this
            simp [work, climbInner, leafItem, this]
        · intro o ho
          obtain ⟨q, hq, hr, _⟩ := hT o ho
          exact ⟨q, hq, hr⟩
      | cons s L =>
        obtain ⟨o, x⟩ := s
        obtain ⟨q, hq⟩ := hK (o, x) (by simp)
        have hq' : opTable o.1.rule = some q := hq
        by_cases hm : p.1 < q.1 ∨ (q.2 = true ∧ q.1 = p.1)
        · obtain ⟨r, L1, h1, h2, h3, h4, h5, h6⟩ := ihR t q.1 ((o, x) :: L) (by omega) hK hG (by
              intro s L' q1 o' q2 hL hq1 _ ho' hq2
              cases hL
              have : q1 = q := by rw [hq] at hq1; cases hq1; rfl
              subst this
              obtain ⟨q3, hq3, _, hb⟩ := hT o' ho'
              have : q3 = q2 := by rw [hq2] at hq3; cases hq3; rfl
              subst this
              exact .inl (hb _ _ _ rfl hq))
          have hlt : L1.length < L.length + 1 ∧ RootAtLeast q.1 r := by
            rcases h6 with ⟨rfl, rfl⟩ | h6
            · exfalso
              have := h5 _ _ _ rfl hq
              omega
            · exact h6
          have hpa := assoc_of_prec (r := op.rule) (p := p.1) (b := p.2) hop
          have hqa := assoc_of_prec (r := o.1.rule) (p := q.1) (b := q.2) hq
          obtain ⟨t', L2, k1, k2, k3, k4, k5, k6, k7⟩ := ihI r op p L1 (by simp at hn; omega) hop h3 h2 (by
              intro o' ho'
              obtain ⟨q', hq1, hq2⟩ := hlt.2 o' ho'
              refine ⟨q', hq1, ?_, ?_⟩
              · unfold RightOk
                by_cases hlt' : p.1 < q'.1
                · exact .inl hlt'
                · right
                  rcases hm with hm | ⟨hm1, hm2⟩
                  · omega
                  · refine ⟨by omega, ?_⟩
                    rw [hpa, ← hm2, ← hqa]
                    exact hm1
              · intro s L' p' hL hp'
                have := h5 s L' p' hL hp'
                omega)
          refine ⟨t', L2, ?_, k2, k3, ?_, k5, by simp; omega, k7⟩
          · obtain ⟨q1, q2⟩ := q
            simp only [work, stepItems_cons, List.cons_append, List.map_cons, leafItem, climbInner] at h1 k1 ⊢
            rw [hq']
            simp only
            rw [if_pos hm, h1]
            exact k1
          · rw [k4, h4]
        · refine ⟨t, (o, x) :: L, ?_, hG, hK, rfl, ?_, Nat.le_refl _, ?_⟩
          · obtain ⟨q1, q2⟩ := q
            simp only [work, stepItems_cons, List.cons_append, List.map_cons, leafItem, climbInner]
            rw [hq']
            simp only
            rw [if_neg hm]
          · intro s L' q' hL hq1
            cases hL
            have : q' = q := by rw [hq] at hq1; cases hq1; rfl
            subst this
            exact hm
          · intro o ho
            obtain ⟨q, hq, hr, _⟩ := hT o ho
            exact ⟨q, hq, hr⟩

end free

/-! ### From trees to values -/

section fusion
variable (infx : α → Pair R → α → Option α)

/-- A panic in an operand is a panic of the whole. -/
theorem evalTree_node_left {l r : ITree α} {op : Pair R} (h : evalTree Prod.snd infx l = none) :
    evalTree Prod.snd infx (.node l op r) = none := by
  simp [evalTree, h]

theorem evalTree_node_right {l r : ITree α} {op : Pair R} (h : evalTree Prod.snd infx r = none) :
    evalTree Prod.snd infx (.node l op r) = none := by
  simp only [evalTree, h]
  cases evalTree Prod.snd infx l <;> rfl

theorem climb_fusion : ∀ n : Nat,
    (∀ (tl : ITree α) (m : Nat) (its : List (Item α)) t rest',
      climbRec freeInfx n tl m (its.map leafItem) = some (t, rest') →
      ∃ rest, rest' = rest.map leafItem ∧ (evalTree Prod.snd infx tl = none → evalTree Prod.snd infx t = none) ∧
        ∀ lhs, evalTree Prod.snd infx tl = some lhs →
          climbRec infx n lhs m its = (evalTree Prod.snd infx t).map fun a => (a, rest)) ∧
    (∀ (tl : ITree α) (m : Nat) (its : List (Item α)) t rest',
      climbInner freeInfx n tl m (its.map leafItem) = some (t, rest') →
      ∃ rest, rest' = rest.map leafItem ∧ (evalTree Prod.snd infx tl = none → evalTree Prod.snd infx t = none) ∧
        ∀ lhs, evalTree Prod.snd infx tl = some lhs →
          climbInner infx n lhs m its = (evalTree Prod.snd infx t).map fun a => (a, rest)) := by
  intro n
  induction n with
  | zero => exact ⟨fun _ _ _ _ _ h => by simp [climbRec] at h, fun _ _ _ _ _ h => by simp [climbInner] at h⟩
  | succ n ih =>
    obtain ⟨ihR, ihI⟩ := ih
    constructor
    · intro tl m its t rest' h
      rw [climbRec.eq_def] at h
      cases its with
      | nil =>
        simp only [List.map_nil, Option.some.injEq, Prod.mk.injEq] at h
        obtain ⟨rfl, rfl⟩ := h
        exact ⟨[], rfl, id, fun lhs hl => by simp [climbRec, hl]⟩
      | cons o its =>
        simp only [List.map_cons, leafItem] at h
        cases hp : opTable o.1.rule with
        | none =>
          rw [hp] at h
          simp only [Option.some.injEq, Prod.mk.injEq] at h
          obtain ⟨rfl, rfl⟩ := h
          exact ⟨o :: its, rfl, id, fun lhs hl => by rw [climbRec.eq_def]; simp [hp, hl]⟩
        | some p =>
          obtain ⟨p1, p2⟩ := p
          rw [hp] at h
          simp only at h
          by_cases hm : m ≤ p1
          · rw [if_pos hm] at h
            cases its with
            | nil => simp at h
            | cons x its =>
              simp only [List.map_cons, leafItem] at h
              cases hi : climbInner freeInfx n (.leaf x) p1 (its.map leafItem) with
              | none => rw [hi] at h; simp at h
              | some res =>
                obtain ⟨r, rest1⟩ := res
                rw [hi] at h
                simp only [freeInfx] at h
                obtain ⟨rest1, rfl, hr1, hr2⟩ := ihI _ _ _ _ _ hi
                obtain ⟨rest2, hr, ht1, ht2⟩ := ihR _ _ _ _ _ h
                refine ⟨rest2, hr, fun hn => ht1 (evalTree_node_left infx hn), ?_⟩
                intro lhs hl
                rw [climbRec.eq_def]
                simp only [hp]
                rw [if_pos hm]
                obtain ⟨x1, x2⟩ := x
                cases x2 with
                | none =>
                  simp only
                  rw [ht1 (evalTree_node_right infx (hr1 rfl))]
                  rfl
                | some v =>
                  simp only
                  rw [hr2 v rfl]
                  cases hr' : evalTree Prod.snd infx r with
                  | none =>
                    rw [ht1 (evalTree_node_right infx hr')]
                    rfl
                  | some rv =>
                    simp only [Option.map_some]
                    have hnode : evalTree Prod.snd infx (.node tl o.1 r) = infx lhs o.1 rv := by
                      simp [evalTree, hl, hr']
                    cases hv : infx lhs o.1 rv with
                    | none =>
                      rw [ht1 (hnode.trans hv)]
                      rfl
                    | some w =>
                      simp only
                      exact ht2 w (hnode.trans hv)
          · rw [if_neg hm] at h
            simp only [Option.some.injEq, Prod.mk.injEq] at h
            obtain ⟨rfl, rfl⟩ := h
            refine ⟨o :: its, rfl, id, fun lhs hl => ?_⟩
            rw [climbRec.eq_def]; simp only [hp]; rw [if_neg hm, hl]; rfl
    · intro tl m its t rest' h
      rw [climbInner.eq_def] at h
      cases its with
      | nil =>
        simp only [List.map_nil, Option.some.injEq, Prod.mk.injEq] at h
        obtain ⟨rfl, rfl⟩ := h
        exact ⟨[], rfl, id, fun lhs hl => by simp [climbInner, hl]⟩
      | cons o its =>
        simp only [List.map_cons, leafItem] at h
        cases hp : opTable o.1.rule with
        | none =>
          rw [hp] at h
          simp only [Option.some.injEq, Prod.mk.injEq] at h
          obtain ⟨rfl, rfl⟩ := h
          exact ⟨o :: its, rfl, id, fun lhs hl => by rw [climbInner.eq_def]; simp [hp, hl]⟩
        | some p =>
          obtain ⟨p1, p2⟩ := p
          rw [hp] at h
          simp only at h
          by_cases hm : m < p1 ∨ (p2 = true ∧ p1 = m)
          · rw [if_pos hm] at h
            cases hi : climbRec freeInfx n tl p1 ((o :: its).map leafItem) with
            | none =>
              simp only [List.map_cons, leafItem] at hi
              rw [hi] at h; simp at h
            | some res =>
              obtain ⟨r, rest1⟩ := res
              have hi' := hi
              simp only [List.map_cons, leafItem] at hi'
              rw [hi'] at h
              simp only at h
              obtain ⟨rest1, rfl, hr1, hr2⟩ := ihR _ _ _ _ _ hi
              obtain ⟨rest2, hr, ht1, ht2⟩ := ihI _ _ _ _ _ h
              refine ⟨rest2, hr, fun hn => ht1 (hr1 hn), ?_⟩
              intro lhs hl
              rw [climbInner.eq_def]
              simp only [hp]
              rw [if_pos hm, hr2 lhs hl]
              cases hr' : evalTree Prod.snd infx r with
              | none => rw [ht1 hr']; rfl
              | some rv => simp only [Option.map_some]; exact ht2 rv hr'
          · rw [if_neg hm] at h
            simp only [Option.some.injEq, Prod.mk.injEq] at h
            obtain ⟨rfl, rfl⟩ := h
            refine ⟨o :: its, rfl, id, fun lhs hl => ?_⟩
            rw [climbInner.eq_def]; simp only [hp]; rw [if_neg hm, hl]; rfl

end fusion

/-- The free climber on a sequence of steps with known operators, up to a first item that is no operator
of the table. -/
theorem climb_free_all (x : Item α) (L : List (Step α)) (tail : List (Item α)) (hK : Known L)
    (hs : Stops tail) (n : Nat) (hn : 2 * L.length + 1 ≤ n) :
    ∃ t, Grouped opOf t ∧ t.steps = (x, opSteps L) ∧
      climbRec freeInfx n (.leaf x) 0 (work tail L) = some (t, work tail []) := by
  obtain ⟨t, L', h1, h2, h3, h4, h5, _⟩ := (climb_free tail hs n).1 (.leaf x) 0 L hn hK True.intro
    (fun _ _ _ _ _ _ _ _ h _ => nomatch h)
  cases L' with
  | cons s L' =>
    obtain ⟨p, hp⟩ := h3 s (by simp)
    have := h5 s L' p rfl hp
    omega
  | nil =>
    refine ⟨t, h2, ?_, h1⟩
    simp [OpTree.steps, whole] at h4
    exact Prod.ext h4.1 h4.2

/-- Climbing, for any meaning of the operators: the value of a grouped tree over all operands and
operators up to the first item that is no operator of the table. -/
theorem climb_eq_eval (infx : α → Pair R → α → Option α) (x : Item α) (L : List (Step α))
    (tail : List (Item α)) (hK : Known L) (hs : Stops tail) :
    ∃ t, Grouped opOf t ∧ t.steps = (x, opSteps L) ∧
      climb infx (x :: stepItems L ++ tail) = evalTree Prod.snd infx t := by
  have hlen : (stepItems L).length = 2 * L.length := by
    clear hK
    induction L with
    | nil => rfl
    | cons s L ih => obtain ⟨o, y⟩ := s; simp [ih]; omega
  obtain ⟨t, h1, h2, h3⟩ := climb_free_all x L tail hK hs
    (2 * (stepItems L ++ tail).length + 1) (by simp [hlen]; omega)
  refine ⟨t, h1, h2, ?_⟩
  obtain ⟨rest, _, hn, hv⟩ := (climb_fusion infx _).1 _ _ _ _ _ h3
  obtain ⟨x1, x2⟩ := x
  cases x2 with
  | none => rw [hn rfl]; rfl
  | some v =>
    have := hv v rfl
    simp only [List.cons_append, climb]
    rw [this]
    cases evalTree Prod.snd infx t <;> rfl

/-! ### Uniqueness -/

section unique
variable {ι ω : Type} {pr : ω → Option (Nat × Bool)}

/-- Every operator of a grouped tree binds at least as tight as its root. -/
theorem grouped_min {t : OpTree ι ω} (h : Grouped pr t) :
    ∀ o q, t.root = some o → pr o = some q →
      ∀ s ∈ t.steps.2, ∃ p, pr s.1 = some p ∧ q.1 ≤ p.1 := by
  induction t with
  | leaf x => intro o q ho; cases ho
  | node l op r hl hr =>
    obtain ⟨gl, gr, p, hp, h1, h2⟩ := h
    intro o q ho hq s hs
    cases ho
    have : q = p := by rw [hp] at hq; cases hq; rfl
    subst this
    simp only [OpTree.steps, List.mem_append, List.mem_cons] at hs
    rcases hs with hs | rfl | hs
    · cases l with
      | leaf x => simp [OpTree.steps] at hs
      | node a b c =>
        obtain ⟨q', hq', hok⟩ := h1 b rfl
        obtain ⟨p', hp', hle⟩ := hl gl b q' rfl hq' s hs
        refine ⟨p', hp', ?_⟩
        rcases hok with hok | hok <;> omega
    · exact ⟨q, hp, Nat.le_refl _⟩
    · cases r with
      | leaf x => simp [OpTree.steps] at hs
      | node a b c =>
        obtain ⟨q', hq', hok⟩ := h2 b rfl
        obtain ⟨p', hp', hle⟩ := hr gr b q' rfl hq' s hs
        refine ⟨p', hp', ?_⟩
        rcases hok with hok | hok <;> omega

/-- In the left operand every operator satisfies the condition on its root, likewise on the right. -/
theorem grouped_sides {l r : OpTree ι ω} {op : ω} {p : Nat × Bool} (h : Grouped pr (.node l op r))
    (hp : pr op = some p) :
    (∀ s ∈ l.steps.2, ∃ q, pr s.1 = some q ∧ LeftOk q p) ∧
    (∀ s ∈ r.steps.2, ∃ q, pr s.1 = some q ∧ RightOk p q) := by
  obtain ⟨gl, gr, p', hp', h1, h2⟩ := h
  have : p' = p := by rw [hp] at hp'; cases hp'; rfl
  subst this
  constructor
  · intro s hs
    cases l with
    | leaf x => simp [OpTree.steps] at hs
    | node a b c =>
      obtain ⟨q', hq', hok⟩ := h1 b rfl
      obtain ⟨q, hq, hle⟩ := grouped_min gl b q' rfl hq' s hs
      refine ⟨q, hq, ?_⟩
      unfold LeftOk at *
      by_cases hlt : p'.1 < q.1
      · exact .inl hlt
      · right
        rcases hok with hok | ⟨he, hb⟩
        · omega
        · exact ⟨by omega, hb⟩
  · intro s hs
    cases r with
    | leaf x => simp [OpTree.steps] at hs
    | node a b c =>
      obtain ⟨q', hq', hok⟩ := h2 b rfl
      obtain ⟨q, hq, hle⟩ := grouped_min gr b q' rfl hq' s hs
      refine ⟨q, hq, ?_⟩
      unfold RightOk at *
      by_cases hlt : p'.1 < q.1
      · exact .inl hlt
      · right
        rcases hok with hok | ⟨he, hb⟩
        · omega
        · exact ⟨by omega, hb⟩

/-- Two ways of splitting a list at an element. -/
theorem split_cases {ι : Type} : ∀ (A C : List ι) (b d : ι) (B D : List ι), A ++ b :: B = C ++ d :: D →
    (A = C ∧ b = d ∧ B = D) ∨ (d ∈ B ∧ b ∈ C) ∨ (b ∈ D ∧ d ∈ A) := by
  intro A
  induction A with
  | nil =>
    intro C b d B D h
    cases C with
    | nil => simp at h; exact .inl ⟨rfl, h.1, h.2⟩
    | cons c C =>
      simp at h
      obtain ⟨rfl, rfl⟩ := h
      exact .inr (.inl ⟨by simp, by simp⟩)
  | cons a A ih =>
    intro C b d B D h
    cases C with
    | nil =>
      simp at h
      obtain ⟨rfl, rfl⟩ := h
      exact .inr (.inr ⟨by simp, by simp⟩)
    | cons c C =>
      simp at h
      obtain ⟨rfl, h⟩ := h
      rcases ih C b d B D h with ⟨rfl, rfl, rfl⟩ | ⟨h1, h2⟩ | ⟨h1, h2⟩
      · exact .inl ⟨rfl, rfl, rfl⟩
      · exact .inr (.inl ⟨h1, by simp [h2]⟩)
      · exact .inr (.inr ⟨h1, by simp [h2]⟩)

/-- A sequence of operands and operators has at most one grouped tree, provided operators of the same
precedence group the same way. -/
theorem grouped_unique (hpr : ∀ o o' p b b', pr o = some (p, b) → pr o' = some (p, b') → b = b') :
    ∀ (t t' : OpTree ι ω), Grouped pr t → Grouped pr t' → t.steps = t'.steps → t = t' := by
  intro t
  induction t with
  | leaf x =>
    intro t' _ _ h
    cases t' with
    | leaf y => simp [OpTree.steps] at h; rw [h]
    | node l op r => simp [OpTree.steps] at h
  | node l op r ihl ihr =>
    intro t' g g' h
    cases t' with
    | leaf y => simp [OpTree.steps] at h
    | node l' op' r' =>
      simp only [OpTree.steps, Prod.mk.injEq] at h
      obtain ⟨h0, h⟩ := h
      obtain ⟨p, hp⟩ : ∃ p, pr op = some p := by obtain ⟨_, _, p, hp, _⟩ := g; exact ⟨p, hp⟩
      obtain ⟨p', hp'⟩ : ∃ p, pr op' = some p := by obtain ⟨_, _, p, hp, _⟩ := g'; exact ⟨p, hp⟩
      obtain ⟨s1, s2⟩ := grouped_sides g hp
      obtain ⟨s1', s2'⟩ := grouped_sides g' hp'
      have clash : ∀ q q' : Nat × Bool, pr op = some q → pr op' = some q' → q.1 = q'.1 → q.2 = q'.2 := by
        intro q q' h1 h2 h3
        obtain ⟨a, b⟩ := q
        obtain ⟨a', b'⟩ := q'
        simp only at h3
        subst h3
        exact hpr _ _ _ _ _ h1 h2
      rcases split_cases _ _ _ _ _ _ h with ⟨e1, e2, e3⟩ | ⟨m1, m2⟩ | ⟨m1, m2⟩
      · simp only [Prod.mk.injEq] at e2
        obtain ⟨rfl, e2⟩ := e2
        rw [ihl l' g.1 g'.1 (Prod.ext h0 e1), ihr r' g.2.1 g'.2.1 (Prod.ext e2 e3)]
      · exfalso
        obtain ⟨q, hq, hok⟩ := s2 _ m1
        obtain ⟨q', hq', hok'⟩ := s1' _ m2
        simp only at hq hq'
        have e1 : q = p' := by rw [hp'] at hq; cases hq; rfl
        have e2 : q' = p := by rw [hp] at hq'; cases hq'; rfl
        subst e1 e2
        rcases hok with hok | ⟨he, hb⟩ <;> rcases hok' with hok' | ⟨he', hb'⟩
        · omega
        · omega
        · omega
        · have := clash _ _ hp hp' he'
          rw [hb, hb'] at this; cases this
      · exfalso
        obtain ⟨q, hq, hok⟩ := s2' _ m1
        obtain ⟨q', hq', hok'⟩ := s1 _ m2
        simp only at hq hq'
        have e1 : q = p := by rw [hp] at hq; cases hq; rfl
        have e2 : q' = p' := by rw [hp'] at hq'; cases hq'; rfl
        subst e1 e2
        rcases hok with hok | ⟨he, hb⟩ <;> rcases hok' with hok' | ⟨he', hb'⟩
        · omega
        · omega
        · omega
        · have := clash _ _ hp hp' he
          rw [hb, hb'] at this; cases this

end unique

/-! ### Transport to a tree over other operands and operators -/

section transport
variable {ι ω ι' ω' α β : Type}

/-- Two trees of the same shape with related operands and operators. -/
inductive TreeRel (A : ι → ι' → Prop) (B : ω → ω' → Prop) : OpTree ι ω → OpTree ι' ω' → Prop
  | leaf {x y} : A x y → TreeRel A B (.leaf x) (.leaf y)
  | node {l o r l' o' r'} : TreeRel A B l l' → B o o' → TreeRel A B r r' →
      TreeRel A B (.node l o r) (.node l' o' r')

theorem forall2_split {A : ι → ι' → Prop} {B : ω → ω' → Prop} :
    ∀ (L : List (ω × ι)) (o : ω) (x : ι) (K : List (ω × ι)) (M : List (ω' × ι')),
      List.Forall₂ (fun s s' => B s.1 s'.1 ∧ A s.2 s'.2) (L ++ (o, x) :: K) M →
      ∃ L' o' x' K', M = L' ++ (o', x') :: K' ∧ List.Forall₂ (fun s s' => B s.1 s'.1 ∧ A s.2 s'.2) L L' ∧
        B o o' ∧ A x x' ∧ List.Forall₂ (fun s s' => B s.1 s'.1 ∧ A s.2 s'.2) K K' := by
  intro L
  induction L with
  | nil =>
    intro o x K M h
    cases h with
    | cons h t => exact ⟨[], _, _, _, rfl, .nil, h.1, h.2, t⟩
  | cons s L ih =>
    intro o x K M h
    cases h with
    | cons h t =>
      obtain ⟨L', o', x', K', rfl, h1, h2, h3, h4⟩ := ih o x K _ t
      exact ⟨_ :: L', o', x', K', rfl, .cons h h1, h2, h3, h4⟩

/-- A tree can be rebuilt over related operands and operators. -/
theorem tree_transport {A : ι → ι' → Prop} {B : ω → ω' → Prop} :
    ∀ (t : OpTree ι ω) (x' : ι') (M : List (ω' × ι')), A t.steps.1 x' →
      List.Forall₂ (fun s s' => B s.1 s'.1 ∧ A s.2 s'.2) t.steps.2 M →
      ∃ t', TreeRel A B t t' ∧ t'.steps = (x', M) := by
  intro t
  induction t with
  | leaf x =>
    intro x' M h1 h2
    simp only [OpTree.steps] at h1 h2
    cases h2
    exact ⟨.leaf x', .leaf h1, rfl⟩
  | node l o r hl hr =>
    intro x' M h1 h2
    simp only [OpTree.steps] at h1 h2
    obtain ⟨L', o', y', K', rfl, k1, k2, k3, k4⟩ := forall2_split _ _ _ _ _ h2
    obtain ⟨tl, e1, e2⟩ := hl x' L' h1 k1
    obtain ⟨tr, f1, f2⟩ := hr y' K' k3 k4
    refine ⟨.node tl o' tr, .node e1 k2 f1, ?_⟩
    simp only [OpTree.steps, e2, f2]

theorem TreeRel.root {A : ι → ι' → Prop} {B : ω → ω' → Prop} {t : OpTree ι ω} {t' : OpTree ι' ω'}
    (h : TreeRel A B t t') : ∀ o', t'.root = some o' → ∃ o, t.root = some o ∧ B o o' := by
  intro o' ho
  cases h with
  | leaf _ => cases ho
  | node _ hb _ => cases ho; exact ⟨_, rfl, hb⟩

theorem TreeRel.grouped {A : ι → ι' → Prop} {B : ω → ω' → Prop} {pr : ω → Option (Nat × Bool)}
    {pr' : ω' → Option (Nat × Bool)} (hB : ∀ o o', B o o' → pr o = pr' o')
    {t : OpTree ι ω} {t' : OpTree ι' ω'} (h : TreeRel A B t t') (g : Grouped pr t) : Grouped pr' t' := by
  induction h with
  | leaf _ => exact True.intro
  | node hl hb hr il ir =>
    obtain ⟨gl, gr, p, hp, h1, h2⟩ := g
    refine ⟨il gl, ir gr, p, by rw [← hB _ _ hb]; exact hp, ?_, ?_⟩
    · intro o ho
      obtain ⟨o', ho', hbo⟩ := hl.root o ho
      obtain ⟨q, hq, hok⟩ := h1 o' ho'
      exact ⟨q, by rw [← hB _ _ hbo]; exact hq, hok⟩
    · intro o ho
      obtain ⟨o', ho', hbo⟩ := hr.root o ho
      obtain ⟨q, hq, hok⟩ := h2 o' ho'
      exact ⟨q, by rw [← hB _ _ hbo]; exact hq, hok⟩

/-- Values of related trees, up to a function `f` on values that the operators respect. -/
theorem TreeRel.eval {A : ι → ι' → Prop} {B : ω → ω' → Prop} {val : ι → Option α} {val' : ι' → Option β}
    {infx : α → ω → α → Option α} {infx' : β → ω' → β → Option β} (f : α → β)
    (hA : ∀ x y, A x y → (val x).map f = val' y)
    (hB : ∀ a b o o', B o o' → (infx a o b).map f = infx' (f a) o' (f b))
    {t : OpTree ι ω} {t' : OpTree ι' ω'} (h : TreeRel A B t t') :
    (evalTree val infx t).map f = evalTree val' infx' t' := by
  induction h with
  | leaf h => exact hA _ _ h
  | node hl hb hr il ir =>
    simp only [evalTree]
    rw [← il, ← ir]
    cases evalTree val infx _ with
    | none => rfl
    | some a =>
      cases evalTree val infx _ with
      | none => rfl
      | some b => exact hB _ _ _ _ hb

end transport

end SM.Props
