import Verif.Props.Shift
/-
Expressions, up to positions, depend on the rules and texts of the pairs only.
-/
namespace SM.Props
open SM SM.Peg

mutual
/-- A pair without its span. -/
def barePair : Pair R → Pair R
  | .mk r _ _ t l => .mk r 0 0 t (barePairs l)
termination_by structural p => p
/-- Pairs without their spans. -/
def barePairs : List (Pair R) → List (Pair R)
  | [] => []
  | p :: l => barePair p :: barePairs l
termination_by structural l => l
end

@[simp] theorem barePair_rule (p : Pair R) : (barePair p).rule = p.rule := by cases p; rfl
@[simp] theorem barePair_text (p : Pair R) : (barePair p).text = p.text := by cases p; rfl
@[simp] theorem barePair_inner (p : Pair R) : (barePair p).inner = barePairs p.inner := by cases p; rfl

mutual
theorem bare_shift (k : Nat) : ∀ p : Pair R, barePair (shiftPair k p) = barePair p
  | .mk r a b t l => by simp only [shiftPair, barePair]; rw [bare_shifts k l]
termination_by structural p => p
theorem bare_shifts (k : Nat) : ∀ l : List (Pair R), barePairs (shiftPairs k l) = barePairs l
  | [] => rfl
  | p :: l => by simp only [shiftPairs, barePairs]; rw [bare_shift k p, bare_shifts k l]
termination_by structural l => l
end

/-! ### Climbing -/

/-- Items alike up to positions. -/
structure ItemLike (x y : Item AST) : Prop where
  rule : x.1.rule = y.1.rule
  text : x.1.text = y.1.text
  value : x.2.map erase = y.2.map erase

/-- Outcomes of climbing alike up to positions. -/
def ClimbLike : Option (AST × List (Item AST)) → Option (AST × List (Item AST)) → Prop
  | none, none => True
  | some (a, l), some (b, m) => erase a = erase b ∧ List.Forall₂ ItemLike l m
  | _, _ => False

/-- Ways to apply operators alike up to positions. -/
def InfixLike (f g : AST → Pair R → AST → Option AST) : Prop :=
  ∀ a b c d p q, erase a = erase b → erase c = erase d → p.rule = q.rule → p.text = q.text →
    (f a p c).map erase = (g b q d).map erase

theorem climb_alike {f g : AST → Pair R → AST → Option AST} (hfg : InfixLike f g) : ∀ n : Nat,
    (∀ a b m l l', erase a = erase b → List.Forall₂ ItemLike l l' → ClimbLike (climbRec f n a m l) (climbRec g n b m l')) ∧
    (∀ a b m l l', erase a = erase b → List.Forall₂ ItemLike l l' →
      ClimbLike (climbInner f n a m l) (climbInner g n b m l')) := by
  intro n
  induction n with
  | zero => exact ⟨fun _ _ _ _ _ _ _ => by simp [climbRec, ClimbLike], fun _ _ _ _ _ _ _ => by simp [climbInner, ClimbLike]⟩
  | succ n ih =>
    obtain ⟨ih1, ih2⟩ := ih
    constructor
    · intro a b m l l' hab hl
      cases hl with
      | nil => simp only [climbRec]; exact ⟨hab, .nil⟩
      | @cons x y r r' hx hr =>
        obtain ⟨op, o⟩ := x
        obtain ⟨op', o'⟩ := y
        have e1 : op.rule = op'.rule := hx.rule
        have e2 : op.text = op'.text := hx.text
        simp only [climbRec]
        rw [← e1]
        cases opTable op.rule with
        | none => exact ⟨hab, .cons hx hr⟩
        | some z =>
          obtain ⟨p, z⟩ := z
          dsimp only
          split
          · cases hr with
            | nil => trivial
            | @cons x2 y2 t t' hx2 ht =>
              obtain ⟨op2, o2⟩ := x2
              obtain ⟨op2', o2'⟩ := y2
              have e3 : o2.map erase = o2'.map erase := hx2.value
              cases o2 with
              | none =>
                cases o2' with
                | none => trivial
                | some d => cases e3
              | some c =>
                cases o2' with
                | none => cases e3
                | some d =>
                  have hcd : erase c = erase d := by simpa using e3
                  have h := ih2 c d p t t' hcd ht
                  dsimp only
                  cases h1 : climbInner f n c p t with
                  | none =>
                    rw [h1] at h
                    cases h2 : climbInner g n d p t' with
                    | none => trivial
                    | some w => rw [h2] at h; exact h.elim
                  | some w =>
                    rw [h1] at h
                    cases h2 : climbInner g n d p t' with
                    | none => rw [h2] at h; exact h.elim
                    | some w' =>
                      rw [h2] at h
                      obtain ⟨c2, t2⟩ := w
                      obtain ⟨d2, t2'⟩ := w'
                      obtain ⟨h3, h4⟩ := h
                      have h5 := hfg a b c2 d2 op op' hab h3 e1 e2
                      dsimp only
                      cases h6 : f a op c2 with
                      | none =>
                        rw [h6] at h5
                        cases h7 : g b op' d2 with
                        | none => trivial
                        | some w => rw [h7] at h5; cases h5
                      | some a2 =>
                        rw [h6] at h5
                        cases h7 : g b op' d2 with
                        | none => rw [h7] at h5; cases h5
                        | some b2 =>
                          rw [h7] at h5
                          exact ih1 a2 b2 m t2 t2' (by simpa using h5) h4
          · exact ⟨hab, .cons hx hr⟩
    · intro a b m l l' hab hl
      cases hl with
      | nil => simp only [climbInner]; exact ⟨hab, .nil⟩
      | @cons x y r r' hx hr =>
        obtain ⟨op, o⟩ := x
        obtain ⟨op', o'⟩ := y
        have e1 : op.rule = op'.rule := hx.rule
        simp only [climbInner]
        rw [← e1]
        cases opTable op.rule with
        | none => exact ⟨hab, .cons hx hr⟩
        | some z =>
          obtain ⟨p, z⟩ := z
          dsimp only
          split
          · have h := ih1 a b p _ _ hab (.cons hx hr)
            cases h1 : climbRec f n a p ((op, o) :: r) with
            | none =>
              rw [h1] at h
              cases h2 : climbRec g n b p ((op', o') :: r') with
              | none => trivial
              | some w => rw [h2] at h; exact h.elim
            | some w =>
              rw [h1] at h
              cases h2 : climbRec g n b p ((op', o') :: r') with
              | none => rw [h2] at h; exact h.elim
              | some w' =>
                rw [h2] at h
                exact ih2 _ _ _ _ _ h.1 h.2
          · exact ⟨hab, .cons hx hr⟩

theorem climb_same {f g : AST → Pair R → AST → Option AST} (hfg : InfixLike f g) {l l' : List (Item AST)}
    (h : List.Forall₂ ItemLike l l') : (climb f l).map erase = (climb g l').map erase := by
  cases h with
  | nil => rfl
  | @cons x y r r' hx hr =>
    obtain ⟨p, o⟩ := x
    obtain ⟨p', o'⟩ := y
    have e := hx.value
    cases o with
    | none =>
      cases o' with
      | none => rfl
      | some b => cases e
    | some a =>
      cases o' with
      | none => cases e
      | some b =>
        have hab : erase a = erase b := by simpa using e
        have h := (climb_alike hfg (2 * r.length + 1)).1 a b 0 r r' hab hr
        simp only [climb]
        rw [← hr.length_eq]
        cases h1 : climbRec f (2 * r.length + 1) a 0 r with
        | none =>
          rw [h1] at h
          cases h2 : climbRec g (2 * r.length + 1) b 0 r' with
          | none => rfl
          | some w => rw [h2] at h; exact h.elim
        | some w =>
          rw [h1] at h
          cases h2 : climbRec g (2 * r.length + 1) b 0 r' with
          | none => rw [h2] at h; exact h.elim
          | some w' => rw [h2] at h; exact congrArg some h.1

theorem infix_alike (x y : Position) : InfixLike (infixCall x) (infixCall y) := by
  intro a b c d p q hab hcd h1 h2
  unfold infixCall
  rw [← h1, ← h2]
  split
  · rw [dotCall_erase, dotCall_erase, hab, hcd]
  · simp only [Option.map_some, erase, eraseP, eraseParam, eraseL, hab, hcd]

/-! ### Pieces -/

theorem prefixes_alike : ∀ (l l' : List (Str × Position)) (a b : AST), l.map Prod.fst = l'.map Prod.fst →
    erase a = erase b → (applyPrefixes l a).map erase = (applyPrefixes l' b).map erase
  | [], [], a, b, _, h => by simp [applyPrefixes, h]
  | [], _ :: _, _, _, h, _ => by cases h
  | _ :: _, [], _, _, h, _ => by cases h
  | (t, x) :: l, (t', x') :: l', a, b, h, hab => by
    simp only [List.map_cons, List.cons.injEq] at h
    obtain ⟨rfl, h⟩ := h
    have ih := prefixes_alike l l' a b h hab
    simp only [applyPrefixes]
    cases h1 : applyPrefixes l a with
    | none =>
      rw [h1] at ih
      cases h2 : applyPrefixes l' b with
      | none => rfl
      | some d => rw [h2] at ih; cases ih
    | some c =>
      rw [h1] at ih
      cases h2 : applyPrefixes l' b with
      | none => rw [h2] at ih; cases ih
      | some d =>
        rw [h2] at ih
        have : erase c = erase d := by simpa using ih
        dsimp only
        cases prefixMap t with
        | none => rfl
        | some s => simp [erase, eraseP, eraseParam, eraseL, this]

theorem slotArgs_bare : ∀ l : List (Pair R), slotArgs (barePairs l) = slotArgs l
  | [] => rfl
  | p :: l => by simp only [barePairs, slotArgs, barePair_rule, barePair_text, slotArgs_bare l]

theorem blockText_bare : ∀ (l : List (Pair R)) (s : Str), blockText (barePairs l) s = blockText l s
  | [], _ => rfl
  | p :: l, s => by
    simp only [barePairs, blockText, barePair_rule, barePair_text, blockText_bare l]

theorem stringText_bare : ∀ (l : List (Pair R)) (s : Str), stringText (barePairs l) s = stringText l s
  | [], _ => rfl
  | p :: l, s => by
    simp only [barePairs, stringText, barePair_rule, barePair_text, barePair_inner, blockText_bare, stringText_bare l]

theorem spaceArgs_bare : ∀ l : List (Pair R), spaceArgs (barePairs l) = spaceArgs l
  | [] => rfl
  | p :: l => by simp only [barePairs, spaceArgs, barePair_rule, barePair_text, spaceArgs_bare l]

/-- Options with the same names, and the same values up to positions. -/
def OptsLike (m n : List (AST × AST)) : Prop :=
  m.map (fun e => (e.1, erase e.2)) = n.map fun e => (e.1, erase e.2)

theorem insert_alike (k : AST) {v v' : AST} (hv : erase v = erase v') : ∀ (m n : BMap AST AST), OptsLike m n →
    OptsLike (BMap.insert astCmp k v m) (BMap.insert astCmp k v' n)
  | [], [], _ => by simp [OptsLike, BMap.insert, hv]
  | [], _ :: _, h => by cases h
  | _ :: _, [], h => by cases h
  | (k1, v1) :: m, (k2, v2) :: n, h => by
    have h' := h
    simp only [OptsLike, List.map_cons, List.cons.injEq, Prod.mk.injEq] at h'
    obtain ⟨⟨rfl, h1⟩, h2⟩ := h'
    have ih := insert_alike k hv m n h2
    simp only [BMap.insert]
    cases astCmp k k1 with
    | lt => simp only [OptsLike, List.map_cons, hv, h1]; rw [h2]
    | eq => simp only [OptsLike, List.map_cons, hv]; rw [h2]
    | gt => simp only [OptsLike, List.map_cons, h1]; rw [show _ = _ from ih]

theorem OptsLike.erase {m n : List (AST × AST)} (h : OptsLike m n) : eraseO m = eraseO n := by
  have := congrArg (List.map fun e : AST × AST => (SM.Props.erase e.1, e.2)) h
  rw [eraseO_eq, eraseO_eq]
  simpa [List.map_map, Function.comp_def] using this

/-- Two optional outcomes alike. -/
def OptLike {α : Type} (r : α → α → Prop) : Option α → Option α → Prop
  | none, none => True
  | some a, some b => r a b
  | _, _ => False

theorem optLike_erase {a b : Option AST} : OptLike (fun a b => erase a = erase b) a b ↔ a.map erase = b.map erase := by
  cases a <;> cases b <;> simp [OptLike]

/-- Expressions alike up to positions. -/
abbrev Like (a b : AST) : Prop := erase a = erase b

/-- Lists of expressions alike up to positions. -/
abbrev LikeL (a b : List AST) : Prop := a.map erase = b.map erase

theorem OptLike.split {α : Type} {r : α → α → Prop} {a b : Option α} (h : OptLike r a b) :
    (a = none ∧ b = none) ∨ ∃ x y, a = some x ∧ b = some y ∧ r x y := by
  cases a <;> cases b
  · exact .inl ⟨rfl, rfl⟩
  · exact h.elim
  · exact h.elim
  · exact .inr ⟨_, _, rfl, rfl, h⟩

/-! ### Building -/

mutual
theorem expr_bare (c d : Cfg) : ∀ p : Pair R, OptLike Like (buildExpr c p) (buildExpr d (barePair p))
  | .mk r a b t l => by
    rw [barePair, buildExpr, buildExpr]
    exact optLike_erase.2 (climb_same (infix_alike _ _) (items_bare c d l))
termination_by structural p => p
theorem items_bare (c d : Cfg) : ∀ l : List (Pair R), List.Forall₂ ItemLike (exprItems c l) (exprItems d (barePairs l))
  | [] => by rw [barePairs, exprItems, exprItems]; exact .nil
  | p :: l => by
    rw [barePairs, exprItems, exprItems]
    refine .cons ⟨(barePair_rule p).symm, (barePair_text p).symm, ?_⟩ (items_bare c d l)
    dsimp only
    rw [barePair_rule]
    split
    · exact optLike_erase.1 (expr_bare c d p)
    · split
      · exact optLike_erase.1 (term_bare c d p)
      · rfl
termination_by structural l => l
theorem term_bare (c d : Cfg) : ∀ p : Pair R, OptLike Like (buildTerm c p) (buildTerm d (barePair p))
  | .mk r a b t l => by
    rw [barePair, buildTerm, buildTerm]
    exact termLoop_bare c d l .empty .empty [] [] rfl rfl
termination_by structural p => p
theorem termLoop_bare (c d : Cfg) : ∀ (l : List (Pair R)) (x y : AST) (m n : List (Str × Position)), Like x y →
    m.map Prod.fst = n.map Prod.fst → OptLike Like (termLoop c l x m) (termLoop d (barePairs l) y n)
  | [], x, y, m, n, h, hm => by
    rw [barePairs, termLoop, termLoop]
    exact optLike_erase.2 (prefixes_alike m n x y hm h)
  | p :: l, x, y, m, n, h, hm => by
    rw [barePairs, termLoop, termLoop]
    rw [barePair_rule, barePair_text]
    split
    · rcases (node_bare c d p).split with ⟨e1, e2⟩ | ⟨a, b, e1, e2, hab⟩ <;> rw [e1, e2]
      · trivial
      · exact termLoop_bare c d l a b m n hab hm
    · split
      · exact termLoop_bare c d l x y _ _ h (by simp [hm])
      · split
        · cases suffixMap p.text with
          | none => trivial
          | some s => exact termLoop_bare c d l _ _ m n (by simp [Like, erase, eraseP, eraseParam, eraseL, show erase x = erase y from h]) hm
        · split
          · rcases (slice_bare c d p).split with ⟨e1, e2⟩ | ⟨v, v', e1, e2, hv⟩ <;> rw [e1, e2]
            · trivial
            refine termLoop_bare c d l _ _ m n ?_ hm
            simp [Like, erase, eraseP, eraseParam, eraseL, show erase x = erase y from h, eraseL_eq, show List.map erase v = List.map erase v' from hv]
          · trivial
termination_by structural l => l
theorem node_bare (c d : Cfg) : ∀ p : Pair R, OptLike Like (buildNode c p) (buildNode d (barePair p))
  | .mk r a b t [] => by rw [barePair, barePairs, buildNode, buildNode]; trivial
  | .mk r a b t (p :: l) => by
    rw [barePair, barePairs, buildNode, buildNode]
    rw [barePair_rule, barePair_inner]
    split
    · exact expr_bare c d p
    · split
      · exact data_bare c d p
      · split
        · exact call_bare c d p
        · split
          · simp only [parseSpaceCall, spaceArgs_bare]
            cases spaceArgs p.inner with
            | none => trivial
            | some v => simp [OptLike, Like, erase, eraseP, eraseParam]
          · trivial
termination_by structural p => p
theorem call_bare (c d : Cfg) : ∀ p : Pair R, OptLike Like (buildApplyCall c p) (buildApplyCall d (barePair p))
  | .mk r a b t [] => by rw [barePair, barePairs, buildApplyCall, buildApplyCall]; trivial
  | .mk r a b t (p :: l) => by
    rw [barePair, barePairs, buildApplyCall, buildApplyCall]
    rw [barePair_text]
    rcases (applyLists_bare c d l).split with ⟨e1, e2⟩ | ⟨x, y, e1, e2, h⟩ <;> rw [e1, e2]
    · trivial
    show erase _ = erase _
    simp [erase, eraseP_eq, show List.map eraseParam x = List.map eraseParam y from h]
termination_by structural p => p
theorem applyLists_bare (c d : Cfg) : ∀ l : List (Pair R),
    OptLike (fun x y => x.map eraseParam = y.map eraseParam) (applyLists c l) (applyLists d (barePairs l))
  | [] => by rw [barePairs, applyLists, applyLists]; exact rfl
  | p :: l => by
    rw [barePairs, applyLists, applyLists]
    rw [barePair_rule]
    split
    · rcases (apply_bare c d p).split with ⟨e1, e2⟩ | ⟨x, y, e1, e2, h⟩ <;> rw [e1, e2]
      · trivial
      rcases (applyLists_bare c d l).split with ⟨e3, e4⟩ | ⟨x', y', e3, e4, h'⟩ <;> rw [e3, e4]
      · trivial
      show List.map _ _ = List.map _ _
      simp only [List.map_cons]; rw [h, h']
    · trivial
termination_by structural l => l
theorem apply_bare (c d : Cfg) : ∀ p : Pair R,
    OptLike (fun x y => eraseParam x = eraseParam y) (buildApply c p) (buildApply d (barePair p))
  | .mk r a b t l => by
    rw [barePair, buildApply, buildApply]
    have h := applyArgs_bare c d l [] [] [] [] rfl rfl
    cases h1 : applyArgs c l [] [] with
    | none =>
      rw [h1] at h
      cases h2 : applyArgs d (barePairs l) [] [] with
      | none => trivial
      | some e => rw [h2] at h; exact h.elim
    | some e =>
      rw [h1] at h
      cases h2 : applyArgs d (barePairs l) [] [] with
      | none => rw [h2] at h; exact h.elim
      | some e' =>
        rw [h2] at h
        obtain ⟨x, m⟩ := e
        obtain ⟨y, n⟩ := e'
        show eraseParam _ = eraseParam _
        simp only [eraseParam]
        rw [h.2.erase, eraseL_eq, eraseL_eq, show List.map erase x = List.map erase y from h.1]
termination_by structural p => p
theorem applyArgs_bare (c d : Cfg) : ∀ (l : List (Pair R)) (x y : List AST) (m n : BMap AST AST), LikeL x y → OptsLike m n →
    OptLike (fun e e' : List AST × BMap AST AST => LikeL e.1 e'.1 ∧ OptsLike e.2 e'.2) (applyArgs c l x m)
      (applyArgs d (barePairs l) y n)
  | [], x, y, m, n, h, hm => by rw [barePairs, applyArgs, applyArgs]; exact ⟨h, hm⟩
  | p :: l, x, y, m, n, h, hm => by
    rw [barePairs, applyArgs, applyArgs]
    rw [barePair_rule]
    split
    · exact applyArgs_bare c d l x y m n h hm
    · split
      · exact applyArgs_bare c d l x y m n h hm
      · split
        · have hk := kv_bare c d p
          cases h1 : buildKv c p with
          | none =>
            rw [h1] at hk
            cases h2 : buildKv d (barePair p) with
            | none => trivial
            | some e => rw [h2] at hk; exact hk.elim
          | some e =>
            rw [h1] at hk
            cases h2 : buildKv d (barePair p) with
            | none => rw [h2] at hk; exact hk.elim
            | some e' =>
              rw [h2] at hk
              obtain ⟨k, v⟩ := e
              obtain ⟨k', v'⟩ := e'
              obtain ⟨hk1, hk2⟩ := hk
              dsimp only at hk1 hk2
              subst hk1
              have hi := insert_alike k hk2 m n hm
              cases k with
              | empty => exact applyArgs_bare c d l _ _ m n (by simp [LikeL, h, hk2]) hm
              | _ => exact applyArgs_bare c d l x y _ _ h hi
        · trivial
termination_by structural l => l
theorem kv_bare (c d : Cfg) : ∀ p : Pair R,
    OptLike (fun e e' : AST × AST => e.1 = e'.1 ∧ Like e.2 e'.2) (buildKv c p) (buildKv d (barePair p))
  | .mk r a b t l => by
    rw [barePair, buildKv, buildKv]
    exact kvLoop_bare c d l .empty .empty .empty rfl
termination_by structural p => p
theorem kvLoop_bare (c d : Cfg) : ∀ (l : List (Pair R)) (k x y : AST), Like x y →
    OptLike (fun e e' : AST × AST => e.1 = e'.1 ∧ Like e.2 e'.2) (kvLoop c l k x) (kvLoop d (barePairs l) k y)
  | [], k, x, y, h => by rw [barePairs, kvLoop, kvLoop]; exact ⟨rfl, h⟩
  | p :: l, k, x, y, h => by
    rw [barePairs, kvLoop, kvLoop]
    rw [barePair_rule, barePair_text]
    split
    · exact kvLoop_bare c d l k x y h
    · split
      · exact kvLoop_bare c d l _ x y h
      · split
        · rcases (expr_bare c d p).split with ⟨e1, e2⟩ | ⟨a, b, e1, e2, hab⟩ <;> rw [e1, e2]
          · trivial
          · exact kvLoop_bare c d l k a b hab
        · trivial
termination_by structural l => l
theorem slice_bare (c d : Cfg) : ∀ p : Pair R, OptLike LikeL (buildSlice c p) (buildSlice d (barePair p))
  | .mk r a b t l => by
    rw [barePair, buildSlice, buildSlice]
    exact sliceItems_bare c d l
termination_by structural p => p
theorem sliceItems_bare (c d : Cfg) : ∀ l : List (Pair R), OptLike LikeL (sliceItems c l) (sliceItems d (barePairs l))
  | [] => by rw [barePairs, sliceItems, sliceItems]; exact rfl
  | p :: l => by
    rw [barePairs, sliceItems, sliceItems]
    rw [barePair_rule]
    split
    · exact sliceItems_bare c d l
    · split
      · rcases (index_bare c d p).split with ⟨e1, e2⟩ | ⟨x, y, e1, e2, h⟩ <;> rw [e1, e2]
        · trivial
        rcases (sliceItems_bare c d l).split with ⟨e3, e4⟩ | ⟨x', y', e3, e4, h'⟩ <;> rw [e3, e4]
        · trivial
        show List.map _ _ = List.map _ _
        simp only [List.map_cons]; rw [show erase x = erase y from h, show List.map erase x' = List.map erase y' from h']
      · trivial
termination_by structural l => l
theorem index_bare (c d : Cfg) : ∀ p : Pair R, OptLike Like (buildIndex c p) (buildIndex d (barePair p))
  | .mk r a b t l => by
    rw [barePair, buildIndex, buildIndex]
    exact indexLoop_bare c d _ _ l _ _ _ _ _ _ rfl rfl rfl
termination_by structural p => p
theorem indexLoop_bare (c d : Cfg) (x y : Position) : ∀ (l : List (Pair R)) (a b s a' b' s' : AST), Like a a' → Like b b' →
    Like s s' → OptLike Like (indexLoop c x l a b s) (indexLoop d y (barePairs l) a' b' s')
  | [], a, b, s, a', b', s', h1, h2, h3 => by
    rw [barePairs, indexLoop, indexLoop]
    simp [OptLike, Like, erase, eraseP, eraseParam, eraseL, h1, h2, h3]
  | p :: l, a, b, s, a', b', s', h1, h2, h3 => by
    rw [barePairs, indexLoop, indexLoop]
    rw [barePair_rule]
    split
    · exact indexLoop_bare c d x y l a b s a' b' s' h1 h2 h3
    · split
      · rcases (first_bare c d p).split with ⟨e1, e2⟩ | ⟨e, f, e1, e2, h⟩ <;> rw [e1, e2]
        · trivial
        · exact indexLoop_bare c d x y l e b s f b' s' h h2 h3
      · split
        · rcases (first_bare c d p).split with ⟨e1, e2⟩ | ⟨e, f, e1, e2, h⟩ <;> rw [e1, e2]
          · trivial
          · exact indexLoop_bare c d x y l a e s a' f s' h1 h h3
        · split
          · rcases (first_bare c d p).split with ⟨e1, e2⟩ | ⟨e, f, e1, e2, h⟩ <;> rw [e1, e2]
            · trivial
            · exact indexLoop_bare c d x y l a b e a' b' f h1 h2 h
          · split
            · exact expr_bare c d p
            · trivial
termination_by structural l => l
theorem first_bare (c d : Cfg) : ∀ p : Pair R, OptLike Like (buildFirst c p) (buildFirst d (barePair p))
  | .mk r a b t [] => by rw [barePair, barePairs, buildFirst, buildFirst]; trivial
  | .mk r a b t (p :: l) => by
    rw [barePair, barePairs, buildFirst, buildFirst]
    exact expr_bare c d p
termination_by structural p => p
theorem data_bare (c d : Cfg) : ∀ p : Pair R, OptLike Like (buildData c p) (buildData d (barePair p))
  | .mk r a b t [] => by rw [barePair, barePairs, buildData, buildData]; trivial
  | .mk r a b t (p :: l) => by
    rw [barePair, barePairs, buildData, buildData]
    rw [barePair_rule, barePair_inner, barePair_text]
    have same : ∀ o : Option AST, OptLike Like o o := fun o => by cases o <;> trivial
    split
    · exact list_bare c d p
    · split
      · exact same _
      · split
        · simp only [parseString, stringText_bare]
          exact same _
        · split
          · exact same _
          · split
            · exact same _
            · split
              · exact same _
              · split
                · exact same _
                · split
                  · simp only [parseInOut]
                    split <;> simp [OptLike, Like, erase, eraseP, eraseParam]
                  · split
                    · simp only [parseSlot, slotArgs_bare]
                      cases slotArgs p.inner with
                      | none => trivial
                      | some v => simp [OptLike, Like, erase, eraseP, eraseParam]
                    · trivial
termination_by structural p => p
theorem list_bare (c d : Cfg) : ∀ p : Pair R, OptLike Like (buildList c p) (buildList d (barePair p))
  | .mk r a b t l => by
    rw [barePair, buildList, buildList]
    rcases (listItems_bare c d l).split with ⟨e1, e2⟩ | ⟨x, y, e1, e2, h⟩ <;> rw [e1, e2]
    · trivial
    show erase _ = erase _
    simp [erase, eraseP, eraseParam, eraseL_eq, show List.map erase x = List.map erase y from h]
termination_by structural p => p
theorem listItems_bare (c d : Cfg) : ∀ l : List (Pair R), OptLike LikeL (listItems c l) (listItems d (barePairs l))
  | [] => by rw [barePairs, listItems, listItems]; exact rfl
  | p :: l => by
    rw [barePairs, listItems, listItems]
    rw [barePair_rule]
    split
    · exact listItems_bare c d l
    · split
      · rcases (expr_bare c d p).split with ⟨e1, e2⟩ | ⟨x, y, e1, e2, h⟩ <;> rw [e1, e2]
        · trivial
        rcases (listItems_bare c d l).split with ⟨e3, e4⟩ | ⟨x', y', e3, e4, h'⟩ <;> rw [e3, e4]
        · trivial
        show List.map _ _ = List.map _ _
        simp only [List.map_cons]; rw [show erase x = erase y from h, show List.map erase x' = List.map erase y' from h']
      · trivial
termination_by structural l => l
end

theorem expression_bare (c d : Cfg) : ∀ (l : List (Pair R)) (x y : AST), Like x y →
    OptLike Like (buildExpression c l x) (buildExpression d (barePairs l) y)
  | [], x, y, h => h
  | p :: l, x, y, h => by
    simp only [barePairs, buildExpression, barePair_rule]
    split
    · rcases (expr_bare c d p).split with ⟨e1, e2⟩ | ⟨a, b, e1, e2, hab⟩ <;> rw [e1, e2]
      · trivial
      · exact expression_bare c d l a b hab
    · split
      · exact expression_bare c d l x y h
      · trivial

theorem pairs_bare (c d : Cfg) : ∀ l : List (Pair R), eraseR (parsePairs c l) = eraseR (parsePairs d (barePairs l))
  | [] => rfl
  | p :: l => by
    simp only [barePairs, parsePairs, barePair_rule, barePair_inner]
    split
    · exact pairs_bare c d l
    · split
      · have h := expression_bare c d p.inner .empty .empty rfl
        cases h1 : buildExpression c p.inner .empty <;> cases h2 : buildExpression d (barePairs p.inner) .empty <;>
          rw [h1, h2] at h <;> first | rfl | exact h.elim | exact congrArg Out.ok h
      · split
        · exact pairs_bare c d l
        · rfl

end SM.Props
