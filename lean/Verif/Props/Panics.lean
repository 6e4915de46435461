import Verif.Props.Mixed
import Verif.Props.Dropped
/-
C73: which expressions make the parser panic, exactly.
-/
namespace SM.Props
open SM SM.Peg

variable {u : Uni}

/-! ### What cannot be handled -/

/-- Literals that cannot stand after a dot: decimals, strings, truth values. -/
def SAtom.Scalar : SAtom → Prop
  | .dec _ _ | .str _ | .tagged _ _ | .block _ _ | .taggedBlock _ _ _ | .bool _ => True
  | _ => False

mutual
/-- Operands that cannot stand after a dot: these literals, also in parentheses. -/
def SNode.Scalar : SNode → Prop
  | .atom a => a.Scalar
  | .paren e _ => e.Scalar
  | _ => False
termination_by structural n => n
/-- Terms that cannot stand after a dot. -/
def STerm.Scalar : STerm → Prop
  | .mk ps n l => ps = [] ∧ l = [] ∧ n.Scalar
termination_by structural t => t
/-- Expressions that cannot stand, in parentheses, after a dot. -/
def SExpr.Scalar : SExpr → Prop
  | .mk t l => t.Scalar ∧ ∀ wb k wa x l', l = .mk wb k wa x :: l' → k.Unknown
termination_by structural e => e
end

/-- Literals the parser panics on: `##1`, and literals with a radix and an underscore before the first digit. -/
def SAtom.Bad : SAtom → Prop
  | .slotsFrom _ => True
  | .radix _ _ d _ => d.1 = true
  | _ => False

mutual
/-- Operands the parser panics on: these literals, derivatives, dictionaries, products with factors other than integers
and names, and what contains expressions it panics on. -/
def SNode.Bad : SNode → Prop
  | .atom a => a.Bad
  | .paren e _ => e.Bad
  | .nil _ => False
  | .list i l _ => i.Bad ∨ ItemsBad l
  | .call _ a l => a.Bad ∨ ArgsBad l
  | .deriv _ _ _ => True
  | .dictNil _ => True
  | .dict _ _ _ => True
  | .mixed _ _ _ => True
termination_by structural n => n
/-- Items the parser panics on. -/
def SItem.Bad : SItem → Prop
  | .mk _ _ c _ => c.Bad
termination_by structural i => i
/-- The parser panics on one of the items. -/
def ItemsBad : List SItem → Prop
  | [] => False
  | i :: l => i.Bad ∨ ItemsBad l
termination_by structural l => l
/-- Expressions, named arguments and spans the parser panics on. -/
def SContent.Bad : SContent → Prop
  | .expr e => e.Bad
  | .named _ _ _ _ e => e.Bad
  | .span2 s _ e => s.Bad ∨ e.Bad
  | .span3 s _ _ e _ t => s.Bad ∨ e.Bad ∨ t.Bad
  | .pair _ _ _ _ _ => True
termination_by structural c => c
/-- Parts of spans the parser panics on. -/
def SPart.Bad : SPart → Prop
  | .none => False
  | .some e _ => e.Bad
termination_by structural p => p
/-- Last parts of spans the parser panics on. -/
def SLast.Bad : SLast → Prop
  | .none => False
  | .some _ e => e.Bad
termination_by structural p => p
/-- Argument lists the parser panics on. -/
def SArgs.Bad : SArgs → Prop
  | .some _ i l _ => i.Bad ∨ ItemsBad l
  | .none _ _ l _ => ItemsBad l
termination_by structural a => a
/-- The parser panics on one of the argument lists. -/
def ArgsBad : List SArgs → Prop
  | [] => False
  | a :: l => a.Bad ∨ ArgsBad l
termination_by structural l => l
/-- Suffixes the parser panics on: `?` and primes, and indices with expressions it panics on. -/
def SSuf.Bad : SSuf → Prop
  | .op y => y ≠ c!"!" ∧ y ≠ c!"!!"
  | .slice _ i l _ => i.Bad ∨ ItemsBad l
termination_by structural s => s
/-- The parser panics on one of the suffixes. -/
def SufsBad : List SSuf → Prop
  | [] => False
  | s :: l => s.Bad ∨ SufsBad l
termination_by structural l => l
/-- Terms the parser panics on: the prefix `¬`, operands and suffixes it panics on. -/
def STerm.Bad : STerm → Prop
  | .mk ps n l => .neg ∈ ps ∨ n.Bad ∨ SufsBad l
termination_by structural t => t
/-- Before the first unknown operator there is a term the parser panics on, or a dot before something that cannot stand
there. -/
def StepsBad : List SStep → Prop
  | [] => False
  | .mk _ k _ x :: l =>
    match k with
    | .op o => x.Bad ∨ (o = .dot ∧ x.Scalar) ∨ StepsBad l
    | _ => False
termination_by structural l => l
/-- Expressions the parser panics on. -/
def SExpr.Bad : SExpr → Prop
  | .mk t l => t.Bad ∨ StepsBad l
termination_by structural e => e
end

/-! ### What can stand after a dot -/

/-- Trees that can stand after a dot. -/
def Dottable : AST → Prop
  | .symbol _ | .integer _ | .function _ (_ :: _) => True
  | _ => False

theorem dotApply_eq_none (a b : AST) : dotApply a b = none ↔ ¬ Dottable b := by
  cases b with
  | function f ps =>
    cases ps with
    | nil => simp [dotApply, Dottable]
    | cons p ps => obtain ⟨x, k, q⟩ := p; simp [dotApply, Dottable]
  | _ => simp [dotApply, Dottable]

theorem dotted_dottable {a b r : AST} (h : dotApply a b = some r) : Dottable r := by
  cases b with
  | function f ps =>
    cases ps with
    | nil => simp [dotApply] at h
    | cons p ps => obtain ⟨x, k, q⟩ := p; simp [dotApply] at h; subst h; trivial
  | symbol f => simp [dotApply] at h; subst h; trivial
  | integer n => simp [dotApply] at h; subst h; trivial
  | _ => simp [dotApply] at h

theorem op_dottable {a b r : AST} {o : Op} (h : Op.apply a o b = some r) : Dottable r := by
  cases o with
  | dot => exact dotted_dottable h
  | _ => cases h; trivial

theorem op_eq_none (a b : AST) (o : Op) : Op.apply a o b = none ↔ o = .dot ∧ ¬ Dottable b := by
  cases o with
  | dot => rw [Op.apply, dotApply_eq_none]; simp
  | _ => simp [Op.apply]

theorem pre_dottable {p : Pre} {a r : AST} (h : p.apply a = some r) : Dottable r := by
  cases p <;> simp [Pre.apply] at h <;> subst h <;> trivial

theorem prefix_dottable {ps : List Pre} (hp : ps ≠ []) {a r : AST} (h : preFold ps a = some r) : Dottable r := by
  cases ps with
  | nil => exact absurd rfl hp
  | cons p ps =>
    rw [preFold] at h
    cases e : preFold ps a with
    | none => rw [e] at h; cases h
    | some b => rw [e] at h; exact pre_dottable h

theorem suf_dottable {s : SSuf} {a r : AST} (h : s.apply a = some r) : Dottable r := by
  cases s with
  | op y =>
    rw [SSuf.apply, sufApply] at h
    split at h
    · cases h; trivial
    · split at h
      · cases h; trivial
      · cases h
  | slice w i l o =>
    rw [SSuf.apply, indexBy] at h
    obtain ⟨v, _, rfl⟩ := Option.map_eq_some_iff.1 h
    trivial

theorem suffix_dottable : ∀ (l : List SSuf), l ≠ [] → ∀ {a r : AST}, sufsApply l a = some r → Dottable r
  | [], hl, _, _, _ => absurd rfl hl
  | s :: l, _, a, r, h => by
    rw [sufsApply] at h
    obtain ⟨b, h1, h2⟩ := Option.bind_eq_some_iff.1 h
    cases l with
    | nil => rw [sufsApply] at h2; cases h2; exact suf_dottable h1
    | cons s' l => exact suffix_dottable (s' :: l) (by simp) h2

theorem tree_dottable {t : OpTree (Option AST) Op} (ht : t.steps.2 ≠ []) {r : AST}
    (h : evalTree id Op.apply t = some r) : Dottable r := by
  cases t with
  | leaf x => exact absurd rfl ht
  | node a o b =>
    rw [evalTree] at h
    split at h
    · exact op_dottable h
    · cases h

theorem SAtom.scalar {a : SAtom} {b : AST} (h : a.value = some b) : a.Scalar ↔ ¬ Dottable b := by
  cases a with
  | radix r k d ds =>
    rw [SAtom.value] at h
    split at h
    · cases h
    · cases h; simp [SAtom.Scalar, Dottable]
  | slotsFrom n => cases h
  | _ =>
    simp only [SAtom.value, Option.some.injEq] at h
    subst h
    simp [SAtom.Scalar, Dottable, replValue, AST.mkSymbol]

mutual
theorem SNode.scalar : ∀ n : SNode, ∀ b, n.value = some b → (n.Scalar ↔ ¬ Dottable b)
  | .atom a, b, h => by
    rw [SNode.value] at h
    rw [SNode.Scalar]
    exact SAtom.scalar h
  | .paren e w, b, h => by
    rw [SNode.value] at h
    rw [SNode.Scalar]
    exact SExpr.scalar e b h
  | .nil w, b, h => by
    rw [SNode.value, listOf] at h
    obtain ⟨v, _, rfl⟩ := Option.map_eq_some_iff.1 h
    simp [SNode.Scalar, Dottable]
  | .list i l o, b, h => by
    rw [SNode.value, listOf] at h
    obtain ⟨v, _, rfl⟩ := Option.map_eq_some_iff.1 h
    simp [SNode.Scalar, Dottable]
  | .call p a l, b, h => by
    rw [SNode.value, callOf] at h
    obtain ⟨v, h1, rfl⟩ := Option.map_eq_some_iff.1 h
    cases v with
    | nil =>
      cases e : a.value <;> cases e' : allSome (argsValue l) <;> simp [allSome, e, e'] at h1
    | cons p v => simp [SNode.Scalar, Dottable]
  | .deriv _ _ _, b, h => by rw [SNode.value] at h; cases h
  | .dictNil _, b, h => by rw [SNode.value] at h; cases h
  | .dict _ _ _, b, h => by rw [SNode.value] at h; cases h
  | .mixed _ _ _, b, h => by rw [SNode.value] at h; cases h
termination_by structural n => n
theorem STerm.scalar : ∀ t : STerm, ∀ b, t.value = some b → (t.Scalar ↔ ¬ Dottable b)
  | .mk ps n l, b, h => by
    rw [STerm.value] at h
    obtain ⟨a, h1, h2⟩ := Option.bind_eq_some_iff.1 h
    obtain ⟨a', h3, h4⟩ := Option.bind_eq_some_iff.1 h2
    have ih := SNode.scalar n a h1
    rw [STerm.Scalar]
    by_cases hp : ps = []
    · subst hp
      cases h4
      by_cases hl : l = []
      · subst hl
        rw [sufsApply] at h3
        cases h3
        simpa using ih
      · have := suffix_dottable l hl h3
        simp [hl, this]
    · have := prefix_dottable hp h4
      simp [hp, this]
termination_by structural t => t
theorem SExpr.scalar : ∀ e : SExpr, ∀ b, e.value = some b → (e.Scalar ↔ ¬ Dottable b)
  | .mk t l, b, h => by
    rw [SExpr.value] at h
    rw [SExpr.Scalar]
    have ih := STerm.scalar t b
    by_cases hs : stepsValue l = []
    · rw [hs] at h
      rw [ih h]
      refine ⟨fun h => h.1, fun h => ⟨h, ?_⟩⟩
      intro wb k wa x l' e
      subst e
      cases k with
      | op o => rw [stepsValue] at hs; cases hs
      | _ => trivial
    · have hd := tree_dottable (t := group t.value (stepsValue l)) (by rw [(group_spec _ _).2]; exact hs) h
      refine ⟨fun h' => ?_, fun h' => absurd hd h'⟩
      cases l with
      | nil => rw [stepsValue] at hs; exact absurd rfl hs
      | cons s l =>
        obtain ⟨wb, k, wa, x⟩ := s
        have := h'.2 wb k wa x l rfl
        cases k with
        | op o => cases this
        | _ => exact absurd (by simp [stepsValue]) hs
termination_by structural e => e
end

/-! ### When there is no value -/

theorem allSome_none {α : Type} (l : List (Option α)) : allSome l = none ↔ none ∈ l := by
  induction l with
  | nil => simp [allSome]
  | cons a l ih =>
    rw [List.mem_cons, ← ih]
    cases a <;> cases h : allSome l <;> simp [allSome, h]

theorem span_none (a b c : Option (Option AST)) :
    spanOf a b c = none ↔ a = some none ∨ b = some none ∨ c = some none := by
  rcases a with _ | _ | a <;> rcases b with _ | _ | b <;> rcases c with _ | _ | c <;> simp [spanOf, orDefault]

theorem preFold_eq_none : ∀ (ps : List Pre) (a : AST), preFold ps a = none ↔ .neg ∈ ps
  | [], a => by simp [preFold]
  | p :: ps, a => by
    have ih := preFold_eq_none ps a
    rw [preFold, List.mem_cons]
    cases e : preFold ps a with
    | none =>
      rw [e] at ih
      simp [ih.1 rfl]
    | some b =>
      rw [e] at ih
      have : ¬ Pre.neg ∈ ps := fun h => by cases ih.2 h
      cases p <;> simp [Pre.apply, this]

/-- A properly grouped tree has no value if and only if one of its operands has none or a dot stands before something
that cannot stand there. -/
theorem tree_none : ∀ t : OpTree (Option AST) Op, Proper t → (evalTree id Op.apply t = none ↔ t.steps.1 = none ∨
    ∃ s ∈ t.steps.2, s.2 = none ∨ (s.1 = .dot ∧ ∃ b, s.2 = some b ∧ ¬ Dottable b)) := by
  intro t
  induction t with
  | leaf x => intro _; simp [evalTree, OpTree.steps]
  | node l o r ihl ihr =>
    rintro ⟨h1, h2, p, hp, h3, h4⟩
    cases hp
    have il := ihl h1
    have ir := ihr h2
    rw [evalTree]
    simp only [OpTree.steps, List.mem_append, List.mem_cons]
    cases el : evalTree id Op.apply l with
    | none =>
      refine ⟨fun _ => ?_, fun _ => rfl⟩
      rcases il.1 el with h | ⟨s, hs, h⟩
      · exact .inl h
      · exact .inr ⟨s, .inl hs, h⟩
    | some a =>
      rw [el] at il
      have il' : ¬ _ := fun h => Option.some_ne_none _ (il.2 h)
      cases er : evalTree id Op.apply r with
      | none =>
        refine ⟨fun _ => ?_, fun _ => rfl⟩
        rcases ir.1 er with h | ⟨s, hs, h⟩
        · exact .inr ⟨_, .inr (.inl rfl), .inl h⟩
        · exact .inr ⟨s, .inr (.inr hs), h⟩
      | some b =>
        rw [er] at ir
        have ir' : ¬ _ := fun h => Option.some_ne_none _ (ir.2 h)
        have leaf : o = .dot → r = .leaf (some b) := by
          intro ho
          subst ho
          cases r with
          | leaf x => rw [evalTree] at er; cases er; rfl
          | node r1 o' r2 =>
            obtain ⟨q, hq, hr⟩ := h4 o' rfl
            cases hq
            cases o' <;> exact absurd hr (by decide)
        show Op.apply a o b = none ↔ _
        rw [op_eq_none]
        constructor
        · rintro ⟨ho, hb⟩
          have := leaf ho
          subst this
          exact .inr ⟨_, .inr (.inl rfl), .inr ⟨ho, b, rfl, hb⟩⟩
        · rintro (h | ⟨s, hs | rfl | hs, h⟩)
          · exact absurd (.inl h) il'
          · exact absurd (.inr ⟨s, hs, h⟩) il'
          · rcases h with h | ⟨ho, b', hb, hd⟩
            · exact absurd (.inl h) ir'
            · have := leaf ho
              subst this
              cases hb
              exact ⟨ho, hd⟩
          · exact absurd (.inr ⟨s, hs, h⟩) ir'

theorem SAtom.bad (a : SAtom) : a.value = none ↔ a.Bad := by
  cases a <;> simp [SAtom.value, SAtom.Bad]

theorem isExpr_isIndex (c : SContent) (h : c.isExpr = true) : c.isIndex = true := by
  cases c <;> first | rfl | cases h

mutual
theorem SNode.bad : ∀ n : SNode, n.Ok u → (n.value = none ↔ n.Bad)
  | .atom a, _ => by rw [SNode.value, SNode.Bad]; exact SAtom.bad a
  | .paren e w, h => by
    rw [SNode.Ok] at h
    rw [SNode.value, SNode.Bad]
    exact SExpr.bad e h.1
  | .nil w, _ => by rw [SNode.value, SNode.Bad]; simp [listOf, allSome]
  | .list i l o, h => by
    rw [SNode.Ok] at h
    have h1 := SItem.bad i _ isExpr_isIndex h.1
    have h2 := items_bad l _ isExpr_isIndex h.2.1
    rw [SNode.value, SNode.Bad, listOf, Option.map_eq_none_iff, allSome_none, List.mem_cons, ← h1, ← h2, eq_comm]
  | .call p a l, h => by
    rw [SNode.Ok] at h
    have h1 := SArgs.bad a h.2.1
    have h2 := args_bad l h.2.2
    rw [SNode.value, SNode.Bad, callOf, Option.map_eq_none_iff, allSome_none, List.mem_cons, ← h1, ← h2, eq_comm]
  | .deriv _ _ _, _ => by rw [SNode.value, SNode.Bad]; simp
  | .dictNil _, _ => by rw [SNode.value, SNode.Bad]; simp
  | .dict _ _ _, _ => by rw [SNode.value, SNode.Bad]; simp
  | .mixed _ _ _, _ => by rw [SNode.value, SNode.Bad]; simp
termination_by structural n => n
theorem SItem.bad : ∀ (i : SItem) (k : SContent → Bool), (∀ c, k c = true → c.isIndex = true) → i.Ok u k →
    (i.value = none ↔ i.Bad)
  | .mk b wa c wb, k, hk, h => by
    rw [SItem.Ok] at h
    rw [SItem.value, SItem.Bad]
    exact SContent.bad c (hk c h.2.2.1) h.2.2.2
termination_by structural i => i
theorem items_bad : ∀ (l : List SItem) (k : SContent → Bool), (∀ c, k c = true → c.isIndex = true) → ItemsOk u k l →
    (none ∈ itemsValue l ↔ ItemsBad l)
  | [], _, _, _ => by rw [itemsValue, ItemsBad]; simp
  | i :: l, k, hk, h => by
    rw [ItemsOk] at h
    have h1 := SItem.bad i k hk h.1
    have h2 := items_bad l k hk h.2
    rw [itemsValue, ItemsBad, List.mem_cons, ← h1, ← h2, eq_comm]
termination_by structural l => l
theorem SContent.bad : ∀ c : SContent, c.isIndex = true → c.Ok u → (c.value = none ↔ c.Bad)
  | .expr e, _, h => by
    rw [SContent.Ok] at h
    rw [SContent.value, SContent.Bad]
    exact SExpr.bad e h
  | .named _ _ _ _ _, hk, _ => by cases hk
  | .span2 s b e, _, h => by
    rw [SContent.Ok] at h
    have h1 := SPart.bad s _ h.1
    have h2 := SLast.bad e h.2
    rw [SContent.value, SContent.Bad, span_none, ← h1, ← h2]
    simp
  | .span3 s b wa e b' t, _, h => by
    rw [SContent.Ok] at h
    have h1 := SPart.bad s _ h.1
    have h2 := SPart.bad e _ h.2.2.1
    have h3 := SLast.bad t h.2.2.2
    rw [SContent.value, SContent.Bad, span_none, ← h1, ← h2, ← h3]
  | .pair _ _ _ _ _, hk, _ => by cases hk
termination_by structural c => c
theorem SItem.bad_arg : ∀ i : SItem, i.Ok u SContent.isArg → (i.arg = none ↔ i.Bad)
  | .mk b wa c wb, h => by
    rw [SItem.Ok] at h
    rw [SItem.arg, SItem.Bad]
    exact SContent.bad_arg c h.2.2.1 h.2.2.2
termination_by structural i => i
theorem items_bad_arg : ∀ l : List SItem, ItemsOk u SContent.isArg l → (none ∈ itemsArg l ↔ ItemsBad l)
  | [], _ => by rw [itemsArg, ItemsBad]; simp
  | i :: l, h => by
    rw [ItemsOk] at h
    have h1 := SItem.bad_arg i h.1
    have h2 := items_bad_arg l h.2
    rw [itemsArg, ItemsBad, List.mem_cons, ← h1, ← h2, eq_comm]
termination_by structural l => l
theorem SContent.bad_arg : ∀ c : SContent, c.isArg = true → c.Ok u → (c.arg = none ↔ c.Bad)
  | .expr e, _, h => by
    rw [SContent.Ok] at h
    rw [SContent.arg, SContent.Bad, posArg, Option.map_eq_none_iff]
    exact SExpr.bad e h
  | .named k w1 b w2 e, _, h => by
    rw [SContent.Ok] at h
    rw [SContent.arg, SContent.Bad, namedArg, Option.map_eq_none_iff]
    exact SExpr.bad e h.2.2.2
  | .span2 _ _ _, hk, _ => by cases hk
  | .span3 _ _ _ _ _ _, hk, _ => by cases hk
  | .pair _ _ _ _ _, hk, _ => by cases hk
termination_by structural c => c
theorem SPart.bad : ∀ (s : SPart) (z : Str), s.Ok u z → (s.value = some none ↔ s.Bad)
  | .none, _, _ => by rw [SPart.value, SPart.Bad]; simp
  | .some e w, z, h => by
    rw [SPart.Ok] at h
    rw [SPart.value, SPart.Bad, Option.some_inj]
    exact SExpr.bad e h.1
termination_by structural p => p
theorem SLast.bad : ∀ s : SLast, s.Ok u → (s.value = some none ↔ s.Bad)
  | .none, _ => by rw [SLast.value, SLast.Bad]; simp
  | .some w e, h => by
    rw [SLast.Ok] at h
    rw [SLast.value, SLast.Bad, Option.some_inj]
    exact SExpr.bad e h.2
termination_by structural p => p
theorem SArgs.bad : ∀ a : SArgs, a.Ok u → (a.value = none ↔ a.Bad)
  | .some w i l o, h => by
    rw [SArgs.Ok] at h
    have h1 := SItem.bad_arg i h.2.1
    have h2 := items_bad_arg l h.2.2.1
    rw [SArgs.value, SArgs.Bad, argsOf, Option.map_eq_none_iff, allSome_none, List.mem_cons, ← h1, ← h2, eq_comm]
  | .none w w' l o, h => by
    rw [SArgs.Ok] at h
    have h2 := items_bad_arg l h.2.2.1
    rw [SArgs.value, SArgs.Bad, argsOf, Option.map_eq_none_iff, allSome_none, ← h2]
termination_by structural a => a
theorem args_bad : ∀ l : List SArgs, ArgsOk u l → (none ∈ argsValue l ↔ ArgsBad l)
  | [], _ => by rw [argsValue, ArgsBad]; simp
  | a :: l, h => by
    rw [ArgsOk] at h
    have h1 := SArgs.bad a h.1
    have h2 := args_bad l h.2
    rw [argsValue, ArgsBad, List.mem_cons, ← h1, ← h2, eq_comm]
termination_by structural l => l
theorem SSuf.bad : ∀ s : SSuf, s.Ok u → ∀ a, (s.apply a = none ↔ s.Bad)
  | .op y, _, a => by
    rw [SSuf.apply, SSuf.Bad, sufApply]
    split
    · rename_i h; simp [h]
    · rename_i h
      split
      · rename_i h'; simp [h']
      · rename_i h'; simp [h, h']
  | .slice w i l o, h, a => by
    rw [SSuf.Ok] at h
    have h1 := SItem.bad i _ (fun _ => id) h.2.1
    have h2 := items_bad l _ (fun _ => id) h.2.2.1
    rw [SSuf.apply, SSuf.Bad, indexBy, Option.map_eq_none_iff, allSome_none, List.mem_cons, ← h1, ← h2, eq_comm]
termination_by structural s => s
theorem sufs_bad : ∀ l : List SSuf, SufsOk u l → ∀ a, (sufsApply l a = none ↔ SufsBad l)
  | [], _, a => by rw [sufsApply, SufsBad]; simp
  | s :: l, h, a => by
    rw [SufsOk] at h
    have h1 := SSuf.bad s h.1 a
    have h2 := sufs_bad l h.2.2
    rw [sufsApply, SufsBad]
    cases e : s.apply a with
    | none =>
      rw [e] at h1
      simp [h1.1 rfl]
    | some b =>
      rw [e] at h1
      have : ¬ s.Bad := fun h => by cases h1.2 h
      simpa [this] using h2 b
termination_by structural l => l
theorem STerm.bad : ∀ t : STerm, t.Ok u → (t.value = none ↔ t.Bad)
  | .mk ps n l, h => by
    rw [STerm.Ok] at h
    have h1 := SNode.bad n h.1
    have h2 := sufs_bad l h.2
    rw [STerm.value, STerm.Bad]
    cases e : n.value with
    | none =>
      rw [e] at h1
      simp [h1.1 rfl]
    | some a =>
      rw [e] at h1
      have hn : ¬ n.Bad := fun h => by cases h1.2 h
      have h3 := h2 a
      cases e' : sufsApply l a with
      | none =>
        rw [e'] at h3
        simp [h3.1 rfl, e']
      | some b =>
        rw [e'] at h3
        have hl : ¬ SufsBad l := fun h => by cases h3.2 h
        simpa [hn, hl, e'] using preFold_eq_none ps b
termination_by structural t => t
theorem steps_bad : ∀ (l : List SStep) (num : Bool), StepsOk u num l →
    ((∃ s ∈ stepsValue l, s.2 = none ∨ (s.1 = .dot ∧ ∃ b, s.2 = some b ∧ ¬ Dottable b)) ↔ StepsBad l)
  | [], _, _ => by rw [stepsValue, StepsBad]; simp
  | .mk wb k wa x :: l, num, h => by
    rw [StepsOk] at h
    have h1 := STerm.bad x h.2.2.2.2.1
    have h2 := steps_bad l _ h.2.2.2.2.2
    cases k with
    | op o =>
      rw [stepsValue, StepsBad]
      simp only [List.mem_cons, exists_eq_or_imp]
      rw [h2]
      cases e : x.value with
      | none =>
        rw [e] at h1
        simp [h1.1 rfl]
      | some b =>
        rw [e] at h1
        have hx : ¬ x.Bad := fun h => by cases h1.2 h
        have := STerm.scalar x b e
        simp [hx, this]
    | _ => simp [stepsValue, StepsBad]
termination_by structural l => l
theorem SExpr.bad : ∀ e : SExpr, e.Ok u → (e.value = none ↔ e.Bad)
  | .mk t l, h => by
    rw [SExpr.Ok] at h
    have h1 := STerm.bad t h.1
    have h2 := steps_bad l _ h.2
    rw [SExpr.value, SExpr.Bad, tree_none _ (group_spec _ _).1, (group_spec _ _).2, h1, h2]
termination_by structural e => e
end

/-- **C73**.  The parser panics on a well-formed expression exactly if one of the forms it cannot handle occurs in it
where it is looked at; otherwise it returns a tree. -/
theorem C73_panics_iff (L : Lawful u) (c : Cfg) (e : SExpr) (h : e.Ok u) (hn : Wordless e.text) {w w' : Str}
    (hw : Blank u w) (hw' : Blank u w') (hc : c.input = w ++ (e.text ++ w')) :
    (parseText u c = .panic ↔ e.Bad) ∧ ((∃ a, parseText u c = .ok a) ↔ ¬ e.Bad) := by
  have h1 := C53_expressions L c e h hn hw hw' hc
  have h2 := SExpr.bad e h
  cases ev : e.value with
  | none =>
    rw [ev] at h1 h2
    have hp := eraseR_panic h1
    have hb := h2.1 rfl
    refine ⟨⟨fun _ => hb, fun _ => hp⟩, ⟨?_, fun h => absurd hb h⟩⟩
    rintro ⟨a, ha⟩
    rw [hp] at ha; cases ha
  | some v =>
    rw [ev] at h1 h2
    have hb : ¬ e.Bad := fun h => by cases h2.2 h
    cases ep : parseText u c with
    | ok a => exact ⟨⟨(fun h => nomatch h), fun h => absurd h hb⟩, ⟨fun _ => hb, fun _ => ⟨a, rfl⟩⟩⟩
    | err x => rw [ep] at h1; cases h1
    | panic => rw [ep] at h1; cases h1

/-- `[1, {}]` and `g'(x)` panic; `1 > {}` does not, as it is `1`; `"ab".x` does not, but `x."ab"` does. -/
example (c : Cfg) :
    (c.input = c!"[1, {}]" → parseText asciiUni c = .panic) ∧ (c.input = c!"g'(x)" → parseText asciiUni c = .panic) ∧
    (c.input = c!"1 > {}" → ∃ a, parseText asciiUni c = .ok a) ∧
    (c.input = c!"\"ab\".x" → ∃ a, parseText asciiUni c = .ok a) ∧
    (c.input = c!"x.\"ab\"" → parseText asciiUni c = .panic) := by
  have L := lawful_asciiUni
  have bl : Blank asciiUni c!" " := blank_one L
  have ix : (SNode.atom (.sym ⟨c!"x", []⟩)).Ok asciiUni := by
    rw [SNode.Ok]
    exact ⟨⟨.inl ⟨'x', [], rfl, by decide, by decide⟩, by simp⟩, by unfold Path.Free; decide⟩
  have is : (SNode.atom (.str c!"ab")).Ok asciiUni := by
    rw [SNode.Ok]
    show contentOk _ = true
    decide
  have i1 : (SNode.atom (.int 1)).Ok asciiUni := by rw [SNode.Ok]; trivial
  have id : (SNode.dictNil []).Ok asciiUni := by rw [SNode.Ok]; exact blank_nil
  have tok : ∀ {n : SNode}, n.Ok asciiUni → (STerm.mk [] n []).Ok asciiUni := by
    intro n h
    rw [STerm.Ok, SufsOk]; exact ⟨h, trivial⟩
  have iok : ∀ {b : Bool} {w : Str} {n : SNode}, Blank asciiUni w → n.Ok asciiUni →
      (SItem.mk b w (.expr (.node n)) []).Ok asciiUni SContent.isExpr := by
    intro b w n hw h
    rw [SItem.Ok, SContent.Ok]
    exact ⟨hw, blank_nil, rfl, node_ok h⟩
  have iok' : ∀ {b : Bool} {w : Str} {n : SNode}, Blank asciiUni w → n.Ok asciiUni →
      (SItem.mk b w (.expr (.node n)) []).Ok asciiUni SContent.isArg := by
    intro b w n hw h
    rw [SItem.Ok, SContent.Ok]
    exact ⟨hw, blank_nil, rfl, node_ok h⟩
  have eok : ∀ {t x : STerm} {k : Tok} {wb wa : Str}, t.Ok asciiUni → x.Ok asciiUni → Blank asciiUni wb →
      Blank asciiUni wa → (t.num = true → wb ≠ []) → k ≠ .op .slash →
      (SExpr.mk t [.mk wb k wa x]).Ok asciiUni := by
    intro t x k wb wa h1 h2 h3 h4 h5 h6
    rw [SExpr.Ok, StepsOk, StepsOk]
    exact ⟨h1, fun h e => absurd e (h5 h), h3, h4, fun e => absurd e h6, h2, trivial⟩
  refine ⟨fun h => ?_, fun h => ?_, fun h => ?_, fun h => ?_, fun h => ?_⟩
  · refine (C73_panics_iff L c (.node (.list (.mk false [] (.expr (.node (.atom (.int 1)))) [])
      [.mk false c!" " (.expr (.node (.dictNil []))) []] none)) (node_ok ?_) (wordless_head (c := '[') (r := c!"1, {}]") (by decide) (by decide))
      (w := []) (w' := []) blank_nil blank_nil (by rw [h]; decide)).1.2 ?_
    · rw [SNode.Ok, ItemsOk, ItemsOk]
      exact ⟨iok blank_nil i1, ⟨iok bl id, trivial⟩, fun _ _ h => (nomatch h)⟩
    · simp [SExpr.node, SExpr.Bad, STerm.Bad, SNode.Bad, ItemsBad, SItem.Bad, SContent.Bad]
  · refine (C73_panics_iff L c (.node (.deriv ⟨c!"g", []⟩ 0 (.some [] (.mk false []
      (.expr (.node (.atom (.sym ⟨c!"x", []⟩)))) []) [] none))) (node_ok ?_) (wordless_head (c := 'g') (r := c!"'(x)") (by decide) (by decide))
      (w := []) (w' := []) blank_nil blank_nil (by rw [h]; decide)).1.2 ?_
    · rw [SNode.Ok, SArgs.Ok, ItemsOk]
      exact ⟨⟨.inl ⟨'g', [], rfl, by decide, by decide⟩, by simp⟩, fun _ h => (nomatch h), iok' blank_nil ix, trivial,
        fun _ _ h => (nomatch h)⟩
    · simp [SExpr.node, SExpr.Bad, STerm.Bad, SNode.Bad]
  · refine (C73_panics_iff L c (.mk (.mk [] (.atom (.int 1)) []) [.mk c!" " .greater c!" " (.mk [] (.dictNil []) [])])
      (eok (tok i1) (tok id) bl bl (fun _ => by decide) (by decide)) (wordless_head (c := '1') (r := c!" > {}") (by decide) (by decide))
      (w := []) (w' := []) blank_nil blank_nil (by rw [h]; decide)).2.2 ?_
    simp [SExpr.Bad, STerm.Bad, SNode.Bad, SAtom.Bad, SufsBad, StepsBad]
  · refine (C73_panics_iff L c (.mk (.mk [] (.atom (.str c!"ab")) []) [.mk [] (.op .dot) [] (.mk [] (.atom (.sym ⟨c!"x", []⟩)) [])])
      (eok (tok is) (tok ix) blank_nil blank_nil (fun h => (nomatch h)) (by decide))
      (wordless_head (c := '"') (r := c!"ab\".x") (by decide) (by decide))
      (w := []) (w' := []) blank_nil blank_nil (by rw [h]; decide)).2.2 ?_
    simp [SExpr.Bad, STerm.Bad, SNode.Bad, SAtom.Bad, SufsBad, StepsBad, STerm.Scalar, SNode.Scalar, SAtom.Scalar]
  · refine (C73_panics_iff L c (.mk (.mk [] (.atom (.sym ⟨c!"x", []⟩)) []) [.mk [] (.op .dot) [] (.mk [] (.atom (.str c!"ab")) [])])
      (eok (tok ix) (tok is) blank_nil blank_nil (fun h => (nomatch h)) (by decide))
      (wordless_head (c := 'x') (r := c!".\"ab\"") (by decide) (by decide))
      (w := []) (w' := []) blank_nil blank_nil (by rw [h]; decide)).1.2 ?_
    simp [SExpr.Bad, STerm.Bad, SNode.Bad, SAtom.Bad, SufsBad, StepsBad, STerm.Scalar, SNode.Scalar, SAtom.Scalar]

end SM.Props
