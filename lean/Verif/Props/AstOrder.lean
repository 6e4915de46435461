import Verif.Ast.Order
import Mathlib.Tactic.Linarith
import Mathlib.Tactic.Ring
import Mathlib.Algebra.Order.Field.Rat
import Mathlib.Algebra.Order.Field.Power
import Mathlib.Tactic.NormNum
/-
C15: the derived ordering of expressions is a lawful total order that agrees with equality.
-/
namespace SM.Props
open SM BMap

theorem natCmp_lt_iff {a b : Nat} : natCmp a b = .lt ↔ a < b := by
  unfold natCmp; split <;> simp_all; split <;> simp_all

theorem intCmp_lt_iff {a b : Int} : intCmp a b = .lt ↔ a < b := by
  unfold intCmp; split <;> simp_all; split <;> simp_all

/-! ### Laws at one left argument, relative to a class of right arguments -/

/-- The order laws for comparisons starting at `a`, with the other arguments in `P`. -/
structure LawOn (P : α → Prop) (f : α → α → Ordering) (a : α) : Prop where
  refl : f a a = .eq
  swap : ∀ b, P b → f b a = (f a b).swap
  trans : ∀ b c, P b → P c → f a b = .lt → f b c = .lt → f a c = .lt
  eql : ∀ b c, P b → P c → f a b = .eq → f a c = f b c
  eqr : ∀ b c, P b → P c → f b c = .eq → f a b = f a c

/-- The order laws for comparisons starting at `a`. -/
abbrev LawAt (f : α → α → Ordering) (a : α) : Prop := LawOn (fun _ => True) f a

theorem lawAt_of_lawful {f : α → α → Ordering} (h : LawfulCmp f) (a : α) : LawAt f a where
  refl := h.refl a
  swap b _ := h.swap a b
  trans b c _ _ := h.trans_lt a b c
  eql b c _ _ := h.eq_left a b c
  eqr _ _ _ _ hbc := h.eq_right a hbc

theorem lawful_of_lawAt {f : α → α → Ordering} (h : ∀ a, LawAt f a) : LawfulCmp f where
  refl a := (h a).refl
  swap a b := (h a).swap b trivial
  trans_lt a b c := (h a).trans b c trivial trivial
  eq_left a b c := (h a).eql b c trivial trivial

/-- Lexicographic combination of comparisons of two components. -/
theorem lawOn_then {P : α → Prop} {f : β → β → Ordering} {g : γ → γ → Ordering} {u : α → β}
    {v : α → γ} {a : α} (hf : LawAt f (u a)) (hg : LawAt g (v a)) :
    LawOn P (fun x y => (f (u x) (u y)).then (g (v x) (v y))) a where
  refl := by simp [hf.refl, hg.refl]
  swap b _ := by
    simp only [hf.swap (u b) trivial, hg.swap (v b) trivial]
    cases f (u a) (u b) <;> simp [Ordering.swap, Ordering.then]
  trans b c _ _ := by
    intro h1 h2
    have hfe : ∀ o p : Ordering, o.then p = .lt ↔ o = .lt ∨ (o = .eq ∧ p = .lt) := by
      intro o p; cases o <;> simp [Ordering.then]
    rw [hfe] at h1 h2 ⊢
    rcases h1 with h1 | ⟨h1, h1'⟩ <;> rcases h2 with h2 | ⟨h2, h2'⟩
    · exact .inl (hf.trans _ _ trivial trivial h1 h2)
    · left
      rw [← hf.eqr (u b) (u c) trivial trivial h2]; exact h1
    · left
      rw [hf.eql (u b) (u c) trivial trivial h1]; exact h2
    · right
      refine ⟨?_, hg.trans _ _ trivial trivial h1' h2'⟩
      rw [hf.eql (u b) (u c) trivial trivial h1]; exact h2
  eql b c _ _ := by
    intro h
    have hfe : ∀ o p : Ordering, o.then p = .eq ↔ o = .eq ∧ p = .eq := by
      intro o p; cases o <;> simp [Ordering.then]
    rw [hfe] at h
    show (f (u a) (u c)).then (g (v a) (v c)) = (f (u b) (u c)).then (g (v b) (v c))
    rw [hf.eql (u b) (u c) trivial trivial h.1, hg.eql (v b) (v c) trivial trivial h.2]
  eqr b c _ _ := by
    intro h
    have hfe : ∀ o p : Ordering, o.then p = .eq ↔ o = .eq ∧ p = .eq := by
      intro o p; cases o <;> simp [Ordering.then]
    rw [hfe] at h
    show (f (u a) (u b)).then (g (v a) (v b)) = (f (u a) (u c)).then (g (v a) (v c))
    rw [hf.eqr (u b) (u c) trivial trivial h.1, hg.eqr (v b) (v c) trivial trivial h.2]

theorem lawAt_pairCmp {f : α → α → Ordering} {g : β → β → Ordering} {x : α × β}
    (hf : LawAt f x.1) (hg : LawAt g x.2) : LawAt (pairCmp f g) x :=
  lawOn_then (u := Prod.fst) (v := Prod.snd) hf hg

/-- Comparison through a projection. -/
theorem lawOn_comap {P : α → Prop} {f : β → β → Ordering} {u : α → β} {a : α} (hf : LawAt f (u a)) :
    LawOn P (fun x y => f (u x) (u y)) a where
  refl := hf.refl
  swap b _ := hf.swap (u b) trivial
  trans b c _ _ := hf.trans (u b) (u c) trivial trivial
  eql b c _ _ := hf.eql (u b) (u c) trivial trivial
  eqr b c _ _ := hf.eqr (u b) (u c) trivial trivial

theorem LawOn.congr {P : α → Prop} {f g : α → α → Ordering} {a : α} (h : LawOn P f a) (ha : P a)
    (hfg : ∀ x y, P x → P y → g x y = f x y) : LawOn P g a where
  refl := by rw [hfg _ _ ha ha]; exact h.refl
  swap b hb := by rw [hfg _ _ hb ha, hfg _ _ ha hb]; exact h.swap b hb
  trans b c hb hc := by
    rw [hfg _ _ ha hb, hfg _ _ hb hc, hfg _ _ ha hc]; exact h.trans b c hb hc
  eql b c hb hc := by
    rw [hfg _ _ ha hb, hfg _ _ hb hc, hfg _ _ ha hc]; exact h.eql b c hb hc
  eqr b c hb hc := by
    rw [hfg _ _ ha hb, hfg _ _ hb hc, hfg _ _ ha hc]; exact h.eqr b c hb hc

/-- Variants: compare by variant index first. -/
theorem lawAt_tagged {f : α → α → Ordering} {tag : α → Nat} {a : α}
    (hne : ∀ x y, tag x ≠ tag y → f x y = natCmp (tag x) (tag y))
    (hne' : ∀ x y, f x y = .eq → tag x = tag y)
    (h : LawOn (fun b => tag b = tag a) f a) : LawAt f a where
  refl := h.refl
  swap b _ := by
    by_cases hb : tag b = tag a
    · exact h.swap b hb
    · rw [hne _ _ hb, hne _ _ (Ne.symm hb)]; exact natCmp_lawful.swap _ _
  trans b c _ _ := by
    intro h1 h2
    by_cases hb : tag b = tag a
    · by_cases hc : tag c = tag a
      · exact h.trans b c hb hc h1 h2
      · rw [hne _ _ (by omega)] at h2 ⊢
        rw [← hb]; exact h2
    · rw [hne _ _ (Ne.symm hb)] at h1
      have h1' := natCmp_lt_iff.1 h1
      by_cases hbc : tag b = tag c
      · rw [hne _ _ (by omega)]; exact natCmp_lt_iff.2 (by omega)
      · rw [hne _ _ hbc] at h2
        have h2' := natCmp_lt_iff.1 h2
        rw [hne _ _ (by omega)]; exact natCmp_lt_iff.2 (by omega)
  eql b c _ _ := by
    intro h1
    have hb := hne' _ _ h1
    by_cases hc : tag c = tag a
    · exact h.eql b c hb.symm hc h1
    · rw [hne _ _ (by omega), hne _ _ (by omega), hb]
  eqr b c _ _ := by
    intro h1
    have hb := hne' _ _ h1
    by_cases hc : tag c = tag a
    · exact h.eqr b c (by omega) hc h1
    · rw [hne _ _ (by omega), hne _ _ (by omega), hb]

theorem lawAt_list_nil (f : α → α → Ordering) : LawAt (listCmp f) [] where
  refl := rfl
  swap b _ := by cases b <;> rfl
  trans b c _ _ := by cases b <;> cases c <;> simp [listCmp]
  eql b c _ _ := by cases b <;> simp [listCmp]
  eqr b c _ _ := by cases b <;> cases c <;> simp [listCmp]

theorem lawAt_list_cons {f : α → α → Ordering} {a : α} {as : List α} (ha : LawAt f a)
    (has : LawAt (listCmp f) as) : LawAt (listCmp f) (a :: as) := by
  have key : LawAt (pairCmp f (listCmp f)) (a, as) := lawAt_pairCmp ha has
  refine ⟨key.refl, ?_, ?_, ?_, ?_⟩
  · intro b _
    cases b with
    | nil => rfl
    | cons b bs => exact key.swap (b, bs) trivial
  · intro b c _ _
    cases b with
    | nil => simp [listCmp]
    | cons b bs =>
      cases c with
      | nil => simp [listCmp]
      | cons c cs => exact key.trans (b, bs) (c, cs) trivial trivial
  · intro b c _ _
    cases b with
    | nil => simp [listCmp]
    | cons b bs =>
      cases c with
      | nil => simp [listCmp]
      | cons c cs => exact key.eql (b, bs) (c, cs) trivial trivial
  · intro b c _ _
    cases b with
    | nil => cases c <;> simp [listCmp]
    | cons b bs =>
      cases c with
      | nil => simp [listCmp]
      | cons c cs => exact key.eqr (b, bs) (c, cs) trivial trivial

theorem lawful_listCmp {f : α → α → Ordering} (h : LawfulCmp f) : LawfulCmp (listCmp f) := by
  apply lawful_of_lawAt
  intro l
  induction l with
  | nil => exact lawAt_list_nil f
  | cons a l ih => exact lawAt_list_cons (lawAt_of_lawful h a) ih

theorem lawful_pairCmp {f : α → α → Ordering} {g : β → β → Ordering} (hf : LawfulCmp f)
    (hg : LawfulCmp g) : LawfulCmp (pairCmp f g) :=
  lawful_of_lawAt fun _ => lawAt_pairCmp (lawAt_of_lawful hf _) (lawAt_of_lawful hg _)

/-! ### Atoms -/

theorem lawful_comap {f : β → β → Ordering} (h : LawfulCmp f) (u : α → β) :
    LawfulCmp (fun x y => f (u x) (u y)) :=
  lawful_of_lawAt fun _ => lawOn_comap (lawAt_of_lawful h _)

theorem lawful_strCmp : LawfulCmp strCmp :=
  lawful_listCmp (lawful_comap natCmp_lawful Char.toNat)

theorem lawful_boolCmp : LawfulCmp boolCmp := lawful_comap natCmp_lawful Bool.toNat

/-- `decCmp` can be computed at any sufficiently large common scale. -/
theorem decCmp_scale (a b : Dec) (m : Int) (ha : a.scale ≤ m) (hb : b.scale ≤ m) :
    decCmp a b = intCmp (a.digits * 10 ^ (m - a.scale).toNat) (b.digits * 10 ^ (m - b.scale).toNat) := by
  have hm : max a.scale b.scale ≤ m := by omega
  unfold decCmp
  simp only
  have e1 : (m - a.scale).toNat
      = (max a.scale b.scale - a.scale).toNat + (m - max a.scale b.scale).toNat := by omega
  have e2 : (m - b.scale).toNat
      = (max a.scale b.scale - b.scale).toNat + (m - max a.scale b.scale).toNat := by omega
  rw [e1, e2, pow_add, pow_add, ← mul_assoc, ← mul_assoc]
  have hp : (0 : Int) < 10 ^ (m - max a.scale b.scale).toNat := by
    exact Int.pow_pos (by decide)
  generalize (10 : Int) ^ (m - max a.scale b.scale).toNat = t at hp
  generalize a.digits * 10 ^ (max a.scale b.scale - a.scale).toNat = x
  generalize b.digits * 10 ^ (max a.scale b.scale - b.scale).toNat = y
  unfold intCmp
  have h1 : (x < y) ↔ (x * t < y * t) := (Int.mul_lt_mul_right hp).symm
  have h2 : (x = y) ↔ (x * t = y * t) := ⟨fun h => by rw [h], fun h => Int.eq_of_mul_eq_mul_right (by omega) h⟩
  simp only [h1, h2]

theorem lawful_decCmp : LawfulCmp decCmp where
  refl a := by
    rw [decCmp_scale a a a.scale le_rfl le_rfl]; exact intCmp_lawful.refl _
  swap a b := by
    rw [decCmp_scale a b (max a.scale b.scale) (by omega) (by omega),
      decCmp_scale b a (max a.scale b.scale) (by omega) (by omega)]
    exact intCmp_lawful.swap _ _
  trans_lt a b c := by
    let m := max a.scale (max b.scale c.scale)
    rw [decCmp_scale a b m (by omega) (by omega), decCmp_scale b c m (by omega) (by omega),
      decCmp_scale a c m (by omega) (by omega)]
    exact intCmp_lawful.trans_lt _ _ _
  eq_left a b c := by
    let m := max a.scale (max b.scale c.scale)
    rw [decCmp_scale a b m (by omega) (by omega), decCmp_scale b c m (by omega) (by omega),
      decCmp_scale a c m (by omega) (by omega)]
    exact intCmp_lawful.eq_left _ _ _

theorem lawful_positionCmp : LawfulCmp positionCmp :=
  lawful_of_lawAt fun _ =>
    lawOn_then (f := strCmp) (u := Position.file)
      (g := fun x y => pairCmp (pairCmp natCmp natCmp) (pairCmp natCmp natCmp) x y)
      (v := fun p => (p.start, p.stop)) (lawAt_of_lawful lawful_strCmp _)
      (lawAt_of_lawful (lawful_pairCmp (lawful_pairCmp natCmp_lawful natCmp_lawful)
        (lawful_pairCmp natCmp_lawful natCmp_lawful)) _)

theorem lawful_kindCmp : LawfulCmp kindCmp := by
  apply lawful_of_lawAt
  intro a
  apply lawAt_tagged (tag := SymbolKind.tag)
  · intro x y h
    cases x <;> cases y <;> first | rfl | exact absurd rfl h
  · intro x y h
    cases x <;> cases y <;> first | rfl | (simp [kindCmp, natCmp, SymbolKind.tag] at h)
  · cases a with
    | normal =>
      refine (lawOn_comap (f := natCmp) (u := SymbolKind.tag) (lawAt_of_lawful natCmp_lawful _)).congr rfl ?_
      intro x y hx hy
      cases x <;> cases y <;> simp [SymbolKind.tag] at hx hy <;> rfl
    | «alias» =>
      refine (lawOn_comap (f := natCmp) (u := SymbolKind.tag) (lawAt_of_lawful natCmp_lawful _)).congr rfl ?_
      intro x y hx hy
      cases x <;> cases y <;> simp [SymbolKind.tag] at hx hy <;> rfl
    | «prefix» o =>
      refine (lawOn_comap (f := strCmp) (u := fun k => match k with | SymbolKind.prefix o => o | _ => [])
        (lawAt_of_lawful lawful_strCmp _)).congr rfl ?_
      intro x y hx hy
      cases x <;> cases y <;> simp [SymbolKind.tag] at hx hy <;> rfl
    | «infix» o p =>
      refine (lawOn_comap (f := pairCmp strCmp natCmp)
        (u := fun k => match k with | SymbolKind.infix o p => (o, p) | _ => ([], 0))
        (lawAt_of_lawful (lawful_pairCmp lawful_strCmp natCmp_lawful) _)).congr rfl ?_
      intro x y hx hy
      cases x <;> cases y <;> simp [SymbolKind.tag] at hx hy <;> rfl
    | suffix o =>
      refine (lawOn_comap (f := strCmp) (u := fun k => match k with | SymbolKind.suffix o => o | _ => [])
        (lawAt_of_lawful lawful_strCmp _)).congr rfl ?_
      intro x y hx hy
      cases x <;> cases y <;> simp [SymbolKind.tag] at hx hy <;> rfl

theorem lawful_symCmp : LawfulCmp symCmp :=
  lawful_comap (f := pairCmp (listCmp strCmp) (pairCmp strCmp (pairCmp kindCmp natCmp)))
    (lawful_pairCmp (lawful_listCmp lawful_strCmp) (lawful_pairCmp lawful_strCmp
      (lawful_pairCmp lawful_kindCmp natCmp_lawful)))
    (fun s : Sym => (s.nameSpace, s.name, s.kind, s.attributes))

/-! ### Expressions -/

theorem astsCmp_eq (a b : List AST) : astsCmp a b = listCmp astCmp a b := by
  induction a generalizing b with
  | nil => cases b <;> simp [astsCmp, listCmp]
  | cons x a ih => cases b <;> simp [astsCmp, listCmp, ih]

theorem paramsCmp_eq (a b : List Param) : paramsCmp a b = listCmp paramCmp a b := by
  induction a generalizing b with
  | nil => cases b <;> simp [paramsCmp, listCmp]
  | cons x a ih => cases b <;> simp [paramsCmp, listCmp, ih]

theorem optsCmp_eq (a b : List (AST × AST)) : optsCmp a b = listCmp (pairCmp astCmp astCmp) a b := by
  induction a generalizing b with
  | nil => cases b <;> simp [optsCmp, listCmp]
  | cons x a ih =>
    obtain ⟨k, v⟩ := x
    cases b with
    | nil => simp [optsCmp, listCmp]
    | cons y b => obtain ⟨l, w⟩ := y; simp [optsCmp, optCmp, listCmp, ih, pairCmp]

theorem astCmp_tag_ne (x y : AST) (h : x.tag ≠ y.tag) : astCmp x y = natCmp x.tag y.tag := by
  cases x <;> cases y <;> first | exact absurd rfl h | simp [astCmp]

theorem astCmp_eq_tag (x y : AST) (h : astCmp x y = .eq) : x.tag = y.tag := by
  by_contra hne
  rw [astCmp_tag_ne x y hne, natCmp_eq_iff] at h
  exact hne h

/-- Discharges the agreement of `astCmp` with the payload comparison inside one variant. -/
macro "tag_cases" : tactic => `(tactic| (
  intro x y hx hy
  cases x <;> simp [AST.tag] at hx
  cases y <;> simp [AST.tag] at hy
  simp [astCmp, astsCmp_eq, paramsCmp_eq, pairCmp]))

mutual
theorem law_ast : (a : AST) → LawAt astCmp a
  | .empty => lawAt_tagged astCmp_tag_ne astCmp_eq_tag <|
      (lawOn_comap (f := natCmp) (u := AST.tag) (lawAt_of_lawful natCmp_lawful _)).congr rfl
        (by tag_cases)
  | .program l => lawAt_tagged astCmp_tag_ne astCmp_eq_tag <|
      (lawOn_comap (f := listCmp astCmp) (u := fun a => match a with | .program l => l | _ => [])
        (law_asts l)).congr rfl (by tag_cases)
  | .function s ps => lawAt_tagged astCmp_tag_ne astCmp_eq_tag <|
      (lawOn_comap (f := pairCmp symCmp (listCmp paramCmp))
        (u := fun a => match a with | .function s ps => (s, ps) | _ => (s, []))
        (lawAt_pairCmp (x := (s, ps)) (lawAt_of_lawful lawful_symCmp _) (law_params ps))).congr rfl
          (by tag_cases)
  | .boolean b => lawAt_tagged astCmp_tag_ne astCmp_eq_tag <|
      (lawOn_comap (f := boolCmp) (u := fun a => match a with | .boolean b => b | _ => false)
        (lawAt_of_lawful lawful_boolCmp _)).congr rfl (by tag_cases)
  | .integer n => lawAt_tagged astCmp_tag_ne astCmp_eq_tag <|
      (lawOn_comap (f := intCmp) (u := fun a => match a with | .integer b => b | _ => 0)
        (lawAt_of_lawful intCmp_lawful _)).congr rfl (by tag_cases)
  | .decimal d => lawAt_tagged astCmp_tag_ne astCmp_eq_tag <|
      (lawOn_comap (f := decCmp) (u := fun a => match a with | .decimal b => b | _ => d)
        (lawAt_of_lawful lawful_decCmp _)).congr rfl (by tag_cases)
  | .symbol s => lawAt_tagged astCmp_tag_ne astCmp_eq_tag <|
      (lawOn_comap (f := symCmp) (u := fun a => match a with | .symbol b => b | _ => s)
        (lawAt_of_lawful lawful_symCmp _)).congr rfl (by tag_cases)
  | .string s => lawAt_tagged astCmp_tag_ne astCmp_eq_tag <|
      (lawOn_comap (f := strCmp) (u := fun a => match a with | .string b => b | _ => s)
        (lawAt_of_lawful lawful_strCmp _)).congr rfl (by tag_cases)
theorem law_param : (p : Param) → LawAt paramCmp p
  | .mk as os pos =>
    (lawOn_comap (f := pairCmp (listCmp astCmp) (pairCmp (listCmp (pairCmp astCmp astCmp)) positionCmp))
      (u := fun p : Param => (p.arguments, p.options, p.position)) (a := .mk as os pos)
      (lawAt_pairCmp (x := (as, os, pos)) (law_asts as)
        (lawAt_pairCmp (x := (os, pos)) (law_opts os) (lawAt_of_lawful lawful_positionCmp _)))).congr
      trivial (by
        intro x y _ _
        cases x; cases y
        simp [paramCmp, pairCmp, astsCmp_eq, optsCmp_eq, Param.arguments, Param.options, Param.position])
theorem law_asts : (l : List AST) → LawAt (listCmp astCmp) l
  | [] => lawAt_list_nil _
  | a :: l => lawAt_list_cons (law_ast a) (law_asts l)
theorem law_params : (l : List Param) → LawAt (listCmp paramCmp) l
  | [] => lawAt_list_nil _
  | a :: l => lawAt_list_cons (law_param a) (law_params l)
theorem law_opts : (l : List (AST × AST)) → LawAt (listCmp (pairCmp astCmp astCmp)) l
  | [] => lawAt_list_nil _
  | (k, v) :: l => lawAt_list_cons (lawAt_pairCmp (x := (k, v)) (law_ast k) (law_ast v)) (law_opts l)
end

/-! ### Equality -/

theorem listCmp_eq_iff {f : α → α → Ordering} (h : ∀ a b, f a b = .eq ↔ a = b) (a b : List α) :
    listCmp f a b = .eq ↔ a = b := by
  induction a generalizing b with
  | nil => cases b <;> simp [listCmp]
  | cons x a ih =>
    cases b with
    | nil => simp [listCmp]
    | cons y b => simp [listCmp, Ordering.then_eq_eq, h, ih]

theorem charCmp_eq_iff (a b : Char) : charCmp a b = .eq ↔ a = b := by
  simp [charCmp, Char.toNat_inj]

theorem strCmp_eq_iff (a b : Str) : strCmp a b = .eq ↔ a = b := listCmp_eq_iff charCmp_eq_iff a b

theorem boolCmp_eq_iff (a b : Bool) : boolCmp a b = .eq ↔ a = b := by
  cases a <;> cases b <;> simp [boolCmp]

theorem positionCmp_eq_iff (a b : Position) : positionCmp a b = .eq ↔ a = b := by
  cases a; cases b
  simp [positionCmp, pairCmp, Ordering.then_eq_eq, strCmp_eq_iff, Prod.ext_iff]

theorem kindCmp_eq_iff (a b : SymbolKind) : kindCmp a b = .eq ↔ a = b := by
  cases a <;> cases b <;> simp [kindCmp, Ordering.then_eq_eq, strCmp_eq_iff, SymbolKind.tag]

theorem symCmp_eq_iff (a b : Sym) : symCmp a b = .eq ↔ a = b := by
  cases a; cases b
  simp [symCmp, Ordering.then_eq_eq, strCmp_eq_iff, kindCmp_eq_iff, listCmp_eq_iff strCmp_eq_iff]

theorem decCmp_eq_iff (a b : Dec) : decCmp a b = .eq ↔ decEq a b = true := by
  rw [decCmp_scale a b (max a.scale b.scale) (by omega) (by omega), intCmp_eq_iff]
  unfold decEq
  split
  · rw [max_eq_left (by omega)]; simp
  · split
    · rw [max_eq_right (by omega)]; simp
    · have : a.scale = b.scale := by omega
      simp [this]

mutual
theorem astCmp_eq_iff : (a b : AST) → (astCmp a b = .eq ↔ astEq a b = true)
  | .empty, b => by cases b <;> simp [astCmp, astEq, AST.tag]
  | .program l, b => by
    cases b <;> simp [astCmp, astEq, AST.tag]
    exact astsCmp_eq_iff l _
  | .function s ps, b => by
    cases b <;> simp [astCmp, astEq, AST.tag, Ordering.then_eq_eq, symCmp_eq_iff]
    intro _
    exact paramsCmp_eq_iff ps _
  | .boolean _, b => by cases b <;> simp [astCmp, astEq, AST.tag, boolCmp_eq_iff]
  | .integer _, b => by cases b <;> simp [astCmp, astEq, AST.tag]
  | .decimal _, b => by cases b <;> simp [astCmp, astEq, AST.tag, decCmp_eq_iff]
  | .symbol _, b => by cases b <;> simp [astCmp, astEq, AST.tag, symCmp_eq_iff]
  | .string _, b => by cases b <;> simp [astCmp, astEq, AST.tag, strCmp_eq_iff]
theorem paramCmp_eq_iff : (a b : Param) → (paramCmp a b = .eq ↔ paramEq a b = true)
  | .mk a o p, .mk b q r => by
    simp only [paramCmp, paramEq, Ordering.then_eq_eq, Bool.and_eq_true, positionCmp_eq_iff,
      astsCmp_eq_iff a b, optsCmp_eq_iff o q, beq_iff_eq, and_assoc]
theorem astsCmp_eq_iff : (a b : List AST) → (astsCmp a b = .eq ↔ astsEq a b = true)
  | [], b => by cases b <;> simp [astsCmp, astsEq]
  | x :: a, b => by
    cases b with
    | nil => simp [astsCmp, astsEq]
    | cons y b =>
      simp [astsCmp, astsEq, Ordering.then_eq_eq, astCmp_eq_iff x y, astsCmp_eq_iff a b]
theorem paramsCmp_eq_iff : (a b : List Param) → (paramsCmp a b = .eq ↔ paramsEq a b = true)
  | [], b => by cases b <;> simp [paramsCmp, paramsEq]
  | x :: a, b => by
    cases b with
    | nil => simp [paramsCmp, paramsEq]
    | cons y b =>
      simp [paramsCmp, paramsEq, Ordering.then_eq_eq, paramCmp_eq_iff x y, paramsCmp_eq_iff a b]
theorem optsCmp_eq_iff : (a b : List (AST × AST)) → (optsCmp a b = .eq ↔ optsEq a b = true)
  | [], b => by cases b <;> simp [optsCmp, optsEq]
  | (k, v) :: a, b => by
    cases b with
    | nil => simp [optsCmp, optsEq]
    | cons y b =>
      obtain ⟨l, w⟩ := y
      simp [optsCmp, optsEq, optCmp, optEq, Ordering.then_eq_eq, astCmp_eq_iff k l, astCmp_eq_iff v w,
        optsCmp_eq_iff a b, and_assoc]
end

/-! ### C15 -/

/-- The number a decimal stands for. -/
def decVal (d : Dec) : ℚ := d.digits * (10 : ℚ) ^ (-d.scale)

/-- **C15** (order laws).  The ordering on expressions is reflexive, antisymmetric up to `Equal`,
transitive and total (the outcome for `(b, a)` is the reverse of that for `(a, b)`), for all
expressions of any depth. -/
theorem C15_order_lawful : LawfulCmp astCmp := lawful_of_lawAt law_ast

/-- **C15** (agrees with equality). -/
theorem C15_equal_iff_eq (a b : AST) : astCmp a b = .eq ↔ astEq a b = true := astCmp_eq_iff a b

/-- Equality of expressions is an equivalence relation. -/
theorem C15_eq_equivalence :
    (∀ a, astEq a a = true) ∧ (∀ a b, astEq a b = true → astEq b a = true) ∧
      ∀ a b c, astEq a b = true → astEq b c = true → astEq a c = true := by
  have L := C15_order_lawful
  refine ⟨fun a => ?_, fun a b => ?_, fun a b c => ?_⟩
  · rw [← astCmp_eq_iff]; exact L.refl a
  · rw [← astCmp_eq_iff, ← astCmp_eq_iff, L.swap a b]; intro h; rw [h]; rfl
  · rw [← astCmp_eq_iff, ← astCmp_eq_iff, ← astCmp_eq_iff]
    intro h1 h2; rw [L.eq_left _ _ _ h1]; exact h2

/-- **C15** (decimals).  Decimals compare as the numbers they stand for. -/
theorem C15_decimal_by_value (a b : Dec) :
    (decCmp a b = .lt ↔ decVal a < decVal b) ∧ (decCmp a b = .eq ↔ decVal a = decVal b) := by
  have key : ∀ d : Dec, ∀ m : Int, d.scale ≤ m →
      ((d.digits * 10 ^ (m - d.scale).toNat : Int) : ℚ) = decVal d * (10 : ℚ) ^ m := by
    intro d m h
    have : (m - d.scale).toNat = m - d.scale := Int.toNat_of_nonneg (by omega)
    unfold decVal
    push_cast
    rw [← zpow_natCast, this, mul_assoc, ← zpow_add₀ (by norm_num)]
    ring_nf
  have hp : (0 : ℚ) < 10 ^ (max a.scale b.scale) := by
    exact zpow_pos (by norm_num) _
  rw [decCmp_scale a b (max a.scale b.scale) (by omega) (by omega), intCmp_lt_iff, intCmp_eq_iff,
    ← Int.cast_lt (R := ℚ), ← Int.cast_inj (α := ℚ), key a _ (by omega), key b _ (by omega)]
  exact ⟨mul_lt_mul_iff_left₀ hp, mul_left_inj' hp.ne'⟩

/-- **C15** (variants).  Expressions of different kinds are ordered by kind: booleans before integers
before decimals before symbols before strings, calls before all of those. -/
theorem C15_kinds_first (a b : AST) (h : a.tag < b.tag) : astCmp a b = .lt := by
  rw [astCmp_tag_ne _ _ (by omega)]; exact natCmp_lt_iff.2 h

/-- Non-trivial instances: `1.50 = 1.5` as map keys although represented differently, `1.5 < 1.51`,
and an integer sorts before every decimal. -/
example : astEq (.decimal ⟨150, 2⟩) (.decimal ⟨15, 1⟩) = true := by decide
example : astCmp (.decimal ⟨15, 1⟩) (.decimal ⟨151, 2⟩) = .lt := by decide
example : astCmp (.integer 7) (.decimal ⟨15, 1⟩) = .lt := C15_kinds_first _ _ (by decide)

end SM.Props
