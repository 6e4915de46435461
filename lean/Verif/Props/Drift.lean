import Verif.Props.RoundTrip
import Verif.Props.Leading
/-
C86: what happens when a printed expression is read and printed again.
-/
namespace SM.Props
open SM SM.Peg

variable {u : Uni}

/-! ### Expressions of `+ - * / ^`, signs and factorials -/

/-- The operators for which the printing precedence follows the way they group. -/
def schoolOps : List Op := [.plus, .minus, .star, .slash, .caret]

/-- `×` and `÷` do not occur. -/
def Arith.School : Arith → Prop
  | .pre _ _ x | .suf _ _ x => x.School
  | .bin _ o l r => o ∈ schoolOps ∧ l.School ∧ r.School
  | _ => True

/-- How many prefix and suffix operators are applied to an infix expression. -/
def Arith.loose : Arith → Nat
  | .pre _ _ x | .suf _ _ x => x.loose + if x.op.isSome then 1 else 0
  | .bin _ _ l r => l.loose + r.loose
  | _ => 0

theorem tighter {o p : Op} (ho : o ∈ schoolOps) (hp : p ∈ schoolOps) (h : o.binds.1 ≤ p.binds.1) :
    o.name.2 ≤ p.name.2 := by
  have key : ∀ o ∈ schoolOps, ∀ p ∈ schoolOps, o.binds.1 ≤ p.binds.1 → o.name.2 ≤ p.name.2 := by decide
  exact key o ho p hp h

/-- `t` comes from `s` by taking away `n` pairs of parentheses. -/
structure Sheds (s t : Str) (n : Nat) : Prop where
  sub : t.Sublist s
  same : s.filter (fun c => c ≠ '(' && c ≠ ')') = t.filter (fun c => c ≠ '(' && c ≠ ')')
  opening : s.count '(' = t.count '(' + n
  closing : s.count ')' = t.count ')' + n

theorem Sheds.refl (s : Str) : Sheds s s 0 := ⟨List.Sublist.refl _, rfl, rfl, rfl⟩

theorem Sheds.append {s t s' t' : Str} {n n' : Nat} (h : Sheds s t n) (h' : Sheds s' t' n') :
    Sheds (s ++ s') (t ++ t') (n + n') := by
  refine ⟨h.sub.append h'.sub, ?_, ?_, ?_⟩
  · rw [List.filter_append, List.filter_append, h.same, h'.same]
  · rw [List.count_append, List.count_append, h.opening, h'.opening]; omega
  · rw [List.count_append, List.count_append, h.closing, h'.closing]; omega

theorem Sheds.paren {s t : Str} {n : Nat} (h : Sheds s t n) : Sheds ('(' :: (s ++ c!")")) ('(' :: (t ++ c!")")) n := by
  have := ((Sheds.refl c!"(").append h).append (Sheds.refl c!")")
  simpa using this

theorem Sheds.drop {s t : Str} {n : Nat} (h : Sheds s t n) : Sheds ('(' :: (s ++ c!")")) t (n + 1) := by
  refine ⟨.cons _ (h.sub.trans (List.sublist_append_left _ _)), ?_, ?_, ?_⟩
  · rw [← h.same]
    simp
  · simp [List.count_append, h.opening, Nat.add_assoc]
  · simp [List.count_append, h.closing, Nat.add_assoc]

/-- Nothing is taken away if nothing is counted. -/
theorem Sheds.eq {s t : Str} (h : Sheds s t 0) : t = s := by
  refine h.sub.eq_of_length ?_
  have key : ∀ l : Str, l.length = (l.filter fun c => c ≠ '(' && c ≠ ')').length + l.count '(' + l.count ')' := by
    intro l
    induction l with
    | nil => rfl
    | cons c l ih =>
      by_cases h1 : c = '('
      · subst h1
        simp [ih]; omega
      · by_cases h2 : c = ')'
        · subst h2
          simp [ih]; omega
        · simp [ih, h1, h2]; omega
  rw [key s, key t, h.same, h.opening, h.closing]
  rfl

/-! ### Terms with the expressions they are read as -/

/-- A term, and what its operand is read as. -/
abbrev RTm := Tm × Arith

/-- Factorial signs. -/
def bangA : Nat → Arith → Arith
  | 0, a => a
  | 1, a => .suf noPos false a
  | k + 2, a => bangA k (.suf noPos true a)

/-- Prefixes. -/
def preA : List Pre → Arith → Arith
  | [], a => a
  | c :: ps, a => .pre noPos c (preA ps a)

/-- What a term is read as. -/
def RTm.arith (p : RTm) : Arith := preA p.1.ps (bangA p.1.k p.2)

/-- What terms and operators are read as. -/
def treeA : OpTree RTm Op → Arith
  | .leaf p => p.arith
  | .node l o r => .bin noPos o (treeA l) (treeA r)

theorem bangA_val : ∀ k a, (bangA k a).val = bangVal k a.val
  | 0, _ => rfl
  | 1, _ => rfl
  | k + 2, a => by rw [bangA, bangA_val k, bangVal, Arith.val]

theorem preA_val (ps : List Pre) (a : Arith) : (preA ps a).val = preVal ps a.val := by
  induction ps with
  | nil => rfl
  | cons c ps ih => rw [preA, Arith.val, ih, preVal]

theorem bangA_text : ∀ k a, (bangA k a).text = a.text ++ List.replicate k '!'
  | 0, a => by simp [bangA]
  | 1, a => rfl
  | k + 2, a => by
    rw [bangA, bangA_text k, Arith.text, List.append_assoc]
    rfl

theorem preA_text (ps : List Pre) (a : Arith) : (preA ps a).text = ps.map Pre.char ++ a.text := by
  induction ps with
  | nil => rfl
  | cons c ps ih => rw [preA, Arith.text, ih]; rfl

theorem bangA_ok : ∀ k (a : Arith), a.Ok u → (bangA k a).Ok u
  | 0, _, h => h
  | 1, _, h => h
  | k + 2, a, h => bangA_ok k (.suf noPos true a) h

theorem bangA_school : ∀ k (a : Arith), a.School → (bangA k a).School
  | 0, _, h => h
  | 1, _, h => h
  | k + 2, a, h => bangA_school k (.suf noPos true a) h

theorem preA_ok {ps : List Pre} {a : Arith} (h : a.Ok u) (hp : .neg ∉ ps) : (preA ps a).Ok u := by
  induction ps with
  | nil => exact h
  | cons c ps ih =>
    simp only [List.mem_cons, not_or] at hp
    exact ⟨fun e => hp.1 e.symm, ih hp.2⟩

theorem preA_school {ps : List Pre} {a : Arith} (h : a.School) : (preA ps a).School := by
  induction ps with
  | nil => exact h
  | cons c ps ih => exact ih

theorem bangA_op : ∀ k (a : Arith), k ≠ 0 → (bangA k a).op = none
  | 0, _, h => absurd rfl h
  | 1, _, _ => rfl
  | 2, _, _ => rfl
  | k + 3, a, _ => bangA_op (k + 1) (.suf noPos true a) (by omega)

theorem bangA_loose : ∀ k (a : Arith), (bangA k a).loose = a.loose + if k ≠ 0 ∧ a.op.isSome then 1 else 0
  | 0, a => by simp [bangA]
  | 1, a => by simp [bangA, Arith.loose]
  | k + 2, a => by
    rw [bangA, bangA_loose k, Arith.loose]
    have : (Arith.suf noPos true a).op = none := rfl
    by_cases h : a.op.isSome <;> simp [h, this]

theorem preA_loose (ps : List Pre) (a : Arith) :
    (preA ps a).loose = a.loose + if ps ≠ [] ∧ a.op.isSome then 1 else 0 := by
  induction ps with
  | nil => simp [preA]
  | cons c ps ih =>
    rw [preA, Arith.loose, ih]
    cases ps with
    | nil => by_cases h : a.op.isSome <;> simp [h, preA]
    | cons d ps =>
      have : (preA (d :: ps) a).op = none := rfl
      by_cases h : a.op.isSome <;> simp [h, this]

/-- The term has a prefix or a suffix. -/
def RTm.signed (p : RTm) : Prop := p.1.ps ≠ [] ∨ p.1.k ≠ 0

instance (p : RTm) : Decidable p.signed := inferInstanceAs (Decidable (_ ∨ _))

theorem arith_loose (p : RTm) : p.arith.loose = p.2.loose + if p.signed ∧ p.2.op.isSome then 1 else 0 := by
  obtain ⟨⟨ps, n, v, k⟩, c⟩ := p
  simp only [RTm.arith, RTm.signed, preA_loose, bangA_loose]
  by_cases hk : k = 0
  · subst hk
    by_cases h : c.op.isSome <;> by_cases h' : ps = [] <;> simp [bangA, h, h']
  · simp [hk, bangA_op k c hk]

theorem arith_op (p : RTm) (h : p.signed) : p.arith.op = none := by
  obtain ⟨⟨ps, n, v, k⟩, c⟩ := p
  cases ps with
  | nil => exact bangA_op k c (h.resolve_left fun h => h rfl)
  | cons d ps => rfl

theorem arith_unsigned (p : RTm) (h : ¬ p.signed) : p.arith = p.2 ∧ p.1.ps = [] ∧ p.1.k = 0 := by
  obtain ⟨⟨ps, n, v, k⟩, c⟩ := p
  simp only [RTm.signed, not_or, not_not] at h
  obtain ⟨rfl, rfl⟩ := h
  exact ⟨rfl, rfl, rfl⟩

theorem arith_text (p : RTm) : p.arith.text = p.1.ps.map Pre.char ++ (p.2.text ++ List.replicate p.1.k '!') := by
  rw [RTm.arith, preA_text, bangA_text]

theorem read_text (p : RTm) : p.1.term.text = p.1.ps.map Pre.char ++ (p.1.n.text ++ List.replicate p.1.k '!') := by
  rw [Tm.term, STerm.text, bangs_text]

/-- The term is written as it was printed: names and numbers as they are, infix expressions in parentheses. -/
structure RTm.Ok (u : Uni) (p : RTm) : Prop where
  val : p.1.v = p.2.val
  ok : p.2.Ok u
  pre : .neg ∉ p.1.ps
  school : p.2.School
  plain : p.2.op = none → p.1.n.text = p.2.text ∧ p.2.loose = 0
  paren : p.2.op.isSome → ∃ s, p.1.n.text = '(' :: (s ++ c!")") ∧ Sheds s p.2.text p.2.loose

/-- A sequence of terms and operators. -/
abbrev RTms := RTm × List (Op × RTm)

/-- The terms alone. -/
def RTms.tms (f : RTms) : Tms := (f.1.1, f.2.map fun s => (s.1, s.2.1))

/-- All terms are as printed. -/
def RTms.Ok (u : Uni) (f : RTms) : Prop := f.1.Ok u ∧ ∀ s ∈ f.2, s.1 ∈ schoolOps ∧ s.2.Ok u

/-- One of two neighbours makes the term be printed in parentheses. -/
def Guarded (lo ro : Option Op) (p : RTm) : Prop :=
  p.2.op.isSome → (∃ o, lo = some o ∧ Wrapped o p.2) ∨ ∃ o, ro = some o ∧ Wrapped o p.2

/-- This holds for all terms of a sequence. -/
def AllGuarded (lo : Option Op) (p : RTm) (l : List (Op × RTm)) (ro : Option Op) : Prop :=
  match l with
  | [] => Guarded lo ro p
  | (o, x) :: l => Guarded lo (some o) p ∧ AllGuarded (some o) x l ro

theorem guarded_append {lo ro : Option Op} {p x : RTm} {l m : List (Op × RTm)} {o : Op} :
    AllGuarded lo p (l ++ (o, x) :: m) ro ↔ AllGuarded lo p l (some o) ∧ AllGuarded (some o) x m ro := by
  induction l generalizing lo p with
  | nil => rfl
  | cons s l ih => simp only [List.cons_append, AllGuarded, ih, and_assoc]

theorem AllGuarded.mono {lo ro lo' ro' : Option Op} {p : RTm} {l : List (Op × RTm)} (h : AllGuarded lo p l ro)
    (h1 : lo = none ∨ lo = lo') (h2 : ro = none ∨ ro = ro') : AllGuarded lo' p l ro' := by
  induction l generalizing lo lo' p with
  | nil =>
    intro hp
    rcases h hp with ⟨o, e, hw⟩ | ⟨o, e, hw⟩
    · subst e; exact .inl ⟨o, (h1.resolve_left nofun).symm, hw⟩
    · subst e; exact .inr ⟨o, (h2.resolve_left nofun).symm, hw⟩
  | cons s l ih =>
    refine ⟨?_, ih h.2 (.inr rfl)⟩
    intro hp
    rcases h.1 hp with ⟨o, e, hw⟩ | hw
    · subst e; exact .inl ⟨o, (h1.resolve_left nofun).symm, hw⟩
    · exact .inr hw

/-! ### Grouping -/

theorem root_least {ι : Type} (t : OpTree ι Op) (h : Proper t) {r : Op} (hr : t.root = some r) :
    ∀ s ∈ t.steps.2, r.binds.1 ≤ s.1.binds.1 := by
  induction t generalizing r with
  | leaf x => cases hr
  | node f o g hf hg =>
    cases hr
    obtain ⟨h1, h2, p, hp, h3, h4⟩ := h
    cases hp
    intro s hs
    simp only [OpTree.steps, List.mem_append, List.mem_cons] at hs
    rcases hs with hs | rfl | hs
    · cases hq : f.root with
      | none =>
        cases f with
        | leaf => simp [OpTree.steps] at hs
        | node => cases hq
      | some q =>
        obtain ⟨_, e, hl⟩ := h3 q hq
        cases e
        have := hf h1 hq s hs
        rcases hl with hl | hl <;> omega
    · exact Nat.le_refl _
    · cases hq : g.root with
      | none =>
        cases g with
        | leaf => simp [OpTree.steps] at hs
        | node => cases hq
      | some q =>
        obtain ⟨_, e, hl⟩ := h4 q hq
        cases e
        have := hg h2 hq s hs
        rcases hl with hl | hl <;> omega

/-- Operands that are infix expressions are printed in parentheses. -/
def Held : OpTree RTm Op → Prop
  | .leaf _ => True
  | .node f o g => (∀ p, f = .leaf p → p.2.op.isSome → Wrapped o p.2) ∧ (∀ p, g = .leaf p → p.2.op.isSome → Wrapped o p.2) ∧
      Held f ∧ Held g

theorem Wrapped.mono {o p : Op} {x : Arith} (h : Wrapped o x) (hp : o.name.2 ≤ p.name.2) : Wrapped p x := by
  obtain ⟨q, e, hq⟩ := h
  exact ⟨q, e, by omega⟩

theorem held (t : OpTree RTm Op) (h : Proper t) (hs : ∀ s ∈ t.steps.2, s.1 ∈ schoolOps)
    {lo ro : Option Op} (hl : ∀ o, lo = some o → ∀ r, t.root = some r → o.name.2 ≤ r.name.2)
    (hro : ∀ o, ro = some o → ∀ r, t.root = some r → o.name.2 ≤ r.name.2) (hb : AllGuarded lo t.steps.1 t.steps.2 ro) : Held t := by
  induction t generalizing lo ro with
  | leaf x => trivial
  | node f o g hf hg =>
    obtain ⟨h1, h2, p, hp, h3, h4⟩ := h
    cases hp
    simp only [OpTree.steps] at hs hb
    obtain ⟨b1, b2⟩ := guarded_append.1 hb
    have so : o ∈ schoolOps := hs (o, g.steps.1) (by simp)
    have sf : ∀ s ∈ f.steps.2, s.1 ∈ schoolOps := fun s h => hs s (by simp [h])
    have sg : ∀ s ∈ g.steps.2, s.1 ∈ schoolOps := fun s h => hs s (by simp [h])
    have rooted : ∀ (t : OpTree RTm Op) (r : Op), (∀ s ∈ t.steps.2, s.1 ∈ schoolOps) → t.root = some r →
        r ∈ schoolOps := by
      intro t r ht hr
      cases t with
      | leaf => cases hr
      | node a p b => cases hr; exact ht (r, b.steps.1) (by simp [OpTree.steps])
    have of : ∀ r, f.root = some r → o.name.2 ≤ r.name.2 := by
      intro r hr
      obtain ⟨_, e, hl⟩ := h3 r hr
      cases e
      exact tighter so (rooted f r sf hr) (by rcases hl with hl | hl <;> omega)
    have og : ∀ r, g.root = some r → o.name.2 ≤ r.name.2 := by
      intro r hr
      obtain ⟨_, e, hl⟩ := h4 r hr
      cases e
      exact tighter so (rooted g r sg hr) (by rcases hl with hl | hl <;> omega)
    refine ⟨?_, ?_, ?_, ?_⟩
    · rintro p rfl hp
      rcases b1 hp with ⟨q, e, hw⟩ | ⟨q, e, hw⟩
      · exact hw.mono (hl q e o rfl)
      · cases e; exact hw
    · rintro p rfl hp
      rcases b2 hp with ⟨q, e, hw⟩ | ⟨q, e, hw⟩
      · cases e; exact hw
      · exact hw.mono (hro q e o rfl)
    · refine hf h1 sf (fun q e r hr => ?_) (fun q e r hr => ?_) b1
      · exact Nat.le_trans (hl q e o rfl) (of r hr)
      · cases e; exact of r hr
    · refine hg h2 sg (fun q e r hr => ?_) (fun q e r hr => ?_) b2
      · cases e; exact og r hr
      · exact Nat.le_trans (hro q e o rfl) (og r hr)

/-! ### The text after reading and printing -/

/-- How an operand of `o` is printed. -/
def inside (o : Op) (x : Arith) : Str := if Wrapped o x then '(' :: (x.text ++ c!")") else x.text

/-- No letter. -/
def NoLetter (c : Char) : Prop := ∀ k ∈ statementWords, c ∉ k

/-- The texts agree as long as a word goes on. -/
def SameWord (s t : Str) : Prop := ∃ a z z', s = a ++ z ∧ t = a ++ z' ∧ ∀ c ∈ z'.head?, NoLetter c

theorem SameWord.append {s t w w' : Str} (h : SameWord s t) (hw : ∀ c ∈ w'.head?, NoLetter c) : SameWord (s ++ w) (t ++ w') := by
  obtain ⟨a, z, z', rfl, rfl, hz⟩ := h
  refine ⟨a, z ++ w, z' ++ w', by simp, by simp, ?_⟩
  cases z' with
  | nil => exact hw
  | cons c z' => exact hz

theorem SameWord.wordless {s t : Str} (h : SameWord s t) (hs : Wordless s) : Wordless t := by
  obtain ⟨a, z, z', rfl, rfl, hz⟩ := h
  intro k hk
  replace hs := hs k hk
  replace hz : ∀ c ∈ z'.head?, c ∉ k := fun c hc => hz c hc k hk
  clear hk
  induction a generalizing k with
  | nil =>
    cases k with
    | nil => cases z <;> cases hs
    | cons d k =>
      cases z' with
      | nil => rfl
      | cons c z' =>
        have : d ≠ c := by rintro rfl; exact hz d rfl (by simp)
        simp [strip, this]
  | cons b a ih =>
    cases k with
    | nil => cases hs
    | cons d k =>
      rw [List.cons_append, strip] at hs ⊢
      split
      · rw [if_pos ‹_›] at hs
        exact ih k hs fun c hc h => hz c hc (by simp [h])
      · rfl

theorem op_noLetter (o : Op) (s : Str) : ∀ c ∈ (o.text ++ s).head?, NoLetter c := by
  have key : ∀ c ∈ ['+', '-', '*', '×', '/', '÷', '^', '.'], NoLetter c := by unfold NoLetter; decide
  cases o <;> exact fun c hc => by cases hc; exact key _ (by simp)

theorem leaf_shown {p : RTm} (h : p.Ok u) (o : Op) (hw : p.2.op.isSome → Wrapped o p.2) :
    Sheds p.1.term.text (inside o p.arith) p.arith.loose ∧
      ((p.2.op.isSome → p.1.k = 0) → SameWord p.1.term.text (inside o p.arith)) := by
  have no : ∀ x : Arith, x.op = none → ¬ Wrapped o x := by
    rintro x hx ⟨q, e, _⟩
    rw [hx] at e; cases e
  rw [read_text, arith_loose]
  by_cases hs : p.signed
  · have hx := arith_op p hs
    rw [inside, if_neg (no _ hx), arith_text]
    cases hp : p.2.op with
    | none =>
      obtain ⟨h1, h2⟩ := h.plain hp
      rw [h1, h2]
      refine ⟨by simpa using Sheds.refl _, fun _ => ⟨_, [], [], (List.append_nil _).symm, (List.append_nil _).symm, nofun⟩⟩
    | some q =>
      obtain ⟨s, h1, h2⟩ := h.paren (by rw [hp]; rfl)
      rw [h1]
      constructor
      · rw [if_pos ⟨hs, rfl⟩]
        have := (Sheds.refl (p.1.ps.map Pre.char)).append (h2.drop.append (Sheds.refl (List.replicate p.1.k '!')))
        simpa using this
      · intro hk
        have hps : p.1.ps ≠ [] := hs.resolve_right fun h => h (hk rfl)
        refine ⟨[], _, _, rfl, rfl, ?_⟩
        cases hc : p.1.ps with
        | nil => exact absurd hc hps
        | cons c ps =>
          intro d hd
          cases hd
          have key : ∀ c : Pre, NoLetter c.char := by
            have : ∀ c ∈ ['!', '¬', '+', '-', '*'], NoLetter c := by unfold NoLetter; decide
            intro c
            cases c <;> exact this _ (by decide)
          exact key c
  · obtain ⟨h1, h2, h3⟩ := arith_unsigned p hs
    rw [h1, h2, h3, if_neg fun h => hs h.1]
    simp only [List.map_nil, List.nil_append, List.replicate_zero, List.append_nil, Nat.add_zero]
    cases hp : p.2.op with
    | none =>
      obtain ⟨h1, h2⟩ := h.plain hp
      rw [h1, h2, inside, if_neg (no _ hp)]
      exact ⟨Sheds.refl _, fun _ => ⟨_, [], [], (List.append_nil _).symm, (List.append_nil _).symm, nofun⟩⟩
    | some q =>
      have hq : p.2.op.isSome := by rw [hp]; rfl
      obtain ⟨s, h1, h2⟩ := h.paren hq
      rw [h1, inside, if_pos (hw hq)]
      refine ⟨h2.paren, fun _ => ⟨[], _, _, rfl, rfl, ?_⟩⟩
      intro d hd
      cases hd
      unfold NoLetter
      decide

/-- The text of a sequence. -/
def RTms.text (f : RTms) : Str := f.tms.expr.text

theorem text_node (f g : OpTree RTm Op) (o : Op) :
    RTms.text (OpTree.node f o g).steps = RTms.text f.steps ++ (o.text ++ RTms.text g.steps) := by
  have : RTms.tms (OpTree.node f o g).steps = (RTms.tms f.steps).append o (RTms.tms g.steps) := by
    simp [RTms.tms, OpTree.steps, Tms.append]
  rw [RTms.text, this, append_text]
  rfl

theorem tree_shown (t : OpTree RTm Op) (h : Proper t) (hk : RTms.Ok u t.steps) (hh : Held t) :
    (t.root.isSome → Sheds (RTms.text t.steps) (treeA t).text (treeA t).loose ∧
      ((t.steps.1.2.op.isSome → t.steps.1.1.k = 0) → SameWord (RTms.text t.steps) (treeA t).text)) ∧
    ∀ o : Op, (∀ p, t = .leaf p → p.2.op.isSome → Wrapped o p.2) → (∀ r, t.root = some r → o.name.2 ≤ r.name.2) →
      Sheds (RTms.text t.steps) (inside o (treeA t)) (treeA t).loose ∧
      ((t.steps.1.2.op.isSome → t.steps.1.1.k = 0) → SameWord (RTms.text t.steps) (inside o (treeA t))) := by
  induction t with
  | leaf p =>
    refine ⟨nofun, fun o hw _ => ?_⟩
    have : RTms.text (OpTree.leaf p : OpTree RTm Op).steps = p.1.term.text := by
      rw [RTms.text, expr_text]
      simp [OpTree.steps, RTms.tms, stepsOf, stepsText]
    rw [this]
    exact leaf_shown hk.1 o (hw p rfl)
  | node f o g hf hg =>
    obtain ⟨h1, h2, p, hp, h3, h4⟩ := h
    cases hp
    obtain ⟨w1, w2, w3, w4⟩ := hh
    simp only [OpTree.steps, RTms.Ok] at hk
    have so := (hk.2 (o, g.steps.1) (by simp)).1
    have kf : RTms.Ok u f.steps := ⟨hk.1, fun s h => hk.2 s (by simp [h])⟩
    have kg : RTms.Ok u g.steps := ⟨(hk.2 (o, g.steps.1) (by simp)).2, fun s h => hk.2 s (by simp [h])⟩
    have rooted : ∀ (t : OpTree RTm Op) (r : Op), RTms.Ok u t.steps → t.root = some r →
        r ∈ schoolOps := by
      intro t r ht hr
      cases t with
      | leaf => cases hr
      | node a p b => cases hr; exact (ht.2 (r, b.steps.1) (by simp [OpTree.steps])).1
    have of : ∀ r, f.root = some r → o.name.2 ≤ r.name.2 := by
      intro r hr
      obtain ⟨_, e, hl⟩ := h3 r hr
      cases e
      exact tighter so (rooted f r kf hr) (by rcases hl with hl | hl <;> omega)
    have og : ∀ r, g.root = some r → o.name.2 ≤ r.name.2 := by
      intro r hr
      obtain ⟨_, e, hl⟩ := h4 r hr
      cases e
      exact tighter so (rooted g r kg hr) (by rcases hl with hl | hl <;> omega)
    obtain ⟨a1, a2⟩ := (hf h1 kf w3).2 o w1 of
    obtain ⟨b1, b2⟩ := (hg h2 kg w4).2 o w2 og
    have main : Sheds (RTms.text (OpTree.node f o g).steps) (treeA (.node f o g)).text (treeA (.node f o g)).loose ∧
        (((OpTree.node f o g).steps.1.2.op.isSome → (OpTree.node f o g).steps.1.1.k = 0) →
          SameWord (RTms.text (OpTree.node f o g).steps) (treeA (.node f o g)).text) := by
      rw [text_node]
      have : (treeA (.node f o g)).text = inside o (treeA f) ++ (o.text ++ inside o (treeA g)) := rfl
      rw [this]
      constructor
      · have := a1.append ((Sheds.refl o.text).append b1)
        simpa [treeA, Arith.loose] using this
      · intro hk
        exact (a2 hk).append (op_noLetter o _)
    refine ⟨fun _ => main, fun q _ hq => ?_⟩
    have : ¬ Wrapped q (treeA (.node f o g)) := by
      rintro ⟨r, e, hr⟩
      cases e
      have := hq o rfl
      omega
    rw [inside, if_neg this]
    exact main

theorem treeA_facts (t : OpTree RTm Op) (hk : RTms.Ok u t.steps) :
    (treeA t).val = treeVal (OpTree.map Prod.fst t) ∧ (treeA t).Ok u ∧ (treeA t).School := by
  induction t with
  | leaf p =>
    refine ⟨?_, preA_ok (bangA_ok _ _ hk.1.ok) hk.1.pre, preA_school (bangA_school _ _ hk.1.school)⟩
    have hv : p.1.v = p.2.val := hk.1.val
    rw [treeA, RTm.arith, preA_val, bangA_val, ← hv]
    rfl
  | node f o g hf hg =>
    simp only [OpTree.steps, RTms.Ok] at hk
    have so := (hk.2 (o, g.steps.1) (by simp)).1
    have kf : RTms.Ok u f.steps := ⟨hk.1, fun s h => hk.2 s (by simp [h])⟩
    have kg : RTms.Ok u g.steps := ⟨(hk.2 (o, g.steps.1) (by simp)).2, fun s h => hk.2 s (by simp [h])⟩
    obtain ⟨a1, a2, a3⟩ := hf kf
    obtain ⟨b1, b2, b3⟩ := hg kg
    refine ⟨?_, ⟨?_, a2, b2⟩, so, a3, b3⟩
    · rw [treeA, Arith.val, a1, b1]; rfl
    · rintro rfl
      exact absurd so (show Op.dot ∉ schoolOps by decide)

/-- The terms of a printed form, with what their operands are read as. -/
structure Parts (u : Uni) (e : Arith) (f : RTms) : Prop where
  tms : f.tms = e.tms
  ok : f.Ok u
  beside : AllGuarded none f.1 f.2 none
  first : f.1.2.op.isSome → f.1.1.k = 0

/-- What is read, from the terms. -/
theorem parts_again {e : Arith} {f : RTms} (h : Parts u e f) :
    (treeA (group f.1 f.2)).val = e.tms.read ∧ (treeA (group f.1 f.2)).Ok u ∧ (treeA (group f.1 f.2)).School ∧
      Sheds e.text (treeA (group f.1 f.2)).text (treeA (group f.1 f.2)).loose ∧ SameWord e.text (treeA (group f.1 f.2)).text ∧
      ∀ o, e.op = some o → ∃ r, (treeA (group f.1 f.2)).op = some r ∧ r.name.2 ≤ o.name.2 := by
  obtain ⟨hp, hs⟩ := group_spec f.1 f.2
  have hk : RTms.Ok u (group f.1 f.2).steps := by rw [hs]; exact h.ok
  have hh : Held (group f.1 f.2) := held _ hp (by rw [hs]; exact fun s h' => (h.ok.2 s h').1) (lo := none) (ro := none) nofun nofun
    (by rw [hs]; exact h.beside)
  obtain ⟨h1, h2, h3⟩ := treeA_facts _ hk
  have ht : e.text = RTms.text f := by rw [RTms.text, h.tms, tms_text]
  refine ⟨?_, h2, h3, ?_⟩
  · rw [h1, group_map, Tms.read, ← h.tms]
    rfl
  · have hsf : (group f.1 f.2).steps = f := hs
    cases hr : (group f.1 f.2).root with
    | some r =>
      obtain ⟨a, b⟩ := (tree_shown _ hp hk hh).1 (by rw [hr]; rfl)
      rw [hsf] at a b
      rw [ht]
      refine ⟨a, b h.first, ?_⟩
      intro o ho
      have hop : (treeA (group f.1 f.2)).op = some r := by
        cases hg : group f.1 f.2 with
        | leaf => rw [hg] at hr; cases hr
        | node a q b => rw [hg] at hr; cases hr; rfl
      refine ⟨r, hop, ?_⟩
      have hmem : ∃ x, (o, x) ∈ f.2 := by
        cases e with
        | bin pos o' l r =>
          cases ho
          have := congrArg Prod.snd h.tms
          have hm : ∃ x, (o, x) ∈ (RTms.tms f).2 := by
            rw [this]
            exact ⟨_, List.mem_append_right _ (List.mem_cons_self ..)⟩
          obtain ⟨x, hx⟩ := hm
          obtain ⟨s, hs1, hs2⟩ := List.mem_map.1 hx
          cases hs2
          exact ⟨_, hs1⟩
        | _ => cases ho
      obtain ⟨x, hx⟩ := hmem
      have hle := root_least _ hp hr (o, x) (by rw [hsf]; exact hx)
      refine tighter ?_ (h.ok.2 _ hx).1 hle
      cases hg : group f.1 f.2 with
      | leaf => rw [hg] at hr; cases hr
      | node a q b =>
        rw [hg] at hr hsf
        cases hr
        have hm : (r, b.steps.1) ∈ f.2 := by rw [← hsf]; simp [OpTree.steps]
        exact (h.ok.2 _ hm).1
    | none =>
      cases hg : group f.1 f.2 with
      | node => rw [hg] at hr; cases hr
      | leaf p =>
        have hf : f = (p, []) := by rw [← hsf, hg]; rfl
        subst hf
        have hop : p.2.op = none := by
          cases ho : p.2.op with
          | none => rfl
          | some q =>
            have hb := h.beside
            rcases hb (by rw [ho]; rfl) with ⟨_, e, _⟩ | ⟨_, e, _⟩ <;> cases e
        have htx : RTms.text (p, []) = p.1.term.text := by
          rw [RTms.text, expr_text]
          simp [RTms.tms, stepsOf, stepsText]
        obtain ⟨h1, h2⟩ := h.ok.1.plain hop
        have h1 : p.1.n.text = p.2.text := h1
        have e1 : (treeA (.leaf p)).text = e.text := by
          rw [ht, htx, treeA, arith_text, read_text, h1]
        have e2 : (treeA (.leaf p)).loose = 0 := by
          have h2 : p.2.loose = 0 := h2
          rw [treeA, arith_loose, h2, hop]
          simp
        rw [e1, e2]
        refine ⟨Sheds.refl _, ⟨_, [], [], (List.append_nil _).symm, (List.append_nil _).symm, nofun⟩, ?_⟩
        intro o ho
        exact absurd (congrArg Prod.snd h.tms).symm (bin_steps ho)

/-- Add `!` to the last term. -/
def bangRTms (j : Nat) : RTm → List (Op × RTm) → RTms
  | p, [] => (({ p.1 with k := p.1.k + j }, p.2), [])
  | p, (o, x) :: l => (p, (o, (bangRTms j x l).1) :: (bangRTms j x l).2)

theorem bangRTms_tms (j : Nat) (p : RTm) (l : List (Op × RTm)) :
    (bangRTms j p l).tms = bangLast j p.1 (l.map fun s => (s.1, s.2.1)) := by
  induction l generalizing p with
  | nil => rfl
  | cons s l ih =>
    have := ih s.2
    obtain ⟨o, x⟩ := s
    simp only [bangRTms, RTms.tms, List.map_cons, bangLast, ← this]

theorem bangRTms_ok (j : Nat) (p : RTm) (l : List (Op × RTm)) (h : RTms.Ok u (p, l)) : (bangRTms j p l).Ok u := by
  induction l generalizing p with
  | nil =>
    obtain ⟨⟨h1, h2, h3, h4, h5, h6⟩, _⟩ := h
    exact ⟨⟨h1, h2, h3, h4, h5, h6⟩, nofun⟩
  | cons s l ih =>
    obtain ⟨h1, h2⟩ := h
    obtain ⟨h3, h4⟩ := ih s.2 ⟨(h2 s (by simp)).2, fun s hs => h2 s (by simp [hs])⟩
    refine ⟨h1, fun s' hs' => ?_⟩
    simp only [bangRTms, List.mem_cons] at hs'
    rcases hs' with rfl | hs'
    · exact ⟨(h2 s (by simp)).1, h3⟩
    · exact h4 s' hs'

theorem bangRTms_guarded (j : Nat) (p : RTm) (l : List (Op × RTm)) {lo ro : Option Op} (h : AllGuarded lo p l ro) :
    AllGuarded lo (bangRTms j p l).1 (bangRTms j p l).2 ro := by
  induction l generalizing p lo with
  | nil => exact h
  | cons s l ih => exact ⟨h.1, ih _ h.2⟩

theorem atom_parts (a : SAtom) (e : Arith) (ht : e.tms = .atom a e.val) (hx : e.text = a.text) (ho : e.op = none)
    (hl : e.loose = 0) (hk : e.Ok u) (hs : e.School) : ∃ f, Parts u e f := by
  refine ⟨((⟨[], .atom a, e.val, 0⟩, e), []), ht.symm, ⟨⟨rfl, hk, nofun, hs, fun _ => ⟨?_, hl⟩, ?_⟩, nofun⟩, ?_, fun _ => rfl⟩
  · rw [SNode.text, hx]
  · intro h; rw [ho] at h; cases h
  · intro h; rw [ho] at h; cases h

theorem parts_exist (e : Arith) (h : e.Ok u) (hs : e.School) : ∃ f, Parts u e f := by
  induction e with
  | int n => exact atom_parts (.int n) _ rfl rfl rfl rfl h hs
  | dec i f => exact atom_parts (.dec i f) _ rfl rfl rfl rfl h hs
  | bool b => exact atom_parts (.bool b) _ rfl rfl rfl rfl h hs
  | sym p => exact atom_parts (.sym p) _ rfl rfl rfl rfl h hs
  | pre pos c x ih =>
    obtain ⟨f, h1, ⟨⟨k1, k2, k3, k4, k5, k6⟩, k7⟩, h3, h4⟩ := ih h.2 hs
    refine ⟨(({ f.1.1 with ps := c :: f.1.1.ps }, f.1.2), f.2), ?_, ⟨⟨k1, k2, ?_, k4, k5, k6⟩, k7⟩, ?_, h4⟩
    · rw [Arith.tms, ← h1]; rfl
    · intro hm
      rcases List.mem_cons.1 hm with e | hm
      · exact h.1 e.symm
      · exact k3 hm
    · cases hf : f.2 with
      | nil => rw [hf] at h3; exact h3
      | cons s l => rw [hf] at h3; exact h3
  | suf pos t x ih =>
    obtain ⟨f, h1, h2, h3, h4⟩ := ih h hs
    refine ⟨bangRTms (if t then 2 else 1) f.1 f.2, ?_, bangRTms_ok _ _ _ h2, bangRTms_guarded _ _ _ h3, ?_⟩
    · rw [bangRTms_tms, Arith.tms, ← h1]; rfl
    · obtain ⟨p, l⟩ := f
      cases l with
      | nil =>
        intro hp
        rcases h3 hp with ⟨_, e, _⟩ | ⟨_, e, _⟩ <;> cases e
      | cons s l => exact h4
  | bin pos o l r hl hr =>
    have side : ∀ x : Arith, x.Ok u → x.School → (∃ f, Parts u x f) →
        ∃ f : RTms, f.tms = (if Wrapped o x then x.tms.paren else x.tms) ∧ f.Ok u ∧ AllGuarded (some o) f.1 f.2 none ∧
          AllGuarded none f.1 f.2 (some o) ∧ (f.1.2.op.isSome → f.1.1.k = 0) := by
      rintro x hx hxs ⟨f, hf⟩
      by_cases hw : Wrapped o x
      · obtain ⟨a1, a2, a3, a4, _, a5⟩ := parts_again hf
        obtain ⟨q, hq, hqo⟩ := hw
        obtain ⟨r, hr, hrq⟩ := a5 q hq
        have hw' : Wrapped o (treeA (group f.1 f.2)) := ⟨r, hr, by omega⟩
        refine ⟨((⟨[], .paren x.tms.expr [], x.tms.read, 0⟩, treeA (group f.1 f.2)), []), ?_, ⟨⟨a1.symm, a2, nofun, a3, ?_, ?_⟩, nofun⟩,
          fun _ => .inl ⟨o, rfl, hw'⟩, fun _ => .inr ⟨o, rfl, hw'⟩, fun _ => rfl⟩
        · rw [if_pos ⟨q, hq, hqo⟩]; rfl
        · intro h; rw [hr] at h; cases h
        · intro _
          refine ⟨x.text, ?_, a4⟩
          rw [SNode.text, tms_text]
          rfl
      · exact ⟨f, by rw [if_neg hw]; exact hf.tms, hf.ok, hf.beside.mono (.inl rfl) (.inr rfl), hf.beside.mono (.inr rfl) (.inl rfl), hf.first⟩
    obtain ⟨f, f1, f2, f3, f4, f5⟩ := side l h.2.1 hs.2.1 (hl h.2.1 hs.2.1)
    obtain ⟨g, g1, g2, g3, g4, g5⟩ := side r h.2.2 hs.2.2 (hr h.2.2 hs.2.2)
    refine ⟨(f.1, f.2 ++ (o, g.1) :: g.2), ?_, ⟨f2.1, ?_⟩, ?_, f5⟩
    · rw [Arith.tms, ← f1, ← g1]
      simp [RTms.tms, Tms.append]
    · intro s hm
      simp only [List.mem_append, List.mem_cons] at hm
      rcases hm with hm | rfl | hm
      · exact f2.2 s hm
      · exact ⟨hs.1, g2.1⟩
      · exact g2.2 s hm
    · exact guarded_append.2 ⟨f4, g3⟩

/-! ### Rounds -/

theorem canonical_loose (e : Arith) (h : Canonical e) : e.loose = 0 := by
  induction e with
  | pre pos c x ih => rw [Arith.loose, ih h.2, h.1]; rfl
  | suf pos t x ih =>
    have : x.op = none := by
      have := h.1
      cases x <;> first | rfl | exact this.elim
    rw [Arith.loose, ih h.2, this]; rfl
  | bin pos o l r hl hr => rw [Arith.loose, hl h.1, hr h.2.1]
  | _ => rfl

/-- **C86**.  What an expression of `+ - * / ^`, signs and factorials is read as after it was printed, and how this is
printed: like before, but without the parentheses that a prefix or suffix operator was applied to.  It is printed as
before exactly if it is read back. -/
theorem C86_round (L : Lawful u) (e : Arith) (h : e.Ok u) (hs : e.School) (t : Str) (ht : e.ast.display = some t)
    (hw : Wordless t) :
    ∃ e' : Arith, e'.Ok u ∧ e'.School ∧ (∀ c : Cfg, c.input = t → eraseR (parseText u c) = .ok (erase e'.ast)) ∧
      ∃ t', e'.ast.display = some t' ∧ Sheds t t' e'.loose ∧ Wordless t' ∧ (t' = t ↔ Canonical e') := by
  obtain ⟨f, hf⟩ := parts_exist e h hs
  obtain ⟨h1, h2, h3, h4, h5, _⟩ := parts_again hf
  rw [arith_display] at ht
  cases ht
  have hp : ∀ c : Cfg, c.input = e.text → eraseR (parseText u c) = .ok (erase (treeA (group f.1 f.2)).ast) := by
    intro c hc
    have hk := tms_ok e h
    have := C53_expressions L c e.tms.expr hk.ok (by rw [tms_text]; exact hw) (w := []) (w' := []) blank_nil blank_nil
      (by rw [tms_text, hc]; simp)
    rw [this, hk.value, arith_erase, h1]
    rfl
  refine ⟨_, h2, h3, hp, _, arith_display _, h4, h5.wordless hw, ?_, ?_⟩
  · intro he
    obtain ⟨t, ht, hc⟩ := C19_round_trip L _ h2
    rw [arith_display] at ht
    cases ht
    exact (hc ⟨[], _, []⟩ rfl (h5.wordless hw)).1 (hp _ he)
  · intro hc
    rw [canonical_loose _ hc] at h4
    exact h4.eq

/-- The text is read, and what is read is printed as `t'`. -/
def Round (u : Uni) (t t' : Str) : Prop := ∀ c : Cfg, c.input = t → ∃ a, parseText u c = .ok a ∧ a.display = some t'

/-- This is done `n` times. -/
inductive Rounds (u : Uni) : Nat → Str → Str → Prop
  | none {t : Str} : Rounds u 0 t t
  | more {n : Nat} {t t' t'' : Str} : Round u t t' → Rounds u n t' t'' → Rounds u (n + 1) t t''

theorem round_of {t t' : Str} {e : Arith} (hp : ∀ c : Cfg, c.input = t → eraseR (parseText u c) = .ok (erase e.ast))
    (ht : e.ast.display = some t') : Round u t t' := by
  intro c hc
  have := hp c hc
  cases h : parseText u c with
  | ok a =>
    rw [h] at this
    refine ⟨a, rfl, ?_⟩
    rw [← display_erase, Out.ok.inj this, display_erase, ht]
  | err e => rw [h] at this; cases this
  | panic => rw [h] at this; cases this

/-- **C86**.  Reading and printing again and again comes to an end, after at most as many rounds as there are
parentheses.  Only parentheses are lost. -/
theorem C86_settles (L : Lawful u) (e : Arith) (h : e.Ok u) (hs : e.School) (t : Str) (ht : e.ast.display = some t)
    (hw : Wordless t) :
    ∃ n t', n ≤ t.count '(' ∧ Rounds u n t t' ∧ Round u t' t' ∧ t'.Sublist t ∧
      t'.filter (fun c => c ≠ '(' && c ≠ ')') = t.filter (fun c => c ≠ '(' && c ≠ ')') := by
  generalize hm : t.count '(' = m
  induction m using Nat.strongRecOn generalizing e t with
  | ind m ih =>
    obtain ⟨e', h1, h2, h3, t', h4, h5, h6, h7⟩ := C86_round L e h hs t ht hw
    have hr := round_of h3 h4
    by_cases hl : e'.loose = 0
    · rw [hl] at h5
      have := h5.eq
      subst this
      exact ⟨0, _, Nat.zero_le _, .none, hr, List.Sublist.refl _, rfl⟩
    · have hc := h5.opening
      obtain ⟨n, t'', k1, k2, k3, k4, k5⟩ := ih (t'.count '(') (by omega) e' h1 h2 t' h4 h6 rfl
      exact ⟨n + 1, t'', by omega, .more hr k2, k3, k4.trans h5.sub, k5.trans h5.same.symm⟩

/-- The product that is written by juxtaposition. -/
def productOf (pos : Position) (l : List Arith) : AST := .function Op.star.sym [.mk (l.map Arith.ast) [] pos]

theorem args_text (o : Op) : ∀ l : List Arith, displayArgs o.name.2 (l.map Arith.ast) = some (l.map (inside o))
  | [] => rfl
  | x :: l => by
    rw [List.map_cons, displayArgs, arith_display, args_text o l]
    simp only [wrapped_precedence, List.map_cons, inside]
    split <;> simp

/-- **C86**.  A product of many factors is printed like the same factors multiplied one after the other, so this is
also true of products that are written by juxtaposition. -/
theorem C86_products (pos : Position) (x y : Arith) (l : List Arith) :
    (productOf pos (x :: y :: l)).display =
      (l.foldl (fun a b => Arith.bin noPos .star a b) (.bin noPos .star x y)).ast.display := by
  have key : ∀ (l : List Arith) (a : Arith), a.op = some .star →
      (l.foldl (fun a b => Arith.bin noPos .star a b) a).text = a.text ++ l.flatMap fun b => '*' :: inside .star b := by
    intro l
    induction l with
    | nil => intro a _; simp
    | cons b l ih =>
      intro a ha
      have : ¬ Wrapped .star a := by rintro ⟨q, e, hq⟩; rw [ha] at e; cases e; omega
      rw [List.foldl_cons, ih _ rfl, Arith.text, if_neg this]
      simp [Op.text, inside]
  have joined : ∀ (l : List Arith) (b : Str), join c!"*" (b :: l.map (inside .star)) = b ++ l.flatMap fun b => '*' :: inside .star b := by
    intro l
    induction l with
    | nil => intro b; simp [join]
    | cons c l ih =>
      intro b
      rw [List.map_cons, join, ih]
      simp
  rw [arith_display, key _ _ rfl]
  simp only [productOf, AST.display, Op.sym, displayInfix]
  rw [if_pos (by simp)]
  rw [args_text .star (x :: y :: l)]
  simp only [List.map_cons]
  have := joined (y :: l) (inside .star x)
  simp only [List.map_cons] at this
  show some (join c!"*" _) = _
  rw [this, Arith.text]
  simp [inside, Op.text]

theorem round_read (L : Lawful u) (e e' : Arith) (h : e.Ok u) (hw : Wordless e.text) (hr : e.tms.read = e'.val) :
    Round u e.text e'.text := by
  refine round_of (e := e') ?_ (arith_display e')
  intro c hc
  have hk := tms_ok e h
  have := C53_expressions L c e.tms.expr hk.ok (by rw [tms_text]; exact hw) (w := []) (w' := []) blank_nil blank_nil
    (by rw [tms_text, hc]; simp)
  rw [this, hk.value, arith_erase, hr]
  rfl

/-- **C86**.  The text can change its meaning: the negated product `-((a+b)*c)` is printed `-(a+b)*c`, this is read and
printed as `-a+b*c`, and this stays. -/
theorem C86_drifts (L : Lawful u) (a b c : Nat) :
    (Arith.pre noPos .minus (.bin noPos .star (.bin noPos .plus (.int a) (.int b)) (.int c))).ast.display =
        some ('-' :: '(' :: (numeral a ++ '+' :: (numeral b ++ ')' :: '*' :: numeral c))) ∧
      Round u ('-' :: '(' :: (numeral a ++ '+' :: (numeral b ++ ')' :: '*' :: numeral c)))
        ('-' :: (numeral a ++ '+' :: (numeral b ++ '*' :: numeral c))) ∧
      Round u ('-' :: (numeral a ++ '+' :: (numeral b ++ '*' :: numeral c)))
        ('-' :: (numeral a ++ '+' :: (numeral b ++ '*' :: numeral c))) := by
  let e : Arith := .pre noPos .minus (.bin noPos .star (.bin noPos .plus (.int a) (.int b)) (.int c))
  let e' : Arith := .bin noPos .star (.pre noPos .minus (.bin noPos .plus (.int a) (.int b))) (.int c)
  let e'' : Arith := .bin noPos .plus (.pre noPos .minus (.int a)) (.bin noPos .star (.int b) (.int c))
  have w1 : Wrapped .star (.bin noPos .plus (.int a) (.int b)) := ⟨_, rfl, by decide⟩
  have w2 : ∀ o n, ¬ Wrapped o (.int n) := by rintro o n ⟨_, e, _⟩; cases e
  have w3 : ∀ o c x, ¬ Wrapped o (.pre noPos c x) := by rintro o c x ⟨_, e, _⟩; cases e
  have w4 : ∀ x y, ¬ Wrapped .plus (.bin noPos .star x y) := by rintro x y ⟨_, e, h⟩; cases e; revert h; decide
  have t1 : e.text = '-' :: '(' :: (numeral a ++ '+' :: (numeral b ++ ')' :: '*' :: numeral c)) := by
    simp [e, Arith.text, w1, w2, Op.text, Pre.char]
  have t2 : e'.text = '-' :: (numeral a ++ '+' :: (numeral b ++ '*' :: numeral c)) := by
    simp [e', Arith.text, w2, w3, Op.text, Pre.char]
  have t3 : e''.text = '-' :: (numeral a ++ '+' :: (numeral b ++ '*' :: numeral c)) := by
    simp [e'', Arith.text, w2, w3, w4, Op.text, Pre.char]
  refine ⟨by rw [← t1]; exact arith_display e, ?_, ?_⟩
  · rw [← t2, ← t1]
    refine round_read L e e' ⟨by decide, by decide, ⟨by decide, trivial, trivial⟩, trivial⟩
      (by rw [t1]; exact wordless_head rfl (by decide)) ?_
    simp only [e, Arith.tms, if_pos w1, if_neg (w2 _ _)]
    rfl
  · have := round_read L e'' e'' ⟨by decide, ⟨by decide, trivial⟩, by decide, trivial, trivial⟩
      (by rw [t3]; exact wordless_head rfl (by decide)) ?_
    · rwa [t3] at this
    · simp only [e'', Arith.tms, if_neg (w2 _ _), if_neg (w3 _ _ _), if_neg (w4 _ _)]
      rfl

/-- **C86**.  With `×` and `÷` parentheses can also appear: the power `(a×b)^c` is printed `a×b^c`, and this is read and
printed as `a×(b^c)`. -/
theorem C86_grows (L : Lawful u) (a b c : Nat) (o : Op) (ho : o = .cross ∨ o = .obelus) :
    (Arith.bin noPos .caret (.bin noPos o (.int a) (.int b)) (.int c)).ast.display =
        some (numeral a ++ (o.text ++ (numeral b ++ '^' :: numeral c))) ∧
      Round u (numeral a ++ (o.text ++ (numeral b ++ '^' :: numeral c)))
        (numeral a ++ (o.text ++ '(' :: (numeral b ++ '^' :: (numeral c ++ c!")")))) := by
  let e : Arith := .bin noPos .caret (.bin noPos o (.int a) (.int b)) (.int c)
  let e' : Arith := .bin noPos o (.int a) (.bin noPos .caret (.int b) (.int c))
  have w1 : ¬ Wrapped .caret (.bin noPos o (.int a) (.int b)) := by
    rintro ⟨_, e, h⟩
    cases e
    rcases ho with rfl | rfl <;> revert h <;> decide
  have w2 : ∀ o n, ¬ Wrapped o (.int n) := by rintro o n ⟨_, e, _⟩; cases e
  have w3 : Wrapped o (.bin noPos .caret (.int b) (.int c)) := ⟨_, rfl, by rcases ho with rfl | rfl <;> decide⟩
  have t1 : e.text = numeral a ++ (o.text ++ (numeral b ++ '^' :: numeral c)) := by
    simp [e, Arith.text, w1, w2, Op.text]
  have t2 : e'.text = numeral a ++ (o.text ++ '(' :: (numeral b ++ '^' :: (numeral c ++ c!")"))) := by
    simp [e', Arith.text, w2, w3, Op.text]
  refine ⟨by rw [← t1]; exact arith_display e, ?_⟩
  rw [← t2, ← t1]
  refine round_read L e e' ⟨by decide, ⟨by rcases ho with rfl | rfl <;> decide, trivial, trivial⟩, trivial⟩ ?_ ?_
  · rw [t1]
    exact numeral_wordless _ _
  · simp only [e, Arith.tms, if_neg w1, if_neg (w2 _ _)]
    rcases ho with rfl | rfl <;> rfl

/-- `2 3 x` is printed `2*3*x`, and `2*(1+2)*x` needs its parentheses. -/
example : (productOf noPos [.int 2, .int 3, .sym ⟨c!"x", []⟩]).display = some c!"2*3*x" := by
  rw [C86_products, arith_display]; rfl

example : (productOf noPos [.int 2, .bin noPos .plus (.int 1) (.int 2), .sym ⟨c!"x", []⟩]).display = some c!"2*(1+2)*x" := by
  rw [C86_products, arith_display]; rfl

/-- `2*(3+4)` is read back, and printed the same. -/
example : ∃ e' : Arith, e'.Ok asciiUni ∧ e'.School ∧
    (∀ c : Cfg, c.input = c!"2*(3+4)" → eraseR (parseText asciiUni c) = .ok (erase e'.ast)) ∧
      ∃ t', e'.ast.display = some t' ∧ Sheds c!"2*(3+4)" t' e'.loose ∧ Wordless t' ∧ (t' = c!"2*(3+4)" ↔ Canonical e') :=
  C86_round lawful_asciiUni (.bin noPos .star (.int 2) (.bin noPos .plus (.int 3) (.int 4)))
    ⟨by decide, trivial, by decide, trivial, trivial⟩ ⟨by decide, trivial, by decide, trivial, trivial⟩ c!"2*(3+4)"
    (by rw [arith_display]; rfl) (wordless_head rfl (by decide))

/-- `-((1+2)*3)`: one round at most. -/
example : ∃ n t', n ≤ 1 ∧ Rounds asciiUni n c!"-(1+2)*3" t' ∧ Round asciiUni t' t' ∧ t'.Sublist c!"-(1+2)*3" ∧
    t'.filter (fun c => c ≠ '(' && c ≠ ')') = c!"-1+2*3" :=
  C86_settles lawful_asciiUni (.pre noPos .minus (.bin noPos .star (.bin noPos .plus (.int 1) (.int 2)) (.int 3)))
    ⟨by decide, by decide, ⟨by decide, trivial, trivial⟩, trivial⟩ ⟨by decide, ⟨by decide, trivial, trivial⟩, trivial⟩
    c!"-(1+2)*3" (by rw [arith_display]; rfl) (wordless_head rfl (by decide))

example : Round asciiUni c!"-(1+2)*3" c!"-1+2*3" := (C86_drifts lawful_asciiUni 1 2 3).2.1

example : Round asciiUni c!"2×3^4" c!"2×(3^4)" := (C86_grows lawful_asciiUni 2 3 4 .cross (.inl rfl)).2

end SM.Props
