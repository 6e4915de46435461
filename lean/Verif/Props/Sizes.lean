import Verif.Props.Exact
import Verif.Props.Symbol
/-
C81: how large expressions and answers can be, compared with the text.
-/
namespace SM.Props
open SM SM.Peg

variable {u : Uni} {P : Nat → Nat → Position}

/-! ### Measures of expressions -/

/-- What each operand of an operator takes in addition: brackets and the operator. -/
def pad (g : Nat) (s : Sym) : Nat :=
  match s.kind with
  | .normal => 0
  | .alias => 0
  | .prefix o => g * (2 + o.length)
  | .suffix o => g * (2 + o.length)
  | .infix o _ => g * (2 + o.length)

mutual
/-- The sum of a measure of literals and names over an expression, with `g` times the room for operators and brackets. -/
def bulk (m : AST → Nat) (g : Nat) : AST → Nat
  | .function s ps => bulkP m g (pad g s) ps
  | .empty => m .empty
  | .program l => m (.program l)
  | .boolean b => m (.boolean b)
  | .integer n => m (.integer n)
  | .decimal d => m (.decimal d)
  | .symbol s => m (.symbol s)
  | .string s => m (.string s)
termination_by structural a => a
/-- The same for lists of operands. -/
def bulkL (m : AST → Nat) (g k : Nat) : List AST → Nat
  | [] => 0
  | a :: l => bulk m g a + k + bulkL m g k l
termination_by structural a => a
/-- The same for several argument lists. -/
def bulkP (m : AST → Nat) (g k : Nat) : List Param → Nat
  | [] => 0
  | p :: l => bulkParam m g k p + bulkP m g k l
termination_by structural a => a
/-- The same for an argument list. -/
def bulkParam (m : AST → Nat) (g k : Nat) : Param → Nat
  | .mk a o _ => bulkL m g k a + bulkO m g o
termination_by structural a => a
/-- The same for named arguments. -/
def bulkO (m : AST → Nat) (g : Nat) : List (AST × AST) → Nat
  | [] => 0
  | e :: l => bulkE m g e + bulkO m g l
termination_by structural a => a
/-- The same for a named argument. -/
def bulkE (m : AST → Nat) (g : Nat) : AST × AST → Nat
  | (_, v) => bulk m g v
termination_by structural a => a
end

variable {m : AST → Nat} {g K : Nat}

/-- The operator at the top is short. -/
def Slim (g : Nat) : AST → Prop
  | .function s _ => pad g s ≤ 4 * g
  | .symbol s => pad g s ≤ 4 * g
  | _ => True

/-- What a measure must satisfy in order to be at most `K` times the length of the text. -/
structure Roomy (u : Uni) (m : AST → Nat) (g K : Nat) : Prop where
  pads : 6 * g ≤ K
  atom : ∀ (a : SAtom) (v : AST), (∀ f m l, a ≠ .prod f m l) → a.Ok u → a.value = some v →
    bulk m g v ≤ K * a.text.length
  factor : ∀ f : SFactor, f.Ok u → m f.value + 3 * g ≤ K * f.text.length
  span : m (.integer 1) + m (.mkSymbol c!"std::core::All") + m (.integer 1) ≤ 2 * K

theorem pad_normal {s : Sym} (h : s.kind = .normal) : pad g s = 0 := by rw [pad, h]

theorem bulk_callAt (q : Position) (s : Sym) (l : List AST) : bulk m g (callAt q s l) = bulkL m g (pad g s) l := by
  simp [callAt, bulk, bulkP, bulkParam, bulkO]

theorem bulk_call_normal {q : Position} {s : Sym} (h : s.kind = .normal) (l : List AST) :
    bulk m g (callAt q s l) = bulkL m g 0 l := by rw [bulk_callAt, pad_normal h]

theorem bulk_placed (q : Position) (v : AST) : bulk m g (placed q v) = bulk m g v := by
  unfold placed
  split
  · simp [bulk, bulkP, bulkParam]
  · rfl

theorem slim_placed {q : Position} {v : AST} (h : Slim g v) : Slim g (placed q v) := by
  unfold placed
  split
  · exact h
  · exact h

theorem slim_atom {a : SAtom} {v : AST} (h : a.value = some v) : Slim g v := by
  have three : g * 3 ≤ 4 * g := by omega
  cases a <;> simp only [SAtom.value, Option.some.injEq, reduceCtorEq, Option.ite_none_left_eq_some] at h
  case radix => rw [← h.2]; trivial
  case back out n => subst h; cases out <;> exact Nat.zero_le _
  case nth out n => subst h; cases out <;> exact Nat.zero_le _
  case prod => subst h; exact three
  all_goals first | (subst h; first | trivial | exact Nat.zero_le _) 

theorem pad_op (o : Op) : pad g o.sym = 3 * g := by
  rw [pad, Op.sym]
  have : o.text.length = 1 := by cases o <;> rfl
  simp only [this]
  omega

theorem bulk_dot {q : Position} {a b v : AST} (hb : Slim g b) (h : dotAt q a b = some v) :
    Slim g v ∧ bulk m g v ≤ bulk m g a + 4 * g + bulk m g b := by
  unfold dotAt at h
  split at h
  · cases h
    refine ⟨hb, ?_⟩
    have : pad g _ ≤ 4 * g := hb
    rw [show ∀ s, AST.function s [.mk [a] [] q] = callAt q s [a] from fun _ => rfl, bulk_callAt, bulkL, bulkL]
    omega
  · cases h
    refine ⟨hb, ?_⟩
    have : pad g _ ≤ 4 * g := hb
    simp only [bulk, bulkP, bulkParam, bulkL]
    omega
  · cases h
    refine ⟨Nat.zero_le _, ?_⟩
    rw [show ∀ s l, AST.function s [.mk l [] q] = callAt q s l from fun _ _ => rfl, bulk_call_normal rfl]
    simp only [bulkL]
    omega
  · cases h

theorem bulk_op (hK : 6 * g ≤ K) {q : Position} {a b v : AST} {o : Op} (hb : Slim g b)
    (h : Op.applyAt q a o b = some v) : Slim g v ∧ bulk m g v ≤ bulk m g a + K + bulk m g b := by
  by_cases ho : o = .dot
  · subst ho
    obtain ⟨h1, h2⟩ := bulk_dot (m := m) hb h
    exact ⟨h1, by omega⟩
  · have : v = callAt q o.sym [a, b] := by
      cases o <;> first | exact absurd rfl ho | exact (Option.some.inj h).symm
    subst this
    refine ⟨?_, ?_⟩
    · show pad g o.sym ≤ _
      rw [pad_op]; omega
    · rw [bulk_callAt, pad_op]
      simp only [bulkL]
      omega

/-- The measure of operators with their operands. -/
def bulkS (m : AST → Nat) (g K : Nat) (l : List (Op × AST)) : Nat := (l.map fun s => K + bulk m g s.2).sum

theorem bulk_tree (hK : 6 * g ≤ K) {q : Position} : ∀ (t : OpTree AST Op) {v : AST},
    evalTree some (Op.applyAt q) t = some v → Slim g t.steps.1 → (∀ s ∈ t.steps.2, Slim g s.2) →
    Slim g v ∧ bulk m g v ≤ bulk m g t.steps.1 + bulkS m g K t.steps.2
  | .leaf x, v, h, hx, _ => by cases h; exact ⟨hx, Nat.le_add_right _ _⟩
  | .node l o r, v, h, hx, hs => by
    simp only [evalTree] at h
    simp only [OpTree.steps] at hx hs ⊢
    split at h
    · rename_i a b h1 h2
      obtain ⟨-, k2⟩ := bulk_tree hK l h1 hx fun s hm => hs s (by simp [hm])
      obtain ⟨k3, k4⟩ := bulk_tree hK r h2 (hs (o, r.steps.1) (by simp)) fun s hm => hs s (by simp [hm])
      obtain ⟨k5, k6⟩ := bulk_op (m := m) hK k3 h
      refine ⟨k5, ?_⟩
      simp only [bulkS, List.map_append, List.map_cons, List.sum_append, List.sum_cons] at k2 k4 ⊢
      omega
    · cases h

/-- The measure of arguments. -/
def bulkA (m : AST → Nat) (g : Nat) (l : List (AST × AST)) : Nat := (l.map fun d => bulk m g d.2).sum

theorem bulkO_insert {cmp : AST → AST → Ordering} {k v : AST} : ∀ o : BMap AST AST,
    bulkO m g (BMap.insert cmp k v o) ≤ bulk m g v + bulkO m g o
  | [] => by simp [BMap.insert, bulkO, bulkE]
  | (k', v') :: o => by
    have ih := bulkO_insert (cmp := cmp) (k := k) (v := v) o
    rw [BMap.insert]
    split
    · simp [bulkO, bulkE]
    · simp only [bulkO, bulkE]; omega
    · simp only [bulkO, bulkE]; omega

theorem bulk_args : ∀ (l : List (AST × AST)) (o : BMap AST AST),
    bulkL m g 0 (positional l) + bulkO m g (optionsFrom l o) ≤ bulkA m g l + bulkO m g o := by
  intro l
  induction l with
  | nil => intro o; simp [positional, optionsFrom, bulkL, bulkA]
  | cons d l ih =>
    intro o
    obtain ⟨k, v⟩ := d
    simp only [bulkA, List.map_cons, List.sum_cons] at ih ⊢
    by_cases hk : k = .empty
    · subst hk
      simp only [positional, optionsFrom, bulkL]
      have := ih o
      omega
    · have e1 : positional ((k, v) :: l) = positional l := by
        cases k <;> first | exact absurd rfl hk | rfl
      have e2 : optionsFrom ((k, v) :: l) o = optionsFrom l (BMap.insert astCmp k v o) := by
        cases k <;> first | exact absurd rfl hk | rfl
      rw [e1, e2]
      have h1 := ih (BMap.insert astCmp k v o)
      have h2 := bulkO_insert (m := m) (g := g) (cmp := astCmp) (k := k) (v := v) o
      omega

theorem bulk_params {l : List (AST × AST)} {ps : List Param} {q : Position} :
    bulkP m g 0 (.mk (positional l) (optionsFrom l []) q :: ps) ≤ bulkA m g l + bulkP m g 0 ps := by
  have := bulk_args (m := m) (g := g) l []
  simp only [bulkP, bulkParam, bulkO] at this ⊢
  omega

theorem bulk_factors (h : Roomy u m g K) : ∀ (l : List (Str × SFactor)) (f : SFactor), Juxtaposed u f l →
    bulkL m g (3 * g) (l.map fun m => m.2.value) ≤ K * (factorsText l).length
  | [], _, _ => by simp [bulkL]
  | (x, f') :: l, f, hj => by
    rw [Juxtaposed] at hj
    have h1 := bulk_factors h l f' hj.2.2.2
    have h2 := h.factor f' hj.2.1
    have h3 : bulk m g f'.value = m f'.value := by cases f' <;> simp [SFactor.value, bulk, AST.mkSymbol]
    simp only [List.map_cons, bulkL, factorsText, List.flatMap_cons, List.length_append, h3] at h1 ⊢
    rw [Nat.mul_add, Nat.mul_add]
    have := Nat.zero_le (K * x.length)
    omega

theorem bulk_prod (h : Roomy u m g K) {f : SFactor} {l : List (Str × SFactor)} (hf : f.Ok u) (hj : Juxtaposed u f l) :
    bulkL m g (3 * g) (f.value :: l.map fun m => m.2.value) ≤ K * (f.text ++ factorsText l).length := by
  have h1 := bulk_factors h l f hj
  have h2 := h.factor f hf
  have h3 : bulk m g f.value = m f.value := by cases f <;> simp [SFactor.value, bulk, AST.mkSymbol]
  simp only [bulkL, List.length_append, h3]
  rw [Nat.mul_add]
  omega

theorem colon_length (b : Bool) : (colonText b).length = 1 := by cases b <;> rfl
theorem comma_length (b : Bool) : (commaText b).length = 1 := by cases b <;> rfl

/-- What an expression stands for is not larger than its text, up to a factor. -/
theorem bulk_expr (h : Roomy u m g K) {i : Nat} {x : Str} {a : AST} (hr : RExpr u P i x a) :
    Slim g a ∧ bulk m g a ≤ K * x.length := by
  have hp := h.pads
  refine RExpr.rec (u := u) (P := P) (motive_1 := fun _ x a _ => Slim g a ∧ bulk m g a ≤ K * x.length)
    (motive_2 := fun _ x l _ => (∀ s ∈ l, Slim g s.2) ∧ bulkS m g K l ≤ K * x.length)
    (motive_3 := fun _ x a _ => Slim g a ∧ bulk m g a ≤ K * x.length)
    (motive_4 := fun _ x a _ => Slim g a ∧ bulk m g a ≤ K * x.length)
    (motive_5 := fun _ x a _ => Slim g a ∧ bulk m g a ≤ K * x.length)
    (motive_6 := fun _ x l _ => bulkL m g 0 l ≤ K * x.length)
    (motive_7 := fun _ x l _ => bulkP m g 0 l ≤ K * x.length)
    (motive_8 := fun _ x l _ => bulkA m g l ≤ K * x.length) (motive_9 := fun _ x d _ => bulk m g d.2 ≤ K * x.length)
    (motive_10 := fun _ x a _ => bulk m g a ≤ K * x.length + K)
    (motive_11 := fun _ x d _ => ∀ b : AST, bulk m g (d.getD b) ≤ K * x.length + bulk m g b)
    (motive_12 := fun _ x l _ => bulkL m g 0 l ≤ K * x.length)
    ?_ ?_ ?_ ?_ ?_ ?_ ?_ ?_ ?_ ?_ ?_ ?_ ?_ ?_ ?_ ?_ ?_ ?_ ?_ ?_ ?_ ?_ ?_ ?_ ?_ ?_ ?_ ?_ ?_ ?_ ?_ ?_ ?_ hr
  -- expressions
  · intro i t s j b l v _ _ _ h4 k1 k2
    obtain ⟨h5, h6⟩ := bulk_tree (m := m) hp _ h4 (by rw [(group_spec b l).2]; exact k1.1)
      (by rw [(group_spec b l).2]; exact k2.1)
    refine ⟨h5, ?_⟩
    rw [(group_spec b l).2] at h6
    have := k1.2
    have := k2.2
    simp only [List.length_append, Nat.mul_add] at *
    omega
  -- operators with terms
  · intro i; exact ⟨by simp, by simp [bulkS]⟩
  · intro i o w w' t s a l _ _ _ _ k1 k2
    refine ⟨List.forall_mem_cons.2 ⟨k1.1, k2.1⟩, ?_⟩
    have e : o.text.length = 1 := by cases o <;> rfl
    have := k1.2
    have := k2.2
    simp only [bulkS, List.map_cons, List.sum_cons, List.length_append, Nat.mul_add, e, Nat.mul_one] at *
    omega
  -- terms
  · intro i w a _ k; exact k
  · intro i c n w a hc _ k
    have e : pad g ⟨[c!"std", c!"prefix"], n, .prefix [c], 0⟩ = 3 * g := by simp only [pad, List.length_cons, List.length_nil]; omega
    refine ⟨?_, ?_⟩
    · show pad g _ ≤ _
      rw [e]; omega
    · have := k.2
      rw [bulk_callAt, e]
      simp only [bulkL, List.length_cons, Nat.mul_add, Nat.mul_one]
      omega
  -- suffixes
  · intro i w a _ k; exact k
  · intro i w y n a _ hy k
    have hl : y.length ≤ 2 ∧ 1 ≤ y.length := by
      unfold sufName at hy
      split at hy
      · rename_i h; subst h; decide
      split at hy
      · rename_i h; subst h; decide
      · cases hy
    have e : pad g ⟨[c!"std", c!"suffix"], n, .suffix y, 0⟩ ≤ 4 * g := by
      simp only [pad]
      have := Nat.mul_le_mul_left g (show 2 + y.length ≤ 4 by omega)
      omega
    refine ⟨e, ?_⟩
    have := k.2
    have h1 := Nat.mul_le_mul_left K hl.2
    rw [bulk_callAt]
    simp only [bulkL, List.length_append, Nat.mul_add]
    omega
  · intro i w h b x s a d l _ _ _ _ _ k k1 k2
    refine ⟨Nat.zero_le _, ?_⟩
    rw [bulk_call_normal rfl]
    have := k.2
    simp only [bulkL, List.length_append, List.length_cons, List.length_nil, Nat.mul_add, Nat.mul_one, Nat.mul_zero] at *
    omega
  -- operands
  · intro i a v hn ho hv
    refine ⟨slim_placed (slim_atom hv), ?_⟩
    rw [bulk_placed]
    exact h.atom a v hn ho hv
  · intro i f m' l hf hj
    refine ⟨?_, ?_⟩
    · show pad g Op.star.sym ≤ _
      rw [pad_op]; omega
    · rw [bulk_callAt, pad_op]
      exact bulk_prod h (l := m' :: l) hf hj
  · intro i w a _ k
    refine ⟨k.1, ?_⟩
    have := k.2
    simp only [List.length_append, List.length_cons, List.length_nil, Nat.mul_add, Nat.mul_one, Nat.mul_zero] at *
    omega
  · intro i w _
    refine ⟨Nat.zero_le _, ?_⟩
    rw [bulk_call_normal rfl]
    exact Nat.zero_le _
  · intro i w x s a l _ _ _ k1 k2
    refine ⟨Nat.zero_le _, ?_⟩
    rw [bulk_call_normal rfl]
    have := k1.2
    simp only [bulkL, List.length_append, List.length_cons, List.length_nil, Nat.mul_add, Nat.mul_one, Nat.mul_zero] at *
    omega
  · intro i p s q l _ _ k
    refine ⟨Nat.zero_le _, ?_⟩
    rw [bulk, pad_normal rfl, List.length_append, Nat.mul_add]
    omega
  -- items
  · intros; exact Nat.zero_le _
  · intros; exact Nat.zero_le _
  · intro i b w w' x s a l _ _ _ _ k1 k2
    have := k1.2
    simp only [bulkL, List.length_append, Nat.mul_add] at *
    omega
  -- argument lists
  · intros; exact Nat.zero_le _
  · intro i h b x s t d l ps _ _ _ _ _ k1 k2 k3
    refine Nat.le_trans bulk_params ?_
    simp only [bulkA, List.map_cons, List.sum_cons, List.length_append, List.length_cons, Nat.mul_add] at *
    omega
  · intro i h b s t l ps _ _ _ _ k2 k3
    refine Nat.le_trans bulk_params ?_
    simp only [List.length_append, List.length_cons, Nat.mul_add] at *
    omega
  -- arguments
  · intros; exact Nat.zero_le _
  · intros; exact Nat.zero_le _
  · intro i b w w' x s d l _ _ _ _ k1 k2
    simp only [bulkA, List.map_cons, List.sum_cons, List.length_append, Nat.mul_add] at *
    omega
  · intro i x a _ k; exact k.2
  · intro i k w w' x b a _ _ _ _ h
    have := h.2
    simp only [List.length_append, Nat.mul_add] at *
    omega
  -- indices
  · intro i x a _ k; exact Nat.le_trans k.2 (Nat.le_add_right _ _)
  · intro i x w w' y b d e _ _ _ _ k1 k2
    have h0 := h.span
    have h1 := k1 (.integer 1)
    have h2 := k2 (.mkSymbol c!"std::core::All")
    rw [bulk_call_normal rfl]
    have e1 : bulk m g (.integer 1) = m (.integer 1) := by simp [bulk]
    have e2 : bulk m g (.mkSymbol c!"std::core::All") = m (.mkSymbol c!"std::core::All") := by simp [bulk, AST.mkSymbol]
    rw [e1] at h1
    rw [e2] at h2
    simp only [bulkL, List.length_append, Nat.mul_add, colon_length, Nat.mul_one, e1] at *
    omega
  · intro i x w w' y z z' t b b' d e f _ _ _ _ _ _ _ k1 k2 k3
    have h0 := h.span
    have h1 := k1 (.integer 1)
    have h2 := k2 (.mkSymbol c!"std::core::All")
    have h3 := k3 (.integer 1)
    rw [bulk_call_normal rfl]
    have e1 : bulk m g (.integer 1) = m (.integer 1) := by simp [bulk]
    have e2 : bulk m g (.mkSymbol c!"std::core::All") = m (.mkSymbol c!"std::core::All") := by simp [bulk, AST.mkSymbol]
    rw [e1] at h1 h3
    rw [e2] at h2
    simp only [bulkL, List.length_append, Nat.mul_add, colon_length, Nat.mul_one] at *
    omega
  · intro i b
    exact Nat.le_add_left _ _
  · intro i x a _ k b; exact Nat.le_trans k.2 (Nat.le_add_right _ _)
  · intros; exact Nat.zero_le _
  · intros; exact Nat.zero_le _
  · intro i b w w' x s a l _ _ _ _ k1 k2
    simp only [bulkL, List.length_append, Nat.mul_add, comma_length, Nat.mul_one] at *
    omega

/-! ### Numerals -/

theorem numeral_le {n k : Nat} (hk : 0 < k) (h : n < 10 ^ k) : (numeral n).length ≤ k :=
  (Nat.length_toDigits_le_iff (by decide) hk).2 h

theorem numeral_lt (n : Nat) : n < 10 ^ (numeral n).length :=
  (Nat.length_toDigits_le_iff (by decide) (numeral_length_pos n)).1 (Nat.le_refl _)

theorem pow_16 (k : Nat) : 16 ^ k ≤ 10 ^ (2 * k) := by
  rw [Nat.pow_mul]
  exact Nat.pow_le_pow_left (by decide) k

theorem numeral_hex {n k : Nat} (h : n < 16 ^ k) : (numeral n).length ≤ 2 * k + 1 :=
  numeral_le (by omega) (Nat.lt_of_lt_of_le h (Nat.le_trans (pow_16 k) (Nat.pow_le_pow_right (by decide) (by omega))))

theorem intStr_le (n : Int) : (intStr n).length ≤ (numeral n.natAbs).length + 1 := by
  rw [intStr]
  split
  · simp [natStr]
  · exact Nat.le_succ _

theorem intStr_nat (n : Nat) : intStr n = numeral n := by simp [intStr, natStr]

theorem digitsValue_lt {r : Radix} : ∀ ds : List Nat, (∀ d ∈ ds, d < r.base) → digitsValue r.base ds < 16 ^ ds.length := by
  intro ds h
  have h1 : digitsValue r.base ds < r.base ^ ds.length := by
    unfold digitsValue
    have := Nat.ofDigits_lt_base_pow_length (b := r.base) (l := ds.reverse) (by cases r <;> decide)
      (fun x hx => h x (List.mem_reverse.1 hx))
    rwa [List.length_reverse] at this
  exact Nat.lt_of_lt_of_le h1 (Nat.pow_le_pow_left (by cases r <;> decide) _)

theorem groups_length (l : List SDigit) : l.length ≤ (l.flatMap fun d => groupText d.char).length := by
  induction l with
  | nil => exact Nat.le_refl _
  | cons d l ih =>
    rw [List.flatMap_cons, List.length_append, List.length_cons]
    have : 1 ≤ (groupText d.char).length := by
      unfold groupText
      split <;> simp
    omega

theorem radix_bound {r : Radix} {k : Char} {d : SDigit} {ds : List SDigit} (h : (SAtom.radix r k d ds).Ok u) :
    digitsValue r.base ((d :: ds).map fun d => d.2.2) < 16 ^ ((SAtom.radix r k d ds).text.length - 2) := by
  have h1 := digitsValue_lt ((d :: ds).map fun d => d.2.2) (r := r) (by
    intro e he
    obtain ⟨e', he', rfl⟩ := List.mem_map.1 he
    exact h.2 e' he')
  refine Nat.lt_of_lt_of_le h1 (Nat.pow_le_pow_right (by decide) ?_)
  have := groups_length (d :: ds)
  rw [SAtom.text, List.length_map]
  simp only [List.length_cons] at this ⊢
  omega

theorem path_length {p : Path} (h : p.Ok u) : 1 ≤ p.text.length := by
  obtain ⟨c, r, e, _⟩ := h.start
  rw [e]; simp

theorem succ_lt_pow (n b : Nat) (hb : 2 ≤ b) : n < b ^ n :=
  Nat.lt_of_lt_of_le Nat.lt_two_pow_self (Nat.pow_le_pow_left hb n)

/-! ### The printed form -/

/-- The length of the printed form of literals and names. -/
def shownLength (a : AST) : Nat :=
  match a with
  | .function _ _ => 0
  | a => (a.display.getD []).length

theorem join_length (o : Str) : ∀ l : List Str, (join o l).length ≤ (l.map fun x => x.length + o.length).sum
  | [] => by simp [join]
  | [x] => by simp [join]
  | x :: y :: l => by
    have := join_length o (y :: l)
    rw [join]
    simp only [List.length_append, List.map_cons, List.sum_cons] at this ⊢
    omega

mutual
theorem display_bulk : ∀ (a : AST) {t : Str}, a.display = some t → t.length ≤ bulk shownLength 1 a
  | .empty, t, h => by simp [AST.display] at h
  | .program _, t, h => by simp [AST.display] at h
  | .boolean b, t, h => by simp [bulk, shownLength, h]
  | .integer n, t, h => by simp [bulk, shownLength, h]
  | .decimal d, t, h => by simp [bulk, shownLength, h]
  | .symbol s, t, h => by simp [bulk, shownLength, h]
  | .string s, t, h => by simp [bulk, shownLength, h]
  | .function s ps, t, h => by
    rw [AST.display] at h
    rw [bulk, pad]
    split at h
    · cases h
    · cases h
    · rename_i o hk
      rw [hk]
      have := unary_bulk o [] ps h
      simpa [Nat.add_comm, Nat.add_left_comm] using this
    · rename_i o p hk
      rw [hk]
      have := infix_bulk o p ps h
      simpa [Nat.add_comm, Nat.add_left_comm] using this
    · rename_i o hk
      rw [hk]
      have := unary_bulk [] o ps h
      simpa [Nat.add_comm, Nat.add_left_comm] using this
termination_by structural a => a
theorem unary_bulk (x y : Str) : ∀ (ps : List Param) {t : Str}, displayUnary x y ps = some t →
    t.length ≤ bulkP shownLength 1 (2 + x.length + y.length) ps
  | [], t, h => by cases h; exact Nat.zero_le _
  | .mk as [] _ :: [], t, h => by
    rw [displayUnary] at h
    have := one_bulk x y as h
    simp only [bulkP, bulkParam]
    omega
  | .mk as (_ :: _) _ :: [], t, h => by cases h; exact Nat.zero_le _
  | .mk as [] _ :: _ :: _, t, h => by cases h; exact Nat.zero_le _
  | .mk as (_ :: _) _ :: _ :: _, t, h => by cases h; exact Nat.zero_le _
termination_by structural ps => ps
theorem one_bulk (x y : Str) : ∀ (as : List AST) {t : Str}, displayOne x y as = some t →
    t.length ≤ bulkL shownLength 1 (2 + x.length + y.length) as
  | [], t, h => by cases h; exact Nat.zero_le _
  | [a], t, h => by
    rw [displayOne] at h
    split at h
    · rename_i t' ht
      cases h
      have := display_bulk a ht
      simp only [bulkL, List.length_append]
      omega
    · cases h
  | _ :: _ :: _, t, h => by cases h; exact Nat.zero_le _
termination_by structural as => as
theorem infix_bulk (o : Str) (p : Nat) : ∀ (ps : List Param) {t : Str}, displayInfix o p ps = some t →
    t.length ≤ bulkP shownLength 1 (2 + o.length) ps
  | [], t, h => by cases h; exact Nat.zero_le _
  | .mk as [] _ :: [], t, h => by
    rw [displayInfix] at h
    split at h
    · split at h
      · rename_i v hv
        cases h
        have h1 := args_bulk o p as hv
        have h2 := join_length o v
        simp only [bulkP, bulkParam]
        omega
      · cases h
    · cases h; exact Nat.zero_le _
  | .mk as (_ :: _) _ :: [], t, h => by cases h; exact Nat.zero_le _
  | .mk as [] _ :: _ :: _, t, h => by cases h; exact Nat.zero_le _
  | .mk as (_ :: _) _ :: _ :: _, t, h => by cases h; exact Nat.zero_le _
termination_by structural ps => ps
theorem args_bulk (o : Str) (p : Nat) : ∀ (as : List AST) {v : List Str}, displayArgs p as = some v →
    (v.map fun x => x.length + o.length).sum ≤ bulkL shownLength 1 (2 + o.length) as
  | [], v, h => by cases h; exact Nat.zero_le _
  | a :: as, v, h => by
    rw [displayArgs] at h
    split at h
    · cases h
    · rename_i t ht
      split at h
      · cases h
      · rename_i v' hv
        cases h
        have h1 := display_bulk a ht
        have h2 := args_bulk o p as hv
        have h3 : (if a.precedence < p then c!"(" ++ t ++ c!")" else t).length ≤ t.length + 2 := by
          split <;> simp
        simp only [List.map_cons, List.sum_cons, bulkL]
        omega
termination_by structural as => as
end

theorem shown_symbol (s : Str) : shownLength (.mkSymbol s) = s.length := by
  simp [shownLength, AST.mkSymbol, AST.display, C16_text_round_trip]

theorem fits_shown : Roomy u shownLength 1 8 where
  pads := by decide
  span := by
    rw [shown_symbol]
    decide
  factor f hf := by
    cases f with
    | int n =>
      have := numeral_length_pos n
      simp only [SFactor.value, SFactor.text, shownLength, AST.display, Option.getD_some, intStr_nat]
      omega
    | sym p =>
      have := path_length hf
      simp only [SFactor.value, SFactor.text, shown_symbol]
      omega
  atom a v hn ho hv := by
    cases a <;> simp only [SAtom.value, Option.some.injEq, reduceCtorEq, Option.ite_none_left_eq_some] at hv
    case int n => subst hv; simp only [bulk, shownLength, AST.display, Option.getD_some, intStr_nat, SAtom.text]; omega
    case dec i f =>
      subst hv
      simp only [bulk, shownLength, AST.display, Option.getD_some, decStr_literal, SAtom.text]
      omega
    case radix r k d ds =>
      rw [← hv.2]
      have h1 := numeral_hex (radix_bound ho)
      have h2 : 2 ≤ (SAtom.radix r k d ds).text.length := by rw [SAtom.text]; simp
      simp only [bulk, shownLength, AST.display, Option.getD_some, intStr_nat]
      omega
    case str s => subst hv; simp only [bulk, shownLength, AST.display, Option.getD_some, SAtom.text, quoted, List.length_cons, List.length_append]; omega
    case tagged h s => subst hv; simp only [bulk, shownLength, AST.display, Option.getD_some, SAtom.text, quoted, List.length_cons, List.length_append]; omega
    case block n s => subst hv; simp only [bulk, shownLength, AST.display, Option.getD_some, SAtom.text, blocked, List.length_append]; omega
    case taggedBlock h n s => subst hv; simp only [bulk, shownLength, AST.display, Option.getD_some, SAtom.text, blocked, List.length_append]; omega
    case back out n =>
      subst hv
      have h1 := intStr_le (-((n : Int) + 1))
      have h2 : (numeral (-((n : Int) + 1)).natAbs).length ≤ n + 1 := by
        refine numeral_le (by omega) ?_
        have := succ_lt_pow (n + 1) 10 (by decide)
        omega
      have h3 : bulk shownLength 1 (replValue out (-((n : Int) + 1))) = (intStr (-((n : Int) + 1))).length := by
        cases out <;> simp [replValue, bulk, bulkP, bulkParam, bulkL, bulkO, pad, Sym.ofStr, shownLength, AST.display]
      rw [h3, SAtom.text, List.length_replicate]
      omega
    case nth out n =>
      subst hv
      have h3 : bulk shownLength 1 (replValue out n) = (numeral n).length := by
        cases out <;> simp [replValue, bulk, bulkP, bulkParam, bulkL, bulkO, pad, Sym.ofStr, shownLength, AST.display, intStr_nat]
      rw [h3, SAtom.text, List.length_cons]
      omega
    case slot => subst hv; decide
    case slotNamed x =>
      subst hv
      simp only [bulk, bulkP, bulkParam, bulkL, bulkO, pad, Sym.ofStr, shownLength, AST.display, Option.getD_some, SAtom.text, List.length_cons]
      omega
    case slotNth n =>
      subst hv
      simp only [bulk, bulkP, bulkParam, bulkL, bulkO, pad, Sym.ofStr, shownLength, AST.display, Option.getD_some, SAtom.text, List.length_cons, intStr_nat]
      omega
    case slots => subst hv; decide
    case null =>
      subst hv
      have : bulk shownLength 1 (.mkSymbol c!"std::constant:Null") = shownLength (.mkSymbol c!"std::constant:Null") := by
        simp [bulk, AST.mkSymbol]
      rw [this, shown_symbol]
      decide
    case bool b => subst hv; cases b <;> decide
    case sym p =>
      subst hv
      have : bulk shownLength 1 (.mkSymbol p.text) = shownLength (.mkSymbol p.text) := by simp [bulk, AST.mkSymbol]
      rw [this, shown_symbol, SAtom.text]
      omega
    case prod f m l => exact absurd rfl (hn f m l)

/-! ### Magnitudes -/

/-- The number of hexadecimal digits, zero having none. -/
def hexes (n : Int) : Nat := if n = 0 then 0 else (Nat.toDigits 16 n.natAbs).length

theorem hexes_le {n : Int} {k : Nat} : hexes n ≤ k ↔ n.natAbs < 16 ^ k := by
  unfold hexes
  by_cases hn : n = 0
  · subst hn
    simp
  · rw [if_neg hn]
    cases k with
    | zero =>
      have := Nat.length_toDigits_pos (b := 16) (n := n.natAbs)
      constructor
      · intro h; omega
      · intro h; simp at h; exact absurd h hn
    | succ k => exact Nat.length_toDigits_le_iff (by decide) (by omega)

theorem lt_hexes (n : Int) : n.natAbs < 16 ^ hexes n := hexes_le.1 (Nat.le_refl _)

/-- The number of hexadecimal digits of integers. -/
def magnitude : AST → Nat
  | .integer n => hexes n
  | _ => 0

theorem hexes_numeral (n : Nat) : hexes n ≤ (numeral n).length := by
  rw [hexes_le]
  exact Nat.lt_of_lt_of_le (numeral_lt n) (Nat.pow_le_pow_left (by decide) _)

theorem fits_magnitude : Roomy u magnitude 0 1 where
  pads := by decide
  span := by decide
  factor f hf := by
    cases f with
    | int n => have := hexes_numeral n; simp only [SFactor.value, SFactor.text, magnitude]; omega
    | sym p => exact Nat.zero_le _
  atom a v hn ho hv := by
    rw [Nat.one_mul]
    cases a <;> simp only [SAtom.value, Option.some.injEq, reduceCtorEq, Option.ite_none_left_eq_some] at hv
    case int n => subst hv; exact hexes_numeral n
    case radix r k d ds =>
      rw [← hv.2]
      exact Nat.le_trans (hexes_le.2 (by rw [Int.natAbs_natCast]; exact radix_bound ho)) (Nat.sub_le _ _)
    case back out n =>
      subst hv
      have h3 : bulk magnitude 0 (replValue out (-((n : Int) + 1))) = hexes (-((n : Int) + 1)) := by
        cases out <;> simp [replValue, bulk, bulkP, bulkParam, bulkL, bulkO, pad, Sym.ofStr, magnitude]
      rw [h3, SAtom.text, List.length_replicate, hexes_le]
      have := succ_lt_pow (n + 1) 16 (by decide)
      omega
    case nth out n =>
      subst hv
      have h3 : bulk magnitude 0 (replValue out n) = hexes n := by
        cases out <;> simp [replValue, bulk, bulkP, bulkParam, bulkL, bulkO, pad, Sym.ofStr, magnitude]
      rw [h3, SAtom.text, List.length_cons]
      have := hexes_numeral n
      omega
    case slotNth n =>
      subst hv
      have := hexes_numeral n
      simp only [bulk, bulkP, bulkParam, bulkL, bulkO, pad, Sym.ofStr, magnitude, SAtom.text, List.length_cons]
      omega
    case prod f m l => exact absurd rfl (hn f m l)
    all_goals
      subst hv
      simp [bulk, bulkP, bulkParam, bulkL, bulkO, pad, Sym.ofStr, magnitude, AST.mkSymbol]

theorem bulk_call {s : Sym} {as : List AST} {o : BMap AST AST} {p : Position} :
    bulk m g (.function s [.mk as o p]) = bulkL m g (pad g s) as + bulkO m g o := by
  simp [bulk, bulkP, bulkParam]

/-! ### The property -/

/-- **C81**.  A parsed expression is printed with at most eight characters for each character of the text. -/
theorem C81_printed (L : Lawful u) (c : Cfg) {a : AST} {t : Str} (h : parseText u c = .ok a) (ht : a.display = some t) :
    t.length ≤ 8 * c.input.length := by
  rcases C56_answers_are_readings L c a h with ⟨rfl, -⟩ | ⟨w, x, r, hc, -, hr⟩
  · simp [AST.display] at ht
  · have h1 := (bulk_expr (u := u) fits_shown hr).2
    have h2 := display_bulk a ht
    rw [hc]
    simp only [List.length_append]
    omega

/-- The length of the decimal form of a number, from its magnitude. -/
theorem integer_shown {z : Int} {c : Nat} {t : Str} (h : z.natAbs < 16 ^ c) (ht : (AST.integer z).display = some t) :
    t.length ≤ 2 * c + 2 := by
  simp only [AST.display, Option.some.injEq] at ht
  subst ht
  have h1 := intStr_le z
  have h2 := numeral_hex h
  omega

theorem pow_lt_hex {x k a : Nat} (h : x < 16 ^ a) : x ^ k < 16 ^ (a * k + 1) := by
  have : x ^ k ≤ (16 ^ a) ^ k := Nat.pow_le_pow_left (Nat.le_of_lt h) k
  rw [← Nat.pow_mul] at this
  exact Nat.lt_of_le_of_lt this (Nat.pow_lt_pow_right (by decide) (by omega))

theorem mul_lt_hex {x y a b : Nat} (hx : x < 16 ^ a) (hy : y < 16 ^ b) : x * y < 16 ^ (a + b) := by
  rw [Nat.pow_add]
  exact Nat.mul_lt_mul'' hx hy

theorem utf8Len_le (t : Str) : utf8Len t ≤ 4 * t.length := by
  induction t with
  | nil => exact Nat.le_refl _
  | cons c t ih =>
    have := Char.utf8Size_le_four c
    simp only [utf8Len, List.map_cons, List.sum_cons, List.length_cons] at ih ⊢
    omega

theorem fib_le_two_pow (k : Nat) : Nat.fib k ≤ 2 ^ k := by
  induction k using Nat.strong_induction_on with
  | _ k ih =>
    match k with
    | 0 => decide
    | 1 => decide
    | k + 2 =>
      have h1 := ih k (by omega)
      have h2 := ih (k + 1) (by omega)
      rw [Nat.fib_add_two, Nat.pow_succ]
      rw [Nat.pow_succ] at h2 ⊢
      omega

/-- **C81**.  An answer has at most `8 (n + 1) M` characters, where `n` is the length of the text and `M` is the lesser of
`16 ^ n` and `2 ^ 64`. -/
theorem C81_answers (L : Lawful u) (msg : Str → Str) (w : Width) {s t : Str} (h : Answers u msg w s (.ok t)) :
    t.length ≤ 8 * (s.length + 1) * min (16 ^ s.length) (2 ^ 64) := by
  obtain ⟨v, r, hv, hd, ht⟩ := (C64_exact L msg w s t).1 h
  rcases C56_answers_are_readings L _ v hv with ⟨rfl, -⟩ | ⟨b, x, rest, hc, -, hr⟩
  · cases hd with
    | literal => simp [AST.display] at ht
    | product h | sum h | power h | largePower h | factorial h | fibonacci h | decimal _ h | first h | last h | length h =>
      obtain ⟨s, o, p, -, e⟩ := h.inv
      cases e
  have hx : x.length ≤ s.length := by
    have : s = b ++ (x ++ rest) := hc
    rw [this]
    simp only [List.length_append]
    omega
  have h1 := (bulk_expr (u := u) fits_shown hr).2
  have h2 := (bulk_expr (u := u) fits_magnitude hr).2
  generalize hM : min (16 ^ s.length) (2 ^ 64) = M
  have hpos : 1 ≤ M := by
    rw [← hM]
    exact Nat.le_min.2 ⟨Nat.one_le_pow _ _ (by decide), by decide⟩
  generalize s.length = n at hx hM ⊢
  -- bounds for numbers below the limits
  have below : ∀ {k b : Nat}, k < 16 ^ b → b ≤ n → k < 2 ^ 64 → k ≤ M := by
    intro k b hk hb hk'
    rw [← hM]
    exact Nat.le_min.2 ⟨Nat.le_trans (Nat.le_of_lt hk) (Nat.pow_le_pow_right (by decide) hb), Nat.le_of_lt hk'⟩
  -- bounds for lengths
  have linear : ∀ {l : Nat}, l ≤ 8 * n + 8 → l ≤ 8 * (n + 1) * M := fun h =>
    Nat.le_trans h (Nat.le_trans (by omega) (Nat.le_mul_of_pos_right _ hpos))
  have times : ∀ {a k l : Nat}, a ≤ n → k ≤ M → l ≤ 2 * (a * k + 1) + 2 → l ≤ 8 * (n + 1) * M := by
    intro a k l ha hk hl
    have h3 : a * k ≤ n * M := Nat.mul_le_mul ha hk
    have h4 : 8 * (n + 1) * M = 8 * (n * M) + 8 * M := by ring
    omega
  have word : ∀ {k : Nat}, k < 2 ^ (w.bits - 1) → k < 2 ^ 64 := fun h =>
    Nat.lt_of_lt_of_le h (Nat.pow_le_pow_right (by decide) (by cases w <;> decide))
  cases hd with
  | literal _ =>
    have := display_bulk v ht
    exact linear (by omega)
  | @product a c h =>
    obtain ⟨f, o, p, -, rfl⟩ := h.inv
    rw [bulk_call] at h2
    simp only [bulkL, bulk, magnitude] at h2
    have h3 : (a * c).natAbs < 16 ^ (hexes a + hexes c) := by
      rw [Int.natAbs_mul]
      exact mul_lt_hex (lt_hexes a) (lt_hexes c)
    have := integer_shown h3 ht
    exact linear (by omega)
  | @sum a c h =>
    obtain ⟨f, o, p, -, rfl⟩ := h.inv
    rw [bulk_call] at h2
    simp only [bulkL, bulk, magnitude] at h2
    have h3 : (a + c).natAbs < 16 ^ (hexes a + hexes c + 1) := by
      have k1 := lt_hexes a
      have k2 := lt_hexes c
      have k3 : 16 ^ hexes a ≤ 16 ^ (hexes a + hexes c) := Nat.pow_le_pow_right (by decide) (by omega)
      have k4 : 16 ^ hexes c ≤ 16 ^ (hexes a + hexes c) := Nat.pow_le_pow_right (by decide) (by omega)
      rw [Nat.pow_succ]
      omega
    have := integer_shown h3 ht
    exact linear (by omega)
  | @power a k h hk =>
    obtain ⟨f, o, p, -, rfl⟩ := h.inv
    rw [bulk_call] at h2
    simp only [bulkL, bulk, magnitude] at h2
    have h3 : (a ^ k).natAbs < 16 ^ (hexes a * k + 1) := by
      rw [Int.natAbs_pow]
      exact pow_lt_hex (lt_hexes a)
    have h4 : k ≤ M := below (b := hexes k) (by simpa using lt_hexes (k : Int)) (by omega) (by
      have : (k : Int) < ((2 ^ 64 : Nat) : Int) := by exact_mod_cast hk
      exact_mod_cast this)
    exact times (a := hexes a) (by omega) h4 (integer_shown h3 ht)
  | @largePower a k h hk =>
    obtain ⟨f, o, p, -, rfl⟩ := h.inv
    rw [bulk_call] at h2
    simp only [bulkL, bulk, magnitude] at h2
    have := integer_shown (lt_hexes a) ht
    exact linear (by omega)
  | @factorial k as h hk =>
    obtain ⟨f, o, p, -, rfl⟩ := h.inv
    rw [bulk_call] at h2
    simp only [bulkL, bulk, magnitude] at h2
    have h0 : k < 16 ^ hexes k := by simpa using lt_hexes (k : Int)
    have h3 : ((k.factorial : Nat) : Int).natAbs < 16 ^ (hexes k * k + 1) := by
      rw [Int.natAbs_natCast]
      exact Nat.lt_of_le_of_lt (Nat.factorial_le_pow k) (pow_lt_hex h0)
    exact times (a := hexes k) (by omega) (below h0 (by omega) (word hk)) (integer_shown h3 ht)
  | @fibonacci k as h hk =>
    obtain ⟨f, o, p, -, rfl⟩ := h.inv
    rw [bulk_call] at h2
    simp only [bulkL, bulk, magnitude] at h2
    have h0 : k < 16 ^ hexes k := by simpa using lt_hexes (k : Int)
    have h3 : ((Nat.fib k : Nat) : Int).natAbs < 16 ^ (1 * k + 1) := by
      rw [Int.natAbs_natCast]
      exact Nat.lt_of_le_of_lt (fib_le_two_pow k) (pow_lt_hex (x := 2) (by decide))
    have hM' := below h0 (by omega) (word hk)
    have h4 := integer_shown h3 ht
    have h5 : M ≤ (n + 1) * M := Nat.le_mul_of_pos_left _ (by omega)
    have h6 : 8 * (n + 1) * M = 8 * ((n + 1) * M) := by ring
    omega
  | decimal hf h =>
    obtain ⟨f, o, p, -, rfl⟩ := h.inv
    simp only [bulk_call, bulkL] at h1
    have := display_bulk _ ht
    exact linear (by omega)
  | first h => cases ht; exact linear (by simp)
  | last h => cases ht; exact linear (by simp)
  | @length q as h =>
    obtain ⟨f, o, p, -, rfl⟩ := h.inv
    rw [bulk_call] at h1
    simp only [bulkL, bulk, shownLength, AST.display, Option.getD_some] at h1
    have h3 := utf8Len_le q
    have h4 : ((utf8Len q : Nat) : Int).natAbs < 16 ^ (n + 2) := by
      rw [Int.natAbs_natCast]
      have k1 : n < 16 ^ n := succ_lt_pow n 16 (by decide)
      have k2 : 16 ^ (n + 2) = 16 ^ n * 256 := by rw [Nat.pow_add]
      omega
    have := integer_shown h4 ht
    exact linear (by omega)

theorem numeral_ten (k : Nat) : (numeral (10 ^ k)).length = k + 1 := by
  have h1 : (numeral (10 ^ k)).length ≤ k + 1 := numeral_le (by omega) (Nat.pow_lt_pow_right (by decide) (by omega))
  have h2 := (Nat.pow_lt_pow_iff_right (a := 10) (by decide)).1 (numeral_lt (10 ^ k))
  omega

/-- **C81**.  And there are such answers: `10^10…0` with `k` zeros at the end, for `k` up to 19, is answered with `10 ^ k + 1`
characters. -/
theorem C81_large (L : Lawful u) (msg : Str → Str) (w : Width) {k : Nat} (hk : k ≤ 19) :
    ∃ s t : Str, Answers u msg w s (.ok t) ∧ s.length = k + 4 ∧ t.length = 10 ^ k + 1 := by
  have h1 := C54_power L msg w (.mk [] (.atom (.int 10)) []) (.mk [] (.atom (.int (10 ^ k))) []) [] [] (intBinary_ok 10 (10 ^ k)
    blank_nil blank_nil (by decide) (fun h => nomatch h)) (wl := []) (wr := []) blank_nil blank_nil
    (by rw [binaryText, intTerm_text]; exact numeral_wordless 10 _) (a := 10) (n := 10 ^ k)
    (Nat.lt_of_le_of_lt (Nat.pow_le_pow_right (by decide) hk) (by decide)) (intTerm_value 10) (intTerm_value (10 ^ k))
  rw [binaryText, intTerm_text, intTerm_text] at h1
  have h4 : intStr ((10 : Int) ^ (10 ^ k)) = numeral (10 ^ 10 ^ k) := by
    rw [← intStr_nat]
    push_cast
    rfl
  rw [h4] at h1
  refine ⟨_, _, h1, ?_, numeral_ten _⟩
  have h5 : (numeral 10).length = 2 := by decide
  simp only [List.nil_append, List.append_nil, List.length_append, List.length_cons, numeral_ten, h5]
  omega

/-! ### Concrete cases -/

/-- Two characters are printed as three. -/
example : (match parseText asciiUni ⟨[], c!"2a", []⟩ with | .ok a => a.display | _ => none) = some c!"2*a" := by decide +kernel

/-- No text of one character is answered with more than 256. -/
example (msg : Str → Str) (w : Width) (c : Char) (t : Str) (h : Answers asciiUni msg w [c] (.ok t)) : t.length ≤ 256 :=
  Nat.le_trans (C81_answers lawful_asciiUni msg w h) (by simp)

/-- Twenty-three characters ask for ten million million million digits. -/
example (msg : Str → Str) (w : Width) : ∃ s t : Str, Answers asciiUni msg w s (.ok t) ∧ s.length = 23 ∧
    t.length = 10000000000000000001 :=
  C81_large lawful_asciiUni msg w (k := 19) (by decide)

end SM.Props
