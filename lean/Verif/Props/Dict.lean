import Verif.Props.Call
import Verif.Props.Block
import Verif.Props.Value
/-
Dictionaries and derivatives: both are read, and from both no tree is built.
-/
namespace SM.Props
open SM SM.Peg

variable {u : Uni} {v : Env}

/-! ### Keys and values -/

/-- A key of a dictionary: a number, a name, or a string without a tag. -/
inductive SKey where
  | int (n : Nat)
  | word (x : Str)
  | str (s : Str)
  | block (n : Nat) (s : Str)

/-- How a key is written. -/
def SKey.text : SKey → Str
  | .int n => numeral n
  | .word x => x
  | .str s => quoted s
  | .block n s => blocked n s

/-- Well-formed keys. -/
def SKey.Ok (u : Uni) : SKey → Prop
  | .int _ => True
  | .word x => IsIdent u x
  | .str s => contentOk s = true
  | .block n s => BlockOk n s

theorem eats_String_block (L : Lawful u) (hv : v.silent = false) {n : Nat} {s : Str} (hs : BlockOk n s) (rest : Str) :
    Eats u v (.call .String) (blocked n s) rest
      (One .String (blocked n s) (One .StringBlock (blocked n s) (BlockPairs s))) := by
  have hv' := compound_emits hv
  obtain ⟨r0, h0⟩ := blocked_head n s
  refine eats_call (eats_atomic (eats_rule hv' (eats_seq ?_)))
  refine (eats_cat (x := []) (eats_opt_nil (e := .call .SYMBOL) (by rw [h0]; exact fails_plain L (by decide) _))
    (eats_alt_left (eats_restore (eats_StringBlock (v := { v with atomicity := .compound }) hv hs rest)))).imp fun q => nil_then

theorem SKey.head (k : SKey) (hk : k.Ok u) : ∃ c r, k.text = c :: r ∧ (IdStart u c ∨ c ∈ operandChars) := by
  cases k with
  | int n =>
    obtain ⟨c, r, e, hc⟩ := (numeral_int n).head
    exact ⟨c, r, e, .inr (by rw [operandChars]; exact List.mem_append_left _ (digit_mem hc))⟩
  | word x =>
    obtain ⟨c, r, e, hc⟩ := IsIdent.start hk
    exact ⟨c, r, e, .inl hc⟩
  | str s => exact ⟨'"', _, rfl, .inr (by decide)⟩
  | block n s =>
    obtain ⟨r, e⟩ := blocked_head n s
    exact ⟨'"', r, e, .inr (by decide)⟩

theorem eats_key (L : Lawful u) (k : SKey) (hk : k.Ok u) {rest : Str} (hr : NoCont u rest) (hq : ∀ r, rest ≠ '"' :: r) :
    Eats u vN (.call .key_valid) k.text rest (One .key_valid k.text fun _ => True) := by
  refine eats_call (eats_atomic (eats_rule (v := vN) rfl ?_))
  cases k with
  | int n =>
    exact (eats_alt_left (eats_alt_left (eats_Integer rfl (numeral_int n) (hr.intEnd L _)))).imp fun _ _ => trivial
  | word x =>
    refine (eats_alt_left (eats_alt_right ?_ (eats_SYMBOL L rfl hk hr))).imp fun _ _ => trivial
    obtain ⟨c, r, e, hc⟩ := IsIdent.start hk
    show Fails u vN (.call .Integer) (x ++ rest)
    rw [e]
    refine fails_Integer fun d t e' hd => ?_
    cases e'
    exact idStart_not_digit L hc hd
  | str s =>
    refine (eats_alt_right (fails_alt ?_ ?_) (eats_restore (eats_String L rfl hk hq))).imp fun _ _ => trivial
    · exact fails_plain L (by decide) _
    · exact fails_plain L (by decide) _
  | block n s =>
    obtain ⟨r, e⟩ := blocked_head n s
    refine (eats_alt_right (fails_alt ?_ ?_) (eats_restore (eats_String_block L rfl hk rest))).imp fun _ _ => trivial
    · show Fails u vN (.call .Integer) (blocked n s ++ rest)
      rw [e]; exact fails_plain L (by decide) _
    · show Fails u vN (.call .SYMBOL) (blocked n s ++ rest)
      rw [e]; exact fails_plain L (by decide) _

/-- How a key and a value are written. -/
def pairText (k : SKey) (w1 : Str) (b : Bool) (w2 x : Str) : Str := k.text ++ (w1 ++ (colonText b ++ (w2 ++ x)))

/-- No tree is built from a key and its value. -/
abbrev noTree : Cfg → Pair R → Option AST := fun _ _ => none

/-- A key and a value: a text that `key_value` consumes in front of a comma or a closing bracket. -/
abbrev IsPair (u : Uni) (solo : Bool) (x : Str) : Prop :=
  (∃ c r, x = c :: r ∧ (IdStart u c ∨ c ∈ operandChars)) ∧
    IsItem u (.call .key_value) solo x (DenB erase .key_value noTree none)

theorem head_term {x : Str} (h : ∃ c r, x = c :: r ∧ (IdStart u c ∨ c ∈ operandChars)) :
    ∃ c r, x = c :: r ∧ (IdStart u c ∨ c ∈ termChars) := by
  obtain ⟨c, r, e, h⟩ := h
  exact ⟨c, r, e, h.imp_right fun h => List.mem_append_left _ h⟩

theorem pair_of (L : Lawful u) {k : SKey} (hk : k.Ok u) {w1 : Str} (hw1 : Blank u w1) (b : Bool) {w2 : Str}
    (hw2 : Blank u w2) {solo : Bool} {x : Str} {d : Option AST} (hx : IsExpr u solo x d) :
    IsPair u solo (pairText k w1 b w2 x) := by
  have hh : ∃ c r, pairText k w1 b w2 x = c :: r ∧ (IdStart u c ∨ c ∈ operandChars) := by
    obtain ⟨c, r, e, hc⟩ := k.head hk
    exact ⟨c, _, by rw [pairText, e]; rfl, hc⟩
  refine ⟨hh, term_head_solid L (head_term hh), fun w r hw hr => ?_⟩
  have h0 := (hx.item L).eats w r hw hr
  have hc := colon_close b (w2 ++ ((x ++ taken solo w) ++ (left solo w ++ r)))
  have hsx : Solid u ((x ++ taken solo w) ++ (left solo w ++ r)) := by
    rw [List.append_assoc]; exact term_head_solid L hx.head _
  have hq : ∀ r', w1 ++ (colonText b ++ (w2 ++ ((x ++ taken solo w) ++ (left solo w ++ r)))) ≠ '"' :: r' := by
    refine blank_first L hw1 (by decide) (by decide) (by decide) fun _ r' e => ?_
    cases b <;> cases e
  have h1 := eats_cat (eats_cat (eats_cat (eats_cat (eats_key L k hk
    (noCont_blank L hw1 (noCont_close L hc)) hq) (eats_skip L rfl hw1 (close_solid L hc)))
    (eats_Colon rfl b _)) (eats_skip L rfl hw2 hsx)) h0
  refine (eats_call (eats_atomic (eats_rule (v := vN) rfl (eats_seq (h1.cast ?_))))).imp ?_
  · simp [pairText]
  · rintro q ⟨a, b', l, rfl, _⟩
    exact ⟨_, rfl, rfl, fun c => rfl⟩

/-! ### Dictionaries -/

theorem eats_node_dict (L : Lawful u) {x rest : Str} {P : List (Pair R) → Prop}
    (h : Eats u vN (.cat (.cat (.str c!"{") (.call .skip)) (.alt (.str c!"}") (.restore (.seq (.cat (.cat (.cat (.cat
      (.cat (.cat (.call .key_value) (.call .skip)) (sepMany (.call .Comma) (.call .key_value))) (.call .skip))
      (.opt (.call .Comma))) (.call .skip)) (.str c!"}")))))) ('{' :: x) rest P) :
    Eats u vC (.call .node) ('{' :: x) rest (Den .node buildNode none) := by
  refine eats_node_mark L rfl (by decide) (eats_data_of rfl (eats_alt_left (eats_alt_left (eats_alt_left
    (eats_alt_left (eats_alt_left (eats_alt_left (eats_alt_left
      (eats_restore (eats_call (eats_atomic (eats_rule (v := vN) rfl (eats_seq h)))))))))))) ?_)
  rintro q ⟨a', b', l, rfl, hl⟩
  refine ⟨_, rfl, fun c a b => ?_⟩
  simp [buildData, Pair.rule]

theorem eats_dict_nil (L : Lawful u) {w : Str} (hw : Blank u w) (rest : Str) :
    Eats u vC (.call .node) ('{' :: (w ++ ['}'])) rest (Den .node buildNode none) := by
  refine eats_node_dict L ((eats_cat (eats_cat (eats_str ['{'] _) (eats_skip L rfl hw
    (closers_solid L (k := '}') (by decide) rest))) (eats_alt_left (eats_str ['}'] rest))).cast ?_)
  simp

/-- The empty dictionary is an operand, from which no tree is built. -/
theorem node_dict_nil (L : Lawful u) {w : Str} (hw : Blank u w) : IsNode u false ('{' :: (w ++ ['}'])) none where
  head := ⟨'{', _, rfl, .inr (by decide)⟩
  kv rest _ _ := fails_kv_mark L ⟨'{', _, rfl, by decide⟩ rest
  eats rest _ _ := eats_dict_nil L hw rest

theorem eats_dict (L : Lawful u) {w : Str} (hw : Blank u w) {solo : Bool} {x wb : Str}
    (hx : IsPair u solo x) (hwb : Blank u wb) {l : List (More AST)}
    (hl : ∀ m ∈ l, Blank u m.wa ∧ Blank u m.wb ∧ m.d = none ∧ IsPair u m.solo m.x) {o : Option (Bool × Str)}
    (ho : ∀ b w, o = some (b, w) → Blank u w) (rest : Str) :
    Eats u vC (.call .node) ('{' :: (w ++ (x ++ (wb ++ moresText l (trailText o ++ ['}']))))) rest
      (Den .node buildNode none) := by
  have h1 := eats_items (er := erase) (r := .key_value) (build := noTree) (e0 := .call .key_value)
    (e := .call .key_value) L
    (k := '}') (by decide) (fun t => fails_plain L (by decide) t) ho (l := l)
    (fun m hm => ⟨(hl m hm).1, (hl m hm).2.1, by rw [(hl m hm).2.2.1]; exact (hl m hm).2.2.2.2⟩) hwb (t := rest) (s := solo) (x := x)
    (ds := [none])
    ((hx.2.eats wb _ hwb (mores_head (by decide) l o rest)).imp (by
      rintro q ⟨p, rfl, hp1, hp2⟩
      exact .item hp1 hp2 .nil))
  have hs : ∀ z, Solid u ((x ++ (wb ++ moresText l (trailText o ++ ['}']))) ++ z) := by
    intro z
    rw [List.append_assoc]
    exact hx.2.solid _
  refine eats_node_dict L ((eats_cat (eats_cat (eats_str ['{'] _) (eats_skip L rfl hw (hs rest)))
    (eats_alt_right ?_ (eats_restore (eats_seq h1)))).cast ?_)
  · refine fails_str ?_
    obtain ⟨c, t, hc, hcc⟩ := hx.1
    rw [hc]
    have : '}' ≠ c := by
      rintro rfl
      rcases hcc with h | h
      · exact not_idStart L (by decide) (by decide) (by decide) h
      · revert h; decide
    simp [strip, this]
  · simp

/-- A dictionary is an operand, from which no tree is built. -/
theorem node_dict (L : Lawful u) {w : Str} (hw : Blank u w) {solo : Bool} {x wb : Str}
    (hx : IsPair u solo x) (hwb : Blank u wb) {l : List (More AST)}
    (hl : ∀ m ∈ l, Blank u m.wa ∧ Blank u m.wb ∧ m.d = none ∧ IsPair u m.solo m.x) {o : Option (Bool × Str)}
    (ho : ∀ b w, o = some (b, w) → Blank u w) :
    IsNode u false ('{' :: (w ++ (x ++ (wb ++ moresText l (trailText o ++ ['}']))))) none where
  head := ⟨'{', _, rfl, .inr (by decide)⟩
  kv rest _ _ := fails_kv_mark L ⟨'{', _, rfl, by decide⟩ rest
  eats rest _ _ := eats_dict L hw hx hwb hl ho rest

/-! ### Derivatives -/

/-- Primes, white space and an argument list. -/
abbrev primed (k : Nat) (a : ArgList) : Str := '\'' :: List.replicate k '\'' ++ (a.h ++ a.y)

theorem eats_node_deriv (L : Lawful u) {p : Path} (hp : p.Ok u) (k : Nat) {a : ArgList}
    (ha : (∀ c ∈ a.h, HWs u c) ∧ IsApply u a.y a.d) (rest : Str) :
    Eats u vC (.call .node) (p.text ++ primed k a) rest (Den .node buildNode none) := by
  obtain ⟨z, hz⟩ := ha.2.head
  have nc : ∀ r, NoCont u ('\'' :: r) := by
    intro r c t e
    cases e
    rw [L.plain _ _ (by decide)]; decide
  have np : ∀ r, NoPath u ('\'' :: r) := fun r => noPath_cons (by decide) (by decide) _
  have hq : ∀ r, (a.h ++ a.y) ++ rest ≠ '\'' :: r := by
    intro r e
    rw [hz] at e
    cases hh : a.h with
    | nil => rw [hh] at e; cases e
    | cons c t =>
      rw [hh] at e
      cases e
      exact not_hws L (by decide) (ha.1 '\'' (by rw [hh]; simp))
  have hsym : Eats u vC (.call .Symbol) p.text (('\'' :: List.replicate k '\'') ++ ((a.h ++ a.y) ++ rest)) _ :=
    eats_Symbol L hp (nc _) (np _) (v := vC) rfl
  have hnh : ∀ c r, a.y ++ rest = c :: r → ¬ HWs u c := by
    intro c r e
    rw [hz] at e
    cases e
    exact not_hws L (by decide)
  have h1 := eats_cat (eats_cat hsym (eats_Derivative (v := vC) rfl k hq)) (eats_argList L ha rest)
  have h4 := eats_call (r := .derivative) (v := vC) (eats_atomic (eats_rule (v := vC) rfl (eats_seq (eats_assoc h1))))
  apply eats_call
  show Eats u vC body_node _ _ _
  unfold body_node
  refine ((eats_rule (v := vC) rfl (eats_alt_left (eats_alt_left (eats_alt_right
    (fails_alt (fails_restore (fails_seq ?_)) (fails_restore ?_)) (eats_restore h4))))).cast ?_).imp ?_
  · refine breaks_cat (breaks_cat (breaks_cat (breaks_cat (fails_str ?_).breaks)))
    obtain ⟨c, r, h, hc⟩ := hp.start
    have : '(' ≠ c := by
      rintro rfl
      exact not_idStart L (by decide) (by decide) (by decide) hc
    simp [h, strip, this]
  · rw [List.append_assoc, List.append_assoc]
    refine fails_apply_call L hp (nc _) (np _) ?_
    have : EndsIn u ['\''] (('\'' :: List.replicate k '\'') ++ ((a.h ++ a.y) ++ rest)) :=
      ⟨[], _, rfl, by simp, .inr ⟨'\'', _, rfl, by simp⟩⟩
    refine this.breaks L (by decide) fun z hz => fails_apply ?_
    rintro r rfl
    rcases hz with h | ⟨c, t, h, hc⟩
    · cases h
    · cases h; revert hc; decide
  · simp [primed]
  · rintro q ⟨a1, b1, k1, rfl, ⟨a2, b2, k2, rfl, _⟩⟩
    refine ⟨_, rfl, rfl, fun c => ?_⟩
    rw [buildNode]
    simp [Pair.rule]

/-- A derivative is an operand, from which no tree is built. -/
theorem node_deriv (L : Lawful u) {p : Path} (hp : p.Ok u) (k : Nat) {a : ArgList}
    (ha : (∀ c ∈ a.h, HWs u c) ∧ IsApply u a.y a.d) : IsNode u false (p.text ++ primed k a) none := by
  refine ⟨?_, fun rest hr _ => eats_node_deriv L hp k ha rest, fun rest hr hc => ?_⟩
  · obtain ⟨c, r, h, hc⟩ := hp.start
    exact ⟨c, r ++ primed k a, by rw [h]; rfl, .inl hc⟩
  · rw [List.append_assoc]
    refine noCont_path_kv L hp (rest := primed k a ++ rest) ?_ ?_
    · intro c t e
      cases e
      rw [L.plain _ _ (by decide)]; decide
    · refine ⟨[], _, rfl, blank_nil, solid_cons L (by decide) (by decide) (by decide) (by decide) _, ?_⟩
      intro c r e
      cases e
      decide

end SM.Props
