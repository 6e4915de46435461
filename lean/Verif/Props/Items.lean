import Verif.Props.Expr
/-
Comma-separated items between brackets: parentheses, lists, indices, argument lists, calls.
-/
namespace SM.Props
open SM SM.Peg

variable {u : Uni} {v : Env}

/-! ### Parentheses -/

/-- Inside a compound-atomic rule nothing is skipped. -/
theorem eats_skip_off (hv : v.atomicity ≠ .non) (rest : Str) : Eats u v (.call .skip) [] rest Nil := by
  apply eats_call
  show Eats u v body_skip _ _ _
  unfold body_skip
  intro pos stack queue
  refine ⟨[], rfl, ?_⟩
  rw [sem_ifNon, if_neg hv]
  simp [utf8Len]

theorem follow_close (L : Lawful u) {w r : Str} (hw : Blank u w) (hr : HeadIn [')', ',', '，', ']', '}', ';', '；'] r) :
    Follow u (w ++ r) := by
  have ne : ∀ d, d ∉ [')', ',', '，', ']', '}', ';', '；'] → ∀ t, r ≠ d :: t := by
    rintro d hd t rfl
    rcases hr with h | ⟨c, t', h, hc⟩
    · cases h
    · cases h; exact hd hc
  refine ⟨blank_endsIn (by decide) hw (hr.mono (by decide)), noPath_first ?_ ?_⟩
  · exact blank_first L hw (by decide) (by decide) (by decide) fun _ => ne _ (by decide)
  · exact blank_first L hw (by decide) (by decide) (by decide) fun _ => ne _ (by decide)

theorem eats_node_paren (L : Lawful u) {solo : Bool} {x w : Str} {d : Option AST} (hx : IsExpr u solo x d)
    (hw : Blank u w) (hs : solo = true ∨ w = []) (rest : Str) :
    Eats u vC (.call .node) ('(' :: (x ++ (w ++ [')']))) rest (Den .node buildNode d) := by
  apply eats_call
  show Eats u vC body_node _ _ _
  unfold body_node
  have h0 := hx.eats vC rfl w (')' :: rest) hw (stop_close L (.inr ⟨_, _, rfl, by decide⟩))
    (follow_close L hw (.inr ⟨_, _, rfl, by decide⟩))
  have e1 : taken solo w = w ∧ left solo w = [] := by
    rcases hs with h | h <;> subst h
    · exact ⟨rfl, rfl⟩
    · cases solo <;> exact ⟨rfl, rfl⟩
  rw [e1.1, e1.2] at h0
  refine (eats_rule (v := vC) rfl (P := Den .expr buildExpr d) ?_).imp ?_
  · refine eats_alt_left (eats_alt_left (eats_alt_left (eats_alt_left (eats_restore (eats_seq ?_)))))
    have h1 := eats_cat (eats_cat (eats_cat (eats_cat (eats_str ['('] (x ++ w ++ ')' :: rest))
      (eats_skip_off (v := vC) (by decide) (x ++ w ++ ')' :: rest))) h0)
      (eats_skip_off (v := vC) (by decide) (')' :: rest))) (eats_str [')'] rest)
    refine (h1.cast (by simp)).imp ?_
    rintro q ⟨a, b, rfl, ⟨a1, b1, rfl, ⟨a2, b2, rfl, ⟨a3, b3, rfl, h5, h6⟩, h4⟩, h3⟩, h2⟩
    rw [show b = [] from h2, show b1 = [] from h3, show a3 = [] from h5, show b3 = [] from h6]
    simpa using h4
  · rintro q ⟨a, b, k, rfl, p, rfl, hp1, hp2⟩
    refine ⟨_, rfl, rfl, fun c => ?_⟩
    rw [buildNode, if_pos hp1]
    exact hp2 c

/-- An expression in parentheses is an operand.  No blank space is allowed after the opening parenthesis; before
the closing one it is allowed only if the expression has no operators. -/
theorem node_paren (L : Lawful u) {solo : Bool} {x w : Str} {d : Option AST} (hx : IsExpr u solo x d)
    (hw : Blank u w) (hs : solo = true ∨ w = []) : IsNode u false ('(' :: (x ++ (w ++ [')']))) d where
  head := ⟨'(', _, rfl, .inr (by decide)⟩
  kv rest _ _ := fails_kv_mark L ⟨'(', _, rfl, by decide⟩ rest
  eats rest _ _ := eats_node_paren L hx hw hs rest

/-! ### Items -/

/-- One pair of the rule `r`, from which `build` makes `d` up to `er`. -/
def DenB {β : Type} (er : β → β) (r : R) (build : Cfg → Pair R → Option β) (d : Option β) (q : List (Pair R)) : Prop :=
  ∃ p, q = [p] ∧ p.rule = r ∧ ∀ c, (build c p).map er = d

/-- What may follow an item. -/
def itemEnds : List Char := [',', '，', ')', ']', '}']

/-- An item: a text that `e` consumes in front of a comma or a closing bracket. -/
structure IsItem (u : Uni) (e : PE R) (solo : Bool) (x : Str) (P : List (Pair R) → Prop) : Prop where
  solid : ∀ rest, Solid u (x ++ rest)
  eats : ∀ w r, Blank u w → HeadIn itemEnds r → Eats u vN e (x ++ taken solo w) (left solo w ++ r) P

/-- A comma, blank space, an item, and the blank space after it. -/
structure More (β : Type) where
  b : Bool
  wa : Str
  x : Str
  wb : Str
  solo : Bool
  d : Option β

/-- The text of further items, and what follows. -/
def moresText {β : Type} : List (More β) → Str → Str
  | [], t => t
  | m :: l, t => commaText m.b ++ (m.wa ++ (m.x ++ (m.wb ++ moresText l t)))

/-- Further items as links. -/
def More.link {β : Type} (P : Option β → List (Pair R) → Prop) (m : More β) : Link :=
  ⟨commaText m.b, m.wa, m.x, m.wb, m.solo, One .Comma (commaText m.b) Nil, P m.d⟩

/-- Further items that are read as intended. -/
def MoresOk {β : Type} (u : Uni) (e : PE R) (P : Option β → List (Pair R) → Prop) (l : List (More β)) : Prop :=
  ∀ m ∈ l, Blank u m.wa ∧ Blank u m.wb ∧ IsItem u e m.solo m.x (P m.d)

theorem mores_text {β : Type} (P : Option β → List (Pair R) → Prop) (l : List (More β)) (t : Str) :
    after (l.map (More.link P)) t = moresText l t := by
  induction l with
  | nil => rfl
  | cons m l ih => simp only [List.map_cons, More.link, after, moresText, ih]

theorem mores_head {β : Type} {k : Char} (hk : k ∈ closers) (l : List (More β)) (o : Option (Bool × Str)) (t : Str) :
    HeadIn itemEnds (moresText l (trailText o ++ k :: t)) := by
  have hc : ∀ b z, HeadIn itemEnds (commaText b ++ z) := by
    intro b z
    cases b
    · exact .inr ⟨',', z, rfl, by decide⟩
    · exact .inr ⟨'，', z, rfl, by decide⟩
  cases l with
  | cons m l => exact hc _ _
  | nil =>
    cases o with
    | none =>
      have key : ∀ k ∈ closers, k ∈ itemEnds := by decide
      exact .inr ⟨k, t, rfl, key k hk⟩
    | some m =>
      obtain ⟨b, w⟩ := m
      show HeadIn itemEnds ((commaText b ++ w) ++ _)
      rw [List.append_assoc]
      exact hc _ _

theorem itemEnds_solid (L : Lawful u) {z : Str} (h : HeadIn itemEnds z) : Solid u z :=
  solid_head L h (by decide)

theorem mores_links {β : Type} (L : Lawful u) {e : PE R} {P : Option β → List (Pair R) → Prop} {k : Char}
    (hk : k ∈ closers) {o : Option (Bool × Str)} {t : Str} :
    ∀ l : List (More β), MoresOk u e P l →
      LinksOk u (.call .Comma) e (l.map (More.link P)) (trailText o ++ k :: t) := by
  intro l
  induction l with
  | nil => exact fun _ => True.intro
  | cons m l ih =>
    intro h
    obtain ⟨h1, h2, h3⟩ := h m (by simp)
    refine ⟨⟨eats_Comma rfl m.b _, h1, h3.solid _, ?_, h2, ?_⟩, ih fun m' hm => h m' (by simp [hm])⟩
    · rw [mores_text]
      exact h3.eats _ _ h2 (mores_head hk l o t)
    · rw [mores_text]
      exact itemEnds_solid L (mores_head hk l o t)

/-- The pairs of items: commas, and pairs of the rule `r` with the values `ds`. -/
inductive Vals {β : Type} (er : β → β) (r : R) (build : Cfg → Pair R → Option β) : List (Pair R) → List (Option β) → Prop
  | nil : Vals er r build [] []
  | comma {p q ds} : p.rule = .Comma → Vals er r build q ds → Vals er r build (p :: q) ds
  | item {p q d ds} : p.rule = r → (∀ c, (build c p).map er = d) → Vals er r build q ds → Vals er r build (p :: q) (d :: ds)

theorem Vals.append {β : Type} {er : β → β} {r : R} {build : Cfg → Pair R → Option β} {q q' : List (Pair R)}
    {ds ds' : List (Option β)} (h : Vals er r build q ds) (h' : Vals er r build q' ds') :
    Vals er r build (q ++ q') (ds ++ ds') := by
  induction h with
  | nil => exact h'
  | comma h1 _ ih => exact .comma h1 ih
  | item h1 h2 _ ih => exact .item h1 h2 ih

theorem mores_vals {β : Type} {er : β → β} {r : R} {build : Cfg → Pair R → Option β} :
    ∀ (l : List (More β)) (q : List (Pair R)), LinkPairs (l.map (More.link (DenB er r build))) q →
      Vals er r build q (l.map More.d) := by
  intro l
  induction l with
  | nil => intro q hq; rw [show q = [] from hq]; exact .nil
  | cons m l ih =>
    rintro q ⟨q1, q2, rfl, ⟨q3, q4, rfl, ⟨a, b, k, rfl, _⟩, ⟨p, rfl, h1, h2⟩⟩, h⟩
    exact .comma rfl (.item h1 h2 (ih q2 h))

theorem comma_vals {β : Type} {er : β → β} {r : R} {build : Cfg → Pair R → Option β} {q : List (Pair R)}
    (h : CommaMaybe q) : Vals er r build q [] := by
  rcases h with rfl | ⟨p, rfl, h⟩
  · exact .nil
  · exact .comma h .nil

/-- Items up to the closing bracket. -/
theorem eats_items {β : Type} (L : Lawful u) {er : β → β} {r : R} {build : Cfg → Pair R → Option β} {e0 e : PE R}
    {k : Char} (hk : k ∈ closers) (hek : ∀ t, Fails u vN e (k :: t)) {o : Option (Bool × Str)}
    (ho : ∀ b w, o = some (b, w) → Blank u w) {l : List (More β)} (hl : MoresOk u e (DenB er r build) l)
    {x w t : Str} {s : Bool} {ds : List (Option β)} (hw : Blank u w)
    (h0 : Eats u vN e0 (x ++ taken s w) (left s w ++ moresText l (trailText o ++ k :: t)) fun q => Vals er r build q ds) :
    Eats u vN (.cat (.cat (.cat (.cat (.cat (.cat e0 (.call .skip)) (sepMany (.call .Comma) e)) (.call .skip))
      (.opt (.call .Comma))) (.call .skip)) (.str [k])) (x ++ (w ++ moresText l (trailText o ++ [k]))) t
      fun q => Vals er r build q (ds ++ l.map More.d) := by
  have hlinks := mores_links (P := DenB er r build) L hk (o := o) (t := t) l hl
  have h1 := eats_core L (trail_solid L hk o t) (fails_more L hk ho (hek t)) (l.map (More.link (DenB er r build)))
    hlinks hw (by rw [mores_text]; exact itemEnds_solid L (mores_head hk l o t)) (by rw [mores_text]; exact h0)
  have h2 := eats_closing L hk ho (blank_corePend hlinks) (eats_assoc h1)
  refine (h2.cast ?_).imp ?_
  · simp only [List.append_assoc, core_pend, mores_text]
  · rintro q ⟨q1, q2, rfl, ⟨q3, q4, rfl, h3, h4⟩, h5⟩
    have := (h3.append (mores_vals l q4 h4)).append (comma_vals (er := er) (r := r) (build := build) h5)
    simpa using this

theorem IsExpr.item (L : Lawful u) {solo : Bool} {x : Str} {d : Option AST} (h : IsExpr u solo x d) :
    IsItem u (.call .expr) solo x (DenB erase .expr buildExpr d) where
  solid := term_head_solid L h.head
  eats w r hw hr := h.eats vN rfl w r hw (stop_close L (hr.mono (by decide))) (follow_close L hw (hr.mono (by decide)))

/-! ### Lists -/

theorem listItems_vals {q : List (Pair R)} {ds : List (Option AST)} (h : Vals erase .expr buildExpr q ds) (c : Cfg) :
    (listItems c q).map eraseL = allSome ds := by
  induction h with
  | nil => simp [listItems, allSome, eraseL]
  | comma h1 _ ih => rw [listItems, if_pos h1, ih]
  | @item p q d ds h1 h2 _ ih =>
    rw [listItems, if_neg (by rw [h1]; decide), if_pos h1]
    simp only [allSome]
    rw [← ih, ← h2 c]
    cases buildExpr c p <;> cases listItems c q <;> simp [eraseL]

/-- A list of values. -/
def listOf (ds : List (Option AST)) : Option AST :=
  (allSome ds).map fun v => .function (Sym.ofStr c!"std::containers::List") [.mk v [] noPos]

theorem buildList_vals {q : List (Pair R)} {ds : List (Option AST)} (h : Vals erase .expr buildExpr q ds) (c : Cfg)
    (r : R) (a b : Nat) (t : Str) : (buildList c (.mk r a b t q)).map erase = listOf ds := by
  rw [buildList, listOf, ← listItems_vals h c]
  cases listItems c q <;> simp [erase, eraseP, eraseParam, eraseO]

/-- What a list is. -/
abbrev listPE : PE R := .cat (.cat (.str c!"[") (.call .skip)) (.alt (.str c!"]") (.restore (.seq (.cat (.cat (.cat (.cat
      (.cat (.cat (.call .expr) (.call .skip)) (sepMany (.call .Comma) (.call .expr))) (.call .skip))
      (.opt (.call .Comma))) (.call .skip)) (.str c!"]")))))

theorem eats_node_list (L : Lawful u) {x rest : Str} {ds : List (Option AST)}
    (h : Eats u vN listPE ('[' :: x) rest fun q => Vals erase .expr buildExpr q ds) :
    Eats u vC (.call .node) ('[' :: x) rest (Den .node buildNode (listOf ds)) := by
  refine eats_node_mark L rfl (by decide) (eats_data_of rfl (eats_alt_left (eats_alt_left (eats_alt_left
    (eats_alt_left (eats_alt_left (eats_alt_left (eats_alt_right (fails_restore (fails_plain L (by decide) _))
      (eats_restore (eats_call (eats_atomic (eats_rule (v := vN) rfl (eats_seq h)))))))))))) ?_)
  rintro q ⟨a', b', l, rfl, hl⟩
  refine ⟨_, rfl, fun c a b => ?_⟩
  rw [buildData, if_pos (show Pair.rule _ = R.list from rfl)]
  exact buildList_vals hl c _ _ _ _

theorem eats_list_nil_body (L : Lawful u) {w : Str} (hw : Blank u w) (rest : Str) :
    Eats u vN listPE ('[' :: (w ++ [']'])) rest fun q => Vals erase .expr buildExpr q [] := by
  refine (((eats_cat (eats_cat (eats_str ['['] _) (eats_skip L rfl hw
    (closers_solid L (k := ']') (by decide) rest))) (eats_alt_left (eats_str [']'] rest))).cast ?_).imp ?_)
  · simp
  · rintro q ⟨q1, q2, rfl, ⟨q3, q4, rfl, h1, h2⟩, h3⟩
    rw [show q3 = [] from h1, show q4 = [] from h2, show q2 = [] from h3]
    exact .nil

theorem eats_list_nil (L : Lawful u) {w : Str} (hw : Blank u w) (rest : Str) :
    Eats u vC (.call .node) ('[' :: (w ++ [']'])) rest (Den .node buildNode (listOf [])) :=
  eats_node_list L (eats_list_nil_body L hw rest)

/-- The empty list is an operand. -/
theorem node_list_nil (L : Lawful u) {w : Str} (hw : Blank u w) : IsNode u false ('[' :: (w ++ [']'])) (listOf []) where
  head := ⟨'[', _, rfl, .inr (by decide)⟩
  kv rest _ _ := fails_kv_mark L ⟨'[', _, rfl, by decide⟩ rest
  eats rest _ _ := eats_list_nil L hw rest

theorem eats_list_body (L : Lawful u) {w : Str} (hw : Blank u w) {solo : Bool} {x wb : Str} {d : Option AST}
    (hx : IsExpr u solo x d) (hwb : Blank u wb) {l : List (More AST)}
    (hl : ∀ m ∈ l, Blank u m.wa ∧ Blank u m.wb ∧ IsExpr u m.solo m.x m.d) {o : Option (Bool × Str)}
    (ho : ∀ b w, o = some (b, w) → Blank u w) (rest : Str) :
    Eats u vN listPE ('[' :: (w ++ (x ++ (wb ++ moresText l (trailText o ++ [']']))))) rest
      fun q => Vals erase .expr buildExpr q (d :: l.map More.d) := by
  have h1 := eats_items (er := erase) (r := .expr) (build := buildExpr) (e0 := .call .expr) (e := .call .expr) L
    (k := ']') (by decide) (fun t => fails_plain L (by decide) t) ho (l := l)
    (fun m hm => ⟨(hl m hm).1, (hl m hm).2.1, (hl m hm).2.2.item L⟩) hwb (t := rest) (s := solo) (x := x) (ds := [d])
    (((hx.item L).eats wb _ hwb (mores_head (by decide) l o rest)).imp (by
      rintro q ⟨p, rfl, hp1, hp2⟩
      exact .item hp1 hp2 .nil))
  have hs : ∀ z, Solid u ((x ++ (wb ++ moresText l (trailText o ++ [']']))) ++ z) := by
    intro z
    rw [List.append_assoc]
    exact term_head_solid L hx.head _
  refine (((eats_cat (eats_cat (eats_str ['['] _) (eats_skip L rfl hw (hs rest)))
    (eats_alt_right ?_ (eats_restore (eats_seq h1)))).cast ?_).imp ?_)
  · refine fails_str ?_
    obtain ⟨c, t, hc, hcc⟩ := hx.head
    rw [hc]
    have : ']' ≠ c := by
      rintro rfl
      rcases hcc with h | h
      · exact not_idStart L (by decide) (by decide) (by decide) h
      · revert h; decide
    simp [strip, this]
  · simp
  · rintro q ⟨q1, q2, rfl, ⟨q3, q4, rfl, h1, h2⟩, h3⟩
    rw [show q3 = [] from h1, show q4 = [] from h2]
    exact h3

theorem eats_list (L : Lawful u) {w : Str} (hw : Blank u w) {solo : Bool} {x wb : Str} {d : Option AST}
    (hx : IsExpr u solo x d) (hwb : Blank u wb) {l : List (More AST)}
    (hl : ∀ m ∈ l, Blank u m.wa ∧ Blank u m.wb ∧ IsExpr u m.solo m.x m.d) {o : Option (Bool × Str)}
    (ho : ∀ b w, o = some (b, w) → Blank u w) (rest : Str) :
    Eats u vC (.call .node) ('[' :: (w ++ (x ++ (wb ++ moresText l (trailText o ++ [']']))))) rest
      (Den .node buildNode (listOf (d :: l.map More.d))) := 
  eats_node_list L (eats_list_body L hw hx hwb hl ho rest)

/-- A list of expressions is an operand. -/
theorem node_list (L : Lawful u) {w : Str} (hw : Blank u w) {solo : Bool} {x wb : Str} {d : Option AST}
    (hx : IsExpr u solo x d) (hwb : Blank u wb) {l : List (More AST)}
    (hl : ∀ m ∈ l, Blank u m.wa ∧ Blank u m.wb ∧ IsExpr u m.solo m.x m.d) {o : Option (Bool × Str)}
    (ho : ∀ b w, o = some (b, w) → Blank u w) :
    IsNode u false ('[' :: (w ++ (x ++ (wb ++ moresText l (trailText o ++ [']']))))) (listOf (d :: l.map More.d)) where
  head := ⟨'[', _, rfl, .inr (by decide)⟩
  kv rest _ _ := fails_kv_mark L ⟨'[', _, rfl, by decide⟩ rest
  eats rest _ _ := eats_list L hw hx hwb hl ho rest

end SM.Props
