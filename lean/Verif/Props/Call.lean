import Verif.Props.Items
/-
Indices, argument lists and calls.
-/
namespace SM.Props
open SM SM.Peg

variable {u : Uni} {v : Env}

/-! ### The colon -/

/-- The two forms of the colon. -/
def colonText (b : Bool) : Str := if b then c!"：" else c!":"

theorem eats_Colon (hv : v.emits = true) (b : Bool) (rest : Str) :
    Eats u v (.call .Colon) (colonText b) rest (One .Colon (colonText b) Nil) := by
  refine eats_call (eats_rule hv (eats_atomic ?_))
  cases b with
  | false => exact eats_alt_left (eats_str _ _)
  | true => exact eats_alt_right (fails_str (by simp [colonText, strip])) (eats_str _ _)

theorem colon_close (b : Bool) (t : Str) : HeadIn closeChars (colonText b ++ t) := by
  cases b
  · exact .inr ⟨':', t, rfl, by decide⟩
  · exact .inr ⟨'：', t, rfl, by decide⟩

theorem close_solid (L : Lawful u) {z : Str} (h : HeadIn closeChars z) : Solid u z := solid_head L h (by decide)

theorem item_not_colon {z : Str} (h : HeadIn itemEnds z) : ∀ c r, z = c :: r → c ≠ ':' ∧ c ≠ '：' := by
  rintro c r rfl
  rcases h with h | ⟨c', r', h, hc⟩
  · cases h
  · cases h
    have key : ∀ c ∈ itemEnds, c ≠ ':' ∧ c ≠ '：' := by decide
    exact key c hc

/-! ### Indices -/

/-- The start or the end of a span, with the blank space after it. -/
structure Part where
  x : Str
  w : Str
  solo : Bool
  d : Option AST

/-- The text of an optional part. -/
def partText : Option Part → Str
  | none => []
  | some p => p.x ++ p.w

/-- The part is read as intended in front of `rest`. -/
def PartOk (u : Uni) (rest : Str) : Option Part → Prop
  | none => True
  | some p => IsExpr u p.solo p.x p.d ∧ Blank u p.w ∧ NoPath u (p.w ++ rest)

/-- The pairs of an optional part. -/
def PartPairs (r : R) : Option (Option AST) → List (Pair R) → Prop
  | none => Nil
  | some d => DenB erase r buildFirst d

theorem eats_first (L : Lawful u) {r : R} (hg : grammar r = .rule r (.call .expr)) {solo : Bool} {x w z : Str}
    {d : Option AST} (hx : IsExpr u solo x d) (hw : Blank u w) (hz : HeadIn closeChars z) (hp : NoPath u (w ++ z)) :
    Eats u vN (.call r) (x ++ taken solo w) (left solo w ++ z) (DenB erase r buildFirst d) := by
  have hf : Follow u (w ++ z) := ⟨blank_endsIn (by decide) hw (hz.mono (by decide)), hp⟩
  apply eats_call
  rw [hg]
  refine (eats_rule (v := vN) rfl (hx.eats vN rfl w z hw (stop_close L hz) hf)).imp ?_
  rintro q ⟨a, b, k, rfl, p, rfl, h1, h2⟩
  exact ⟨_, rfl, rfl, fun c => by rw [buildFirst]; exact h2 c⟩

theorem fails_first_close (L : Lawful u) {r : R} (hg : grammar r = .rule r (.call .expr)) {z : Str}
    (hz : HeadIn closeChars z) : Fails u v (.call r) z := by
  apply fails_call
  rw [hg]
  exact fails_rule (fails_head L hz (by decide) (by decide))

theorem eats_part (L : Lawful u) {r : R} (hg : grammar r = .rule r (.call .expr)) (o : Option Part) {z : Str}
    (hz : HeadIn closeChars z) (ho : PartOk u z o) :
    Eats u vN (.cat (.opt (.restore (.call r))) (.call .skip)) (partText o) z (PartPairs r (o.map Part.d)) := by
  cases o with
  | none =>
    refine (eats_cat (x := []) (y := []) (eats_opt_nil (fails_restore (fails_first_close L hg hz)))
      (eats_skip L rfl blank_nil (close_solid L hz))).imp ?_
    rintro q ⟨a, b, rfl, ha, hb⟩
    rw [show a = [] from ha, show b = [] from hb]
    rfl
  | some p =>
    obtain ⟨h1, h2, h3⟩ := ho
    refine ((eats_cat (eats_opt (eats_restore (eats_first L hg h1 h2 hz h3)))
      (eats_skip L rfl (blank_left h2 _) (close_solid L hz))).cast ?_).imp ?_
    · have := taken_left p.solo p.w []
      rw [List.append_nil, List.append_nil] at this
      rw [List.append_assoc, this]
      rfl
    · intro q hq
      exact then_nil_right hq

/-- The last part of a span, with the blank space before it. -/
structure Last where
  wa : Str
  x : Str
  solo : Bool
  d : Option AST

/-- The text of an optional last part. -/
def lastText : Option Last → Str
  | none => []
  | some p => p.wa ++ p.x

/-- Whether the blank space after the span is consumed. -/
def lastSolo : Option Last → Bool
  | none => true
  | some p => p.solo

/-- The last part is read as intended. -/
def LastOk (u : Uni) : Option Last → Prop
  | none => True
  | some p => Blank u p.wa ∧ IsExpr u p.solo p.x p.d

theorem item_noPath (L : Lawful u) {w z : Str} (hw : Blank u w) (hz : HeadIn itemEnds z) : NoPath u (w ++ z) :=
  (follow_close L hw (hz.mono (by decide))).path

theorem eats_last (L : Lawful u) {r : R} (hg : grammar r = .rule r (.call .expr)) (o : Option Last) (ho : LastOk u o)
    {w z : Str} (hw : Blank u w) (hz : HeadIn itemEnds z) :
    Eats u vN (.cat (.call .skip) (.opt (.restore (.call r)))) (lastText o ++ taken (lastSolo o) w)
      (left (lastSolo o) w ++ z) (PartPairs r (o.map Last.d)) := by
  cases o with
  | none =>
    refine ((eats_cat (x := w) (y := []) (eats_skip L rfl hw (itemEnds_solid L hz))
      (eats_opt_nil (fails_restore (fails_first_close L hg (hz.mono (by decide)))))).cast ?_).imp ?_
    · simp [lastText, taken, lastSolo]
    · rintro q ⟨a, b, rfl, ha, hb⟩
      rw [show a = [] from ha, show b = [] from hb]
      rfl
  | some p =>
    obtain ⟨h1, h2⟩ := ho
    refine ((eats_cat (eats_skip L rfl h1 ?_) (eats_opt (eats_restore (eats_first L hg h2 hw
      (hz.mono (by decide)) (item_noPath L hw hz))))).cast ?_).imp ?_
    · rw [List.append_assoc]
      exact term_head_solid L h2.head _
    · simp [lastText, lastSolo]
    · intro q hq
      exact nil_then hq

/-- A missing part has a default value. -/
def orDefault (a : AST) : Option (Option AST) → Option AST
  | none => some a
  | some d => d

/-- A span. -/
def spanOf (a b c : Option (Option AST)) : Option AST :=
  (orDefault (.integer 1) a).bind fun a => (orDefault (.mkSymbol c!"std::core::All") b).bind fun b =>
    (orDefault (.integer 1) c).map fun c => .function (Sym.ofStr c!"std::core::Span") [.mk [a, b, c] [] noPos]

/-- What the loop of `parse_index` does with a span. -/
theorem indexLoop_span (c : Cfg) (pos : Position) {a b d : Option (Option AST)} {q1 q2 q3 : List (Pair R)}
    {k1 k2 : List (Pair R)} (h1 : PartPairs .Start a q1) (h2 : PartPairs .End b q2) (h3 : PartPairs .Step d q3)
    (hk1 : ∀ p ∈ k1, p.rule = .Colon) (hk2 : ∀ p ∈ k2, p.rule = .Colon) :
    (indexLoop c pos (q1 ++ (k1 ++ (q2 ++ (k2 ++ q3)))) (.integer 1) (.mkSymbol c!"std::core::All") (.integer 1)).map
      erase = spanOf a b d := by
  have colons : ∀ k : List (Pair R), (∀ p ∈ k, p.rule = .Colon) → ∀ q x y z,
      indexLoop c pos (k ++ q) x y z = indexLoop c pos q x y z := by
    intro k
    induction k with
    | nil => exact fun _ _ _ _ _ => rfl
    | cons p k ih =>
      intro h q x y z
      rw [List.cons_append, indexLoop, if_pos (h p (by simp))]
      exact ih (fun p' hp => h p' (by simp [hp])) q x y z
  have step3 : ∀ x y, erase (AST.integer 1) = .integer 1 →
      (indexLoop c pos q3 x y (.integer 1)).map erase = (orDefault (.integer 1) d).map fun z =>
        .function (Sym.ofStr c!"std::core::Span") [.mk [erase x, erase y, z] [] noPos] := by
    intro x y _
    cases d with
    | none =>
      rw [show q3 = [] from h3]
      simp [indexLoop, orDefault, erase, eraseP, eraseParam, eraseL, eraseO]
    | some d =>
      obtain ⟨p, rfl, hp1, hp2⟩ := h3
      rw [indexLoop, if_neg (by rw [hp1]; decide), if_neg (by rw [hp1]; decide), if_neg (by rw [hp1]; decide),
        if_pos hp1]
      simp only [orDefault]
      rw [← hp2 c]
      cases buildFirst c p with
      | none => rfl
      | some z => simp [indexLoop, erase, eraseP, eraseParam, eraseL, eraseO]
  have step2 : ∀ x, (indexLoop c pos (q2 ++ (k2 ++ q3)) x (.mkSymbol c!"std::core::All") (.integer 1)).map erase =
      (orDefault (.mkSymbol c!"std::core::All") b).bind fun y => (orDefault (.integer 1) d).map fun z =>
        .function (Sym.ofStr c!"std::core::Span") [.mk [erase x, y, z] [] noPos] := by
    intro x
    cases b with
    | none =>
      rw [show q2 = [] from h2, List.nil_append, colons k2 hk2, step3 _ _ rfl]
      rfl
    | some b =>
      obtain ⟨p, rfl, hp1, hp2⟩ := h2
      rw [List.cons_append, indexLoop, if_neg (by rw [hp1]; decide), if_neg (by rw [hp1]; decide), if_pos hp1,
        List.nil_append]
      rw [show orDefault (.mkSymbol c!"std::core::All") (some b) = b from rfl, ← hp2 c]
      cases buildFirst c p with
      | none => rfl
      | some y => simp only [colons k2 hk2, step3 _ _ rfl, Option.map_some, Option.bind_some]
  rw [spanOf]
  cases a with
  | none =>
    rw [show q1 = [] from h1, List.nil_append, colons k1 hk1, step2]
    rfl
  | some a =>
    obtain ⟨p, rfl, hp1, hp2⟩ := h1
    rw [List.cons_append, indexLoop, if_neg (by rw [hp1]; decide), if_pos hp1, List.nil_append]
    rw [show orDefault (.integer 1) (some a) = a from rfl, ← hp2 c]
    cases buildFirst c p with
    | none => rfl
    | some x => simp only [colons k1 hk1, step2, Option.map_some, Option.bind_some]

/-- An index. -/
abbrev IsIndex (u : Uni) (solo : Bool) (x : Str) (d : Option AST) : Prop :=
  IsItem u (.call .index) solo x (DenB erase .index buildIndex d)

/-- An expression is an index. -/
theorem index_expr (L : Lawful u) {solo : Bool} {x : Str} {d : Option AST} (hx : IsExpr u solo x d) :
    IsIndex u solo x d where
  solid := term_head_solid L hx.head
  eats w r hw hr := by
    have hs : Breaks u vN (.cat (.cat (.opt (.restore (.call .Start))) (.call .skip)) (.call .Colon))
        ((x ++ taken solo w) ++ (left solo w ++ r)) := by
      have h1 := eats_part (r := .Start) L rfl (some ⟨x, w, solo, d⟩) (z := r) (hr.mono (by decide))
        ⟨hx, hw, item_noPath L hw hr⟩
      rw [List.append_assoc, taken_left, ← List.append_assoc]
      exact breaks_cat_right h1 (fails_Colon (item_not_colon hr)).breaks
    apply eats_call
    show Eats u vN body_index _ _ _
    unfold body_index
    refine (eats_rule (v := vN) rfl (eats_alt_right (fails_alt (fails_seq ?_) (fails_seq ?_))
      (eats_restore ((hx.item L).eats w r hw hr)))).imp ?_
    · exact breaks_cat (breaks_cat (breaks_cat (breaks_cat (breaks_cat (breaks_cat hs)))))
    · exact breaks_cat (breaks_cat hs)
    · rintro q ⟨a, b, k, rfl, p, rfl, h1, h2⟩
      refine ⟨_, rfl, rfl, fun c => ?_⟩
      rw [buildIndex, indexLoop, if_neg (by rw [h1]; decide), if_neg (by rw [h1]; decide),
        if_neg (by rw [h1]; decide), if_neg (by rw [h1]; decide), if_pos h1]
      exact h2 c

/-- The text of a span with one colon. -/
def span2Text (s : Option Part) (b : Bool) (e : Option Last) : Str := partText s ++ (colonText b ++ lastText e)

theorem part_solid (L : Lawful u) {z : Str} (hz : HeadIn closeChars z) {s : Option Part} (hs : PartOk u z s) :
    Solid u (partText s ++ z) := by
  cases s with
  | none => exact close_solid L hz
  | some p =>
    show Solid u ((p.x ++ p.w) ++ z)
    rw [List.append_assoc]
    exact term_head_solid L hs.1.head _

/-- The part before the first colon, and the colon. -/
theorem eats_start (L : Lawful u) {s : Option Part} {b : Bool} {t : Str}
    (hs : PartOk u (colonText b ++ t) s) :
    Eats u vN (.cat (.cat (.opt (.restore (.call .Start))) (.call .skip)) (.call .Colon)) (partText s ++ colonText b) t
      (Then (PartPairs .Start (s.map Part.d)) (One .Colon (colonText b) Nil)) :=
  eats_cat (eats_part (r := .Start) L rfl s (colon_close b t) hs) (eats_Colon rfl b t)

theorem not_solid_path {b : Bool} {t t' : Str} {s : Option Part} (hp : ∀ p, s = some p → NoPath u (p.w ++ (colonText b ++ t')))
    (hs : PartOk u (colonText b ++ t) s) : PartOk u (colonText b ++ t') s := by
  cases s with
  | none => trivial
  | some p => exact ⟨hs.1, hs.2.1, hp p rfl⟩

/-- The start of a span is followed by something that does not make a path of it. -/
def PartBefore (u : Uni) (s : Option Part) (z : Str) : Prop := ∀ t, PartOk u (z ++ t) s

/-- A span with one colon is an index. -/
theorem index_span2 (L : Lawful u) {s : Option Part} {b : Bool} {e : Option Last}
    (hs : PartBefore u s (colonText b ++ lastText e)) (he : LastOk u e) :
    IsIndex u (lastSolo e) (span2Text s b e) (spanOf (s.map Part.d) (e.map Last.d) none) where
  solid rest := by
    have h := hs rest
    rw [List.append_assoc] at h
    have := part_solid L (colon_close b (lastText e ++ rest)) h
    simpa [span2Text] using this
  eats w r hw hr := by
    have hr' : HeadIn closeChars r := hr.mono (by decide)
    have h1 : Eats u vN (.cat (.cat (.opt (.restore (.call .Start))) (.call .skip)) (.call .Colon))
        (partText s ++ colonText b) ((lastText e ++ taken (lastSolo e) w) ++ (left (lastSolo e) w ++ r))
        (Then (PartPairs .Start (s.map Part.d)) (One .Colon (colonText b) Nil)) := by
      refine eats_start L ?_
      have h := hs (taken (lastSolo e) w ++ (left (lastSolo e) w ++ r))
      simpa [List.append_assoc] using h
    have h2 := eats_last (r := .End) L rfl e he hw hr
    have h3 := eats_assoc (eats_cat h1 h2)
    have h4 : Breaks u vN (.cat (.cat (.cat (.cat (.cat (.cat (.opt (.restore (.call .Start))) (.call .skip))
        (.call .Colon)) (.call .skip)) (.opt (.restore (.call .End)))) (.call .skip)) (.call .Colon))
        ((partText s ++ colonText b ++ (lastText e ++ taken (lastSolo e) w)) ++ (left (lastSolo e) w ++ r)) := by
      rw [← List.append_assoc _ (left (lastSolo e) w) r]
      exact breaks_cat_right (eats_cat h3 (eats_skip L rfl (blank_left hw _) (close_solid L hr')))
        (fails_Colon (item_not_colon hr)).breaks
    have e1 : span2Text s b e ++ taken (lastSolo e) w =
        partText s ++ colonText b ++ (lastText e ++ taken (lastSolo e) w) := by simp [span2Text]
    rw [e1]
    apply eats_call
    show Eats u vN body_index _ _ _
    unfold body_index
    refine (eats_rule (v := vN) rfl (eats_alt_left (eats_alt_right (fails_seq ?_) (eats_seq h3)))).imp ?_
    · exact breaks_cat (breaks_cat h4)
    · rintro q ⟨a, b', k, rfl, q1, q2, rfl, ⟨q3, q4, rfl, h5, ⟨a', b'', k', rfl, _⟩⟩, h6⟩
      refine ⟨_, rfl, rfl, fun c => ?_⟩
      rw [buildIndex]
      have := indexLoop_span c (c.position a b') (k1 := [.mk .Colon a' b'' (colonText b) k']) (k2 := []) (q3 := [])
        (d := none) h5 h6 rfl (by simp [Pair.rule]) (by simp)
      simpa using this

/-- The text of a span with two colons. -/
def span3Text (s : Option Part) (b : Bool) (wa : Str) (e : Option Part) (b' : Bool) (t : Option Last) : Str :=
  partText s ++ (colonText b ++ (wa ++ (partText e ++ (colonText b' ++ lastText t))))

/-- A span with two colons is an index. -/
theorem index_span3 (L : Lawful u) {s : Option Part} {b : Bool} {wa : Str} {e : Option Part} {b' : Bool} {t : Option Last}
    (hs : PartBefore u s (colonText b ++ (wa ++ (partText e ++ (colonText b' ++ lastText t))))) (hwa : Blank u wa)
    (he : PartBefore u e (colonText b' ++ lastText t)) (ht : LastOk u t) :
    IsIndex u (lastSolo t) (span3Text s b wa e b' t) (spanOf (s.map Part.d) (e.map Part.d) (t.map Last.d)) where
  solid rest := by
    have h := hs rest
    rw [List.append_assoc] at h
    have := part_solid L (colon_close b _) h
    simpa [span3Text] using this
  eats w r hw hr := by
    let tail := (lastText t ++ taken (lastSolo t) w) ++ (left (lastSolo t) w ++ r)
    have he' : PartOk u (colonText b' ++ tail) e := by
      have h := he (taken (lastSolo t) w ++ (left (lastSolo t) w ++ r))
      simpa [List.append_assoc, tail] using h
    have hs' : PartOk u (colonText b ++ (wa ++ (partText e ++ (colonText b' ++ tail)))) s := by
      have h := hs (taken (lastSolo t) w ++ (left (lastSolo t) w ++ r))
      simpa [List.append_assoc, tail] using h
    have h1 := eats_start (b := b) L hs'
    have h2 := eats_cat h1 (eats_skip L rfl hwa (part_solid L (colon_close b' tail) he'))
    have h3 := eats_part (r := .End) L rfl e (colon_close b' tail) he'
    have h4 := eats_assoc (eats_cat h2 h3)
    have h5 := eats_cat h4 (eats_Colon (v := vN) rfl b' tail)
    have h6 := eats_assoc (eats_cat h5 (eats_last (r := .Step) L rfl t ht hw hr))
    apply eats_call
    show Eats u vN body_index _ _ _
    unfold body_index
    refine ((eats_rule (v := vN) rfl (eats_alt_left (eats_alt_left (eats_seq h6)))).cast ?_).imp ?_
    · simp [span3Text]
    · rintro q ⟨a, b1, k, rfl, q1, q2, rfl, ⟨q3, q4, rfl, ⟨q5, q6, rfl, ⟨q7, q8, rfl, ⟨q9, q10, rfl, h7,
        ⟨a2, b2, k2, rfl, _⟩⟩, h9⟩, h10⟩, ⟨a3, b3, k3, rfl, _⟩⟩, h11⟩
      rw [show q8 = [] from h9]
      refine ⟨_, rfl, rfl, fun c => ?_⟩
      rw [buildIndex]
      have := indexLoop_span c (c.position a b1) (k1 := [.mk .Colon a2 b2 (colonText b) k2])
        (k2 := [.mk .Colon a3 b3 (colonText b') k3]) h7 h10 h11 (by simp [Pair.rule]) (by simp [Pair.rule])
      simpa using this

/-! ### Indexing -/

theorem sliceItems_vals {q : List (Pair R)} {ds : List (Option AST)} (h : Vals erase .index buildIndex q ds) (c : Cfg) :
    (sliceItems c q).map eraseL = allSome ds := by
  induction h with
  | nil => simp [sliceItems, allSome, eraseL]
  | comma h1 _ ih => rw [sliceItems, if_pos h1, ih]
  | @item p q d ds h1 h2 _ ih =>
    rw [sliceItems, if_neg (by rw [h1]; decide), if_pos h1]
    simp only [allSome]
    rw [← ih, ← h2 c]
    cases buildIndex c p <;> cases sliceItems c q <;> simp [eraseL]

/-- Indexing by values. -/
def indexBy (ds : List (Option AST)) (a : AST) : Option AST :=
  (allSome ds).map fun v => .function (Sym.ofStr c!"std::core::Index") [.mk (a :: v) [] noPos]

/-- Indices in brackets are a suffix. -/
theorem suffix_slice (L : Lawful u) {h : Str} (hh : ∀ c ∈ h, HWs u c) {w : Str} (hw : Blank u w) {solo : Bool} {x wb : Str}
    {d : Option AST} (hx : IsIndex u solo x d) (hwb : Blank u wb) {l : List (More AST)}
    (hl : ∀ m ∈ l, Blank u m.wa ∧ Blank u m.wb ∧ IsIndex u m.solo m.x m.d) {o : Option (Bool × Str)}
    (ho : ∀ b w, o = some (b, w) → Blank u w) :
    IsSuffix u (h ++ '[' :: (w ++ (x ++ (wb ++ moresText l (trailText o ++ [']']))))) (indexBy (d :: l.map More.d)) where
  shape := .inl ⟨h, '[', _, rfl, hh, by decide⟩
  eats rest _ := by
    have h0 := eats_cat (eats_cat (u := u) (v := vN) (eats_str ['['] _) (eats_skip L rfl hw (by
        rw [List.append_assoc]; exact hx.solid _)))
      (hx.eats wb _ hwb (mores_head (k := ']') (by decide) l o rest))
    have h1 := eats_items (er := erase) (r := .index) (build := buildIndex)
      (e0 := .cat (.cat (.str c!"[") (.call .skip)) (.call .index)) (e := .call .index) L
      (k := ']') (by decide) (fun t => ?_) ho (l := l) hl hwb (t := rest) (s := solo) (x := '[' :: (w ++ x)) (ds := [d])
      ((h0.cast (by simp)).imp (by
        rintro q ⟨q1, q2, rfl, ⟨q3, q4, rfl, h1, h2⟩, ⟨p, rfl, hp1, hp2⟩⟩
        rw [show q3 = [] from h1, show q4 = [] from h2]
        exact .item hp1 hp2 .nil))
    · have h2 : Eats u vC (.call .slice) ('[' :: (w ++ (x ++ (wb ++ moresText l (trailText o ++ [']']))))) rest
          (One .slice _ fun q => Vals erase .index buildIndex q (d :: l.map More.d)) :=
        eats_call (eats_atomic (eats_rule (v := vN) rfl (eats_seq (h1.cast (by simp)))))
      refine (eats_alt_right ?_ (eats_restore (eats_seq (eats_cat (eats_hspace L ?_ h hh) h2)))).imp ?_
      · have ne : ∀ d, d ≠ '[' → notHws d = true → ∀ r,
            (h ++ '[' :: (w ++ (x ++ (wb ++ moresText l (trailText o ++ [']']))))) ++ rest ≠ d :: r := by
          intro d hd hd2 r e
          cases h with
          | nil => exact hd (List.cons.inj e).1.symm
          | cons a h => exact hws_ne L (hh a (by simp)) hd2 (List.cons.inj e).1
        exact fails_Suffix (ne _ (by decide) (by decide)) (ne _ (by decide) (by decide)) (ne _ (by decide) (by decide))
      · intro c r e
        cases e
        exact not_hws L (by decide)
      · rintro q ⟨q1, q2, rfl, hq1, ⟨a, b, k, rfl, hk⟩⟩
        rw [show q1 = [] from hq1]
        refine ⟨_, rfl, fun c base => (sliceItems c k).map fun v =>
          .function (Sym.ofStr c!"std::core::Index") [.mk (base :: v) [] (c.position a b)], ?_, ?_⟩
        · intro c l' base pre
          rw [termLoop]
          simp only [Pair.rule, reduceCtorEq, if_false, if_true, Pair.start, Pair.stop]
          rw [buildSlice]
          cases sliceItems c k <;> rfl
        · intro c base
          rw [indexBy, ← sliceItems_vals hk c]
          show Option.map erase ((sliceItems c k).map _) = _
          cases sliceItems c k <;> simp [erase, eraseP, eraseParam, eraseL, eraseO]
    · apply fails_call
      show Fails u vN body_index _
      unfold body_index
      have hz : HeadIn closeChars (']' :: t) := .inr ⟨_, _, rfl, by decide⟩
      have h1 := eats_part (r := .Start) L rfl none hz (u := u) trivial
      have hb : Breaks u vN (.cat (.cat (.opt (.restore (.call .Start))) (.call .skip)) (.call .Colon)) (']' :: t) :=
        breaks_cat_right (x := []) h1 (fails_plain (r := .Colon) L (by decide) t).breaks
      exact fails_rule (fails_alt (fails_alt
        (fails_seq (breaks_cat (breaks_cat (breaks_cat (breaks_cat (breaks_cat (breaks_cat hb)))))))
        (fails_seq (breaks_cat (breaks_cat hb)))) (fails_restore (fails_plain L (by decide) t)))

/-! ### Arguments -/

/-- Replace positions in a named argument. -/
def erase2 (e : AST × AST) : AST × AST := (erase e.1, erase e.2)

/-- An argument. -/
abbrev IsArg (u : Uni) (solo : Bool) (x : Str) (d : Option (AST × AST)) : Prop :=
  IsItem u (.call .apply_kv) solo x (DenB erase2 .apply_kv buildKv d)

/-- A positional argument: the key is empty. -/
def posArg (d : Option AST) : Option (AST × AST) := d.map fun v => (.empty, v)
/-- A named argument. -/
def namedArg (k : Str) (d : Option AST) : Option (AST × AST) := d.map fun v => (.mkSymbol k, v)

/-- Expressions are arguments. -/
theorem arg_pos (L : Lawful u) {solo : Bool} {x : Str} {d : Option AST} (hx : IsExpr u solo x d) :
    IsArg u solo x (posArg d) where
  solid := term_head_solid L hx.head
  eats w r hw hr := by
    have hr' : HeadIn closeChars r := hr.mono (by decide)
    have hkv := hx.kv w r hw (stop_close L hr') (follow_close L hw (hr.mono (by decide)))
      ⟨w, r, rfl, hw, close_solid L hr', item_not_colon hr⟩
    refine (eats_call (eats_rule (v := vN) rfl (eats_alt_right ?_ (eats_restore ((hx.item L).eats w r hw hr))))).imp ?_
    · rw [List.append_assoc, taken_left]; exact hkv
    · rintro q ⟨a, b, k, rfl, p, rfl, h1, h2⟩
      refine ⟨_, rfl, rfl, fun c => ?_⟩
      rw [buildKv, kvLoop, if_neg (by rw [h1]; decide), if_neg (by rw [h1]; decide), if_pos h1, posArg, ← h2 c]
      cases buildExpr c p <;> simp [kvLoop, erase2, erase]

/-- The text of a named argument. -/
def namedText (k w1 : Str) (b : Bool) (w2 x : Str) : Str := k ++ (w1 ++ (colonText b ++ (w2 ++ x)))

theorem noCont_blank (L : Lawful u) {w z : Str} (hw : Blank u w) (hz : NoCont u z) : NoCont u (w ++ z) := by
  rcases blank_head hw with rfl | ⟨c, r, rfl, hc⟩
  · exact hz
  · intro d t e
    simp only [List.cons_append, List.cons.injEq] at e
    rw [← e.1]
    rcases hc with hc | rfl
    · cases h : u .xidContinue c with
      | false => rfl
      | true =>
        have := L.cont_ws c h
        unfold Ws at hc
        rw [this] at hc
        cases hc
    · rw [L.plain _ _ (by decide)]; decide

theorem noCont_close (L : Lawful u) {z : Str} (hz : HeadIn closeChars z) : NoCont u z := by
  intro c r e
  rcases hz with rfl | ⟨c', r', rfl, hc⟩
  · cases e
  · cases e
    have key : ∀ c ∈ closeChars, Plain c ∧ asciiUni .xidContinue c = false := by decide
    rw [L.plain _ _ (key c hc).1, (key c hc).2]

/-- Named arguments. -/
theorem arg_named (L : Lawful u) {k : Str} (hk : IsIdent u k) {w1 : Str} (hw1 : Blank u w1) (b : Bool) {w2 : Str}
    (hw2 : Blank u w2) {solo : Bool} {x : Str} {d : Option AST} (hx : IsExpr u solo x d) :
    IsArg u solo (namedText k w1 b w2 x) (namedArg k d) where
  solid rest := by
    obtain ⟨c, r, e, hc⟩ := hk.start
    exact term_head_solid L ⟨c, r ++ (w1 ++ (colonText b ++ (w2 ++ x))), by rw [namedText, e]; rfl, .inl hc⟩ rest
  eats w r hw hr := by
    have h0 := (hx.item L).eats w r hw hr
    have hc := colon_close b (w2 ++ ((x ++ taken solo w) ++ (left solo w ++ r)))
    have hsx : Solid u ((x ++ taken solo w) ++ (left solo w ++ r)) := by
      rw [List.append_assoc]; exact term_head_solid L hx.head _
    have h1 := eats_cat (eats_cat (eats_cat (eats_cat (eats_SYMBOL (v := vN) L rfl hk
      (noCont_blank L hw1 (noCont_close L hc))) (eats_skip L rfl hw1 (close_solid L hc)))
      (eats_Colon rfl b _)) (eats_skip L rfl hw2 hsx)) h0
    refine (eats_call (eats_rule (v := vN) rfl (eats_alt_left (eats_restore (eats_seq (h1.cast ?_)))))).imp ?_
    · simp [namedText]
    · rintro q ⟨a, b', l, rfl, q1, q2, rfl, ⟨q3, q4, rfl, ⟨q5, q6, rfl, ⟨q7, q8, rfl, ⟨a1, b1, l1, rfl, _⟩, h3⟩,
        ⟨a2, b2, l2, rfl, _⟩⟩, h4⟩, ⟨p, rfl, hp1, hp2⟩⟩
      rw [show q8 = [] from h3, show q4 = [] from h4]
      refine ⟨_, rfl, rfl, fun c => ?_⟩
      simp only [List.append_nil, List.cons_append, List.nil_append]
      rw [buildKv, kvLoop, if_neg (show ¬(Pair.mk R.SYMBOL a1 b1 k l1).rule = R.Colon from nofun), if_pos (show Pair.rule _ = R.SYMBOL from rfl),
        kvLoop, if_pos (show Pair.rule _ = R.Colon from rfl), kvLoop, if_neg (by rw [hp1]; decide), if_neg (by rw [hp1]; decide), if_pos hp1, namedArg, ← hp2 c]
      cases buildExpr c p <;> simp [kvLoop, erase2, erase, AST.mkSymbol, Pair.text]

/-- The positional arguments, in order. -/
def positional : List (AST × AST) → List AST
  | [] => []
  | (.empty, v) :: l => v :: positional l
  | _ :: l => positional l

/-- The named arguments, sorted; the last one with a name wins. -/
def optionsFrom : List (AST × AST) → BMap AST AST → BMap AST AST
  | [], m => m
  | (.empty, _) :: l, m => optionsFrom l m
  | (k, v) :: l, m => optionsFrom l (BMap.insert astCmp k v m)

/-- The argument list made of arguments. -/
def argsOf (ds : List (Option (AST × AST))) : Option Param :=
  (allSome ds).map fun l => .mk (positional l) (optionsFrom l []) noPos

/-- Keys are empty or symbols. -/
def KeysOk (ds : List (Option (AST × AST))) : Prop :=
  ∀ d ∈ ds, ∀ k v, d = some (k, v) → k = .empty ∨ ∃ s, k = .symbol s

theorem eraseO_insert (s : Sym) (v : AST) : ∀ m : BMap AST AST, (∀ e ∈ m, ∃ s, e.1 = .symbol s) →
    eraseO (BMap.insert astCmp (.symbol s) v m) = BMap.insert astCmp (.symbol s) (erase v) (eraseO m) := by
  intro m
  induction m with
  | nil => intro _; simp [BMap.insert, eraseO, eraseE, erase]
  | cons e m ih =>
    intro h
    obtain ⟨k, v'⟩ := e
    obtain ⟨s', hs'⟩ := h (k, v') (by simp)
    simp only at hs'
    subst hs'
    have ih' := ih fun e he => h e (by simp [he])
    simp only [BMap.insert, eraseO, eraseE, erase]
    cases astCmp (.symbol s) (.symbol s') <;> simp [eraseO, eraseE, erase, ih']

theorem insert_keys (s : Sym) (v : AST) : ∀ m : BMap AST AST, (∀ e ∈ m, ∃ s, e.1 = AST.symbol s) →
    ∀ e ∈ BMap.insert astCmp (.symbol s) v m, ∃ s, e.1 = AST.symbol s := by
  intro m
  induction m with
  | nil =>
    intro _ e he
    simp only [BMap.insert, List.mem_singleton] at he
    subst he
    exact ⟨s, rfl⟩
  | cons e m ih =>
    intro h e' he'
    obtain ⟨k, v'⟩ := e
    have ih' := ih fun e he => h e (by simp [he])
    simp only [BMap.insert] at he'
    cases hc : astCmp (.symbol s) k <;> rw [hc] at he' <;> simp only [List.mem_cons] at he'
    · rcases he' with rfl | rfl | he'
      · exact ⟨s, rfl⟩
      · exact h _ (by simp)
      · exact h _ (by simp [he'])
    · rcases he' with rfl | he'
      · exact h (k, v') (by simp)
      · exact h _ (by simp [he'])
    · rcases he' with rfl | he'
      · exact h _ (by simp)
      · exact ih' _ he'

theorem applyArgs_vals {q : List (Pair R)} {ds : List (Option (AST × AST))} (h : Vals erase2 .apply_kv buildKv q ds)
    (hk : KeysOk ds) (c : Cfg) : ∀ args kws, (∀ e ∈ kws, ∃ s, e.1 = AST.symbol s) →
    (applyArgs c q args kws).map (fun r => (eraseL r.1, eraseO r.2)) =
      (allSome ds).map fun l => (eraseL args ++ positional l, optionsFrom l (eraseO kws)) := by
  induction h with
  | nil => intro args kws _; simp [applyArgs, allSome, positional, optionsFrom]
  | comma h1 _ ih =>
    intro args kws hkw
    rw [applyArgs, if_neg (by rw [h1]; decide), if_pos h1]
    exact ih hk args kws hkw
  | @item p q d ds h1 h2 _ ih =>
    intro args kws hkw
    rw [applyArgs, if_neg (by rw [h1]; decide), if_neg (by rw [h1]; decide), if_pos h1]
    have ih' := ih fun d hd => hk d (by simp [hd])
    have h2' := h2 c
    simp only [allSome]
    cases hb : buildKv c p with
    | none =>
      rw [hb] at h2'
      subst h2'
      rfl
    | some e =>
      obtain ⟨k, v⟩ := e
      rw [hb] at h2'
      simp only [Option.map_some, erase2] at h2'
      subst h2'
      rcases hk (some (erase k, erase v)) (by simp) _ _ rfl with hke | ⟨s, hks⟩
      · have : k = .empty := by cases k <;> first | rfl | (simp [erase] at hke)
        subst this
        simp only
        rw [ih' _ _ hkw]
        cases allSome ds with
        | none => rfl
        | some l => simp [positional, optionsFrom, eraseL_eq, erase]
      · have : k = .symbol s := by cases k <;> first | (simp [erase] at hks; done) | (simp [erase] at hks; rw [hks])
        subst this
        simp only
        rw [ih' _ _ (insert_keys s v kws hkw), eraseO_insert s v kws hkw]
        cases allSome ds with
        | none => rfl
        | some l => simp [positional, optionsFrom, erase]

/-! ### Argument lists -/

/-- An argument list: a text that `apply` consumes and that means `d`. -/
structure IsApply (u : Uni) (y : Str) (d : Option Param) : Prop where
  head : ∃ r, y = '(' :: r
  eats : ∀ t, Eats u vC (.call .apply) y t (DenB eraseParam .apply buildApply d)

theorem apply_of {y t : Str} {ds : List (Option (AST × AST))} (hk : KeysOk ds)
    (h : Eats u vN (.cat (.cat (.cat (.cat (.cat (.cat (.cat (.cat (.str c!"(") (.call .skip))
      (.opt (.restore (.call .apply_kv)))) (.call .skip)) (sepMany (.call .Comma) (.call .apply_kv))) (.call .skip))
      (.opt (.call .Comma))) (.call .skip)) (.str c!")")) y t fun q => Vals erase2 .apply_kv buildKv q ds) :
    Eats u vC (.call .apply) y t (DenB eraseParam .apply buildApply (argsOf ds)) := by
  refine (eats_call (eats_atomic (eats_rule (v := vN) rfl (eats_seq h)))).imp ?_
  rintro q ⟨a, b, k, rfl, hk'⟩
  refine ⟨_, rfl, rfl, fun c => ?_⟩
  have := applyArgs_vals hk' hk c [] [] (by simp)
  rw [buildApply, argsOf]
  cases h1 : applyArgs c k [] [] with
  | none =>
    rw [h1] at this
    cases h2 : allSome ds with
    | none => rfl
    | some l => rw [h2] at this; cases this
  | some r =>
    obtain ⟨args, kws⟩ := r
    rw [h1] at this
    cases h2 : allSome ds with
    | none => rw [h2] at this; cases this
    | some l =>
      rw [h2] at this
      simp only [Option.map_some, Option.some.injEq, Prod.mk.injEq, eraseL, eraseO, List.nil_append] at this
      simp [eraseParam, this.1, this.2]

theorem fails_kv_close (L : Lawful u) {z : Str} (hz : HeadIn itemEnds z) : Fails u vN (.call .apply_kv) z :=
  fails_head L hz (by decide) (by decide)

/-- An argument list that begins with an argument. -/
theorem apply_some (L : Lawful u) {w : Str} (hw : Blank u w) {solo : Bool} {x wb : Str} {d : Option (AST × AST)}
    (hx : IsArg u solo x d) (hwb : Blank u wb) {l : List (More (AST × AST))}
    (hl : ∀ m ∈ l, Blank u m.wa ∧ Blank u m.wb ∧ IsArg u m.solo m.x m.d) {o : Option (Bool × Str)}
    (ho : ∀ b w, o = some (b, w) → Blank u w) (hk : KeysOk (d :: l.map More.d)) :
    IsApply u ('(' :: (w ++ (x ++ (wb ++ moresText l (trailText o ++ [')']))))) (argsOf (d :: l.map More.d)) where
  head := ⟨_, rfl⟩
  eats t := by
    have h0 := eats_cat (eats_cat (u := u) (v := vN) (eats_str ['('] _) (eats_skip L rfl hw (by
        rw [List.append_assoc]; exact hx.solid _)))
      (eats_opt (eats_restore (hx.eats wb _ hwb (mores_head (k := ')') (by decide) l o t))))
    have h1 := eats_items (er := erase2) (r := .apply_kv) (build := buildKv)
      (e0 := .cat (.cat (.str c!"(") (.call .skip)) (.opt (.restore (.call .apply_kv)))) (e := .call .apply_kv) L
      (k := ')') (by decide) (fun t => fails_kv_close L (.inr ⟨_, _, rfl, by decide⟩)) ho (l := l) hl hwb (t := t)
      (s := solo) (x := '(' :: (w ++ x)) (ds := [d]) ((h0.cast (by simp)).imp (by
        rintro q ⟨q1, q2, rfl, ⟨q3, q4, rfl, h1, h2⟩, ⟨p, rfl, hp1, hp2⟩⟩
        rw [show q3 = [] from h1, show q4 = [] from h2]
        exact .item hp1 hp2 .nil))
    exact apply_of hk (h1.cast (by simp))

/-- An argument list that begins with no argument. -/
theorem apply_none (L : Lawful u) {w : Str} (hw : Blank u w) {l : List (More (AST × AST))}
    (hl : ∀ m ∈ l, Blank u m.wa ∧ Blank u m.wb ∧ IsArg u m.solo m.x m.d) {o : Option (Bool × Str)}
    (ho : ∀ b w, o = some (b, w) → Blank u w) (hk : KeysOk (l.map More.d)) :
    IsApply u ('(' :: (w ++ moresText l (trailText o ++ [')']))) (argsOf (l.map More.d)) where
  head := ⟨_, rfl⟩
  eats t := by
    have hh := mores_head (k := ')') (by decide) l o t
    have h0 := eats_cat (y := []) (eats_cat (u := u) (v := vN) (eats_str ['('] _) (eats_skip L rfl hw (itemEnds_solid L hh)))
      (eats_opt_nil (fails_restore (fails_kv_close L hh)))
    have h1 := eats_items (er := erase2) (r := .apply_kv) (build := buildKv)
      (e0 := .cat (.cat (.str c!"(") (.call .skip)) (.opt (.restore (.call .apply_kv)))) (e := .call .apply_kv) L
      (k := ')') (by decide) (fun t => fails_kv_close L (.inr ⟨_, _, rfl, by decide⟩)) ho (l := l) hl blank_nil (t := t)
      (s := true) (x := '(' :: w) (ds := []) ((h0.cast (by simp [taken])).imp (by
        rintro q ⟨q1, q2, rfl, ⟨q3, q4, rfl, h1, h2⟩, h3⟩
        rw [show q3 = [] from h1, show q4 = [] from h2, show q2 = [] from h3]
        exact .nil))
    exact apply_of hk (h1.cast (by simp))

/-! ### Calls -/

/-- White space within a line, and an argument list. -/
structure ArgList where
  h : Str
  y : Str
  d : Option Param

/-- The text of argument lists. -/
def argListsText (l : List ArgList) : Str := l.flatMap fun a => a.h ++ a.y

/-- Argument lists that are read as intended. -/
def ArgListsOk (u : Uni) (l : List ArgList) : Prop := ∀ a ∈ l, (∀ c ∈ a.h, HWs u c) ∧ IsApply u a.y a.d

/-- The pairs of argument lists. -/
def ArgListPairs (l : List ArgList) (q : List (Pair R)) : Prop :=
  List.Forall₂ (fun a p => p.rule = .apply ∧ ∀ c, (buildApply c p).map eraseParam = a.d) l q

theorem eats_argList (L : Lawful u) {a : ArgList} (ha : (∀ c ∈ a.h, HWs u c) ∧ IsApply u a.y a.d) (t : Str) :
    Eats u vC (.cat hspace (.call .apply)) (a.h ++ a.y) t (DenB eraseParam .apply buildApply a.d) := by
  obtain ⟨h1, h2⟩ := ha
  obtain ⟨r, hr⟩ := h2.head
  refine (eats_cat (eats_hspace L ?_ a.h h1) (h2.eats t)).imp fun q => nil_then
  intro c t' e
  rw [hr] at e
  cases e
  exact not_hws L (by decide)

theorem eats_argLists (L : Lawful u) {rest : Str} (hr : Breaks u vC (.cat hspace (.call .apply)) rest) :
    ∀ l : List ArgList, ArgListsOk u l →
    Eats u vC (.rep (.restore (.seq (.cat hspace (.call .apply))))) (argListsText l) rest (ArgListPairs l) := by
  intro l
  induction l with
  | nil =>
    intro _
    refine (eats_rep_nil (fails_restore (fails_seq hr))).imp fun q hq => ?_
    rw [show q = [] from hq]
    exact .nil
  | cons a l ih =>
    intro h
    refine (eats_rep_cons (eats_restore (eats_seq (eats_argList L (h a (by simp)) _)))
      (ih fun b hb => h b (by simp [hb]))).imp ?_
    rintro q ⟨q1, q2, rfl, ⟨p, rfl, h1, h2⟩, h3⟩
    exact .cons ⟨h1, h2⟩ h3

theorem applyLists_eq {l : List ArgList} {q : List (Pair R)} (h : ArgListPairs l q) (c : Cfg) :
    (applyLists c q).map eraseP = allSome (l.map ArgList.d) := by
  induction h with
  | nil => simp [applyLists, allSome, eraseP]
  | @cons a p l q h1 _ ih =>
    rw [applyLists, if_pos h1.1]
    simp only [List.map_cons, allSome]
    rw [← ih, ← h1.2 c]
    cases buildApply c p <;> cases applyLists c q <;> simp [eraseP]

/-- A call. -/
def callOf (f : Str) (ds : List (Option Param)) : Option AST := (allSome ds).map fun ps => .function (Sym.ofStr f) ps

theorem argList_head {a : ArgList} (ha : (∀ c ∈ a.h, HWs u c) ∧ IsApply u a.y a.d) (l : List ArgList) (rest : Str) :
    ∃ z, argListsText (a :: l) ++ rest = a.h ++ '(' :: z := by
  obtain ⟨r, hr⟩ := ha.2.head
  exact ⟨r ++ (argListsText l ++ rest), by simp [argListsText, hr]⟩

theorem eats_node_call (L : Lawful u) {p : Path} (hp : p.Ok u) {a : ArgList} {l : List ArgList}
    (hl : ArgListsOk u (a :: l)) {rest : Str} (hr : Breaks u vC (.cat hspace (.call .apply)) rest) :
    Eats u vC (.call .node) (p.text ++ argListsText (a :: l)) rest
      (Den .node buildNode (callOf p.text ((a :: l).map ArgList.d))) := by
  have ha := hl a (by simp)
  have nc : ∀ rest, NoCont u (argListsText (a :: l) ++ rest) := by
    intro rest
    obtain ⟨z, e⟩ := argList_head ha l rest
    rw [e]
    refine noCont_blank L (blank_ws fun c hc => (ha.1 c hc).1) ?_
    intro c r e
    cases e
    rw [L.plain _ _ (by decide)]; decide
  have np : ∀ rest, NoPath u (argListsText (a :: l) ++ rest) := by
    intro rest
    obtain ⟨z, e⟩ := argList_head ha l rest
    rw [e]
    exact noPath_split L ha.1 (by decide) (by decide)
  have h1 : Eats u vC (.seq (.cat hspace (.call .apply))) (a.h ++ a.y) (argListsText l ++ rest) _ :=
    eats_seq (eats_argList L ha _)
  have e1 : (a.h ++ a.y) ++ (argListsText l ++ rest) = argListsText (a :: l) ++ rest := by simp [argListsText]
  have h2 : Eats u vC (.call .Symbol) p.text ((a.h ++ a.y) ++ (argListsText l ++ rest))
      (One .Symbol p.text fun _ => True) := by
    rw [e1]; exact eats_Symbol L hp (nc rest) (np rest) rfl
  have h3 := eats_cat (eats_cat h2 h1) (eats_argLists L hr l fun b hb => hl b (by simp [hb]))
  have h4 := eats_call (r := .apply_call) (v := vC) (eats_atomic (eats_rule (v := vC) rfl (eats_seq h3)))
  apply eats_call
  show Eats u vC body_node _ _ _
  unfold body_node
  refine ((eats_rule (v := vC) rfl (eats_alt_left (eats_alt_left (eats_alt_left (eats_alt_right
    (fails_restore (fails_seq ?_)) (eats_restore h4)))))).cast ?_).imp ?_
  · refine breaks_cat (breaks_cat (breaks_cat (breaks_cat (fails_str ?_).breaks)))
    obtain ⟨c, r, h, hc⟩ := hp.start
    have : '(' ≠ c := by
      rintro rfl
      exact not_idStart L (by decide) (by decide) (by decide) hc
    simp [h, strip, this]
  · simp [argListsText]
  · rintro q ⟨a1, b1, k1, rfl, ⟨a2, b2, k2, rfl, q1, q2, rfl, ⟨q3, q4, rfl, ⟨a3, b3, k3, rfl, _⟩, ⟨y, rfl, hy1, hy2⟩⟩, h6⟩⟩
    refine ⟨_, rfl, rfl, fun c => ?_⟩
    rw [buildNode]
    simp only [Pair.rule, reduceCtorEq, if_false, if_true]
    have := applyLists_eq (l := a :: l) (q := y :: q2) (.cons ⟨hy1, hy2⟩ h6) c
    rw [List.singleton_append, List.cons_append, buildApplyCall, callOf, ← this, List.singleton_append]
    simp only [Pair.text]
    cases applyLists c (y :: q2) <;> simp [erase]

/-- Calls are operands. -/
theorem node_call (L : Lawful u) {p : Path} (hp : p.Ok u) {a : ArgList} {l : List ArgList}
    (hl : ArgListsOk u (a :: l)) :
    IsNode u false (p.text ++ argListsText (a :: l)) (callOf p.text ((a :: l).map ArgList.d)) := by
  have ha := hl a (by simp)
  have nc : ∀ rest, NoCont u (argListsText (a :: l) ++ rest) := by
    intro rest
    obtain ⟨z, e⟩ := argList_head ha l rest
    rw [e]
    refine noCont_blank L (blank_ws fun c hc => (ha.1 c hc).1) ?_
    intro c r e
    cases e
    rw [L.plain _ _ (by decide)]; decide
  refine ⟨?_, fun rest hr _ => ?_, fun rest hr hc => ?_⟩
  · obtain ⟨c, r, h, hc⟩ := hp.start
    exact ⟨c, r ++ argListsText (a :: l), by rw [h]; rfl, .inl hc⟩
  · exact eats_node_call L hp hl (hr.no_apply L)
  · rw [List.append_assoc]
    refine noCont_path_kv L hp (nc rest) ?_
    obtain ⟨z, e⟩ := argList_head ha l rest
    rw [e]
    refine ⟨a.h, '(' :: z, rfl, blank_ws fun c hc => (ha.1 c hc).1,
      solid_cons L (by decide) (by decide) (by decide) (by decide) z, ?_⟩
    intro c r e
    cases e
    decide

end SM.Props
