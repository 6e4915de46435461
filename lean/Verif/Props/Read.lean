import Verif.Props.Syn
/-
The program reads the expression language of Verif/Props/Syn.lean: the text of a well-formed expression parses to
its value, up to positions.
-/
namespace SM.Props
open SM SM.Peg

variable {u : Uni}

/-! ### Literals, names, juxtaposition -/

/-- A factor with its numeral. -/
def SFactor.factor : SFactor → Factor
  | .int n => .int (numeral n)
  | .sym p => .sym p

theorem SFactor.factor_text (f : SFactor) : f.factor.text = f.text := by cases f <;> rfl

theorem SFactor.factor_value (f : SFactor) : f.factor.value = some f.value := by
  cases f with
  | int n => exact parseInteger_numeral n
  | sym p => rfl

theorem SFactor.factor_ok {f : SFactor} (h : f.Ok u) : f.factor.Ok u := by
  cases f with
  | int n => exact numeral_int n
  | sym p => exact h

theorem SFactor.factor_apart {f g : SFactor} {h : Str} (ha : f.Apart h g) : SM.Props.Apart f.factor h g.factor := by
  rcases ha with ha | ha
  · exact .inl ha
  · refine .inr ?_
    cases f with
    | int n =>
      cases g with
      | int m => exact numeral_zero.2 ha
      | sym p => exact fun e => ha (numeral_zero.1 e)
    | sym p => cases ha

theorem factors_text (l : List (Str × SFactor)) :
    chainText (l.map fun m => (m.1, m.2.factor)) = factorsText l := by
  simp only [chainText, factorsText, List.flatMap_map, SFactor.factor_text]

theorem factors_ok : ∀ (l : List (Str × SFactor)) (f : SFactor), FactorsOk u f l →
    ChainOk u f.factor (l.map fun m => (m.1, m.2.factor)) := by
  intro l
  induction l with
  | nil => exact fun _ _ => trivial
  | cons m l ih =>
    obtain ⟨h, g⟩ := m
    rintro f ⟨h1, h2, h3, h4⟩
    exact ⟨h1, SFactor.factor_ok h2, SFactor.factor_apart h3, ih g h4⟩

theorem allSome_map {α β : Type} (f : α → β) (l : List α) : allSome (l.map fun a => some (f a)) = some (l.map f) := by
  induction l with
  | nil => simp [allSome]
  | cons a l ih => simp [allSome, ih]

/-- Literals, names and products are operands. -/
theorem SAtom.read (L : Lawful u) (a : SAtom) (h : a.Ok u) : IsNode u a.num a.text a.value := by
  cases a with
  | int n =>
    have := node_int L (numeral_int n)
    rwa [parseInteger_numeral] at this
  | dec i f =>
    have := node_dec L (numeral_int i) (numeral_int f)
    rwa [parseDecimal_value] at this
  | radix r k d ds =>
    obtain ⟨hk, hd⟩ := h
    have hg : ∀ g' ∈ (d :: ds).map SDigit.char, g'.2 ∈ r.digits := by
      intro g hg
      obtain ⟨e, he, rfl⟩ := List.mem_map.1 hg
      exact digit_mem_radix r _ (hd e he)
    have h1 := node_byte L r hk hg
    have ht : radixText k ((d :: ds).map SDigit.char) = (SAtom.radix r k d ds).text := by
      simp only [radixText, SAtom.text, List.flatMap_map]
    have hv : parseByte (radixText k ((d :: ds).map SDigit.char)) = (SAtom.radix r k d ds).value := by
      obtain ⟨f, up, e⟩ := d
      cases f with
      | true => exact parseByte_underscore _
      | false =>
        have hc : ∀ up e, digit up e = Nat.digitChar e ∨ digit up e = (Nat.digitChar e).toUpper := by
          intro up e; cases up <;> simp [digit]
        refine parseByte_value r hk (ds := ((false, up, e) :: ds).map fun d => d.2.2) ?_ ?_
        · rw [List.map_cons, List.map_map]
          refine .cons (hc _ _) ?_
          rw [List.forall₂_map_left_iff, List.forall₂_map_right_iff, List.forall₂_same]
          intro e _
          exact hc _ _
        · intro x hx
          obtain ⟨e, he, rfl⟩ := List.mem_map.1 hx
          exact hd e he
    rw [List.map_cons] at ht hv
    rw [hv, ht] at h1
    exact h1
  | str s => exact node_string L h
  | tagged t s => exact node_handler L h.1 h.2.1 h.2.2
  | block n s => exact node_block L h
  | taggedBlock t n s => exact node_block_handler L h.1 h.2.1 h.2.2
  | back out n =>
    have := node_repl L (.back out n) trivial
    rwa [parseInOut_back] at this
  | nth out n =>
    have := node_repl L (.at out (numeral n)) (numeral_pos n h)
    rwa [parseInOut_at] at this
  | slot => exact node_slot L .one trivial
  | slotNamed x => exact node_slot L (.named x) h
  | slotNth n =>
    have := node_slot L (.nth (numeral n)) (numeral_int n)
    simp only [SlotForm.value, fromStrRadix_numeral] at this
    exact this
  | slots => exact node_slot L .all trivial
  | slotsFrom n => exact node_slot L (.from (numeral n)) (numeral_pos n h)
  | null => exact node_special L (x := c!"null") (by decide)
  | bool b =>
    cases b
    · exact node_special L (x := c!"false") (by decide)
    · exact node_special L (x := c!"true") (by decide)
  | sym p => exact node_symbol L h.1 h.2
  | prod f m l =>
    have := node_space L (SFactor.factor_ok h.1) (m := (m.1, m.2.factor))
      (l := l.map fun m : Str × SFactor => (m.1, m.2.factor))
      (factors_ok (m :: l) f h.2)
    rw [SFactor.factor_text, show (m.1, m.2.factor) :: l.map (fun m => (m.1, m.2.factor)) =
      (m :: l).map fun m => (m.1, m.2.factor) from rfl, factors_text] at this
    have hv : product ((f.factor :: ((m :: l).map fun m => (m.1, m.2.factor)).map Prod.snd).map Factor.value) =
        (SAtom.prod f m l).value := by
      have e : ((f.factor :: ((m :: l).map fun m => (m.1, m.2.factor)).map Prod.snd).map Factor.value) =
          (f :: (m :: l).map Prod.snd).map fun g => some g.value := by
        simp [SFactor.factor_value]
      rw [e, product, allSome_map]
      simp [SAtom.value]
    rw [hv] at this
    exact this

/-! ### Items -/

/-- Whether a span consumes the blank space after it. -/
def SLast.solo : SLast → Bool
  | .none => true
  | .some _ e => e.solo
/-- Whether the item consumes the blank space after it. -/
def SContent.solo : SContent → Bool
  | .expr e => e.solo
  | .named _ _ _ _ e => e.solo
  | .span2 _ _ t => t.solo
  | .span3 _ _ _ _ _ t => t.solo
  | .pair _ _ _ _ e => e.solo

/-- An item of a list or an index. -/
def SItem.more : SItem → More AST
  | .mk b wa c wb => ⟨b, wa, c.text, wb, c.solo, c.value⟩
/-- An argument. -/
def SItem.moreArg : SItem → More (AST × AST)
  | .mk b wa c wb => ⟨b, wa, c.text, wb, c.solo, c.arg⟩

theorem items_more (t : Str) : ∀ l : List SItem, moresText (l.map SItem.more) t = itemsText l t := by
  intro l
  induction l with
  | nil => simp [moresText, itemsText]
  | cons i l ih =>
    obtain ⟨b, wa, c, wb⟩ := i
    simp [moresText, itemsText, ih, SItem.more, SItem.comma, SItem.text]

theorem items_moreArg (t : Str) : ∀ l : List SItem, moresText (l.map SItem.moreArg) t = itemsText l t := by
  intro l
  induction l with
  | nil => simp [moresText, itemsText]
  | cons i l ih =>
    obtain ⟨b, wa, c, wb⟩ := i
    simp [moresText, itemsText, ih, SItem.moreArg, SItem.comma, SItem.text]

theorem items_value (l : List SItem) : (l.map SItem.more).map More.d = itemsValue l := by
  induction l with
  | nil => simp [itemsValue]
  | cons i l ih =>
    obtain ⟨b, wa, c, wb⟩ := i
    simp only [List.map_cons, ih, itemsValue, SItem.more, SItem.value]

theorem items_arg (l : List SItem) : (l.map SItem.moreArg).map More.d = itemsArg l := by
  induction l with
  | nil => simp [itemsArg]
  | cons i l ih =>
    obtain ⟨b, wa, c, wb⟩ := i
    simp only [List.map_cons, ih, itemsArg, SItem.moreArg, SItem.arg]

/-- The content of an item is read as each kind of item it can be. -/
def ContentRead (u : Uni) (c : SContent) : Prop :=
  (c.isExpr = true → IsExpr u c.solo c.text c.value) ∧ (c.isArg = true → IsArg u c.solo c.text c.arg) ∧
    (c.isIndex = true → IsIndex u c.solo c.text c.value) ∧ (c.isPair = true → IsPair u c.solo c.text)

/-- The item is read. -/
def ItemRead (u : Uni) (kind : SContent → Bool) : SItem → Prop
  | .mk _ wa c wb => Blank u wa ∧ Blank u wb ∧ kind c = true ∧ ContentRead u c

theorem pairs_more {l : List SItem} (hl : ∀ i ∈ l, ItemRead u SContent.isPair i) :
    ∀ m ∈ l.map SItem.more, Blank u m.wa ∧ Blank u m.wb ∧ m.d = none ∧ IsPair u m.solo m.x := by
  intro m hm
  obtain ⟨i, hi, rfl⟩ := List.mem_map.1 hm
  have := hl i hi
  obtain ⟨b, wa, c, wb⟩ := i
  refine ⟨this.1, this.2.1, ?_, this.2.2.2.2.2.2 this.2.2.1⟩
  have h := this.2.2.1
  cases c with
  | pair k w1 b w2 e => rw [SItem.more, SContent.value]
  | _ => cases h

theorem key_ok (i : SItem) : ∀ k v, i.arg = some (k, v) → k = .empty ∨ ∃ s, k = .symbol s := by
  obtain ⟨b, wa, c, wb⟩ := i
  intro k v h
  rw [SItem.arg] at h
  cases c with
  | expr e =>
    rw [SContent.arg, posArg] at h
    cases hv : e.value <;> rw [hv] at h <;> cases h
    exact .inl rfl
  | named n w1 b w2 e =>
    rw [SContent.arg, namedArg] at h
    cases hv : e.value <;> rw [hv] at h <;> cases h
    exact .inr ⟨_, rfl⟩
  | span2 s b e => rw [SContent.arg] at h; cases h
  | span3 s b wa e b' t => rw [SContent.arg] at h; cases h
  | pair k w1 b w2 e => rw [SContent.arg] at h; cases h

theorem keys_ok (l : List SItem) : KeysOk (itemsArg l) := by
  induction l with
  | nil => intro d hd; rw [itemsArg] at hd; cases hd
  | cons i l ih =>
    intro d hd k v e
    rw [itemsArg] at hd
    rcases List.mem_cons.1 hd with rfl | hd
    · exact key_ok i k v e
    · exact ih d hd k v e

/-! ### Suffixes -/

/-- A suffix with what it does. -/
def SSuf.pair (s : SSuf) : Str × (AST → Option AST) := (s.text, s.apply)

theorem sufs_text (l : List SSuf) : sfxText (l.map SSuf.pair) = sufsText l := by
  induction l with
  | nil => simp [sfxText, sufsText]
  | cons s l ih =>
    rw [sufsText, ← ih]
    simp [sfxText, SSuf.pair]

theorem sufs_fold : ∀ (l : List SSuf) (a : AST), sfxFold (l.map SSuf.pair) a = sufsApply l a := by
  intro l
  induction l with
  | nil => intro a; simp [sfxFold, sufsApply]
  | cons s l ih =>
    intro a
    rw [sufsApply, List.map_cons, sfxFold]
    simp only [SSuf.pair]
    congr 1
    funext b
    exact ih b

/-! ### Steps -/

/-- An operator and the term after it. -/
def SStep.piece : SStep → Piece
  | .mk wb t wa x => ⟨wb, t, wa, x.num, x.text, x.value⟩

theorem steps_text (l : List SStep) : piecesText (l.map SStep.piece) = stepsText l := by
  induction l with
  | nil => simp [piecesText, stepsText]
  | cons s l ih =>
    obtain ⟨wb, t, wa, x⟩ := s
    rw [stepsText, ← ih, SStep.text]
    simp [piecesText, SStep.piece]

theorem steps_value (l : List SStep) : knownSteps (l.map SStep.piece) = stepsValue l := by
  induction l with
  | nil => simp [knownSteps, stepsValue]
  | cons s l ih =>
    obtain ⟨wb, t, wa, x⟩ := s
    cases t <;> simp [stepsValue, knownSteps, SStep.piece, ih]

/-! ### The theorem -/

/-- An optional part of a span. -/
def SPart.part : SPart → Option Part
  | .none => Option.none
  | .some e w => Option.some ⟨e.text, w, e.solo, e.value⟩
/-- The optional last part of a span. -/
def SLast.last : SLast → Option Last
  | .none => Option.none
  | .some wa e => Option.some ⟨wa, e.text, e.solo, e.value⟩

theorem part_text (p : SPart) : partText p.part = p.text := by
  cases p <;> simp [SPart.part, partText, SPart.text]
theorem last_text (p : SLast) : lastText p.last = p.text := by
  cases p <;> simp [SLast.last, lastText, SLast.text]
theorem last_solo (p : SLast) : lastSolo p.last = p.solo := by cases p <;> rfl
theorem part_value (p : SPart) : p.part.map Part.d = p.value := by
  cases p <;> simp [SPart.part, SPart.value]
theorem last_value (p : SLast) : p.last.map Last.d = p.value := by
  cases p <;> simp [SLast.last, SLast.value]

/-- The same factor, as it is read. -/
def Matches (f : SFac) (f' : MFactor) : Prop :=
  f'.text = f.text ∧ f'.isCall = f.isCall ∧ f'.odd = f.odd ∧ ∀ h t, f'.Apart h t ↔ f.Apart h t

mutual
/-- Operands are read. -/
theorem SNode.read (L : Lawful u) : ∀ n : SNode, n.Ok u → IsNode u n.num n.text n.value
  | .atom a, h => by
    rw [SNode.text, SNode.value]
    rw [SNode.Ok] at h
    exact SAtom.read L a h
  | .paren e w, h => by
    rw [SNode.Ok] at h
    rw [SNode.text, SNode.value]
    exact node_paren L (SExpr.read L e h.1) h.2.1 h.2.2
  | .nil w, h => by
    rw [SNode.Ok] at h
    rw [SNode.text, SNode.value]
    exact node_list_nil L h
  | .list i l o, h => by
    rw [SNode.Ok] at h
    obtain ⟨h1, h2, h3⟩ := h
    have hi := SItem.read L SContent.isExpr i h1
    have hl := items_read L SContent.isExpr l h2
    rw [SNode.text, SNode.value, ← items_value]
    obtain ⟨b, wa, c, wb⟩ := i
    obtain ⟨h4, h5, h6, h7⟩ := hi
    have := node_list L h4 (h7.1 h6) h5 (l := l.map SItem.more) (by
      intro m hm
      obtain ⟨i, hi, rfl⟩ := List.mem_map.1 hm
      have := hl i hi
      obtain ⟨b, wa, c, wb⟩ := i
      exact ⟨this.1, this.2.1, this.2.2.2.1 this.2.2.1⟩) h3
    rw [items_more] at this
    rw [SItem.text, SItem.value]
    show IsNode u false _ _
    simpa only [List.append_assoc] using this
  | .call p a l, h => by
    rw [SNode.Ok] at h
    obtain ⟨h1, h2, h3⟩ := h
    have ha := SArgs.read L a h2
    have hl := args_read L l h3
    obtain ⟨l', e1, e2, e3⟩ := hl
    obtain ⟨a', d1, d2, d3⟩ := ha
    have := node_call L h1 (a := a') (l := l') (by
      intro b hb
      rcases List.mem_cons.1 hb with rfl | hb
      · exact d3
      · exact e3 b hb)
    rw [SNode.text, SNode.value, ← d1, ← d2, ← e1, ← e2]
    show IsNode u false _ _
    simpa [argListsText] using this
  | .deriv p k a, h => by
    rw [SNode.Ok] at h
    obtain ⟨a', d1, d2, d3⟩ := SArgs.read L a h.2
    rw [SNode.text, SNode.value, ← d1]
    exact node_deriv L h.1 k d3
  | .dictNil w, h => by
    rw [SNode.Ok] at h
    rw [SNode.text, SNode.value]
    exact node_dict_nil L h
  | .dict i l o, h => by
    rw [SNode.Ok] at h
    obtain ⟨h1, h2, h3⟩ := h
    have hi := SItem.read L SContent.isPair i h1
    have hl := items_read L SContent.isPair l h2
    rw [SNode.text, SNode.value]
    obtain ⟨b, wa, c, wb⟩ := i
    obtain ⟨h4, h5, h6, h7⟩ := hi
    have := node_dict L h4 (h7.2.2.2 h6) h5 (l := l.map SItem.more) (pairs_more hl) h3
    rw [items_more] at this
    rw [SItem.text]
    show IsNode u false _ _
    simpa only [List.append_assoc] using this
  | .mixed f (.mk h g) l, hk => by
    rw [SNode.Ok, SMix.Ok] at hk
    obtain ⟨h1, h2, ⟨h3, h4, h5⟩, h6, h7⟩ := hk
    obtain ⟨f', hf, ⟨a1, a2, a3, a4⟩⟩ := SFac.read L f h1
    obtain ⟨g', hg, ag⟩ := SFac.read L g h4
    obtain ⟨l', e1, e2, hl⟩ := mixes_read L l g g' ag h6
    have := node_mixed L hf (a2.trans h2) (m := (h, g')) (l := l')
      ⟨h3, hg, by rw [ag.1]; exact (a4 h _).2 h5, hl⟩ (by
        rcases h7 with h7 | ⟨m', hm, ho⟩
        · exact ⟨f', by simp, a3.trans h7⟩
        · rcases List.mem_cons.1 hm with rfl | hm
          · exact ⟨g', by simp, ag.2.2.1.trans ho⟩
          · obtain ⟨x, hx, hxo⟩ := e2 ⟨m', hm, ho⟩
            exact ⟨x, by simp only [List.map_cons, List.mem_cons]; exact .inr (.inr hx), hxo⟩)
    rw [SNode.text, SNode.value, SMix.text, ← a1, ← ag.1, ← e1]
    show IsNode u true _ _
    simpa [mixedText] using this
termination_by structural n => n
/-- Factors are read. -/
theorem SFac.read (L : Lawful u) : ∀ f : SFac, f.Ok u → ∃ f' : MFactor, f'.Ok u ∧ Matches f f'
  | .int n, _ => ⟨.int n, trivial, by rw [Matches, SFac.text]; exact ⟨rfl, rfl, rfl, fun _ _ => .rfl⟩⟩
  | .sym p, h => ⟨.sym p, by rw [SFac.Ok] at h; exact h, by rw [Matches, SFac.text]; exact ⟨rfl, rfl, rfl, fun _ _ => .rfl⟩⟩
  | .dec i f, _ => ⟨.dec i f, trivial, by rw [Matches, SFac.text]; exact ⟨rfl, rfl, rfl, fun _ _ => .rfl⟩⟩
  | .radix r k d ds, h => ⟨.radix r k d ds, by rw [SFac.Ok] at h; exact h,
      by rw [Matches, SFac.text]; exact ⟨rfl, rfl, rfl, fun _ _ => .rfl⟩⟩
  | .call p a l, h => by
    rw [SFac.Ok] at h
    obtain ⟨h1, h2, h3⟩ := h
    obtain ⟨a', e1, _, h4⟩ := SArgs.read L a h2
    obtain ⟨l', e2, _, h5⟩ := args_read L l h3
    refine ⟨.call p a' l', ⟨h1, ?_⟩, ?_⟩
    · intro b hb
      rcases List.mem_cons.1 hb with rfl | hb
      · exact h4
      · exact h5 b hb
    · rw [Matches, SFac.text, ← e1, ← e2]
      exact ⟨by simp [MFactor.text, argListsText], rfl, rfl, fun _ _ => .rfl⟩
termination_by structural f => f
/-- A factor after another one is read. -/
theorem SMix.read (L : Lawful u) (f : SFac) : ∀ m : SMix, m.Ok u f →
    ∃ h g', SMix.text m = h ++ MFactor.text g' ∧ (∀ c ∈ h, HWs u c) ∧ f.Apart h g'.text ∧ g'.Ok u ∧ Matches m.fac g'
  | .mk h g, hm => by
    rw [SMix.Ok] at hm
    obtain ⟨g', hg, ag⟩ := SFac.read L g hm.2.1
    exact ⟨h, g', by rw [SMix.text, ag.1], hm.1, by rw [ag.1]; exact hm.2.2, hg, ag⟩
termination_by structural m => m
/-- Further factors are read. -/
theorem mixes_read (L : Lawful u) : ∀ (l : List SMix) (f : SFac) (f' : MFactor), Matches f f' → MixesOk u f l →
    ∃ l' : List (Str × MFactor), mixedText l' = mixesText l ∧
      ((∃ m ∈ l, m.fac.odd = true) → ∃ x ∈ l'.map Prod.snd, x.odd = true) ∧ MixedOk u f' l'
  | [], _, _, _, _ => ⟨[], by rw [mixesText]; rfl, fun ⟨_, h, _⟩ => (nomatch h), trivial⟩
  | m :: l, f, f', hf, h => by
    rw [MixesOk] at h
    obtain ⟨w, g', e1, h1, h2, h3, h4⟩ := SMix.read L f m h.1
    obtain ⟨l', e2, e3, h5⟩ := mixes_read L l m.fac g' h4 h.2
    refine ⟨(w, g') :: l', ?_, ?_, h1, h3, (hf.2.2.2 _ _).2 h2, h5⟩
    · rw [mixesText, e1, ← e2]; simp [mixedText]
    · rintro ⟨m', hm, ho⟩
      rcases List.mem_cons.1 hm with rfl | hm
      · exact ⟨g', by simp, h4.2.2.1.trans ho⟩
      · obtain ⟨x, hx, hxo⟩ := e3 ⟨m', hm, ho⟩
        exact ⟨x, by simp only [List.map_cons, List.mem_cons]; exact .inr hx, hxo⟩
termination_by structural l => l
/-- Items are read. -/
theorem SItem.read (L : Lawful u) (kind : SContent → Bool) : ∀ i : SItem, i.Ok u kind → ItemRead u kind i
  | .mk b wa c wb, h => by
    rw [SItem.Ok] at h
    exact ⟨h.1, h.2.1, h.2.2.1, SContent.read L c h.2.2.2⟩
termination_by structural i => i
/-- Items are read. -/
theorem items_read (L : Lawful u) (kind : SContent → Bool) : ∀ l : List SItem, ItemsOk u kind l →
    ∀ i ∈ l, ItemRead u kind i
  | [], _ => fun _ h => nomatch h
  | i :: l, h => by
    rw [ItemsOk] at h
    have h1 := SItem.read L kind i h.1
    have h2 := items_read L kind l h.2
    intro j hj
    rcases List.mem_cons.1 hj with rfl | hj
    · exact h1
    · exact h2 j hj
termination_by structural l => l
/-- Expressions, named arguments and spans are read. -/
theorem SContent.read (L : Lawful u) : ∀ c : SContent, c.Ok u → ContentRead u c
  | .expr e, h => by
    rw [SContent.Ok] at h
    have he := SExpr.read L e h
    refine ⟨fun _ => ?_, fun _ => ?_, fun _ => ?_, nofun⟩
    · rw [SContent.text, SContent.value]; exact he
    · rw [SContent.text, SContent.arg]; exact arg_pos L he
    · rw [SContent.text, SContent.value]; exact index_expr L he
  | .named k w1 b w2 e, h => by
    rw [SContent.Ok] at h
    have he := SExpr.read L e h.2.2.2
    refine ⟨nofun, fun _ => ?_, nofun, nofun⟩
    rw [SContent.text, SContent.arg]
    exact arg_named L h.1 h.2.1 b h.2.2.1 he
  | .span2 s b e, h => by
    rw [SContent.Ok] at h
    have hs := SPart.read L _ s h.1
    have he := SLast.read L e h.2
    refine ⟨nofun, nofun, fun _ => ?_, nofun⟩
    rw [← last_text] at hs
    have := index_span2 L hs he
    rw [SContent.text, SContent.value, ← part_text, ← last_text, ← part_value, ← last_value]
    rw [last_solo] at this
    exact this
  | .span3 s b wa e b' t, h => by
    rw [SContent.Ok] at h
    obtain ⟨h1, h2, h3, h4⟩ := h
    have hs := SPart.read L _ s h1
    have he := SPart.read L _ e h3
    have ht := SLast.read L t h4
    refine ⟨nofun, nofun, fun _ => ?_, nofun⟩
    rw [← last_text, ← part_text] at hs
    rw [← last_text] at he
    have := index_span3 L hs h2 he ht
    rw [SContent.text, SContent.value, ← part_text, ← part_text, ← last_text, ← part_value, ← part_value, ← last_value]
    rw [last_solo] at this
    exact this
  | .pair k w1 b w2 e, h => by
    rw [SContent.Ok] at h
    have he := SExpr.read L e h.2.2.2
    refine ⟨nofun, nofun, nofun, fun _ => ?_⟩
    rw [SContent.text]
    exact pair_of L h.1 h.2.1 b h.2.2.1 he
termination_by structural c => c
/-- Parts of spans are read. -/
theorem SPart.read (L : Lawful u) (z : Str) : ∀ p : SPart, p.Ok u z → PartBefore u p.part z
  | .none, _ => fun _ => trivial
  | .some e w, h => by
    rw [SPart.Ok] at h
    exact fun t => ⟨SExpr.read L e h.1, h.2.1, h.2.2 t⟩
termination_by structural p => p
/-- Last parts of spans are read. -/
theorem SLast.read (L : Lawful u) : ∀ p : SLast, p.Ok u → LastOk u p.last
  | .none, _ => trivial
  | .some wa e, h => by
    rw [SLast.Ok] at h
    exact ⟨h.1, SExpr.read L e h.2⟩
termination_by structural p => p
/-- Argument lists are read. -/
theorem SArgs.read (L : Lawful u) : ∀ a : SArgs, a.Ok u →
    ∃ a' : ArgList, a'.h ++ a'.y = a.text ∧ a'.d = a.value ∧ (∀ c ∈ a'.h, HWs u c) ∧ IsApply u a'.y a'.d
  | .some h i l o, ha => by
    rw [SArgs.Ok] at ha
    obtain ⟨h1, h2, h3, h4⟩ := ha
    have hi := SItem.read L SContent.isArg i h2
    have hl := items_read L SContent.isArg l h3
    have hk := keys_ok (i :: l)
    rw [itemsArg] at hk
    obtain ⟨b, wa, c, wb⟩ := i
    obtain ⟨h5, h6, h7, h8⟩ := hi
    rw [SItem.arg, ← items_arg] at hk
    have := apply_some L h5 (h8.2.1 h7) h6 (l := l.map SItem.moreArg) (by
      intro m hm
      obtain ⟨i, hi, rfl⟩ := List.mem_map.1 hm
      have := hl i hi
      obtain ⟨b, wa, c, wb⟩ := i
      exact ⟨this.1, this.2.1, this.2.2.2.2.1 this.2.2.1⟩) h4 hk
    rw [items_moreArg, items_arg] at this
    refine ⟨⟨h, _, argsOf (c.arg :: itemsArg l)⟩, ?_, ?_, h1, this⟩
    · rw [SArgs.text, SItem.text]
      simp only [List.append_assoc]
    · rw [SArgs.value, SItem.arg]
  | .none h w l o, ha => by
    rw [SArgs.Ok] at ha
    obtain ⟨h1, h2, h3, h4⟩ := ha
    have hl := items_read L SContent.isArg l h3
    have hk := keys_ok l
    rw [← items_arg] at hk
    have := apply_none L h2 (l := l.map SItem.moreArg) (by
      intro m hm
      obtain ⟨i, hi, rfl⟩ := List.mem_map.1 hm
      have := hl i hi
      obtain ⟨b, wa, c, wb⟩ := i
      exact ⟨this.1, this.2.1, this.2.2.2.2.1 this.2.2.1⟩) h4 hk
    rw [items_moreArg, items_arg] at this
    refine ⟨⟨h, _, argsOf (itemsArg l)⟩, ?_, ?_, h1, this⟩
    · rw [SArgs.text]
    · rw [SArgs.value]
termination_by structural a => a
/-- Argument lists are read. -/
theorem args_read (L : Lawful u) : ∀ l : List SArgs, ArgsOk u l →
    ∃ l' : List ArgList, argListsText l' = argsText l ∧ l'.map ArgList.d = argsValue l ∧ ArgListsOk u l'
  | [], _ => ⟨[], by rw [argsText]; rfl, by rw [argsValue]; rfl, fun _ h => nomatch h⟩
  | a :: l, h => by
    rw [ArgsOk] at h
    obtain ⟨a', h1, h2, h3⟩ := SArgs.read L a h.1
    obtain ⟨l', h4, h5, h6⟩ := args_read L l h.2
    refine ⟨a' :: l', ?_, ?_, ?_⟩
    · rw [argsText, ← h1, ← h4]
      simp [argListsText]
    · rw [argsValue, ← h2, ← h5]
      rfl
    · intro b hb
      rcases List.mem_cons.1 hb with rfl | hb
      · exact h3
      · exact h6 b hb
termination_by structural l => l
/-- Suffixes are read. -/
theorem SSuf.read (L : Lawful u) : ∀ s : SSuf, s.Ok u → IsSuffix u s.text s.apply
  | .op y, h => by
    rw [SSuf.Ok] at h
    rw [SSuf.text, show (SSuf.op y).apply = sufApply y from by funext a; rw [SSuf.apply]]
    exact suffix_op L h
  | .slice h i l o, hs => by
    rw [SSuf.Ok] at hs
    obtain ⟨h1, h2, h3, h4⟩ := hs
    have hi := SItem.read L SContent.isIndex i h2
    have hl := items_read L SContent.isIndex l h3
    obtain ⟨b, wa, c, wb⟩ := i
    obtain ⟨h5, h6, h7, h8⟩ := hi
    have := suffix_slice L h1 h5 (h8.2.2.1 h7) h6 (l := l.map SItem.more) (by
      intro m hm
      obtain ⟨i, hi, rfl⟩ := List.mem_map.1 hm
      have := hl i hi
      obtain ⟨b, wa, c, wb⟩ := i
      exact ⟨this.1, this.2.1, this.2.2.2.2.2.1 this.2.2.1⟩) h4
    rw [items_more, items_value] at this
    rw [SSuf.text, show (SSuf.slice h (.mk b wa c wb) l o).apply = indexBy (c.value :: itemsValue l) from by
      funext a; rw [SSuf.apply, SItem.value], SItem.text]
    simpa only [List.append_assoc] using this
termination_by structural s => s
/-- Suffixes are read. -/
theorem sufs_read (L : Lawful u) : ∀ l : List SSuf, SufsOk u l → SfxsOk u (l.map SSuf.pair)
  | [], _ => trivial
  | s :: l, h => by
    rw [SufsOk] at h
    refine ⟨SSuf.read L s h.1, ?_, sufs_read L l h.2.2⟩
    intro c hs s' l' e r hr
    refine h.2.1 c hs (r ++ sfxText l') ?_
    rw [← sufs_text, e]
    simp [sfxText, hr]
termination_by structural l => l
/-- Terms are read. -/
theorem STerm.read (L : Lawful u) : ∀ t : STerm, t.Ok u → IsTerm u t.num t.text t.value
  | .mk ps n l, h => by
    rw [STerm.Ok] at h
    have := term_of L ps (SNode.read L n h.1) (l.map SSuf.pair) (sufs_read L l h.2)
    rw [sufs_text] at this
    simp only [sufs_fold, List.isEmpty_map] at this
    rw [STerm.text, STerm.value]
    exact this
termination_by structural t => t
/-- Operators and terms are read. -/
theorem steps_read (L : Lawful u) : ∀ (l : List SStep) (num : Bool), StepsOk u num l →
    PiecesOk u num (l.map SStep.piece)
  | [], _, _ => trivial
  | .mk wb t wa x :: l, num, h => by
    rw [StepsOk] at h
    obtain ⟨h1, h2, h3, h4, h5, h6⟩ := h
    exact ⟨h1, h2, h3, h4, STerm.read L x h5, steps_read L l _ h6⟩
termination_by structural l => l
/-- **Expressions are read**: the text of a well-formed expression is consumed by the rule for expressions, and the
tree that is built from it is its value. -/
theorem SExpr.read (L : Lawful u) : ∀ e : SExpr, e.Ok u → IsExpr u e.solo e.text e.value
  | .mk t l, h => by
    rw [SExpr.Ok] at h
    obtain ⟨h1, h2⟩ := group_spec t.value (stepsValue l)
    have := expr_of L (STerm.read L t h.1) (l.map SStep.piece) (steps_read L l _ h.2) _ h1 (by rw [h2, steps_value])
    rw [steps_text, List.isEmpty_map] at this
    rw [SExpr.text, SExpr.value]
    exact this
termination_by structural e => e
end

end SM.Props
