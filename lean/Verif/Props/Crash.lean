import Verif.Props.ReadsProgram
import Verif.Props.Alike
import Verif.Props.Lang
/-
C60: which texts can make the parser panic.
-/
namespace SM.Props
open SM SM.Peg

variable {u : Uni} {a : Atomicity} {p n : Nat} {w z : Str} {l : List (Pair R)} {c : Cfg}

/-! ### What to look out for -/

/-- Pieces of text that can make the parser panic: a decimal point or a dot, a brace, a prime, a question mark, the sign
`¬`, a percent sign; `##` with a number; a radix prefix; a name that is called, with a number or a name right before it. -/
inductive Spot (u : Uni) : Str → Prop
  | char {d : Char} : d ∈ ['.', '{', '\'', '?', '¬', '%'] → Spot u [d]
  | slots {d : Char} : IsDigit d → Spot u ['#', '#', d]
  | radix {k : Char} : k ∈ ['b', 'B', 'o', 'O', 'x', 'X'] → Spot u ['0', k]
  | call {d : Char} {g h : Str} {q : Path} : u .xidContinue d = true → (∀ e ∈ g, HWs u e) → (g = [] → IsDigit d) →
      q.Ok u → (∀ e ∈ h, HWs u e) → Spot u (d :: (g ++ (q.text ++ (h ++ c!"("))))

/-- Such a piece occurs. -/
def Risky (u : Uni) (s : Str) : Prop := ∃ x, x <:+: s ∧ Spot u x

/-- No such piece occurs. -/
abbrev Calm (u : Uni) (s : Str) : Prop := ¬ Risky u s

theorem Calm.sub {x s : Str} (h : Calm u s) (hx : x <:+: s) : Calm u x :=
  fun ⟨y, hy, k⟩ => h ⟨y, hy.trans hx, k⟩

theorem Calm.left {x y : Str} (h : Calm u (x ++ y)) : Calm u x := h.sub (List.prefix_append x y).isInfix
theorem Calm.right {x y : Str} (h : Calm u (x ++ y)) : Calm u y := h.sub (List.suffix_append x y).isInfix

theorem Calm.char {s : Str} (h : Calm u s) {d : Char} (hd : d ∈ ['.', '{', '\'', '?', '¬', '%']) : d ∉ s := by
  intro hs
  obtain ⟨x, y, rfl⟩ := List.append_of_mem hs
  exact h ⟨[d], ⟨x, y, by simp⟩, .char hd⟩

/-! ### Blank space -/

theorem calm_skip (L : Lawful u) (h : Deriv grammar u .non (.call .skip) p w z l) (hw : Calm u w) : l = [] := by
  have h := h.inv_call
  simp only [grammar, body_skip] at h
  obtain ⟨x, y, m₁, m₂, rfl, rfl, h1, h2⟩ := h.inv_ifNon.inv_seq.inv_cat
  obtain ⟨rfl, hx, -⟩ := deriv_ws_run L h1
  rcases deriv_comments L h2 with ⟨rfl, -⟩ | ⟨rfl, -⟩ | ⟨q, l', rfl, hq, ks, r, rfl, hks⟩
  · rfl
  · rfl
  · exact absurd (by simp) (hw.char (d := '%') (by decide))

/-! ### Products -/

theorem ident_cont (L : Lawful u) {x : Str} (h : IsIdent u x) : ∀ d ∈ x, u .xidContinue d = true := by
  rcases h with ⟨c, r, rfl, h1, h2⟩ | ⟨c, r, rfl, h1, h2⟩
  · intro d hd
    rcases List.mem_cons.1 hd with rfl | hd
    · exact L.start_cont _ h1
    · exact h2 d hd
  · intro d hd
    rcases List.mem_cons.1 hd with rfl | hd
    · rw [L.plain _ _ (by decide)]; decide
    · rcases List.mem_cons.1 hd with rfl | hd
      · exact h1
      · exact h2 d hd

theorem ident_last (L : Lawful u) {x : Str} (h : IsIdent u x) : ∃ y d, x = y ++ [d] ∧ u .xidContinue d = true := by
  obtain ⟨c, r, e, -⟩ := h.start
  have hn : x ≠ [] := by rw [e]; simp
  exact ⟨x.dropLast, x.getLast hn, (List.dropLast_append_getLast hn).symm, ident_cont L h _ (List.getLast_mem hn)⟩

theorem path_last (L : Lawful u) {q : Path} (h : q.Ok u) : ∃ y d, q.text = y ++ [d] ∧ u .xidContinue d = true := by
  obtain ⟨f, more⟩ := q
  obtain ⟨h1, h2⟩ := h
  rcases List.eq_nil_or_concat more with rfl | ⟨l, m, rfl⟩
  · obtain ⟨y, d, e, hd⟩ := ident_last L h1
    exact ⟨y, d, by simpa [Path.text, moreText] using e, hd⟩
  · obtain ⟨y, d, e, hd⟩ := ident_last L (h2 m (by simp))
    exact ⟨f ++ (moreText l ++ (pathSep m.1 ++ y)), d, by simp [Path.text, moreText, e], hd⟩

theorem path_head (L : Lawful u) {q : Path} (h : q.Ok u) : ∃ d y, q.text = d :: y ∧ u .xidContinue d = true := by
  obtain ⟨c, r, e, hc⟩ := h.1.start
  exact ⟨c, r ++ moreText q.more, by simp [Path.text, e], idStart_cont L hc⟩

theorem factor_last (L : Lawful u) {f : SFactor} (h : f.Ok u) :
    ∃ y d, f.text = y ++ [d] ∧ u .xidContinue d = true ∧ ∀ k, f = .int k → IsDigit d := by
  cases f with
  | int k =>
    have hd : ∀ d ∈ numeral k, IsDigit d := by
      intro d hd
      rcases numeral_int k with e | ⟨c, r, e, h1, h2, h3⟩
      · rw [e, List.mem_singleton] at hd
        subst hd
        decide
      · rw [e] at hd
        rcases List.mem_cons.1 hd with rfl | hd
        · exact ⟨Nat.le_trans (by decide : ('0' : Char).toNat ≤ ('1' : Char).toNat) h1, h2⟩
        · exact h3 d hd
    have hn : numeral k ≠ [] := by
      obtain ⟨c, r, e, -⟩ := (numeral_int k).head
      rw [e]; simp
    have := hd _ (List.getLast_mem hn)
    exact ⟨(numeral k).dropLast, (numeral k).getLast hn, (List.dropLast_append_getLast hn).symm, digit_cont L this,
      fun _ _ => this⟩
  | sym q =>
    obtain ⟨y, d, e, hd⟩ := path_last L h
    exact ⟨y, d, e, hd, by simp⟩

theorem factor_head (L : Lawful u) {f : SFactor} (h : f.Ok u) : ∃ d y, f.text = d :: y ∧ u .xidContinue d = true := by
  cases f with
  | int k =>
    obtain ⟨c, r, e, hc⟩ := (numeral_int k).head
    exact ⟨c, r, e, digit_cont L hc⟩
  | sym q => exact path_head L h

/-- The beginning of a call. -/
theorem call_begins (L : Lawful u) (h : Deriv grammar u a (.call .apply_call) p w z l) :
    ∃ (q : Path) (h y : Str), q.Ok u ∧ (∀ e ∈ h, HWs u e) ∧ w = q.text ++ (h ++ '(' :: y) := by
  have h := h.inv_call
  simp only [grammar, body_apply_call] at h
  obtain ⟨m, rfl, hm⟩ := h.inv_atomic.inv_rule (by decide)
  obtain ⟨x, y, m₁, m₂, rfl, rfl, g20, h2⟩ := hm.inv_seq.inv_cat
  obtain ⟨x, x', m₁, m₁', rfl, rfl, g21, h3⟩ := g20.inv_cat
  obtain ⟨k, hk, rfl, -, m, rfl⟩ := deriv_Symbol (by decide) g21
  obtain ⟨h', y', m₁, m₂, rfl, rfl, g19, h4⟩ := h3.inv_seq.inv_cat
  obtain ⟨rfl, hx⟩ := deriv_hspace L g19
  have h4 := h4.inv_call
  simp only [grammar, body_apply] at h4
  obtain ⟨m', rfl, hm'⟩ := h4.inv_atomic.inv_rule (by decide)
  obtain ⟨y', k', m₂, m₆, rfl, rfl, g11, -⟩ := hm'.inv_seq.inv_cat
  obtain ⟨y', b₃, m₂, m₅, rfl, rfl, g12, -⟩ := g11.inv_cat
  obtain ⟨y', o, m₂, m₄, rfl, rfl, g13, -⟩ := g12.inv_cat
  obtain ⟨y', b₂, m₂, m₃, rfl, rfl, g14, -⟩ := g13.inv_cat
  obtain ⟨y', r, m₂, m₇, rfl, rfl, g15, -⟩ := g14.inv_cat
  obtain ⟨y', b₁, m₂, m₈, rfl, rfl, g16, -⟩ := g15.inv_cat
  obtain ⟨y', x, m₂, m₉, rfl, rfl, g17, -⟩ := g16.inv_cat
  obtain ⟨y', b, m₂, m₁, rfl, rfl, g18, -⟩ := g17.inv_cat
  obtain ⟨rfl, rfl⟩ := g18.inv_str
  exact ⟨k, h', _, hk, hx, by simp only [List.append_assoc, List.cons_append, List.nil_append]; rfl⟩

theorem radix_letters (r : Radix) : ∀ k ∈ r.letters, k ∈ ['b', 'B', 'o', 'O', 'x', 'X'] := by cases r <;> decide

/-- A factor of a product is a call or one that the builder can handle. -/
theorem calm_factor (L : Lawful u) (h : Deriv grammar u .compound factorPE p w z l) (hw : Calm u w) :
    ∃ q, l = [q] ∧ ((Deriv grammar u .compound (.call .apply_call) p w z l ∧ ∃ (k : Path) (h y : Str), k.Ok u ∧ (∀ e ∈ h, HWs u e) ∧
      w = k.text ++ (h ++ '(' :: y)) ∨ ∃ f : SFactor, f.Ok u ∧ w = f.text ∧ f.After u z ∧
      ∀ r, spaceArgs (q :: r) = (spaceArgs r).map (f.value :: ·)) := by
  rcases h.inv_alt with h | ⟨-, h⟩
  · rcases h.inv_alt with h | ⟨-, h⟩
    · have h := h.inv_restore
      have k := call_begins L h
      obtain ⟨m, rfl⟩ := deriv_apply_call_pair h
      exact ⟨_, rfl, .inl ⟨h, k⟩⟩
    · have h := h.inv_call
      simp only [grammar, body_Number] at h
      rcases h.inv_alt with h | ⟨-, h⟩
      · rcases h.inv_alt with h | ⟨-, h⟩
        · obtain ⟨r, k, d, ds, hok, rfl, m, rfl⟩ := deriv_Byte h
          exact absurd ⟨['0', k], ⟨[], _, rfl⟩, .radix (radix_letters r k hok.1)⟩ hw
        · obtain ⟨_, _, rfl, m, rfl⟩ := deriv_Decimal h
          exact absurd (by simp) (hw.char (d := '.') (by decide))
      · obtain ⟨n, rfl, rfl, hz⟩ := deriv_Integer (by decide) h
        refine ⟨_, rfl, .inr ⟨.int n, trivial, rfl, hz, fun r => ?_⟩⟩
        simp only [spaceArgs, Pair.rule, Pair.text, parseInteger_numeral, SFactor.value]
        cases spaceArgs r <;> simp
  · obtain ⟨q, hq, rfl, hz, m, rfl⟩ := deriv_Symbol (by decide) h
    refine ⟨_, rfl, .inr ⟨.sym q, hq, rfl, hz, fun r => ?_⟩⟩
    simp only [spaceArgs, Pair.rule, Pair.text, SFactor.value]
    cases spaceArgs r <;> simp

/-- A factor that can follow another one is not a call. -/
theorem calm_next (L : Lawful u) {f : SFactor} (hf : f.Ok u) {g x y : Str} (hg : ∀ e ∈ g, HWs u e)
    (hz : f.After u (g ++ (x ++ y))) (hw : Calm u (f.text ++ (g ++ x)))
    (h : ∃ (k : Path) (h y : Str), k.Ok u ∧ (∀ e ∈ h, HWs u e) ∧ x = k.text ++ (h ++ '(' :: y)) :
    False := by
  obtain ⟨k, h, y1, hk, hh, hx⟩ := h
  obtain ⟨y3, d, e, hd, hi⟩ := factor_last L hf
  refine hw ⟨_, ⟨y3, y1, ?_⟩, .call (d := d) (g := g) (q := k) (h := h) hd hg ?_ hk hh⟩
  · simp [e, hx]
  · rintro rfl
    cases f with
    | int k => exact hi k rfl
    | sym q =>
      obtain ⟨d', y4, e', hd'⟩ := path_head L hk
      have := hz d' _ (by rw [hx, e']; rfl)
      rw [hd'] at this
      cases this

theorem calm_factors (L : Lawful u) (h : Deriv grammar u .compound (.rep (.seq (.cat hspace factorPE))) p w z l) :
    ∀ f : SFactor, f.Ok u → f.After u (w ++ z) → Calm u (f.text ++ w) → ∃ v, spaceArgs l = some v := by
  refine h.inv_rep (P := fun _ w z l => ∀ f : SFactor, f.Ok u → f.After u (w ++ z) → Calm u (f.text ++ w) →
    ∃ v, spaceArgs l = some v) ?_ ?_
  · intro q z _ f _ _ _
    exact ⟨[], rfl⟩
  · intro q w₁ w₂ z l₁ l₂ h ih f hf hz hw
    obtain ⟨x, y, m₁, m₂, rfl, rfl, h1, h2⟩ := h.inv_seq.inv_cat
    obtain ⟨rfl, hx⟩ := deriv_hspace L h1
    obtain ⟨q, rfl, ⟨-, hc⟩ | ⟨f', hf', rfl, hz', hs⟩⟩ := calm_factor L h2 (hw.right.left.right)
    · exact (calm_next L hf hx (y := w₂ ++ z) (by simpa using hz) (hw.sub ⟨[], w₂, by simp⟩) hc).elim
    · obtain ⟨v, hv⟩ := ih f' hf' hz' (hw.sub ⟨f.text ++ x, [], by simp⟩)
      exact ⟨f'.value :: v, by rw [List.nil_append, List.singleton_append, hs, hv]; rfl⟩

theorem calm_space_call (L : Lawful u) (h : Deriv grammar u a (.call .space_call) p w z l) (hw : Calm u w)
    (hr : Refuses grammar u .compound (.call .apply_call) (w ++ z)) :
    ∃ m, l = [.mk .space_call p (p + w.length) w m] ∧ ∀ pos, ∃ v, parseSpaceCall pos m = some v := by
  have h := h.inv_call
  simp only [grammar, body_space_call] at h
  obtain ⟨m, rfl, hm⟩ := h.inv_atomic.inv_rule (by decide)
  refine ⟨m, rfl, fun pos => ?_⟩
  obtain ⟨x, y, m₁, m₂, rfl, rfl, h1, h2⟩ := hm.inv_seq.inv_cat
  obtain ⟨x, x', m₁, m₁', rfl, rfl, hf1, h3⟩ := h1.inv_cat
  obtain ⟨x', x'', m₁', m₁'', rfl, rfl, hb, h4⟩ := h3.inv_seq.inv_cat
  obtain ⟨rfl, hx⟩ := deriv_hspace L hb
  obtain ⟨q', rfl, k4⟩ := calm_factor L h4 (hw.left.right.right)
  obtain ⟨q, rfl, ⟨hc, -⟩ | ⟨f, hf, rfl, hfz, hfs⟩⟩ := calm_factor L hf1 (hw.left.left)
  · -- a call first: it would have been taken before
    have hc := hc.ran.admits
    rw [← List.append_assoc] at hc
    exact (hr.not_admits (by simpa using hc) (by decide) (o := 0) (x := 0) (by decide)).elim
  · rcases k4 with ⟨-, hc⟩ | ⟨g, hg, rfl, hgz, hgs⟩
    · exact (calm_next L hf hx (y := y ++ z) (by simpa using hfz) (hw.sub ⟨[], y, by simp⟩) hc).elim
    · obtain ⟨v, hv⟩ := calm_factors L h2 g hg hgz (hw.sub ⟨f.text ++ x', [], by simp⟩)
      refine ⟨.function (infixMap c!"*") [.mk (f.value :: g.value :: v) [] pos], ?_⟩
      rw [parseSpaceCall]
      simp only [List.nil_append, List.cons_append, hfs, hgs, hv, Option.map_some]

/-! ### Brackets -/

/-- Calm expressions of less than `n` characters are built. -/
def Safe (u : Uni) (c : Cfg) (n : Nat) : Prop :=
  ∀ (a : Atomicity) (p : Nat) (w z : Str) (q : Pair R), w.length < n → Deriv grammar u a (.call .expr) p w z [q] →
    Calm u w → ∃ v, buildExpr c q = some v

/-- Commas, and items of less than `n` characters. -/
def Fine (u : Uni) (e : R) (n : Nat) (q : Pair R) : Prop :=
  q.rule = .Comma ∨ (q.rule = e ∧ ∃ p x z, Deriv grammar u .non (.call e) p x z [q] ∧ x.length < n ∧ Calm u x)

theorem calm_moreOne (L : Lawful u) {e : R} (he : Single u e) (h : Deriv grammar u .non (moreOne e) p w z l)
    (hw : Calm u w) (hn : w.length < n) : ∀ q ∈ l, Fine u e n q := by
  obtain ⟨x, y, m₁, m₂, rfl, rfl, h1, h2⟩ := h.inv_restore.inv_seq.inv_cat
  obtain ⟨x, x', m₁, m₁', rfl, rfl, h3, h4⟩ := h1.inv_cat
  obtain ⟨b, rfl, m, rfl⟩ := deriv_Comma (by decide) h3
  obtain ⟨m', rfl⟩ := he _ _ _ _ h2
  rw [calm_skip L h4 hw.left.right]
  simp only [List.length_append] at hn
  intro q hq
  simp only [List.append_nil, List.singleton_append, List.mem_cons, List.not_mem_nil, or_false] at hq
  rcases hq with rfl | rfl
  · exact .inl rfl
  · exact .inr ⟨rfl, _, _, _, h2, by omega, hw.right⟩

theorem calm_moreMany (L : Lawful u) {e : R} (he : Single u e) (h : Deriv grammar u .non (moreMany e) p w z l)
    (hw : Calm u w) (hn : w.length < n) : ∀ q ∈ l, Fine u e n q := by
  rcases h.inv_seq.inv_opt with ⟨rfl, rfl, -⟩ | h
  · simp
  · obtain ⟨x, y, m₁, m₂, rfl, rfl, h1, h2⟩ := h.inv_cat
    simp only [List.length_append] at hn
    have key := h2.inv_rep (P := fun _ w _ l => Calm u w → w.length < n → ∀ q ∈ l, Fine u e n q)
      (fun _ _ _ _ _ => by simp) (by
        intro p w₁ w₂ z l₁ l₂ h ih hw hn
        obtain ⟨x, y, m₁, m₂, rfl, rfl, h1, h2⟩ := h.inv_seq.inv_cat
        simp only [List.length_append] at hn
        rw [calm_skip L h1 hw.left.left]
        intro q hq
        rw [List.nil_append, List.mem_append] at hq
        rcases hq with hq | hq
        · exact calm_moreOne L he h2 hw.left.right (by omega) q hq
        · exact ih hw.right (by omega) q hq) hw.right (by omega)
    intro q hq
    rcases List.mem_append.1 hq with hq | hq
    · exact calm_moreOne L he h1 hw.left (by omega) q hq
    · exact key q hq

/-- Everything between the first item and the closing bracket. -/
theorem calm_commas (L : Lawful u) {e : R} (he : Single u e) {p₀ p₁ p₂ p₃ p₄ : Nat} {z₀ z₁ z₂ z₃ z₄ : Str}
    {b₁ m b₂ k b₃ : Str} {l₁ l₂ l₃ l₄ l₅ : List (Pair R)}
    (h1 : Deriv grammar u .non (.call .skip) p₀ b₁ z₀ l₁) (h2 : Deriv grammar u .non (moreMany e) p₁ m z₁ l₂)
    (h3 : Deriv grammar u .non (.call .skip) p₂ b₂ z₂ l₃) (h4 : Deriv grammar u .non (.opt (.call .Comma)) p₃ k z₃ l₄)
    (h5 : Deriv grammar u .non (.call .skip) p₄ b₃ z₄ l₅) (hw : Calm u (b₁ ++ (m ++ (b₂ ++ (k ++ b₃)))))
    (hn : m.length < n) : ∀ q ∈ l₁ ++ (l₂ ++ (l₃ ++ (l₄ ++ l₅))), Fine u e n q := by
  rw [calm_skip L h1 hw.left, calm_skip L h3 hw.right.right.left, calm_skip L h5 hw.right.right.right.right]
  intro q hq
  simp only [List.nil_append, List.append_nil, List.mem_append] at hq
  rcases hq with hq | hq
  · exact calm_moreMany L he h2 hw.right.left hn q hq
  · rcases h4.inv_opt with ⟨rfl, rfl, -⟩ | h
    · simp at hq
    · obtain ⟨b, rfl, m', rfl⟩ := deriv_Comma (by decide) h
      rw [List.mem_singleton] at hq
      subst hq
      exact .inl rfl

/-! ### Lists -/

theorem calm_items (ih : Safe u c n) : ∀ (l : List (Pair R)), (∀ q ∈ l, Fine u .expr n q) → ∃ v, listItems c l = some v
  | [], _ => ⟨[], rfl⟩
  | q :: l, h => by
    obtain ⟨v, hv⟩ := calm_items ih l fun q hq => h q (by simp [hq])
    rcases h q (by simp) with hq | ⟨hq, p, x, z, hd, hn, hx⟩
    · exact ⟨v, by rw [listItems, if_pos hq, hv]⟩
    · obtain ⟨a, ha⟩ := ih _ _ _ _ _ hn hd hx
      exact ⟨a :: v, by rw [listItems, if_neg (by simp [hq]), if_pos hq, ha, hv]⟩

theorem calm_list (L : Lawful u) (ih : Safe u c n) (h : Deriv grammar u a (.call .list) p w z l) (hw : Calm u w)
    (hn : w.length ≤ n) : ∃ q, l = [q] ∧ q.rule = .list ∧ ∃ v, buildList c q = some v := by
  have h := h.inv_call
  simp only [grammar, body_list] at h
  obtain ⟨m, rfl, hm⟩ := h.inv_atomic.inv_rule (by decide)
  refine ⟨_, rfl, rfl, ?_⟩
  suffices h : ∃ v, listItems c m = some v by
    obtain ⟨v, hv⟩ := h
    exact ⟨_, by rw [buildList, hv]⟩
  obtain ⟨x, y, m₁, m₂, rfl, rfl, g1, h2⟩ := hm.inv_seq.inv_cat
  obtain ⟨x, b, m₁, m₁', rfl, rfl, g2, h4⟩ := g1.inv_cat
  obtain ⟨rfl, rfl⟩ := g2.inv_str
  obtain rfl := calm_skip L h4 hw.left.right
  rcases h2.inv_alt with h2 | ⟨-, h2⟩
  · obtain ⟨rfl, rfl⟩ := h2.inv_str
    exact ⟨[], rfl⟩
  · obtain ⟨y, k, m₂, m₆, rfl, rfl, g0, h5⟩ := h2.inv_restore.inv_seq.inv_cat
    obtain ⟨y, b₃, m₂, m₅, rfl, rfl, g3, h6⟩ := g0.inv_cat
    obtain ⟨y, o, m₂, m₄, rfl, rfl, g4, h7⟩ := g3.inv_cat
    obtain ⟨y, b₂, m₂, m₃, rfl, rfl, g5, h8⟩ := g4.inv_cat
    obtain ⟨y, r, m₂, m₇, rfl, rfl, g6, h9⟩ := g5.inv_cat
    obtain ⟨y, b₁, m₂, m₈, rfl, rfl, g7, h10⟩ := g6.inv_cat
    obtain ⟨rfl, rfl⟩ := h5.inv_str
    obtain ⟨q, rfl, hq⟩ := lone_expr g7
    simp only [List.length_append, List.length_cons, List.length_nil] at hn
    refine calm_items ih _ fun q' hq' => ?_
    simp only [List.append_assoc, List.nil_append, List.append_nil, List.cons_append, List.mem_cons] at hq'
    rcases hq' with rfl | hq'
    · exact .inr ⟨hq, _, _, _, g7, by omega, hw.right.left.left.left.left.left.left⟩
    · exact calm_commas L (fun _ _ _ _ h => single_expr h) h10 h9 h8 h7 h6
        (hw.sub ⟨c!"[" ++ b ++ y, c!"]", by simp⟩) (by omega) q' hq'

/-! ### Calls -/

theorem calm_kv (L : Lawful u) (ih : Safe u c n) {q : Pair R} (h : Deriv grammar u .non (.call .apply_kv) p w z [q])
    (hw : Calm u w) (hn : w.length < n) : ∃ d, buildKv c q = some d := by
  have h := h.inv_call
  simp only [grammar, body_apply_kv] at h
  obtain ⟨m, e, hm⟩ := h.inv_rule (by decide)
  cases e
  rw [buildKv]
  rcases hm.inv_alt with h | ⟨-, h⟩
  · obtain ⟨x, y, m₁, m₂, rfl, rfl, g0, h2⟩ := h.inv_restore.inv_seq.inv_cat
    obtain ⟨x, b', m₁, m₃, rfl, rfl, g8, h3⟩ := g0.inv_cat
    obtain ⟨x, k, m₁, m₄, rfl, rfl, g9, h4⟩ := g8.inv_cat
    obtain ⟨x, b, m₁, m₅, rfl, rfl, g10, h5⟩ := g9.inv_cat
    obtain ⟨hx, -, rfl⟩ := deriv_SYMBOL (by decide) g10
    obtain ⟨k, rfl, m, rfl⟩ := deriv_Colon (by decide) h4
    obtain ⟨e, rfl, he⟩ := lone_expr h2
    rw [calm_skip L h5 hw.left.left.left.right, calm_skip L h3 hw.left.right]
    simp only [List.length_append] at hn
    obtain ⟨v, hv⟩ := ih _ _ _ _ _ (by omega) h2 hw.right
    refine ⟨(.mkSymbol x, v), ?_⟩
    simp only [List.append_nil, List.cons_append, List.nil_append]
    rw [kvLoop_name rfl, kvLoop_colon rfl]
    simp [kvLoop, he, hv, Pair.text]
  · have h := h.inv_restore
    obtain ⟨m', rfl⟩ := single_expr h
    obtain ⟨v, hv⟩ := ih _ _ _ _ _ hn h hw
    exact ⟨(.empty, v), by simp [kvLoop, Pair.rule, hv]⟩

theorem calm_args (L : Lawful u) (ih : Safe u c n) : ∀ (l : List (Pair R)) (x : List AST) (k : BMap AST AST),
    (∀ q ∈ l, Fine u .apply_kv n q) → ∃ v, applyArgs c l x k = some v
  | [], x, k, _ => ⟨(x, k), rfl⟩
  | q :: l, x, k, h => by
    have hl := fun x k => calm_args L ih l x k fun q hq => h q (by simp [hq])
    rcases h q (by simp) with hq | ⟨hq, p, t, z, hd, hn, hx⟩
    · rw [applyArgs, if_neg (by simp [hq]), if_pos hq]
      exact hl x k
    · obtain ⟨d, hd⟩ := calm_kv L ih hd hx hn
      rw [applyArgs, if_neg (by simp [hq]), if_neg (by simp [hq]), if_pos hq, hd]
      split
      · rename_i h; cases h
      · exact hl _ _
      · exact hl _ _

theorem calm_apply (L : Lawful u) (ih : Safe u c n) (h : Deriv grammar u a (.call .apply) p w z l) (hw : Calm u w)
    (hn : w.length ≤ n) : ∃ q, l = [q] ∧ q.rule = .apply ∧ ∃ r, buildApply c q = some r := by
  have h := h.inv_call
  simp only [grammar, body_apply] at h
  obtain ⟨m, rfl, hm⟩ := h.inv_atomic.inv_rule (by decide)
  refine ⟨_, rfl, rfl, ?_⟩
  suffices h : ∃ v, applyArgs c m [] [] = some v by
    obtain ⟨v, hv⟩ := h
    exact ⟨_, by rw [buildApply, hv]⟩
  obtain ⟨y, k, m₂, m₆, rfl, rfl, g11, h5⟩ := hm.inv_seq.inv_cat
  obtain ⟨y, b₃, m₂, m₅, rfl, rfl, g12, h6⟩ := g11.inv_cat
  obtain ⟨y, o, m₂, m₄, rfl, rfl, g13, h7⟩ := g12.inv_cat
  obtain ⟨y, b₂, m₂, m₃, rfl, rfl, g14, h8⟩ := g13.inv_cat
  obtain ⟨y, r, m₂, m₇, rfl, rfl, g15, h9⟩ := g14.inv_cat
  obtain ⟨y, b₁, m₂, m₈, rfl, rfl, g16, h10⟩ := g15.inv_cat
  obtain ⟨y, x, m₂, m₉, rfl, rfl, g17, h11⟩ := g16.inv_cat
  obtain ⟨y, b, m₂, m₁, rfl, rfl, g18, h12⟩ := g17.inv_cat
  obtain ⟨rfl, rfl⟩ := h5.inv_str
  obtain ⟨rfl, rfl⟩ := g18.inv_str
  obtain rfl := calm_skip L h12 (hw.sub ⟨c!"(", x ++ b₁ ++ r ++ b₂ ++ o ++ b₃ ++ c!")", by simp⟩)
  simp only [List.length_append, List.length_cons, List.length_nil] at hn
  refine calm_args L ih _ _ _ fun q hq => ?_
  simp only [List.append_assoc, List.nil_append, List.append_nil] at hq
  rcases List.mem_append.1 hq with hq | hq
  · rcases h11.inv_opt with ⟨rfl, rfl, -⟩ | h11
    · simp at hq
    · have h11 := h11.inv_restore
      obtain ⟨m, rfl⟩ := single_kv _ _ _ _ h11
      rw [List.mem_singleton] at hq
      subst hq
      exact .inr ⟨rfl, _, _, _, h11, by omega, hw.left.left.left.left.left.left.right⟩
  · exact calm_commas L single_kv h10 h9 h8 h7 h6 (hw.sub ⟨c!"(" ++ b ++ x, c!")", by simp⟩) (by omega) q hq

theorem calm_applyPE (L : Lawful u) (ih : Safe u c n) (h : Deriv grammar u a applyPE p w z l) (hw : Calm u w)
    (hn : w.length ≤ n) : ∃ q, l = [q] ∧ q.rule = .apply ∧ ∃ r, buildApply c q = some r := by
  obtain ⟨x, y, m₁, m₂, rfl, rfl, g19, h2⟩ := h.inv_seq.inv_cat
  obtain ⟨rfl, hx⟩ := deriv_hspace L g19
  simp only [List.length_append] at hn
  exact calm_apply L ih h2 hw.right (by omega)

theorem calm_apply_call (L : Lawful u) (ih : Safe u c n) (h : Deriv grammar u a (.call .apply_call) p w z l)
    (hw : Calm u w) (hn : w.length ≤ n) :
    ∃ q, l = [q] ∧ q.rule = .apply_call ∧ ∃ v, buildApplyCall c q = some v := by
  have h := h.inv_call
  simp only [grammar, body_apply_call] at h
  obtain ⟨m, rfl, hm⟩ := h.inv_atomic.inv_rule (by decide)
  refine ⟨_, rfl, rfl, ?_⟩
  obtain ⟨x, y, m₁, m₂, rfl, rfl, g20, h2⟩ := hm.inv_seq.inv_cat
  obtain ⟨x, x', m₁, m₁', rfl, rfl, g21, h3⟩ := g20.inv_cat
  obtain ⟨k, hk, rfl, -, m, rfl⟩ := deriv_Symbol (by decide) g21
  simp only [List.length_append] at hn
  obtain ⟨q, rfl, hq, r, hr⟩ := calm_applyPE L ih h3 hw.left.right (by omega)
  obtain ⟨rs, hrs⟩ := h2.inv_rep (P := fun _ w _ l => Calm u w → w.length ≤ n → ∃ ps, applyLists c l = some ps)
    (fun _ _ _ _ _ => ⟨[], rfl⟩) (by
      intro q w₁ w₂ z l₁ l₂ h ih' hw hn
      simp only [List.length_append] at hn
      obtain ⟨q, rfl, hq, r, hr⟩ := calm_applyPE L ih h.inv_restore hw.left (by omega)
      obtain ⟨rs, hrs⟩ := ih' hw.right (by omega)
      exact ⟨r :: rs, by rw [List.singleton_append, applyLists, if_pos hq, hr, hrs]⟩) hw.right (by omega)
  refine ⟨.function (Sym.ofStr k.text) (r :: rs), ?_⟩
  · simp only [List.append_assoc, List.cons_append, List.nil_append]
    rw [buildApplyCall.eq_def]
    simp only [Pair.text, applyLists, hq, if_true, hr, hrs]

/-! ### Indices -/

theorem calm_part (ih : Safe u c n) {S : R} (hS : grammar S = .rule S (.call .expr))
    (h : Deriv grammar u .non (.opt (.restore (.call S))) p w z l) (hw : Calm u w) (hn : w.length < n) :
    l = [] ∨ ∃ q, l = [q] ∧ q.rule = S ∧ ∃ v, buildFirst c q = some v := by
  rcases h.inv_opt with ⟨rfl, rfl, -⟩ | h
  · exact .inl rfl
  · have h := h.inv_restore.inv_call
    rw [hS] at h
    obtain ⟨m, rfl, hm⟩ := h.inv_rule (by decide)
    obtain ⟨m', rfl⟩ := single_expr hm
    obtain ⟨v, hv⟩ := ih _ _ _ _ _ hn hm hw
    exact .inr ⟨_, rfl, rfl, v, by rw [buildFirst, hv]⟩

/-- The parts of a span. -/
def SpanPart (c : Cfg) (q : Pair R) : Prop :=
  q.rule = .Colon ∨ ((q.rule = .Start ∨ q.rule = .End ∨ q.rule = .Step) ∧ ∃ v, buildFirst c q = some v)

theorem calm_span : ∀ (l : List (Pair R)) (pos : Position) (x y z : AST), (∀ q ∈ l, SpanPart c q) →
    ∃ v, indexLoop c pos l x y z = some v
  | [], _, _, _, _, _ => ⟨_, by rw [indexLoop]⟩
  | q :: l, pos, x, y, z, h => by
    have hl := fun x y z => calm_span l pos x y z fun q hq => h q (by simp [hq])
    rcases h q (by simp) with hq | ⟨hq | hq | hq, v, hv⟩
    · rw [indexLoop_colon hq]
      exact hl _ _ _
    all_goals
      simp only [indexLoop, hq, reduceCtorEq, if_true, if_false, hv]
      exact hl _ _ _

theorem calm_index (L : Lawful u) (ih : Safe u c n) {q : Pair R} (h : Deriv grammar u .non (.call .index) p w z [q])
    (hw : Calm u w) (hn : w.length < n) : ∃ v, buildIndex c q = some v := by
  have h := h.inv_call
  simp only [grammar, body_index] at h
  obtain ⟨m, e, hm⟩ := h.inv_rule (by decide)
  cases e
  rw [buildIndex]
  have part : ∀ {p : Nat} {w z : Str} {l : List (Pair R)} {S : R}, grammar S = .rule S (.call .expr) →
      (S = .Start ∨ S = .End ∨ S = .Step) →
      Deriv grammar u .non (.opt (.restore (.call S))) p w z l → Calm u w → w.length < n → ∀ q ∈ l, SpanPart c q := by
    intro p w z l S hS hS' h hw hn
    rcases calm_part ih hS h hw hn with rfl | ⟨q, rfl, hq, hv⟩
    · simp
    · intro q' hq'
      rw [List.mem_singleton] at hq'
      subst hq'
      exact .inr ⟨by rw [hq]; exact hS', hv⟩
  have colon : ∀ {p : Nat} {w z : Str} {l : List (Pair R)}, Deriv grammar u .non (.call .Colon) p w z l →
      ∀ q ∈ l, SpanPart c q := by
    intro p w z l h
    obtain ⟨b, hb, m, rfl⟩ := deriv_Colon (by decide) h
    intro q' hq'
    rw [List.mem_singleton] at hq'
    subst hq'
    exact .inl rfl
  rcases hm.inv_alt with h | ⟨-, h⟩
  · rcases h.inv_alt with h | ⟨-, h⟩
    · obtain ⟨y, t, m₂, m₉, rfl, rfl, g0, h9⟩ := h.inv_seq.inv_cat
      obtain ⟨y, b₄, m₂, m₈, rfl, rfl, g22, h8⟩ := g0.inv_cat
      obtain ⟨y, k', m₂, m₇, rfl, rfl, g23, h7⟩ := g22.inv_cat
      obtain ⟨y, b₃, m₂, m₆, rfl, rfl, g24, h6⟩ := g23.inv_cat
      obtain ⟨y, r, m₂, m₅, rfl, rfl, g25, h5⟩ := g24.inv_cat
      obtain ⟨y, b₂, m₂, m₄, rfl, rfl, g26, h4⟩ := g25.inv_cat
      obtain ⟨y, k, m₂, m₃, rfl, rfl, g27, h3⟩ := g26.inv_cat
      obtain ⟨y, b₁, m₁, m₂, rfl, rfl, g28, h2⟩ := g27.inv_cat
      simp only [List.length_append] at hn
      obtain rfl := calm_skip L h8 hw.left.right
      obtain rfl := calm_skip L h6 hw.left.left.left.right
      obtain rfl := calm_skip L h4 hw.left.left.left.left.left.right
      obtain rfl := calm_skip L h2 hw.left.left.left.left.left.left.left.right
      refine calm_span _ _ _ _ _ fun q hq => ?_
      simp only [List.append_nil, List.mem_append] at hq
      rcases hq with (((hq | hq) | hq) | hq) | hq
      · exact part rfl (.inl rfl) g28 hw.left.left.left.left.left.left.left.left (by omega) q hq
      · exact colon h3 q hq
      · exact part rfl (.inr (.inl rfl)) h5 hw.left.left.left.left.right (by omega) q hq
      · exact colon h7 q hq
      · exact part rfl (.inr (.inr rfl)) h9 hw.right (by omega) q hq
    · obtain ⟨y, r, m₂, m₅, rfl, rfl, g0, h5⟩ := h.inv_seq.inv_cat
      obtain ⟨y, b₂, m₂, m₄, rfl, rfl, g29, h4⟩ := g0.inv_cat
      obtain ⟨y, k, m₂, m₃, rfl, rfl, g30, h3⟩ := g29.inv_cat
      obtain ⟨y, b₁, m₁, m₂, rfl, rfl, g31, h2⟩ := g30.inv_cat
      simp only [List.length_append] at hn
      obtain rfl := calm_skip L h4 hw.left.right
      obtain rfl := calm_skip L h2 hw.left.left.left.right
      refine calm_span _ _ _ _ _ fun q hq => ?_
      simp only [List.append_nil, List.mem_append] at hq
      rcases hq with (hq | hq) | hq
      · exact part rfl (.inl rfl) g31 hw.left.left.left.left (by omega) q hq
      · exact colon h3 q hq
      · exact part rfl (.inr (.inl rfl)) h5 hw.right (by omega) q hq
  · have h := h.inv_restore
    obtain ⟨m', rfl⟩ := single_expr h
    obtain ⟨v, hv⟩ := ih _ _ _ _ _ hn h hw
    exact ⟨v, by simp [indexLoop, Pair.rule, hv]⟩

theorem calm_indices (L : Lawful u) (ih : Safe u c n) : ∀ (l : List (Pair R)), (∀ q ∈ l, Fine u .index n q) →
    ∃ v, sliceItems c l = some v
  | [], _ => ⟨[], rfl⟩
  | q :: l, h => by
    obtain ⟨v, hv⟩ := calm_indices L ih l fun q hq => h q (by simp [hq])
    rcases h q (by simp) with hq | ⟨hq, p, x, z, hd, hn, hx⟩
    · exact ⟨v, by rw [sliceItems, if_pos hq, hv]⟩
    · obtain ⟨a, ha⟩ := calm_index L ih hd hx hn
      exact ⟨a :: v, by rw [sliceItems, if_neg (by simp [hq]), if_pos hq, ha, hv]⟩

theorem calm_slice (L : Lawful u) (ih : Safe u c n) (h : Deriv grammar u a (.call .slice) p w z l) (hw : Calm u w)
    (hn : w.length ≤ n) : ∃ q, l = [q] ∧ q.rule = .slice ∧ ∃ v, buildSlice c q = some v := by
  have h := h.inv_call
  simp only [grammar, body_slice] at h
  obtain ⟨m, rfl, hm⟩ := h.inv_atomic.inv_rule (by decide)
  refine ⟨_, rfl, rfl, ?_⟩
  rw [buildSlice]
  obtain ⟨y, k, m₂, m₆, rfl, rfl, g32, h5⟩ := hm.inv_seq.inv_cat
  obtain ⟨y, b₃, m₂, m₅, rfl, rfl, g33, h6⟩ := g32.inv_cat
  obtain ⟨y, o, m₂, m₄, rfl, rfl, g34, h7⟩ := g33.inv_cat
  obtain ⟨y, b₂, m₂, m₃, rfl, rfl, g35, h8⟩ := g34.inv_cat
  obtain ⟨y, r, m₂, m₇, rfl, rfl, g36, h9⟩ := g35.inv_cat
  obtain ⟨y, b₁, m₂, m₈, rfl, rfl, g37, h10⟩ := g36.inv_cat
  obtain ⟨y, x, m₂, m₉, rfl, rfl, g38, h11⟩ := g37.inv_cat
  obtain ⟨y, b, m₂, m₁, rfl, rfl, g39, h12⟩ := g38.inv_cat
  obtain ⟨rfl, rfl⟩ := h5.inv_str
  obtain ⟨rfl, rfl⟩ := g39.inv_str
  obtain rfl := calm_skip L h12 (hw.sub ⟨c!"[", x ++ b₁ ++ r ++ b₂ ++ o ++ b₃ ++ c!"]", by simp⟩)
  simp only [List.length_append, List.length_cons, List.length_nil] at hn
  obtain ⟨m, rfl⟩ := single_index _ _ _ _ h11
  refine calm_indices L ih _ fun q hq => ?_
  simp only [List.append_assoc, List.nil_append, List.append_nil, List.cons_append, List.mem_cons] at hq
  rcases hq with rfl | hq
  · exact .inr ⟨rfl, _, _, _, h11, by omega, hw.left.left.left.left.left.left.right⟩
  · exact calm_commas L single_index h10 h9 h8 h7 h6 (hw.sub ⟨c!"[" ++ b ++ x, c!"]", by simp⟩) (by omega) q hq

/-! ### Operands -/

theorem atom_value {s : SAtom} (hs : ∀ f m l, s ≠ .prod f m l) (hok : s.Ok u) (hw : Calm u s.text) : ∃ v, s.value = some v := by
  cases s with
  | radix r k d ds => exact absurd ⟨['0', k], ⟨[], _, rfl⟩, .radix (radix_letters r k hok.1)⟩ hw
  | slotsFrom n =>
    obtain ⟨d, r, e, hd⟩ := (numeral_int n).head
    exact absurd ⟨['#', '#', d], ⟨[], r, by simp [SAtom.text, e]⟩, .slots hd⟩ hw
  | prod f m l => exact absurd rfl (hs f m l)
  | _ => exact ⟨_, rfl⟩

theorem atom_placed {s : SAtom} (hs : ∀ f m l, s ≠ .prod f m l) (hok : s.Ok u) (hw : Calm u s.text) (q : Position) :
    ∃ v, s.value.map (placed q) = some v := by
  obtain ⟨v, hv⟩ := atom_value hs hok hw
  exact ⟨placed q v, by rw [hv]; rfl⟩

theorem calm_literal (L : Lawful u) (c : Cfg) (hw : Calm u w)
    (h : Deriv grammar u .compound (.alt (.alt (.alt (.alt (.alt (.alt (.alt (.restore (.call .dict))
      (.restore (.call .list))) (.call .Special)) (.call .REPL)) (.call .Slot)) (.call .Number))
      (.restore (.call .String))) (.call .Symbol)) p w z l) :
    Deriv grammar u .compound (.call .list) p w z l ∨ ∀ r i j t, ∃ v, buildData c (.mk r i j t l) = some v := by
  rcases h.inv_alt with h | ⟨hr, h⟩
  · rcases h.inv_alt with h | ⟨hr, h⟩
    · rcases h.inv_alt with h | ⟨-, h⟩
      · rcases h.inv_alt with h | ⟨-, h⟩
        · rcases h.inv_alt with h | ⟨-, h⟩
          · rcases h.inv_alt with h | ⟨-, h⟩
            · rcases h.inv_alt with h | ⟨-, h⟩
              · exfalso
                have h := h.inv_restore.inv_call
                simp only [grammar, body_dict] at h
                obtain ⟨m, rfl, hm⟩ := h.inv_atomic.inv_rule (by decide)
                obtain ⟨x, y, m₁, m₂, rfl, rfl, g1, -⟩ := hm.inv_seq.inv_cat
                obtain ⟨x, b, m₁, m₁', rfl, rfl, g2, -⟩ := g1.inv_cat
                obtain ⟨rfl, rfl⟩ := g2.inv_str
                exact absurd (by simp) (hw.char (d := '{') (by decide))
              · exact .inl h.inv_restore
            · right
              intro r i j t
              obtain ⟨s, hs, hok, rfl, hp, hq, m, rfl⟩ := deriv_Special (by decide) h
              simpa [buildData, Pair.rule, Pair.text, hp] using atom_value hs hok hw
          · right
            intro r i j t
            obtain ⟨s, hs, hok, rfl, hp, m, rfl⟩ := deriv_REPL (by decide) h
            simpa only [buildData, Pair.rule, Pair.text, Pair.start, Pair.stop, hp, reduceCtorEq, if_true, if_false] using atom_placed hs hok hw _
        · right
          intro r i j t
          obtain ⟨s, hs, hok, rfl, m, rfl, hp⟩ := deriv_Slot L h
          simpa only [buildData, Pair.rule, Pair.text, Pair.start, Pair.stop, Pair.inner, hp, reduceCtorEq, if_true, if_false] using atom_placed hs hok hw _
      · right
        intro r i j t
        have h := h.inv_call
        simp only [grammar, body_Number] at h
        rcases h.inv_alt with h | ⟨-, h⟩
        · rcases h.inv_alt with h | ⟨-, h⟩
          · obtain ⟨r, k, d, ds, hok, rfl, m, rfl⟩ := deriv_Byte h
            exact absurd ⟨['0', k], ⟨[], _, rfl⟩, .radix (radix_letters r k hok.1)⟩ hw
          · obtain ⟨i, f, rfl, m, rfl⟩ := deriv_Decimal h
            exact absurd (by simp) (hw.char (d := '.') (by decide))
        · obtain ⟨n, rfl, rfl, -⟩ := deriv_Integer (by decide) h
          exact ⟨.integer n, by simp [buildData, Pair.rule, Pair.text, parseInteger_numeral]⟩
    · right
      intro r i j t
      obtain ⟨s, hs, hok, rfl, hq, m, rfl, hp⟩ := deriv_String
        (refuses_constants L hr fun v x rest h => eats_alt_left (eats_alt_left (eats_alt_left h))) h.inv_restore
      simpa [buildData, Pair.rule, Pair.text, Pair.inner, hp] using atom_value hs hok hw
  · right
    intro r i j t
    obtain ⟨q, hq, rfl, -, m, rfl⟩ := deriv_Symbol (by decide) h
    exact ⟨.mkSymbol q.text, by simp [buildData, Pair.rule, Pair.text]⟩

theorem calm_data (L : Lawful u) (ih : Safe u c n) (h : Deriv grammar u a (.call .data) p w z l) (hw : Calm u w)
    (hn : w.length ≤ n) : ∃ q, l = [q] ∧ q.rule = .data ∧ ∃ v, buildData c q = some v := by
  have h := h.inv_call
  simp only [grammar, body_data] at h
  obtain ⟨m, rfl, hm⟩ := h.inv_atomic.inv_rule (by decide)
  refine ⟨_, rfl, rfl, ?_⟩
  rcases calm_literal L c hw hm with h | h
  · obtain ⟨q, rfl, hq, hm'⟩ := calm_list L ih h hw hn
    simpa [buildData, hq] using hm'
  · exact h _ _ _ _

theorem deriv_Derivative (h : Deriv grammar u a (.call .Derivative) p w z l) : ∃ r, w = '\'' :: r := by
  have h := h.inv_call
  simp only [grammar, body_Derivative] at h
  have key : ∀ {a : Atomicity} {l : List (Pair R)}, Deriv grammar u a (.atomic .atomic (.seq (.cat (.str c!"'")
      (.rep (.str c!"'"))))) p w z l → ∃ r, w = '\'' :: r := by
    intro a l h
    obtain ⟨x, y, m₁, m₂, rfl, rfl, g1, -⟩ := h.inv_atomic.inv_seq.inv_cat
    obtain ⟨rfl, rfl⟩ := g1.inv_str
    exact ⟨y, rfl⟩
  by_cases ha : a = .atomic
  · subst ha
    exact key h.inv_quiet
  · obtain ⟨m, rfl, hm⟩ := h.inv_rule ha
    exact key hm

theorem calm_node (L : Lawful u) (ih : Safe u c n) (h : Deriv grammar u .compound (.call .node) p w z l) (hw : Calm u w)
    (hn : w.length ≤ n) : ∃ q, l = [q] ∧ q.rule = .node ∧ ∃ v, buildNode c q = some v := by
  have h := h.inv_call
  simp only [grammar, body_node] at h
  obtain ⟨m, rfl, hm⟩ := h.inv_rule (by decide)
  refine ⟨_, rfl, rfl, ?_⟩
  rcases hm.inv_alt with h | ⟨-, h⟩
  · rcases h.inv_alt with h | ⟨hr, h⟩
    · rcases h.inv_alt with h | ⟨-, h⟩
      · rcases h.inv_alt with h | ⟨-, h⟩
        · obtain ⟨y, k, m₂, m₅, rfl, rfl, g0, h5⟩ := h.inv_restore.inv_seq.inv_cat
          obtain ⟨y, b', m₂, m₄, rfl, rfl, g40, h4⟩ := g0.inv_cat
          obtain ⟨y, x, m₂, m₃, rfl, rfl, g41, h3⟩ := g40.inv_cat
          obtain ⟨y, b, m₁, m₂, rfl, rfl, g42, h2⟩ := g41.inv_cat
          obtain ⟨rfl, rfl⟩ := h5.inv_str
          obtain ⟨rfl, rfl⟩ := g42.inv_str
          obtain ⟨rfl, rfl⟩ := deriv_no_skip h2
          obtain ⟨rfl, rfl⟩ := deriv_no_skip h4
          obtain ⟨m, rfl⟩ := single_expr h3
          simp only [List.nil_append, List.append_nil, buildNode, Pair.rule, if_true]
          simp only [List.length_append, List.length_cons, List.length_nil] at hn
          exact ih _ _ _ _ _ (by omega) h3 hw.left.left.right
        · obtain ⟨q, rfl, hq, hk⟩ := calm_apply_call L ih h.inv_restore hw hn
          simpa [buildNode, hq] using hk
      · exfalso
        have h := h.inv_restore.inv_call
        simp only [grammar, body_derivative] at h
        obtain ⟨m, rfl, hd⟩ := h.inv_atomic.inv_rule (by decide)
        obtain ⟨x, y, m₁, m₂, rfl, rfl, g1, -⟩ := hd.inv_seq.inv_cat
        obtain ⟨x, y', m₁, m₃, rfl, rfl, g2, -⟩ := g1.inv_cat
        obtain ⟨x, y'', m₁, m₃, rfl, rfl, -, g3⟩ := g2.inv_cat
        obtain ⟨r, rfl⟩ := deriv_Derivative g3
        exact absurd (by simp) (hw.char (d := '\'') (by decide))
    · obtain ⟨m, rfl, hk⟩ := calm_space_call L h.inv_restore hw
        (hr.left.right (by decide) (o := 0) (x := some 0) (by decide)).inside
      simpa only [buildNode, Pair.rule, Pair.start, Pair.stop, Pair.inner, reduceCtorEq, if_true, if_false] using hk _
  · obtain ⟨q, rfl, hq, hk⟩ := calm_data L ih h.inv_restore hw hn
    simpa [buildNode, hq] using hk

/-! ### Terms -/

theorem calm_Prefix (h : Deriv grammar u .compound (.call .Prefix) p w z l) (hw : Calm u w) :
    ∃ q, l = [q] ∧ q.rule = .Prefix ∧ ∃ s, prefixMap q.text = some s := by
  have h := h.inv_call
  simp only [grammar, body_Prefix] at h
  obtain ⟨m, rfl, hm⟩ := h.inv_rule (by decide)
  refine ⟨_, rfl, rfl, ?_⟩
  rcases hm.inv_atomic.inv_alt with h | ⟨-, h⟩
  · rcases h.inv_alt with h | ⟨-, h⟩
    · rcases h.inv_alt with h | ⟨-, h⟩
      · rcases h.inv_alt with h | ⟨-, h⟩
        · obtain ⟨rfl, rfl⟩ := deriv_tok_mute rfl h
          exact ⟨_, rfl⟩
        · obtain ⟨rfl, rfl⟩ := deriv_tok_mute rfl h
          exact absurd (by simp) (hw.char (d := '¬') (by decide))
      · obtain ⟨rfl, rfl⟩ := deriv_tok_mute rfl h
        exact ⟨_, rfl⟩
    · obtain ⟨rfl, rfl⟩ := deriv_tok_mute rfl h
      exact ⟨_, rfl⟩
  · obtain ⟨rfl, rfl⟩ := deriv_tok_mute rfl h
    exact ⟨_, rfl⟩

theorem calm_Suffix (h : Deriv grammar u .compound (.call .Suffix) p w z l) (hw : Calm u w) :
    ∃ q, l = [q] ∧ q.rule = .Suffix ∧ ∃ s, suffixMap q.text = some s := by
  have h := h.inv_call
  simp only [grammar, body_Suffix] at h
  obtain ⟨m, rfl, hm⟩ := h.inv_rule (by decide)
  refine ⟨_, rfl, rfl, ?_⟩
  rcases hm.inv_atomic.inv_alt with h | ⟨-, h⟩
  · rcases h.inv_alt with h | ⟨-, h⟩
    · rcases h.inv_alt with h | ⟨-, h⟩
      · obtain ⟨r, rfl⟩ := deriv_Derivative h
        exact absurd (by simp) (hw.char (d := '\'') (by decide))
      · obtain ⟨rfl, rfl⟩ := deriv_tok_mute rfl h
        exact ⟨_, rfl⟩
    · obtain ⟨rfl, rfl⟩ := deriv_tok_mute rfl h
      exact ⟨_, rfl⟩
  · obtain ⟨rfl, rfl⟩ := deriv_tok_mute rfl h
    exact absurd (by simp) (hw.char (d := '?') (by decide))

theorem applyPrefixes_some : ∀ (f : List (Str × Position)) (x : AST), (∀ t ∈ f, ∃ s, prefixMap t.1 = some s) →
    ∃ v, applyPrefixes f x = some v
  | [], x, _ => ⟨x, rfl⟩
  | (t, pos) :: f, x, h => by
    obtain ⟨v, hv⟩ := applyPrefixes_some f x fun t ht => h t (by simp [ht])
    obtain ⟨s, hs⟩ := h (t, pos) (by simp)
    exact ⟨.function s [.mk [v] [] pos], by simp only [applyPrefixes, hv, hs]⟩

theorem calm_prefixes (h : Deriv grammar u .compound (.rep (.call .Prefix)) p w z l) : Calm u w →
    ∃ f : List (Str × Position), (∀ r b k, termLoop c (l ++ r) b k = termLoop c r b (k ++ f)) ∧
      ∀ t ∈ f, ∃ s, prefixMap t.1 = some s := by
  refine h.inv_rep (P := fun _ w _ l => Calm u w → ∃ f : List (Str × Position),
    (∀ r b k, termLoop c (l ++ r) b k = termLoop c r b (k ++ f)) ∧ ∀ t ∈ f, ∃ s, prefixMap t.1 = some s) ?_ ?_
  · intro q z _ _
    exact ⟨[], fun _ _ _ => by simp, by simp⟩
  · intro p w₁ w₂ z l₁ l₂ h ih hw
    obtain ⟨f, h1, h2⟩ := ih hw.right
    obtain ⟨q, rfl, hq, hs⟩ := calm_Prefix h hw.left
    refine ⟨(q.text, c.position q.start q.stop) :: f, fun r b k => ?_, ?_⟩
    · rw [List.singleton_append, List.cons_append, termLoop, if_neg (by simp [hq]), if_pos hq, h1]
      simp
    · intro t ht
      rcases List.mem_cons.1 ht with rfl | ht
      · exact hs
      · exact h2 t ht

theorem calm_suffixes (L : Lawful u) (ih : Safe u c n)
    (h : Deriv grammar u .compound (.rep (.alt (.call .Suffix) (.restore (.seq (.cat hspace (.call .slice)))))) p w z l) :
    w.length ≤ n → Calm u w → ∀ x k, (∀ t ∈ k, ∃ s, prefixMap t.1 = some s) → ∃ v, termLoop c l x k = some v := by
  refine h.inv_rep (P := fun _ w _ l => w.length ≤ n → Calm u w → ∀ x k, (∀ t ∈ k, ∃ s, prefixMap t.1 = some s) →
    ∃ v, termLoop c l x k = some v) ?_ ?_
  · intro q z _ _ _ x k hk
    rw [termLoop]
    exact applyPrefixes_some k x hk
  · intro q w₁ w₂ z l₁ l₂ h ih' hn hw x k hk
    simp only [List.length_append] at hn
    rcases h.inv_alt with h | ⟨-, h⟩
    · obtain ⟨q, rfl, hq, s, hs⟩ := calm_Suffix h hw.left
      rw [List.singleton_append, termLoop, if_neg (by simp [hq]), if_neg (by simp [hq]), if_pos hq, hs]
      exact ih' (by omega) hw.right _ k hk
    · obtain ⟨x₁, y₁, m₁, m₂, rfl, rfl, h1, h2⟩ := h.inv_restore.inv_seq.inv_cat
      obtain ⟨rfl, hx⟩ := deriv_hspace L h1
      simp only [List.length_append] at hn
      obtain ⟨q, rfl, hq, v, hv⟩ := calm_slice L ih h2 hw.left.right (by omega)
      rw [List.nil_append, List.singleton_append, termLoop, if_neg (by simp [hq]), if_neg (by simp [hq]),
        if_neg (by simp [hq]), if_pos hq, hv]
      exact ih' (by omega) hw.right _ k hk

theorem calm_term (L : Lawful u) (ih : Safe u c n) (h : Deriv grammar u a (.call .term) p w z l) (hw : Calm u w)
    (hn : w.length ≤ n) : ∃ q, l = [q] ∧ q.rule = .term ∧ ∃ v, buildTerm c q = some v := by
  have h := h.inv_call
  simp only [grammar, body_term] at h
  obtain ⟨m, rfl, hm⟩ := h.inv_atomic.inv_rule (by decide)
  refine ⟨_, rfl, rfl, ?_⟩
  obtain ⟨x, y, m₁, m₂, rfl, rfl, h1, h2⟩ := hm.inv_seq.inv_cat
  obtain ⟨x, t, m₁, m₃, rfl, rfl, h3, h4⟩ := h1.inv_cat
  simp only [List.length_append] at hn
  obtain ⟨f, hf1, hf2⟩ := calm_prefixes (c := c) h3 hw.left.left
  obtain ⟨q, rfl, hq, b, hb⟩ := calm_node L ih h4 hw.left.right (by omega)
  rw [buildTerm, List.append_assoc, hf1, List.singleton_append, termLoop, if_pos hq, hb]
  exact calm_suffixes L ih h2 (by omega) hw.right b _ (by simpa using hf2)

/-! ### Expressions -/

/-- Operators that do not panic, with operands that are built, and what is dropped. -/
def CalmSteps (c : Cfg) (l : List (Pair R)) : Prop :=
  ∃ (K : List (Pair R × Pair R)) (tail : List (Pair R)), l = pairSteps K ++ tail ∧
    (∀ h t, tail = h :: t → opTable h.rule = none) ∧
    ∀ k ∈ K, (∃ o, IsOp k.1 o ∧ o ≠ .dot) ∧ ∃ v, operand c k.2 = some v

theorem calmSteps_cons (L : Lawful u) (ih : Safe u c n) {b x : Str} {p' : Nat} {z' : Str} {l₁ l₂ l₃ : List (Pair R)}
    (h1 : Deriv grammar u .non (.call .skip) p b z l₁) (h2 : Deriv grammar u .non stepPE p' x z' l₂) (hn : x.length ≤ n)
    (hb : Calm u b) (hx : Calm u x) (h3 : CalmSteps c l₃) : CalmSteps c (l₁ ++ (l₂ ++ l₃)) := by
  obtain ⟨o, t, m₁, m₂, rfl, rfl, g1, g2⟩ := h2.inv_restore.inv_seq.inv_cat
  obtain ⟨o, b', m₁, m₃, rfl, rfl, g3, g4⟩ := g1.inv_cat
  obtain ⟨q, rfl, hq⟩ := deriv_Infix L g3
  rw [calm_skip L h1 hb, calm_skip L g4 hx.left.right]
  simp only [List.length_append] at hn
  rcases hq with ⟨o, ho, rfl⟩ | ⟨hq, -⟩
  swap
  · refine ⟨[], _, rfl, ?_, by simp⟩
    intro h t e
    cases e
    exact hq
  obtain ⟨q', rfl, hq', v, hv⟩ := calm_term L ih g2 hx.right (by omega)
  obtain ⟨K, tail, rfl, k1, k2⟩ := h3
  refine ⟨(q, q') :: K, tail, by simp [pairSteps], k1, ?_⟩
  intro k hk
  rcases List.mem_cons.1 hk with rfl | hk
  · refine ⟨⟨o, ho, ?_⟩, v, by simp [operand, hq', hv]⟩
    rintro rfl
    exact absurd (by simp [Op.text]) (hx.char (d := '.') (by decide))
  · exact k2 k hk

theorem evalTree_some {ι ω α : Type} {val : ι → Option α} {infx : α → ω → α → Option α} :
    ∀ (t : OpTree ι ω), (∃ b, val t.steps.1 = some b) → (∀ s ∈ t.steps.2, (∃ b, val s.2 = some b) ∧
      ∀ a b, ∃ d, infx a s.1 b = some d) → ∃ v, evalTree val infx t = some v
  | .leaf x, h, _ => h
  | .node l o r, h, hs => by
    simp only [OpTree.steps, List.mem_append, List.mem_cons] at h hs
    obtain ⟨a, ha⟩ := evalTree_some l h fun s hs' => hs s (.inl hs')
    obtain ⟨k1, k2⟩ := hs (o, r.steps.1) (.inr (.inl rfl))
    obtain ⟨b, hb⟩ := evalTree_some r k1 fun s hs' => hs s (.inr (.inr hs'))
    simp only [evalTree, ha, hb]
    exact k2 a b

theorem calm_build {i j : Nat} {t : Str} {x : Pair R} {r : R} (hx : ∃ v, operand c x = some v) (h : CalmSteps c l) :
    ∃ v, buildExpr c (.mk r i j t (x :: l)) = some v := by
  obtain ⟨K, tail, rfl, ht, hK⟩ := h
  let it : Pair R → Item AST := fun p => (p, operand c p)
  let LI : List (Step AST) := K.map fun s => (it s.1, it s.2)
  have hitems : exprItems c (x :: (pairSteps K ++ tail)) = it x :: stepItems LI ++ tail.map it := by
    rw [exprItems_eq]
    simp only [List.cons_append, List.map_cons, List.map_append, it, LI, stepItems, pairSteps,
      List.map_flatMap, List.flatMap_map]
    rfl
  have hKn : Known LI := by
    intro s hs
    simp only [LI, List.mem_map] at hs
    obtain ⟨s', hs', rfl⟩ := hs
    obtain ⟨⟨o, ho, -⟩, -⟩ := hK s' hs'
    show ∃ p, opTable s'.1.rule = some p
    rw [ho.1]
    cases o <;> exact ⟨_, rfl⟩
  have hS : Stops (tail.map it) := by
    intro h l e
    cases tail with
    | nil => cases e
    | cons p tail => cases e; exact ht p tail rfl
  obtain ⟨t', g, hst, hev⟩ := climb_eq_eval (infixCall (c.position i j)) (it x) LI (tail.map it) hKn hS
  rw [buildExpr, hitems, hev]
  refine evalTree_some t' (by rw [hst]; exact hx) ?_
  rw [hst]
  intro s hs
  simp only [opSteps, LI, List.map_map, List.mem_map] at hs
  obtain ⟨k, hk, rfl⟩ := hs
  obtain ⟨⟨o, ho, hd⟩, hv⟩ := hK k hk
  refine ⟨hv, fun a b => ?_⟩
  show ∃ d, infixCall _ a k.1 b = some d
  rw [infixCall, if_neg ?_]
  · exact ⟨_, rfl⟩
  · rw [ho.1]
    revert hd
    cases o <;> decide

theorem calm_expr {q : Pair R} (L : Lawful u) (ih : Safe u c n) (h : Deriv grammar u a (.call .expr) p w z [q])
    (hw : Calm u w) (hn : w.length ≤ n) : ∃ v, buildExpr c q = some v := by
  have h := h.inv_call
  simp only [grammar, body_expr] at h
  obtain ⟨m, e, hm⟩ := h.inv_atomic.inv_rule (by decide)
  cases e
  obtain ⟨x, y, m₁, m₂, rfl, rfl, h1, h2⟩ := hm.inv_seq.inv_cat
  obtain ⟨x, b, m₁, m₃, rfl, rfl, h3, h4⟩ := h1.inv_cat
  simp only [List.length_append] at hn
  obtain ⟨q, rfl, hq, v, hv⟩ := calm_term L ih h3 hw.left.left (by omega)
  rw [List.append_assoc [q], List.singleton_append]
  refine calm_build ⟨v, by simp [operand, hq, hv]⟩ ?_
  rcases h2.inv_seq.inv_opt with ⟨rfl, rfl, -⟩ | h2
  · rw [calm_skip L h4 hw.left.right]
    exact ⟨[], [], rfl, by simp, by simp⟩
  · obtain ⟨y₁, y₂, k₁, k₂, rfl, rfl, g1, g2⟩ := h2.inv_cat
    simp only [List.length_append] at hn
    have rest := g2.inv_rep (P := fun _ w _ l => w.length ≤ n → Calm u w → CalmSteps c l)
      (fun _ _ _ _ _ => ⟨[], [], rfl, by simp, by simp⟩) (by
        intro q w₁ w₂ z l₁ l₂ h ih' hn hw
        obtain ⟨x₁, x₂, o₁, o₂, rfl, rfl, f1, f2⟩ := h.inv_seq.inv_cat
        simp only [List.length_append] at hn
        rw [List.append_assoc]
        exact calmSteps_cons L ih f1 f2 (by omega) hw.left.left hw.left.right (ih' (by omega) hw.right)) (by omega) hw.right.right
    exact calmSteps_cons L ih h4 g1 (by omega) hw.left.right hw.right.left rest

theorem safe_all (L : Lawful u) (c : Cfg) : ∀ n, Safe u c n
  | 0 => fun _ _ _ _ _ h => absurd h (by omega)
  | n + 1 => fun _ _ _ _ _ h hd hw => calm_expr L (safe_all L c n) hd hw (by omega)

/-! ### Statements -/

/-- How statements begin that are not expressions. -/
def statementStarts : List Str := statementWords ++ [c!";", c!"；", c!"@"]

/-- The text begins with one of these. -/
def Starts (s : Str) : Prop := ∃ k ∈ statementStarts, k <+: s

theorem Starts.append {s : Str} (h : Starts s) (t : Str) : Starts (s ++ t) := by
  obtain ⟨k, hk, h⟩ := h
  exact ⟨k, hk, h.trans (List.prefix_append s t)⟩

theorem starts_str {k : Str} (hk : k ∈ statementStarts) (h : Deriv grammar u a (.str k) p w z l) : Starts w := by
  obtain ⟨rfl, rfl⟩ := h.inv_str
  exact ⟨_, hk, List.prefix_refl _⟩

theorem starts_cat {e f : PE R} (h : Deriv grammar u a (.cat e f) p w z l)
    (k : ∀ {p w z l}, Deriv grammar u a e p w z l → Starts w) : Starts w := by
  obtain ⟨x, y, m₁, m₂, rfl, rfl, g1, -⟩ := h.inv_cat
  exact (k g1).append y

theorem starts_tok {r : R} {x : Str} (hr : grammar r = .rule r (.atomic .atomic (.str x))) (hx : x ∈ statementStarts)
    (h : Deriv grammar u a (.call r) p w z l) : Starts w := by
  by_cases ha : a = .atomic
  · subst ha
    obtain ⟨rfl, rfl⟩ := deriv_tok_mute hr h
    exact ⟨_, hx, List.prefix_refl _⟩
  · obtain ⟨rfl, rfl⟩ := deriv_tok hr ha h
    exact ⟨_, hx, List.prefix_refl _⟩

theorem starts_rule {r : R} {e : PE R} (ha : a ≠ .atomic) (h : Deriv grammar u a (.rule r e) p w z l)
    (k : ∀ {l}, Deriv grammar u a e p w z l → Starts w) : Starts w := by
  obtain ⟨m, rfl, hm⟩ := h.inv_rule ha
  exact k hm

/-- A keyword statement with the semicolon after it. -/
theorem starts_stmt {r : R} {e : PE R} (h : Deriv grammar u .non (.restore (.seq (.cat (.cat (.call r) (.call .skip)) e))) p w z l)
    (k : ∀ {p w z l}, Deriv grammar u .non (grammar r) p w z l → Starts w) : Starts w :=
  starts_cat h.inv_restore.inv_seq fun h => starts_cat h fun h => k h.inv_call

theorem statement_starts (h : Deriv grammar u .non (.call .statement) p w z l) :
    Starts w ∨ Deriv grammar u .non (.call .expression) p w z l := by
  have h := h.inv_call
  simp only [grammar, body_statement] at h
  rcases h.inv_alt with h | ⟨-, h⟩
  · left
    rcases h.inv_alt with h | ⟨-, h⟩
    · rcases h.inv_alt with h | ⟨-, h⟩
      · rcases h.inv_alt with h | ⟨-, h⟩
        · rcases h.inv_alt with h | ⟨-, h⟩
          · rcases h.inv_alt with h | ⟨-, h⟩
            · rcases h.inv_alt with h | ⟨-, h⟩
              · rcases h.inv_alt with h | ⟨-, h⟩
                · rcases h.inv_alt with h | ⟨-, h⟩
                  · have h := h.inv_call
                    simp only [grammar, body_emptyStatement] at h
                    refine starts_rule (by decide) h fun h => ?_
                    rcases h.inv_alt with h | ⟨-, h⟩
                    · have h := h.inv_call
                      simp only [grammar, body_eos] at h
                      refine starts_rule (by decide) h fun h => ?_
                      have h := h.inv_call
                      simp only [grammar, body_Semicolon] at h
                      refine starts_rule (by decide) h fun h => ?_
                      rcases h.inv_atomic.inv_alt with h | ⟨-, h⟩
                      · exact starts_str (by decide) h
                      · exact starts_str (by decide) h
                    · obtain ⟨rfl, -⟩ := deriv_tok rfl (by decide) h
                      exact ⟨c!";", by decide, by decide⟩
                  · exact starts_stmt h fun h => starts_rule (by decide) h fun h => starts_cat h.inv_seq fun h =>
                      starts_cat h fun h => starts_cat h fun h => starts_cat h fun h => starts_str (by decide) h
                · exact starts_stmt h fun h => starts_rule (by decide) h fun h => starts_cat h.inv_seq fun h =>
                    starts_cat h fun h => starts_cat h fun h => starts_cat h fun h => starts_str (by decide) h
              · exact starts_stmt h fun h => starts_rule (by decide) h fun h => starts_cat h.inv_seq fun h =>
                  starts_cat h fun h => starts_cat h fun h => starts_cat h fun h => starts_str (by decide) h
            · exact starts_stmt h fun h => starts_rule (by decide) h fun h => starts_cat h.inv_seq fun h =>
                starts_cat h fun h => starts_cat h fun h => starts_cat h fun h => starts_cat h fun h => starts_cat h fun h =>
                  starts_str (by decide) h
          · refine starts_stmt h fun h => ?_
            simp only [grammar, body_controlFlow] at h
            rcases h.inv_alt with h | ⟨-, h⟩
            · rcases h.inv_alt with h | ⟨-, h⟩
              · have h := h.inv_restore.inv_call
                simp only [grammar, body_re_control] at h
                refine starts_rule (by decide) h fun h => ?_
                rcases h.inv_alt with h | ⟨-, h⟩
                · rcases h.inv_alt with h | ⟨-, h⟩
                  · exact starts_cat h.inv_restore.inv_seq fun h => starts_cat h fun h => starts_tok rfl (by decide) h
                  · exact starts_tok rfl (by decide) h
                · exact starts_tok rfl (by decide) h
              · have h := h.inv_restore.inv_call
                simp only [grammar, body_if_statement] at h
                exact starts_rule (by decide) h fun h => starts_cat h.inv_seq fun h =>
                  starts_cat h fun h => starts_cat h fun h => starts_cat h fun h => starts_str (by decide) h
            · have h := h.inv_restore.inv_call
              simp only [grammar, body_for_statement] at h
              exact starts_rule (by decide) h fun h => starts_cat h.inv_seq fun h =>
                starts_cat h fun h => starts_str (by decide) h
        · exact starts_stmt h fun h => starts_rule (by decide) h fun h => starts_cat h.inv_seq fun h =>
            starts_cat h fun h => starts_str (by decide) h
      · exact starts_stmt h fun h => starts_rule (by decide) h fun h => starts_cat h.inv_seq fun h =>
          starts_cat h fun h => starts_str (by decide) h
    · refine starts_stmt h fun h => starts_rule (by decide) h fun h => starts_cat h.inv_seq fun h =>
        starts_cat h fun h => starts_cat h.inv_seq fun h => starts_cat h fun h => ?_
      have h := h.inv_call
      simp only [grammar, body_annotation_call] at h
      exact starts_rule (by decide) h fun h => starts_cat h.inv_atomic.inv_seq fun h => starts_tok rfl (by decide) h
  · exact .inr h.inv_restore

theorem calm_expression (L : Lawful u) (h : Deriv grammar u .non (.call .expression) p w z l) (hw : Calm u w) :
    ∃ q, l = [q] ∧ q.rule = .expression ∧ ∃ v, buildExpression c q.inner .empty = some v := by
  have h := h.inv_call
  simp only [grammar, body_expression] at h
  obtain ⟨m, rfl, hm⟩ := h.inv_rule (by decide)
  refine ⟨_, rfl, rfl, ?_⟩
  obtain ⟨x, y, m₁, m₂, rfl, rfl, h1, h2⟩ := hm.inv_seq.inv_cat
  obtain ⟨x, b, m₁, m₃, rfl, rfl, h3, h4⟩ := h1.inv_cat
  obtain ⟨q, rfl, hq⟩ := lone_expr h3
  rw [calm_skip L h4 hw.left.right]
  obtain ⟨v, hv⟩ := safe_all L c (x.length + 1) _ _ _ _ _ (by omega) h3 hw.left.left
  refine ⟨v, ?_⟩
  simp only [Pair.inner, List.append_nil, List.singleton_append]
  rw [buildExpression, if_pos hq, hv]
  rcases h2.inv_opt with ⟨-, rfl, -⟩ | h2
  · rfl
  · have h2 := h2.inv_call
    simp only [grammar, body_eos] at h2
    obtain ⟨m, rfl, -⟩ := h2.inv_rule (by decide)
    simp [buildExpression, Pair.rule]

/-! ### Texts -/

/-- **C60**.  If parsing a text panics then a piece of it is one of a few kinds, or it begins, after blank space, with a
keyword of a statement, a semicolon or an annotation. -/
theorem C60_panics (L : Lawful u) (c : Cfg) (h : parseText u c = .panic) :
    Risky u c.input ∨ ∃ b r, c.input = b ++ r ∧ Blank u b ∧ Starts r := by
  by_contra hc
  obtain ⟨hw, hs0⟩ := not_or.1 hc
  have hw : Calm u c.input := hw
  rw [parseText] at h
  split at h
  · rename_i l hl
    have hd := (C34_derivation u c.input l hl).inv_call
    generalize c.input = w at hd hw hs0
    simp only [grammar, body_program] at hd
    obtain ⟨x₁, e, m₁, me, rfl, rfl, h1, he⟩ := hd.inv_seq.inv_cat
    obtain ⟨x₂, b', m₂, mb', rfl, rfl, h2, hb'⟩ := h1.inv_cat
    obtain ⟨x₃, s, m₃, ms, rfl, rfl, h3, hs⟩ := h2.inv_cat
    obtain ⟨x₄, b, m₄, mb, rfl, rfl, h4, hb⟩ := h3.inv_cat
    have h4 := h4.inv_call
    simp only [grammar, body_SOI] at h4
    obtain ⟨-, rfl, rfl⟩ := h4.inv_soi
    have he := he.inv_call
    simp only [grammar, body_EOI] at he
    obtain ⟨me', rfl, hE⟩ := he.inv_rule (by decide)
    obtain ⟨-, rfl, rfl⟩ := hE.inv_eoi
    simp only [List.nil_append, List.append_nil, List.length_nil, Nat.add_zero] at *
    obtain rfl := calm_skip L hb (Calm.left (Calm.left hw))
    obtain rfl := calm_skip L hb' (Calm.right hw)
    rcases hs.inv_seq.inv_opt with ⟨rfl, rfl, -⟩ | hs
    · simp [parsePairs, Pair.rule] at h
    · obtain ⟨s₁, s₂, k₁, k₂, rfl, rfl, g1, g2⟩ := hs.inv_cat
      rcases statement_starts g1.inv_restore with hf | hx
      · rcases deriv_skip L hb with ⟨-, hB⟩ | ⟨q, l', e, -⟩
        · rcases hB with hB | ⟨e, -⟩
          · exact hs0 ⟨b, s₁ ++ s₂ ++ b', by simp, hB, (hf.append _).append _⟩
          · obtain ⟨k, hk, ⟨y, rfl⟩⟩ := hf
            have : k = [] := by
              simp only [List.append_eq_nil_iff] at e
              exact e.1.1.1
            subst this
            revert hk
            decide
        · cases e
      · obtain ⟨q, rfl, hq, v, hv⟩ := calm_expression (c := c) L hx (Calm.left (Calm.right (Calm.left hw)))
        simp only [List.nil_append, List.cons_append, List.append_nil] at h
        rw [parsePairs, if_neg (by rw [hq]; decide), if_pos hq, hv] at h
        cases h
  · cases h
  · rename_i hl
    rcases C33_parse_terminates u .program (by decide) c.input with ⟨l, h⟩ | h <;> rw [h] at hl <;> cases hl

/-- A text without names, and without the signs that can cause trouble, does not make the parser panic. -/
theorem C60_nameless (L : Lawful u) (c : Cfg) (h1 : ∀ d ∈ c.input, ¬ IdStart u d)
    (h2 : ∀ d ∈ c.input, d ∉ ['.', '{', '\'', '?', '¬', '%', '#', ';', '；', '@']) : parseText u c ≠ .panic := by
  intro hp
  rcases C60_panics L c hp with ⟨x, hx, hsp⟩ | ⟨b, r, e, -, k, hk, hr⟩
  · cases hsp with
    | @char d hd =>
      refine h2 d (hx.subset (List.mem_singleton.2 rfl)) ?_
      revert hd
      simp only [List.mem_cons]
      tauto
    | slots hd => exact h2 '#' (hx.subset (by simp)) (by decide)
    | @radix k hk =>
      refine h1 k (hx.subset (by simp)) (.inl ?_)
      simp only [List.mem_cons, List.not_mem_nil, or_false] at hk
      rcases hk with rfl | rfl | rfl | rfl | rfl | rfl <;> rw [L.plain _ _ (by decide)] <;> decide
    | @call d g h q k1 k2 k3 k4 k5 =>
      obtain ⟨i, m⟩ := q
      obtain ⟨d', r', e', hd'⟩ := k4.1.start
      simp only at e'
      exact h1 d' (hx.subset (by simp [Path.text, e'])) hd'
  · have hin : ∀ d ∈ k, d ∈ c.input := fun d hd => by rw [e]; exact List.mem_append_right _ (hr.subset hd)
    simp only [statementStarts, statementWords, List.mem_append, List.mem_cons, List.not_mem_nil, or_false] at hk
    have word : ∀ d t, Plain d → asciiUni .xidStart d = true → k ≠ d :: t := by
      rintro d t k1 k2 rfl
      exact h1 d (hin d (by simp)) (.inl (by rw [L.plain _ _ k1]; exact k2))
    rcases hk with (rfl | rfl | rfl | rfl | rfl | rfl | rfl | rfl | rfl | rfl | rfl) | rfl | rfl | rfl
    all_goals first
      | exact absurd rfl (word _ _ (by decide) (by decide))
      | exact h2 _ (hin _ (List.mem_singleton.2 rfl)) (by decide)

/-! ### None of the kinds is superfluous -/

/-- The text is accepted and the first pair is that of a statement or comment for which nothing is built. -/
def foreignTo (s : Str) : Bool :=
  match smParse asciiUni .program s with
  | .pairs (q :: _) => decide (q.rule ≠ .EOI ∧ q.rule ≠ .expression ∧ q.rule ≠ .COMMENT)
  | _ => false

/-- A text for each beginning, and one with a comment between percent signs. -/
def crashers : List Str :=
  [c!"%%% a %%%", c!"using a", c!"class A {}", c!"trait A {}", c!"extends A {}", c!"return 1", c!"break", c!"pass",
    c!"if x {1}", c!"for i in x {1}", c!"let x = 1", c!"def f(x) {1}", c!";", c!"；", c!"@f 1"]

/-- **C60** (violation).  Each of the statements makes the parser panic. -/
theorem C60_statements (L : Lawful u) (c : Cfg) (h : c.input ∈ crashers) : parseText u c = .panic := by
  have hp : ∀ s ∈ crashers, ∀ d ∈ s, Plain d := by decide
  rw [parseText_plain L c (hp _ h)]
  have key : ∀ s ∈ crashers, foreignTo s = true := by decide +kernel
  have key := key _ h
  rw [foreignTo] at key
  rw [parseText]
  split at key
  · rename_i q l e
    rw [e]
    exact foreign_panics ⟨q, l, rfl, of_decide_eq_true key⟩
  · cases key

/-- **C60** (violation).  For each of the other kinds there is a text where it makes the parser panic. -/
theorem C60_pieces (L : Lawful u) (c : Cfg)
    (h : c.input ∈ [c!"1.05", c!"{}", c!"x'", c!"x?", c!"¬x", c!"##5", c!"0x_F", c!"2 f(x)"]) : parseText u c = .panic := by
  simp only [List.mem_cons, List.not_mem_nil, or_false] at h
  rcases h with h | h | h | h | h | h | h | h
  · exact C40_leading_zero L c h
  · rw [parse_pairs L (l := [.mk .expression 0 2 c!"{}" [.mk .expr 0 2 c!"{}" [.mk .term 0 2 c!"{}" [.mk .node 0 2 c!"{}" [.mk .data 0 2
    c!"{}" [.mk .dict 0 2 c!"{}" []]]]]], .mk .EOI 2 2 c!"" []])
      (by decide +kernel) (by decide) c h]
    rfl
  · rw [parse_pairs L (l := [.mk .expression 0 2 c!"x'" [.mk .expr 0 2 c!"x'" [.mk .term 0 2 c!"x'" [.mk .node 0 1 c!"x" [.mk .data 0 1
    c!"x" [.mk .Symbol 0 1 c!"x" [.mk .SYMBOL 0 1 c!"x" []]]], .mk .Suffix 1 2 c!"'" []]]], .mk .EOI 2 2 c!"" []])
      (by decide +kernel) (by decide) c h]
    rfl
  · rw [parse_pairs L (l := [.mk .expression 0 2 c!"x?" [.mk .expr 0 2 c!"x?" [.mk .term 0 2 c!"x?" [.mk .node 0 1 c!"x" [.mk .data 0 1
    c!"x" [.mk .Symbol 0 1 c!"x" [.mk .SYMBOL 0 1 c!"x" []]]], .mk .Suffix 1 2 c!"?" []]]], .mk .EOI 2 2 c!"" []])
      (by decide +kernel) (by decide) c h]
    rfl
  · rw [parse_pairs L (l := [.mk .expression 0 2 c!"¬x" [.mk .expr 0 2 c!"¬x" [.mk .term 0 2 c!"¬x" [.mk .Prefix 0 1 c!"¬" [], .mk .node 1
    2 c!"x" [.mk .data 1 2 c!"x" [.mk .Symbol 1 2 c!"x" [.mk .SYMBOL 1 2 c!"x" []]]]]]], .mk .EOI 2 2 c!"" []])
      (by decide +kernel) (by decide) c h]
    rfl
  · rw [parse_pairs L (l := [.mk .expression 0 3 c!"##5" [.mk .expr 0 3 c!"##5" [.mk .term 0 3 c!"##5" [.mk .node 0 3 c!"##5" [.mk .data 0
    3 c!"##5" [.mk .Slot 0 3 c!"##5" [.mk .Positive 2 3 c!"5" []]]]]]], .mk .EOI 3 3 c!"" []])
      (by decide +kernel) (by decide) c h]
    rfl
  · rw [parse_pairs L (l := [.mk .expression 0 4 c!"0x_F" [.mk .expr 0 4 c!"0x_F" [.mk .term 0 4 c!"0x_F" [.mk .node 0 4 c!"0x_F" [.mk
    .data 0 4 c!"0x_F" [.mk .Byte 0 4 c!"0x_F" [.mk .Underline 2 3 c!"_" []]]]]]], .mk .EOI 4 4 c!"" []])
      (by decide +kernel) (by decide) c h]
    rfl
  · rw [parse_pairs L (l := [.mk .expression 0 6 c!"2 f(x)" [.mk .expr 0 6 c!"2 f(x)" [.mk .term 0 6 c!"2 f(x)" [.mk .node 0 6 c!"2 f(x)"
    [.mk .space_call 0 6 c!"2 f(x)" [.mk .Integer 0 1 c!"2" [], .mk .apply_call 2 6 c!"f(x)" [.mk .Symbol 2 3
    c!"f" [.mk .SYMBOL 2 3 c!"f" []], .mk .apply 3 6 c!"(x)" [.mk .apply_kv 4 5 c!"x" [.mk .expr 4 5 c!"x" [.mk
    .term 4 5 c!"x" [.mk .node 4 5 c!"x" [.mk .data 4 5 c!"x" [.mk .Symbol 4 5 c!"x" [.mk .SYMBOL 4 5 c!"x"
    []]]]]]]]]]]]]], .mk .EOI 6 6 c!"" []])
      (by decide +kernel) (by decide) c h]
    rfl

/-- `(1 + 2) * 3^4!` does not make the parser panic. -/
example (c : Cfg) (hc : c.input = c!"(1 + 2) * 3^4!") : parseText asciiUni c ≠ .panic :=
  C60_nameless lawful_asciiUni c (by rw [hc]; unfold IdStart; decide) (by rw [hc]; decide)

end SM.Props
