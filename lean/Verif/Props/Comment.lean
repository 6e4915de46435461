import Verif.Props.Cost
import Verif.Props.Leading
/-
C67: block comments.  The mark `%%%` begins a comment and ends one, so at every mark inside a comment the parser first
tries to read a comment from there to the next mark, and forgets what it found out.
-/
namespace SM.Props
open SM SM.Peg

/-- A text in pieces, each piece led by the mark `%%%`. -/
def marked : List Str → Str
  | [] => []
  | b :: bs => c!"%%%" ++ (b ++ marked bs)

/-- The pieces contain no percent sign of their own. -/
def Unmarked (bs : List Str) : Prop := ∀ b ∈ bs, '%' ∉ b

variable {u : Uni}

/-! ### Reading block comments -/

/-- One step inside a block comment. -/
def innerStep : PE R := .alt (.call .MultiLineComment) (.seq (.cat (.look false (.str c!"%%%")) (.call .ANY)))

theorem strip_mark {c : Char} (h : c ≠ '%') (r : Str) : strip c!"%%%" (c :: r) = none := by simp [strip, Ne.symm h]

theorem fails_block {v : Env} {txt : Str} (h : strip c!"%%%" txt = none) : Fails u v (.call .MultiLineComment) txt := by
  apply fails_call
  show Fails _ _ body_MultiLineComment _
  unfold body_MultiLineComment
  exact fails_atomic (fails_rule (fails_seq (breaks_cat (breaks_cat (fails_str h).breaks))))

theorem eats_inner_char {v : Env} {c : Char} (h : c ≠ '%') (r : Str) : Eats u v innerStep [c] r Nil := by
  refine eats_alt_right (fails_block (strip_mark h r)) (eats_seq ?_)
  exact ((eats_cat (x := []) (y := [c]) (eats_not (fails_str (strip_mark h r))) (eats_call (eats_any c _))).imp
    fun q => then_nil)

theorem fails_inner_nil {v : Env} : Fails u v innerStep [] := by
  refine fails_alt (fails_block rfl) (fails_seq ?_)
  have h1 : Eats u v (.look false (.str c!"%%%")) [] [] Nil := eats_not (fails_str rfl)
  have h2 : Fails u v (.call .ANY) [] := by
    apply fails_call
    intro pos stack queue
    show sem grammar u .any v _ = _
    rw [sem_any]; rfl
  exact breaks_cat_right h1 h2.breaks

theorem fails_inner_mark {v : Env} {r : Str} (h : Fails u v (.call .MultiLineComment) (c!"%%%" ++ r)) :
    Fails u v innerStep (c!"%%%" ++ r) :=
  fails_alt h (fails_seq (breaks_cat (fails_not (eats_str _ _)).breaks))

theorem eats_inner_gap {v : Env} {y rest : Str} (h : Eats u v (.rep innerStep) y rest fun _ => True) :
    ∀ b : Str, '%' ∉ b → Eats u v (.rep innerStep) (b ++ y) rest fun _ => True
  | [], _ => h
  | c :: b, hb => by
    have hc : c ≠ '%' := fun e => hb (by simp [e])
    exact ((eats_rep_cons (eats_inner_char hc _) (eats_inner_gap h b fun e => hb (by simp [e]))).imp
      fun _ _ => trivial)

/-- Unless pairs are suppressed, one pair for a block comment. -/
def Blocky (v : Env) (q : List (Pair R)) : Prop := v.silent = false → ∃ p, q = [p] ∧ p.rule = .MultiLineComment

/-- The whole block comment, from what is inside. -/
theorem eats_block {v : Env} {x rest : Str}
    (h : Eats u { v with atomicity := .compound } (.rep innerStep) x (c!"%%%" ++ rest) fun _ => True) :
    Eats u v (.call .MultiLineComment) (c!"%%%" ++ x ++ c!"%%%") rest (Blocky v) := by
  apply eats_call
  show Eats _ _ body_MultiLineComment _ _ _
  unfold body_MultiLineComment
  apply eats_atomic
  have h := eats_seq (eats_cat (eats_cat (eats_str c!"%%%" _) h) (eats_str c!"%%%" rest))
  rcases Bool.eq_false_or_eq_true v.silent with hv | hv
  · exact (eats_rule_any h).imp (Q := Blocky v) fun _ _ e => by rw [hv] at e; cases e
  · refine (eats_rule (r := .MultiLineComment) ?_ h).imp (Q := Blocky v) fun q hq _ => ?_
    · simp [Env.emits, hv]
    · obtain ⟨a, b, l, rfl, -⟩ := hq
      exact ⟨_, rfl, rfl⟩

theorem fails_block_open {v : Env} {x : Str}
    (h : Eats u { v with atomicity := .compound } (.rep innerStep) x [] fun _ => True) :
    Fails u v (.call .MultiLineComment) (c!"%%%" ++ x) := by
  apply fails_call
  show Fails _ _ body_MultiLineComment _
  unfold body_MultiLineComment
  refine fails_atomic (fails_rule (fails_seq ?_))
  have := breaks_cat_right (b := .str c!"%%%") (eats_cat (eats_str c!"%%%" _) h)
    (Fails.breaks (fails_str (u := u) (v := { v with atomicity := .compound }) (x := c!"%%%") (txt := []) rfl))
  rw [List.append_nil] at this
  exact this

/-- With an odd number of marks there is no comment at the first one; with an even number the comment at the first mark
ends at the second. -/
theorem block_parity : ∀ (n : Nat) (bs : List Str), bs.length ≤ n → Unmarked bs →
    (bs.length % 2 = 1 → ∀ v, Fails u v (.call .MultiLineComment) (marked bs)) ∧
    (∀ a b cs, bs = a :: b :: cs → bs.length % 2 = 0 →
      ∀ v, Eats u v (.call .MultiLineComment) (c!"%%%" ++ a ++ c!"%%%") (b ++ marked cs) (Blocky v)) ∧
    (bs.length % 2 = 0 → ∀ v, Eats u v (.rep innerStep) (marked bs) [] fun _ => True)
  | 0, bs, hn, _ => by
    obtain rfl : bs = [] := List.length_eq_zero_iff.1 (by omega)
    exact ⟨by simp, by simp, fun _ v => (eats_rep_nil fails_inner_nil).imp fun _ _ => trivial⟩
  | n + 1, bs, hn, hb => by
    have two : ∀ a b cs, bs = a :: b :: cs → bs.length % 2 = 0 →
        ∀ v, Eats u v (.call .MultiLineComment) (c!"%%%" ++ a ++ c!"%%%") (b ++ marked cs) (Blocky v) := by
      rintro a b cs rfl he v
      simp only [List.length_cons] at he hn
      have hf := (block_parity n (b :: cs) (by simp; omega) fun x hx => hb x (by simp at hx ⊢; tauto)).1 (by simp; omega)
      apply eats_block
      have := eats_inner_gap ((eats_rep_nil (fails_inner_mark (hf { v with atomicity := .compound }))).imp
        fun _ _ => trivial) a (hb a (by simp))
      rw [List.append_nil] at this
      exact this
    refine ⟨?_, two, ?_⟩
    · intro ho v
      match bs, hn, hb, ho with
      | a :: cs, hn, hb, ho =>
        simp only [List.length_cons] at ho hn
        have hr := (block_parity n cs (by omega) fun x hx => hb x (by simp [hx])).2.2 (by omega)
        exact fails_block_open (eats_inner_gap (hr _) a (hb a (by simp)))
    · intro he v
      match bs, hn, hb, he, two with
      | [], _, _, _, _ => exact (eats_rep_nil fails_inner_nil).imp fun _ _ => trivial
      | [_], _, _, he, _ => simp at he
      | a :: b :: cs, hn, hb, he, two =>
        have h1 := two a b cs rfl he v
        simp only [List.length_cons] at he hn
        have hr := (block_parity n cs (by omega) fun x hx => hb x (by simp [hx])).2.2 (by omega) v
        have h2 := eats_inner_gap hr b (hb b (by simp))
        have := eats_rep_cons (e := innerStep) (x := c!"%%%" ++ a ++ c!"%%%") (y := b ++ marked cs) (rest := [])
          (eats_alt_left (by rw [List.append_nil]; exact h1)) h2
        exact (this.imp fun _ _ => trivial).cast (by simp [marked])

/-! ### The work of reading them -/

/-- The work of a repetition is that of its first round and of the rest. -/
theorem takes_rep_more {v : Env} {e : PE R} {x rest : Str} {P : List (Pair R) → Prop} {j k : Nat}
    (h1 : Takes u v e (x ++ rest) j) (h2 : Eats u v e x rest P) (h3 : Takes u v (.rep e) rest k) :
    Takes u v (.rep e) (x ++ rest) (j + k) := by
  intro pos stack queue
  obtain ⟨q, _, hs⟩ := h2 pos stack queue
  obtain ⟨l, hl⟩ := h1 pos stack queue
  obtain ⟨n, hn⟩ := sem_settles grammar u e v ⟨pos, x ++ rest, stack, queue⟩
  obtain ⟨m, hm⟩ := h3 (pos + x.length) stack (queue ++ q)
  refine ⟨max l (max n m) + 1, ?_⟩
  rw [calls, hn _ (by omega), hs]
  have g1 := calls_mono' (g := grammar) (u := u) (Nat.le_max_left l (max n m)) e v ⟨pos, x ++ rest, stack, queue⟩
  have g2 := calls_mono' (g := grammar) (u := u) (show m ≤ max l (max n m) by omega) (.rep e) v
    ⟨pos + x.length, rest, stack, queue ++ q⟩
  simp only
  omega

theorem takes_inner_gap {v : Env} {y : Str} {k : Nat} (h : Takes u v (.rep innerStep) y k) :
    ∀ b : Str, '%' ∉ b → Takes u v (.rep innerStep) (b ++ y) k
  | [], _ => h
  | c :: b, hb => by
    have hc : c ≠ '%' := fun e => hb (by simp [e])
    have := takes_rep_more (x := [c]) (takes_zero innerStep _) (eats_inner_char (u := u) (v := v) hc (b ++ y))
      (takes_inner_gap h b fun e => hb (by simp [e]))
    exact this.le (by omega)

theorem takes_block {v : Env} {y : Str} {k : Nat}
    (h : Takes u { v with atomicity := .compound } (.rep innerStep) y k) :
    Takes u v (.call .MultiLineComment) (c!"%%%" ++ y) (1 + k) := by
  apply takes_call
  show Takes _ _ body_MultiLineComment _ _
  unfold body_MultiLineComment
  exact takes_atomic (takes_rule (takes_seq (takes_first (takes_then (eats_str _ _) h))))

/-- Reading a comment at the first of `2 k + 1` or `2 k + 2` marks takes `2 ^ k` calls. -/
theorem block_work : ∀ (n : Nat) (bs : List Str), bs.length ≤ n → Unmarked bs →
    (∀ k, bs.length = 2 * k + 1 ∨ bs.length = 2 * k + 2 →
      ∀ v, Takes u v (.call .MultiLineComment) (marked bs) (2 ^ k)) ∧
    (∀ k, bs.length = 2 * k → ∀ v, Takes u v (.rep innerStep) (marked bs) (2 ^ k - 1))
  | 0, bs, hn, _ => by
    obtain rfl : bs = [] := List.length_eq_zero_iff.1 (by omega)
    refine ⟨by simp, fun k hk v => ?_⟩
    obtain rfl : k = 0 := by simpa using hk.symm
    exact takes_zero _ _
  | n + 1, bs, hn, hb => by
    have one : ∀ k, bs.length = 2 * k + 1 ∨ bs.length = 2 * k + 2 →
        ∀ v, Takes u v (.call .MultiLineComment) (marked bs) (2 ^ k) := by
      intro k hk v
      match bs, hn, hb, hk with
      | a :: cs, hn, hb, hk =>
        simp only [List.length_cons] at hk hn
        have ih := block_work n cs (by omega) fun x hx => hb x (by simp [hx])
        rcases hk with hk | hk
        · exact (takes_block (takes_inner_gap (ih.2 k (by omega) _) a (hb a (by simp)))).le (by
            have := Nat.one_le_two_pow (n := k); omega)
        · exact (takes_block (takes_inner_gap (takes_rep (takes_left (ih.1 k (by omega) _))) a (hb a (by simp)))).le
            (by omega)
    refine ⟨one, ?_⟩
    intro k hk v
    match bs, hn, hb, hk, one with
    | [], _, _, hk, _ =>
      obtain rfl : k = 0 := by simpa using hk.symm
      exact takes_zero _ _
    | [_], _, _, hk, _ => simp at hk; omega
    | a :: b :: cs, hn, hb, hk, one =>
      obtain ⟨k, rfl⟩ : ∃ j, k = j + 1 := ⟨k - 1, by simp only [List.length_cons] at hk; omega⟩
      have h1 := one k (.inr (by omega)) v
      have h0 := (block_parity (u := u) _ (a :: b :: cs) (Nat.le_refl _) hb).2.1 a b cs rfl (by omega) v
      simp only [List.length_cons] at hk hn
      have hr := (block_work n cs (by omega) fun x hx => hb x (by simp [hx])).2 k (by omega) v
      have e : marked (a :: b :: cs) = (c!"%%%" ++ a ++ c!"%%%") ++ (b ++ marked cs) := by simp [marked]
      rw [e] at h1 ⊢
      refine (takes_rep_more (takes_left h1) (eats_alt_left h0) (takes_inner_gap hr b (hb b (by simp)))).le ?_
      have := Nat.one_le_two_pow (n := k)
      rw [Nat.pow_succ]
      omega

/-! ### Every text either begins with a block comment or does not -/

/-- At any text a block comment is read or is not there; what is inside it always comes to an end. -/
theorem block_decides : ∀ (n : Nat) (t : Str), t.length ≤ n →
    (∀ v, Fails u v (.call .MultiLineComment) t ∨ ∃ x r, t = x ++ r ∧ x ≠ [] ∧
      Eats u v (.call .MultiLineComment) x r (Blocky v)) ∧
    (∀ v, ∃ x r, t = x ++ r ∧ Eats u v (.rep innerStep) x r fun _ => True) := by
  intro n
  induction n with
  | zero =>
    intro t ht
    obtain rfl : t = [] := List.length_eq_zero_iff.1 (by omega)
    exact ⟨fun v => .inl (fails_block rfl), fun v => ⟨[], [], rfl, (eats_rep_nil fails_inner_nil).imp fun _ _ => trivial⟩⟩
  | succ n ih =>
    intro t ht
    have first : ∀ v, Fails u v (.call .MultiLineComment) t ∨ ∃ x r, t = x ++ r ∧ x ≠ [] ∧
        Eats u v (.call .MultiLineComment) x r (Blocky v) := by
      intro v
      cases hs : strip c!"%%%" t with
      | none => exact .inl (fails_block hs)
      | some s =>
        have e : t = c!"%%%" ++ s := strip_some hs
        subst e
        obtain ⟨x, r, rfl, h⟩ := (ih s (by simp at ht; omega)).2 { v with atomicity := .compound }
        cases hr : strip c!"%%%" r with
        | none =>
          left
          apply fails_call
          show Fails _ _ body_MultiLineComment _
          unfold body_MultiLineComment
          refine fails_atomic (fails_rule (fails_seq ?_))
          have := breaks_cat_right (b := .str c!"%%%") (eats_cat (eats_str c!"%%%" _) h)
            (Fails.breaks (fails_str (u := u) (v := { v with atomicity := .compound }) (x := c!"%%%") (txt := r) hr))
          rw [List.append_assoc] at this
          exact this
        | some r' =>
          obtain rfl : r = c!"%%%" ++ r' := strip_some hr
          exact .inr ⟨c!"%%%" ++ x ++ c!"%%%", r', by simp, by simp, eats_block h⟩
    refine ⟨first, fun v => ?_⟩
    rcases first v with hf | ⟨x, r, rfl, hx, h⟩
    · cases t with
      | nil => exact ⟨[], [], rfl, (eats_rep_nil fails_inner_nil).imp fun _ _ => trivial⟩
      | cons c t =>
        cases hs : strip c!"%%%" (c :: t) with
        | some s =>
          have e : c :: t = c!"%%%" ++ s := strip_some hs
          rw [e] at hf ⊢
          exact ⟨[], _, rfl, (eats_rep_nil (fails_inner_mark hf)).imp fun _ _ => trivial⟩
        | none =>
          obtain ⟨x, r, rfl, h⟩ := (ih t (by simp at ht; omega)).2 v
          have step : Eats u v innerStep [c] (x ++ r) Nil :=
            eats_alt_right hf (eats_seq ((eats_cat (x := []) (y := [c]) (eats_not (fails_str hs))
              (eats_call (eats_any c _))).imp fun q => then_nil))
          exact ⟨c :: x, r, rfl, (eats_rep_cons step h).imp fun _ _ => trivial⟩
    · have : 0 < x.length := List.length_pos_iff.2 hx
      obtain ⟨y, z, rfl, h'⟩ := (ih r (by simp at ht; omega)).2 v
      exact ⟨x ++ y, z, by simp, (eats_rep_cons (eats_alt_left h) h').imp fun _ _ => trivial⟩

/-! ### Pairs that are already there -/

section generic
variable {R : Type}

/-- A state with pairs put in front. -/
def frameSt (q : List (Pair R)) (s : St R) : St R := ⟨s.pos, s.rest, s.stack, q ++ s.queue⟩

/-- An outcome with pairs put in front. -/
def frameRes (q : List (Pair R)) : Res R → Res R
  | .ok s => .ok (frameSt q s)
  | .err s => .err (frameSt q s)
  | .crash => .crash

theorem frame_mapBoth (q : List (Pair R)) (r : Res R) (f g f' g' : St R → St R)
    (hf : ∀ s, frameSt q (f s) = f' (frameSt q s)) (hg : ∀ s, frameSt q (g s) = g' (frameSt q s)) :
    (frameRes q r).mapBoth f' g' = frameRes q (r.mapBoth f g) := by
  cases r <;> simp [frameRes, Res.mapBoth, hf, hg]

theorem frame_matchStr (q : List (Pair R)) (s : St R) (x : Str) :
    (frameSt q s).matchStr x = frameRes q (s.matchStr x) := by
  unfold St.matchStr
  rw [show (frameSt q s).rest = s.rest from rfl]
  split <;> rfl

theorem frame_charBy (q : List (Pair R)) (s : St R) (p : Char → Bool) :
    (frameSt q s).charBy p = frameRes q (s.charBy p) := by
  unfold St.charBy
  rw [show (frameSt q s).rest = s.rest from rfl]
  split
  · rfl
  · split <;> rfl

/-- The pairs found so far have no influence. -/
theorem run_frame (g : R → PE R) (u : Uni) (q : List (Pair R)) : ∀ (n : Nat) (e : PE R) (v : Env) (s : St R),
    run g u n e v (frameSt q s) = frameRes q (run g u n e v s) := by
  intro n
  induction n with
  | zero => intro _ _ _; rfl
  | succ n ih =>
    intro e v s
    cases e with
    | call r => exact ih _ _ _
    | rule r e =>
      rw [run, run]
      split
      · show Res.mapBoth (run g u n e v { s with queue := [] }) _ _ = _
        cases run g u n e v { s with queue := [] } with
        | ok t => simp [Res.mapBoth, frameRes, frameSt, St.between]
        | err t => rfl
        | crash => rfl
      · exact ih _ _ _
    | atomic a e => exact ih _ _ _
    | ifNon e =>
      rw [run, run]
      split
      · exact ih _ _ _
      · rfl
    | seq e =>
      rw [run, run, ih e]
      exact frame_mapBoth q _ _ _ _ _ (fun _ => rfl) (fun _ => rfl)
    | opt e =>
      rw [run, run, ih e]
      cases run g u n e v s <;> rfl
    | rep e =>
      rw [run, run, ih e]
      cases run g u n e v s with
      | ok t => exact ih _ _ _
      | err t => rfl
      | crash => rfl
    | alt a b =>
      rw [run, run, ih]
      cases run g u n a v s with
      | ok t => rfl
      | err t => exact ih _ _ _
      | crash => rfl
    | cat a b =>
      rw [run, run, ih]
      cases run g u n a v s with
      | ok t => exact ih _ _ _
      | err t => rfl
      | crash => rfl
    | restore e =>
      rw [run, run, ih e]
      exact frame_mapBoth q _ _ _ _ _ (fun _ => rfl) (fun _ => rfl)
    | look p e =>
      rw [run, run, ih e]
      cases p <;> cases run g u n e { v with silent := true } s <;> rfl
    | str x => exact frame_matchStr q s x
    | insens x =>
      rw [run, run, show (frameSt q s).rest = s.rest from rfl]
      split <;> rfl
    | range a b => exact frame_charBy q s _
    | uni p => exact frame_charBy q s _
    | any => exact frame_charBy q s _
    | soi =>
      rw [run, run, show (frameSt q s).pos = s.pos from rfl]
      split <;> rfl
    | eoi =>
      rw [run, run, show (frameSt q s).rest = s.rest from rfl]
      split <;> rfl
    | push e =>
      rw [run, run, ih e]
      exact frame_mapBoth q _ _ _ _ _ (fun t => rfl) (fun _ => rfl)
    | peek =>
      rw [run, run, show (frameSt q s).stack = s.stack from rfl]
      cases s.stack with
      | nil => rfl
      | cons x l => exact frame_matchStr q s x
    | pop =>
      rw [run, run, show (frameSt q s).stack = s.stack from rfl]
      cases s.stack with
      | nil => rfl
      | cons x l => exact frame_matchStr q { s with stack := l } x

end generic

theorem sem_frame (g : R → PE R) (q : List (Pair R)) (e : PE R) (v : Env) (s : St R) :
    sem g u e v (frameSt q s) = frameRes q (sem g u e v s) := by
  obtain ⟨n, hn⟩ := sem_settles g u e v s
  exact sem_unique 0 ⟨n, fun m hm => by rw [Nat.add_zero, run_frame, hn m hm]⟩

/-! ### Programs -/

theorem noWs_mark (L : Lawful u) (r : Str) : NoWs u ('%' :: r) := by
  intro c t e
  obtain ⟨rfl, _⟩ := List.cons.inj e
  unfold Ws
  rw [L.plain _ _ (by decide)]
  decide

/-- A comment that begins with a percent sign is a block comment. -/
theorem fails_comment_mark {v : Env} {r : Str}
    (h : Fails u { v with atomicity := .atomic } (.call .MultiLineComment) ('%' :: r)) :
    Fails u v (.call .COMMENT) ('%' :: r) := by
  apply fails_call
  show Fails u v body_COMMENT _
  unfold body_COMMENT
  apply fails_atomic
  refine fails_alt (fails_alt (fails_alt (fails_alt h ?_) ?_) ?_) ?_ <;>
    exact fails_seq (breaks_cat (fails_str (by simp [strip])).breaks)

theorem eats_comment_mark {v : Env} {x r : Str} {P : List (Pair R) → Prop}
    (h : Eats u { v with atomicity := .atomic } (.call .MultiLineComment) x r P) : Eats u v (.call .COMMENT) x r P := by
  apply eats_call
  show Eats u v body_COMMENT _ _ _
  unfold body_COMMENT
  exact eats_atomic (eats_alt_left (eats_alt_left (eats_alt_left (eats_alt_left h))))

theorem takes_comment_mark {v : Env} {t : Str} {k : Nat}
    (h : Takes u { v with atomicity := .atomic } (.call .MultiLineComment) t k) : Takes u v (.call .COMMENT) t k := by
  apply takes_call'
  show Takes u v body_COMMENT _ _
  unfold body_COMMENT
  exact takes_atomic (takes_left (takes_left (takes_left (takes_left h))))

/-- Blank space, with a block comment at its beginning. -/
theorem skip_block (L : Lawful u) {x t : Str} (hx : ∃ y, x = '%' :: y)
    (h : Eats u vN (.call .COMMENT) x t (Blocky vN)) :
    ∃ p : Pair R, p.rule = .MultiLineComment ∧ sem grammar u skipBody vN ⟨0, x ++ t, [], []⟩ =
      frameRes [p] (shiftRes x.length (sem grammar u skipBody vN ⟨0, t, [], []⟩)) := by
  obtain ⟨q, hq, hs⟩ := h 0 [] []
  obtain ⟨p, rfl, hp⟩ := hq rfl
  refine ⟨p, hp, ?_⟩
  rw [← sem_shift grammar u gFree gFree_ok x.length skipBody vN _ (by decide), ← sem_frame]
  have hw : Fails u vN (.call .WHITESPACE) (x ++ t) := by
    obtain ⟨y, rfl⟩ := hx
    exact fails_ws L (noWs_mark L _)
  unfold skipBody
  rw [sem_cat, sem_cat, sem_rep, hw 0 [] []]
  simp only [Res.andThen]
  rw [sem_rep, sem_seq, sem_cat, hs]
  simp only [Res.andThen]
  show _ = (sem grammar u (.rep (.call .WHITESPACE)) vN ⟨0 + x.length, t, [], [] ++ [p]⟩).andThen _
  cases hz : sem grammar u (.rep (.call .WHITESPACE)) vN ⟨0 + x.length, t, [], [] ++ [p]⟩ with
  | ok s => simp only [Res.mapBoth, id, Res.andThen]
  | err s => exact absurd hz (sem_rep_no_err _ _ _ _ _ _)
  | crash => simp only [Res.mapBoth, Res.andThen]

/-- A pair put in front of what the parser makes of a text. -/
def prepend (p : Pair R) : Parsed → Parsed
  | .pairs l => .pairs (p :: l)
  | .error => .error
  | .crash => .crash

/-- A block comment in front of a text. -/
theorem smParse_block (L : Lawful u) {x t : Str} (hx : ∃ y, x = '%' :: y)
    (h : Eats u vN (.call .COMMENT) x t (Blocky vN)) :
    ∃ p : Pair R, p.rule = .MultiLineComment ∧
      smParse u .program (x ++ t) = prepend p (shiftParsed x.length (smParse u .program t)) := by
  obtain ⟨p, hp, hs⟩ := skip_block L hx h
  refine ⟨p, hp, ?_⟩
  rw [smParse_eq u .program (by decide), smParse_eq u .program (by decide), sem_call, sem_call]
  show Parsed.ofRes (sem grammar u body_program vN ⟨0, x ++ t, [], []⟩) =
    prepend p (shiftParsed _ (Parsed.ofRes (sem grammar u body_program vN ⟨0, t, [], []⟩)))
  rw [program_sem, program_sem, hs]
  cases sem grammar u skipBody vN ⟨0, t, [], []⟩ with
  | crash => rfl
  | err s => rfl
  | ok s =>
    simp only [shiftRes, frameRes, Res.mapBoth, id, Res.andThen]
    rw [sem_frame, sem_shift grammar u gFree gFree_ok x.length programBody vN s (by decide)]
    generalize sem grammar u programBody vN s = r
    cases r <;> rfl

/-- A percent sign that begins no block comment. -/
theorem smParse_mark (L : Lawful u) {r : Str}
    (h : Fails u { vN with atomicity := .atomic } (.call .MultiLineComment) ('%' :: r)) :
    smParse u .program ('%' :: r) = .error := by
  have hk : ∀ v, v.atomicity = .non → Fails u { v with atomicity := .atomic } (.call .MultiLineComment) ('%' :: r) →
      Eats u v (.call .skip) [] ('%' :: r) Nil := by
    intro v hv hf
    apply eats_call
    show Eats u v body_skip _ _ _
    unfold body_skip
    exact eats_ifNon hv (eats_seq ((eats_cat (x := []) (y := []) (eats_rep_nil (fails_ws L (noWs_mark L r)))
      (eats_rep_nil (fails_seq (breaks_cat (fails_comment_mark hf).breaks)))).imp fun q => then_nil))
  have hk := hk vN rfl h
  have hst : Fails u vN (.call .statement) ('%' :: r) := fails_plain L (by decide) _
  have h4 : Eats u vN (.seq (.opt (.cat (.restore (.call .statement)) (.rep (.seq (.cat (.call .skip)
      (.restore (.call .statement)))))))) [] ('%' :: r) Nil := eats_seq (eats_opt_nil (fails_cat (fails_restore hst)))
  have h5 := breaks_cat_right (eats_cat (x := []) (y := []) (eats_cat (x := []) (y := []) hk h4) hk)
    (Fails.breaks (fails_call (r := .EOI) (fails_rule (fails_eoi (txt := r)))))
  simp only [List.append_nil, List.nil_append] at h5
  obtain ⟨pos', txt', queue', hs⟩ := h5 0 [] []
  rw [smParse_eq u .program (by decide), sem_call]
  show Parsed.ofRes (sem grammar u body_program vN ⟨0, '%' :: r, [], []⟩) = _
  unfold body_program
  rw [sem_seq, sem_cat_front, sem_cat, sem_call]
  show Parsed.ofRes (((sem grammar u .soi vN ⟨0, '%' :: r, [], []⟩).andThen _).mapBoth _ _) = _
  rw [sem_soi, if_pos rfl]
  simp only [Res.andThen]
  rw [hs]
  simp [Res.mapBoth, Parsed.ofRes]

/-- The work of a program is at least that of a block comment in front of it. -/
theorem takes_leading (L : Lawful u) {w t : Str} {k : Nat} (hw : Blank u w)
    (h : Takes u { vN with atomicity := .atomic } (.call .MultiLineComment) ('%' :: t) k) :
    k ≤ parseCalls u (w ++ '%' :: t) := by
  have h1 := takes_comment_mark (v := vN) h
  have hskip : Takes u vN (.call .skip) (w ++ '%' :: t) k := by
    obtain ⟨r, ks, rfl, hr1, hks⟩ := hw
    apply takes_call'
    show Takes u vN body_skip _ _
    unfold body_skip
    have noWs : ∀ ks : List LineComment, NoWs u (ks.flatMap LineComment.text ++ '%' :: t) := by
      intro ks
      cases ks with
      | nil => exact noWs_mark L t
      | cons k ks =>
        intro c t e
        simp only [List.flatMap_cons, LineComment.text, List.cons_append, List.cons.injEq] at e
        obtain ⟨rfl, _⟩ := e
        unfold Ws
        rw [L.plain _ _ (by decide)]
        decide
    have hrep : Takes u vN (.rep (.seq (.cat (.call .COMMENT) (.rep (.call .WHITESPACE)))))
        (ks.flatMap LineComment.text ++ '%' :: t) k := by
      induction ks with
      | nil => exact takes_rep (takes_seq (takes_first h1))
      | cons c ks ih =>
        obtain ⟨hk1, hk2, ⟨d, s, hk3, hk4⟩, hk5⟩ := hks c (by simp)
        rw [List.flatMap_cons, List.append_assoc]
        have step : Eats u vN (.seq (.cat (.call .COMMENT) (.rep (.call .WHITESPACE)))) c.text
            (ks.flatMap LineComment.text ++ '%' :: t) Nil := by
          apply eats_seq
          have e : c.text = ('/' :: '/' :: c.kind :: c.body) ++ c.after := by simp [LineComment.text]
          rw [e]
          refine (eats_cat ?_ (eats_ws_run L (noWs ks) _ c.after (Nat.le_refl _) hk5)).imp fun q => then_nil
          rw [hk3]
          exact eats_comment hk1 hk2 hk4
        exact (takes_rep_more (takes_zero _ _) step (ih fun c hc => hks c (by simp [hc]))).le (by omega)
    have hcat := takes_then (eats_ws_run (v := vN) L (noWs ks) _ r (Nat.le_refl _) hr1) hrep
    rw [← List.append_assoc] at hcat
    have hseq := takes_seq hcat
    intro pos stack queue
    obtain ⟨n, hn⟩ := hseq pos stack queue
    exact ⟨n + 1, by rw [calls, if_pos (show vN.atomicity = .non from rfl)]; exact hn⟩
  obtain ⟨n, hn⟩ := hskip 0 [] []
  obtain ⟨m, hm⟩ := sem_settles grammar u (.call .SOI) vN ⟨0, w ++ '%' :: t, [], []⟩
  have h0 : sem grammar u (.call .SOI) vN ⟨0, w ++ '%' :: t, [], []⟩ = .ok ⟨0, w ++ '%' :: t, [], []⟩ := by
    rw [sem_call]
    show sem grammar u .soi vN _ = _
    rw [sem_soi, if_pos rfl]
  refine calls_parse ⟨max n m + 6, ?_⟩
  rw [calls]
  show k ≤ 1 + calls grammar u _ body_program vN ⟨0, w ++ '%' :: t, [], []⟩
  unfold body_program
  rw [calls, calls, calls, calls, calls, hm _ (Nat.le_max_right _ _), h0]
  have := calls_mono' (g := grammar) (u := u) (Nat.le_max_left n m) (.call .skip) vN ⟨0, w ++ '%' :: t, [], []⟩
  simp only
  omega

/-! ### C67 -/

theorem parse_refused (c : Cfg) : parseText u c = .err (.parseError c.errorText) ↔ smParse u .program c.input = .error := by
  rw [parseText]
  cases h : smParse u .program c.input with
  | error => simp
  | crash => simp
  | pairs l =>
    simp only [reduceCtorEq, iff_false]
    intro hp
    clear h
    induction l with
    | nil => cases hp
    | cons p l ih =>
      rw [parsePairs] at hp
      split at hp
      · exact ih hp
      · split at hp
        · cases hx : buildExpression c p.inner .empty <;> rw [hx] at hp <;> cases hp
        · split at hp
          · exact ih hp
          · cases hp

/-- What the builder makes of a block comment followed by anything. -/
theorem block_first (L : Lawful u) {w x t : Str} (hw : Blank u w) (hx : ∃ y, x = '%' :: y)
    (h : Eats u vN (.call .COMMENT) x t (Blocky vN)) {c : Cfg} (hc : c.input = w ++ (x ++ t)) :
    (smParse u .program t = .error → parseText u c = .err (.parseError c.errorText)) ∧
    (smParse u .program t ≠ .error → parseText u c = .panic) := by
  obtain ⟨p, hp, hs⟩ := smParse_block L hx h
  rw [parseText, hc, smParse_blank L hw, hs]
  cases smParse u .program t with
  | error => exact And.intro (fun _ => rfl) fun h => absurd rfl h
  | crash => exact And.intro (fun h => nomatch h) fun _ => rfl
  | pairs l =>
    refine And.intro (fun h => nomatch h) fun _ => ?_
    obtain ⟨r, a, b, y, m⟩ := p
    obtain rfl : r = .MultiLineComment := hp
    exact foreign_panics (foreign_skip rfl)

/-- **C67**.  No text that begins with the mark `%%%` is ever given a value: it is refused or makes the parser panic. -/
theorem C67_never (L : Lawful u) {w t : Str} (hw : Blank u w) {c : Cfg} (hc : c.input = w ++ (c!"%%%" ++ t)) :
    parseText u c = .err (.parseError c.errorText) ∨ parseText u c = .panic := by
  rcases (block_decides (u := u) _ (c!"%%%" ++ t) (Nat.le_refl _)).1 { vN with atomicity := .atomic } with
    h | ⟨x, r, e, hx, h⟩
  · left
    rw [show c!"%%%" ++ t = '%' :: (c!"%%" ++ t) from rfl] at h hc
    rw [parse_refused, hc, smParse_blank L hw, smParse_mark L h]
    rfl
  · have hx' : ∃ y, x = '%' :: y := by
      cases x with
      | nil => exact absurd rfl hx
      | cons d y => exact ⟨y, by rw [show c!"%%%" ++ t = '%' :: (c!"%%" ++ t) from rfl, List.cons_append] at e; rw [(List.cons.inj e).1]⟩
    rw [e] at hc
    obtain ⟨h1, h2⟩ := block_first L hw hx' (eats_comment_mark (v := vN) h) hc
    by_cases hr : smParse u .program r = .error
    · exact .inl (h1 hr)
    · exact .inr (h2 hr)

/-- **C67**.  A text that begins with the mark `%%%` and contains an odd number of marks is refused, whatever stands
between the marks. -/
theorem C67_odd (L : Lawful u) {w : Str} (hw : Blank u w) {bs : List Str} (hb : Unmarked bs) (ho : bs.length % 2 = 1)
    {c : Cfg} (hc : c.input = w ++ marked bs) : parseText u c = .err (.parseError c.errorText) := by
  rw [parse_refused, hc, smParse_blank L hw]
  have h := (block_parity (u := u) _ bs (Nat.le_refl _) hb).1 ho { vN with atomicity := .atomic }
  cases bs with
  | nil => simp at ho
  | cons b bs =>
    rw [show marked (b :: bs) = '%' :: (c!"%%" ++ (b ++ marked bs)) from rfl] at h ⊢
    rw [smParse_mark L h]
    rfl

/-- **C67**.  With an even number of marks, the comment at the first mark ends at the second: comments are not nested.
The text is refused if what stands behind that comment is refused by itself, and makes the parser panic otherwise. -/
theorem C67_even (L : Lawful u) {w a b : Str} (hw : Blank u w) {bs : List Str} (hb : Unmarked (a :: b :: bs))
    (he : bs.length % 2 = 0) {c d : Cfg} (hc : c.input = w ++ marked (a :: b :: bs)) (hd : d.input = b ++ marked bs) :
    (parseText u d = .err (.parseError d.errorText) → parseText u c = .err (.parseError c.errorText)) ∧
    (parseText u d ≠ .err (.parseError d.errorText) → parseText u c = .panic) := by
  have h := (block_parity (u := u) _ (a :: b :: bs) (Nat.le_refl _) hb).2.1 a b bs rfl
    (by simp only [List.length_cons]; omega) { vN with atomicity := .atomic }
  rw [Ne, parse_refused d, hd]
  exact block_first L hw ⟨_, rfl⟩ (eats_comment_mark (v := vN) h) (by rw [hc]; simp [marked])

/-- Block comments with blank space behind each. -/
def blockTexts : List (Str × Str) → List Str
  | [] => []
  | (a, b) :: l => a :: b :: blockTexts l

theorem blockTexts_length (l : List (Str × Str)) : (blockTexts l).length = 2 * l.length := by
  induction l with
  | nil => rfl
  | cons x l ih => obtain ⟨a, b⟩ := x; simp only [blockTexts, List.length_cons, ih]; omega

/-- **C67**.  Every text that consists of block comments and blank space makes the parser panic, if there is at least one
comment. -/
theorem C67_only_comments (L : Lawful u) {w : Str} (hw : Blank u w) {x : Str × Str} {l : List (Str × Str)}
    (hx : ∀ y ∈ x :: l, '%' ∉ y.1 ∧ '%' ∉ y.2 ∧ Blank u y.2) {c : Cfg} (hc : c.input = w ++ marked (blockTexts (x :: l))) :
    parseText u c = .panic := by
  have un : ∀ l : List (Str × Str), (∀ y ∈ l, '%' ∉ y.1 ∧ '%' ∉ y.2 ∧ Blank u y.2) → Unmarked (blockTexts l) := by
    intro l
    induction l with
    | nil => intro _ b hb; simp [blockTexts] at hb
    | cons y l ih =>
      intro h b hb
      obtain ⟨p, q⟩ := y
      obtain ⟨h1, h2, -⟩ := h (p, q) (by simp)
      simp only [blockTexts, List.mem_cons] at hb
      rcases hb with rfl | rfl | hb
      · exact h1
      · exact h2
      · exact ih (fun y hy => h y (by simp [hy])) b hb
  have main : ∀ l : List (Str × Str), (∀ y ∈ l, '%' ∉ y.1 ∧ '%' ∉ y.2 ∧ Blank u y.2) → ∀ w, Blank u w →
      smParse u .program (w ++ marked (blockTexts l)) ≠ .error := by
    intro l
    induction l with
    | nil =>
      intro _ w hw h
      have h1 := (parse_refused (u := u) ⟨[], w ++ marked (blockTexts []), []⟩).2 h
      rw [parse_blank L _ (by simpa [blockTexts, marked] using hw)] at h1
      cases h1
    | cons y l ih =>
      intro h w hw hp
      obtain ⟨p, q⟩ := y
      have hq := (h (p, q) (by simp)).2.2
      have hn := ih (fun y hy => h y (by simp [hy])) q hq
      have := (C67_even L hw (a := p) (b := q) (bs := blockTexts l) (un ((p, q) :: l) h) (by rw [blockTexts_length]; omega)
        (c := ⟨[], w ++ marked (blockTexts ((p, q) :: l)), []⟩) (d := ⟨[], q ++ marked (blockTexts l), []⟩) rfl rfl).2
        (by rw [Ne, parse_refused]; exact hn)
      have h2 := (parse_refused (u := u) ⟨[], w ++ marked (blockTexts ((p, q) :: l)), []⟩).2 hp
      rw [this] at h2
      cases h2
  obtain ⟨a, b⟩ := x
  refine (C67_even L hw (a := a) (b := b) (bs := blockTexts l) (un _ hx) (by rw [blockTexts_length]; omega) hc
    (d := ⟨[], b ++ marked (blockTexts l), []⟩) rfl).2 ?_
  rw [Ne, parse_refused]
  exact main l (fun y hy => hx y (by simp [hy])) b (hx (a, b) (by simp)).2.2

/-- **C67**.  A text that begins with the mark `%%%` and contains `2 * k + 1` or `2 * k + 2` marks takes at least `2 ^ k`
calls of rules, whatever stands between the marks. -/
theorem C67_work (L : Lawful u) {w : Str} (hw : Blank u w) {bs : List Str} (hb : Unmarked bs) {k : Nat}
    (hk : bs.length = 2 * k + 1 ∨ bs.length = 2 * k + 2) : 2 ^ k ≤ parseCalls u (w ++ marked bs) := by
  have h := (block_work (u := u) _ bs (Nat.le_refl _) hb).1 k hk { vN with atomicity := .atomic }
  cases bs with
  | nil => simp at hk
  | cons b bs => exact takes_leading L hw h

/-- A text that is one comment makes the parser panic. -/
example (L : Lawful u) (f e : Str) : parseText u ⟨f, c!"%%% twice %%%", e⟩ = .panic :=
  C67_only_comments L (w := []) (x := (c!" twice ", [])) (l := []) blank_nil
    (by simp [blank_nil]) rfl

/-- A comment with a mark inside is refused. -/
example (L : Lawful u) (f e : Str) :
    parseText u ⟨f, c!"%%% a %%% b %%% 1", e⟩ = .err (.parseError e) :=
  C67_odd L (w := []) (bs := [c!" a ", c!" b ", c!" 1"]) blank_nil (by unfold Unmarked; decide) rfl rfl

/-- A comment before a text that is refused by itself. -/
example (L : Lawful u) (f e : Str) (h : parseText u ⟨f, c!" )", e⟩ = .err (.parseError e)) :
    parseText u ⟨f, c!"%%% a %%% )", e⟩ = .err (.parseError e) :=
  (C67_even L (w := []) (a := c!" a ") (b := c!" )") (bs := []) (c := ⟨f, c!"%%% a %%% )", e⟩) (d := ⟨f, c!" )", e⟩)
    blank_nil (by unfold Unmarked; decide) rfl rfl rfl).1 h

/-- A heading of `n + 1` lines, each a comment. -/
example (L : Lawful u) (n : Nat) : 2 ^ n ≤ parseCalls u (marked (List.replicate (2 * n + 2) c!" \n")) :=
  C67_work L (w := []) (bs := List.replicate (2 * n + 2) c!" \n") (k := n) blank_nil
    (fun b hb => by rw [List.eq_of_mem_replicate hb]; decide) (.inr (by simp))

end SM.Props
