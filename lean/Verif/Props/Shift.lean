import Verif.Props.Alike
import Verif.Props.Session
/-
Where a text begins does not matter: blank space in front of any text, accepted or not, moves the
positions and changes nothing else.
-/
namespace SM.Props
open SM SM.Peg

section generic
variable {R : Type}

mutual
/-- A pair, moved by `k` characters. -/
def shiftPair (k : Nat) : Pair R → Pair R
  | .mk r a b t l => .mk r (a + k) (b + k) t (shiftPairs k l)
termination_by structural p => p
/-- Pairs, moved by `k` characters. -/
def shiftPairs (k : Nat) : List (Pair R) → List (Pair R)
  | [] => []
  | p :: l => shiftPair k p :: shiftPairs k l
termination_by structural l => l
end

theorem shiftPairs_append (k : Nat) (l m : List (Pair R)) :
    shiftPairs k (l ++ m) = shiftPairs k l ++ shiftPairs k m := by
  induction l with
  | nil => rfl
  | cons p l ih => simp [shiftPairs, ih]

/-- A state, moved by `k` characters. -/
def shiftSt (k : Nat) (s : St R) : St R := ⟨s.pos + k, s.rest, s.stack, shiftPairs k s.queue⟩

/-- An outcome, moved by `k` characters. -/
def shiftRes (k : Nat) : Res R → Res R
  | .ok s => .ok (shiftSt k s)
  | .err s => .err (shiftSt k s)
  | .crash => .crash

theorem shift_mapBoth (k : Nat) (r : Res R) (f g f' g' : St R → St R) (hf : ∀ s, shiftSt k (f s) = f' (shiftSt k s))
    (hg : ∀ s, shiftSt k (g s) = g' (shiftSt k s)) : (shiftRes k r).mapBoth f' g' = shiftRes k (r.mapBoth f g) := by
  cases r <;> simp [shiftRes, Res.mapBoth, hf, hg]

theorem shift_between (k : Nat) (s t : St R) : (shiftSt k s).between (shiftSt k t) = s.between t := by
  unfold St.between shiftSt
  dsimp only
  rw [Nat.add_sub_add_right]

theorem shift_advance (k n : Nat) (s : St R) (r : Str) : (shiftSt k s).advance n r = shiftSt k (s.advance n r) := by
  unfold St.advance shiftSt
  dsimp only
  rw [Nat.add_right_comm]

theorem shift_matchStr (k : Nat) (s : St R) (x : Str) : (shiftSt k s).matchStr x = shiftRes k (s.matchStr x) := by
  unfold St.matchStr
  rw [show (shiftSt k s).rest = s.rest from rfl]
  split
  · rw [shift_advance]; rfl
  · rfl

theorem shift_charBy (k : Nat) (s : St R) (p : Char → Bool) : (shiftSt k s).charBy p = shiftRes k (s.charBy p) := by
  unfold St.charBy
  rw [show (shiftSt k s).rest = s.rest from rfl]
  split
  · rfl
  · split
    · rw [shift_advance]; rfl
    · rfl

/-- Running a parser further on in a longer text gives the same, further on. -/
theorem run_shift (g : R → PE R) (u : Uni) (f : R → Bool) (hf : ∀ r, f r = true → noSoi f (g r) = true) (k : Nat) :
    ∀ (n : Nat) (e : PE R) (v : Env) (s : St R), noSoi f e = true →
      run g u n e v (shiftSt k s) = shiftRes k (run g u n e v s) := by
  intro n
  induction n with
  | zero => intro _ _ _ _; rfl
  | succ n ih =>
    intro e v s he
    cases e with
    | call r => exact ih _ _ _ (hf r he)
    | rule r e =>
      rw [run, run]
      split
      · rw [show ({ shiftSt k s with queue := [] } : St R) = shiftSt k { s with queue := [] } from rfl, ih e _ _ he]
        refine shift_mapBoth k _ _ _ _ _ (fun t => ?_) (fun t => rfl)
        rw [shift_between]
        simp [shiftSt, shiftPairs_append, shiftPairs, shiftPair]
      · exact ih _ _ _ he
    | atomic a e => exact ih _ _ _ he
    | ifNon e =>
      rw [run, run]
      split
      · exact ih _ _ _ he
      · rfl
    | seq e =>
      rw [run, run, ih e _ _ he]
      exact shift_mapBoth k _ _ _ _ _ (fun _ => rfl) (fun _ => rfl)
    | opt e =>
      rw [run, run, ih e _ _ he]
      cases run g u n e v s <;> rfl
    | rep e =>
      rw [run, run, ih e _ _ he]
      cases run g u n e v s with
      | ok t => exact ih _ _ _ he
      | err t => rfl
      | crash => rfl
    | alt a b =>
      simp only [noSoi, Bool.and_eq_true] at he
      rw [run, run, ih _ _ _ he.1]
      cases run g u n a v s with
      | ok t => rfl
      | err t => exact ih _ _ _ he.2
      | crash => rfl
    | cat a b =>
      simp only [noSoi, Bool.and_eq_true] at he
      rw [run, run, ih _ _ _ he.1]
      cases run g u n a v s with
      | ok t => exact ih _ _ _ he.2
      | err t => rfl
      | crash => rfl
    | restore e =>
      rw [run, run, ih e _ _ he]
      exact shift_mapBoth k _ _ _ _ _ (fun _ => rfl) (fun _ => rfl)
    | look p e =>
      rw [run, run, ih e _ _ he]
      cases p <;> cases run g u n e { v with silent := true } s <;> rfl
    | str x => exact shift_matchStr k s x
    | insens x =>
      rw [run, run, show (shiftSt k s).rest = s.rest from rfl]
      split
      · rw [shift_advance]; rfl
      · rfl
    | range a b => exact shift_charBy k s _
    | uni p => exact shift_charBy k s _
    | any => exact shift_charBy k s _
    | soi => cases he
    | eoi =>
      rw [run, run, show (shiftSt k s).rest = s.rest from rfl]
      split <;> rfl
    | push e =>
      rw [run, run, ih e _ _ he]
      refine shift_mapBoth k _ _ _ _ _ (fun t => ?_) (fun _ => rfl)
      rw [shift_between]
      rfl
    | peek =>
      rw [run, run, show (shiftSt k s).stack = s.stack from rfl]
      cases s.stack with
      | nil => rfl
      | cons x l => exact shift_matchStr k s x
    | pop =>
      rw [run, run, show (shiftSt k s).stack = s.stack from rfl]
      cases s.stack with
      | nil => rfl
      | cons x l => exact shift_matchStr k { s with stack := l } x

theorem sem_shift (g : R → PE R) (u : Uni) (f : R → Bool) (hf : ∀ r, f r = true → noSoi f (g r) = true) (k : Nat)
    (e : PE R) (v : Env) (s : St R) (he : noSoi f e = true) :
    sem g u e v (shiftSt k s) = shiftRes k (sem g u e v s) := by
  obtain ⟨n, hn⟩ := sem_settles g u e v s
  exact sem_unique 0 ⟨n, fun m hm => by rw [Nat.add_zero, run_shift g u f hf k m e v s he, hn m hm]⟩

theorem run_rep_no_err (g : R → PE R) (u : Uni) (e : PE R) (v : Env) : ∀ (n : Nat) (s t : St R),
    run g u n (.rep e) v s ≠ .err t := by
  intro n
  induction n with
  | zero => intro s t h; cases h
  | succ n ih =>
    intro s t h
    rw [run] at h
    split at h
    · exact ih _ _ h
    · cases h
    · cases h

theorem sem_rep_no_err (g : R → PE R) (u : Uni) (e : PE R) (v : Env) (s t : St R) : sem g u (.rep e) v s ≠ .err t := by
  obtain ⟨n, hn⟩ := sem_settles g u (.rep e) v s
  rw [← hn n (Nat.le_refl _)]
  exact run_rep_no_err g u e v n s t

end generic

variable {u : Uni}

/-- One character or line end of white space in front. -/
theorem rep_step {e : PE R} {v : Env} {x y : Str} (h : Eats u v e x y Nil) (p : Nat) (k : List Str) (q : List (Pair R)) :
    sem grammar u (.rep e) v ⟨p, x ++ y, k, q⟩ = sem grammar u (.rep e) v ⟨p + x.length, y, k, q⟩ := by
  obtain ⟨q', h', h⟩ := h p k q
  cases h'
  rw [sem_rep, h]
  simp

/-- White space in front of any text. -/
theorem rep_ws {v : Env} {t : Str} {k : List Str} {q : List (Pair R)} :
    ∀ (n : Nat) (w : Str) (p : Nat), w.length ≤ n → (∀ c ∈ w, Ws u c) →
      sem grammar u (.rep (.call .WHITESPACE)) v ⟨p, w ++ t, k, q⟩ =
        sem grammar u (.rep (.call .WHITESPACE)) v ⟨p + w.length, t, k, q⟩ := by
  intro n
  induction n with
  | zero =>
    intro w p hw _
    have : w = [] := List.length_eq_zero_iff.1 (by omega)
    subst this
    rfl
  | succ n ih =>
    intro w p hw hc
    cases w with
    | nil => rfl
    | cons c w =>
      have hw' : w.length ≤ n := by simpa using hw
      have hc' : ∀ d ∈ w, Ws u d := fun d hd => hc d (by simp [hd])
      have one : ∀ y, Eats u v (.call .WHITESPACE) [c] (w ++ t) Nil → y = w ++ t →
          sem grammar u (.rep (.call .WHITESPACE)) v ⟨p, c :: w ++ t, k, q⟩ =
            sem grammar u (.rep (.call .WHITESPACE)) v ⟨p + (c :: w).length, t, k, q⟩ := by
        intro y h _
        have := rep_step h p k q
        rw [show c :: w ++ t = [c] ++ (w ++ t) from rfl, this, ih w _ hw' hc']
        simp [Nat.add_comm, Nat.add_left_comm]
      by_cases h1 : c = '\n'
      · subst h1
        exact one _ (eats_ws_line fun _ => eats_newline _) rfl
      · by_cases h2 : c = '\x0d'
        · subst h2
          by_cases h3 : ∃ r, w ++ t = '\n' :: r
          · obtain ⟨r, hr⟩ := h3
            have two : Eats u v (.call .WHITESPACE) ['\x0d', '\n'] r Nil := eats_ws_line fun _ => eats_return_newline _
            have line : Eats u v (.call .WHITESPACE) ['\n'] r Nil := eats_ws_line fun _ => eats_newline _
            rw [show '\x0d' :: w ++ t = ['\x0d', '\n'] ++ r by rw [List.cons_append, hr]; rfl, rep_step two]
            have := ih w (p + 1) hw' hc'
            rw [hr, show '\n' :: r = ['\n'] ++ r from rfl, rep_step line] at this
            rw [show p + ['\x0d', '\n'].length = p + 1 + ['\n'].length from rfl, this]
            simp [Nat.add_comm, Nat.add_left_comm]
          · exact one _ (eats_ws_line fun _ => eats_return fun r e => h3 ⟨r, e⟩) rfl
        · exact one _ (eats_ws_char _ (hc c (by simp)) h1 h2) rfl

/-- The body of the space rule. -/
def skipBody : PE R :=
  .cat (.rep (.call .WHITESPACE)) (.rep (.seq (.cat (.call .COMMENT) (.rep (.call .WHITESPACE)))))

theorem skip_ws {v : Env} {w t : Str} (hw : ∀ c ∈ w, Ws u c) (p : Nat) (k : List Str) (q : List (Pair R)) :
    sem grammar u skipBody v ⟨p, w ++ t, k, q⟩ = sem grammar u skipBody v ⟨p + w.length, t, k, q⟩ := by
  unfold skipBody
  rw [sem_cat, sem_cat, rep_ws _ w p (Nat.le_refl _) hw]

theorem skip_comment (L : Lawful u) {v : Env} {c : LineComment} (hc : c.Ok u) {t : Str} (p : Nat) (k : List Str)
    (q : List (Pair R)) :
    sem grammar u skipBody v ⟨p, c.text ++ t, k, q⟩ = sem grammar u skipBody v ⟨p + c.text.length, t, k, q⟩ := by
  obtain ⟨hc1, hc2, ⟨d, r, hc3, hc4⟩, hc5⟩ := hc
  have noWs : NoWs u (c.text ++ t) := by
    intro d r e
    simp only [LineComment.text, List.cons_append, List.cons.injEq] at e
    obtain ⟨rfl, _⟩ := e
    unfold Ws
    rw [L.plain _ _ (by decide)]
    decide
  have hx : c.text = ('/' :: '/' :: c.kind :: c.body) ++ c.after := by simp [LineComment.text]
  have hcom : Eats u v (.call .COMMENT) ('/' :: '/' :: c.kind :: c.body) (c.after ++ t) Nil := by
    rw [hc3]
    exact eats_comment hc1 hc2 hc4
  have hfail := fails_ws (v := v) L noWs p k q
  unfold skipBody
  rw [sem_cat, sem_cat, sem_rep, hfail]
  simp only [Res.andThen]
  rw [sem_rep, sem_seq, sem_cat]
  obtain ⟨q', h', h⟩ := hcom p k q
  cases h'
  rw [show c.text ++ t = ('/' :: '/' :: c.kind :: c.body) ++ (c.after ++ t) by rw [hx, List.append_assoc], h]
  simp only [Res.andThen, List.append_nil]
  rw [rep_ws _ c.after _ (Nat.le_refl _) hc5]
  rw [show p + ('/' :: '/' :: c.kind :: c.body).length + c.after.length = p + c.text.length by
    rw [hx, List.length_append]; omega]
  cases hz : sem grammar u (.rep (.call .WHITESPACE)) v ⟨p + c.text.length, t, k, q⟩ with
  | ok s => simp only [Res.mapBoth, id]
  | err s => exact absurd hz (sem_rep_no_err _ _ _ _ _ _)
  | crash => simp only [Res.mapBoth]

theorem skip_blank (L : Lawful u) {v : Env} {w t : Str} (hw : Blank u w) (p : Nat) (k : List Str) (q : List (Pair R)) :
    sem grammar u skipBody v ⟨p, w ++ t, k, q⟩ = sem grammar u skipBody v ⟨p + w.length, t, k, q⟩ := by
  obtain ⟨r, ks, rfl, hr, hks⟩ := hw
  rw [List.append_assoc, skip_ws hr]
  rw [show p + (r ++ ks.flatMap LineComment.text).length = (p + r.length) + (ks.flatMap LineComment.text).length by
    rw [List.length_append]; omega]
  generalize p + r.length = p
  clear hr r
  induction ks generalizing p with
  | nil => rfl
  | cons c ks ih =>
    rw [List.flatMap_cons, List.append_assoc, skip_comment L (hks c (by simp)), ih (fun d hd => hks d (by simp [hd]))]
    rw [List.length_append, Nat.add_assoc]

/-- What the parser makes of a text, moved. -/
def shiftParsed (k : Nat) : Parsed → Parsed
  | .pairs l => .pairs (shiftPairs k l)
  | .error => .error
  | .crash => .crash

/-- A program behind its leading blank space. -/
def programBody : PE R :=
  .cat (.cat (.seq (.opt (.cat (.restore (.call .statement)) (.rep (.seq (.cat (.call .skip) (.restore (.call .statement)))))))) (.call .skip)) (.call .EOI)

/-- A program is read as blank space and what follows. -/
theorem program_sem (x : Str) : sem grammar u body_program vN ⟨0, x, [], []⟩ =
    (((sem grammar u skipBody vN ⟨0, x, [], []⟩).mapBoth id
      (fun t => { t with pos := 0, rest := x, queue := [] })).andThen
        (sem grammar u programBody vN)).mapBoth id (fun t => { t with pos := 0, rest := x, queue := [] }) := by
  unfold body_program programBody
  rw [sem_seq]
  congr 1
  rw [sem_cat_front, sem_cat, sem_call]
  show (sem grammar u .soi vN ⟨0, x, [], []⟩).andThen _ = _
  rw [sem_soi, if_pos rfl]
  simp only [Res.andThen]
  simp only [sem_cat]
  rw [sem_call]
  show (((sem grammar u body_skip vN ⟨0, x, [], []⟩).andThen _).andThen _).andThen _ = _
  unfold body_skip
  rw [sem_ifNon, if_pos (show vN.atomicity = .non from rfl), sem_seq]
  show ((((sem grammar u skipBody vN ⟨0, x, [], []⟩).mapBoth _ _).andThen _).andThen _).andThen _ = _
  cases sem grammar u skipBody vN ⟨0, x, [], []⟩ with
  | ok s => rfl
  | err s => rfl
  | crash => rfl

/-- Blank space in front of any text moves the pairs and changes nothing else. -/
theorem smParse_blank (L : Lawful u) {w : Str} (hw : Blank u w) (t : Str) :
    smParse u .program (w ++ t) = shiftParsed w.length (smParse u .program t) := by
  rw [smParse_eq u .program (by decide), smParse_eq u .program (by decide), sem_call, sem_call]
  show Parsed.ofRes (sem grammar u body_program vN ⟨0, w ++ t, [], []⟩) =
    shiftParsed _ (Parsed.ofRes (sem grammar u body_program vN ⟨0, t, [], []⟩))
  rw [program_sem, program_sem, skip_blank L hw]
  rw [show (⟨0 + w.length, t, [], []⟩ : St R) = shiftSt w.length ⟨0, t, [], []⟩ from rfl,
    sem_shift grammar u gFree gFree_ok w.length skipBody vN _ (by decide)]
  cases sem grammar u skipBody vN ⟨0, t, [], []⟩ with
  | crash => rfl
  | err s => rfl
  | ok s =>
    simp only [shiftRes, Res.mapBoth, id, Res.andThen]
    rw [sem_shift grammar u gFree gFree_ok w.length _ vN s (by decide)]
    generalize sem grammar u _ vN s = r
    cases r <;> rfl

end SM.Props
