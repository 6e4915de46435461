import Verif.Props.PegSem
import Mathlib.Tactic.Common
/-
Totality of the interpreter: a static check on a grammar (no left recursion, no repetition of an
expression that may succeed without consuming, stack peeked and popped only when non-empty) implies
that every parse ends with success or failure, within a fuel linear in the input length.
-/
namespace SM.Props
open SM SM.Peg

variable {R : Type}

/-- May the expression succeed without consuming input?  (Over-approximation, relative to a table.) -/
def nulE (nul : R → Bool) : PE R → Bool
  | .call r => nul r
  | .rule _ e => nulE nul e
  | .atomic _ e => nulE nul e
  | .ifNon _ => true
  | .seq e => nulE nul e
  | .opt _ => true
  | .rep _ => true
  | .alt a b => nulE nul a || nulE nul b
  | .cat a b => nulE nul a && nulE nul b
  | .restore e => nulE nul e
  | .look _ _ => true
  | .str x => x.isEmpty
  | .insens x => x.isEmpty
  | .range _ _ => false
  | .uni _ => false
  | .any => false
  | .soi => true
  | .eoi => true
  | .push e => nulE nul e
  | .peek => true
  | .pop => true

/-- Every repetition repeats a consuming expression. -/
def repsOk (nul : R → Bool) : PE R → Bool
  | .rule _ e => repsOk nul e
  | .atomic _ e => repsOk nul e
  | .ifNon e => repsOk nul e
  | .seq e => repsOk nul e
  | .opt e => repsOk nul e
  | .rep e => !nulE nul e && repsOk nul e
  | .alt a b => repsOk nul a && repsOk nul b
  | .cat a b => repsOk nul a && repsOk nul b
  | .restore e => repsOk nul e
  | .look _ e => repsOk nul e
  | .push e => repsOk nul e
  | _ => true

/-- Every call made before anything is consumed is to a rule of rank below `k`. -/
def leftBelow (nul : R → Bool) (rk : R → Nat) (k : Nat) : PE R → Bool
  | .call r => decide (rk r < k)
  | .rule _ e => leftBelow nul rk k e
  | .atomic _ e => leftBelow nul rk k e
  | .ifNon e => leftBelow nul rk k e
  | .seq e => leftBelow nul rk k e
  | .opt e => leftBelow nul rk k e
  | .rep e => leftBelow nul rk k e
  | .alt a b => leftBelow nul rk k a && leftBelow nul rk k b
  | .cat a b => leftBelow nul rk k a && (!nulE nul a || leftBelow nul rk k b)
  | .restore e => leftBelow nul rk k e
  | .look _ e => leftBelow nul rk k e
  | .push e => leftBelow nul rk k e
  | _ => true

/-- Stack use: from a stack of at least `d` entries, lower bounds for its size after success and after
failure; `none` if the expression may look at an empty stack.  `req`: what a rule needs; `drop`: what it
takes away. -/
def stackUse (req drop : R → Nat) : PE R → Nat → Option (Nat × Nat)
  | .call r, d => if req r ≤ d then some (d - drop r, d - drop r) else none
  | .rule _ e, d => stackUse req drop e d
  | .atomic _ e, d => stackUse req drop e d
  | .ifNon e, d =>
    match stackUse req drop e d with
    | some (o, x) => some (min o d, x)
    | none => none
  | .seq e, d => stackUse req drop e d
  | .opt e, d =>
    match stackUse req drop e d with
    | some (o, x) => some (min o x, x)
    | none => none
  | .rep e, d =>
    match stackUse req drop e d with
    | some (o, x) => if d ≤ o then some (x, x) else none
    | none => none
  | .alt a b, d =>
    match stackUse req drop a d with
    | some (o, x) =>
      match stackUse req drop b x with
      | some (o', x') => some (min o o', x')
      | none => none
    | none => none
  | .cat a b, d =>
    match stackUse req drop a d with
    | some (o, x) =>
      match stackUse req drop b o with
      | some (o', x') => some (o', min x x')
      | none => none
    | none => none
  | .restore e, d =>
    match stackUse req drop e d with
    | some (o, _) => some (o, d)
    | none => none
  | .look _ e, d =>
    match stackUse req drop e d with
    | some _ => some (d, d)
    | none => none
  | .push e, d =>
    match stackUse req drop e d with
    | some (o, x) => some (o + 1, x)
    | none => none
  | .peek, d => if 1 ≤ d then some (d, d) else none
  | .pop, d => if 1 ≤ d then some (d - 1, d - 1) else none
  | _, d => some (d, d)

/-- Number of nodes. -/
def sizeE : PE R → Nat
  | .rule _ e => sizeE e + 1
  | .atomic _ e => sizeE e + 1
  | .ifNon e => sizeE e + 1
  | .seq e => sizeE e + 1
  | .opt e => sizeE e + 1
  | .rep e => sizeE e + 1
  | .alt a b => sizeE a + sizeE b + 1
  | .cat a b => sizeE a + sizeE b + 1
  | .restore e => sizeE e + 1
  | .look _ e => sizeE e + 1
  | .push e => sizeE e + 1
  | _ => 1

/-- The tables and bounds of the static check. -/
structure Tables (R : Type) where
  nul : R → Bool
  rk : R → Nat
  req : R → Nat
  drop : R → Nat
  maxSize : Nat
  maxRank : Nat

/-- The static check of one rule body. -/
def Tables.okFor (T : Tables R) (r : R) (b : PE R) : Bool :=
  repsOk T.nul b && leftBelow T.nul T.rk (T.rk r) b && (!nulE T.nul b || T.nul r) &&
  decide (sizeE b ≤ T.maxSize) && decide (T.rk r < T.maxRank) && decide (T.drop r ≤ T.req r) &&
  match stackUse T.req T.drop b (T.req r) with
  | some (o, x) => decide (T.req r - T.drop r ≤ o) && decide (T.req r - T.drop r ≤ x)
  | none => false

theorem leftBelow_all (T : Tables R) (h : ∀ r, T.rk r < T.maxRank) (e : PE R) :
    leftBelow T.nul T.rk T.maxRank e = true := by
  induction e <;> simp_all [leftBelow]

theorem leftBelow_mono (nul : R → Bool) (rk : R → Nat) {k k' : Nat} (h : k ≤ k') (e : PE R) :
    leftBelow nul rk k e = true → leftBelow nul rk k' e = true := by
  induction e with
  | call r => simp only [leftBelow, decide_eq_true_eq]; omega
  | alt a b iha ihb => simp only [leftBelow, Bool.and_eq_true]; tauto
  | cat a b iha ihb => simp only [leftBelow, Bool.and_eq_true, Bool.or_eq_true]; tauto
  | _ => simp_all [leftBelow]

theorem stackUse_shift (req drop : R → Nat) (hd : ∀ r, drop r ≤ req r) (e : PE R) (j : Nat) :
    ∀ d o x, stackUse req drop e d = some (o, x) →
      stackUse req drop e (d + j) = some (o + j, x + j) := by
  induction e with
  | call r =>
    intro d o x h
    have := hd r
    simp only [stackUse] at h ⊢
    split at h
    · rw [if_pos (by omega)]
      simp only [Option.some.injEq, Prod.mk.injEq] at h ⊢
      omega
    · cases h
  | rule r e ih => exact ih
  | atomic a e ih => exact ih
  | seq e ih => exact ih
  | ifNon e ih =>
    intro d o x h
    simp only [stackUse] at h ⊢
    split at h
    · rename_i o' x' h'
      rw [ih _ _ _ h']
      simp only [Option.some.injEq, Prod.mk.injEq] at h ⊢
      omega
    · cases h
  | opt e ih =>
    intro d o x h
    simp only [stackUse] at h ⊢
    split at h
    · rename_i o' x' h'
      rw [ih _ _ _ h']
      simp only [Option.some.injEq, Prod.mk.injEq] at h ⊢
      omega
    · cases h
  | rep e ih =>
    intro d o x h
    simp only [stackUse] at h ⊢
    split at h
    · rename_i o' x' h'
      rw [ih _ _ _ h']
      simp only
      split at h
      · rw [if_pos (by omega)]
        simp only [Option.some.injEq, Prod.mk.injEq] at h ⊢
        omega
      · cases h
    · cases h
  | alt a b iha ihb =>
    intro d o x h
    simp only [stackUse] at h ⊢
    split at h
    · rename_i o' x' h'
      rw [iha _ _ _ h']
      simp only
      split at h
      · rename_i o'' x'' h''
        rw [ihb _ _ _ h'']
        simp only [Option.some.injEq, Prod.mk.injEq] at h ⊢
        omega
      · cases h
    · cases h
  | cat a b iha ihb =>
    intro d o x h
    simp only [stackUse] at h ⊢
    split at h
    · rename_i o' x' h'
      rw [iha _ _ _ h']
      simp only
      split at h
      · rename_i o'' x'' h''
        rw [ihb _ _ _ h'']
        simp only [Option.some.injEq, Prod.mk.injEq] at h ⊢
        omega
      · cases h
    · cases h
  | restore e ih =>
    intro d o x h
    simp only [stackUse] at h ⊢
    split at h
    · rename_i o' x' h'
      rw [ih _ _ _ h']
      simp only [Option.some.injEq, Prod.mk.injEq] at h ⊢
      omega
    · cases h
  | look p e ih =>
    intro d o x h
    simp only [stackUse] at h ⊢
    split at h
    · rename_i y h'
      obtain ⟨o', x'⟩ := y
      rw [ih _ _ _ h']
      simp only [Option.some.injEq, Prod.mk.injEq] at h ⊢
      omega
    · cases h
  | push e ih =>
    intro d o x h
    simp only [stackUse] at h ⊢
    split at h
    · rename_i o' x' h'
      rw [ih _ _ _ h']
      simp only [Option.some.injEq, Prod.mk.injEq] at h ⊢
      omega
    · cases h
  | peek =>
    intro d o x h
    simp only [stackUse] at h ⊢
    split at h
    · rw [if_pos (by omega)]
      simp only [Option.some.injEq, Prod.mk.injEq] at h ⊢
      omega
    · cases h
  | pop =>
    intro d o x h
    simp only [stackUse] at h ⊢
    split at h
    · rw [if_pos (by omega)]
      simp only [Option.some.injEq, Prod.mk.injEq] at h ⊢
      omega
    · cases h
  | _ =>
    intro d o x h
    simp only [stackUse, Option.some.injEq, Prod.mk.injEq] at h ⊢
    omega

/-- What a finished step guarantees. -/
def Done (nullable : Bool) (len o x : Nat) : Res R → Prop
  | .ok t => t.rest.length ≤ len ∧ (nullable = false → t.rest.length < len) ∧ o ≤ t.stack.length
  | .err t => t.rest.length ≤ len ∧ x ≤ t.stack.length
  | .crash => False

theorem strip_length {x s r : Str} (h : strip x s = some r) : s.length = x.length + r.length := by
  induction x generalizing s with
  | nil => simp [strip] at h; simp [h]
  | cons c x ih =>
    cases s with
    | nil => simp [strip] at h
    | cons d s =>
      simp only [strip] at h
      split at h
      · simp [ih h]; omega
      · cases h

theorem stripInsens_length {x s r : Str} (h : stripInsens x s = some r) :
    s.length = x.length + r.length := by
  induction x generalizing s with
  | nil => simp [stripInsens] at h; simp [h]
  | cons c x ih =>
    cases s with
    | nil => simp [stripInsens] at h
    | cons d s =>
      simp only [stripInsens] at h
      split at h
      · simp [ih h]; omega
      · cases h

theorem done_matchStr (s : St R) (x : Str) (b : Bool) (h : b = false → x ≠ []) :
    Done b s.rest.length s.stack.length s.stack.length (s.matchStr x) := by
  unfold St.matchStr
  cases h' : strip x s.rest with
  | none => exact ⟨Nat.le_refl _, Nat.le_refl _⟩
  | some r =>
    have := strip_length h'
    refine ⟨?_, ?_, Nat.le_refl _⟩
    · simp only [St.advance]; omega
    · intro hb
      have := List.length_pos_iff.2 (h hb)
      simp only [St.advance]; omega

theorem done_charBy (s : St R) (p : Char → Bool) (b : Bool) :
    Done b s.rest.length s.stack.length s.stack.length (s.charBy p) := by
  unfold St.charBy
  split
  · exact ⟨Nat.le_refl _, Nat.le_refl _⟩
  · rename_i h
    split
    · refine ⟨?_, ?_, Nat.le_refl _⟩ <;> simp [St.advance, h]
    · exact ⟨Nat.le_refl _, Nat.le_refl _⟩

theorem Done.weaken {b b' : Bool} {len len' o o' x x' : Nat} {r : Res R} (h : Done b len o x r)
    (hl : len ≤ len') (hb : b' = false → b = false ∨ len < len') (ho : o' ≤ o) (hx : x' ≤ x) :
    Done b' len' o' x' r := by
  cases r with
  | ok t =>
    obtain ⟨h1, h2, h3⟩ := h
    refine ⟨by omega, ?_, by omega⟩
    intro hb'
    rcases hb hb' with h | h
    · have := h2 h; omega
    · omega
  | err t => exact ⟨by have := h.1; omega, by have := h.2; omega⟩
  | crash => exact h

/-- The fuel that suffices. -/
def Tables.fuel (T : Tables R) (size k len : Nat) : Nat :=
  size + (T.maxSize + 1) * k + ((T.maxSize + 1) * T.maxRank + 1) * len

theorem fuel_mono_len (T : Tables R) {size k len len' : Nat} (h : len ≤ len') :
    T.fuel size k len ≤ T.fuel size k len' := by
  unfold Tables.fuel
  have := Nat.mul_le_mul_left ((T.maxSize + 1) * T.maxRank + 1) h
  omega

theorem fuel_mono_size (T : Tables R) {size size' k len : Nat} (h : size ≤ size') :
    T.fuel size k len ≤ T.fuel size' k len := by
  unfold Tables.fuel; omega

/-- After consuming, any rank is allowed again. -/
theorem fuel_consume (T : Tables R) {size size' k len len' : Nat} (hs : size ≤ size') (h : len < len') :
    T.fuel size T.maxRank len + 1 ≤ T.fuel size' k len' := by
  unfold Tables.fuel
  have := Nat.mul_le_mul_left ((T.maxSize + 1) * T.maxRank + 1) (Nat.succ_le_of_lt h)
  rw [Nat.mul_succ] at this
  omega

/-- After consuming, one unit of fuel is saved. -/
theorem fuel_step (T : Tables R) {size k len len' : Nat} (h : len < len') :
    T.fuel size k len + 1 ≤ T.fuel size k len' := by
  unfold Tables.fuel
  have := Nat.mul_le_mul_left ((T.maxSize + 1) * T.maxRank + 1) (Nat.succ_le_of_lt h)
  rw [Nat.mul_succ] at this
  omega

theorem fuel_call (T : Tables R) {size k k' len : Nat} (hs : size ≤ T.maxSize) (h : k < k') :
    T.fuel size k len + 1 ≤ T.fuel 1 k' len := by
  unfold Tables.fuel
  have := Nat.mul_le_mul_left (T.maxSize + 1) (Nat.succ_le_of_lt h)
  rw [Nat.mul_succ] at this
  omega

theorem run_total (T : Tables R) (g : R → PE R) (u : Uni) (hg : ∀ r, T.okFor r (g r) = true) :
    ∀ (n : Nat) (e : PE R) (v : Env) (s : St R) (k d o x : Nat),
      repsOk T.nul e = true → leftBelow T.nul T.rk k e = true →
      stackUse T.req T.drop e d = some (o, x) → d ≤ s.stack.length →
      T.fuel (sizeE e) k s.rest.length ≤ n →
      Done (nulE T.nul e) s.rest.length o x (run g u n e v s) := by
  have hdrop : ∀ r, T.drop r ≤ T.req r := by
    intro r
    have := hg r
    simp only [Tables.okFor, Bool.and_eq_true, decide_eq_true_eq] at this
    exact this.1.2
  have hrank : ∀ r, T.rk r < T.maxRank := by
    intro r
    have := hg r
    simp only [Tables.okFor, Bool.and_eq_true, decide_eq_true_eq] at this
    exact this.1.1.2
  intro n
  induction n with
  | zero =>
    intro e v s k d o x _ _ _ _ hf
    exfalso
    have : 1 ≤ sizeE e := by cases e <;> simp [sizeE]
    unfold Tables.fuel at hf
    omega
  | succ n ih =>
    intro e v s k d o x hr hl hs hst hf
    cases e with
    | call r =>
      have hgr := hg r
      simp only [Tables.okFor, Bool.and_eq_true, decide_eq_true_eq] at hgr
      obtain ⟨⟨⟨⟨⟨⟨h1, h2⟩, h3⟩, h4⟩, h5⟩, h6⟩, h7⟩ := hgr
      simp only [leftBelow, decide_eq_true_eq] at hl
      simp only [stackUse] at hs
      split at hs
      · rename_i hreq
        simp only [Option.some.injEq, Prod.mk.injEq] at hs
        cases hu : stackUse T.req T.drop (g r) (T.req r) with
        | none => rw [hu] at h7; cases h7
        | some ox =>
          obtain ⟨o', x'⟩ := ox
          rw [hu] at h7
          simp only [Bool.and_eq_true, decide_eq_true_eq] at h7
          have hsh := stackUse_shift T.req T.drop hdrop (g r) (d - T.req r) _ _ _ hu
          rw [show T.req r + (d - T.req r) = d by omega] at hsh
          have := ih (g r) v s (T.rk r) d _ _ h1 h2 hsh hst
            (by have := fuel_call T (len := s.rest.length) h4 hl
                simp only [sizeE] at hf; omega)
          rw [run]
          refine this.weaken (Nat.le_refl _) ?_ (by omega) (by omega)
          intro hb
          left
          simp only [nulE] at hb
          simp only [hb, Bool.or_false, Bool.not_eq_eq_eq_not, Bool.not_true] at h3
          exact h3
      · cases hs
    | rule r e =>
      simp only [repsOk, leftBelow, stackUse, sizeE, nulE] at hr hl hs hf ⊢
      have hf' : T.fuel (sizeE e) k s.rest.length ≤ n := by unfold Tables.fuel at hf ⊢; omega
      rw [run]
      split
      · have := ih e v { s with queue := [] } k d o x hr hl hs hst hf'
        revert this
        cases run g u n e v { s with queue := [] } <;> exact fun h => h
      · exact ih e v s k d o x hr hl hs hst hf'
    | atomic a e =>
      simp only [repsOk, leftBelow, stackUse, sizeE, nulE] at hr hl hs hf ⊢
      have hf' : T.fuel (sizeE e) k s.rest.length ≤ n := by unfold Tables.fuel at hf ⊢; omega
      exact ih e _ s k d o x hr hl hs hst hf'
    | ifNon e =>
      simp only [repsOk, leftBelow, stackUse, sizeE, nulE] at hr hl hs hf ⊢
      have hf' : T.fuel (sizeE e) k s.rest.length ≤ n := by unfold Tables.fuel at hf ⊢; omega
      split at hs
      · rename_i o' x' h'
        simp only [Option.some.injEq, Prod.mk.injEq] at hs
        rw [run]
        split
        · exact (ih e v s k d o' x' hr hl h' hst hf').weaken (Nat.le_refl _) (by simp) (by omega) (by omega)
        · exact ⟨Nat.le_refl _, by simp, by omega⟩
      · cases hs
    | seq e =>
      simp only [repsOk, leftBelow, stackUse, sizeE, nulE] at hr hl hs hf ⊢
      have hf' : T.fuel (sizeE e) k s.rest.length ≤ n := by unfold Tables.fuel at hf ⊢; omega
      have := ih e v s k d o x hr hl hs hst hf'
      rw [run]
      revert this
      cases run g u n e v s with
      | ok t => exact fun h => h
      | err t => exact fun h => ⟨Nat.le_refl _, h.2⟩
      | crash => exact fun h => h
    | opt e =>
      simp only [repsOk, leftBelow, stackUse, sizeE, nulE] at hr hl hs hf ⊢
      have hf' : T.fuel (sizeE e) k s.rest.length ≤ n := by unfold Tables.fuel at hf ⊢; omega
      split at hs
      · rename_i o' x' h'
        simp only [Option.some.injEq, Prod.mk.injEq] at hs
        have := ih e v s k d o' x' hr hl h' hst hf'
        rw [run]
        revert this
        cases run g u n e v s with
        | ok t => exact fun h => ⟨h.1, by simp, by have := h.2.2; omega⟩
        | err t => exact fun h => ⟨h.1, by simp, by have := h.2; omega⟩
        | crash => exact fun h => h
      · cases hs
    | rep e =>
      have hr0 := hr
      have hl0 := hl
      have hs0 := hs
      simp only [repsOk, leftBelow, stackUse, sizeE, nulE, Bool.and_eq_true, Bool.not_eq_true'] at hr hl hs hf ⊢
      have hf' : T.fuel (sizeE e) k s.rest.length ≤ n := by unfold Tables.fuel at hf ⊢; omega
      split at hs
      · rename_i o' x' h'
        split at hs
        · rename_i hdo
          simp only [Option.some.injEq, Prod.mk.injEq] at hs
          have := ih e v s k d o' x' hr.2 hl h' hst hf'
          rw [run]
          revert this
          cases run g u n e v s with
          | ok t =>
            intro h
            have hlt := h.2.1 hr.1
            have := ih (.rep e) v t k d o x hr0 hl0 hs0 (by have := h.2.2; omega)
              (by have := fuel_step T (size := sizeE e + 1) (k := k) hlt
                  simp only [sizeE]; omega)
            exact this.weaken h.1 (by simp) (Nat.le_refl _) (Nat.le_refl _)
          | err t => exact fun h => ⟨h.1, by simp, by have := h.2; omega⟩
          | crash => exact fun h => h
        · cases hs
      · cases hs
    | alt a b =>
      simp only [repsOk, leftBelow, stackUse, sizeE, nulE, Bool.and_eq_true] at hr hl hs hf ⊢
      have hfa : T.fuel (sizeE a) k s.rest.length ≤ n := by unfold Tables.fuel at hf ⊢; omega
      have hfb : T.fuel (sizeE b) k s.rest.length ≤ n := by unfold Tables.fuel at hf ⊢; omega
      split at hs
      · rename_i o' x' h'
        split at hs
        · rename_i o'' x'' h''
          simp only [Option.some.injEq, Prod.mk.injEq] at hs
          have := ih a v s k d o' x' hr.1 hl.1 h' hst hfa
          rw [run]
          revert this
          cases run g u n a v s with
          | ok t =>
            intro h
            refine ⟨h.1, ?_, by have := h.2.2; omega⟩
            intro hb
            simp only [Bool.or_eq_false_iff] at hb
            exact h.2.1 hb.1
          | err t =>
            intro h
            have := ih b v t k x' o'' x'' hr.2 hl.2 h'' h.2
              (Nat.le_trans (fuel_mono_len T h.1) hfb)
            refine this.weaken h.1 ?_ (by omega) (by omega)
            intro hb
            simp only [Bool.or_eq_false_iff] at hb
            exact .inl hb.2
          | crash => exact fun h => h
        · cases hs
      · cases hs
    | cat a b =>
      simp only [repsOk, leftBelow, stackUse, sizeE, nulE, Bool.and_eq_true] at hr hl hs hf ⊢
      have hfa : T.fuel (sizeE a) k s.rest.length ≤ n := by unfold Tables.fuel at hf ⊢; omega
      have hfb : T.fuel (sizeE b) k s.rest.length ≤ n := by unfold Tables.fuel at hf ⊢; omega
      split at hs
      · rename_i o' x' h'
        split at hs
        · rename_i o'' x'' h''
          simp only [Option.some.injEq, Prod.mk.injEq] at hs
          have := ih a v s k d o' x' hr.1 hl.1 h' hst hfa
          rw [run]
          revert this
          cases run g u n a v s with
          | ok t =>
            intro h
            cases hna : nulE T.nul a with
            | false =>
              have hlt := h.2.1 hna
              have := ih b v t T.maxRank o' o'' x'' hr.2 (leftBelow_all T hrank b) h'' h.2.2
                (by have := fuel_consume T (size := sizeE b) (size' := sizeE a + sizeE b + 1) (k := k)
                      (by omega) hlt
                    omega)
              exact this.weaken h.1 (fun _ => .inr hlt) (by omega) (by omega)
            | true =>
              have hlb : leftBelow T.nul T.rk k b = true := by
                have := hl.2
                rw [hna] at this
                simpa using this
              have := ih b v t k o' o'' x'' hr.2 hlb h'' h.2.2
                (Nat.le_trans (fuel_mono_len T h.1) hfb)
              refine this.weaken h.1 ?_ (by omega) (by omega)
              intro hb
              left
              simpa using hb
          | err t => exact fun h => ⟨h.1, by have := h.2; omega⟩
          | crash => exact fun h => h
        · cases hs
      · cases hs
    | restore e =>
      simp only [repsOk, leftBelow, stackUse, sizeE, nulE] at hr hl hs hf ⊢
      have hf' : T.fuel (sizeE e) k s.rest.length ≤ n := by unfold Tables.fuel at hf ⊢; omega
      split at hs
      · rename_i o' x' h'
        simp only [Option.some.injEq, Prod.mk.injEq] at hs
        have := ih e v s k d o' x' hr hl h' hst hf'
        rw [run]
        revert this
        cases run g u n e v s with
        | ok t => exact fun h => ⟨h.1, h.2.1, by have := h.2.2; simp only [id]; omega⟩
        | err t => exact fun h => ⟨h.1, by simp only; omega⟩
        | crash => exact fun h => h
      · cases hs
    | look p e =>
      simp only [repsOk, leftBelow, stackUse, sizeE, nulE] at hr hl hs hf ⊢
      have hf' : T.fuel (sizeE e) k s.rest.length ≤ n := by unfold Tables.fuel at hf ⊢; omega
      split at hs
      · rename_i y h'
        obtain ⟨o', x'⟩ := y
        simp only [Option.some.injEq, Prod.mk.injEq] at hs
        have := ih e { v with silent := true } s k d o' x' hr hl h' hst hf'
        rw [run]
        revert this
        cases run g u n e { v with silent := true } s with
        | crash => exact fun h => h.elim
        | ok t =>
          intro _
          cases p
          · exact ⟨Nat.le_refl _, by simp only; omega⟩
          · exact ⟨Nat.le_refl _, by simp, by simp only; omega⟩
        | err t =>
          intro _
          cases p
          · exact ⟨Nat.le_refl _, by simp, by simp only; omega⟩
          · exact ⟨Nat.le_refl _, by simp only; omega⟩
      · cases hs
    | push e =>
      simp only [repsOk, leftBelow, stackUse, sizeE, nulE] at hr hl hs hf ⊢
      have hf' : T.fuel (sizeE e) k s.rest.length ≤ n := by unfold Tables.fuel at hf ⊢; omega
      split at hs
      · rename_i o' x' h'
        simp only [Option.some.injEq, Prod.mk.injEq] at hs
        have := ih e v s k d o' x' hr hl h' hst hf'
        rw [run]
        revert this
        cases run g u n e v s with
        | ok t => exact fun h => ⟨h.1, h.2.1, by have := h.2.2; simp only [List.length_cons]; omega⟩
        | err t => exact fun h => ⟨h.1, by have := h.2; simp only [id]; omega⟩
        | crash => exact fun h => h
      · cases hs
    | str y =>
      simp only [stackUse, Option.some.injEq, Prod.mk.injEq] at hs
      rw [run]
      exact (done_matchStr s y (nulE T.nul (.str y : PE R)) (by
        intro h hy; subst hy; simp [nulE] at h)).weaken (Nat.le_refl _) (fun h => .inl h)
        (by omega) (by omega)
    | insens y =>
      simp only [stackUse, Option.some.injEq, Prod.mk.injEq] at hs
      rw [run]
      cases h' : stripInsens y s.rest with
      | none => exact ⟨Nat.le_refl _, by omega⟩
      | some r =>
        have := stripInsens_length h'
        refine ⟨by simp only [St.advance]; omega, ?_, by simp only [St.advance]; omega⟩
        intro hb
        have : 0 < y.length := by
          cases y with
          | nil => simp [nulE] at hb
          | cons => simp
        simp only [St.advance]; omega
    | range a b =>
      simp only [stackUse, Option.some.injEq, Prod.mk.injEq] at hs
      rw [run]
      exact (done_charBy s _ false).weaken (Nat.le_refl _) (fun _ => .inl rfl) (by omega) (by omega)
    | uni p =>
      simp only [stackUse, Option.some.injEq, Prod.mk.injEq] at hs
      rw [run]
      exact (done_charBy s _ false).weaken (Nat.le_refl _) (fun _ => .inl rfl) (by omega) (by omega)
    | any =>
      simp only [stackUse, Option.some.injEq, Prod.mk.injEq] at hs
      rw [run]
      exact (done_charBy s _ false).weaken (Nat.le_refl _) (fun _ => .inl rfl) (by omega) (by omega)
    | soi =>
      simp only [stackUse, Option.some.injEq, Prod.mk.injEq] at hs
      rw [run]
      split
      · exact ⟨Nat.le_refl _, by simp [nulE], by omega⟩
      · exact ⟨Nat.le_refl _, by omega⟩
    | eoi =>
      simp only [stackUse, Option.some.injEq, Prod.mk.injEq] at hs
      rw [run]
      split
      · exact ⟨Nat.le_refl _, by simp [nulE], by omega⟩
      · exact ⟨Nat.le_refl _, by omega⟩
    | peek =>
      simp only [stackUse] at hs
      split at hs
      · simp only [Option.some.injEq, Prod.mk.injEq] at hs
        rw [run]
        cases hs' : s.stack with
        | nil => rw [hs'] at hst; simp at hst; omega
        | cons y st =>
          have := done_matchStr s y true (by simp)
          exact this.weaken (Nat.le_refl _) (by simp [nulE]) (by omega) (by omega)
      · cases hs
    | pop =>
      simp only [stackUse] at hs
      split at hs
      · simp only [Option.some.injEq, Prod.mk.injEq] at hs
        rw [run]
        cases hs' : s.stack with
        | nil => rw [hs'] at hst; simp at hst; omega
        | cons y st =>
          have := done_matchStr { s with stack := st } y true (by simp)
          rw [hs'] at hst
          simp only [List.length_cons] at hst
          exact this.weaken (Nat.le_refl _) (by simp [nulE]) (by simp only; omega) (by simp only; omega)
      · cases hs

end SM.Props
