import Verif.Props.Cost
import Verif.Props.Deriv
/-
C74: how much work parsing can be at most.  Parsing can go round in circles only by way of one of six signs; between
two of them the work is polynomial.
-/
namespace SM.Props
open SM SM.Peg

/-! ### A static bound on the work

Relative to tables for the rules: which rules cannot succeed without one of the signs, and bounds for the work of each rule
up to the next sign. -/

section
variable {R : Type}

/-- The number of signs in a text. -/
def signCount (S : List Char) (x : Str) : Nat := x.countP (S.contains ·)

/-- The expression cannot succeed without passing one of the signs. -/
def passes (S : List Char) (T : R → Bool) : PE R → Bool
  | .call r => T r
  | .rule _ e => passes S T e
  | .atomic _ e => passes S T e
  | .seq e => passes S T e
  | .restore e => passes S T e
  | .push e => passes S T e
  | .alt a b => passes S T a && passes S T b
  | .cat a b => passes S T a || passes S T b
  | .str x => decide (0 < signCount S x)
  | _ => false

/-- The coefficient of the bound. -/
def coeff (S : List Char) (T : R → Bool) (k : R → Nat) : PE R → Nat
  | .call r => k r
  | .rule _ e => coeff S T k e
  | .atomic _ e => coeff S T k e
  | .ifNon e => coeff S T k e
  | .seq e => coeff S T k e
  | .opt e => coeff S T k e
  | .rep e => coeff S T k e
  | .alt a b => coeff S T k a + coeff S T k b
  | .cat a b => coeff S T k a + if passes S T a then 1 else coeff S T k b
  | .restore e => coeff S T k e
  | .look _ e => coeff S T k e
  | .push e => coeff S T k e
  | _ => 0

/-- The degree of the bound. -/
def degree (S : List Char) (T : R → Bool) (d : R → Nat) : PE R → Nat
  | .call r => d r
  | .rule _ e => degree S T d e
  | .atomic _ e => degree S T d e
  | .ifNon e => degree S T d e
  | .seq e => degree S T d e
  | .opt e => degree S T d e
  | .rep e => degree S T d e + 1
  | .alt a b => max (degree S T d a) (degree S T d b)
  | .cat a b => max (degree S T d a) (if passes S T a then 0 else degree S T d b)
  | .restore e => degree S T d e
  | .look _ e => degree S T d e
  | .push e => degree S T d e
  | _ => 0

/-- What follows a sign is bounded by `K` and `D`. -/
def afterOk (S : List Char) (T : R → Bool) (k d : R → Nat) (K D : Nat) : PE R → Bool
  | .rule _ e => afterOk S T k d K D e
  | .atomic _ e => afterOk S T k d K D e
  | .ifNon e => afterOk S T k d K D e
  | .seq e => afterOk S T k d K D e
  | .opt e => afterOk S T k d K D e
  | .rep e => afterOk S T k d K D e
  | .alt a b => afterOk S T k d K D a && afterOk S T k d K D b
  | .cat a b => afterOk S T k d K D a && afterOk S T k d K D b &&
      (!passes S T a || (decide (coeff S T k b ≤ K) && decide (degree S T d b ≤ D)))
  | .restore e => afterOk S T k d K D e
  | .look _ e => afterOk S T k d K D e
  | .push e => afterOk S T k d K D e
  | _ => true

/-- The tables. -/
structure Work (R : Type) where
  signs : List Char
  nul : R → Bool
  pass : R → Bool
  coeff : R → Nat
  degree : R → Nat
  maxCoeff : Nat
  maxDegree : Nat

/-- The static check of one rule. -/
def Work.okFor (W : Work R) (r : R) (b : PE R) : Bool :=
  repsOk W.nul b && (!nulE W.nul b || W.nul r) && (!W.pass r || passes W.signs W.pass b) &&
  decide (1 + SM.Props.coeff W.signs W.pass W.coeff b ≤ W.coeff r) &&
  decide (SM.Props.degree W.signs W.pass W.degree b ≤ W.degree r) &&
  afterOk W.signs W.pass W.coeff W.degree W.maxCoeff W.maxDegree b

/-! ### What is consumed -/

/-- From one state to the other the text moves on; at least so far. -/
def Onward (S : List Char) (some : Bool) (sign : Bool) (s t : St R) : Prop :=
  ∃ w, s.rest = w ++ t.rest ∧ (some = true → w ≠ []) ∧ (sign = true → 0 < signCount S w)

theorem Onward.refl (S : List Char) (s : St R) : Onward S false false s s := ⟨[], rfl, by simp, by simp⟩

theorem Onward.trans {S : List Char} {a b c d : Bool} {s t r : St R} (h : Onward S a b s t) (k : Onward S c d t r) :
    Onward S (a || c) (b || d) s r := by
  obtain ⟨w, h1, h2, h3⟩ := h
  obtain ⟨w', k1, k2, k3⟩ := k
  refine ⟨w ++ w', by rw [h1, k1, List.append_assoc], ?_, ?_⟩
  · intro e
    rcases Bool.or_eq_true _ _ ▸ e with e | e
    · simp [h2 e]
    · simp [k2 e]
  · intro e
    have : signCount S (w ++ w') = signCount S w + signCount S w' := List.countP_append ..
    rcases Bool.or_eq_true _ _ ▸ e with e | e
    · have := h3 e; omega
    · have := k3 e; omega

theorem Onward.weaken {S : List Char} {a b c d : Bool} {s t : St R} (h : Onward S a b s t) (h1 : c = true → a = true)
    (h2 : d = true → b = true) : Onward S c d s t := by
  obtain ⟨w, e, k1, k2⟩ := h
  exact ⟨w, e, fun e => k1 (h1 e), fun e => k2 (h2 e)⟩

/-- The same, for other states with the same text. -/
theorem Onward.rest {S : List Char} {a b : Bool} {s t s' t' : St R} (h : Onward S a b s t) (h1 : s'.rest = s.rest)
    (h2 : t'.rest = t.rest) : Onward S a b s' t' := by
  obtain ⟨w, e, k1, k2⟩ := h
  exact ⟨w, by rw [h1, h2, e], k1, k2⟩

theorem onward_charBy (S : List Char) {s t : St R} {p : Char → Bool} (h : s.charBy p = .ok t) : Onward S true false s t := by
  unfold St.charBy at h
  cases hr : s.rest with
  | nil => rw [hr] at h; cases h
  | cons c r =>
    rw [hr] at h
    dsimp only at h
    split at h
    · cases h
      exact ⟨[c], by rw [hr]; rfl, by simp, by simp⟩
    · cases h

theorem onward_matchStr (S : List Char) {s t : St R} {x : Str} (h : s.matchStr x = .ok t) :
    Onward S (!x.isEmpty) (decide (0 < signCount S x)) s t := by
  unfold St.matchStr at h
  cases hr : strip x s.rest with
  | none => rw [hr] at h; cases h
  | some r =>
    rw [hr] at h
    cases h
    refine ⟨x, strip_app hr, ?_, ?_⟩
    · intro e e'; subst e'; cases e
    · exact fun e => of_decide_eq_true e

theorem run_onward (S : List Char) (nul T : R → Bool) (g : R → PE R) (u : Uni)
    (h1 : ∀ r, nul r = false → nulE nul (g r) = false) (h2 : ∀ r, T r = true → passes S T (g r) = true) :
    ∀ (n : Nat) (e : PE R) (v : Env) (s : St R),
      (∀ t, run g u n e v s = .ok t → Onward S (!nulE nul e) (passes S T e) s t) ∧
      (∀ t, run g u n e v s = .err t → Onward S false false s t) := by
  intro n
  induction n with
  | zero => exact fun e v s => ⟨fun t h => (by cases h), fun t h => by cases h⟩
  | succ n ih =>
    intro e v s
    cases e with
    | call r =>
      rw [run]
      refine ⟨fun t h => ((ih _ _ _).1 t h).weaken ?_ ?_, (ih _ _ _).2⟩
      · intro e
        simp only [nulE, Bool.not_eq_true'] at e ⊢
        exact h1 r e
      · exact h2 r
    | rule r e =>
      rw [run]
      split
      · obtain ⟨a, b⟩ := ih e v { s with queue := [] }
        cases hr : run g u n e v { s with queue := [] } with
        | crash => exact ⟨fun t h => (by cases h), fun t h => by cases h⟩
        | ok t => exact ⟨fun t' h => by cases h; exact (a t hr).rest rfl rfl, fun t h => by cases h⟩
        | err t => exact ⟨fun t h => (by cases h), fun t' h => by cases h; exact (b t hr).rest rfl rfl⟩
      · exact ih e v s
    | atomic a e => rw [run]; exact ih _ _ _
    | ifNon e =>
      rw [run]
      split
      · exact ⟨fun t h => ((ih _ _ _).1 t h).weaken (fun e => by cases e) (fun e => by cases e), (ih _ _ _).2⟩
      · exact ⟨fun t h => by cases h; exact Onward.refl S s, fun t h => by cases h⟩
    | seq e =>
      rw [run]
      obtain ⟨a, b⟩ := ih e v s
      cases hr : run g u n e v s with
      | crash => exact ⟨fun t h => (by cases h), fun t h => by cases h⟩
      | ok t => exact ⟨fun t' h => by cases h; exact a t hr, fun t h => by cases h⟩
      | err t => exact ⟨fun t h => (by cases h), fun t' h => by cases h; exact (Onward.refl S s).rest rfl rfl⟩
    | opt e =>
      rw [run]
      obtain ⟨a, b⟩ := ih e v s
      cases hr : run g u n e v s with
      | crash => exact ⟨fun t h => (by cases h), fun t h => by cases h⟩
      | ok t =>
        exact ⟨fun t' h => by cases h; exact (a t hr).weaken (fun e => by cases e) (fun e => by cases e), fun t h => by cases h⟩
      | err t => exact ⟨fun t' h => by cases h; exact b t hr, fun t h => by cases h⟩
    | rep e =>
      rw [run]
      obtain ⟨a, b⟩ := ih e v s
      cases hr : run g u n e v s with
      | crash => exact ⟨fun t h => (by cases h), fun t h => by cases h⟩
      | ok t =>
        obtain ⟨c, d⟩ := ih (.rep e) v t
        refine ⟨fun t' h => ?_, fun t' h => ?_⟩
        · exact ((a t hr).trans (c t' h)).weaken (fun e => by cases e) (fun e => by cases e)
        · exact ((a t hr).trans (d t' h)).weaken (fun e => by cases e) (fun e => by cases e)
      | err t => exact ⟨fun t' h => by cases h; exact b t hr, fun t h => by cases h⟩
    | alt a b =>
      rw [run]
      obtain ⟨c, d⟩ := ih a v s
      cases hr : run g u n a v s with
      | crash => exact ⟨fun t h => (by cases h), fun t h => by cases h⟩
      | ok t =>
        refine ⟨fun t' h => ?_, fun t h => by cases h⟩
        cases h
        refine (c t hr).weaken ?_ ?_
        · simp only [nulE, Bool.not_or, Bool.and_eq_true]; exact fun e => e.1
        · simp only [passes, Bool.and_eq_true]; exact fun e => e.1
      | err t =>
        obtain ⟨c', d'⟩ := ih b v t
        refine ⟨fun t' h => ?_, fun t' h => ?_⟩
        · refine ((d t hr).trans (c' t' h)).weaken ?_ ?_
          · simp only [nulE, Bool.not_or, Bool.and_eq_true, Bool.false_or]; exact fun e => e.2
          · simp only [passes, Bool.and_eq_true, Bool.false_or]; exact fun e => e.2
        · exact ((d t hr).trans (d' t' h)).weaken (fun e => by cases e) (fun e => by cases e)
    | cat a b =>
      rw [run]
      obtain ⟨c, d⟩ := ih a v s
      cases hr : run g u n a v s with
      | crash => exact ⟨fun t h => (by cases h), fun t h => by cases h⟩
      | err t => exact ⟨fun t h => (by cases h), fun t' h => by cases h; exact d t hr⟩
      | ok t =>
        obtain ⟨c', d'⟩ := ih b v t
        refine ⟨fun t' h => ?_, fun t' h => ?_⟩
        · refine ((c t hr).trans (c' t' h)).weaken ?_ ?_
          · simp only [nulE, Bool.not_and]; exact id
          · simp only [passes]; exact id
        · exact ((c t hr).trans (d' t' h)).weaken (fun e => by cases e) (fun e => by cases e)
    | restore e =>
      rw [run]
      obtain ⟨a, b⟩ := ih e v s
      cases hr : run g u n e v s with
      | crash => exact ⟨fun t h => (by cases h), fun t h => by cases h⟩
      | ok t => exact ⟨fun t' h => by cases h; exact a t hr, fun t h => by cases h⟩
      | err t => exact ⟨fun t h => (by cases h), fun t' h => by cases h; exact (b t hr).rest rfl rfl⟩
    | look p e =>
      rw [run]
      have key : ∀ t : St R, t.rest = s.rest → Onward S false false s t := fun t h => (Onward.refl S s).rest rfl h
      cases hr : run g u n e { v with silent := true } s with
      | crash => cases p <;> exact ⟨fun t h => (nomatch h), fun t h => (nomatch h)⟩
      | ok t =>
        cases p
        · exact ⟨fun t h => (nomatch h), fun t' h => key t' (by cases h; rfl)⟩
        · exact ⟨fun t' h => key t' (by cases h; rfl), fun t h => (nomatch h)⟩
      | err t =>
        cases p
        · exact ⟨fun t' h => key t' (by cases h; rfl), fun t h => (nomatch h)⟩
        · exact ⟨fun t h => (nomatch h), fun t' h => key t' (by cases h; rfl)⟩
    | str x =>
      rw [run]
      exact ⟨fun t h => onward_matchStr S h, fun t h => by rw [matchStr_err h]; exact Onward.refl S s⟩
    | insens x =>
      rw [run]
      cases hr : stripInsens x s.rest with
      | none => exact ⟨fun t h => (by cases h), fun t h => by cases h; exact Onward.refl S s⟩
      | some r =>
        refine ⟨fun t h => ?_, fun t h => by cases h⟩
        cases h
        have e := stripInsens_length hr
        have e' := stripInsens_drop hr
        refine ⟨s.rest.take x.length, ?_, ?_, fun h => by cases h⟩
        · show s.rest = _ ++ r
          rw [e', List.take_append_drop]
        · intro h h'
          simp only [nulE, Bool.not_eq_true', List.isEmpty_eq_false_iff_exists_mem] at h
          obtain ⟨y, hy⟩ := h
          have := List.length_pos_of_mem hy
          have h'' := congrArg List.length h'
          rw [List.length_take] at h''
          simp only [List.length_nil] at h''
          omega
    | range a b =>
      rw [run]
      exact ⟨fun t h => onward_charBy S h, fun t h => by rw [charBy_err h]; exact Onward.refl S s⟩
    | uni p =>
      rw [run]
      exact ⟨fun t h => onward_charBy S h, fun t h => by rw [charBy_err h]; exact Onward.refl S s⟩
    | any =>
      rw [run]
      exact ⟨fun t h => onward_charBy S h, fun t h => by rw [charBy_err h]; exact Onward.refl S s⟩
    | soi =>
      rw [run]
      split
      · exact ⟨fun t h => by cases h; exact Onward.refl S s, fun t h => by cases h⟩
      · exact ⟨fun t h => (by cases h), fun t h => by cases h; exact Onward.refl S s⟩
    | eoi =>
      rw [run]
      split
      · exact ⟨fun t h => by cases h; exact Onward.refl S s, fun t h => by cases h⟩
      · exact ⟨fun t h => (by cases h), fun t h => by cases h; exact Onward.refl S s⟩
    | push e =>
      rw [run]
      obtain ⟨a, b⟩ := ih e v s
      cases hr : run g u n e v s with
      | crash => exact ⟨fun t h => (by cases h), fun t h => by cases h⟩
      | ok t => exact ⟨fun t' h => by cases h; exact (a t hr).rest rfl rfl, fun t h => by cases h⟩
      | err t => exact ⟨fun t h => (by cases h), fun t' h => by cases h; exact b t hr⟩
    | peek =>
      rw [run]
      cases s.stack with
      | nil => exact ⟨fun t h => (by cases h), fun t h => by cases h⟩
      | cons x l =>
        exact ⟨fun t h => (onward_matchStr S h).weaken (fun e => by cases e) (fun e => by cases e),
          fun t h => by rw [matchStr_err h]; exact Onward.refl S s⟩
    | pop =>
      rw [run]
      cases hs : s.stack with
      | nil => exact ⟨fun t h => (by cases h), fun t h => by cases h⟩
      | cons x l =>
        exact ⟨fun t h => ((onward_matchStr S h).rest (s' := s) rfl rfl).weaken (fun e => by cases e) (fun e => by cases e),
          fun t h => by rw [matchStr_err h]; exact (Onward.refl S s).rest rfl rfl⟩

theorem Onward.length {S : List Char} {a b : Bool} {s t : St R} (h : Onward S a b s t) : t.rest.length ≤ s.rest.length := by
  obtain ⟨w, e, -, -⟩ := h
  rw [e, List.length_append]; omega

theorem Onward.shorter {S : List Char} {b : Bool} {s t : St R} (h : Onward S true b s t) : t.rest.length < s.rest.length := by
  obtain ⟨w, e, h, -⟩ := h
  have := List.length_pos_of_ne_nil (h rfl)
  rw [e, List.length_append]; omega

theorem Onward.fewer {S : List Char} {a : Bool} {s t : St R} (h : Onward S a true s t) :
    signCount S t.rest < signCount S s.rest := by
  obtain ⟨w, e, -, h⟩ := h
  have := h rfl
  rw [e]
  unfold signCount at this ⊢
  rw [List.countP_append]; omega

theorem Onward.signs_le {S : List Char} {a b : Bool} {s t : St R} (h : Onward S a b s t) :
    signCount S t.rest ≤ signCount S s.rest := by
  obtain ⟨w, e, -, -⟩ := h
  rw [e]
  unfold signCount
  rw [List.countP_append]; omega

/-! ### The bound -/

theorem bound_mono {a a' d d' N T : Nat} (ha : a ≤ a') (hd : d ≤ d') : a * (N + 1) ^ d * T ≤ a' * (N + 1) ^ d' * T :=
  Nat.mul_le_mul_right _ (Nat.mul_le_mul ha (Nat.pow_le_pow_right (by omega) hd))

theorem bound_add {a b d e N T x y : Nat} (hx : x ≤ a * (N + 1) ^ d * T) (hy : y ≤ b * (N + 1) ^ e * T) :
    x + y ≤ (a + b) * (N + 1) ^ (max d e) * T := by
  have h1 := Nat.le_trans hx (bound_mono (Nat.le_refl a) (Nat.le_max_left d e))
  have h2 := Nat.le_trans hy (bound_mono (Nat.le_refl b) (Nat.le_max_right d e))
  calc x + y ≤ _ := Nat.add_le_add h1 h2
    _ = _ := by ring

/-- The work of an expression on a text of at most `N` characters with at most `m` signs. -/
theorem calls_upper (W : Work R) (g : R → PE R) (u : Uni) (hg : ∀ r, W.okFor r (g r) = true) (hK : 0 < W.maxCoeff) (N : Nat) :
    ∀ (m n : Nat) (e : PE R) (v : Env) (s : St R), signCount W.signs s.rest ≤ m → s.rest.length ≤ N →
      repsOk W.nul e = true → afterOk W.signs W.pass W.coeff W.degree W.maxCoeff W.maxDegree e = true →
      calls g u n e v s ≤ coeff W.signs W.pass W.coeff e * (N + 1) ^ degree W.signs W.pass W.degree e *
        (W.maxCoeff * (N + 1) ^ W.maxDegree) ^ m := by
  have hg1 : ∀ r, W.nul r = false → nulE W.nul (g r) = false := by
    intro r h
    have := hg r
    simp only [Work.okFor, Bool.and_eq_true, Bool.or_eq_true, Bool.not_eq_true', h] at this
    simpa using this.1.1.1.1.2
  have hg2 : ∀ r, W.pass r = true → passes W.signs W.pass (g r) = true := by
    intro r h
    have := hg r
    simp only [Work.okFor, Bool.and_eq_true, Bool.or_eq_true, Bool.not_eq_true', h] at this
    simpa using this.1.1.1.2
  have on := run_onward W.signs W.nul W.pass g u hg1 hg2
  intro m
  induction m using Nat.strong_induction_on with
  | _ m ihm =>
  set T := (W.maxCoeff * (N + 1) ^ W.maxDegree) ^ m with hT
  have hT1 : 1 ≤ T := Nat.one_le_pow _ _ (Nat.mul_pos hK (Nat.pow_pos (by omega)))
  intro n
  suffices H : (∀ (e : PE R) (v : Env) (s : St R), signCount W.signs s.rest ≤ m → s.rest.length ≤ N →
      repsOk W.nul e = true → afterOk W.signs W.pass W.coeff W.degree W.maxCoeff W.maxDegree e = true →
      calls g u n e v s ≤ coeff W.signs W.pass W.coeff e * (N + 1) ^ degree W.signs W.pass W.degree e * T) ∧
      (∀ (e : PE R) (v : Env) (s : St R), signCount W.signs s.rest ≤ m → s.rest.length ≤ N → nulE W.nul e = false →
      repsOk W.nul e = true → afterOk W.signs W.pass W.coeff W.degree W.maxCoeff W.maxDegree e = true →
      calls g u n (.rep e) v s ≤
        (s.rest.length + 1) * (coeff W.signs W.pass W.coeff e * (N + 1) ^ degree W.signs W.pass W.degree e * T)) from H.1
  induction n with
  | zero => exact ⟨fun e v s _ _ _ _ => Nat.zero_le _, fun e v s _ _ _ _ _ => Nat.zero_le _⟩
  | succ n ih =>
    obtain ⟨ih, ihr⟩ := ih
    have rep : ∀ (e : PE R) (v : Env) (s : St R), signCount W.signs s.rest ≤ m → s.rest.length ≤ N → nulE W.nul e = false →
      repsOk W.nul e = true → afterOk W.signs W.pass W.coeff W.degree W.maxCoeff W.maxDegree e = true →
      calls g u (n + 1) (.rep e) v s ≤
        (s.rest.length + 1) * (coeff W.signs W.pass W.coeff e * (N + 1) ^ degree W.signs W.pass W.degree e * T) := by
      intro e v s hm hN h0 h1 h2
      rw [calls]
      have h3 := ih e v s hm hN h1 h2
      generalize hB : coeff W.signs W.pass W.coeff e * (N + 1) ^ degree W.signs W.pass W.degree e * T = B at h3 ⊢
      cases hr : run g u n e v s with
      | crash => dsimp only; nlinarith
      | err t => dsimp only; nlinarith
      | ok t =>
        dsimp only
        have o := (on n e v s).1 t hr
        rw [h0] at o
        have h4 := ihr e v t (Nat.le_trans o.signs_le hm) (Nat.le_trans o.length hN) h0 h1 h2
        rw [hB] at h4
        have h5 : (t.rest.length + 1) * B ≤ s.rest.length * B := Nat.mul_le_mul_right _ o.shorter
        have h6 : (s.rest.length + 1) * B = s.rest.length * B + B := by ring
        omega
    refine ⟨fun e v s hm hN h1 h2 => ?_, rep⟩
    cases e with
    | call r =>
      rw [calls]
      have ok := hg r
      simp only [Work.okFor, Bool.and_eq_true, decide_eq_true_eq] at ok
      obtain ⟨⟨⟨⟨⟨k1, -⟩, -⟩, k2⟩, k3⟩, k4⟩ := ok
      have h3 := ih (g r) v s hm hN k1 k4
      have h4 : 1 ≤ 1 * (N + 1) ^ 0 * T := by simpa using hT1
      have h5 := bound_add h4 h3
      exact Nat.le_trans h5 (bound_mono k2 (by simpa [degree] using k3))
    | rule r e =>
      rw [calls]
      split
      · exact ih e v { s with queue := [] } hm hN h1 h2
      · exact ih e v s hm hN h1 h2
    | atomic a e => rw [calls]; exact ih e _ s hm hN h1 h2
    | ifNon e =>
      rw [calls]
      split
      · exact ih e v s hm hN h1 h2
      · exact Nat.zero_le _
    | seq e => rw [calls]; exact ih e _ s hm hN h1 h2
    | opt e => rw [calls]; exact ih e _ s hm hN h1 h2
    | restore e => rw [calls]; exact ih e _ s hm hN h1 h2
    | look p e => rw [calls]; exact ih e _ s hm hN h1 h2
    | push e => rw [calls]; exact ih e _ s hm hN h1 h2
    | rep e =>
      simp only [repsOk, Bool.and_eq_true, Bool.not_eq_true'] at h1
      refine Nat.le_trans (rep e v s hm hN h1.1 h1.2 h2) ?_
      refine Nat.le_trans (Nat.mul_le_mul_right _ (Nat.succ_le_succ hN)) (Nat.le_of_eq ?_)
      show (N + 1) * _ = coeff W.signs W.pass W.coeff e * (N + 1) ^ (degree W.signs W.pass W.degree e + 1) * T
      ring
    | alt a b =>
      simp only [repsOk, Bool.and_eq_true] at h1
      simp only [afterOk, Bool.and_eq_true] at h2
      rw [calls]
      refine bound_add (ih a v s hm hN h1.1 h2.1) ?_
      cases hr : run g u n a v s with
      | crash => exact Nat.zero_le _
      | ok t => exact Nat.zero_le _
      | err t =>
        have o := (on n a v s).2 t hr
        exact ih b v t (Nat.le_trans o.signs_le hm) (Nat.le_trans o.length hN) h1.2 h2.2
    | cat a b =>
      simp only [repsOk, Bool.and_eq_true] at h1
      simp only [afterOk, Bool.and_eq_true, Bool.or_eq_true, Bool.not_eq_true', decide_eq_true_eq] at h2
      rw [calls]
      refine bound_add (ih a v s hm hN h1.1 h2.1.1) ?_
      cases hr : run g u n a v s with
      | crash => exact Nat.zero_le _
      | err t => exact Nat.zero_le _
      | ok t =>
        dsimp only
        have o := (on n a v s).1 t hr
        by_cases hp : passes W.signs W.pass a = true
        · rw [if_pos hp, if_pos hp]
          rw [hp] at o
          have hf := o.fewer
          obtain ⟨k1, k2⟩ := (h2.2.resolve_left (by simp [hp]))
          have h3 := ihm (m - 1) (by omega) n b v t (by omega) (Nat.le_trans o.length hN) h1.2 h2.1.2
          refine Nat.le_trans h3 (Nat.le_trans (bound_mono k1 k2) (Nat.le_of_eq ?_))
          have : m = m - 1 + 1 := by omega
          rw [hT, one_mul, pow_zero, one_mul]
          conv => rhs; rw [this, pow_succ]
          ring
        · rw [if_neg hp, if_neg hp]
          exact ih b v t (Nat.le_trans o.signs_le hm) (Nat.le_trans o.length hN) h1.2 h2.1.2
    | str x => exact Nat.zero_le _
    | insens x => exact Nat.zero_le _
    | range a b => exact Nat.zero_le _
    | uni p => exact Nat.zero_le _
    | any => exact Nat.zero_le _
    | soi => exact Nat.zero_le _
    | eoi => exact Nat.zero_le _
    | peek => exact Nat.zero_le _
    | pop => exact Nat.zero_le _

end

/-! ### The grammar -/

/-- The signs by way of which parsing can go round in circles. -/
def turningSigns : List Char := ['(', '[', '{', '%', '=', '@']

/-- The rules that cannot succeed without one of them. -/
def gPass : R → Bool
  | .block_or_stmt | .module_block | .«block» | .if_statement | .for_statement | .for_in_loop | .short_block |
    .short_annotation | .extendStatement | .defineStatement | .define_terms | .define_parameter | .annotation |
    .annotation_call | .apply | .apply_call | .derivative | .dict | .list | .slice | .MultiLineComment | .Set |
    .LessEqual | .GraterEqual | .Equivalent | .NotEquivalent | .Equal | .Modulo | .Map | .MapAll | .Destruct |
    .Curry | .Apply | .At => true
  | _ => false

/-- The coefficients. -/
def gCoeff : R → Nat
  | .eos | .TypeInfix | .Multiply | .Divide => 2
  | .comma_or_semi | .ModuleSplit | .define_parameter | .annotation_call | .dict | .list | .Positive | .WHITESPACE |
    .MultiLineComment => 3
  | .emptyStatement | .Integer => 4
  | .«block» | .short_block | .Suffix => 5
  | .SYMBOL | .Prefix => 6
  | .function_name | .REPL => 7
  | .short_annotation | .annotation | .StringNormal => 8
  | .block_or_stmt | .module_block | .apply | .slice => 9
  | .Decimal => 10
  | .StringText => 11
  | .COMMENT => 12
  | .Byte => 13
  | .Symbol | .Slot => 14
  | .assign_pair => 15
  | .Infix => 18
  | .skip => 19
  | .StringBlock => 20
  | .Number => 28
  | .apply_call | .derivative => 29
  | .with_trait => 34
  | .String => 35
  | .define_terms => 42
  | .key_valid => 46
  | .classStatement | .traitStatement => 59
  | .defineStatement => 62
  | .function_module => 92
  | .data => 106
  | .extendStatement => 111
  | .assign_name => 144
  | .use_module_select => 152
  | .space_call => 222
  | .use_alias => 226
  | .module_tuple => 379
  | .node => 391
  | .term => 416
  | .importStatement => 438
  | .type_expr => 1329
  | .type_hint => 1350
  | .expr => 1361
  | .Start | .End | .Step => 1362
  | .expression => 1383
  | .re_control => 1384
  | .define_pair => 1398
  | .for_in_loop => 1430
  | .if_statement => 1442
  | .key_value => 1447
  | .for_statement => 1450
  | .assign_terms => 1550
  | .assignStatement => 1570
  | .short_statement => 1668
  | .apply_kv => 2768
  | .controlFlow => 4277
  | .statement => 8083
  | .index => 8289
  | .program => 16226
  | _ => 1

/-- The degrees. -/
def gDegree : R → Nat
  | .function_name | .key_valid | .Number | .Decimal | .Integer | .Byte | .String | .StringNormal | .StringBlock |
    .StringText | .SYMBOL | .Slot | .REPL | .Positive | .COMMENT | .Suffix | .Derivative => 1
  | .skip | .classStatement | .traitStatement | .extendStatement | .with_trait | .assign_pair | .defineStatement |
    .define_terms | .apply_call | .derivative | .data | .Symbol => 2
  | .importStatement | .use_alias | .use_module_select | .module_tuple | .assign_name | .function_module | .term |
    .node | .space_call => 3
  | .statement | .controlFlow | .if_statement | .for_statement | .for_in_loop | .re_control | .short_statement |
    .assignStatement | .assign_terms | .define_pair | .apply_kv | .expression | .expr | .type_expr | .type_hint |
    .key_value | .index | .Start | .End | .Step => 4
  | .program => 5
  | _ => 0

/-- All the tables. -/
def gWork : Work R where
  signs := turningSigns
  nul := gNul
  pass := gPass
  coeff := gCoeff
  degree := gDegree
  maxCoeff := 24287
  maxDegree := 5

set_option maxRecDepth 20000 in
theorem gWork_ok : ∀ r, gWork.okFor r (grammar r) = true := by
  intro r
  cases r <;> decide +kernel

/-! ### The property -/

/-- The number of signs `(`, `[`, `{`, `%`, `=` and `@` in a text. -/
def turns (x : Str) : Nat := x.countP fun c => c = '(' || c = '[' || c = '{' || c = '%' || c = '=' || c = '@'

theorem signs_turns (x : Str) : signCount turningSigns x = turns x := by
  unfold signCount turns
  congr 1
  funext c
  simp [turningSigns, Bool.or_assoc]

/-- C74: the work of parsing any text is exponential only in the number of six signs in it. -/
theorem C74_work_bounded (u : Uni) (x : Str) :
    parseCalls u x ≤ 16226 * (x.length + 1) ^ 5 * (24287 * (x.length + 1) ^ 5) ^ turns x := by
  have := calls_upper gWork grammar u gWork_ok (by decide) x.length (turns x) (parseFuel x) (.call .program) Env.init
    (St.init x) (Nat.le_of_eq (signs_turns x)) (Nat.le_refl _) rfl rfl
  exact this

/-- C74: without these signs it is polynomial. -/
theorem C74_work_polynomial (u : Uni) (x : Str)
    (h : ∀ c ∈ x, c ≠ '(' ∧ c ≠ '[' ∧ c ≠ '{' ∧ c ≠ '%' ∧ c ≠ '=' ∧ c ≠ '@') :
    parseCalls u x ≤ 16226 * (x.length + 1) ^ 5 := by
  have h0 : turns x = 0 := by
    unfold turns
    rw [List.countP_eq_zero]
    intro c hc
    obtain ⟨h1, h2, h3, h4, h5, h6⟩ := h c hc
    simp [h1, h2, h3, h4, h5, h6]
  have := C74_work_bounded u x
  rwa [h0, pow_zero, Nat.mul_one] at this

/-- A long sum is not deep: its parse is cheap, whatever its operands. -/
example (u : Uni) : parseCalls u c!"a + b * c ^ d - \"text\"!" ≤ 16226 * 24 ^ 5 :=
  C74_work_polynomial u _ (by decide)

/-- `f(x)[1]` has two of the signs. -/
example (u : Uni) : parseCalls u c!"f(x)[1]" ≤ 16226 * 8 ^ 5 * (24287 * 8 ^ 5) ^ 2 := C74_work_bounded u c!"f(x)[1]"

end SM.Props
