import Verif.Props.PegSpan
import Verif.Props.Lex
import Verif.Peg.Build
/-
Parsing looks up only the characters of the text in the Unicode tables.  So what a text of plain characters parses
to can be computed with one table and holds for all.
-/
namespace SM.Props
open SM SM.Peg

theorem run_agree {R : Type} (g : R → PE R) {u u' : Uni} (input : Str) (hu : ∀ c ∈ input, ∀ p, u p c = u' p c) :
    ∀ (n : Nat) (e : PE R) (v : Env) (s : St R), At input s → run g u n e v s = run g u' n e v s := by
  intro n
  induction n with
  | zero => intro e v s _; rfl
  | succ n ih =>
    intro e v s hs
    have fwd := fun e v s hs => run_forth g u' input n e v s hs
    cases e with
    | call r => exact ih _ v s hs
    | rule r e =>
      rw [run, run, ih e v { s with queue := [] } hs, ih e v s hs]
    | atomic a e => exact ih e _ s hs
    | ifNon e => rw [run, run, ih e v s hs]
    | seq e => rw [run, run, ih e v s hs]
    | opt e => rw [run, run, ih e v s hs]
    | rep e =>
      rw [run, run, ih e v s hs]
      have h1 := fwd e v s hs
      cases h : run g u' n e v s with
      | ok t =>
        rw [h] at h1
        exact ih _ v t h1.1
      | err t => rfl
      | crash => rfl
    | alt a b =>
      rw [run, run, ih a v s hs]
      have h1 := fwd a v s hs
      cases h : run g u' n a v s with
      | ok t => rfl
      | err t =>
        rw [h] at h1
        exact ih b v t h1.1
      | crash => rfl
    | cat a b =>
      rw [run, run, ih a v s hs]
      have h1 := fwd a v s hs
      cases h : run g u' n a v s with
      | ok t =>
        rw [h] at h1
        exact ih b v t h1.1
      | err t => rfl
      | crash => rfl
    | restore e => rw [run, run, ih e v s hs]
    | look b e => rw [run, run, ih e _ s hs]
    | uni p =>
      rw [run, run, St.charBy, St.charBy]
      cases hr : s.rest with
      | nil => rfl
      | cons c r =>
        have : c ∈ input := by
          have h1 := hs.2
          rw [hr] at h1
          exact List.mem_of_mem_drop (by rw [← h1]; simp)
        simp only [hu c this p]
    | push e => rw [run, run, ih e v s hs]
    | _ => rfl

theorem smParse_agree {u u' : Uni} (r : R) {input : Str} (hu : ∀ c ∈ input, ∀ p, u p c = u' p c) :
    smParse u r input = smParse u' r input := by
  rw [smParse, smParse, run_agree grammar input hu _ _ _ _ (at_init input)]

/-- A text of plain characters parses as with the tables for ASCII. -/
theorem parseText_plain {u : Uni} (L : Lawful u) (c : Cfg) (h : ∀ d ∈ c.input, Plain d) :
    parseText u c = parseText asciiUni c := by
  rw [parseText, parseText, smParse_agree (u' := asciiUni) .program fun d hd p => L.plain d p (h d hd)]

/-! Results of parsing concrete texts, in a form that the kernel can compute. -/

mutual
/-- Equality of pairs. -/
def samePair : Pair R → Pair R → Bool
  | .mk r a b t l, .mk r' a' b' t' l' => decide (r = r') && (decide (a = a') && (decide (b = b') && (decide (t = t') &&
      samePairs l l')))
termination_by structural p => p
/-- Equality of lists of pairs. -/
def samePairs : List (Pair R) → List (Pair R) → Bool
  | [], [] => true
  | p :: l, p' :: l' => samePair p p' && samePairs l l'
  | _, _ => false
termination_by structural l => l
end

mutual
theorem samePair_eq : ∀ (p p' : Pair R), samePair p p' = true → p = p'
  | .mk r a b t l, .mk r' a' b' t' l', h => by
    simp only [samePair, Bool.and_eq_true, decide_eq_true_eq] at h
    have := samePairs_eq l l' h.2.2.2.2
    rw [h.1, h.2.1, h.2.2.1, h.2.2.2.1, this]
termination_by structural p => p
theorem samePairs_eq : ∀ (l l' : List (Pair R)), samePairs l l' = true → l = l'
  | [], [], _ => rfl
  | p :: l, p' :: l', h => by
    simp only [samePairs, Bool.and_eq_true] at h
    have h1 := samePair_eq p p' h.1
    have h2 := samePairs_eq l l' h.2
    rw [h1, h2]
  | [], _ :: _, h => by simp [samePairs] at h
  | _ :: _, [], h => by simp [samePairs] at h
termination_by structural l => l
end

/-- The text parses to these pairs. -/
def parsesTo (x : Str) (l : List (Pair R)) : Bool :=
  match smParse asciiUni .program x with
  | .pairs l' => samePairs l' l
  | _ => false

theorem parse_pairs {u : Uni} (L : Lawful u) {x : Str} {l : List (Pair R)} (h : parsesTo x l = true)
    (hp : x.all (fun d => decide (Plain d)) = true) (c : Cfg) (hc : c.input = x) : parseText u c = parsePairs c l := by
  subst hc
  rw [parseText_plain L c (fun d hd => of_decide_eq_true (List.all_eq_true.1 hp d hd)), parseText]
  rw [parsesTo] at h
  cases h' : smParse asciiUni .program c.input with
  | pairs l' => rw [h'] at h; rw [samePairs_eq _ _ h]
  | error => rw [h'] at h; cases h
  | crash => rw [h'] at h; cases h

/-- The text is rejected by the grammar. -/
def rejects (x : Str) : Bool :=
  match smParse asciiUni .program x with
  | .error => true
  | _ => false

theorem parse_rejects {u : Uni} (L : Lawful u) {x : Str} (h : rejects x = true)
    (hp : x.all (fun d => decide (Plain d)) = true) (c : Cfg) (hc : c.input = x) :
    parseText u c = .err (.parseError c.errorText) := by
  subst hc
  rw [parseText_plain L c (fun d hd => of_decide_eq_true (List.all_eq_true.1 hp d hd)), parseText]
  rw [rejects] at h
  cases h' : smParse asciiUni .program c.input with
  | pairs l' => rw [h'] at h; cases h
  | error => rfl
  | crash => rw [h'] at h; cases h

/-- The rule of the first pair. -/
def firstRule (x : Str) (r : R) : Bool :=
  match smParse asciiUni .program x with
  | .pairs (p :: _) => decide (p.rule = r)
  | _ => false

/-- A text whose first statement is not an expression. -/
theorem parse_other {u : Uni} (L : Lawful u) {x : Str} {r : R} (h : firstRule x r = true)
    (hp : x.all (fun d => decide (Plain d)) = true) (h1 : r ≠ .EOI ∧ r ≠ .expression ∧ r ≠ .COMMENT) (c : Cfg)
    (hc : c.input = x) : parseText u c = .panic := by
  subst hc
  rw [parseText_plain L c (fun d hd => of_decide_eq_true (List.all_eq_true.1 hp d hd)), parseText]
  rw [firstRule] at h
  cases h' : smParse asciiUni .program c.input with
  | pairs l =>
    rw [h'] at h
    cases l with
    | nil => cases h
    | cons p l =>
      have : p.rule = r := of_decide_eq_true h
      simp only [parsePairs, this, if_neg h1.1, if_neg h1.2.1, if_neg h1.2.2]
  | error => rw [h'] at h; cases h
  | crash => simp [h'] at h

end SM.Props
