import Verif.Props.PegTotal
import Verif.Peg.Parse
/-
C33: parsing ends, on every input, with a tree or an error.
-/
namespace SM.Props
open SM SM.Peg

/-- Rules that may succeed without consuming. -/
def gNul : R → Bool
  | .skip | .program | .EOI | .SOI | .PEEK | .POP => true
  | _ => false

/-- Rank of a rule: above the ranks of the rules it may call before consuming. -/
def gRank : R → Nat
  | .COMMENT | .WHITESPACE | .annotation_call | .Positive | .SYMBOL | .StringNormal
  | .StringBlock | .Prefix | .re_control | .eos | .comma_or_semi | .block_or_stmt
  | .ModuleSplit | .function_module | .type_hint | .TypeInfix | .StringText | .Suffix
  | .Divide | .Multiply => 1
  | .skip | .annotation | .Integer | .Symbol | .String | .controlFlow
  | .emptyStatement | .use_module_select | .for_in_loop | .short_annotation | .define_pair | .function_name
  | .Infix => 2
  | .Decimal | .apply_call | .derivative | .use_alias | .assign_pair | .key_valid => 3
  | .Number | .module_tuple | .assign_name | .define_terms | .key_value => 4
  | .space_call | .data | .assign_terms => 5
  | .node | .short_statement => 6
  | .term => 7
  | .expr | .type_expr => 8
  | .expression | .apply_kv | .Start | .End | .Step => 9
  | .statement | .index => 10
  | .program => 11
  | _ => 0

/-- Rules that use the top of the stack. -/
def gReq : R → Nat
  | .StringText | .PEEK | .POP => 1
  | _ => 0

/-- Rules that pop the stack. -/
def gDrop : R → Nat
  | .POP => 1
  | _ => 0

/-- The tables for the grammar. -/
def gTables : Tables R :=
  { nul := gNul, rk := gRank, req := gReq, drop := gDrop, maxSize := 91, maxRank := 12 }

theorem gTables_ok : ∀ r, gTables.okFor r (grammar r) = true := by
  intro r; cases r <;> decide

theorem run_grammar_total (u : Uni) (v : Env) (r : R) (s : St R) (n : Nat)
    (hreq : gReq r = 0) (hn : 2000 * (s.rest.length + 1) ≤ n) :
    Done (gNul r) s.rest.length 0 0 (run grammar u n (.call r) v s) := by
  have hd : gDrop r = 0 := by revert hreq; cases r <;> decide
  have hk : gRank r < 12 := by cases r <;> decide
  have := run_total gTables grammar u gTables_ok n (.call r) v s 12 0 0 0 rfl
    (by simp only [leftBelow, gTables]; exact decide_eq_true hk)
    (by simp [stackUse, gTables, hreq])
    (Nat.zero_le _)
    (by simp only [Tables.fuel, gTables, sizeE]; omega)
  exact this

/-- With any sufficiently large fuel, the interpreter gives the settled result. -/
theorem run_eq_sem_of_fuel (u : Uni) (v : Env) (r : R) (s : St R) (n : Nat)
    (hreq : gReq r = 0) (hn : 2000 * (s.rest.length + 1) ≤ n) :
    run grammar u n (.call r) v s = sem grammar u (.call r) v s := by
  apply run_eq_sem
  intro h
  have := run_grammar_total u v r s n hreq hn
  rw [h] at this
  exact this

/-- `SMParser::parse` in terms of the settled result. -/
theorem smParse_eq (u : Uni) (r : R) (hreq : gReq r = 0) (input : Str) :
    smParse u r input = .ofRes (sem grammar u (.call r) Env.init (St.init input)) := by
  unfold smParse
  rw [run_eq_sem_of_fuel u Env.init r (St.init input) (parseFuel input) hreq (Nat.le_refl _)]

/-- **C33**.  For every Unicode table, every start rule other than the three that presuppose a pushed
string, and every input, parsing ends: with a forest of pairs or with an error, within a recursion depth
linear in the length of the input; the interpreter neither runs on nor looks at an empty stack. -/
theorem C33_parse_terminates (u : Uni) (r : R) (hr : r ≠ .StringText ∧ r ≠ .PEEK ∧ r ≠ .POP)
    (input : Str) : (∃ l, smParse u r input = .pairs l) ∨ smParse u r input = .error := by
  have hreq : gReq r = 0 := by
    obtain ⟨h1, h2, h3⟩ := hr
    revert h1 h2 h3
    cases r <;> first | (intros; rfl) | (intro h1 h2 h3; contradiction)
  have := run_grammar_total u Env.init r (St.init input) (parseFuel input) hreq (Nat.le_refl _)
  unfold smParse
  revert this
  cases run grammar u (parseFuel input) (.call r) Env.init (St.init input) with
  | ok s => exact fun _ => .inl ⟨_, rfl⟩
  | err s => exact fun _ => .inr rfl
  | crash => exact fun h => h.elim

/-- **C33** (fuel independence).  More fuel never changes the result: the fuel of the model is no bound
on the inputs it handles. -/
theorem C33_fuel_irrelevant (u : Uni) (r : R) (hr : r ≠ .StringText ∧ r ≠ .PEEK ∧ r ≠ .POP)
    (input : Str) (n : Nat) (hn : parseFuel input ≤ n) :
    run grammar u n (.call r) Env.init (St.init input) =
      run grammar u (parseFuel input) (.call r) Env.init (St.init input) := by
  have hreq : gReq r = 0 := by
    obtain ⟨h1, h2, h3⟩ := hr
    revert h1 h2 h3
    cases r <;> first | (intros; rfl) | (intro h1 h2 h3; contradiction)
  rw [run_eq_sem_of_fuel u _ r (St.init input) n hreq hn,
    run_eq_sem_of_fuel u _ r (St.init input) (parseFuel input) hreq (Nat.le_refl _)]

/-- A repetition of an expression that may succeed without consuming would never end: the check is not
vacuous. -/
example : repsOk (fun _ : R => false) (.rep (.opt (.str c!"a"))) = false := rfl

end SM.Props
