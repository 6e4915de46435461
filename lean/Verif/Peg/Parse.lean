import Verif.Peg.Grammar
/-
Model of `SMParser::parse` (`sm_parser.rs:159-164, 989-1141`).
-/
namespace SM.Peg

/-- Fuel for the interpreter; `Props/PegTables` shows that it suffices for every input. -/
def parseFuel (input : Str) : Nat := 2000 * (input.length + 1)

/-- What `SMParser::parse` gives: the pairs emitted, or an error (for the position it reports see
`Peg/Attempts.lean`; the wording of the message is not modelled). -/
inductive Parsed where
  | pairs (l : List (Pair R))
  | error
  | crash

/-- `pest::state`: the pairs of the final state. -/
def Parsed.ofRes : Res R → Parsed
  | .ok s => .pairs s.queue
  | .err _ => .error
  | .crash => .crash

/-- sm_parser.rs:989-1141 and `pest::state`: run the rule's function from the start of the input. -/
def smParse (u : Uni) (r : R) (input : Str) : Parsed :=
  .ofRes (run grammar u (parseFuel input) (.call r) Env.init (St.init input))

end SM.Peg
