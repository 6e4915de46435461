import Verif.Peg.Engine
/-
How much work a parse is: the number of calls of the functions `rules::visible::…` and `rules::hidden::…` that the
derived parser consists of.
-/
namespace SM.Peg
variable {R : Type}

/-- The number of parser functions (sm_parser.rs:162-970, one per rule) that are called in the course of
`run g u n e v s`.  The recursion is the one of `run`: a sequence goes on after success, a choice after failure, a
repetition until failure (pest 2.1 `ParserState::sequence`, `Result::and_then`, `Result::or_else`,
`ParserState::repeat`).  The functions are closures that keep no results from one call to the next, so that a rule
tried twice at the same place runs twice.  Work other than calls of parser functions is not counted. -/
def calls (g : R → PE R) (u : Uni) : Nat → PE R → Env → St R → Nat
  | 0, _, _, _ => 0
  | n + 1, e, v, s =>
    match e with
    | .call r => 1 + calls g u n (g r) v s
    | .rule _ e => if v.emits then calls g u n e v { s with queue := [] } else calls g u n e v s
    | .atomic a e => calls g u n e { v with atomicity := a } s
    | .ifNon e => if v.atomicity = .non then calls g u n e v s else 0
    | .seq e => calls g u n e v s
    | .opt e => calls g u n e v s
    | .rep e =>
      calls g u n e v s +
        match run g u n e v s with
        | .ok t => calls g u n (.rep e) v t
        | _ => 0
    | .alt a b =>
      calls g u n a v s +
        match run g u n a v s with
        | .err t => calls g u n b v t
        | _ => 0
    | .cat a b =>
      calls g u n a v s +
        match run g u n a v s with
        | .ok t => calls g u n b v t
        | _ => 0
    | .restore e => calls g u n e v s
    | .look _ e => calls g u n e { v with silent := true } s
    | .push e => calls g u n e v s
    | .str _ | .insens _ | .range _ _ | .uni _ | .any | .soi | .eoi | .peek | .pop => 0

end SM.Peg
