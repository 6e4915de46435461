import Verif.Peg.Engine
/-
How deeply the functions of the derived parser call each other in the course of a parse.
-/
namespace SM.Peg
variable {R : Type}

/-- The greatest number of parser functions (sm_parser.rs:162-970, one per rule) that are active at the same time in the
course of `run g u n e v s`.  The recursion is the one of `run`.  A repetition is a loop and not a recursion (pest 2.1
`ParserState::repeat`), and the parts of a sequence or a choice are called one after the other.  Each active function
holds at least one frame of the stack of the thread; the frames of pest itself in between are not counted. -/
def depth (g : R → PE R) (u : Uni) : Nat → PE R → Env → St R → Nat
  | 0, _, _, _ => 0
  | n + 1, e, v, s =>
    match e with
    | .call r => 1 + depth g u n (g r) v s
    | .rule _ e => if v.emits then depth g u n e v { s with queue := [] } else depth g u n e v s
    | .atomic a e => depth g u n e { v with atomicity := a } s
    | .ifNon e => if v.atomicity = .non then depth g u n e v s else 0
    | .seq e => depth g u n e v s
    | .opt e => depth g u n e v s
    | .rep e =>
      max (depth g u n e v s)
        (match run g u n e v s with
        | .ok t => depth g u n (.rep e) v t
        | _ => 0)
    | .alt a b =>
      max (depth g u n a v s)
        (match run g u n a v s with
        | .err t => depth g u n b v t
        | _ => 0)
    | .cat a b =>
      max (depth g u n a v s)
        (match run g u n a v s with
        | .ok t => depth g u n b v t
        | _ => 0)
    | .restore e => depth g u n e v s
    | .look _ e => depth g u n e { v with silent := true } s
    | .push e => depth g u n e v s
    | .str _ | .insens _ | .range _ _ | .uni _ | .any | .soi | .eoi | .peek | .pop => 0

end SM.Peg
