import Verif.Base.Str
/-
Model of the part of `pest` (the parser library, `pest::ParserState`) that
`projects/sm-parser/src/sm_parser.rs` calls.  `pest` is a dependency; this is its documented
behaviour and part of the trusted base.

* Positions are counted in characters; pest counts UTF-8 bytes.
* pest's token queue is a flat list of start and end tokens.  Here it is the forest these tokens
  encode: a rule collects the pairs emitted inside it as its children.
* pest's record of failed attempts, which only serves error messages, is left out here; it is in `Peg/Attempts.lean`.
-/
namespace SM.Peg

/-- `pest::Atomicity`. -/
inductive Atomicity where
  | atomic
  | compound
  | non
  deriving DecidableEq, Repr

/-- The Unicode properties used (`sm_parser.rs:972-983`). -/
inductive Uc where
  | xidStart
  | xidContinue
  | whiteSpace
  deriving DecidableEq, Repr

/-- `pest::unicode`: the tables are not part of the repository, so they are a parameter. -/
abbrev Uni := Uc → Char → Bool

/-- Parser expressions: compositions of the methods of `ParserState` and of `Result`. -/
inductive PE (R : Type) where
  /-- call of the parser function of a rule -/
  | call (r : R)
  /-- `state.rule(r, e)` -/
  | rule (r : R) (e : PE R)
  /-- `state.atomic(a, e)` -/
  | atomic (a : Atomicity) (e : PE R)
  /-- `if state.atomicity() == NonAtomic { e } else { Ok(state) }` -/
  | ifNon (e : PE R)
  /-- `state.sequence(e)` -/
  | seq (e : PE R)
  /-- `state.optional(e)` -/
  | opt (e : PE R)
  /-- `state.repeat(e)` -/
  | rep (e : PE R)
  /-- `a.or_else(b)` -/
  | alt (a b : PE R)
  /-- `a.and_then(b)` -/
  | cat (a b : PE R)
  /-- `state.restore_on_err(e)` -/
  | restore (e : PE R)
  /-- `state.lookahead(positive, e)` -/
  | look (positive : Bool) (e : PE R)
  /-- `state.match_string(x)` -/
  | str (x : Str)
  /-- `state.match_insensitive(x)` -/
  | insens (x : Str)
  /-- `state.match_range(a..b)` (both ends included) -/
  | range (a b : Char)
  /-- `state.match_char_by(p)` -/
  | uni (p : Uc)
  /-- `state.skip(1)` -/
  | any
  /-- `state.start_of_input()` -/
  | soi
  /-- `state.end_of_input()` -/
  | eoi
  /-- `state.stack_push(e)` -/
  | push (e : PE R)
  /-- `state.stack_peek()` -/
  | peek
  /-- `state.stack_pop()` -/
  | pop

/-- `pest::iterators::Pair`: rule, span, `as_str()`, `into_inner()`. -/
inductive Pair (R : Type) where
  | mk (rule : R) (start stop : Nat) (text : Str) (inner : List (Pair R))

namespace Pair
variable {R : Type}
/-- `as_rule()` -/
def rule : Pair R → R | .mk r _ _ _ _ => r
/-- `as_span().start()` -/
def start : Pair R → Nat | .mk _ a _ _ _ => a
/-- `as_span().end()` -/
def stop : Pair R → Nat | .mk _ _ b _ _ => b
/-- `as_str()` -/
def text : Pair R → Str | .mk _ _ _ t _ => t
/-- `into_inner()` -/
def inner : Pair R → List (Pair R) | .mk _ _ _ _ l => l
end Pair

/-- `pest::ParserState`: position, remaining input, stack, emitted pairs of the current level. -/
structure St (R : Type) where
  pos : Nat
  rest : Str
  stack : List Str
  queue : List (Pair R)

/-- `pest::ParseResult`; `crash` is a panic or (in `run`) exhausted fuel. -/
inductive Res (R : Type) where
  | ok (s : St R)
  | err (s : St R)
  | crash

/-- The dynamically scoped part of `ParserState`. -/
structure Env where
  atomicity : Atomicity
  /-- inside a lookahead -/
  silent : Bool

/-- Whether `rule` emits a token pair. -/
def Env.emits (v : Env) : Bool := !v.silent && v.atomicity != .atomic

/-- Drop a prefix. -/
def strip : Str → Str → Option Str
  | [], s => some s
  | _ :: _, [] => none
  | c :: x, d :: s => if c = d then strip x s else none

/-- Drop a prefix, ignoring ASCII case. -/
def stripInsens : Str → Str → Option Str
  | [], s => some s
  | _ :: _, [] => none
  | c :: x, d :: s => if c.toLower = d.toLower then stripInsens x s else none

namespace Res
variable {R : Type}
/-- `Result::and_then` -/
def andThen (r : Res R) (f : St R → Res R) : Res R :=
  match r with
  | .ok s => f s
  | .err s => .err s
  | .crash => .crash
/-- `Result::or_else` -/
def orElse (r : Res R) (f : St R → Res R) : Res R :=
  match r with
  | .ok s => .ok s
  | .err s => f s
  | .crash => .crash
/-- Apply functions to the states of both outcomes. -/
def mapBoth (r : Res R) (f g : St R → St R) : Res R :=
  match r with
  | .ok s => .ok (f s)
  | .err s => .err (g s)
  | .crash => .crash
/-- Turn failure into success. -/
def recover (r : Res R) : Res R :=
  match r with
  | .ok s => .ok s
  | .err s => .ok s
  | .crash => .crash
/-- Exchange success and failure. -/
def flip (r : Res R) : Res R :=
  match r with
  | .ok s => .err s
  | .err s => .ok s
  | .crash => .crash
end Res

namespace St
variable {R : Type}
/-- Move past `x`, with `rest` left. -/
def advance (s : St R) (n : Nat) (rest : Str) : St R := { s with pos := s.pos + n, rest := rest }
/-- The text between two states. -/
def between (s t : St R) : Str := s.rest.take (t.pos - s.pos)
/-- `match_char_by`. -/
def charBy (s : St R) (p : Char → Bool) : Res R :=
  match s.rest with
  | [] => .err s
  | c :: r => if p c then .ok (s.advance 1 r) else .err s
/-- `match_string`. -/
def matchStr (s : St R) (x : Str) : Res R :=
  match strip x s.rest with
  | some r => .ok (s.advance x.length r)
  | none => .err s
end St

variable {R : Type}

/-- The interpreter.  `g` gives the body of each rule's parser function.  Every step uses one unit of
fuel; `crash` results when it runs out.  `Props/Peg*` shows that it does not run out. -/
def run (g : R → PE R) (u : Uni) : Nat → PE R → Env → St R → Res R
  | 0, _, _, _ => .crash
  | n + 1, e, v, s =>
    match e with
    | .call r => run g u n (g r) v s
    | .rule r e =>
      if v.emits then
        (run g u n e v { s with queue := [] }).mapBoth
          (fun t => { t with queue := s.queue ++ [.mk r s.pos t.pos (s.between t) t.queue] })
          (fun t => { t with queue := s.queue })
      else run g u n e v s
    | .atomic a e => run g u n e { v with atomicity := a } s
    | .ifNon e => if v.atomicity = .non then run g u n e v s else .ok s
    | .seq e =>
      (run g u n e v s).mapBoth id
        (fun t => { t with pos := s.pos, rest := s.rest, queue := s.queue })
    | .opt e => (run g u n e v s).recover
    | .rep e =>
      match run g u n e v s with
      | .ok t => run g u n (.rep e) v t
      | .err t => .ok t
      | .crash => .crash
    | .alt a b => (run g u n a v s).orElse (run g u n b v)
    | .cat a b => (run g u n a v s).andThen (run g u n b v)
    | .restore e => (run g u n e v s).mapBoth id (fun t => { t with stack := s.stack })
    | .look positive e =>
      let r := (run g u n e { v with silent := true } s).mapBoth
        (fun t => { t with pos := s.pos, rest := s.rest, stack := s.stack })
        (fun t => { t with pos := s.pos, rest := s.rest, stack := s.stack })
      if positive then r else r.flip
    | .str x => s.matchStr x
    | .insens x =>
      match stripInsens x s.rest with
      | some r => .ok (s.advance x.length r)
      | none => .err s
    | .range a b => s.charBy (fun c => decide (a ≤ c) && decide (c ≤ b))
    | .uni p => s.charBy (u p)
    | .any => s.charBy (fun _ => true)
    | .soi => if s.pos = 0 then .ok s else .err s
    | .eoi => if s.rest.isEmpty then .ok s else .err s
    | .push e => (run g u n e v s).mapBoth (fun t => { t with stack := s.between t :: t.stack }) id
    | .peek =>
      match s.stack with
      | x :: _ => s.matchStr x
      | [] => .crash
    | .pop =>
      match s.stack with
      | x :: st => { s with stack := st }.matchStr x
      | [] => .crash

/-- The state a parse starts from (`pest::state`). -/
def St.init (input : Str) : St R := { pos := 0, rest := input, stack := [], queue := [] }

/-- The environment a parse starts in. -/
def Env.init : Env := { atomicity := .non, silent := false }

end SM.Peg
