import Verif.Peg.Parse
/-
Model of the record that `pest::ParserState` keeps of failed attempts, and of the position of the error that
`SMParser::parse` (`sm_parser.rs:159-164, 989-1141`) returns for a text that is refused.  `error/traits.rs:15-19` hands the
text of this error on to the user.

* The record is the one of pest 2.1 (`parser_state.rs`: `state`, `rule`, `attempts_at`, `track`, `lookahead`).
* pest sorts the two lists of rules and removes repetitions before it prints them: see `Peg/Message.lean`.  The layout of
  the message is left out.
-/
namespace SM.Peg
variable {R : Type}

/-- The fields `attempt_pos`, `pos_attempts` and `neg_attempts` of `ParserState`: the furthest position at which a rule
failed, the rules that failed there, and the rules that matched there although they should not have. -/
structure Tries (R : Type) where
  pos : Nat
  wanted : List R
  unwanted : List R

/-- The record a parse starts with (`ParserState::new`). -/
def Tries.init : Tries R := { pos := 0, wanted := [], unwanted := [] }

/-- `ParserState::attempts_at`. -/
def Tries.at (a : Tries R) (p : Nat) : Nat := if a.pos = p then a.wanted.length + a.unwanted.length else 0

/-- `ParserState::track`: `b` is the record after the body of the rule `r`, which was tried at `p`; `a` is the record
before it, from which `rule` takes the three numbers it passes to `track`.  `neg` is `lookahead == Negative`. -/
def Tries.track (b : Tries R) (t : Atomicity) (neg : Bool) (r : R) (p : Nat) (a : Tries R) : Tries R :=
  if t = .atomic then b
  else if b.at p = a.at p + 1 then b
  else
    let i := if p = a.pos then a.wanted.length else 0
    let j := if p = a.pos then a.unwanted.length else 0
    let b := if p = b.pos then { b with wanted := b.wanted.take i, unwanted := b.unwanted.take j } else b
    let b := if p > b.pos then { pos := p, wanted := [], unwanted := [] } else b
    if p = b.pos then
      if neg then { b with unwanted := b.unwanted ++ [r] } else { b with wanted := b.wanted ++ [r] }
    else b

/-- Whether `rule` calls `track`: after a failure, or after a success inside a negative lookahead. -/
def Res.blames (neg : Bool) : Res R → Bool
  | .ok _ => neg
  | .err _ => !neg
  | .crash => false

/-- The interpreter `run` with the record of attempts threaded through. -/
def traced (g : R → PE R) (u : Uni) : Nat → PE R → Env → Bool → St R → Tries R → Res R × Tries R
  | 0, _, _, _, _, a => (.crash, a)
  | n + 1, e, v, neg, s, a =>
    match e with
    | .call r => traced g u n (g r) v neg s a
    | .rule r e =>
      let x := traced g u n e v neg (if v.emits then { s with queue := [] } else s) a
      (if v.emits then
          x.1.mapBoth
            (fun t => { t with queue := s.queue ++ [.mk r s.pos t.pos (s.between t) t.queue] })
            (fun t => { t with queue := s.queue })
        else x.1,
        if x.1.blames neg then x.2.track v.atomicity neg r s.pos a else x.2)
    | .atomic t e => traced g u n e { v with atomicity := t } neg s a
    | .ifNon e => if v.atomicity = .non then traced g u n e v neg s a else (.ok s, a)
    | .seq e =>
      let x := traced g u n e v neg s a
      (x.1.mapBoth id (fun t => { t with pos := s.pos, rest := s.rest, queue := s.queue }), x.2)
    | .opt e =>
      let x := traced g u n e v neg s a
      (x.1.recover, x.2)
    | .rep e =>
      match traced g u n e v neg s a with
      | (.ok t, b) => traced g u n (.rep e) v neg t b
      | (.err t, b) => (.ok t, b)
      | (.crash, b) => (.crash, b)
    | .alt e f =>
      match traced g u n e v neg s a with
      | (.ok t, b) => (.ok t, b)
      | (.err t, b) => traced g u n f v neg t b
      | (.crash, b) => (.crash, b)
    | .cat e f =>
      match traced g u n e v neg s a with
      | (.ok t, b) => traced g u n f v neg t b
      | (.err t, b) => (.err t, b)
      | (.crash, b) => (.crash, b)
    | .restore e =>
      let x := traced g u n e v neg s a
      (x.1.mapBoth id (fun t => { t with stack := s.stack }), x.2)
    | .look positive e =>
      let x := traced g u n e { v with silent := true } (if positive then neg else !neg) s a
      let r := x.1.mapBoth
        (fun t => { t with pos := s.pos, rest := s.rest, stack := s.stack })
        (fun t => { t with pos := s.pos, rest := s.rest, stack := s.stack })
      (if positive then r else r.flip, x.2)
    | .push e =>
      let x := traced g u n e v neg s a
      (x.1.mapBoth (fun t => { t with stack := s.between t :: t.stack }) id, x.2)
    | e => (run g u 1 e v s, a)

/-- What `SMParser::parse` reports about a refused text (`pest::state`): the record at the end. -/
def smRefusal (u : Uni) (r : SM.Peg.R) (input : Str) : Option (Tries SM.Peg.R) :=
  match traced grammar u (parseFuel input) (.call r) Env.init false (St.init input) Tries.init with
  | (.err _, a) => some a
  | _ => none

/-- The position of the error: `Position::new(input, attempt_pos).unwrap()`, shown as line and column. -/
def errorAt (u : Uni) (input : Str) : Option Nat := (smRefusal u .program input).map (·.pos)

end SM.Peg
