import Verif.Eval.Forward
/-
Model of `projects/sm-ast/src/evaluate/{mod,traits}.rs` (the session) and of
`projects/sm-playground/src/lib.rs`.

The parser is a parameter `parse`, so that the results hold for whatever the parser does; it is
instantiated with the modelled parser elsewhere.  The settings a `Runner` parses with never change.
`index: usize` is unbounded here (it counts calls).
-/
namespace SM

/-- evaluate/mod.rs:15-22 `struct Context`.  `symbols` is never used. -/
structure Context where
  index : Nat := 0
  inputs : BMap Nat Str := []
  outputs : BMap Nat AST := []

/-- The session's methods take `&mut self`: they return an outcome and leave a state behind, also when
they panic. -/
structure Step (α : Type) where
  out : SMResult α
  ctx : Context

/-- evaluate/traits.rs:10-14 `Runner::parse`. -/
def Context.parse (c : Context) (s : Str) : Context :=
  let i := c.index + 1
  { c with index := i, inputs := BMap.insert BMap.natCmp i s c.inputs }

/-- evaluate/traits.rs:16-22 `Runner::forward`. -/
def Context.forward (w : Width) (parse : Str → SMResult AST) (c : Context) : Step Unit :=
  match BMap.get BMap.natCmp c.index c.inputs with
  | none => ⟨.panic, c⟩
  | some input =>
    match parse input with
    | .panic => ⟨.panic, c⟩
    | .err e => ⟨.err e, c⟩
    | .ok ast =>
      match SM.forward w ast with
      | .panic => ⟨.panic, c⟩
      | .err e => ⟨.err e, c⟩
      | .ok output =>
        ⟨.ok (), { c with outputs := BMap.insert BMap.natCmp c.index output c.outputs }⟩

/-- evaluate/traits.rs:24-29 `Runner::evaluate`. -/
def Context.evaluate (w : Width) (parse : Str → SMResult AST) (c : Context) (input : Str) : Step Str :=
  let c1 := c.parse input
  let r := c1.forward w parse
  match r.out with
  | .panic => ⟨.panic, r.ctx⟩
  | .err e => ⟨.err e, r.ctx⟩
  | .ok () =>
    match BMap.get BMap.natCmp r.ctx.index r.ctx.outputs with
    | none => ⟨.panic, r.ctx⟩
    | some o =>
      match o.display with
      | none => ⟨.panic, r.ctx⟩
      | some s => ⟨.ok s, r.ctx⟩

/-- evaluate/traits.rs:31-34 `Runner::last`. -/
def Context.last (c : Context) : SMResult AST :=
  match BMap.get BMap.natCmp c.index c.outputs with
  | none => .panic
  | some o => .ok o

/-! ### The playground -/

/-- sm-playground/src/lib.rs:6-8: a `Mutex<Runner>`; a panic while the lock is held poisons it.  (Where panics abort, as in
wasm, the lock stays taken instead; taking it again panics, so calls see no difference.) -/
structure Playground where
  runner : Context := {}
  poisoned : Bool := false

/-- What a playground call gives: text, or a panic (a trap in wasm). -/
abbrev PlayOut := Option Str

/-- sm-playground/src/lib.rs:11-17 `result`.  `dbg` is `{:?}` on `SMError`. -/
def Playground.result (w : Width) (parse : Str → SMResult AST) (dbg : SMError → Str)
    (p : Playground) (input : Str) : PlayOut × Playground :=
  if p.poisoned then (none, p)
  else
    let r := p.runner.evaluate w parse input
    match r.out with
    | .ok s => (some s, { p with runner := r.ctx })
    | .err e => (some (dbg e), { p with runner := r.ctx })
    | .panic => (none, { runner := r.ctx, poisoned := true })

/-- sm-playground/src/lib.rs:20-26 `result_tex`.  `tex` is `AST::to_tex`, `none` when it panics. -/
def Playground.resultTex (tex : AST → Option Str) (dbg : SMError → Str)
    (p : Playground) : PlayOut × Playground :=
  if p.poisoned then (none, p)
  else
    match p.runner.last with
    | .ok o =>
      match tex o with
      | some s => (some s, p)
      | none => (none, { p with poisoned := true })
    | .err e => (some (dbg e), p)
    | .panic => (none, { p with poisoned := true })

end SM
