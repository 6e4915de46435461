import Verif.Eval.Runner
/-
Model of the page `projects/sm-playground/index.html`: what a click on its buttons does with the session.
The page loads a published build of the library (line 13, version 0.0.5); the model takes the sources in this repository.
-/
namespace SM

/-- What a click writes: the text of the output field and the formula below it.  `none`: the field keeps what it showed,
because the script stopped before writing it. -/
structure Shown where
  text : Option Str
  formula : Option Str
  deriving DecidableEq

/-- sm-playground/index.html:63-74 `calculateArea`, which all buttons call: `forward` (line 16: `result`) on the input, its
answer is written; then `forward_tex` (line 17: `result_tex`, its argument is ignored), whose answer is rendered.  A panic
reaches the script as an exception that nothing catches. -/
def Playground.click (w : Width) (parse : Str → SMResult AST) (tex : AST → Option Str) (dbg : SMError → Str)
    (p : Playground) (input : Str) : Shown × Playground :=
  let r := p.result w parse dbg input
  match r.1 with
  | none => (⟨none, none⟩, r.2)
  | some t =>
    let q := r.2.resultTex tex dbg
    (⟨some t, q.1⟩, q.2)

end SM
