import Verif.Alg.Fibonacci
import Verif.Alg.Prime
import Verif.Peg.Build
import Verif.Export.Tex
import Verif.Export.Wolfram
/-
The repository's own tests (`projects/sm-ast/tests`, `projects/sm-playground/tests` and the tests with
assertions in `projects/sm-algorithm/src`), run on the model.

These are tests and not proofs: they are here because they compare the model with the program.  All
assertions hold.  `tests/display/mod.rs: space_times` is not marked as a
test; the assertions in it that expect products without a sign are wrong for the program and the model.

`to_wolfram_string` is a function of the dependency `wolfram_wxf`; `wlText` is the part of it that the
tests need.
-/
namespace SM.RepoTests
open SM.Peg

/-- `text_utils::capitalize_first_letter` on ASCII. -/
def capital : Str → Str
  | [] => []
  | c :: r => c.toUpper :: r

/-- Text in a Wolfram string. -/
def wlEscape : Str → Str
  | [] => []
  | c :: r => if c = '"' ∨ c = '\\' then '\\' :: c :: wlEscape r else c :: wlEscape r

mutual
/-- `WolframValue::to_string`. -/
def wlText : WValue → Str
  | .skip => []
  | .function h l =>
    let hd := wlText h
    if hd = c!"List" then c!"{" ++ wlTexts l ++ c!"}" else hd ++ c!"[" ++ wlTexts l ++ c!"]"
  | .symbol s => s
  | .bigInteger n => intStr n
  | .bigDecimal s => s
  | .string s => c!"\"" ++ wlEscape s ++ c!"\""
/-- Arguments, separated by commas. -/
def wlTexts : List WValue → Str
  | [] => []
  | a :: l => wlText a ++ (match l with | [] => [] | _ :: _ => c!",") ++ wlTexts l
end

/-- The Unicode tables, as far as the tests need them. -/
def asciiTables : Uni
  | .xidStart, c => c.isAlpha
  | .xidContinue, c => c.isAlpha || c.isDigit || c == '_'
  | .whiteSpace, c => c == ' ' || c == '\n'

/-- `parser.parse(s).unwrap()`, with `ParserSettings::default()`. -/
def parsed (s : Str) : Option AST :=
  match parseText asciiTables ⟨c!"anonymous", s, []⟩ with
  | .ok a => some a
  | _ => none

/-- tests/main.rs:7-10 `wl_form`. -/
def wlForm (s : Str) : Option Str := (parsed s).map fun a => wlText (a.toWolfram capital)

/-- tests/main.rs:12-15 `tex_form`. -/
def texForm (s : Str) : Option Str := (parsed s).bind AST.toTex

/-- tests/main.rs:17-20 `display_form`. -/
def displayForm (s : Str) : Option Str := (parsed s).bind AST.display

/-! tests/wolfram -/
example : wlForm c!"+6" = some c!"Plus[6]" := by decide +kernel
example : wlForm c!"-6" = some c!"Minus[6]" := by decide +kernel
example : wlForm c!"*6" = some c!"Unpack[6]" := by decide +kernel
example : wlForm c!"+*6" = some c!"Plus[Unpack[6]]" := by decide +kernel
example : wlForm c!"6!" = some c!"Factorial[6]" := by decide +kernel
example : wlForm c!"6!!" = some c!"Factorial2[6]" := by decide +kernel
example : wlForm c!"6!!!" = some c!"Factorial[Factorial2[6]]" := by decide +kernel
example : wlForm c!"2 x y" = some c!"Times[2,x,y]" := by decide +kernel
example : wlForm c!"2 -x y" = some c!"Subtract[2,Times[x,y]]" := by decide +kernel
example : wlForm c!"2*-x y" = some c!"Times[2,Minus[Times[x,y]]]" := by decide +kernel
example : wlForm c!"a()" = some c!"A[]" := by decide +kernel
example : wlForm c!"a(1)" = some c!"A[1]" := by decide +kernel
example : wlForm c!"a(1, 2)" = some c!"A[1,2]" := by decide +kernel
example : wlForm c!"a(1)(2)" = some c!"A[1][2]" := by decide +kernel
example : wlForm c!"a.b" = some c!"B[a]" := by decide +kernel
example : wlForm c!"a.b()" = some c!"B[a]" := by decide +kernel
example : wlForm c!"a.b(1)" = some c!"B[a,1]" := by decide +kernel
example : wlForm c!"a.b(1)(2)" = some c!"B[a,1][2]" := by decide +kernel
example : wlForm c!"[1, 2].first" = some c!"First[{1,2}]" := by decide +kernel
example : wlForm c!"a.0" = some c!"Index[a,0]" := by decide +kernel
example : wlForm c!"a.1" = some c!"Index[a,1]" := by decide +kernel
example : wlForm c!"a[1]" = some c!"Index[a,1]" := by decide +kernel
example : wlForm c!"a[1, 2]" = some c!"Index[a,1,2]" := by decide +kernel
example : wlForm c!"a[1][2]" = some c!"Index[Index[a,1],2]" := by decide +kernel
example : wlForm c!"a[:]" = some c!"Index[a,Span[1,All,1]]" := by decide +kernel
example : wlForm c!"a[2:]" = some c!"Index[a,Span[2,All,1]]" := by decide +kernel
example : wlForm c!"a[:3]" = some c!"Index[a,Span[1,3,1]]" := by decide +kernel
example : wlForm c!"a[4:5]" = some c!"Index[a,Span[4,5,1]]" := by decide +kernel
example : wlForm c!"a[::]" = some c!"Index[a,Span[1,All,1]]" := by decide +kernel
example : wlForm c!"a[::-1]" = some c!"Index[a,Span[1,All,Minus[1]]]" := by decide +kernel
example : wlForm c!"a[:-1:]" = some c!"Index[a,Span[1,Minus[1],1]]" := by decide +kernel
example : wlForm c!"a[1::]" = some c!"Index[a,Span[1,All,1]]" := by decide +kernel
example : wlForm c!"a[:3:2]" = some c!"Index[a,Span[1,3,2]]" := by decide +kernel
example : wlForm c!"0" = some c!"0" := by decide +kernel
example : wlForm c!"1" = some c!"1" := by decide +kernel
example : wlForm c!"-1" = some c!"Minus[1]" := by decide +kernel
example : wlForm c!"1.0" = some c!"1.0" := by decide +kernel
example : wlForm c!"-1.0" = some c!"Minus[1.0]" := by decide +kernel
example : wlForm c!"0xFF" = some c!"255" := by decide +kernel
example : wlForm c!"0o77" = some c!"63" := by decide +kernel
example : wlForm c!"0b11" = some c!"3" := by decide +kernel
example : wlForm c!"           \"\"             " = some c!"\"\"" := by decide +kernel
example : wlForm c!"          \"  \"            " = some c!"\"  \"" := by decide +kernel
example : wlForm c!"        \"\"\"  \"\"\"          " = some c!"\"  \"" := by decide +kernel
example : wlForm c!"       \"\"\" \"\" \"\"\"         " = some c!"\" \\\"\\\" \"" := by decide +kernel
example : wlForm c!"     r\"\"\"  \\\\  \"\"\"        " = some c!"\"  \\\\\\\\  \"" := by decide +kernel
example : wlForm c!"¶" = some c!"Input[-1]" := by decide +kernel
example : wlForm c!"¶1" = some c!"Input[1]" := by decide +kernel
example : wlForm c!"¶¶" = some c!"Input[-2]" := by decide +kernel
example : wlForm c!"¶¶¶" = some c!"Input[-3]" := by decide +kernel
example : wlForm c!"⁋" = some c!"Output[-1]" := by decide +kernel
example : wlForm c!"⁋1" = some c!"Output[1]" := by decide +kernel
example : wlForm c!"⁋⁋" = some c!"Output[-2]" := by decide +kernel
example : wlForm c!"⁋⁋⁋" = some c!"Output[-3]" := by decide +kernel
example : wlForm c!"#" = some c!"Slot[]" := by decide +kernel
example : wlForm c!"#1" = some c!"Slot[1]" := by decide +kernel
example : wlForm c!"#a" = some c!"Slot[\"a\"]" := by decide +kernel
example : wlForm c!"[]" = some c!"{}" := by decide +kernel
example : wlForm c!"[1]" = some c!"{1}" := by decide +kernel
example : wlForm c!"[[]]" = some c!"{{}}" := by decide +kernel
example : wlForm c!"[[1], 2]" = some c!"{{1},2}" := by decide +kernel

/-! tests/display -/
example : displayForm c!"a" = some c!"a" := by decide +kernel
example : displayForm c!"0" = some c!"0" := by decide +kernel
example : displayForm c!"-1" = some c!"-1" := by decide +kernel
example : displayForm c!"2!" = some c!"2!" := by decide +kernel
example : displayForm c!"(1)" = some c!"1" := by decide +kernel
example : displayForm c!"2*(3)" = some c!"2*3" := by decide +kernel
example : displayForm c!"1+2+3" = some c!"1+2+3" := by decide +kernel
example : displayForm c!"1+2*3" = some c!"1+2*3" := by decide +kernel
example : displayForm c!"(1+2)+3" = some c!"1+2+3" := by decide +kernel
example : displayForm c!"(1+2)*3" = some c!"(1+2)*3" := by decide +kernel
example : displayForm c!"1+2x+3x^2" = some c!"1+2*x+(3*x)^2" := by decide +kernel

/-! tests/tex -/
example : texForm c!"sin(x)" = some c!"\\\\sin x" := by decide +kernel
example : texForm c!"sin(xy)" = some c!"\\\\sin xy" := by decide +kernel
example : texForm c!"sin(x,y)" = some c!"\\\\sin(x, y)" := by decide +kernel
example : texForm c!"sin(x+y)" = some c!"\\\\sin(x + y)" := by decide +kernel
example : texForm c!"sin(x y)" = some c!"\\\\sin(x y)" := by decide +kernel
example : texForm c!"sin(x*y)" = some c!"\\\\sin(x y)" := by decide +kernel
example : texForm c!"arcsin(x)" = some c!"\\\\arcsin x" := by decide +kernel
example : texForm c!"arcsinh(x)" = some c!"\\\\operatorname{arcsinh} x" := by decide +kernel
example : texForm c!"1+2+3" = some c!"1+2 + 3" := by decide +kernel
example : texForm c!"1+2*3" = some c!"1 + 2*3" := by decide +kernel
example : texForm c!"(1+2)*3" = some c!"1+2 3" := by decide +kernel

/-! `sm-playground/tests/main.rs`: the text is rejected, without a panic. -/
example : (match parseText asciiTables ⟨c!"anonymous", c!"a?@#@@!$", []⟩ with | .err _ => true | _ => false) = true := by
  decide +kernel

/-! `sm-algorithm/src/prime/prime_sum.rs:85-101` -/
def sumsTo (n s : Nat) : Bool := match Alg.primeSumU64 true n with | .ok r => r == s | _ => false
example : [(1, 0), (2, 2), (3, 5), (4, 5), (5, 10), (6, 10), (7, 17), (8, 17), (9, 17), (10, 17), (11, 28), (100, 1060),
    (1000, 76127)].all (fun p => sumsTo p.1 p.2) = true := by decide +kernel

/-! `sm-algorithm/src/linear/fibonacci.rs:48-52` -/
example : Alg.fibonacciFoldU 100 = 354224848179261915075 := by decide +kernel
example : (match Alg.fibonacciFastU 100 with | .ok r => r == 354224848179261915075 | _ => false) = true := by decide +kernel

end SM.RepoTests
