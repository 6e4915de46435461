import Verif.Props.AstOrder
import Verif.Ast.Display
import Mathlib.Tactic.IntervalCases
/-
C15: the order of the kinds of expressions, and of the kinds of symbols.
-/
namespace SM.Props
open SM

/-- **C15**.  Empty statements come first, then programs, functions, truth values, integers, decimals, symbols and strings,
whatever they hold. -/
theorem C15_kinds_listed (p : List AST) (s t : Sym) (ps : List Param) (b : Bool) (n : Int) (d : Dec) (x : Str) :
    List.Pairwise (fun a b => astCmp a b = .lt)
      [.empty, .program p, .function s ps, .boolean b, .integer n, .decimal d, .symbol t, .string x] := by
  refine List.pairwise_iff_getElem.2 fun i j hi hj h => ?_
  simp only [List.length_cons, List.length_nil] at hi hj
  interval_cases j <;> interval_cases i <;> rfl

/-- **C15**.  Symbols of the same path and name: plain ones come first, then aliases, prefix, infix and suffix operators. -/
theorem C15_symbol_kinds_listed (ns : List Str) (n : Str) (a b c : Str) (q k l m i j : Nat) :
    List.Pairwise (fun a b => astCmp (.symbol a) (.symbol b) = .lt)
      [⟨ns, n, .normal, k⟩, ⟨ns, n, .alias, l⟩, ⟨ns, n, .prefix a, m⟩, ⟨ns, n, .infix b q, i⟩, ⟨ns, n, .suffix c, j⟩] := by
  have same : ∀ (x y : SymbolKind) (i j : Nat), kindCmp x y = .lt → astCmp (.symbol ⟨ns, n, x, i⟩) (.symbol ⟨ns, n, y, j⟩) = .lt := by
    intro x y i j h
    have h1 : listCmp strCmp ns ns = .eq := (lawful_listCmp lawful_strCmp).refl ns
    have h2 : strCmp n n = .eq := lawful_strCmp.refl n
    simp only [astCmp, symCmp, h1, h2, h, Ordering.then]
  simp only [List.pairwise_cons, List.mem_cons, List.not_mem_nil, or_false, forall_eq_or_imp, forall_eq, List.Pairwise.nil]
  simp only [and_true, IsEmpty.forall_iff, implies_true]
  refine ⟨⟨?_, ?_, ?_, ?_⟩, ⟨?_, ?_, ?_⟩, ⟨?_, ?_⟩, ?_⟩ <;> exact same _ _ _ _ rfl

/-- A symbol comes before every string, even `z` before the empty one. -/
example (x : Str) : astCmp (.mkSymbol c!"z") (.string x) = .lt :=
  List.pairwise_iff_getElem.1 (C15_kinds_listed [] ⟨[], [], .normal, 0⟩ (.ofStr c!"z") [] true 0 ⟨0, 0⟩ x) 6 7
    (by simp) (by simp) (by decide)

end SM.Props
