import Verif.Export.Wolfram
import Mathlib.Data.List.Induction
/-
C31: Wolfram export.
-/
namespace SM.Props
open SM

variable (cap : Str → Str)

/-- One argument list of an exported call: positional arguments in order, then a `Rule` per keyword
argument in key order. -/
def exportedArgs (f : AST → WValue) (p : Param) : List WValue :=
  p.arguments.map f ++ p.options.map (fun kv => .function (.symbol c!"Rule") [f kv.1, f kv.2])

theorem wolframArgs_eq (l : List AST) : wolframArgs cap l = l.map (AST.toWolfram cap) := by
  induction l with
  | nil => simp [wolframArgs]
  | cons a l ih => simp [wolframArgs, ih]

theorem wolframOpts_eq (l : List (AST × AST)) : wolframOpts cap l =
    l.map (fun kv => .function (.symbol c!"Rule") [kv.1.toWolfram cap, kv.2.toWolfram cap]) := by
  induction l with
  | nil => simp [wolframOpts]
  | cons a l ih => obtain ⟨k, v⟩ := a; simp [wolframOpts, wolframRule, ih]

theorem wolframParams_eq (h : WValue) (ps : List Param) : wolframParams cap h ps =
    ps.foldl (fun h p => .function h (exportedArgs (AST.toWolfram cap) p)) h := by
  induction ps generalizing h with
  | nil => simp [wolframParams]
  | cons p ps ih =>
    obtain ⟨a, o, pos⟩ := p
    simp [wolframParams, ih, wolframArgs_eq, wolframOpts_eq, exportedArgs, Param.arguments, Param.options]

/-- **C31** (calls).  A call with argument lists `ps ++ [p]` is exported as the application of the
exported call with lists `ps` to the exported arguments of `p`; without lists it is the mapped name. -/
theorem C31_call (s : Sym) (ps : List Param) (p : Param) :
    AST.toWolfram cap (.function s (ps ++ [p])) =
      .function (AST.toWolfram cap (.function s ps)) (exportedArgs (AST.toWolfram cap) p) ∧
    AST.toWolfram cap (.function s []) =
      .symbol (if s.name = c!"factor" then c!"FactorInteger" else cap s.name) := by
  constructor
  · simp [AST.toWolfram, wolframParams_eq]
  · simp [AST.toWolfram, wolframParams, functionMap]

/-- Number of nested applications around the head. -/
def levels : WValue → Nat
  | .function h _ => levels h + 1
  | _ => 0

/-- The argument lists of nested applications, innermost first, and the head. -/
def spine : WValue → WValue × List (List WValue)
  | .function h as => ((spine h).1, (spine h).2 ++ [as])
  | v => (v, [])

/-- **C31** (one level per argument list).  The nested applications of an exported call are its argument
lists, in order, around the mapped name. -/
theorem C31_call_spine (s : Sym) (ps : List Param) :
    spine (AST.toWolfram cap (.function s ps)) =
      (.symbol (if s.name = c!"factor" then c!"FactorInteger" else cap s.name),
        ps.map (exportedArgs (AST.toWolfram cap))) := by
  induction ps using List.reverseRecOn with
  | nil => rw [(C31_call cap s [] (.mk [] [] ⟨[], (0, 0), (0, 0)⟩)).2]; simp [spine]
  | append_singleton ps p ih =>
    rw [(C31_call cap s ps p).1, spine, ih]
    simp

/-- **C31** (atoms). -/
theorem C31_atoms :
    AST.toWolfram cap .empty = .skip ∧
    AST.toWolfram cap (.boolean true) = .symbol c!"True" ∧
    AST.toWolfram cap (.boolean false) = .symbol c!"False" ∧
    (∀ n, AST.toWolfram cap (.integer n) = .bigInteger n) ∧
    (∀ d, AST.toWolfram cap (.decimal d) = .bigDecimal (decStr d)) ∧
    (∀ s, AST.toWolfram cap (.symbol s) = .symbol s.name) ∧
    (∀ s, AST.toWolfram cap (.string s) = .string s) ∧
    (∀ l, AST.toWolfram cap (.program l) =
      .function (.symbol c!"CompoundExpression") (l.map (AST.toWolfram cap))) := by
  refine ⟨?_, ?_, ?_, ?_, ?_, ?_, ?_, ?_⟩ <;> simp [AST.toWolfram, wolframArgs_eq]

/-- **C31** (what is lost).  The namespace of a symbol is not exported: `a::x` and `x` export alike. -/
theorem C31_namespace_lost (s t : Sym) (h : s.name = t.name) :
    AST.toWolfram cap (.symbol s) = AST.toWolfram cap (.symbol t) ∧
    ∀ ps, AST.toWolfram cap (.function s ps) = AST.toWolfram cap (.function t ps) := by
  constructor
  · simp [AST.toWolfram, h]
  · intro ps; simp [AST.toWolfram, functionMap, h]

/-- `f(1, k = 2)(3)`. -/
example (cap : Str → Str) :
    AST.toWolfram cap (.function ⟨[], c!"f", .normal, 0⟩
      [.mk [.integer 1] [(.symbol ⟨[], c!"k", .normal, 0⟩, .integer 2)] ⟨[], (0, 0), (0, 0)⟩,
       .mk [.integer 3] [] ⟨[], (0, 0), (0, 0)⟩]) =
    .function (.function (.symbol (cap c!"f")) [.bigInteger 1,
      .function (.symbol c!"Rule") [.symbol c!"k", .bigInteger 2]]) [.bigInteger 3] := rfl

end SM.Props
