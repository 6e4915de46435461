import Verif.Base.Out
import Verif.Base.BMap
import Verif.Alg.Error
import Verif.Alg.Factorial
import Verif.Alg.Fibonacci
import Verif.Alg.Basic
import Verif.Alg.Prime
import Verif.Props.Factorial
import Verif.Props.Fibonacci
import Verif.Props.Gcd
import Verif.Props.Crt
import Verif.Props.PrimeSieve
import Verif.Props.PrimeSum
import Verif.Props.PrimeTable
import Verif.Props.PrimeBits
import Verif.Props.PrimeUpto
import Verif.Props.PrimeUpto10
import Verif.Props.PrimeValues
import Verif.Base.Str
import Verif.Ast.Types
import Verif.Ast.Order
import Verif.Ast.Display
import Verif.Eval.Error
import Verif.Eval.Forward
import Verif.Eval.Runner
import Verif.Export.Tex
import Verif.Export.Wolfram
import Verif.Props.AstOrder
import Verif.Props.Symbol
import Verif.Props.Display
import Verif.Props.Eval
import Verif.Props.Runner
import Verif.Props.Tex
import Verif.Props.TexBraces
import Verif.Props.Wolfram
import Verif.Peg.Engine
import Verif.Peg.Depth
import Verif.Peg.Attempts
import Verif.Peg.Grammar
import Verif.Peg.Parse
import Verif.Peg.Build
import Verif.Props.PegSem
import Verif.Props.PegTotal
import Verif.Props.PegTables
import Verif.Props.PegSpan
import Verif.Props.PegErr
import Verif.Props.PegFirst
import Verif.Props.PegShadow
import Verif.Props.Climb
import Verif.Props.Calc
import Verif.Props.Lex
import Verif.Props.Lit
import Verif.Props.Erase
import Verif.Props.Prec
import Verif.Props.Lit2
import Verif.Props.Node
import Verif.Props.Node2
import Verif.Props.Chain
import Verif.Props.Term
import Verif.Props.Expr
import Verif.Props.Items
import Verif.Props.Call
import Verif.Props.Prog
import Verif.Props.Value
import Verif.Props.Group
import Verif.Props.Syn
import Verif.Props.Read
import Verif.Props.PegAgree
import Verif.Props.Lang
import Verif.Props.Bare
import Verif.Props.Lang2
import Verif.Props.Lang3
import Verif.Props.Positions
import Verif.Props.Deriv
import Verif.Props.DerivInv
import Verif.Props.Brackets
import Verif.Props.File
import Verif.Props.RepoTests
import Verif.Props.RoundTrip
import Verif.Props.Session
import Verif.Props.Reads
import Verif.Props.ReadsLex
import Verif.Props.ReadsAtom
import Verif.Props.ReadsData
import Verif.Props.ReadsProd
import Verif.Props.ReadsSep
import Verif.Props.ReadsTree
import Verif.Props.ReadsExpr
import Verif.Props.ReadsProgram
import Verif.Props.Typed
import Verif.Props.Cost
import Verif.Peg.PestFile
import Verif.Peg.Generate
import Verif.Props.PestMeans
import Verif.Props.PestLaws
import Verif.Props.Pest
import Verif.Props.Alike
import Verif.Props.Crash
import Verif.Eval.Page
import Verif.Props.Click
import Verif.Props.TexText
import Verif.Props.Numeral
import Verif.Props.Sound
import Verif.Props.Shift
import Verif.Props.Place
import Verif.Props.Leading
import Verif.Props.Adjacent
import Verif.Props.Unfinished
import Verif.Props.Comment
import Verif.Props.Line
import Verif.Props.Grouping
import Verif.Props.Mixed
import Verif.Props.Juxta
import Verif.Props.Again
import Verif.Props.Dropped
import Verif.Props.Dict
import Verif.Props.MixedNode
import Verif.Props.Panics
import Verif.Props.Names
import Verif.Props.Words
import Verif.Props.Exact
import Verif.Props.CostUpper
import Verif.Props.Goes
import Verif.Props.Statements
import Verif.Props.Builtin
import Verif.Props.Paren
import Verif.Props.KindOrder
import Verif.Props.Reserved
import Verif.Props.PrimeWork
import Verif.Props.GcdWork
import Verif.Props.WolframInj
import Verif.Props.DepthBound
import Verif.Props.Sizes
import Verif.Props.PrimeSize
import Verif.Props.Book
import Verif.Props.EvalWork
import Verif.Props.Rename
import Verif.Props.Replace
import Verif.Props.Drift
import Verif.Props.Blame
import Verif.Props.Hole
import Verif.Props.Expected
import Verif.Props.Thin
import Verif.Props.Endings
import Verif.Props.Moved
import Verif.Props.Lines
import Verif.Props.Honest
import Verif.Props.Faults
import Verif.Props.Behind
import Verif.Props.Trailing
import Verif.Props.Spacing
import Verif.Props.Remarks
