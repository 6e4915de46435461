import Lean.Elab.Term
/-
Texts as lists of characters (`&str`, `String`, `Box<str>`).  Rust orders strings by their UTF-8
bytes, which is the lexicographic order by code point.
-/
namespace SM

/-- A text. -/
abbrev Str := List Char

open Lean in
/-- `c!"abc"` is the list literal `['a', 'b', 'c']`. -/
macro:max "c!" s:str : term => do
  let cs := s.getString.toList.map (fun c => Syntax.mkCharLit c)
  `(([$[$(cs.toArray)],*] : List Char))

/-- `v.join(sep)` on a slice of strings. -/
def join (sep : Str) : List Str → Str
  | [] => []
  | [x] => x
  | x :: y :: l => x ++ sep ++ join sep (y :: l)

/-- `s.len()`: length in UTF-8 bytes. -/
def utf8Len (s : Str) : Nat := (s.map Char.utf8Size).sum

end SM
