import Verif.Peg.PestFile
/-
What a grammar file says, as pest's documentation explains it: parsing expressions with implicit white space.

`Means u m e a o` says that in mode `m`, at the place `a` of a text, the expression `e` has the outcome `o`: it matches
up to a place, giving token pairs, or it does not match.  This is written down without regard to how the parser works:
there is no state to restore, no order of steps, no fuel.
-/
namespace SM.Props
open SM SM.Peg

/-- A place in a text: how many characters come before it, the text after it, the texts pushed so far. -/
structure Place where
  pos : Nat
  rest : Str
  stack : List Str

/-- The outcome of an expression. -/
inductive Outcome where
  | hit (b : Place) (l : List (Pair R))
  | miss

/-- What is matched: an expression; more repetitions of one; white space and comments between two parts. -/
inductive Phrase where
  | of (e : GE)
  | more (e : GE)
  | gap

/-- The members of a set of characters. -/
def charIn (u : Uni) : Chars → Char → Prop
  | .any, _ => True
  | .range a b, c => a ≤ c ∧ c ≤ b
  | .uni p, c => u p c = true

/-- The mode in the body of a rule.  White space and comments have no white space and comments inside them. -/
def innerMode (r : R) : Kind → Atomicity → Atomicity
  | .normal, m => m
  | .silent, m => if r = .WHITESPACE ∨ r = .COMMENT then .atomic else m
  | .atomic, _ => .atomic
  | .compound, _ => .compound
  | .nonAtomic, _ => .non

/-- Whether a rule gives a token pair. -/
def givesPair : Kind → Atomicity → Bool
  | .silent, _ => false
  | .normal, m | .atomic, m => m != .atomic
  | .compound, _ | .nonAtomic, _ => true

/-- The meaning of grammar expressions. -/
inductive Means (u : Uni) : Atomicity → Phrase → Place → Outcome → Prop where
  -- literals
  | str {m w p z k} : Means u m (.of (.str w)) ⟨p, w ++ z, k⟩ (.hit ⟨p + w.length, z, k⟩ [])
  | strNo {m w a} : ¬ w <+: a.rest → Means u m (.of (.str w)) a .miss
  | insens {m x w p z k} : w.map Char.toLower = x.map Char.toLower →
      Means u m (.of (.insens x)) ⟨p, w ++ z, k⟩ (.hit ⟨p + w.length, z, k⟩ [])
  | insensNo {m x a} : (∀ w, w <+: a.rest → w.map Char.toLower ≠ x.map Char.toLower) →
      Means u m (.of (.insens x)) a .miss
  | chr {m s c p z k} : charIn u s c → Means u m (.of (.chr s)) ⟨p, c :: z, k⟩ (.hit ⟨p + 1, z, k⟩ [])
  | chrNo {m s a} : (∀ c z, a.rest = c :: z → ¬ charIn u s c) → Means u m (.of (.chr s)) a .miss
  | soi {m z k} : Means u m (.of .soi) ⟨0, z, k⟩ (.hit ⟨0, z, k⟩ [])
  | soiNo {m a} : a.pos ≠ 0 → Means u m (.of .soi) a .miss
  | eoi {m p k} : Means u m (.of .eoi) ⟨p, [], k⟩ (.hit ⟨p, [], k⟩ [])
  | eoiNo {m a} : a.rest ≠ [] → Means u m (.of .eoi) a .miss
  -- the stack
  | peek {m w p z k} : Means u m (.of .peek) ⟨p, w ++ z, w :: k⟩ (.hit ⟨p + w.length, z, w :: k⟩ [])
  | peekNo {m w p x k} : ¬ w <+: x → Means u m (.of .peek) ⟨p, x, w :: k⟩ .miss
  | pop {m w p z k} : Means u m (.of .pop) ⟨p, w ++ z, w :: k⟩ (.hit ⟨p + w.length, z, k⟩ [])
  | popNo {m w p x k} : ¬ w <+: x → Means u m (.of .pop) ⟨p, x, w :: k⟩ .miss
  | push {m e a b w l} : Means u m (.of e) a (.hit b l) → a.rest = w ++ b.rest →
      Means u m (.of (.push e)) a (.hit ⟨b.pos, b.rest, w :: b.stack⟩ l)
  | pushNo {m e a} : Means u m (.of e) a .miss → Means u m (.of (.push e)) a .miss
  -- rules
  | ref {m r k e a b w l} : pest r = some (k, e) → Means u (innerMode r k m) (.of e) a (.hit b l) → a.rest = w ++ b.rest →
      Means u m (.of (.ref r)) a (.hit b (if givesPair k m then [.mk r a.pos b.pos w l] else l))
  | refNo {m r k e a} : pest r = some (k, e) → Means u (innerMode r k m) (.of e) a .miss →
      Means u m (.of (.ref r)) a .miss
  -- sequences
  | seq {m e f a b c d l₁ l₂ l₃} : Means u m (.of e) a (.hit b l₁) → Means u m .gap b (.hit c l₂) →
      Means u m (.of f) c (.hit d l₃) → Means u m (.of (.seq e f)) a (.hit d (l₁ ++ l₂ ++ l₃))
  | seqNo₁ {m e f a} : Means u m (.of e) a .miss → Means u m (.of (.seq e f)) a .miss
  | seqNo₂ {m e f a b c l₁ l₂} : Means u m (.of e) a (.hit b l₁) → Means u m .gap b (.hit c l₂) →
      Means u m (.of f) c .miss → Means u m (.of (.seq e f)) a .miss
  -- ordered choice
  | altL {m e f a b l} : Means u m (.of e) a (.hit b l) → Means u m (.of (.alt e f)) a (.hit b l)
  | altR {m e f a o} : Means u m (.of e) a .miss → Means u m (.of f) a o → Means u m (.of (.alt e f)) a o
  -- options and repetitions
  | opt {m e a b l} : Means u m (.of e) a (.hit b l) → Means u m (.of (.opt e)) a (.hit b l)
  | optNo {m e a} : Means u m (.of e) a .miss → Means u m (.of (.opt e)) a (.hit a [])
  | star {m e a b c l₁ l₂} : Means u m (.of e) a (.hit b l₁) → Means u m (.more e) b (.hit c l₂) →
      Means u m (.of (.star e)) a (.hit c (l₁ ++ l₂))
  | starNo {m e a} : Means u m (.of e) a .miss → Means u m (.of (.star e)) a (.hit a [])
  | more {m e a b c d l₁ l₂ l₃} : Means u m .gap a (.hit b l₁) → Means u m (.of e) b (.hit c l₂) →
      Means u m (.more e) c (.hit d l₃) → Means u m (.more e) a (.hit d (l₁ ++ l₂ ++ l₃))
  | moreNo {m e a b l} : Means u m .gap a (.hit b l) → Means u m (.of e) b .miss → Means u m (.more e) a (.hit a [])
  | plus {m e a o} : Means u m (.of (.seq e (.star e))) a o → Means u m (.of (.plus e)) a o
  | once {m e a o} : Means u m (.of e) a o → Means u m (.of (.times 1 e)) a o
  | times {m e n a o} : Means u m (.of (.seq e (.times (n + 1) e))) a o → Means u m (.of (.times (n + 2) e)) a o
  -- lookahead
  | not {m e a} : Means u m (.of e) a .miss → Means u m (.of (.not e)) a (.hit a [])
  | notNo {m e a b l} : Means u m (.of e) a (.hit b l) → Means u m (.of (.not e)) a .miss
  -- white space and comments, where the mode allows them
  | tight {m a} : m ≠ .non → Means u m .gap a (.hit a [])
  | space {a b c l₁ l₂} : Means u .non (.of (.ref .WHITESPACE)) a (.hit b l₁) → Means u .non .gap b (.hit c l₂) →
      Means u .non .gap a (.hit c (l₁ ++ l₂))
  | comment {a b c l₁ l₂} : Means u .non (.of (.ref .WHITESPACE)) a .miss →
      Means u .non (.of (.ref .COMMENT)) a (.hit b l₁) → Means u .non .gap b (.hit c l₂) →
      Means u .non .gap a (.hit c (l₁ ++ l₂))
  | gapEnd {a} : Means u .non (.of (.ref .WHITESPACE)) a .miss → Means u .non (.of (.ref .COMMENT)) a .miss →
      Means u .non .gap a (.hit a [])

end SM.Props
