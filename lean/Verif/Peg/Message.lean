import Verif.Peg.Attempts
/-
Model of the sentence in which the error that `SMParser::parse` (`sm_parser.rs:159-164`) returns says what was expected.
`error/traits.rs:15-19` hands the text of this error on to the user.

* The sentence is the one of pest 2.1 (`parser_state.rs`: the end of `state`; `error.rs`: `parsing_error_message`,
  `enumerate`).  The lines of the message in front of it, which show the position and the line of the text, are left out.
-/
namespace SM.Peg

/-- `enum Rule` (`sm_parser.rs:3-155`): the rules in the order of the declaration, which is the order the derived `Ord` sorts
by, with what the derived `Debug` prints. -/
def ruleNames : List (R × Str) := [
  (.«EOI», c!"EOI"),
  (.«program», c!"program"),
  (.«statement», c!"statement"),
  (.«emptyStatement», c!"emptyStatement"),
  (.«eos», c!"eos"),
  (.«comma_or_semi», c!"comma_or_semi"),
  (.«block_or_stmt», c!"block_or_stmt"),
  (.«importStatement», c!"importStatement"),
  (.«use_alias», c!"use_alias"),
  (.«use_module_select», c!"use_module_select"),
  (.«module_block», c!"module_block"),
  (.«module_tuple», c!"module_tuple"),
  (.«ModuleSplit», c!"ModuleSplit"),
  (.«As», c!"As"),
  (.«controlFlow», c!"controlFlow"),
  (.«block», c!"block"),
  (.«if_statement», c!"if_statement"),
  (.«for_statement», c!"for_statement"),
  (.«for_in_loop», c!"for_in_loop"),
  (.«re_control», c!"re_control"),
  (.«Return», c!"Return"),
  (.«Yield», c!"Yield"),
  (.«Break», c!"Break"),
  (.«Pass», c!"Pass"),
  (.«Type», c!"Type"),
  (.«classStatement», c!"classStatement"),
  (.«traitStatement», c!"traitStatement"),
  (.«short_block», c!"short_block"),
  (.«short_statement», c!"short_statement"),
  (.«short_annotation», c!"short_annotation"),
  (.«extendStatement», c!"extendStatement"),
  (.«with_trait», c!"with_trait"),
  (.«assignStatement», c!"assignStatement"),
  (.«assign_terms», c!"assign_terms"),
  (.«assign_name», c!"assign_name"),
  (.«assign_pair», c!"assign_pair"),
  (.«defineStatement», c!"defineStatement"),
  (.«define_terms», c!"define_terms"),
  (.«define_parameter», c!"define_parameter"),
  (.«define_pair», c!"define_pair"),
  (.«annotation», c!"annotation"),
  (.«annotation_call», c!"annotation_call"),
  (.«apply», c!"apply"),
  (.«apply_kv», c!"apply_kv"),
  (.«function_name», c!"function_name"),
  (.«function_module», c!"function_module"),
  (.«expression», c!"expression"),
  (.«expr», c!"expr"),
  (.«term», c!"term"),
  (.«node», c!"node"),
  (.«apply_call», c!"apply_call"),
  (.«derivative», c!"derivative"),
  (.«space_call», c!"space_call"),
  (.«type_expr», c!"type_expr"),
  (.«type_hint», c!"type_hint"),
  (.«TypeInfix», c!"TypeInfix"),
  (.«data», c!"data"),
  (.«dict», c!"dict"),
  (.«list», c!"list"),
  (.«slice», c!"slice"),
  (.«key_valid», c!"key_valid"),
  (.«key_value», c!"key_value"),
  (.«index», c!"index"),
  (.«Start», c!"Start"),
  (.«End», c!"End"),
  (.«Step», c!"Step"),
  (.«Number», c!"Number"),
  (.«Decimal», c!"Decimal"),
  (.«Integer», c!"Integer"),
  (.«Byte», c!"Byte"),
  (.«String», c!"String"),
  (.«StringNormal», c!"StringNormal"),
  (.«StringBlock», c!"StringBlock"),
  (.«StringText», c!"StringText"),
  (.«Symbol», c!"Symbol"),
  (.«SYMBOL», c!"SYMBOL"),
  (.«Special», c!"Special"),
  (.«Slot», c!"Slot"),
  (.«REPL», c!"REPL"),
  (.«Positive», c!"Positive"),
  (.«WHITESPACE», c!"WHITESPACE"),
  (.«COMMENT», c!"COMMENT"),
  (.«MultiLineComment», c!"MultiLineComment"),
  (.«Prefix», c!"Prefix"),
  (.«Suffix», c!"Suffix"),
  (.«Infix», c!"Infix"),
  (.«Set», c!"Set"),
  (.«Derivative», c!"Derivative"),
  (.«Or», c!"Or"),
  (.«LazyOr», c!"LazyOr"),
  (.«Star», c!"Star"),
  (.«Slash», c!"Slash"),
  (.«Escape», c!"Escape"),
  (.«Proportion», c!"Proportion"),
  (.«Comma», c!"Comma"),
  (.«Dot», c!"Dot"),
  (.«Separate», c!"Separate"),
  (.«Semicolon», c!"Semicolon"),
  (.«Colon», c!"Colon"),
  (.«Question», c!"Question"),
  (.«Underline», c!"Underline"),
  (.«Load», c!"Load"),
  (.«Save», c!"Save"),
  (.«LeftShift», c!"LeftShift"),
  (.«RightShift», c!"RightShift"),
  (.«LessEqual», c!"LessEqual"),
  (.«GraterEqual», c!"GraterEqual"),
  (.«Less», c!"Less"),
  (.«Grater», c!"Grater"),
  (.«Pipeline», c!"Pipeline"),
  (.«Equivalent», c!"Equivalent"),
  (.«NotEquivalent», c!"NotEquivalent"),
  (.«Equal», c!"Equal"),
  (.«NotEqual», c!"NotEqual"),
  (.«Plus», c!"Plus"),
  (.«Minus», c!"Minus"),
  (.«Multiply», c!"Multiply"),
  (.«CenterDot», c!"CenterDot"),
  (.«Kronecker», c!"Kronecker"),
  (.«TensorProduct», c!"TensorProduct"),
  (.«Divide», c!"Divide"),
  (.«Quotient», c!"Quotient"),
  (.«Modulo», c!"Modulo"),
  (.«Remainder», c!"Remainder"),
  (.«Power», c!"Power"),
  (.«Surd», c!"Surd"),
  (.«Increase», c!"Increase"),
  (.«Decrease», c!"Decrease"),
  (.«To», c!"To"),
  (.«Elvis», c!"Elvis"),
  (.«Map», c!"Map"),
  (.«Quote», c!"Quote"),
  (.«Acute», c!"Acute"),
  (.«Apostrophe», c!"Apostrophe"),
  (.«Quotation», c!"Quotation"),
  (.«LogicOr», c!"LogicOr"),
  (.«LogicAnd», c!"LogicAnd"),
  (.«LogicNot», c!"LogicNot"),
  (.«Ellipsis», c!"Ellipsis"),
  (.«LogicXor», c!"LogicXor"),
  (.«MapAll», c!"MapAll"),
  (.«Concat», c!"Concat"),
  (.«Destruct», c!"Destruct"),
  (.«DoubleBang», c!"DoubleBang"),
  (.«Bang», c!"Bang"),
  (.«Not», c!"Not"),
  (.«Sharp», c!"Sharp"),
  (.«Curry», c!"Curry"),
  (.«Apply», c!"Apply"),
  (.«At», c!"At")]

/-- The place of a rule in the declaration (derived `Ord`, `sm_parser.rs:3`). -/
def R.place (r : R) : Nat := ruleNames.findIdx (·.1 == r)

/-- The name of a rule (derived `Debug`, `sm_parser.rs:3`). -/
def R.name (r : R) : Str := ((ruleNames.find? (·.1 == r)).map (·.2)).getD []

/-- Insertion into a list that is sorted, as far as the result of `sort` is concerned. -/
def insertRule (r : R) : List R → List R
  | [] => [r]
  | x :: l => if r.place ≤ x.place then r :: x :: l else x :: insertRule r l

/-- `Vec::sort`. -/
def sortRules : List R → List R
  | [] => []
  | r :: l => insertRule r (sortRules l)

/-- `Vec::dedup`. -/
def dedupRules : List R → List R
  | [] => []
  | [r] => [r]
  | r :: x :: l => if r = x then dedupRules (x :: l) else r :: dedupRules (x :: l)

/-- `Error::enumerate`, from three rules on: all but the last one are followed by a comma. -/
def separated : List R → Str
  | [] => []
  | [r] => c!"or " ++ r.name
  | r :: l => r.name ++ (c!", " ++ separated l)

/-- `Error::enumerate`. -/
def enumerate : List R → Str
  | [r] => r.name
  | [r, x] => r.name ++ (c!" or " ++ x.name)
  | l => separated l

/-- `Error::parsing_error_message` of the record, whose lists `state` sorts and frees of repetitions. -/
def Tries.sentence (a : Tries R) : Str :=
  let positives := dedupRules (sortRules a.wanted)
  let negatives := dedupRules (sortRules a.unwanted)
  match negatives.isEmpty, positives.isEmpty with
  | false, false => c!"unexpected " ++ (enumerate negatives ++ (c!"; expected " ++ enumerate positives))
  | false, true => c!"unexpected " ++ enumerate negatives
  | true, false => c!"expected " ++ enumerate positives
  | true, true => c!"unknown parsing error"

/-- What the error says of a text that is refused. -/
def errorSentence (u : Uni) (input : Str) : Option Str := (smRefusal u .program input).map Tries.sentence

end SM.Peg
