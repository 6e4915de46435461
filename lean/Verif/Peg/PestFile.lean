import Verif.Peg.Engine
import Verif.Peg.Grammar
/-
The grammar file `projects/sm-parser/simple-math.pest`, transcribed mechanically, one definition per rule.  Each
definition cites its lines.  `a ⬝ b` is written `a ~ b` in the file, `a ‖ b` is written `a|b`; comments are left out.
-/
namespace SM.Peg

/-- Sets of characters that the built-in rules stand for. -/
inductive Chars where
  /-- `ANY` -/
  | any
  /-- `'a'..'b'` -/
  | range (a b : Char)
  /-- a Unicode property -/
  | uni (p : Uc)
  deriving DecidableEq

/-- Grammar expressions. -/
inductive GE where
  /-- a rule's name -/
  | ref (r : R)
  /-- `"x"` -/
  | str (x : Str)
  /-- `^"x"` -/
  | insens (x : Str)
  /-- one character of a set -/
  | chr (s : Chars)
  /-- start of the text -/
  | soi
  /-- end of the text -/
  | eoi
  /-- the text on top of the stack -/
  | peek
  /-- the text on top of the stack, which is removed -/
  | pop
  /-- `a ~ b` -/
  | seq (a b : GE)
  /-- `a|b` -/
  | alt (a b : GE)
  /-- `e?` -/
  | opt (e : GE)
  /-- `e*` -/
  | star (e : GE)
  /-- `e+` -/
  | plus (e : GE)
  /-- `e{n}` -/
  | times (n : Nat) (e : GE)
  /-- `!e` -/
  | not (e : GE)
  /-- `PUSH(e)` -/
  | push (e : GE)
  deriving DecidableEq

@[inherit_doc] scoped infixr:67 " ⬝ " => GE.seq
@[inherit_doc] scoped infixr:65 " ‖ " => GE.alt

/-- The kinds of rules: `r = {…}`, `r = _{…}`, `r = @{…}`, `r = ${…}`, `r = !{…}`. -/
inductive Kind where
  | normal
  | silent
  | atomic
  | compound
  | nonAtomic
  deriving DecidableEq

/-- simple-math.pest:1 `program`. -/
def pest_program : GE :=
  .ref .SOI ⬝ .star (.ref .statement) ⬝ .ref .EOI

/-- simple-math.pest:3-14 `statement`. -/
def pest_statement : GE :=
  .ref .emptyStatement ‖ .ref .importStatement ⬝ .opt (.ref .eos) ‖ .ref .classStatement ⬝ .opt (.ref .eos) ‖
    .ref .traitStatement ⬝ .opt (.ref .eos) ‖ .ref .extendStatement ⬝ .opt (.ref .eos) ‖ .ref .controlFlow ⬝
    .opt (.ref .eos) ‖ .ref .assignStatement ⬝ .opt (.ref .eos) ‖ .ref .defineStatement ⬝ .opt (.ref .eos) ‖
    .ref .annotation ⬝ .opt (.ref .eos) ‖ .ref .expression

/-- simple-math.pest:16 `emptyStatement`. -/
def pest_emptyStatement : GE :=
  .ref .eos ‖ .ref .Separate

/-- simple-math.pest:17 `eos`. -/
def pest_eos : GE :=
  .ref .Semicolon

/-- simple-math.pest:18 `comma_or_semi`. -/
def pest_comma_or_semi : GE :=
  .ref .Comma ‖ .ref .Semicolon

/-- simple-math.pest:19 `block_or_stmt`. -/
def pest_block_or_stmt : GE :=
  .ref .«block» ‖ .ref .Set ⬝ .ref .statement

/-- simple-math.pest:22-25 `importStatement`. -/
def pest_importStatement : GE :=
  .str c!"using" ⬝ .star (.ref .Dot) ⬝ .ref .use_alias ‖ .str c!"using" ⬝ .star (.ref .Dot) ⬝ .ref
    .use_module_select

/-- simple-math.pest:26 `use_alias`. -/
def pest_use_alias : GE :=
  .ref .String ⬝ .ref .As ⬝ .ref .SYMBOL ‖ .ref .SYMBOL ⬝ .star (.ref .ModuleSplit ⬝ .ref .SYMBOL) ⬝ .ref .As
    ⬝ .ref .SYMBOL

/-- simple-math.pest:27 `use_module_select`. -/
def pest_use_module_select : GE :=
  .ref .SYMBOL ⬝ .star (.ref .ModuleSplit ⬝ .ref .SYMBOL) ⬝ .opt (.ref .ModuleSplit ⬝ (.ref .module_block ‖
    .ref .Star))

/-- simple-math.pest:28 `module_block`. -/
def pest_module_block : GE :=
  .str c!"{" ⬝ .ref .module_tuple ⬝ .star (.opt (.ref .comma_or_semi) ⬝ .ref .module_tuple) ⬝ .opt (.ref
    .comma_or_semi) ⬝ .str c!"}"

/-- simple-math.pest:29 `module_tuple`. -/
def pest_module_tuple : GE :=
  .ref .use_alias ‖ .ref .use_module_select

/-- simple-math.pest:30 `ModuleSplit`. -/
def pest_ModuleSplit : GE :=
  .ref .Dot ‖ .ref .Proportion

/-- simple-math.pest:32 `As`. -/
def pest_As : GE :=
  .str c!"as"

/-- simple-math.pest:34 `controlFlow`. -/
def pest_controlFlow : GE :=
  .ref .re_control ‖ .ref .if_statement ‖ .ref .for_statement

/-- simple-math.pest:35 `block`. -/
def pest_block : GE :=
  .str c!"{" ⬝ .plus (.ref .statement) ⬝ .str c!"}"

/-- simple-math.pest:37-42 `if_statement`. -/
def pest_if_statement : GE :=
  .str c!"if" ⬝ (.str c!"(" ⬝ .ref .expr ⬝ .str c!")" ‖ .ref .expr) ⬝ ((.str c!"then" ⬝ .ref .«block») ⬝ .opt
    (.str c!"else" ⬝ .ref .«block») ⬝ .opt (.str c!"otherwise" ⬝ .ref .«block») ‖ .str c!"{" ⬝ .ref .statement
    ⬝ .opt (.ref .Comma ⬝ .ref .statement) ⬝ .opt (.ref .Comma ⬝ .ref .statement) ⬝ .opt (.ref .Comma) ⬝ .str
    c!"}")

/-- simple-math.pest:44 `for_statement`. -/
def pest_for_statement : GE :=
  .str c!"for" ⬝ .ref .for_in_loop

/-- simple-math.pest:45 `for_in_loop`. -/
def pest_for_in_loop : GE :=
  .ref .SYMBOL ⬝ .str c!"in" ⬝ .ref .expr ⬝ .ref .«block»

/-- simple-math.pest:48-52 `re_control`. -/
def pest_re_control : GE :=
  .ref .Return ⬝ .ref .expr ‖ .ref .Break ‖ .ref .Pass

/-- simple-math.pest:55 `Return`. -/
def pest_Return : GE :=
  .str c!"return"

/-- simple-math.pest:56 `Yield`. -/
def pest_Yield : GE :=
  .str c!"yield"

/-- simple-math.pest:57 `Break`. -/
def pest_Break : GE :=
  .str c!"break"

/-- simple-math.pest:58 `Pass`. -/
def pest_Pass : GE :=
  .str c!"pass"

/-- simple-math.pest:61 `Type`. -/
def pest_Type : GE :=
  .str c!"type"

/-- simple-math.pest:63 `classStatement`. -/
def pest_classStatement : GE :=
  .str c!"class" ⬝ .ref .assign_pair ⬝ .opt (.ref .short_block)

/-- simple-math.pest:64 `traitStatement`. -/
def pest_traitStatement : GE :=
  .str c!"trait" ⬝ .ref .assign_pair ⬝ .opt (.ref .short_block)

/-- simple-math.pest:66 `short_block`. -/
def pest_short_block : GE :=
  .str c!"{" ⬝ .star (.ref .short_statement) ⬝ .str c!"}"

/-- simple-math.pest:67-72 `short_statement`. -/
def pest_short_statement : GE :=
  .ref .emptyStatement ‖ .opt (.str c!"def") ⬝ .ref .define_terms ⬝ .opt (.ref .eos) ‖ .opt (.str c!"let") ⬝
    .ref .assign_terms ⬝ .opt (.ref .eos) ‖ .ref .short_annotation ⬝ .opt (.ref .eos)

/-- simple-math.pest:73 `short_annotation`. -/
def pest_short_annotation : GE :=
  .plus (.ref .annotation_call) ⬝ .ref .short_statement

/-- simple-math.pest:75-77 `extendStatement`. -/
def pest_extendStatement : GE :=
  .str c!"extends" ⬝ .ref .Symbol ⬝ .opt (.ref .with_trait) ⬝ .ref .short_block

/-- simple-math.pest:78 `with_trait`. -/
def pest_with_trait : GE :=
  .str c!"with" ⬝ .ref .Symbol

/-- simple-math.pest:81 `assignStatement`. -/
def pest_assignStatement : GE :=
  .str c!"let" ⬝ .ref .assign_terms

/-- simple-math.pest:82-85 `assign_terms`. -/
def pest_assign_terms : GE :=
  .str c!"(" ⬝ .ref .assign_name ⬝ .str c!")" ⬝ .opt (.ref .type_hint) ⬝ .opt (.ref .block_or_stmt) ‖ .ref
    .assign_name ⬝ .opt (.ref .type_hint) ⬝ .opt (.ref .block_or_stmt)

/-- simple-math.pest:86 `assign_name`. -/
def pest_assign_name : GE :=
  .ref .assign_pair ⬝ .star (.ref .Comma ⬝ .ref .assign_pair) ⬝ .opt (.ref .Comma)

/-- simple-math.pest:87 `assign_pair`. -/
def pest_assign_pair : GE :=
  .ref .Symbol

/-- simple-math.pest:89 `defineStatement`. -/
def pest_defineStatement : GE :=
  .str c!"def" ⬝ .ref .define_terms

/-- simple-math.pest:90-92 `define_terms`. -/
def pest_define_terms : GE :=
  .ref .assign_pair ⬝ .ref .define_parameter ⬝ .opt (.ref .type_hint) ⬝ .opt (.ref .block_or_stmt)

/-- simple-math.pest:93-96 `define_parameter`. -/
def pest_define_parameter : GE :=
  .str c!"(" ⬝ .ref .define_pair ⬝ .star (.ref .Comma ⬝ .ref .define_pair) ⬝ .opt (.ref .Comma) ⬝ .str c!")" ‖
    .str c!"(" ⬝ .str c!")"

/-- simple-math.pest:97 `define_pair`. -/
def pest_define_pair : GE :=
  .ref .SYMBOL ⬝ .opt (.ref .type_hint) ⬝ .opt (.ref .Set ⬝ .ref .expr)

/-- simple-math.pest:100 `annotation`. -/
def pest_annotation : GE :=
  .plus (.ref .annotation_call) ⬝ .ref .statement

/-- simple-math.pest:101 `annotation_call`. -/
def pest_annotation_call : GE :=
  .ref .At ⬝ (.ref .list ‖ .ref .apply ‖ .ref .Symbol)

/-- simple-math.pest:103-105 `apply`. -/
def pest_apply : GE :=
  .str c!"(" ⬝ .opt (.ref .apply_kv) ⬝ .star (.ref .Comma ⬝ .ref .apply_kv) ⬝ .opt (.ref .Comma) ⬝ .str c!")"

/-- simple-math.pest:106 `apply_kv`. -/
def pest_apply_kv : GE :=
  .ref .SYMBOL ⬝ .ref .Colon ⬝ .ref .expr ‖ .ref .expr

/-- simple-math.pest:111 `function_name`. -/
def pest_function_name : GE :=
  .ref .SYMBOL

/-- simple-math.pest:112 `function_module`. -/
def pest_function_module : GE :=
  .ref .Dot ⬝ .star (.ref .SYMBOL ⬝ .ref .Dot)

/-- simple-math.pest:114 `expression`. -/
def pest_expression : GE :=
  .ref .expr ⬝ .opt (.ref .eos)

/-- simple-math.pest:115 `expr`. -/
def pest_expr : GE :=
  .ref .term ⬝ .star (.ref .Infix ⬝ .ref .term)

/-- simple-math.pest:116 `term`. -/
def pest_term : GE :=
  .star (.ref .Prefix) ⬝ .ref .node ⬝ .star (.ref .Suffix ‖ .star (.not (.ref .NEWLINE) ⬝ .ref .WHITESPACE) ⬝
    .ref .slice)

/-- simple-math.pest:117 `node`. -/
def pest_node : GE :=
  .str c!"(" ⬝ .ref .expr ⬝ .str c!")" ‖ .ref .apply_call ‖ .ref .derivative ‖ .ref .space_call ‖ .ref .data

/-- simple-math.pest:118 `apply_call`. -/
def pest_apply_call : GE :=
  .ref .Symbol ⬝ .plus (.star (.not (.ref .NEWLINE) ⬝ .ref .WHITESPACE) ⬝ .ref .apply)

/-- simple-math.pest:119 `derivative`. -/
def pest_derivative : GE :=
  .ref .Symbol ⬝ .ref .Derivative ⬝ .star (.not (.ref .NEWLINE) ⬝ .ref .WHITESPACE) ⬝ .ref .apply

/-- simple-math.pest:120 `space_call`. -/
def pest_space_call : GE :=
  (.ref .apply_call ‖ .ref .Number ‖ .ref .Symbol) ⬝ .plus (.star (.not (.ref .NEWLINE) ⬝ .ref .WHITESPACE) ⬝
    (.ref .apply_call ‖ .ref .Number ‖ .ref .Symbol))

/-- simple-math.pest:123 `type_expr`. -/
def pest_type_expr : GE :=
  .ref .term ⬝ .star (.ref .TypeInfix ⬝ .ref .term)

/-- simple-math.pest:126 `type_hint`. -/
def pest_type_hint : GE :=
  .ref .Colon ⬝ .ref .type_expr

/-- simple-math.pest:130 `TypeInfix`. -/
def pest_TypeInfix : GE :=
  .ref .Or

/-- simple-math.pest:132 `data`. -/
def pest_data : GE :=
  .ref .dict ‖ .ref .list ‖ .ref .Special ‖ .ref .REPL ‖ .ref .Slot ‖ .ref .Number ‖ .ref .String ‖ .ref
    .Symbol

/-- simple-math.pest:133 `dict`. -/
def pest_dict : GE :=
  .str c!"{" ⬝ .str c!"}" ‖ .str c!"{" ⬝ .ref .key_value ⬝ .star (.ref .Comma ⬝ .ref .key_value) ⬝ .opt (.ref
    .Comma) ⬝ .str c!"}"

/-- simple-math.pest:134 `list`. -/
def pest_list : GE :=
  .str c!"[" ⬝ .str c!"]" ‖ .str c!"[" ⬝ .ref .expr ⬝ .star (.ref .Comma ⬝ .ref .expr) ⬝ .opt (.ref .Comma) ⬝
    .str c!"]"

/-- simple-math.pest:135 `slice`. -/
def pest_slice : GE :=
  .str c!"[" ⬝ .ref .index ⬝ .star (.ref .Comma ⬝ .ref .index) ⬝ .opt (.ref .Comma) ⬝ .str c!"]"

/-- simple-math.pest:136 `key_valid`. -/
def pest_key_valid : GE :=
  .ref .Integer ‖ .ref .SYMBOL ‖ .ref .String

/-- simple-math.pest:137 `key_value`. -/
def pest_key_value : GE :=
  .ref .key_valid ⬝ .ref .Colon ⬝ .ref .expr

/-- simple-math.pest:138-142 `index`. -/
def pest_index : GE :=
  .opt (.ref .Start) ⬝ .ref .Colon ⬝ .opt (.ref .End) ⬝ .ref .Colon ⬝ .opt (.ref .Step) ‖ .opt (.ref .Start) ⬝
    .ref .Colon ⬝ .opt (.ref .End) ‖ .ref .expr

/-- simple-math.pest:143 `Start`. -/
def pest_Start : GE :=
  .ref .expr

/-- simple-math.pest:144 `End`. -/
def pest_End : GE :=
  .ref .expr

/-- simple-math.pest:145 `Step`. -/
def pest_Step : GE :=
  .ref .expr

/-- simple-math.pest:148 `Number`. -/
def pest_Number : GE :=
  .ref .Byte ‖ .ref .Decimal ‖ .ref .Integer

/-- simple-math.pest:149 `Decimal`. -/
def pest_Decimal : GE :=
  .ref .Integer ⬝ .ref .Dot ⬝ .ref .Integer

/-- simple-math.pest:150 `Integer`. -/
def pest_Integer : GE :=
  .str c!"0" ‖ .ref .Positive

/-- simple-math.pest:151-155 `Byte`. -/
def pest_Byte : GE :=
  .insens c!"0b" ⬝ .plus (.opt (.ref .Underline) ⬝ .ref .ASCII_BIN_DIGIT) ‖ .insens c!"0o" ⬝ .plus (.opt (.ref
    .Underline) ⬝ .ref .ASCII_OCT_DIGIT) ‖ .insens c!"0x" ⬝ .plus (.opt (.ref .Underline) ⬝ .ref
    .ASCII_HEX_DIGIT)

/-- simple-math.pest:158 `String`. -/
def pest_String : GE :=
  .opt (.ref .SYMBOL) ⬝ (.ref .StringBlock ‖ .ref .StringNormal)

/-- simple-math.pest:159 `StringNormal`. -/
def pest_StringNormal : GE :=
  .ref .Quotation ⬝ .star (.ref .Escape ⬝ (.ref .Quotation ‖ .ref .Escape) ‖ .not (.ref .Quotation) ⬝ .ref
    .ANY) ⬝ .ref .Quotation

/-- simple-math.pest:160 `StringBlock`. -/
def pest_StringBlock : GE :=
  .times 3 (.ref .Quotation) ⬝ .push (.star (.ref .Quotation)) ⬝ .ref .StringText ⬝ .ref .POP ⬝ .times 3 (.ref
    .Quotation)

/-- simple-math.pest:161 `StringText`. -/
def pest_StringText : GE :=
  .plus (.not (.times 3 (.ref .Quotation) ⬝ .ref .PEEK) ⬝ .ref .ANY)

/-- simple-math.pest:164 `Symbol`. -/
def pest_Symbol : GE :=
  .ref .SYMBOL ⬝ .star (.ref .Proportion ⬝ .ref .SYMBOL)

/-- simple-math.pest:165-168 `SYMBOL`. -/
def pest_SYMBOL : GE :=
  .ref .XID_START ⬝ .star (.ref .XID_CONTINUE) ‖ .ref .Underline ⬝ .plus (.ref .XID_CONTINUE)

/-- simple-math.pest:171 `Special`. -/
def pest_Special : GE :=
  .str c!"null" ‖ .str c!"true" ‖ .str c!"false"

/-- simple-math.pest:172 `Slot`. -/
def pest_Slot : GE :=
  .str c!"##" ⬝ .opt (.ref .Positive) ‖ .str c!"#" ⬝ .opt (.ref .SYMBOL ‖ .ref .Integer)

/-- simple-math.pest:173 `REPL`. -/
def pest_REPL : GE :=
  .str c!"¶" ⬝ .ref .Positive ‖ .plus (.str c!"¶") ‖ .str c!"⁋" ⬝ .ref .Positive ‖ .plus (.str c!"⁋")

/-- simple-math.pest:174 `Positive`. -/
def pest_Positive : GE :=
  .ref .ASCII_NONZERO_DIGIT ⬝ .star (.ref .ASCII_DIGIT)

/-- simple-math.pest:177 `WHITESPACE`. -/
def pest_WHITESPACE : GE :=
  .ref .NEWLINE ‖ .ref .WHITE_SPACE

/-- simple-math.pest:178-184 `COMMENT`. -/
def pest_COMMENT : GE :=
  .ref .MultiLineComment ‖ .str c!"///" ⬝ .star (.not (.ref .NEWLINE) ⬝ .ref .ANY) ‖ .str c!"//?" ⬝ .star
    (.not (.ref .NEWLINE) ⬝ .ref .ANY) ‖ .str c!"//!" ⬝ .star (.not (.ref .NEWLINE) ⬝ .ref .ANY) ‖ .str
    c!"//*" ⬝ .star (.not (.ref .NEWLINE) ⬝ .ref .ANY)

/-- simple-math.pest:185 `MultiLineComment`. -/
def pest_MultiLineComment : GE :=
  .str c!"%%%" ⬝ .star (.ref .MultiLineComment ‖ .not (.str c!"%%%") ⬝ .ref .ANY) ⬝ .str c!"%%%"

/-- simple-math.pest:188-190 `Prefix`. -/
def pest_Prefix : GE :=
  .ref .Bang ‖ .ref .Not ‖ .ref .Plus ‖ .ref .Minus ‖ .ref .Star

/-- simple-math.pest:191-195 `Suffix`. -/
def pest_Suffix : GE :=
  .ref .Derivative ‖ .ref .DoubleBang ‖ .ref .Bang ‖ .ref .Question

/-- simple-math.pest:196-203 `Infix`. -/
def pest_Infix : GE :=
  .ref .Set ‖ .ref .Plus ‖ .ref .Minus ‖ .ref .Multiply ‖ .ref .CenterDot ‖ .ref .Kronecker ‖ .ref
    .TensorProduct ‖ .ref .Divide ‖ .ref .Quotient ‖ .ref .Modulo ‖ .ref .Power ‖ .ref .Grater ‖ .ref
    .GraterEqual ‖ .ref .Equal ‖ .ref .Dot

/-- simple-math.pest:206 `Set`. -/
def pest_Set : GE :=
  .str c!"="

/-- simple-math.pest:207 `Derivative`. -/
def pest_Derivative : GE :=
  .plus (.str c!"'")

/-- simple-math.pest:208 `Or`. -/
def pest_Or : GE :=
  .str c!"|"

/-- simple-math.pest:209 `LazyOr`. -/
def pest_LazyOr : GE :=
  .str c!"||"

/-- simple-math.pest:212 `Star`. -/
def pest_Star : GE :=
  .str c!"*"

/-- simple-math.pest:213 `Slash`. -/
def pest_Slash : GE :=
  .str c!"/"

/-- simple-math.pest:214 `Escape`. -/
def pest_Escape : GE :=
  .str c!"\\"

/-- simple-math.pest:216 `Proportion`. -/
def pest_Proportion : GE :=
  .str c!"::" ‖ .str c!"∷"

/-- simple-math.pest:217 `Comma`. -/
def pest_Comma : GE :=
  .str c!"," ‖ .str c!"，"

/-- simple-math.pest:218 `Dot`. -/
def pest_Dot : GE :=
  .str c!"."

/-- simple-math.pest:219 `Separate`. -/
def pest_Separate : GE :=
  .str c!";;"

/-- simple-math.pest:220 `Semicolon`. -/
def pest_Semicolon : GE :=
  .str c!";" ‖ .str c!"；"

/-- simple-math.pest:221 `Colon`. -/
def pest_Colon : GE :=
  .str c!":" ‖ .str c!"："

/-- simple-math.pest:223 `Question`. -/
def pest_Question : GE :=
  .str c!"?"

/-- simple-math.pest:224 `Underline`. -/
def pest_Underline : GE :=
  .str c!"_"

/-- simple-math.pest:228 `Load`. -/
def pest_Load : GE :=
  .str c!"<<<" ‖ .str c!"⋘"

/-- simple-math.pest:229 `Save`. -/
def pest_Save : GE :=
  .str c!">>>" ‖ .str c!"⋙"

/-- simple-math.pest:230 `LeftShift`. -/
def pest_LeftShift : GE :=
  .str c!"<<" ‖ .str c!"≪"

/-- simple-math.pest:231 `RightShift`. -/
def pest_RightShift : GE :=
  .str c!">>" ‖ .str c!"≫"

/-- simple-math.pest:232 `LessEqual`. -/
def pest_LessEqual : GE :=
  .str c!"<="

/-- simple-math.pest:233 `GraterEqual`. -/
def pest_GraterEqual : GE :=
  .str c!">="

/-- simple-math.pest:234 `Less`. -/
def pest_Less : GE :=
  .str c!"<"

/-- simple-math.pest:235 `Grater`. -/
def pest_Grater : GE :=
  .str c!">"

/-- simple-math.pest:236 `Pipeline`. -/
def pest_Pipeline : GE :=
  .str c!"|>"

/-- simple-math.pest:239 `Equivalent`. -/
def pest_Equivalent : GE :=
  .str c!"==="

/-- simple-math.pest:240 `NotEquivalent`. -/
def pest_NotEquivalent : GE :=
  .str c!"=!="

/-- simple-math.pest:241 `Equal`. -/
def pest_Equal : GE :=
  .str c!"=="

/-- simple-math.pest:242 `NotEqual`. -/
def pest_NotEqual : GE :=
  .str c!"!=" ‖ .str c!"≠"

/-- simple-math.pest:250 `Plus`. -/
def pest_Plus : GE :=
  .str c!"+"

/-- simple-math.pest:251 `Minus`. -/
def pest_Minus : GE :=
  .str c!"-"

/-- simple-math.pest:255 `Multiply`. -/
def pest_Multiply : GE :=
  .ref .Star ‖ .str c!"×"

/-- simple-math.pest:256 `CenterDot`. -/
def pest_CenterDot : GE :=
  .str c!"⋅"

/-- simple-math.pest:257 `Kronecker`. -/
def pest_Kronecker : GE :=
  .str c!"⊗"

/-- simple-math.pest:258 `TensorProduct`. -/
def pest_TensorProduct : GE :=
  .str c!"⊙"

/-- simple-math.pest:259 `Divide`. -/
def pest_Divide : GE :=
  .ref .Slash ‖ .str c!"÷"

/-- simple-math.pest:260 `Quotient`. -/
def pest_Quotient : GE :=
  .str c!"//"

/-- simple-math.pest:261 `Modulo`. -/
def pest_Modulo : GE :=
  .str c!"%"

/-- simple-math.pest:262 `Remainder`. -/
def pest_Remainder : GE :=
  .str c!"⁒"

/-- simple-math.pest:265 `Power`. -/
def pest_Power : GE :=
  .str c!"^"

/-- simple-math.pest:266 `Surd`. -/
def pest_Surd : GE :=
  .str c!"√"

/-- simple-math.pest:269 `Increase`. -/
def pest_Increase : GE :=
  .str c!"++"

/-- simple-math.pest:270 `Decrease`. -/
def pest_Decrease : GE :=
  .str c!"--"

/-- simple-math.pest:273 `To`. -/
def pest_To : GE :=
  .str c!"->"

/-- simple-math.pest:276 `Elvis`. -/
def pest_Elvis : GE :=
  .str c!":?"

/-- simple-math.pest:277 `Map`. -/
def pest_Map : GE :=
  .str c!"/@"

/-- simple-math.pest:280 `Quote`. -/
def pest_Quote : GE :=
  .str c!"`"

/-- simple-math.pest:281 `Acute`. -/
def pest_Acute : GE :=
  .str c!"´"

/-- simple-math.pest:282 `Apostrophe`. -/
def pest_Apostrophe : GE :=
  .str c!"'"

/-- simple-math.pest:283 `Quotation`. -/
def pest_Quotation : GE :=
  .str c!"\""

/-- simple-math.pest:286 `LogicOr`. -/
def pest_LogicOr : GE :=
  .str c!"||" ‖ .str c!"∧"

/-- simple-math.pest:287 `LogicAnd`. -/
def pest_LogicAnd : GE :=
  .str c!"&&" ‖ .str c!"∨"

/-- simple-math.pest:288 `LogicNot`. -/
def pest_LogicNot : GE :=
  .str c!"¬"

/-- simple-math.pest:290 `Ellipsis`. -/
def pest_Ellipsis : GE :=
  .str c!"..." ‖ .str c!"…"

/-- simple-math.pest:295 `LogicXor`. -/
def pest_LogicXor : GE :=
  .str c!"⊕"

/-- simple-math.pest:296 `MapAll`. -/
def pest_MapAll : GE :=
  .str c!"//@"

/-- simple-math.pest:298 `Concat`. -/
def pest_Concat : GE :=
  .str c!"~~"

/-- simple-math.pest:299 `Destruct`. -/
def pest_Destruct : GE :=
  .str c!"~="

/-- simple-math.pest:302 `DoubleBang`. -/
def pest_DoubleBang : GE :=
  .str c!"!!"

/-- simple-math.pest:303 `Bang`. -/
def pest_Bang : GE :=
  .str c!"!"

/-- simple-math.pest:304 `Not`. -/
def pest_Not : GE :=
  .str c!"¬"

/-- simple-math.pest:306 `Sharp`. -/
def pest_Sharp : GE :=
  .str c!"#"

/-- simple-math.pest:308 `Curry`. -/
def pest_Curry : GE :=
  .str c!"@@@"

/-- simple-math.pest:309 `Apply`. -/
def pest_Apply : GE :=
  .str c!"@@"

/-- simple-math.pest:310 `At`. -/
def pest_At : GE :=
  .str c!"@"

/-- The rules: those of the file, and those built into pest (`pest::Parser`, "Built-in rules").  `skip` is no rule. -/
def pest : R → Option (Kind × GE)
  | .skip => none
  | .program => some (.silent, pest_program)
  | .statement => some (.silent, pest_statement)
  | .emptyStatement => some (.normal, pest_emptyStatement)
  | .eos => some (.normal, pest_eos)
  | .comma_or_semi => some (.silent, pest_comma_or_semi)
  | .block_or_stmt => some (.silent, pest_block_or_stmt)
  | .importStatement => some (.normal, pest_importStatement)
  | .use_alias => some (.nonAtomic, pest_use_alias)
  | .use_module_select => some (.nonAtomic, pest_use_module_select)
  | .module_block => some (.normal, pest_module_block)
  | .module_tuple => some (.normal, pest_module_tuple)
  | .ModuleSplit => some (.silent, pest_ModuleSplit)
  | .As => some (.atomic, pest_As)
  | .controlFlow => some (.silent, pest_controlFlow)
  | .«block» => some (.nonAtomic, pest_block)
  | .if_statement => some (.normal, pest_if_statement)
  | .for_statement => some (.normal, pest_for_statement)
  | .for_in_loop => some (.normal, pest_for_in_loop)
  | .re_control => some (.normal, pest_re_control)
  | .Return => some (.atomic, pest_Return)
  | .Yield => some (.atomic, pest_Yield)
  | .Break => some (.atomic, pest_Break)
  | .Pass => some (.atomic, pest_Pass)
  | .«Type» => some (.atomic, pest_Type)
  | .classStatement => some (.normal, pest_classStatement)
  | .traitStatement => some (.normal, pest_traitStatement)
  | .short_block => some (.normal, pest_short_block)
  | .short_statement => some (.normal, pest_short_statement)
  | .short_annotation => some (.normal, pest_short_annotation)
  | .extendStatement => some (.normal, pest_extendStatement)
  | .with_trait => some (.normal, pest_with_trait)
  | .assignStatement => some (.normal, pest_assignStatement)
  | .assign_terms => some (.silent, pest_assign_terms)
  | .assign_name => some (.silent, pest_assign_name)
  | .assign_pair => some (.normal, pest_assign_pair)
  | .defineStatement => some (.normal, pest_defineStatement)
  | .define_terms => some (.silent, pest_define_terms)
  | .define_parameter => some (.normal, pest_define_parameter)
  | .define_pair => some (.normal, pest_define_pair)
  | .annotation => some (.normal, pest_annotation)
  | .annotation_call => some (.atomic, pest_annotation_call)
  | .apply => some (.nonAtomic, pest_apply)
  | .apply_kv => some (.normal, pest_apply_kv)
  | .function_name => some (.normal, pest_function_name)
  | .function_module => some (.normal, pest_function_module)
  | .expression => some (.normal, pest_expression)
  | .expr => some (.nonAtomic, pest_expr)
  | .term => some (.compound, pest_term)
  | .node => some (.normal, pest_node)
  | .apply_call => some (.compound, pest_apply_call)
  | .derivative => some (.compound, pest_derivative)
  | .space_call => some (.compound, pest_space_call)
  | .type_expr => some (.silent, pest_type_expr)
  | .type_hint => some (.normal, pest_type_hint)
  | .TypeInfix => some (.atomic, pest_TypeInfix)
  | .data => some (.compound, pest_data)
  | .dict => some (.nonAtomic, pest_dict)
  | .list => some (.nonAtomic, pest_list)
  | .slice => some (.nonAtomic, pest_slice)
  | .key_valid => some (.nonAtomic, pest_key_valid)
  | .key_value => some (.nonAtomic, pest_key_value)
  | .index => some (.normal, pest_index)
  | .Start => some (.normal, pest_Start)
  | .End => some (.normal, pest_End)
  | .Step => some (.normal, pest_Step)
  | .Number => some (.silent, pest_Number)
  | .Decimal => some (.compound, pest_Decimal)
  | .Integer => some (.atomic, pest_Integer)
  | .Byte => some (.compound, pest_Byte)
  | .String => some (.compound, pest_String)
  | .StringNormal => some (.atomic, pest_StringNormal)
  | .StringBlock => some (.compound, pest_StringBlock)
  | .StringText => some (.atomic, pest_StringText)
  | .Symbol => some (.compound, pest_Symbol)
  | .SYMBOL => some (.atomic, pest_SYMBOL)
  | .Special => some (.atomic, pest_Special)
  | .Slot => some (.compound, pest_Slot)
  | .REPL => some (.atomic, pest_REPL)
  | .Positive => some (.atomic, pest_Positive)
  | .WHITESPACE => some (.silent, pest_WHITESPACE)
  | .COMMENT => some (.silent, pest_COMMENT)
  | .MultiLineComment => some (.compound, pest_MultiLineComment)
  | .Prefix => some (.atomic, pest_Prefix)
  | .Suffix => some (.atomic, pest_Suffix)
  | .Infix => some (.silent, pest_Infix)
  | .Set => some (.atomic, pest_Set)
  | .Derivative => some (.atomic, pest_Derivative)
  | .Or => some (.atomic, pest_Or)
  | .LazyOr => some (.atomic, pest_LazyOr)
  | .Star => some (.atomic, pest_Star)
  | .Slash => some (.atomic, pest_Slash)
  | .Escape => some (.atomic, pest_Escape)
  | .Proportion => some (.atomic, pest_Proportion)
  | .Comma => some (.atomic, pest_Comma)
  | .Dot => some (.atomic, pest_Dot)
  | .Separate => some (.atomic, pest_Separate)
  | .Semicolon => some (.atomic, pest_Semicolon)
  | .Colon => some (.atomic, pest_Colon)
  | .Question => some (.atomic, pest_Question)
  | .Underline => some (.atomic, pest_Underline)
  | .Load => some (.atomic, pest_Load)
  | .Save => some (.atomic, pest_Save)
  | .LeftShift => some (.atomic, pest_LeftShift)
  | .RightShift => some (.atomic, pest_RightShift)
  | .LessEqual => some (.atomic, pest_LessEqual)
  | .GraterEqual => some (.atomic, pest_GraterEqual)
  | .Less => some (.atomic, pest_Less)
  | .Grater => some (.atomic, pest_Grater)
  | .Pipeline => some (.atomic, pest_Pipeline)
  | .Equivalent => some (.atomic, pest_Equivalent)
  | .NotEquivalent => some (.atomic, pest_NotEquivalent)
  | .Equal => some (.atomic, pest_Equal)
  | .NotEqual => some (.atomic, pest_NotEqual)
  | .Plus => some (.atomic, pest_Plus)
  | .Minus => some (.atomic, pest_Minus)
  | .Multiply => some (.atomic, pest_Multiply)
  | .CenterDot => some (.atomic, pest_CenterDot)
  | .Kronecker => some (.atomic, pest_Kronecker)
  | .TensorProduct => some (.atomic, pest_TensorProduct)
  | .Divide => some (.atomic, pest_Divide)
  | .Quotient => some (.atomic, pest_Quotient)
  | .Modulo => some (.atomic, pest_Modulo)
  | .Remainder => some (.atomic, pest_Remainder)
  | .Power => some (.atomic, pest_Power)
  | .Surd => some (.atomic, pest_Surd)
  | .Increase => some (.atomic, pest_Increase)
  | .Decrease => some (.atomic, pest_Decrease)
  | .To => some (.atomic, pest_To)
  | .Elvis => some (.atomic, pest_Elvis)
  | .Map => some (.atomic, pest_Map)
  | .Quote => some (.atomic, pest_Quote)
  | .Acute => some (.atomic, pest_Acute)
  | .Apostrophe => some (.atomic, pest_Apostrophe)
  | .Quotation => some (.atomic, pest_Quotation)
  | .LogicOr => some (.atomic, pest_LogicOr)
  | .LogicAnd => some (.atomic, pest_LogicAnd)
  | .LogicNot => some (.atomic, pest_LogicNot)
  | .Ellipsis => some (.atomic, pest_Ellipsis)
  | .LogicXor => some (.atomic, pest_LogicXor)
  | .MapAll => some (.atomic, pest_MapAll)
  | .Concat => some (.atomic, pest_Concat)
  | .Destruct => some (.atomic, pest_Destruct)
  | .DoubleBang => some (.atomic, pest_DoubleBang)
  | .Bang => some (.atomic, pest_Bang)
  | .Not => some (.atomic, pest_Not)
  | .Sharp => some (.atomic, pest_Sharp)
  | .Curry => some (.atomic, pest_Curry)
  | .Apply => some (.atomic, pest_Apply)
  | .At => some (.atomic, pest_At)
  | .ANY => some (.silent, .chr .any)
  | .EOI => some (.normal, .eoi)
  | .SOI => some (.silent, .soi)
  | .PEEK => some (.silent, .peek)
  | .POP => some (.silent, .pop)
  | .ASCII_DIGIT => some (.silent, .chr (.range '0' '9'))
  | .ASCII_NONZERO_DIGIT => some (.silent, .chr (.range '1' '9'))
  | .ASCII_BIN_DIGIT => some (.silent, .chr (.range '0' '1'))
  | .ASCII_OCT_DIGIT => some (.silent, .chr (.range '0' '7'))
  | .ASCII_HEX_DIGIT => some (.silent, .chr (.range '0' '9') ‖ .chr (.range 'a' 'f') ‖ .chr (.range 'A' 'F'))
  | .NEWLINE => some (.silent, .str c!"\n" ‖ .str c!"\r\n" ‖ .str c!"\r")
  | .WHITE_SPACE => some (.silent, .chr (.uni .whiteSpace))
  | .XID_CONTINUE => some (.silent, .chr (.uni .xidContinue))
  | .XID_START => some (.silent, .chr (.uni .xidStart))

end SM.Peg
