import Verif.Peg.Engine
/-
The parser functions of `projects/sm-parser/src/sm_parser.rs:159-984`, transcribed mechanically, one
definition per function.  Each definition cites the line of the function's body.
-/
namespace SM.Peg

/-- The parser functions: the rules of `sm_parser.rs:4-156`, `hidden::skip` and the built-in rules. -/
inductive R where
  | skip
  | program
  | statement
  | emptyStatement
  | eos
  | comma_or_semi
  | block_or_stmt
  | importStatement
  | use_alias
  | use_module_select
  | module_block
  | module_tuple
  | ModuleSplit
  | As
  | controlFlow
  | «block»
  | if_statement
  | for_statement
  | for_in_loop
  | re_control
  | Return
  | Yield
  | Break
  | Pass
  | «Type»
  | classStatement
  | traitStatement
  | short_block
  | short_statement
  | short_annotation
  | extendStatement
  | with_trait
  | assignStatement
  | assign_terms
  | assign_name
  | assign_pair
  | defineStatement
  | define_terms
  | define_parameter
  | define_pair
  | annotation
  | annotation_call
  | apply
  | apply_kv
  | function_name
  | function_module
  | expression
  | expr
  | term
  | node
  | apply_call
  | derivative
  | space_call
  | type_expr
  | type_hint
  | TypeInfix
  | data
  | dict
  | list
  | slice
  | key_valid
  | key_value
  | index
  | Start
  | End
  | Step
  | Number
  | Decimal
  | Integer
  | Byte
  | String
  | StringNormal
  | StringBlock
  | StringText
  | Symbol
  | SYMBOL
  | Special
  | Slot
  | REPL
  | Positive
  | WHITESPACE
  | COMMENT
  | MultiLineComment
  | Prefix
  | Suffix
  | Infix
  | Set
  | Derivative
  | Or
  | LazyOr
  | Star
  | Slash
  | Escape
  | Proportion
  | Comma
  | Dot
  | Separate
  | Semicolon
  | Colon
  | Question
  | Underline
  | Load
  | Save
  | LeftShift
  | RightShift
  | LessEqual
  | GraterEqual
  | Less
  | Grater
  | Pipeline
  | Equivalent
  | NotEquivalent
  | Equal
  | NotEqual
  | Plus
  | Minus
  | Multiply
  | CenterDot
  | Kronecker
  | TensorProduct
  | Divide
  | Quotient
  | Modulo
  | Remainder
  | Power
  | Surd
  | Increase
  | Decrease
  | To
  | Elvis
  | Map
  | Quote
  | Acute
  | Apostrophe
  | Quotation
  | LogicOr
  | LogicAnd
  | LogicNot
  | Ellipsis
  | LogicXor
  | MapAll
  | Concat
  | Destruct
  | DoubleBang
  | Bang
  | Not
  | Sharp
  | Curry
  | Apply
  | At
  | ANY
  | EOI
  | SOI
  | PEEK
  | POP
  | ASCII_DIGIT
  | ASCII_NONZERO_DIGIT
  | ASCII_BIN_DIGIT
  | ASCII_OCT_DIGIT
  | ASCII_HEX_DIGIT
  | NEWLINE
  | WHITE_SPACE
  | XID_CONTINUE
  | XID_START
  deriving DecidableEq, Repr

/-- sm_parser.rs:165 `skip`. -/
def body_skip : PE R :=
  .ifNon (.seq (.cat (.rep (.call .WHITESPACE)) (.rep (.seq (.cat (.call .COMMENT) (.rep (.call .WHITESPACE)))))))

/-- sm_parser.rs:173 `program`. -/
def body_program : PE R :=
  .seq (.cat (.cat (.cat (.cat (.call .SOI) (.call .skip)) (.seq (.opt (.cat (.restore (.call .statement)) (.rep (.seq (.cat (.call .skip) (.restore (.call .statement))))))))) (.call .skip)) (.call .EOI))

/-- sm_parser.rs:178 `statement`. -/
def body_statement : PE R :=
  .alt (.alt (.alt (.alt (.alt (.alt (.alt (.alt (.alt (.call .emptyStatement) (.restore (.seq (.cat (.cat (.call .importStatement) (.call .skip)) (.opt (.call .eos)))))) (.restore (.seq (.cat (.cat (.call .classStatement) (.call .skip)) (.opt (.call .eos)))))) (.restore (.seq (.cat (.cat (.call .traitStatement) (.call .skip)) (.opt (.call .eos)))))) (.restore (.seq (.cat (.cat (.call .extendStatement) (.call .skip)) (.opt (.call .eos)))))) (.restore (.seq (.cat (.cat (.call .controlFlow) (.call .skip)) (.opt (.call .eos)))))) (.restore (.seq (.cat (.cat (.call .assignStatement) (.call .skip)) (.opt (.call .eos)))))) (.restore (.seq (.cat (.cat (.call .defineStatement) (.call .skip)) (.opt (.call .eos)))))) (.restore (.seq (.cat (.cat (.call .annotation) (.call .skip)) (.opt (.call .eos)))))) (.restore (.call .expression))

/-- sm_parser.rs:183 `emptyStatement`. -/
def body_emptyStatement : PE R :=
  .rule .emptyStatement (.alt (.call .eos) (.call .Separate))

/-- sm_parser.rs:188 `eos`. -/
def body_eos : PE R :=
  .rule .eos (.call .Semicolon)

/-- sm_parser.rs:193 `comma_or_semi`. -/
def body_comma_or_semi : PE R :=
  .alt (.call .Comma) (.call .Semicolon)

/-- sm_parser.rs:198 `block_or_stmt`. -/
def body_block_or_stmt : PE R :=
  .alt (.restore (.call .«block»)) (.restore (.seq (.cat (.cat (.call .Set) (.call .skip)) (.call .statement))))

/-- sm_parser.rs:203 `importStatement`. -/
def body_importStatement : PE R :=
  .rule .importStatement (.seq (.cat (.cat (.cat (.cat (.str c!"using") (.call .skip)) (.seq (.opt (.cat (.call .Dot) (.rep (.seq (.cat (.call .skip) (.call .Dot)))))))) (.call .skip)) (.alt (.restore (.call .use_alias)) (.restore (.call .use_module_select)))))

/-- sm_parser.rs:208 `use_alias`. -/
def body_use_alias : PE R :=
  .atomic .non (.rule .use_alias (.alt (.restore (.seq (.cat (.cat (.cat (.cat (.call .String) (.call .skip)) (.call .As)) (.call .skip)) (.call .SYMBOL)))) (.seq (.cat (.cat (.cat (.cat (.cat (.cat (.call .SYMBOL) (.call .skip)) (.seq (.opt (.cat (.seq (.cat (.cat (.call .ModuleSplit) (.call .skip)) (.call .SYMBOL))) (.rep (.seq (.cat (.call .skip) (.seq (.cat (.cat (.call .ModuleSplit) (.call .skip)) (.call .SYMBOL)))))))))) (.call .skip)) (.call .As)) (.call .skip)) (.call .SYMBOL)))))

/-- sm_parser.rs:213 `use_module_select`. -/
def body_use_module_select : PE R :=
  .atomic .non (.rule .use_module_select (.seq (.cat (.cat (.cat (.cat (.call .SYMBOL) (.call .skip)) (.seq (.opt (.cat (.seq (.cat (.cat (.call .ModuleSplit) (.call .skip)) (.call .SYMBOL))) (.rep (.seq (.cat (.call .skip) (.seq (.cat (.cat (.call .ModuleSplit) (.call .skip)) (.call .SYMBOL)))))))))) (.call .skip)) (.opt (.seq (.cat (.cat (.call .ModuleSplit) (.call .skip)) (.alt (.restore (.call .module_block)) (.call .Star))))))))

/-- sm_parser.rs:218 `module_block`. -/
def body_module_block : PE R :=
  .rule .module_block (.seq (.cat (.cat (.cat (.cat (.cat (.cat (.cat (.cat (.str c!"{") (.call .skip)) (.call .module_tuple)) (.call .skip)) (.seq (.opt (.cat (.restore (.seq (.cat (.cat (.opt (.call .comma_or_semi)) (.call .skip)) (.call .module_tuple)))) (.rep (.seq (.cat (.call .skip) (.restore (.seq (.cat (.cat (.opt (.call .comma_or_semi)) (.call .skip)) (.call .module_tuple))))))))))) (.call .skip)) (.opt (.call .comma_or_semi))) (.call .skip)) (.str c!"}")))

/-- sm_parser.rs:223 `module_tuple`. -/
def body_module_tuple : PE R :=
  .rule .module_tuple (.alt (.restore (.call .use_alias)) (.restore (.call .use_module_select)))

/-- sm_parser.rs:228 `ModuleSplit`. -/
def body_ModuleSplit : PE R :=
  .alt (.call .Dot) (.call .Proportion)

/-- sm_parser.rs:233 `As`. -/
def body_As : PE R :=
  .rule .As (.atomic .atomic (.str c!"as"))

/-- sm_parser.rs:238 `controlFlow`. -/
def body_controlFlow : PE R :=
  .alt (.alt (.restore (.call .re_control)) (.restore (.call .if_statement))) (.restore (.call .for_statement))

/-- sm_parser.rs:243 `block`. -/
def body_block : PE R :=
  .atomic .non (.rule .«block» (.seq (.cat (.cat (.cat (.cat (.str c!"{") (.call .skip)) (.seq (.cat (.cat (.call .statement) (.call .skip)) (.seq (.opt (.cat (.restore (.call .statement)) (.rep (.seq (.cat (.call .skip) (.restore (.call .statement))))))))))) (.call .skip)) (.str c!"}"))))

/-- sm_parser.rs:248 `if_statement`. -/
def body_if_statement : PE R :=
  .rule .if_statement (.seq (.cat (.cat (.cat (.cat (.str c!"if") (.call .skip)) (.alt (.restore (.seq (.cat (.cat (.cat (.cat (.str c!"(") (.call .skip)) (.call .expr)) (.call .skip)) (.str c!")")))) (.restore (.call .expr)))) (.call .skip)) (.alt (.restore (.seq (.cat (.cat (.cat (.cat (.cat (.cat (.str c!"then") (.call .skip)) (.call .«block»)) (.call .skip)) (.opt (.restore (.seq (.cat (.cat (.str c!"else") (.call .skip)) (.call .«block»)))))) (.call .skip)) (.opt (.restore (.seq (.cat (.cat (.str c!"otherwise") (.call .skip)) (.call .«block»)))))))) (.restore (.seq (.cat (.cat (.cat (.cat (.cat (.cat (.cat (.cat (.cat (.cat (.str c!"{") (.call .skip)) (.call .statement)) (.call .skip)) (.opt (.restore (.seq (.cat (.cat (.call .Comma) (.call .skip)) (.call .statement)))))) (.call .skip)) (.opt (.restore (.seq (.cat (.cat (.call .Comma) (.call .skip)) (.call .statement)))))) (.call .skip)) (.opt (.call .Comma))) (.call .skip)) (.str c!"}")))))))

/-- sm_parser.rs:253 `for_statement`. -/
def body_for_statement : PE R :=
  .rule .for_statement (.seq (.cat (.cat (.str c!"for") (.call .skip)) (.call .for_in_loop)))

/-- sm_parser.rs:258 `for_in_loop`. -/
def body_for_in_loop : PE R :=
  .rule .for_in_loop (.seq (.cat (.cat (.cat (.cat (.cat (.cat (.call .SYMBOL) (.call .skip)) (.str c!"in")) (.call .skip)) (.call .expr)) (.call .skip)) (.call .«block»)))

/-- sm_parser.rs:263 `re_control`. -/
def body_re_control : PE R :=
  .rule .re_control (.alt (.alt (.restore (.seq (.cat (.cat (.call .Return) (.call .skip)) (.call .expr)))) (.call .Break)) (.call .Pass))

/-- sm_parser.rs:268 `Return`. -/
def body_Return : PE R :=
  .rule .Return (.atomic .atomic (.str c!"return"))

/-- sm_parser.rs:273 `Yield`. -/
def body_Yield : PE R :=
  .rule .Yield (.atomic .atomic (.str c!"yield"))

/-- sm_parser.rs:278 `Break`. -/
def body_Break : PE R :=
  .rule .Break (.atomic .atomic (.str c!"break"))

/-- sm_parser.rs:283 `Pass`. -/
def body_Pass : PE R :=
  .rule .Pass (.atomic .atomic (.str c!"pass"))

/-- sm_parser.rs:288 `Type`. -/
def body_Type : PE R :=
  .rule .«Type» (.atomic .atomic (.str c!"type"))

/-- sm_parser.rs:293 `classStatement`. -/
def body_classStatement : PE R :=
  .rule .classStatement (.seq (.cat (.cat (.cat (.cat (.str c!"class") (.call .skip)) (.call .assign_pair)) (.call .skip)) (.opt (.restore (.call .short_block)))))

/-- sm_parser.rs:298 `traitStatement`. -/
def body_traitStatement : PE R :=
  .rule .traitStatement (.seq (.cat (.cat (.cat (.cat (.str c!"trait") (.call .skip)) (.call .assign_pair)) (.call .skip)) (.opt (.restore (.call .short_block)))))

/-- sm_parser.rs:303 `short_block`. -/
def body_short_block : PE R :=
  .rule .short_block (.seq (.cat (.cat (.cat (.cat (.str c!"{") (.call .skip)) (.seq (.opt (.cat (.restore (.call .short_statement)) (.rep (.seq (.cat (.call .skip) (.restore (.call .short_statement))))))))) (.call .skip)) (.str c!"}")))

/-- sm_parser.rs:308 `short_statement`. -/
def body_short_statement : PE R :=
  .rule .short_statement (.alt (.alt (.alt (.call .emptyStatement) (.restore (.seq (.cat (.cat (.cat (.cat (.opt (.str c!"def")) (.call .skip)) (.call .define_terms)) (.call .skip)) (.opt (.call .eos)))))) (.restore (.seq (.cat (.cat (.cat (.cat (.opt (.str c!"let")) (.call .skip)) (.call .assign_terms)) (.call .skip)) (.opt (.call .eos)))))) (.restore (.seq (.cat (.cat (.call .short_annotation) (.call .skip)) (.opt (.call .eos))))))

/-- sm_parser.rs:313 `short_annotation`. -/
def body_short_annotation : PE R :=
  .rule .short_annotation (.seq (.cat (.cat (.seq (.cat (.cat (.call .annotation_call) (.call .skip)) (.seq (.opt (.cat (.restore (.call .annotation_call)) (.rep (.seq (.cat (.call .skip) (.restore (.call .annotation_call)))))))))) (.call .skip)) (.call .short_statement)))

/-- sm_parser.rs:318 `extendStatement`. -/
def body_extendStatement : PE R :=
  .rule .extendStatement (.seq (.cat (.cat (.cat (.cat (.cat (.cat (.str c!"extends") (.call .skip)) (.call .Symbol)) (.call .skip)) (.opt (.call .with_trait))) (.call .skip)) (.call .short_block)))

/-- sm_parser.rs:323 `with_trait`. -/
def body_with_trait : PE R :=
  .rule .with_trait (.seq (.cat (.cat (.str c!"with") (.call .skip)) (.call .Symbol)))

/-- sm_parser.rs:328 `assignStatement`. -/
def body_assignStatement : PE R :=
  .rule .assignStatement (.seq (.cat (.cat (.str c!"let") (.call .skip)) (.call .assign_terms)))

/-- sm_parser.rs:333 `assign_terms`. -/
def body_assign_terms : PE R :=
  .alt (.seq (.cat (.cat (.cat (.cat (.cat (.cat (.cat (.cat (.str c!"(") (.call .skip)) (.call .assign_name)) (.call .skip)) (.str c!")")) (.call .skip)) (.opt (.restore (.call .type_hint)))) (.call .skip)) (.opt (.restore (.call .block_or_stmt))))) (.seq (.cat (.cat (.cat (.cat (.call .assign_name) (.call .skip)) (.opt (.restore (.call .type_hint)))) (.call .skip)) (.opt (.restore (.call .block_or_stmt)))))

/-- sm_parser.rs:338 `assign_name`. -/
def body_assign_name : PE R :=
  .seq (.cat (.cat (.cat (.cat (.call .assign_pair) (.call .skip)) (.seq (.opt (.cat (.seq (.cat (.cat (.call .Comma) (.call .skip)) (.call .assign_pair))) (.rep (.seq (.cat (.call .skip) (.seq (.cat (.cat (.call .Comma) (.call .skip)) (.call .assign_pair)))))))))) (.call .skip)) (.opt (.call .Comma)))

/-- sm_parser.rs:343 `assign_pair`. -/
def body_assign_pair : PE R :=
  .rule .assign_pair (.call .Symbol)

/-- sm_parser.rs:348 `defineStatement`. -/
def body_defineStatement : PE R :=
  .rule .defineStatement (.seq (.cat (.cat (.str c!"def") (.call .skip)) (.call .define_terms)))

/-- sm_parser.rs:353 `define_terms`. -/
def body_define_terms : PE R :=
  .seq (.cat (.cat (.cat (.cat (.cat (.cat (.call .assign_pair) (.call .skip)) (.call .define_parameter)) (.call .skip)) (.opt (.restore (.call .type_hint)))) (.call .skip)) (.opt (.restore (.call .block_or_stmt))))

/-- sm_parser.rs:358 `define_parameter`. -/
def body_define_parameter : PE R :=
  .rule .define_parameter (.seq (.cat (.cat (.str c!"(") (.call .skip)) (.alt (.restore (.seq (.cat (.cat (.cat (.cat (.cat (.cat (.call .define_pair) (.call .skip)) (.seq (.opt (.cat (.restore (.seq (.cat (.cat (.call .Comma) (.call .skip)) (.call .define_pair)))) (.rep (.seq (.cat (.call .skip) (.restore (.seq (.cat (.cat (.call .Comma) (.call .skip)) (.call .define_pair))))))))))) (.call .skip)) (.opt (.call .Comma))) (.call .skip)) (.str c!")")))) (.str c!")"))))

/-- sm_parser.rs:363 `define_pair`. -/
def body_define_pair : PE R :=
  .rule .define_pair (.seq (.cat (.cat (.cat (.cat (.call .SYMBOL) (.call .skip)) (.opt (.restore (.call .type_hint)))) (.call .skip)) (.opt (.restore (.seq (.cat (.cat (.call .Set) (.call .skip)) (.call .expr)))))))

/-- sm_parser.rs:368 `annotation`. -/
def body_annotation : PE R :=
  .rule .annotation (.seq (.cat (.cat (.seq (.cat (.cat (.call .annotation_call) (.call .skip)) (.seq (.opt (.cat (.restore (.call .annotation_call)) (.rep (.seq (.cat (.call .skip) (.restore (.call .annotation_call)))))))))) (.call .skip)) (.call .statement)))

/-- sm_parser.rs:373 `annotation_call`. -/
def body_annotation_call : PE R :=
  .rule .annotation_call (.atomic .atomic (.seq (.cat (.call .At) (.alt (.alt (.restore (.call .list)) (.restore (.call .apply))) (.call .Symbol)))))

/-- sm_parser.rs:378 `apply`. -/
def body_apply : PE R :=
  .atomic .non (.rule .apply (.seq (.cat (.cat (.cat (.cat (.cat (.cat (.cat (.cat (.str c!"(") (.call .skip)) (.opt (.restore (.call .apply_kv)))) (.call .skip)) (.seq (.opt (.cat (.restore (.seq (.cat (.cat (.call .Comma) (.call .skip)) (.call .apply_kv)))) (.rep (.seq (.cat (.call .skip) (.restore (.seq (.cat (.cat (.call .Comma) (.call .skip)) (.call .apply_kv))))))))))) (.call .skip)) (.opt (.call .Comma))) (.call .skip)) (.str c!")"))))

/-- sm_parser.rs:383 `apply_kv`. -/
def body_apply_kv : PE R :=
  .rule .apply_kv (.alt (.restore (.seq (.cat (.cat (.cat (.cat (.call .SYMBOL) (.call .skip)) (.call .Colon)) (.call .skip)) (.call .expr)))) (.restore (.call .expr)))

/-- sm_parser.rs:388 `function_name`. -/
def body_function_name : PE R :=
  .rule .function_name (.call .SYMBOL)

/-- sm_parser.rs:393 `function_module`. -/
def body_function_module : PE R :=
  .rule .function_module (.seq (.cat (.cat (.call .Dot) (.call .skip)) (.seq (.opt (.cat (.seq (.cat (.cat (.call .SYMBOL) (.call .skip)) (.call .Dot))) (.rep (.seq (.cat (.call .skip) (.seq (.cat (.cat (.call .SYMBOL) (.call .skip)) (.call .Dot)))))))))))

/-- sm_parser.rs:398 `expression`. -/
def body_expression : PE R :=
  .rule .expression (.seq (.cat (.cat (.call .expr) (.call .skip)) (.opt (.call .eos))))

/-- sm_parser.rs:403 `expr`. -/
def body_expr : PE R :=
  .atomic .non (.rule .expr (.seq (.cat (.cat (.call .term) (.call .skip)) (.seq (.opt (.cat (.restore (.seq (.cat (.cat (.call .Infix) (.call .skip)) (.call .term)))) (.rep (.seq (.cat (.call .skip) (.restore (.seq (.cat (.cat (.call .Infix) (.call .skip)) (.call .term)))))))))))))

/-- sm_parser.rs:408 `term`. -/
def body_term : PE R :=
  .atomic .compound (.rule .term (.seq (.cat (.cat (.rep (.call .Prefix)) (.call .node)) (.rep (.alt (.call .Suffix) (.restore (.seq (.cat (.rep (.seq (.cat (.look false (.call .NEWLINE)) (.call .WHITESPACE)))) (.call .slice)))))))))

/-- sm_parser.rs:413 `node`. -/
def body_node : PE R :=
  .rule .node (.alt (.alt (.alt (.alt (.restore (.seq (.cat (.cat (.cat (.cat (.str c!"(") (.call .skip)) (.call .expr)) (.call .skip)) (.str c!")")))) (.restore (.call .apply_call))) (.restore (.call .derivative))) (.restore (.call .space_call))) (.restore (.call .data)))

/-- sm_parser.rs:418 `apply_call`. -/
def body_apply_call : PE R :=
  .atomic .compound (.rule .apply_call (.seq (.cat (.cat (.call .Symbol) (.seq (.cat (.rep (.seq (.cat (.look false (.call .NEWLINE)) (.call .WHITESPACE)))) (.call .apply)))) (.rep (.restore (.seq (.cat (.rep (.seq (.cat (.look false (.call .NEWLINE)) (.call .WHITESPACE)))) (.call .apply))))))))

/-- sm_parser.rs:423 `derivative`. -/
def body_derivative : PE R :=
  .atomic .compound (.rule .derivative (.seq (.cat (.cat (.cat (.call .Symbol) (.call .Derivative)) (.rep (.seq (.cat (.look false (.call .NEWLINE)) (.call .WHITESPACE))))) (.call .apply))))

/-- sm_parser.rs:428 `space_call`. -/
def body_space_call : PE R :=
  .atomic .compound (.rule .space_call (.seq (.cat (.cat (.alt (.alt (.restore (.call .apply_call)) (.call .Number)) (.call .Symbol)) (.seq (.cat (.rep (.seq (.cat (.look false (.call .NEWLINE)) (.call .WHITESPACE)))) (.alt (.alt (.restore (.call .apply_call)) (.call .Number)) (.call .Symbol))))) (.rep (.seq (.cat (.rep (.seq (.cat (.look false (.call .NEWLINE)) (.call .WHITESPACE)))) (.alt (.alt (.restore (.call .apply_call)) (.call .Number)) (.call .Symbol))))))))

/-- sm_parser.rs:433 `type_expr`. -/
def body_type_expr : PE R :=
  .seq (.cat (.cat (.call .term) (.call .skip)) (.seq (.opt (.cat (.restore (.seq (.cat (.cat (.call .TypeInfix) (.call .skip)) (.call .term)))) (.rep (.seq (.cat (.call .skip) (.restore (.seq (.cat (.cat (.call .TypeInfix) (.call .skip)) (.call .term)))))))))))

/-- sm_parser.rs:438 `type_hint`. -/
def body_type_hint : PE R :=
  .rule .type_hint (.seq (.cat (.cat (.call .Colon) (.call .skip)) (.call .type_expr)))

/-- sm_parser.rs:443 `TypeInfix`. -/
def body_TypeInfix : PE R :=
  .rule .TypeInfix (.atomic .atomic (.call .Or))

/-- sm_parser.rs:448 `data`. -/
def body_data : PE R :=
  .atomic .compound (.rule .data (.alt (.alt (.alt (.alt (.alt (.alt (.alt (.restore (.call .dict)) (.restore (.call .list))) (.call .Special)) (.call .REPL)) (.call .Slot)) (.call .Number)) (.restore (.call .String))) (.call .Symbol)))

/-- sm_parser.rs:453 `dict`. -/
def body_dict : PE R :=
  .atomic .non (.rule .dict (.seq (.cat (.cat (.str c!"{") (.call .skip)) (.alt (.str c!"}") (.restore (.seq (.cat (.cat (.cat (.cat (.cat (.cat (.call .key_value) (.call .skip)) (.seq (.opt (.cat (.restore (.seq (.cat (.cat (.call .Comma) (.call .skip)) (.call .key_value)))) (.rep (.seq (.cat (.call .skip) (.restore (.seq (.cat (.cat (.call .Comma) (.call .skip)) (.call .key_value))))))))))) (.call .skip)) (.opt (.call .Comma))) (.call .skip)) (.str c!"}"))))))))

/-- sm_parser.rs:458 `list`. -/
def body_list : PE R :=
  .atomic .non (.rule .list (.seq (.cat (.cat (.str c!"[") (.call .skip)) (.alt (.str c!"]") (.restore (.seq (.cat (.cat (.cat (.cat (.cat (.cat (.call .expr) (.call .skip)) (.seq (.opt (.cat (.restore (.seq (.cat (.cat (.call .Comma) (.call .skip)) (.call .expr)))) (.rep (.seq (.cat (.call .skip) (.restore (.seq (.cat (.cat (.call .Comma) (.call .skip)) (.call .expr))))))))))) (.call .skip)) (.opt (.call .Comma))) (.call .skip)) (.str c!"]"))))))))

/-- sm_parser.rs:463 `slice`. -/
def body_slice : PE R :=
  .atomic .non (.rule .slice (.seq (.cat (.cat (.cat (.cat (.cat (.cat (.cat (.cat (.str c!"[") (.call .skip)) (.call .index)) (.call .skip)) (.seq (.opt (.cat (.restore (.seq (.cat (.cat (.call .Comma) (.call .skip)) (.call .index)))) (.rep (.seq (.cat (.call .skip) (.restore (.seq (.cat (.cat (.call .Comma) (.call .skip)) (.call .index))))))))))) (.call .skip)) (.opt (.call .Comma))) (.call .skip)) (.str c!"]"))))

/-- sm_parser.rs:468 `key_valid`. -/
def body_key_valid : PE R :=
  .atomic .non (.rule .key_valid (.alt (.alt (.call .Integer) (.call .SYMBOL)) (.restore (.call .String))))

/-- sm_parser.rs:473 `key_value`. -/
def body_key_value : PE R :=
  .atomic .non (.rule .key_value (.seq (.cat (.cat (.cat (.cat (.call .key_valid) (.call .skip)) (.call .Colon)) (.call .skip)) (.call .expr))))

/-- sm_parser.rs:478 `index`. -/
def body_index : PE R :=
  .rule .index (.alt (.alt (.seq (.cat (.cat (.cat (.cat (.cat (.cat (.cat (.cat (.opt (.restore (.call .Start))) (.call .skip)) (.call .Colon)) (.call .skip)) (.opt (.restore (.call .End)))) (.call .skip)) (.call .Colon)) (.call .skip)) (.opt (.restore (.call .Step))))) (.seq (.cat (.cat (.cat (.cat (.opt (.restore (.call .Start))) (.call .skip)) (.call .Colon)) (.call .skip)) (.opt (.restore (.call .End)))))) (.restore (.call .expr)))

/-- sm_parser.rs:483 `Start`. -/
def body_Start : PE R :=
  .rule .Start (.call .expr)

/-- sm_parser.rs:488 `End`. -/
def body_End : PE R :=
  .rule .End (.call .expr)

/-- sm_parser.rs:493 `Step`. -/
def body_Step : PE R :=
  .rule .Step (.call .expr)

/-- sm_parser.rs:498 `Number`. -/
def body_Number : PE R :=
  .alt (.alt (.call .Byte) (.call .Decimal)) (.call .Integer)

/-- sm_parser.rs:503 `Decimal`. -/
def body_Decimal : PE R :=
  .atomic .compound (.rule .Decimal (.seq (.cat (.cat (.call .Integer) (.call .Dot)) (.call .Integer))))

/-- sm_parser.rs:508 `Integer`. -/
def body_Integer : PE R :=
  .rule .Integer (.atomic .atomic (.alt (.str c!"0") (.call .Positive)))

/-- sm_parser.rs:513 `Byte`. -/
def body_Byte : PE R :=
  .atomic .compound (.rule .Byte (.alt (.alt (.seq (.cat (.cat (.insens c!"0b") (.seq (.cat (.opt (.call .Underline)) (.call .ASCII_BIN_DIGIT)))) (.rep (.seq (.cat (.opt (.call .Underline)) (.call .ASCII_BIN_DIGIT)))))) (.seq (.cat (.cat (.insens c!"0o") (.seq (.cat (.opt (.call .Underline)) (.call .ASCII_OCT_DIGIT)))) (.rep (.seq (.cat (.opt (.call .Underline)) (.call .ASCII_OCT_DIGIT))))))) (.seq (.cat (.cat (.insens c!"0x") (.seq (.cat (.opt (.call .Underline)) (.call .ASCII_HEX_DIGIT)))) (.rep (.seq (.cat (.opt (.call .Underline)) (.call .ASCII_HEX_DIGIT))))))))

/-- sm_parser.rs:518 `String`. -/
def body_String : PE R :=
  .atomic .compound (.rule .String (.seq (.cat (.opt (.call .SYMBOL)) (.alt (.restore (.call .StringBlock)) (.call .StringNormal)))))

/-- sm_parser.rs:523 `StringNormal`. -/
def body_StringNormal : PE R :=
  .rule .StringNormal (.atomic .atomic (.seq (.cat (.cat (.call .Quotation) (.rep (.alt (.seq (.cat (.call .Escape) (.alt (.call .Quotation) (.call .Escape)))) (.seq (.cat (.look false (.call .Quotation)) (.call .ANY)))))) (.call .Quotation))))

/-- sm_parser.rs:528 `StringBlock`. -/
def body_StringBlock : PE R :=
  .atomic .compound (.rule .StringBlock (.seq (.cat (.cat (.cat (.cat (.cat (.cat (.seq (.cat (.cat (.call .Quotation) (.call .Quotation)) (.call .Quotation))) (.push (.rep (.call .Quotation)))) (.call .StringText)) (.call .POP)) (.call .Quotation)) (.call .Quotation)) (.call .Quotation))))

/-- sm_parser.rs:533 `StringText`. -/
def body_StringText : PE R :=
  .rule .StringText (.atomic .atomic (.seq (.cat (.seq (.cat (.look false (.seq (.cat (.seq (.cat (.cat (.call .Quotation) (.call .Quotation)) (.call .Quotation))) (.call .PEEK)))) (.call .ANY))) (.rep (.seq (.cat (.look false (.seq (.cat (.seq (.cat (.cat (.call .Quotation) (.call .Quotation)) (.call .Quotation))) (.call .PEEK)))) (.call .ANY)))))))

/-- sm_parser.rs:538 `Symbol`. -/
def body_Symbol : PE R :=
  .atomic .compound (.rule .Symbol (.seq (.cat (.call .SYMBOL) (.rep (.seq (.cat (.call .Proportion) (.call .SYMBOL)))))))

/-- sm_parser.rs:543 `SYMBOL`. -/
def body_SYMBOL : PE R :=
  .rule .SYMBOL (.atomic .atomic (.alt (.seq (.cat (.call .XID_START) (.rep (.call .XID_CONTINUE)))) (.seq (.cat (.cat (.call .Underline) (.call .XID_CONTINUE)) (.rep (.call .XID_CONTINUE))))))

/-- sm_parser.rs:548 `Special`. -/
def body_Special : PE R :=
  .rule .Special (.atomic .atomic (.alt (.alt (.str c!"null") (.str c!"true")) (.str c!"false")))

/-- sm_parser.rs:553 `Slot`. -/
def body_Slot : PE R :=
  .atomic .compound (.rule .Slot (.alt (.seq (.cat (.str c!"##") (.opt (.call .Positive)))) (.seq (.cat (.str c!"#") (.opt (.alt (.call .SYMBOL) (.call .Integer)))))))

/-- sm_parser.rs:558 `REPL`. -/
def body_REPL : PE R :=
  .rule .REPL (.atomic .atomic (.alt (.alt (.seq (.cat (.str c!"¶") (.call .Positive))) (.seq (.cat (.str c!"¶") (.rep (.str c!"¶"))))) (.seq (.cat (.str c!"⁋") (.alt (.call .Positive) (.rep (.str c!"⁋")))))))

/-- sm_parser.rs:563 `Positive`. -/
def body_Positive : PE R :=
  .rule .Positive (.atomic .atomic (.seq (.cat (.call .ASCII_NONZERO_DIGIT) (.rep (.call .ASCII_DIGIT)))))

/-- sm_parser.rs:568 `WHITESPACE`. -/
def body_WHITESPACE : PE R :=
  .atomic .atomic (.alt (.call .NEWLINE) (.call .WHITE_SPACE))

/-- sm_parser.rs:573 `COMMENT`. -/
def body_COMMENT : PE R :=
  .atomic .atomic (.alt (.alt (.alt (.alt (.call .MultiLineComment) (.seq (.cat (.str c!"///") (.rep (.seq (.cat (.look false (.call .NEWLINE)) (.call .ANY))))))) (.seq (.cat (.str c!"//?") (.rep (.seq (.cat (.look false (.call .NEWLINE)) (.call .ANY))))))) (.seq (.cat (.str c!"//!") (.rep (.seq (.cat (.look false (.call .NEWLINE)) (.call .ANY))))))) (.seq (.cat (.str c!"//*") (.rep (.seq (.cat (.look false (.call .NEWLINE)) (.call .ANY)))))))

/-- sm_parser.rs:578 `MultiLineComment`. -/
def body_MultiLineComment : PE R :=
  .atomic .compound (.rule .MultiLineComment (.seq (.cat (.cat (.str c!"%%%") (.rep (.alt (.call .MultiLineComment) (.seq (.cat (.look false (.str c!"%%%")) (.call .ANY)))))) (.str c!"%%%"))))

/-- sm_parser.rs:583 `Prefix`. -/
def body_Prefix : PE R :=
  .rule .Prefix (.atomic .atomic (.alt (.alt (.alt (.alt (.call .Bang) (.call .Not)) (.call .Plus)) (.call .Minus)) (.call .Star)))

/-- sm_parser.rs:588 `Suffix`. -/
def body_Suffix : PE R :=
  .rule .Suffix (.atomic .atomic (.alt (.alt (.alt (.call .Derivative) (.call .DoubleBang)) (.call .Bang)) (.call .Question)))

/-- sm_parser.rs:593 `Infix`. -/
def body_Infix : PE R :=
  .alt (.alt (.alt (.alt (.alt (.alt (.alt (.alt (.alt (.alt (.alt (.alt (.alt (.alt (.call .Set) (.call .Plus)) (.call .Minus)) (.call .Multiply)) (.call .CenterDot)) (.call .Kronecker)) (.call .TensorProduct)) (.call .Divide)) (.call .Quotient)) (.call .Modulo)) (.call .Power)) (.call .Grater)) (.call .GraterEqual)) (.call .Equal)) (.call .Dot)

/-- sm_parser.rs:598 `Set`. -/
def body_Set : PE R :=
  .rule .Set (.atomic .atomic (.str c!"="))

/-- sm_parser.rs:603 `Derivative`. -/
def body_Derivative : PE R :=
  .rule .Derivative (.atomic .atomic (.seq (.cat (.str c!"'") (.rep (.str c!"'")))))

/-- sm_parser.rs:608 `Or`. -/
def body_Or : PE R :=
  .rule .Or (.atomic .atomic (.str c!"|"))

/-- sm_parser.rs:613 `LazyOr`. -/
def body_LazyOr : PE R :=
  .rule .LazyOr (.atomic .atomic (.str c!"||"))

/-- sm_parser.rs:618 `Star`. -/
def body_Star : PE R :=
  .rule .Star (.atomic .atomic (.str c!"*"))

/-- sm_parser.rs:623 `Slash`. -/
def body_Slash : PE R :=
  .rule .Slash (.atomic .atomic (.str c!"/"))

/-- sm_parser.rs:628 `Escape`. -/
def body_Escape : PE R :=
  .rule .Escape (.atomic .atomic (.str c!"\\"))

/-- sm_parser.rs:633 `Proportion`. -/
def body_Proportion : PE R :=
  .rule .Proportion (.atomic .atomic (.alt (.str c!"::") (.str c!"∷")))

/-- sm_parser.rs:638 `Comma`. -/
def body_Comma : PE R :=
  .rule .Comma (.atomic .atomic (.alt (.str c!",") (.str c!"，")))

/-- sm_parser.rs:643 `Dot`. -/
def body_Dot : PE R :=
  .rule .Dot (.atomic .atomic (.str c!"."))

/-- sm_parser.rs:648 `Separate`. -/
def body_Separate : PE R :=
  .rule .Separate (.atomic .atomic (.str c!";;"))

/-- sm_parser.rs:653 `Semicolon`. -/
def body_Semicolon : PE R :=
  .rule .Semicolon (.atomic .atomic (.alt (.str c!";") (.str c!"；")))

/-- sm_parser.rs:658 `Colon`. -/
def body_Colon : PE R :=
  .rule .Colon (.atomic .atomic (.alt (.str c!":") (.str c!"：")))

/-- sm_parser.rs:663 `Question`. -/
def body_Question : PE R :=
  .rule .Question (.atomic .atomic (.str c!"?"))

/-- sm_parser.rs:668 `Underline`. -/
def body_Underline : PE R :=
  .rule .Underline (.atomic .atomic (.str c!"_"))

/-- sm_parser.rs:673 `Load`. -/
def body_Load : PE R :=
  .rule .Load (.atomic .atomic (.alt (.str c!"<<<") (.str c!"⋘")))

/-- sm_parser.rs:678 `Save`. -/
def body_Save : PE R :=
  .rule .Save (.atomic .atomic (.alt (.str c!">>>") (.str c!"⋙")))

/-- sm_parser.rs:683 `LeftShift`. -/
def body_LeftShift : PE R :=
  .rule .LeftShift (.atomic .atomic (.alt (.str c!"<<") (.str c!"≪")))

/-- sm_parser.rs:688 `RightShift`. -/
def body_RightShift : PE R :=
  .rule .RightShift (.atomic .atomic (.alt (.str c!">>") (.str c!"≫")))

/-- sm_parser.rs:693 `LessEqual`. -/
def body_LessEqual : PE R :=
  .rule .LessEqual (.atomic .atomic (.str c!"<="))

/-- sm_parser.rs:698 `GraterEqual`. -/
def body_GraterEqual : PE R :=
  .rule .GraterEqual (.atomic .atomic (.str c!">="))

/-- sm_parser.rs:703 `Less`. -/
def body_Less : PE R :=
  .rule .Less (.atomic .atomic (.str c!"<"))

/-- sm_parser.rs:708 `Grater`. -/
def body_Grater : PE R :=
  .rule .Grater (.atomic .atomic (.str c!">"))

/-- sm_parser.rs:713 `Pipeline`. -/
def body_Pipeline : PE R :=
  .rule .Pipeline (.atomic .atomic (.str c!"|>"))

/-- sm_parser.rs:718 `Equivalent`. -/
def body_Equivalent : PE R :=
  .rule .Equivalent (.atomic .atomic (.str c!"==="))

/-- sm_parser.rs:723 `NotEquivalent`. -/
def body_NotEquivalent : PE R :=
  .rule .NotEquivalent (.atomic .atomic (.str c!"=!="))

/-- sm_parser.rs:728 `Equal`. -/
def body_Equal : PE R :=
  .rule .Equal (.atomic .atomic (.str c!"=="))

/-- sm_parser.rs:733 `NotEqual`. -/
def body_NotEqual : PE R :=
  .rule .NotEqual (.atomic .atomic (.alt (.str c!"!=") (.str c!"≠")))

/-- sm_parser.rs:738 `Plus`. -/
def body_Plus : PE R :=
  .rule .Plus (.atomic .atomic (.str c!"+"))

/-- sm_parser.rs:743 `Minus`. -/
def body_Minus : PE R :=
  .rule .Minus (.atomic .atomic (.str c!"-"))

/-- sm_parser.rs:748 `Multiply`. -/
def body_Multiply : PE R :=
  .rule .Multiply (.atomic .atomic (.alt (.call .Star) (.str c!"×")))

/-- sm_parser.rs:753 `CenterDot`. -/
def body_CenterDot : PE R :=
  .rule .CenterDot (.atomic .atomic (.str c!"⋅"))

/-- sm_parser.rs:758 `Kronecker`. -/
def body_Kronecker : PE R :=
  .rule .Kronecker (.atomic .atomic (.str c!"⊗"))

/-- sm_parser.rs:763 `TensorProduct`. -/
def body_TensorProduct : PE R :=
  .rule .TensorProduct (.atomic .atomic (.str c!"⊙"))

/-- sm_parser.rs:768 `Divide`. -/
def body_Divide : PE R :=
  .rule .Divide (.atomic .atomic (.alt (.call .Slash) (.str c!"÷")))

/-- sm_parser.rs:773 `Quotient`. -/
def body_Quotient : PE R :=
  .rule .Quotient (.atomic .atomic (.str c!"//"))

/-- sm_parser.rs:778 `Modulo`. -/
def body_Modulo : PE R :=
  .rule .Modulo (.atomic .atomic (.str c!"%"))

/-- sm_parser.rs:783 `Remainder`. -/
def body_Remainder : PE R :=
  .rule .Remainder (.atomic .atomic (.str c!"⁒"))

/-- sm_parser.rs:788 `Power`. -/
def body_Power : PE R :=
  .rule .Power (.atomic .atomic (.str c!"^"))

/-- sm_parser.rs:793 `Surd`. -/
def body_Surd : PE R :=
  .rule .Surd (.atomic .atomic (.str c!"√"))

/-- sm_parser.rs:798 `Increase`. -/
def body_Increase : PE R :=
  .rule .Increase (.atomic .atomic (.str c!"++"))

/-- sm_parser.rs:803 `Decrease`. -/
def body_Decrease : PE R :=
  .rule .Decrease (.atomic .atomic (.str c!"--"))

/-- sm_parser.rs:808 `To`. -/
def body_To : PE R :=
  .rule .To (.atomic .atomic (.str c!"->"))

/-- sm_parser.rs:813 `Elvis`. -/
def body_Elvis : PE R :=
  .rule .Elvis (.atomic .atomic (.str c!":?"))

/-- sm_parser.rs:818 `Map`. -/
def body_Map : PE R :=
  .rule .Map (.atomic .atomic (.str c!"/@"))

/-- sm_parser.rs:823 `Quote`. -/
def body_Quote : PE R :=
  .rule .Quote (.atomic .atomic (.str c!"`"))

/-- sm_parser.rs:828 `Acute`. -/
def body_Acute : PE R :=
  .rule .Acute (.atomic .atomic (.str c!"´"))

/-- sm_parser.rs:833 `Apostrophe`. -/
def body_Apostrophe : PE R :=
  .rule .Apostrophe (.atomic .atomic (.str c!"'"))

/-- sm_parser.rs:838 `Quotation`. -/
def body_Quotation : PE R :=
  .rule .Quotation (.atomic .atomic (.str c!"\""))

/-- sm_parser.rs:843 `LogicOr`. -/
def body_LogicOr : PE R :=
  .rule .LogicOr (.atomic .atomic (.alt (.str c!"||") (.str c!"∧")))

/-- sm_parser.rs:848 `LogicAnd`. -/
def body_LogicAnd : PE R :=
  .rule .LogicAnd (.atomic .atomic (.alt (.str c!"&&") (.str c!"∨")))

/-- sm_parser.rs:853 `LogicNot`. -/
def body_LogicNot : PE R :=
  .rule .LogicNot (.atomic .atomic (.str c!"¬"))

/-- sm_parser.rs:858 `Ellipsis`. -/
def body_Ellipsis : PE R :=
  .rule .Ellipsis (.atomic .atomic (.alt (.str c!"...") (.str c!"…")))

/-- sm_parser.rs:863 `LogicXor`. -/
def body_LogicXor : PE R :=
  .rule .LogicXor (.atomic .atomic (.str c!"⊕"))

/-- sm_parser.rs:868 `MapAll`. -/
def body_MapAll : PE R :=
  .rule .MapAll (.atomic .atomic (.str c!"//@"))

/-- sm_parser.rs:873 `Concat`. -/
def body_Concat : PE R :=
  .rule .Concat (.atomic .atomic (.str c!"~~"))

/-- sm_parser.rs:878 `Destruct`. -/
def body_Destruct : PE R :=
  .rule .Destruct (.atomic .atomic (.str c!"~="))

/-- sm_parser.rs:883 `DoubleBang`. -/
def body_DoubleBang : PE R :=
  .rule .DoubleBang (.atomic .atomic (.str c!"!!"))

/-- sm_parser.rs:888 `Bang`. -/
def body_Bang : PE R :=
  .rule .Bang (.atomic .atomic (.str c!"!"))

/-- sm_parser.rs:893 `Not`. -/
def body_Not : PE R :=
  .rule .Not (.atomic .atomic (.str c!"¬"))

/-- sm_parser.rs:898 `Sharp`. -/
def body_Sharp : PE R :=
  .rule .Sharp (.atomic .atomic (.str c!"#"))

/-- sm_parser.rs:903 `Curry`. -/
def body_Curry : PE R :=
  .rule .Curry (.atomic .atomic (.str c!"@@@"))

/-- sm_parser.rs:908 `Apply`. -/
def body_Apply : PE R :=
  .rule .Apply (.atomic .atomic (.str c!"@@"))

/-- sm_parser.rs:913 `At`. -/
def body_At : PE R :=
  .rule .At (.atomic .atomic (.str c!"@"))

/-- sm_parser.rs:918 `ANY`. -/
def body_ANY : PE R :=
  .any

/-- sm_parser.rs:923 `EOI`. -/
def body_EOI : PE R :=
  .rule .EOI .eoi

/-- sm_parser.rs:928 `SOI`. -/
def body_SOI : PE R :=
  .soi

/-- sm_parser.rs:933 `PEEK`. -/
def body_PEEK : PE R :=
  .peek

/-- sm_parser.rs:938 `POP`. -/
def body_POP : PE R :=
  .pop

/-- sm_parser.rs:943 `ASCII_DIGIT`. -/
def body_ASCII_DIGIT : PE R :=
  .range '0' '9'

/-- sm_parser.rs:948 `ASCII_NONZERO_DIGIT`. -/
def body_ASCII_NONZERO_DIGIT : PE R :=
  .range '1' '9'

/-- sm_parser.rs:953 `ASCII_BIN_DIGIT`. -/
def body_ASCII_BIN_DIGIT : PE R :=
  .range '0' '1'

/-- sm_parser.rs:958 `ASCII_OCT_DIGIT`. -/
def body_ASCII_OCT_DIGIT : PE R :=
  .range '0' '7'

/-- sm_parser.rs:963 `ASCII_HEX_DIGIT`. -/
def body_ASCII_HEX_DIGIT : PE R :=
  .alt (.alt (.range '0' '9') (.range 'a' 'f')) (.range 'A' 'F')

/-- sm_parser.rs:968 `NEWLINE`. -/
def body_NEWLINE : PE R :=
  .alt (.alt (.str c!"\n") (.str c!"\r\n")) (.str c!"\r")

/-- sm_parser.rs:973 `WHITE_SPACE`. -/
def body_WHITE_SPACE : PE R :=
  .uni .whiteSpace

/-- sm_parser.rs:978 `XID_CONTINUE`. -/
def body_XID_CONTINUE : PE R :=
  .uni .xidContinue

/-- sm_parser.rs:983 `XID_START`. -/
def body_XID_START : PE R :=
  .uni .xidStart

/-- The body of each parser function. -/
def grammar : R → PE R
  | .skip => body_skip
  | .program => body_program
  | .statement => body_statement
  | .emptyStatement => body_emptyStatement
  | .eos => body_eos
  | .comma_or_semi => body_comma_or_semi
  | .block_or_stmt => body_block_or_stmt
  | .importStatement => body_importStatement
  | .use_alias => body_use_alias
  | .use_module_select => body_use_module_select
  | .module_block => body_module_block
  | .module_tuple => body_module_tuple
  | .ModuleSplit => body_ModuleSplit
  | .As => body_As
  | .controlFlow => body_controlFlow
  | .«block» => body_block
  | .if_statement => body_if_statement
  | .for_statement => body_for_statement
  | .for_in_loop => body_for_in_loop
  | .re_control => body_re_control
  | .Return => body_Return
  | .Yield => body_Yield
  | .Break => body_Break
  | .Pass => body_Pass
  | .«Type» => body_Type
  | .classStatement => body_classStatement
  | .traitStatement => body_traitStatement
  | .short_block => body_short_block
  | .short_statement => body_short_statement
  | .short_annotation => body_short_annotation
  | .extendStatement => body_extendStatement
  | .with_trait => body_with_trait
  | .assignStatement => body_assignStatement
  | .assign_terms => body_assign_terms
  | .assign_name => body_assign_name
  | .assign_pair => body_assign_pair
  | .defineStatement => body_defineStatement
  | .define_terms => body_define_terms
  | .define_parameter => body_define_parameter
  | .define_pair => body_define_pair
  | .annotation => body_annotation
  | .annotation_call => body_annotation_call
  | .apply => body_apply
  | .apply_kv => body_apply_kv
  | .function_name => body_function_name
  | .function_module => body_function_module
  | .expression => body_expression
  | .expr => body_expr
  | .term => body_term
  | .node => body_node
  | .apply_call => body_apply_call
  | .derivative => body_derivative
  | .space_call => body_space_call
  | .type_expr => body_type_expr
  | .type_hint => body_type_hint
  | .TypeInfix => body_TypeInfix
  | .data => body_data
  | .dict => body_dict
  | .list => body_list
  | .slice => body_slice
  | .key_valid => body_key_valid
  | .key_value => body_key_value
  | .index => body_index
  | .Start => body_Start
  | .End => body_End
  | .Step => body_Step
  | .Number => body_Number
  | .Decimal => body_Decimal
  | .Integer => body_Integer
  | .Byte => body_Byte
  | .String => body_String
  | .StringNormal => body_StringNormal
  | .StringBlock => body_StringBlock
  | .StringText => body_StringText
  | .Symbol => body_Symbol
  | .SYMBOL => body_SYMBOL
  | .Special => body_Special
  | .Slot => body_Slot
  | .REPL => body_REPL
  | .Positive => body_Positive
  | .WHITESPACE => body_WHITESPACE
  | .COMMENT => body_COMMENT
  | .MultiLineComment => body_MultiLineComment
  | .Prefix => body_Prefix
  | .Suffix => body_Suffix
  | .Infix => body_Infix
  | .Set => body_Set
  | .Derivative => body_Derivative
  | .Or => body_Or
  | .LazyOr => body_LazyOr
  | .Star => body_Star
  | .Slash => body_Slash
  | .Escape => body_Escape
  | .Proportion => body_Proportion
  | .Comma => body_Comma
  | .Dot => body_Dot
  | .Separate => body_Separate
  | .Semicolon => body_Semicolon
  | .Colon => body_Colon
  | .Question => body_Question
  | .Underline => body_Underline
  | .Load => body_Load
  | .Save => body_Save
  | .LeftShift => body_LeftShift
  | .RightShift => body_RightShift
  | .LessEqual => body_LessEqual
  | .GraterEqual => body_GraterEqual
  | .Less => body_Less
  | .Grater => body_Grater
  | .Pipeline => body_Pipeline
  | .Equivalent => body_Equivalent
  | .NotEquivalent => body_NotEquivalent
  | .Equal => body_Equal
  | .NotEqual => body_NotEqual
  | .Plus => body_Plus
  | .Minus => body_Minus
  | .Multiply => body_Multiply
  | .CenterDot => body_CenterDot
  | .Kronecker => body_Kronecker
  | .TensorProduct => body_TensorProduct
  | .Divide => body_Divide
  | .Quotient => body_Quotient
  | .Modulo => body_Modulo
  | .Remainder => body_Remainder
  | .Power => body_Power
  | .Surd => body_Surd
  | .Increase => body_Increase
  | .Decrease => body_Decrease
  | .To => body_To
  | .Elvis => body_Elvis
  | .Map => body_Map
  | .Quote => body_Quote
  | .Acute => body_Acute
  | .Apostrophe => body_Apostrophe
  | .Quotation => body_Quotation
  | .LogicOr => body_LogicOr
  | .LogicAnd => body_LogicAnd
  | .LogicNot => body_LogicNot
  | .Ellipsis => body_Ellipsis
  | .LogicXor => body_LogicXor
  | .MapAll => body_MapAll
  | .Concat => body_Concat
  | .Destruct => body_Destruct
  | .DoubleBang => body_DoubleBang
  | .Bang => body_Bang
  | .Not => body_Not
  | .Sharp => body_Sharp
  | .Curry => body_Curry
  | .Apply => body_Apply
  | .At => body_At
  | .ANY => body_ANY
  | .EOI => body_EOI
  | .SOI => body_SOI
  | .PEEK => body_PEEK
  | .POP => body_POP
  | .ASCII_DIGIT => body_ASCII_DIGIT
  | .ASCII_NONZERO_DIGIT => body_ASCII_NONZERO_DIGIT
  | .ASCII_BIN_DIGIT => body_ASCII_BIN_DIGIT
  | .ASCII_OCT_DIGIT => body_ASCII_OCT_DIGIT
  | .ASCII_HEX_DIGIT => body_ASCII_HEX_DIGIT
  | .NEWLINE => body_NEWLINE
  | .WHITE_SPACE => body_WHITE_SPACE
  | .XID_CONTINUE => body_XID_CONTINUE
  | .XID_START => body_XID_START

end SM.Peg
