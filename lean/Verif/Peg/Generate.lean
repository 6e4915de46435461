import Verif.Peg.PestFile
/-
Model of `projects/sm-parser/src/pre_build.rs:4-22`: `pest_generator::derive_parser`, which makes `sm_parser.rs` from
`simple-math.pest`.  `pest_generator` and `pest_meta` are dependencies.  What follows are those of their passes that
change something here (`rotater`, `unroller`, `factorizer`, `restorer`), then the generator.  Nothing rests on this
being a faithful model: `Props/Pest` shows that the outcome is the parser in the repository.
-/
namespace SM.Peg

/-- `a ~ b` where `a` is a sequence already: `(a ~ b) ~ c` becomes `a ~ (b ~ c)`. -/
def GE.join : GE → GE → GE
  | .seq a b, c => .seq a (b.join c)
  | a, c => .seq a c

/-- `pest_meta::optimizer::rotater`. -/
def GE.rotate : GE → GE
  | .seq a b => a.rotate.join b.rotate
  | .alt a b => .alt a.rotate b.rotate
  | .opt e => .opt e.rotate
  | .star e => .star e.rotate
  | .plus e => .plus e.rotate
  | .times n e => .times n e.rotate
  | .not e => .not e.rotate
  | .push e => .push e.rotate
  | e => e

/-- `e ~ … ~ e`, `n + 1` times. -/
def GE.copies (e : GE) : Nat → GE
  | 0 => e
  | n + 1 => .seq e (e.copies n)

/-- `pest_meta::optimizer::unroller`. -/
def GE.unroll : GE → GE
  | .seq a b => .seq a.unroll b.unroll
  | .alt a b => .alt a.unroll b.unroll
  | .opt e => .opt e.unroll
  | .star e => .star e.unroll
  | .plus e => .seq e.unroll (.star e.unroll)
  | .times (n + 1) e => e.unroll.copies n
  | .times 0 e => .times 0 e
  | .not e => .not e.unroll
  | .push e => .push e.unroll
  | e => e

/-- `a ~ b|a ~ c` becomes `a ~ (b|c)`. -/
def GE.merge : GE → GE
  | .alt (.seq a b) (.seq c d) => if a = c then .seq a (.alt b d) else .alt (.seq a b) (.seq c d)
  | e => e

/-- `pest_meta::optimizer::factorizer`, to a depth. -/
def GE.factor : Nat → GE → GE
  | 0, e => e
  | n + 1, e =>
    match e.merge with
    | .seq a b => .seq (a.factor n) (b.factor n)
    | .alt a b => .alt (a.factor n) (b.factor n)
    | .opt e => .opt (e.factor n)
    | .star e => .star (e.factor n)
    | .not e => .not (e.factor n)
    | .push e => .push (e.factor n)
    | e => e

/-- The passes together. -/
def GE.optimize (e : GE) : GE := e.rotate.unroll.factor 16

/-- Whether a rule uses the stack, itself or in a rule it refers to: every rule that may hold an expression. -/
def touches : R → Bool
  | .program | .statement | .block_or_stmt | .importStatement | .use_alias | .use_module_select | .module_block
  | .module_tuple | .controlFlow | .«block» | .if_statement | .for_statement | .for_in_loop | .re_control
  | .classStatement | .traitStatement | .short_block | .short_statement | .short_annotation | .extendStatement
  | .assignStatement | .assign_terms | .defineStatement | .define_terms | .define_parameter | .define_pair
  | .annotation | .annotation_call | .apply | .apply_kv | .expression | .expr | .term | .node | .apply_call
  | .derivative | .space_call | .type_expr | .type_hint | .data | .dict | .list | .slice | .key_valid | .key_value
  | .index | .Start | .End | .Step | .String | .StringBlock | .POP => true
  | _ => false

/-- `pest_meta::optimizer::restorer`: whether a part is to be run under `restore_on_err`. -/
def GE.needs : GE → Bool
  | .ref r => touches r
  | .seq a b => a.needs || b.needs
  | .not e => e.needs
  | .push _ => true
  | .pop => true
  | _ => false

/-- `restore_on_err` where needed. -/
def wrap (e : GE) (c : PE R) : PE R := if e.needs then .restore c else c

/-- One part of a sequence after another; between them `skip`, unless the rule is atomic. -/
def glue (tight : Bool) (acc c : PE R) : PE R := if tight then .cat acc c else .cat (.cat acc (.call .skip)) c

/-- Where the code of an expression goes. -/
inductive Ctx where
  | top
  /-- after the parts of a sequence -/
  | afterSeq (acc : PE R)
  /-- after the alternatives of a choice -/
  | afterAlt (acc : PE R)

/-- Put the code of `e` there. -/
def put (tight : Bool) (e : GE) : Ctx → PE R → PE R
  | .top, c => c
  | .afterSeq acc, c => glue tight acc c
  | .afterAlt acc, c => .alt acc (wrap e c)

/-- The code for a set of characters. -/
def Chars.code : Chars → PE R
  | .any => .any
  | .range a b => .range a b
  | .uni p => .uni p

/-- `pest_generator::generator::{generate_expr, generate_expr_atomic}`. -/
def GE.code (tight : Bool) : GE → Ctx → PE R
  | .seq a b, .afterSeq acc => b.code tight (.afterSeq (glue tight acc (a.code tight .top)))
  | .seq a b, k => put tight (.seq a b) k (.seq (b.code tight (.afterSeq (a.code tight .top))))
  | .alt a b, .afterAlt acc => b.code tight (.afterAlt (.alt acc (wrap a (a.code tight .top))))
  | .alt a b, k => put tight (.alt a b) k (b.code tight (.afterAlt (wrap a (a.code tight .top))))
  | .opt e, k => put tight (.opt e) k (.opt (wrap e (e.code tight .top)))
  | .star e, k =>
    put tight (.star e) k
      (if tight then .rep (wrap e (e.code tight .top))
      else .seq (.opt (.cat (wrap e (e.code tight .top))
        (.rep (.seq (.cat (.call .skip) (wrap e (e.code tight .top))))))))
  | .not e, k => put tight (.not e) k (.look false (e.code tight .top))
  | .push e, k => put tight (.push e) k (.push (e.code tight .top))
  | .ref r, k => put tight (.ref r) k (.call r)
  | .str x, k => put tight (.str x) k (.str x)
  | .insens x, k => put tight (.insens x) k (.insens x)
  | .chr s, k => put tight (.chr s) k s.code
  | .soi, k => put tight .soi k .soi
  | .eoi, k => put tight .eoi k .eoi
  | .peek, k => put tight .peek k .peek
  | .pop, k => put tight .pop k .pop
  | .plus e, k => put tight (.plus e) k (e.code tight .top)
  | .times n e, k => put tight (.times n e) k (e.code tight .top)

/-- `pest_generator::generator::generate_rule`: the parser function of a rule. -/
def generate (r : R) : Kind → GE → PE R
  | .normal, e => .rule r (e.optimize.code false .top)
  | .silent, e =>
    if r = .WHITESPACE ∨ r = .COMMENT then .atomic .atomic (e.optimize.code true .top) else e.optimize.code false .top
  | .atomic, e => .rule r (.atomic .atomic (e.optimize.code true .top))
  | .compound, e => .atomic .compound (.rule r (e.optimize.code true .top))
  | .nonAtomic, e => .atomic .non (.rule r (e.optimize.code false .top))

end SM.Peg
