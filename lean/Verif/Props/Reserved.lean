import Verif.Props.Statements
/-
C76: texts that begin like a statement are never read as an expression.
-/
namespace SM.Props
open SM SM.Peg

/-- Texts that begin like a statement, whatever follows.  No blank space is asked for after the words. -/
inductive Claimed (u : Uni) : Str → Prop
  | control {k r : Str} : k ∈ [c!"break", c!"pass"] → Claimed u (k ++ r)
  | ret {w z : Str} : Blank u w → Opens u z → Claimed u (c!"return" ++ (w ++ z))
  | naming {k w x r : Str} : k ∈ namingWords → Blank u w → IsIdent u x → NoCont u r → Claimed u (k ++ (w ++ (x ++ r)))
  | names {w w1 t r : Str} : Blank u w → Blank u w1 → Names u t (')' :: r) → Claimed u (c!"let" ++ (w ++ ('(' :: (w1 ++ t))))
  | define {w x w1 w2 t r : Str} : Blank u w → IsIdent u x → Blank u w1 → Blank u w2 → Parameters u t r →
      Claimed u (c!"def" ++ (w ++ (x ++ (w1 ++ ('(' :: (w2 ++ t))))))
  | constant {w x w1 w2 r : Str} : Blank u w → IsIdent u x → Blank u w1 → Blank u w2 →
      Claimed u (c!"def" ++ (w ++ (x ++ (w1 ++ ('(' :: (w2 ++ (')' :: r)))))))
  | semi {b : Bool} {r : Str} : Claimed u (semiText b ++ r)

variable {u : Uni}

theorem sure_cat_goes {v : Env} {a b : PE R} {t s : Str} (h : Goes u v a t s) (k : Sure u v b s) : Sure u v (.cat a b) t := by
  obtain ⟨x, rfl, h⟩ := h
  exact sure_cat_eats h k

theorem sure_SYMBOL (L : Lawful u) {v : Env} (hv : v.emits = true) {x r : Str} (hx : IsIdent u x) (hr : NoCont u r) :
    Sure u v (.call .SYMBOL) (x ++ r) := sure_eats (eats_SYMBOL L hv hx hr)

theorem sure_name (L : Lawful u) {x r : Str} (hx : IsIdent u x) (hr : NoCont u r) : Sure u vN (.call .assign_pair) (x ++ r) :=
  sure_call (sure_rule (sure_call (sure_atomic (sure_rule (sure_seq (sure_cat
    (sure_SYMBOL (v := vC) L rfl hx hr) fun _ => sure_rep _ _))))))

/-- A statement that is sure to be read, with what may end it. -/
theorem sure_done {e : PE R} {z : Str} (h : Sure u vN e z) :
    Sure u vN (.restore (.seq (.cat (.cat e (.call .skip)) (.opt (.call .eos))))) z :=
  sure_restore (sure_seq (sure_cat (sure_cat h fun _ => sure_skip _) fun _ => sure_opt _ _))

theorem sure_control {z : Str} (h : Sure u vN (.call .re_control) z) : Sure u vN otherStatements z :=
  sure_alt_left (sure_alt_left (sure_alt_left (sure_alt_right rfl (by decide) (by decide) (sure_done (sure_call
    (sure_alt_left (sure_alt_left (sure_restore h))))))))

theorem sure_let {z : Str} (h : Sure u vN (.call .assignStatement) z) : Sure u vN otherStatements z :=
  sure_alt_left (sure_alt_left (sure_alt_right rfl (by decide) (by decide) (sure_done h)))

theorem sure_def {z : Str} (h : Sure u vN (.call .defineStatement) z) : Sure u vN otherStatements z :=
  sure_alt_left (sure_alt_right rfl (by decide) (by decide) (sure_done h))

theorem opens_solid (L : Lawful u) {z : Str} (h : Opens u z) : Solid u z := by
  rcases h with ⟨y, w, rfl, hy, -⟩ | ⟨c, t, rfl, hc⟩
  · exact ident_solid L hy _
  · have key : ∀ d ∈ digitChars, Plain d ∧ asciiUni .xidContinue d = true := by decide
    exact id_solid L (by rw [L.plain _ _ (key c hc).1]; exact (key c hc).2) _

theorem sure_define (L : Lawful u) {w x w1 z s : Str} (hw : Blank u w) (hx : IsIdent u x) (hw1 : Blank u w1)
    (hz : Goes u vN (.call .define_parameter) ('(' :: z) s) :
    Sure u vN otherStatements (c!"def" ++ (w ++ (x ++ (w1 ++ ('(' :: z))))) := by
  have hp : HeadIn ['('] ('(' :: z) := .inr ⟨'(', _, rfl, List.mem_cons_self⟩
  refine sure_def (sure_call (sure_rule (sure_seq (sure_cat_goes (goes_cat (goes_str _) (goes_skip L hw (ident_solid L hx _)))
    (sure_call (sure_seq (sure_cat (sure_cat (sure_cat (sure_cat (sure_goes (goes_cat (goes_cat (goes_name L hx
      (noCont_blank L hw1 (head_noCont L hp (by decide))) (noPath_first
        (head_first L hw1 hp (by decide) (by decide) (by decide) (by decide))
        (head_first L hw1 hp (by decide) (by decide) (by decide) (by decide))))
      (goes_skip L hw1 (solid_head L hp (by decide)))) hz)) fun _ => sure_skip _) fun _ => sure_opt _ _) fun _ =>
      sure_skip _) fun _ => sure_opt _ _)))))))

theorem sure_class (L : Lawful u) {w x r : Str} (hw : Blank u w) (hx : IsIdent u x) (hr : NoCont u r) {k : Str} :
    Sure u vN (.seq (.cat (.cat (.cat (.cat (.str k) (.call .skip)) (.call .assign_pair)) (.call .skip))
      (.opt (.restore (.call .short_block))))) (k ++ (w ++ (x ++ r))) :=
  sure_seq (sure_cat (sure_cat (sure_cat_goes (goes_cat (goes_str _) (goes_skip L hw (ident_solid L hx _))) (sure_name L hx hr))
    fun _ => sure_skip _) fun _ => sure_opt _ _)

theorem Claimed.sure (L : Lawful u) {z : Str} (h : Claimed u z) : Solid u z ∧ Sure u vN otherStatements z := by
  cases h with
  | @control k r hk =>
    refine ⟨word_solid L (by revert hk k; decide) _, sure_control (sure_call (sure_rule ?_))⟩
    simp only [List.mem_cons, List.not_mem_nil, or_false] at hk
    rcases hk with rfl | rfl
    · exact sure_alt_left (sure_alt_right rfl (by decide) (by decide) (sure_eats (eats_tok (v := vN) rfl rfl _)))
    · exact sure_alt_right rfl (by decide) (by decide) (sure_eats (eats_tok (v := vN) rfl rfl _))
  | @ret w z hw hz =>
    refine ⟨word_solid L (by decide) _, sure_control (sure_call (sure_rule (sure_alt_left (sure_alt_left (sure_restore
      (sure_seq (sure_cat_goes (goes_cat (goes_eats (eats_tok (v := vN) (r := .Return) rfl rfl _))
        (goes_skip L hw (opens_solid L hz))) (sure_expr L hz))))))))⟩
  | @naming k w x r hk hw hx hr =>
    refine ⟨word_solid L (by revert hk k; decide) _, ?_⟩
    simp only [namingWords, List.mem_cons, List.not_mem_nil, or_false] at hk
    rcases hk with rfl | rfl | rfl | rfl
    · refine sure_alt_left (sure_alt_left (sure_alt_left (sure_alt_left (sure_alt_left (sure_alt_left (sure_alt_left
        (sure_alt_right rfl (by decide) (by decide) (sure_done (sure_call (sure_rule (sure_seq ?_)))))))))))
      obtain ⟨a, t, e, ha⟩ := hx.start
      have hd : Fails u vN (.call .Dot) (x ++ r) := by rw [e]; exact fails_id L ha (by decide) _
      refine sure_cat_goes (goes_cat (goes_cat (goes_cat (goes_str _) (goes_skip L hw (ident_solid L hx _))) (goes_seq
        (goes_opt_nil (fails_cat hd)))) (goes_skip_nil L (ident_solid L hx _))) (sure_alt_right rfl (by decide) (by decide)
          (sure_restore (sure_call (sure_atomic (v := vN) (sure_rule (sure_seq ?_))))))
      exact sure_cat (sure_cat (sure_cat (sure_cat (sure_SYMBOL (v := vN) L rfl hx hr) fun _ => sure_skip _) fun _ =>
        sure_seq (sure_opt _ _)) fun _ => sure_skip _) fun _ => sure_opt _ _
    · exact sure_alt_left (sure_alt_left (sure_alt_left (sure_alt_left (sure_alt_left (sure_alt_left (sure_alt_right rfl
        (by decide) (by decide) (sure_done (sure_call (sure_rule (sure_class L hw hx hr))))))))))
    · exact sure_alt_left (sure_alt_left (sure_alt_left (sure_alt_left (sure_alt_left (sure_alt_right rfl
        (by decide) (by decide) (sure_done (sure_call (sure_rule (sure_class L hw hx hr)))))))))
    · refine sure_let (sure_call (sure_rule (sure_seq (sure_cat_goes (goes_cat (goes_str _) (goes_skip L hw (ident_solid L hx _)))
        (sure_call (sure_alt_right rfl (by decide) (by decide) (sure_seq (sure_cat (sure_cat (sure_cat (sure_cat (sure_call
          (sure_seq (sure_cat (sure_cat (sure_cat (sure_cat (sure_name L hx hr) fun _ => sure_skip _) fun _ =>
            sure_seq (sure_opt _ _)) fun _ => sure_skip _) fun _ => sure_opt _ _))) fun _ => sure_skip _) fun _ =>
            sure_opt _ _) fun _ => sure_skip _) fun _ => sure_opt _ _))))))))
  | @names w w1 t r hw hw1 hn =>
    obtain ⟨n1, n2, n3, -⟩ := names_goes L hn
    obtain ⟨v, hv, n4⟩ := goes_names L hn
    have hp : Solid u ('(' :: (w1 ++ t)) := solid_head L (.inr ⟨'(', _, rfl, List.mem_cons_self⟩) (S := ['(']) (by decide)
    exact ⟨word_solid L (by decide) _, sure_let (sure_call (sure_rule (sure_seq (sure_cat_goes (goes_cat (goes_str _)
      (goes_skip L hw hp)) (sure_call (sure_alt_left (sure_seq (sure_cat (sure_cat (sure_cat (sure_cat (sure_goes
        (goes_cat (goes_cat (goes_cat (goes_cat (goes_str ['(']) (goes_skip L hw1 n1)) n4)
          (goes_skip L hv n3)) (goes_str [')']))) fun _ => sure_skip _) fun _ => sure_opt _ _) fun _ => sure_skip _)
          fun _ => sure_opt _ _))))))))⟩
  | define hw hx hw1 hw2 hp => exact ⟨word_solid L (by decide) _, sure_define L hw hx hw1 (goes_parameters L hw2 hp)⟩
  | constant hw hx hw1 hw2 => exact ⟨word_solid L (by decide) _, sure_define L hw hx hw1 (goes_no_parameters L hw2)⟩
  | @semi b r =>
    refine ⟨solid_head L (semi_head b r) (by decide), ?_⟩
    refine sure_alt_left (sure_alt_left (sure_alt_left (sure_alt_left (sure_alt_left (sure_alt_left (sure_alt_left (sure_alt_left
      ?_)))))))
    exact sure_call (sure_rule (sure_alt_left (sure_goes (goes_eats (eats_eos b r)))))

/-- **C76** (violation).  A text that begins like a statement is never read as an expression: the parser panics or refuses
it, whatever follows.  No space is needed after the words, so `letter + 1`, `passed(3)` and `define(x)^2` are such texts. -/
theorem C76_never (L : Lawful u) {w z : Str} (hw : Blank u w) (h : Claimed u z) {c : Cfg} (hc : c.input = w ++ z) :
    parseText u c = .panic ∨ parseText u c = .err (.parseError c.errorText) :=
  parse_sure L hw (h.sure L).1 (h.sure L).2 hc

private theorem ident_ascii {a : Char} {t : Str} (h : asciiUni .xidStart a = true) (h' : ∀ d ∈ t, asciiUni .xidContinue d = true) :
    IsIdent asciiUni (a :: t) := .inl ⟨a, t, rfl, h, h'⟩

/-- `letter + 1`, `passed(3)` and `define(x)^2`, with anything after them. -/
example (r : Str) : ∀ z ∈ [c!"letter + 1", c!"passed(3)", c!"define(x)^2"],
    parseText asciiUni ⟨[], z ++ r, []⟩ = .panic ∨ parseText asciiUni ⟨[], z ++ r, []⟩ = .err (.parseError []) := by
  have n : ∀ (c : Char) (t : Str), asciiUni .xidContinue c = false → NoCont asciiUni (c :: t) := by
    rintro c t h d t' e; cases e; exact h
  intro z hz
  simp only [List.mem_cons, List.not_mem_nil, or_false] at hz
  rcases hz with rfl | rfl | rfl
  · exact C76_never lawful_asciiUni blank_nil (z := c!"letter + 1" ++ r)
      (.naming (k := c!"let") (w := []) (x := c!"ter") (by decide) blank_nil (ident_ascii (by decide) (by decide))
        (n ' ' (c!"+ 1" ++ r) (by decide))) rfl
  · exact C76_never lawful_asciiUni blank_nil (z := c!"passed(3)" ++ r) (.control (k := c!"pass") (by decide)) rfl
  · exact C76_never lawful_asciiUni blank_nil (z := c!"define(x)^2" ++ r)
      (.define (w := []) (x := c!"ine") (w1 := []) (w2 := []) (t := c!"x)^2" ++ r) blank_nil
        (ident_ascii (by decide) (by decide)) blank_nil blank_nil
        (.one (.plain (x := c!"x") (w := []) (ident_ascii (by decide) (by decide)) blank_nil (.inr ⟨')', _, rfl, by decide⟩)))) rfl

end SM.Props
