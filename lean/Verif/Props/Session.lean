import Verif.Props.Lang3
import Verif.Props.Runner
import Verif.Props.Eval
/-
C54: what a session with the modelled parser answers to texts of the expression language.
-/
namespace SM.Props
open SM SM.Peg

variable {u : Uni}

/-- Evaluation does not look at positions. -/
theorem forward_erase (w : Width) (a : AST) : forward w (erase a) = forward w a := by
  have h1 : ∀ (f : AST → SMResult AST), (∀ a, f (erase a) = f a) → ∀ l, onArg0 f (eraseL l) = onArg0 f l := by
    intro f hf l
    cases l with
    | nil => rfl
    | cons a l => rw [eraseL]; exact hf a
  have h2 : ∀ f : List AST → SMResult AST, (∃ m, ∀ l, (¬ ∃ i j, l = [AST.integer i, .integer j]) → f l = .err m) →
      ∀ l, f (eraseL l) = f l := by
    rintro f ⟨m, hm⟩ l
    by_cases hl : ∃ i j, l = [AST.integer i, .integer j]
    · obtain ⟨i, j, rfl⟩ := hl
      simp [eraseL, erase]
    · rw [hm l hl, hm]
      rintro ⟨i, j, h⟩
      apply hl
      match l, h with
      | [a, b], h =>
        simp only [eraseL, List.cons.injEq, and_true] at h
        obtain ⟨ha, hb⟩ := h
        cases a <;> simp [erase] at ha
        cases b <;> simp [erase] at hb
        exact ⟨i, j, by rw [ha, hb]⟩
      | [], h => simp [eraseL] at h
      | [a], h => simp [eraseL] at h
      | a :: b :: c :: l, h => simp [eraseL] at h
  have two : ∀ {l : List AST}, ¬ (∃ i j, l = [AST.integer i, .integer j]) → ∀ i j, l ≠ [AST.integer i, .integer j] :=
    fun h i j e => h ⟨i, j, e⟩
  cases a with
  | program l => rfl
  | function s ps =>
    match ps with
    | [] => rfl
    | [.mk as o p] =>
      simp only [erase, eraseP, eraseParam, forward, evaluateFunction, Param.arguments]
      rw [h1 first (by intro a; cases a <;> rfl), h1 last (by intro a; cases a <;> rfl),
        h1 length (by intro a; cases a <;> rfl), h1 (factorial w) (by intro a; cases a <;> rfl),
        h1 (fibonacci w) (by intro a; cases a <;> rfl),
        h2 evaluateAdditive ⟨_, fun l hl => by
          unfold evaluateAdditive; split <;> [exact absurd rfl (two hl _ _); rfl]⟩,
        h2 evaluateMultiplicative ⟨_, fun l hl => by
          unfold evaluateMultiplicative; split <;> [exact absurd rfl (two hl _ _); rfl]⟩,
        h2 evaluatePower ⟨_, fun l hl => by
          unfold evaluatePower; split <;> [exact absurd rfl (two hl _ _); rfl]⟩]
    | .mk .. :: .mk .. :: ps => simp only [erase, eraseP, eraseParam, forward]
  | _ => rfl

/-- How a session parses a text: the file is called `anonymous`; `msg` gives the message of a parse error. -/
def replCfg (msg : Str → Str) (s : Str) : Cfg := { file := c!"anonymous", input := s, errorText := msg s }

/-- The parser of a session. -/
def replParse (u : Uni) (msg : Str → Str) (s : Str) : SMResult AST := parseText u (replCfg msg s)

/-- Whatever was submitted before, the session answers like this. -/
def Answers (u : Uni) (msg : Str → Str) (w : Width) (s : Str) (r : SMResult Str) : Prop :=
  ∀ h : List Call, ((session w (replParse u msg) h).evaluate w (replParse u msg) s).out = r

/-- What a parsed text evaluates to, printed. -/
def shown (w : Width) (r : SMResult AST) : SMResult Str := r >>= fun a => forward w a >>= fun o => Out.unwrap o.display

theorem answers_of {msg : Str → Str} {w : Width} {s : Str} {r : SMResult AST}
    (h : eraseR (parseText u (replCfg msg s)) = r) :
    Answers u msg w s (shown w r) := by
  intro hist
  rw [C22_outcome_independent_of_history, printed, value, replParse, ← h, shown]
  cases parseText u (replCfg msg s) with
  | ok a => simp only [eraseR]; show _ = forward w (erase a) >>= _; rw [forward_erase]; rfl
  | err e => rfl
  | panic => rfl

theorem shown_err {w : Width} {a : AST} {e : SMError} (h : forward w a = .err e) : shown w (.ok a) = .err e := by
  rw [shown, Out.ok_bind, h]
  rfl

/-- **C54**.  A text of the expression language is answered with the printed result of evaluating the value of the
expression; if it has none, the call panics. -/
theorem C54_expressions (L : Lawful u) (msg : Str → Str) (w : Width) (e : SExpr) (h : e.Ok u) (hn : Wordless e.text)
    {wl wr : Str} (hl : Blank u wl) (hr : Blank u wr) :
    Answers u msg w (wl ++ (e.text ++ wr)) (shown w (answer e.value)) :=
  answers_of (C53_expressions L (replCfg msg _) e h hn hl hr rfl)

theorem answers_leaf {msg : Str → Str} {w : Width} {s t : Str} {a : AST} (ha : Leaf a)
    (h : parseText u (replCfg msg s) = .ok a) (ht : a.display = some t) : Answers u msg w s (.ok t) := by
  have h1 := answers_of (msg := msg) (w := w) (r := .ok (erase a)) (by rw [h]; rfl)
  have h2 : shown w (.ok (erase a)) = .ok t := by
    rw [shown, Out.ok_bind, forward_erase]
    have : forward w a = .ok a := by cases a <;> first | rfl | exact absurd ha (fun h => h)
    rw [this, Out.ok_bind, ht]
    rfl
  rw [h2] at h1
  exact h1

/-- **C54**.  Numbers, decimal fractions and names are echoed; of a string in quotes, the part between the quotes. -/
theorem C54_literals (L : Lawful u) (msg : Str → Str) (w : Width) {wl wr : Str} (hl : Blank u wl) (hr : Blank u wr) :
    (∀ n, Answers u msg w (wl ++ (numeral n ++ wr)) (.ok (numeral n))) ∧
    (∀ i f, Answers u msg w (wl ++ ((numeral i ++ '.' :: numeral f) ++ wr)) (.ok (numeral i ++ '.' :: numeral f))) ∧
    (∀ s, contentOk s = true → Answers u msg w (wl ++ (('"' :: (s ++ c!"\"")) ++ wr)) (.ok s)) ∧
    (∀ x, IsIdent u x → (∀ k ∈ reserved, strip k x = none) → Answers u msg w (wl ++ (x ++ wr)) (.ok x)) := by
  refine ⟨fun n => ?_, fun i f => ?_, fun s hs => ?_, fun x hx hk => ?_⟩
  · have h := C38_integers L (replCfg msg (wl ++ (numeral n ++ wr))) n hl hr rfl
    exact answers_leaf (a := .integer n) trivial h.1 h.2
  · obtain ⟨d, h, _, hd⟩ := C40_decimals L (replCfg msg (wl ++ ((numeral i ++ '.' :: numeral f) ++ wr))) i f hl hr rfl
    exact answers_leaf (a := .decimal d) trivial h hd
  · exact answers_leaf (a := .string s) trivial (C41_strings L (replCfg msg _) hs hl hr rfl) (by rw [AST.display])
  · exact answers_leaf (a := .symbol _) trivial (C42_identifiers L (replCfg msg _) hx hk hl hr rfl) (by rw [AST.display]; rfl)

/-- The text of one operator between two terms. -/
def binaryText (t : STerm) (wb : Str) (o : Op) (wa : Str) (x : STerm) : Str :=
  t.text ++ (wb ++ (Tok.op o).char :: (wa ++ x.text))

theorem answers_binary (L : Lawful u) (msg : Str → Str) (w : Width) (t x : STerm) (o : Op) (wb wa : Str)
    (h : (SExpr.mk t [.mk wb (.op o) wa x]).Ok u) {wl wr : Str} (hl : Blank u wl) (hr : Blank u wr)
    (hwl : Wordless (binaryText t wb o wa x)) {a b : AST} (ha : t.value = some a) (hb : x.value = some b) :
    Answers u msg w (wl ++ (binaryText t wb o wa x ++ wr)) (shown w (answer (o.apply a b))) := by
  have := parse_binary L (replCfg msg (wl ++ (binaryText t wb o wa x ++ wr)))
    t x o wb wa h hl hr hwl rfl
  rw [ha, hb] at this
  exact answers_of this

/-- **C54**.  The product of two integers. -/
theorem C54_times (L : Lawful u) (msg : Str → Str) (w : Width) (t x : STerm) (wb wa : Str)
    (h : (SExpr.mk t [.mk wb (.op .star) wa x]).Ok u) {wl wr : Str} (hl : Blank u wl) (hr : Blank u wr)
    (hwl : Wordless (binaryText t wb .star wa x)) {a b : Int} (ha : t.value = some (.integer a))
    (hb : x.value = some (.integer b)) :
    Answers u msg w (wl ++ (binaryText t wb .star wa x ++ wr)) (.ok (intStr (a * b))) :=
  answers_binary L msg w t x .star wb wa h hl hr hwl ha hb

/-- **C54**.  Powers of integers with an exponent below `2 ^ 64`. -/
theorem C54_power (L : Lawful u) (msg : Str → Str) (w : Width) (t x : STerm) (wb wa : Str)
    (h : (SExpr.mk t [.mk wb (.op .caret) wa x]).Ok u) {wl wr : Str} (hl : Blank u wl) (hr : Blank u wr)
    (hwl : Wordless (binaryText t wb .caret wa x)) {a : Int} {n : Nat} (hn : n < 2 ^ 64)
    (ha : t.value = some (.integer a)) (hb : x.value = some (.integer n)) :
    Answers u msg w (wl ++ (binaryText t wb .caret wa x ++ wr)) (.ok (intStr (a ^ n))) := by
  have h1 := answers_binary L msg w t x .caret wb wa h hl hr hwl ha hb
  have h2 : forward w (.function Op.caret.sym [.mk [.integer a, .integer n] [] noPos]) = .ok (.integer (a ^ n)) :=
    C21_power w Op.caret.sym rfl a n hn [] noPos
  simp only [Op.apply, answer, shown] at h1
  rw [Out.ok_bind, h2] at h1
  exact h1

/-- **C54** (violation).  With a larger exponent the answer is the base. -/
theorem C54_power_large (L : Lawful u) (msg : Str → Str) (w : Width) (t x : STerm) (wb wa : Str)
    (h : (SExpr.mk t [.mk wb (.op .caret) wa x]).Ok u) {wl wr : Str} (hl : Blank u wl) (hr : Blank u wr)
    (hwl : Wordless (binaryText t wb .caret wa x)) {a : Int} {n : Int} (hn : 2 ^ 64 ≤ n)
    (ha : t.value = some (.integer a)) (hb : x.value = some (.integer n)) :
    Answers u msg w (wl ++ (binaryText t wb .caret wa x ++ wr)) (.ok (intStr a)) := by
  have h1 := answers_binary L msg w t x .caret wb wa h hl hr hwl ha hb
  have h2 : forward w (.function Op.caret.sym [.mk [.integer a, .integer n] [] noPos]) = .ok (.integer a) :=
    C21_power_out_of_range w Op.caret.sym rfl a n (.inr hn) [] noPos
  simp only [Op.apply, answer, shown] at h1
  rw [Out.ok_bind, h2] at h1
  exact h1

/-- **C54** (violation).  No other sum, difference, product, quotient or power is computed: the answer is an error.  This
covers `+ - × / ÷` between whatever operands, and `* ^` unless both operands are integers by themselves, so that
`2 * 3 * 4` and `(2 * 3) ^ 2` are errors. -/
theorem C54_operators (L : Lawful u) (msg : Str → Str) (w : Width) (t x : STerm) (o : Op) (wb wa : Str)
    (h : (SExpr.mk t [.mk wb (.op o) wa x]).Ok u) {wl wr : Str} (hl : Blank u wl) (hr : Blank u wr)
    (hwl : Wordless (binaryText t wb o wa x)) {a b : AST} (ha : t.value = some a) (hb : x.value = some b)
    (hd : o ≠ .dot) (hs : o ∈ [.star, .caret] → ¬ ∃ i j, a = .integer i ∧ b = .integer j) :
    ∃ m, Answers u msg w (wl ++ (binaryText t wb o wa x ++ wr)) (.err (.unimplemented m)) := by
  have h1 := answers_binary L msg w t x o wb wa h hl hr hwl ha hb
  suffices ∃ m, shown w (answer (o.apply a b)) = .err (.unimplemented m) by
    obtain ⟨m, hm⟩ := this
    exact ⟨m, hm ▸ h1⟩
  cases o with
  | dot => exact absurd rfl hd
  | star =>
    have h2 := hs (by simp)
    have : evaluateMultiplicative [a, b] = .err (unimplementedAt c!"evaluate_multiplicative" 88) := by
      unfold evaluateMultiplicative
      split
      · rename_i i j e
        rw [List.cons.injEq, List.cons.injEq] at e
        exact absurd ⟨i, j, e.1, e.2.1⟩ h2
      · rfl
    exact ⟨_, shown_err this⟩
  | caret =>
    have h2 := hs (by simp)
    have : evaluatePower [a, b] = .err (unimplementedAt c!"evaluate_power" 101) := by
      unfold evaluatePower
      split
      · rename_i i j e
        rw [List.cons.injEq, List.cons.injEq] at e
        exact absurd ⟨i, j, e.1, e.2.1⟩ h2
      · rfl
    exact ⟨_, shown_err this⟩
  | _ => exact ⟨_, rfl⟩

/-- **C54**.  Two numbers side by side are multiplied, with at least one blank between them. -/
theorem C54_juxtaposition (L : Lawful u) (msg : Str → Str) (w : Width) (a b : Nat) {g : Str} (h0 : g ≠ [])
    (hg : ∀ c ∈ g, HWs u c) {wl wr : Str} (hl : Blank u wl) (hr : Blank u wr) :
    Answers u msg w (wl ++ ((numeral a ++ (g ++ numeral b)) ++ wr)) (.ok (numeral (a * b))) := by
  have h1 := C43_products L
    (replCfg msg (wl ++ ((numeral a ++ (g ++ numeral b)) ++ wr)))
    (.int a) (g, .int b) [] trivial ⟨hg, trivial, .inl h0, trivial⟩
    (by simpa [SFactor.text, factorsText] using numeral_wordless a (g ++ numeral b)) hl hr
    (by simp [SFactor.text, factorsText, replCfg])
  have h2 := answers_of (msg := msg) (w := w) h1
  simp only [SFactor.value, List.map_nil, shown] at h2
  rw [Out.ok_bind] at h2
  have h3 : forward w (.function ⟨[c!"std", c!"infix"], c!"times", .infix c!"*" 140, 0⟩
      [.mk [.integer a, .integer b] [] noPos]) = .ok (.integer (a * b)) := rfl
  rw [h3] at h2
  have h4 : intStr ((a : Int) * b) = numeral (a * b) := by
    rw [intStr, if_neg (by have := Int.mul_nonneg (Int.natCast_nonneg a) (Int.natCast_nonneg b); omega),
      ← Int.natCast_mul, Int.natAbs_natCast]
    rfl
  rw [← h4]
  exact h2

/-- **C54** (violation).  More than two numbers or names side by side are not multiplied, nor are names: the answer is an
error. -/
theorem C54_products (L : Lawful u) (msg : Str → Str) (w : Width) (f : SFactor) (m : Str × SFactor)
    (l : List (Str × SFactor)) (hf : f.Ok u) (hl : FactorsOk u f (m :: l))
    (hn : Wordless (f.text ++ factorsText (m :: l))) {wl wr : Str} (hwl : Blank u wl) (hwr : Blank u wr)
    (h : l ≠ [] ∨ (∃ p, f = .sym p) ∨ ∃ p, m.2 = .sym p) :
    ∃ e, Answers u msg w (wl ++ ((f.text ++ factorsText (m :: l)) ++ wr)) (.err (.unimplemented e)) := by
  have h1 := answers_of (msg := msg) (w := w) (C43_products L
    (replCfg msg (wl ++ ((f.text ++ factorsText (m :: l)) ++ wr)))
    f m l hf hl hn hwl hwr rfl)
  have : evaluateMultiplicative (f.value :: m.2.value :: l.map fun m => m.2.value) =
      .err (unimplementedAt c!"evaluate_multiplicative" 88) := by
    unfold evaluateMultiplicative
    split
    · rename_i i j e
      rw [List.cons.injEq, List.cons.injEq] at e
      obtain ⟨e1, e2, e3⟩ := e
      rcases h with h | ⟨p, rfl⟩ | ⟨p, hp⟩
      · exact absurd (List.map_eq_nil_iff.1 e3) h
      · cases e1
      · rw [hp] at e2
        cases e2
    · rfl
  have h2 : shown w (.ok (.function ⟨[c!"std", c!"infix"], c!"times", .infix c!"*" 140, 0⟩
      [.mk (f.value :: m.2.value :: l.map fun m => m.2.value) [] noPos])) =
      .err (unimplementedAt c!"evaluate_multiplicative" 88) :=
    shown_err this
  rw [h2] at h1
  exact ⟨_, h1⟩

/-- The text of an operand and a suffix. -/
theorem answers_suffix (L : Lawful u) (msg : Str → Str) (w : Width) (n : SNode) (hn : n.Ok u) {a : AST}
    (ha : n.value = some a) (hwl : Wordless (n.text ++ c!"!")) {wl wr : Str} (hl : Blank u wl) (hr : Blank u wr) :
    Answers u msg w (wl ++ ((n.text ++ c!"!") ++ wr)) (factorial w a >>= fun o => Out.unwrap o.display) := by
  have h1 := C45_inside_out L
    (replCfg msg (wl ++ ((n.text ++ c!"!") ++ wr))) [] n [false] (by simp) hn
    (sufsOk_ops [false] (by simp)) ha hl hr hwl rfl
  exact answers_of h1

/-- **C54**.  `n!` for an integer below half the machine word range. -/
theorem C54_factorial (L : Lawful u) (msg : Str → Str) (w : Width) (n : SNode) (hn : n.Ok u) {k : Nat}
    (ha : n.value = some (.integer k)) (hk : (k : Int) < 2 ^ (w.bits - 1)) (hwl : Wordless (n.text ++ c!"!"))
    {wl wr : Str} (hl : Blank u wl) (hr : Blank u wr) :
    Answers u msg w (wl ++ ((n.text ++ c!"!") ++ wr)) (.ok (numeral k.factorial)) := by
  have h1 := answers_suffix L msg w n hn ha hwl hl hr
  have h2 : factorial w (.integer k) = .ok (.integer k.factorial) := by
    simp [factorial, ofAlgRes, C01_factorial_value w k hk, Out.mapErr]
  rw [h2] at h1
  exact h1

/-- **C54** (violation).  `!` after a decimal fraction gives the fraction back, and after anything but a number -- also
after a sum, product or another factorial in parentheses -- it makes the call panic. -/
theorem C54_factorial_other (L : Lawful u) (msg : Str → Str) (w : Width) (n : SNode) (hn : n.Ok u) {a : AST}
    (ha : n.value = some a) (hwl : Wordless (n.text ++ c!"!")) {wl wr : Str} (hl : Blank u wl) (hr : Blank u wr) :
    (∀ d, a = .decimal d → Answers u msg w (wl ++ ((n.text ++ c!"!") ++ wr)) (.ok (decStr d))) ∧
      ((∀ i, a ≠ .integer i) → (∀ d, a ≠ .decimal d) → Answers u msg w (wl ++ ((n.text ++ c!"!") ++ wr)) .panic) := by
  have h1 := answers_suffix L msg w n hn ha hwl hl hr
  constructor
  · rintro d rfl
    exact h1
  · intro hi hd
    have h2 : factorial w a = .panic := by
      cases a with
      | integer i => exact absurd rfl (hi i)
      | decimal d => exact absurd rfl (hd d)
      | _ => rfl
    rw [h2] at h1
    exact h1

/-- **C54** (violation).  Signs are not computed: the answer to a text that begins with a prefix operator is an error,
also for negative numbers. -/
theorem C54_prefixes (L : Lawful u) (msg : Str → Str) (w : Width) (p : Pre) (ps : List Pre) (n : SNode) (ds : List Bool)
    (hps : Pre.neg ∉ p :: ps) (hn : n.Ok u) (hds : SufsOk u (ds.map fun d => .op (suffixText d))) {a : AST}
    (ha : n.value = some a) {wl wr : Str} (hl : Blank u wl) (hr : Blank u wr)
    (hwl : Wordless ((p :: ps).map Pre.char ++ (n.text ++ ds.flatMap suffixText))) :
    ∃ e, Answers u msg w (wl ++ (((p :: ps).map Pre.char ++ (n.text ++ ds.flatMap suffixText)) ++ wr))
      (.err (.unimplemented e)) := by
  have h1 := answers_of (msg := msg) (w := w) (C45_inside_out L
    (replCfg msg (wl ++ (((p :: ps).map Pre.char ++ (n.text ++ ds.flatMap suffixText)) ++ wr))) (p :: ps) n ds hps hn hds ha hl hr hwl rfl)
  cases p with
  | neg => exact absurd (List.mem_cons_self ..) hps
  | plus =>
    have : ∀ x, evaluateAdditive [x] = .err (unimplementedAt c!"evaluate_additive" 78) := by intro x; cases x <;> rfl
    have : ∀ x, shown w (.ok (call1 (prefixOf .plus) x)) = .err (unimplementedAt c!"evaluate_additive" 78) :=
      fun x => shown_err (this x)
    rw [List.foldr_cons, this] at h1
    exact ⟨_, h1⟩
  | _ => exact ⟨_, h1⟩

/-- The built-in functions of integers. -/
def builtin (w : Width) (f : Str) (args : List Int) : Option Int :=
  match args with
  | [a, b] =>
    if f = c!"plus" then some (a + b)
    else if f = c!"times" then some (a * b)
    else if f = c!"power" ∧ 0 ≤ b ∧ b < 2 ^ 64 then some (a ^ b.toNat)
    else none
  | [a] =>
    if f = c!"factorial" ∧ 0 ≤ a ∧ a < 2 ^ (w.bits - 1) then some a.toNat.factorial
    else if f = c!"fibonacci" ∧ 0 ≤ a ∧ a < 2 ^ (w.bits - 1) then some (Nat.fib a.toNat)
    else none
  | _ => none

/-- **C54**.  Calls of the built-in functions with integers.  Only the last part of the name counts, whatever module it
is taken from. -/
theorem C54_calls (L : Lawful u) (msg : Str → Str) (w : Width) (p : Path) (h : Str) (i : SItem) (l : List SItem)
    (o : Trail) (hp : p.Ok u) (ha : (SArgs.some h i l o).Ok u) {wl wr : Str} (hl : Blank u wl) (hr : Blank u wr)
    (hwl : Wordless (p.text ++ (h ++ '(' :: (i.text ++ itemsText l (trailText o ++ c!")")))))
    {args : List Int} (hargs : List.Forall₂ SItem.Means (i :: l) (args.map fun a => (none, .integer a))) {r : Int}
    (hb : builtin w (Sym.ofStr p.text).name args = some r) :
    Answers u msg w (wl ++ ((p.text ++ (h ++ '(' :: (i.text ++ itemsText l (trailText o ++ c!")")))) ++ wr))
      (.ok (intStr r)) := by
  have h1 := answers_of (msg := msg) (w := w) (parse_call L
    (replCfg msg (wl ++ ((p.text ++ (h ++ '(' :: (i.text ++ itemsText l (trailText o ++ c!")")))) ++ wr))) p h i l o hp ha hl hr hwl rfl hargs)
  have hu : unnamed (args.map fun a => ((none, .integer a) : Argument)) = args.map AST.integer := by
    simp [unnamed, List.filterMap_map]
  rw [hu] at h1
  suffices ∀ o, forward w (.function (Sym.ofStr p.text) [.mk (args.map AST.integer) o noPos]) = .ok (.integer r) by
    simp only [shown] at h1
    rw [Out.ok_bind, this] at h1
    exact h1
  intro o
  generalize Sym.ofStr p.text = s at hb
  unfold builtin at hb
  split at hb
  · rename_i a b
    split at hb
    · rename_i hs
      cases hb
      exact C21_plus w s hs a b o noPos
    · split at hb
      · rename_i hs
        cases hb
        exact C21_product w s hs a b o noPos
      · split at hb
        · rename_i hs
          cases hb
          have := C21_power w s hs.1 a b.toNat (by omega) o noPos
          rw [Int.toNat_of_nonneg hs.2.1] at this
          exact this
        · cases hb
  · rename_i a
    split at hb
    · rename_i hs
      cases hb
      have := C21_factorial w s hs.1 a.toNat (by rw [Int.toNat_of_nonneg hs.2.1]; exact hs.2.2) [] o noPos
      rw [Int.toNat_of_nonneg hs.2.1] at this
      exact this
    · split at hb
      · rename_i hs
        cases hb
        have := C21_fibonacci w s hs.1 a.toNat (by rw [Int.toNat_of_nonneg hs.2.1]; exact hs.2.2) [] o noPos
        rw [Int.toNat_of_nonneg hs.2.1] at this
        exact this
      · cases hb
  · cases hb

/-- **C54**.  Blank texts are answered with a panic. -/
theorem C54_blank (L : Lawful u) (msg : Str → Str) (w : Width) {s : Str} (hs : Blank u s) : Answers u msg w s .panic := by
  have h := answers_of (u := u) (msg := msg) (w := w) (r := .ok (erase .empty)) (by
    rw [C46_blank L (replCfg msg s) hs]; rfl)
  exact h

/-- **C54**.  On the page, a text that makes the session panic leaves every later call without an answer. -/
theorem C54_page (msg : Str → Str) (w : Width) (tex : AST → Option Str) (dbg : SMError → Str) {s : Str}
    (h : Answers u msg w s .panic) (before after : List PlayCall) (i : Nat) (hi : before.length ≤ i)
    (hi' : i < (before ++ PlayCall.result s :: after).length) :
    ¬ ∃ t, (answers w (replParse u msg) tex dbg {} (before ++ PlayCall.result s :: after))[i]? = some (some t) := by
  rw [C25_answered_iff w _ tex dbg _ i hi']
  intro hc
  apply hc before.length (by simp) hi
  have := h []
  rw [C22_outcome_independent_of_history] at this
  simpa [PanicsItself] using this

/-! ### Concrete cases -/

theorem intTerm_ok (n : Nat) : (STerm.mk [] (.atom (.int n)) []).Ok u := by
  rw [STerm.Ok, SNode.Ok, SufsOk]
  exact ⟨trivial, trivial⟩

theorem intTerm_value (n : Nat) : (STerm.mk [] (.atom (.int n)) []).value = some (.integer n) := by
  simp [STerm.value, SNode.value, SAtom.value, sufsApply, preFold]

theorem intTerm_text (n : Nat) : (STerm.mk [] (.atom (.int n)) []).text = numeral n := by
  simp [STerm.text, SNode.text, SAtom.text, sufsText]

theorem intBinary_ok {o : Op} (a b : Nat) {wb wa : Str} (hb : Blank u wb) (ha : Blank u wa) (hd : o ≠ .dot)
    (hs : o = .slash → ∀ r, wa ≠ '/' :: r) :
    (SExpr.mk (.mk [] (.atom (.int a)) []) [.mk wb (.op o) wa (.mk [] (.atom (.int b)) [])]).Ok u := by
  rw [SExpr.Ok, StepsOk, StepsOk]
  exact ⟨intTerm_ok a, fun _ _ h => absurd (Tok.op.inj h) hd, hb, ha, fun h => hs (Tok.op.inj h), intTerm_ok b, trivial⟩

/-- **C54**.  The product of two numbers, with any blank space around the sign. -/
theorem C54_numbers (L : Lawful u) (msg : Str → Str) (w : Width) (a b : Nat) {wb wa wl wr : Str} (hb : Blank u wb)
    (ha : Blank u wa) (hl : Blank u wl) (hr : Blank u wr) :
    Answers u msg w (wl ++ ((numeral a ++ (wb ++ '*' :: (wa ++ numeral b))) ++ wr)) (.ok (numeral (a * b))) := by
  have h1 := C54_times L msg w (.mk [] (.atom (.int a)) []) (.mk [] (.atom (.int b)) []) wb wa
    (intBinary_ok a b hb ha (by decide) (fun h => nomatch h)) hl hr
    (by rw [binaryText, intTerm_text]; exact numeral_wordless a _) (intTerm_value a) (intTerm_value b)
  rw [binaryText, intTerm_text, intTerm_text] at h1
  have h4 : intStr ((a : Int) * b) = numeral (a * b) := by
    rw [← Int.natCast_mul]
    rfl
  rw [← h4]
  exact h1

/-- `6 * 7` is 42. -/
example (msg : Str → Str) (w : Width) : Answers asciiUni msg w c!"6 *7" (.ok c!"42") :=
  C54_numbers lawful_asciiUni msg w 6 7 (wb := c!" ") (wa := []) (wl := []) (wr := []) (blank_ws (by unfold Ws; decide))
    blank_nil blank_nil blank_nil

/-- `2+2` is an error. -/
example (msg : Str → Str) (w : Width) : ∃ m, Answers asciiUni msg w c!"2+2" (.err (.unimplemented m)) := by
  have h := C54_operators lawful_asciiUni msg w (.mk [] (.atom (.int 2)) []) (.mk [] (.atom (.int 2)) []) .plus [] []
    (intBinary_ok 2 2 blank_nil blank_nil (by decide) (fun h => nomatch h)) blank_nil blank_nil (wl := []) (wr := [])
    (by rw [binaryText, intTerm_text]; exact numeral_wordless 2 _) (intTerm_value 2) (intTerm_value 2) (by decide)
    (by simp)
  rw [binaryText, intTerm_text] at h
  exact h

/-- `5!` is 120. -/
example (msg : Str → Str) : Answers asciiUni msg .w64 c!"5!" (.ok c!"120") := by
  have h := C54_factorial lawful_asciiUni msg .w64 (.atom (.int 5)) (by rw [SNode.Ok]; trivial) (k := 5)
    (by rw [SNode.value]; rfl) (by decide) (by rw [SNode.text]; exact numeral_wordless 5 _) (wl := []) (wr := []) blank_nil
    blank_nil
  rw [SNode.text] at h
  exact h

/-- `(2*3)!` panics. -/
example (msg : Str → Str) (w : Width) : Answers asciiUni msg w c!"(2*3)!" .panic := by
  have hok : (SExpr.mk (.mk [] (.atom (.int 2)) []) [.mk [] (.op .star) [] (.mk [] (.atom (.int 3)) [])]).Ok asciiUni :=
    intBinary_ok 2 3 blank_nil blank_nil (by decide) (fun h => nomatch h)
  have ht : (SNode.paren (.mk (.mk [] (.atom (.int 2)) []) [.mk [] (.op .star) [] (.mk [] (.atom (.int 3)) [])]) []).text =
      c!"(2*3)" := by
    rw [SNode.text, SExpr.text, stepsText, stepsText, SStep.text, intTerm_text, intTerm_text]
    decide
  have h := (C54_factorial_other lawful_asciiUni msg w
    (.paren (.mk (.mk [] (.atom (.int 2)) []) [.mk [] (.op .star) [] (.mk [] (.atom (.int 3)) [])]) [])
    (by rw [SNode.Ok]; exact ⟨hok, blank_nil, .inr rfl⟩)
    (a := .function Op.star.sym [.mk [.integer 2, .integer 3] [] noPos])
    (by
      rw [SNode.value, SExpr.value, stepsValue, stepsValue, intTerm_value]
      simp only [intTerm_value]
      rfl)
    (by rw [ht]; exact wordless_head (c := '(') rfl (by decide)) (wl := []) (wr := []) blank_nil blank_nil).2
    (fun i h => nomatch h) (fun i h => nomatch h)
  rw [ht] at h
  exact h

/-- `fibonacci(10)` is 55. -/
example (msg : Str → Str) : Answers asciiUni msg .w64 c!"fibonacci(10)" (.ok c!"55") := by
  have h := C54_calls lawful_asciiUni msg .w64 ⟨c!"fibonacci", []⟩ []
    (.mk false [] (.expr (.node (.atom (.int 10)))) []) [] none
    ⟨.inl ⟨'f', c!"ibonacci", rfl, by decide, by decide⟩, by simp⟩
    (by
      simp only [SArgs.Ok, SItem.Ok, ItemsOk, SContent.Ok]
      exact ⟨by simp, ⟨blank_nil, blank_nil, rfl, intExpr_ok 10⟩, trivial, fun _ _ h => nomatch h⟩)
    (wl := []) (wr := []) blank_nil blank_nil
    (by rw [show _ ++ _ = c!"fibonacci(10)" by decide]; unfold Wordless; decide) (args := [10])
    (.cons ⟨rfl, by rw [node_value, SNode.value]; rfl⟩ .nil) (r := 55) (by decide)
  exact h

end SM.Props
