import Verif.Props.Wolfram
import Verif.Props.Typed
/-
C79: what the Wolfram export keeps and what it loses.
-/
namespace SM.Props
open SM SM.Peg

variable (cap : Str → Str)

/-- The name under which a function is exported. -/
def exportedName (s : Sym) : Str := if s.name = c!"factor" then c!"FactorInteger" else cap s.name

mutual
/-- Two expressions that differ at most in what the export loses: in positions, in the paths of names, in being
operators or calls, and in function names with the same exported name. -/
def Same : AST → AST → Prop
  | .empty, b => b = .empty
  | .program l, b => ∃ m, b = .program m ∧ SameArgs l m
  | .function s ps, b => ∃ t qs, b = .function t qs ∧ exportedName cap s = exportedName cap t ∧ SameParams ps qs
  | .boolean x, b => b = .boolean x
  | .integer n, b => b = .integer n
  | .decimal d, b => ∃ e, b = .decimal e ∧ decStr d = decStr e
  | .symbol s, b => ∃ t, b = .symbol t ∧ s.name = t.name
  | .string x, b => b = .string x
termination_by structural a => a
/-- The same argument lists. -/
def SameParams : List Param → List Param → Prop
  | [], qs => qs = []
  | p :: ps, qs => ∃ q qs', qs = q :: qs' ∧ SameParam p q ∧ SameParams ps qs'
termination_by structural ps => ps
/-- The same argument list. -/
def SameParam : Param → Param → Prop
  | .mk as os _, q => SameArgs as q.arguments ∧ SameOpts os q.options
termination_by structural p => p
/-- The same arguments. -/
def SameArgs : List AST → List AST → Prop
  | [], bs => bs = []
  | a :: as, bs => ∃ b bs', bs = b :: bs' ∧ Same a b ∧ SameArgs as bs'
termination_by structural as => as
/-- The same named arguments. -/
def SameOpts : List (AST × AST) → List (AST × AST) → Prop
  | [], us => us = []
  | o :: os, us => ∃ v us', us = v :: us' ∧ SameOpt o v ∧ SameOpts os us'
termination_by structural os => os
/-- The same named argument. -/
def SameOpt : AST × AST → AST × AST → Prop
  | (k, a), v => Same k v.1 ∧ Same a v.2
termination_by structural o => o
end

mutual
/-- Expressions without anything that is exported like something else: no program, no call without an argument list,
no function that is exported as `Rule`, no symbol `True` or `False`. -/
def Clear : AST → Prop
  | .program _ => False
  | .function s ps => ps ≠ [] ∧ exportedName cap s ≠ c!"Rule" ∧ ClearParams ps
  | .symbol s => s.name ≠ c!"True" ∧ s.name ≠ c!"False"
  | .empty | .boolean _ | .integer _ | .decimal _ | .string _ => True
termination_by structural a => a
/-- Such argument lists. -/
def ClearParams : List Param → Prop
  | [] => True
  | p :: ps => ClearParam p ∧ ClearParams ps
termination_by structural ps => ps
/-- Such an argument list. -/
def ClearParam : Param → Prop
  | .mk as os _ => ClearArgs as ∧ ClearOpts os
termination_by structural p => p
/-- Such arguments. -/
def ClearArgs : List AST → Prop
  | [] => True
  | a :: as => Clear a ∧ ClearArgs as
termination_by structural as => as
/-- Such named arguments. -/
def ClearOpts : List (AST × AST) → Prop
  | [] => True
  | o :: os => ClearOpt o ∧ ClearOpts os
termination_by structural os => os
/-- Such a named argument. -/
def ClearOpt : AST × AST → Prop
  | (k, a) => Clear k ∧ Clear a
termination_by structural o => o
end

/-! ### What is the same is exported alike -/

mutual
theorem same_export : ∀ a b : AST, Same cap a b → a.toWolfram cap = b.toWolfram cap
  | .empty, b, h => by rw [Same] at h; rw [h]
  | .program l, b, h => by
    rw [Same] at h
    obtain ⟨m, rfl, h⟩ := h
    rw [AST.toWolfram, AST.toWolfram, same_args l m h]
  | .function s ps, b, h => by
    rw [Same] at h
    obtain ⟨t, qs, rfl, h1, h2⟩ := h
    rw [AST.toWolfram, AST.toWolfram, wolframParams_eq, wolframParams_eq]
    have e : functionMap cap s = functionMap cap t := h1
    rw [e]
    have := same_params ps qs h2
    generalize WValue.symbol (functionMap cap t) = x
    have key : ∀ (l : List (List WValue)) (x : WValue) (l' : List Param), l'.map (exportedArgs (AST.toWolfram cap)) = l →
        l'.foldl (fun h p => .function h (exportedArgs (AST.toWolfram cap) p)) x = l.foldl WValue.function x := by
      intro l x l' e
      rw [← e, List.foldl_map]
    rw [key _ x ps rfl, key _ x qs rfl, this]
  | .boolean x, b, h => by rw [Same] at h; rw [h]
  | .integer x, b, h => by rw [Same] at h; rw [h]
  | .decimal d, b, h => by
    rw [Same] at h
    obtain ⟨e, rfl, h⟩ := h
    rw [AST.toWolfram, AST.toWolfram, h]
  | .symbol s, b, h => by
    rw [Same] at h
    obtain ⟨e, rfl, h⟩ := h
    rw [AST.toWolfram, AST.toWolfram, h]
  | .string x, b, h => by rw [Same] at h; rw [h]
termination_by structural a => a
theorem same_params : ∀ ps qs : List Param, SameParams cap ps qs →
    ps.map (exportedArgs (AST.toWolfram cap)) = qs.map (exportedArgs (AST.toWolfram cap))
  | [], qs, h => by rw [SameParams] at h; rw [h]
  | p :: ps, qs, h => by
    rw [SameParams] at h
    obtain ⟨q, qs', rfl, h1, h2⟩ := h
    rw [List.map_cons, List.map_cons, same_param p q h1, same_params ps qs' h2]
termination_by structural ps => ps
theorem same_param : ∀ p q : Param, SameParam cap p q →
    exportedArgs (AST.toWolfram cap) p = exportedArgs (AST.toWolfram cap) q
  | .mk as os _, q, h => by
    rw [SameParam] at h
    have h1 := same_args as q.arguments h.1
    have h2 := same_opts os q.options h.2
    rw [wolframArgs_eq, wolframArgs_eq] at h1
    rw [wolframOpts_eq, wolframOpts_eq] at h2
    rw [exportedArgs, exportedArgs, ← h1, ← h2]
    rfl
termination_by structural p => p
theorem same_args : ∀ as bs : List AST, SameArgs cap as bs → wolframArgs cap as = wolframArgs cap bs
  | [], bs, h => by rw [SameArgs] at h; rw [h]
  | a :: as, bs, h => by
    rw [SameArgs] at h
    obtain ⟨b, bs', rfl, h1, h2⟩ := h
    rw [wolframArgs, wolframArgs, same_export a b h1, same_args as bs' h2]
termination_by structural as => as
theorem same_opts : ∀ os us : List (AST × AST), SameOpts cap os us → wolframOpts cap os = wolframOpts cap us
  | [], us, h => by rw [SameOpts] at h; rw [h]
  | o :: os, us, h => by
    rw [SameOpts] at h
    obtain ⟨v, us', rfl, h1, h2⟩ := h
    rw [wolframOpts, wolframOpts, same_opt o v h1, same_opts os us' h2]
termination_by structural os => os
theorem same_opt : ∀ o v : AST × AST, SameOpt cap o v → wolframRule cap o = wolframRule cap v
  | (k, a), (l, b), h => by
    rw [SameOpt] at h
    rw [wolframRule, wolframRule, same_export k l h.1, same_export a b h.2]
termination_by structural o => o
end

/-! ### What is exported alike is the same -/

theorem export_call (s : Sym) (p : Param) (ps : List Param) :
    ∃ h as, AST.toWolfram cap (.function s (p :: ps)) = .function h as := by
  rcases List.eq_nil_or_concat ps with rfl | ⟨l, q, rfl⟩
  · exact ⟨_, _, (C31_call cap s [] p).1⟩
  · rw [List.concat_eq_append, ← List.cons_append]
    exact ⟨_, _, (C31_call cap s (p :: l) q).1⟩

/-- An exported rule. -/
def IsRule : WValue → Prop
  | .function h _ => h = .symbol c!"Rule"
  | _ => False

theorem clear_not_rule {a : AST} (h : Clear cap a) : ¬ IsRule (a.toWolfram cap) := by
  cases a with
  | function s ps =>
    rw [Clear] at h
    obtain ⟨h1, h2, -⟩ := h
    rcases List.eq_nil_or_concat ps with rfl | ⟨l, q, rfl⟩
    · exact absurd rfl h1
    · rw [List.concat_eq_append, (C31_call cap s l q).1, IsRule]
      intro e
      cases l with
      | nil =>
        rw [(C31_call cap s [] q).2] at e
        injection e with e
        exact h2 e
      | cons p l =>
        obtain ⟨x, y, e'⟩ := export_call cap s p l
        rw [e'] at e
        cases e
  | program => rw [Clear] at h; exact h.elim
  | _ => rw [AST.toWolfram]; exact id

theorem split_rules {α β : Type} {P : WValue → Prop} {f : α → WValue} {g : β → WValue} (hg : ∀ y, P (g y)) :
    ∀ {as bs : List α} {os us : List β}, (∀ a ∈ as, ¬ P (f a)) → (∀ a ∈ bs, ¬ P (f a)) →
    as.map f ++ os.map g = bs.map f ++ us.map g → as.map f = bs.map f ∧ os.map g = us.map g := by
  intro as
  induction as with
  | nil =>
    intro bs os us _ hb e
    cases bs with
    | nil => exact ⟨rfl, e⟩
    | cons b bs =>
      cases os with
      | nil => cases e
      | cons o os =>
        injection e with e _
        exact absurd (e ▸ hg o) (hb b List.mem_cons_self)
  | cons a as ih =>
    intro bs os us ha hb e
    cases bs with
    | nil =>
      cases us with
      | nil => cases e
      | cons o os =>
        injection e with e _
        exact absurd (e ▸ hg o) (ha a List.mem_cons_self)
    | cons b bs =>
      injection e with e e'
      obtain ⟨i, j⟩ := ih (fun a h => ha a (List.mem_cons_of_mem _ h)) (fun a h => hb a (List.mem_cons_of_mem _ h)) e'
      exact ⟨by rw [List.map_cons, List.map_cons, e, i], j⟩

theorem clearArgs_mem : ∀ {as : List AST}, ClearArgs cap as → ∀ a ∈ as, Clear cap a := by
  intro as
  induction as with
  | nil => simp
  | cons a as ih =>
    intro h
    rw [ClearArgs] at h
    simpa using ⟨h.1, ih h.2⟩

mutual
theorem export_same : ∀ a b : AST, Clear cap a → Clear cap b → a.toWolfram cap = b.toWolfram cap → Same cap a b
  | .empty, b, _, hb, h => by
    rw [Same]
    cases b with
    | empty => rfl
    | function s ps =>
      rw [Clear] at hb
      cases ps with
      | nil => exact absurd rfl hb.1
      | cons p ps =>
        obtain ⟨x, y, e⟩ := export_call cap s p ps
        rw [e] at h
        cases h
    | _ => cases h
  | .program l, _, ha, _, _ => by rw [Clear] at ha; exact ha.elim
  | .function s ps, b, ha, hb, h => by
    rw [Clear] at ha
    cases ps with
    | nil => exact absurd rfl ha.1
    | cons p ps =>
      cases b with
      | function t qs =>
        rw [Clear] at hb
        have hs := congrArg spine h
        rw [C31_call_spine, C31_call_spine] at hs
        injection hs with h1 h2
        injection h1 with h1
        rw [Same]
        exact ⟨t, qs, rfl, h1, export_params (p :: ps) qs ha.2.2 hb.2.2 h2⟩
      | program => rw [Clear] at hb; exact hb.elim
      | _ =>
        obtain ⟨x, y, e⟩ := export_call cap s p ps
        rw [e] at h
        cases h
  | .boolean x, b, _, hb, h => by
    rw [Same]
    cases b with
    | boolean y => cases x <;> cases y <;> first | rfl | (injection h with h; exact absurd h (by decide))
    | symbol s =>
      rw [Clear] at hb
      injection h with h
      cases x
      · exact absurd h.symm hb.2
      · exact absurd h.symm hb.1
    | function s ps =>
      rw [Clear] at hb
      cases ps with
      | nil => exact absurd rfl hb.1
      | cons p ps =>
        obtain ⟨x, y, e⟩ := export_call cap s p ps
        rw [e] at h
        cases h
    | _ => cases h
  | .integer x, b, _, hb, h => by
    rw [Same]
    cases b with
    | integer y => injection h with h; rw [h]
    | function s ps =>
      rw [Clear] at hb
      cases ps with
      | nil => exact absurd rfl hb.1
      | cons p ps =>
        obtain ⟨x, y, e⟩ := export_call cap s p ps
        rw [e] at h
        cases h
    | _ => cases h
  | .decimal d, b, _, hb, h => by
    rw [Same]
    cases b with
    | decimal y => injection h with h; exact ⟨y, rfl, h⟩
    | function s ps =>
      rw [Clear] at hb
      cases ps with
      | nil => exact absurd rfl hb.1
      | cons p ps =>
        obtain ⟨x, y, e⟩ := export_call cap s p ps
        rw [e] at h
        cases h
    | _ => cases h
  | .symbol s, b, ha, hb, h => by
    rw [Same]
    cases b with
    | symbol y => injection h with h; exact ⟨y, rfl, h⟩
    | boolean x =>
      rw [Clear] at ha
      injection h with h
      cases x
      · exact absurd h ha.2
      · exact absurd h ha.1
    | function s ps =>
      rw [Clear] at hb
      cases ps with
      | nil => exact absurd rfl hb.1
      | cons p ps =>
        obtain ⟨x, y, e⟩ := export_call cap s p ps
        rw [e] at h
        cases h
    | _ => cases h
  | .string x, b, _, hb, h => by
    rw [Same]
    cases b with
    | string y => injection h with h; rw [h]
    | function s ps =>
      rw [Clear] at hb
      cases ps with
      | nil => exact absurd rfl hb.1
      | cons p ps =>
        obtain ⟨x, y, e⟩ := export_call cap s p ps
        rw [e] at h
        cases h
    | _ => cases h
termination_by structural a => a
theorem export_params : ∀ ps qs : List Param, ClearParams cap ps → ClearParams cap qs →
    ps.map (exportedArgs (AST.toWolfram cap)) = qs.map (exportedArgs (AST.toWolfram cap)) → SameParams cap ps qs
  | [], qs, _, _, h => by
    rw [SameParams]
    cases qs with
    | nil => rfl
    | cons => cases h
  | p :: ps, qs, ha, hb, h => by
    rw [SameParams]
    cases qs with
    | nil => cases h
    | cons q qs =>
      rw [ClearParams] at ha hb
      injection h with h1 h2
      exact ⟨q, qs, rfl, export_param p q ha.1 hb.1 h1, export_params ps qs ha.2 hb.2 h2⟩
termination_by structural ps => ps
theorem export_param : ∀ p q : Param, ClearParam cap p → ClearParam cap q →
    exportedArgs (AST.toWolfram cap) p = exportedArgs (AST.toWolfram cap) q → SameParam cap p q
  | .mk as os _, .mk bs us _, ha, hb, h => by
    rw [SameParam]
    rw [ClearParam] at ha hb
    obtain ⟨h1, h2⟩ := split_rules (P := IsRule) (g := fun kv : AST × AST => .function (.symbol c!"Rule") [kv.1.toWolfram cap, kv.2.toWolfram cap]) (fun _ => rfl) (fun a h => clear_not_rule cap (clearArgs_mem cap ha.1 a h))
      (fun a h => clear_not_rule cap (clearArgs_mem cap hb.1 a h)) h
    exact ⟨export_args as bs ha.1 hb.1 h1, export_opts os us ha.2 hb.2 h2⟩
termination_by structural p => p
theorem export_args : ∀ as bs : List AST, ClearArgs cap as → ClearArgs cap bs →
    as.map (AST.toWolfram cap) = bs.map (AST.toWolfram cap) → SameArgs cap as bs
  | [], bs, _, _, h => by
    rw [SameArgs]
    cases bs with
    | nil => rfl
    | cons => cases h
  | a :: as, bs, ha, hb, h => by
    rw [SameArgs]
    cases bs with
    | nil => cases h
    | cons b bs =>
      rw [ClearArgs] at ha hb
      injection h with h1 h2
      exact ⟨b, bs, rfl, export_same a b ha.1 hb.1 h1, export_args as bs ha.2 hb.2 h2⟩
termination_by structural as => as
theorem export_opts : ∀ os us : List (AST × AST), ClearOpts cap os → ClearOpts cap us →
    os.map (fun kv => WValue.function (.symbol c!"Rule") [kv.1.toWolfram cap, kv.2.toWolfram cap]) =
      us.map (fun kv => WValue.function (.symbol c!"Rule") [kv.1.toWolfram cap, kv.2.toWolfram cap]) → SameOpts cap os us
  | [], us, _, _, h => by
    rw [SameOpts]
    cases us with
    | nil => rfl
    | cons => cases h
  | o :: os, us, ha, hb, h => by
    rw [SameOpts]
    cases us with
    | nil => cases h
    | cons v us =>
      rw [ClearOpts] at ha hb
      injection h with h1 h2
      injection h1 with _ h1
      injection h1 with h3 h1
      injection h1 with h4 _
      exact ⟨v, us, rfl, export_opt o v ha.1 hb.1 h3 h4, export_opts os us ha.2 hb.2 h2⟩
termination_by structural os => os
theorem export_opt : ∀ o v : AST × AST, ClearOpt cap o → ClearOpt cap v →
    o.1.toWolfram cap = v.1.toWolfram cap → o.2.toWolfram cap = v.2.toWolfram cap → SameOpt cap o v
  | (k, a), (l, b), ha, hb, h1, h2 => by
    rw [SameOpt]
    rw [ClearOpt] at ha hb
    exact ⟨export_same k l ha.1 hb.1 h1, export_same a b ha.2 hb.2 h2⟩
termination_by structural o => o
end

/-- **C79** (nothing else is lost).  Two expressions without programs, calls without argument lists, functions exported
as `Rule` and symbols `True` and `False` are exported alike if and only if they are the same up to positions, paths of
names, operators being calls, and the exported names of functions; numbers are then printed alike. -/
theorem C79_export (a b : AST) (ha : Clear cap a) (hb : Clear cap b) :
    a.toWolfram cap = b.toWolfram cap ↔ Same cap a b :=
  ⟨export_same cap a b ha hb, same_export cap a b⟩

/-! ### Texts -/

mutual
/-- No function is exported as `Rule`, and no symbol is called `True` or `False`. -/
def NamesClear : AST → Prop
  | .program l => NamesArgs l
  | .function s ps => exportedName cap s ≠ c!"Rule" ∧ NamesParams ps
  | .symbol s => s.name ≠ c!"True" ∧ s.name ≠ c!"False"
  | .empty | .boolean _ | .integer _ | .decimal _ | .string _ => True
termination_by structural a => a
/-- Such argument lists. -/
def NamesParams : List Param → Prop
  | [] => True
  | p :: ps => NamesParam p ∧ NamesParams ps
termination_by structural ps => ps
/-- Such an argument list. -/
def NamesParam : Param → Prop
  | .mk as os _ => NamesArgs as ∧ NamesOpts os
termination_by structural p => p
/-- Such arguments. -/
def NamesArgs : List AST → Prop
  | [] => True
  | a :: as => NamesClear a ∧ NamesArgs as
termination_by structural as => as
/-- Such named arguments. -/
def NamesOpts : List (AST × AST) → Prop
  | [] => True
  | o :: os => NamesOpt o ∧ NamesOpts os
termination_by structural os => os
/-- Such a named argument. -/
def NamesOpt : AST × AST → Prop
  | (k, a) => NamesClear k ∧ NamesClear a
termination_by structural o => o
end

theorem clearArgs_of : ∀ {as : List AST}, NamesArgs cap as → (∀ a ∈ as, NamesClear cap a → Clear cap a) → ClearArgs cap as := by
  intro as
  induction as with
  | nil => intro _ _; trivial
  | cons a as ih =>
    intro h h'
    rw [NamesArgs] at h
    rw [ClearArgs]
    exact ⟨h' a List.mem_cons_self h.1, ih h.2 fun a ha => h' a (List.mem_cons_of_mem _ ha)⟩

theorem clearOpts_of : ∀ {os : List (AST × AST)}, NamesOpts cap os → (∀ o ∈ os, ∃ k, o.1 = .mkSymbol k) →
    (∀ o ∈ os, NamesClear cap o.2 → Clear cap o.2) → ClearOpts cap os := by
  intro os
  induction os with
  | nil => intro _ _ _; trivial
  | cons o os ih =>
    obtain ⟨k, a⟩ := o
    intro h hk h'
    rw [NamesOpts, NamesOpt] at h
    rw [ClearOpts, ClearOpt]
    refine ⟨⟨?_, h' _ List.mem_cons_self h.1.2⟩, ih h.2 (fun o ho => hk o (List.mem_cons_of_mem _ ho))
      fun o ho => h' o (List.mem_cons_of_mem _ ho)⟩
    obtain ⟨n, e⟩ := hk _ List.mem_cons_self
    have e : k = .mkSymbol n := e
    subst e
    exact h.1.1

theorem clearParams_of : ∀ {ps : List Param}, NamesParams cap ps → (∀ q ∈ ps, ∀ o ∈ q.options, ∃ k, o.1 = .mkSymbol k) →
    (∀ q ∈ ps, ∀ a ∈ q.arguments, NamesClear cap a → Clear cap a) →
    (∀ q ∈ ps, ∀ o ∈ q.options, NamesClear cap o.2 → Clear cap o.2) → ClearParams cap ps := by
  intro ps
  induction ps with
  | nil => intro _ _ _ _; trivial
  | cons p ps ih =>
    obtain ⟨as, os, q⟩ := p
    intro h hk h1 h2
    rw [NamesParams, NamesParam] at h
    rw [ClearParams, ClearParam]
    exact ⟨⟨clearArgs_of cap h.1.1 (h1 _ List.mem_cons_self), clearOpts_of cap h.1.2 (hk _ List.mem_cons_self)
      (h2 _ List.mem_cons_self)⟩, ih h.2 (fun q hq => hk q (List.mem_cons_of_mem _ hq))
      (fun q hq => h1 q (List.mem_cons_of_mem _ hq)) fun q hq => h2 q (List.mem_cons_of_mem _ hq)⟩

theorem typed_clear {a : AST} (h : Typed a) : NamesClear cap a → Clear cap a := by
  induction h with
  | boolean | integer | decimal | string => intro _; trivial
  | symbol s => exact id
  | @call s p ps hs h1 h2 h3 i1 i3 =>
    intro h
    rw [NamesClear] at h
    rw [Clear]
    exact ⟨by simp, h.1, clearParams_of cap h.2 h2 i1 i3⟩
  | @operator s k as q hs hk h1 i1 =>
    intro h
    rw [NamesClear, NamesParams, NamesParam] at h
    rw [Clear, ClearParams, ClearParam]
    exact ⟨by simp, h.1, ⟨clearArgs_of cap h.2.1.1 i1, trivial⟩, trivial⟩
  | @history out as n q h1 i1 =>
    intro h
    rw [NamesClear, NamesParams, NamesParam] at h
    rw [Clear, ClearParams, ClearParam]
    refine ⟨by simp, h.1, ⟨clearArgs_of cap h.2.1.1 ?_, trivial⟩, trivial⟩
    intro a ha
    rcases List.mem_append.1 ha with ha | ha
    · exact i1 a ha
    · rw [List.mem_singleton] at ha
      subst ha
      intro _; trivial

/-- **C79** (texts).  The export of what is read from two texts is the same exactly if the two expressions are the same,
up to what is lost -- as long as no function exported as `Rule` and no symbol `True` or `False` occurs. -/
theorem C79_texts {u : Uni} (L : Lawful u) (c c' : Cfg) (a b : AST) (h : parseText u c = .ok a) (h' : parseText u c' = .ok b)
    (ha : NamesClear cap a) (hb : NamesClear cap b) : a.toWolfram cap = b.toWolfram cap ↔ Same cap a b := by
  refine C79_export cap a b ?_ ?_
  · rcases C57_shape L c a h with rfl | t
    · trivial
    · exact typed_clear cap t ha
  · rcases C57_shape L c' b h' with rfl | t
    · trivial
    · exact typed_clear cap t hb

/-! ### What collides -/

/-- **C79** (violation).  A named argument is exported like a call of a function exported as `Rule`, whatever the
function, the name and the value. -/
theorem C79_rule (r s : Sym) (hr : exportedName cap r = c!"Rule") (k v : AST) (p q q' : Position) :
    AST.toWolfram cap (.function s [.mk [] [(k, v)] p]) =
      AST.toWolfram cap (.function s [.mk [.function r [.mk [k, v] [] q]] [] q']) := by
  have e : functionMap cap r = c!"Rule" := hr
  simp [AST.toWolfram, wolframParams, wolframArgs, wolframOpts, wolframRule, e]

/-- **C79** (violation).  The truth values are exported like symbols, and the function `factor` like any function that
is exported as `FactorInteger`. -/
theorem C79_collide :
    (∀ s : Sym, s.name = c!"True" → AST.toWolfram cap (.boolean true) = AST.toWolfram cap (.symbol s)) ∧
    (∀ s : Sym, s.name = c!"False" → AST.toWolfram cap (.boolean false) = AST.toWolfram cap (.symbol s)) ∧
    (∀ s t : Sym, s.name = c!"factor" → t.name ≠ c!"factor" → cap t.name = c!"FactorInteger" → ∀ ps,
      AST.toWolfram cap (.function s ps) = AST.toWolfram cap (.function t ps)) := by
  refine ⟨fun s h => by simp [AST.toWolfram, h], fun s h => by simp [AST.toWolfram, h], fun s t h h' e ps => ?_⟩
  simp [AST.toWolfram, functionMap, h, h', e]

-- `f(x)` and `g(x)` are exported differently as soon as the names are capitalised differently.
example (h : cap c!"f" ≠ cap c!"g") (h1 : cap c!"f" ≠ c!"Rule") (h2 : cap c!"g" ≠ c!"Rule") (p : Position) :
    AST.toWolfram cap (.function ⟨[], c!"f", .normal, 0⟩ [.mk [.integer 1] [] p]) ≠
      AST.toWolfram cap (.function ⟨[], c!"g", .normal, 0⟩ [.mk [.integer 1] [] p]) := by
  intro e
  have hf : exportedName cap ⟨[], c!"f", .normal, 0⟩ = cap c!"f" := by rw [exportedName, if_neg (by simp)]
  have hg : exportedName cap ⟨[], c!"g", .normal, 0⟩ = cap c!"g" := by rw [exportedName, if_neg (by simp)]
  have := (C79_export cap _ _ (by simp [Clear, ClearParams, ClearParam, ClearArgs, ClearOpts, hf, h1])
    (by simp [Clear, ClearParams, ClearParam, ClearArgs, ClearOpts, hg, h2])).1 e
  rw [Same] at this
  obtain ⟨t, qs, e, h3, -⟩ := this
  injection e with e1 e2
  rw [← e1, hf, hg] at h3
  exact h h3

end SM.Props
