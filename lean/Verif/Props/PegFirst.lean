import Verif.Props.PegErr
/-
First characters: a static over-approximation of the characters a successful, consuming match can begin
with.
-/
namespace SM.Props
open SM SM.Peg

/-- A set of characters. -/
inductive CS where
  | chr (c : Char)
  | insens (c : Char)
  | rng (a b : Char)
  | uc (p : Uc)
  | all
  deriving DecidableEq, Repr

/-- Membership. -/
def CS.has (u : Uni) (c : Char) : CS → Bool
  | .chr d => decide (d = c)
  | .insens d => decide (d.toLower = c.toLower)
  | .rng a b => decide (a ≤ c) && decide (c ≤ b)
  | .uc p => u p c
  | .all => true

section generic
variable {R : Type} {g : R → PE R} {u : Uni}

/-- Characters a consuming match can begin with. -/
def firstE (nul : R → Bool) (T : R → List CS) : PE R → List CS
  | .call r => T r
  | .rule _ e => firstE nul T e
  | .atomic _ e => firstE nul T e
  | .ifNon e => firstE nul T e
  | .seq e => firstE nul T e
  | .opt e => firstE nul T e
  | .rep e => firstE nul T e
  | .alt a b => firstE nul T a ++ firstE nul T b
  | .cat a b => if nulE nul a then firstE nul T a ++ firstE nul T b else firstE nul T a
  | .restore e => firstE nul T e
  | .look _ _ => []
  | .str [] => []
  | .str (c :: _) => [.chr c]
  | .insens [] => []
  | .insens (c :: _) => [.insens c]
  | .range a b => [.rng a b]
  | .uni p => [.uc p]
  | .any => [.all]
  | .soi => []
  | .eoi => []
  | .push e => firstE nul T e
  | .peek => [.all]
  | .pop => [.all]

/-- Wherever a failure is recovered from, the position is given back. -/
def backs : PE R → Bool
  | .rule _ e => backs e
  | .atomic _ e => backs e
  | .ifNon e => backs e
  | .seq e => backs e
  | .opt e => back e && backs e
  | .rep e => back e && backs e
  | .alt a b => back a && backs a && backs b
  | .cat a b => backs a && backs b
  | .restore e => backs e
  | .push e => backs e
  | _ => true

/-- The check for one rule. -/
def firstOk (nul : R → Bool) (T : R → List CS) (r : R) (b : PE R) : Bool :=
  back b && backs b && (!nulE nul b || nul r) && (firstE nul T b).all (fun x => decide (x ∈ T r))

/-- What success means. -/
def Begins (u : Uni) (nullable : Bool) (F : List CS) (s t : St R) : Prop :=
  (nullable = true ∧ t.rest = s.rest) ∨ ∃ c r, s.rest = c :: r ∧ ∃ x ∈ F, x.has u c = true

theorem Begins.mono {nullable nullable' : Bool} {F F' : List CS} {s t : St R}
    (h : Begins u nullable F s t) (hn : nullable = true → nullable' = true) (hF : ∀ x ∈ F, x ∈ F') :
    Begins u nullable' F' s t := by
  rcases h with ⟨h1, h2⟩ | ⟨c, r, h1, x, h2, h3⟩
  · exact .inl ⟨hn h1, h2⟩
  · exact .inr ⟨c, r, h1, x, hF x h2, h3⟩

theorem charBy_ok {s t : St R} {p : Char → Bool} (h : s.charBy p = .ok t) :
    ∃ c r, s.rest = c :: r ∧ p c = true := by
  unfold St.charBy at h
  split at h
  · cases h
  · rename_i c r hc
    split at h
    · exact ⟨c, r, hc, ‹_›⟩
    · cases h

theorem charBy_err {s t : St R} {p : Char → Bool} (h : s.charBy p = .err t) : t = s := by
  unfold St.charBy at h
  split at h
  · cases h; rfl
  · split at h
    · cases h
    · cases h; rfl

theorem matchStr_err {s t : St R} {x : Str} (h : s.matchStr x = .err t) : t = s := by
  unfold St.matchStr at h
  split at h
  · cases h
  · cases h; rfl

theorem matchStr_ok {s t : St R} {x : Str} (h : s.matchStr x = .ok t) :
    (x = [] ∧ t.rest = s.rest) ∨ ∃ c y r, x = c :: y ∧ s.rest = c :: r := by
  unfold St.matchStr at h
  cases x with
  | nil => simp [strip, St.advance] at h; left; exact ⟨rfl, by rw [← h]⟩
  | cons c y =>
    right
    cases hs : s.rest with
    | nil => rw [hs] at h; simp [strip] at h
    | cons d r =>
      rw [hs] at h
      simp only [strip] at h
      by_cases hc : c = d
      · exact ⟨c, y, r, rfl, by rw [hc]⟩
      · rw [if_neg hc] at h; simp at h

theorem run_first (nul : R → Bool) (T : R → List CS) (g : R → PE R) (u : Uni)
    (hg : ∀ r, firstOk nul T r (g r) = true) :
    ∀ (n : Nat) (e : PE R) (v : Env) (s : St R), backs e = true →
      (∀ t, run g u n e v s = .ok t → Begins u (nulE nul e) (firstE nul T e) s t) ∧
      (∀ t, back e = true → run g u n e v s = .err t → t.rest = s.rest) := by
  intro n
  induction n with
  | zero => intro e v s _; exact ⟨fun t h => (nomatch h), fun t _ h => by cases h⟩
  | succ n ih =>
    intro e v s he
    cases e with
    | call r =>
      have hgr := hg r
      simp only [firstOk, Bool.and_eq_true] at hgr
      obtain ⟨⟨⟨h1, h2⟩, h3⟩, h4⟩ := hgr
      obtain ⟨k1, k2⟩ := ih (g r) v s h2
      refine ⟨fun t h => ?_, fun t _ h => k2 t h1 h⟩
      refine (k1 t h).mono ?_ ?_
      · intro hn
        show nul r = true
        simpa [hn] using h3
      · intro x hx
        exact of_decide_eq_true (List.all_eq_true.1 h4 x hx)
    | rule r e =>
      rw [run]
      split
      · obtain ⟨k1, k2⟩ := ih e v { s with queue := [] } he
        cases hr : run g u n e v { s with queue := [] } with
        | ok w =>
          refine ⟨fun t h => ?_, fun t _ h => by cases h⟩
          simp only [Res.mapBoth, Res.ok.injEq] at h
          subst h
          exact k1 w hr
        | err w =>
          refine ⟨fun t h => (nomatch h), fun t hb h => ?_⟩
          simp only [Res.mapBoth, Res.err.injEq] at h
          subst h
          exact k2 w hb hr
        | crash => exact ⟨fun t h => (nomatch h), fun t _ h => by cases h⟩
      · exact ih e v s he
    | atomic a e => exact ih e _ s he
    | ifNon e =>
      rw [run]
      split
      · obtain ⟨k1, k2⟩ := ih e v s he
        exact ⟨fun t h => (k1 t h).mono (fun _ => rfl) (fun _ h => h), k2⟩
      · exact ⟨fun t h => by cases h; exact .inl ⟨rfl, rfl⟩, fun t _ h => by cases h⟩
    | seq e =>
      obtain ⟨k1, k2⟩ := ih e v s he
      rw [run]
      cases hr : run g u n e v s with
      | ok w =>
        refine ⟨fun t h => ?_, fun t _ h => by cases h⟩
        simp only [Res.mapBoth, id, Res.ok.injEq] at h
        subst h
        exact k1 w hr
      | err w =>
        refine ⟨fun t h => (nomatch h), fun t hb h => ?_⟩
        simp only [Res.mapBoth, Res.err.injEq] at h
        subst h
        rfl
      | crash => exact ⟨fun t h => (nomatch h), fun t _ h => by cases h⟩
    | opt e =>
      simp only [backs, Bool.and_eq_true] at he
      obtain ⟨k1, k2⟩ := ih e v s he.2
      rw [run]
      cases hr : run g u n e v s with
      | ok w =>
        refine ⟨fun t h => ?_, fun t _ h => by cases h⟩
        simp only [Res.recover, Res.ok.injEq] at h
        subst h
        exact (k1 w hr).mono (fun _ => rfl) (fun _ h => h)
      | err w =>
        refine ⟨fun t h => ?_, fun t _ h => by cases h⟩
        simp only [Res.recover, Res.ok.injEq] at h
        subst h
        exact .inl ⟨rfl, k2 w he.1 hr⟩
      | crash => exact ⟨fun t h => (nomatch h), fun t _ h => by cases h⟩
    | rep e =>
      have he0 := he
      simp only [backs, Bool.and_eq_true] at he
      obtain ⟨k1, k2⟩ := ih e v s he.2
      rw [run]
      cases hr : run g u n e v s with
      | ok w =>
        obtain ⟨m1, m2⟩ := ih (.rep e) v w he0
        refine ⟨fun t h => ?_, fun t _ h => absurd h (sure_run g u n _ v w t rfl)⟩
        rcases k1 w hr with ⟨_, hw⟩ | hf
        · rcases m1 t h with ⟨_, ht⟩ | ⟨c, r, hc, hx⟩
          · exact .inl ⟨rfl, ht.trans hw⟩
          · exact .inr ⟨c, r, hw ▸ hc, hx⟩
        · exact .inr hf
      | err w =>
        refine ⟨fun t h => ?_, fun t _ h => by cases h⟩
        simp only [Res.ok.injEq] at h
        subst h
        exact .inl ⟨rfl, k2 w he.1 hr⟩
      | crash => exact ⟨fun t h => (nomatch h), fun t _ h => by cases h⟩
    | alt a b =>
      simp only [backs, Bool.and_eq_true] at he
      obtain ⟨k1, k2⟩ := ih a v s he.1.2
      rw [run]
      cases hr : run g u n a v s with
      | ok w =>
        refine ⟨fun t h => ?_, fun t _ h => by cases h⟩
        simp only [Res.orElse, Res.ok.injEq] at h
        subst h
        exact (k1 w hr).mono (by simp [nulE]; exact fun h => .inl h)
          (fun x hx => List.mem_append_left _ hx)
      | err w =>
        have hw := k2 w he.1.1 hr
        obtain ⟨m1, m2⟩ := ih b v w he.2
        refine ⟨fun t h => ?_, fun t hb h => ?_⟩
        · rcases m1 t h with ⟨hn, ht⟩ | ⟨c, r, hc, x, hx, hx'⟩
          · exact .inl ⟨by simp [nulE, hn], ht.trans hw⟩
          · exact .inr ⟨c, r, hw ▸ hc, x, List.mem_append_right _ hx, hx'⟩
        · simp only [back, Bool.and_eq_true] at hb
          exact (m2 t hb.2 h).trans hw
      | crash => exact ⟨fun t h => (nomatch h), fun t _ h => by cases h⟩
    | cat a b =>
      simp only [backs, Bool.and_eq_true] at he
      obtain ⟨k1, k2⟩ := ih a v s he.1
      rw [run]
      cases hr : run g u n a v s with
      | ok w =>
        obtain ⟨m1, m2⟩ := ih b v w he.2
        refine ⟨fun t h => ?_, fun t hb h => ?_⟩
        · simp only [firstE, nulE]
          rcases k1 w hr with ⟨hn, hw⟩ | ⟨c, r, hc, x, hx, hx'⟩
          · rw [if_pos hn]
            rcases m1 t h with ⟨hn', ht⟩ | ⟨c, r, hc, x, hx, hx'⟩
            · exact .inl ⟨by simp [hn, hn'], ht.trans hw⟩
            · exact .inr ⟨c, r, hw ▸ hc, x, List.mem_append_right _ hx, hx'⟩
          · refine .inr ⟨c, r, hc, x, ?_, hx'⟩
            split
            · exact List.mem_append_left _ hx
            · exact hx
        · simp only [back, Bool.and_eq_true] at hb
          exact absurd h (sure_run g u n _ v w t hb.2)
      | err w =>
        refine ⟨fun t h => (nomatch h), fun t hb h => ?_⟩
        simp only [back, Bool.and_eq_true] at hb
        simp only [Res.andThen, Res.err.injEq] at h
        subst h
        exact k2 w hb.1 hr
      | crash => exact ⟨fun t h => (nomatch h), fun t _ h => by cases h⟩
    | restore e =>
      obtain ⟨k1, k2⟩ := ih e v s he
      rw [run]
      cases hr : run g u n e v s with
      | ok w =>
        refine ⟨fun t h => ?_, fun t _ h => by cases h⟩
        simp only [Res.mapBoth, id, Res.ok.injEq] at h
        subst h
        exact k1 w hr
      | err w =>
        refine ⟨fun t h => (nomatch h), fun t hb h => ?_⟩
        simp only [Res.mapBoth, Res.err.injEq] at h
        subst h
        exact k2 w hb hr
      | crash => exact ⟨fun t h => (nomatch h), fun t _ h => by cases h⟩
    | look p e =>
      rw [run]
      cases run g u n e { v with silent := true } s <;> cases p <;>
        refine ⟨fun t h => ?_, fun t _ h => ?_⟩ <;> first | (cases h; done) | (cases h; exact .inl ⟨rfl, rfl⟩) | (cases h; rfl)
    | str x =>
      refine ⟨fun t h => ?_, fun t _ h => by rw [matchStr_err h]⟩
      rcases matchStr_ok h with ⟨rfl, h'⟩ | ⟨c, y, r, rfl, hc⟩
      · exact .inl ⟨rfl, h'⟩
      · exact .inr ⟨c, r, hc, .chr c, by simp [firstE], by simp [CS.has]⟩
    | insens x =>
      rw [run]
      cases x with
      | nil =>
        simp only [stripInsens]
        exact ⟨fun t h => by cases h; exact .inl ⟨rfl, rfl⟩, fun t _ h => by cases h⟩
      | cons c y =>
        cases hs : s.rest with
        | nil =>
          simp only [stripInsens]
          exact ⟨fun t h => (nomatch h), fun t _ h => by cases h; exact hs⟩
        | cons d r =>
          simp only [stripInsens]
          by_cases hcd : c.toLower = d.toLower
          · rw [if_pos hcd]
            refine ⟨fun t _ => .inr ⟨d, r, hs, .insens c, by simp [firstE], by simp [CS.has, hcd]⟩, ?_⟩
            intro t _ h
            split at h
            · cases h
            · cases h; exact hs
          · rw [if_neg hcd]
            exact ⟨fun t h => (nomatch h), fun t _ h => by cases h; exact hs⟩
    | range a b =>
      refine ⟨fun t h => ?_, fun t _ h => by rw [charBy_err h]⟩
      obtain ⟨c, r, hc, hp⟩ := charBy_ok h
      exact .inr ⟨c, r, hc, .rng a b, by simp [firstE], hp⟩
    | uni p =>
      refine ⟨fun t h => ?_, fun t _ h => by rw [charBy_err h]⟩
      obtain ⟨c, r, hc, hp⟩ := charBy_ok h
      exact .inr ⟨c, r, hc, .uc p, by simp [firstE], hp⟩
    | any =>
      refine ⟨fun t h => ?_, fun t _ h => by rw [charBy_err h]⟩
      obtain ⟨c, r, hc, hp⟩ := charBy_ok h
      exact .inr ⟨c, r, hc, .all, by simp [firstE], rfl⟩
    | soi =>
      rw [run]
      split
      · exact ⟨fun t h => by cases h; exact .inl ⟨rfl, rfl⟩, fun t _ h => by cases h⟩
      · exact ⟨fun t h => (nomatch h), fun t _ h => by cases h; rfl⟩
    | eoi =>
      rw [run]
      split
      · exact ⟨fun t h => by cases h; exact .inl ⟨rfl, rfl⟩, fun t _ h => by cases h⟩
      · exact ⟨fun t h => (nomatch h), fun t _ h => by cases h; rfl⟩
    | push e =>
      obtain ⟨k1, k2⟩ := ih e v s he
      rw [run]
      cases hr : run g u n e v s with
      | ok w =>
        refine ⟨fun t h => ?_, fun t _ h => by cases h⟩
        simp only [Res.mapBoth, Res.ok.injEq] at h
        subst h
        exact k1 w hr
      | err w =>
        refine ⟨fun t h => (nomatch h), fun t hb h => ?_⟩
        simp only [Res.mapBoth, id, Res.err.injEq] at h
        subst h
        exact k2 w hb hr
      | crash => exact ⟨fun t h => (nomatch h), fun t _ h => by cases h⟩
    | peek =>
      rw [run]
      split
      · refine ⟨fun t h => ?_, fun t _ h => by rw [matchStr_err h]⟩
        rcases matchStr_ok h with ⟨rfl, h'⟩ | ⟨c, y, r, rfl, hc⟩
        · exact .inl ⟨rfl, h'⟩
        · exact .inr ⟨c, r, hc, .all, by simp [firstE], rfl⟩
      · exact ⟨fun t h => (nomatch h), fun t _ h => by cases h⟩
    | pop =>
      rw [run]
      split
      · refine ⟨fun t h => ?_, fun t _ h => by rw [matchStr_err h]⟩
        rcases matchStr_ok h with ⟨rfl, h'⟩ | ⟨c, y, r, rfl, hc⟩
        · exact .inl ⟨rfl, h'⟩
        · exact .inr ⟨c, r, hc, .all, by simp [firstE], rfl⟩
      · exact ⟨fun t h => (nomatch h), fun t _ h => by cases h⟩
end generic
/-- Characters a consuming match of each rule can begin with. -/
def gFirst : R → List CS
  | .skip =>
    [.chr '\n', .chr '\x0d', .uc (.whiteSpace), .chr '%', .chr '/']
  | .program =>
    [.chr '\n', .chr '\x0d', .uc (.whiteSpace), .chr '%', .chr '/', .chr ';', .chr '；', .chr 'u',
     .chr 'c', .chr 't', .chr 'e', .chr 'r', .chr 'b', .chr 'p', .chr 'i', .chr 'f', .chr 'l',
     .chr 'd', .chr '@', .chr '!', .chr '¬', .chr '+', .chr '-', .chr '*', .chr '(',
     .uc (.xidStart), .chr '_', .insens '0', .chr '0', .rng '1' '9', .chr '{', .chr '[', .chr 'n',
     .chr '¶', .chr '⁋', .chr '#', .chr '\"']
  | .statement =>
    [.chr ';', .chr '；', .chr 'u', .chr 'c', .chr 't', .chr 'e', .chr 'r', .chr 'b', .chr 'p',
     .chr 'i', .chr 'f', .chr 'l', .chr 'd', .chr '@', .chr '!', .chr '¬', .chr '+', .chr '-',
     .chr '*', .chr '(', .uc (.xidStart), .chr '_', .insens '0', .chr '0', .rng '1' '9', .chr '{',
     .chr '[', .chr 'n', .chr '¶', .chr '⁋', .chr '#', .chr '\"']
  | .emptyStatement | .eos | .Semicolon =>
    [.chr ';', .chr '；']
  | .comma_or_semi =>
    [.chr ',', .chr '，', .chr ';', .chr '；']
  | .block_or_stmt =>
    [.chr '{', .chr '=']
  | .importStatement =>
    [.chr 'u']
  | .use_alias | .module_tuple | .String =>
    [.uc (.xidStart), .chr '_', .chr '\"']
  | .use_module_select | .for_in_loop | .assign_name | .assign_pair | .define_terms | .define_pair
  | .function_name | .apply_call | .derivative | .Symbol | .SYMBOL =>
    [.uc (.xidStart), .chr '_']
  | .module_block | .«block» | .short_block | .dict =>
    [.chr '{']
  | .ModuleSplit =>
    [.chr '.', .chr ':', .chr '∷']
  | .As =>
    [.chr 'a']
  | .controlFlow =>
    [.chr 'r', .chr 'b', .chr 'p', .chr 'i', .chr 'f']
  | .if_statement =>
    [.chr 'i']
  | .for_statement =>
    [.chr 'f']
  | .re_control =>
    [.chr 'r', .chr 'b', .chr 'p']
  | .Return =>
    [.chr 'r']
  | .Yield =>
    [.chr 'y']
  | .Break =>
    [.chr 'b']
  | .Pass =>
    [.chr 'p']
  | .«Type» | .traitStatement =>
    [.chr 't']
  | .classStatement =>
    [.chr 'c']
  | .short_statement =>
    [.chr ';', .chr '；', .chr 'd', .chr '\n', .chr '\x0d', .uc (.whiteSpace), .chr '%', .chr '/',
     .uc (.xidStart), .chr '_', .chr 'l', .chr '(', .chr '@']
  | .short_annotation | .annotation | .annotation_call | .Curry | .Apply | .At =>
    [.chr '@']
  | .extendStatement =>
    [.chr 'e']
  | .with_trait =>
    [.chr 'w']
  | .assignStatement =>
    [.chr 'l']
  | .assign_terms =>
    [.chr '(', .uc (.xidStart), .chr '_']
  | .defineStatement =>
    [.chr 'd']
  | .define_parameter | .apply =>
    [.chr '(']
  | .apply_kv =>
    [.uc (.xidStart), .chr '_', .chr '!', .chr '¬', .chr '+', .chr '-', .chr '*', .chr '(',
     .insens '0', .chr '0', .rng '1' '9', .chr '{', .chr '[', .chr 'n', .chr 't', .chr 'f',
     .chr '¶', .chr '⁋', .chr '#', .chr '\"']
  | .function_module | .Dot =>
    [.chr '.']
  | .expression | .expr | .term | .type_expr | .Start | .End | .Step =>
    [.chr '!', .chr '¬', .chr '+', .chr '-', .chr '*', .chr '(', .uc (.xidStart), .chr '_',
     .insens '0', .chr '0', .rng '1' '9', .chr '{', .chr '[', .chr 'n', .chr 't', .chr 'f',
     .chr '¶', .chr '⁋', .chr '#', .chr '\"']
  | .node =>
    [.chr '(', .uc (.xidStart), .chr '_', .insens '0', .chr '0', .rng '1' '9', .chr '{', .chr '[',
     .chr 'n', .chr 't', .chr 'f', .chr '¶', .chr '⁋', .chr '#', .chr '\"']
  | .space_call =>
    [.uc (.xidStart), .chr '_', .insens '0', .chr '0', .rng '1' '9']
  | .type_hint | .Colon =>
    [.chr ':', .chr '：']
  | .TypeInfix | .Or | .LazyOr | .Pipeline =>
    [.chr '|']
  | .data =>
    [.chr '{', .chr '[', .chr 'n', .chr 't', .chr 'f', .chr '¶', .chr '⁋', .chr '#', .insens '0',
     .chr '0', .rng '1' '9', .uc (.xidStart), .chr '_', .chr '\"']
  | .list | .slice =>
    [.chr '[']
  | .key_valid | .key_value =>
    [.chr '0', .rng '1' '9', .uc (.xidStart), .chr '_', .chr '\"']
  | .index =>
    [.chr '!', .chr '¬', .chr '+', .chr '-', .chr '*', .chr '(', .uc (.xidStart), .chr '_',
     .insens '0', .chr '0', .rng '1' '9', .chr '{', .chr '[', .chr 'n', .chr 't', .chr 'f',
     .chr '¶', .chr '⁋', .chr '#', .chr '\"', .chr '\n', .chr '\x0d', .uc (.whiteSpace), .chr '%',
     .chr '/', .chr ':', .chr '：']
  | .Number =>
    [.insens '0', .chr '0', .rng '1' '9']
  | .Decimal | .Integer =>
    [.chr '0', .rng '1' '9']
  | .Byte =>
    [.insens '0']
  | .StringNormal | .StringBlock | .Quotation =>
    [.chr '\"']
  | .StringText | .ANY | .PEEK | .POP =>
    [.all]
  | .Special =>
    [.chr 'n', .chr 't', .chr 'f']
  | .Slot | .Sharp =>
    [.chr '#']
  | .REPL =>
    [.chr '¶', .chr '⁋']
  | .Positive | .ASCII_NONZERO_DIGIT =>
    [.rng '1' '9']
  | .WHITESPACE =>
    [.chr '\n', .chr '\x0d', .uc (.whiteSpace)]
  | .COMMENT =>
    [.chr '%', .chr '/']
  | .MultiLineComment | .Modulo =>
    [.chr '%']
  | .Prefix =>
    [.chr '!', .chr '¬', .chr '+', .chr '-', .chr '*']
  | .Suffix =>
    [.chr '\'', .chr '!', .chr '?']
  | .Infix =>
    [.chr '=', .chr '+', .chr '-', .chr '*', .chr '×', .chr '⋅', .chr '⊗', .chr '⊙', .chr '/',
     .chr '÷', .chr '%', .chr '^', .chr '>', .chr '.']
  | .Set | .Equivalent | .NotEquivalent | .Equal =>
    [.chr '=']
  | .Derivative | .Apostrophe =>
    [.chr '\'']
  | .Star =>
    [.chr '*']
  | .Slash | .Quotient | .Map | .MapAll =>
    [.chr '/']
  | .Escape =>
    [.chr '\\']
  | .Proportion =>
    [.chr ':', .chr '∷']
  | .Comma =>
    [.chr ',', .chr '，']
  | .Separate =>
    [.chr ';']
  | .Question =>
    [.chr '?']
  | .Underline =>
    [.chr '_']
  | .Load =>
    [.chr '<', .chr '⋘']
  | .Save =>
    [.chr '>', .chr '⋙']
  | .LeftShift =>
    [.chr '<', .chr '≪']
  | .RightShift =>
    [.chr '>', .chr '≫']
  | .LessEqual | .Less =>
    [.chr '<']
  | .GraterEqual | .Grater =>
    [.chr '>']
  | .NotEqual =>
    [.chr '!', .chr '≠']
  | .Plus | .Increase =>
    [.chr '+']
  | .Minus | .Decrease | .To =>
    [.chr '-']
  | .Multiply =>
    [.chr '*', .chr '×']
  | .CenterDot =>
    [.chr '⋅']
  | .Kronecker =>
    [.chr '⊗']
  | .TensorProduct =>
    [.chr '⊙']
  | .Divide =>
    [.chr '/', .chr '÷']
  | .Remainder =>
    [.chr '⁒']
  | .Power =>
    [.chr '^']
  | .Surd =>
    [.chr '√']
  | .Elvis =>
    [.chr ':']
  | .Quote =>
    [.chr '`']
  | .Acute =>
    [.chr '´']
  | .LogicOr =>
    [.chr '|', .chr '∧']
  | .LogicAnd =>
    [.chr '&', .chr '∨']
  | .LogicNot | .Not =>
    [.chr '¬']
  | .Ellipsis =>
    [.chr '.', .chr '…']
  | .LogicXor =>
    [.chr '⊕']
  | .Concat | .Destruct =>
    [.chr '~']
  | .DoubleBang | .Bang =>
    [.chr '!']
  | .EOI | .SOI =>
    []
  | .ASCII_DIGIT =>
    [.rng '0' '9']
  | .ASCII_BIN_DIGIT =>
    [.rng '0' '1']
  | .ASCII_OCT_DIGIT =>
    [.rng '0' '7']
  | .ASCII_HEX_DIGIT =>
    [.rng '0' '9', .rng 'a' 'f', .rng 'A' 'F']
  | .NEWLINE =>
    [.chr '\n', .chr '\x0d']
  | .WHITE_SPACE =>
    [.uc (.whiteSpace)]
  | .XID_CONTINUE =>
    [.uc (.xidContinue)]
  | .XID_START =>
    [.uc (.xidStart)]

theorem gFirst_ok : ∀ r, firstOk gNul gFirst r (grammar r) = true := by
  intro r; cases r <;> decide

/-- The text begins with a character of the set. -/
def hits (u : Uni) (F : List CS) : Str → Bool
  | [] => false
  | c :: _ => F.any (fun x => x.has u c)

theorem sem_total (u : Uni) (r : R) (hreq : gReq r = 0) (v : Env) (s : St R) :
    sem grammar u (.call r) v s ≠ .crash := by
  intro h
  have := run_grammar_total u v r s _ hreq (Nat.le_refl _)
  rw [run_eq_sem_of_fuel u v r s _ hreq (Nat.le_refl _), h] at this
  exact this

/-- A rule function that must consume fails on a text that begins with none of its characters, and
leaves everything as it was. -/
theorem sem_call_fails {u : Uni} {r : R} {v : Env} {s : St R} (hreq : gReq r = 0) (hn : gNul r = false)
    (hp : r ≠ .POP) (hb : r ≠ .StringBlock) (h : hits u (gFirst r) s.rest = false) :
    sem grammar u (.call r) v s = .err s := by
  cases hr : sem grammar u (.call r) v s with
  | ok t =>
    exfalso
    obtain ⟨n, hn'⟩ := sem_settles grammar u (.call r) v s
    have := (run_first gNul gFirst grammar u gFirst_ok n (.call r) v s rfl).1 t
      (by rw [hn' n (Nat.le_refl _), hr])
    rcases this with ⟨h1, _⟩ | ⟨c, tl, hc, x, hx, hx'⟩
    · simp [nulE, hn] at h1
    · rw [hc] at h
      simp only [hits, List.any_eq_false] at h
      exact h x hx hx'
  | err t => rw [sem_call_err u r hp hb hr]
  | crash => exact absurd hr (sem_total u r hreq v s)

theorem sem_restore_block_fails {u : Uni} {v : Env} {s : St R}
    (h : hits u (gFirst .StringBlock) s.rest = false) :
    sem grammar u (.restore (.call .StringBlock)) v s = .err s := by
  rw [sem_restore]
  cases hr : sem grammar u (.call .StringBlock) v s with
  | ok t =>
    exfalso
    obtain ⟨n, hn'⟩ := sem_settles grammar u (.call .StringBlock) v s
    have := (run_first gNul gFirst grammar u gFirst_ok n (.call .StringBlock) v s rfl).1 t
      (by rw [hn' n (Nat.le_refl _), hr])
    rcases this with ⟨h1, _⟩ | ⟨c, tl, hc, x, hx, hx'⟩
    · cases h1
    · rw [hc] at h
      simp only [hits, List.any_eq_false] at h
      exact h x hx hx'
  | err t =>
    have := sem_call_tame u .StringBlock (by decide) v s
    rw [hr] at this
    obtain ⟨h1, h2, h3, -⟩ := this
    simp only [Res.mapBoth]
    cases t; cases s
    simp_all
  | crash => exact absurd hr (sem_total u .StringBlock rfl v s)

end SM.Props
