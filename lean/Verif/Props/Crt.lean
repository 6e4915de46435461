import Verif.Props.Gcd
import Mathlib.Data.List.Pairwise
import Mathlib.Algebra.BigOperators.Group.List.Basic
/-
C10, C11: the Chinese remainder function.
-/
namespace SM.Props
open SM SM.Alg

/-- Value of mixed-radix digits: `v0 + m0 * (v1 + m1 * (...))`. -/
def mixVal : List (Int × Int) → Int
  | [] => 0
  | (v, m) :: l => v + m * mixVal l

theorem bigRem_ok {a b r : Int} (h : bigRem a b = .ok r) : b ≠ 0 ∧ r = a.tmod b := by
  unfold bigRem at h
  split at h
  · simp at h
  · simp at h; exact ⟨by assumption, h.symm⟩

theorem bigRem_of_ne {a b : Int} (h : b ≠ 0) : bigRem a b = .ok (a.tmod b) := by
  unfold bigRem; rw [if_neg h]

theorem tmod_modEq (a m : Int) : a.tmod m ≡ a [ZMOD m] := by
  rw [Int.modEq_iff_dvd]
  exact ⟨a.tdiv m, by have := Int.tmod_add_mul_tdiv a m; omega⟩

theorem natAbs_tmod_lt (a : Int) {m : Int} (h : m ≠ 0) : (a.tmod m).natAbs < m.natAbs := by
  rw [Int.natAbs_tmod]; exact Nat.mod_lt _ (Int.natAbs_pos.2 h)

theorem crtProd_modEq (mi : Int) : ∀ (l : List Int) (p r : Int), crtProd mi l p = .ok r →
    r ≡ p * l.prod [ZMOD mi] := by
  intro l
  induction l with
  | nil => intro p r h; simp [crtProd] at h; simp [h]
  | cons v l ih =>
    intro p r h
    simp only [crtProd] at h
    cases hb : bigRem (p * v) mi with
    | err e => rw [hb] at h; simp at h
    | panic => rw [hb] at h; simp at h
    | ok q =>
      rw [hb] at h
      obtain ⟨hm, rfl⟩ := bigRem_ok hb
      have := ih _ _ h
      refine this.trans ?_
      rw [List.prod_cons, ← mul_assoc]
      exact Int.ModEq.mul_right _ (tmod_modEq _ _)

theorem crtProd_of_ne {mi : Int} (h : mi ≠ 0) : ∀ (l : List Int) (p : Int),
    ∃ r, crtProd mi l p = .ok r := by
  intro l
  induction l with
  | nil => intro p; exact ⟨p, rfl⟩
  | cons v l ih =>
    intro p
    simp only [crtProd, bigRem_of_ne h, Out.ok_bind]
    exact ih _

theorem crtT_modEq (mi : Int) : ∀ (l : List (Int × Int)) (r : Int), crtT mi l = .ok r →
    r ≡ mixVal l [ZMOD mi] := by
  intro l
  induction l with
  | nil => intro r h; simp [crtT] at h; subst h; rfl
  | cons e l ih =>
    obtain ⟨vj, mj⟩ := e
    intro r h
    simp only [crtT] at h
    cases ht : crtT mi l with
    | err e => rw [ht] at h; simp at h
    | panic => rw [ht] at h; simp at h
    | ok t =>
      rw [ht] at h
      cases hb : bigRem vj mi with
      | err e => rw [hb] at h; simp at h
      | panic => rw [hb] at h; simp at h
      | ok q =>
        rw [hb] at h
        simp only [Out.ok_bind, Out.pure_eq, Out.ok.injEq] at h
        obtain ⟨hm, rfl⟩ := bigRem_ok hb
        subst h
        simp only [mixVal]
        rw [add_comm]
        exact Int.ModEq.add (tmod_modEq _ _) (Int.ModEq.mul_left _ (ih _ ht))

theorem crtT_of_ne {mi : Int} (h : mi ≠ 0) : ∀ l, ∃ r, crtT mi l = .ok r := by
  intro l
  induction l with
  | nil => exact ⟨0, rfl⟩
  | cons e l ih =>
    obtain ⟨vj, mj⟩ := e
    obtain ⟨t, ht⟩ := ih
    simp [crtT, ht, bigRem_of_ne h]

theorem mixVal_append (l l' : List (Int × Int)) :
    mixVal (l ++ l') = mixVal l + (l.map Prod.snd).prod * mixVal l' := by
  induction l with
  | nil => simp [mixVal]
  | cons e l ih => obtain ⟨v, m⟩ := e; simp only [List.cons_append, mixVal, ih, List.map_cons,
      List.prod_cons]; ring

theorem zip_map_snd {v : List Int} {m : List Int} (h : v.length = m.length) :
    (v.zip m).map Prod.snd = m := by
  rw [List.map_snd_zip]; omega

/-- Loop invariant: the digits found so far solve all congruences so far, and each digit is
smaller than its modulus. -/
structure CrtInv (pre : List (Int × Int)) (v : List Int) : Prop where
  len : v.length = pre.length
  solves : ∀ e ∈ pre, mixVal (v.zip (pre.map Prod.snd)) ≡ e.1 [ZMOD e.2]
  small : ∀ e ∈ v.zip (pre.map Prod.snd), e.1.natAbs < e.2.natAbs

theorem CrtInv.step {pre : List (Int × Int)} {v : List Int} (h : CrtInv pre v) {ui mi p ci t : Int}
    (hm : mi ≠ 0) (hp : crtProd mi (pre.map Prod.snd) 1 = .ok p)
    (hi : moduloInverse p mi = some ci) (ht : crtT mi (v.zip (pre.map Prod.snd)) = .ok t) :
    CrtInv (pre ++ [(ui, mi)]) (v ++ [((ui - t) * ci).tmod mi]) := by
  have hlen : v.length = (pre.map Prod.snd).length := by simp [h.len]
  have hz : (v ++ [((ui - t) * ci).tmod mi]).zip ((pre ++ [(ui, mi)]).map Prod.snd)
      = v.zip (pre.map Prod.snd) ++ [(((ui - t) * ci).tmod mi, mi)] := by
    rw [List.map_append, List.zip_append hlen]; rfl
  refine ⟨by simp [h.len], ?_, ?_⟩
  · intro e he
    rw [hz, mixVal_append, zip_map_snd hlen]
    simp only [mixVal, mul_zero, add_zero]
    rcases List.mem_append.1 he with he | he
    · have hs := h.solves e he
      have hd : e.2 ∣ (pre.map Prod.snd).prod := by
        apply List.dvd_prod
        exact List.mem_map_of_mem he
      have : (pre.map Prod.snd).prod * ((ui - t) * ci).tmod mi ≡ 0 [ZMOD e.2] :=
        (Int.modEq_zero_iff_dvd).2 (Dvd.dvd.mul_right hd _)
      simpa using Int.ModEq.add hs this
    · simp only [List.mem_singleton] at he
      subst he
      simp only
      have h1 := crtProd_modEq mi _ _ _ hp
      rw [one_mul] at h1
      have h2 := C07_inverse_sound p mi ci hi
      have h3 := crtT_modEq mi _ _ ht
      have h4 : (pre.map Prod.snd).prod * ((ui - t) * ci).tmod mi ≡ ui - t [ZMOD mi] := by
        calc (pre.map Prod.snd).prod * ((ui - t) * ci).tmod mi
            ≡ p * ((ui - t) * ci) [ZMOD mi] := Int.ModEq.mul h1.symm (tmod_modEq _ _)
          _ = (p * ci) * (ui - t) := by ring
          _ ≡ 1 * (ui - t) [ZMOD mi] := Int.ModEq.mul_right _ h2
          _ = ui - t := one_mul _
      calc mixVal (v.zip (pre.map Prod.snd)) + (pre.map Prod.snd).prod * ((ui - t) * ci).tmod mi
          ≡ t + (ui - t) [ZMOD mi] := Int.ModEq.add h3.symm h4
        _ = ui := by ring
  · intro e he
    rw [hz] at he
    rcases List.mem_append.1 he with he | he
    · exact h.small e he
    · simp only [List.mem_singleton] at he
      subst he
      exact natAbs_tmod_lt _ hm

theorem crtLoop_sound : ∀ (rest pre : List (Int × Int)) (v v' : List Int), CrtInv pre v →
    crtLoop rest (pre.map Prod.snd) v = .ok (some v') → CrtInv (pre ++ rest) v' := by
  intro rest
  induction rest with
  | nil =>
    intro pre v v' h hv
    simp [crtLoop] at hv
    subst hv; simpa using h
  | cons e rest ih =>
    obtain ⟨ui, mi⟩ := e
    intro pre v v' h hv
    simp only [crtLoop] at hv
    cases hp : crtProd mi (pre.map Prod.snd) 1 with
    | err e => rw [hp] at hv; simp at hv
    | panic => rw [hp] at hv; simp at hv
    | ok p =>
      rw [hp] at hv
      simp only [Out.ok_bind] at hv
      cases hi : moduloInverse p mi with
      | none => rw [hi] at hv; simp at hv
      | some ci =>
        rw [hi] at hv
        simp only at hv
        cases ht : crtT mi (v.zip (pre.map Prod.snd)) with
        | err e => rw [ht] at hv; simp at hv
        | panic => rw [ht] at hv; simp at hv
        | ok t =>
          rw [ht] at hv
          simp only [Out.ok_bind] at hv
          cases hb : bigRem ((ui - t) * ci) mi with
          | err e => rw [hb] at hv; simp at hv
          | panic => rw [hb] at hv; simp at hv
          | ok d =>
            rw [hb] at hv
            simp only [Out.ok_bind] at hv
            obtain ⟨hm, rfl⟩ := bigRem_ok hb
            have hstep := h.step (ui := ui) hm hp hi ht
            have hmap : pre.map Prod.snd ++ [mi] = (pre ++ [(ui, mi)]).map Prod.snd := by simp
            rw [hmap] at hv
            have := ih _ _ _ hstep hv
            simpa using this

theorem foldl_finish (l : List (Int × Int)) (last : Int) (m : Int) :
    l.reverse.foldl (fun ret e => ret * e.2 + e.1) last = mixVal (l ++ [(last, m)]) := by
  rw [List.foldl_reverse]
  induction l with
  | nil => simp [mixVal]
  | cons e l ih => obtain ⟨v, k⟩ := e; simp only [List.foldr_cons, ih, List.cons_append, mixVal]; ring

theorem crtFinish_eq {v m : List Int} (h : v.length = m.length) (hne : m ≠ []) :
    crtFinish v m = .ok (mixVal (v.zip m)) := by
  rcases List.eq_nil_or_concat v with rfl | ⟨v', last, rfl⟩
  · simp at h; exact absurd (List.length_eq_zero_iff.1 h.symm) hne
  · rcases List.eq_nil_or_concat m with rfl | ⟨m', ml, rfl⟩
    · exact absurd rfl hne
    · have hl : v'.length = m'.length := by simpa using h
      unfold crtFinish
      simp only [List.concat_eq_append, List.getLast?_append, List.getLast?_singleton,
        Option.some_or, List.dropLast_concat]
      rw [foldl_finish _ _ ml, List.zip_append hl]
      congr 2
      have : v'.zip (m' ++ [ml]) = v'.zip m' := by
        have := List.zip_append (l₁ := v') (r₁ := []) (l₂ := m') (r₂ := [ml]) hl
        simpa using this
      rw [this]; rfl

theorem mixVal_bound : ∀ (l : List (Int × Int)), (∀ e ∈ l, e.1.natAbs < e.2.natAbs) →
    (mixVal l).natAbs < ((l.map Prod.snd).map Int.natAbs).prod := by
  intro l
  induction l with
  | nil => intro _; simp [mixVal]
  | cons e l ih =>
    obtain ⟨v, m⟩ := e
    intro h
    have h1 : v.natAbs < m.natAbs := h (v, m) (by simp)
    have h2 := ih (fun e he => h e (by simp [he]))
    simp only [mixVal, List.map_cons, List.prod_cons]
    generalize ((l.map Prod.snd).map Int.natAbs).prod = P at h2 ⊢
    have h3 : (v + m * mixVal l).natAbs ≤ v.natAbs + m.natAbs * (mixVal l).natAbs := by
      calc _ ≤ v.natAbs + (m * mixVal l).natAbs := Int.natAbs_add_le _ _
        _ = _ := by rw [Int.natAbs_mul]
    have h4 : m.natAbs * ((mixVal l).natAbs + 1) ≤ m.natAbs * P := Nat.mul_le_mul_left _ h2
    rw [Nat.mul_add] at h4
    omega

/-- C10: a returned value solves every congruence and is smaller than the product of the
moduli. -/
theorem C10_crt_sound (u m : List Int) (r : Int) (h : chineseRemainder u m = .ok (some r)) :
    u.length = m.length ∧ (∀ e ∈ u.zip m, r ≡ e.1 [ZMOD e.2]) ∧
      r.natAbs < (m.map Int.natAbs).prod := by
  unfold chineseRemainder at h
  split at h
  · simp at h
  · rename_i hl
    have hl : u.length = m.length := by omega
    cases hc : crtLoop (u.zip m) [] [] with
    | err e => rw [hc] at h; simp at h
    | panic => rw [hc] at h; simp at h
    | ok o =>
      rw [hc] at h
      cases o with
      | none => simp at h
      | some v =>
        simp only [Out.ok_bind] at h
        have inv := crtLoop_sound (u.zip m) [] [] v ⟨rfl, by simp, by simp⟩ hc
        simp only [List.nil_append] at inv
        have hvl := inv.len
        have hz : (u.zip m).map Prod.snd = m := zip_map_snd hl
        have hvm : v.length = m.length := by rw [hvl, List.length_zip]; omega
        by_cases hne : m = []
        · subst hne
          have : v = [] := List.length_eq_zero_iff.1 hvm
          subst this
          simp [crtFinish] at h
        · rw [crtFinish_eq hvm hne] at h
          simp only [Out.ok_map, Out.ok.injEq, Option.some.injEq] at h
          subst h
          refine ⟨hl, ?_, ?_⟩
          · have := inv.solves
            rw [hz] at this
            exact this
          · have := inv.small
            rw [hz] at this
            have hb := mixVal_bound _ this
            rw [zip_map_snd hvm] at hb
            exact hb

theorem prod_coprime_iff (m : Int) : ∀ l : List Int,
    Int.gcd l.prod m = 1 ↔ ∀ d ∈ l, Int.gcd d m = 1 := by
  intro l
  induction l with
  | nil => simp
  | cons d l ih =>
    rw [List.prod_cons, List.forall_mem_cons, ← ih]
    rw [← Int.isCoprime_iff_gcd_eq_one, ← Int.isCoprime_iff_gcd_eq_one,
      ← Int.isCoprime_iff_gcd_eq_one]
    exact IsCoprime.mul_left_iff

theorem gcd_modEq {a b m : Int} (h : a ≡ b [ZMOD m]) : Int.gcd a m = Int.gcd b m := by
  obtain ⟨k, hk⟩ := Int.modEq_iff_dvd.1 h
  have : b = a + m * k := by omega
  rw [this, Int.gcd_add_mul_left_left]

/-- What the loop does, by a scan over the moduli: stop with a panic at a zero modulus, with
`None` at a modulus that shares a factor with an earlier one. -/
def crtScan : (done ms : List Int) → Out Unit Bool
  | _, [] => .ok true
  | done, m :: ms =>
    if m = 0 then .panic
    else if ∀ d ∈ done, Int.gcd d m = 1 then crtScan (done ++ [m]) ms
    else .ok false

theorem crtLoop_scan : ∀ (rest : List (Int × Int)) (done v : List Int),
    (fun o : Option (List Int) => o.isSome) <$> crtLoop rest done v
      = crtScan done (rest.map Prod.snd) := by
  intro rest
  induction rest with
  | nil => intro done v; rfl
  | cons e rest ih =>
    obtain ⟨ui, mi⟩ := e
    intro done v
    simp only [crtLoop, List.map_cons, crtScan]
    by_cases hm : mi = 0
    · rw [if_pos hm]
      subst hm
      cases done with
      | nil =>
        have hi : (moduloInverse 1 0).isSome := (C07_inverse_exists 1 0).2 (by decide)
        obtain ⟨c, hc⟩ := Option.isSome_iff_exists.1 hi
        have : crtT 0 (v.zip []) = .ok 0 := by simp [crtT]
        simp [crtProd, hc, crtT, bigRem]
      | cons d done => simp [crtProd, bigRem]
    · rw [if_neg hm]
      obtain ⟨p, hp⟩ := crtProd_of_ne hm done 1
      obtain ⟨t, ht⟩ := crtT_of_ne hm (v.zip done)
      have hpm := crtProd_modEq mi _ _ _ hp
      rw [one_mul] at hpm
      have hg := gcd_modEq hpm
      have hex := C07_inverse_exists p mi
      rw [hg, prod_coprime_iff] at hex
      rw [hp]
      simp only [Out.ok_bind]
      cases hi : moduloInverse p mi with
      | none =>
        rw [hi] at hex
        rw [if_neg (by rw [← hex]; simp)]
        rfl
      | some ci =>
        rw [hi] at hex
        rw [if_pos (by rw [← hex]; rfl)]
        simp only [ht, Out.ok_bind, bigRem_of_ne hm]
        exact ih _ _

theorem crtScan_true {ms : List Int} : ∀ {done : List Int}, crtScan done ms = .ok true ↔
    (∀ m ∈ ms, m ≠ 0) ∧ (∀ d ∈ done, ∀ m ∈ ms, Int.gcd d m = 1) ∧
      ms.Pairwise (fun a b => Int.gcd a b = 1) := by
  induction ms with
  | nil => intro done; simp [crtScan]
  | cons m ms ih =>
    intro done
    simp only [crtScan]
    by_cases hm : m = 0
    · simp [hm]
    · rw [if_neg hm]
      by_cases hd : ∀ d ∈ done, Int.gcd d m = 1
      · rw [if_pos hd, ih]
        constructor
        · rintro ⟨h1, h2, h3⟩
          refine ⟨?_, ?_, ?_⟩
          · intro x hx
            rcases List.mem_cons.1 hx with rfl | hx
            · exact hm
            · exact h1 x hx
          · intro d hdd x hx
            rcases List.mem_cons.1 hx with rfl | hx
            · exact hd d hdd
            · exact h2 d (by simp [hdd]) x hx
          · exact List.pairwise_cons.2 ⟨fun x hx => h2 m (by simp) x hx, h3⟩
        · rintro ⟨h1, h2, h3⟩
          have h3 := List.pairwise_cons.1 h3
          refine ⟨fun x hx => h1 x (by simp [hx]), ?_, h3.2⟩
          intro d hdd x hx
          rcases List.mem_append.1 hdd with hdd | hdd
          · exact h2 d hdd x (by simp [hx])
          · simp at hdd; subst hdd; exact h3.1 x hx
      · rw [if_neg hd]
        constructor
        · intro h; simp at h
        · rintro ⟨-, h2, -⟩
          exact absurd (fun d hdd => h2 d hdd m (by simp)) hd

theorem crtScan_no_panic {ms : List Int} : ∀ {done : List Int}, (∀ m ∈ ms, m ≠ 0) →
    crtScan done ms = .ok true ∨ crtScan done ms = .ok false := by
  induction ms with
  | nil => intro done _; left; rfl
  | cons m ms ih =>
    intro done h
    simp only [crtScan]
    rw [if_neg (h m (by simp))]
    split
    · exact ih (fun x hx => h x (by simp [hx]))
    · right; rfl

theorem crtScan_append {ms ms' : List Int} : ∀ {done : List Int}, crtScan done ms = .ok true →
    crtScan done (ms ++ ms') = crtScan (done ++ ms) ms' := by
  induction ms with
  | nil => intro done _; simp
  | cons m ms ih =>
    intro done h
    simp only [crtScan, List.cons_append] at h ⊢
    split at h
    · simp at h
    · split at h
      · rename_i h1 h2
        rw [if_neg h1, if_pos h2, ih h]
        simp
      · simp at h

theorem crtScan_append_false {ms ms' : List Int} : ∀ {done : List Int},
    crtScan done ms = .ok false → crtScan done (ms ++ ms') = .ok false := by
  induction ms with
  | nil => intro done h; simp [crtScan] at h
  | cons m ms ih =>
    intro done h
    simp only [crtScan, List.cons_append] at h ⊢
    split at h
    · simp at h
    · split at h
      · rename_i h1 h2
        rw [if_neg h1, if_pos h2, ih h]
      · rename_i h1 h2
        rw [if_neg h1, if_neg h2]

theorem chineseRemainder_scan {u m : List Int} (hl : u.length = m.length) (hne : m ≠ []) :
    (fun o : Option Int => o.isSome) <$> chineseRemainder u m = crtScan [] m := by
  have hs := crtLoop_scan (u.zip m) [] []
  rw [zip_map_snd hl] at hs
  rw [← hs]
  unfold chineseRemainder
  rw [if_neg (by omega)]
  cases hc : crtLoop (u.zip m) [] [] with
  | err e => rfl
  | panic => rfl
  | ok o =>
    cases o with
    | none => rfl
    | some v =>
      have inv := crtLoop_sound (u.zip m) [] [] v ⟨rfl, by simp, by simp⟩ hc
      have hvl := inv.len
      simp only [List.nil_append] at hvl
      have hvm : v.length = m.length := by rw [hvl, List.length_zip]; omega
      simp only [Out.ok_bind, crtFinish_eq hvm hne]
      rfl

/-- C11: with non-zero moduli a solution is returned exactly when the moduli are pairwise
coprime, and `None` exactly when they are not. -/
theorem C11_crt_complete (u m : List Int) (hl : u.length = m.length) (hne : m ≠ [])
    (h0 : ∀ x ∈ m, x ≠ 0) :
    ((∃ r, chineseRemainder u m = .ok (some r)) ↔ m.Pairwise (fun a b => Int.gcd a b = 1)) ∧
    (chineseRemainder u m = .ok none ↔ ¬ m.Pairwise (fun a b => Int.gcd a b = 1)) := by
  have hs := chineseRemainder_scan hl hne
  have ht := crtScan_true (ms := m) (done := [])
  have hp := crtScan_no_panic (ms := m) (done := []) h0
  have ht' : crtScan [] m = .ok true ↔ m.Pairwise (fun a b => Int.gcd a b = 1) := by
    rw [ht]; exact ⟨fun h => h.2.2, fun h => ⟨h0, by simp, h⟩⟩
  rw [← ht', ← hs]
  rw [← hs] at hp
  cases hc : chineseRemainder u m with
  | err e => rw [hc] at hp; simp at hp
  | panic => rw [hc] at hp; simp at hp
  | ok o => cases o <;> simp

/-- C11: lists of different length give `None`. -/
theorem C11_crt_length (u m : List Int) (h : u.length ≠ m.length) :
    chineseRemainder u m = .ok none := by
  unfold chineseRemainder; rw [if_pos h]

/-- C11: two empty lists panic. -/
theorem C11_crt_empty : chineseRemainder [] [] = .panic := rfl

/-- C11: a zero modulus panics, unless two earlier moduli already share a factor. -/
theorem C11_crt_zero_modulus (u pre post : List Int)
    (hl : u.length = (pre ++ 0 :: post).length) (h0 : ∀ x ∈ pre, x ≠ 0) :
    (pre.Pairwise (fun a b => Int.gcd a b = 1) →
      chineseRemainder u (pre ++ 0 :: post) = .panic) ∧
    (¬ pre.Pairwise (fun a b => Int.gcd a b = 1) →
      chineseRemainder u (pre ++ 0 :: post) = .ok none) := by
  have hs := chineseRemainder_scan hl (by simp)
  constructor
  · intro hp
    have : crtScan [] pre = .ok true := crtScan_true.2 ⟨h0, by simp, hp⟩
    rw [crtScan_append this] at hs
    simp only [crtScan, if_true] at hs
    cases hc : chineseRemainder u (pre ++ 0 :: post) with
    | err e => rw [hc] at hs; simp at hs
    | panic => rfl
    | ok o => rw [hc] at hs; simp at hs
  · intro hp
    have hf : crtScan [] pre = .ok false := by
      rcases crtScan_no_panic (done := []) h0 with h | h
      · exact absurd (crtScan_true.1 h).2.2 hp
      · exact h
    rw [crtScan_append_false hf] at hs
    cases hc : chineseRemainder u (pre ++ 0 :: post) with
    | err e => rw [hc] at hs; simp at hs
    | panic => rw [hc] at hs; simp at hs
    | ok o =>
      rw [hc] at hs
      cases o with
      | none => rfl
      | some r => simp at hs

-- Concrete cases meeting the hypotheses.
example : ∃ r, chineseRemainder [2, 3, 2] [3, 5, 7] = .ok (some r) :=
  (C11_crt_complete [2, 3, 2] [3, 5, 7] rfl (by decide) (by decide)).1.2 (by decide)
example : chineseRemainder [1, 1] [4, 6] = .ok none :=
  (C11_crt_complete [1, 1] [4, 6] rfl (by decide) (by decide)).2.2 (by decide)
example : chineseRemainder [1, 1, 1] [4, 0, 6] = .panic :=
  (C11_crt_zero_modulus [1, 1, 1] [4] [6] rfl (by decide)).1 (by decide)
example : chineseRemainder [1, 1, 1] [4, 6, 0] = .ok none :=
  (C11_crt_zero_modulus [1, 1, 1] [4, 6] [] rfl (by decide)).2 (by decide)

end SM.Props
