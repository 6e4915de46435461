import Verif.Alg.Prime
import Verif.Props.PrimeSieve
import Mathlib.Data.Nat.ModEq
import Mathlib.Tactic.Linarith
/-
C12, C13: the prime-sum routine.
-/
namespace SM.Props
open SM SM.Alg BMap

/-! ### Machine arithmetic -/

theorem u64Add_ok (chk : Bool) {a b : Nat} (h : a + b < 2 ^ 64) : u64Add chk a b = .ok (a + b) := by
  unfold u64Add; rw [if_pos h]

theorem u64Mul_ok (chk : Bool) {a b : Nat} (h : a * b < 2 ^ 64) : u64Mul chk a b = .ok (a * b) := by
  unfold u64Mul; rw [if_pos h]

theorem u64Sub_ok (chk : Bool) {a b : Nat} (h : b ≤ a) : u64Sub chk a b = .ok (a - b) := by
  unfold u64Sub; rw [if_pos h]

theorem u64Mul_wrap (a b : Nat) : ∃ x, u64Mul false a b = .ok x ∧ x < 2 ^ 64 ∧
    x ≡ a * b [MOD 2 ^ 64] := by
  unfold u64Mul
  split
  · exact ⟨_, rfl, by assumption, Nat.ModEq.refl _⟩
  · exact ⟨_, rfl, Nat.mod_lt _ (by decide), Nat.mod_modEq _ _⟩

theorem u64Sub_wrap {a b : Nat} (ha : a < 2 ^ 64) (hb : b < 2 ^ 64) :
    ∃ x, u64Sub false a b = .ok x ∧ x < 2 ^ 64 ∧ x + b ≡ a [MOD 2 ^ 64] := by
  unfold u64Sub
  split
  · refine ⟨_, rfl, by omega, ?_⟩
    rw [Nat.sub_add_cancel (by assumption)]
  · refine ⟨_, rfl, Nat.mod_lt _ (by decide), ?_⟩
    calc (a + 2 ^ 64 - b) % 2 ^ 64 + b ≡ a + 2 ^ 64 - b + b [MOD 2 ^ 64] :=
          Nat.ModEq.add_right _ (Nat.mod_modEq _ _)
      _ = a + 2 ^ 64 := Nat.sub_add_cancel (by omega)
      _ ≡ a [MOD 2 ^ 64] := by
        simp [Nat.ModEq]

theorem tri_lt {k : Nat} (h : k < 2 ^ 32) : (k + 1) * k < 2 ^ 64 := by
  have : (k + 1) * k ≤ 2 ^ 32 * (2 ^ 32 - 1) := Nat.mul_le_mul (by omega) (by omega)
  have e : 2 ^ 32 * (2 ^ 32 - 1) < 2 ^ 64 := by decide
  omega

theorem S_lt {k p : Nat} (h : k < 2 ^ 32) : S id k p < 2 ^ 63 := by
  have h1 := S_le k p
  have h2 := tri_lt h
  omega

/-! ### The key list -/

/-- The list `n/1, ..., n/r, n/r - 1, ..., 0`. -/
def keyList (n r : Nat) : List Nat :=
  (List.range' 1 r).map (fun i => n / i) ++ (List.range (n / r)).reverse

theorem primeSumKeys_eq {n r : Nat} (hr : 1 ≤ r) : primeSumKeys n r = .ok (keyList n r) := by
  unfold primeSumKeys keyList
  have : ((List.range' 1 r).map (fun i => n / i)).getLast? = some (n / r) := by
    rw [List.getLast?_map, List.getLast?_range']
    rw [if_neg (by omega)]
    simp only [Option.map_some]
    congr 2; omega
  simp only [this]

theorem mem_keyList {n r k : Nat} :
    k ∈ keyList n r ↔ (∃ i, 1 ≤ i ∧ i ≤ r ∧ n / i = k) ∨ k < n / r := by
  unfold keyList
  rw [List.mem_append, List.mem_map, List.mem_reverse, List.mem_range]
  refine or_congr_left ?_
  constructor
  · rintro ⟨i, hi, rfl⟩
    rw [List.mem_range'_1] at hi
    exact ⟨i, by omega, by omega, rfl⟩
  · rintro ⟨i, h1, h2, rfl⟩
    exact ⟨i, List.mem_range'_1.2 (by omega), rfl⟩

theorem mem_keyList_small {n r k : Nat} (hr : 1 ≤ r) (h : k ≤ n / r) : k ∈ keyList n r := by
  rw [mem_keyList]
  rcases Nat.lt_or_eq_of_le h with h | h
  · exact Or.inr h
  · exact Or.inl ⟨r, hr, le_refl _, h.symm⟩

theorem mem_keyList_le {n r k : Nat} (h : k ∈ keyList n r) : k ≤ n := by
  rw [mem_keyList] at h
  rcases h with ⟨i, -, -, rfl⟩ | h
  · exact Nat.div_le_self _ _
  · have := Nat.div_le_self n r; omega

/-- The list is closed under division. -/
theorem keyList_div {n r k p : Nat} (hr : 1 ≤ r) (hp : 1 ≤ p) (h : k ∈ keyList n r) :
    k / p ∈ keyList n r := by
  have h' := h
  rw [mem_keyList] at h
  rcases h with ⟨i, hi1, hir, rfl⟩ | h
  · rw [Nat.div_div_eq_div_mul]
    rcases Nat.le_total (i * p) r with hle | hle
    · rw [mem_keyList]
      exact Or.inl ⟨i * p, Nat.mul_pos hi1 hp, hle, rfl⟩
    · exact mem_keyList_small hr (Nat.div_le_div_left hle (by omega))
  · apply mem_keyList_small hr
    have := Nat.div_le_self k p
    omega

theorem div_succ_lt {n i : Nat} (hi : 1 ≤ i) (h : i * (i + 1) ≤ n) : n / (i + 1) < n / i := by
  have hq : i ≤ n / (i + 1) := (Nat.le_div_iff_mul_le (by omega)).2 h
  have h1 : n / (i + 1) * (i + 1) ≤ n := Nat.div_mul_le_self _ _
  have : (n / (i + 1) + 1) * i ≤ n := by
    calc (n / (i + 1) + 1) * i = n / (i + 1) * i + i := by ring
      _ ≤ n / (i + 1) * i + n / (i + 1) := by omega
      _ = n / (i + 1) * (i + 1) := by ring
      _ ≤ n := h1
  exact (Nat.le_div_iff_mul_le (by omega)).2 this

theorem keyList_desc {n r : Nat} (hrr : r * r ≤ n) : (keyList n r).Pairwise (· > ·) := by
  unfold keyList
  rw [List.pairwise_append]
  refine ⟨?_, ?_, ?_⟩
  · rw [List.pairwise_map]
    have : ∀ a b, 1 ≤ a → a < b → b ≤ r → n / a > n / b := by
      intro a b ha hab
      induction b with
      | zero => omega
      | succ b ih =>
        intro hb
        have hs : n / (b + 1) < n / b := by
          apply div_succ_lt (by omega)
          calc b * (b + 1) ≤ r * r := Nat.mul_le_mul (by omega) hb
            _ ≤ n := hrr
        rcases Nat.lt_or_ge a b with h | h
        · have := ih h (by omega); omega
        · have : a = b := by omega
          subst this; exact hs
    refine List.Pairwise.imp_of_mem ?_ (List.pairwise_lt_range' (s := 1) (n := r))
    intro a b ha hb hab
    rw [List.mem_range'_1] at ha hb
    exact this a b (by omega) hab (by omega)
  · rw [List.pairwise_reverse]
    exact List.pairwise_lt_range
  · intro a ha b hb
    rw [List.mem_map] at ha
    rw [List.mem_reverse, List.mem_range] at hb
    obtain ⟨i, hi, rfl⟩ := ha
    rw [List.mem_range'_1] at hi
    have : n / r ≤ n / i := Nat.div_le_div_left (by omega) (by omega)
    omega

/-! ### Representation: how the `u64` stored at a key relates to the sieved sum -/

/-- `x` is congruent to the sieved sum plus an error, and exact at keys below 2^32. -/
structure Rep (M : Nat) (e : Nat → Nat) (k q x : Nat) : Prop where
  lt : x < 2 ^ 64
  cong : x ≡ S id k q + e k [MOD M]
  exact : k < 2 ^ 32 → x = S id k q

/-- Side conditions on modulus and error under which the loop preserves `Rep`. -/
structure ErrOk (chk : Bool) (n M : Nat) (e : Nat → Nat) : Prop where
  mode : chk = false ∨ n < 2 ^ 32
  dvd : M ∣ 2 ^ 64
  scale : ∀ k p, k ≤ n → 2 ≤ p → p * e (k / p) ≡ 0 [MOD M]
  small : ∀ k, k < 2 ^ 32 → e k = 0
  init : ∀ k, 1 ≤ k → k ≤ n →
    (if chk then ((k + 1) * k) else ((k + 1) * k) % 2 ^ 64) / 2 + 2 ^ 64 - 1
      ≡ S id k 1 + e k [MOD M]

/-- All keys of the list hold correct values at sieve level `q`. -/
def Table (M : Nat) (e : Nat → Nat) (v : List Nat) (q : Nat) (s : BMap Nat Nat) : Prop :=
  ∀ k ∈ v, 1 ≤ k → ∃ x, BMap.get natCmp k s = some x ∧ Rep M e k q x

theorem mapIndex_eq {s : BMap Nat Nat} {k x : Nat} (h : BMap.get natCmp k s = some x) :
    mapIndex s k = .ok x := by simp [mapIndex, h]

/-- One inner update. -/
theorem inner_update {chk : Bool} {n M : Nat} {e : Nat → Nat} (he : ErrOk chk n M e)
    {k p a d sp : Nat} (hkn : k ≤ n) (hp : p.Prime) (hpk : p * p ≤ k) (hp32 : p < 2 ^ 32)
    (hsp : sp = S id (p - 1) (p - 1)) (ha : Rep M e (k / p) (p - 1) a) (hd : Rep M e k (p - 1) d) :
    ∃ b c x, u64Sub chk a sp = .ok b ∧ u64Mul chk p b = .ok c ∧ u64Sub chk d c = .ok x ∧
      Rep M e k p x := by
  have hstep := S_step (f := id) (fun a b => rfl) hp hpk
  simp only [id] at hstep
  have hp2 := hp.two_le
  have hpkp : p ≤ k / p := (Nat.le_div_iff_mul_le (by omega)).2 hpk
  have hmono : S id (p - 1) (p - 1) ≤ S id (k / p) (p - 1) := S_mono (by omega)
  by_cases hk : k < 2 ^ 32
  · have hkp : k / p < 2 ^ 32 := by have := Nat.div_le_self k p; omega
    have hax := ha.exact hkp
    have hdx := hd.exact hk
    have hS := S_lt (p := p - 1) hk
    subst hax hdx hsp
    refine ⟨_, _, _, u64Sub_ok chk hmono, u64Mul_ok chk ?_, u64Sub_ok chk ?_, ?_⟩
    · omega
    · omega
    · have hx : S id k (p - 1) - p * (S id (k / p) (p - 1) - S id (p - 1) (p - 1)) = S id k p := by
        omega
      rw [hx]
      refine ⟨by omega, ?_, fun _ => rfl⟩
      rw [he.small k hk, Nat.add_zero]
  · have hchk : chk = false := by
      rcases he.mode with h | h
      · exact h
      · omega
    subst hchk
    have hsplt : sp < 2 ^ 64 := by
      have := S_lt (k := p - 1) (p := p - 1) (by omega)
      omega
    obtain ⟨b, hb, hblt, hbc⟩ := u64Sub_wrap ha.lt hsplt
    obtain ⟨c, hc, hclt, hcc⟩ := u64Mul_wrap p b
    obtain ⟨x, hx, hxlt, hxc⟩ := u64Sub_wrap hd.lt hclt
    refine ⟨b, c, x, hb, hc, hx, hxlt, ?_, fun h => absurd h hk⟩
    have hbc := hbc.of_dvd he.dvd
    have hcc := hcc.of_dvd he.dvd
    have hxc := hxc.of_dvd he.dvd
    have h1 : b ≡ (S id (k / p) (p - 1) - S id (p - 1) (p - 1)) + e (k / p) [MOD M] := by
      apply Nat.ModEq.add_right_cancel' sp
      refine hbc.trans (ha.cong.trans ?_)
      have : S id (k / p) (p - 1) + e (k / p)
          = S id (k / p) (p - 1) - S id (p - 1) (p - 1) + e (k / p) + sp := by omega
      rw [this]
    have h2 : c ≡ p * (S id (k / p) (p - 1) - S id (p - 1) (p - 1)) [MOD M] := by
      refine hcc.trans ((Nat.ModEq.mul_left p h1).trans ?_)
      rw [Nat.mul_add]
      exact (Nat.ModEq.add_left _ (he.scale k p hkn hp2)).trans (by rw [Nat.add_zero])
    apply Nat.ModEq.add_right_cancel' c
    refine hxc.trans (hd.cong.trans ?_)
    rw [hstep]
    calc S id k p + p * (S id (k / p) (p - 1) - S id (p - 1) (p - 1)) + e k
        = S id k p + e k + p * (S id (k / p) (p - 1) - S id (p - 1) (p - 1)) := by ring
      _ ≡ S id k p + e k + c [MOD M] := Nat.ModEq.add_left _ h2.symm

theorem inner_spec {chk : Bool} {n r M : Nat} {e : Nat → Nat} (he : ErrOk chk n M e)
    (hrr : r * r ≤ n) (hr : 1 ≤ r) {p sp : Nat} (hp : p.Prime) (hp32 : p < 2 ^ 32)
    (hsp : sp = S id (p - 1) (p - 1)) : ∀ (l done : List Nat) (s : BMap Nat Nat),
    done ++ l = keyList n r → BMap.Sorted (cmp := natCmp) s →
    Table M e done p s → Table M e l (p - 1) s →
    ∃ s', primeSumInner chk p sp (p * p) l s = .ok s' ∧ BMap.Sorted (cmp := natCmp) s' ∧
      Table M e (keyList n r) p s' := by
  intro l
  induction l with
  | nil =>
    intro done s hv hs hd _
    refine ⟨s, rfl, hs, ?_⟩
    rw [← hv]; simpa using hd
  | cons ve l ih =>
    intro done s hv hs hd hl
    have hdesc := keyList_desc hrr
    rw [← hv, List.pairwise_append] at hdesc
    obtain ⟨-, hdl, hcross⟩ := hdesc
    have hhead := (List.pairwise_cons.1 hdl).1
    unfold primeSumInner
    by_cases hlt : ve < p * p
    · rw [if_pos hlt]
      refine ⟨s, rfl, hs, ?_⟩
      rw [← hv]
      intro k hk hk1
      rcases List.mem_append.1 hk with hk | hk
      · exact hd k hk hk1
      · obtain ⟨x, hx, hrep⟩ := hl k hk hk1
        refine ⟨x, hx, ?_⟩
        have hkve : k < p * p := by
          rcases List.mem_cons.1 hk with rfl | hk
          · exact hlt
          · have := hhead k hk; omega
        have : S id k p = S id k (p - 1) := S_of_lt_sq hkve
        exact ⟨hrep.lt, by rw [this]; exact hrep.cong, by rw [this]; exact hrep.exact⟩
    · rw [if_neg hlt]
      have hp2 := hp.two_le
      have hve : ve ∈ keyList n r := by rw [← hv]; simp
      have hge : p * p ≤ ve := by omega
      have hvp : p ≤ ve / p := (Nat.le_div_iff_mul_le (by omega)).2 hge
      have hvlt : ve / p < ve := Nat.div_lt_self (by rcases Nat.eq_zero_or_pos ve with h | h; (· subst h; simp at hvp; omega); exact h) (by omega)
      have hmem : ve / p ∈ ve :: l := by
        have := keyList_div hr (by omega : 1 ≤ p) hve
        rw [← hv] at this
        rcases List.mem_append.1 this with h | h
        · have := hcross _ h ve (by simp)
          omega
        · exact h
      obtain ⟨a, hga, hra⟩ := hl _ hmem (by omega)
      obtain ⟨d, hgd, hrd⟩ := hl ve (by simp) (by omega)
      obtain ⟨b, c, x, h1, h2, h3, hx⟩ :=
        inner_update he (mem_keyList_le hve) hp hge hp32 hsp hra hrd
      simp only [mapIndex_eq hga, Out.ok_bind, h1, h2, mapIndex_eq hgd, h3]
      apply ih (done ++ [ve])
      · rw [← hv]; simp
      · exact insert_sorted natCmp_lawful _ _ _ hs
      · intro k hk hk1
        rw [get_insert_nat _ _ _ _ hs]
        rcases List.mem_append.1 hk with hk | hk
        · have hne : k ≠ ve := by
            have := hcross k hk ve (by simp); omega
          rw [if_neg hne]
          exact hd k hk hk1
        · simp only [List.mem_singleton] at hk
          subst hk
          rw [if_pos rfl]
          exact ⟨x, rfl, hx⟩
      · intro k hk hk1
        rw [get_insert_nat _ _ _ _ hs]
        have hne : k ≠ ve := by
          have := hhead k hk; omega
        rw [if_neg hne]
        exact hl k (by simp [hk]) hk1

theorem Table.congr {M : Nat} {e : Nat → Nat} {v : List Nat} {q q' : Nat} {s : BMap Nat Nat}
    (h : Table M e v q s) (hq : ∀ k, S id k q' = S id k q) : Table M e v q' s := by
  intro k hk hk1
  obtain ⟨x, hx, hr⟩ := h k hk hk1
  exact ⟨x, hx, hr.lt, by rw [hq]; exact hr.cong, by rw [hq]; exact hr.exact⟩

theorem outer_spec {chk : Bool} {n r M : Nat} {e : Nat → Nat} (he : ErrOk chk n M e)
    (hrr : r * r ≤ n) (hr : 1 ≤ r) (hr32 : r < 2 ^ 32) : ∀ (m q : Nat) (s : BMap Nat Nat),
    1 ≤ q → q + m ≤ r → BMap.Sorted (cmp := natCmp) s → Table M e (keyList n r) q s →
    ∃ s', primeSumOuter chk (keyList n r) (List.range' (q + 1) m) s = .ok s' ∧
      Table M e (keyList n r) (q + m) s' := by
  intro m
  induction m with
  | zero => intro q s _ _ _ h; exact ⟨s, rfl, h⟩
  | succ m ih =>
    intro q s hq hqm hs ht
    have hnr : r ≤ n / r := (Nat.le_div_iff_mul_le (by omega)).2 hrr
    rw [List.range'_succ]
    unfold primeSumOuter
    obtain ⟨a, hga, hra⟩ := ht (q + 1) (mem_keyList_small hr (by omega)) (by omega)
    obtain ⟨sp, hgs, hrs⟩ := ht q (mem_keyList_small hr (by omega)) hq
    have hax := hra.exact (by omega)
    have hsx := hrs.exact (by omega)
    have htest := S_test (f := id) (fun k hk => by simpa using (by omega : 0 < k))
      (p := q + 1) (by omega)
    simp only [Nat.add_sub_cancel] at htest ⊢
    simp only [mapIndex_eq hga, mapIndex_eq hgs, Out.ok_bind]
    by_cases hp : (q + 1).Prime
    · have hgt : a > sp := by rw [hax, hsx]; exact htest.2 hp
      rw [if_pos hgt]
      have hpp : (q + 1) * (q + 1) < 2 ^ 64 := by
        calc (q + 1) * (q + 1) ≤ (2 ^ 32 - 1) * (2 ^ 32 - 1) := Nat.mul_le_mul (by omega) (by omega)
          _ < 2 ^ 64 := by decide
      simp only [u64Mul_ok chk hpp, Out.ok_bind]
      obtain ⟨s1, h1, hs1, ht1⟩ := inner_spec he hrr hr hp (by omega) (sp := sp)
        (by simpa using hsx) (keyList n r) [] s rfl hs (by intro k hk; simp at hk)
        (by simpa using ht)
      rw [h1]
      simp only [Out.ok_bind]
      obtain ⟨s2, h2, ht2⟩ := ih (q + 1) s1 (by omega) (by omega) hs1 ht1
      exact ⟨s2, h2, by rw [show q + (m + 1) = q + 1 + m by omega]; exact ht2⟩
    · have hgt : ¬ a > sp := by rw [hax, hsx]; exact fun h => hp (htest.1 h)
      rw [if_neg hgt]
      have ht1 : Table M e (keyList n r) (q + 1) s :=
        ht.congr (fun k => S_of_not_prime hp)
      obtain ⟨s2, h2, ht2⟩ := ih (q + 1) s (by omega) (by omega) hs ht1
      exact ⟨s2, h2, by rw [show q + (m + 1) = q + 1 + m by omega]; exact ht2⟩

/-- The value stored initially at key `k`. -/
def initVal (chk : Bool) (k : Nat) : Nat :=
  u64WrappingSub ((if chk then ((k + 1) * k) else ((k + 1) * k) % 2 ^ 64) / 2) 1

theorem entry_eq {chk : Bool} {k : Nat} (hk : k + 1 < 2 ^ 64) (hm : chk = false ∨ k < 2 ^ 32) :
    primeSumEntry chk k = .ok (k, initVal chk k) := by
  unfold primeSumEntry initVal
  rw [u64Add_ok chk hk]
  simp only [Out.ok_bind]
  by_cases h : (k + 1) * k < 2 ^ 64
  · rw [u64Mul_ok chk h]
    cases chk
    · simp only [Out.ok_bind, Nat.mod_eq_of_lt h]; rfl
    · rfl
  · have hc : chk = false := by
      rcases hm with h' | h'
      · exact h'
      · exact absurd (tri_lt h') h
    subst hc
    unfold u64Mul
    rw [if_neg h]; rfl

theorem entries_eq {chk : Bool} {n : Nat} (hn : n + 1 < 2 ^ 64) (hm : chk = false ∨ n < 2 ^ 32) :
    ∀ (v : List Nat), (∀ k ∈ v, k ≤ n) →
    primeSumEntries chk v = .ok (v.map (fun k => (k, initVal chk k))) := by
  intro v
  induction v with
  | nil => intro _; rfl
  | cons k v ih =>
    intro h
    unfold primeSumEntries
    have hk := h k (by simp)
    rw [entry_eq (by omega) (hm.imp id (by omega)), ih (fun x hx => h x (by simp [hx]))]
    rfl

theorem initVal_rep {chk : Bool} {n M : Nat} {e : Nat → Nat} (he : ErrOk chk n M e) {k : Nat}
    (hk1 : 1 ≤ k) (hkn : k ≤ n) : Rep M e k 1 (initVal chk k) := by
  refine ⟨Nat.mod_lt _ (by decide), ?_, ?_⟩
  · unfold initVal u64WrappingSub
    exact ((Nat.mod_modEq _ _).of_dvd he.dvd).trans (he.init k hk1 hkn)
  · intro h
    have h1 := tri_lt h
    have h2 := S_init k hk1
    unfold initVal u64WrappingSub
    have : (if chk then ((k + 1) * k) else ((k + 1) * k) % 2 ^ 64) = (k + 1) * k := by
      rw [Nat.mod_eq_of_lt h1]; split <;> rfl
    rw [this]
    have h3 : 0 < 2 ^ 64 := by decide
    rw [show (k + 1) * k / 2 + 2 ^ 64 - 1 = S id k 1 + 2 ^ 64 by omega, Nat.add_mod_right,
      Nat.mod_eq_of_lt (by omega)]

theorem get_ofList_map (f : Nat → Nat) (v : List Nat) (k : Nat) (h : k ∈ v) :
    BMap.get natCmp k (BMap.ofList natCmp (v.map (fun k => (k, f k)))) = some (f k) := by
  rw [get_ofList natCmp_lawful, ← List.map_reverse, List.find?_map]
  have : (v.reverse.find? ((fun e : Nat × Nat => decide (natCmp k e.1 = .eq)) ∘ fun k => (k, f k)))
      = some k := by
    rw [List.find?_eq_some_iff_append]
    refine ⟨by simp, ?_⟩
    obtain ⟨as, bs, hab, hnot⟩ := List.eq_append_cons_of_mem (List.mem_reverse.2 h)
    refine ⟨as, bs, hab, ?_⟩
    intro a ha
    simp
    rintro rfl
    exact hnot ha
  rw [this]; rfl

theorem primeSumU64_spec {chk : Bool} {n M : Nat} {e : Nat → Nat} (he : ErrOk chk n M e)
    (h1 : 1 ≤ n) (hn : n < (2 ^ 32 - 1) * (2 ^ 32 - 1)) :
    ∃ x, primeSumU64 chk n = .ok x ∧ Rep M e n (Nat.sqrt n) x := by
  have hrr := Nat.sqrt_le n
  have hrr1 := Nat.lt_succ_sqrt n
  have hr : 1 ≤ Nat.sqrt n := Nat.sqrt_pos.2 h1
  have hr32 : Nat.sqrt n < 2 ^ 32 - 1 := Nat.sqrt_lt.2 hn
  unfold primeSumU64
  generalize Nat.sqrt n = r at *
  have hm : (2 ^ 32 - 1) * (2 ^ 32 - 1) < 2 ^ 64 := by decide
  have hn64 : n + 1 < 2 ^ 64 := by omega
  have hr1 : (r + 1) * (r + 1) < 2 ^ 64 := by
    calc (r + 1) * (r + 1) ≤ (2 ^ 32 - 1) * (2 ^ 32 - 1) := Nat.mul_le_mul (by omega) (by omega)
      _ < 2 ^ 64 := hm
  simp only [u64Mul_ok chk (show r * r < 2 ^ 64 by omega), u64Add_ok chk (show r + 1 < 2 ^ 64 by omega),
    u64Mul_ok chk hr1, Out.ok_bind]
  rw [if_pos ⟨hrr, hrr1⟩, primeSumKeys_eq hr]
  simp only [Out.ok_bind]
  rw [entries_eq hn64 he.mode _ (fun k hk => mem_keyList_le hk)]
  simp only [Out.ok_bind]
  have hinit : Table M e (keyList n r) 1
      (BMap.ofList natCmp ((keyList n r).map (fun k => (k, initVal chk k)))) := by
    intro k hk hk1
    exact ⟨_, get_ofList_map _ _ _ hk, initVal_rep he hk1 (mem_keyList_le hk)⟩
  obtain ⟨s, hs, ht⟩ := outer_spec he hrr hr (by omega) (r - 1) 1 _ (le_refl _) (by omega)
    (ofList_sorted natCmp_lawful _) hinit
  simp only [Nat.reduceAdd] at hs
  rw [hs]
  simp only [Out.ok_bind]
  have hmem : n ∈ keyList n r := mem_keyList.2 (Or.inl ⟨1, le_refl _, hr, Nat.div_one n⟩)
  obtain ⟨x, hx, hrep⟩ := ht n hmem h1
  rw [show 1 + (r - 1) = r by omega] at hrep
  exact ⟨x, mapIndex_eq hx, hrep⟩

theorem errOk_exact (chk : Bool) {n : Nat} (hn : n < 2 ^ 32) : ErrOk chk n 1 (fun _ => 0) where
  mode := Or.inr hn
  dvd := by simp
  scale := by intros; simp [Nat.ModEq]
  small := by intros; rfl
  init := by intros; exact Nat.modEq_one

/-- C12: for every `1 <= n < 2^32` the routine returns the exact sum of the primes up to `n`,
with or without overflow checks. -/
theorem C12_prime_sum (chk : Bool) (n : Nat) (h1 : 1 ≤ n) (hn : n < 2 ^ 32) :
    primeSumU64 chk n = .ok (primeSum n) := by
  obtain ⟨x, hx, hrep⟩ := primeSumU64_spec (errOk_exact chk hn) h1
    (lt_of_lt_of_le hn (by decide))
  rw [hx, hrep.exact hn, S_final (Nat.lt_succ_sqrt n)]

/-- C13, violation: zero panics instead of returning the empty sum. -/
theorem C13_prime_sum_zero (chk : Bool) : primeSumU64 chk 0 = .panic ∧ primeSum 0 = 0 := by
  refine ⟨?_, by decide⟩
  cases chk <;> simp [primeSumU64, u64Mul, u64Add, primeSumKeys]

/-- C13, violation: with overflow checks every `n >= 2^32` panics. -/
theorem C13_prime_sum_checked_overflow (n : Nat) (h : 2 ^ 32 ≤ n) (hn : n < 2 ^ 64) :
    primeSumU64 true n = .panic := by
  have hrr := Nat.sqrt_le n
  have hrr1 := Nat.lt_succ_sqrt n
  have hr : 1 ≤ Nat.sqrt n := Nat.sqrt_pos.2 (by omega)
  have hr32 : Nat.sqrt n < 2 ^ 32 := Nat.sqrt_lt.2 (by omega)
  unfold primeSumU64
  generalize Nat.sqrt n = r at *
  simp only [u64Mul_ok true (show r * r < 2 ^ 64 by omega),
    u64Add_ok true (show r + 1 < 2 ^ 64 by omega), Out.ok_bind]
  by_cases hb : (r + 1) * (r + 1) < 2 ^ 64
  · simp only [u64Mul_ok true hb, Out.ok_bind]
    rw [if_pos ⟨hrr, hrr1⟩, primeSumKeys_eq hr]
    simp only [Out.ok_bind]
    have hcons : ∃ l, keyList n r = n :: l := by
      unfold keyList
      obtain ⟨r', rfl⟩ : ∃ r', r = r' + 1 := ⟨r - 1, by omega⟩
      rw [List.range'_succ]
      simp
    obtain ⟨l, hl⟩ := hcons
    rw [hl]
    unfold primeSumEntries primeSumEntry
    have : u64Mul true (n + 1) n = .panic := by
      unfold u64Mul
      rw [if_neg]
      · rfl
      · have : 2 ^ 32 * 2 ^ 32 ≤ (n + 1) * n := Nat.mul_le_mul (by omega) h
        omega
    by_cases hn1 : n + 1 < 2 ^ 64
    · simp [u64Add_ok true hn1, this]
    · have : u64Add true n 1 = .panic := by unfold u64Add; rw [if_neg hn1]; rfl
      simp [this]
  · have : u64Mul true (r + 1) (r + 1) = .panic := by unfold u64Mul; rw [if_neg hb]; rfl
    simp [this]

/-- C13, violation: from `(2^32-1)^2` on the internal assertion fails even without overflow
checks. -/
theorem C13_prime_sum_assertion (chk : Bool) (n : Nat) (h : (2 ^ 32 - 1) * (2 ^ 32 - 1) ≤ n)
    (hn : n < 2 ^ 64) : primeSumU64 chk n = .panic := by
  cases chk with
  | true => exact C13_prime_sum_checked_overflow n (le_trans (by decide) h) hn
  | false =>
    have hr : Nat.sqrt n = 2 ^ 32 - 1 := by
      apply le_antisymm
      · have : Nat.sqrt n < 2 ^ 32 := Nat.sqrt_lt.2 (by omega)
        omega
      · exact Nat.le_sqrt.2 h
    unfold primeSumU64
    rw [hr]
    have e1 : u64Mul false (2 ^ 32 - 1) (2 ^ 32 - 1) = .ok ((2 ^ 32 - 1) * (2 ^ 32 - 1)) :=
      u64Mul_ok _ (by decide)
    have e2 : u64Add false (2 ^ 32 - 1) 1 = .ok (2 ^ 32) := rfl
    have e3 : u64Mul false (2 ^ 32) (2 ^ 32) = .ok 0 := rfl
    simp only [e1, e2, e3, Out.ok_bind]
    rw [if_neg (by omega)]

theorem errOk_wrap (n : Nat) : ErrOk false n (2 ^ 63) (fun _ => 0) where
  mode := Or.inl rfl
  dvd := by decide
  scale := by intros; simp [Nat.ModEq]
  small := by intros; rfl
  init := by
    intro k h1 _
    have hs := S_init k h1
    have heven : (k + 1) * k % 2 = 0 := by
      rw [Nat.mul_comm]; exact Nat.even_iff.1 (Nat.even_mul_succ_self k)
    generalize hT : (k + 1) * k = T at *
    simp only [Bool.false_eq_true, if_false, Nat.ModEq]
    omega

/-- C13: without overflow checks (a release build) the answer for `2^32 <= n < (2^32-1)^2` is
the true sum modulo 2^63 only. -/
theorem C13_prime_sum_release (n : Nat) (h1 : 1 ≤ n) (hn : n < (2 ^ 32 - 1) * (2 ^ 32 - 1)) :
    ∃ x, primeSumU64 false n = .ok x ∧ x < 2 ^ 64 ∧ x ≡ primeSum n [MOD 2 ^ 63] := by
  obtain ⟨x, hx, hrep⟩ := primeSumU64_spec (errOk_wrap n) h1 hn
  refine ⟨x, hx, hrep.lt, ?_⟩
  have := hrep.cong
  rw [S_final (Nat.lt_succ_sqrt n), Nat.add_zero] at this
  exact this

theorem errOk_band {n : Nat} (hn : n < 2 ^ 33) :
    ErrOk false n (2 ^ 64) (fun k => 2 ^ 63 * ((k + 1) * k / 2 ^ 64)) where
  mode := Or.inl rfl
  dvd := by simp
  scale := by
    intro k p hk hp
    have hkp : k / p < 2 ^ 32 := by
      have : k / p ≤ k / 2 := Nat.div_le_div_left hp (by decide)
      omega
    rw [Nat.div_eq_of_lt (tri_lt hkp)]; simp [Nat.ModEq]
  small := by
    intro k hk
    rw [Nat.div_eq_of_lt (tri_lt hk), Nat.mul_zero]
  init := by
    intro k h1 _
    have hs := S_init k h1
    have heven : (k + 1) * k % 2 = 0 := by
      rw [Nat.mul_comm]; exact Nat.even_iff.1 (Nat.even_mul_succ_self k)
    generalize hT : (k + 1) * k = T at *
    simp only [Bool.false_eq_true, if_false, Nat.ModEq]
    omega

/-- C13: the exact answer of a release build for `n < 2^33`, including the error term that the
wrapped multiplication introduces. -/
theorem C13_prime_sum_release_exact (n : Nat) (h1 : 1 ≤ n) (hn : n < 2 ^ 33) :
    primeSumU64 false n = .ok ((primeSum n + 2 ^ 63 * ((n + 1) * n / 2 ^ 64)) % 2 ^ 64) := by
  obtain ⟨x, hx, hrep⟩ := primeSumU64_spec (errOk_band hn) h1 (lt_of_lt_of_le hn (by decide))
  have := hrep.cong
  rw [S_final (Nat.lt_succ_sqrt n)] at this
  rw [hx, ← this, Nat.mod_eq_of_lt hrep.lt]

/-- C13, violation: a release build answers wrongly on the whole range
`2^32 <= n ≤ 6074000999` (where `n * (n + 1)` wraps exactly once). -/
theorem C13_prime_sum_release_wrong (n : Nat) (h1 : 2 ^ 32 ≤ n) (hn : n ≤ 6074000999) :
    ∃ x, primeSumU64 false n = .ok x ∧ x ≠ primeSum n := by
  refine ⟨_, C13_prime_sum_release_exact n (by omega) (by omega), ?_⟩
  have hq : (n + 1) * n / 2 ^ 64 = 1 := by
    have ha : 2 ^ 32 * 2 ^ 32 ≤ (n + 1) * n := Nat.mul_le_mul (by omega) h1
    have hb : (n + 1) * n ≤ 6074001000 * 6074000999 := Nat.mul_le_mul (by omega) (by omega)
    omega
  rw [hq]
  intro h
  omega

-- Concrete cases meeting the hypotheses.
example : primeSumU64 true 100 = .ok (primeSum 100) := C12_prime_sum true 100 (by decide) (by decide)
example : primeSum 100 = 1060 := by decide +kernel
example : primeSumU64 true 5000000000 = .panic :=
  C13_prime_sum_checked_overflow 5000000000 (by decide) (by decide)
example : ∃ x, primeSumU64 false 5000000000 = .ok x ∧ x ≠ primeSum 5000000000 :=
  C13_prime_sum_release_wrong 5000000000 (by decide) (by decide)

end SM.Props
