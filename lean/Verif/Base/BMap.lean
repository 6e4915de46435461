/-
`std::collections::BTreeMap`, modelled as a list of entries sorted by an `Ordering`-valued
comparison.  Observable behaviour modelled: `get`, `insert` (an existing key object is kept and
only its value replaced, as std documents), `len`, iteration in key order.
-/
namespace SM

/-- A B-tree map: its entries in iteration order. -/
abbrev BMap (κ : Type u) (ν : Type v) := List (κ × ν)

namespace BMap
variable {κ : Type u} {ν : Type v} (cmp : κ → κ → Ordering)

/-- `BTreeMap::get`. -/
def get (k : κ) : BMap κ ν → Option ν
  | [] => none
  | (k', v) :: m =>
    match cmp k k' with
    | .lt => none
    | .eq => some v
    | .gt => get k m

/-- `BTreeMap::insert` (return value dropped). -/
def insert (k : κ) (v : ν) : BMap κ ν → BMap κ ν
  | [] => [(k, v)]
  | (k', v') :: m =>
    match cmp k k' with
    | .lt => (k, v) :: (k', v') :: m
    | .eq => (k', v) :: m
    | .gt => (k', v') :: insert k v m

/-- The laws a Rust `Ord` implementation promises. -/
structure LawfulCmp : Prop where
  refl : ∀ a, cmp a a = .eq
  swap : ∀ a b, cmp b a = (cmp a b).swap
  trans_lt : ∀ a b c, cmp a b = .lt → cmp b c = .lt → cmp a c = .lt
  eq_left : ∀ a b c, cmp a b = .eq → cmp a c = cmp b c

variable {cmp}

theorem LawfulCmp.eq_right (h : LawfulCmp cmp) {a b : κ} (c : κ) (hab : cmp a b = .eq) :
    cmp c a = cmp c b := by
  have := h.eq_left a b c hab
  rw [h.swap a c, h.swap b c, this]

/-- Entries strictly increasing in key: the representation invariant. -/
def Sorted (m : BMap κ ν) : Prop := m.Pairwise (fun a b => cmp a.1 b.1 = .lt)

theorem get_insert (h : LawfulCmp cmp) (k k' : κ) (v : ν) (m : BMap κ ν)
    (hs : Sorted (cmp := cmp) m) :
    get cmp k' (insert cmp k v m) = if cmp k' k = .eq then some v else get cmp k' m := by
  induction m with
  | nil =>
    simp only [insert, get]
    cases hc : cmp k' k <;> simp
  | cons e m ih =>
    obtain ⟨a, b⟩ := e
    have hs' : Sorted (cmp := cmp) m := (List.pairwise_cons.1 hs).2
    simp only [insert]
    cases hka : cmp k a with
    | lt =>
      simp only [get]
      cases hc : cmp k' k with
      | lt =>
        have := h.trans_lt _ _ _ hc hka
        simp [this]
      | eq => simp
      | gt => simp
    | eq =>
      simp only [get]
      have e1 : cmp k' k = cmp k' a := h.eq_right k' hka
      rw [e1]
      cases hc : cmp k' a <;> simp
    | gt =>
      simp only [get]
      cases hc : cmp k' a with
      | lt =>
        have hak : cmp a k = .lt := by rw [h.swap k a, hka]; rfl
        have := h.trans_lt _ _ _ hc hak
        simp [this]
      | eq =>
        have : cmp k' k = cmp a k := h.eq_left _ _ _ hc
        rw [this, h.swap k a, hka]; simp
      | gt => simp only [ih hs']

theorem mem_insert_key {k : κ} {v : ν} {m : BMap κ ν} {e : κ × ν}
    (he : e ∈ insert cmp k v m) : e.1 = k ∨ ∃ e' ∈ m, e'.1 = e.1 := by
  induction m with
  | nil => simp [insert] at he; simp [he]
  | cons x m ih =>
    obtain ⟨a, b⟩ := x
    simp only [insert] at he
    cases hka : cmp k a <;> simp only [hka] at he
    · rcases List.mem_cons.1 he with h | h
      · left; rw [h]
      · right; exact ⟨e, h, rfl⟩
    · rcases List.mem_cons.1 he with h | h
      · right; exact ⟨(a, b), by simp, by rw [h]⟩
      · right; exact ⟨e, by simp [h], rfl⟩
    · rcases List.mem_cons.1 he with h | h
      · right; exact ⟨(a, b), by simp, by rw [h]⟩
      · rcases ih h with h' | ⟨e', he', h'⟩
        · left; exact h'
        · right; exact ⟨e', by simp [he'], h'⟩

theorem length_insert_of_get_none {k : κ} {v : ν} {m : BMap κ ν} (hg : get cmp k m = none) :
    (insert cmp k v m).length = m.length + 1 := by
  induction m with
  | nil => rfl
  | cons x m ih =>
    obtain ⟨a, b⟩ := x
    simp only [get] at hg
    simp only [insert]
    cases hka : cmp k a <;> simp only [hka] at hg ⊢
    · rfl
    · simp at hg
    · simp [ih hg]

theorem insert_sorted (h : LawfulCmp cmp) (k : κ) (v : ν) (m : BMap κ ν)
    (hs : Sorted (cmp := cmp) m) : Sorted (cmp := cmp) (insert cmp k v m) := by
  induction m with
  | nil => simp [insert, Sorted]
  | cons x m ih =>
    obtain ⟨a, b⟩ := x
    have hp := List.pairwise_cons.1 hs
    simp only [insert]
    cases hka : cmp k a with
    | lt =>
      refine List.pairwise_cons.2 ⟨?_, hs⟩
      intro e he
      rcases List.mem_cons.1 he with h' | h'
      · rw [h']; exact hka
      · exact h.trans_lt _ _ _ hka (hp.1 e h')
    | eq => exact List.pairwise_cons.2 ⟨fun e he => hp.1 e he, hp.2⟩
    | gt =>
      refine List.pairwise_cons.2 ⟨?_, ih hp.2⟩
      intro e he
      rcases mem_insert_key he with h' | ⟨e', he', h'⟩
      · show cmp a e.1 = .lt
        rw [h', h.swap k a, hka]; rfl
      · show cmp a e.1 = .lt
        rw [← h']; exact hp.1 e' he'

@[simp] theorem sorted_nil : Sorted (cmp := cmp) ([] : BMap κ ν) := List.Pairwise.nil

/-- `iter.collect::<BTreeMap<_,_>>()`: insert the entries in order. -/
def ofList (cmp : κ → κ → Ordering) (l : List (κ × ν)) : BMap κ ν :=
  l.foldl (fun m e => insert cmp e.1 e.2 m) []

theorem foldl_insert_sorted (h : LawfulCmp cmp) (l : List (κ × ν)) (m : BMap κ ν)
    (hs : Sorted (cmp := cmp) m) :
    Sorted (cmp := cmp) (l.foldl (fun m e => insert cmp e.1 e.2 m) m) := by
  induction l generalizing m with
  | nil => exact hs
  | cons x l ih => exact ih _ (insert_sorted h _ _ _ hs)

theorem ofList_sorted (h : LawfulCmp cmp) (l : List (κ × ν)) :
    Sorted (cmp := cmp) (ofList cmp l) := foldl_insert_sorted h l [] sorted_nil

/-- Comparison of `u64`/`usize` keys. -/
def natCmp (a b : Nat) : Ordering := if a < b then .lt else if a = b then .eq else .gt

theorem natCmp_lawful : LawfulCmp natCmp where
  refl a := by simp [natCmp]
  swap a b := by
    unfold natCmp
    by_cases h1 : a < b
    · simp [h1, Nat.lt_asymm h1, Nat.ne_of_gt h1]
    · by_cases h2 : a = b
      · simp [h2]
      · have : b < a := by omega
        simp [h1, h2, this]
  trans_lt a b c := by
    unfold natCmp
    intro h1 h2
    split at h1 <;> split at h2 <;> simp_all <;> first | omega | (split at h1 <;> simp_all) | (split at h2 <;> simp_all)
  eq_left a b c h := by
    have : a = b := by
      unfold natCmp at h
      split at h
      · simp at h
      · split at h
        · assumption
        · simp at h
    rw [this]

@[simp] theorem natCmp_eq_iff {a b : Nat} : natCmp a b = .eq ↔ a = b := by
  unfold natCmp
  split
  · simp; omega
  · split <;> simp_all

theorem get_insert_nat (k k' : Nat) (v : ν) (m : BMap Nat ν) (hs : Sorted (cmp := natCmp) m) :
    get natCmp k' (insert natCmp k v m) = if k' = k then some v else get natCmp k' m := by
  rw [get_insert natCmp_lawful _ _ _ _ hs]; simp

/-- Comparison of integers. -/
def intCmp (a b : Int) : Ordering := if a < b then .lt else if a = b then .eq else .gt

theorem intCmp_lawful : LawfulCmp intCmp where
  refl a := by simp [intCmp]
  swap a b := by
    unfold intCmp
    by_cases h1 : a < b
    · have h2 : ¬ b < a := by omega
      have h3 : ¬ b = a := by omega
      simp [h1, h2, h3]
    · by_cases h2 : a = b
      · simp [h2]
      · have : b < a := by omega
        simp [h1, h2, this]
  trans_lt a b c := by
    unfold intCmp
    intro h1 h2
    have e1 : a < b := by
      by_cases h : a < b
      · exact h
      · rw [if_neg h] at h1; split at h1 <;> simp at h1
    have e2 : b < c := by
      by_cases h : b < c
      · exact h
      · rw [if_neg h] at h2; split at h2 <;> simp at h2
    rw [if_pos (by omega)]
  eq_left a b c h := by
    have : a = b := by
      unfold intCmp at h
      split at h
      · simp at h
      · split at h
        · assumption
        · simp at h
    rw [this]

@[simp] theorem intCmp_eq_iff {a b : Int} : intCmp a b = .eq ↔ a = b := by
  unfold intCmp
  split
  · simp; omega
  · split <;> simp_all

/-- Looking up in a map built by insertions: the last matching insertion wins. -/
theorem get_foldl_insert (h : LawfulCmp cmp) (k : κ) (l : List (κ × ν)) : ∀ (m : BMap κ ν),
    Sorted (cmp := cmp) m →
    get cmp k (l.foldl (fun m e => insert cmp e.1 e.2 m) m) =
      ((l.reverse.find? (fun e => cmp k e.1 = .eq)).map Prod.snd).or (get cmp k m) := by
  induction l with
  | nil => intro m _; simp
  | cons e l ih =>
    intro m hm
    rw [List.foldl_cons, ih _ (insert_sorted h _ _ _ hm), get_insert h _ _ _ _ hm]
    rw [List.reverse_cons, List.find?_append]
    cases hf : l.reverse.find? (fun e => cmp k e.1 = .eq) with
    | some x => simp
    | none =>
      by_cases he : cmp k e.1 = .eq
      · simp [he]
      · simp [he]

theorem get_ofList (h : LawfulCmp cmp) (k : κ) (l : List (κ × ν)) :
    get cmp k (ofList cmp l) = (l.reverse.find? (fun e => cmp k e.1 = .eq)).map Prod.snd := by
  unfold ofList
  rw [get_foldl_insert h k l [] sorted_nil]
  simp [get]

theorem get_of_mem (h : LawfulCmp cmp) {m : BMap κ ν} (hs : Sorted (cmp := cmp) m) {e : κ × ν} (he : e ∈ m) :
    get cmp e.1 m = some e.2 := by
  induction m with
  | nil => cases he
  | cons x m ih =>
    obtain ⟨a, b⟩ := x
    have hp := List.pairwise_cons.1 hs
    rcases List.mem_cons.1 he with rfl | he
    · simp [get, h.refl]
    · have h1 : cmp a e.1 = .lt := hp.1 e he
      have h2 : cmp e.1 a = .gt := by rw [h.swap a e.1, h1]; rfl
      simp only [get, h2]
      exact ih hp.2 he

theorem mem_foldl_key (l : List (κ × ν)) : ∀ (m : BMap κ ν) {e : κ × ν},
    e ∈ l.foldl (fun m e => insert cmp e.1 e.2 m) m → (∃ x ∈ l, x.1 = e.1) ∨ ∃ x ∈ m, x.1 = e.1 := by
  induction l with
  | nil => intro m e he; exact .inr ⟨e, he, rfl⟩
  | cons x l ih =>
    intro m e he
    rcases ih _ he with ⟨y, hy, hk⟩ | ⟨y, hy, hk⟩
    · exact .inl ⟨y, by simp [hy], hk⟩
    · rcases mem_insert_key hy with h' | ⟨z, hz, h'⟩
      · exact .inl ⟨x, by simp, by rw [← hk, h']⟩
      · exact .inr ⟨z, hz, by rw [h', hk]⟩

theorem mem_ofList_key {l : List (κ × ν)} {e : κ × ν} (he : e ∈ ofList cmp l) : ∃ x ∈ l, x.1 = e.1 := by
  rcases mem_foldl_key l [] he with h | ⟨x, hx, _⟩
  · exact h
  · cases hx

/-- Insertions under different keys commute. -/
theorem insert_comm (h : LawfulCmp cmp) {k k' : κ} (v v' : ν) (hk : ¬ cmp k k' = .eq) : ∀ m : BMap κ ν,
    insert cmp k v (insert cmp k' v' m) = insert cmp k' v' (insert cmp k v m) := by
  have hk' : ¬ cmp k' k = .eq := by
    intro e
    rw [h.swap k k'] at e
    cases hc : cmp k k' <;> simp_all
  intro m
  induction m with
  | nil =>
    simp only [insert]
    cases hc : cmp k k' with
    | lt => have : cmp k' k = .gt := by rw [h.swap k k', hc]; rfl
            simp [this]
    | eq => exact absurd hc hk
    | gt => have : cmp k' k = .lt := by rw [h.swap k k', hc]; rfl
            simp [this]
  | cons x m ih =>
    obtain ⟨a, b⟩ := x
    have sw : ∀ x y, cmp x y = .lt → cmp y x = .gt := fun x y e => by rw [h.swap x y, e]; rfl
    have sw' : ∀ x y, cmp x y = .gt → cmp y x = .lt := fun x y e => by rw [h.swap x y, e]; rfl
    simp only [insert]
    cases h1 : cmp k a with
    | lt =>
      cases h2 : cmp k' a with
      | lt =>
        cases hc : cmp k k' with
        | lt => simp [insert, hc, sw _ _ hc, h2]
        | eq => exact absurd hc hk
        | gt => simp [insert, hc, sw' _ _ hc, h1]
      | eq =>
        have hc : cmp k k' = .lt := by rw [h.eq_right k h2, h1]
        simp [insert, h1, sw _ _ hc, h2]
      | gt =>
        have hc : cmp k k' = .lt := h.trans_lt _ _ _ h1 (sw' _ _ h2)
        simp [insert, h1, sw _ _ hc, h2]
    | eq =>
      cases h2 : cmp k' a with
      | lt =>
        have hc : cmp k' k = .lt := by rw [h.eq_right k' h1, h2]
        simp [insert, h1, sw _ _ hc, h2]
      | eq =>
        have : cmp k k' = .eq := by rw [h.eq_right k h2, h1]
        exact absurd this hk
      | gt => simp [insert, h1, h2]
    | gt =>
      cases h2 : cmp k' a with
      | lt =>
        have hc : cmp k' k = .lt := h.trans_lt _ _ _ h2 (sw' _ _ h1)
        simp [insert, h1, sw _ _ hc, h2]
      | eq => simp [insert, h1, h2]
      | gt => simp [insert, h1, h2, ih]

theorem foldl_insert_perm (h : LawfulCmp cmp) {l l' : List (κ × ν)} (hp : l.Perm l')
    (hd : l.Pairwise fun a b => ¬ cmp a.1 b.1 = .eq) : ∀ m : BMap κ ν,
    l.foldl (fun m e => insert cmp e.1 e.2 m) m = l'.foldl (fun m e => insert cmp e.1 e.2 m) m := by
  induction hp with
  | nil => intro m; rfl
  | cons x _ ih => intro m; exact ih (List.pairwise_cons.1 hd).2 _
  | swap x y l =>
    intro m
    have := (List.pairwise_cons.1 hd).1 x (by simp)
    simp only [List.foldl_cons]
    rw [insert_comm h _ _ this]
  | trans h1 _ ih1 ih2 =>
    intro m
    rw [ih1 hd m]
    refine ih2 ?_ m
    refine h1.pairwise hd ?_
    intro a b hab e
    exact hab (by rw [h.swap b.1 a.1, e]; rfl)

/-- Maps collected from the same entries in another order are the same, if the keys differ. -/
theorem ofList_perm (h : LawfulCmp cmp) {l l' : List (κ × ν)} (hp : l.Perm l')
    (hd : l.Pairwise fun a b => ¬ cmp a.1 b.1 = .eq) : ofList cmp l = ofList cmp l' :=
  foldl_insert_perm h hp hd []

end BMap
end SM
