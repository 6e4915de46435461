import Verif.Peg.File
import Verif.Props.PegAgree
/-
C48: translating a file.
-/
namespace SM.Props
open SM SM.Peg

/-- The contents under a name. -/
def FS.look (fs : FS) (p : Str) : Option Bytes := (fs.entry p).map fs.data

/-- The text in a file. -/
def HasText (fs : FS) (p text : Str) : Prop := FS.look fs p = some (utf8 text)

/-- What is true of a file system while the target is being written: `b` is what it holds, everything else is as it was. -/
structure Writing (tgt : Str) (fs fs' : FS) (ino : Nat) (b : Bytes) : Prop where
  here : fs'.entry tgt = some ino
  content : fs'.data ino = b
  others : ∀ p, p ≠ tgt → fs'.entry p = fs.entry p
  same : ∀ i, i ≠ ino → fs'.data i = fs.data i
  ino : fs.entry tgt = some ino ∨ fs.entry tgt = none ∧ ∀ p, fs.entry p ≠ some ino

/-- The bytes that a source text is to be translated to. -/
def Translation (e : FileEnv) (fs : FS) (src : Str) (b : Bytes) : Prop :=
  ∃ text a, HasText fs src text ∧ e.parse text = .ok a ∧ e.encode (a.toWolfram e.cap) = some b

/-- The source holds the text of an expression. -/
def Readable (e : FileEnv) (fs : FS) (src : Str) (a : AST) : Prop := ∃ text, HasText fs src text ∧ e.parse text = .ok a

/-- What holds at each point of a run. -/
def FileInv (e : FileEnv) (src tgt : Str) (fs : FS) : FS × Phase → Prop
  | (fs', .read) => fs' = fs
  | (fs', .parse text) => fs' = fs ∧ HasText fs src text
  | (fs', .create a) => fs' = fs ∧ Readable e fs src a
  | (fs', .encode ino a) => Readable e fs src a ∧ Writing tgt fs fs' ino []
  | (fs', .write ino rest) => ∃ x, Translation e fs src (x ++ rest) ∧ Writing tgt fs fs' ino x
  | (fs', .done r) =>
    (fs' = fs ∧ r ≠ .ok () ∧ (r = .panic → ∃ text, HasText fs src text ∧ e.parse text = .panic)) ∨
    (∃ ino a, Readable e fs src a ∧ Writing tgt fs fs' ino [] ∧ r = .panic ∧ e.encode (a.toWolfram e.cap) = none) ∨
    (∃ ino x y m, Translation e fs src (x ++ y) ∧ Writing tgt fs fs' ino x ∧ r = .err (.ioError m)) ∨
    (∃ ino b, Translation e fs src b ∧ Writing tgt fs fs' ino b ∧ r = .ok ())

variable {e : FileEnv} {src tgt : Str} {fs : FS}

theorem fileInv_step {s s' : FS × Phase} (h : FileInv e src tgt fs s) (st : Step e src tgt s s') : FileInv e src tgt fs s' := by
  cases st with
  | readOk fs' ino text he hd =>
    cases h
    exact ⟨rfl, by rw [HasText, FS.look, he, Option.map_some, hd]⟩
  | readErr fs' m => cases h; exact Or.inl ⟨rfl, (fun h => nomatch h), (fun h => nomatch h)⟩
  | parseOk fs' text a hp =>
    obtain ⟨rfl, ht⟩ := h
    exact ⟨rfl, text, ht, hp⟩
  | parseErr fs' text x hp =>
    obtain ⟨rfl, ht⟩ := h
    exact Or.inl ⟨rfl, (fun h => nomatch h), (fun h => nomatch h)⟩
  | parsePanic fs' text hp =>
    obtain ⟨rfl, ht⟩ := h
    exact Or.inl ⟨rfl, (fun h => nomatch h), fun _ => ⟨text, ht, hp⟩⟩
  | truncate fs' a ino ht =>
    obtain ⟨rfl, hr⟩ := h
    exact ⟨hr, ht, if_pos rfl, fun _ _ => rfl, fun i hi => if_neg hi, Or.inl ht⟩
  | make fs' a ino ht hf =>
    obtain ⟨rfl, hr⟩ := h
    exact ⟨hr, if_pos rfl, if_pos rfl, fun p hp => if_neg hp, fun i hi => if_neg hi, Or.inr ⟨ht, hf⟩⟩
  | createErr fs' a m =>
    obtain ⟨rfl, hr⟩ := h
    exact Or.inl ⟨rfl, (fun h => nomatch h), (fun h => nomatch h)⟩
  | encodeOk fs' ino a b he =>
    obtain ⟨⟨text, ht, hp⟩, hw⟩ := h
    exact ⟨[], ⟨text, a, ht, hp, he⟩, hw⟩
  | encodePanic fs' ino a he => exact Or.inr (Or.inl ⟨ino, a, h.1, h.2, rfl, he⟩)
  | writeSome fs' ino x y hx =>
    obtain ⟨z, ht, hw⟩ := h
    refine ⟨z ++ x, by rw [List.append_assoc]; exact ht, hw.here, ?_, hw.others, ?_, hw.ino⟩
    · show (if ino = ino then fs'.data ino ++ x else fs'.data ino) = _
      rw [if_pos rfl, hw.content]
    · intro i hi
      show (if i = ino then fs'.data i ++ x else fs'.data i) = _
      rw [if_neg hi, hw.same i hi]
  | writeErr fs' ino b m =>
    obtain ⟨z, ht, hw⟩ := h
    exact Or.inr (Or.inr (Or.inl ⟨ino, z, b, m, ht, hw, rfl⟩))
  | finish fs' ino =>
    obtain ⟨z, ht, hw⟩ := h
    rw [List.append_nil] at ht
    exact Or.inr (Or.inr (Or.inr ⟨ino, z, ht, hw, rfl⟩))

theorem fileInv {s : FS × Phase} (h : Reach e src tgt fs s) : FileInv e src tgt fs s := by
  induction h with
  | start => rfl
  | step _ st ih => exact fileInv_step ih st

/-- At each point the file system is untouched, or the target is being written. -/
theorem file_cases {fs' : FS} {ph : Phase} (h : Reach e src tgt fs (fs', ph)) : fs' = fs ∨
    ∃ ino a x, Readable e fs src a ∧ Writing tgt fs fs' ino x ∧
      (x ≠ [] → ∃ y, e.encode (a.toWolfram e.cap) = some (x ++ y)) := by
  have h := fileInv h
  have tr : ∀ {x y ino}, Translation e fs src (x ++ y) → Writing tgt fs fs' ino x → ∃ ino a x, Readable e fs src a ∧
      Writing tgt fs fs' ino x ∧ (x ≠ [] → ∃ y, e.encode (a.toWolfram e.cap) = some (x ++ y)) := by
    rintro x y ino ⟨text, a, ht, hp, he⟩ hw
    exact ⟨ino, a, x, ⟨text, ht, hp⟩, hw, fun _ => ⟨y, he⟩⟩
  cases ph with
  | read => exact Or.inl h
  | parse t => exact Or.inl h.1
  | create a => exact Or.inl h.1
  | encode ino a => exact Or.inr ⟨ino, a, [], h.1, h.2, fun h => absurd rfl h⟩
  | write ino rest =>
    obtain ⟨x, ht, hw⟩ := h
    exact Or.inr (tr ht hw)
  | done r =>
    rcases h with h | ⟨ino, a, hr, hw, _, _⟩ | ⟨ino, x, y, m, ht, hw, _⟩ | ⟨ino, b, ht, hw, _⟩
    · exact Or.inl h.1
    · exact Or.inr ⟨ino, a, [], hr, hw, fun h => absurd rfl h⟩
    · exact Or.inr (tr ht hw)
    · exact Or.inr (tr (y := []) (by rw [List.append_nil]; exact ht) hw)

/-- **C48** (nothing else changes).  At every point of a run, also at a crash, every name other than the target refers to
the same file as before, and unless that is the file the target referred to, its contents are unchanged. -/
theorem C48_only_target {fs' : FS} {ph : Phase} (h : Reach e src tgt fs (fs', ph)) (p : Str) (hp : p ≠ tgt) :
    fs'.entry p = fs.entry p ∧ (fs.entry p ≠ fs.entry tgt → FS.look fs' p = FS.look fs p) := by
  rcases file_cases h with rfl | ⟨ino, a, x, _, hw, _⟩
  · exact ⟨rfl, fun _ => rfl⟩
  · refine ⟨hw.others p hp, fun hne => ?_⟩
    rw [FS.look, FS.look, hw.others p hp]
    cases he : fs.entry p with
    | none => rfl
    | some i =>
      have : i ≠ ino := by
        rintro rfl
        rcases hw.ino with ht | ht
        · exact hne (by rw [he, ht])
        · exact ht.2 p he
      rw [Option.map_some, Option.map_some, hw.same i this]

/-- **C48** (untouched unless parsed).  If the source is missing, is not a text, or its text does not parse to an
expression, then at every point of a run the file system is exactly as before. -/
theorem C48_untouched {fs' : FS} {ph : Phase} (h : Reach e src tgt fs (fs', ph))
    (hn : ∀ text a, FS.look fs src = some (utf8 text) → e.parse text ≠ .ok a) : fs' = fs := by
  rcases file_cases h with h | ⟨ino, a, x, ⟨text, ht, hp⟩, _⟩
  · exact h
  · exact absurd hp (hn text a ht)

/-- **C48** (success).  When `parse_file` returns `Ok`, the source held a text that parses to an expression, and the
target holds exactly its serialised form. -/
theorem C48_success {fs' : FS} (h : Reach e src tgt fs (fs', .done (.ok ()))) :
    ∃ text a b, FS.look fs src = some (utf8 text) ∧ e.parse text = .ok a ∧ e.encode (a.toWolfram e.cap) = some b ∧
      FS.look fs' tgt = some b := by
  rcases fileInv h with h | ⟨_, _, _, _, h, _⟩ | ⟨_, _, _, _, _, _, h⟩ | ⟨ino, b, ⟨text, a, ht, hp, he⟩, hw, _⟩
  · exact absurd rfl h.2.1
  · cases h
  · cases h
  · exact ⟨text, a, b, ht, hp, he, by rw [FS.look, hw.here, Option.map_some, hw.content]⟩

/-- **C48** (crashes).  At every point of a run the target is as before, or holds a first part, possibly empty, of the
serialised form of the expression in the source. -/
theorem C48_crash {fs' : FS} {ph : Phase} (h : Reach e src tgt fs (fs', ph)) : FS.look fs' tgt = FS.look fs tgt ∨
    ∃ text a x, FS.look fs src = some (utf8 text) ∧ e.parse text = .ok a ∧ FS.look fs' tgt = some x ∧
      (x = [] ∨ ∃ b, e.encode (a.toWolfram e.cap) = some b ∧ x <+: b) := by
  rcases file_cases h with rfl | ⟨ino, a, x, ⟨text, ht, hp⟩, hw, hx⟩
  · exact Or.inl rfl
  · refine Or.inr ⟨text, a, x, ht, hp, by rw [FS.look, hw.here, Option.map_some, hw.content], ?_⟩
    by_cases he : x = []
    · exact Or.inl he
    · obtain ⟨y, hy⟩ := hx he
      exact Or.inr ⟨_, hy, y, rfl⟩

/-- **C48** (panics).  A panic of the parser leaves everything as it was; a panic of the serialiser leaves the target
empty. -/
theorem C48_panic {fs' : FS} (h : Reach e src tgt fs (fs', .done .panic)) :
    (fs' = fs ∧ ∃ text, FS.look fs src = some (utf8 text) ∧ e.parse text = .panic) ∨
    (FS.look fs' tgt = some [] ∧
      ∃ text a, FS.look fs src = some (utf8 text) ∧ e.parse text = .ok a ∧ e.encode (a.toWolfram e.cap) = none) := by
  rcases fileInv h with h | ⟨ino, a, ⟨text, ht, hp⟩, hw, _, he⟩ | ⟨_, _, _, _, _, _, h⟩ | ⟨_, _, _, _, h⟩
  · exact Or.inl ⟨h.1, h.2.2 rfl⟩
  · exact Or.inr ⟨by rw [FS.look, hw.here, Option.map_some, hw.content], text, a, ht, hp, he⟩
  · cases h
  · cases h

/-- The run in which no system call fails: what it ends with. -/
theorem reach_encode {ino : Nat} {text : Str} {a : AST} (hi : fs.entry src = some ino) (ht : fs.data ino = utf8 text)
    (hp : e.parse text = .ok a) (hf : ∃ i, ∀ p, fs.entry p ≠ some i) :
    ∃ fs' i, Reach e src tgt fs (fs', .encode i a) ∧ FS.look fs' tgt = some [] := by
  have h1 : Reach e src tgt fs (fs, .create a) :=
    .step (.step .start (.readOk fs ino text hi ht)) (.parseOk fs text a hp)
  cases he : fs.entry tgt with
  | some i =>
    refine ⟨_, i, .step h1 (.truncate fs a i he), ?_⟩
    simp [FS.look, he]
  | none =>
    obtain ⟨i, hf⟩ := hf
    refine ⟨_, i, .step h1 (.make fs a i he hf), ?_⟩
    simp [FS.look]

/-- **C48** (it can succeed, and a crash can empty the target).  If the source holds the text of an expression that can be
serialised to `b`, then there is a run that returns `Ok` and leaves `b` in the target, and it passes a point at which the
target is empty. -/
theorem C48_possible {text : Str} {a : AST} {b : Bytes} (hs : FS.look fs src = some (utf8 text))
    (hp : e.parse text = .ok a) (he : e.encode (a.toWolfram e.cap) = some b) (hf : ∃ i, ∀ p, fs.entry p ≠ some i) :
    (∃ fs', Reach e src tgt fs (fs', .done (.ok ())) ∧ FS.look fs' tgt = some b) ∧
    (∃ fs' ph, Reach e src tgt fs (fs', ph) ∧ FS.look fs' tgt = some []) := by
  rw [FS.look, Option.map_eq_some_iff] at hs
  obtain ⟨ino, hi, ht⟩ := hs
  obtain ⟨fs1, i, h1, hl⟩ := reach_encode (tgt := tgt) hi ht hp hf
  refine ⟨?_, fs1, _, h1, hl⟩
  have h2 : Reach e src tgt fs (fs1, .write i b) := .step h1 (.encodeOk fs1 i a b he)
  by_cases hb : b = []
  · subst hb
    exact ⟨fs1, .step h2 (.finish fs1 i), hl⟩
  · have h3 := Reach.step h2 (by rw [← List.append_nil b]; exact .writeSome fs1 i b [] hb)
    refine ⟨_, .step h3 (.finish _ i), ?_⟩
    have hw := (fileInv h1).2
    simp [FS.look, hw.here, hw.content]

/-- With one file `a` that holds `f(x)`, a run can leave the serialised call in a new file `b`. -/
example (L : Lawful e.uni) (b : Bytes) (he : e.encode (.function (.symbol (e.cap c!"f")) [.symbol c!"x"]) = some b) :
    ∃ fs', Reach e c!"a" c!"b" ⟨fun p => if p = c!"a" then some 0 else none, fun _ => utf8 c!"f(x)"⟩
      (fs', .done (.ok ())) ∧ FS.look fs' c!"b" = some b := by
  refine (C48_possible (text := c!"f(x)")
    (a := .function (Sym.ofStr c!"f") [.mk [.mkSymbol c!"x"] [] ⟨e.file, (1, 2), (1, 5)⟩]) ?_ ?_ he ⟨1, ?_⟩).1
  · rfl
  · exact parse_pairs L (x := c!"f(x)") (l := [.mk .expression 0 4 c!"f(x)" [.mk .expr 0 4 c!"f(x)" [.mk .term 0 4 c!"f(x)" [.mk .node 0 4 c!"f(x)" [.mk .apply_call 0 4 c!"f(x)" [.mk .Symbol 0 1 c!"f" [.mk .SYMBOL 0 1 c!"f" []], .mk .apply 1 4 c!"(x)" [.mk .apply_kv 2 3 c!"x" [.mk .expr 2 3 c!"x" [.mk .term 2 3 c!"x" [.mk .node 2 3 c!"x" [.mk .data 2 3 c!"x" [.mk .Symbol 2 3 c!"x" [.mk .SYMBOL 2 3 c!"x" []]]]]]]]]]]]], .mk .EOI 4 4 c!"" []])
      (by decide +kernel) (by decide) _ rfl
  · intro p
    show (if _ then some 0 else none) ≠ some 1
    split <;> simp

end SM.Props
