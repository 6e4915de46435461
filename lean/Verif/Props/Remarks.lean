import Verif.Props.Spacing
/-
C97: line comments do not matter.
-/
namespace SM.Props
open SM SM.Peg

variable {u : Uni}

/-- Comments in the gaps of two texts are exchanged. -/
theorem Respaced.remarks (L : Lawful u) {w w' a b : Str} {ks ks' : List LineComment} (hw : White u w) (hw' : White u w') (h0 : w ≠ [])
    (h0' : w' ≠ []) (hk : ∀ k ∈ ks ++ ks', k.Ok u) (hm : ∀ k ∈ ks ++ ks', ∀ a b, k.body ≠ a ++ (c!"%%%" ++ b))
    (hb : Broken (w ++ ks.flatMap LineComment.text) ↔ Broken (w' ++ ks'.flatMap LineComment.text))
    (ha : Orderly u a) (hq : Orderly u b) (hl : ∀ x c, a = x ++ [c] → u .whiteSpace c = false)
    (hr : ∀ c m, b = c :: m → u .whiteSpace c = false) :
    Respaced u (a ++ ((w ++ ks.flatMap LineComment.text) ++ b)) (a ++ ((w' ++ ks'.flatMap LineComment.text) ++ b)) :=
  .around L ha ⟨w, ks, rfl, hw, h0, fun k h => hk k (List.mem_append_left _ h), fun k h => hm k (List.mem_append_left _ h)⟩
    ⟨w', ks', rfl, hw', h0', fun k h => hk k (List.mem_append_right _ h), fun k h => hm k (List.mem_append_right _ h)⟩
    hb hr hq hl

/-- **C97**.  Where there is white space in a text, line comments may be added, changed or taken out, if a line ends in the gap
before and after: the text is read as before, whether it is accepted, rejected or makes the parser panic, but for
positions. -/
theorem C97_comments (L : Lawful u) {w w' a b : Str} {ks ks' : List LineComment} (hw : White u w) (hw' : White u w')
    (h0 : w ≠ []) (h0' : w' ≠ []) (hk : ∀ k ∈ ks ++ ks', k.Ok u)
    (hm : ∀ k ∈ ks ++ ks', ∀ a b, k.body ≠ a ++ (c!"%%%" ++ b))
    (hb : Broken (w ++ ks.flatMap LineComment.text) ↔ Broken (w' ++ ks'.flatMap LineComment.text))
    (ha : Orderly u a) (hq : Orderly u b) (hl : ∀ x c, a = x ++ [c] → u .whiteSpace c = false)
    (hr : ∀ c m, b = c :: m → u .whiteSpace c = false) {c d : Cfg}
    (hc : c.input = a ++ ((w ++ ks.flatMap LineComment.text) ++ b))
    (hd : d.input = a ++ ((w' ++ ks'.flatMap LineComment.text) ++ b)) (he : d.errorText = c.errorText) :
    eraseR (parseText u d) = eraseR (parseText u c) :=
  C96_respaced L (by rw [hc, hd]; exact .remarks L hw hw' h0 h0' hk hm hb ha hq hl hr) he

/-- **C97**.  A comment on lines of its own: the gap has the end of a line in front of it. -/
theorem C97_lines (L : Lawful u) {w a b : Str} {k : LineComment} (hw : White u w) (hb : Broken w) (hk : k.Ok u)
    (hm : ∀ a b, k.body ≠ a ++ (c!"%%%" ++ b)) (ha : Orderly u a) (hq : Orderly u b)
    (hl : ∀ x c, a = x ++ [c] → u .whiteSpace c = false) (hr : ∀ c m, b = c :: m → u .whiteSpace c = false) {c d : Cfg}
    (hc : c.input = a ++ (w ++ b)) (hd : d.input = a ++ ((w ++ k.text) ++ b)) (he : d.errorText = c.errorText) :
    eraseR (parseText u d) = eraseR (parseText u c) := by
  have h0 : w ≠ [] := by rintro rfl; simp [Broken] at hb
  refine C97_comments L (ks := []) (ks' := [k]) hw hw h0 h0 ?_ ?_ ⟨fun _ => hb.left _, fun _ => hb.left _⟩ ha hq hl hr
    (by rw [hc]; simp) (by rw [hd]; simp) he
  · intro j hj
    have hj : j = k := by simpa using hj
    rw [hj]; exact hk
  · intro j hj
    have hj : j = k := by simpa using hj
    rw [hj]; exact hm

/-- **C97**.  A comment at the end of a line, behind white space. -/
theorem C97_behind (L : Lawful u) {w a b : Str} {k : LineComment} (hw : White u w) (h0 : w ≠ []) (hk : k.Ok u)
    (hm : ∀ a b, k.body ≠ a ++ (c!"%%%" ++ b)) (ha : Orderly u a) (hq : Orderly u b)
    (hl : ∀ x c, a = x ++ [c] → u .whiteSpace c = false) (hr : ∀ c m, b = c :: m → u .whiteSpace c = false) {c d : Cfg}
    (hc : c.input = a ++ ((w ++ k.after) ++ b)) (hd : d.input = a ++ ((w ++ k.text) ++ b))
    (he : d.errorText = c.errorText) : eraseR (parseText u d) = eraseR (parseText u c) := by
  have hw' : White u (w ++ k.after) := by
    intro d hd
    rcases List.mem_append.1 hd with hd | hd
    · exact hw d hd
    · exact hk.ws d hd
  have hb : Broken k.after := by
    obtain ⟨d, t, e, hd⟩ := hk.ends
    rw [e]
    rcases hd with rfl | rfl
    · exact .inl (List.mem_cons_self ..)
    · exact .inr (List.mem_cons_self ..)
  refine C97_comments L (w := w ++ k.after) (w' := w) (ks := []) (ks' := [k]) hw' hw (by simp [h0]) h0 ?_ ?_
    ⟨fun _ => Broken.right ((comment_broken hk).left []) w, fun _ => (hb.right w).left _⟩ ha hq hl hr
    (by rw [hc]; simp) (by rw [hd]; simp) he
  · intro j hj
    have hj : j = k := by simpa using hj
    rw [hj]; exact hk
  · intro j hj
    have hj : j = k := by simpa using hj
    rw [hj]; exact hm

/-- **C97**.  A text is rejected exactly if it is without its comments. -/
theorem C97_rejected (L : Lawful u) {w w' a b : Str} {ks : List LineComment} (hw : White u w) (hw' : White u w')
    (h0 : w ≠ []) (h0' : w' ≠ []) (hk : ∀ k ∈ ks, k.Ok u) (hm : ∀ k ∈ ks, ∀ a b, k.body ≠ a ++ (c!"%%%" ++ b))
    (hb : Broken (w ++ ks.flatMap LineComment.text) ↔ Broken w')
    (ha : Orderly u a) (hq : Orderly u b) (hl : ∀ x c, a = x ++ [c] → u .whiteSpace c = false)
    (hr : ∀ c m, b = c :: m → u .whiteSpace c = false) {c d : Cfg}
    (hc : c.input = a ++ ((w ++ ks.flatMap LineComment.text) ++ b)) (hd : d.input = a ++ (w' ++ b)) :
    parseText u c = .err (.parseError c.errorText) ↔ parseText u d = .err (.parseError d.errorText) := by
  have h := Respaced.remarks L (ks := ks) (ks' := []) hw hw' h0 h0' (by simpa using hk) (by simpa using hm) (by simpa using hb)
    ha hq hl hr
  rw [List.flatMap_nil, List.append_nil w', ← hc, ← hd] at h
  exact (C96_rejected L h).symm

variable {msg : Str → Str} {wd : Width}

/-- **C97**.  The session answers a text with such comments as it answers it without them. -/
theorem C97_answers (L : Lawful u) {w w' a b : Str} {ks : List LineComment} (hw : White u w) (hw' : White u w')
    (h0 : w ≠ []) (h0' : w' ≠ []) (hk : ∀ k ∈ ks, k.Ok u) (hm : ∀ k ∈ ks, ∀ a b, k.body ≠ a ++ (c!"%%%" ++ b))
    (hb : Broken w ↔ Broken (w' ++ ks.flatMap LineComment.text))
    (ha : Orderly u a) (hq : Orderly u b) (hl : ∀ x c, a = x ++ [c] → u .whiteSpace c = false)
    (hr : ∀ c m, b = c :: m → u .whiteSpace c = false) {r : SMResult Str}
    (h : Answers u msg wd (a ++ (w ++ b)) r) (hn : ∀ m, r ≠ .err (.parseError m)) :
    Answers u msg wd (a ++ ((w' ++ ks.flatMap LineComment.text) ++ b)) r := by
  have k := Respaced.remarks L (ks := []) (ks' := ks) hw hw' h0 h0' (by simpa using hk) (by simpa using hm) (by simpa using hb)
    ha hq hl hr
  rw [List.flatMap_nil, List.append_nil w] at k
  exact C96_answers L k h hn

theorem white_lf (L : Lawful u) : White u c!"\n" := by
  intro c hc
  have h : c = '\n' := by simpa using hc
  rw [h]; exact ws_lf L

/-- Two comments within a product, the first at the end of a line; there are quotation marks and an operator in it. -/
example (L : Lawful u) : Answers u msg wd c!"2 /// \"times\" + 1\n//! three\n*3" (.ok c!"6") := by
  have h := C54_times L msg wd (.mk [] (.atom (.int 2)) []) (.mk [] (.atom (.int 3)) []) c!"\n" []
    (intBinary_ok 2 3 (blank_ws (white_lf L)) blank_nil (by decide) (fun h => nomatch h)) blank_nil blank_nil
    (by rw [binaryText, intTerm_text]; exact numeral_wordless 2 _) (intTerm_value 2) (intTerm_value 3)
  rw [binaryText, intTerm_text, intTerm_text] at h
  replace h : Answers u msg wd (c!"2" ++ (c!"\n" ++ c!"*3")) (.ok c!"6") := h
  have two : u .whiteSpace '2' = false := by rw [L.plain _ _ (by decide)]; decide
  have star : u .whiteSpace '*' = false := by rw [L.plain _ _ (by decide)]; decide
  refine C97_answers L (w := c!"\n") (w' := c!" ") (a := c!"2") (b := c!"*3")
    (ks := [⟨'/', c!" \"times\" + 1", c!"\n"⟩, ⟨'!', c!" three", c!"\n"⟩]) (white_lf L) (white_blank L) (by simp) (by simp)
    ?_ ?_ (by simp [Broken, LineComment.text]) (orderly_plain (by decide)) (orderly_plain (by decide)) ?_ (fun c m h => by cases h; exact star) h
    (fun _ h => nomatch h)
  · intro k hk
    simp only [List.mem_cons, List.not_mem_nil, or_false] at hk
    rcases hk with rfl | rfl
    · exact ⟨by decide, by decide, ⟨'\n', [], rfl, .inl rfl⟩, white_lf L⟩
    · exact ⟨by decide, by decide, ⟨'\n', [], rfl, .inl rfl⟩, white_lf L⟩
  · intro k hk a b h
    have key : '%' ∈ k.body := by rw [h]; simp
    simp only [List.mem_cons, List.not_mem_nil, or_false] at hk
    rcases hk with rfl | rfl
    · exact absurd key (by decide)
    · exact absurd key (by decide)
  · intro x c h
    match x with
    | [] => cases h; exact two
    | [_] => cases h
    | _ :: _ :: _ => cases h

/-- A comment behind a string literal. -/
example (L : Lawful u) (f : Str) :
    eraseR (parseText u ⟨f, c!"\"a  b\" /// c\n;", []⟩) = eraseR (parseText u ⟨f, c!"\"a  b\" \n;", []⟩) := by
  have hs : u .whiteSpace ';' = false := by rw [L.plain _ _ (by decide)]; decide
  have hq : u .whiteSpace '"' = false := by rw [L.plain _ _ (by decide)]; decide
  have ha : Orderly u (quoted c!"a  b" ++ []) := by
    refine .text (by decide) (by simp [Broken]) ?_ (fun r h => nomatch h) (fun r h => nomatch h) .nil
    intro a b h
    have : '%' ∈ c!"a  b" := by rw [h]; simp
    simp at this
  refine C97_behind L (w := c!" ") (a := quoted c!"a  b") (b := c!";") (k := ⟨'/', c!" c", c!"\n"⟩) (white_blank L) (by simp)
    ⟨by decide, by decide, ⟨'\n', [], rfl, .inl rfl⟩, white_lf L⟩ ?_ (by simpa using ha) (orderly_plain (by decide)) ?_
    (fun c m h => by cases h; exact hs) rfl rfl rfl
  · intro a b h
    have h : c!" c" = a ++ (c!"%%%" ++ b) := h
    have : '%' ∈ c!" c" := by rw [h]; simp
    simp at this
  · intro x c h
    have e : quoted c!"a  b" = c!"\"a  b" ++ ['"'] := rfl
    rw [e] at h
    obtain ⟨-, h2⟩ := List.append_inj' h rfl
    cases h2
    exact hq

end SM.Props
