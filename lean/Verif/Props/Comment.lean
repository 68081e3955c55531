import Verif.Model.Comment

/-!
# C117: comments of generated Go code
-/

namespace Thema.Props

open Thema.Comment

variable {R : Runes}

/-! ### Spaces -/

theorem cutSpace_some {x y : Str} (h : ' ' ∉ x) : cutSpace (x ++ ' ' :: y) = some (x, y) := by
  induction x with
  | nil => rfl
  | cons c x ih =>
    simp only [List.mem_cons, not_or] at h
    simp [cutSpace, ih h.2, Ne.symm h.1]

theorem cutSpace_spec {s : Str} {p : Str × Str} (h : cutSpace s = some p) :
    s = p.1 ++ ' ' :: p.2 := by
  induction s generalizing p with
  | nil => cases h
  | cons c s ih =>
    unfold cutSpace at h
    split at h
    · rename_i hc
      injection h with h
      subst h hc
      rfl
    · obtain ⟨q, hq, rfl⟩ := Option.map_eq_some_iff.1 h
      simp [← ih hq]

theorem matchAt_spec {s g2 g3 g4 : Str} (h : matchAt s = some (g2, g3, g4)) :
    s = "// ".toList ++ (g2 ++ ' ' :: (g3 ++ ' ' :: g4)) := by
  unfold matchAt at h
  split at h
  · split at h
    · obtain ⟨p, hp, h⟩ := Option.bind_eq_some_iff.1 h
      obtain ⟨q, hq, h⟩ := Option.map_eq_some_iff.1 h
      injection h with h1 h
      injection h with h2 h3
      rw [cutSpace_spec hp, cutSpace_spec hq, ← h1, ← h2, ← h3]
      rfl
    · cases h
  · cases h

/-- A match has at least three spaces. -/
theorem firstMatch_spaces {s : Str} {g : Str × Str × Str} (h : firstMatch s = some g) :
    3 ≤ s.count ' ' := by
  induction s with
  | nil => cases h
  | cons c s ih =>
    unfold firstMatch at h
    cases hm : matchAt (c :: s) with
    | none =>
      rw [hm] at h
      have := ih h
      rw [List.count_cons]
      omega
    | some g' =>
      obtain ⟨g2, g3, g4⟩ := g'
      rw [matchAt_spec hm]
      simp [List.count_append]
      omega

/-- A Go name: no space, and a capital letter first. -/
def GoName (name : Str) : Prop := ' ' ∉ name ∧ ∃ c cs, name = c :: cs ∧ 'A' ≤ c ∧ c ≤ 'Z'

theorem GoName.az {name : Str} (h : GoName name) :
    ' ' ∉ name ∧ ∃ c cs, name = c :: cs ∧ isAZ c = true := by
  obtain ⟨h1, c, cs, h2, h3⟩ := h
  exact ⟨h1, c, cs, h2, by simpa [isAZ] using h3⟩

theorem matchAt_generated {c : Char} {n doc : Str} (hc : isAZ c = true) (hn : ' ' ∉ n) :
    matchAt (generated (c :: n) doc) = (cutSpace doc).map fun q => (c :: n, q.1, q.2) := by
  have : generated (c :: n) doc = '/' :: '/' :: ' ' :: c :: (n ++ ' ' :: doc) := by
    simp [generated]
  rw [this, matchAt, if_pos hc, cutSpace_some hn]
  rfl

theorem firstMatch_generated {c : Char} {n doc : Str} (hc : isAZ c = true) (hn : ' ' ∉ c :: n) :
    firstMatch (generated (c :: n) doc) = (cutSpace doc).map fun q => (c :: n, q.1, q.2) := by
  have hg : generated (c :: n) doc = '/' :: ('/' :: ' ' :: ((c :: n) ++ ' ' :: doc)) := by
    simp [generated]
  have hm := matchAt_generated (doc := doc) hc fun h => hn (List.mem_cons_of_mem _ h)
  rw [hg] at hm ⊢
  rw [firstMatch, hm]
  cases hd : cutSpace doc with
  | some q => rfl
  | none =>
    have hz : doc.count ' ' = 0 := by
      rw [List.count_eq_zero]
      intro hmem
      obtain ⟨a, b, hab⟩ := List.append_of_mem hmem
      have : ∀ (x : Str), cutSpace (x ++ ' ' :: b) ≠ none := by
        intro x
        induction x with
        | nil => simp [cutSpace]
        | cons y x ih =>
          unfold cutSpace
          rw [List.cons_append]
          dsimp only
          split
          · simp
          · simpa using ih
      exact this a (hab ▸ hd)
    have hn0 : (c :: n).count ' ' = 0 := List.count_eq_zero.2 hn
    show firstMatch ('/' :: ' ' :: ((c :: n) ++ ' ' :: doc)) = none
    cases hf : firstMatch ('/' :: ' ' :: ((c :: n) ++ ' ' :: doc)) with
    | none => rfl
    | some g =>
      exfalso
      have := firstMatch_spaces hf
      rw [List.count_cons, List.count_cons, List.count_append, hn0, List.count_cons, hz] at this
      simp at this

theorem remove_generated {name doc : Str} (hn : GoName name) (hd : ∀ x, doc ≠ ' ' :: x) :
    removeGoFieldComment R (generated name doc) = .ok (generated name doc) ∨
    removeGoFieldComment R (generated name doc) = .ok ("// ".toList ++ doc) := by
  obtain ⟨hs, c, n, rfl, hc⟩ := hn.az
  unfold removeGoFieldComment
  rw [firstMatch_generated hc hs]
  cases hq : cutSpace doc with
  | none => exact .inl rfl
  | some q =>
    obtain ⟨w, rest⟩ := q
    have hdoc := cutSpace_spec hq
    dsimp only at hdoc
    have hw : w ≠ [] := by
      rintro rfl
      exact hd rest hdoc
    simp only [Option.map_some]
    split
    · exact .inr (by rw [hdoc]; simp)
    · cases w with
      | nil => exact absurd rfl hw
      | cons r rs =>
        dsimp only
        split
        · exact .inl rfl
        · exact .inr (by rw [hdoc]; simp)

/-! ### `TODO` -/

theorem lastTODO_cons (c : Char) (s : Str) : lastTODO (c :: s) =
    match lastTODO s with
    | some t => some t
    | none => if c = ' ' ∧ "TODO".toList <+: s then some s else none := rfl

theorem lastTODO_tail {c : Char} {s : Str} (h : lastTODO (c :: s) = none) : lastTODO s = none := by
  rw [lastTODO_cons] at h
  split at h
  · cases h
  · assumption

theorem lastTODO_suffix {t : Str} : ∀ {s : Str}, t <:+ s → lastTODO s = none →
    lastTODO t = none := by
  intro s
  induction s with
  | nil =>
    intro h _
    rw [List.suffix_nil.1 h]
    rfl
  | cons c s ih =>
    intro h hn
    rcases List.suffix_cons_iff.1 h with rfl | h
    · exact hn
    · exact ih h (lastTODO_tail hn)

theorem fixTODO_same : ∀ {s : Str}, lastTODO (s.drop 3) = none → fixTODOComment s = s := by
  intro s
  induction s with
  | nil => intro _; rfl
  | cons c s ih =>
    intro h
    have h1 : (if "// ".toList <+: c :: s then lastTODO ((c :: s).drop 3) else none) = none := by
      split
      · exact h
      · rfl
    unfold fixTODOComment
    rw [h1]
    dsimp only
    rw [ih]
    refine lastTODO_suffix ?_ h
    rw [List.drop_succ_cons]
    exact ⟨(s.drop 2).take 1, by
      rw [show s.drop 3 = (s.drop 2).drop 1 by rw [List.drop_drop]]
      exact List.take_append_drop 1 _⟩

theorem fixTODO_some {x t : Str} (h : lastTODO x = some t) :
    fixTODOComment ("// ".toList ++ x) = "// ".toList ++ t := by
  have hx : "// ".toList ++ x = '/' :: ('/' :: ' ' :: x) := rfl
  rw [hx]
  unfold fixTODOComment
  rw [if_pos (by exact ⟨x, rfl⟩)]
  rw [show ('/' :: '/' :: ' ' :: x).drop 3 = x from rfl, h]

theorem fixTODO_none {x : Str} (h : lastTODO x = none) :
    fixTODOComment ("// ".toList ++ x) = "// ".toList ++ x :=
  fixTODO_same h

theorem lastTODO_none {s : Str} : lastTODO s = none ↔ ¬ " TODO".toList <:+: s := by
  induction s with
  | nil => simp [lastTODO]
  | cons c s ih =>
    rw [List.infix_cons_iff, not_or, ← ih]
    rw [lastTODO_cons]
    cases hs : lastTODO s with
    | some t => simp
    | none =>
      have : " TODO".toList <+: c :: s ↔ c = ' ' ∧ "TODO".toList <+: s := by
        have : " TODO".toList = ' ' :: "TODO".toList := rfl
        rw [this, List.cons_prefix_cons, eq_comm]
      rw [this]
      dsimp only
      split <;> simp_all

theorem lastTODO_append {n : Str} (h : ' ' ∉ n) (s : Str) : lastTODO (n ++ s) = lastTODO s := by
  induction n with
  | nil => rfl
  | cons c n ih =>
    simp only [List.mem_cons, not_or] at h
    rw [List.cons_append]
    rw [lastTODO_cons, ih h.2]
    cases hs : lastTODO s with
    | some t => rfl
    | none => simp [Ne.symm h.1]

theorem lastTODO_last {a t : Str} (h : lastTODO t = some t') : lastTODO (a ++ t) = some t' := by
  induction a with
  | nil => exact h
  | cons c a ih => rw [List.cons_append, lastTODO, ih]

/-! ### The property -/

/-- **C117** (fields).  For every field with a documentation that does not begin with a space,
the comment is `// Name Documentation` or `// Documentation`, in its first line; and so the
documentation is not changed. -/
theorem C117_fields {name doc : Str} (hn : GoName name) (hd : ∀ x, doc ≠ ' ' :: x) :
    fieldComment R name doc = .ok ("// ".toList ++ name ++ ' ' :: doc) ∨
    fieldComment R name doc = .ok ("// ".toList ++ doc) :=
  remove_generated hn hd

/-- **C117** (partial, types).  And so for a type, if `TODO` is not preceded by a space in the
documentation.

Missing: documentation with `TODO` in it (`C117_todo_lost`). -/
theorem C117_types_partial {name doc : Str} (hn : GoName name) (hd : ∀ x, doc ≠ ' ' :: x)
    (ht : ¬ " TODO".toList <:+: doc) :
    typeComment R name doc = .ok ("// ".toList ++ name ++ ' ' :: doc) ∨
    typeComment R name doc = .ok ("// ".toList ++ doc) := by
  have hdoc : lastTODO doc = none := lastTODO_none.2 ht
  unfold typeComment
  rcases remove_generated (R := R) hn hd with h | h
  · rw [h, Res.map_ok]
    have hg : generated name doc = "// ".toList ++ (name ++ ' ' :: doc) := by simp [generated]
    rw [hg]
    cases hl : lastTODO (name ++ ' ' :: doc) with
    | none => exact .inl (by rw [fixTODO_none hl]; simp)
    | some t =>
      right
      rw [fixTODO_some hl]
      rw [lastTODO_append hn.1] at hl
      rw [lastTODO_cons, hdoc] at hl
      dsimp only at hl
      split at hl
      · injection hl with hl
        rw [hl]
      · cases hl
  · rw [h, Res.map_ok]
    exact .inr (by rw [fixTODO_none hdoc])

/-- **C117** refuted, generally.  If the documentation of a type has `TODO` in it, after a space,
all that is before the last one is lost. -/
theorem C117_todo_lost {name a b : Str} (hn : GoName name) (ha : ∀ x, a ≠ ' ' :: x) (ha0 : a ≠ [])
    (hb : ¬ " TODO".toList <:+: b) :
    typeComment R name (a ++ " TODO".toList ++ b) = .ok ("// TODO".toList ++ b) := by
  have hl : lastTODO (" TODO".toList ++ b) = some ("TODO".toList ++ b) := by
    have h1 : lastTODO ("TODO".toList ++ b) = none := by
      rw [lastTODO_append (by decide)]
      exact lastTODO_none.2 hb
    have : " TODO".toList ++ b = ' ' :: ("TODO".toList ++ b) := rfl
    rw [this]
    rw [lastTODO_cons, h1]
    simp
  have hd : ∀ x, a ++ " TODO".toList ++ b ≠ ' ' :: x := by
    intro x hx
    cases a with
    | nil => exact ha0 rfl
    | cons c a =>
      simp only [List.cons_append] at hx
      injection hx with hx
      exact ha a (by rw [hx])
  unfold typeComment
  rcases remove_generated (R := R) hn hd with h | h
  · rw [h, Res.map_ok]
    have hg : generated name (a ++ " TODO".toList ++ b) =
        "// ".toList ++ ((name ++ ' ' :: a) ++ (" TODO".toList ++ b)) := by simp [generated]
    rw [hg, fixTODO_some (lastTODO_last hl)]
    rfl
  · rw [h, Res.map_ok, List.append_assoc, fixTODO_some (lastTODO_last hl)]
    rfl

/-- **C117**.  The condition that the documentation does not begin with a space is needed: the
generator panics if it does, whatever else is in it.  (CUE removes spaces at the beginning.) -/
theorem C117_space_panics {name doc : Str} (hn : GoName name) (hf : R.fold [] name = false) :
    fieldComment R name (' ' :: doc) = .panic .indexOutOfRange := by
  obtain ⟨hs, c, n, rfl, hc⟩ := hn.az
  unfold fieldComment removeGoFieldComment
  rw [firstMatch_generated hc hs]
  simp [cutSpace, hf]

/-- ASCII. -/
def asciiRunes : Runes :=
  ⟨fun a b => a.map Char.toLower = b.map Char.toLower, Char.isLower⟩

example : fieldComment asciiRunes "Foo".toList "The name of it.".toList =
    .ok "// The name of it.".toList := by rfl
example : fieldComment asciiRunes "Foo".toList "is a name.".toList =
    .ok "// Foo is a name.".toList := by rfl
example : GoName "Foo".toList := ⟨by decide, 'F', "oo".toList, rfl, by decide⟩
example : typeComment asciiRunes "Foo".toList "TODO what is it?".toList =
    .ok "// TODO what is it?".toList := by rfl
example : typeComment asciiRunes "Foo".toList "Frobnicates. See the TODO list.".toList =
    .ok "// TODO list.".toList :=
  C117_todo_lost (a := "Frobnicates. See the".toList) (b := " list.".toList)
    ⟨by decide, 'F', "oo".toList, rfl, by decide⟩ (by intro x h; injection h with h; revert h; decide)
    (by decide) (by decide +kernel)
example : fieldComment asciiRunes "Foo".toList "  a".toList = .panic .indexOutOfRange :=
  C117_space_panics ⟨by decide, 'F', "oo".toList, rfl, by decide⟩ rfl

end Thema.Props
