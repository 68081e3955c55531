import Verif.Props.Comment

/-!
# C197: comments of generated Go code, exactly
-/

namespace Thema.Props

open Thema.Comment

variable {R : Runes}

private theorem cutSpace_none {x : Str} (h : ' ' ∉ x) : cutSpace x = none := by
  cases hq : cutSpace x with
  | none => rfl
  | some q =>
    exfalso
    apply h
    rw [cutSpace_spec hq]
    simp

/-- **C197** (one word).  Documentation of one word is preceded by the name of the field. -/
theorem C197_one_word {name doc : Str} (hn : GoName name) (hd : ' ' ∉ doc) :
    fieldComment R name doc = .ok ("// ".toList ++ name ++ ' ' :: doc) := by
  obtain ⟨hs, c, n, rfl, hc⟩ := hn.az
  unfold fieldComment removeGoFieldComment
  rw [firstMatch_generated hc hs, cutSpace_none hd]
  rfl

/-- **C197** (the name).  Documentation that begins with the name of the field, in any case, is the
comment as it is: the name is not repeated, and is written as in the documentation. -/
theorem C197_name {name w rest : Str} (hn : GoName name) (hw : ' ' ∉ w)
    (hf : R.fold w name = true) :
    fieldComment R name (w ++ ' ' :: rest) = .ok ("// ".toList ++ w ++ ' ' :: rest) := by
  obtain ⟨hs, c, n, rfl, hc⟩ := hn.az
  unfold fieldComment removeGoFieldComment
  rw [firstMatch_generated hc hs, cutSpace_some hw]
  simp [hf]

/-- **C197** (a phrase).  Documentation that begins with a lower case letter, and not with the name,
is preceded by the name. -/
theorem C197_phrase {name w rest : Str} {r : Char} (hn : GoName name) (hw : ' ' ∉ r :: w)
    (hf : R.fold (r :: w) name = false) (hr : R.lower r = true) :
    fieldComment R name (r :: w ++ ' ' :: rest) =
      .ok ("// ".toList ++ name ++ ' ' :: (r :: w ++ ' ' :: rest)) := by
  obtain ⟨hs, c, n, rfl, hc⟩ := hn.az
  unfold fieldComment removeGoFieldComment
  rw [firstMatch_generated hc hs, cutSpace_some hw]
  simp [hf, hr, generated]

/-- **C197** (a sentence).  Other documentation, of more than one word, is the comment as it is. -/
theorem C197_sentence {name w rest : Str} {r : Char} (hn : GoName name) (hw : ' ' ∉ r :: w)
    (hr : R.lower r = false) :
    fieldComment R name (r :: w ++ ' ' :: rest) =
      .ok ("// ".toList ++ (r :: w ++ ' ' :: rest)) := by
  obtain ⟨hs, c, n, rfl, hc⟩ := hn.az
  unfold fieldComment removeGoFieldComment
  rw [firstMatch_generated hc hs, cutSpace_some hw]
  cases hf : R.fold (r :: w) (c :: n) <;> simp [hf, hr]

/-- **C197** (types).  The comment of a type is the one that a field of this name and documentation
has, if `TODO` is not in it after a space (and not directly after the slashes). -/
theorem C197_type {name doc x : Str} (h : fieldComment R name doc = .ok ("// ".toList ++ x))
    (hx : ¬ " TODO".toList <:+: x) : typeComment R name doc = .ok ("// ".toList ++ x) := by
  unfold fieldComment at h
  unfold typeComment
  rw [h, Res.map_ok, fixTODO_none (lastTODO_none.2 hx)]

/-- **C197** (types).  Otherwise it is what begins with the last `TODO`. -/
theorem C197_type_todo {name doc a b : Str}
    (h : fieldComment R name doc = .ok ("// ".toList ++ (a ++ " TODO".toList ++ b)))
    (hb : ¬ " TODO".toList <:+: b) : typeComment R name doc = .ok ("// TODO".toList ++ b) := by
  have hl : lastTODO (" TODO".toList ++ b) = some ("TODO".toList ++ b) := by
    have h1 : lastTODO ("TODO".toList ++ b) = none := by
      rw [lastTODO_append (by decide)]
      exact lastTODO_none.2 hb
    have : " TODO".toList ++ b = ' ' :: ("TODO".toList ++ b) := rfl
    rw [this]
    rw [lastTODO_cons, h1]
    simp
  unfold fieldComment at h
  unfold typeComment
  rw [h, Res.map_ok, List.append_assoc, fixTODO_some (lastTODO_last hl)]
  rfl

/-- **C197** (panics).  The generator panics exactly for documentation that begins with a space,
for types as for fields. -/
theorem C197_panics {name doc : Str} (hn : GoName name) (hf : R.fold [] name = false) :
    ((fieldComment R name doc).Panics ↔ ∃ x, doc = ' ' :: x) ∧
    ((typeComment R name doc).Panics ↔ ∃ x, doc = ' ' :: x) := by
  by_cases hd : ∃ x, doc = ' ' :: x
  · obtain ⟨x, rfl⟩ := hd
    have h := C117_space_panics (doc := x) hn hf
    have ht : typeComment R name (' ' :: x) = .panic .indexOutOfRange := by
      unfold fieldComment at h
      unfold typeComment
      rw [h]
      rfl
    rw [h, ht]
    exact ⟨⟨fun _ => ⟨x, rfl⟩, fun _ => trivial⟩, ⟨fun _ => ⟨x, rfl⟩, fun _ => trivial⟩⟩
  · have hd' : ∀ x, doc ≠ ' ' :: x := fun x hx => hd ⟨x, hx⟩
    refine ⟨⟨fun hk => ?_, fun h => absurd h hd⟩, ⟨fun hk => ?_, fun h => absurd h hd⟩⟩
    · rcases C117_fields (R := R) hn hd' with h | h <;> rw [h] at hk <;> cases hk
    · unfold typeComment at hk
      rcases remove_generated (R := R) hn hd' with h | h <;> rw [h] at hk <;> cases hk

example : fieldComment asciiRunes "Foo".toList "Bar".toList = .ok "// Foo Bar".toList :=
  C197_one_word ⟨by decide, 'F', "oo".toList, rfl, by decide⟩ (by decide)
example : fieldComment asciiRunes "FooBar".toList "fooBar is it.".toList =
    .ok "// fooBar is it.".toList :=
  C197_name (w := "fooBar".toList) (rest := "is it.".toList)
    ⟨by decide, 'F', "ooBar".toList, rfl, by decide⟩ (by decide) (by decide +kernel)
example : fieldComment asciiRunes "Foo".toList "is what it is.".toList =
    .ok "// Foo is what it is.".toList :=
  C197_phrase (r := 'i') (w := "s".toList) (rest := "what it is.".toList)
    ⟨by decide, 'F', "oo".toList, rfl, by decide⟩ (by decide) (by decide +kernel) (by decide)
example : fieldComment asciiRunes "Foo".toList "12 months.".toList = .ok "// 12 months.".toList :=
  C197_sentence (r := '1') (w := "2".toList) (rest := "months.".toList)
    ⟨by decide, 'F', "oo".toList, rfl, by decide⟩ (by decide) (by decide)
example : typeComment asciiRunes "Foo".toList "TODO".toList = .ok "// TODO".toList :=
  C197_type_todo (a := "Foo".toList) (b := []) (C197_one_word
    ⟨by decide, 'F', "oo".toList, rfl, by decide⟩ (by decide)) (by decide)

end Thema.Props
