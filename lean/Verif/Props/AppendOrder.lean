import Verif.Props.AppendOnly

/-!
# C43: `IsAppendOnly` as an order on releases
-/

namespace Thema.Props

open Thema Thema.Spec

variable {V : Type} {C : Cue V} {a b c : Lineage V}

/-- The same number of schemas, with equal literals at each position. -/
def SameLiterals (C : Cue V) (a b : List (SchemaDef V)) : Prop :=
  List.Forall₂ (fun s t => C.subsumeRaw s.schema t.schema = true ∧
    C.subsumeRaw t.schema s.schema = true) a b

theorem keeps_length {l l' : List (SchemaDef V)} (h : KeepsLiterals C l l') :
    l.length ≤ l'.length := by
  by_contra hn
  obtain ⟨t, ht, _⟩ := h l'.length _ (List.getElem?_eq_getElem (by omega))
  simp at ht

/-- **C43**.  Two lineages are append-only relative to each other exactly if they have the same
number of schemas and equal ones at each position. -/
theorem C43_antisymmetric :
    (isAppendOnly C a b = .ok () ∧ isAppendOnly C b a = .ok ()) ↔
      SameLiterals C a.allsch b.allsch := by
  rw [← (C42_append_only_exact C a b).1, ← (C42_append_only_exact C b a).1]
  constructor
  · rintro ⟨h1, h2⟩
    refine List.forall₂_iff_get.2 ⟨le_antisymm (keeps_length h1) (keeps_length h2), ?_⟩
    intro i hi hi'
    obtain ⟨t, ht, e1, e2⟩ := h1 i _ (List.getElem?_eq_getElem hi)
    obtain ⟨_, rfl⟩ := List.getElem?_eq_some_iff.1 ht
    exact ⟨e1, e2⟩
  · intro h
    obtain ⟨hl, h⟩ := List.forall₂_iff_get.1 h
    refine ⟨fun i s hs => ?_, fun i s hs => ?_⟩ <;>
      obtain ⟨hi, rfl⟩ := List.getElem?_eq_some_iff.1 hs
    · exact ⟨_, List.getElem?_eq_getElem (hl ▸ hi), h i hi (hl ▸ hi)⟩
    · have := h i (hl ▸ hi) hi
      exact ⟨_, List.getElem?_eq_getElem (hl ▸ hi), this.2, this.1⟩

/-- **C43**.  Two releases that some lineage continues both continue one another: the one with as
many or more schemas is append-only relative to the other one.  So branches that both added
different schemas can never be joined again. -/
theorem C43_branches
    (ht : ∀ x y z, C.subsumeRaw x y = true → C.subsumeRaw y z = true → C.subsumeRaw x z = true)
    (hac : isAppendOnly C a c = .ok ()) (hbc : isAppendOnly C b c = .ok ()) :
    isAppendOnly C a b = .ok () ↔ a.allsch.length ≤ b.allsch.length := by
  rw [← (C42_append_only_exact C a c).1] at hac
  rw [← (C42_append_only_exact C b c).1] at hbc
  rw [← (C42_append_only_exact C a b).1]
  refine ⟨keeps_length, fun hl i s hs => ?_⟩
  obtain ⟨hi, rfl⟩ := List.getElem?_eq_some_iff.1 hs
  have hb : b.allsch[i]? = some b.allsch[i] := List.getElem?_eq_getElem (by omega)
  obtain ⟨t, h1, e1, e2⟩ := hac i _ hs
  obtain ⟨t', h2, e3, e4⟩ := hbc i _ hb
  obtain rfl : t = t' := by simpa [h1] using h2
  exact ⟨_, hb, ht _ _ _ e1 e4, ht _ _ _ e3 e2⟩

example : ∃ a b, SetCue.bind (SetCue.lin [SetCue.sch 0 0 [1], SetCue.sch 0 1 [1, 2]]) = .ok a ∧
    SetCue.bind (SetCue.lin [SetCue.sch 0 0 [1], SetCue.sch 0 1 [2, 1]]) = .ok b ∧
    isAppendOnly SetCue.cue a b = .ok () ∧ isAppendOnly SetCue.cue b a = .ok () := by
  refine ⟨_, _, rfl, rfl, C43_antisymmetric.2 ?_⟩
  exact .cons ⟨rfl, rfl⟩ (.cons ⟨rfl, rfl⟩ .nil)

/-- Two branches that each add a version 0.1 of their own. -/
example : ∃ a b, SetCue.bind (SetCue.lin [SetCue.sch 0 0 [1], SetCue.sch 0 1 [1, 2]]) = .ok a ∧
    SetCue.bind (SetCue.lin [SetCue.sch 0 0 [1], SetCue.sch 0 1 [1, 3]]) = .ok b ∧
    ¬ ∃ c, isAppendOnly SetCue.cue a c = .ok () ∧ isAppendOnly SetCue.cue b c = .ok () := by
  refine ⟨_, _, rfl, rfl, ?_⟩
  rintro ⟨c, h1, h2⟩
  have := (C43_branches setCue_preorder.trans h1 h2).2 (le_refl _)
  cases this

example : ∃ a b c, SetCue.bind (SetCue.lin [SetCue.sch 0 0 [1]]) = .ok a ∧
    SetCue.bind (SetCue.lin [SetCue.sch 0 0 [1], SetCue.sch 0 1 [2, 1]]) = .ok b ∧
    SetCue.bind (SetCue.lin [SetCue.sch 0 0 [1], SetCue.sch 0 1 [1, 2], SetCue.sch 1 0 [3]]) =
      .ok c ∧ isAppendOnly SetCue.cue a b = .ok () :=
  ⟨_, _, _, rfl, rfl, rfl, (C43_branches (c := ⟨"toy".toList,
      [⟨⟨0, 0⟩, [1], [1], []⟩, ⟨⟨0, 1⟩, [1, 2], [1, 2], []⟩, ⟨⟨1, 0⟩, [3], [3], []⟩],
      [], []⟩) setCue_preorder.trans rfl rfl).2 (by decide)⟩

end Thema.Props
