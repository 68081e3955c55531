import Verif.Model.TsGen

/-!
# C118: TypeScript types
-/

namespace Thema.Props

open Thema.TsGen

variable {V K N : Type} {X : Ext V K N}

/-- The file that the documentation of `TypeConfig` promises: the types of the elements of the
schema, then, unless it is a group, the type of the root, which has the configured name or else
the title case name of the lineage, and its default. -/
def Documented (X : Ext V K N) (lineage : Str) (schdef : V) (cfg : Config K)
    (out : Option (List N)) : Prop :=
  ∃ k : K, (cfg.cuetsy = some k ∨ cfg.cuetsy = none ∧ k = X.defaults) ∧
    (X.children schdef k = none → out = none) ∧
    ∀ nodes, X.children schdef k = some nodes →
      (cfg.group = true → out = some nodes) ∧
      (cfg.group = false → ∃ name kind,
        (cfg.rootName ≠ [] → name = cfg.rootName) ∧
        (cfg.rootName = [] → name = X.title lineage) ∧
        (cfg.rootAsType = true ↔ kind = .alias) ∧
        (X.single name schdef kind = none → out = none) ∧
        ∀ t d, X.single name schdef kind = some (t, d) → out = some (nodes ++ t :: d.toList))

/-- **C118** (one call).  The file is as documented, for every configuration. -/
theorem C118_documented (lineage : Str) (schdef : V) (cfg : Config K) :
    Documented X lineage schdef cfg (generateTypes X lineage schdef cfg).1 := by
  refine ⟨cfg.cuetsy.getD X.defaults, ?_, ?_, ?_⟩
  · cases cfg.cuetsy <;> simp
  · intro h
    simp [generateTypes, complete, h]
  · intro nodes h
    refine ⟨fun hg => ?_, fun hg => ?_⟩
    · simp [generateTypes, complete, h, hg]
    · refine ⟨if cfg.rootName = [] then X.title lineage else cfg.rootName,
        if cfg.rootAsType then .alias else .interface, ?_, ?_, ?_, ?_, ?_⟩
      · intro hr; rw [if_neg hr]
      · intro hr; rw [if_pos hr]
      · cases cfg.rootAsType <;> simp
      · intro hs
        simp [generateTypes, complete, h, hg, hs]
      · intro t d hs
        simp [generateTypes, complete, h, hg, hs]

/-- **C118** (partial, several calls).  With one configuration for several lineages, all files
are as documented if it has a name for the root, or is for groups.

Missing: configurations without name (`C118_reused`). -/
theorem C118_several_partial (cfg : Config K) (h : cfg.rootName ≠ [] ∨ cfg.group = true) :
    ∀ (ls : List (Str × V)) (i : Nat) (l : Str × V), ls[i]? = some l →
      ∃ out, (generateAll X ls cfg)[i]? = some out ∧ Documented X l.1 l.2 cfg out := by
  -- with a completed configuration, nothing relevant changes
  have key : ∀ (ls : List (Str × V)) (c : Config K), c.group = cfg.group →
      c.rootAsType = cfg.rootAsType → (cfg.rootName ≠ [] → c.rootName = cfg.rootName) →
      (c.cuetsy = cfg.cuetsy ∨ cfg.cuetsy = none ∧ c.cuetsy = some X.defaults) →
      ∀ (i : Nat) (l : Str × V), ls[i]? = some l →
        ∃ out, (generateAll X ls c)[i]? = some out ∧ Documented X l.1 l.2 cfg out := by
    intro ls
    induction ls with
    | nil => intro c _ _ _ _ i l hl; simp at hl
    | cons p ls ih =>
      obtain ⟨n, v⟩ := p
      intro c h1 h2 h3 h4 i l hl
      cases i with
      | zero =>
        simp only [List.getElem?_cons_zero, Option.some.injEq] at hl
        subst hl
        refine ⟨_, rfl, ?_⟩
        obtain ⟨k, hk, hn, hs⟩ := C118_documented (X := X) n v c
        refine ⟨k, ?_, hn, fun nodes hc => ?_⟩
        · rcases hk with hk | ⟨hk, rfl⟩
          · rcases h4 with h4 | ⟨h4, h5⟩
            · exact .inl (h4 ▸ hk)
            · rw [hk] at h5
              injection h5 with h5
              exact .inr ⟨h4, h5⟩
          · rcases h4 with h4 | ⟨h4, h5⟩
            · exact .inr ⟨h4 ▸ hk, rfl⟩
            · exact .inr ⟨h4, rfl⟩
        · obtain ⟨a, b⟩ := hs nodes hc
          refine ⟨fun hg => a (h1.trans hg), fun hg => ?_⟩
          obtain ⟨name, kind, e1, e2, e3, e4⟩ := b (h1.trans hg)
          have hr : cfg.rootName ≠ [] := by
            rcases h with h | h
            · exact h
            · rw [h] at hg; cases hg
          exact ⟨name, kind, fun _ => (e1 (by rw [h3 hr]; exact hr)).trans (h3 hr),
            fun he => absurd he hr, by rw [← h2]; exact e3, e4⟩
      | succ i =>
        simp only [List.getElem?_cons_succ] at hl
        obtain ⟨out, ho, hd⟩ := ih (complete X n c) (by simpa [complete] using h1)
          (by simpa [complete] using h2)
          (fun hr => by
            have := h3 hr
            simp [complete, this, hr])
          (by
            rcases h4 with h4 | ⟨h4, h5⟩
            · cases hc : cfg.cuetsy with
              | none => right; exact ⟨rfl, by simp [complete, h4, hc]⟩
              | some k => left; simp [complete, h4, hc]
            · right; exact ⟨h4, by simp [complete, h5]⟩) i l hl
        exact ⟨out, by simpa [generateAll, generateTypes] using ho, hd⟩
  exact fun ls => key ls cfg rfl rfl (fun _ => rfl) (.inl rfl)

/-- **C118** refuted, generally.  Used for several lineages, a configuration without a name for
the root gives the roots of all of them the name of the first. -/
theorem C118_reused {n m : Str} {v w : V} {cfg : Config K} (h1 : cfg.rootName = [])
    (h2 : cfg.group = false) (hn : X.title n ≠ []) :
    ∃ cfg2, generateAll X [(n, v), (m, w)] cfg =
        [(generateTypes X n v cfg).1, (generateTypes X m w cfg2).1] ∧
      cfg2.rootName = X.title n ∧
      ∀ nodes t d, X.children w (cfg.cuetsy.getD X.defaults) = some nodes →
        X.single (X.title n) w (if cfg.rootAsType then .alias else .interface) = some (t, d) →
        (generateTypes X m w cfg2).1 = some (nodes ++ t :: d.toList) := by
  refine ⟨complete X n cfg, rfl, by simp [complete, h1], ?_⟩
  intro nodes t d hc hs
  simp [generateTypes, complete, h1, h2, hn, hc, hs]

/-! ### Examples -/

/-- A generator that writes names of types as text. -/
def toyTs : Ext Str Unit Str where
  title := fun s => match s with
    | [] => []
    | c :: cs => c.toUpper :: cs
  defaults := ()
  children := fun v _ => some [v]
  single := fun n _ k => some ((if k = .alias then "type ".toList else "interface ".toList) ++ n, none)

example : generateAll toyTs [("ship".toList, "A".toList), ("crew".toList, "B".toList)]
      { rootName := "X".toList } =
    [some ["A".toList, "interface X".toList], some ["B".toList, "interface X".toList]] := by
  decide
example : generateAll toyTs [("ship".toList, "A".toList), ("crew".toList, "B".toList)] {} =
    [some ["A".toList, "interface Ship".toList], some ["B".toList, "interface Ship".toList]] := by
  decide

end Thema.Props
