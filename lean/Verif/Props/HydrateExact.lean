import Verif.Props.Hydrate

/-!
# C173: what Hydrate and Dehydrate return, exactly
-/

namespace Thema.Props

open Thema.Hydrate Spec.Hydrate

variable {V : Type} {H : HCue V} {St : V → Prop}

/-- The fields that the data lacks are filled with the values of the schema, optional ones
excepted. -/
theorem hydrateFields_fresh (hl : FillLaws H St) {rec : V → V → Res V} :
    ∀ (fs : List (Str × V × Bool)) (d : V), St d → (fs.map (·.1)).Nodup →
      (∀ f ∈ fs, H.lookup d f.1 = none) →
      ∃ d', hydrateFields H rec fs d = .ok d' ∧ St d' ∧
        (∀ k v, (k, v, false) ∈ fs → H.lookup d' k = some (H.eval v)) ∧
        (∀ k, (∀ v, (k, v, false) ∉ fs) → H.lookup d' k = H.lookup d k)
  | [], d, hd, _, _ => ⟨d, rfl, hd, fun _ _ h => (by cases h), fun _ _ => rfl⟩
  | (l, v, opt) :: fs, d, hd, hnd, hno => by
    simp only [List.map_cons, List.nodup_cons] at hnd
    unfold hydrateFields
    rw [hno _ List.mem_cons_self]
    cases opt with
    | true =>
      obtain ⟨d', h1, h2, h3, h4⟩ := hydrateFields_fresh hl (rec := rec) fs d hd hnd.2
        (fun f hf => hno f (List.mem_cons_of_mem _ hf))
      refine ⟨d', h1, h2, fun k x hx => ?_, fun k hk => h4 k fun x hx => hk x
        (List.mem_cons_of_mem _ hx)⟩
      rcases List.mem_cons.1 hx with hx | hx
      · simp at hx
      · exact h3 k x hx
    | false =>
      have hl' : ∀ f ∈ fs, f.1 ≠ l := fun f hf e => hnd.1 (List.mem_map.2 ⟨f, hf, e⟩)
      obtain ⟨d', h1, h2, h3, h4⟩ := hydrateFields_fresh hl (rec := rec) fs
        (H.fill d l (H.eval v)) (hl.fillSt _ _ _ hd) hnd.2
        (fun f hf => by
          rw [hl.other _ _ _ _ hd (hl' f hf)]
          exact hno f (List.mem_cons_of_mem _ hf))
      refine ⟨d', h1, h2, fun k x hx => ?_, fun k hk => ?_⟩
      · rcases List.mem_cons.1 hx with hx | hx
        · injection hx with hx1 hx2
          injection hx2 with hx2 _
          subst hx1 hx2
          rw [h4 k fun y hy => hl' _ hy rfl]
          exact hl.same _ _ _ hd (hno _ List.mem_cons_self)
        · exact h3 k x hx
      · rw [h4 k fun x hx => hk x (List.mem_cons_of_mem _ hx), hl.other _ _ _ _ hd]
        rintro rfl
        exact hk v List.mem_cons_self

/-- **C173** (Hydrate).  For data without the fields of a `#SchemaDef`, `Hydrate` returns a
valid instance of the same schema whose data is the input with the definition's `version`
and `schema` (and `examples`, if that is not optional) added, and nothing else: no default
of the schema is added. -/
theorem C173_hydrate (hl : FillLaws H St) (n : Nat) {ref : V} {i : Inst V}
    (hr : IsSchemaDef H ref) (hd : St i.raw) (hv : i.valid = true)
    (hn : ∀ k ∈ reserved, H.lookup i.raw k = none) {fs : List (Str × V × Bool)}
    (hfs : H.fields ref = some fs) (hnd : (fs.map (·.1)).Nodup) :
    ∃ j, hydrate H (n + 1) ref i = .ok j ∧ j.valid = true ∧ j.sch = i.sch ∧ j.name = i.name ∧
      (∀ k v, (k, v, false) ∈ fs → k ∈ reserved ∧ H.lookup j.raw k = some (H.eval v)) ∧
      (∀ k, (∀ v, (k, v, false) ∉ fs) → H.lookup j.raw k = H.lookup i.raw k) := by
  obtain ⟨v, s, rest, hf, he⟩ := hr.fields
  have hres : ∀ f ∈ fs, f.1 ∈ reserved := by
    rw [hfs] at hf
    injection hf with hf
    subst hf
    intro f hf
    rcases List.mem_cons.1 hf with rfl | hf
    · simp [reserved]
    rcases List.mem_cons.1 hf with rfl | hf
    · simp [reserved]
    · rw [he f hf]; simp [reserved]
  obtain ⟨d', h1, _, h3, h4⟩ := hydrateFields_fresh hl (rec := doHydrate H n) fs i.raw hd hnd
    (fun f hf => hn _ (hres f hf))
  refine ⟨{ valid := true, raw := d', name := i.name, sch := i.sch }, ?_, rfl, rfl, rfl,
    fun k v h => ⟨hres _ h, h3 k v h⟩, h4⟩
  unfold hydrate
  rw [hv]
  unfold doHydrate
  simp only [hr.kind, hfs, h1, Bool.not_true, Bool.false_eq_true, if_false]

theorem dehydrateFields_none {rec : V → V → Res (V × Bool)} {data : V} :
    ∀ (fs : List (Str × V × Bool)) (d : V), (∀ f ∈ fs, H.lookup data f.1 = none) →
      dehydrateFields H rec data fs d = .ok d
  | [], d, _ => rfl
  | (l, v, opt) :: fs, d, hno => by
    unfold dehydrateFields
    rw [hno _ List.mem_cons_self]
    exact dehydrateFields_none fs d fun f hf => hno f (List.mem_cons_of_mem _ hf)

theorem copyOthers_absent (hl : FillLaws H St) {labels : List Str} :
    ∀ (fs : List (Str × V)) (d : V), St d → ∀ k, k ∉ fs.map (·.1) →
      H.lookup (copyOthers H labels fs d) k = H.lookup d k
  | [], d, _, k, _ => rfl
  | (l, v) :: rest, d, hd, k, hk => by
    simp only [List.map_cons, List.mem_cons, not_or] at hk
    unfold copyOthers
    split
    · exact copyOthers_absent hl rest d hd k hk.2
    · rw [copyOthers_absent hl rest _ (hl.fillSt _ _ _ hd) k hk.2, hl.other _ _ _ _ hd hk.1]

/-- **C173** (Dehydrate).  For such data, `Dehydrate` returns a valid instance of the same
schema with exactly the fields and values of the input. -/
theorem C173_dehydrate (hl : FillLaws H St) (n : Nat) {ref : V} {i : Inst V}
    (hr : IsSchemaDef H ref) (hd : St i.raw) (hv : i.valid = true)
    (hn : ∀ k ∈ reserved, H.lookup i.raw k = none) :
    ∃ j, dehydrate H (n + 1) ref i = .ok j ∧ j.valid = true ∧ j.sch = i.sch ∧ j.name = i.name ∧
      ∀ k, H.lookup j.raw k = H.lookup i.raw k := by
  obtain ⟨v, s, rest, hf, he⟩ := hr.fields
  have hno : ∀ f ∈ ("version".toList, v, false) :: ("schema".toList, s, false) :: rest,
      H.lookup i.raw f.1 = none := by
    intro f hf
    rcases List.mem_cons.1 hf with rfl | hf
    · exact hn _ (by simp [reserved])
    rcases List.mem_cons.1 hf with rfl | hf
    · exact hn _ (by simp [reserved])
    · rw [he f hf]; exact hn _ (by simp [reserved])
  have hj : dehydrate H (n + 1) ref i = .ok
      { valid := true, raw := copyOthers H ((("version".toList, v, false) ::
          ("schema".toList, s, false) :: rest).map (·.1)) (H.regular i.raw) H.empty,
        name := i.name, sch := i.sch } := by
    unfold dehydrate
    rw [hv]
    unfold doDehydrate
    simp only [hr.kind, hf, Option.getD_some, dehydrateFields_none _ _ hno, Res.map,
      Bool.not_true, Bool.false_eq_true, if_false]
    rfl
  refine ⟨_, hj, rfl, rfl, rfl, fun k => ?_⟩
  by_cases hk : k ∈ reserved
  · rw [copyOthers_absent hl _ _ hl.emptySt k, hl.emptyLookup, hn k hk]
    intro hm
    obtain ⟨⟨k', x⟩, hm', rfl⟩ := List.mem_map.1 hm
    have h1 := ((hl.regular _ hd).1 k' x).1 hm'
    rw [hn k' hk] at h1
    cases h1
  · exact (C67_nothing_removed_partial hl hr hd hj).2.2 k hk

/-- Hydrating `{a: 1}` gives `{a: 1, version: ..., schema: ...}` and no `b`. -/
example : ∃ j, hydrate trCue 3 exDef exInst = .ok j ∧
    trCue.lookup j.raw "a".toList = some (.num 1) ∧ trCue.lookup j.raw "b".toList = none ∧
    (trCue.lookup j.raw "schema".toList).isSome := by
  obtain ⟨j, h1, _, _, _, h5, h6⟩ := C173_hydrate (i := exInst) trLaws 2 exIsDef exIsSt rfl
    (by intro k hk; simp only [reserved, List.mem_cons, List.not_mem_nil, or_false] at hk
        rcases hk with rfl | rfl | rfl <;> rfl) rfl (by decide)
  refine ⟨j, h1, ?_, ?_, ?_⟩
  · rw [h6 _ (by intro v; simp)]; rfl
  · rw [h6 _ (by intro v; simp)]; rfl
  · rw [(h5 "schema".toList _ (by simp; rfl)).2]; rfl

example : ∃ j, dehydrate trCue 3 exDef exFull = .ok j ∧
    ∀ k, trCue.lookup j.raw k = trCue.lookup exFull.raw k := by
  obtain ⟨j, h1, _, _, _, h5⟩ := C173_dehydrate (i := exFull) trLaws 2 exIsDef exFullSt rfl
    (by intro k hk; simp only [reserved, List.mem_cons, List.not_mem_nil, or_false] at hk
        rcases hk with rfl | rfl | rfl <;> rfl)
  exact ⟨j, h1, h5⟩

end Thema.Props
