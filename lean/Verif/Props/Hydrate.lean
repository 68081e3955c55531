import Verif.Spec.Hydrate

/-!
# Hydration and dehydration (C66-C68)
-/

namespace Thema.Props

open Thema.Hydrate Thema.Spec.Hydrate

variable {V : Type} {H : HCue V} {St : V → Prop}

theorem hydrateFields_other (hl : FillLaws H St) {rec : V → V → Res V} :
    ∀ {fs : List (Str × V × Bool)} {d d' : V}, St d → hydrateFields H rec fs d = .ok d' →
    St d' ∧ (∀ k, k ∉ fs.map (·.1) → H.lookup d' k = H.lookup d k) ∧
      (∀ k, (H.lookup d k).isSome → (H.lookup d' k).isSome)
  | [], d, d', hd, h => by cases h; exact ⟨hd, fun _ _ => rfl, fun _ h => h⟩
  | (l, v, opt) :: rest, d, d', hd, h => by
    have step : ∀ w, hydrateFields H rec rest (H.fill d l w) = .ok d' →
        St d' ∧ (∀ k, k ∉ ((l, v, opt) :: rest).map (·.1) → H.lookup d' k = H.lookup d k) ∧
          (∀ k, (H.lookup d k).isSome → (H.lookup d' k).isSome) := by
      intro w h
      obtain ⟨h1, h2, h3⟩ := hydrateFields_other hl (hl.fillSt d l w hd) h
      refine ⟨h1, fun k hk => ?_, fun k hk => ?_⟩
      · simp only [List.map_cons, List.mem_cons, not_or] at hk
        rw [h2 k hk.2, hl.other d l w k hd hk.1]
      · apply h3
        by_cases hkl : k = l
        · subst hkl; exact hl.present d k w hd
        · rw [hl.other d l w k hd hkl]; exact hk
    have skip : hydrateFields H rec rest d = .ok d' →
        St d' ∧ (∀ k, k ∉ ((l, v, opt) :: rest).map (·.1) → H.lookup d' k = H.lookup d k) ∧
          (∀ k, (H.lookup d k).isSome → (H.lookup d' k).isSome) := by
      intro h
      obtain ⟨h1, h2, h3⟩ := hydrateFields_other hl hd h
      refine ⟨h1, fun k hk => h2 k ?_, h3⟩
      simp only [List.map_cons, List.mem_cons, not_or] at hk
      exact hk.2
    unfold hydrateFields at h
    cases hlk : H.lookup d l with
    | some lv =>
      simp only [hlk] at h
      cases hr : rec lv v with
      | ok res => simp only [hr] at h; exact step _ h
      | err e => simp only [hr] at h; exact skip h
      | panic k => simp only [hr] at h; cases h
      | fuel => simp only [hr] at h; cases h
    | none =>
      simp only [hlk] at h
      cases opt with
      | true => exact skip h
      | false => exact step _ h

/-- The result of `Hydrate` on a valid instance comes from the loop over the fields of the
`#SchemaDef`. -/
theorem hydrate_ok {n : Nat} {ref : V} {i j : Inst V} (hr : IsSchemaDef H ref)
    (h : hydrate H n ref i = .ok j) : ∃ v s rest m,
      H.fields ref = some (("version".toList, v, false) :: ("schema".toList, s, false) :: rest) ∧
      (∀ f ∈ rest, f.1 = "examples".toList) ∧
      (hydrateFields H (doHydrate H m)
        (("version".toList, v, false) :: ("schema".toList, s, false) :: rest) i.raw = .ok j.raw) ∧
      j.name = i.name ∧ j.sch = i.sch ∧ j.valid = true := by
  obtain ⟨v, s, rest, hf, he⟩ := hr.fields
  have noErr : ∀ (fs : List (Str × V × Bool)) m d e, hydrateFields H (doHydrate H m) fs d ≠ .err e := by
    intro fs m
    induction fs with
    | nil => intro d e h; cases h
    | cons f fs ih =>
      obtain ⟨l, v, opt⟩ := f
      intro d e h
      unfold hydrateFields at h
      split at h
      · split at h
        · exact ih _ _ h
        · exact ih _ _ h
        · cases h
        · cases h
      · split at h
        · exact ih _ _ h
        · exact ih _ _ h
  unfold hydrate at h
  cases hv : i.valid with
  | false => simp [hv] at h
  | true =>
    simp only [hv, Bool.not_true, Bool.false_eq_true, if_false] at h
    cases n with
    | zero => cases h
    | succ n =>
      unfold doHydrate at h
      simp only [hr.kind, hf] at h
      cases hh : hydrateFields H (doHydrate H n)
        (("version".toList, v, false) :: ("schema".toList, s, false) :: rest) i.raw with
      | ok d =>
        simp only [hh] at h
        cases h
        exact ⟨v, s, rest, n, hf, he, hh, rfl, rfl, rfl⟩
      | err e => exact absurd hh (noErr _ _ _ _)
      | panic k => simp only [hh] at h; cases h
      | fuel => simp only [hh] at h; cases h

theorem not_reserved {k : Str} (hk : k ∉ reserved) {v s : V} {rest : List (Str × V × Bool)}
    (he : ∀ f ∈ rest, f.1 = "examples".toList) :
    k ∉ (("version".toList, v, false) :: ("schema".toList, s, false) :: rest).map (·.1) := by
  simp only [reserved, List.mem_cons, List.not_mem_nil, or_false, not_or] at hk
  simp only [List.map_cons, List.mem_cons, not_or]
  refine ⟨hk.1, hk.2.1, fun hm => ?_⟩
  obtain ⟨f, hf, rfl⟩ := List.mem_map.1 hm
  exact hk.2.2 (he f hf)

/-! ## C66 -/

/-- C66 (partial): `Hydrate` returns an instance of the same schema with the same name, in
which every field but `version`, `schema` and `examples` is as it was. -/
theorem C66_fields_kept_partial (hl : FillLaws H St) {n : Nat} {ref : V} {i j : Inst V}
    (hr : IsSchemaDef H ref) (hd : St i.raw) (h : hydrate H n ref i = .ok j) :
    j.sch = i.sch ∧ j.name = i.name ∧
      ∀ k, k ∉ reserved → H.lookup j.raw k = H.lookup i.raw k := by
  obtain ⟨v, s, rest, m, hf, he, hh, h1, h2, _⟩ := hydrate_ok hr h
  exact ⟨h2, h1, fun k hk => (hydrateFields_other hl hd hh).2.1 k (not_reserved hk he)⟩

/-- C66 fails: a field that the data lacks is still lacking in the result, whatever default
the schema gives it. -/
theorem C66_no_default_added (hl : FillLaws H St) {n : Nat} {ref : V} {i j : Inst V}
    (hr : IsSchemaDef H ref) (hd : St i.raw) (h : hydrate H n ref i = .ok j) (k : Str)
    (hk : k ∉ reserved) (hn : H.lookup i.raw k = none) : H.lookup j.raw k = none := by
  rw [(C66_fields_kept_partial hl hr hd h).2.2 k hk, hn]

/-- C66 fails: the fields `version` and `schema` of the definition are added to the data. -/
theorem C66_definition_added (hl : FillLaws H St) {n : Nat} {ref : V} {i j : Inst V}
    (hr : IsSchemaDef H ref) (hd : St i.raw) (h : hydrate H n ref i = .ok j) :
    (H.lookup i.raw "version".toList = none → (H.lookup j.raw "version".toList).isSome) ∧
    (H.lookup i.raw "schema".toList = none → (H.lookup j.raw "schema".toList).isSome) := by
  obtain ⟨v, s, rest, m, hf, he, hh, _⟩ := hydrate_ok hr h
  have add : ∀ {l : Str} {v : V} {rest : List (Str × V × Bool)} {d d' : V}, St d →
      hydrateFields H (doHydrate H m) ((l, v, false) :: rest) d = .ok d' →
      H.lookup d l = none → (H.lookup d' l).isSome := by
    intro l v rest d d' hd hh hn
    unfold hydrateFields at hh
    simp only [hn, Bool.false_eq_true, if_false] at hh
    exact (hydrateFields_other hl (hl.fillSt _ _ _ hd) hh).2.2 l (hl.present _ _ _ hd)
  refine ⟨add hd hh, fun hn => ?_⟩
  -- skip over the first field
  unfold hydrateFields at hh
  cases hlk : H.lookup i.raw "version".toList with
  | none =>
    simp only [hlk, Bool.false_eq_true, if_false] at hh
    refine add (hl.fillSt _ _ _ hd) hh ?_
    rw [hl.other _ _ _ _ hd (by decide)]; exact hn
  | some lv =>
    simp only [hlk] at hh
    cases hrr : doHydrate H m lv v with
    | ok res =>
      simp only [hrr] at hh
      refine add (hl.fillSt _ _ _ hd) hh ?_
      rw [hl.other _ _ _ _ hd (by decide)]; exact hn
    | err e => simp only [hrr] at hh; exact add hd hh hn
    | panic k => simp only [hrr] at hh; cases hh
    | fuel => simp only [hrr] at hh; cases hh

/-- Hydration returns for data without reserved fields. -/
theorem C66_returns (hl : FillLaws H St) {n : Nat} {ref : V} {i : Inst V}
    (hr : IsSchemaDef H ref) (hd : St i.raw) (hv : i.valid = true)
    (hn : ∀ k ∈ reserved, H.lookup i.raw k = none) (hex : ∀ fs, H.fields ref = some fs →
      (fs.map (·.1)).Nodup) : ∃ j, hydrate H (n + 1) ref i = .ok j := by
  obtain ⟨v, s, rest, hf, he⟩ := hr.fields
  have loop : ∀ (fs : List (Str × V × Bool)) (d : V), St d → (fs.map (·.1)).Nodup →
      (∀ f ∈ fs, H.lookup d f.1 = none) → ∃ d', hydrateFields H (doHydrate H n) fs d = .ok d' := by
    intro fs
    induction fs with
    | nil => intro d _ _ _; exact ⟨d, rfl⟩
    | cons f fs ih =>
      obtain ⟨l, v, opt⟩ := f
      intro d hd hnd hno
      simp only [List.map_cons, List.nodup_cons] at hnd
      unfold hydrateFields
      rw [hno _ List.mem_cons_self]
      cases opt with
      | true => exact ih d hd hnd.2 (fun f hf => hno f (List.mem_cons_of_mem _ hf))
      | false =>
        refine ih _ (hl.fillSt _ _ _ hd) hnd.2 (fun f hf => ?_)
        rw [hl.other _ _ _ _ hd (fun e => hnd.1 (List.mem_map.2 ⟨f, hf, e⟩))]
        exact hno f (List.mem_cons_of_mem _ hf)
  obtain ⟨d', h'⟩ := loop _ i.raw hd (hex _ hf) (fun f hf => by
    rcases List.mem_cons.1 hf with rfl | hf
    · exact hn _ (by simp [reserved])
    rcases List.mem_cons.1 hf with rfl | hf
    · exact hn _ (by simp [reserved])
    · rw [he f hf]; exact hn _ (by simp [reserved]))
  refine ⟨{ valid := true, raw := d', name := i.name, sch := i.sch }, ?_⟩
  unfold hydrate
  rw [hv]
  unfold doHydrate
  simp only [hr.kind, hf, h', Bool.not_true, Bool.false_eq_true, if_false]

/-! ## C67 -/

theorem dehydrateFields_other (hl : FillLaws H St) {rec : V → V → Res (V × Bool)} {data : V} :
    ∀ {fs : List (Str × V × Bool)} {d d' : V}, St d → dehydrateFields H rec data fs d = .ok d' →
    St d' ∧ (∀ k, k ∉ fs.map (·.1) → H.lookup d' k = H.lookup d k)
  | [], d, d', hd, h => by cases h; exact ⟨hd, fun _ _ => rfl⟩
  | (l, v, opt) :: rest, d, d', hd, h => by
    have skip : dehydrateFields H rec data rest d = .ok d' →
        St d' ∧ (∀ k, k ∉ ((l, v, opt) :: rest).map (·.1) → H.lookup d' k = H.lookup d k) := by
      intro h
      obtain ⟨h1, h2⟩ := dehydrateFields_other hl hd h
      refine ⟨h1, fun k hk => h2 k ?_⟩
      simp only [List.map_cons, List.mem_cons, not_or] at hk
      exact hk.2
    unfold dehydrateFields at h
    cases hlk : H.lookup data l with
    | none => simp only [hlk] at h; exact skip h
    | some lv =>
      simp only [hlk] at h
      cases hr : rec v lv with
      | ok x =>
        obtain ⟨re, eq⟩ := x
        cases eq with
        | true => simp only [hr] at h; exact skip h
        | false =>
          simp only [hr] at h
          obtain ⟨h1, h2⟩ := dehydrateFields_other hl (hl.fillSt d l re hd) h
          refine ⟨h1, fun k hk => ?_⟩
          simp only [List.map_cons, List.mem_cons, not_or] at hk
          rw [h2 k hk.2, hl.other d l re k hd hk.1]
      | err e => simp only [hr] at h; exact skip h
      | panic k => simp only [hr] at h; cases h
      | fuel => simp only [hr] at h; cases h

theorem copyOthers_lookup (hl : FillLaws H St) {labels : List Str} :
    ∀ {fs : List (Str × V)} {d : V}, St d → (fs.map (·.1)).Nodup →
    (∀ k ∈ fs.map (·.1), k ∉ labels → H.lookup d k = none) →
    ∀ k, k ∉ labels → H.lookup (copyOthers H labels fs d) k =
      match fs.lookup k with
      | some v => some v
      | none => H.lookup d k
  | [], d, _, _, _, k, _ => rfl
  | (l, v) :: rest, d, hd, hnd, hno, k, hk => by
    simp only [List.map_cons, List.nodup_cons] at hnd
    unfold copyOthers
    by_cases hll : l ∈ labels
    · rw [if_pos hll, copyOthers_lookup hl hd hnd.2
        (fun k' hk' => hno k' (List.mem_cons_of_mem _ hk')) k hk]
      have hne : k ≠ l := fun e => hk (e ▸ hll)
      simp [List.lookup, beq_eq_false_iff_ne.2 hne]
    · rw [if_neg hll, copyOthers_lookup hl (hl.fillSt d l v hd) hnd.2 (fun k' hk' hk'' => by
        have hne : k' ≠ l := fun e => hnd.1 (e ▸ hk')
        rw [hl.other d l v k' hd hne]
        exact hno k' (List.mem_cons_of_mem _ hk') hk'') k hk]
      by_cases hkl : k = l
      · subst hkl
        have hnone : rest.lookup k = none := by
          rw [List.lookup_eq_none_iff]
          intro p hp
          simp only [bne_iff_ne, ne_eq]
          exact fun e => hnd.1 (List.mem_map.2 ⟨p, hp, e.symm⟩)
        rw [hnone]
        simp only [List.lookup, beq_self_eq_true]
        exact hl.same d k v hd (hno k List.mem_cons_self hk)
      · rw [hl.other _ _ _ _ hd hkl]
        simp [List.lookup, beq_eq_false_iff_ne.2 hkl]

/-- C67 (partial), and how it fails: `Dehydrate` returns an instance of the same schema with
the same name that has all the fields it had, with the same values, whether or not they
equal defaults; only `version`, `schema` and `examples` may change. -/
theorem C67_nothing_removed_partial (hl : FillLaws H St) {n : Nat} {ref : V} {i j : Inst V}
    (hr : IsSchemaDef H ref) (hd : St i.raw) (h : dehydrate H n ref i = .ok j) :
    j.sch = i.sch ∧ j.name = i.name ∧
      ∀ k, k ∉ reserved → H.lookup j.raw k = H.lookup i.raw k := by
  obtain ⟨v, s, rest, hf, he⟩ := hr.fields
  unfold dehydrate at h
  cases hv : i.valid with
  | false => simp [hv] at h
  | true =>
    simp only [hv, Bool.not_true, Bool.false_eq_true, if_false] at h
    cases n with
    | zero => cases h
    | succ n =>
      unfold doDehydrate at h
      simp only [hr.kind, hf, Option.getD_some] at h
      cases hh : dehydrateFields H (doDehydrate H n) i.raw
        (("version".toList, v, false) :: ("schema".toList, s, false) :: rest) H.empty with
      | ok rv =>
        simp only [hh, Res.map, Res.bind] at h
        cases h
        refine ⟨rfl, rfl, fun k hk => ?_⟩
        have hk' := not_reserved hk (v := v) (s := s) he
        obtain ⟨h1, h2⟩ := dehydrateFields_other hl hl.emptySt hh
        obtain ⟨r1, r2⟩ := hl.regular i.raw hd
        have := copyOthers_lookup hl (labels := List.map (·.1)
          (("version".toList, v, false) :: ("schema".toList, s, false) :: rest)) h1 r2
          (fun k _ hk => by rw [h2 k hk, hl.emptyLookup]) k hk'
        refine this.trans ?_
        cases hlk : (H.regular i.raw).lookup k with
        | some x =>
          have hm : (k, x) ∈ H.regular i.raw := by
            have h0 := hlk
            rw [List.lookup_eq_some_iff] at h0
            obtain ⟨l1, l2, he, _⟩ := h0
            rw [he]; simp
          exact ((r1 k x).1 hm).symm
        | none =>
          simp only
          rw [h2 k hk', hl.emptyLookup]
          cases hx : H.lookup i.raw k with
          | none => rfl
          | some x =>
            have hm := (r1 k x).2 hx
            rw [List.lookup_eq_none_iff] at hlk
            exact absurd (hlk _ hm) (by simp)
      | err e =>
        simp only [hh, Res.map, Res.bind] at h
        cases h
        exact ⟨rfl, rfl, fun _ _ => rfl⟩
      | panic k => simp only [hh, Res.map, Res.bind] at h; cases h
      | fuel => simp only [hh, Res.map, Res.bind] at h; cases h

/-- C67 fails: no field is ever removed. -/
theorem C67_no_default_removed (hl : FillLaws H St) {n : Nat} {ref : V} {i j : Inst V}
    (hr : IsSchemaDef H ref) (hd : St i.raw) (h : dehydrate H n ref i = .ok j) (k : Str)
    (hk : k ∉ reserved) (v : V) (hn : H.lookup i.raw k = some v) : H.lookup j.raw k = some v := by
  rw [(C67_nothing_removed_partial hl hr hd h).2.2 k hk, hn]

/-! ## C68 -/

/-- C68 fails: if the schema does not allow a field `version` then the result of `Hydrate`
is not valid against the schema that it claims to be an instance of. -/
theorem C68_hydrated_invalid (C : Cue V) (hl : FillLaws H St) {n : Nat} {ref body : V}
    {i j : Inst V} (hr : IsSchemaDef H ref) (hd : St i.raw) (h : hydrate H n ref i = .ok j)
    (hb : C.accepts body i.raw)
    (hclosed : ∀ d, (H.lookup d "version".toList).isSome → ¬ C.accepts body d) :
    j.valid = true ∧ ¬ C.accepts body j.raw := by
  obtain ⟨v, s, rest, m, hf, he, hh, _, _, hv⟩ := hydrate_ok hr h
  refine ⟨hv, hclosed _ ((C66_definition_added hl hr hd h).1 ?_)⟩
  cases hx : H.lookup i.raw "version".toList with
  | none => rfl
  | some x => exact absurd hb (hclosed _ (by rw [hx]; rfl))

/-- C68 (partial): the result of `Dehydrate` is valid if the data has none of the fields
`version`, `schema`, `examples` and validity depends on the fields only. -/
theorem C68_dehydrated_valid_partial (C : Cue V) (hl : FillLaws H St) {n : Nat} {ref body : V}
    {i j : Inst V} (hr : IsSchemaDef H ref) (hd : St i.raw) (h : dehydrate H n ref i = .ok j)
    (hb : C.accepts body i.raw) (hno : ∀ k ∈ reserved, H.lookup i.raw k = none)
    (hext : ∀ d d', (∀ k, H.lookup d k = H.lookup d' k) → C.accepts body d → C.accepts body d') :
    C.accepts body j.raw := by
  refine hext i.raw j.raw (fun k => ?_) hb
  by_cases hk : k ∈ reserved
  · rw [hno k hk]
    obtain ⟨v, s, rest, hf, he⟩ := hr.fields
    unfold dehydrate at h
    cases hv : i.valid with
    | false => simp [hv] at h
    | true =>
      simp only [hv, Bool.not_true, Bool.false_eq_true, if_false] at h
      cases n with
      | zero => cases h
      | succ n =>
        have skip : ∀ (fs : List (Str × V × Bool)) (d : V), (∀ f ∈ fs, f.1 ∈ reserved) →
            dehydrateFields H (doDehydrate H n) i.raw fs d = .ok d := by
          intro fs
          induction fs with
          | nil => intro d _; rfl
          | cons f fs ih =>
            obtain ⟨l, v, opt⟩ := f
            intro d hres
            unfold dehydrateFields
            rw [hno l (hres _ List.mem_cons_self)]
            exact ih d (fun f hf => hres f (List.mem_cons_of_mem _ hf))
        unfold doDehydrate at h
        simp only [hr.kind, hf, Option.getD_some] at h
        rw [skip _ _ (fun f hf => by
          rcases List.mem_cons.1 hf with rfl | hf
          · simp [reserved]
          rcases List.mem_cons.1 hf with rfl | hf
          · simp [reserved]
          · rw [he f hf]; simp [reserved])] at h
        simp only [Res.map, Res.bind] at h
        cases h
        obtain ⟨r1, r2⟩ := hl.regular i.raw hd
        -- the fields copied are not reserved
        have copy : ∀ (labels : List Str) (fs : List (Str × V)) (d : V), St d →
            k ∉ fs.map (·.1) → H.lookup (copyOthers H labels fs d) k = H.lookup d k := by
          intro labels fs
          induction fs with
          | nil => intro d _ _; rfl
          | cons f fs ih =>
            obtain ⟨l, v⟩ := f
            intro d hd hk
            simp only [List.map_cons, List.mem_cons, not_or] at hk
            unfold copyOthers
            split
            · exact ih d hd hk.2
            · rw [ih _ (hl.fillSt _ _ _ hd) hk.2, hl.other _ _ _ _ hd hk.1]
        refine ((copy _ _ _ hl.emptySt ?_).trans (hl.emptyLookup k)).symm
        intro hm
        obtain ⟨⟨k', x⟩, hx, rfl⟩ := List.mem_map.1 hm
        have := (r1 k' x).1 hx
        rw [hno k' hk] at this
        cases this
  · exact ((C67_nothing_removed_partial hl hr hd h).2.2 k hk).symm

/-- **C68**.  Neither call reports an error: if the data cannot be hydrated or dehydrated, the
instance is returned as it was; on an instance that was not made by the API both panic. -/
theorem C68_never_errors (n : Nat) (ref : V) (i : Inst V) :
    (∀ e, hydrate H n ref i ≠ .err e ∧ dehydrate H n ref i ≠ .err e) ∧
    (i.valid = true → (∃ e, doHydrate H n ref i.raw = .err e) → hydrate H n ref i = .ok i) ∧
    (i.valid = true → (∃ e, doDehydrate H n ref i.raw = .err e) → dehydrate H n ref i = .ok i) ∧
    (i.valid = false → Res.Panics (hydrate H n ref i) ∧ Res.Panics (dehydrate H n ref i)) := by
  refine ⟨fun e => ⟨?_, ?_⟩, ?_, ?_, ?_⟩
  · unfold hydrate; split
    · simp
    · split <;> simp
  · unfold dehydrate; split
    · simp
    · split <;> simp
  · rintro hv ⟨e, he⟩; simp [hydrate, hv, he]
  · rintro hv ⟨e, he⟩; simp [dehydrate, hv, he]
  · intro hv; simp [hydrate, dehydrate, hv, Res.Panics]

/-! ## A concrete evaluator, for the hypotheses above -/

/-- Values: numbers, structs (with optional fields), `_`. -/
inductive Tr
  | top
  | num (n : Nat)
  | st (fs : List (Str × Tr × Bool))

/-- The regular fields. -/
def Tr.regular : Tr → List (Str × Tr)
  | .st fs => (fs.filter (fun f => !f.2.2)).map fun f => (f.1, f.2.1)
  | _ => []

/-- Fill a field; a field that exists is replaced. -/
def Tr.fill (d : Tr) (l : Str) (v : Tr) : Tr :=
  match d with
  | .st fs => .st (fs.filter (fun f => decide (f.1 ≠ l)) ++ [(l, v, false)])
  | d => d

/-- The evaluator. -/
def trCue : HCue Tr where
  kind | .st _ => .struct
       | _ => .other
  fields | .st fs => some fs
         | _ => none
  regular := Tr.regular
  lookup d k := d.regular.lookup k
  anyIdx _ := none
  elems _ := none
  unify a b := match b with
    | .top => a
    | b => b
  fill := Tr.fill
  eval v := v
  newList _ := .top
  isErr _ := false
  isOr _ := false
  alts v := [v]
  concrete _ := true
  subsume _ _ := false
  dflt _ := none
  isList _ := false
  len _ := none
  empty := .st []

/-- Structs with distinct regular fields. -/
def TrSt (d : Tr) : Prop :=
  ∃ fs, d = .st fs ∧ (fs.map (·.1)).Nodup ∧ ∀ f ∈ fs, f.2.2 = false

theorem regular_all {fs : List (Str × Tr × Bool)} (h : ∀ f ∈ fs, f.2.2 = false) :
    Tr.regular (.st fs) = fs.map fun f => (f.1, f.2.1) := by
  simp only [Tr.regular]
  rw [List.filter_eq_self.2 (fun f hf => by simp [h f hf])]

theorem lookup_filter_ne {fs : List (Str × Tr × Bool)} {k l : Str} (hkl : k ≠ l) :
    ((fs.filter (fun f => decide (f.1 ≠ l))).map fun f => (f.1, f.2.1)).lookup k =
      (fs.map fun f => (f.1, f.2.1)).lookup k := by
  induction fs with
  | nil => rfl
  | cons f fs ih =>
    by_cases hf : f.1 = l
    · have : k ≠ f.1 := fun e => hkl (e.trans hf)
      simp only [List.filter_cons, hf, ne_eq, not_true_eq_false, decide_false, Bool.false_eq_true,
        if_false, List.map_cons, ih]
      simp [List.lookup, beq_eq_false_iff_ne.2 hkl]
    · simp only [List.filter_cons, ne_eq, hf, not_false_eq_true, decide_true, if_true,
        List.map_cons, List.lookup, ih]

theorem lookup_append_eq {l1 l2 : List (Str × Tr)} {k : Str} :
    (l1 ++ l2).lookup k = (l1.lookup k).or (l2.lookup k) := by
  induction l1 with
  | nil => simp
  | cons f l1 ih =>
    simp only [List.cons_append, List.lookup]
    cases k == f.1 <;> simp [ih]

theorem lookup_mem_iff {l : List (Str × Tr)} (h : (l.map (·.1)).Nodup) (k : Str) (v : Tr) :
    (k, v) ∈ l ↔ l.lookup k = some v := by
  induction l with
  | nil => simp
  | cons f l ih =>
    obtain ⟨k', v'⟩ := f
    simp only [List.map_cons, List.nodup_cons] at h
    by_cases hk : k = k'
    · subst hk
      simp only [List.mem_cons, Prod.mk.injEq, true_and, List.lookup, beq_self_eq_true,
        Option.some.injEq]
      constructor
      · rintro (rfl | hm)
        · rfl
        · exact absurd (List.mem_map.2 ⟨_, hm, rfl⟩) h.1
      · rintro rfl; exact .inl rfl
    · simp [List.lookup, beq_eq_false_iff_ne.2 hk, hk, ih h.2]

theorem trLaws : FillLaws trCue TrSt where
  fillSt d l v h := by
    obtain ⟨fs, rfl, hn, ho⟩ := h
    refine ⟨_, rfl, ?_, ?_⟩
    · rw [List.map_append, List.nodup_append]
      refine ⟨hn.sublist (List.filter_sublist.map _), by simp, ?_⟩
      intro a ha b hb
      simp only [List.map_cons, List.map_nil, List.mem_singleton] at hb
      obtain ⟨f, hf, rfl⟩ := List.mem_map.1 ha
      have := (List.mem_filter.1 hf).2
      rw [hb]; simpa using this
    · intro f hf
      rcases List.mem_append.1 hf with hf | hf
      · exact ho f (List.mem_filter.1 hf).1
      · simp only [List.mem_singleton] at hf; rw [hf]
  other d l v k h hkl := by
    obtain ⟨fs, rfl, hn, ho⟩ := h
    show (Tr.regular (.st _)).lookup k = (Tr.regular (.st fs)).lookup k
    rw [regular_all ho, regular_all, List.map_append, lookup_append_eq, lookup_filter_ne hkl]
    · simp [List.lookup, beq_eq_false_iff_ne.2 hkl]
    · intro f hf
      rcases List.mem_append.1 hf with hf | hf
      · exact ho f (List.mem_filter.1 hf).1
      · simp only [List.mem_singleton] at hf; rw [hf]
  same d l v h hlk := by
    obtain ⟨fs, rfl, hn, ho⟩ := h
    show (Tr.regular (.st _)).lookup l = some v
    rw [regular_all, List.map_append, lookup_append_eq]
    · have : ((fs.filter (fun f => decide (f.1 ≠ l))).map fun f => (f.1, f.2.1)).lookup l = none := by
        rw [List.lookup_eq_none_iff]
        intro p hp
        obtain ⟨f, hf, rfl⟩ := List.mem_map.1 hp
        have := (List.mem_filter.1 hf).2
        simp only [bne_iff_ne, ne_eq]
        exact fun e => by simp [e] at this
      rw [this]; simp [List.lookup]
    · intro f hf
      rcases List.mem_append.1 hf with hf | hf
      · exact ho f (List.mem_filter.1 hf).1
      · simp only [List.mem_singleton] at hf; rw [hf]
  present d l v h := by
    obtain ⟨fs, rfl, hn, ho⟩ := h
    show ((Tr.regular (.st _)).lookup l).isSome
    rw [regular_all, List.map_append, lookup_append_eq]
    · simp [List.lookup]
    · intro f hf
      rcases List.mem_append.1 hf with hf | hf
      · exact ho f (List.mem_filter.1 hf).1
      · simp only [List.mem_singleton] at hf; rw [hf]
  emptySt := ⟨[], rfl, by simp, by simp⟩
  emptyLookup _ := rfl
  regular d h := by
    obtain ⟨fs, rfl, hn, ho⟩ := h
    show (∀ k v, (k, v) ∈ Tr.regular (.st fs) ↔ (Tr.regular (.st fs)).lookup k = some v) ∧
      ((Tr.regular (.st fs)).map (·.1)).Nodup
    rw [regular_all ho]
    have : ((fs.map fun f => (f.1, f.2.1)).map (·.1)).Nodup := by
      rw [List.map_map]; exact hn
    exact ⟨fun k v => lookup_mem_iff this k v, this⟩

/-- `{version: [0, 0], schema: {a: _, b: 5}, examples?: _}`. -/
def exDef : Tr :=
  .st [("version".toList, .num 0, false),
    ("schema".toList, .st [("a".toList, .top, false), ("b".toList, .num 5, false)], false),
    ("examples".toList, .top, true)]

/-- `{a: 1}`. -/
def exInst : Inst Tr := ⟨.st [("a".toList, .num 1, false)], [], ⟨0, 0⟩, true⟩

theorem exIsDef : IsSchemaDef trCue exDef := ⟨rfl, _, _, _, rfl, by simp⟩
theorem exIsSt : TrSt exInst.raw := ⟨_, rfl, by simp, by simp⟩

example : ∃ j, hydrate trCue 3 exDef exInst = .ok j ∧
    trCue.lookup j.raw "a".toList = trCue.lookup exInst.raw "a".toList ∧
    trCue.lookup j.raw "b".toList = none ∧ (trCue.lookup j.raw "version".toList).isSome := by
  obtain ⟨j, hj⟩ := C66_returns (n := 2) trLaws exIsDef exIsSt rfl
    (by intro k hk; simp only [reserved, List.mem_cons, List.not_mem_nil, or_false] at hk
        rcases hk with rfl | rfl | rfl <;> rfl)
    (by intro fs h; cases h; decide)
  exact ⟨j, hj, (C66_fields_kept_partial trLaws exIsDef exIsSt hj).2.2 _ (by decide),
    C66_no_default_added trLaws exIsDef exIsSt hj _ (by decide) rfl,
    (C66_definition_added trLaws exIsDef exIsSt hj).1 rfl⟩

/-- `{a: 1, b: 5}`, where `b` equals its only possible value. -/
def exFull : Inst Tr :=
  ⟨.st [("a".toList, .num 1, false), ("b".toList, .num 5, false)], [], ⟨0, 0⟩, true⟩

theorem exFullSt : TrSt exFull.raw := ⟨_, rfl, by simp, by simp⟩

example : ∃ j, dehydrate trCue 3 exDef exFull = .ok j ∧
    trCue.lookup j.raw "b".toList = some (.num 5) :=
  ⟨_, rfl, C67_no_default_removed trLaws exIsDef exFullSt
    (show dehydrate trCue 3 exDef exFull = _ from rfl) "b".toList (by decide) (.num 5) rfl⟩

/-- The schema that allows the fields `a` and `b`. -/
def trClosed : Cue Tr where
  unify _ d := d
  validate d := if (d.regular.map (·.1)).all (fun k => decide (k ∈ ["a".toList, "b".toList]))
    then none else some (.cue [])
  subsumeAll _ _ := true
  subsumeRaw _ _ := true
  embed a _ := a
  isErr _ := false
  dflt d := d
  marshals _ := true
  isStruct _ := true
  lacunaRefFatal := false

theorem accepts_iff (b d : Tr) : trClosed.accepts b d ↔
    ∀ k v, (k, v) ∈ d.regular → k ∈ ["a".toList, "b".toList] := by
  unfold Cue.accepts
  simp only [trClosed]
  split
  · rename_i h
    simp only [List.all_eq_true, List.mem_map, decide_eq_true_eq] at h
    exact ⟨fun _ k v hm => h k ⟨_, hm, rfl⟩, fun _ => rfl⟩
  · rename_i h
    simp only [reduceCtorEq, false_iff]
    intro h'
    refine h ?_
    simp only [List.all_eq_true, List.mem_map, decide_eq_true_eq]
    rintro k ⟨⟨k', v⟩, hm, rfl⟩
    exact h' k' v hm

theorem mem_of_lookup_tr {l : List (Str × Tr)} {k : Str} {v : Tr} (h : l.lookup k = some v) :
    (k, v) ∈ l := by
  rw [List.lookup_eq_some_iff] at h
  obtain ⟨l1, l2, he, _⟩ := h
  rw [he]; simp

example : ∃ j, hydrate trCue 3 exDef exInst = .ok j ∧ j.valid = true ∧
    ¬ trClosed.accepts .top j.raw :=
  ⟨_, rfl, C68_hydrated_invalid trClosed trLaws exIsDef exIsSt
    (show hydrate trCue 3 exDef exInst = _ from rfl)
    ((accepts_iff _ _).2 (by simp [exInst, Tr.regular])) (by
      intro d hd ha
      obtain ⟨v, hv⟩ := Option.isSome_iff_exists.1 hd
      exact absurd ((accepts_iff _ _).1 ha _ _ (mem_of_lookup_tr hv)) (by decide))⟩

example : ∃ j, dehydrate trCue 3 exDef exFull = .ok j ∧ trClosed.accepts .top j.raw := by
  refine ⟨_, rfl, C68_dehydrated_valid_partial trClosed (n := 3) (ref := exDef) (i := exFull)
    (hl := trLaws) (hr := exIsDef) (hd := exFullSt) (h := rfl)
    (hb := (accepts_iff _ _).2 (by
      intro k v h; simp [exFull, Tr.regular] at h; rcases h with h | h <;> simp [h.1])) (hno := ?_) (hext := ?_)⟩
  · intro k hk
    simp only [reserved, List.mem_cons, List.not_mem_nil, or_false] at hk
    rcases hk with rfl | rfl | rfl <;> rfl
  · intro d d' hdd ha
    rw [accepts_iff] at ha ⊢
    intro k v hm
    have hx : (d'.regular.lookup k).isSome := by
      cases hl : d'.regular.lookup k with
      | some x => rfl
      | none =>
        rw [List.lookup_eq_none_iff] at hl
        exact absurd (hl _ hm) (by simp)
    have : trCue.lookup d' k = trCue.lookup d k := (hdd k).symm
    obtain ⟨x, hx⟩ := Option.isSome_iff_exists.1 hx
    exact ha k x (mem_of_lookup_tr (this.symm.trans hx))

/-- `C67_nothing_removed_partial` on the same instance. -/
example : ∃ j, dehydrate trCue 3 exDef exFull = .ok j ∧ j.sch = exFull.sch ∧
    trCue.lookup j.raw "a".toList = some (.num 1) :=
  have h : ∃ j, dehydrate trCue 3 exDef exFull = .ok j := ⟨_, rfl⟩
  h.elim fun j hj =>
    have hk := C67_nothing_removed_partial trLaws exIsDef exFullSt hj
    ⟨j, hj, hk.1, hk.2.2 _ (by decide)⟩

end Thema.Props
