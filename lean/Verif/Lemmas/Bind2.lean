import Verif.Lemmas.Bind

/-! More lemmas about `BindLineage`: the link to the specification vocabulary. -/

namespace Thema

open Spec

variable {V : Type}

theorem bindConfig_implens_foldl (force : Bool) (opts : List (BindOption V)) :
    ∀ c : BindConfig V,
      (opts.foldl (BindOption.apply force) c).implens = c.implens ++ goLenses opts := by
  induction opts with
  | nil => intro c; simp [goLenses]
  | cons o opts ih =>
    intro c
    rw [List.foldl_cons, ih]
    cases o <;> cases force <;> simp [BindOption.apply, goLenses]

theorem bindConfig_implens (force : Bool) (opts : List (BindOption V)) :
    (bindConfig force opts).implens = goLenses opts := by
  unfold bindConfig
  rw [bindConfig_implens_foldl]; simp

theorem checksOn_iff {force : Bool} {opts : List (BindOption V)} :
    ChecksOn force opts ↔ (bindConfig force opts).skipbuggychecks = false := by
  rw [← Bool.not_eq_true, bindConfig_skip]
  unfold ChecksOn
  cases force <;> simp

theorem concreteVersions_eq (schemas : List (RawSchema V)) : ∀ (vs : List SV),
    concreteVersions schemas = some vs ↔ schemas.map (·.version) = vs.map some := by
  unfold concreteVersions
  induction schemas with
  | nil => intro vs; cases vs <;> simp
  | cons s rest ih =>
    intro vs
    rw [List.mapM_cons]
    cases hv : s.version with
    | none => cases vs <;> simp [hv]
    | some v =>
      cases vs with
      | nil =>
        simp only [Option.bind_eq_bind, Option.bind_some]
        cases h : List.mapM (fun x : RawSchema V => x.version) rest <;> simp
      | cons w ws =>
        simp only [Option.bind_eq_bind, Option.bind_some, List.map_cons, hv, List.cons.injEq,
          Option.some.injEq, ← ih ws]
        cases h : List.mapM (fun x : RawSchema V => x.version) rest <;> simp

theorem reqList_eq (vs : List SV) : ∀ a, reqList a vs = requiredList (a :: vs) := by
  induction vs with
  | nil => intro a; simp [reqList, requiredList]
  | cons b rest ih => intro a; simp [reqList, requiredList, ih]

/-- The schema object for a declaration of version `v`. -/
def mkDef (s : RawSchema V) (v : SV) : SchemaDef V :=
  { v := v, schema := s.schema, body := s.body, examples := s.examples }

theorem forall₂_zipWith (raws : List (RawSchema V)) : ∀ (vs : List SV),
    raws.map (·.version) = vs.map some →
      List.Forall₂ FromRaw raws (List.zipWith mkDef raws vs) ∧
      (List.zipWith mkDef raws vs).map (·.v) = vs := by
  induction raws with
  | nil => intro vs h; cases vs <;> simp_all
  | cons s rest ih =>
    intro vs h
    cases vs with
    | nil => simp at h
    | cons v vs =>
      simp only [List.map_cons, List.cons.injEq] at h
      obtain ⟨h1, h2⟩ := ih vs h.2
      simp only [List.zipWith_cons_cons, List.map_cons, h2]
      exact ⟨.cons ⟨h.1, rfl, rfl, rfl⟩ h1, rfl⟩

theorem schemaDef_ext {s t : SchemaDef V} (h1 : s.v = t.v) (h2 : s.schema = t.schema)
    (h3 : s.body = t.body) (h4 : s.examples = t.examples) : s = t := by
  cases s; cases t; simp_all

theorem fromRaw_unique {raws : List (RawSchema V)} {l l' : List (SchemaDef V)}
    (h : List.Forall₂ FromRaw raws l) (h' : List.Forall₂ FromRaw raws l') : l = l' := by
  induction h generalizing l' with
  | nil => cases h'; rfl
  | cons h _ ih =>
    cases h' with
    | cons h1 h2 =>
      rw [ih h2]
      congr 1
      obtain ⟨a1, a2, a3, a4⟩ := h
      obtain ⟨b1, b2, b3, b4⟩ := h1
      rw [a1] at b1
      have b1' := Option.some.inj b1
      exact schemaDef_ext b1' (a2.trans b2.symm) (a3.trans b3.symm) (a4.trans b4.symm)

/-- The schema list of a bound lineage, position by position. -/
theorem fromRaw_getElem {raws : List (RawSchema V)} {l : List (SchemaDef V)}
    (h : List.Forall₂ FromRaw raws l) {i : Nat} (h1 : i < raws.length) (h2 : i < l.length) :
    FromRaw raws[i] l[i] := by
  induction h generalizing i with
  | nil => simp at h1
  | cons h _ ih =>
    cases i with
    | zero => exact h
    | succ i => exact ih (by simpa using h1) (by simpa using h2)

theorem forall₂_length {raws : List (RawSchema V)} {l : List (SchemaDef V)}
    (h : List.Forall₂ FromRaw raws l) : raws.length = l.length := h.length_eq

/-- `SchemasAcceptable` is what the checks before the lens check verify. -/
theorem schemasAcceptable_iff {C : Cue V} {force : Bool} {r : RawLineage V}
    {opts : List (BindOption V)} {l : List (SchemaDef V)} :
    SchemasAcceptable C force r opts (l.map (·.v)) ∧ List.Forall₂ FromRaw r.schemas l ↔
      checkExists r = .ok () ∧ checkLineageShape r = .ok () ∧ checkNativeValidity r = .ok () ∧
        checkGoValidity C (bindConfig force opts) r = .ok l := by
  rw [checkExists_ok, checkLineageShape_ok, checkNativeValidity_ok]
  unfold checkGoValidity
  rw [checkGoValidityLoop_ok]
  simp only [Option.toList, List.nil_append]
  have hcv : List.Forall₂ FromRaw r.schemas l → concreteVersions r.schemas = some (l.map (·.v)) :=
    fun h => (concreteVersions_eq _ _).2 (fromRaw_versions h)
  constructor
  · rintro ⟨h, hf⟩
    refine ⟨h.present, ⟨h.name, h.schemas, h.noFinalErr, ?_⟩, ⟨h.noRawErr, h.noUniErr⟩, hf, ?_⟩
    · unfold lineageConstraints
      rw [hcv hf]
      simp only [h.counts, Bool.and_true, Bool.not_eq_true', List.isEmpty_eq_false_iff]
      intro he
      have := h.nonempty
      rw [he] at hf; cases hf
      simp at this
    · rw [List.isChain_iff_getElem]
      intro i hi
      have hs := sortedV_iff.2 h.order
      refine ⟨?_, ?_⟩
      · have := hs.get (Nat.le_succ i) (by simpa using hi)
        simpa using this
      · by_cases hc : (bindConfig force opts).skipbuggychecks = true
        · exact .inl hc
        · right
          have hl := forall₂_length hf
          have := h.compat (checksOn_iff.2 (by simpa using hc)) i (by omega) (by simpa using hi)
          rw [(fromRaw_getElem hf (by omega) hi).2.2.1,
            (fromRaw_getElem hf (i := i) (by omega) (by omega)).2.2.1]
          simpa using this
  · rintro ⟨h1, ⟨h2, h3, h4, h5⟩, ⟨h6, h7⟩, hf, hch⟩
    refine ⟨⟨h1, h2, h3, h4, h6, h7, fromRaw_versions hf, ?_, ?_, ?_, ?_⟩, hf⟩
    · unfold lineageConstraints at h5
      intro he
      have : l = [] := by simpa using he
      subst this
      cases hr : r.schemas with
      | nil => rw [hr] at h5; simp at h5
      | cons a b => rw [hr] at hf; cases hf
    · unfold lineageConstraints at h5
      rw [hcv hf] at h5
      simp only [Bool.and_eq_true] at h5
      exact h5.2
    · exact sortedV_iff.1 (schRel_sorted hch)
    · intro hon i hi hi'
      have hi'' : i + 1 < l.length := by simpa using hi'
      rw [checksOn_iff] at hon
      have := ((List.isChain_iff_getElem.1 hch) i hi'').2
      rw [hon] at this
      simp only [Bool.false_eq_true, false_or] at this
      rw [(fromRaw_getElem hf (by omega) hi'').2.2.1,
        (fromRaw_getElem hf (i := i) (by omega) (by omega)).2.2.1] at this
      simpa using this

theorem schemasAcceptable_exists {C : Cue V} {force : Bool} {r : RawLineage V}
    {opts : List (BindOption V)} {vs : List SV} (h : SchemasAcceptable C force r opts vs) :
    ∃ l, l.map (·.v) = vs ∧ List.Forall₂ FromRaw r.schemas l ∧
      ∀ L, bindLineage C force r opts = .ok L ↔
        L.allsch = l ∧ checkLensesOrder r l (goLenses opts) = .ok L.lensmap ∧
        L.name = r.name ∧ L.lenses = cueLenses r := by
  obtain ⟨h1, h2⟩ := forall₂_zipWith r.schemas vs h.versions
  refine ⟨_, h2, h1, ?_⟩
  intro L
  have h' := h
  rw [← h2] at h'
  have := schemasAcceptable_iff.1 ⟨h', h1⟩
  rw [checkExists_ok, checkLineageShape_ok, checkNativeValidity_ok] at this
  obtain ⟨a1, a2, a3, a4⟩ := this
  rw [bindLineage_ok, ← bindConfig_implens force opts]
  unfold checkGoValidity at a4
  rw [checkGoValidityLoop_ok] at a4
  simp only [Option.toList, List.nil_append] at a4
  constructor
  · rintro ⟨_, _, _, ⟨b1, _⟩, b3, b4, b5⟩
    have := fromRaw_unique b1 h1
    exact ⟨this, by rw [← this]; exact b3, b4, b5⟩
  · rintro ⟨b0, b1, b2, b3⟩
    rw [b0]
    exact ⟨a1, a2, a3, a4, b1, b2, b3⟩

/-- The result of binding when only the lens check is left. -/
theorem bind_of_acceptable {C : Cue V} {force : Bool} {r : RawLineage V}
    {opts : List (BindOption V)} {vs : List SV} (h : SchemasAcceptable C force r opts vs) :
    ∃ l, l.map (·.v) = vs ∧ List.Forall₂ FromRaw r.schemas l ∧
      bindLineage C force r opts =
        (checkLensesOrder r l (goLenses opts)).map fun m =>
          { name := r.name, allsch := l, lenses := cueLenses r, lensmap := m } := by
  obtain ⟨h1, h2⟩ := forall₂_zipWith r.schemas vs h.versions
  refine ⟨_, h2, h1, ?_⟩
  have h' := h
  rw [← h2] at h'
  obtain ⟨a1, a2, a3, a4⟩ := schemasAcceptable_iff.1 ⟨h', h1⟩
  unfold bindLineage
  simp only [a1, a2, a3, a4, Res.bind_ok, bindConfig_implens]
  rfl

theorem bind_acceptable {C : Cue V} {force : Bool} {r : RawLineage V}
    {opts : List (BindOption V)} {L : Lineage V} (h : bindLineage C force r opts = .ok L) :
    SchemasAcceptable C force r opts L.allv := by
  have := bindLineage_ok.1 h
  have h' := (schemasAcceptable_iff (C := C) (force := force) (r := r) (opts := opts)
    (l := L.allsch)).2 ⟨checkExists_ok.2 this.1, checkLineageShape_ok.2 this.2.1,
      checkNativeValidity_ok.2 this.2.2.1, by
        unfold checkGoValidity
        rw [checkGoValidityLoop_ok]
        exact this.2.2.2.1⟩
  exact h'.1

/-! ### Errors of the schema checks -/

theorem checkGoValidityLoop_cases (C : Cue V) (skip : Bool) (raws : List (RawSchema V)) :
    ∀ (prev : Option (SchemaDef V)),
      (∃ l, checkGoValidityLoop C skip prev raws = .ok l) ∨
      (∃ e, checkGoValidityLoop C skip prev raws = .err e ∧
        (e = ⟨[.invalidLineage]⟩ ∨ e = ⟨[.invalidSchemasOrder]⟩)) := by
  induction raws with
  | nil => intro prev; exact .inl ⟨_, rfl⟩
  | cons s rest ih =>
    intro prev
    simp only [checkGoValidityLoop]
    cases s.version with
    | none => exact .inr ⟨_, rfl, .inl rfl⟩
    | some v =>
      simp only
      have e1 : checkSchemasOrder prev v = .ok () ∨
          checkSchemasOrder prev v = .err ⟨[.invalidSchemasOrder]⟩ := by
        unfold checkSchemasOrder
        cases prev with
        | none => exact .inl rfl
        | some p => simp only; split <;> simp
      have e2 : checkCompat C skip prev v s.body = .ok () ∨
          checkCompat C skip prev v s.body = .err ⟨[.invalidLineage]⟩ := by
        unfold checkCompat
        cases prev with
        | none => exact .inl rfl
        | some p => simp only; split <;> [simp; (split <;> [simp; (split <;> simp)])]
      rcases e1 with e1 | e1
      · rcases e2 with e2 | e2
        · simp only [e1, e2, Res.bind_ok]
          rcases ih (some (mkDef s v)) with ⟨l, hl⟩ | ⟨e, he, hcl⟩
          · left
            simp only [mkDef] at hl
            exact ⟨_, by rw [hl]; rfl⟩
          · right
            simp only [mkDef] at he
            exact ⟨e, by rw [he]; rfl, hcl⟩
        · simp only [e1, e2, Res.bind_ok, Res.bind_err]
          exact .inr ⟨_, rfl, .inl rfl⟩
      · simp only [e1, Res.bind_err]
        exact .inr ⟨_, rfl, .inr rfl⟩

/-- With concrete versions that never go down, the only possible error is the
compatibility one. -/
theorem checkGoValidityLoop_sorted_err (C : Cue V) (skip : Bool) (raws : List (RawSchema V)) :
    ∀ (prev : Option (SchemaDef V)) (vs : List SV), raws.map (·.version) = vs.map some →
      SortedV ((prev.toList.map (·.v)) ++ vs) → ∀ e,
      checkGoValidityLoop C skip prev raws = .err e → e = ⟨[.invalidLineage]⟩ := by
  induction raws with
  | nil => intro prev vs _ _ e h; simp [checkGoValidityLoop] at h
  | cons s rest ih =>
    intro prev vs hv hs e h
    cases vs with
    | nil => simp at hv
    | cons v vs =>
      simp only [List.map_cons, List.cons.injEq] at hv
      simp only [checkGoValidityLoop, hv.1] at h
      have e1 : checkSchemasOrder prev v = .ok () := by
        rw [checkSchemasOrder_ok]
        intro p hp
        cases hp
        simp only [Option.toList, List.map_cons, List.map_nil, List.cons_append,
          List.nil_append] at hs
        exact (List.pairwise_cons.1 hs).1 v (by simp)
      rw [e1] at h
      simp only [Res.bind_ok] at h
      cases hc : checkCompat C skip prev v s.body with
      | ok u =>
        rw [hc] at h
        simp only [Res.bind_ok] at h
        cases hl : checkGoValidityLoop C skip (some (mkDef s v)) rest with
        | ok l => simp only [mkDef] at hl; rw [hl] at h; simp at h
        | err e' =>
          have := ih (some (mkDef s v)) vs hv.2 (by
            cases prev with
            | none => simpa [mkDef] using hs
            | some p =>
              simp only [Option.toList, List.map_cons, List.map_nil, List.cons_append,
                List.nil_append] at hs
              exact (List.pairwise_cons.1 hs).2) e' hl
          simp only [mkDef] at hl; rw [hl] at h
          simp at h; rw [← h]; exact this
        | panic k => simp only [mkDef] at hl; rw [hl] at h; simp at h
        | fuel => simp only [mkDef] at hl; rw [hl] at h; simp at h
      | err e' =>
        rw [hc] at h
        simp only [Res.bind_err, Res.err.injEq] at h
        subst h
        unfold checkCompat at hc
        cases prev with
        | none => simp at hc
        | some p =>
          simp only at hc
          split at hc
          · simp at hc
          · split at hc
            · simpa using hc.symm
            · split at hc
              · simpa using hc.symm
              · simp at hc
      | panic k => rw [hc] at h; simp at h
      | fuel => rw [hc] at h; simp at h

/-- With concrete versions and the compatibility check skipped, the only possible
error is the order one. -/
theorem checkGoValidityLoop_skip_err (C : Cue V) (raws : List (RawSchema V)) :
    ∀ (prev : Option (SchemaDef V)) (vs : List SV), raws.map (·.version) = vs.map some → ∀ e,
      checkGoValidityLoop C true prev raws = .err e → e = ⟨[.invalidSchemasOrder]⟩ := by
  induction raws with
  | nil => intro prev vs _ e h; simp [checkGoValidityLoop] at h
  | cons s rest ih =>
    intro prev vs hv e h
    cases vs with
    | nil => simp at hv
    | cons v vs =>
      simp only [List.map_cons, List.cons.injEq] at hv
      simp only [checkGoValidityLoop, hv.1] at h
      have e2 : checkCompat C true prev v s.body = .ok () := by
        rw [checkCompat_ok]; intro p _; exact .inl rfl
      cases ho : checkSchemasOrder prev v with
      | ok u =>
        rw [ho, Res.bind_ok, e2, Res.bind_ok] at h
        cases hl : checkGoValidityLoop C true (some (mkDef s v)) rest with
        | ok l => simp only [mkDef] at hl; rw [hl] at h; simp at h
        | err e' =>
          have := ih (some (mkDef s v)) vs hv.2 e' hl
          simp only [mkDef] at hl; rw [hl] at h
          simp at h; rw [← h]; exact this
        | panic k => simp only [mkDef] at hl; rw [hl] at h; simp at h
        | fuel => simp only [mkDef] at hl; rw [hl] at h; simp at h
      | err e' =>
        rw [ho] at h
        simp only [Res.bind_err, Res.err.injEq] at h
        subst h
        unfold checkSchemasOrder at ho
        cases prev with
        | none => simp at ho
        | some p =>
          simp only at ho
          split at ho
          · simpa using ho.symm
          · simp at ho
      | panic k => rw [ho] at h; simp at h
      | fuel => rw [ho] at h; simp at h

/-! ### The lens check -/

theorem checkCueLensLoop_cases (ls : List (RawLens V)) : ∀ (prev : Option LensVersionDef),
    checkCueLensLoop prev ls = .ok () ∨
    checkCueLensLoop prev ls = .err ⟨[.invalidLineage]⟩ ∨
    checkCueLensLoop prev ls = .err ⟨[.invalidLensesOrder]⟩ := by
  induction ls with
  | nil => intro prev; exact .inl rfl
  | cons l rest ih =>
    intro prev
    simp only [checkCueLensLoop, newLensVersionDef]
    cases l.to with
    | none => exact .inr (.inl rfl)
    | some t =>
      cases l.frm with
      | none => exact .inr (.inl rfl)
      | some f =>
        simp only [Res.bind_ok]
        have : doCheck prev ⟨t, f⟩ = .ok () ∨ doCheck prev ⟨t, f⟩ = .err ⟨[.invalidLensesOrder]⟩ := by
          unfold doCheck
          cases prev with
          | none => exact .inl rfl
          | some p => simp only; split <;> [simp; (split <;> simp)]
        rcases this with h | h
        · rw [h]; exact ih _
        · rw [h]; exact .inr (.inr rfl)

theorem checkCueLensLoop_decoded_err (ls : List (RawLens V)) (ds : List LensVersionDef)
    (hd : List.Forall₂ Decodes ls ds) : ∀ (prev : Option LensVersionDef),
    checkCueLensLoop prev ls = .ok () ∨
    checkCueLensLoop prev ls = .err ⟨[.invalidLensesOrder]⟩ := by
  induction hd with
  | nil => intro prev; exact .inl rfl
  | @cons l d ls ds h _ ih =>
    intro prev
    simp only [checkCueLensLoop, newLensVersionDef_ok.2 h, Res.bind_ok]
    have : doCheck prev d = .ok () ∨ doCheck prev d = .err ⟨[.invalidLensesOrder]⟩ := by
      unfold doCheck
      cases prev with
      | none => exact .inl rfl
      | some p => simp only; split <;> [simp; (split <;> simp)]
    rcases this with h | h
    · rw [h]; exact ih _
    · rw [h]; exact .inr rfl

/-- The Go lens check for distinct pairs with mappers: the required pairs are taken away one
by one; what cannot be taken is missing, what stays is superfluous. -/
theorem checkGoLens_key {schlist : List (SchemaDef V)} (hs : SortedV (schlist.map (·.v)))
    (hne : 0 < schlist.length) (implens : List (ImperativeLens V))
    (h : (implens.map pairOf).Nodup ∧ (∀ l ∈ implens, l.mapper ≠ none)) :
    checkGoLensCompleteness schlist implens =
      (match (requiredList (synv0 :: (schlist.map (·.v)).tail)).foldl
          (fun s id => takeLens id s) (implens.map pairOf, []) with
      | (left, missing) =>
        if missing.length > 0 then .err ⟨[.missingLenses]⟩
        else if left.length > 0 then .err ⟨[.erroneousLenses]⟩
        else .ok (buildLensMap implens)) := by
  have hids : implens.map (·.id) = implens.map pairOf := by
    apply List.map_congr_left; intro l _; rfl
  have hreq : reqList synv0 ((schlist.drop 1).map (·.v)) =
      requiredList (synv0 :: (schlist.map (·.v)).tail) := by
    rw [reqList_eq]; simp
  have hc := collectLenses_ok implens [] (implens.map pairOf) (by simp)
  simp only [List.nil_append, hids, and_true] at hc
  unfold checkGoLensCompleteness
  rw [hc.2 h]
  simp only [Res.bind_ok, goDrop]
  rw [if_pos (by omega)]
  simp only [Res.bind_ok, requireLoop_eq, hreq]
  obtain ⟨t, ht⟩ := erroneousReport_ok hs
    ((requiredList (synv0 :: (schlist.map (·.v)).tail)).foldl (fun s id => takeLens id s)
      (implens.map pairOf, [])).1 implens
  simp only [ht, Res.bind_ok]

/-- The Go lens check, case by case, for a sorted non-empty schema list. -/
theorem checkGoLens_cases {schlist : List (SchemaDef V)} (hs : SortedV (schlist.map (·.v)))
    (hne : 0 < schlist.length) (implens : List (ImperativeLens V)) :
    let req := requiredList (synv0 :: (schlist.map (·.v)).tail)
    let ids := implens.map pairOf
    (ids.Nodup ∧ (∀ l ∈ implens, l.mapper ≠ none) →
      (ids.Perm req → checkGoLensCompleteness schlist implens = .ok (buildLensMap implens)) ∧
      (¬ ids.Perm req →
        checkGoLensCompleteness schlist implens = .err ⟨[.missingLenses]⟩ ∨
        checkGoLensCompleteness schlist implens = .err ⟨[.erroneousLenses]⟩) ∧
      (req.Nodup → (∃ id ∈ req, id ∉ ids) →
        checkGoLensCompleteness schlist implens = .err ⟨[.missingLenses]⟩) ∧
      (req.Nodup → (∀ id ∈ req, id ∈ ids) → (∃ id ∈ ids, id ∉ req) →
        checkGoLensCompleteness schlist implens = .err ⟨[.erroneousLenses]⟩)) ∧
    (¬ (ids.Nodup ∧ (∀ l ∈ implens, l.mapper ≠ none)) →
      checkGoLensCompleteness schlist implens = .err ⟨[]⟩) := by
  intro req ids
  have hids : implens.map (·.id) = ids := by
    simp only [ids]; apply List.map_congr_left; intro l _; rfl
  have key : ids.Nodup ∧ (∀ l ∈ implens, l.mapper ≠ none) →
      checkGoLensCompleteness schlist implens =
        (match req.foldl (fun s id => takeLens id s) (ids, []) with
        | (left, missing) =>
          if missing.length > 0 then .err ⟨[.missingLenses]⟩
          else if left.length > 0 then .err ⟨[.erroneousLenses]⟩
          else .ok (buildLensMap implens)) := checkGoLens_key hs hne implens
  constructor
  · intro h
    rw [key h]
    have hperm := takeLens_foldl_perm req ids [] h.1
    simp only [true_and] at hperm
    refine ⟨?_, ?_, ?_, ?_⟩
    · intro hp
      obtain ⟨h1, h2⟩ := hperm.2 hp
      simp [h1, h2]
    · intro hp
      simp only
      split
      · exact .inl rfl
      · rename_i hm
        split
        · exact .inr rfl
        · rename_i hl
          exfalso
          apply hp
          apply hperm.1
          constructor
          · exact List.eq_nil_of_length_eq_zero (by omega)
          · exact List.eq_nil_of_length_eq_zero (by omega)
    · rintro hn ⟨id, h1, h2⟩
      rw [takeLens_foldl_nodup req ids [] hn]
      simp only [List.nil_append]
      rw [if_pos]
      apply List.length_pos_of_mem (a := id)
      simp [h1, h2]
    · rintro hn hall ⟨id, h1, h2⟩
      rw [takeLens_foldl_nodup req ids [] hn]
      simp only [List.nil_append]
      rw [if_neg, if_pos]
      · apply List.length_pos_of_mem (a := id)
        simp [h1, h2]
      · have : req.filter (fun x => decide (x ∉ ids)) = [] := by
          rw [List.filter_eq_nil_iff]
          intro x hx; simp [hall x hx]
        rw [this]; simp
  · intro h
    unfold checkGoLensCompleteness
    rcases collectLenses_cases implens [] with ⟨res, hr⟩ | hr
    · exfalso
      apply h
      have := (collectLenses_ok implens [] res (by simp)).1 hr
      simp only [List.nil_append, hids] at this
      exact ⟨this.1, this.2.1⟩
    · rw [hr]; rfl

theorem mem_requiredList {id : LensID} (vs : List SV) :
    id ∈ requiredList vs ↔ Required vs id := by
  cases vs with
  | nil => simp [requiredList, Required]
  | cons a l => rw [← reqList_eq, mem_reqList]

theorem requiredList_nodup {vs : List SV} (h : StrictV vs) : (requiredList vs).Nodup := by
  cases vs with
  | nil => simp [requiredList]
  | cons a l => rw [← reqList_eq]; exact reqList_nodup l a h

theorem checkLensesOrder_cases {r : RawLineage V} {schlist : List (SchemaDef V)}
    (hs : SortedV (schlist.map (·.v))) (hne : 0 < schlist.length)
    (implens : List (ImperativeLens V)) :
    (∃ m, checkLensesOrder r schlist implens = .ok m) ∨
    (∃ e, checkLensesOrder r schlist implens = .err e ∧
      (e = ⟨[.invalidLineage]⟩ ∨ e = ⟨[.invalidLensesOrder]⟩ ∨ e = ⟨[.missingLenses]⟩ ∨
        e = ⟨[.erroneousLenses]⟩ ∨ e = ⟨[]⟩)) := by
  unfold checkLensesOrder
  split
  · obtain ⟨k1, k2⟩ := checkGoLens_cases hs hne implens
    by_cases hbase : (implens.map pairOf).Nodup ∧ (∀ l ∈ implens, l.mapper ≠ none)
    · obtain ⟨m1, m2, _, _⟩ := k1 hbase
      by_cases hp : (implens.map pairOf).Perm (requiredList (synv0 :: (schlist.map (·.v)).tail))
      · exact .inl ⟨_, m1 hp⟩
      · rcases m2 hp with e | e
        · exact .inr ⟨_, e, by simp⟩
        · exact .inr ⟨_, e, by simp⟩
    · exact .inr ⟨_, k2 hbase, by simp⟩
  · split
    · exact .inl ⟨_, rfl⟩
    · rename_i ls _
      rcases checkCueLensLoop_cases ls none with e | e | e
      · rw [e]; exact .inl ⟨_, rfl⟩
      · rw [e]; exact .inr ⟨_, rfl, by simp⟩
      · rw [e]; exact .inr ⟨_, rfl, by simp⟩

theorem checkExists_cases (r : RawLineage V) :
    checkExists r = .ok () ∨ checkExists r = .err ⟨[.valueNotExist]⟩ := by
  unfold checkExists; cases r.exists_ <;> simp

theorem checkLineageShape_cases (r : RawLineage V) :
    checkLineageShape r = .ok () ∨ ∃ e, checkLineageShape r = .err e ∧
      (r.nameField = .concrete → r.schemasField = .concrete → e = ⟨[.invalidLineage]⟩) := by
  unfold checkLineageShape
  cases r.nameField <;> cases r.schemasField <;> cases r.finalErr <;>
    cases lineageConstraints r <;> simp [checkField]

theorem checkNativeValidity_cases (r : RawLineage V) :
    checkNativeValidity r = .ok () ∨ checkNativeValidity r = .err ⟨[.invalidLineage]⟩ := by
  unfold checkNativeValidity
  cases r.rawErr <;> cases r.uniErr <;> simp

theorem decodes_of_map {ls : List (RawLens V)} : ∀ {ps : List (SV × SV)},
    ls.map (fun l => (l.to, l.frm)) = ps.map (fun p => (some p.1, some p.2)) →
    List.Forall₂ Decodes ls (ps.map fun p => ⟨p.1, p.2⟩) := by
  induction ls with
  | nil => intro ps h; cases ps <;> simp_all
  | cons l ls ih =>
    intro ps h
    cases ps with
    | nil => simp at h
    | cons p ps =>
      simp only [List.map_cons, List.cons.injEq, Prod.mk.injEq] at h
      exact .cons ⟨h.1.1, h.1.2⟩ (ih h.2)

theorem decodes_unique {ls : List (RawLens V)} {ds ds' : List LensVersionDef}
    (h : List.Forall₂ Decodes ls ds) (h' : List.Forall₂ Decodes ls ds') : ds = ds' := by
  induction h generalizing ds' with
  | nil => cases h'; rfl
  | cons h _ ih =>
    cases h' with
    | cons h1 h2 =>
      rw [ih h2]
      congr 1
      rw [← newLensVersionDef_ok] at h h1
      rw [h] at h1
      exact Res.ok.inj h1

theorem cueLenses_decoded {ls : List (RawLens V)} {ds : List LensVersionDef}
    (h : List.Forall₂ Decodes ls ds) :
    (((some ls).getD []).filterMap RawLens.cue?).map (fun l => (l.to, l.frm)) =
      ds.map (fun d => (d.to, d.frm)) := by
  simp only [Option.getD_some]
  induction h with
  | nil => rfl
  | cons h _ ih => simp [RawLens.cue?, h.1, h.2, ih]

theorem buildLensMap_length {ls : List (ImperativeLens V)} (h : ∀ l ∈ ls, l.mapper ≠ none) :
    (buildLensMap ls).length = ls.length := by
  unfold buildLensMap
  induction ls with
  | nil => rfl
  | cons l ls ih =>
    cases hm : l.mapper with
    | none => exact absurd hm (h l (by simp))
    | some m => simp [hm, ih (fun x hx => h x (by simp [hx]))]

theorem buildLensMap_lookup {ls : List (ImperativeLens V)} (hn : (ls.map pairOf).Nodup)
    (h : ∀ l ∈ ls, l.mapper ≠ none) {x : ImperativeLens V} (hx : x ∈ ls) :
    ∃ m, x.mapper = some m ∧ (buildLensMap ls).lookup (pairOf x) = some m := by
  unfold buildLensMap
  induction ls with
  | nil => simp at hx
  | cons l ls ih =>
    simp only [List.map_cons, List.nodup_cons] at hn
    cases hm : l.mapper with
    | none => exact absurd hm (h l (by simp))
    | some m =>
      simp only [List.filterMap_cons, hm, Option.map_some, List.lookup_cons]
      rcases List.mem_cons.1 hx with rfl | hx'
      · refine ⟨m, hm, ?_⟩
        have : (pairOf x == x.id) = true := by simp [pairOf, ImperativeLens.id]
        simp [this]
      · obtain ⟨m', e1, e2⟩ := ih hn.2 (fun y hy => h y (by simp [hy])) hx'
        refine ⟨m', e1, ?_⟩
        have : (pairOf x == l.id) = false := by
          rw [beq_eq_false_iff_ne]
          intro he
          apply hn.1
          have : pairOf l = l.id := rfl
          rw [this, ← he]
          exact List.mem_map_of_mem hx'
        rw [this]; exact e2

end Thema
