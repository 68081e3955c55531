import Verif.Props.BindReport
import Verif.Props.LensText
import Verif.Props.CliGen
import Verif.Props.PrintfExact
import Verif.Spec.BindText

/-!
# What `BindLineage` says about a lineage that it rejects, and where
-/

namespace Thema.Props

open Thema Thema.Spec Thema.Printf

variable {V π : Type} {C : Cue V} {skip : Bool}

/-- The schema that is checked against, after the schemas `done`. -/
private def LastIs (done : List (RawSchema V)) (prev : Option (SchemaDef V)) : Prop :=
  (done = [] ∧ prev = none) ∨ ∃ d t u, done = d ++ [t] ∧ t.version = some u ∧
    prev = some (readAs t u)

private theorem less_false_iff {a b : SV} : a.less b = false ↔ ¬ Before a b := by
  rw [← less_iff_before, Bool.not_eq_true]

private theorem schemaProblem_iff_from (rest : List (RawSchema V)) :
    ∀ (done : List (RawSchema V)) (prev : Option (SchemaDef V)), LastIs done prev →
      ∀ k p, schemaProblem C skip prev rest = some (k, p) ↔
        (∀ i, done.length ≤ i → i < done.length + k → Fits C skip (done ++ rest) i) ∧
          Misfit C skip (done ++ rest) (done.length + k) p := by
  induction rest with
  | nil =>
    intro done prev _ k p
    simp only [schemaProblem, List.append_nil, reduceCtorEq, false_iff, not_and]
    intro _ hm
    cases p <;> simp [Misfit] at hm
  | cons s rest ih =>
    intro done prev hl k p
    have hs : (done ++ s :: rest)[done.length]? = some s := by simp
    have hbad : ∀ q, Misfit C skip (done ++ s :: rest) done.length q →
        ¬ Fits C skip (done ++ s :: rest) done.length := by
      intro q hq ⟨s', v, h1, h2, h3⟩
      rw [hs] at h1
      cases h1
      cases q with
      | versionNotConcrete =>
        obtain ⟨s', a1, a2⟩ := hq
        rw [hs] at a1
        cases a1
        rw [h2] at a2
        cases a2
      | notGreater v' u =>
        obtain ⟨j, s', t, a0, a1, a2, a3, a4, a5⟩ := hq
        rw [hs] at a2
        cases a2
        rw [h2] at a3
        cases a3
        exact (h3 j t u a0 a1 a4).1 a5
      | mustBreak v' u x =>
        obtain ⟨j, s', t, a0, a1, a2, a3, a4, a5, a6, a7, a8, a9⟩ := hq
        rw [hs] at a2
        cases a2
        rw [h2] at a3
        cases a3
        exact ((h3 j t u a0 a1 a4).2 a6).2 a8 a7
      | notCompatible v' u =>
        obtain ⟨j, s', t, a0, a1, a2, a3, a4, a5, a6, a7, a8⟩ := hq
        rw [hs] at a2
        cases a2
        rw [h2] at a3
        cases a3
        rw [((h3 j t u a0 a1 a4).2 a6).1 a7] at a8
        cases a8
    have huniq : ∀ q q', Misfit C skip (done ++ s :: rest) done.length q →
        Misfit C skip (done ++ s :: rest) done.length q' → q = q' := by
      intro q q' h h'
      cases q <;> cases q' <;> simp only [Misfit] at h h' <;> grind
    -- What is said if this schema is the one
    have stop : ∀ q, Misfit C skip (done ++ s :: rest) done.length q →
        (some (0, q) = some (k, p) ↔
          (∀ i, done.length ≤ i → i < done.length + k → Fits C skip (done ++ s :: rest) i) ∧
            Misfit C skip (done ++ s :: rest) (done.length + k) p) := by
      intro q hq
      constructor
      · intro h
        cases h
        exact ⟨fun i h1 h2 => by omega, hq⟩
      · rintro ⟨h1, h2⟩
        cases k with
        | zero => rw [huniq q p hq h2]
        | succ k => exact absurd (h1 _ (Nat.le_refl _) (by omega)) (hbad q hq)
    -- What is said if it fits
    have go : ∀ v, s.version = some v → Fits C skip (done ++ s :: rest) done.length →
        ((schemaProblem C skip (some (readAs s v)) rest).map (fun p => (p.1 + 1, p.2)) = some (k, p) ↔
          (∀ i, done.length ≤ i → i < done.length + k → Fits C skip (done ++ s :: rest) i) ∧
            Misfit C skip (done ++ s :: rest) (done.length + k) p) := by
      intro v hv hf
      have := ih (done ++ [s]) (some (readAs s v)) (.inr ⟨done, s, v, rfl, hv, rfl⟩)
      simp only [List.append_assoc, List.singleton_append, List.length_append, List.length_cons,
        List.length_nil, Nat.zero_add] at this
      cases k with
      | zero =>
        constructor
        · intro h
          cases h' : schemaProblem C skip (some (readAs s v)) rest with
          | none => rw [h'] at h; cases h
          | some q => rw [h'] at h; simp at h
        · rintro ⟨_, h2⟩
          exact absurd hf (hbad p h2)
      | succ k =>
        have h2 := this k p
        rw [show done.length + 1 + k = done.length + (k + 1) by omega] at h2
        constructor
        · intro h
          cases h' : schemaProblem C skip (some (readAs s v)) rest with
          | none => rw [h'] at h; cases h
          | some q =>
            rw [h'] at h
            simp only [Option.map_some, Option.some.injEq, Prod.mk.injEq, Nat.add_right_cancel_iff] at h
            obtain ⟨a, b⟩ := h2.1 (by rw [h', ← h.1, ← h.2])
            refine ⟨fun i hi hj => ?_, b⟩
            rcases Nat.eq_or_lt_of_le hi with he | hlt
            · rw [← he]; exact hf
            · exact a i hlt hj
        · rintro ⟨a, b⟩
          rw [h2.2 ⟨fun i hi hj => a i (by omega) hj, b⟩]
          rfl
    cases hv : s.version with
    | none =>
      have : schemaProblem C skip prev (s :: rest) = some (0, .versionNotConcrete) := by
        simp [schemaProblem, hv]
      rw [this]
      exact stop _ ⟨s, hs, hv⟩
    | some v =>
      rcases hl with ⟨rfl, rfl⟩ | ⟨d, t, u, rfl, ht, rfl⟩
      · have : schemaProblem C skip none (s :: rest) =
            (schemaProblem C skip (some (readAs s v)) rest).map fun p => (p.1 + 1, p.2) := by
          simp [schemaProblem, hv, readAs]
        rw [this]
        exact go v hv ⟨s, v, hs, hv, fun j t u h => by simp at h⟩
      · have htj : ((d ++ [t]) ++ s :: rest)[d.length]? = some t := by simp
        have hlen : (d ++ [t]).length = d.length + 1 := by simp
        by_cases hb : Before v u
        · have : schemaProblem C skip (some (readAs t u)) (s :: rest) =
              some (0, .notGreater v u) := by
            simp [schemaProblem, hv, readAs, less_iff_before.2 hb]
          rw [this]
          exact stop _ ⟨d.length, s, t, hlen, htj, hs, hv, ht, hb⟩
        · have hb' := less_false_iff.2 hb
          by_cases hc : skip = false ∧ v.minor = 0 ∧ C.subsumeAll s.body t.body = true
          · have : schemaProblem C skip (some (readAs t u)) (s :: rest) =
                some (0, .mustBreak v u ⟨u.major, u.minor + 1⟩) := by
              simp [schemaProblem, hv, readAs, hb', hc]
            rw [this]
            exact stop _ ⟨d.length, s, t, hlen, htj, hs, hv, ht, hb, hc.1, hc.2.1, hc.2.2, rfl⟩
          · by_cases hd : skip = false ∧ v.minor ≠ 0 ∧ C.subsumeAll s.body t.body = false
            · have : schemaProblem C skip (some (readAs t u)) (s :: rest) =
                  some (0, .notCompatible v u) := by
                simp [schemaProblem, hv, readAs, hb', hd]
              rw [this]
              exact stop _ ⟨d.length, s, t, hlen, htj, hs, hv, ht, hb, hd⟩
            · have : schemaProblem C skip (some (readAs t u)) (s :: rest) =
                  (schemaProblem C skip (some (readAs s v)) rest).map fun p => (p.1 + 1, p.2) := by
                refine schemaProblem_cons _ s rest hv ?_ ?_
                · rw [checkSchemasOrder_ok]
                  intro q hq
                  cases hq
                  exact hb'
                · rw [checkCompat_ok]
                  intro q hq
                  cases hq
                  show skip = true ∨ (v.minor ≠ 0 ↔ C.subsumeAll s.body t.body = true)
                  grind
              rw [this]
              refine go v hv ⟨s, v, hs, hv, fun j t' u' h1 h2 h3 => ?_⟩
              have hj : j = d.length := by omega
              subst hj
              rw [htj] at h2
              cases h2
              rw [ht] at h3
              cases h3
              refine ⟨hb, fun hsk => ?_⟩
              cases hs' : C.subsumeAll s.body t.body <;> by_cases h0 : v.minor = 0 <;> simp_all

/-- **C209**.  The error about schemas is about the first one that does not fit, and says what is
wrong with it. -/
theorem C209_schemas_iff (raws : List (RawSchema V)) (k : Nat) (p : SchemaProblem) :
    schemaProblem C skip none raws = some (k, p) ↔
      (∀ i, i < k → Fits C skip raws i) ∧ Misfit C skip raws k p := by
  have := schemaProblem_iff_from (C := C) (skip := skip) raws [] none (.inl ⟨rfl, rfl⟩) k p
  simpa using this

private def LastLensIs (done : List (RawLens V)) (prev : Option LensVersionDef) : Prop :=
  (done = [] ∧ prev = none) ∨ ∃ d l t f, done = d ++ [l] ∧ l.to = some t ∧ l.frm = some f ∧
    prev = some ⟨t, f⟩

private theorem lensProblem_iff_from (rest : List (RawLens V)) :
    ∀ (done : List (RawLens V)) (prev : Option LensVersionDef), LastLensIs done prev →
      ∀ k p, lensProblem prev rest = some (k, p) ↔
        (∀ i, done.length ≤ i → i < done.length + k → LensFits (done ++ rest) i) ∧
          LensMisfit (done ++ rest) (done.length + k) p := by
  induction rest with
  | nil =>
    intro done prev _ k p
    simp only [lensProblem, List.append_nil, reduceCtorEq, false_iff, not_and]
    intro _ hm
    cases p <;> simp [LensMisfit] at hm
  | cons s rest ih =>
    intro done prev hl k p
    have hs : (done ++ s :: rest)[done.length]? = some s := by simp
    have hbad : ∀ q, LensMisfit (done ++ s :: rest) done.length q →
        ¬ LensFits (done ++ s :: rest) done.length := by
      intro q hq ⟨s', t, f, h1, h2, h3, h4⟩
      rw [hs] at h1
      cases h1
      cases q <;> simp only [LensMisfit] at hq <;> grind
    have huniq : ∀ q q', LensMisfit (done ++ s :: rest) done.length q →
        LensMisfit (done ++ s :: rest) done.length q' → q = q' := by
      intro q q' h h'
      cases q <;> cases q' <;> simp only [LensMisfit] at h h' <;> grind
    have stop : ∀ q, LensMisfit (done ++ s :: rest) done.length q →
        (some (0, q) = some (k, p) ↔
          (∀ i, done.length ≤ i → i < done.length + k → LensFits (done ++ s :: rest) i) ∧
            LensMisfit (done ++ s :: rest) (done.length + k) p) := by
      intro q hq
      constructor
      · intro h
        cases h
        exact ⟨fun i h1 h2 => by omega, hq⟩
      · rintro ⟨h1, h2⟩
        cases k with
        | zero => rw [huniq q p hq h2]
        | succ k => exact absurd (h1 _ (Nat.le_refl _) (by omega)) (hbad q hq)
    have go : ∀ t f, s.to = some t → s.frm = some f → LensFits (done ++ s :: rest) done.length →
        ((lensProblem (some ⟨t, f⟩) rest).map (fun p => (p.1 + 1, p.2)) = some (k, p) ↔
          (∀ i, done.length ≤ i → i < done.length + k → LensFits (done ++ s :: rest) i) ∧
            LensMisfit (done ++ s :: rest) (done.length + k) p) := by
      intro t f ht hfr hf
      have := ih (done ++ [s]) (some ⟨t, f⟩) (.inr ⟨done, s, t, f, rfl, ht, hfr, rfl⟩)
      simp only [List.append_assoc, List.singleton_append, List.length_append, List.length_cons,
        List.length_nil, Nat.zero_add] at this
      cases k with
      | zero =>
        constructor
        · intro h
          cases h' : lensProblem (some ⟨t, f⟩) rest with
          | none => rw [h'] at h; cases h
          | some q => rw [h'] at h; simp at h
        · rintro ⟨_, h2⟩
          exact absurd hf (hbad p h2)
      | succ k =>
        have h2 := this k p
        rw [show done.length + 1 + k = done.length + (k + 1) by omega] at h2
        constructor
        · intro h
          cases h' : lensProblem (some ⟨t, f⟩) rest with
          | none => rw [h'] at h; cases h
          | some q =>
            rw [h'] at h
            simp only [Option.map_some, Option.some.injEq, Prod.mk.injEq, Nat.add_right_cancel_iff] at h
            obtain ⟨a, b⟩ := h2.1 (by rw [h', ← h.1, ← h.2])
            refine ⟨fun i hi hj => ?_, b⟩
            rcases Nat.eq_or_lt_of_le hi with he | hlt
            · rw [← he]; exact hf
            · exact a i hlt hj
        · rintro ⟨a, b⟩
          rw [h2.2 ⟨fun i hi hj => a i (by omega) hj, b⟩]
          rfl
    cases ht : s.to with
    | none =>
      have : lensProblem prev (s :: rest) = some (0, .undecodable "to".toList) := by
        simp [lensProblem, ht]
      rw [this]
      exact stop _ ⟨s, hs, .inl ⟨rfl, ht⟩⟩
    | some t =>
      cases hfr : s.frm with
      | none =>
        have : lensProblem prev (s :: rest) = some (0, .undecodable "from".toList) := by
          simp [lensProblem, ht, hfr]
        rw [this]
        exact stop _ ⟨s, hs, .inr ⟨rfl, by simp [ht], hfr⟩⟩
      | some f =>
        rcases hl with ⟨rfl, rfl⟩ | ⟨d, m, t', f', rfl, hmt, hmf, rfl⟩
        · have : lensProblem none (s :: rest) =
              (lensProblem (some ⟨t, f⟩) rest).map fun p => (p.1 + 1, p.2) := by
            simp [lensProblem, ht, hfr]
          rw [this]
          exact go t f ht hfr ⟨s, t, f, hs, ht, hfr, fun j m _ _ h => by simp at h⟩
        · have htj : ((d ++ [m]) ++ s :: rest)[d.length]? = some m := by simp
          have hlen : (d ++ [m]).length = d.length + 1 := by simp
          by_cases hb : Before t t' ∨ t = t' ∧ Before f f'
          · have : lensProblem (some ⟨t', f'⟩) (s :: rest) = some (0, .notGreater t f t' f') := by
              have : (t.less t' || (decide (t' = t) && f.less f')) = true := by
                simp only [Bool.or_eq_true, Bool.and_eq_true, decide_eq_true_eq, less_iff_before]
                exact hb.imp id fun h => ⟨h.1.symm, h.2⟩
              simp [lensProblem, ht, hfr, this]
            rw [this]
            exact stop _ ⟨d.length, s, m, hlen, htj, hs, ht, hfr, hmt, hmf, hb⟩
          · have : lensProblem (some ⟨t', f'⟩) (s :: rest) =
                (lensProblem (some ⟨t, f⟩) rest).map fun p => (p.1 + 1, p.2) := by
              have : (t.less t' || (decide (t' = t) && f.less f')) = false := by
                rw [← Bool.not_eq_true]
                simp only [Bool.or_eq_true, Bool.and_eq_true, decide_eq_true_eq, less_iff_before]
                exact fun h => hb (h.imp id fun h => ⟨h.1.symm, h.2⟩)
              simp only [lensProblem, ht, hfr, this]
              rfl
            rw [this]
            refine go t f ht hfr ⟨s, t, f, hs, ht, hfr, fun j m' t'' f'' h1 h2 h3 h4 => ?_⟩
            have hj : j = d.length := by omega
            subst hj
            rw [htj] at h2
            cases h2
            rw [hmt] at h3
            cases h3
            rw [hmf] at h4
            cases h4
            exact ⟨fun h => hb (.inl h), fun h1 h2 => hb (.inr ⟨h1, h2⟩)⟩

/-- **C209**.  The error about lenses in CUE is about the first one that does not fit, and says what is
wrong with it. -/
theorem C209_lenses_iff (ls : List (RawLens V)) (k : Nat) (p : LensProblem) :
    lensProblem none ls = some (k, p) ↔ (∀ i, i < k → LensFits ls i) ∧ LensMisfit ls k p := by
  have := lensProblem_iff_from ls [] none (.inl ⟨rfl, rfl⟩) k p
  simpa using this

/-! ### Agreement with `bindLineage` -/

private theorem checkField_report (S : Source π) (n : Str) (f : FieldState) :
    (fieldReport S n f = none ∧ checkField f = .ok ()) ∨
      ∃ e x, fieldReport S n f = some x ∧ checkField f = .err e := by
  cases f
  · exact .inr ⟨_, _, rfl, rfl⟩
  · exact .inr ⟨_, _, rfl, rfl⟩
  · exact .inl ⟨rfl, rfl⟩

private theorem cueLoop_problem (ls : List (RawLens V)) : ∀ prev,
    (lensProblem prev ls = none ∧ checkCueLensLoop prev ls = .ok ()) ∨
      ∃ x e, lensProblem prev ls = some x ∧ checkCueLensLoop prev ls = .err e := by
  induction ls with
  | nil => intro prev; exact .inl ⟨rfl, rfl⟩
  | cons l ls ih =>
    intro prev
    cases ht : l.to with
    | none => exact .inr ⟨_, _, by simp only [lensProblem, ht]; rfl,
        by simp only [checkCueLensLoop, newLensVersionDef, ht]; rfl⟩
    | some t =>
      cases hf : l.frm with
      | none => exact .inr ⟨_, _, by simp only [lensProblem, ht, hf]; rfl,
          by simp only [checkCueLensLoop, newLensVersionDef, ht, hf]; rfl⟩
      | some f =>
        simp only [lensProblem, checkCueLensLoop, newLensVersionDef, ht, hf, Res.bind_ok]
        have hn := ih (some ⟨t, f⟩)
        cases prev with
        | none =>
          simp only [doCheck, Res.bind_ok]
          rcases hn with ⟨h1, h2⟩ | ⟨x, e, h1, h2⟩
          · exact .inl ⟨by rw [h1]; rfl, h2⟩
          · exact .inr ⟨_, _, by rw [h1]; rfl, h2⟩
        | some p =>
          simp only [doCheck]
          by_cases h1 : t.less p.to = true
          · exact .inr ⟨_, _, by simp only [h1]; rfl, by simp only [h1]; rfl⟩
          · by_cases h2 : (decide (p.to = t) && f.less p.frm) = true
            · exact .inr ⟨_, _, by simp only [h1, h2]; rfl, by simp only [h1, h2]; rfl⟩
            · simp only [h1, h2]
              rcases hn with ⟨h1, h2⟩ | ⟨x, e, h1, h2⟩
              · exact .inl ⟨by rw [h1]; rfl, h2⟩
              · exact .inr ⟨_, _, by rw [h1]; rfl, h2⟩

private theorem loop_versions (raws : List (RawSchema V)) : ∀ prev l,
    checkGoValidityLoop C skip prev raws = .ok l →
      l.map (·.v) = raws.filterMap (·.version) := by
  induction raws with
  | nil => intro prev l h; cases h; rfl
  | cons s rest ih =>
    intro prev l h
    by_cases hp : Passes C skip prev s
    · obtain ⟨v, hv, ho, hc⟩ := hp
      rw [loop_cons_ok _ _ _ hv ho hc] at h
      obtain ⟨l', h1, h2⟩ := Res.bind_eq_ok.1 h
      cases h2
      simp [hv, ih _ _ h1, readAs]
    · obtain ⟨e, he⟩ := loop_cons_bad prev s rest hp
      rw [he] at h
      cases h

private theorem loop_ne_nil {raws : List (RawSchema V)} {l}
    (h : checkGoValidityLoop C skip none raws = .ok l) (hr : raws ≠ []) : l ≠ [] := by
  rintro rfl
  obtain ⟨hf, _⟩ := (checkGoValidityLoop_ok raws none []).1 h
  have := forall₂_length hf
  simp only [List.length_nil] at this
  exact hr (List.length_eq_zero_iff.1 (by omega))

private theorem goIdx_plain {α : Type} (l : List α) (i : Nat) :
    (∀ e, goIdx l i ≠ .err e) ∧ goIdx l i ≠ .fuel := by
  unfold goIdx
  split <;> simp

private theorem erroneousReason_plain (vs : List SV) (id : LensID) :
    (∀ e, erroneousReason vs id ≠ .err e) ∧ erroneousReason vs id ≠ .fuel := by
  have h1 := goIdx_plain vs (searchSynv vs id.frm - 1)
  have h2 := goIdx_plain vs (searchSynv vs id.frm + 1)
  unfold erroneousReason
  repeat' split
  all_goals first
    | (simp; done)
    | (cases hx : goIdx vs (searchSynv vs id.frm - 1) <;> simp_all [Res.map, Res.bind]; done)
    | (cases hx : goIdx vs (searchSynv vs id.frm + 1) <;> simp_all [Res.map, Res.bind])

private theorem erroneousReport_plain (vs : List SV) (left : List LensID)
    (ls : List (ImperativeLens V)) :
    (∀ e, erroneousReport vs left ls ≠ .err e) ∧ erroneousReport vs left ls ≠ .fuel := by
  induction ls with
  | nil => simp [erroneousReport]
  | cons l ls ih =>
    unfold erroneousReport
    split
    · exact ih
    · have := erroneousReason_plain vs l.id
      cases hx : erroneousReason vs l.id <;> cases hy : erroneousReport vs left ls <;>
        simp_all [Res.bind]

private theorem goLensProblem_plain (vs : List SV) (ls : List (ImperativeLens V)) :
    (∀ e, goLensProblem vs ls ≠ .err e) ∧ goLensProblem vs ls ≠ .fuel := by
  unfold goLensProblem
  have h := fun left => erroneousReport_plain vs left ls
  repeat' split
  all_goals first
    | (simp; done)
    | (rename_i left missing _ _ _
       have := h left
       cases hx : erroneousReport vs left ls <;> simp_all [Res.map])

/-- Two outcomes are of the same kind. -/
private def Alike : Res (Said π) → Res (Lineage V) → Prop
  | .ok .nothing, .ok _ => True
  | .ok .notExist, .err _ => True
  | .ok .cue, .err _ => True
  | .ok (.report _), .err _ => True
  | .panic k, .panic k' => k = k'
  | _, _ => False

private theorem alike (force : Bool) (r : RawLineage V) (opts : List (BindOption V))
    (S : Source π) : Alike (bindSays C force r opts S) (bindLineage C force r opts) := by
  unfold bindSays bindLineage
  simp only [checkExists]
  cases hx : r.exists_ with
  | false => simp [Res.bind, Alike]
  | true =>
    simp only [Bool.not_true, Bool.false_eq_true, if_false, Res.bind_ok, checkLineageShape]
    rcases checkField_report S "name".toList r.nameField with ⟨h1, h2⟩ | ⟨e, x, h1, h2⟩
    · rw [h1, h2]
      simp only [Res.bind_ok]
      rcases checkField_report S "schemas".toList r.schemasField with ⟨h3, h4⟩ | ⟨e, x, h3, h4⟩
      · rw [h3, h4]
        simp only [Res.bind_ok]
        by_cases h5 : (r.finalErr || !lineageConstraints r) = true
        · simp only [h5, Bool.true_or, if_true, Res.bind]
          trivial
        · simp only [h5, Bool.false_or, Bool.false_eq_true, if_false, Res.bind_ok,
            checkNativeValidity]
          have hne : r.schemas ≠ [] := by
            intro h
            simp [lineageConstraints, h] at h5
          cases h6 : r.rawErr with
          | true => simp only [Bool.true_or, if_true, Res.bind]; trivial
          | false =>
            cases h7 : r.uniErr with
            | true => simp only [Bool.false_or, if_true, Bool.false_eq_true, if_false, Res.bind]; trivial
            | false =>
              simp only [Bool.or_false, Bool.false_eq_true, if_false, Res.bind_ok, checkGoValidity]
              rcases schemaProblem_split (C := C) (skip := (bindConfig force opts).skipbuggychecks)
                r.schemas none with ⟨h1, l, h2⟩ | ⟨pre, s, post, l, p, _, h2, ⟨e, h3⟩, _, _⟩
              · rw [h1, h2]
                simp only [Res.bind_ok, lensesSay, checkLensesOrder]
                by_cases hi : (bindConfig force opts).implens.length > 0
                · simp only [hi, if_true]
                  rw [C201_agrees (loop_ne_nil h2 hne), loop_versions _ _ _ h2]
                  cases hg : goLensProblem (r.schemas.filterMap (·.version))
                      (bindConfig force opts).implens with
                  | ok o => cases o <;> simp [Res.bind, Res.map, Alike]
                  | panic k => simp [Res.bind, Res.map, Alike]
                  | err e => exact absurd hg ((goLensProblem_plain _ _).1 e)
                  | fuel => exact absurd hg (goLensProblem_plain _ _).2
                · simp only [hi, if_false]
                  cases hl : r.lenses with
                  | none => simp [Res.bind, Alike]
                  | some ls =>
                    rcases cueLoop_problem ls none with ⟨h1, h2⟩ | ⟨x, e, h1, h2⟩
                    · simp [h1, h2, Res.bind, Res.map, Alike]
                    · obtain ⟨k, p⟩ := x
                      simp [h1, h2, Res.bind, Res.map, Alike]
              · rw [h2, h3]
                simp only [Res.bind]
                trivial
      · rw [h3, h4]
        simp only [Res.bind]
        trivial
    · rw [h1, h2]
      simp only [Res.bind]
      trivial

/-- **C209**.  What is said here belongs to the outcome of `BindLineage`: it says nothing exactly if it
returns a lineage, and something exactly if it returns an error. -/
theorem C209_agrees (force : Bool) (r : RawLineage V) (opts : List (BindOption V))
    (S : Source π) :
    (bindSays C force r opts S = .ok .nothing ↔ ∃ L, bindLineage C force r opts = .ok L) ∧
    ((∃ x, bindSays C force r opts S = .ok x ∧ x ≠ .nothing) ↔
      ∃ e, bindLineage C force r opts = .err e) ∧
    (∀ k, bindSays C force r opts S = .panic k ↔ bindLineage C force r opts = .panic k) ∧
    bindSays C force r opts S ≠ .fuel := by
  have h := alike (C := C) force r opts S
  cases h1 : bindSays C force r opts S with
  | ok x => cases x <;> cases h2 : bindLineage C force r opts <;> simp_all [Alike]
  | err e => simp [h1, Alike] at h
  | panic k => cases h2 : bindLineage C force r opts <;> simp_all [Alike]
  | fuel => simp [h1, Alike] at h

theorem bindLineage_ne_fuel (force : Bool) (r : RawLineage V) (opts : List (BindOption V))
    (S : Source π) : bindLineage C force r opts ≠ .fuel := by
  have h := alike (C := C) force r opts S
  intro h2
  rw [h2] at h
  cases h1 : bindSays C force r opts S with
  | ok x => cases x <;> simp [h1, Alike] at h
  | _ => simp [h1, Alike] at h

private theorem fits_all_iff (raws : List (RawSchema V)) :
    schemaProblem C skip none raws = none ↔ ∀ i, i < raws.length → Fits C skip raws i := by
  constructor
  · intro h i hi
    by_contra hf
    -- the first that does not fit
    have : ∃ k, k < raws.length ∧ (∀ i, i < k → Fits C skip raws i) ∧ ¬ Fits C skip raws k := by
      induction i using Nat.strongRecOn with
      | ind i ih =>
        by_cases hb : ∃ j, j < i ∧ ¬ Fits C skip raws j
        · obtain ⟨j, hj, hn⟩ := hb
          exact ih j hj (by omega) hn
        · exact ⟨i, hi, fun j hj => by_contra fun hn => hb ⟨j, hj, hn⟩, hf⟩
    obtain ⟨k, hk, hbef, hn⟩ := this
    have hm : ∃ p, Misfit C skip raws k p := by
      by_contra hno
      apply hn
      have hs : raws[k]? = some raws[k] := List.getElem?_eq_getElem hk
      cases hv : raws[k].version with
      | none => exact absurd ⟨.versionNotConcrete, _, hs, hv⟩ hno
      | some v =>
        refine ⟨_, v, hs, hv, fun j t u h1 h2 h3 => ⟨fun hb => ?_, fun hsk => ?_⟩⟩
        · exact hno ⟨.notGreater v u, j, _, t, h1, h2, hs, hv, h3, hb⟩
        · by_cases hb : Before v u
          · exact absurd ⟨.notGreater v u, j, _, t, h1, h2, hs, hv, h3, hb⟩ hno
          · cases hsub : C.subsumeAll raws[k].body t.body with
            | true =>
              refine ⟨fun _ => rfl, fun _ h0 => hno ⟨.mustBreak v u ⟨u.major, u.minor + 1⟩, j, _, t,
                h1, h2, hs, hv, h3, hb, hsk, h0, hsub, rfl⟩⟩
            | false =>
              refine ⟨fun h0 => absurd ⟨.notCompatible v u, j, _, t, h1, h2, hs, hv, h3, hb, hsk, h0,
                hsub⟩ hno, fun h => by cases h⟩
    obtain ⟨p, hp⟩ := hm
    rw [(C209_schemas_iff raws k p).2 ⟨hbef, hp⟩] at h
    cases h
  · intro h
    cases hx : schemaProblem C skip none raws with
    | none => rfl
    | some x =>
      obtain ⟨k, p⟩ := x
      obtain ⟨h1, h2⟩ := (C209_schemas_iff raws k p).1 hx
      exfalso
      have hk : k < raws.length := by
        by_contra hk
        have : raws[k]? = none := List.getElem?_eq_none (by omega)
        cases p <;> simp [Misfit, this] at h2
      obtain ⟨s, v, a1, a2, a3⟩ := h k hk
      cases p <;> simp only [Misfit] at h2 <;> grind

/-- **C209**.  Which errors `BindLineage` makes itself, with which position and text: `name`
or `schemas` is missing or not concrete; or, with a value that CUE has nothing against, a schema is
the first that does not fit; or all schemas fit, and a lens in CUE, or something about the Go
migrations if there are any, does not. -/
theorem C209_report_iff (force : Bool) (r : RawLineage V) (opts : List (BindOption V))
    (S : Source π) (hskip : skip = false ↔ ChecksOn force opts) (rep : Report π) :
    bindSays C force r opts S = .ok (.report rep) ↔
      (r.exists_ = true ∧ r.nameField = .absent ∧
        rep = ⟨S.pos .lineage, "not a lineage, missing #Lineage.name".toList⟩) ∨
      (r.exists_ = true ∧ r.nameField = .nonConcrete ∧
        rep = ⟨S.pos (.field "name".toList),
          "invalid lineage, #Lineage.name must be concrete".toList⟩) ∨
      (r.exists_ = true ∧ r.nameField = .concrete ∧ r.schemasField = .absent ∧
        rep = ⟨S.pos .lineage, "not a lineage, missing #Lineage.schemas".toList⟩) ∨
      (r.exists_ = true ∧ r.nameField = .concrete ∧ r.schemasField = .nonConcrete ∧
        rep = ⟨S.pos (.field "schemas".toList),
          "invalid lineage, #Lineage.schemas must be concrete".toList⟩) ∨
      (Sound r ∧ ∃ k p, (∀ i, i < k → Fits C skip r.schemas i) ∧ Misfit C skip r.schemas k p ∧
        rep = schemaReport S k p) ∨
      (Sound r ∧ (∀ i, i < r.schemas.length → Fits C skip r.schemas i) ∧ goLenses opts = [] ∧
        ∃ ls k p, r.lenses = some ls ∧ (∀ i, i < k → LensFits ls i) ∧ LensMisfit ls k p ∧
          rep = lensReport S k p) ∨
      (Sound r ∧ (∀ i, i < r.schemas.length → Fits C skip r.schemas i) ∧ goLenses opts ≠ [] ∧
        ∃ p, goLensProblem (r.schemas.filterMap (·.version)) (goLenses opts) = .ok (some p) ∧
          rep = ⟨none, p.str⟩) := by
  have hsk : (bindConfig force opts).skipbuggychecks = skip := by
    rw [checksOn_iff] at hskip
    cases h1 : (bindConfig force opts).skipbuggychecks <;> cases skip <;> simp_all
  unfold bindSays
  simp only [hsk, bindConfig_implens]
  cases hx : r.exists_ with
  | false => simp [Sound, hx]
  | true =>
    cases hn : r.nameField with
    | absent => simp [fieldReport, Sound, hn, mkerror]; exact eq_comm
    | nonConcrete => simp [fieldReport, Sound, hn, mkerror]; exact eq_comm
    | concrete =>
      cases hsf : r.schemasField with
      | absent => simp [fieldReport, Sound, hsf, mkerror]; exact eq_comm
      | nonConcrete => simp [fieldReport, Sound, hsf, mkerror]; exact eq_comm
      | concrete =>
        simp only [fieldReport, Bool.not_true, Bool.false_eq_true, if_false]
        by_cases h5 : (r.finalErr || !lineageConstraints r || r.rawErr || r.uniErr) = true
        · have hS : ¬ Sound r := by
            rintro ⟨_, _, _, h1, h2, h3, h4⟩
            simp [h1, h2, h3, h4] at h5
          simp [h5, hS]
        · have hS : Sound r := by
            simp only [Bool.or_eq_true, Bool.not_eq_true', not_or, Bool.not_eq_true,
              Bool.not_eq_false] at h5
            exact ⟨hx, hn, hsf, h5.1.1.1, h5.1.1.2, h5.1.2, h5.2⟩
          simp only [h5, if_false, reduceCtorEq, false_and, and_false, false_or, hS, true_and]
          cases hp : schemaProblem C skip none r.schemas with
          | some x =>
            obtain ⟨k, p⟩ := x
            have hk := (C209_schemas_iff r.schemas k p).1 hp
            have hnot : ¬ ∀ i, i < r.schemas.length → Fits C skip r.schemas i := by
              rw [← fits_all_iff, hp]; simp
            constructor
            · intro h
              cases h
              exact .inl ⟨k, p, hk.1, hk.2, rfl⟩
            · rintro (⟨k', p', h1, h2, rfl⟩ | ⟨h, _⟩ | ⟨h, _⟩)
              · have := (C209_schemas_iff r.schemas k' p').2 ⟨h1, h2⟩
                rw [hp] at this
                cases this
                rfl
              · exact absurd h hnot
              · exact absurd h hnot
          | none =>
            have hall := (fits_all_iff _).1 hp
            have hno : ∀ k p, ¬ ((∀ i, i < k → Fits C skip r.schemas i) ∧
                Misfit C skip r.schemas k p) := by
              intro k p h
              rw [← C209_schemas_iff, hp] at h
              cases h
            simp only [lensesSay]
            constructor
            · intro h
              right
              by_cases hg : goLenses opts = []
              · left
                refine ⟨hall, hg, ?_⟩
                simp only [hg, List.length_nil, Nat.lt_irrefl, if_false, gt_iff_lt] at h
                cases hl : r.lenses with
                | none => rw [hl] at h; cases h
                | some ls =>
                  rw [hl] at h
                  simp only at h
                  cases hq : lensProblem none ls with
                  | none => rw [hq] at h; cases h
                  | some x =>
                    obtain ⟨k, p⟩ := x
                    rw [hq] at h
                    cases h
                    obtain ⟨b1, b2⟩ := (C209_lenses_iff ls k p).1 hq
                    exact ⟨ls, k, p, rfl, b1, b2, rfl⟩
              · right
                refine ⟨hall, hg, ?_⟩
                have : (goLenses opts).length > 0 := List.length_pos_iff.2 hg
                simp only [this, if_true] at h
                cases hq : goLensProblem (r.schemas.filterMap (·.version)) (goLenses opts) with
                | ok o =>
                  rw [hq] at h
                  cases o with
                  | none => simp [Res.map, Res.bind] at h
                  | some p =>
                    simp only [Res.map, Res.bind, Res.ok.injEq, Said.report.injEq] at h
                    exact ⟨p, rfl, h.symm⟩
                | err e => rw [hq] at h; simp [Res.map, Res.bind] at h
                | panic k => rw [hq] at h; simp [Res.map, Res.bind] at h
                | fuel => rw [hq] at h; simp [Res.map, Res.bind] at h
            · rintro (⟨k, p, h1, h2, _⟩ | ⟨_, hg, ls, k, p, h1, h2, h3, rfl⟩ | ⟨_, hg, p, h1, rfl⟩)
              · exact absurd ⟨h1, h2⟩ (hno k p)
              · simp [hg, h1, (C209_lenses_iff ls k p).2 ⟨h2, h3⟩]
              · have : (goLenses opts).length > 0 := List.length_pos_iff.2 hg
                simp [this, h1, Res.map, Res.bind]

/-! ### Where -/

/-- **C209** (partial).  An error about a schema has the position that CUE gives for this schema, or
for the component of its version that is not concrete; an error about a lens that has no versions
has that of this lens.  Missing: errors about the order of schemas and of lenses
(`C209_order_nowhere`). -/
theorem C209_where_partial {force : Bool} {r : RawLineage V} {opts : List (BindOption V)}
    (S : Source π) (hskip : skip = false ↔ ChecksOn force opts) (hS : Sound r) :
    (∀ k p, (∀ i, i < k → Fits C skip r.schemas i) → Misfit C skip r.schemas k p →
      (∀ v u, p ≠ .notGreater v u) → ∃ t, bindSays C force r opts S =
        .ok (.report ⟨S.pos (if p = .versionNotConcrete then .version k else .schema k), t⟩)) ∧
    (∀ ls k n, (∀ i, i < r.schemas.length → Fits C skip r.schemas i) → goLenses opts = [] →
      r.lenses = some ls → (∀ i, i < k → LensFits ls i) → LensMisfit ls k (.undecodable n) →
      ∃ t, bindSays C force r opts S = .ok (.report ⟨S.pos (.lens k), t⟩)) := by
  constructor
  · intro k p h1 h2 h3
    refine ⟨(schemaReport S k p).text, (C209_report_iff force r opts S hskip _).2
      (.inr (.inr (.inr (.inr (.inl ⟨hS, k, p, h1, h2, ?_⟩)))))⟩
    cases p with
    | notGreater v u => exact absurd rfl (h3 v u)
    | _ => rfl
  · intro ls k n h1 h2 h3 h4 h5
    exact ⟨_, (C209_report_iff force r opts S hskip _).2
      (.inr (.inr (.inr (.inr (.inr (.inl ⟨hS, h1, h2, ls, k, _, h3, h4, h5, rfl⟩))))))⟩

/-- **C209** (refutation).  If the first schema that does not fit has a version before that of the
schema before it, then `BindLineage` does not say where, whatever CUE knows; and likewise for
lenses. -/
theorem C209_order_nowhere {force : Bool} {r : RawLineage V} {opts : List (BindOption V)}
    (S : Source π) (hskip : skip = false ↔ ChecksOn force opts) (hS : Sound r) :
    (∀ k v u, (∀ i, i < k → Fits C skip r.schemas i) → Misfit C skip r.schemas k (.notGreater v u) →
      ∃ t, bindSays C force r opts S = .ok (.report ⟨none, t⟩)) ∧
    (∀ ls k t f t' f', (∀ i, i < r.schemas.length → Fits C skip r.schemas i) → goLenses opts = [] →
      r.lenses = some ls → (∀ i, i < k → LensFits ls i) → LensMisfit ls k (.notGreater t f t' f') →
      ∃ x, bindSays C force r opts S = .ok (.report ⟨none, x⟩)) := by
  constructor
  · intro k v u h1 h2
    exact ⟨_, (C209_report_iff force r opts S hskip _).2
      (.inr (.inr (.inr (.inr (.inl ⟨hS, k, _, h1, h2, rfl⟩)))))⟩
  · intro ls k t f t' f' h1 h2 h3 h4 h5
    exact ⟨_, (C209_report_iff force r opts S hskip _).2
      (.inr (.inr (.inr (.inr (.inr (.inl ⟨hS, h1, h2, ls, k, _, h3, h4, h5, rfl⟩))))))⟩

/-! ### The texts -/

private theorem str_cons (v : SV) : ∃ c l, v.str = c :: l ∧ c ∈ digits := by
  obtain ⟨a, b, h, ha, _⟩ := C02_str_denotes v
  cases a with
  | nil => exact absurd rfl ha.1.1
  | cons c a => exact ⟨c, a ++ '.' :: b, by rw [h]; rfl, ha.1.2.1 c (by simp)⟩

private theorem after_version {v w : SV} {c : Char} {x y : Str} (hc : c ∉ digits) (hd : c ≠ '.')
    (h : v.str ++ c :: x = w.str ++ c :: y) : v = w ∧ x = y := by
  obtain ⟨h1, h2⟩ := split_char (not_mem_str v hc hd) (not_mem_str w hc hd) h
  exact ⟨C02_str_injective _ _ h1, h2⟩

/-- **C209**.  What is wrong with a schema can be read off the text: errors with the same text are
about the same problem and the same versions, and give the same reasons for an incompatibility. -/
theorem C209_schema_texts {S S' : Source π} {k k' : Nat} {p p' : SchemaProblem}
    (h : (schemaReport S k p).text = (schemaReport S' k' p').text) :
    p = p' ∧ ∀ v u, p = .notCompatible v u → S.details k = S'.details k' := by
  have hash : ∀ x : Str, ("#SchemaDef.version must have concrete major and minor versions").toList ≠
      's' :: x := fun x h => by
    have : some '#' = some 's' := congrArg List.head? h
    exact absurd this (by decide)
  have hver : ∀ (v : SV) (x y : Str), 'v' :: x ≠ v.str ++ y := fun v x y h => by
    obtain ⟨c, l, h1, h2⟩ := str_cons v
    rw [h1, List.cons_append, List.cons.injEq] at h
    rw [← h.1] at h2
    exact absurd h2 (by decide)
  cases p <;> cases p' <;> simp only [schemaReport, mkerror, List.append_assoc] at h
  case versionNotConcrete.versionNotConcrete => exact ⟨rfl, fun v u h => by cases h⟩
  case versionNotConcrete.notGreater => exact absurd h (hash _)
  case versionNotConcrete.mustBreak => exact absurd h (hash _)
  case versionNotConcrete.notCompatible => exact absurd h (hash _)
  case notGreater.versionNotConcrete => exact absurd h.symm (hash _)
  case mustBreak.versionNotConcrete => exact absurd h.symm (hash _)
  case notCompatible.versionNotConcrete => exact absurd h.symm (hash _)
  case notGreater.notGreater v u v' u' =>
    obtain ⟨rfl, h2⟩ := after_version (c := ' ')
      (x := "is not greater than previous schema version ".toList ++ u.str)
      (y := "is not greater than previous schema version ".toList ++ u'.str)
      (by decide) (by decide) (List.append_cancel_left h)
    rw [C02_str_injective _ _ (List.append_cancel_left h2)]
    exact ⟨rfl, fun v u h => by cases h⟩
  case notGreater.mustBreak v u v' u' x' =>
    exact absurd (List.append_cancel_left (as := "schema ".toList) h) (hver _ _ _)
  case notGreater.notCompatible v u v' u' =>
    exact absurd (List.append_cancel_left (as := "schema ".toList) h) (hver _ _ _)
  case mustBreak.notGreater v u x v' u' =>
    exact absurd (List.append_cancel_left (as := "schema ".toList) h.symm) (hver _ _ _)
  case notCompatible.notGreater v u v' u' =>
    exact absurd (List.append_cancel_left (as := "schema ".toList) h.symm) (hver _ _ _)
  case mustBreak.mustBreak v u x v' u' x' =>
    obtain ⟨rfl, h2⟩ := after_version (c := ' ')
      (x := "must be backwards incompatible with schema ".toList ++ (u.str ++
        (": introduce a breaking change, or redeclare as version ".toList ++ x.str)))
      (y := "must be backwards incompatible with schema ".toList ++ (u'.str ++
        (": introduce a breaking change, or redeclare as version ".toList ++ x'.str)))
      (by decide) (by decide) (List.append_cancel_left h)
    obtain ⟨rfl, h3⟩ := after_version (c := ':')
      (x := " introduce a breaking change, or redeclare as version ".toList ++ x.str)
      (y := " introduce a breaking change, or redeclare as version ".toList ++ x'.str)
      (by decide) (by decide) (List.append_cancel_left h2)
    rw [C02_str_injective _ _ (List.append_cancel_left h3)]
    exact ⟨rfl, fun v u h => by cases h⟩
  case mustBreak.notCompatible v u x v' u' =>
    obtain ⟨rfl, h2⟩ := after_version (c := ' ')
      (x := "must be backwards incompatible with schema ".toList ++ (u.str ++
        (": introduce a breaking change, or redeclare as version ".toList ++ x.str)))
      (y := "is not backwards compatible with schema ".toList ++ (u'.str ++
        ':' :: '\n' :: S'.details k'))
      (by decide) (by decide) (List.append_cancel_left h)
    exact absurd (congrArg List.head? h2) (by simp)
  case notCompatible.mustBreak v u v' u' x =>
    obtain ⟨rfl, h2⟩ := after_version (c := ' ')
      (x := "is not backwards compatible with schema ".toList ++ (u.str ++
        ':' :: '\n' :: S.details k))
      (y := "must be backwards incompatible with schema ".toList ++ (u'.str ++
        (": introduce a breaking change, or redeclare as version ".toList ++ x.str)))
      (by decide) (by decide) (List.append_cancel_left h)
    exact absurd (congrArg List.head? h2) (by simp)
  case notCompatible.notCompatible v u v' u' =>
    obtain ⟨rfl, h2⟩ := after_version (c := ' ')
      (x := "is not backwards compatible with schema ".toList ++ (u.str ++
        ':' :: '\n' :: S.details k))
      (y := "is not backwards compatible with schema ".toList ++ (u'.str ++
        ':' :: '\n' :: S'.details k'))
      (by decide) (by decide) (List.append_cancel_left h)
    obtain ⟨rfl, h3⟩ := after_version (c := ':') (by decide) (by decide)
      (List.append_cancel_left h2)
    exact ⟨rfl, fun _ _ _ => (List.cons.inj h3).2⟩

private theorem order_text (S : Source π) (k : Nat) (t f u g : SV) :
    (lensReport S k (.notGreater t f u g)).text =
      "lens version ".toList ++ (lensVersionStr t f ++
        (" is not greater than previous lens version ".toList ++ lensVersionStr u g)) := by
  unfold lensReport
  show ("lens version ".toList ++ lensVersionStr t f ++
        " is not greater than previous lens version ".toList) ++ lensVersionStr u g = _
  rw [List.append_assoc, List.append_assoc]

/-- **C209**.  The four versions can be read off the text about the order of lenses. -/
theorem C209_lens_order_text {S S' : Source π} {k k' : Nat} {t f u g t' f' u' g' : SV}
    (h : (lensReport S k (.notGreater t f u g)).text =
      (lensReport S' k' (.notGreater t' f' u' g')).text) :
    t = t' ∧ f = f' ∧ u = u' ∧ g = g' := by
  rw [order_text, order_text] at h
  unfold lensVersionStr at h
  repeat rw [List.append_assoc] at h
  have key : ∀ {a b a' b' : SV} {x y : Str},
      "[to: ".toList ++ (a.str ++ (", from: ".toList ++ (b.str ++ ("]".toList ++ x)))) =
        "[to: ".toList ++ (a'.str ++ (", from: ".toList ++ (b'.str ++ ("]".toList ++ y)))) →
      a = a' ∧ b = b' ∧ x = y := by
    intro a b a' b' x y h
    obtain ⟨rfl, h2⟩ := after_version (c := ',')
      (x := " from: ".toList ++ (b.str ++ ("]".toList ++ x)))
      (y := " from: ".toList ++ (b'.str ++ ("]".toList ++ y)))
      (by decide) (by decide) (List.append_cancel_left h)
    obtain ⟨rfl, h3⟩ := after_version (c := ']') (x := x) (y := y) (by decide) (by decide)
      (List.append_cancel_left h2)
    exact ⟨rfl, rfl, h3⟩
  have h1 := List.append_cancel_left h
  obtain ⟨rfl, rfl, h2⟩ := key h1
  have h3 := List.append_cancel_left h2
  have h4 := key (a := u) (b := g) (a' := u') (b' := g') (x := []) (y := [])
    (by rw [List.append_nil]; exact h3)
  exact ⟨rfl, rfl, h4.1, h4.2.1⟩

/-- What should be said about a lens without versions. -/
def meant (S : Source π) (k : Nat) (n : Str) : Str :=
  "failed to decode lens version ".toList ++ S.fieldText k n ++ " from: ".toList ++ S.lensText k

private theorem lens_text (S : Source π) (k : Nat) (n : Str) :
    (lensReport S k (.undecodable n)).text = fprintf (meant S k n) := by
  unfold lensReport
  rfl

private theorem no_percent {a b : Str} (h1 : '%' ∉ a) (h2 : '%' ∉ b) :
    '%' ∉ "failed to decode lens version ".toList ++ a ++ " from: ".toList ++ b := by
  have h3 : '%' ∉ "failed to decode lens version ".toList := by decide
  have h4 : '%' ∉ " from: ".toList := by decide
  rw [List.mem_append, List.mem_append, List.mem_append]
  exact fun h => h.elim (fun h => h.elim (fun h => h.elim h3 h1) h4) h2

/-- **C209** (partial).  The error about a lens that has no versions shows the lens as CUE prints it,
if there is no percent sign in it. -/
theorem C209_lens_shown_partial {S : Source π} {k : Nat} {n : Str} (h1 : '%' ∉ S.fieldText k n)
    (h2 : '%' ∉ S.lensText k) : (lensReport S k (.undecodable n)).text = meant S k n := by
  rw [lens_text]
  exact fprintf_of_not_mem _ (no_percent h1 h2)

/-- **C209** (refutation).  It is changed if the first percent sign is followed by a character that is
a verb, as in `"50%"`. -/
theorem C209_lens_garbled {S : Source π} {k : Nat} {n pre post : Str} {c : Char}
    (h1 : '%' ∉ S.fieldText k n) (h2 : S.lensText k = pre ++ '%' :: c :: post) (h3 : '%' ∉ pre)
    (hm : isModifier c = false) (hc : c ≠ '%') :
    (lensReport S k (.undecodable n)).text ≠ meant S k n := by
  have : meant S k n = ("failed to decode lens version ".toList ++ S.fieldText k n ++
      " from: ".toList ++ pre) ++ '%' :: c :: post := by
    unfold meant
    rw [h2, List.append_assoc _ pre]
  rw [lens_text, this]
  exact fprintf_first_ne (no_percent h1 h3) hm hc

/-- **C209**.  In general the text is what Go's formatting makes of it, as for C172. -/
theorem C209_lens_printed {S : Source π} {k : Nat} {n o : Str} (h : PrintedAs (meant S k n) o) :
    (lensReport S k (.undecodable n)).text = o := (lens_text S k n).trans (C172_printed h)

/-! ### Examples -/

/-- Positions are lines; the details and texts of lenses as CUE might print them. -/
def sampleSource : Source Nat where
  pos
    | .lineage => some 1
    | .field _ => some 2
    | .version k => some (10 * k + 3)
    | .schema k => some (10 * k + 4)
    | .lens k => some (100 + k)
  details _ := "field not allowed".toList
  lensText _ := "{lacunas: [{message: \"5%,\"}]}".toList
  fieldText _ _ := "_".toList

/-- Schemas out of order: no position, though all are known. -/
example : bindSays SetCue.cue false (SetCue.lin [SetCue.sch 0 1 [1], SetCue.sch 0 0 [2]]) []
      sampleSource =
    .ok (.report ⟨none,
      "schema version 0.0 is not greater than previous schema version 0.1".toList⟩) := rfl

/-- A breaking change in a minor version: the place of the second schema. -/
example : bindSays SetCue.cue false (SetCue.lin [SetCue.sch 0 0 [1], SetCue.sch 0 1 [2]]) []
      sampleSource =
    .ok (.report ⟨some 14,
      "schema 0.1 is not backwards compatible with schema 0.0:\nfield not allowed".toList⟩) := rfl

example : Sound (SetCue.lin [SetCue.sch 0 1 [1], SetCue.sch 0 0 [2]]) :=
  ⟨rfl, rfl, rfl, rfl, rfl, rfl, rfl⟩

/-- The hypotheses of `C209_order_nowhere`, and how it is used. -/
example : ∃ t, bindSays SetCue.cue false (SetCue.lin [SetCue.sch 0 1 [1], SetCue.sch 0 0 [2]]) []
    sampleSource = .ok (.report ⟨none, t⟩) :=
  (C209_order_nowhere (skip := false) sampleSource (by simp [ChecksOn])
    ⟨rfl, rfl, rfl, rfl, rfl, rfl, rfl⟩).1 1 ⟨0, 0⟩ ⟨0, 1⟩
    ((C209_schemas_iff _ 1 (.notGreater ⟨0, 0⟩ ⟨0, 1⟩)).1 rfl).1
    ((C209_schemas_iff _ 1 (.notGreater ⟨0, 0⟩ ⟨0, 1⟩)).1 rfl).2

/-- The comma after the percent sign is taken for a verb. -/
example : (lensReport sampleSource 0 (.undecodable "to".toList)).text =
    "failed to decode lens version _ from: {lacunas: [{message: \"5%!,(MISSING)\"}]}".toList := by
  decide

example : (lensReport sampleSource 0 (.undecodable "to".toList)).text ≠
    meant sampleSource 0 "to".toList :=
  C209_lens_garbled (pre := "{lacunas: [{message: \"5".toList) (post := "\"}]}".toList) (c := ',')
    (by decide) rfl (by decide) rfl (by decide)

end Thema.Props
