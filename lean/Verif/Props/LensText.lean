import Verif.Spec.LensText
import Verif.Props.SurfaceExact
import Verif.Props.AssignText
import Verif.Props.MuxGrow
import Verif.Props.Version

/-!
# C201, C202: what errors say about Go migrations, and those of multiplexers
-/

namespace Thema.Props

open Thema Spec

variable {V : Type}

/-! ### Which problem is reported -/

private theorem collectProblem_some (ls : List (ImperativeLens V)) : ∀ (all : List LensID) p,
    collectProblem all ls = some p ↔ ∃ pre l post, ls = pre ++ l :: post ∧
      collectProblem all pre = none ∧
      ((p = .duplicate (pairOf l) ∧ pairOf l ∈ all ++ pre.map pairOf) ∨
       (p = .nilFunc (pairOf l) ∧ pairOf l ∉ all ++ pre.map pairOf ∧ l.mapper = none)) := by
  induction ls with
  | nil => intro all p; simp [collectProblem]
  | cons a ls ih =>
    intro all p
    have hid : a.id = pairOf a := rfl
    simp only [collectProblem, hid]
    by_cases h1 : pairOf a ∈ all
    · rw [if_pos (by simpa using h1)]
      constructor
      · intro h
        cases h
        exact ⟨[], a, ls, rfl, rfl, .inl ⟨rfl, by simpa using h1⟩⟩
      · rintro ⟨pre, l, post, h2, h3, h4⟩
        cases pre with
        | nil =>
          simp only [List.nil_append, List.cons.injEq] at h2
          obtain ⟨rfl, rfl⟩ := h2
          rcases h4 with ⟨rfl, _⟩ | ⟨_, h5, _⟩
          · rfl
          · exact absurd h1 (by simpa using h5)
        | cons b pre =>
          simp only [List.cons_append, List.cons.injEq] at h2
          obtain ⟨rfl, rfl⟩ := h2
          simp only [collectProblem, hid] at h3
          rw [if_pos (by simpa using h1)] at h3
          cases h3
    · have hc : ¬ (all.contains (pairOf a) = true) := by simpa using h1
      rw [if_neg hc]
      cases hm : a.mapper with
      | none =>
        simp only [Option.isNone_none, if_true]
        constructor
        · intro h
          cases h
          exact ⟨[], a, ls, rfl, rfl, .inr ⟨rfl, by simpa using h1, hm⟩⟩
        · rintro ⟨pre, l, post, h2, h3, h4⟩
          cases pre with
          | nil =>
            simp only [List.nil_append, List.cons.injEq] at h2
            obtain ⟨rfl, rfl⟩ := h2
            rcases h4 with ⟨_, h5⟩ | ⟨rfl, _, _⟩
            · exact absurd (by simpa using h5) h1
            · rfl
          | cons b pre =>
            simp only [List.cons_append, List.cons.injEq] at h2
            obtain ⟨rfl, rfl⟩ := h2
            simp only [collectProblem, hid] at h3
            rw [if_neg hc, hm] at h3
            simp at h3
      | some m =>
        simp only [Option.isNone_some, Bool.false_eq_true, if_false]
        rw [ih]
        constructor
        · rintro ⟨pre, l, post, rfl, h3, h4⟩
          refine ⟨a :: pre, l, post, rfl, ?_, by simpa using h4⟩
          simp only [collectProblem, hid]
          rw [if_neg hc, hm]
          simpa using h3
        · rintro ⟨pre, l, post, h2, h3, h4⟩
          cases pre with
          | nil =>
            simp only [List.nil_append, List.cons.injEq] at h2
            obtain ⟨rfl, rfl⟩ := h2
            rcases h4 with ⟨_, h5⟩ | ⟨_, _, h5⟩
            · exact absurd (by simpa using h5) h1
            · rw [hm] at h5; cases h5
          | cons b pre =>
            simp only [List.cons_append, List.cons.injEq] at h2
            obtain ⟨rfl, rfl⟩ := h2
            simp only [collectProblem, hid] at h3
            rw [if_neg hc, hm] at h3
            exact ⟨pre, l, post, rfl, by simpa using h3, by simpa using h4⟩

private theorem collectLenses_problem (ls : List (ImperativeLens V)) : ∀ (all : List LensID),
    collectLenses all ls = match collectProblem all ls with
      | some _ => .err ⟨[]⟩
      | none => .ok (all ++ ls.map (·.id)) := by
  induction ls with
  | nil => intro all; simp [collectLenses, collectProblem]
  | cons a ls ih =>
    intro all
    simp only [collectLenses, collectProblem]
    split
    · rfl
    · split
      · rfl
      · rw [ih]; simp

private theorem ids_eq (ls : List (ImperativeLens V)) : ls.map (·.id) = ls.map pairOf := by
  apply List.map_congr_left; intro l _; rfl

private theorem collectProblem_none (ls : List (ImperativeLens V)) :
    collectProblem [] ls = none ↔ Proper ls := by
  have h := collectLenses_ok ls [] (ls.map pairOf) (by simp)
  simp only [List.nil_append, ids_eq, and_true] at h
  rw [Proper, ← h, collectLenses_problem]
  cases collectProblem [] ls <;> simp [ids_eq]

private theorem collectProblem_form {ls : List (ImperativeLens V)} {all : List LensID}
    {p : GoLensProblem} (h : collectProblem all ls = some p) :
    (∃ id, p = .duplicate id) ∨ ∃ id, p = .nilFunc id := by
  obtain ⟨_, l, _, _, _, h⟩ := (collectProblem_some ls all p).1 h
  rcases h with ⟨h, _⟩ | ⟨h, _⟩
  · exact .inl ⟨_, h⟩
  · exact .inr ⟨_, h⟩

private theorem requireLoop_filters {vs : List SV} (hs : StrictlyIncreasing vs)
    (h0 : vs.head? = some ⟨0, 0⟩) (ids : List LensID) :
    requireLoop synv0 vs.tail (ids, []) =
      (ids.filter (fun x => decide (x ∉ requiredList vs)),
        (requiredList vs).filter (fun x => decide (x ∉ ids))) := by
  have hv : synv0 :: vs.tail = vs := by
    cases vs with
    | nil => simp at h0
    | cons a t => simp only [List.head?_cons, Option.some.injEq] at h0; simp [synv0, h0]
  rw [requireLoop_eq, reqList_eq, hv,
    takeLens_foldl_nodup _ _ _ (requiredList_nodup (strictV_iff.2 hs))]
  simp

/-- What is reported for migrations of which none is nil or given twice. -/
private theorem goLensProblem_proper {vs : List SV} (hs : StrictlyIncreasing vs)
    (h0 : vs.head? = some ⟨0, 0⟩) {ls : List (ImperativeLens V)} (hp : Proper ls) :
    goLensProblem vs ls =
      if (requiredList vs).filter (fun x => decide (x ∉ ls.map pairOf)) ≠ [] then
        .ok (some (.missing ((requiredList vs).filter (fun x => decide (x ∉ ls.map pairOf)))))
      else if (ls.map pairOf).filter (fun x => decide (x ∉ requiredList vs)) ≠ [] then
        (goLensReport vs ls).map fun r => some (.superfluous r)
      else .ok none := by
  unfold goLensProblem
  rw [(collectProblem_none ls).2 hp, goLensReport_eq hs h0 hp.1 hp.2]
  simp only [ids_eq, requireLoop_filters hs h0, gt_iff_lt, List.length_pos_iff]

/-- **C201**.  The text that is modelled here is that of the error which `Model/Bind.lean` has:
for a lineage with schemas, `checkGoLensCompleteness` fails exactly if there is a problem, with
the mark of the problem. -/
theorem C201_agrees {schlist : List (SchemaDef V)} (hne : schlist ≠ [])
    (ls : List (ImperativeLens V)) :
    checkGoLensCompleteness schlist ls =
      (goLensProblem (schlist.map (·.v)) ls).bind fun
        | none => .ok (buildLensMap ls)
        | some p => .err p.mark := by
  unfold checkGoLensCompleteness goLensProblem
  rw [collectLenses_problem]
  cases h : collectProblem [] ls with
  | some p =>
    rcases collectProblem_form h with ⟨id, rfl⟩ | ⟨id, rfl⟩ <;> rfl
  | none =>
    cases schlist with
    | nil => exact absurd rfl hne
    | cons a rest =>
      simp only [Res.bind_ok, goDrop, List.length_cons, List.nil_append]
      rw [if_pos (by omega)]
      simp only [Res.bind_ok, List.drop_succ_cons, List.drop_zero, List.map_cons, List.tail_cons]
      split
      · rfl
      · split
        · cases erroneousReport (a.v :: rest.map (·.v))
            (requireLoop synv0 (rest.map (·.v)) (ls.map (·.id), [])).1 ls <;> rfl
        · rfl

/-- **C201**.  A migration is said to be a duplicate exactly if it is the first with anything
wrong with it, and a migration for the same pair of versions comes before it. -/
theorem C201_duplicate_iff (vs : List SV) (ls : List (ImperativeLens V)) (id : LensID) :
    goLensProblem vs ls = .ok (some (.duplicate id)) ↔
      ∃ pre l post, ls = pre ++ l :: post ∧ Proper pre ∧ pairOf l = id ∧
        id ∈ pre.map pairOf := by
  have key : goLensProblem vs ls = .ok (some (.duplicate id)) ↔
      collectProblem [] ls = some (.duplicate id) := by
    unfold goLensProblem
    cases h : collectProblem [] ls with
    | some p => simp
    | none =>
      simp only [reduceCtorEq, iff_false]
      split
      · simp
      · split
        · cases erroneousReport vs
            (requireLoop synv0 vs.tail (ls.map (·.id), [])).1 ls <;> simp [Res.map, Res.bind]
        · simp
  rw [key, collectProblem_some]
  constructor
  · rintro ⟨pre, l, post, h1, h2, h3 | h3⟩
    · simp only [GoLensProblem.duplicate.injEq, List.nil_append] at h3
      exact ⟨pre, l, post, h1, (collectProblem_none pre).1 h2, h3.1.symm, h3.1 ▸ h3.2⟩
    · cases h3.1
  · rintro ⟨pre, l, post, h1, h2, rfl, h4⟩
    exact ⟨pre, l, post, h1, (collectProblem_none pre).2 h2, .inl ⟨rfl, by simpa using h4⟩⟩

/-- **C201**.  A function is said to be nil exactly if it is, no migration before has anything
wrong with it, and none of these is for the same pair of versions. -/
theorem C201_nil_iff (vs : List SV) (ls : List (ImperativeLens V)) (id : LensID) :
    goLensProblem vs ls = .ok (some (.nilFunc id)) ↔
      ∃ pre l post, ls = pre ++ l :: post ∧ Proper pre ∧ pairOf l = id ∧
        id ∉ pre.map pairOf ∧ l.mapper = none := by
  have key : goLensProblem vs ls = .ok (some (.nilFunc id)) ↔
      collectProblem [] ls = some (.nilFunc id) := by
    unfold goLensProblem
    cases h : collectProblem [] ls with
    | some p => simp
    | none =>
      simp only [reduceCtorEq, iff_false]
      split
      · simp
      · split
        · cases erroneousReport vs
            (requireLoop synv0 vs.tail (ls.map (·.id), [])).1 ls <;> simp [Res.map, Res.bind]
        · simp
  rw [key, collectProblem_some]
  constructor
  · rintro ⟨pre, l, post, h1, h2, h3 | h3⟩
    · cases h3.1
    · simp only [GoLensProblem.nilFunc.injEq, List.nil_append] at h3
      exact ⟨pre, l, post, h1, (collectProblem_none pre).1 h2, h3.1.symm, h3.1 ▸ h3.2.1, h3.2.2⟩
  · rintro ⟨pre, l, post, h1, h2, rfl, h4, h5⟩
    exact ⟨pre, l, post, h1, (collectProblem_none pre).2 h2, .inr ⟨rfl, by simpa using h4, h5⟩⟩

private theorem not_proper {vs : List SV} {ls : List (ImperativeLens V)} (hp : ¬ Proper ls) :
    ∃ p, goLensProblem vs ls = .ok (some p) ∧
      ((∃ id, p = .duplicate id) ∨ ∃ id, p = .nilFunc id) := by
  rw [← collectProblem_none] at hp
  unfold goLensProblem
  cases h : collectProblem [] ls with
  | none => exact absurd h hp
  | some p => exact ⟨p, rfl, collectProblem_form h⟩

/-- **C201**.  Migrations are said to be missing exactly if nothing is wrong with those given by
themselves; listed are then the pairs that are required and not given, without exception, those of
older versions first. -/
theorem C201_missing_iff {vs : List SV} (hs : StrictlyIncreasing vs)
    (h0 : vs.head? = some ⟨0, 0⟩) (ls : List (ImperativeLens V)) (ids : List LensID) :
    goLensProblem vs ls = .ok (some (.missing ids)) ↔
      Proper ls ∧ ids ≠ [] ∧
        ids = (requiredList vs).filter (fun id => decide (id ∉ ls.map pairOf)) := by
  by_cases hp : Proper ls
  · rw [goLensProblem_proper hs h0 hp]
    split
    · rename_i h
      simp only [Res.ok.injEq, Option.some.injEq, GoLensProblem.missing.injEq]
      exact ⟨fun h' => by subst h'; exact ⟨hp, h, rfl⟩, fun h' => h'.2.2.symm⟩
    · rename_i h
      have h := Classical.not_not.1 h
      rw [h]
      constructor
      · intro h'
        split at h'
        · cases hr : goLensReport vs ls <;> rw [hr] at h' <;> simp [Res.map, Res.bind] at h'
        · cases h'
      · rintro ⟨_, h1, h2⟩; exact absurd h2 h1
  · obtain ⟨p, h1, h2⟩ := not_proper (vs := vs) hp
    rw [h1]
    simp only [hp, false_and, iff_false, Res.ok.injEq, Option.some.injEq]
    rintro rfl
    rcases h2 with ⟨_, h2⟩ | ⟨_, h2⟩ <;> cases h2

/-- **C201**.  The pairs that are listed as missing: exactly the required ones that are not
given, each once. -/
theorem C201_missing_mem {vs : List SV} (hs : StrictlyIncreasing vs)
    (h0 : vs.head? = some ⟨0, 0⟩) {ls : List (ImperativeLens V)} {ids : List LensID}
    (h : goLensProblem vs ls = .ok (some (.missing ids))) :
    ids.Nodup ∧ ∀ id, id ∈ ids ↔ Required vs id ∧ ∀ l ∈ ls, ¬ (l.frm = id.frm ∧ l.to = id.to) := by
  obtain ⟨_, _, rfl⟩ := (C201_missing_iff hs h0 ls ids).1 h
  refine ⟨(requiredList_nodup (strictV_iff.2 hs)).filter _, fun id => ?_⟩
  simp only [List.mem_filter, decide_eq_true_eq, mem_requiredList, List.mem_map, not_exists,
    not_and]
  refine and_congr_right fun _ => forall₂_congr fun l _ => ?_
  obtain ⟨f, t⟩ := id
  simp only [pairOf, LensID.mk.injEq, not_and]

open Classical in
/-- **C201**.  Migrations are said to be superfluous exactly if nothing is wrong with those given
by themselves and none is missing; listed are then those that are not required, in the order
given, each with the reason of `PrintedReason`. -/
theorem C201_superfluous_iff {vs : List SV} (hs : StrictlyIncreasing vs)
    (h0 : vs.head? = some ⟨0, 0⟩) (ls : List (ImperativeLens V)) (rep : List (LensID × Reason)) :
    goLensProblem vs ls = .ok (some (.superfluous rep)) ↔
      Proper ls ∧ (∀ id, Required vs id → id ∈ ls.map pairOf) ∧ rep ≠ [] ∧
        rep.map (·.1) = (ls.map pairOf).filter (fun id => decide (¬ Required vs id)) ∧
        ∀ e ∈ rep, PrintedReason vs e.1 e.2 := by
  by_cases hp : Proper ls
  · have hreq : (∀ id, Required vs id → id ∈ ls.map pairOf) ↔
        (requiredList vs).filter (fun x => decide (x ∉ ls.map pairOf)) = [] := by
      simp only [List.filter_eq_nil_iff, decide_eq_true_eq, Classical.not_not, mem_requiredList]
    have hsup : (ls.map pairOf).filter (fun id => decide (¬ Required vs id)) =
        (ls.map pairOf).filter (fun x => decide (x ∉ requiredList vs)) := by
      apply List.filter_congr; intro x _; simp only [mem_requiredList]
    rw [goLensProblem_proper hs h0 hp, hreq]
    split
    · rename_i h
      simp only [Res.ok.injEq, Option.some.injEq, reduceCtorEq, false_iff]
      exact fun h' => h h'.2.1
    · rename_i h
      have h := Classical.not_not.1 h
      obtain ⟨r0, hr0⟩ : ∃ r, goLensReport vs ls = .ok r := by
        obtain ⟨r, hr, _⟩ := C127_listed hs h0 hp.1 hp.2
        exact ⟨r, hr⟩
      have h180 := C180_report_iff hs h0 ls
      split
      · rename_i hne
        rw [hr0]
        simp only [Res.map, Res.bind, Res.ok.injEq, Option.some.injEq, GoLensProblem.superfluous.injEq]
        constructor
        · rintro rfl
          obtain ⟨_, _, k1, k2⟩ := (h180 r0).1 hr0
          refine ⟨hp, h, fun hnil => ?_, k1, k2⟩
          rw [hnil, hsup] at k1
          exact hne k1.symm
        · rintro ⟨_, _, _, k1, k2⟩
          have := (h180 rep).2 ⟨hp.1, hp.2, k1, k2⟩
          rw [hr0] at this
          exact Res.ok.inj this
      · rename_i hne
        have hne := Classical.not_not.1 hne
        simp only [Res.ok.injEq, reduceCtorEq, false_iff]
        rintro ⟨_, _, k0, k1, _⟩
        rw [hsup, hne] at k1
        exact k0 (List.map_eq_nil_iff.1 k1)
  · obtain ⟨p, h1, h2⟩ := not_proper (vs := vs) hp
    rw [h1]
    simp only [hp, false_and, iff_false, Res.ok.injEq, Option.some.injEq]
    rintro rfl
    rcases h2 with ⟨_, h2⟩ | ⟨_, h2⟩ <;> cases h2

/-- **C201**.  There is no error exactly if nothing is wrong with the migrations by themselves and
they are for the required pairs; and in no case is there a panic. -/
theorem C201_none_iff {vs : List SV} (hs : StrictlyIncreasing vs)
    (h0 : vs.head? = some ⟨0, 0⟩) (ls : List (ImperativeLens V)) :
    (goLensProblem vs ls = .ok none ↔
      Proper ls ∧ ∀ id, id ∈ ls.map pairOf ↔ Required vs id) ∧
    ∃ p, goLensProblem vs ls = .ok p := by
  by_cases hp : Proper ls
  · obtain ⟨r0, hr0, _⟩ := C127_listed hs h0 hp.1 hp.2
    rw [goLensProblem_proper hs h0 hp, hr0]
    have hreq : (requiredList vs).filter (fun x => decide (x ∉ ls.map pairOf)) = [] ↔
        (∀ id, Required vs id → id ∈ ls.map pairOf) := by
      simp only [List.filter_eq_nil_iff, decide_eq_true_eq, Classical.not_not, mem_requiredList]
    have hsup : (ls.map pairOf).filter (fun x => decide (x ∉ requiredList vs)) = [] ↔
        (∀ id, id ∈ ls.map pairOf → Required vs id) := by
      simp only [List.filter_eq_nil_iff, decide_eq_true_eq, Classical.not_not, mem_requiredList]
    split
    · rename_i h
      refine ⟨?_, _, rfl⟩
      simp only [Res.ok.injEq, reduceCtorEq, false_iff]
      exact fun h' => h (hreq.2 fun id hid => (h'.2 id).2 hid)
    · rename_i h
      have h := hreq.1 (Classical.not_not.1 h)
      split
      · rename_i h2
        refine ⟨?_, _, rfl⟩
        simp only [Res.map, Res.bind, Res.ok.injEq, reduceCtorEq, false_iff]
        exact fun h' => h2 (hsup.2 fun id hid => (h'.2 id).1 hid)
      · rename_i h2
        have h2 := hsup.1 (Classical.not_not.1 h2)
        exact ⟨⟨fun _ => ⟨hp, fun id => ⟨h2 id, h id⟩⟩, fun _ => rfl⟩, _, rfl⟩
  · obtain ⟨p, h1, _⟩ := not_proper (vs := vs) hp
    rw [h1]
    exact ⟨by simp [hp], _, rfl⟩

private theorem sf_strict : StrictlyIncreasing sfVersions :=
  strictV_iff.1 (by unfold StrictV sfVersions; decide)

private theorem sf_proper (ids : List (SV × SV)) (h : ((sfLenses ids).map pairOf).Nodup) :
    Proper (sfLenses ids) := by
  refine ⟨h, fun l hl => ?_⟩
  simp only [sfLenses, List.mem_map] at hl
  obtain ⟨_, _, rfl⟩ := hl
  simp

/-- Of 0.0, 0.1, 1.0 and 2.0, with the migrations from 0.1 to 0.0 and from 1.0 to 2.0 only. -/
example : goLensProblem sfVersions (sfLenses [(⟨1, 0⟩, ⟨2, 0⟩), (⟨0, 1⟩, ⟨0, 0⟩)]) =
    .ok (some (.missing [⟨⟨1, 0⟩, ⟨0, 1⟩⟩, ⟨⟨0, 1⟩, ⟨1, 0⟩⟩, ⟨⟨2, 0⟩, ⟨1, 0⟩⟩])) :=
  (C201_missing_iff sf_strict rfl _ _).2 ⟨sf_proper _ (by decide), by simp, by decide⟩

example := C201_missing_mem sf_strict rfl
  (show goLensProblem sfVersions (sfLenses [(⟨1, 0⟩, ⟨2, 0⟩), (⟨0, 1⟩, ⟨0, 0⟩)]) =
    .ok (some (.missing [⟨⟨1, 0⟩, ⟨0, 1⟩⟩, ⟨⟨0, 1⟩, ⟨1, 0⟩⟩, ⟨⟨2, 0⟩, ⟨1, 0⟩⟩])) from rfl)

example : goLensProblem sfVersions
    (sfLenses [(⟨1, 0⟩, ⟨2, 0⟩), (⟨0, 1⟩, ⟨0, 0⟩), (⟨1, 0⟩, ⟨2, 0⟩)]) =
    .ok (some (.duplicate ⟨⟨1, 0⟩, ⟨2, 0⟩⟩)) :=
  (C201_duplicate_iff _ _ _).2 ⟨sfLenses [(⟨1, 0⟩, ⟨2, 0⟩), (⟨0, 1⟩, ⟨0, 0⟩)], _, [], rfl,
    sf_proper _ (by decide), rfl, by decide⟩

example : goLensProblem sfVersions (sfLenses [(⟨1, 0⟩, ⟨2, 0⟩)] ++
      [{ frm := ⟨0, 1⟩, «to» := ⟨0, 0⟩, mapper := none }]) =
    .ok (some (.nilFunc ⟨⟨0, 1⟩, ⟨0, 0⟩⟩)) :=
  (C201_nil_iff _ _ _).2 ⟨sfLenses [(⟨1, 0⟩, ⟨2, 0⟩)], _, [], rfl,
    sf_proper _ (by decide), rfl, by decide, rfl⟩

/-- All required migrations, and one of each kind that is not. -/
example : goLensProblem sfVersions sfGiven = .ok (some (.superfluous
      [(⟨⟨0, 0⟩, ⟨0, 1⟩⟩, .successorIs ⟨0, 1⟩ ⟨0, 0⟩ ⟨0, 1⟩), (⟨⟨0, 0⟩, ⟨2, 0⟩⟩, .minorAutomatic),
       (⟨⟨2, 0⟩, ⟨0, 0⟩⟩, .predecessorIs ⟨1, 0⟩ ⟨2, 0⟩ ⟨0, 0⟩), (⟨⟨1, 0⟩, ⟨1, 0⟩⟩, .selfMigration),
       (⟨⟨1, 0⟩, ⟨3, 0⟩⟩, .noSuchSchema ⟨3, 0⟩)])) := rfl

example : Proper sfGiven ∧ ∀ id, Required sfVersions id → id ∈ sfGiven.map pairOf :=
  let h := (C201_superfluous_iff sf_strict rfl sfGiven _).1 rfl
  ⟨h.1, h.2.1⟩

example : goLensProblem sfVersions (sfLenses [(⟨0, 1⟩, ⟨0, 0⟩), (⟨1, 0⟩, ⟨0, 1⟩), (⟨0, 1⟩, ⟨1, 0⟩),
    (⟨2, 0⟩, ⟨1, 0⟩), (⟨1, 0⟩, ⟨2, 0⟩)]) = .ok none :=
  (C201_none_iff sf_strict rfl _).1.2 ⟨sf_proper _ (by decide), fun id => by
    rw [← mem_requiredList]
    simp [sfVersions, requiredList, sfLenses, pairOf]⟩

example : checkGoLensCompleteness threeExactBound.allsch ([] : List (ImperativeLens SetCue.Val)) =
    .err ⟨[.missingLenses]⟩ := by
  rw [C201_agrees (by decide)]; rfl

/-! ### The texts -/

theorem str_chars (v : SV) : ∀ c ∈ v.str, c ∈ digits ∨ c = '.' := by
  obtain ⟨a, b, h, ha, hb⟩ := C02_str_denotes v
  intro c hc
  rw [h] at hc
  simp only [List.mem_append, List.mem_cons] at hc
  rcases hc with hc | hc | hc
  · exact .inl (ha.1.2.1 c hc)
  · exact .inr hc
  · exact .inl (hb.1.2.1 c hc)

theorem not_mem_str (v : SV) {c : Char} (h : c ∉ digits) (h' : c ≠ '.') : c ∉ v.str :=
  fun hc => (str_chars v c hc).elim h h'

/-- Splitting at the first occurrence of a character. -/
theorem split_char {c : Char} {a b x y : Str} (ha : c ∉ a) (hb : c ∉ b)
    (h : a ++ c :: x = b ++ c :: y) : a = b ∧ x = y := by
  induction a generalizing b with
  | nil =>
    cases b with
    | nil => simpa using h
    | cons d b => simp only [List.nil_append, List.cons_append, List.cons.injEq] at h
                  exact absurd h.1 (by simp at hb; exact hb.1)
  | cons e a ih =>
    simp only [List.mem_cons, not_or] at ha
    cases b with
    | nil => simp only [List.nil_append, List.cons_append, List.cons.injEq] at h
             exact absurd h.1.symm ha.1
    | cons d b =>
      simp only [List.mem_cons, not_or] at hb
      simp only [List.cons_append, List.cons.injEq] at h
      obtain ⟨h1, h2⟩ := ih ha.2 hb.2 h.2
      exact ⟨by rw [h.1, h1], h2⟩

/-- **C201**.  The texts on a duplicate and on a nil function name the pair. -/
theorem C201_text_one (id : LensID) :
    (GoLensProblem.duplicate id).str =
      "duplicate Go migration ".toList ++ shownPair id.frm id.to ∧
    (GoLensProblem.nilFunc id).str =
      "nil Go migration func for ".toList ++ shownPair id.frm id.to := ⟨rfl, rfl⟩

/-- **C201**.  Different pairs are shown differently. -/
theorem C201_pair_unambiguous {f t f' t' : SV} (h : shownPair f t = shownPair f' t') :
    f = f' ∧ t = t' := by
  simp only [shownPair, List.append_assoc, List.cons_append, List.nil_append] at h
  obtain ⟨h1, h2⟩ := split_char (not_mem_str f (by decide) (by decide))
    (not_mem_str f' (by decide) (by decide)) h
  simp only [List.cons.injEq, true_and] at h2
  exact ⟨C02_str_injective _ _ h1, C02_str_injective _ _ h2⟩

private theorem shown_no_nl (id : LensID) : '\n' ∉ id.str := by
  have h1 := not_mem_str id.frm (c := '\n') (by decide) (by decide)
  have h2 := not_mem_str id.to (c := '\n') (by decide) (by decide)
  unfold LensID.str
  simp only [List.mem_append, not_or]
  exact ⟨⟨h1, by decide⟩, h2⟩

/-- **C201**.  The text on missing migrations: a line that says so, and one line for each pair,
indented with a tab; the text ends with a line feed. -/
theorem C201_text_missing (ids : List LensID) :
    linesOf (GoLensProblem.missing ids).str =
      "Go migrations not provided for the following version pairs:".toList ::
        (ids.map (fun id => '\t' :: shownPair id.frm id.to) ++ [[]]) := by
  unfold GoLensProblem.str
  rw [linesOf_append (by decide)]
  congr 1
  induction ids with
  | nil => rfl
  | cons id ids ih =>
    have h := linesOf_append (a := '\t' :: id.str) (by
      simp only [List.mem_cons, not_or]; exact ⟨by decide, shown_no_nl id⟩)
      (ids.flatMap fun id => '\t' :: id.str ++ ['\n'])
    simp only [List.flatMap_cons, List.map_cons, List.cons_append, List.append_assoc,
      List.nil_append] at h ⊢
    rw [h]
    simp only [List.cons_append] at ih
    rw [ih]
    rfl

private theorem reason_no_nl (w : Reason) : '\n' ∉ w.str := by
  have hv : ∀ v : SV, '\n' ∉ v.str := fun v => not_mem_str v (by decide) (by decide)
  cases w with
  | noSuchSchema v =>
    unfold Reason.str
    simp only [List.mem_append, not_or]
    exact ⟨⟨by decide, hv _⟩, by decide⟩
  | selfMigration => unfold Reason.str; decide
  | predecessorIs p f t =>
    unfold Reason.str
    simp only [List.mem_append, not_or]
    exact ⟨⟨⟨⟨hv _, by decide⟩, hv _⟩, by decide⟩, hv _⟩
  | minorAutomatic => unfold Reason.str; decide
  | successorIs p f t =>
    unfold Reason.str
    simp only [List.mem_append, not_or]
    exact ⟨⟨⟨⟨hv _, by decide⟩, hv _⟩, by decide⟩, hv _⟩

/-- **C201**.  The text on superfluous migrations has two lines however many there are: one that
says so, and one with all the pairs and their reasons. -/
theorem C201_text_superfluous (rep : List (LensID × Reason)) :
    linesOf (GoLensProblem.superfluous rep).str =
      ["Go migrations erroneously provided for the following version pairs:".toList,
        rep.flatMap fun e => '\t' :: shownPair e.1.frm e.1.to ++ [' ', '('] ++ e.2.str ++ [')']] := by
  unfold GoLensProblem.str
  rw [linesOf_append (by decide)]
  congr 1
  apply linesOf_line
  intro h
  simp only [List.mem_flatMap] at h
  obtain ⟨e, _, h⟩ := h
  simp only [List.mem_append, List.mem_cons, List.cons_append] at h
  rcases h with h | ((h | h) | h) | h
  · exact absurd h (by decide)
  · exact shown_no_nl _ h
  · exact absurd h (by decide)
  · exact reason_no_nl _ h
  · simp at h

/-- **C201**.  The reasons, as they are printed. -/
theorem C201_text_reason (v p f t : SV) :
    (Reason.noSuchSchema v).str = "schema version ".toList ++ v.str ++ " does not exist".toList ∧
    Reason.selfMigration.str = "self-migrations not allowed".toList ∧
    Reason.minorAutomatic.str = "minor version upgrades are handled automatically".toList ∧
    (Reason.predecessorIs p f t).str =
      p.str ++ " is predecessor of ".toList ++ f.str ++ ", not ".toList ++ t.str ∧
    (Reason.successorIs p f t).str =
      p.str ++ " is successor of ".toList ++ f.str ++ ", not ".toList ++ t.str :=
  ⟨rfl, rfl, rfl, rfl, rfl⟩

/-! ### C202: multiplexers that find no schema -/

variable {C : Cue V} {force : Bool} {r : RawLineage V} {opts : List (BindOption V)}
  {L : Lineage V} {H : Heap V} {s : SchPtr} {dec : Decoder V}

/-- **C202**.  A multiplexer says that the data are invalid against all versions exactly if they
can be decoded and no schema of the lineage accepts them; the text then lists all versions of the
lineage, in order, and has the version of the multiplexer's own schema, and the text of that
schema's own error. -/
theorem C202_text_iff (hP : PathsOk C) (h : bindLineage C force r opts = .ok L)
    (h0 : L.ver 0 = ⟨0, 0⟩) (hd : L.allv.Nodup) (hH : H s.lin = L) (hsp : s.pos < L.allsch.length)
    {n : Nat} (hn : L.allsch.length ≤ n) (text : SchPtr → V → Str) (b : Bytes) (t : Str) :
    muxText C H s dec text n b = .ok (some t) ↔
      ∃ d, dec b = .ok d ∧ (∀ p, ¬ Admits C L p d) ∧
        t = "data invalid against all versions (".toList ++
          joinWith [',', ' '] (L.allv.map SV.str) ++ "), error against ".toList ++
          (L.ver s.pos).str ++ ": ".toList ++ text s d := by
  have hs := (bind_sorted h).strict hd
  have hpos := bind_pos h
  unfold muxText
  simp only [hH, allvstr_eq h hs h0 hn, Res.bind_ok]
  cases hb : dec b with
  | err e => simp
  | panic k => simp
  | fuel => simp
  | ok d =>
    simp only [Res.bind_ok, Res.ok.injEq, exists_eq_left']
    rcases validate_admits hP hH hsp d with ⟨ha, hv⟩ | ⟨ha, e, hv⟩
    · rw [show validate C H s d = validate C H ⟨s.lin, s.pos⟩ d from rfl, hv]
      simp only [Res.ok.injEq, reduceCtorEq, false_iff]
      exact fun h' => h'.1 _ ha
    · rw [show validate C H s d = validate C H ⟨s.lin, s.pos⟩ d from rfl, hv]
      simp only [muxLatest_eq h hs, Res.bind_ok]
      rcases muxLoop_spec hP hs (head_zero h h0) hH hsp d (fun _ => .ok none)
        (.ok (some (noMatchText L.allv (L.ver s.pos) (text s d)))) n (L.allsch.length - 1)
        (by omega) (by omega) with ⟨i, _, _, h3, _, h5⟩ | ⟨h1, h2⟩
      · rw [h5]
        simp only [Res.ok.injEq, reduceCtorEq, false_iff]
        exact fun h' => h'.1 _ h3
      · rw [h2]
        simp only [Res.ok.injEq, Option.some.injEq]
        constructor
        · rintro rfl
          refine ⟨fun p hp => ?_, rfl⟩
          by_cases hps : p = s.pos
          · subst hps; exact ha hp
          · have := admits_lt hp
            exact h1 p (by omega) hps hp
        · rintro ⟨_, rfl⟩; rfl

/-- **C202**.  When it says so, what it returns is an error with the marks of the error of its own
schema. -/
theorem C202_is_error (hP : PathsOk C) (h : bindLineage C force r opts = .ok L)
    (h0 : L.ver 0 = ⟨0, 0⟩) (hd : L.allv.Nodup) (hH : H s.lin = L) (hsp : s.pos < L.allsch.length)
    {n : Nat} (hn : L.allsch.length ≤ n) {text : SchPtr → V → Str} {b : Bytes} {t : Str}
    (ht : muxText C H s dec text n b = .ok (some t)) :
    ∃ d e, dec b = .ok d ∧ validate C H s d = .err e ∧ untypedMux C H s dec n b = .err e := by
  obtain ⟨d, hb, hno, _⟩ := (C202_text_iff hP h h0 hd hH hsp hn text b t).1 ht
  rcases untypedMux_cases (dec := dec) hP h h0 hd hH hsp hn hb with
    ⟨a, _⟩ | ⟨_, p, ⟨_, a, _⟩, _⟩ | ⟨_, e, h1, h2⟩
  · exact absurd a (hno _)
  · exact absurd a (hno _)
  · exact ⟨d, e, hb, h2, h1⟩

private theorem joined_injective : ∀ {vs ws : List SV},
    joinWith [',', ' '] (vs.map SV.str) = joinWith [',', ' '] (ws.map SV.str) → vs = ws
  | [], [], _ => rfl
  | [], [w], h => absurd h.symm (by
      obtain ⟨a, b, hw, _⟩ := C02_str_denotes w
      simp [joinWith, hw])
  | [], w :: _ :: _, h => absurd h.symm (by simp [joinWith])
  | [v], [], h => absurd h (by
      obtain ⟨a, b, hw, _⟩ := C02_str_denotes v
      simp [joinWith, hw])
  | v :: _ :: _, [], h => absurd h (by simp [joinWith])
  | [v], [w], h => by
      simp only [List.map_cons, List.map_nil, joinWith] at h
      rw [C02_str_injective _ _ h]
  | [v], w :: w' :: ws, h => by
      exfalso
      have hc : ',' ∉ v.str := not_mem_str v (by decide) (by decide)
      apply hc
      simp only [List.map_cons, List.map_nil, joinWith] at h
      rw [h]
      simp
  | v :: v' :: vs, [w], h => by
      exfalso
      have hc : ',' ∉ w.str := not_mem_str w (by decide) (by decide)
      apply hc
      simp only [List.map_cons, List.map_nil, joinWith] at h
      rw [← h]
      simp
  | v :: v' :: vs, w :: w' :: ws, h => by
      simp only [List.map_cons, joinWith, List.append_assoc, List.cons_append,
        List.nil_append] at h
      obtain ⟨h1, h2⟩ := split_char (not_mem_str v (by decide) (by decide))
        (not_mem_str w (by decide) (by decide)) h
      simp only [List.cons.injEq, true_and] at h2
      have := joined_injective (vs := v' :: vs) (ws := w' :: ws) h2
      rw [C02_str_injective _ _ h1, this]

private theorem joined_chars : ∀ (vs : List SV) {c : Char}, c ∉ digits → c ≠ '.' → c ≠ ',' →
    c ≠ ' ' → c ∉ joinWith [',', ' '] (vs.map SV.str)
  | [], _, _, _, _, _ => by simp [joinWith]
  | [v], _, h1, h2, _, _ => by
      simp only [List.map_cons, List.map_nil, joinWith]; exact not_mem_str v h1 h2
  | v :: v' :: vs, c, h1, h2, h3, h4 => by
      have ih := joined_chars (v' :: vs) h1 h2 h3 h4
      simp only [List.map_cons] at ih
      simp only [List.map_cons, joinWith, List.mem_append, not_or]
      exact ⟨⟨not_mem_str v h1 h2, by simp [h3, h4]⟩, ih⟩

/-- **C202**.  The versions, the version of the multiplexer's schema and that schema's own text
can be told from the text. -/
theorem C202_unambiguous {vs ws : List SV} {v w : SV} {x y : Str}
    (h : noMatchText vs v x = noMatchText ws w y) : vs = ws ∧ v = w ∧ x = y := by
  unfold noMatchText versionListStr at h
  simp only [List.append_assoc] at h
  have h := List.append_cancel_left h
  obtain ⟨h1, h2⟩ := split_char (c := ')')
    (joined_chars vs (by decide) (by decide) (by decide) (by decide))
    (joined_chars ws (by decide) (by decide) (by decide) (by decide)) h
  have h2 := List.append_cancel_left (as := ", error against ".toList) h2
  obtain ⟨h3, h4⟩ := split_char (c := ':') (not_mem_str v (by decide) (by decide))
    (not_mem_str w (by decide) (by decide)) h2
  refine ⟨joined_injective h1, C02_str_injective _ _ h3, ?_⟩
  exact List.append_cancel_left (as := [' ']) h4

/-- What no schema of the lineage accepts. -/
example : ∃ t, muxText SetCue.cue (fun _ => threeExactBound) ⟨0, 1⟩ toyDecoder
    (fun _ _ => "no".toList) 6 [9] = .ok (some t) := ⟨_, by rfl⟩

example : muxText SetCue.cue (fun _ => threeExactBound) ⟨0, 1⟩ toyDecoder
    (fun _ _ => "no".toList) 6 [3] = .ok none := by rfl

example := C202_text_iff (H := fun _ => threeExactBound) (s := ⟨0, 1⟩) (dec := toyDecoder) (n := 6)
  setCue_pathsOk threeExactBound_eq rfl (by decide) rfl (by decide) (by decide)
  (fun _ _ => "no".toList) [9]

end Thema.Props
