import Verif.Props.CliData
import Verif.Props.Exact

/-!
# C169: when the commands `thema data ...` succeed, and what they print

No assumption is made on the versions of the lineage.
-/

namespace Thema.Props

open Spec Cli

variable {V : Type} {C : Cue V} {force : Bool} {r : RawLineage V} {opts : List (BindOption V)}
  {L : Lineage V} {E : DataEnv V} {F : DataFlags}

theorem selectSchema_cases (h : bindLineage C force r opts = .ok L) (verstr : Str) :
    (∃ p, Selected L verstr p ∧ selectSchema L verstr = .ok (.ok p)) ∨
    (∀ p, ¬ Selected L verstr p) ∧ ∃ e, selectSchema L verstr = .ok (.error e) := by
  by_cases hex : ∃ p, Selected L verstr p
  · obtain ⟨p, hp⟩ := hex
    exact .inl ⟨p, hp, ((C79_version_flag h verstr).1 p).2 hp⟩
  · have hno : ∀ p, ¬ Selected L verstr p := fun p hp => hex ⟨p, hp⟩
    exact .inr ⟨hno, (C79_version_flag h verstr).2 hno⟩

theorem selected_unique (h : bindLineage C force r opts = .ok L) {verstr : Str} {p q : Nat}
    (hp : Selected L verstr p) (hq : Selected L verstr q) : p = q := by
  have e := ((C79_version_flag h verstr).1 p).2 hp
  rw [((C79_version_flag h verstr).1 q).2 hq] at e
  cases e
  rfl

/-- A data command succeeds iff the flag selects a schema, the input gives data, and the
command itself succeeds on both. -/
theorem dataCommand_success {α : Type} (h : bindLineage C force r opts = .ok L)
    (hH : E.H E.lin = L) {nv : Bool} {run : Nat → V → Res (Exit α)} {out : α} :
    dataCommand E F nv run = .ok (.success out) ↔
      ∃ p d, Selected L F.verstr p ∧ (nv = true → F.verstr ≠ []) ∧ DataIs E F d ∧
        Restricted E F ∧ run p d = .ok (.success out) := by
  constructor
  · intro hx
    rcases selectSchema_cases h F.verstr with ⟨p, hp, hs⟩ | ⟨_, e, hs⟩
    · by_cases hn : nv = true → F.verstr ≠ []
      · rw [dataCommand_eq (p := p) (by rw [hH]; exact hs) hn] at hx
        cases hv : validateDataInput E.K E.stdin E.fs F.format E.args with
        | error e => rw [hv] at hx; simp at hx
        | ok d =>
          rw [hv] at hx
          exact ⟨p, d, hp, hn, (input_ok.1 hv).1, (input_ok.1 hv).2, hx⟩
      · exfalso
        have h1 : nv = true := by
          cases nv
          · exact absurd (fun h => by cases h) hn
          · rfl
        have h2 : F.verstr = [] := by
          by_contra h2
          exact hn fun _ => h2
        unfold dataCommand at hx
        rw [hH, hs] at hx
        simp [h1, h2] at hx
    · unfold dataCommand at hx
      rw [hH, hs] at hx
      simp at hx
  · rintro ⟨p, d, hp, hn, hi, hr, hx⟩
    rw [dataCommand_run h hH hi hr hp hn, hx]

/-- A data command ends with status 0 or 1, if the command itself does. -/
theorem dataCommand_ends {α : Type} (h : bindLineage C force r opts = .ok L)
    (hH : E.H E.lin = L) {nv : Bool} {run : Nat → V → Res (Exit α)}
    (hrun : ∀ p d, Selected L F.verstr p → ∃ x, run p d = .ok x) :
    ∃ x, dataCommand E F nv run = .ok x := by
  unfold dataCommand
  rw [hH]
  rcases selectSchema_cases h F.verstr with ⟨p, hp, hs⟩ | ⟨_, e, hs⟩
  · rw [hs]
    simp only [Res.bind_ok]
    split
    · exact ⟨_, rfl⟩
    · cases hv : validateDataInput E.K E.stdin E.fs F.format E.args with
      | error e => exact ⟨_, rfl⟩
      | ok d => exact hrun p d hp
  · rw [hs]
    exact ⟨_, rfl⟩

theorem validateFull_inl {H : Heap V} {lin p : Nat} (hH : H lin = L) (hp : p < L.allsch.length)
    {d : V} {x : Inst V} :
    validateFull C H ⟨lin, p⟩ d = .ok (.inl x) ↔ Admits C L p d ∧ x = asInstance lin p d := by
  rw [cli_admits_iff hp, validateFull_eq hH hp]
  unfold Cue.accepts
  cases hv : C.validate (C.unify L.allsch[p].body d) with
  | none => simp [asInstance, eq_comm]
  | some e =>
    simp only [reduceCtorEq, false_and, iff_false]
    cases mungeValidateErr e <;> simp

/-- `ValidateAny` returns an instance of the oldest schema that admits the data, if no version
is repeated up to it, and no other instance. -/
theorem validateAny_some_iff (hP : PathsOk C) (h : bindLineage C force r opts = .ok L) {H : Heap V}
    {lin : Nat} (hH : H lin = L) {d : V} {n : Nat} (hn : L.allsch.length ≤ n) {x : Inst V} :
    validateAny C H lin d n = .ok (some x) ↔
      ∃ q, DistinctUpTo L q ∧ Oldest C L d q ∧ x = asInstance lin q d := by
  constructor
  · intro hx
    by_cases hex : ∃ p, DistinctUpTo L p ∧ Admits C L p d
    · obtain ⟨p, hp, ha⟩ := hex
      obtain ⟨q, hq, h1, h2⟩ := first_admits p ha
      rw [C153_finds hP h hH (distinct_le hp hq) h1 h2 hn] at hx
      simp only [Res.ok.injEq, Option.some.injEq] at hx
      exact ⟨q, distinct_le hp hq, ⟨h1, h2⟩, hx.symm⟩
    · have hno : ∀ p, DistinctUpTo L p → ¬ Admits C L p d := fun p hp ha => hex ⟨p, hp, ha⟩
      by_cases hr : RepeatsEarly L
      · rw [C153_never hP h hH hno hr] at hx; cases hx
      · rw [C153_none hP h hH hno hr hn] at hx; cases hx
  · rintro ⟨q, hq, ⟨h1, h2⟩, rfl⟩
    exact C153_finds hP h hH hq h1 h2 hn

theorem validateAny_ends (hP : PathsOk C) (h : bindLineage C force r opts = .ok L) {H : Heap V}
    {lin : Nat} (hH : H lin = L) {d : V} {n : Nat} (hn : L.allsch.length ≤ n) :
    (∃ x, validateAny C H lin d n = .ok x) ∨
    validateAny C H lin d n = .fuel ∧ RepeatsEarly L ∧
      ∀ p, DistinctUpTo L p → ¬ Admits C L p d := by
  by_cases hex : ∃ p, DistinctUpTo L p ∧ Admits C L p d
  · obtain ⟨p, hp, ha⟩ := hex
    obtain ⟨q, hq, h1, h2⟩ := first_admits p ha
    exact .inl ⟨_, C153_finds hP h hH (distinct_le hp hq) h1 h2 hn⟩
  · have hno : ∀ p, DistinctUpTo L p → ¬ Admits C L p d := fun p hp ha => hex ⟨p, hp, ha⟩
    by_cases hr : RepeatsEarly L
    · exact .inr ⟨C153_never hP h hH hno hr n, hr, hno⟩
    · exact .inl ⟨_, C153_none hP h hH hno hr hn⟩

/-- **C169**.  `thema data validate` exits with status 0 exactly if the flag selects a schema,
the input can be read and is data, and that schema admits it; it then prints nothing.
Otherwise it exits with status 1. -/
theorem C169_validate (hP : PathsOk C) (h : bindLineage C force r opts = .ok L) (hC : E.C = C)
    (hH : E.H E.lin = L) (F : DataFlags) :
    (∀ out, cmdValidate E F = .ok (.success out) ↔ out = [] ∧
      ∃ p d, Selected L F.verstr p ∧ DataIs E F d ∧ Restricted E F ∧ Admits C L p d) ∧
    ∃ x, cmdValidate E F = .ok x := by
  subst hC
  constructor
  · intro out
    unfold cmdValidate
    rw [dataCommand_success h hH]
    constructor
    · rintro ⟨p, d, hs, _, hi, hr, hx⟩
      unfold runValidate at hx
      rcases validateFull_cases hP hH (selected_lt hs) d with ⟨ha, he⟩ | ⟨ha, f, he⟩
      · rw [he] at hx
        simp only [Res.map_ok, Res.ok.injEq, Exit.success.injEq] at hx
        exact ⟨hx.symm, p, d, hs, hi, hr, ha⟩
      · rw [he] at hx; simp at hx
    · rintro ⟨rfl, p, d, hs, hi, hr, ha⟩
      refine ⟨p, d, hs, by simp, hi, hr, ?_⟩
      rw [runValidate, (validateFull_inl hH (selected_lt hs)).2 ⟨ha, rfl⟩]
      rfl
  · refine dataCommand_ends h hH fun p d hs => ?_
    unfold runValidate
    rcases validateFull_cases hP hH (selected_lt hs) d with ⟨ha, he⟩ | ⟨ha, f, he⟩ <;> rw [he] <;>
      exact ⟨_, rfl⟩

/-- **C169**.  `thema data validate-any` exits with status 0 exactly if the flag selects a
schema, the input can be read and is data, and either the selected schema admits it, whose
version is then printed, or the oldest schema that admits it has no repeated version up to
it, and the version of that schema is printed. -/
theorem C169_validate_any (hP : PathsOk C) (h : bindLineage C force r opts = .ok L) (hC : E.C = C)
    (hH : E.H E.lin = L) (hn : L.allsch.length ≤ E.fuel) (F : DataFlags) (out : Str) :
    cmdValidateAny E F = .ok (.success out) ↔
      ∃ p d, Selected L F.verstr p ∧ DataIs E F d ∧ Restricted E F ∧
        ∃ q, out = (L.ver q).str ++ ['\n'] ∧
          ((Admits C L p d ∧ q = p) ∨ (¬ Admits C L p d ∧ DistinctUpTo L q ∧ Oldest C L d q)) := by
  subst hC
  unfold cmdValidateAny
  rw [dataCommand_success h hH]
  have key : ∀ p d, Selected L F.verstr p →
      (runValidateAny E.C E.H E.lin (some p) d E.fuel = .ok (.success out) ↔
        ∃ q, out = (L.ver q).str ++ ['\n'] ∧ ((Admits E.C L p d ∧ q = p) ∨
          (¬ Admits E.C L p d ∧ DistinctUpTo L q ∧ Oldest E.C L d q))) := by
    intro p d hs
    simp only [runValidateAny]
    rcases validateFull_cases hP hH (selected_lt hs) d with ⟨ha, he⟩ | ⟨ha, f, he⟩
    · rw [he]
      simp only [Res.bind_ok, Res.ok.injEq, Exit.success.injEq, versionLine, hH, ha, true_and,
        not_true_eq_false, false_and, or_false]
      constructor
      · rintro rfl; exact ⟨p, rfl, rfl⟩
      · rintro ⟨q, rfl, rfl⟩; rfl
    · rw [he]
      simp only [Res.bind_ok, validateAnyRest, ha, false_and, not_false_eq_true, true_and, false_or]
      constructor
      · intro hx
        cases hv : validateAny E.C E.H E.lin d E.fuel with
        | ok o =>
          rw [hv] at hx
          cases o with
          | none => simp at hx
          | some i =>
            obtain ⟨q, hq, ho, rfl⟩ := (validateAny_some_iff hP h hH hn).1 hv
            simp only [Res.map_ok, Res.ok.injEq, Exit.success.injEq, versionLine, asInstance, hH] at hx
            exact ⟨q, hx.symm, hq, ho⟩
        | err e => rw [hv] at hx; simp at hx
        | panic k => rw [hv] at hx; simp at hx
        | fuel => rw [hv] at hx; simp at hx
      · rintro ⟨q, rfl, hq, ho⟩
        rw [(validateAny_some_iff hP h hH hn).2 ⟨q, hq, ho, rfl⟩]
        simp [versionLine, asInstance, hH]
  constructor
  · rintro ⟨p, d, hs, _, hi, hr, hx⟩
    exact ⟨p, d, hs, hi, hr, (key p d hs).1 hx⟩
  · rintro ⟨p, d, hs, hi, hr, hx⟩
    exact ⟨p, d, hs, by simp, hi, hr, (key p d hs).2 hx⟩

/-- **C169**.  `thema data validate-any` hangs exactly if the selected schema and all schemas
before the first repeated version refuse the data and that version is not the latest;
otherwise it exits with status 0 or 1. -/
theorem C169_validate_any_hangs (hP : PathsOk C) (h : bindLineage C force r opts = .ok L)
    (hC : E.C = C) (hH : E.H E.lin = L) (hn : L.allsch.length ≤ E.fuel) (F : DataFlags) :
    (cmdValidateAny E F = .fuel ↔
      RepeatsEarly L ∧ ∃ p d, Selected L F.verstr p ∧ DataIs E F d ∧ Restricted E F ∧
        ¬ Admits C L p d ∧ ∀ q, DistinctUpTo L q → ¬ Admits C L q d) ∧
    (cmdValidateAny E F = .fuel ∨ ∃ x, cmdValidateAny E F = .ok x) := by
  subst hC
  unfold cmdValidateAny
  have key : ∀ p d, Selected L F.verstr p →
      (runValidateAny E.C E.H E.lin (some p) d E.fuel = .fuel ∧ RepeatsEarly L ∧
        ¬ Admits E.C L p d ∧ ∀ q, DistinctUpTo L q → ¬ Admits E.C L q d) ∨
      ((∃ x, runValidateAny E.C E.H E.lin (some p) d E.fuel = .ok x) ∧
        ¬ (RepeatsEarly L ∧ ¬ Admits E.C L p d ∧ ∀ q, DistinctUpTo L q → ¬ Admits E.C L q d)) := by
    intro p d hs
    simp only [runValidateAny]
    rcases validateFull_cases hP hH (selected_lt hs) d with ⟨ha, he⟩ | ⟨ha, f, he⟩
    · rw [he]
      exact .inr ⟨⟨_, rfl⟩, fun hx => hx.2.1 ha⟩
    · rw [he]
      simp only [Res.bind_ok, validateAnyRest]
      rcases validateAny_ends hP h hH (d := d) hn with ⟨x, hx⟩ | ⟨hx, hr, hno⟩
      · refine .inr ⟨by rw [hx]; exact ⟨_, rfl⟩, ?_⟩
        rintro ⟨hr, _, hno⟩
        rw [C153_never hP h hH hno hr] at hx
        cases hx
      · exact .inl ⟨by rw [hx]; rfl, hr, ha, hno⟩
  rcases selectSchema_cases h F.verstr with ⟨p, hp, hs⟩ | ⟨hno, e, hs⟩
  · rw [dataCommand_eq (p := p) (by rw [hH]; exact hs) (by simp)]
    cases hv : validateDataInput E.K E.stdin E.fs F.format E.args with
    | error e =>
      refine ⟨⟨fun hx => by simp at hx, ?_⟩, .inr ⟨_, rfl⟩⟩
      rintro ⟨_, p', d, _, hi, hr, _⟩
      rw [input_ok.2 ⟨hi, hr⟩] at hv
      cases hv
    | ok d =>
      simp only
      have hd := input_ok.1 hv
      rcases key p d hp with ⟨hx, h1, h2, h3⟩ | ⟨⟨x, hx⟩, hn'⟩
      · exact ⟨⟨fun _ => ⟨h1, p, d, hp, hd.1, hd.2, h2, h3⟩, fun _ => hx⟩, .inl hx⟩
      · refine ⟨⟨fun hf => ?_, ?_⟩, .inr ⟨x, hx⟩⟩
        · rw [hx] at hf; cases hf
        · rintro ⟨h1, p', d', hs', hi', hr', h2, h3⟩
          exfalso
          obtain rfl := selected_unique h hp hs'
          have := input_ok.2 ⟨hi', hr'⟩
          rw [hv] at this
          cases this
          exact hn' ⟨h1, h2, h3⟩
  · unfold dataCommand
    rw [hH, hs]
    refine ⟨⟨fun hx => by simp at hx, ?_⟩, .inr ⟨_, rfl⟩⟩
    rintro ⟨_, p', _, hs', _⟩
    exact absurd hs' (hno p')

/-- **C169**.  `thema data hydrate` and `dehydrate` exit with status 0 exactly if the flag
selects a schema, the input can be read and is data, that schema admits it, and the result
can be written as JSON, which is then printed. -/
theorem C169_hydrate (hP : PathsOk C) (h : bindLineage C force r opts = .ok L) (hC : E.C = C)
    (hH : E.H E.lin = L) (op : Inst V → V) (marshal : V → Option Str) (F : DataFlags) :
    (∀ out, cmdHydrate E op marshal F = .ok (.success out) ↔
      ∃ p d, Selected L F.verstr p ∧ DataIs E F d ∧ Restricted E F ∧ Admits C L p d ∧
        marshal (op (asInstance E.lin p d)) = some out) ∧
    ∃ x, cmdHydrate E op marshal F = .ok x := by
  subst hC
  constructor
  · intro out
    unfold cmdHydrate
    rw [dataCommand_success h hH]
    have key : ∀ p d, Selected L F.verstr p →
        (runHydrate E.C E.H op marshal E.lin (some p) d E.fuel = .ok (.success out) ↔
          Admits E.C L p d ∧ marshal (op (asInstance E.lin p d)) = some out) := by
      intro p d hs
      simp only [runHydrate, hydrateInput]
      rcases validateFull_cases hP hH (selected_lt hs) d with ⟨ha, he⟩ | ⟨ha, f, he⟩
      · rw [he]
        simp only [Res.map_ok, ha, true_and, Res.ok.injEq]
        cases marshal (op (asInstance E.lin p d)) <;> simp
      · rw [he]
        simp [ha]
    constructor
    · rintro ⟨p, d, hs, _, hi, hr, hx⟩
      exact ⟨p, d, hs, hi, hr, (key p d hs).1 hx⟩
    · rintro ⟨p, d, hs, hi, hr, hx⟩
      exact ⟨p, d, hs, by simp, hi, hr, (key p d hs).2 hx⟩
  · refine dataCommand_ends h hH fun p d hs => ?_
    simp only [runHydrate, hydrateInput]
    rcases validateFull_cases hP hH (selected_lt hs) d with ⟨ha, he⟩ | ⟨ha, f, he⟩ <;> rw [he] <;>
      exact ⟨_, rfl⟩

/-- **C169**.  `thema data translate` exits with status 0 exactly if the flag is given and
selects a schema, the input can be read and is data, the oldest schema that admits it has no
repeated version up to it, and `Translate` of that instance to the selected version succeeds
with data that is concrete.  It prints the version of that oldest schema, that of the result,
its data and its lacunas. -/
theorem C169_translate (hP : PathsOk C) (h : bindLineage C force r opts = .ok L) (hC : E.C = C)
    (hH : E.H E.lin = L) (hn : L.allsch.length ≤ E.fuel) (bad : V → Bool) (F : DataFlags)
    (out : TranslationResult V) :
    cmdTranslate E bad F = .ok (.success out) ↔
      F.verstr ≠ [] ∧ ∃ p d q t lac, Selected L F.verstr p ∧ DataIs E F d ∧ Restricted E F ∧
        DistinctUpTo L q ∧ Oldest C L d q ∧
        translate C E.H E.fuel (asInstance E.lin q d) (L.ver p) = .ok (t, lac) ∧
        bad t.raw = false ∧
        out = ⟨(L.ver q).str, ((E.H t.sch.lin).ver t.sch.pos).str, t.raw, lac⟩ := by
  subst hC
  unfold cmdTranslate
  rw [dataCommand_success h hH]
  have key : ∀ p d, (runTranslate E.C E.H bad E.lin p d E.fuel = .ok (.success out) ↔
      ∃ q t lac, DistinctUpTo L q ∧ Oldest E.C L d q ∧
        translate E.C E.H E.fuel (asInstance E.lin q d) (L.ver p) = .ok (t, lac) ∧
        bad t.raw = false ∧
        out = ⟨(L.ver q).str, ((E.H t.sch.lin).ver t.sch.pos).str, t.raw, lac⟩) := by
    intro p d
    unfold runTranslate
    constructor
    · intro hx
      obtain ⟨o, hv, hx⟩ := Res.bind_eq_ok'.1 hx
      cases o with
      | none => simp at hx
      | some i =>
        obtain ⟨q, hq, ho, rfl⟩ := (validateAny_some_iff hP h hH hn).1 hv
        simp only [hH] at hx
        cases ht : translate E.C E.H E.fuel (asInstance E.lin q d) (L.ver p) with
        | ok x =>
          obtain ⟨t, lac⟩ := x
          rw [ht] at hx
          simp only at hx
          split at hx
          · simp at hx
          · rename_i hb
            simp only [Res.ok.injEq, Exit.success.injEq] at hx
            refine ⟨q, t, lac, hq, ho, ht, by simpa using hb, ?_⟩
            rw [← hx]
            simp [asInstance, hH]
        | err e => rw [ht] at hx; simp at hx
        | panic k => rw [ht] at hx; simp at hx
        | fuel => rw [ht] at hx; simp at hx
    · rintro ⟨q, t, lac, hq, ho, ht, hb, rfl⟩
      rw [(validateAny_some_iff hP h hH hn).2 ⟨q, hq, ho, rfl⟩]
      simp only [Res.bind_ok, hH, ht, hb]
      simp [asInstance, hH]
  constructor
  · rintro ⟨p, d, hs, hv, hi, hr, hx⟩
    obtain ⟨q, t, lac, hx⟩ := (key p d).1 hx
    exact ⟨hv rfl, p, d, q, t, lac, hs, hi, hr, hx⟩
  · rintro ⟨hv, p, d, q, t, lac, hs, hi, hr, hx⟩
    exact ⟨p, d, hs, fun _ => hv, hi, hr, (key p d).2 ⟨q, t, lac, hx⟩⟩

/-! ### Concrete cases -/

theorem dup_repeatsEarly : RepeatsEarly dupBound :=
  ⟨1, ⟨by decide, fun j k hjk hk => by
    obtain ⟨rfl, rfl⟩ : j = 0 ∧ k = 1 := by omega
    decide⟩, by decide, by decide, by decide⟩

theorem dup_none (q : Nat) : ¬ Admits SetCue.cue dupBound q [7] := by
  rintro ⟨s, hs, ha⟩
  match q, hs with
  | 0, hs => injection hs with hs; subst hs; exact absurd ha (by decide)
  | 1, hs => injection hs with hs; subst hs; exact absurd ha (by decide)
  | 2, hs => injection hs with hs; subst hs; exact absurd ha (by decide)
  | 3, hs => injection hs with hs; subst hs; exact absurd ha (by decide)

/-- Data that 1.0, the latest version, admits; and data that no schema admits. -/
example : cmdValidate (toyEnv .namedPipe [3]) noFlags = .ok (.success []) ∧
    ¬ ∃ out, cmdValidate (toyEnv .namedPipe [7]) noFlags = .ok (.success out) := by
  have h := C169_validate setCue_pathsOk (E := toyEnv .namedPipe [3]) (force := false)
    (r := threeVersions) (opts := []) (L := threeBound) rfl rfl rfl noFlags
  have h' := C169_validate setCue_pathsOk (E := toyEnv .namedPipe [7]) (force := false)
    (r := threeVersions) (opts := []) (L := threeBound) rfl rfl rfl noFlags
  refine ⟨(h.1 _).2 ⟨rfl, 2, [3], toy_selected_latest, toy_input 3 (by decide) _,
    toy_restricted 3, _, rfl, by decide⟩, ?_⟩
  rintro ⟨out, ho⟩
  obtain ⟨_, p, d, _, ⟨b, hb, hd⟩, _, ha⟩ := (h'.1 _).1 ho
  have hb : b = [7] := by
    rcases hb with ⟨p, hp, _⟩ | ⟨_, hb⟩
    · cases hp
    · exact hb.symm
  subst hb
  have hd : d = [7] := by
    rcases hd with ⟨hf, _⟩ | ⟨hf, _⟩ | ⟨_, hd | ⟨hd, _⟩⟩
    · cases hf
    · cases hf
    · cases hd; rfl
    · cases hd
  subst hd
  exact toy_none p ha

/-- Data that 0.1 admits and the latest version does not. -/
example : cmdValidateAny (toyEnv .namedPipe [2]) noFlags = .ok (.success "0.1\n".toList) :=
  (C169_validate_any setCue_pathsOk (E := toyEnv .namedPipe [2]) (force := false)
    (r := threeVersions) (opts := []) (L := threeBound) rfl rfl rfl (by decide) noFlags _).2
    ⟨2, [2], toy_selected_latest, toy_input 2 (by decide) _, toy_restricted 2, 1, rfl,
      .inr ⟨by rintro ⟨s, hs, ha⟩; injection hs with hs; subst hs; exact absurd ha (by decide),
        ⟨by decide, fun j k hjk hk => by
          obtain ⟨rfl, rfl⟩ : j = 0 ∧ k = 1 := by omega
          decide⟩, ⟨_, rfl, by decide⟩, fun q hq => by
            obtain rfl : q = 0 := by omega
            rintro ⟨s, hs, ha⟩
            injection hs with hs; subst hs
            exact absurd ha (by decide)⟩⟩

example : cmdHydrate (toyEnv .namedPipe [3]) (·.raw) (fun _ => some "x".toList) noFlags =
    .ok (.success "x".toList) :=
  ((C169_hydrate setCue_pathsOk (E := toyEnv .namedPipe [3]) (force := false)
    (r := threeVersions) (opts := []) (L := threeBound) rfl rfl rfl _ _ noFlags).1 _).2
    ⟨2, [3], toy_selected_latest, toy_input 3 (by decide) _, toy_restricted 3,
      ⟨_, rfl, by decide⟩, rfl⟩

/-- In the lineage with a repeated version, data that no schema admits. -/
example : cmdValidateAny { toyEnv .namedPipe [7] with H := fun _ => dupBound } noFlags = .fuel :=
  (C169_validate_any_hangs setCue_pathsOk
    (E := { toyEnv .namedPipe [7] with H := fun _ => dupBound }) (force := false)
    (r := dupVersions) (opts := []) (L := dupBound) rfl rfl rfl (by decide) noFlags).1.2
    ⟨dup_repeatsEarly, 3, [7], .inl ⟨rfl, rfl⟩,
      ⟨[7], .inr ⟨rfl, rfl⟩, .inr (.inr ⟨rfl, .inl rfl⟩)⟩, ⟨fun _ => rfl, fun h => absurd rfl h⟩,
      dup_none 3, fun q _ => dup_none q⟩

/-- Translation of data that the oldest schema admits. -/
example : ∃ out, cmdTranslate (toyEnv .namedPipe [13]) (fun _ => false)
    { noFlags with verstr := "1.0".toList } = .ok (.success out) ∧ out.frm = "1.0".toList :=
  ⟨_, rfl, rfl⟩

example (out : TranslationResult SetCue.Val) := C169_translate setCue_pathsOk
  (E := toyEnv .namedPipe [13]) (force := false) (r := threeVersions) (opts := [])
  (L := threeBound) rfl rfl rfl (by decide) (fun _ => false) { noFlags with verstr := "1.0".toList } out

end Thema.Props
