import Verif.Props.Validate

/-!
# C168: what `Validate` returns, exactly
-/

namespace Thema.Props

open Thema Thema.Spec

variable {V : Type} {C : Cue V} {force : Bool} {r : RawLineage V} {opts : List (BindOption V)}
  {L : Lineage V}

/-! ### The report of an error is determined by the error -/

theorem cut_unique {sep : Str} {v : Str} {a b : List Str} (ha : Cut sep v a) (hb : Cut sep v b) :
    a = b := by
  induction ha generalizing b with
  | last hno =>
    cases hb with
    | last _ => rfl
    | step heq _ _ => exact absurd ⟨_, _, heq⟩ hno
  | step heq hfirst _ ih =>
    cases hb with
    | last hno => exact absurd ⟨_, _, heq⟩ hno
    | step heq' hfirst' hrest' =>
      have hl := Nat.le_antisymm (hfirst _ _ heq') (hfirst' _ _ heq)
      have h := heq.symm.trans heq'
      rw [List.append_assoc, List.append_assoc] at h
      obtain ⟨rfl, _⟩ := List.append_inj h hl
      have h := List.append_cancel_left (List.append_cancel_left h)
      rw [ih (h ▸ hrest')]

theorem readable_unique {v a b : Str} (ha : Readable v a) (hb : Readable v b) : a = b := by
  obtain ⟨pa, ha, rfl⟩ := ha
  obtain ⟨pb, hb, rfl⟩ := hb
  rw [cut_unique ha hb]

theorem positions_determined {all sp dp sp' dp' : List Str} (h : Positions all sp dp)
    (h' : Positions all sp' dp') : sp = sp' ∧ dp = dp' :=
  ⟨(positions_unique h).1.trans (positions_unique h').1.symm,
    (positions_unique h).2.trans (positions_unique h').2.symm⟩

theorem fieldPath_unique {path a b : List Str} (ha : FieldPath path a) (hb : FieldPath path b) :
    a = b := by
  have h := (trimThemaPath_iff _ _).2 ha
  rw [(trimThemaPath_iff _ _).2 hb] at h
  exact (Res.ok.inj h).symm

/-- One error has at most one report. -/
theorem C168_report_determined {ee : CueErr} {f f' : FieldErr} (h : Reports ee f)
    (h' : Reports ee f') : f = f' := by
  cases h with
  | missing hp hpath hv hm hr =>
    cases h' with
    | missing hp' hpath' hv' hm' hr' =>
      obtain ⟨rfl, rfl⟩ := positions_determined hp hp'
      obtain rfl := fieldPath_unique hpath hpath'
      rw [hv] at hv'
      simp only [List.cons.injEq, Operand.str.injEq, and_true] at hv'
      subst hv'
      rw [readable_unique hr hr']
    | excess _ _ _ hn => exact absurd hm hn
    | bounds _ _ hs hd => by_cases hdf : DataFirst ee.positions <;> simp_all
    | kinds _ _ hs hd => by_cases hdf : DataFirst ee.positions <;> simp_all
  | excess hp hpath hv hn hm hr =>
    cases h' with
    | missing _ _ _ hm' => exact absurd hm' hn
    | excess hp' hpath' hv' hn' hm' hr' =>
      obtain ⟨rfl, rfl⟩ := positions_determined hp hp'
      obtain rfl := fieldPath_unique hpath hpath'
      rw [hv] at hv'
      simp only [List.cons.injEq, Operand.str.injEq, and_true] at hv'
      subst hv'
      rw [readable_unique hr hr']
    | bounds _ _ hs hd => by_cases hdf : DataFirst ee.positions <;> simp_all
    | kinds _ _ hs hd => by_cases hdf : DataFirst ee.positions <;> simp_all
  | bounds hp hpath hs hd hr =>
    cases h' with
    | missing _ _ hv => by_cases hdf : DataFirst ee.positions <;> simp_all
    | excess _ _ hv => by_cases hdf : DataFirst ee.positions <;> simp_all
    | bounds hp' hpath' hs' hd' hr' =>
      obtain ⟨rfl, rfl⟩ := positions_determined hp hp'
      obtain rfl := fieldPath_unique hpath hpath'
      by_cases hdf : DataFirst ee.positions
      · have e := (hd hdf).symm.trans (hd' hdf)
        simp only [List.cons.injEq, Operand.str.injEq, and_true] at e
        obtain ⟨rfl, rfl⟩ := e
        rw [readable_unique hr hr']
      · have e := (hs hdf).symm.trans (hs' hdf)
        simp only [List.cons.injEq, Operand.str.injEq, and_true] at e
        obtain ⟨rfl, rfl⟩ := e
        rw [readable_unique hr hr']
    | kinds _ _ hs' hd' =>
      by_cases hdf : DataFirst ee.positions
      · have e := (hd hdf).symm.trans (hd' hdf)
        simp at e
      · have e := (hs hdf).symm.trans (hs' hdf)
        simp at e
  | kinds hp hpath hs hd hover hcode hr =>
    cases h' with
    | missing _ _ hv => by_cases hdf : DataFirst ee.positions <;> simp_all
    | excess _ _ hv => by_cases hdf : DataFirst ee.positions <;> simp_all
    | bounds _ _ hs' hd' =>
      by_cases hdf : DataFirst ee.positions
      · have e := (hd hdf).symm.trans (hd' hdf)
        simp at e
      · have e := (hs hdf).symm.trans (hs' hdf)
        simp at e
    | kinds hp' hpath' hs' hd' hover' hcode' hr' =>
      obtain ⟨rfl, rfl⟩ := positions_determined hp hp'
      obtain rfl := fieldPath_unique hpath hpath'
      have codes : ∀ {c c' : Code} {P : Prop}, (c = .outOfBounds ↔ P) → (c' = .outOfBounds ↔ P) →
          (c = .outOfBounds ∨ c = .kindConflict) → (c' = .outOfBounds ∨ c' = .kindConflict) →
          c = c' := by
        rintro c c' P h1 h2 (rfl | rfl) (rfl | rfl) <;> simp_all
      by_cases hdf : DataFirst ee.positions
      · have e := (hd hdf).symm.trans (hd' hdf)
        simp only [List.cons.injEq, Operand.str.injEq, Operand.kind.injEq, and_true] at e
        obtain ⟨rfl, rfl, rfl, rfl⟩ := e
        rw [readable_unique hr hr', codes hover hover' hcode hcode']
      · have e := (hs hdf).symm.trans (hs' hdf)
        simp only [List.cons.injEq, Operand.str.injEq, Operand.kind.injEq, and_true] at e
        obtain ⟨rfl, rfl, rfl, rfl⟩ := e
        rw [readable_unique hr hr', codes hover hover' hcode hcode']

theorem forall2_determined {α β : Type} {R : α → β → Prop} (hR : ∀ a b b', R a b → R a b' → b = b')
    {l : List α} {m m' : List β} (h : List.Forall₂ R l m) (h' : List.Forall₂ R l m') : m = m' := by
  induction h generalizing m' with
  | nil => cases h'; rfl
  | cons hr _ ih =>
    cases h' with
    | cons hr' ht' => rw [hR _ _ _ hr hr', ih ht']

/-! ### The outcome -/

open Classical in
theorem mungeLoop_reports : ∀ (es : List CueErr) {fs : List FieldErr}, mungeLoop es = .ok fs →
    List.Forall₂ Reports (es.filter fun ee => decide (KnownShape ee)) fs
  | [], fs, h => by
    simp only [mungeLoop, Res.ok.injEq] at h
    subst h
    exact .nil
  | ee :: es, fs, h => by
    simp only [mungeLoop] at h
    obtain ⟨o, ho, h⟩ := Res.bind_eq_ok'.1 h
    obtain ⟨r, hr, h⟩ := Res.bind_eq_ok'.1 h
    have ih := mungeLoop_reports es hr
    unfold mungeOne at ho
    cases ht : trimThemaPath ee.path with
    | err e => rw [ht] at ho; simp at ho
    | panic k => rw [ht] at ho; simp at ho
    | fuel => rw [ht] at ho; simp at ho
    | ok path =>
      rw [ht] at ho
      simp only [Res.map_ok, Res.ok.injEq] at ho
      cases o with
      | none =>
        simp only [Res.ok.injEq] at h
        subst h
        rw [List.filter_cons_of_neg (by simpa using mungeSwitch_none ho)]
        exact ih
      | some fe =>
        simp only [Res.ok.injEq] at h
        subst h
        obtain ⟨h1, h2⟩ := mungeSwitch_reports ((trimThemaPath_iff _ _).1 ht) ho
        rw [List.filter_cons_of_pos (by simpa using h2)]
        exact .cons h1 ih

open Classical in
/-- **C168**.  `Validate` has exactly these outcomes: it returns the data as an instance of
the schema iff CUE finds no error; it panics iff CUE's error has a sub-error whose path has
no part below the schema; an error that is not a CUE error comes back as it is; and otherwise
the error is `ErrInvalidData` and lists the reports of the sub-errors of a known shape, one
each and in their order. -/
theorem C168_validate_outcome (h : bindLineage C force r opts = .ok L) (H : Heap V) {lin : Nat}
    (hH : H lin = L) {p : Nat} (hp : p < r.schemas.length) (d : V) :
    (C.validate (C.unify r.schemas[p].body d) = none ↔
      ∃ x, validateFull C H ⟨lin, p⟩ d = .ok (.inl x)) ∧
    (∀ x, validateFull C H ⟨lin, p⟩ d = .ok (.inl x) → x.raw = d ∧ x.sch = ⟨lin, p⟩) ∧
    ((validateFull C H ⟨lin, p⟩ d).Panics ↔
      ∃ es, C.validate (C.unify r.schemas[p].body d) = some (.cue es) ∧
        ∃ ee ∈ es, ¬ PathOk ee.path) ∧
    (∀ f, validateFull C H ⟨lin, p⟩ d = .ok (.inr f) ↔
      (∃ m, C.validate (C.unify r.schemas[p].body d) = some (.notCue m) ∧ f = ⟨⟨m⟩, []⟩) ∨
      ∃ es, C.validate (C.unify r.schemas[p].body d) = some (.cue es) ∧
        (∀ ee ∈ es, PathOk ee.path) ∧ f.err = ⟨[.invalidData]⟩ ∧
        List.Forall₂ Reports (es.filter fun ee => decide (KnownShape ee)) f.fields) := by
  have hp' : p < L.allsch.length := by rw [bind_length h]; exact hp
  rw [validateFull_eq hH hp', bind_body h hp hp']
  cases hv : C.validate (C.unify r.schemas[p].body d) with
  | none => simp [Res.Panics, eq_comm]
  | some e =>
    cases e with
    | notCue m => simp [mungeValidateErr, Res.Panics, eq_comm]
    | cue es =>
      by_cases hok : ∀ ee ∈ es, PathOk ee.path
      · obtain ⟨fs, hf⟩ := (mungeLoop_ok_iff es).2 hok
        have hrep := mungeLoop_reports es hf
        simp only [mungeValidateErr, hf, Res.map_ok, Res.Panics, reduceCtorEq, false_iff, exists_false,
          Res.ok.injEq, false_and, Option.some.injEq, false_or, ValErr.cue.injEq, Sum.inr.injEq,
          IsEmpty.forall_iff, implies_true, true_and]
        refine ⟨by simpa using hok, ?_⟩
        intro f
        constructor
        · rintro rfl
          exact ⟨es, rfl, hok, rfl, hrep⟩
        · rintro ⟨es', rfl, _, he, hr⟩
          have : fs = f.fields :=
            forall2_determined (R := Reports) (fun _ _ _ h1 h2 => C168_report_determined h1 h2) hrep hr
          subst this
          rw [← he]
      · have hpan := mungeLoop_panics es hok
        simp only [mungeValidateErr, hpan]
        push Not at hok
        refine ⟨by simp, by simp, ⟨fun _ => ⟨es, rfl, hok⟩, fun _ => by simp [Res.Panics]⟩, ?_⟩
        intro f
        constructor
        · intro hx; simp at hx
        · rintro (⟨m, hm, _⟩ | ⟨es', he, hall, _⟩)
          · cases hm
          · simp only [Option.some.injEq, ValErr.cue.injEq] at he
            subst he
            obtain ⟨ee, hm, hn⟩ := hok
            exact absurd (hall ee hm) hn

open Classical in
example : (∃ x, validateFull SetCue.cue (fun _ => threeBound) ⟨0, 1⟩ [2] = .ok (.inl x)) ∧
    ¬ (validateFull SetCue.cue (fun _ => threeBound) ⟨0, 0⟩ [2]).Panics ∧
    ∃ f es, validateFull SetCue.cue (fun _ => threeBound) ⟨0, 0⟩ [2] = .ok (.inr f) ∧
      SetCue.cue.validate (SetCue.cue.unify [1] [2]) = some (.cue es) ∧
      List.Forall₂ Reports (es.filter fun ee => decide (KnownShape ee)) f.fields := by
  refine ⟨(C168_validate_outcome threeBound_eq (fun _ => threeBound) (lin := 0) rfl (p := 1)
    (by decide) [2]).1.1 rfl, ?_, _, _, rfl, rfl, ?_⟩
  · intro hp
    obtain ⟨es, hes, ee, hee, hn⟩ := (C168_validate_outcome threeBound_eq (fun _ => threeBound)
      (lin := 0) rfl (p := 0) (by decide) [2]).2.2.1.1 hp
    exact hn (setCue_pathsOk _ _ hes ee hee)
  · rcases ((C168_validate_outcome threeBound_eq (fun _ => threeBound) (lin := 0) rfl (p := 0)
      (by decide) [2]).2.2.2 _).1 rfl with ⟨m, hm, _⟩ | ⟨es, hes, _, _, hr⟩
    · cases hm
    · cases hes
      exact hr

/-- Of these three errors the first and the last are reported. -/
example : ∃ f g, mungeLoop
    [⟨["x".toList, "a".toList], "field not allowed".toList, [.str "1".toList], []⟩,
     ⟨["x".toList, "b".toList], "empty disjunction".toList, [], []⟩,
     ⟨["x".toList, "c".toList], "m".toList, [.str "2".toList, .str "3".toList], []⟩] = .ok [f, g] :=
  ⟨_, _, rfl⟩

end Thema.Props
