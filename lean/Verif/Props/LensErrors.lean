import Verif.Spec.LensErrors
import Verif.Props.Hops

/-!
# What the error of a translation says (C155)
-/

namespace Thema.Props

open Spec

variable {V : Type} {C : Cue V} {force : Bool} {r : RawLineage V} {opts : List (BindOption V)}
  {L : Lineage V} {H : Heap V} {i j : Inst V}

theorem applyLens_complete {ls : List (CueLens V)} {idx : Int} {v : SV} {x : V}
    {sch : SchemaDef V} : applyLens C ls idx v x sch ≠ .incomplete := by
  unfold applyLens
  cases cueIdx ls idx with
  | none => simp
  | some l =>
    simp only [Eval.ofOption_some, Eval.bind_ok]
    repeat' split
    all_goals simp

theorem eval_bind_incomplete {α β : Type} {x : Eval α} {f : α → Eval β}
    (h : x.bind f = .incomplete) : x = .incomplete ∨ ∃ a, x = .ok a ∧ f a = .incomplete := by
  cases x with
  | ok a => exact .inr ⟨a, rfl, h⟩
  | error => cases h
  | incomplete => exact .inl rfl

theorem ofOption_complete {α : Type} {o : Option α} : Eval.ofOption o ≠ .incomplete := by
  cases o <;> simp

theorem backSteps_complete : ∀ (ps : List Int) (v : SV) (x : V),
    backSteps C L ps v x ≠ .incomplete := by
  intro ps
  induction ps with
  | nil => intro v x; simp [backSteps]
  | cons p ps ih =>
    intro v x h
    simp only [backSteps] at h
    rcases eval_bind_incomplete h with h | ⟨_, _, h⟩
    · exact ofOption_complete h
    rcases eval_bind_incomplete h with h | ⟨_, _, h⟩
    · exact ofOption_complete h
    rcases eval_bind_incomplete h with h | ⟨s, _, h⟩
    · exact applyLens_complete h
    rcases eval_bind_incomplete h with h | ⟨_, _, h⟩
    · exact ih _ _ h
    · cases h

theorem fwdSteps_complete (hs : StrictV L.allv) : ∀ (d p : Nat) (x : V),
    p + d < L.allsch.length →
    fwdSteps C L ((L.allsch.drop (p + 1)).take d) (L.ver p) x ≠ .incomplete := by
  intro d
  induction d with
  | zero => intro p x _; simp [fwdSteps]
  | succ d ih =>
    intro p x hd h
    rw [take_drop_cons _ _ _ (by omega : p + 1 < L.allsch.length)] at h
    simp only [fwdSteps] at h
    rcases eval_bind_incomplete h with h | ⟨s, hs', h⟩
    · unfold fwdStep at h
      rw [ver_sch] at h
      split at h
      · split at h <;> cases h
      · split at h
        · exact applyLens_complete h
        · have := major_le hs (by omega : p ≤ p + 1) (by omega : p + 1 < L.allsch.length)
          omega
    · rcases eval_bind_incomplete h with h | ⟨_, _, h⟩
      · rw [(fwdStep_to hs').1, ver_sch] at h
        exact ih (p + 1) _ (by omega) h
      · cases h

theorem translateSteps_complete (hc : Contiguous L.allv) {p q : Nat} (hp : p < L.allsch.length)
    (hq : q < L.allsch.length) (hp2 : (L.ver p).major ≤ 2) (hq2 : (L.ver q).major ≤ 2) {x : V} :
    translateSteps C L x (L.ver p) (L.ver q) ≠ .incomplete := by
  have hs := Contiguous.strictV hc
  unfold translateSteps
  rw [flatidx_ver hc hp hp2, flatidx_ver hc hq hq2]
  simp only [Eval.ofOption_some, Eval.bind_ok]
  split
  · intro h
    rcases eval_bind_incomplete h with h | ⟨_, _, h⟩
    · exact ofOption_complete h
    · exact backSteps_complete _ _ _ h
  · split
    · rename_i hlt
      have hlt' := (ver_less_iff hs hp hq).1 hlt
      obtain ⟨d, rfl⟩ : ∃ d, q = p + d := ⟨q - p, by omega⟩
      have hsl : cueSlice L.allsch ((p : Int) + 1) (((p + d : Nat) : Int) + 1) =
          some ((L.allsch.drop (p + 1)).take d) := by
        unfold cueSlice
        rw [if_neg (by omega)]
        congr 2
        omega
      rw [hsl, Eval.ofOption_some, Eval.bind_ok]
      exact fwdSteps_complete hs d p x hq
    · simp

theorem ascend_stuck (he : ExactLenses L) {p q k : Nat} {x y z : V} (h : Ascend C L p x q y)
    (hk : k < q) (hs : Ascend C L p x k z) : ∃ w, StepUp C L k z w := by
  induction h generalizing z with
  | refl => have := ascend_le hs; omega
  | step h1 t ih =>
    cases hs with
    | refl => exact ⟨_, h1⟩
    | step h2 t2 =>
      have := stepUp_unique he h1 h2
      subst this
      exact ih hk t2

theorem descend_stuck (he : ExactLenses L) {p q k : Nat} {x y z : V} (h : Descend C L p x q y)
    (hk : q ≤ k) (hs : Descend C L p x (k + 1) z) : ∃ w, StepDown C L k z w := by
  induction h generalizing z with
  | refl => have := descend_le hs; omega
  | step h1 t ih =>
    cases hs with
    | refl => exact ⟨_, h1⟩
    | step h2 t2 =>
      have := stepDown_unique he h1 h2
      subst this
      exact ih hk t2

theorem ascend_or_stuck : ∀ (d p : Nat) (x : V), (∃ y, Ascend C L p x (p + d) y) ∨
    ∃ k y, p ≤ k ∧ k < p + d ∧ Ascend C L p x k y ∧ ∀ z, ¬ StepUp C L k y z := by
  intro d
  induction d with
  | zero => intro p x; exact .inl ⟨x, .refl _ _⟩
  | succ d ih =>
    intro p x
    by_cases hst : ∃ x', StepUp C L p x x'
    · obtain ⟨x', hx⟩ := hst
      rcases ih (p + 1) x' with ⟨y, hy⟩ | ⟨k, y, h1, h2, h3, h4⟩
      · exact .inl ⟨y, by rw [Nat.add_right_comm] at hy; exact .step hx hy⟩
      · exact .inr ⟨k, y, by omega, by omega, .step hx h3, h4⟩
    · exact .inr ⟨p, x, Nat.le_refl _, by omega, .refl _ _, fun z hz => hst ⟨z, hz⟩⟩

theorem descend_or_stuck (q : Nat) : ∀ (d : Nat) (x : V), (∃ y, Descend C L (q + d) x q y) ∨
    ∃ k y, q ≤ k ∧ k < q + d ∧ Descend C L (q + d) x (k + 1) y ∧ ∀ z, ¬ StepDown C L k y z := by
  intro d
  induction d with
  | zero => intro x; exact .inl ⟨x, .refl _ _⟩
  | succ d ih =>
    intro x
    by_cases hst : ∃ x', StepDown C L (q + d) x x'
    · obtain ⟨x', hx⟩ := hst
      rcases ih x' with ⟨y, hy⟩ | ⟨k, y, h1, h2, h3, h4⟩
      · exact .inl ⟨y, .step hx hy⟩
      · exact .inr ⟨k, y, h1, by omega, .step hx h3, h4⟩
    · exact .inr ⟨q + d, x, by omega, by omega, .refl _ _, fun z hz => hst ⟨z, hz⟩⟩

/-- Either the walk arrives or it is stuck somewhere, not both. -/
theorem walk_or_stuck (p : Nat) (x : V) (q : Nat) :
    (∃ y, Walk C L p x q y) ∨ Stuck C L p x q := by
  rcases Nat.le_total p q with hle | hle
  · obtain ⟨d, rfl⟩ : ∃ d, q = p + d := ⟨q - p, by omega⟩
    rcases ascend_or_stuck (C := C) (L := L) d p x with ⟨y, h⟩ | h
    · exact .inl ⟨y, .inl ⟨hle, h⟩⟩
    · exact .inr (.inl h)
  · obtain ⟨d, rfl⟩ : ∃ d, p = q + d := ⟨p - q, by omega⟩
    rcases descend_or_stuck (C := C) (L := L) q d x with ⟨y, h⟩ | h
    · exact .inl ⟨y, .inr ⟨hle, h⟩⟩
    · exact .inr (.inr h)

theorem not_stuck_of_walk (he : ExactLenses L) {p q : Nat} {x y : V} (h : Walk C L p x q y) :
    ¬ Stuck C L p x q := by
  rintro (⟨k, z, h1, h2, h3, h4⟩ | ⟨k, z, h1, h2, h3, h4⟩)
  · rcases h with ⟨_, h⟩ | ⟨hle, h⟩
    · obtain ⟨w, hw⟩ := ascend_stuck he h h2 h3
      exact h4 w hw
    · omega
  · rcases h with ⟨hle, h⟩ | ⟨_, h⟩
    · omega
    · obtain ⟨w, hw⟩ := descend_stuck he h h1 h3
      exact h4 w hw

theorem validate_err_marks (hO : OnlyCueErrors C) {lin q : Nat} (hH : H lin = L)
    (hq : q < L.allsch.length) {d : V} {e : GoErr} (he : validate C H ⟨lin, q⟩ d = .err e) :
    e = ⟨[.invalidData]⟩ := by
  unfold validate at he
  rw [validateFull_eq hH hq] at he
  cases hv : C.validate (C.unify L.allsch[q].body d) with
  | none => rw [hv] at he; simp at he
  | some ve =>
    cases ve with
    | notCue m => exact absurd hv (hO _ m)
    | cue es =>
      rw [hv] at he
      simp only [mungeValidateErr] at he
      cases hl : mungeLoop es with
      | ok fs =>
        rw [hl] at he
        simp only [Res.map_ok, Res.bind_ok, Res.err.injEq] at he
        exact he.symm
      | err e' =>
        by_cases hp : ∀ ee ∈ es, PathOk ee.path
        · obtain ⟨fs, hf⟩ := (mungeLoop_ok_iff es).2 hp
          rw [hf] at hl; cases hl
        · rw [mungeLoop_panics es hp] at hl; cases hl
      | panic k => rw [hl] at he; simp at he
      | fuel => rw [hl] at he; simp at he

/-- What `Translate` does in each of the four cases. -/
theorem translate_cases (hP : PathsOk C) (hO : OnlyCueErrors C)
    (h : bindLineage C force r opts = .ok L) (hg : goLenses opts = [])
    (hc : Contiguous L.allv) (he : ExactLenses L) (hH : H i.sch.lin = L) (hv : i.valid = true)
    (hst : C.isStruct i.raw = true) (hp : i.sch.pos < L.allsch.length)
    (hp2 : (L.ver i.sch.pos).major ≤ 2) {q : Nat} (hq : q < L.allsch.length)
    (hq2 : (L.ver q).major ≤ 2) (n : Nat) :
    (Stuck C L i.sch.pos i.raw q ∧ translate C H (n + 1) i (L.ver q) = .err ⟨[.invalidLens]⟩) ∨
    ∃ y, Walk C L i.sch.pos i.raw q y ∧ (∀ z, Walk C L i.sch.pos i.raw q z → z = y) ∧
      ((C.marshals (C.dflt y) = false ∧
          translate C H (n + 1) i (L.ver q) = .err ⟨[.lensIncomplete]⟩) ∨
        (C.marshals (C.dflt y) = true ∧ ¬ C.accepts L.allsch[q].body (C.dflt y) ∧
          translate C H (n + 1) i (L.ver q) = .err ⟨[.lensResultIsInvalidData, .invalidData]⟩) ∨
        (C.marshals (C.dflt y) = true ∧ C.accepts L.allsch[q].body (C.dflt y) ∧
          translate C H (n + 1) i (L.ver q) =
            .ok ({ raw := C.dflt y, name := [], sch := ⟨i.sch.lin, q⟩, valid := true }, []))) := by
  have hm : (H i.sch.lin).lensmap = [] := by rw [hH]; exact bind_lensmap_nil h hg
  have hs := Contiguous.strictV hc
  have hiff : ∀ {y : V}, _ ↔ Walk C L i.sch.pos i.raw q y := fun {y} =>
    translateSteps_walk (C := C) (x := i.raw) (y := y) hc he (bind_lensSorted h hg) hp hq hp2 hq2
  have hnc : translateSteps C L i.raw (L.ver i.sch.pos) (L.ver q) ≠ .incomplete :=
    translateSteps_complete hc hp hq hp2 hq2
  rw [translate_cue hm hv]
  unfold translateCue
  simp only [hH, schema_ver hs hq, hst, Bool.not_true, Bool.false_eq_true, if_false]
  cases hts : translateSteps C L i.raw (L.ver i.sch.pos) (L.ver q) with
  | error =>
    refine .inl ⟨?_, rfl⟩
    refine (walk_or_stuck i.sch.pos i.raw q).resolve_left ?_
    rintro ⟨y, hy⟩
    obtain ⟨ss, h1, _⟩ := hiff.2 hy
    rw [hts] at h1
    cases h1
  | incomplete => exact absurd hts hnc
  | ok ss =>
    refine .inr ⟨translateResult i.raw ss, hiff.1 ⟨ss, hts, rfl⟩, fun z hz => ?_, ?_⟩
    · obtain ⟨ss', h1, rfl⟩ := hiff.2 hz
      rw [hts] at h1
      injection h1 with h1
      rw [h1]
    · simp only
      cases hma : C.marshals (C.dflt (translateResult i.raw ss)) with
      | false => exact .inl ⟨rfl, by simp⟩
      | true =>
        right
        simp only [if_true, true_and]
        rcases validate_cases hP hH hq (C.dflt (translateResult i.raw ss)) with
          ⟨hacc, hval⟩ | ⟨hna, e, hval⟩
        · exact .inr ⟨hacc, by rw [hval]⟩
        · refine .inl ⟨hna, ?_⟩
          have := validate_err_marks hO hH hq hval
          subst this
          rw [hval]

/-- **C155**.  The error of `Translate` is `ErrInvalidLens` exactly if some step on the
way from the instance's version to the target cannot be made; `ErrLensIncomplete`
exactly if all steps can be made, but the result cannot be exported; and
`ErrLensResultIsInvalidData` exactly if it can be exported, but the target schema
rejects it. -/
theorem C155_error_iff (hP : PathsOk C) (hO : OnlyCueErrors C)
    (h : bindLineage C force r opts = .ok L) (hg : goLenses opts = [])
    (hc : Contiguous L.allv) (he : ExactLenses L) (hH : H i.sch.lin = L) (hv : i.valid = true)
    (hst : C.isStruct i.raw = true) (hp : i.sch.pos < L.allsch.length)
    (hp2 : (L.ver i.sch.pos).major ≤ 2) {q : Nat} (hq : q < L.allsch.length)
    (hq2 : (L.ver q).major ≤ 2) (n : Nat) :
    ((∃ e, translate C H (n + 1) i (L.ver q) = .err e ∧ e.is .invalidLens) ↔
      Stuck C L i.sch.pos i.raw q) ∧
    ((∃ e, translate C H (n + 1) i (L.ver q) = .err e ∧ e.is .lensIncomplete) ↔
      ∃ y, Walk C L i.sch.pos i.raw q y ∧ C.marshals (C.dflt y) = false) ∧
    ((∃ e, translate C H (n + 1) i (L.ver q) = .err e ∧ e.is .lensResultIsInvalidData) ↔
      ∃ y, Walk C L i.sch.pos i.raw q y ∧ C.marshals (C.dflt y) = true ∧
        ¬ C.accepts L.allsch[q].body (C.dflt y)) := by
  rcases translate_cases hP hO h hg hc he hH hv hst hp hp2 hq hq2 n with
    ⟨hs, ht⟩ | ⟨y, hw, hu, hcase⟩
  · have hno : ∀ y, ¬ Walk C L i.sch.pos i.raw q y := fun y hy => not_stuck_of_walk he hy hs
    refine ⟨⟨fun _ => hs, fun _ => ⟨_, ht, by simp [GoErr.is]⟩⟩, ⟨?_, ?_⟩, ⟨?_, ?_⟩⟩
    · rintro ⟨e, h1, h2⟩
      rw [ht] at h1
      injection h1 with h1
      subst h1
      simp [GoErr.is] at h2
    · rintro ⟨y, hy, _⟩
      exact absurd hy (hno y)
    · rintro ⟨e, h1, h2⟩
      rw [ht] at h1
      injection h1 with h1
      subst h1
      simp [GoErr.is] at h2
    · rintro ⟨y, hy, _⟩
      exact absurd hy (hno y)
  · have hns := not_stuck_of_walk he hw
    rcases hcase with ⟨hma, ht⟩ | ⟨hma, hna, ht⟩ | ⟨hma, hacc, ht⟩ <;> rw [ht]
    · refine ⟨⟨fun ⟨e, h1, h2⟩ => ?_, fun hs => absurd hs hns⟩,
        ⟨fun _ => ⟨y, hw, hma⟩, fun _ => ⟨_, rfl, by simp [GoErr.is]⟩⟩,
        ⟨fun ⟨e, h1, h2⟩ => ?_, fun ⟨z, hz, hz2, _⟩ => ?_⟩⟩
      · injection h1 with h1; subst h1; simp [GoErr.is] at h2
      · injection h1 with h1; subst h1; simp [GoErr.is] at h2
      · rw [hu z hz, hma] at hz2; cases hz2
    · refine ⟨⟨fun ⟨e, h1, h2⟩ => ?_, fun hs => absurd hs hns⟩,
        ⟨fun ⟨e, h1, h2⟩ => ?_, fun ⟨z, hz, hz2⟩ => ?_⟩,
        ⟨fun _ => ⟨y, hw, hma, hna⟩, fun _ => ⟨_, rfl, by simp [GoErr.is]⟩⟩⟩
      · injection h1 with h1; subst h1; simp [GoErr.is] at h2
      · injection h1 with h1; subst h1; simp [GoErr.is] at h2
      · rw [hu z hz, hma] at hz2; cases hz2
    · refine ⟨⟨fun ⟨e, h1, _⟩ => ?_, fun hs => absurd hs hns⟩,
        ⟨fun ⟨e, h1, _⟩ => ?_, fun ⟨z, hz, hz2⟩ => ?_⟩,
        ⟨fun ⟨e, h1, _⟩ => ?_, fun ⟨z, hz, _, hz2⟩ => ?_⟩⟩
      · cases h1
      · cases h1
      · rw [hu z hz, hma] at hz2; cases hz2
      · cases h1
      · rw [hu z hz] at hz2; exact absurd hacc hz2

theorem twoWith_contiguous (up down : SetCue.Val) : Contiguous (twoWith up down).allv := by
  refine ⟨rfl, ?_⟩
  intro i hi
  match i, hi with
  | 0, _ => exact Or.inr rfl

theorem twoWith_exact (up down : SetCue.Val) : ExactLenses (twoWith up down) := by
  refine ⟨by simp [twoWith, cueLens], ?_⟩
  intro id
  rw [← mem_requiredList]
  simp [twoWith, Lineage.allv, requiredList, cueLens]

theorem setCue_onlyCueErrors : OnlyCueErrors SetCue.cue := by
  intro v m h
  simp only [SetCue.cue, SetCue.errAt] at h
  split at h
  · simp at h
  · split at h <;> simp at h

/-- A lens whose result does not fit the target. -/
example : Stuck SetCue.cue (twoWith [7] [0]) 0 [0] 1 :=
  let ⟨_, hb⟩ := twoWith_bound [7] [0]
  (C155_error_iff (C := SetCue.cue) (H := fun _ => twoWith [7] [0]) (i := instAt 0 [0]) (q := 1)
    setCue_pathsOk setCue_onlyCueErrors hb rfl (twoWith_contiguous _ _) (twoWith_exact _ _)
    rfl rfl rfl (by decide) (by decide) (by decide) (by decide) 0).1.1
    ⟨⟨[.invalidLens]⟩, by rfl, by decide⟩

/-- One whose result is not concrete. -/
example : ∃ y, Walk SetCue.cue (twoWith [1, 2] [0]) 0 [0] 1 y ∧
    SetCue.cue.marshals (SetCue.cue.dflt y) = false :=
  let ⟨_, hb⟩ := twoWith_bound [1, 2] [0]
  (C155_error_iff (C := SetCue.cue) (H := fun _ => twoWith [1, 2] [0]) (i := instAt 0 [0]) (q := 1)
    setCue_pathsOk setCue_onlyCueErrors hb rfl (twoWith_contiguous _ _) (twoWith_exact _ _)
    rfl rfl rfl (by decide) (by decide) (by decide) (by decide) 0).2.1.1
    ⟨⟨[.lensIncomplete]⟩, by rfl, by decide⟩

/-- **C155**.  An error is exactly one of the three, in any lineage and whatever the
lenses are; and there is no panic unless the version is unknown or the data is not a
struct. -/
theorem C155_one_cause (hP : PathsOk C) (hO : OnlyCueErrors C)
    (h : bindLineage C force r opts = .ok L) (hg : goLenses opts = []) (hH : H i.sch.lin = L)
    (hv : i.valid = true) {tv : SV} (n : Nat) :
    (∀ e, translate C H (n + 1) i tv = .err e →
      (e.is .invalidLens ∧ ¬ e.is .lensIncomplete ∧ ¬ e.is .lensResultIsInvalidData) ∨
      (¬ e.is .invalidLens ∧ e.is .lensIncomplete ∧ ¬ e.is .lensResultIsInvalidData) ∨
      (¬ e.is .invalidLens ∧ ¬ e.is .lensIncomplete ∧ e.is .lensResultIsInvalidData ∧
        e.is .invalidData)) ∧
    ((translate C H (n + 1) i tv).Panics ↔ tv ∉ L.allv ∨ C.isStruct i.raw = false) := by
  have hm : (H i.sch.lin).lensmap = [] := by rw [hH]; exact bind_lensmap_nil h hg
  have hs := bind_sorted h
  rw [translate_cue hm hv]
  unfold translateCue
  simp only [hH]
  by_cases hmem : tv ∈ L.allv
  · have hq : searchSynv L.allv tv < L.allsch.length := by
      simpa using (searchSynv_found hs hmem).1
    have hsc : L.Schema tv = .ok (searchSynv L.allv tv) := by
      unfold Lineage.Schema Lineage.schema
      rw [if_pos ((synvExists_iff hs _).2 hmem), if_pos hq]
    simp only [hsc]
    cases hst : C.isStruct i.raw with
    | false => simp [Res.Panics]
    | true =>
      simp only [Bool.not_true, Bool.false_eq_true, if_false]
      cases hts : translateSteps C L i.raw (L.ver i.sch.pos) tv with
      | error =>
        refine ⟨fun e h1 => ?_, by simp [Res.Panics, hmem]⟩
        injection h1 with h1; subst h1; exact .inl (by simp [GoErr.is])
      | incomplete =>
        refine ⟨fun e h1 => ?_, by simp [Res.Panics, hmem]⟩
        injection h1 with h1; subst h1; exact .inr (.inl (by simp [GoErr.is]))
      | ok ss =>
        simp only
        cases hma : C.marshals (C.dflt (translateResult i.raw ss)) with
        | false =>
          refine ⟨fun e h1 => ?_, by simp [Res.Panics, hmem]⟩
          injection h1 with h1; subst h1; exact .inr (.inl (by simp [GoErr.is]))
        | true =>
          simp only [if_true]
          rcases validate_cases hP hH hq (C.dflt (translateResult i.raw ss)) with
            ⟨_, hval⟩ | ⟨_, e, hval⟩
          · rw [hval]
            exact ⟨fun e h1 => (by cases h1), by simp [Res.Panics, hmem]⟩
          · have := validate_err_marks hO hH hq hval
            subst this
            rw [hval]
            refine ⟨fun e h1 => ?_, by simp [Res.Panics, hmem]⟩
            injection h1 with h1; subst h1; exact .inr (.inr (by simp [GoErr.is]))
  · have hne : synvExists L.allv tv = false := by
      cases hx : synvExists L.allv tv with
      | false => rfl
      | true => exact absurd ((synvExists_iff hs _).1 hx) hmem
    have hsc : ∃ e, L.Schema tv = .err e := by
      unfold Lineage.Schema
      rw [hne]
      exact ⟨_, rfl⟩
    obtain ⟨e, hsc⟩ := hsc
    simp only [hsc]
    exact ⟨fun e h1 => (by cases h1), by simp [Res.Panics, hmem]⟩

example : ∀ e, translate SetCue.cue (fun _ => fourExactBound) 1 (instAt 2 [2]) ⟨3, 0⟩ = .err e →
    (e.is .invalidLens ∧ ¬ e.is .lensIncomplete ∧ ¬ e.is .lensResultIsInvalidData) ∨
    (¬ e.is .invalidLens ∧ e.is .lensIncomplete ∧ ¬ e.is .lensResultIsInvalidData) ∨
    (¬ e.is .invalidLens ∧ ¬ e.is .lensIncomplete ∧ e.is .lensResultIsInvalidData ∧
      e.is .invalidData) :=
  (C155_one_cause (C := SetCue.cue) (H := fun _ => fourExactBound) (i := instAt 2 [2])
    (r := fourExact) (force := false) (opts := []) setCue_pathsOk setCue_onlyCueErrors rfl rfl rfl
    rfl 0).1

end Thema.Props
