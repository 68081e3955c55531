import Verif.Props.TranslateGo

/-!
# Bind options

What the options given to `BindLineage` mean together: in which order they are given, how
Go lenses are spread over them, and what `SkipBuggyChecks` changes.
-/

namespace Thema.Props

open Thema Thema.Spec

variable {V : Type} {C : Cue V} {force force' : Bool} {r : RawLineage V}
  {opts opts' : List (BindOption V)} {L L' : Lineage V} {H H' : Heap V}

/-! ### C135: order and splitting of options -/

theorem bindConfig_ext (hg : goLenses opts = goLenses opts')
    (hc : ChecksOn force opts ↔ ChecksOn force' opts') :
    bindConfig force opts = bindConfig force' opts' := by
  have e1 := bindConfig_implens force opts
  have e2 := bindConfig_implens force' opts'
  have e3 : (bindConfig force opts).skipbuggychecks = (bindConfig force' opts').skipbuggychecks := by
    rw [checksOn_iff, checksOn_iff] at hc
    cases h1 : (bindConfig force opts).skipbuggychecks <;>
      cases h2 : (bindConfig force' opts').skipbuggychecks <;> simp_all
  cases hb : bindConfig force opts
  cases hb' : bindConfig force' opts'
  simp_all

/-- **C135**.  The result of `BindLineage` depends on the options only through two things: the
Go lenses they list, in order, and whether `SkipBuggyChecks` is among them (while the
environment does not force all checks).  How lenses are spread over several
`ImperativeLenses` options, where `SkipBuggyChecks` stands and how often it is given does not
matter. -/
theorem C135_determined (hg : goLenses opts = goLenses opts')
    (hc : ChecksOn force opts ↔ ChecksOn force' opts') :
    bindLineage C force r opts = bindLineage C force' r opts' := by
  unfold bindLineage
  rw [bindConfig_ext hg hc]

example : bindLineage SetCue.cue false (SetCue.lin [SetCue.sch 0 0 [1], SetCue.sch 1 0 [2]])
      [.skipBuggyChecks,
       .imperativeLenses [{ frm := ⟨0, 0⟩, «to» := ⟨1, 0⟩, mapper := some fun i _ => .ok (some i) }],
       .skipBuggyChecks,
       .imperativeLenses [{ frm := ⟨1, 0⟩, «to» := ⟨0, 0⟩, mapper := none }]] =
    bindLineage SetCue.cue false (SetCue.lin [SetCue.sch 0 0 [1], SetCue.sch 1 0 [2]])
      [.imperativeLenses [{ frm := ⟨0, 0⟩, «to» := ⟨1, 0⟩, mapper := some fun i _ => .ok (some i) },
         { frm := ⟨1, 0⟩, «to» := ⟨0, 0⟩, mapper := none }], .skipBuggyChecks] :=
  C135_determined rfl (by simp [ChecksOn])

/-! ### C135: `SkipBuggyChecks` -/

/-- **C135**.  When the environment forces all checks, `SkipBuggyChecks` has no effect. -/
theorem C135_forced (hg : goLenses opts = goLenses opts')
    (hs : BindOption.skipBuggyChecks ∉ opts') :
    bindLineage C true r opts = bindLineage C false r opts' :=
  C135_determined hg ⟨fun _ => .inr hs, fun _ => .inl rfl⟩

example : ∃ e, bindLineage SetCue.cue true
      (SetCue.lin [SetCue.sch 0 0 [1], SetCue.sch 0 1 [2]]) [.skipBuggyChecks] = .err e ∧
    e.is .invalidLineage :=
  ⟨_, (C135_forced (opts := [.skipBuggyChecks]) (opts' := []) rfl (by simp)).trans rfl, by decide⟩

theorem acceptable_weaken {vs : List SV} (h : SchemasAcceptable C force r opts vs)
    (hc : ChecksOn force' opts' → ∀ i (_ : i + 1 < r.schemas.length) (_ : i + 1 < vs.length),
      (vs[i + 1].minor ≠ 0 ↔ C.subsumeAll r.schemas[i + 1].body r.schemas[i].body = true)) :
    SchemasAcceptable C force' r opts' vs :=
  ⟨h.present, h.name, h.schemas, h.noFinalErr, h.noRawErr, h.noUniErr, h.versions, h.nonempty,
    h.counts, h.order, hc⟩

theorem fromRaw_unique {l l' : List (SchemaDef V)} {raws : List (RawSchema V)}
    (h : List.Forall₂ FromRaw raws l) (h' : List.Forall₂ FromRaw raws l') : l = l' := by
  induction h generalizing l' with
  | nil => cases h'; rfl
  | cons a _ ih =>
    cases h' with
    | cons a' t' =>
      congr 1
      · obtain ⟨a1, a2, a3⟩ := a
        obtain ⟨b1, b2, b3⟩ := a'
        rename_i x _ _ _ y _
        cases x; cases y; simp_all
      · exact ih t'

/-- The same value, acceptable with either options and with the same Go lenses, binds alike. -/
theorem bind_same_of_acceptable (hg : goLenses opts = goLenses opts') {vs : List SV}
    (h : SchemasAcceptable C force r opts vs) (h' : SchemasAcceptable C force' r opts' vs) :
    bindLineage C force r opts = bindLineage C force' r opts' := by
  obtain ⟨l, _, h2, h3⟩ := bind_of_acceptable h
  obtain ⟨l', _, h2', h3'⟩ := bind_of_acceptable h'
  rw [h3, h3', fromRaw_unique h2 h2', hg]

/-- **C135**.  Turning checks off never changes a lineage that binds with them: whatever binds
still binds, to the same lineage. -/
theorem C135_skip_widens (hg : goLenses opts = goLenses opts')
    (hc : ChecksOn force' opts' → ChecksOn force opts)
    (h : bindLineage C force r opts = .ok L) : bindLineage C force' r opts' = .ok L := by
  have ha := bind_acceptable h
  rw [← bind_same_of_acceptable hg ha (acceptable_weaken ha fun k => ha.compat (hc k))]
  exact h

/-- **C135**.  What binds only because checks are off is exactly what breaks the compatibility
rule: a value that binds with checks off binds with them on, to the same lineage, if and only if
each non-zero minor version subsumes its predecessor and no minor version zero does. -/
theorem C135_skip_exact (hg : goLenses opts = goLenses opts')
    (h : bindLineage C force r opts = .ok L) (hon : ChecksOn force' opts') :
    bindLineage C force' r opts' = .ok L ↔ CompatRule C L.allsch := by
  constructor
  · intro h'
    exact (C11_compat_enforced h' hon).1
  · intro hr
    have ha := bind_acceptable h
    have hf := (bindLineage_ok.1 h).2.2.2.1.1
    have hl := forall₂_length hf
    rw [← bind_same_of_acceptable hg ha (acceptable_weaken ha fun _ i hi hj => ?_)]
    · exact h
    · have hi' : i + 1 < L.allsch.length := by omega
      have := hr i hi'
      rw [(fromRaw_getElem hf hi hi').2.2.1,
        (fromRaw_getElem hf (i := i) (by omega) (by omega)).2.2.1] at this
      rw [← this]
      simp [Lineage.allv]

/-- **C135**.  Otherwise the error is `ErrInvalidLineage`. -/
theorem C135_skip_error (h : bindLineage C force r opts = .ok L) (hon : ChecksOn force' opts')
    (hr : ¬ CompatRule C L.allsch) :
    ∃ e, bindLineage C force' r opts' = .err e ∧ e.is .invalidLineage := by
  have ha := bind_acceptable h
  have hf := (bindLineage_ok.1 h).2.2.2.1.1
  have hl := forall₂_length hf
  refine C11_violation_error (vs := L.allv) (acceptable_weaken ha ?_) hon ?_
  · intro k; simp [ChecksOn] at k
  · intro hv
    apply hr
    intro i hi
    have := hv i (by omega) (by simpa [Lineage.allv] using hi)
    rw [(fromRaw_getElem hf (by omega) hi).2.2.1,
      (fromRaw_getElem hf (i := i) (by omega) (by omega)).2.2.1, ← this]
    simp [Lineage.allv]

example : ∃ L, bindLineage SetCue.cue false
      (SetCue.lin [SetCue.sch 0 0 [1], SetCue.sch 0 1 [2]]) [.skipBuggyChecks] = .ok L ∧
    ¬ CompatRule SetCue.cue L.allsch := by
  refine ⟨_, rfl, fun h => ?_⟩
  exact absurd ((h 0 (by decide)).1 (by decide)) (by decide)

example : ∃ L, bindLineage SetCue.cue false
      (SetCue.lin [SetCue.sch 0 0 [1], SetCue.sch 0 1 [1, 2]]) [.skipBuggyChecks] = .ok L ∧
    bindLineage SetCue.cue false
      (SetCue.lin [SetCue.sch 0 0 [1], SetCue.sch 0 1 [1, 2]]) [] = .ok L := by
  refine ⟨_, rfl, ?_⟩
  rfl

/-! ### C135: the order of Go lenses -/

/-- Two lineages that cannot be told apart: the Go lens for each pair is the same, the order in
which they were given is not. -/
structure SameLineage (L L' : Lineage V) : Prop where
  name : L.name = L'.name
  allsch : L.allsch = L'.allsch
  lenses : L.lenses = L'.lenses
  count : L.lensmap.length = L'.lensmap.length
  lookup : ∀ id, L.lensmap.lookup id = L'.lensmap.lookup id

theorem lookup_perm {α β : Type} [BEq α] [LawfulBEq α] {l l' : List (α × β)} (hp : l.Perm l')
    (hn : (l.map (·.1)).Nodup) (a : α) : l.lookup a = l'.lookup a := by
  induction hp with
  | nil => rfl
  | cons x _ ih =>
    obtain ⟨k, b⟩ := x
    simp only [List.map_cons, List.nodup_cons] at hn
    simp only [List.lookup_cons, ih hn.2]
  | swap x y l =>
    obtain ⟨k, b⟩ := x
    obtain ⟨k', b'⟩ := y
    simp only [List.map_cons, List.nodup_cons, List.mem_cons, not_or] at hn
    simp only [List.lookup_cons]
    by_cases h1 : a = k' <;> by_cases h2 : a = k
    · exact absurd (h1.symm.trans h2) hn.1.1
    · subst h1
      have : (a == k) = false := by simpa using h2
      simp [this]
    · subst h2
      have : (a == k') = false := by simpa using h1
      simp [this]
    · have e1 : (a == k) = false := by simpa using h2
      have e2 : (a == k') = false := by simpa using h1
      simp [e1, e2]
  | trans p1 _ ih1 ih2 =>
    rw [ih1 hn, ih2 ((p1.map _).nodup_iff.1 hn)]

theorem buildLensMap_keys {ls : List (ImperativeLens V)} (h : ∀ l ∈ ls, l.mapper ≠ none) :
    (buildLensMap ls).map (·.1) = ls.map pairOf := by
  induction ls with
  | nil => rfl
  | cons l ls ih =>
    cases hm : l.mapper with
    | none => exact absurd hm (h l (by simp))
    | some m =>
      have := ih fun x hx => h x (List.mem_cons_of_mem _ hx)
      unfold buildLensMap at this ⊢
      simp only [List.filterMap_cons, hm, Option.map_some, List.map_cons, this]
      rfl

theorem buildLensMap_perm {ls ls' : List (ImperativeLens V)} (h : ls.Perm ls') :
    (buildLensMap ls).Perm (buildLensMap ls') := h.filterMap _

theorem takeLens_perm (req : List LensID) : ∀ (all all' m : List LensID), all.Perm all' →
    (req.foldl (fun s id => takeLens id s) (all, m)).1.Perm
        (req.foldl (fun s id => takeLens id s) (all', m)).1 ∧
      (req.foldl (fun s id => takeLens id s) (all, m)).2 =
        (req.foldl (fun s id => takeLens id s) (all', m)).2 := by
  induction req with
  | nil => intro all all' m h; exact ⟨h, rfl⟩
  | cons id req ih =>
    intro all all' m h
    simp only [List.foldl_cons]
    by_cases hm : id ∈ all
    · rw [takeLens_mem hm, takeLens_mem (h.mem_iff.1 hm)]
      exact ih _ _ _ (h.filter _)
    · rw [takeLens_not_mem hm, takeLens_not_mem fun k => hm (h.mem_iff.2 k)]
      exact ih _ _ _ h

theorem checkGoLens_perm {schlist : List (SchemaDef V)} (hs : SortedV (schlist.map (·.v)))
    (hne : 0 < schlist.length) {ls ls' : List (ImperativeLens V)} (hp : ls.Perm ls') :
    (∃ e, checkGoLensCompleteness schlist ls = .err e ∧
      checkGoLensCompleteness schlist ls' = .err e) ∨
    (checkGoLensCompleteness schlist ls = .ok (buildLensMap ls) ∧
      checkGoLensCompleteness schlist ls' = .ok (buildLensMap ls') ∧
      (ls.map pairOf).Nodup ∧ ∀ l ∈ ls, l.mapper ≠ none) := by
  have hpp := hp.map pairOf
  by_cases h : (ls.map pairOf).Nodup ∧ (∀ l ∈ ls, l.mapper ≠ none)
  · have h' : (ls'.map pairOf).Nodup ∧ (∀ l ∈ ls', l.mapper ≠ none) :=
      ⟨hpp.nodup_iff.1 h.1, fun l hl => h.2 l (hp.mem_iff.2 hl)⟩
    rw [checkGoLens_key hs hne ls h, checkGoLens_key hs hne ls' h']
    obtain ⟨k1, k2⟩ := takeLens_perm (requiredList (synv0 :: (schlist.map (·.v)).tail))
      _ _ [] hpp
    simp only [← k2, ← k1.length_eq]
    split
    · exact .inl ⟨_, rfl, rfl⟩
    · split
      · exact .inl ⟨_, rfl, rfl⟩
      · exact .inr ⟨rfl, rfl, h⟩
  · have h' : ¬ ((ls'.map pairOf).Nodup ∧ (∀ l ∈ ls', l.mapper ≠ none)) :=
      fun k => h ⟨hpp.nodup_iff.2 k.1, fun l hl => k.2 l (hp.mem_iff.1 hl)⟩
    exact .inl ⟨_, (checkGoLens_cases hs hne ls).2 h, (checkGoLens_cases hs hne ls').2 h'⟩

theorem sameLineage_refl (L : Lineage V) : SameLineage L L := ⟨rfl, rfl, rfl, rfl, fun _ => rfl⟩

/-- **C135**.  Giving the same Go lenses in another order makes no difference: either both calls
fail with the same error, or both give lineages that cannot be told apart. -/
theorem C135_lens_order (hp : (goLenses opts).Perm (goLenses opts'))
    (hc : ChecksOn force opts ↔ ChecksOn force' opts') :
    (∃ e, bindLineage C force r opts = .err e ∧ bindLineage C force' r opts' = .err e) ∨
    (∃ L L', bindLineage C force r opts = .ok L ∧ bindLineage C force' r opts' = .ok L' ∧
      SameLineage L L') := by
  have e3 : (bindConfig force opts).skipbuggychecks = (bindConfig force' opts').skipbuggychecks := by
    rw [checksOn_iff, checksOn_iff] at hc
    cases h1 : (bindConfig force opts).skipbuggychecks <;>
      cases h2 : (bindConfig force' opts').skipbuggychecks <;> simp_all
  by_cases ha : ∃ vs, SchemasAcceptable C force r opts vs
  · obtain ⟨vs, ha⟩ := ha
    have ha' : SchemasAcceptable C force' r opts' vs :=
      acceptable_weaken ha fun k => ha.compat (hc.2 k)
    obtain ⟨l, h1, h2, h3⟩ := bind_of_acceptable ha
    obtain ⟨l', h1', h2', h3'⟩ := bind_of_acceptable ha'
    rw [h3, h3', ← fromRaw_unique h2 h2']
    by_cases hne : goLenses opts = []
    · have hne' : goLenses opts' = [] := by
        rw [hne] at hp; exact hp.nil_eq.symm
      rw [hne, hne']
      cases hk : checkLensesOrder r l [] with
      | ok m => exact .inr ⟨_, _, rfl, rfl, sameLineage_refl _⟩
      | err e => exact .inl ⟨_, rfl, rfl⟩
      | panic k =>
        have := C16_never_panics (C := C) (force := force) (r := r) (opts := opts)
        rw [h3, hne, hk] at this; exact absurd this (by simp [Res.Returns])
      | fuel =>
        have := C16_never_panics (C := C) (force := force) (r := r) (opts := opts)
        rw [h3, hne, hk] at this; exact absurd this (by simp [Res.Returns])
    · have hpos : 0 < (goLenses opts).length := List.length_pos_iff.2 hne
      have hpos' : 0 < (goLenses opts').length := by rw [← hp.length_eq]; exact hpos
      have hs := sortedV_iff.2 ha.order
      rw [← h1] at hs
      have hl : 0 < l.length := by
        rw [List.length_pos_iff]; rintro rfl; exact ha.nonempty h1.symm
      unfold checkLensesOrder
      rw [if_pos hpos, if_pos hpos']
      rcases checkGoLens_perm hs hl hp with ⟨e, k1, k2⟩ | ⟨k1, k2, k3, k4⟩
      · rw [k1, k2]; exact .inl ⟨_, rfl, rfl⟩
      · rw [k1, k2]
        refine .inr ⟨_, _, rfl, rfl, rfl, rfl, rfl, (buildLensMap_perm hp).length_eq, fun id => ?_⟩
        exact lookup_perm (buildLensMap_perm hp) (by rw [buildLensMap_keys k4]; exact k3) id
  · have hnp := C16_never_panics (C := C) (force := force) (r := r) (opts := opts)
    have hgo : checkGoValidity C (bindConfig force' opts') r =
        checkGoValidity C (bindConfig force opts) r := by
      unfold checkGoValidity; rw [e3]
    unfold bindLineage at hnp ⊢
    simp only [hgo] at hnp ⊢
    cases a1 : checkExists r with
    | ok u =>
      cases a2 : checkLineageShape r with
      | ok u2 =>
        cases a3 : checkNativeValidity r with
        | ok u3 =>
          cases a4 : checkGoValidity C (bindConfig force opts) r with
          | ok l => exact absurd ⟨_, (schemasAcceptable_iff.2 ⟨a1, a2, a3, a4⟩).1⟩ ha
          | err e => exact .inl ⟨e, rfl, rfl⟩
          | panic k => simp [a1, a2, a3, a4, Res.Returns] at hnp
          | fuel => simp [a1, a2, a3, a4, Res.Returns] at hnp
        | err e => exact .inl ⟨e, rfl, rfl⟩
        | panic k => simp [a1, a2, a3, Res.Returns] at hnp
        | fuel => simp [a1, a2, a3, Res.Returns] at hnp
      | err e => exact .inl ⟨e, rfl, rfl⟩
      | panic k => simp [a1, a2, Res.Returns] at hnp
      | fuel => simp [a1, a2, Res.Returns] at hnp
    | err e => exact .inl ⟨e, rfl, rfl⟩
    | panic k => simp [a1, Res.Returns] at hnp
    | fuel => simp [a1, Res.Returns] at hnp

/-- A heap with other Go lens tables. -/
theorem sameLineage_heap (h : ∀ n, SameLineage (H n) (H' n)) :
    H' = fun n => { H n with lensmap := (H' n).lensmap } := by
  funext n
  obtain ⟨h1, h2, h3, _, _⟩ := h n
  cases hx : H n
  cases hy : H' n
  simp_all

theorem backSteps_lensmap (m : List (LensID × Mapper V)) (ps : List Int) : ∀ (v : SV) (x : V),
    backSteps C { L with lensmap := m } ps v x = backSteps C L ps v x := by
  induction ps with
  | nil => intro v x; rfl
  | cons p ps ih =>
    intro v x
    simp only [backSteps, ih]
    rfl

theorem fwdSteps_lensmap (m : List (LensID × Mapper V)) (ss : List (SchemaDef V)) :
    ∀ (v : SV) (x : V), fwdSteps C { L with lensmap := m } ss v x = fwdSteps C L ss v x := by
  induction ss with
  | nil => intro v x; rfl
  | cons p ps ih =>
    intro v x
    simp only [fwdSteps, ih]
    rfl

theorem translateCue_lensmap (m : Nat → List (LensID × Mapper V)) (i : Inst V) (t : SV) :
    translateCue C (fun n => { H n with lensmap := m n }) i t = translateCue C H i t := by
  have : ∀ (L : Lineage V) (m : List (LensID × Mapper V)) x f t,
      translateSteps C { L with lensmap := m } x f t = translateSteps C L x f t := by
    intro L m x f t
    simp only [translateSteps, backSteps_lensmap, fwdSteps_lensmap]
    rfl
  simp only [translateCue, this]
  rfl

theorem translate_lensmap (m : Nat → List (LensID × Mapper V))
    (hc : ∀ n, (H n).lensmap.length = (m n).length)
    (hl : ∀ n id, (H n).lensmap.lookup id = (m n).lookup id) (n : Nat) :
    translate C (fun n => { H n with lensmap := m n }) n = translate C H n := by
  induction n with
  | zero => rfl
  | succ n ih =>
    have hloop : ∀ k (lin : Nat) (frm t : SV) (p : Nat) (ti : Inst V),
        goLoop (fun n => { H n with lensmap := m n })
          (translate C (fun n => { H n with lensmap := m n }) n) lin frm t k p ti =
        goLoop H (translate C H n) lin frm t k p ti := by
      intro k
      rw [ih]
      induction k with
      | zero => intros; rfl
      | succ k ihk =>
        intro lin frm t p ti
        simp only [goLoop, ihk]
        have e1 : ∀ q, goLensStep (fun n => { H n with lensmap := m n }) lin p q ti =
            goLensStep H lin p q ti := by
          intro q
          simp only [goLensStep, ← hl]
          rfl
        have e2 : goMinorStep (fun n => { H n with lensmap := m n }) (translate C H n) ti =
            goMinorStep H (translate C H n) ti := rfl
        simp only [e1, e2]
        rfl
    funext i t
    simp only [translate, translateGo, hloop, ← hc, translateCue_lensmap]
    rfl

/-- **C135**.  Lineages that cannot be told apart behave alike: all operations on versions,
validation with one schema or with any, and translation give the same results. -/
theorem C135_same_behaviour (h : ∀ n, SameLineage (H n) (H' n)) :
    (∀ n v, (H n).Schema v = (H' n).Schema v) ∧
    (∀ n, (H n).latest = (H' n).latest ∧ (H n).first = (H' n).first ∧ (H n).all = (H' n).all) ∧
    (∀ n p, (H n).ver p = (H' n).ver p ∧ (H n).successor p = (H' n).successor p ∧
      (H n).predecessor p = (H' n).predecessor p) ∧
    (∀ s d, validateFull C H s d = validateFull C H' s d) ∧
    (∀ lin d n, validateAny C H lin d n = validateAny C H' lin d n) ∧
    (∀ n i v, translate C H n i v = translate C H' n i v) := by
  rw [sameLineage_heap h]
  refine ⟨fun _ _ => rfl, fun _ => ⟨rfl, rfl, rfl⟩, fun _ _ => ⟨rfl, rfl, rfl⟩, fun _ _ => rfl,
    fun lin d n => ?_, fun n i v => ?_⟩
  · have : ∀ k p, validateAnyLoop C H lin d k p =
        validateAnyLoop C (fun n => { H n with lensmap := (H' n).lensmap }) lin d k p := by
      intro k
      induction k with
      | zero => intro p; rfl
      | succ k ih =>
        intro p
        simp only [validateAnyLoop, ih]
        rfl
    simp only [validateAny, this]
    rfl
  · rw [translate_lensmap (fun n => (H' n).lensmap) (fun n => (h n).count)
      (fun n id => (h n).lookup id)]

example : ∃ L L', goBind (SetCue.lin [SetCue.sch 0 0 [1], SetCue.sch 1 0 [2]])
      [(⟨0, 0⟩, ⟨1, 0⟩), (⟨1, 0⟩, ⟨0, 0⟩)] = .ok L ∧
    goBind (SetCue.lin [SetCue.sch 0 0 [1], SetCue.sch 1 0 [2]])
      [(⟨1, 0⟩, ⟨0, 0⟩), (⟨0, 0⟩, ⟨1, 0⟩)] = .ok L' ∧ SameLineage L L' ∧
      L.lensmap.map (·.1) ≠ L'.lensmap.map (·.1) := by
  refine ⟨_, _, rfl, rfl, ⟨rfl, rfl, rfl, rfl, fun id => ?_⟩, by decide⟩
  exact lookup_perm (List.Perm.swap _ _ _) (by decide) id

end Thema.Props
