import Verif.Lemmas.Validate
import Verif.Model.SetCue
import Verif.Props.Navigation

/-!
# BindLineage (C09 - C16, C18)

`SchemasAcceptable` (`Verif/Spec/Lineage.lean`) collects what `BindLineage` asks
for apart from lenses.
-/

namespace Thema.Props

open Spec

variable {V : Type} {C : Cue V} {force : Bool} {r : RawLineage V} {opts : List (BindOption V)}
  {L : Lineage V} {vs : List SV}

/-! ### C09: version order -/

/-- **C09** (partial).  A bound lineage lists its versions in non-decreasing
order.  Missing from the full claim: that no version occurs twice
(`C09_duplicates_accepted`). -/
theorem C09_versions_sorted_partial (h : bindLineage C force r opts = .ok L) :
    ∃ vs, r.schemas.map (·.version) = vs.map some ∧ NonDecreasing vs :=
  ⟨L.allv, bind_versions h, (bind_acceptable h).order⟩

example : ∃ vs, threeVersions.schemas.map (·.version) = vs.map some ∧ NonDecreasing vs :=
  C09_versions_sorted_partial threeBound_eq

/-- **C09**.  A list that is out of order is rejected.  When nothing else is wrong
with the value, and compatibility is not checked, the error is
`ErrInvalidSchemasOrder`; with compatibility checks on, it is that or the
`ErrInvalidLineage` of a compatibility violation further ahead in the list. -/
theorem C09_out_of_order_rejected (hv : r.schemas.map (·.version) = vs.map some)
    (hd : ¬ NonDecreasing vs)
    (hex : r.exists_ = true) (hn : r.nameField = .concrete) (hs : r.schemasField = .concrete)
    (h1 : r.finalErr = false) (h2 : r.rawErr = false) (h3 : r.uniErr = false)
    (hc : countsOk vs = true) :
    ∃ e, bindLineage C force r opts = .err e ∧
      (¬ ChecksOn force opts → e.is .invalidSchemasOrder) ∧
      (e.is .invalidSchemasOrder ∨ e.is .invalidLineage) := by
  have hne : vs ≠ [] := by
    rintro rfl; exact hd (fun i j _ hj => by simp at hj)
  have a1 := checkExists_ok.2 hex
  have a2 : checkLineageShape r = .ok () := by
    rw [checkLineageShape_ok]
    refine ⟨hn, hs, h1, ?_⟩
    unfold lineageConstraints
    rw [(concreteVersions_eq _ _).2 hv]
    simp only [hc, Bool.and_true, Bool.not_eq_true', List.isEmpty_eq_false_iff]
    intro he
    rw [he] at hv
    exact hne (by simpa using hv.symm)
  have a3 := checkNativeValidity_ok.2 ⟨h2, h3⟩
  unfold bindLineage
  simp only [a1, a2, a3, Res.bind_ok]
  rcases checkGoValidityLoop_cases C (bindConfig force opts).skipbuggychecks r.schemas none with
    ⟨l, hl⟩ | ⟨e, he, hcl⟩
  · exfalso
    have := (checkGoValidityLoop_ok _ _ _).1 hl
    have hs' := schRel_sorted (by simpa using this.2)
    have hv' := fromRaw_versions this.1
    rw [hv] at hv'
    have : vs = l.map (·.v) := by
      have := (List.map_inj_right (f := some) (fun _ _ h => Option.some.inj h)).1 hv'
      exact this
    rw [← this] at hs'
    exact hd (sortedV_iff.1 hs')
  · refine ⟨e, by unfold checkGoValidity; rw [he]; rfl, ?_, ?_⟩
    · intro hoff
      rw [checksOn_iff, Bool.not_eq_false] at hoff
      rw [hoff] at he
      rw [checkGoValidityLoop_skip_err C _ _ vs hv e he]
      simp [GoErr.is]
    · rcases hcl with rfl | rfl <;> simp [GoErr.is]

example : ∃ e, bindLineage SetCue.cue false
    (SetCue.lin [SetCue.sch 0 1 [1], SetCue.sch 0 0 [2]]) [.skipBuggyChecks] = .err e ∧
    (e.is .invalidSchemasOrder ∨ e.is .invalidLineage) := by
  obtain ⟨e, h1, _, h2⟩ := C09_out_of_order_rejected (C := SetCue.cue) (force := false)
    (opts := [.skipBuggyChecks]) (r := SetCue.lin [SetCue.sch 0 1 [1], SetCue.sch 0 0 [2]])
    (vs := [⟨0, 1⟩, ⟨0, 0⟩]) rfl (fun h => by
      have := notAfter_iff.1 (h 0 1 (by decide) (by decide))
      simp [SV.less] at this) rfl rfl rfl rfl rfl rfl (by decide)
  exact ⟨e, h1, h2⟩

/-- **C09** (refutation).  Versions may repeat: 0.0, 0.1, 0.1 binds, and so does
0.0, 0.0. -/
theorem C09_duplicates_accepted :
    (∃ L, SetCue.bind (SetCue.lin [SetCue.sch 0 0 [1], SetCue.sch 0 1 [1], SetCue.sch 0 1 [1, 2]])
        = .ok L ∧ L.allv = [⟨0, 0⟩, ⟨0, 1⟩, ⟨0, 1⟩]) ∧
    (∃ L, SetCue.bind (SetCue.lin [SetCue.sch 0 0 [1], SetCue.sch 0 0 [2]])
        = .ok L ∧ L.allv = [⟨0, 0⟩, ⟨0, 0⟩]) :=
  ⟨⟨_, rfl, rfl⟩, ⟨_, rfl, rfl⟩⟩

example : ∃ e, bindLineage SetCue.cue false
    (SetCue.lin [SetCue.sch 0 1 [1], SetCue.sch 0 0 [2]]) [.skipBuggyChecks] = .err e ∧
    e.is .invalidSchemasOrder := ⟨_, rfl, by decide⟩

example : ¬ NonDecreasing [⟨0, 1⟩, ⟨0, 0⟩] ∧ countsOk [⟨0, 1⟩, ⟨0, 0⟩] = true := by
  refine ⟨?_, by decide⟩
  intro h
  have := notAfter_iff.1 (h 0 1 (by decide) (by decide))
  simp [SV.less] at this

/-! ### C10: contiguity -/

/-- **C10** (partial).  What a bound lineage guarantees: at least one schema, and
versions that do not go down.  Missing: that the first is 0.0 and that there are
no gaps (`C10_gaps_accepted`). -/
theorem C10_shape_partial (h : bindLineage C force r opts = .ok L) :
    ∃ v vs, r.schemas.map (·.version) = (v :: vs).map some ∧ NonDecreasing (v :: vs) := by
  have ha := bind_acceptable h
  cases hv : L.allv with
  | nil => exact absurd hv ha.nonempty
  | cons v vs => exact ⟨v, vs, hv ▸ ha.versions, hv ▸ ha.order⟩

example : ∃ v vs, threeVersions.schemas.map (·.version) = (v :: vs).map some ∧
    NonDecreasing (v :: vs) := C10_shape_partial threeBound_eq

/-- **C10** (refutation).  Lineages that start at 1.0 or at 0.3, skip a minor
version, skip a major version, or open a major version at a minor version other
than zero, are all accepted. -/
theorem C10_gaps_accepted :
    (∀ vs ∈ [[(⟨1, 0⟩ : SV)], [⟨0, 3⟩], [⟨0, 0⟩, ⟨0, 2⟩], [⟨0, 0⟩, ⟨2, 0⟩], [⟨0, 0⟩, ⟨1, 1⟩]],
      ¬ Contiguous vs) ∧
    (∃ L, SetCue.bind (SetCue.lin [SetCue.sch 1 0 [1]]) = .ok L ∧ L.allv = [⟨1, 0⟩]) ∧
    (∃ L, SetCue.bind (SetCue.lin [SetCue.sch 0 3 [1]]) = .ok L ∧ L.allv = [⟨0, 3⟩]) ∧
    (∃ L, SetCue.bind (SetCue.lin [SetCue.sch 0 0 [1], SetCue.sch 0 2 [1]]) = .ok L ∧
      L.allv = [⟨0, 0⟩, ⟨0, 2⟩]) ∧
    (∃ L, SetCue.bind (SetCue.lin [SetCue.sch 0 0 [1], SetCue.sch 2 0 [2]]) = .ok L ∧
      L.allv = [⟨0, 0⟩, ⟨2, 0⟩]) ∧
    (∃ L, SetCue.bind (SetCue.lin [SetCue.sch 0 0 [1], SetCue.sch 1 1 [1]]) = .ok L ∧
      L.allv = [⟨0, 0⟩, ⟨1, 1⟩]) := by
  refine ⟨?_, ⟨_, rfl, rfl⟩, ⟨_, rfl, rfl⟩, ⟨_, rfl, rfl⟩, ⟨_, rfl, rfl⟩, ⟨_, rfl, rfl⟩⟩
  intro vs hvs hc
  simp only [List.mem_cons, List.not_mem_nil, or_false] at hvs
  obtain ⟨h0, h1⟩ := hc
  rcases hvs with rfl | rfl | rfl | rfl | rfl
  · simp at h0
  · simp at h0
  all_goals
    have := h1 0 (by decide)
    simp [NextVersion] at this

/-! ### C11: compatibility -/

/-- **C11**.  Without `SkipBuggyChecks`, in a bound lineage a schema has a
non-zero minor version exactly if it subsumes its immediate predecessor. -/
theorem C11_compat_enforced (h : bindLineage C force r opts = .ok L) (hon : ChecksOn force opts) :
    CompatRule C L.allsch ∧ L.allsch.map (·.body) = r.schemas.map (·.body) := by
  have ha := bind_acceptable h
  have hf := (bindLineage_ok.1 h).2.2.2.1.1
  have hl := forall₂_length hf
  constructor
  · intro i hi
    have := ha.compat hon i (by omega) (by simpa using hi)
    rw [(fromRaw_getElem hf (by omega) hi).2.2.1,
      (fromRaw_getElem hf (i := i) (by omega) (by omega)).2.2.1]
    simpa [Lineage.allv] using this
  · apply List.ext_getElem
    · simp [hl]
    · intro i h1 h2
      simp only [List.getElem_map]
      exact (fromRaw_getElem hf (by simpa using h2) (by simpa using h1)).2.2.1

example : CompatRule SetCue.cue threeBound.allsch ∧
    threeBound.allsch.map (·.body) = [[1], [1, 2], [3]] :=
  C11_compat_enforced threeBound_eq (.inr (by simp))

/-- **C11** (converse).  A value that meets all requirements on schemas and
declares no lenses is accepted. -/
theorem C11_compatible_accepted (h : SchemasAcceptable C force r opts vs)
    (hg : goLenses opts = []) (hl : r.lenses = none ∨ r.lenses = some []) :
    ∃ L, bindLineage C force r opts = .ok L ∧ L.allv = vs := by
  obtain ⟨l, h1, _, h2⟩ := bind_of_acceptable h
  rw [h2, hg]
  unfold checkLensesOrder
  rcases hl with hl | hl <;> simp [hl, checkCueLensLoop, Lineage.allv, h1]

/-- **C11**.  If the value would be acceptable with `SkipBuggyChecks` but violates
the compatibility rule, the error is `ErrInvalidLineage`. -/
theorem C11_violation_error
    (h : SchemasAcceptable C false r [.skipBuggyChecks] vs)
    (hon : ChecksOn force opts)
    (hv : ¬ ∀ i (_ : i + 1 < r.schemas.length) (_ : i + 1 < vs.length),
      (vs[i + 1].minor ≠ 0 ↔ C.subsumeAll r.schemas[i + 1].body r.schemas[i].body = true)) :
    ∃ e, bindLineage C force r opts = .err e ∧ e.is .invalidLineage := by
  have a1 := checkExists_ok.2 h.present
  have a2 : checkLineageShape r = .ok () := by
    rw [checkLineageShape_ok]
    refine ⟨h.name, h.schemas, h.noFinalErr, ?_⟩
    unfold lineageConstraints
    rw [(concreteVersions_eq _ _).2 h.versions]
    simp only [h.counts, Bool.and_true, Bool.not_eq_true', List.isEmpty_eq_false_iff]
    intro he
    have := h.versions
    rw [he] at this
    exact h.nonempty (by simpa using this.symm)
  have a3 := checkNativeValidity_ok.2 ⟨h.noRawErr, h.noUniErr⟩
  unfold bindLineage
  simp only [a1, a2, a3, Res.bind_ok]
  rcases checkGoValidityLoop_cases C (bindConfig force opts).skipbuggychecks r.schemas none with
    ⟨l, hl⟩ | ⟨e, he, _⟩
  · exfalso
    obtain ⟨hf, hch⟩ := (checkGoValidityLoop_ok _ _ _).1 hl
    simp only [Option.toList, List.nil_append] at hch
    have hv' := fromRaw_versions hf
    rw [h.versions] at hv'
    have hvs : vs = l.map (·.v) :=
      (List.map_inj_right (f := some) (fun _ _ h => Option.some.inj h)).1 hv'
    apply hv
    intro i hi hi'
    have hi'' : i + 1 < l.length := by rw [← forall₂_length hf]; exact hi
    have := ((List.isChain_iff_getElem.1 hch) i hi'').2
    rw [checksOn_iff.1 hon] at this
    simp only [Bool.false_eq_true, false_or] at this
    rw [(fromRaw_getElem hf (by omega) hi'').2.2.1,
      (fromRaw_getElem hf (i := i) (by omega) (by omega)).2.2.1] at this
    subst hvs
    simpa using this
  · refine ⟨e, by unfold checkGoValidity; rw [he]; rfl, ?_⟩
    rw [checkGoValidityLoop_sorted_err C _ _ _ vs h.versions
      (by simpa using sortedV_iff.2 h.order) e he]
    simp [GoErr.is]

example : ∃ e, SetCue.bind (SetCue.lin [SetCue.sch 0 0 [1], SetCue.sch 0 1 [2]]) = .err e ∧
    e.is .invalidLineage :=
  C11_violation_error (vs := [⟨0, 0⟩, ⟨0, 1⟩])
    (bind_acceptable (C := SetCue.cue) (force := false) (opts := [.skipBuggyChecks])
      (r := SetCue.lin [SetCue.sch 0 0 [1], SetCue.sch 0 1 [2]]) rfl) (.inr (by simp)) (fun h => by
      have := h 0 (by decide) (by decide)
      revert this
      decide)

example : ChecksOn false ([] : List (BindOption SetCue.Val)) ∧
    SetCue.bind threeVersions = .ok threeBound ∧
    (∃ e, SetCue.bind (SetCue.lin [SetCue.sch 0 0 [1], SetCue.sch 0 1 [2]]) = .err e ∧
      e.is .invalidLineage) ∧
    (∃ e, SetCue.bind (SetCue.lin [SetCue.sch 0 0 [1], SetCue.sch 1 0 [1, 2]]) = .err e ∧
      e.is .invalidLineage) :=
  ⟨.inr (by simp), rfl, ⟨_, rfl, by decide⟩, ⟨_, rfl, by decide⟩⟩

/-! ### C12: stability of validity within a major version -/

/-- Subsumption is sound for validation of the data in `data`: what an older
schema admits, a schema that subsumes it admits.  (A law of the evaluator.) -/
def SubsumeSound (C : Cue V) (data : V → Prop) : Prop :=
  ∀ s p d, data d → C.subsumeAll s p = true → C.accepts p d → C.accepts s d

/-- The concrete evaluator has this law for concrete data (single atoms). -/
theorem setCue_subsumeSound : SubsumeSound SetCue.cue (fun d => ∃ a, d = [a]) := by
  rintro s p d ⟨a, rfl⟩ hsub hacc
  have hsp : ∀ x ∈ p, x ∈ s := by
    simpa [SetCue.cue] using hsub
  have key : ∀ (q : SetCue.Val), SetCue.cue.accepts q [a] ↔ a ∈ q := by
    intro q
    have e : ∀ x, ([a].contains x) = (x == a) := by
      intro x; simp only [List.contains_cons, List.contains_nil, Bool.or_false]
    simp only [Cue.accepts, SetCue.cue, e]
    constructor
    · intro h
      cases hf : q.filter (fun x => x == a) with
      | nil => rw [hf] at h; simp at h
      | cons x xs =>
        have : x ∈ q.filter (fun x => x == a) := by rw [hf]; simp
        simp only [List.mem_filter, beq_iff_eq] at this
        exact this.2 ▸ this.1
    · intro h
      cases hf : q.filter (fun x => x == a) with
      | nil =>
        rw [List.filter_eq_nil_iff] at hf
        exact absurd (by simp) (hf a h)
      | cons x xs =>
        have hx : ∀ y ∈ x :: xs, y = a := by
          intro y hy; rw [← hf] at hy; simpa using (List.mem_filter.1 hy).2
        have : xs.all (fun y => y == x) = true := by
          rw [List.all_eq_true]
          intro y hy
          rw [hx y (by simp [hy]), hx x (by simp)]
          simp
        simp [this]
  rw [key] at hacc ⊢
  exact hsp a hacc

/-- `threeVersions` is acceptable whatever the options. -/
theorem threeAcceptable (opts : List (BindOption SetCue.Val)) :
    SchemasAcceptable SetCue.cue false threeVersions opts [⟨0, 0⟩, ⟨0, 1⟩, ⟨1, 0⟩] :=
  have h := bind_acceptable threeBound_eq
  ⟨h.present, h.name, h.schemas, h.noFinalErr, h.noRawErr, h.noUniErr, h.versions, h.nonempty,
    h.counts, h.order, fun _ => h.compat (.inr (by simp))⟩

/-- Go lenses between the given versions, all identities. -/
def idLenses (ids : List (SV × SV)) : List (BindOption SetCue.Val) :=
  [.imperativeLenses (ids.map fun p =>
    { frm := p.1, «to» := p.2, mapper := some fun i _ => .ok (some i) })]

/-- **C12**.  In a lineage with distinct versions bound without `SkipBuggyChecks`,
data that validates against a schema validates against every later schema of the
same major version. -/
theorem C12_validity_stable {data : V → Prop} (hlaw : SubsumeSound C data)
    (h : bindLineage C force r opts = .ok L) (hon : ChecksOn force opts)
    (hd : L.allv.Nodup) (H : Heap V) {lin : Nat} (hH : H lin = L)
    {i j : Nat} (hij : i ≤ j) (hj : j < L.allsch.length)
    (hmaj : (L.ver i).major = (L.ver j).major)
    {d : V} (hdata : data d) {x : Inst V} (hx : validate C H ⟨lin, i⟩ d = .ok x) :
    ∃ y, validate C H ⟨lin, j⟩ d = .ok y ∧ y.raw = d ∧ y.sch = ⟨lin, j⟩ := by
  have hs := (bind_sorted h).strict hd
  have hc := (C11_compat_enforced h hon).1
  rw [validate_ok_iff hH (by omega)] at hx
  suffices hacc : C.accepts L.allsch[j].body d from
    ⟨_, (validate_ok_iff hH hj).2 ⟨hacc, rfl⟩, rfl, rfl⟩
  have hx' := hx.1
  clear hx
  induction j, hij using Nat.le_induction with
  | base => exact hx'
  | succ j hij ih =>
    have hlen : j + 1 < L.allv.length := by simpa using hj
    have h1 : (L.allv[j]).less L.allv[j + 1] = true := hs.get (by omega) hlen
    have h2 : (L.allv[i]).less L.allv[j] = true ∨ i = j := by
      rcases Nat.lt_or_ge i j with h | h
      · exact .inl (hs.get h (by omega))
      · exact .inr (by omega)
    have e1 : L.ver (j + 1) = L.allv[j + 1] := ver_lt hj
    have e2 : L.ver j = L.allv[j] := ver_lt (by omega)
    have e3 : L.ver i = L.allv[i] := ver_lt (by omega)
    have hmj : (L.ver i).major = (L.ver j).major := by
      rw [less_iff] at h1
      rw [e1] at hmaj
      rw [e2]
      rcases h2 with h2 | h2
      · rw [less_iff] at h2
        rw [e3] at hmaj ⊢
        omega
      · subst h2; rw [e2]
    have hprev := ih (by omega) hmj hx'
    have hminor : (L.allsch[j + 1].v).minor ≠ 0 := by
      rw [less_iff] at h1
      rw [e1, hmj, e2] at hmaj
      have e4 : L.allv[j + 1] = L.allsch[j + 1].v := by simp [Lineage.allv]
      rw [← e4]
      omega
    exact hlaw _ _ d hdata ((hc j hj).1 hminor) hprev

example : SetCue.bind threeVersions = .ok threeBound ∧
    ChecksOn false ([] : List (BindOption SetCue.Val)) ∧ threeBound.allv.Nodup ∧
    (threeBound.ver 0).major = (threeBound.ver 1).major ∧
    (∃ x, validate SetCue.cue (fun _ => threeBound) ⟨0, 0⟩ [1] = .ok x) :=
  ⟨rfl, .inr (by simp), by decide, rfl, ⟨_, rfl⟩⟩

/-! ### C13: Go lenses -/

/-- **C13**.  For distinct versions starting at 0.0, a non-empty list of Go lenses
is accepted exactly if no pair is repeated, no function is nil, and the pairs are
exactly the required ones. -/
theorem C13_go_lenses_exact (h : SchemasAcceptable C force r opts vs)
    (h0 : vs.head? = some ⟨0, 0⟩) (hd : vs.Nodup) (hne : goLenses opts ≠ []) :
    (∃ L, bindLineage C force r opts = .ok L) ↔
      ((goLenses opts).map pairOf).Nodup ∧ (∀ l ∈ goLenses opts, l.mapper ≠ none) ∧
      (∀ id, id ∈ (goLenses opts).map pairOf ↔ Required vs id) := by
  obtain ⟨l, hl, _, hb⟩ := bind_of_acceptable h
  have hs := sortedV_iff.2 h.order
  rw [← hl] at hs
  have hpos : 0 < l.length := by
    rw [List.length_pos_iff]; rintro rfl; exact h.nonempty hl.symm
  obtain ⟨k1, k2⟩ := checkGoLens_cases hs hpos (goLenses opts)
  have hvs : synv0 :: (l.map (·.v)).tail = vs := by
    rw [hl]
    cases vs with
    | nil => simp at h0
    | cons a t => simp only [List.head?_cons, Option.some.injEq] at h0; simp [synv0, h0]
  rw [hvs] at k1
  have hstrict := (sortedV_iff.2 h.order).strict hd
  have hrn := requiredList_nodup hstrict
  have hck : checkLensesOrder r l (goLenses opts) =
      checkGoLensCompleteness l (goLenses opts) := by
    unfold checkLensesOrder
    rw [if_pos (List.length_pos_iff.2 hne)]
  rw [hb, hck]
  by_cases hbase : ((goLenses opts).map pairOf).Nodup ∧ (∀ l ∈ goLenses opts, l.mapper ≠ none)
  · obtain ⟨m1, m2, _, _⟩ := k1 hbase
    have hpm : ((goLenses opts).map pairOf).Perm (requiredList vs) ↔
        ∀ id, id ∈ (goLenses opts).map pairOf ↔ Required vs id := by
      rw [List.perm_ext_iff_of_nodup hbase.1 hrn]
      simp only [mem_requiredList]
    by_cases hp : ((goLenses opts).map pairOf).Perm (requiredList vs)
    · rw [m1 hp]
      constructor
      · intro _; exact ⟨hbase.1, hbase.2, hpm.1 hp⟩
      · intro _; exact ⟨_, rfl⟩
    · constructor
      · rintro ⟨L, hL⟩
        rcases m2 hp with e | e <;> rw [e] at hL <;> simp at hL
      · rintro ⟨_, _, hh⟩
        exact absurd (hpm.2 hh) hp
  · rw [k2 hbase]
    constructor
    · rintro ⟨L, hL⟩; simp at hL
    · rintro ⟨hh1, hh2, _⟩; exact absurd ⟨hh1, hh2⟩ hbase

example : ¬ ∃ L, bindLineage SetCue.cue false threeVersions
    (idLenses [(⟨0, 1⟩, ⟨0, 0⟩), (⟨1, 0⟩, ⟨0, 1⟩)]) = .ok L := fun h => by
  have := ((C13_go_lenses_exact (threeAcceptable _) rfl (by decide) (by simp [goLenses, idLenses])).1
    h).2.2 ⟨⟨0, 1⟩, ⟨1, 0⟩⟩
  have h' := this.2 ⟨1, by decide, .inr ⟨by decide, rfl⟩⟩
  revert h'
  decide

/-- **C13**.  Errors: a repeated pair or a nil function is an error (that is none
of thema's sentinels); otherwise a required pair that is absent gives
`ErrMissingLenses`, whether or not others are superfluous; otherwise a superfluous
pair gives `ErrErroneousLenses`. -/
theorem C13_go_lenses_errors (h : SchemasAcceptable C force r opts vs)
    (h0 : vs.head? = some ⟨0, 0⟩) (hd : vs.Nodup) (hne : goLenses opts ≠ []) :
    (¬ (((goLenses opts).map pairOf).Nodup ∧ ∀ l ∈ goLenses opts, l.mapper ≠ none) →
      bindLineage C force r opts = .err ⟨[]⟩) ∧
    (((goLenses opts).map pairOf).Nodup → (∀ l ∈ goLenses opts, l.mapper ≠ none) →
      ((∃ id, Required vs id ∧ id ∉ (goLenses opts).map pairOf) →
        ∃ e, bindLineage C force r opts = .err e ∧ e.is .missingLenses ∧
          ¬ e.is .erroneousLenses) ∧
      ((∀ id, Required vs id → id ∈ (goLenses opts).map pairOf) →
        (∃ id ∈ (goLenses opts).map pairOf, ¬ Required vs id) →
        ∃ e, bindLineage C force r opts = .err e ∧ e.is .erroneousLenses ∧
          ¬ e.is .missingLenses)) := by
  obtain ⟨l, hl, _, hb⟩ := bind_of_acceptable h
  have hs := sortedV_iff.2 h.order
  rw [← hl] at hs
  have hpos : 0 < l.length := by
    rw [List.length_pos_iff]; rintro rfl; exact h.nonempty hl.symm
  obtain ⟨k1, k2⟩ := checkGoLens_cases hs hpos (goLenses opts)
  have hvs : synv0 :: (l.map (·.v)).tail = vs := by
    rw [hl]
    cases vs with
    | nil => simp at h0
    | cons a t => simp only [List.head?_cons, Option.some.injEq] at h0; simp [synv0, h0]
  rw [hvs] at k1
  have hrn := requiredList_nodup ((sortedV_iff.2 h.order).strict hd)
  have hck : checkLensesOrder r l (goLenses opts) =
      checkGoLensCompleteness l (goLenses opts) := by
    unfold checkLensesOrder
    rw [if_pos (List.length_pos_iff.2 hne)]
  rw [hb, hck]
  refine ⟨?_, ?_⟩
  · intro hbase; rw [k2 hbase]; rfl
  · intro hn1 hn2
    obtain ⟨_, _, m3, m4⟩ := k1 ⟨hn1, hn2⟩
    simp only [mem_requiredList] at m3 m4
    constructor
    · rintro ⟨id, i1, i2⟩
      rw [m3 hrn ⟨id, i1, i2⟩]
      exact ⟨_, rfl, by simp [GoErr.is], by simp [GoErr.is]⟩
    · intro hall hex
      rw [m4 hrn hall hex]
      exact ⟨_, rfl, by simp [GoErr.is], by simp [GoErr.is]⟩

example : (bindLineage SetCue.cue false threeVersions
      (idLenses [(⟨0, 1⟩, ⟨0, 0⟩), (⟨0, 1⟩, ⟨0, 0⟩)]) = .err ⟨[]⟩) ∧
    ∃ e, bindLineage SetCue.cue false threeVersions
      (idLenses [(⟨0, 1⟩, ⟨0, 0⟩), (⟨1, 0⟩, ⟨0, 1⟩)]) = .err e ∧ e.is .missingLenses ∧
      ¬ e.is .erroneousLenses :=
  ⟨(C13_go_lenses_errors (threeAcceptable _) rfl (by decide) (by simp [goLenses, idLenses])).1
      (fun h => by revert h; simp [goLenses, idLenses]),
    ((C13_go_lenses_errors (threeAcceptable _) rfl (by decide) (by simp [goLenses, idLenses])).2
      (by decide) (by simp [goLenses, idLenses])).1
      ⟨⟨⟨0, 1⟩, ⟨1, 0⟩⟩, ⟨1, by decide, .inr ⟨by decide, rfl⟩⟩, by decide⟩⟩

/-- **C13**.  In the bound lineage each required pair is served by the function
that was supplied for it. -/
theorem C13_go_lenses_stored (h : bindLineage C force r opts = .ok L) (hne : goLenses opts ≠ []) :
    L.lensmap.length = (goLenses opts).length ∧
    ∀ l ∈ goLenses opts, ∃ m, l.mapper = some m ∧ L.lensmap.lookup (pairOf l) = some m := by
  have ha := bind_acceptable h
  obtain ⟨l, hl, _, hb⟩ := bind_of_acceptable ha
  have hs := sortedV_iff.2 ha.order
  rw [← hl] at hs
  have hpos : 0 < l.length := by
    rw [List.length_pos_iff]; rintro rfl; exact ha.nonempty hl.symm
  obtain ⟨k1, k2⟩ := checkGoLens_cases hs hpos (goLenses opts)
  have hck : checkLensesOrder r l (goLenses opts) =
      checkGoLensCompleteness l (goLenses opts) := by
    unfold checkLensesOrder
    rw [if_pos (List.length_pos_iff.2 hne)]
  rw [hb, hck] at h
  by_cases hbase : ((goLenses opts).map pairOf).Nodup ∧ (∀ l ∈ goLenses opts, l.mapper ≠ none)
  · obtain ⟨m1, m2, _, _⟩ := k1 hbase
    have hm : L.lensmap = buildLensMap (goLenses opts) := by
      by_cases hp : ((goLenses opts).map pairOf).Perm
          (requiredList (synv0 :: (l.map (·.v)).tail))
      · rw [m1 hp] at h
        simp only [Res.map_ok, Res.ok.injEq] at h
        rw [← h]
      · rcases m2 hp with e | e <;> rw [e] at h <;> simp at h
    rw [hm]
    exact ⟨buildLensMap_length hbase.2, fun x hx => buildLensMap_lookup hbase.1 hbase.2 hx⟩
  · rw [k2 hbase] at h; simp at h

example : ∃ L, bindLineage SetCue.cue false threeVersions
      (idLenses [(⟨0, 1⟩, ⟨0, 0⟩), (⟨1, 0⟩, ⟨0, 1⟩), (⟨0, 1⟩, ⟨1, 0⟩)]) = .ok L ∧
    L.lensmap.length = 3 ∧ ∃ m, L.lensmap.lookup ⟨⟨1, 0⟩, ⟨0, 1⟩⟩ = some m := by
  obtain ⟨L, h⟩ : ∃ L, bindLineage SetCue.cue false threeVersions
      (idLenses [(⟨0, 1⟩, ⟨0, 0⟩), (⟨1, 0⟩, ⟨0, 1⟩), (⟨0, 1⟩, ⟨1, 0⟩)]) = .ok L := ⟨_, rfl⟩
  obtain ⟨h1, h2⟩ := C13_go_lenses_stored h (by simp [goLenses, idLenses])
  obtain ⟨m, _, hm⟩ := h2 ⟨⟨0, 1⟩, ⟨1, 0⟩, some fun i _ => .ok (some i)⟩ (by simp [goLenses, idLenses])
  exact ⟨L, h, h1, m, hm⟩

/-- The two-schema lineage with the Go lenses `ids`, all identities. -/
def goBind (r : RawLineage SetCue.Val) (ids : List (SV × SV)) : Res (Lineage SetCue.Val) :=
  bindLineage SetCue.cue false r (idLenses ids)

/-- **C13** (limit).  For a lineage that starts at 1.0 the exact required set is
rejected with `ErrMissingLenses`; instead the check asks for lenses from and to
the non-existing version 0.0. -/
theorem C13_start_above_zero_rejected :
    let r := SetCue.lin [SetCue.sch 1 0 [1], SetCue.sch 1 1 [1, 2]]
    (∀ id, Required [⟨1, 0⟩, ⟨1, 1⟩] id ↔ id = ⟨⟨1, 1⟩, ⟨1, 0⟩⟩) ∧
    (∃ e, goBind r [(⟨1, 1⟩, ⟨1, 0⟩)] = .err e ∧ e.is .missingLenses) ∧
    (∃ L, goBind r [(⟨1, 1⟩, ⟨0, 0⟩), (⟨0, 0⟩, ⟨1, 1⟩)] = .ok L) := by
  refine ⟨?_, ⟨_, rfl, by decide⟩, ⟨_, rfl⟩⟩
  intro id
  rw [← mem_requiredList]
  simp [requiredList]

example : (∃ L, goBind threeVersions
      [(⟨0, 1⟩, ⟨0, 0⟩), (⟨1, 0⟩, ⟨0, 1⟩), (⟨0, 1⟩, ⟨1, 0⟩)] = .ok L) ∧
    (∃ e, goBind threeVersions [(⟨0, 1⟩, ⟨0, 0⟩), (⟨0, 0⟩, ⟨1, 0⟩)] = .err e ∧
      e.is .missingLenses) ∧
    (∃ e, goBind threeVersions [(⟨0, 1⟩, ⟨0, 0⟩), (⟨1, 0⟩, ⟨0, 1⟩), (⟨0, 1⟩, ⟨1, 0⟩),
      (⟨0, 0⟩, ⟨0, 1⟩)] = .err e ∧ e.is .erroneousLenses) :=
  ⟨⟨_, rfl⟩, ⟨_, rfl, by decide⟩, ⟨_, rfl, by decide⟩⟩

/-! ### C14: order of CUE lenses -/

/-- **C14**.  With CUE lenses (all with concrete versions) the lineage is accepted
exactly if they are sorted by `to`, then by `from`; otherwise the error is
`ErrInvalidLensesOrder`. -/
theorem C14_cue_lens_order (h : SchemasAcceptable C force r opts vs) (hg : goLenses opts = [])
    {ls : List (RawLens V)} (hl : r.lenses = some ls) {ps : List (SV × SV)}
    (hps : ls.map (fun l => (l.to, l.frm)) = ps.map (fun p => (some p.1, some p.2))) :
    ((∃ L, bindLineage C force r opts = .ok L) ↔ LensSorted ps) ∧
    (¬ LensSorted ps → ∃ e, bindLineage C force r opts = .err e ∧ e.is .invalidLensesOrder) := by
  obtain ⟨l, _, _, hb⟩ := bind_of_acceptable h
  have hck : checkLensesOrder r l (goLenses opts) =
      (checkCueLensLoop none ls).map fun _ => [] := by
    unfold checkLensesOrder
    rw [if_neg (by simp [hg]), hl]
  rw [hb, hck]
  have hdec : List.Forall₂ Decodes ls (ps.map fun p => ⟨p.1, p.2⟩) := decodes_of_map hps
  have hid : (ps.map fun p => (⟨p.1, p.2⟩ : LensVersionDef)).map (fun d => (d.to, d.frm)) = ps := by
    simp only [List.map_map]
    exact List.map_id ps
  have hiff : checkCueLensLoop none ls = .ok () ↔ LensSorted ps := by
    rw [checkCueLensLoop_ok]
    simp only [Option.toList, List.nil_append]
    constructor
    · rintro ⟨ds, h1, h2⟩
      rw [decodes_unique h1 hdec, lensRel_chain_iff, hid] at h2
      exact h2
    · intro h
      exact ⟨_, hdec, by rw [lensRel_chain_iff, hid]; exact h⟩
  constructor
  · constructor
    · rintro ⟨L, hL⟩
      rcases checkCueLensLoop_decoded_err ls _ hdec none with e | e
      · exact hiff.1 e
      · rw [e] at hL; simp at hL
    · intro hs
      rw [hiff.2 hs]; exact ⟨_, rfl⟩
  · intro hs
    rcases checkCueLensLoop_decoded_err ls _ hdec none with e | e
    · exact absurd (hiff.1 e) hs
    · rw [e]; exact ⟨_, rfl, by simp [GoErr.is]⟩

example : (∃ L, SetCue.bind (SetCue.withLenses threeVersions
      [SetCue.lens ⟨0, 1⟩ ⟨0, 0⟩ [1], SetCue.lens ⟨1, 0⟩ ⟨0, 1⟩ [2],
       SetCue.lens ⟨0, 1⟩ ⟨1, 0⟩ [3]]) = .ok L) ∧
    (∃ e, SetCue.bind (SetCue.withLenses threeVersions
      [SetCue.lens ⟨1, 0⟩ ⟨0, 1⟩ [2], SetCue.lens ⟨0, 1⟩ ⟨0, 0⟩ [1]]) = .err e ∧
      e.is .invalidLensesOrder) :=
  ⟨⟨_, rfl⟩, ⟨_, rfl, by decide⟩⟩

/-! ### C15: completeness of CUE lenses -/

/-- **C15** (refutation).  No lens is ever required of CUE lineages: removing all
lenses from any lineage that binds gives a lineage that binds. -/
theorem C15_lenses_never_required (h : bindLineage C force r opts = .ok L)
    (hg : goLenses opts = []) :
    ∃ L', bindLineage C force { r with lenses := some [] } opts = .ok L' ∧
      L'.allsch = L.allsch ∧ L'.lenses = [] := by
  have ha := bind_acceptable h
  have ha' : SchemasAcceptable C force { r with lenses := some [] } opts L.allv :=
    ⟨ha.present, ha.name, ha.schemas, ha.noFinalErr, ha.noRawErr, ha.noUniErr, ha.versions,
      ha.nonempty, ha.counts, ha.order, ha.compat⟩
  obtain ⟨l, _, hf, hb⟩ := bind_of_acceptable ha'
  have := fromRaw_unique (bindLineage_ok.1 h).2.2.2.1.1 hf
  rw [hb, hg]
  exact ⟨_, rfl, this.symm, rfl⟩

example : ∃ L, SetCue.bind (SetCue.withLenses threeVersions []) = .ok L ∧
    L.allsch = threeBound.allsch ∧ L.lenses = [] :=
  C15_lenses_never_required threeBound_eq rfl

/-- **C15** (refutation).  Superfluous lenses, repeated lenses and lenses between
versions that do not exist are accepted. -/
theorem C15_wrong_lenses_accepted :
    ∃ L, SetCue.bind (SetCue.withLenses threeVersions
      [SetCue.lens ⟨0, 0⟩ ⟨0, 0⟩ [1], SetCue.lens ⟨0, 1⟩ ⟨0, 0⟩ [1], SetCue.lens ⟨0, 1⟩ ⟨0, 0⟩ [1],
       SetCue.lens ⟨7, 0⟩ ⟨3, 1⟩ [2]]) = .ok L ∧
      (L.lenses.map fun l => (l.frm, l.to)) = [(⟨0, 0⟩, ⟨0, 0⟩), (⟨0, 1⟩, ⟨0, 0⟩), (⟨0, 1⟩, ⟨0, 0⟩),
        (⟨7, 0⟩, ⟨3, 1⟩)] ∧
      ¬ Required L.allv ⟨⟨7, 0⟩, ⟨3, 1⟩⟩ ∧
      (Required L.allv ⟨⟨1, 0⟩, ⟨0, 1⟩⟩ ∧ (⟨1, 0⟩, ⟨0, 1⟩) ∉ L.lenses.map fun l => (l.frm, l.to)) := by
  refine ⟨_, rfl, rfl, ?_, ?_, by decide⟩
  · rw [← mem_requiredList]; decide
  · rw [← mem_requiredList]; decide

/-- **C15** (partial).  What is guaranteed about the CUE lenses of a bound lineage
without Go lenses: all have concrete versions, they are those declared, and they
are sorted.  Missing: that they are the required ones. -/
theorem C15_cue_lenses_partial (h : bindLineage C force r opts = .ok L) (hg : goLenses opts = [])
    {ls : List (RawLens V)} (hl : r.lenses = some ls) :
    ls.map (fun l => (l.to, l.frm)) = L.lenses.map (fun l => (some l.to, some l.frm)) ∧
    LensSorted (L.lenses.map fun l => (l.to, l.frm)) := by
  have h' := bindLineage_ok.1 h
  have hck := h'.2.2.2.2.1
  rw [bindConfig_implens, hg] at hck
  simp only [checkLensesOrder, List.length_nil, gt_iff_lt, lt_irrefl, if_false, hl] at hck
  obtain ⟨_, hck', _⟩ := Res.map_eq_ok.1 hck
  obtain ⟨ds, h1, h2⟩ := (checkCueLensLoop_ok ls none).1 hck'
  simp only [Option.toList, List.nil_append] at h2
  rw [lensRel_chain_iff] at h2
  rw [h'.2.2.2.2.2.2]
  have e1 : (cueLenses r).map (fun l => (l.to, l.frm)) = ds.map (fun d => (d.to, d.frm)) := by
    unfold cueLenses
    rw [hl]
    exact cueLenses_decoded h1
  have e2 : ls.map (fun l => (l.to, l.frm)) = ds.map (fun d => (some d.to, some d.frm)) := by
    clear h2 e1 hck' hck hl
    induction h1 with
    | nil => rfl
    | cons h _ ih => simp [h.1, h.2, ih]
  constructor
  · rw [e2]
    have := congrArg (List.map fun p : SV × SV => (some p.1, some p.2)) e1
    rw [List.map_map, List.map_map] at this
    exact this.symm
  · rw [e1]; exact h2

/-! ### C16: the checks as a whole -/

/-- **C16**.  `BindLineage` succeeds exactly if the requirements on schemas hold
and the lens check passes: with Go lenses, no pair repeated, no nil function, and
pairs equal (as multisets) to the required ones computed from 0.0 on; without,
CUE lenses (if any) with concrete versions in sorted order. -/
theorem C16_accepts_iff :
    (∃ L, bindLineage C force r opts = .ok L) ↔
      ∃ vs, SchemasAcceptable C force r opts vs ∧
        (goLenses opts ≠ [] → ((goLenses opts).map pairOf).Nodup ∧
          (∀ l ∈ goLenses opts, l.mapper ≠ none) ∧
          ((goLenses opts).map pairOf).Perm (requiredList (⟨0, 0⟩ :: vs.tail))) ∧
        (goLenses opts = [] → ∀ ls, r.lenses = some ls →
          ∃ ps : List (SV × SV),
            ls.map (fun l => (l.to, l.frm)) = ps.map (fun p => (some p.1, some p.2)) ∧
            LensSorted ps) := by
  constructor
  · rintro ⟨L, h⟩
    have ha := bind_acceptable h
    refine ⟨L.allv, ha, ?_, ?_⟩
    · intro hne
      obtain ⟨l, hl, _, hb⟩ := bind_of_acceptable ha
      have hs := sortedV_iff.2 ha.order
      rw [← hl] at hs
      have hpos : 0 < l.length := by
        rw [List.length_pos_iff]; rintro rfl; exact ha.nonempty hl.symm
      obtain ⟨k1, k2⟩ := checkGoLens_cases hs hpos (goLenses opts)
      have hck : checkLensesOrder r l (goLenses opts) =
          checkGoLensCompleteness l (goLenses opts) := by
        unfold checkLensesOrder
        rw [if_pos (List.length_pos_iff.2 hne)]
      rw [hb, hck] at h
      by_cases hbase : ((goLenses opts).map pairOf).Nodup ∧
          (∀ l ∈ goLenses opts, l.mapper ≠ none)
      · refine ⟨hbase.1, hbase.2, ?_⟩
        by_contra hp
        rw [← hl] at hp
        rcases (k1 hbase).2.1 hp with e | e <;> rw [e] at h <;> simp at h
      · rw [k2 hbase] at h; simp at h
    · intro hg ls hls
      obtain ⟨h1, h2⟩ := C15_cue_lenses_partial h hg hls
      exact ⟨_, by rw [h1]; simp, h2⟩
  · rintro ⟨vs, ha, h1, h2⟩
    by_cases hne : goLenses opts = []
    · cases hls : r.lenses with
      | none =>
        obtain ⟨L, hL, _⟩ := C11_compatible_accepted ha hne (.inl hls)
        exact ⟨L, hL⟩
      | some ls =>
        obtain ⟨ps, p1, p2⟩ := h2 hne ls hls
        exact ((C14_cue_lens_order ha hne hls p1).1).2 p2
    · obtain ⟨b1, b2, b3⟩ := h1 hne
      obtain ⟨l, hl, _, hb⟩ := bind_of_acceptable ha
      have hs := sortedV_iff.2 ha.order
      rw [← hl] at hs
      have hpos : 0 < l.length := by
        rw [List.length_pos_iff]; rintro rfl; exact ha.nonempty hl.symm
      obtain ⟨k1, _⟩ := checkGoLens_cases hs hpos (goLenses opts)
      have hck : checkLensesOrder r l (goLenses opts) =
          checkGoLensCompleteness l (goLenses opts) := by
        unfold checkLensesOrder
        rw [if_pos (List.length_pos_iff.2 hne)]
      rw [hb, hck, (k1 ⟨b1, b2⟩).1 (by rw [hl]; exact b3)]
      exact ⟨_, rfl⟩

/-- **C16**.  `BindLineage` always returns: a lineage or an error, never a panic,
whatever the value and the options. -/
theorem C16_never_panics : (bindLineage C force r opts).Returns := by
  unfold bindLineage
  rcases checkExists_cases r with h1 | h1
  · rw [h1]; simp only [Res.bind_ok]
    rcases checkLineageShape_cases r with h2 | ⟨e, h2, _⟩
    · rw [h2]; simp only [Res.bind_ok]
      rcases checkNativeValidity_cases r with h3 | h3
      · rw [h3]; simp only [Res.bind_ok]
        unfold checkGoValidity
        rcases checkGoValidityLoop_cases C (bindConfig force opts).skipbuggychecks r.schemas none
          with ⟨l, hl⟩ | ⟨e, he, _⟩
        · rw [hl]; simp only [Res.bind_ok]
          have ha := (schemasAcceptable_iff (C := C) (force := force) (r := r) (opts := opts)
            (l := l)).2 ⟨h1, h2, h3, hl⟩
          rcases checkLensesOrder_cases (r := r) (sortedV_iff.2 ha.1.order)
            (by rw [List.length_pos_iff]; rintro rfl; exact ha.1.nonempty rfl)
            (bindConfig force opts).implens with ⟨m, hm⟩ | ⟨e, he, _⟩
          · rw [hm]; trivial
          · rw [he]; trivial
        · rw [he]; trivial
      · rw [h3]; trivial
    · rw [h2]; trivial
  · rw [h1]; trivial

/-- **C16**.  The checks run in the order existence, shape, native validity,
schemas, lenses; the error of the first that fails is returned, and carries the
sentinel of its class. -/
theorem C16_first_failure :
    (r.exists_ = false → ∃ e, bindLineage C force r opts = .err e ∧ e.is .valueNotExist) ∧
    (r.exists_ = true → r.nameField = .absent ∨
        (r.nameField = .concrete ∧ r.schemasField = .absent) →
      ∃ e, bindLineage C force r opts = .err e ∧ e.is .valueNotALineage) ∧
    (r.exists_ = true → r.nameField = .nonConcrete ∨
        (r.nameField = .concrete ∧ r.schemasField = .nonConcrete) →
      ∃ e, bindLineage C force r opts = .err e ∧ e.is .invalidLineage) ∧
    (r.exists_ = true → r.nameField = .concrete → r.schemasField = .concrete →
      (r.finalErr = true ∨ r.schemas = [] ∨ r.rawErr = true ∨ r.uniErr = true ∨
        (∃ vs, r.schemas.map (·.version) = vs.map some ∧ countsOk vs = false)) →
      ∃ e, bindLineage C force r opts = .err e ∧ e.is .invalidLineage) ∧
    (∀ e, r.exists_ = true → r.nameField = .concrete → r.schemasField = .concrete →
      (¬ ∃ vs, SchemasAcceptable C force r opts vs) → bindLineage C force r opts = .err e →
      e = ⟨[.invalidLineage]⟩ ∨ e = ⟨[.invalidSchemasOrder]⟩) ∧
    (∀ e, (∃ vs, SchemasAcceptable C force r opts vs) → bindLineage C force r opts = .err e →
      e = ⟨[.invalidLineage]⟩ ∨ e = ⟨[.invalidLensesOrder]⟩ ∨ e = ⟨[.missingLenses]⟩ ∨
      e = ⟨[.erroneousLenses]⟩ ∨ e = ⟨[]⟩) := by
  refine ⟨?_, ?_, ?_, ?_, ?_, ?_⟩
  · intro h
    exact ⟨⟨[.valueNotExist]⟩, by simp [bindLineage, checkExists, h], by simp [GoErr.is]⟩
  · intro h hf
    refine ⟨⟨[.valueNotALineage]⟩, ?_, by simp [GoErr.is]⟩
    rcases hf with hf | ⟨hf, hg⟩ <;> simp [bindLineage, checkExists, checkLineageShape, checkField, *]
  · intro h hf
    refine ⟨⟨[.invalidLineage]⟩, ?_, by simp [GoErr.is]⟩
    rcases hf with hf | ⟨hf, hg⟩ <;> simp [bindLineage, checkExists, checkLineageShape, checkField, *]
  · intro h hn hs hor
    refine ⟨⟨[.invalidLineage]⟩, ?_, by simp [GoErr.is]⟩
    unfold bindLineage
    rw [checkExists_ok.2 h]
    simp only [Res.bind_ok]
    rcases checkLineageShape_cases r with h2 | ⟨e, h2, h2'⟩
    · have h2' := checkLineageShape_ok.1 h2
      rw [h2]; simp only [Res.bind_ok]
      rcases checkNativeValidity_cases r with h3 | h3
      · exfalso
        have h3' := checkNativeValidity_ok.1 h3
        have hlc := h2'.2.2.2
        unfold lineageConstraints at hlc
        rcases hor with a | a | a | a | ⟨vs, a, b⟩
        · rw [h2'.2.2.1] at a; cases a
        · rw [a] at hlc; simp at hlc
        · rw [h3'.1] at a; cases a
        · rw [h3'.2] at a; cases a
        · rw [(concreteVersions_eq _ _).2 a] at hlc; simp [b] at hlc
      · rw [h3]; rfl
    · rw [h2]
      rw [h2' hn hs]; rfl
  · intro e h hn hs hna hb
    unfold bindLineage at hb
    rw [checkExists_ok.2 h] at hb
    simp only [Res.bind_ok] at hb
    rcases checkLineageShape_cases r with h2 | ⟨e', h2, h2'⟩
    · rw [h2] at hb; simp only [Res.bind_ok] at hb
      rcases checkNativeValidity_cases r with h3 | h3
      · rw [h3] at hb; simp only [Res.bind_ok] at hb
        unfold checkGoValidity at hb
        rcases checkGoValidityLoop_cases C (bindConfig force opts).skipbuggychecks r.schemas none
          with ⟨l, hl⟩ | ⟨e', he, hcl⟩
        · exact absurd ⟨_, ((schemasAcceptable_iff (C := C) (force := force) (r := r)
            (opts := opts) (l := l)).2 ⟨checkExists_ok.2 h, h2, h3, hl⟩).1⟩ hna
        · rw [he] at hb
          simp only [Res.bind_err, Res.err.injEq] at hb
          rw [← hb]; exact hcl
      · rw [h3] at hb
        simp only [Res.bind_err, Res.err.injEq] at hb
        exact .inl hb.symm
    · rw [h2, h2' hn hs] at hb
      simp only [Res.bind_err, Res.err.injEq] at hb
      exact .inl hb.symm
  · rintro e ⟨vs, ha⟩ hb
    obtain ⟨l, hl, _, hb'⟩ := bind_of_acceptable ha
    rw [hb'] at hb
    rcases checkLensesOrder_cases (r := r) (schlist := l)
      (by rw [hl]; exact sortedV_iff.2 ha.order)
      (by rw [List.length_pos_iff]; rintro rfl; exact ha.nonempty hl.symm)
      (goLenses opts) with ⟨m, hm⟩ | ⟨e', he, hcl⟩
    · rw [hm] at hb; simp at hb
    · rw [he] at hb
      simp only [Res.map_err, Res.err.injEq] at hb
      rw [← hb]; exact hcl

example : (∃ e, SetCue.bind { threeVersions with exists_ := false } = .err e ∧
      e.is .valueNotExist) ∧
    (∃ e, SetCue.bind { threeVersions with nameField := .absent } = .err e ∧
      e.is .valueNotALineage) ∧
    (∃ e, SetCue.bind { threeVersions with schemas := [] } = .err e ∧ e.is .invalidLineage) ∧
    (∃ e, SetCue.bind { threeVersions with rawErr := true } = .err e ∧ e.is .invalidLineage) :=
  ⟨⟨_, rfl, by decide⟩, ⟨_, rfl, by decide⟩, ⟨_, rfl, by decide⟩, ⟨_, rfl, by decide⟩⟩

/-! ### C18: lenses in both places -/

/-- **C18** (refutation).  `BindLineage` never reports `ErrDuplicateLenses`. -/
theorem C18_duplicate_never_reported {e : GoErr} (h : bindLineage C force r opts = .err e) :
    ¬ e.is .duplicateLenses := by
  obtain ⟨f1, f2, f3, _, f5, f6⟩ := C16_first_failure (C := C) (force := force) (r := r)
    (opts := opts)
  have same : ∀ e', bindLineage C force r opts = .err e' → e' = e := by
    intro e' h'; rw [h] at h'; exact (Res.err.inj h').symm
  by_cases hx : r.exists_ = true
  · by_cases hn : r.nameField = .concrete
    · by_cases hs : r.schemasField = .concrete
      · by_cases ha : ∃ vs, SchemasAcceptable C force r opts vs
        · rcases f6 e ha h with rfl | rfl | rfl | rfl | rfl <;> simp [GoErr.is]
        · rcases f5 e hx hn hs ha h with rfl | rfl <;> simp [GoErr.is]
      · cases hs' : r.schemasField with
        | concrete => exact absurd hs' hs
        | absent =>
          have : bindLineage C force r opts = .err ⟨[.valueNotALineage]⟩ := by
            simp [bindLineage, checkExists, checkLineageShape, checkField, hx, hn, hs']
          rw [← same _ this]; simp [GoErr.is]
        | nonConcrete =>
          have : bindLineage C force r opts = .err ⟨[.invalidLineage]⟩ := by
            simp [bindLineage, checkExists, checkLineageShape, checkField, hx, hn, hs']
          rw [← same _ this]; simp [GoErr.is]
    · cases hn' : r.nameField with
      | concrete => exact absurd hn' hn
      | absent =>
        have : bindLineage C force r opts = .err ⟨[.valueNotALineage]⟩ := by
          simp [bindLineage, checkExists, checkLineageShape, checkField, hx, hn']
        rw [← same _ this]; simp [GoErr.is]
      | nonConcrete =>
        have : bindLineage C force r opts = .err ⟨[.invalidLineage]⟩ := by
          simp [bindLineage, checkExists, checkLineageShape, checkField, hx, hn']
        rw [← same _ this]; simp [GoErr.is]
  · have : bindLineage C force r opts = .err ⟨[.valueNotExist]⟩ := by
      simp [bindLineage, checkExists, hx]
    rw [← same _ this]; simp [GoErr.is]

example : ∃ e, SetCue.bind (SetCue.lin [SetCue.sch 0 0 [1], SetCue.sch 0 1 [2]]) = .err e ∧
    ¬ e.is .duplicateLenses :=
  ⟨_, rfl, C18_duplicate_never_reported (C := SetCue.cue) (force := false) (opts := [])
    (r := SetCue.lin [SetCue.sch 0 0 [1], SetCue.sch 0 1 [2]]) rfl⟩

/-- **C18** (refutation).  A lineage whose lens 0.1 → 0.0 is declared in CUE and
supplied as a Go function binds. -/
theorem C18_both_accepted :
    ∃ L, goBind (SetCue.withLenses (SetCue.lin [SetCue.sch 0 0 [1], SetCue.sch 0 1 [1, 2]])
        [SetCue.lens ⟨0, 1⟩ ⟨0, 0⟩ [1]]) [(⟨0, 1⟩, ⟨0, 0⟩)] = .ok L ∧
      (L.lenses.map fun l => (⟨l.frm, l.to⟩ : LensID)) = [⟨⟨0, 1⟩, ⟨0, 0⟩⟩] ∧
      L.lensmap.map Prod.fst = [⟨⟨0, 1⟩, ⟨0, 0⟩⟩] :=
  ⟨_, rfl, rfl, rfl⟩

end Thema.Props
