import Verif.Props.TranslateGo
import Verif.Props.AppendOnly
import Verif.Spec.Declare

/-!
# What authors declare and what users get

`joinSchema`, and versions that are left out.
-/

namespace Thema.Props

open Thema Thema.Spec

variable {V : Type} {C : Cue V} {close : V → V} {top : V} {force force' : Bool}
  {d d' : DeclLineage V} {opts opts' : List (BindOption V)} {L N : Lineage V} {H : Heap V}
  {i : Inst V}

theorem declared_at (h : bindLineage C force (d.raw C close top) opts = .ok L) {p : Nat}
    (hp : p < L.allsch.length) :
    ∃ s, d.schemas[p]? = some s ∧ s.version.getD (some ⟨0, 0⟩) = some (L.ver p) ∧
      L.allsch[p].schema = s.schema ∧
      L.allsch[p].body = close (C.unify (d.join.getD top) s.schema) := by
  have hf := (bindLineage_ok.1 h).2.2.2.1.1
  have hlen : p < (d.raw C close top).schemas.length := by rw [forall₂_length hf]; exact hp
  obtain ⟨h1, h2, h3, _⟩ := fromRaw_getElem hf hlen hp
  have hp' : p < d.schemas.length := by simpa [DeclLineage.raw] using hlen
  refine ⟨d.schemas[p], List.getElem?_eq_getElem hp', ?_, ?_, ?_⟩
  · rw [ver_lt hp]
    simpa [Lineage.allv, DeclLineage.raw, DeclSchema.raw] using h1
  · simpa [DeclLineage.raw, DeclSchema.raw] using h2
  · simpa [DeclLineage.raw, DeclSchema.raw] using h3

/-! ### C144 -/

/-- **C144** (part).  Concrete data that is valid at any version satisfies the `joinSchema` of the
lineage and the schema that was written for this version. -/
theorem C144_valid_satisfies_join (hl : JoinLaws C close)
    (h : bindLineage C force (d.raw C close top) opts = .ok L) {s : SchPtr} (hH : H s.lin = L)
    {x : V} (hx : C.marshals x = true) (hv : validate C H s x = .ok i) :
    (∀ j, d.join = some j → C.accepts j i.raw) ∧
      ∃ t, d.schemas[s.pos]? = some t ∧ C.accepts t.schema i.raw := by
  obtain ⟨hp, ha, rfl⟩ := validate_ok_any hv
  simp only [hH] at hp ha
  obtain ⟨t, h1, _, _, h4⟩ := declared_at h hp
  rw [h4] at ha
  obtain ⟨a1, a2⟩ := hl.both _ _ _ hx ha
  refine ⟨?_, t, h1, a2⟩
  intro j hj
  rw [hj] at a1
  exact a1

/-- **C144** (part).  However an instance was come by - validation, translation in any number of
steps, examples -, it satisfies the `joinSchema` of its lineage, if functions supplied as lenses
return genuine instances and examples are complete (C38). -/
theorem C144_obtainable_satisfies_join_partial
    (hlaw : SubsumeSound C (fun x => C.marshals x = true)) (hl : JoinLaws C close)
    (hb : ∀ lin, WellBound C (H lin)) (hmap : ∀ lin, Preserve (Genuine C H) (H lin))
    (hex : ∀ lin sch name x, sch ∈ (H lin).allsch → (name, x) ∈ sch.examples →
      C.marshals x = true ∧ C.accepts sch.body x)
    (h : bindLineage C force (d.raw C close top) opts = .ok (H i.sch.lin))
    (ho : Obtainable C H i) {j : V} (hj : d.join = some j) : C.accepts j i.raw := by
  obtain ⟨_, hm, hp, ha⟩ := C38_obtainable_genuine_partial hlaw hb hmap hex ho
  obtain ⟨t, _, _, _, h4⟩ := declared_at h hp
  rw [h4, hj] at ha
  exact (hl.both _ _ _ hm ha).1

/-- **C144** (part).  A lineage whose `joinSchema` did not change keeps the schemas of its versions,
if `IsAppendOnly` accepts the change and both are bound with the checks in force and without gaps:
the condition of C44 on the joined schemas is met. -/
theorem C144_join_kept (hl : JoinLaws C close) (hpre : PreorderLaws C.subsumeAll)
    (h : bindLineage C force (d.raw C close top) opts = .ok L)
    (h' : bindLineage C force' (d'.raw C close top) opts' = .ok N)
    (hon : ChecksOn force opts) (hon' : ChecksOn force' opts') (hco : Contiguous L.allv)
    (hcn : Contiguous N.allv) (hj : d'.join = d.join) (ha : isAppendOnly C L N = .ok ()) {v : SV}
    (hv : v ∈ L.allv) :
    ∃ p s t, L.Schema v = .ok p ∧ N.Schema v = .ok p ∧ L.allsch[p]? = some s ∧
      N.allsch[p]? = some t ∧ s.v = v ∧ t.v = v ∧ SameBody C s.body t.body := by
  have hsj : SameJoin C L.allsch N.allsch := by
    intro s hs t ht hst
    obtain ⟨p, hp, rfl⟩ := List.getElem_of_mem hs
    obtain ⟨q, hq, rfl⟩ := List.getElem_of_mem ht
    obtain ⟨a, _, _, a1, a2⟩ := declared_at h hp
    obtain ⟨b, _, _, b1, b2⟩ := declared_at h' hq
    rw [a1, b1] at hst
    rw [a2, b2, hj]
    exact hl.same _ _ _ hst
  obtain ⟨p, s, t, h1, h2, h3, h4, h5, h6, _, h7⟩ :=
    C44_versions_keep_schemas h h' hon hon' hco hcn hpre hsj ha hv
  exact ⟨p, s, t, h1, h2, h3, h4, h5, h6, h7⟩

theorem loop_relit (f : RawSchema V → RawSchema V) (g : SchemaDef V → SchemaDef V) (skip : Bool)
    (hv : ∀ s, (f s).version = s.version) (hb : ∀ s, (f s).body = s.body)
    (hg : ∀ s v, mkDef (f s) v = g (mkDef s v)) (hgv : ∀ s, (g s).v = s.v)
    (hgb : ∀ s, (g s).body = s.body) (raws : List (RawSchema V)) :
    ∀ prev, checkGoValidityLoop C skip (prev.map g) (raws.map f) =
      (checkGoValidityLoop C skip prev raws).map (List.map g) := by
  induction raws with
  | nil => intro prev; rfl
  | cons s rest ih =>
    intro prev
    simp only [List.map_cons, checkGoValidityLoop, hv]
    cases hsv : s.version with
    | none => rfl
    | some v =>
      have e1 : checkSchemasOrder (prev.map g) v = checkSchemasOrder prev v := by
        cases prev <;> simp [checkSchemasOrder, hgv]
      have e2 : checkCompat C skip (prev.map g) v (f s).body = checkCompat C skip prev v s.body := by
        cases prev <;> simp [checkCompat, hgb, hb]
      simp only [e1, e2]
      cases checkSchemasOrder prev v with
      | ok _ =>
        simp only [Res.bind_ok]
        cases checkCompat C skip prev v s.body with
        | ok _ =>
          simp only [Res.bind_ok]
          have := ih (some (mkDef s v))
          rw [Option.map_some, ← hg] at this
          show ((checkGoValidityLoop C skip (some (mkDef (f s) v)) (rest.map f)).bind
              fun l => .ok (mkDef (f s) v :: l)) = _
          rw [this, hg]
          show _ = ((checkGoValidityLoop C skip (some (mkDef s v)) rest).bind
              fun l => .ok (mkDef s v :: l)).map (List.map g)
          cases checkGoValidityLoop C skip (some (mkDef s v)) rest <;> rfl
        | err _ => rfl
        | panic _ => rfl
        | fuel => rfl
      | err _ => rfl
      | panic _ => rfl
      | fuel => rfl

/-- **C144**, what a `joinSchema` amounts to.  Binding a lineage with a `joinSchema` has the same
outcome as binding one without, in which it is written out in every schema; so nothing requires that
a schema as written has anything to do with the `joinSchema` (but see `C144_valid_satisfies_join`).
Only the literal schemas differ. -/
theorem C144_written_out (ht : TopNeutral C top d) (j : V) (hj : d.join = some j)
    (force : Bool) (opts : List (BindOption V)) :
    bindLineage C force ((writtenOut C d).raw C close top) opts =
      (bindLineage C force (d.raw C close top) opts).map fun L =>
        { L with allsch := L.allsch.map fun s => { s with schema := C.unify j s.schema } } := by
  let f : RawSchema V → RawSchema V := fun s => { s with schema := C.unify j s.schema }
  let g : SchemaDef V → SchemaDef V := fun s => { s with schema := C.unify j s.schema }
  have hs : ((writtenOut C d).raw C close top).schemas =
      ((d.raw C close top).schemas).map f := by
    simp only [writtenOut, hj, DeclLineage.raw, List.map_map, Option.getD_none, Option.getD_some]
    apply List.map_congr_left
    intro s hs
    have := ht { s with schema := C.unify j s.schema }
      (by simpa [writtenOut, hj] using ⟨s, hs, rfl, rfl, rfl⟩)
    simp only [Function.comp, DeclSchema.raw, this, f]
  have hver : concreteVersions ((writtenOut C d).raw C close top).schemas =
      concreteVersions (d.raw C close top).schemas := by
    rw [hs, concreteVersions, concreteVersions, List.mapM_map]
    rfl
  have hrest : (writtenOut C d).raw C close top =
      { d.raw C close top with schemas := ((writtenOut C d).raw C close top).schemas } := by
    simp [writtenOut, hj, DeclLineage.raw]
  have hcons : lineageConstraints ((writtenOut C d).raw C close top) =
      lineageConstraints (d.raw C close top) := by
    unfold lineageConstraints
    rw [hver, hs]
    simp
  have hloop := loop_relit (C := C) f g (bindConfig force opts).skipbuggychecks (fun _ => rfl)
    (fun _ => rfl) (fun _ _ => rfl) (fun _ => rfl) (fun _ => rfl) (d.raw C close top).schemas none
  have hshape : checkLineageShape ((writtenOut C d).raw C close top) =
      checkLineageShape (d.raw C close top) := by
    unfold checkLineageShape
    rw [hcons, hrest]
  have hlens : ∀ l, checkLensesOrder ((writtenOut C d).raw C close top) (l.map g)
      (bindConfig force opts).implens =
      checkLensesOrder (d.raw C close top) l (bindConfig force opts).implens := by
    intro l
    unfold checkLensesOrder checkGoLensCompleteness
    have e1 : ((writtenOut C d).raw C close top).lenses = (d.raw C close top).lenses := by
      rw [hrest]
    have e2 : (goDrop 1 (l.map g)) = (goDrop 1 l).map (List.map g) := by
      unfold goDrop
      rw [List.length_map]
      split
      · simp [Res.map, Res.bind]
      · rfl
    rw [e1, e2]
    have e3 : (l.map g).map (·.v) = l.map (·.v) := by
      rw [List.map_map]; rfl
    rw [e3]
    cases goDrop 1 l with
    | ok rest =>
      have e4 : (rest.map g).map (·.v) = rest.map (·.v) := by rw [List.map_map]; rfl
      simp only [Res.map, Res.bind, e4]
    | err _ => rfl
    | panic _ => rfl
    | fuel => rfl
  unfold bindLineage
  simp only []
  rw [hshape]
  have hex : checkExists ((writtenOut C d).raw C close top) = checkExists (d.raw C close top) := by
    rw [hrest]; rfl
  have hnat : checkNativeValidity ((writtenOut C d).raw C close top) =
      checkNativeValidity (d.raw C close top) := by rw [hrest]; rfl
  have hval : checkGoValidity C (bindConfig force opts) ((writtenOut C d).raw C close top) =
      (checkGoValidity C (bindConfig force opts) (d.raw C close top)).map (List.map g) := by
    unfold checkGoValidity
    rw [hs]; exact hloop
  have hn : ((writtenOut C d).raw C close top).name = (d.raw C close top).name := by rw [hrest]
  have hcl : cueLenses ((writtenOut C d).raw C close top) = cueLenses (d.raw C close top) := by
    rw [hrest]; rfl
  rw [hex, hnat, hval, hn, hcl]
  cases checkExists (d.raw C close top) with
  | ok _ =>
    cases checkLineageShape (d.raw C close top) with
    | ok _ =>
      cases checkNativeValidity (d.raw C close top) with
      | ok _ =>
        cases checkGoValidity C (bindConfig force opts) (d.raw C close top) with
        | ok l =>
          simp only [Res.map, Res.bind, hlens l]
          cases checkLensesOrder (d.raw C close top) l (bindConfig force opts).implens <;> rfl
        | err _ => rfl
        | panic _ => rfl
        | fuel => rfl
      | err _ => rfl
      | panic _ => rfl
      | fuel => rfl
    | err _ => rfl
    | panic _ => rfl
    | fuel => rfl
  | err _ => rfl
  | panic _ => rfl
  | fuel => rfl

theorem setCue_joinLaws : JoinLaws SetCue.cue id := by
  constructor
  · intro j s x hx ha
    exact ⟨setCue_subsumeSound_concrete j _ x hx (by simp [SetCue.cue]; tauto) ha,
      setCue_subsumeSound_concrete s _ x hx (by simp [SetCue.cue]) ha⟩
  · intro j s t h
    simp only [SameValue, SameBody, SetCue.cue, List.all_eq_true, List.contains_iff_mem, id,
      List.mem_filter] at *
    exact ⟨fun x hx => ⟨hx.1, h.1 _ hx.2⟩, fun x hx => ⟨hx.1, h.2 _ hx.2⟩⟩

/-- `joinSchema: [1, 2, 3]`, and schemas two of which list atoms outside it. -/
def joined : DeclLineage SetCue.Val :=
  { exists_ := true, nameField := .concrete, schemasField := .concrete, name := "toy".toList,
    finalErr := false, rawErr := false, uniErr := false, join := some [1, 2, 3],
    schemas := [⟨some (some ⟨0, 0⟩), [1, 7], []⟩, ⟨some (some ⟨0, 1⟩), [1, 2, 8], []⟩],
    lenses := some [SetCue.lens ⟨0, 1⟩ ⟨0, 0⟩ [1]] }

def joinedLin : Lineage SetCue.Val :=
  { name := "toy".toList,
    allsch := [⟨⟨0, 0⟩, [1, 7], [1], []⟩, ⟨⟨0, 1⟩, [1, 2, 8], [1, 2], []⟩],
    lenses := [⟨⟨0, 1⟩, ⟨0, 0⟩, fun _ => [1], fun _ => [], fun _ => false⟩], lensmap := [] }

theorem joined_bind :
    bindLineage SetCue.cue false (joined.raw SetCue.cue id [1, 2, 3, 7, 8]) [] = .ok joinedLin := by
  rfl

/-- Data at 0.1 satisfies the join schema, and what was written for 0.1; the literal for 0.1 has more,
which is accepted nowhere. -/
example :
    ∃ i, validate SetCue.cue (fun _ => joinedLin) ⟨0, 1⟩ [2] = .ok i ∧
      SetCue.cue.accepts [1, 2, 3] i.raw ∧
      SetCue.cue.accepts [1, 2, 8] [8] ∧ ¬ SetCue.cue.accepts [1, 2] [8] := by
  refine ⟨_, rfl, ?_, rfl, by simp [Cue.accepts, SetCue.cue]⟩
  exact (C144_valid_satisfies_join setCue_joinLaws joined_bind
    (H := fun _ => joinedLin) (s := ⟨0, 1⟩) rfl (x := [2]) rfl rfl).1 _ rfl

example : TopNeutral SetCue.cue [1, 2, 3, 7, 8] joined := by
  unfold TopNeutral
  decide

/-- The hypotheses of `C144_obtainable_satisfies_join_partial` are met, by an instance of 0.1. -/
example :
    (∀ lin, WellBound SetCue.cue ((fun _ => joinedLin : Heap SetCue.Val) lin)) ∧
      (∀ lin, Preserve (Genuine SetCue.cue (fun _ => joinedLin))
        ((fun _ => joinedLin : Heap SetCue.Val) lin)) ∧
      (∃ i, Obtainable SetCue.cue (fun _ => joinedLin) i ∧ i.raw = [2]) := by
  have hn : joinedLin.allv.Nodup := by decide
  refine ⟨fun _ => ⟨false, _, [], joined_bind, Or.inr (by simp), hn⟩, fun _ id m hm => ?_,
    ⟨instAt 1 [2], .validate (s := ⟨0, 1⟩) (d := [2]) rfl (by rfl), rfl⟩⟩
  simp [joinedLin] at hm

/-- `joined` with a further schema. -/
def joinedMore : DeclLineage SetCue.Val :=
  { joined with
    schemas := joined.schemas ++ [⟨some (some ⟨1, 0⟩), [3], []⟩]
    lenses := some [SetCue.lens ⟨0, 1⟩ ⟨0, 0⟩ [1], SetCue.lens ⟨1, 0⟩ ⟨0, 1⟩ [1],
      SetCue.lens ⟨0, 1⟩ ⟨1, 0⟩ [3]] }

/-- The hypotheses of `C144_join_kept` are met. -/
example :
    ∃ N, bindLineage SetCue.cue false (joinedMore.raw SetCue.cue id [1, 2, 3, 7, 8]) [] = .ok N ∧
      joinedMore.join = joined.join ∧ Contiguous joinedLin.allv ∧ Contiguous N.allv ∧
      isAppendOnly SetCue.cue joinedLin N = .ok () := by
  refine ⟨_, rfl, rfl, ⟨rfl, ?_⟩, ⟨rfl, ?_⟩, rfl⟩
  · intro i hi
    rcases i with _ | i
    · left; rfl
    · exact absurd hi (by simp [Lineage.allv, joinedLin])
  · intro i hi
    rcases i with _ | _ | i
    · left; rfl
    · right; rfl
    · exact absurd hi (by simp [Lineage.allv])

/-- **C144**, refuted in the reading of the documentation ("the schemas defined in this lineage must
be instances of the joinSchema"): a lineage binds although none of its schemas, as written, is an
instance of its `joinSchema`. -/
theorem C144_refuted :
    ∃ (d : DeclLineage SetCue.Val) (j : SetCue.Val) (L : Lineage SetCue.Val), d.join = some j ∧
      (∀ s ∈ d.schemas, SetCue.cue.subsumeRaw j s.schema = false) ∧
      bindLineage SetCue.cue false (d.raw SetCue.cue id [1, 2, 3, 7, 8]) [] = .ok L :=
  ⟨joined, [1, 2, 3], joinedLin, rfl, by decide, joined_bind⟩

/-! ### C145 -/

theorem zero_of_not_less {v : SV} (h : (⟨0, 0⟩ : SV).less v = false) : v = ⟨0, 0⟩ := by
  obtain ⟨a, b⟩ := v
  simp only [SV.less] at h
  grind

/-- **C145** (part).  Leaving out the version of a schema means 0.0; so if the lineage binds, it and all
schemas before it have version 0.0. -/
theorem C145_omitted_is_zero (h : bindLineage C force (d.raw C close top) opts = .ok L) {p : Nat}
    {s : DeclSchema V} (hs : d.schemas[p]? = some s) (ho : s.version = none) {q : Nat} (hq : q ≤ p) :
    q < L.allsch.length ∧ L.ver q = ⟨0, 0⟩ := by
  have hp : p < L.allsch.length := by
    rw [bind_length h]
    simpa [DeclLineage.raw] using (List.getElem?_eq_some_iff.1 hs).1
  obtain ⟨s', h1, h2, _⟩ := declared_at h hp
  rw [hs] at h1
  cases h1
  rw [ho] at h2
  have hz : L.ver p = ⟨0, 0⟩ := by simpa using h2.symm
  refine ⟨by omega, zero_of_not_less ?_⟩
  have hp' : p < L.allv.length := by simpa using hp
  have := (bind_sorted h).get hq hp'
  rw [← hz, ver_lt hp, ver_lt (by omega : q < L.allsch.length)]
  exact this

/-- **C145** (part).  If the versions of a bound lineage are all different, only its first schema can
lack a version. -/
theorem C145_only_first (h : bindLineage C force (d.raw C close top) opts = .ok L)
    (hd : L.allv.Nodup) {p : Nat} {s : DeclSchema V} (hs : d.schemas[p]? = some s)
    (ho : s.version = none) : p = 0 := by
  obtain ⟨hp, e1⟩ := C145_omitted_is_zero h hs ho (Nat.le_refl _)
  obtain ⟨h0, e2⟩ := C145_omitted_is_zero h hs ho (Nat.zero_le _)
  have : L.allv[p]'(by simpa using hp) = L.allv[0]'(by simpa using h0) := by
    rw [← ver_lt hp, ← ver_lt h0, e1, e2]
  exact (List.Nodup.getElem_inj_iff hd).1 this

/-- **C145** (part).  With the checks in force, a schema after the first whose version is left out must
break compatibility with its predecessor - although it then has the same version. -/
theorem C145_omitted_breaks (h : bindLineage C force (d.raw C close top) opts = .ok L)
    (hon : ChecksOn force opts) {p : Nat} {s t : DeclSchema V} (ht : d.schemas[p]? = some t)
    (hs : d.schemas[p + 1]? = some s) (ho : s.version = none) :
    C.subsumeAll (close (C.unify (d.join.getD top) s.schema))
      (close (C.unify (d.join.getD top) t.schema)) = false ∧ L.ver p = L.ver (p + 1) := by
  obtain ⟨h1, e1⟩ := C145_omitted_is_zero h hs ho (Nat.le_refl _)
  obtain ⟨h0, e0⟩ := C145_omitted_is_zero h hs ho (Nat.le_succ p)
  refine ⟨?_, by rw [e0, e1]⟩
  obtain ⟨s', a1, _, _, a4⟩ := declared_at h h1
  obtain ⟨t', b1, _, _, b4⟩ := declared_at h h0
  rw [hs] at a1
  rw [ht] at b1
  cases a1
  cases b1
  have hc := (C11_compat_enforced h hon).1 p h1
  rw [a4, b4] at hc
  have hm : L.allsch[p + 1].v.minor = 0 := by
    have : L.allsch[p + 1].v = ⟨0, 0⟩ := by
      rw [← e1, ver_lt h1]
      simp [Lineage.allv]
    rw [this]
  rw [Bool.eq_false_iff]
  intro hsub
  exact hc.2 hsub hm

/-- **C145** (part).  No request by version returns a schema after the first whose version was left
out. -/
theorem C145_omitted_unreachable (h : bindLineage C force (d.raw C close top) opts = .ok L) {p : Nat}
    {s : DeclSchema V} (hs : d.schemas[p]? = some s) (ho : s.version = none) (hp : 0 < p) (v : SV) :
    L.Schema v ≠ .ok p := by
  intro hv
  obtain ⟨h0, e0⟩ := C145_omitted_is_zero h hs ho (Nat.zero_le _)
  obtain ⟨h1, e1⟩ := C145_omitted_is_zero h hs ho (Nat.le_refl _)
  have hs' := bind_sorted h
  unfold Lineage.Schema at hv
  split at hv
  · rename_i hx
    have hmem := (synvExists_iff hs' v).1 hx
    obtain ⟨q, hq⟩ := searchSynv_found hs' hmem
    have hpos : searchSynv L.allv v = p := by
      unfold Lineage.schema at hv
      grind
    have hvz : v = ⟨0, 0⟩ := by
      rw [← hq, ← e1, ver_lt h1]
      simp [hpos]
    have := (searchSynv_spec hs' v).2.1 0 (by simpa using h0) (by omega)
    rw [← ver_lt h0, e0, hvz, less_irrefl] at this
    cases this
  · cases hv

/-- Two schemas without versions, the second of which is a breaking change. -/
def unversioned : DeclLineage SetCue.Val :=
  { joined with join := none
                schemas := [⟨none, [1], []⟩, ⟨none, [2], []⟩]
                lenses := some [] }

def unversionedLin : Lineage SetCue.Val :=
  { name := "toy".toList, allsch := [⟨⟨0, 0⟩, [1], [1], []⟩, ⟨⟨0, 0⟩, [2], [2], []⟩],
    lenses := [], lensmap := [] }

/-- **C145**, refuted: authors must declare versions, but two schemas without any, the second of which is
a breaking change, bind.  Both have version 0.0, `Schema` finds only the first, and no lens between
them is asked for. -/
theorem C145_refuted :
    ∃ (d : DeclLineage SetCue.Val) (L : Lineage SetCue.Val),
      (∀ s ∈ d.schemas, s.version = none) ∧ d.lenses = some [] ∧
      bindLineage SetCue.cue false (d.raw SetCue.cue id [1, 2]) [] = .ok L ∧
      L.allv = [⟨0, 0⟩, ⟨0, 0⟩] ∧ L.Schema ⟨0, 0⟩ = .ok 0 ∧
      SetCue.cue.subsumeAll [2] [1] = false :=
  ⟨unversioned, unversionedLin, by decide, rfl, rfl, rfl, rfl, rfl⟩

/-! ### The theorems on the lineages above -/

theorem joined_topNeutral : TopNeutral SetCue.cue [1, 2, 3, 7, 8] joined := by
  unfold TopNeutral
  decide

example (force : Bool) := C144_written_out (close := id) joined_topNeutral [1, 2, 3] rfl force []

theorem unversioned_bind :
    bindLineage SetCue.cue false (unversioned.raw SetCue.cue id [1, 2, 3, 7, 8]) [] =
      .ok unversionedLin := rfl

example : unversionedLin.ver 0 = ⟨0, 0⟩ ∧ unversionedLin.ver 1 = ⟨0, 0⟩ :=
  ⟨(C145_omitted_is_zero unversioned_bind (p := 1) rfl rfl (q := 0) (by decide)).2,
    (C145_omitted_is_zero unversioned_bind (p := 1) rfl rfl (q := 1) (by decide)).2⟩

example (v : SV) : unversionedLin.Schema v ≠ .ok 1 :=
  C145_omitted_unreachable unversioned_bind (p := 1) rfl rfl (by decide) v

example : unversionedLin.ver 0 = unversionedLin.ver 1 :=
  (C145_omitted_breaks unversioned_bind (.inr (by simp)) (p := 0) rfl rfl rfl).2

theorem joinedLin_contiguous : Contiguous joinedLin.allv :=
  ⟨rfl, fun i hi => by
    rcases i with _ | i
    · left; rfl
    · exact absurd hi (by simp [Lineage.allv, joinedLin])⟩

def joinedMoreLin : Lineage SetCue.Val :=
  match bindLineage SetCue.cue false (joinedMore.raw SetCue.cue id [1, 2, 3, 7, 8]) [] with
  | .ok N => N
  | _ => joinedLin

theorem joinedMore_bind :
    bindLineage SetCue.cue false (joinedMore.raw SetCue.cue id [1, 2, 3, 7, 8]) [] =
      .ok joinedMoreLin := rfl

theorem joinedMoreLin_allv : joinedMoreLin.allv = [⟨0, 0⟩, ⟨0, 1⟩, ⟨1, 0⟩] := rfl

example : ∃ p s t, joinedMoreLin.Schema ⟨0, 1⟩ = .ok p ∧ joinedLin.allsch[p]? = some s ∧
      joinedMoreLin.allsch[p]? = some t ∧ SameBody SetCue.cue s.body t.body := by
  obtain ⟨p, s, t, _, h2, h3, h4, _, _, h7⟩ := C144_join_kept (d := joined) (d' := joinedMore)
    (opts := []) (opts' := []) (force := false) (force' := false)
    setCue_joinLaws setCue_preorder_all
    joined_bind joinedMore_bind (.inr (by simp)) (.inr (by simp)) joinedLin_contiguous
    ⟨rfl, fun i hi => by
      rcases i with _ | _ | i
      · left; rfl
      · right; rfl
      · exact absurd hi (by simp [joinedMoreLin_allv])⟩ rfl rfl (v := ⟨0, 1⟩) (by decide)
  exact ⟨p, s, t, h2, h3, h4, h7⟩

example : SetCue.cue.accepts [1, 2, 3] [2] :=
  C144_obtainable_satisfies_join_partial (H := fun _ => joinedLin) (i := instAt 1 [2])
    setCue_subsumeSound_concrete setCue_joinLaws
    (fun _ => ⟨false, _, [], joined_bind, .inr (by simp), by decide⟩)
    (fun _ id m hm => by simp [joinedLin] at hm)
    (fun _ sch name x hs hx => by
      simp only [joinedLin, List.mem_cons, List.not_mem_nil, or_false] at hs
      rcases hs with rfl | rfl <;> simp at hx)
    joined_bind (.validate (s := ⟨0, 1⟩) (d := [2]) rfl (by rfl)) rfl

example : (0 : Nat) = 0 :=
  C145_only_first (force := false) (opts := [])
    (d := { joined with schemas := [⟨none, [1, 7], []⟩, ⟨some (some ⟨0, 1⟩), [1, 2, 8], []⟩] })
    (L := joinedLin) (C := SetCue.cue) (close := id) (top := [1, 2, 3, 7, 8]) rfl (by decide)
    (p := 0) rfl rfl

end Thema.Props
