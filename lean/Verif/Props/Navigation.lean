import Verif.Lemmas.Bind
import Verif.Model.SetCue

/-!
# Schema lookup and navigation (C04 - C08)

`L` is always a lineage returned by `BindLineage`; a schema is identified by its
position in declaration order.
-/

namespace Thema.Props

open Spec

variable {V : Type} {C : Cue V} {force : Bool} {r : RawLineage V} {opts : List (BindOption V)}
  {L : Lineage V}

/-- A lineage 0.0, 0.1, 1.0 used as a witness below. -/
def threeVersions : RawLineage SetCue.Val :=
  SetCue.lin [SetCue.sch 0 0 [1], SetCue.sch 0 1 [1, 2], SetCue.sch 1 0 [3]]

/-- The lineage bound from `threeVersions`. -/
def threeBound : Lineage SetCue.Val :=
  { name := "toy".toList,
    allsch := [⟨⟨0, 0⟩, [1], [1], []⟩, ⟨⟨0, 1⟩, [1, 2], [1, 2], []⟩, ⟨⟨1, 0⟩, [3], [3], []⟩],
    lenses := [], lensmap := [] }

theorem threeBound_eq : SetCue.bind threeVersions = .ok threeBound := by rfl

theorem nodup_of_map {α β : Type} {f : α → β} {l : List α} (h : (l.map f).Nodup) : l.Nodup := by
  induction l with
  | nil => simp
  | cons a l ih =>
    rw [List.map_cons, List.nodup_cons] at h
    rw [List.nodup_cons]
    exact ⟨fun hm => h.1 (List.mem_map_of_mem hm), ih h.2⟩

theorem schema_found (hs : SortedV L.allv) {v : SV} (hv : v ∈ L.allv) :
    ∃ p, L.Schema v = .ok p ∧ p < L.allsch.length ∧ L.ver p = v := by
  obtain ⟨h1, h2⟩ := searchSynv_found hs hv
  have h1' : searchSynv L.allv v < L.allsch.length := by simpa using h1
  refine ⟨searchSynv L.allv v, ?_, h1', by rw [ver_lt h1']; exact h2⟩
  simp [Lineage.Schema, (synvExists_iff hs v).2 hv, Lineage.schema, h1']

/-- **C04**.  `Schema(v)` succeeds with a schema of version `v` if `v` is
declared, and otherwise fails with `ErrVersionNotExist`. -/
theorem C04_schema_lookup (h : bindLineage C force r opts = .ok L) (v : SV) :
    (some v ∈ r.schemas.map (·.version) →
      ∃ p, L.Schema v = .ok p ∧ p < L.allsch.length ∧ L.ver p = v) ∧
    (some v ∉ r.schemas.map (·.version) →
      ∃ e, L.Schema v = .err e ∧ e.is .versionNotExist) := by
  rw [bind_versions h]
  have hs := bind_sorted h
  constructor
  · intro hv
    exact schema_found hs (by simpa using hv)
  · intro hv
    refine ⟨_, ?_, List.mem_singleton.2 rfl⟩
    have : ¬ (synvExists L.allv v = true) := by
      rw [synvExists_iff hs]; simpa using hv
    simp [Lineage.Schema, this]

example : (∃ p, threeBound.Schema ⟨0, 1⟩ = .ok p ∧ p < 3 ∧ threeBound.ver p = ⟨0, 1⟩) ∧
    ∃ e, threeBound.Schema ⟨0, 2⟩ = .err e ∧ e.is .versionNotExist :=
  ⟨(C04_schema_lookup threeBound_eq ⟨0, 1⟩).1 (by decide),
    (C04_schema_lookup threeBound_eq ⟨0, 2⟩).2 (by decide)⟩

/-- **C04**.  `SchemaP` returns what `Schema` returns, and panics exactly when
the version is not declared. -/
theorem C04_schemaP (h : bindLineage C force r opts = .ok L) (v : SV) :
    (some v ∈ r.schemas.map (·.version) → L.schemaP v = L.Schema v ∧ ∃ p, L.Schema v = .ok p) ∧
    (some v ∉ r.schemas.map (·.version) → (L.schemaP v).Panics) := by
  obtain ⟨h1, h2⟩ := C04_schema_lookup h v
  constructor
  · intro hv
    obtain ⟨p, hp, _⟩ := h1 hv
    exact ⟨by simp [Lineage.schemaP, hp], p, hp⟩
  · intro hv
    obtain ⟨e, he, _⟩ := h2 hv
    simp [Lineage.schemaP, he, Res.Panics]

example : (∃ p, threeBound.Schema ⟨0, 1⟩ = .ok p) ∧ (threeBound.schemaP ⟨0, 2⟩).Panics :=
  ⟨((C04_schemaP threeBound_eq ⟨0, 1⟩).1 (by decide)).2,
    (C04_schemaP threeBound_eq ⟨0, 2⟩).2 (by decide)⟩

example : SetCue.bind threeVersions = .ok threeBound ∧
    some ⟨0, 1⟩ ∈ threeVersions.schemas.map (·.version) ∧
    some ⟨0, 2⟩ ∉ threeVersions.schemas.map (·.version) := by
  refine ⟨rfl, by decide, by decide⟩

/-- **C05**.  `All` lists every schema in declaration order with non-decreasing
versions; `First` is the first and `Latest` the last of them, and their versions
bound all others. -/
theorem C05_first_latest_all (h : bindLineage C force r opts = .ok L) :
    L.all = List.range r.schemas.length ∧
    r.schemas.map (·.version) = L.all.map (fun p => some (L.ver p)) ∧
    NonDecreasing (L.all.map L.ver) ∧
    (∃ p q, L.first = .ok p ∧ L.latest = .ok q ∧ L.all.head? = some p ∧
      L.all.getLast? = some q ∧ L.latestVersion = .ok (L.ver q) ∧
      ∀ s ∈ L.all, NotAfter (L.ver p) (L.ver s) ∧ NotAfter (L.ver s) (L.ver q)) := by
  have hn := bind_length h
  have hpos := bind_pos h
  have hs := bind_sorted h
  have hall : L.all.map L.ver = L.allv := by
    apply List.ext_getElem
    · simp [Lineage.all]
    · intro i h1 h2
      have h3 : i < L.allsch.length := by simpa using h2
      simp [Lineage.all, ver_lt h3]
  refine ⟨by simp [Lineage.all, hn], ?_, ?_, ?_⟩
  · rw [bind_versions h, ← hall]; simp
  · rw [hall]; exact sortedV_iff.1 hs
  · refine ⟨0, L.allsch.length - 1, ?_, ?_, ?_, ?_, ?_, ?_⟩
    · simp only [Lineage.first]; rw [if_neg (by omega)]
    · simp only [Lineage.latest]; rw [if_neg (by omega)]
    · simp only [Lineage.all, List.head?_range]; rw [if_neg (by omega)]
    · simp only [Lineage.all, List.getLast?_range]; rw [if_neg (by omega)]
    · simp only [Lineage.latestVersion, Lineage.latest]
      rw [if_neg (by omega)]; rfl
    · intro s hs'
      have hs' : s < L.allsch.length := by simpa [Lineage.all] using hs'
      rw [notAfter_iff, notAfter_iff, ver_lt hs', ver_lt hpos, ver_lt (p := L.allsch.length - 1)
        (by omega)]
      exact ⟨hs.get (Nat.zero_le _) (by simpa using hs'),
        hs.get (Nat.le_sub_one_of_lt hs') (by simp; omega)⟩

example : threeBound.all = [0, 1, 2] ∧ NonDecreasing (threeBound.all.map threeBound.ver) :=
  ⟨(C05_first_latest_all threeBound_eq).1, (C05_first_latest_all threeBound_eq).2.2.1⟩

/-! ### C06 -/

theorem successor_eq (hs : StrictV L.allv) {p : Nat} (hp : p < L.allsch.length) :
    L.successor p = .ok (if p + 1 < L.allsch.length then some (p + 1) else none) := by
  have hp' : p < L.allv.length := by simpa using hp
  have hlast : L.allv.getLast? = some (L.allv[L.allsch.length - 1]'(by simp; omega)) := by
    rw [List.getLast?_eq_getElem?]
    simp only [allv_length]
    rw [List.getElem?_eq_getElem]
  unfold Lineage.successor
  rw [hlast, ver_lt hp]
  simp only
  split
  · rename_i he
    have := hs.inj (by simp; omega) hp' he
    rw [if_neg (by omega)]
  · rename_i he
    have hlt : p + 1 < L.allsch.length := by
      apply Nat.lt_of_not_le
      intro hle
      have : L.allsch.length - 1 = p := by omega
      apply he
      congr 1
    rw [if_pos hlt, searchSynv_getElem hs hp', goIdx_lt (by simpa using hlt)]
    simp only [Res.bind_ok, Lineage.schema]
    rw [searchSynv_getElem hs, if_pos hlt]
    rfl

theorem predecessor_eq (hs : StrictV L.allv) (h0 : L.allv.head? = some ⟨0, 0⟩) {p : Nat}
    (hp : p < L.allsch.length) :
    L.predecessor p = .ok (if p = 0 then none else some (p - 1)) := by
  have hp' : p < L.allv.length := by simpa using hp
  have h00 : L.allv[0]'(by omega) = synv0 := by
    rw [List.head?_eq_getElem?, List.getElem?_eq_getElem (by omega)] at h0
    simpa [synv0] using h0
  unfold Lineage.predecessor
  rw [ver_lt hp]
  split
  · rename_i he
    rw [← h00] at he
    have := hs.inj hp' (by omega) he
    rw [if_pos this]
  · rename_i he
    have hne : p ≠ 0 := by
      rintro rfl; exact he h00
    rw [searchSynv_getElem hs hp', if_neg hne, if_neg hne, goIdx_lt (by omega)]
    simp only [Res.bind_ok, Lineage.schema]
    rw [searchSynv_getElem hs, if_pos (by omega)]
    rfl

/-- **C06**.  With distinct versions starting at 0.0, `Successor` of the i-th
schema is the (i+1)-th, or nil for the last; `Predecessor` is the (i-1)-th, or
nil for the first. -/
theorem C06_neighbours (h : bindLineage C force r opts = .ok L)
    (hd : (r.schemas.map (·.version)).Nodup)
    (h0 : (r.schemas.map (·.version)).head? = some (some ⟨0, 0⟩))
    {p : Nat} (hp : p < r.schemas.length) :
    L.successor p = .ok (if p + 1 < r.schemas.length then some (p + 1) else none) ∧
    L.predecessor p = .ok (if p = 0 then none else some (p - 1)) := by
  rw [bind_versions h] at hd h0
  have hs : StrictV L.allv := (bind_sorted h).strict (nodup_of_map hd)
  have h0' : L.allv.head? = some ⟨0, 0⟩ := by
    cases hl : L.allv with
    | nil => rw [hl] at h0; simp at h0
    | cons a l => rw [hl] at h0; simpa using h0
  rw [← bind_length h] at hp ⊢
  exact ⟨successor_eq hs hp, predecessor_eq hs h0' hp⟩

example : threeBound.successor 1 = .ok (some 2) ∧ threeBound.predecessor 1 = .ok (some 0) :=
  C06_neighbours threeBound_eq (by decide) rfl (p := 1) (by decide)

/-- **C06**.  `Successor` and `Predecessor` undo each other. -/
theorem C06_inverse (h : bindLineage C force r opts = .ok L)
    (hd : (r.schemas.map (·.version)).Nodup)
    (h0 : (r.schemas.map (·.version)).head? = some (some ⟨0, 0⟩))
    {p q : Nat} (hp : p < r.schemas.length) (hq : q < r.schemas.length) :
    L.successor p = .ok (some q) ↔ L.predecessor q = .ok (some p) := by
  obtain ⟨h1, _⟩ := C06_neighbours h hd h0 hp
  obtain ⟨_, h2⟩ := C06_neighbours h hd h0 hq
  rw [h1, h2]
  constructor
  · intro he
    split at he
    · simp at he; subst he; simp
    · simp at he
  · intro he
    split at he
    · simp at he
    · simp at he
      rw [if_pos (by omega)]
      simp; omega

example : threeBound.successor 1 = .ok (some 2) ↔ threeBound.predecessor 2 = .ok (some 1) :=
  C06_inverse threeBound_eq (by decide) rfl (by decide) (by decide)

/-- **C06**.  No version of the lineage lies strictly between a schema and its
successor. -/
theorem C06_no_version_between (h : bindLineage C force r opts = .ok L)
    (hd : (r.schemas.map (·.version)).Nodup)
    (h0 : (r.schemas.map (·.version)).head? = some (some ⟨0, 0⟩))
    {p q : Nat} (hp : p < r.schemas.length) (hq : L.successor p = .ok (some q)) :
    Before (L.ver p) (L.ver q) ∧
    ¬ ∃ v, some v ∈ r.schemas.map (·.version) ∧ Before (L.ver p) v ∧ Before v (L.ver q) := by
  have hv := bind_versions h
  obtain ⟨h1, _⟩ := C06_neighbours h hd h0 hp
  rw [h1] at hq
  have hs : StrictV L.allv := (bind_sorted h).strict (nodup_of_map (hv ▸ hd))
  have hn := bind_length h
  split at hq
  · rename_i hlt
    simp at hq
    subst hq
    rw [ver_lt (by omega), ver_lt (p := p + 1) (by omega)]
    constructor
    · exact less_iff_before.1 (hs.get (Nat.lt_succ_self p) (by simp; omega))
    · rintro ⟨v, hmem, hb1, hb2⟩
      rw [hv] at hmem
      have hmem : v ∈ L.allv := by simpa using hmem
      obtain ⟨k, hk, rfl⟩ := List.getElem_of_mem hmem
      rw [← less_iff_before] at hb1 hb2
      have c1 : p < k := by
        apply Nat.lt_of_not_le; intro hle
        have := hs.sorted.get hle (by simp; omega)
        rw [hb1] at this; cases this
      have c2 : k < p + 1 := by
        apply Nat.lt_of_not_le; intro hle
        have := hs.sorted.get hle hk
        rw [hb2] at this; cases this
      omega
  · simp at hq

example : Before (threeBound.ver 1) (threeBound.ver 2) ∧
    ¬ ∃ v, some v ∈ threeVersions.schemas.map (·.version) ∧ Before (threeBound.ver 1) v ∧
      Before v (threeBound.ver 2) :=
  C06_no_version_between threeBound_eq (by decide) rfl (by decide) rfl

/-- Iterating `Successor` `k` times from `First` (specification). -/
def succIter (L : Lineage V) : Nat → Res (Option Nat)
  | 0 => L.first.map some
  | k + 1 => (succIter L k).bind fun
    | none => .ok none
    | some p => L.successor p

/-- **C06**.  Iterating `Successor` from `First` visits each schema exactly once
and then stops. -/
theorem C06_iteration (h : bindLineage C force r opts = .ok L)
    (hd : (r.schemas.map (·.version)).Nodup)
    (h0 : (r.schemas.map (·.version)).head? = some (some ⟨0, 0⟩)) (k : Nat) :
    succIter L k = .ok (if k < r.schemas.length then some k else none) := by
  have hn := bind_length h
  have hpos := bind_pos h
  induction k with
  | zero =>
    simp only [succIter, Lineage.first]
    rw [if_neg (by omega), if_pos (by omega)]; rfl
  | succ k ih =>
    simp only [succIter, ih]
    by_cases hk : k < r.schemas.length
    · rw [if_pos hk]
      simp only [Res.bind_ok]
      exact (C06_neighbours h hd h0 hk).1
    · rw [if_neg hk, if_neg (by omega)]
      rfl

example : succIter threeBound 2 = .ok (some 2) ∧ succIter threeBound 3 = .ok none :=
  ⟨C06_iteration threeBound_eq (by decide) rfl 2, C06_iteration threeBound_eq (by decide) rfl 3⟩

example : SetCue.bind threeVersions = .ok threeBound ∧
    (threeVersions.schemas.map (·.version)).Nodup ∧
    (threeVersions.schemas.map (·.version)).head? = some (some ⟨0, 0⟩) ∧
    1 < threeVersions.schemas.length ∧ threeBound.successor 1 = .ok (some 2) ∧
    threeBound.predecessor 0 = .ok none := by
  refine ⟨rfl, by decide, rfl, by decide, rfl, rfl⟩

/-! ### C07 -/

/-- **C07** (refutation).  In every bound lineage whose first version is not 0.0,
`Predecessor` of the first schema panics. -/
theorem C07_predecessor_panics (h : bindLineage C force r opts = .ok L)
    (h0 : L.ver 0 ≠ ⟨0, 0⟩) : (L.predecessor 0).Panics := by
  have hpos := bind_pos h
  have hs := bind_sorted h
  have : searchSynv L.allv (L.ver 0) = 0 := by
    obtain ⟨_, h2, _⟩ := searchSynv_spec hs (L.ver 0)
    apply Nat.eq_zero_of_not_pos
    intro hp
    have := h2 0 (by simpa using hpos) hp
    rw [ver_lt hpos, less_irrefl] at this; cases this
  unfold Lineage.predecessor
  rw [if_neg (by simpa [synv0] using h0), if_pos this]
  simp [Res.Panics]

example : ∃ L, SetCue.bind (SetCue.lin [SetCue.sch 0 3 [1], SetCue.sch 0 4 [1, 2]]) = .ok L ∧
    (L.predecessor 0).Panics :=
  ⟨_, rfl, C07_predecessor_panics (C := SetCue.cue) (force := false) (opts := [])
    (r := SetCue.lin [SetCue.sch 0 3 [1], SetCue.sch 0 4 [1, 2]]) rfl (by decide)⟩

/-- **C07** (refutation, witness).  Such lineages can be bound. -/
theorem C07_predecessor_panics_witness :
    ∃ (r : RawLineage SetCue.Val) (L : Lineage SetCue.Val),
      bindLineage SetCue.cue false r [] = .ok L ∧ L.ver 0 = ⟨1, 0⟩ ∧ (L.predecessor 0).Panics :=
  ⟨SetCue.lin [SetCue.sch 1 0 [1]], _, rfl, rfl, trivial⟩

/-- **C07** (partial: first version 0.0).  Then `Predecessor` is nil for the
first schema and never panics, even if versions repeat. -/
theorem C07_predecessor_partial (h : bindLineage C force r opts = .ok L)
    (h0 : L.ver 0 = ⟨0, 0⟩) {p : Nat} (hp : p < L.allsch.length) :
    (p = 0 → L.predecessor p = .ok none) ∧ ∃ q, L.predecessor p = .ok q := by
  have hpos := bind_pos h
  have hs := bind_sorted h
  constructor
  · rintro rfl
    unfold Lineage.predecessor
    rw [if_pos (by simpa [synv0] using h0)]
  · unfold Lineage.predecessor
    split
    · exact ⟨_, rfl⟩
    · rename_i hne
      have hmem : L.ver p ∈ L.allv := by rw [ver_lt hp]; exact List.getElem_mem _
      obtain ⟨h1, h2⟩ := searchSynv_found hs hmem
      split
      · rename_i hz
        exfalso
        apply hne
        rw [← h2]
        rw [ver_lt hpos] at h0
        simp only [hz]
        rw [h0]; rfl
      · have hlt : searchSynv L.allv (L.ver p) - 1 < L.allv.length := by omega
        rw [goIdx_lt hlt]
        obtain ⟨h3, _⟩ := searchSynv_found hs (List.getElem_mem hlt)
        simp only [Res.bind_ok, Lineage.schema]
        rw [if_pos (by simpa using h3)]
        exact ⟨_, rfl⟩

example : threeBound.predecessor 0 = .ok none ∧ ∃ q, threeBound.predecessor 2 = .ok q :=
  ⟨(C07_predecessor_partial threeBound_eq rfl (p := 0) (by decide)).1 rfl,
    (C07_predecessor_partial threeBound_eq rfl (p := 2) (by decide)).2⟩

example : SetCue.bind threeVersions = .ok threeBound ∧ threeBound.ver 0 = ⟨0, 0⟩ ∧
    2 < threeBound.allsch.length := by
  refine ⟨rfl, rfl, by decide⟩

/-! ### C08 -/

/-- **C08** (refutation).  In every bound lineage and for every schema (with a
major version below 2^64 - 1), `LatestInMajor` either panics or returns a schema
of a *different* major version: it panics iff no later major version exists, and
otherwise returns the first schema after the receiver's major version. -/
theorem C08_latestInMajor_refuted (h : bindLineage C force r opts = .ok L)
    {p : Nat} (hM : (L.ver p).major + 1 < 2 ^ 64) :
    ((¬ ∃ q < L.allsch.length, (L.ver p).major < (L.ver q).major) → (L.latestInMajor p).Panics) ∧
    (∀ q, L.latestInMajor p = .ok q →
      (L.ver p).major < (L.ver q).major ∧
      ∀ q' < q, (L.ver q').major ≤ (L.ver p).major) ∧
    ((∃ q < L.allsch.length, (L.ver p).major < (L.ver q).major) →
      ∃ q, L.latestInMajor p = .ok q) := by
  have hs := bind_sorted h
  obtain ⟨h1, h2, h3⟩ := searchSynv_spec hs ⟨(L.ver p).major + 1, 0⟩
  have hu : Lineage.uintSucc (L.ver p).major = (L.ver p).major + 1 := by
    unfold Lineage.uintSucc; exact Nat.mod_eq_of_lt hM
  unfold Lineage.latestInMajor
  rw [hu]
  simp only
  refine ⟨?_, ?_, ?_⟩
  · intro hno
    rw [if_neg]
    · simp [Res.Panics]
    · intro hlt
      have := h3 _ (by simpa using hlt) (Nat.le_refl _)
      apply hno
      refine ⟨_, hlt, ?_⟩
      rw [ver_lt hlt]
      rw [less_false_iff] at this
      simp only at this
      omega
  · intro q hq
    split at hq
    · rename_i hlt
      simp at hq
      subst hq
      constructor
      · have := h3 _ (by simpa using hlt) (Nat.le_refl _)
        rw [ver_lt hlt]
        rw [less_false_iff] at this
        simp only at this
        omega
      · intro q' hq'
        have hl : q' < L.allsch.length := by omega
        have := h2 q' (by simpa using hl) hq'
        rw [ver_lt hl]
        rw [less_iff] at this
        simp only at this
        omega
    · cases hq
  · rintro ⟨q, hq, hqM⟩
    rw [if_pos]
    · exact ⟨_, rfl⟩
    · apply Nat.lt_of_not_le
      intro hle
      have := h2 q (by simpa using hq) (by omega)
      rw [ver_lt hq] at hqM
      rw [less_iff] at this
      simp only at this
      omega

example : (∃ q, threeBound.latestInMajor 0 = .ok q) ∧ (threeBound.latestInMajor 2).Panics :=
  ⟨(C08_latestInMajor_refuted threeBound_eq (p := 0) (by decide)).2.2 ⟨2, by decide, by decide⟩,
    (C08_latestInMajor_refuted threeBound_eq (p := 2) (by decide)).1 (by decide)⟩

/-- **C08** (refutation).  In particular no schema ever gets a schema of its own
major version, although it is itself one. -/
theorem C08_latestInMajor_never_in_major (h : bindLineage C force r opts = .ok L)
    {p q : Nat} (hM : (L.ver p).major + 1 < 2 ^ 64)
    (hq : L.latestInMajor p = .ok q) : (L.ver q).major ≠ (L.ver p).major := by
  have := (C08_latestInMajor_refuted h hM).2.1 q hq
  omega

example : (threeBound.ver 2).major ≠ (threeBound.ver 0).major :=
  C08_latestInMajor_never_in_major threeBound_eq (by decide) (by rfl : threeBound.latestInMajor 0 = .ok 2)

/-- **C08** (refutation).  `LatestVersionInSequence(m)` never returns a version of
major `m`; it panics for the newest major version. -/
theorem C08_latestVersionInSequence_refuted (h : bindLineage C force r opts = .ok L)
    {m : Nat} (hm : m + 1 < 2 ^ 64) (hex : some ⟨m, 0⟩ ∈ r.schemas.map (·.version)) :
    (∀ v, L.latestVersionInSequence m = .ok v → v.major ≠ m) ∧
    ((∀ v, some v ∈ r.schemas.map (·.version) → v.major ≤ m) →
      (L.latestVersionInSequence m).Panics) := by
  obtain ⟨p, hp1, hp2, hp3⟩ := (C04_schema_lookup h ⟨m, 0⟩).1 hex
  have hM : (L.ver p).major + 1 < 2 ^ 64 := by rw [hp3]; exact hm
  obtain ⟨h1, h2, _⟩ := C08_latestInMajor_refuted h hM
  unfold Lineage.latestVersionInSequence
  rw [hp1]
  simp only [Res.bind_ok]
  constructor
  · intro v hv
    obtain ⟨q, hq, rfl⟩ := Res.map_eq_ok.1 hv
    have := (h2 q hq).1
    rw [hp3] at this
    simp only at this
    omega
  · intro hall
    have : (L.latestInMajor p).Panics := by
      apply h1
      rintro ⟨q, hq, hlt⟩
      have := hall (L.ver q) (by
        rw [bind_versions h, ver_lt hq]
        simp only [List.mem_map, Option.some.injEq, exists_eq_right]
        exact List.getElem_mem _)
      rw [hp3] at hlt
      simp only at hlt
      omega
    cases hl : L.latestInMajor p <;> rw [hl] at this <;> simp [Res.Panics] at this ⊢

example : (∀ v, threeBound.latestVersionInSequence 0 = .ok v → v.major ≠ 0) ∧
    (threeBound.latestVersionInSequence 1).Panics :=
  ⟨(C08_latestVersionInSequence_refuted threeBound_eq (by decide) (by decide)).1,
    (C08_latestVersionInSequence_refuted threeBound_eq (m := 1) (by decide) (by decide)).2 (by
      intro v hv
      simp [threeVersions, SetCue.lin, SetCue.sch] at hv
      rcases hv with rfl | rfl | rfl <;> decide)⟩

/-- **C08** (witness): in 0.0, 0.1, 1.0 the "latest in major" of 0.0 is 1.0, and
for 1.0 the call panics. -/
example : SetCue.bind threeVersions = .ok threeBound ∧
    threeBound.latestInMajor 0 = .ok 2 ∧ (threeBound.latestInMajor 2).Panics ∧
    threeBound.latestVersionInSequence 0 = .ok ⟨1, 0⟩ := by
  refine ⟨rfl, by rfl, trivial, by rfl⟩

end Thema.Props
