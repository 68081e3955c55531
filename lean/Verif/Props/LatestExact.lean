import Verif.Props.Navigation

/-!
# C167: LatestInMajor and LatestVersionInSequence, exactly
-/

namespace Thema.Props

open Spec

variable {V : Type} {C : Cue V} {force : Bool} {r : RawLineage V} {opts : List (BindOption V)}
  {L : Lineage V}

/-- `q` is the first schema with a major version above `m`. -/
def FirstAbove (L : Lineage V) (m q : Nat) : Prop :=
  q < L.allsch.length ∧ m < (L.ver q).major ∧ ∀ k < q, (L.ver k).major ≤ m

theorem firstAbove_unique {m q q' : Nat} (h : FirstAbove L m q) (h' : FirstAbove L m q') :
    q = q' := by
  rcases Nat.lt_trichotomy q q' with hlt | he | hlt
  · have := h'.2.2 q hlt; have := h.2.1; omega
  · exact he
  · have := h.2.2 q' hlt; have := h'.2.1; omega

/-- Where the search for `m.0` ends, `m` the next major number. -/
theorem search_le_iff (h : bindLineage C force r opts = .ok L) {m : Nat} (hm : m + 1 < 2 ^ 64)
    {k : Nat} (hk : k < L.allsch.length) :
    searchSynv L.allv ⟨Lineage.uintSucc m, 0⟩ ≤ k ↔ m < (L.ver k).major := by
  obtain ⟨_, h2, h3⟩ := searchSynv_spec (bind_sorted h) ⟨m + 1, 0⟩
  have hu : Lineage.uintSucc m = m + 1 := by
    unfold Lineage.uintSucc; exact Nat.mod_eq_of_lt hm
  have hk' : k < L.allv.length := by simpa using hk
  rw [hu, ver_lt hk]
  constructor
  · intro hle
    have := less_false_iff.1 (h3 k hk' hle)
    simp only at this; omega
  · intro hlt
    apply Nat.le_of_not_lt
    intro hgt
    have := less_iff.1 (h2 k hk' hgt)
    simp only at this; omega

theorem search_above (h : bindLineage C force r opts = .ok L) {m : Nat} (hm : m + 1 < 2 ^ 64) {q : Nat} :
    (searchSynv L.allv ⟨Lineage.uintSucc m, 0⟩ = q ∧ q < L.allsch.length) ↔ FirstAbove L m q := by
  constructor
  · rintro ⟨rfl, hq⟩
    refine ⟨hq, (search_le_iff h hm hq).1 (Nat.le_refl _), fun k hk => ?_⟩
    apply Nat.le_of_not_lt
    intro hlt
    have := (search_le_iff h hm (by omega)).2 hlt
    omega
  · rintro ⟨hq, h1, hlt⟩
    have hle := (search_le_iff h hm hq).2 h1
    refine ⟨?_, hq⟩
    rcases Nat.lt_or_eq_of_le hle with hl | he
    · have := (search_le_iff h hm (Nat.lt_trans hl hq)).1 (Nat.le_refl _)
      have := hlt _ hl
      omega
    · exact he

/-- **C167**.  `LatestInMajor` of a schema returns the first schema with a greater
major version, and panics exactly if there is none. -/
theorem C167_latestInMajor (h : bindLineage C force r opts = .ok L) {p : Nat}
    (hM : (L.ver p).major + 1 < 2 ^ 64) :
    (∀ q, L.latestInMajor p = .ok q ↔ FirstAbove L (L.ver p).major q) ∧
    ((L.latestInMajor p).Panics ↔ ∀ q < L.allsch.length, (L.ver q).major ≤ (L.ver p).major) ∧
    ∀ e, L.latestInMajor p ≠ .err e := by
  have key := fun q => search_above (q := q) h hM
  unfold Lineage.latestInMajor
  simp only
  refine ⟨fun q => ?_, ?_, fun e => ?_⟩
  · rw [← key q]
    split
    · next hlt => simp only [Res.ok.injEq]; constructor
                  · rintro rfl; exact ⟨rfl, hlt⟩
                  · exact fun h => h.1
    · next hge => constructor
                  · intro h; cases h
                  · rintro ⟨rfl, h⟩; exact absurd h hge
  · split
    · next hlt =>
      have hf := (key _).1 ⟨rfl, hlt⟩
      simp only [Res.Panics, false_iff]
      intro hall
      have := hall _ hf.1
      have := hf.2.1
      omega
    · next hge =>
      simp only [Res.Panics, true_iff]
      intro q hq
      apply Nat.le_of_not_lt
      intro hlt
      have := (search_le_iff h hM hq).2 hlt
      omega
  · split <;> simp

/-- **C167**.  For the greatest major number that a version can have, the increment
wraps around, and the first schema of the lineage is returned. -/
theorem C167_latestInMajor_wraps (h : bindLineage C force r opts = .ok L) {p : Nat}
    (hM : (L.ver p).major + 1 = 2 ^ 64) : L.latestInMajor p = .ok 0 := by
  have hs := bind_sorted h
  have hpos := bind_pos h
  have hu : Lineage.uintSucc (L.ver p).major = 0 := by unfold Lineage.uintSucc; rw [hM]
  obtain ⟨_, h2, _⟩ := searchSynv_spec hs ⟨0, 0⟩
  have h0 : searchSynv L.allv ⟨0, 0⟩ = 0 := by
    apply Nat.eq_zero_of_not_pos
    intro hgt
    have := less_iff.1 (h2 0 (by simpa using hpos) hgt)
    simp only at this; omega
  unfold Lineage.latestInMajor
  simp only [hu, h0, hpos, if_true]

/-- **C167**.  `LatestVersionInSequence(m)` reports an error, namely
`ErrVersionNotExist`, exactly if the lineage has no version `m.0`.  Otherwise it
returns the version of the first schema with a greater major version, and panics if
there is none. -/
theorem C167_latestVersionInSequence (h : bindLineage C force r opts = .ok L) {m : Nat}
    (hm : m + 1 < 2 ^ 64) :
    (∀ e, L.latestVersionInSequence m = .err e ↔
      (⟨m, 0⟩ ∉ L.allv ∧ e = ⟨[.versionNotExist]⟩)) ∧
    (∀ v, L.latestVersionInSequence m = .ok v ↔
      (⟨m, 0⟩ ∈ L.allv ∧ ∃ q, FirstAbove L m q ∧ L.ver q = v)) ∧
    ((L.latestVersionInSequence m).Panics ↔
      (⟨m, 0⟩ ∈ L.allv ∧ ∀ q < L.allsch.length, (L.ver q).major ≤ m)) := by
  have hs := bind_sorted h
  unfold Lineage.latestVersionInSequence Lineage.Schema
  by_cases hmem : (⟨m, 0⟩ : SV) ∈ L.allv
  · rw [if_pos ((synvExists_iff hs _).2 hmem)]
    obtain ⟨hlt, hget⟩ := searchSynv_found hs hmem
    unfold Lineage.schema
    rw [if_pos (by simpa using hlt)]
    have hver : L.ver (searchSynv L.allv ⟨m, 0⟩) = ⟨m, 0⟩ := by
      rw [ver_lt (by simpa using hlt)]; exact hget
    obtain ⟨h1, h2, h3⟩ := C167_latestInMajor (p := searchSynv L.allv ⟨m, 0⟩) h
      (by rw [hver]; exact hm)
    rw [hver] at h1 h2
    simp only [Res.bind_ok, hmem, not_true_eq_false, false_and, iff_false, true_and]
    refine ⟨fun e he => ?_, fun v => ?_, ?_⟩
    · cases hl : L.latestInMajor (searchSynv L.allv ⟨m, 0⟩) with
      | ok q => rw [hl] at he; cases he
      | err e' => exact h3 e' hl
      | panic k => rw [hl] at he; cases he
      | fuel => rw [hl] at he; cases he
    · rw [Res.map_eq_ok]
      exact ⟨fun ⟨q, hq, he⟩ => ⟨q, (h1 q).1 hq, he⟩, fun ⟨q, hq, he⟩ => ⟨q, (h1 q).2 hq, he⟩⟩
    · rw [← h2]
      cases L.latestInMajor (searchSynv L.allv ⟨m, 0⟩) <;> simp [Res.Panics, Res.map, Res.bind]
  · have hno : synvExists L.allv ⟨m, 0⟩ = false := by
      rw [← Bool.not_eq_true, synvExists_iff hs]; exact hmem
    rw [hno]
    simp [Res.bind, Res.Panics, hmem, eq_comm]

/-- In 0.0, 0.1, 1.0: 1.0 is the answer for major 0, for major 1 there is none, and
major 2 does not exist. -/
example : threeBound.latestInMajor 0 = .ok 2 ∧ (threeBound.latestInMajor 2).Panics ∧
    threeBound.latestVersionInSequence 0 = .ok ⟨1, 0⟩ ∧
    (threeBound.latestVersionInSequence 1).Panics ∧
    threeBound.latestVersionInSequence 2 = .err ⟨[.versionNotExist]⟩ := by
  refine ⟨((C167_latestInMajor threeBound_eq (by decide)).1 2).2 ⟨by decide, by decide, ?_⟩,
    (C167_latestInMajor threeBound_eq (by decide)).2.1.2 (by decide),
    ((C167_latestVersionInSequence threeBound_eq (by decide)).2.1 _).2
      ⟨by decide, 2, ⟨by decide, by decide, ?_⟩, by decide⟩,
    (C167_latestVersionInSequence threeBound_eq (by decide)).2.2.2 ⟨by decide, by decide⟩,
    ((C167_latestVersionInSequence threeBound_eq (by decide)).1 _).2 ⟨by decide, rfl⟩⟩ <;>
  · intro k hk
    match k, hk with
    | 0, _ => decide
    | 1, _ => decide

/-- A lineage whose only version has the greatest major number. -/
def topVersion : RawLineage SetCue.Val := SetCue.lin [SetCue.sch (2 ^ 64 - 1) 3 [1]]

/-- The lineage bound from `topVersion`. -/
def topBound : Lineage SetCue.Val :=
  { name := "toy".toList, allsch := [⟨⟨2 ^ 64 - 1, 3⟩, [1], [1], []⟩], lenses := [], lensmap := [] }

example : SetCue.bind topVersion = .ok topBound ∧ topBound.latestInMajor 0 = .ok 0 :=
  ⟨rfl, C167_latestInMajor_wraps (C := SetCue.cue) (force := false) (r := topVersion) (opts := [])
    rfl (by decide)⟩

end Thema.Props
