import Verif.Props.Grow

/-!
# IsAppendOnly and translation

What `IsAppendOnly` says about the translations between published versions.
-/

namespace Thema.Props

open Thema Thema.Spec

variable {V : Type} {C : Cue V} {force force' : Bool} {r r' : RawLineage V}
  {opts opts' : List (BindOption V)} {O N : Lineage V} {H H' : Heap V} {i : Inst V}

/-- **C142** (part).  Let two lineages be bound with the compatibility checks in force, have no
version gaps and join the same thing to their schemas, and let `IsAppendOnly` accept the pair.  If
the Go functions supplied for the old lineage are also supplied for the new one, and keep to their
lineage, then translating between versions of the old lineage gives the same result in the new one -
the same instance, error or panic.  Missing: lineages whose lenses changed, which `IsAppendOnly`
accepts as well (`C142_lenses_ignored`, `C142_translation_changed`), and CUE lenses, for which
`C136_translate_cue` needs the old schemas to be there literally. -/
theorem C142_go_kept_partial (h : bindLineage C force r opts = .ok O)
    (h' : bindLineage C force' r' opts' = .ok N) (hon : ChecksOn force opts)
    (hon' : ChecksOn force' opts') (hco : Contiguous O.allv) (hcn : Contiguous N.allv)
    (hl : PreorderLaws C.subsumeAll) (hj : SameJoin C O.allsch N.allsch)
    (ha : isAppendOnly C O N = .ok ()) (hg : goLenses opts ≠ [])
    (hls : ∀ l ∈ goLenses opts, l ∈ goLenses opts') (hH : H i.sch.lin = O)
    (hH' : H' i.sch.lin = N) (hst : StayInLineage H i.sch.lin (goLenses opts))
    (hst' : StayInLineage H' i.sch.lin (goLenses opts')) (hlt : i.sch.pos < O.allsch.length)
    {v : SV} (hv : v ∈ O.allv) {n : Nat} (hn : N.allsch.length < n) :
    translate C H' (n + 1) i v = translate C H (n + 1) i v := by
  have hkeep := fun {v} (hv : v ∈ O.allv) =>
    C44_versions_keep_schemas h h' hon hon' hco hcn hl hj ha hv
  have hdO : O.allv.Nodup := (Contiguous.strictV hco).nodup
  have hdN : N.allv.Nodup := (Contiguous.strictV hcn).nodup
  have hO := bind_pos h
  have hzero : ∀ {L : Lineage V}, Contiguous L.allv → L.ver 0 = ⟨0, 0⟩ := by
    intro L hc
    have := hc.1
    unfold Lineage.ver
    rw [List.head?_eq_getElem?] at this
    rw [this]; rfl
  -- versions are where they were
  have hat : ∀ p, p < O.allsch.length → p < N.allsch.length ∧ N.ver p = O.ver p := by
    intro p hp
    obtain ⟨q, s, t, hq, _, hs, ht, hsv, htv, _⟩ := hkeep (ver_mem hp)
    obtain ⟨hql, rfl⟩ := List.getElem?_eq_some_iff.1 hs
    obtain ⟨hql', rfl⟩ := List.getElem?_eq_some_iff.1 ht
    have hqp : q = p := by
      apply StrictV.inj (Contiguous.strictV hco) (by simpa [Lineage.allv] using hql)
        (by simpa [Lineage.allv] using hp)
      rw [ver_lt hp] at hsv
      simpa [Lineage.allv] using hsv
    subst hqp
    refine ⟨hql', ?_⟩
    rw [ver_lt hql']
    simpa [Lineage.allv] using htv
  have hlen : O.allsch.length ≤ N.allsch.length := by
    have := (hat (O.allsch.length - 1) (by omega)).1
    omega
  have hg' : goLenses opts' ≠ [] := by
    intro he
    cases hgl : goLenses opts with
    | nil => exact hg hgl
    | cons l ls => have := hls l (by rw [hgl]; simp); rw [he] at this; cases this
  cases hval : i.valid with
  | false => simp [translate, Inst.check, hval]
  | true =>
    obtain ⟨q, hq, rfl⟩ := List.getElem_of_mem hv
    have hq' : q < O.allsch.length := by simpa using hq
    rw [← ver_lt hq']
    obtain ⟨o, ho, e⟩ :=
      (C33_go_walk h hg (hzero hco) hdO hH hst hval hlt hq' (n := n) (by omega) _).1 rfl
    rw [e, ← (hat q hq').2]
    refine (C33_go_walk h' hg' (hzero hcn) hdN hH' hst' hval (by omega) (by omega) hn _).2
      ⟨o, ?_, rfl⟩
    exact goWalk_grown hH hH' (fun p hp => (hat p hp).2) hls hst hlt hq' ho

/-- **C142**, the rest is false: whatever is done to the lenses of the new lineage, and to its name,
`IsAppendOnly` gives the same answer. -/
theorem C142_lenses_ignored (C : Cue V) (O N : Lineage V) (name : Str) (lenses : List (CueLens V))
    (lensmap : List (LensID × Mapper V)) :
    isAppendOnly C O { N with name := name, lenses := lenses, lensmap := lensmap } =
      isAppendOnly C O N := rfl

/-- The hypotheses of the part that holds are met by a pair of different lineages, whose schemas are
written differently. -/
example :
    let r := SetCue.lin [SetCue.sch 0 0 [1], SetCue.sch 0 1 [1, 2]]
    let r' := SetCue.lin [SetCue.sch 0 0 [1], SetCue.sch 0 1 [2, 1], SetCue.sch 1 0 [3]]
    ∃ O N, goBind r [(⟨0, 1⟩, ⟨0, 0⟩)] = .ok O ∧
      goBind r' [(⟨0, 1⟩, ⟨0, 0⟩), (⟨0, 1⟩, ⟨1, 0⟩), (⟨1, 0⟩, ⟨0, 1⟩)] = .ok N ∧
      Contiguous O.allv ∧ Contiguous N.allv ∧ PreorderLaws SetCue.cue.subsumeAll ∧
      SameJoin SetCue.cue O.allsch N.allsch ∧ isAppendOnly SetCue.cue O N = .ok () := by
  refine ⟨_, _, rfl, rfl, ⟨rfl, ?_⟩, ⟨rfl, ?_⟩, setCue_preorder_all, ?_, rfl⟩
  · intro i hi
    rcases i with _ | i
    · left; rfl
    · exact absurd hi (by simp [Lineage.allv])
  · intro i hi
    rcases i with _ | _ | i
    · left; rfl
    · right; rfl
    · exact absurd hi (by simp [Lineage.allv])
  · intro s hs t ht h
    simp only [List.mem_cons, List.not_mem_nil, or_false] at hs ht
    rcases hs with rfl | rfl <;> rcases ht with rfl | rfl | rfl <;> exact h

/-- **C142**, the rest is false: a pair of bound lineages without gaps that `IsAppendOnly` accepts,
where the same instance is translated to the same version with different results. -/
theorem C142_translation_changed :
    let schemas := [SetCue.sch 0 0 [1, 2], SetCue.sch 1 0 [3]]
    let r := SetCue.lin schemas [SetCue.lens ⟨1, 0⟩ ⟨0, 0⟩ [1], SetCue.lens ⟨0, 0⟩ ⟨1, 0⟩ [3]]
    let r' := SetCue.lin schemas [SetCue.lens ⟨1, 0⟩ ⟨0, 0⟩ [2], SetCue.lens ⟨0, 0⟩ ⟨1, 0⟩ [3]]
    ∃ O N, SetCue.bind r = .ok O ∧ SetCue.bind r' = .ok N ∧
      isAppendOnly SetCue.cue O N = .ok () ∧
      translate SetCue.cue (fun _ => O) 1 (instAt 1 [3]) ⟨0, 0⟩ = .ok (instAt 0 [1], []) ∧
      translate SetCue.cue (fun _ => N) 1 (instAt 1 [3]) ⟨0, 0⟩ = .ok (instAt 0 [2], []) :=
  ⟨_, _, rfl, rfl, rfl, rfl, rfl⟩

end Thema.Props
