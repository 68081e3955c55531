import Verif.Props.OwnUnknown

/-!
# C161: `AsSuccessor` and `AsPredecessor`, exactly
-/

namespace Thema.Props

open Thema Thema.Spec

variable {V : Type} {C : Cue V} {force : Bool} {r : RawLineage V} {opts : List (BindOption V)}
  {L : Lineage V} {H : Heap V} {i j : Inst V} {lacs : List Lac}

/-- **C161**.  In every lineage that binds, `AsSuccessor` of an instance of the latest
version dereferences nil.  Otherwise let `q` be the first schema with the version of
the one that follows the first schema of the instance's version (so with repeated
versions `q` may have the instance's own version): if it has the same major version,
the result is the instance's data, unchecked, under that schema; if not, the outcome is
that of `Translate` to it. -/
theorem C161_asSuccessor (h : bindLineage C force r opts = .ok L) (hH : H i.sch.lin = L)
    (hv : i.valid = true) (hp : i.sch.pos < L.allsch.length)
    (tr : Inst V → SV → Res (Inst V × List Lac)) :
    (L.ver i.sch.pos = L.ver (L.allsch.length - 1) → asSuccessor H tr i = .panic .nilDeref) ∧
    (L.ver i.sch.pos ≠ L.ver (L.allsch.length - 1) →
      ∃ f q, FirstWith L (L.ver i.sch.pos) f ∧ FirstWith L (L.ver (f + 1)) q ∧
        ((L.ver q).major = (L.ver i.sch.pos).major →
          asSuccessor H tr i =
            .ok ({ raw := i.raw, name := i.name, sch := ⟨i.sch.lin, q⟩, valid := true }, [])) ∧
        ((L.ver q).major ≠ (L.ver i.sch.pos).major →
          asSuccessor H tr i = tr i (L.ver q))) := by
  obtain ⟨h1, h2⟩ := C152_successor h hp
  unfold asSuccessor
  simp only [Inst.check, hv, if_true, Res.bind_ok, hH]
  refine ⟨fun hl => by rw [h1 hl]; rfl, fun hl => ?_⟩
  obtain ⟨f, q, hf, hq, hs⟩ := h2 hl
  refine ⟨f, q, hf, hq, fun hm => ?_, fun hm => ?_⟩
  · rw [hs]
    simp only [derefSch, Res.bind_ok, hm, if_true]
  · rw [hs]
    simp only [derefSch, Res.bind_ok, hm, if_false]

/-- **C161**.  In every lineage that binds, `AsPredecessor` of an instance of the first
version panics.  Otherwise its outcome is that of `Translate` to the version before the
instance's. -/
theorem C161_asPredecessor (h : bindLineage C force r opts = .ok L) (hH : H i.sch.lin = L)
    (hv : i.valid = true) (hp : i.sch.pos < L.allsch.length)
    (tr : Inst V → SV → Res (Inst V × List Lac)) :
    (L.ver i.sch.pos = L.ver 0 → (asPredecessor H tr i).Panics) ∧
    (L.ver i.sch.pos ≠ L.ver 0 →
      ∃ f, FirstWith L (L.ver i.sch.pos) (f + 1) ∧ asPredecessor H tr i = tr i (L.ver f)) := by
  obtain ⟨h1, h2, h3⟩ := C152_predecessor h hp
  unfold asPredecessor
  simp only [Inst.check, hv, if_true, Res.bind_ok, hH]
  refine ⟨fun hl => ?_, fun hl => ?_⟩
  · by_cases h0 : L.ver 0 = ⟨0, 0⟩
    · rw [h1 (hl.trans h0)]
      trivial
    · have := h2 hl h0
      cases hx : L.predecessor i.sch.pos with
      | panic k => trivial
      | ok _ => rw [hx] at this; cases this
      | err _ => rw [hx] at this; cases this
      | fuel => rw [hx] at this; cases this
  · obtain ⟨f, q, hf, hq, hs⟩ := h3 hl
    refine ⟨f, hf, ?_⟩
    rw [hs]
    simp only [derefSch, Res.bind_ok, hq.2.1]

/-- The instance is of the second schema with version 0.1; as its own successor it is
of the first one, which does not accept its data; its predecessor is 0.0. -/
example (tr : Inst SetCue.Val → SV → Res (Inst SetCue.Val × List Lac)) :
    asSuccessor (fun _ => dupBound) tr (instAt 2 [3]) = .ok (instAt 1 [3], []) ∧
    asPredecessor (fun _ => dupBound) tr (instAt 2 [3]) = tr (instAt 2 [3]) ⟨0, 0⟩ := by
  obtain ⟨f, q, hf, hq, h1, _⟩ := (C161_asSuccessor (H := fun _ => dupBound) (i := instAt 2 [3])
    dupBound_eq rfl rfl (by decide) tr).2 (by decide)
  obtain ⟨g, hg, h2⟩ := (C161_asPredecessor (H := fun _ => dupBound) (i := instAt 2 [3])
    dupBound_eq rfl rfl (by decide) tr).2 (by decide)
  have hfw : FirstWith dupBound (dupBound.ver 2) 1 := ⟨by decide, by decide, by
    intro k hk; obtain rfl : k = 0 := by omega
    decide⟩
  obtain rfl : f = 1 := firstWith_unique hf hfw
  obtain rfl : g = 0 := by have := firstWith_unique hg hfw; omega
  have hqw : FirstWith dupBound (dupBound.ver 2) q := hq
  obtain rfl : q = 1 := firstWith_unique hqw hfw
  exact ⟨h1 (by decide), h2⟩

end Thema.Props
