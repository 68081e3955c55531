import Verif.Spec.Steps
import Verif.Props.Hops
import Verif.Props.RoundTrip
import Verif.Model.RecCue

/-!
# `AsSuccessor` and `AsPredecessor` against `Translate`
-/

namespace Thema.Props

open Thema Thema.Spec

variable {V : Type} {C : Cue V} {force : Bool} {r : RawLineage V} {opts : List (BindOption V)}
  {L : Lineage V} {H : Heap V} {i j k : Inst V} {lacs lacs' : List Lac}

/-! ### C140 -/

/-- **C140.** Go lenses: `AsSuccessor` is `Translate` to the next version. -/
theorem C140_successor_go (h : bindLineage C force r opts = .ok L) (hne : goLenses opts ≠ [])
    (h0 : L.ver 0 = ⟨0, 0⟩) (hd : L.allv.Nodup) (hH : H i.sch.lin = L) (hv : i.valid = true)
    (hp : i.sch.pos + 1 < L.allsch.length) {n : Nat} (hn : L.allsch.length < n) :
    asSuccessor H (translate C H (n + 1)) i = translate C H (n + 1) i (L.ver (i.sch.pos + 1)) := by
  rw [(C37_inner_partial h h0 hd hH hv _).1 hp]
  split
  · rename_i hm
    rw [C36_go_forward_minor h hne hd hH hv (Nat.le_succ _) hp hm.symm hn]
    cases i
    simp only at hv
    subst hv
    rfl
  · rfl

/-- **C140.** Any lenses: `AsPredecessor` is `Translate` to the previous version. -/
theorem C140_predecessor (h : bindLineage C force r opts = .ok L) (h0 : L.ver 0 = ⟨0, 0⟩)
    (hd : L.allv.Nodup) (hH : H i.sch.lin = L) (hv : i.valid = true) (hp0 : 0 < i.sch.pos)
    (hp : i.sch.pos < L.allsch.length) (n : Nat) :
    asPredecessor H (translate C H n) i = translate C H n i (L.ver (i.sch.pos - 1)) :=
  (C37_inner_partial h h0 hd hH hv _).2 hp0 hp

/-- **C140.** Go lenses: calling `AsSuccessor` `k` times is `Translate` to the version `k` later,
also if it fails. -/
theorem C140_climb_go {m : Nat} (h : bindLineage C force r opts = .ok L)
    (hne : goLenses opts ≠ []) (h0 : L.ver 0 = ⟨0, 0⟩) (hd : L.allv.Nodup) (hH : H i.sch.lin = L)
    (hst : StayInLineage H i.sch.lin (goLenses opts)) (hv : i.valid = true)
    (hp : i.sch.pos + m < L.allsch.length) {n : Nat} (hn : L.allsch.length < n) :
    climb C H (n + 1) m i = translate C H (n + 1) i (L.ver (i.sch.pos + m)) := by
  induction m generalizing i with
  | zero =>
    have e := C31_own_version_go (C := C) (H := H) (i := i)
      (by rw [hH]; exact List.length_pos_iff.1 (goReady_lensmap h hne)) hv n
    rw [hH] at e
    exact e.symm
  | succ m ih =>
    rw [C35_composes h hne h0 hd hH hst hv (by omega) (b := i.sch.pos + 1) hp
      (.inl ⟨by omega, by omega⟩) hn, climb, C140_successor_go h hne h0 hd hH hv (by omega) hn]
    cases ht : translate C H (n + 1) i (L.ver (i.sch.pos + 1)) with
    | ok x =>
      obtain ⟨h1, h2, _⟩ := C33_reaches_target (j := x.1) (lacs := x.2) h hne h0 hd hH hst hv
        (by omega) (by omega) hn ht
      simp only [Res.bind_ok]
      rw [ih (by rw [h1]; exact hH) (by rw [h1]; exact hst) h2 (by rw [h1]; simp only; omega), h1]
      simp only [show i.sch.pos + 1 + m = i.sch.pos + (m + 1) by omega]
    | err e => rfl
    | panic k => rfl
    | fuel => rfl

/-- **C140.** Likewise down. -/
theorem C140_descend_go {m : Nat} (h : bindLineage C force r opts = .ok L)
    (hne : goLenses opts ≠ []) (h0 : L.ver 0 = ⟨0, 0⟩) (hd : L.allv.Nodup) (hH : H i.sch.lin = L)
    (hst : StayInLineage H i.sch.lin (goLenses opts)) (hv : i.valid = true)
    (hp : i.sch.pos < L.allsch.length) (hm : m ≤ i.sch.pos) {n : Nat}
    (hn : L.allsch.length < n) :
    descendBy C H (n + 1) m i = translate C H (n + 1) i (L.ver (i.sch.pos - m)) := by
  induction m generalizing i with
  | zero =>
    have e := C31_own_version_go (C := C) (H := H) (i := i)
      (by rw [hH]; exact List.length_pos_iff.1 (goReady_lensmap h hne)) hv n
    rw [hH] at e
    exact e.symm
  | succ m ih =>
    rw [C35_composes h hne h0 hd hH hst hv hp (b := i.sch.pos - 1) (by omega)
      (.inr ⟨by omega, by omega⟩) hn, descendBy,
      C140_predecessor h h0 hd hH hv (by omega) hp (n + 1)]
    cases ht : translate C H (n + 1) i (L.ver (i.sch.pos - 1)) with
    | ok x =>
      obtain ⟨h1, h2, _⟩ := C33_reaches_target (j := x.1) (lacs := x.2) h hne h0 hd hH hst hv
        hp (by omega) hn ht
      simp only [Res.bind_ok]
      rw [ih (by rw [h1]; exact hH) (by rw [h1]; exact hst) h2 (by rw [h1]; simp only; omega)
        (by rw [h1]; simp only; omega), h1]
      simp only [show i.sch.pos - 1 - m = i.sch.pos - (m + 1) by omega]
    | err e => rfl
    | panic k => rfl
    | fuel => rfl

/-- **C140.** Any lenses: across majors `AsSuccessor` is `Translate` to the next version. -/
theorem C140_successor_major (h : bindLineage C force r opts = .ok L) (h0 : L.ver 0 = ⟨0, 0⟩)
    (hd : L.allv.Nodup) (hH : H i.sch.lin = L) (hv : i.valid = true)
    (hp : i.sch.pos + 1 < L.allsch.length)
    (hm : (L.ver (i.sch.pos + 1)).major ≠ (L.ver i.sch.pos).major) (n : Nat) :
    asSuccessor H (translate C H n) i = translate C H n i (L.ver (i.sch.pos + 1)) := by
  rw [(C37_inner_partial h h0 hd hH hv _).1 hp, if_neg hm]

/-- **C140** (partial).  CUE lenses, within a major: both succeed with the same schema and the same
data if the data are concrete, the next schema accepts them and adds nothing to them.  Missing: data
that the next schema adds a default to (`C140_default_missing`). -/
theorem C140_successor_minor_partial (h : bindLineage C force r opts = .ok L)
    (hg : goLenses opts = []) (hc : Contiguous L.allv) (he : ExactLenses L) (hH : H i.sch.lin = L)
    (hv : i.valid = true) (hst : C.isStruct i.raw = true) (hp : i.sch.pos + 1 < L.allsch.length)
    (hp2 : (L.ver (i.sch.pos + 1)).major ≤ 2)
    (hm : (L.ver (i.sch.pos + 1)).major = (L.ver i.sch.pos).major)
    (hok : C.isErr (C.embed i.raw L.allsch[i.sch.pos + 1].body) = false)
    (hsame : C.dflt (C.embed i.raw L.allsch[i.sch.pos + 1].body) = i.raw)
    (hacc : C.accepts L.allsch[i.sch.pos + 1].body i.raw) (hmar : C.marshals i.raw = true)
    (n : Nat) :
    ∃ j k, asSuccessor H (translate C H (n + 1)) i = .ok (j, []) ∧
      translate C H (n + 1) i (L.ver (i.sch.pos + 1)) = .ok (k, []) ∧
      j.sch = ⟨i.sch.lin, i.sch.pos + 1⟩ ∧ k.sch = j.sch ∧ j.raw = i.raw ∧ k.raw = i.raw := by
  have hs := Contiguous.strictV hc
  have hd : L.allv.Nodup := by
    rw [List.nodup_iff_injective_get]
    intro a b hab
    have ha : a.1 < L.allsch.length := by simpa using a.2
    have hb : b.1 < L.allsch.length := by simpa using b.2
    apply Fin.ext
    apply ver_inj hs ha hb
    rw [ver_lt ha, ver_lt hb]
    exact hab
  refine ⟨_, ⟨i.raw, [], ⟨i.sch.lin, i.sch.pos + 1⟩, true⟩,
    C36_asSuccessor_minor h hd hH hv hp hm (n + 1), ?_, rfl, rfl, rfl, rfl⟩
  rw [C25_translate_partial h hg hc he hH hv hst (by omega) (by omega) hp hp2 n]
  refine ⟨rfl, _, .inl ⟨by omega, .step (.minor hp hm.symm hok) (.refl _ _)⟩, hp, ?_, ?_, ?_⟩
  · rw [hsame]; exact hmar
  · rw [hsame]; exact hacc
  · rw [hsame]

/-- Going up by one position is one step. -/
private theorem ascend_one {p : Nat} {x y : V} (h : Ascend C L p x (p + 1) y) : StepUp C L p x y := by
  have le : ∀ {p q : Nat} {x y : V}, Ascend C L p x q y → p ≤ q := by
    intro p q x y h
    induction h with
    | refl => exact Nat.le_refl _
    | step _ _ ih => omega
  generalize hq : p + 1 = q at h
  cases h with
  | refl => omega
  | step h1 h2 =>
    subst hq
    cases h2 with
    | refl => exact h1
    | step _ h4 => have := le h4; omega

/-- **C140** (exact, CUE lenses within a major).  `AsSuccessor` returns the data as they are.
`Translate` succeeds exactly if the data can be unified with the next schema, and the result, with
defaults chosen, is concrete and accepted by it; it returns that result, without a name. -/
theorem C140_successor_minor_exact (h : bindLineage C force r opts = .ok L)
    (hg : goLenses opts = []) (hc : Contiguous L.allv) (he : ExactLenses L) (hH : H i.sch.lin = L)
    (hv : i.valid = true) (hst : C.isStruct i.raw = true) (hp : i.sch.pos + 1 < L.allsch.length)
    (hp2 : (L.ver (i.sch.pos + 1)).major ≤ 2)
    (hm : (L.ver (i.sch.pos + 1)).major = (L.ver i.sch.pos).major) (n : Nat) :
    asSuccessor H (translate C H (n + 1)) i =
      .ok (⟨i.raw, i.name, ⟨i.sch.lin, i.sch.pos + 1⟩, true⟩, []) ∧
    ∀ k ls, translate C H (n + 1) i (L.ver (i.sch.pos + 1)) = .ok (k, ls) ↔
      ls = [] ∧ C.isErr (C.embed i.raw L.allsch[i.sch.pos + 1].body) = false ∧
      C.marshals (C.dflt (C.embed i.raw L.allsch[i.sch.pos + 1].body)) = true ∧
      C.accepts L.allsch[i.sch.pos + 1].body
        (C.dflt (C.embed i.raw L.allsch[i.sch.pos + 1].body)) ∧
      k = ⟨C.dflt (C.embed i.raw L.allsch[i.sch.pos + 1].body), [],
        ⟨i.sch.lin, i.sch.pos + 1⟩, true⟩ := by
  have hs := Contiguous.strictV hc
  have hd : L.allv.Nodup := by
    rw [List.nodup_iff_injective_get]
    intro a b hab
    have ha : a.1 < L.allsch.length := by simpa using a.2
    have hb : b.1 < L.allsch.length := by simpa using b.2
    apply Fin.ext
    apply ver_inj hs ha hb
    rw [ver_lt ha, ver_lt hb]
    exact hab
  refine ⟨C36_asSuccessor_minor h hd hH hv hp hm (n + 1), fun k ls => ?_⟩
  rw [C25_translate_partial h hg hc he hH hv hst (by omega) (by omega) hp hp2 n]
  constructor
  · rintro ⟨h1, y, hw, hq, h2, h3, h4⟩
    rcases hw with ⟨_, hw⟩ | ⟨hlt, _⟩
    · cases ascend_one hw with
      | minor _ _ hok => exact ⟨h1, hok, h2, h3, h4⟩
      | major _ hne => exact absurd hm.symm hne
    · omega
  · rintro ⟨h1, hok, h2, h3, h4⟩
    exact ⟨h1, _, .inl ⟨by omega, .step (.minor hp hm.symm hok) (.refl _ _)⟩, hp, h2, h3, h4⟩

/-- **C140** (exact).  So they do the same exactly if the instance has no name, its data are concrete,
and the next schema accepts them and adds nothing. -/
theorem C140_successor_minor_iff (h : bindLineage C force r opts = .ok L)
    (hg : goLenses opts = []) (hc : Contiguous L.allv) (he : ExactLenses L) (hH : H i.sch.lin = L)
    (hv : i.valid = true) (hst : C.isStruct i.raw = true) (hp : i.sch.pos + 1 < L.allsch.length)
    (hp2 : (L.ver (i.sch.pos + 1)).major ≤ 2)
    (hm : (L.ver (i.sch.pos + 1)).major = (L.ver i.sch.pos).major) (n : Nat) :
    asSuccessor H (translate C H (n + 1)) i = translate C H (n + 1) i (L.ver (i.sch.pos + 1)) ↔
      i.name = [] ∧ C.isErr (C.embed i.raw L.allsch[i.sch.pos + 1].body) = false ∧
      C.dflt (C.embed i.raw L.allsch[i.sch.pos + 1].body) = i.raw ∧
      C.marshals i.raw = true ∧ C.accepts L.allsch[i.sch.pos + 1].body i.raw := by
  obtain ⟨h1, h2⟩ := C140_successor_minor_exact h hg hc he hH hv hst hp hp2 hm n
  rw [h1]
  constructor
  · intro h3
    obtain ⟨_, h5, h6, h7, h8⟩ := (h2 _ _).1 h3.symm
    simp only [Inst.mk.injEq, and_true] at h8
    rw [← h8.1] at h6 h7
    exact ⟨h8.2, h5, h8.1.symm, h6, h7⟩
  · rintro ⟨h3, h4, h5, h6, h7⟩
    refine ((h2 _ _).2 ⟨rfl, h4, ?_, ?_, ?_⟩).symm
    · rw [h5]; exact h6
    · rw [h5]; exact h7
    · rw [h5, h3]

/-- The hypotheses of the theorems on Go lenses are met. -/
example : climb SetCue.cue (fun _ => threeGo) 5 2 (instAt 0 [1]) =
      translate SetCue.cue (fun _ => threeGo) 5 (instAt 0 [1]) ⟨1, 0⟩ ∧
    climb SetCue.cue (fun _ => threeGo) 5 2 (instAt 0 [1]) = .ok (instAt 2 [3], []) ∧
    descendBy SetCue.cue (fun _ => threeGo) 5 2 (instAt 2 [3]) =
      translate SetCue.cue (fun _ => threeGo) 5 (instAt 2 [3]) ⟨0, 0⟩ ∧
    descendBy SetCue.cue (fun _ => threeGo) 5 2 (instAt 2 [3]) = .ok (instAt 0 [1], []) := by
  have hne : goLenses [BindOption.imperativeLenses (threeGoLenses threeHeap [1] [2] [3])] ≠ [] := by
    simp [goLenses, threeGoLenses]
  exact ⟨C140_climb_go (m := 2) (H := fun _ => threeGo) (i := instAt 0 [1]) threeGo_eq hne rfl
      (by decide) rfl threeGo_stay rfl (by decide) (by decide), by rfl,
    C140_descend_go (m := 2) (H := fun _ => threeGo) (i := instAt 2 [3]) threeGo_eq hne rfl
      (by decide) rfl threeGo_stay rfl (by decide) (by decide) (by decide), by rfl⟩

/-- The hypotheses of `C140_successor_minor_partial` are met. -/
example : ∃ j k, asSuccessor (fun _ => threeExactBound)
      (translate SetCue.cue (fun _ => threeExactBound) 1) (instAt 0 [1]) = .ok (j, []) ∧
    translate SetCue.cue (fun _ => threeExactBound) 1 (instAt 0 [1]) ⟨0, 1⟩ = .ok (k, []) ∧
    j.sch = ⟨0, 1⟩ ∧ k.sch = j.sch ∧ j.raw = [1] ∧ k.raw = [1] :=
  C140_successor_minor_partial (H := fun _ => threeExactBound) (i := instAt 0 [1])
    threeExactBound_eq rfl threeExactBound_contiguous threeExactBound_exact rfl rfl rfl (by decide)
    (by decide) (by decide) rfl rfl rfl rfl 0

/-- Those of `C140_successor_minor_iff`, whose right side holds. -/
example : asSuccessor (fun _ => threeExactBound)
      (translate SetCue.cue (fun _ => threeExactBound) 1) (instAt 0 [1]) =
    translate SetCue.cue (fun _ => threeExactBound) 1 (instAt 0 [1]) ⟨0, 1⟩ :=
  (C140_successor_minor_iff (H := fun _ => threeExactBound) (i := instAt 0 [1])
    threeExactBound_eq rfl threeExactBound_contiguous threeExactBound_exact rfl rfl rfl (by decide)
    (by decide) (by decide) 0).2 ⟨rfl, rfl, rfl, rfl, rfl⟩

/-- 0.0 is `{a: 1 | 2}`, 0.1 is `{a: 1 | 2, b: *5 | 6}`. -/
def grownRaw : RawLineage RecCue.Val :=
  { exists_ := true, nameField := .concrete, schemasField := .concrete, name := "toy".toList,
    finalErr := false, rawErr := false, uniErr := false,
    schemas := [⟨some ⟨0, 0⟩, ⟨some ([1, 2], [1, 2]), none⟩, ⟨some ([1, 2], [1, 2]), none⟩, []⟩,
      ⟨some ⟨0, 1⟩, ⟨some ([1, 2], [1, 2]), some ([5, 6], [5])⟩,
        ⟨some ([1, 2], [1, 2]), some ([5, 6], [5])⟩, []⟩],
    lenses := some [{ frm := some ⟨0, 1⟩, «to» := some ⟨0, 0⟩, run := fun v => ⟨v.a, none⟩,
                      lacunas := fun _ => [], bad := fun _ => false }] }

/-- The lineage bound from `grownRaw`. -/
def grownBound : Lineage RecCue.Val :=
  { name := "toy".toList,
    allsch := [⟨⟨0, 0⟩, ⟨some ([1, 2], [1, 2]), none⟩, ⟨some ([1, 2], [1, 2]), none⟩, []⟩,
      ⟨⟨0, 1⟩, ⟨some ([1, 2], [1, 2]), some ([5, 6], [5])⟩,
        ⟨some ([1, 2], [1, 2]), some ([5, 6], [5])⟩, []⟩],
    lenses := [{ frm := ⟨0, 1⟩, «to» := ⟨0, 0⟩, run := fun v => ⟨v.a, none⟩,
                 lacunas := fun _ => [], bad := fun _ => false }],
    lensmap := [] }

/-- **C140** (refutation, witness).  A contiguous lineage bound with the checks in force and exactly
the required lenses, where 0.1 adds a field with a default: `AsSuccessor` returns the data without
it, `Translate` with it. -/
theorem C140_default_missing :
    let i : Inst RecCue.Val := ⟨⟨some ([1], [1]), none⟩, [], ⟨0, 0⟩, true⟩
    bindLineage RecCue.cue true grownRaw [] = .ok grownBound ∧ Contiguous grownBound.allv ∧
    ExactLenses grownBound ∧ validate RecCue.cue (fun _ => grownBound) ⟨0, 0⟩ i.raw = .ok i ∧
    asSuccessor (fun _ => grownBound) (translate RecCue.cue (fun _ => grownBound) 5) i =
      .ok (⟨⟨some ([1], [1]), none⟩, [], ⟨0, 1⟩, true⟩, []) ∧
    translate RecCue.cue (fun _ => grownBound) 5 i ⟨0, 1⟩ =
      .ok (⟨⟨some ([1], [1]), some ([5], [5])⟩, [], ⟨0, 1⟩, true⟩, []) := by
  refine ⟨by rfl, ⟨rfl, ?_⟩, ⟨by decide, ?_⟩, by rfl, by rfl, by rfl⟩
  · intro i hi
    match i, hi with
    | 0, _ => exact Or.inl rfl
  · intro id
    rw [← mem_requiredList]
    simp [grownBound, Lineage.allv, requiredList]

end Thema.Props
