import Verif.Props.TranslateCue
import Verif.Model.DefCue
import Mathlib.Data.List.Nodup

/-!
# Translating in hops with CUE lenses

Whether translating to a version in between first makes a difference.
-/

namespace Thema.Props

open Thema Thema.Spec

variable {V : Type} {C : Cue V} {force : Bool} {r : RawLineage V} {opts : List (BindOption V)}
  {L : Lineage V} {H : Heap V} {i j k : Inst V} {lacs lacs' : List Lac}

/-! ### Walks are determined and can be divided -/

theorem lens_unique (he : ExactLenses L) {l l' : CueLens V} (hl : l ∈ L.lenses)
    (hl' : l' ∈ L.lenses) (hf : l.frm = l'.frm) (ht : l.to = l'.to) : l = l' :=
  List.inj_on_of_nodup_map he.1 hl hl' (by simp [hf, ht])

theorem stepUp_unique (he : ExactLenses L) {p : Nat} {x y y' : V} (h : StepUp C L p x y)
    (h' : StepUp C L p x y') : y = y' := by
  cases h with
  | minor _ hm _ =>
    cases h' with
    | minor => rfl
    | major _ hm' => exact absurd hm hm'
  | major _ hm l hl hf ht _ =>
    cases h' with
    | minor _ hm' => exact absurd hm' hm
    | major _ _ l' hl' hf' ht' _ =>
      rw [lens_unique he hl hl' (hf.trans hf'.symm) (ht.trans ht'.symm)]

theorem stepDown_unique (he : ExactLenses L) {p : Nat} {x y y' : V} (h : StepDown C L p x y)
    (h' : StepDown C L p x y') : y = y' := by
  obtain ⟨_, l, hl, hf, ht, _⟩ := h
  obtain ⟨_, l', hl', hf', ht', _⟩ := h'
  rw [lens_unique he hl hl' (hf.trans hf'.symm) (ht.trans ht'.symm)]

theorem ascend_append {p b q : Nat} {x y z : V} (h : Ascend C L p x b y)
    (h' : Ascend C L b y q z) : Ascend C L p x q z := by
  induction h with
  | refl => exact h'
  | step hs _ ih => exact .step hs (ih h')

theorem descend_append {p b q : Nat} {x y z : V} (h : Descend C L p x b y)
    (h' : Descend C L b y q z) : Descend C L p x q z := by
  induction h with
  | refl => exact h'
  | step hs _ ih => exact .step hs (ih h')

theorem ascend_rest (he : ExactLenses L) {p b q : Nat} {x y z : V} (h : Ascend C L p x b y)
    (hb : b ≤ q) (h' : Ascend C L p x q z) : Ascend C L b y q z := by
  induction h with
  | refl => exact h'
  | step hs t ih =>
    have := ascend_le t
    cases h' with
    | refl => omega
    | step hs' t' =>
      cases stepUp_unique he hs hs'
      exact ih hb t'

theorem descend_rest (he : ExactLenses L) {p b q : Nat} {x y z : V} (h : Descend C L p x b y)
    (hb : q ≤ b) (h' : Descend C L p x q z) : Descend C L b y q z := by
  induction h with
  | refl => exact h'
  | step hs t ih =>
    have := descend_le t
    generalize hp : _ + 1 = p' at h'
    cases h' with
    | refl => omega
    | step hs' t' =>
      cases Nat.succ.inj hp
      cases stepDown_unique he hs hs'
      exact ih hb t'

theorem walk_hop (he : ExactLenses L) {p b q : Nat} {x y z : V}
    (hb : (p ≤ b ∧ b ≤ q) ∨ (q ≤ b ∧ b ≤ p)) (h : Walk C L p x b y) :
    Walk C L b y q z ↔ Walk C L p x q z := by
  unfold Walk at *
  have self : p = b → x = y := by
    rintro rfl
    rcases h with ⟨_, h⟩ | ⟨_, h⟩
    · exact (ascend_self h).symm
    · exact (descend_self h).symm
  by_cases hpb : p = b
  · have := self hpb
    subst hpb this
    rfl
  rcases hb with ⟨h1, h2⟩ | ⟨h1, h2⟩
  · have hup : Ascend C L p x b y := by
      rcases h with ⟨_, h⟩ | ⟨h, _⟩
      · exact h
      · omega
    constructor
    · rintro (⟨_, h'⟩ | ⟨h3, h'⟩)
      · exact .inl ⟨by omega, ascend_append hup h'⟩
      · have : b = q := by omega
        subst this
        rw [descend_self h']
        exact .inl ⟨h1, hup⟩
    · rintro (⟨_, h'⟩ | ⟨h3, _⟩)
      · exact .inl ⟨h2, ascend_rest he hup h2 h'⟩
      · omega
  · have hdn : Descend C L p x b y := by
      rcases h with ⟨h, _⟩ | ⟨_, h⟩
      · omega
      · exact h
    constructor
    · rintro (⟨h3, h'⟩ | ⟨_, h'⟩)
      · have : b = q := by omega
        subst this
        rw [ascend_self h']
        exact .inr ⟨h2, hdn⟩
      · exact .inr ⟨by omega, descend_append hdn h'⟩
    · rintro (⟨h3, _⟩ | ⟨_, h'⟩)
      · omega
      · exact .inr ⟨h1, descend_rest he hdn h1 h'⟩

/-! ### C138 -/

/-- **C138** (partial).  In a lineage with contiguous versions and exactly the required CUE lenses,
for versions of the first three majors: if the translation to a version in between succeeds and
choosing defaults there changes nothing, going on from there gives what translating at once
gives, and fails if that fails.  Missing: values in between that have defaults
(`C138_default_in_between`) or are not concrete (`C138_incomplete_in_between`); majors from 3 on
(`C25_up_wrong`). -/
theorem C138_hop_partial (h : bindLineage C force r opts = .ok L) (hg : goLenses opts = [])
    (hc : Contiguous L.allv) (he : ExactLenses L) (hH : H i.sch.lin = L) (hv : i.valid = true)
    (hst : C.isStruct i.raw = true) (hst' : C.isStruct k.raw = true)
    (hp : i.sch.pos < L.allsch.length) (hp2 : (L.ver i.sch.pos).major ≤ 2) {b q : Nat}
    (hq : q < L.allsch.length) (hq2 : (L.ver q).major ≤ 2)
    (hb : (i.sch.pos ≤ b ∧ b ≤ q) ∨ (q ≤ b ∧ b ≤ i.sch.pos)) (n : Nat)
    (hk : translate C H (n + 1) i (L.ver b) = .ok (k, lacs'))
    (hd : ∀ y, Walk C L i.sch.pos i.raw b y → C.dflt y = y) :
    translate C H (n + 1) k (L.ver q) = .ok (j, lacs) ↔
      translate C H (n + 1) i (L.ver q) = .ok (j, lacs) := by
  have hs := Contiguous.strictV hc
  have hbl : b < L.allsch.length := by omega
  have hb2 : (L.ver b).major ≤ 2 := by
    rcases hb with ⟨_, h2⟩ | ⟨_, h2⟩
    · exact Nat.le_trans (major_le hs h2 hq) hq2
    · exact Nat.le_trans (major_le hs h2 hp) hp2
  obtain ⟨_, y, w, _, _, _, rfl⟩ :=
    (C25_translate_partial h hg hc he hH hv hst hp hp2 hbl hb2 n).1 hk
  have hy := hd y w
  rw [C25_translate_partial (i := ⟨C.dflt y, [], ⟨i.sch.lin, b⟩, true⟩) h hg hc he hH rfl hst' hbl
    hb2 hq hq2 n, C25_translate_partial h hg hc he hH hv hst hp hp2 hq hq2 n]
  simp only [hy]
  constructor
  · rintro ⟨rfl, z, w', d⟩
    exact ⟨rfl, z, (walk_hop he hb w).1 w', d⟩
  · rintro ⟨rfl, z, w', d⟩
    exact ⟨rfl, z, (walk_hop he hb w).2 w', d⟩

/-- The hypotheses are met: 0.0, 0.1, 1.0 by way of 0.1, up and down. -/
example {q : Inst SetCue.Val × List Lac} :
    (translate SetCue.cue (fun _ => threeExactBound) 1 (instAt 1 [2]) ⟨0, 0⟩ = .ok q ↔
      translate SetCue.cue (fun _ => threeExactBound) 1 (instAt 2 [3]) ⟨0, 0⟩ = .ok q) ∧
    translate SetCue.cue (fun _ => threeExactBound) 1 (instAt 2 [3]) ⟨0, 0⟩ =
      .ok (instAt 0 [1], []) :=
  ⟨C138_hop_partial (H := fun _ => threeExactBound) (i := instAt 2 [3]) (k := instAt 1 [2]) (b := 1)
    (q := 0) threeExactBound_eq rfl threeExactBound_contiguous threeExactBound_exact rfl rfl rfl rfl
    (by decide) (by decide) (by decide) (by decide) (.inr ⟨by decide, by decide⟩) 0 (by rfl)
    (fun _ _ => rfl), by rfl⟩

/-- A CUE lens that hands its input on. -/
def handOn (V : Type) (frm tv : SV) : RawLens V :=
  { frm := some frm, «to» := some tv, run := fun x => x, lacunas := fun _ => [],
    bad := fun _ => false }

/-- 0.0 is 1, 1.0 is 2 or 3, 2.0 is 3; the lens to 1.0 leaves open which, the lens to 2.0 hands
its input on. -/
def openRaw : RawLineage SetCue.Val :=
  SetCue.lin [SetCue.sch 0 0 [1], SetCue.sch 1 0 [2, 3], SetCue.sch 2 0 [3]]
    [SetCue.lens ⟨1, 0⟩ ⟨0, 0⟩ [1], SetCue.lens ⟨0, 0⟩ ⟨1, 0⟩ [2, 3], SetCue.lens ⟨2, 0⟩ ⟨1, 0⟩ [3],
     handOn _ ⟨1, 0⟩ ⟨2, 0⟩]

/-- The CUE lens bound from `handOn`. -/
def handOnLens (V : Type) (frm tv : SV) : CueLens V :=
  { frm := frm, «to» := tv, run := fun x => x, lacunas := fun _ => [], bad := fun _ => false }

/-- The lineage bound from `openRaw`. -/
def openBound : Lineage SetCue.Val :=
  { name := "toy".toList,
    allsch := [⟨⟨0, 0⟩, [1], [1], []⟩, ⟨⟨1, 0⟩, [2, 3], [2, 3], []⟩, ⟨⟨2, 0⟩, [3], [3], []⟩],
    lenses := [cueLens ⟨1, 0⟩ ⟨0, 0⟩ [1], cueLens ⟨0, 0⟩ ⟨1, 0⟩ [2, 3], cueLens ⟨2, 0⟩ ⟨1, 0⟩ [3],
      handOnLens _ ⟨1, 0⟩ ⟨2, 0⟩],
    lensmap := [] }

/-- **C138** (refutation, witness).  A contiguous lineage with exactly the required lenses where
translating 0.0 to 2.0 at once succeeds, and translating to 1.0 first fails: what the lens to 1.0
leaves open is only settled by the schema of 2.0, and `Translate` looks at concreteness only at
the end. -/
theorem C138_incomplete_in_between :
    SetCue.bind openRaw = .ok openBound ∧ Contiguous openBound.allv ∧ ExactLenses openBound ∧
    translate SetCue.cue (fun _ => openBound) 1 (instAt 0 [1]) ⟨2, 0⟩ = .ok (instAt 2 [3], []) ∧
    translate SetCue.cue (fun _ => openBound) 1 (instAt 0 [1]) ⟨1, 0⟩ =
      .err ⟨[.lensIncomplete]⟩ := by
  refine ⟨by rfl, ⟨rfl, ?_⟩, ⟨by decide, ?_⟩, by rfl, by rfl⟩
  · intro i hi
    match i, hi with
    | 0, _ => exact Or.inr rfl
    | 1, _ => exact Or.inr rfl
  · intro id
    rw [← mem_requiredList]
    simp [openBound, Lineage.allv, requiredList, cueLens, handOnLens]

/-- A schema declaration for `DefCue`. -/
def defSch (major : Nat) (body : DefCue.Val) : RawSchema DefCue.Val :=
  { version := some ⟨major, 0⟩, schema := body, body := body, examples := [] }

/-- A CUE lens for `DefCue` that always gives `out`. -/
def defLens (frm tv : SV) (out : DefCue.Val) : RawLens DefCue.Val :=
  { frm := some frm, «to» := some tv, run := fun _ => out, lacunas := fun _ => [],
    bad := fun _ => false }

/-- The CUE lens bound from `defLens`. -/
def defCueLens (frm tv : SV) (out : DefCue.Val) : CueLens DefCue.Val :=
  { frm := frm, «to» := tv, run := fun _ => out, lacunas := fun _ => [], bad := fun _ => false }

/-- 0.0 is 1, 1.0 is `*2 | 3 | 4`, 2.0 is `2 | *3`; the lens to 1.0 leaves the field to the schema, the
lens to 2.0 hands its input on. -/
def dfltRaw : RawLineage DefCue.Val :=
  { exists_ := true, nameField := .concrete, schemasField := .concrete, name := "toy".toList,
    finalErr := false, rawErr := false, uniErr := false,
    schemas := [defSch 0 ([1], [1]), defSch 1 ([2, 3, 4], [2]), defSch 2 ([2, 3], [3])],
    lenses := some [defLens ⟨1, 0⟩ ⟨0, 0⟩ ([1], [1]), defLens ⟨0, 0⟩ ⟨1, 0⟩ ([2, 3, 4], [2, 3, 4]),
      handOn _ ⟨2, 0⟩ ⟨1, 0⟩, handOn _ ⟨1, 0⟩ ⟨2, 0⟩] }

/-- The lineage bound from `dfltRaw`. -/
def dfltBound : Lineage DefCue.Val :=
  { name := "toy".toList,
    allsch := [⟨⟨0, 0⟩, ([1], [1]), ([1], [1]), []⟩, ⟨⟨1, 0⟩, ([2, 3, 4], [2]), ([2, 3, 4], [2]), []⟩,
      ⟨⟨2, 0⟩, ([2, 3], [3]), ([2, 3], [3]), []⟩],
    lenses := [defCueLens ⟨1, 0⟩ ⟨0, 0⟩ ([1], [1]), defCueLens ⟨0, 0⟩ ⟨1, 0⟩ ([2, 3, 4], [2, 3, 4]),
      handOnLens _ ⟨2, 0⟩ ⟨1, 0⟩, handOnLens _ ⟨1, 0⟩ ⟨2, 0⟩],
    lensmap := [] }

/-- An instance of `dfltBound`. -/
def dfltInst (p : Nat) (d : DefCue.Val) : Inst DefCue.Val :=
  { raw := d, name := [], sch := ⟨0, p⟩, valid := true }

/-- **C138** (refutation, witness).  A contiguous lineage with exactly the required lenses where
translating 0.0 to 1.0 and the result to 2.0 succeeds with 2, and translating to 2.0 at once
fails: in the hop the default of 1.0 is chosen, at once it clashes with the default of 2.0. -/
theorem C138_default_in_between :
    bindLineage DefCue.cue false dfltRaw [] = .ok dfltBound ∧ Contiguous dfltBound.allv ∧
    ExactLenses dfltBound ∧
    translate DefCue.cue (fun _ => dfltBound) 1 (dfltInst 0 ([1], [1])) ⟨1, 0⟩ =
      .ok (dfltInst 1 ([2], [2]), []) ∧
    translate DefCue.cue (fun _ => dfltBound) 1 (dfltInst 1 ([2], [2])) ⟨2, 0⟩ =
      .ok (dfltInst 2 ([2], [2]), []) ∧
    translate DefCue.cue (fun _ => dfltBound) 1 (dfltInst 0 ([1], [1])) ⟨2, 0⟩ =
      .err ⟨[.lensIncomplete]⟩ := by
  refine ⟨by rfl, ⟨rfl, ?_⟩, ⟨by decide, ?_⟩, by rfl, by rfl, by rfl⟩
  · intro i hi
    match i, hi with
    | 0, _ => exact Or.inr rfl
    | 1, _ => exact Or.inr rfl
  · intro id
    rw [← mem_requiredList]
    simp [dfltBound, Lineage.allv, requiredList, defCueLens, handOnLens]

end Thema.Props
