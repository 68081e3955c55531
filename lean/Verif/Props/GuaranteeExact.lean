import Verif.Props.Guarantee

/-!
# Exactly when everything valid is translatable (Go lenses)
-/

namespace Thema.Props

open Thema Thema.Spec

variable {V : Type} {C : Cue V} {force : Bool} {r : RawLineage V} {opts : List (BindOption V)}
  {L : Lineage V} {H : Heap V} {lin : Nat}

private theorem supplied_unique {ls : List (ImperativeLens V)} (hn : (ls.map pairOf).Nodup)
    {l : ImperativeLens V} (hl : l ∈ ls) {m m' : Mapper V} (hm : l.mapper = some m)
    (hs : Supplied ls l.frm l.to m') : m' = m := by
  obtain ⟨l', hl', hf, ht, hm'⟩ := hs
  have : l' = l := List.inj_on_of_nodup_map hn hl' hl (by simp [pairOf, hf, ht])
  subst this
  rw [hm] at hm'
  cases hm'
  rfl

/-- **C143** (exactly, with Go lenses).  In a lineage without repeated versions that starts with
0.0 and was bound with checks and Go lenses that return instances of its schemas: every genuine
instance of every version can be translated to every version, with a genuine instance of that
version as the result, if and only if each supplied function turns every genuine instance of the
version it is for into a genuine instance of its target. -/
theorem C143_go_iff (hlaw : SubsumeSound C (fun d => C.marshals d = true))
    (h : bindLineage C force r opts = .ok L) (hon : ChecksOn force opts) (hne : goLenses opts ≠ [])
    (h0 : L.ver 0 = ⟨0, 0⟩) (hd : L.allv.Nodup) (hH : H lin = L)
    (hst : StayInLineage H lin (goLenses opts)) {n : Nat} (hn : L.allsch.length < n) :
    (∀ i, Genuine C H i → i.sch.lin = lin → ∀ q, q < L.allsch.length →
      ∃ j, translate C H (n + 1) i (L.ver q) = .ok (j, []) ∧ j.sch = ⟨lin, q⟩ ∧ Genuine C H j) ↔
    FunctionsWork C H lin (goLenses opts) := by
  constructor
  · intro htr l hl m hm i hgen hi hfrm p hp hto
    have hr := goReady h hne h0 hd
    have hreq : Required L.allv (pairOf l) := by
      have ha := bind_acceptable h
      exact ((C13_go_lenses_exact ha hr.zero hd hne).1 ⟨L, h⟩).2.2 _ |>.1
        (List.mem_map_of_mem hl)
    rw [hH] at hp hto
    have hip : i.sch.pos < L.allsch.length := by
      obtain ⟨_, _, hp', _⟩ := hgen
      rwa [hi, hH] at hp'
    have hfrm' : L.ver i.sch.pos = l.frm := by
      rw [← hfrm, versionOf, hi, hH]
    obtain ⟨j, ht, hjs, hjg⟩ := htr i hgen hi p hp
    obtain ⟨o, hw, ho⟩ := (C33_go_walk h hne h0 hd (by rw [hi]; exact hH) (by rw [hi]; exact hst)
      hgen.1 hip hp hn _).1 ht
    obtain rfl : o = .ok j := by
      cases o <;> simp [Res.map, Res.bind] at ho
      rw [ho]
    have inj : ∀ {a b : Nat}, a < L.allsch.length → b < L.allsch.length → L.ver a = L.ver b →
        a = b := by
      intro a b ha hb hab
      rw [ver_lt ha, ver_lt hb] at hab
      exact (List.Nodup.getElem_inj_iff hd).1 hab
    obtain ⟨k, hk, hcase⟩ := hreq
    have hk' : k + 1 < L.allsch.length := by simpa using hk
    have vk : L.allv[k]'(by omega) = L.ver k := by rw [ver_lt (by omega : k < L.allsch.length)]
    have vk1 : L.allv[k + 1] = L.ver (k + 1) := by rw [ver_lt hk']
    rw [vk, vk1] at hcase
    unfold GoWalk at hw
    rw [hi] at hw
    have used : ∀ {m' : Mapper V} {t : Nat}, t = p → Supplied (goLenses opts) (L.ver i.sch.pos) (L.ver t) m' →
        Answer H (L.ver t) (m' i ⟨lin, t⟩) (.ok j) → m i ⟨lin, p⟩ = .ok (some j) := by
      rintro m' _ rfl hs ha
      rw [hfrm', hto] at hs
      obtain rfl := supplied_unique hr.nodup hl hm hs
      generalize hx : m' i ⟨lin, _⟩ = x at ha
      cases ha
      rfl
    refine ⟨j, ?_, hjg, hjs⟩
    rcases hcase with hid | ⟨hmaj, hid⟩
    · -- down
      have e1 : i.sch.pos = k + 1 := inj hip hk' (hfrm'.trans (congrArg LensID.frm hid))
      have e2 : p = k := inj hp (by omega) (hto.trans (congrArg LensID.to hid))
      subst e2
      rw [if_neg (by omega), e1] at hw
      cases hw with
      | step hle hdn t =>
        cases t with
        | there =>
          cases hdn with
          | ask hs ha =>
            rw [hH] at hs ha
            exact used rfl (by rw [e1]; exact hs) ha
        | step hle' _ _ => omega
        | stop _ _ ho => exact absurd rfl (ho j)
      | stop _ _ ho => exact absurd rfl (ho j)
    · have e1 : i.sch.pos = k := inj hip (by omega) (hfrm'.trans (congrArg LensID.frm hid))
      have e2 : p = k + 1 := inj hp hk' (hto.trans (congrArg LensID.to hid))
      subst e2
      rw [if_pos (by omega), e1] at hw
      cases hw with
      | step hlt hup t =>
        cases t with
        | there =>
          cases hup with
          | minor hm => rw [hH] at hm; exact absurd hm hmaj
          | major _ hs ha =>
            rw [hH] at hs ha
            exact used rfl (by rw [e1]; exact hs) ha
        | step hlt' _ _ => omega
        | stop _ _ ho => exact absurd rfl (ho j)
      | stop _ _ ho => exact absurd rfl (ho j)
  · intro hw i hgen hi q hq
    subst hi
    exact C143_translatable_go_partial hlaw h hon hne h0 hd hH hst hw hgen hq hn

example : ∀ i, Genuine SetCue.cue (fun _ => threeGo) i → i.sch.lin = 0 →
    ∀ q, q < threeGo.allsch.length →
      ∃ j, translate SetCue.cue (fun _ => threeGo) 5 i (threeGo.ver q) = .ok (j, []) ∧
        j.sch = ⟨0, q⟩ ∧ Genuine SetCue.cue (fun _ => threeGo) j :=
  (C143_go_iff setCue_subsumeSound_concrete threeGo_eq (.inr (by simp))
    (by simp [threeGoLenses, goLenses]) rfl (by decide) rfl threeGo_stay (by decide)).2 threeGo_work

private theorem lens_unique (he : ExactLenses L) {l l' : CueLens V} (hl : l ∈ L.lenses)
    (hl' : l' ∈ L.lenses) (hf : l'.frm = l.frm) (ht : l'.to = l.to) : l' = l :=
  List.inj_on_of_nodup_map he.1 hl' hl (by simp [hf, ht])

/-- **C143** (what it takes, with CUE lenses).  If every genuine instance of every version can be
translated to every version, then every lens accepts all concrete data of its source schema, leads
to no error and leaves no condition of a lacuna that is fatal, and what it yields for its target,
with defaults filled in, is concrete and accepted by the target. -/
theorem C143_cue_necessary (h : bindLineage C force r opts = .ok L) (hg : goLenses opts = [])
    (hc : Contiguous L.allv) (he : ExactLenses L) (h2 : ∀ v ∈ L.allv, v.major ≤ 2)
    (hH : H lin = L) {n : Nat}
    (htr : ∀ i, Genuine C H i → i.sch.lin = lin → C.isStruct i.raw = true →
      ∀ q, q < L.allsch.length → ∃ j lacs, translate C H (n + 1) i (L.ver q) = .ok (j, lacs))
    {l : CueLens V} (hl : l ∈ L.lenses) {p q : Nat} (hp : p < L.allsch.length)
    (hq : q < L.allsch.length) (hf : L.ver p = l.frm) (ht : L.ver q = l.to) {x : V}
    (ha : C.accepts L.allsch[p].body x) (hx : C.marshals x = true) (hs : C.isStruct x = true) :
    LensWorks C l x L.allsch[q].body ∧
      C.accepts L.allsch[q].body (C.dflt (C.embed (l.run x) L.allsch[q].body)) ∧
      C.marshals (C.dflt (C.embed (l.run x) L.allsch[q].body)) = true := by
  have hd := (Contiguous.strictV hc).nodup
  have hreq : Required L.allv ⟨l.frm, l.to⟩ :=
    (he.2 _).1 (List.mem_map_of_mem (f := fun l : CueLens V => (⟨l.frm, l.to⟩ : LensID)) hl)
  have hgen : Genuine C H (asInstance lin p x) := by
    refine ⟨rfl, hx, ?_⟩
    simp only [asInstance, hH]
    exact ⟨hp, ha⟩
  obtain ⟨j, lacs, e⟩ := htr _ hgen rfl hs q hq
  obtain ⟨_, y, hw, hq', hm, hacc, _⟩ := (C25_translate_partial (i := asInstance lin p x) h hg hc he
    hH rfl hs hp (h2 _ (ver_mem hp)) hq (h2 _ (ver_mem hq)) n).1 e
  have inj : ∀ {a b : Nat}, a < L.allsch.length → b < L.allsch.length → L.ver a = L.ver b →
      a = b := by
    intro a b ha hb hab
    rw [ver_lt ha, ver_lt hb] at hab
    exact (List.Nodup.getElem_inj_iff hd).1 hab
  obtain ⟨k, hk, hcase⟩ := hreq
  have hk' : k + 1 < L.allsch.length := by simpa using hk
  have vk : L.allv[k]'(by omega) = L.ver k := by rw [ver_lt (by omega : k < L.allsch.length)]
  have vk1 : L.allv[k + 1] = L.ver (k + 1) := by rw [ver_lt hk']
  rw [vk, vk1] at hcase
  change Walk C L p x q y at hw
  rcases hcase with hid | ⟨hmaj, hid⟩
  · have e1 : p = k + 1 := inj hp hk' (hf.trans (congrArg LensID.frm hid))
    have e2 : q = k := inj hq (by omega) (ht.trans (congrArg LensID.to hid))
    subst e1 e2
    rcases hw with ⟨hle, _⟩ | ⟨_, hw⟩
    · omega
    · cases hw with
      | step st t =>
        cases st with
        | lens _ l' hl' hf' ht' hwk =>
          obtain rfl := lens_unique he hl hl' (hf'.trans hf) (ht'.trans ht)
          cases t with
          | refl => exact ⟨hwk, hacc, hm⟩
          | step st' t' => exact absurd (descend_le t') (by omega)
  · have e1 : p = k := inj hp (by omega) (hf.trans (congrArg LensID.frm hid))
    have e2 : q = k + 1 := inj hq hk' (ht.trans (congrArg LensID.to hid))
    subst e1 e2
    rcases hw with ⟨_, hw⟩ | ⟨hle, _⟩
    · cases hw with
      | step st t =>
        cases st with
        | minor _ hm' _ => exact absurd hm' hmaj
        | major _ _ l' hl' hf' ht' hwk =>
          obtain rfl := lens_unique he hl hl' (hf'.trans hf) (ht'.trans ht)
          cases t with
          | refl => exact ⟨hwk, hacc, hm⟩
          | step st' t' => exact absurd (ascend_le t') (by omega)
    · omega

/-- The hypotheses are met: everything valid in the lineage 0.0, 0.1, 1.0 is translatable, so the lens
from 1.0 down to 0.1 works for the data of 1.0. -/
example : ∃ l ∈ threeExactBound.lenses, l.frm = ⟨1, 0⟩ ∧ l.to = ⟨0, 1⟩ ∧
    LensWorks SetCue.cue l [3] (threeExactBound.allsch[1]'(by decide)).body := by
  have h2 : ∀ v ∈ threeExactBound.allv, v.major ≤ 2 := by decide
  have hm : ∃ l ∈ threeExactBound.lenses, l.frm = ⟨1, 0⟩ ∧ l.to = ⟨0, 1⟩ :=
    exactLenses_down threeExactBound_exact (p := 1) (by decide)
  obtain ⟨l, hl, hf, ht⟩ := hm
  refine ⟨l, hl, hf, ht, (C143_cue_necessary (H := fun _ => threeExactBound) (lin := 0) (n := 0)
    threeExactBound_eq rfl threeExactBound_contiguous threeExactBound_exact h2 rfl ?_ hl
    (p := 2) (q := 1) (by decide) (by decide) hf.symm ht.symm (x := [3]) rfl rfl rfl).1⟩
  intro i hgen _ hst q hq
  obtain ⟨j, hj, _⟩ := C143_translatable_cue_partial (H := fun _ => threeExactBound)
    setCue_subsumeSound_concrete setCue_embedLaws threeExactBound_eq (.inr (by simp)) rfl
    threeExactBound_contiguous threeExactBound_exact threeExactBound_work rfl hgen hst
    (h2 _ (ver_mem hgen.2.2.1)) hq (h2 _ (ver_mem hq)) 0
  exact ⟨j, [], hj⟩

end Thema.Props
