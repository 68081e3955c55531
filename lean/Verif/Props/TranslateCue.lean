import Verif.Lemmas.Translate
import Verif.Props.FlatIdx
import Verif.Props.Validate
import Verif.Props.Bind

/-!
# Translation with CUE lenses (C24, C25, C28 - C32, C55)

`translate C H (n + 1) i v` is `i.Translate(v)`; the budget `n` plays no role for
CUE lenses.  A lineage has CUE lenses when it is bound without Go lenses.
-/

namespace Thema.Props

open Spec

variable {V : Type} {C : Cue V} {force : Bool} {r : RawLineage V} {opts : List (BindOption V)}
  {L : Lineage V} {H : Heap V} {i j : Inst V} {lacs : List Lac}

/-! ### unfolding -/

theorem bind_lensmap_nil (h : bindLineage C force r opts = .ok L) (hg : goLenses opts = []) :
    L.lensmap = [] := by
  have hck := (bindLineage_ok.1 h).2.2.2.2.1
  rw [bindConfig_implens, hg] at hck
  simp only [checkLensesOrder, List.length_nil, gt_iff_lt, Nat.lt_irrefl, if_false] at hck
  split at hck
  · injection hck with hck; exact hck.symm
  · obtain ⟨_, _, h2⟩ := Res.map_eq_ok.1 hck
    exact h2.symm

theorem bind_lensSorted (h : bindLineage C force r opts = .ok L) (hg : goLenses opts = []) :
    LensSorted (L.lenses.map pairTF) := by
  cases hl : r.lenses with
  | none =>
    have : L.lenses = [] := by
      rw [(bindLineage_ok.1 h).2.2.2.2.2.2, cueLenses, hl]; rfl
    rw [this]
    intro i j _ hj; simp at hj
  | some ls => exact (C15_cue_lenses_partial h hg hl).2

theorem translate_cue (hm : (H i.sch.lin).lensmap = []) (hv : i.valid = true) (n : Nat) (v : SV) :
    translate C H (n + 1) i v = translateCue C H i v := by
  simp [translate, Inst.check, hv, hm]

theorem schema_ver (hs : StrictV L.allv) {q : Nat} (hq : q < L.allsch.length) :
    L.Schema (L.ver q) = .ok q := by
  have hq' : q < L.allv.length := by simpa using hq
  have h1 : synvExists L.allv (L.ver q) = true := by
    rw [synvExists_iff hs.sorted, ver_lt hq]; exact List.getElem_mem hq'
  unfold Lineage.Schema Lineage.schema
  rw [if_pos h1, ver_lt hq, searchSynv_getElem hs hq', if_pos hq]

/-- Success of a translation with CUE lenses. -/
theorem translateCue_ok_iff {tv : SV} :
    translateCue C H i tv = .ok (j, lacs) ↔
      ∃ newpos steps, (H i.sch.lin).Schema tv = .ok newpos ∧ C.isStruct i.raw = true ∧
        translateSteps C (H i.sch.lin) i.raw ((H i.sch.lin).ver i.sch.pos) tv = .ok steps ∧
        C.marshals (C.dflt (translateResult i.raw steps)) = true ∧
        validate C H ⟨i.sch.lin, newpos⟩ (C.dflt (translateResult i.raw steps)) = .ok j ∧
        lacs = [] := by
  unfold translateCue
  simp only
  constructor
  · intro h
    split at h
    · rename_i newpos hn
      split at h
      · cases h
      · rename_i hst
        split at h
        · cases h
        · cases h
        · rename_i steps hsteps
          split at h
          · rename_i hm
            split at h
            · rename_i inst hval
              simp only [Res.ok.injEq, Prod.mk.injEq] at h
              obtain ⟨rfl, rfl⟩ := h
              exact ⟨newpos, steps, hn, by simpa using hst, hsteps, hm, hval, rfl⟩
            all_goals cases h
          · cases h
    all_goals cases h
  · rintro ⟨newpos, steps, h1, h2, h3, h4, h5, rfl⟩
    simp [h1, h2, h3, h4, h5]

/-! ### C24: the result is valid -/

/-- **C24**.  A successful CUE-lens translation returns an instance of the schema
with the requested version, in the same lineage, whose data that schema accepts -
whatever the lenses are. -/
theorem C24_result_valid (h : bindLineage C force r opts = .ok L) (hg : goLenses opts = [])
    (hH : H i.sch.lin = L) {n : Nat} {tv : SV} (ht : translate C H n i tv = .ok (j, lacs)) :
    j.sch.lin = i.sch.lin ∧ j.valid = true ∧ L.ver j.sch.pos = tv ∧
      ∃ hp : j.sch.pos < L.allsch.length, C.accepts L.allsch[j.sch.pos].body j.raw := by
  have hm : (H i.sch.lin).lensmap = [] := by rw [hH]; exact bind_lensmap_nil h hg
  cases n with
  | zero => simp [translate] at ht
  | succ n =>
    have hv : i.valid = true := by
      cases hv : i.valid with
      | true => rfl
      | false => simp [translate, Inst.check, hv] at ht
    rw [translate_cue hm hv, translateCue_ok_iff] at ht
    obtain ⟨newpos, steps, h1, _, _, _, h5, _⟩ := ht
    rw [hH] at h1
    have hto : tv ∈ L.allv := by
      apply (synvExists_iff (bind_sorted h) tv).1
      unfold Lineage.Schema at h1
      split at h1
      · assumption
      · cases h1
    obtain ⟨p, hp1, hp2, hp3⟩ := schema_found (bind_sorted h) hto
    rw [hp1] at h1
    injection h1 with h1; subst h1
    obtain ⟨hacc, rfl⟩ := (validate_ok_iff hH hp2).1 h5
    exact ⟨rfl, rfl, hp3, hp2, hacc⟩

/-! ### C28: guards -/

theorem backSteps_guarded : ∀ (ps : List Int) {v : SV} {x : V} {ss : List (Step V)},
    backSteps C L ps v x = .ok ss → ∃ b, Guarded C L v x b (translateResult x ss)
      (ss.flatMap (·.emitted)) := by
  intro ps
  induction ps with
  | nil =>
    intro v x ss h
    simp only [backSteps, Eval.ok.injEq] at h
    subst h
    exact ⟨v, .refl v x⟩
  | cons pos rest ih =>
    intro v x ss h
    simp only [backSteps] at h
    obtain ⟨sch, h1, h⟩ := Eval.bind_eq_ok.1 h
    obtain ⟨idx, h2, h⟩ := Eval.bind_eq_ok.1 h
    obtain ⟨s, h3, h⟩ := Eval.bind_eq_ok.1 h
    obtain ⟨ss', h4, h⟩ := Eval.bind_eq_ok.1 h
    injection h with h; subst h
    obtain ⟨l, hl, hf, hto, hw, rfl⟩ := applyLens_ok.1 h3
    have hsch : sch ∈ L.allsch := by
      have := Eval.ofOption_eq_ok.1 h1
      unfold cueIdx at this
      split at this
      · exact List.mem_of_getElem? this
      · cases this
    have hlm : l ∈ L.lenses := by
      unfold cueIdx at hl
      split at hl
      · exact (List.mem_filter.1 (List.mem_of_getElem? hl)).1
      · cases hl
    simp only at h4
    rw [hto] at h4
    obtain ⟨b, hb⟩ := ih h4
    refine ⟨b, ?_⟩
    rw [translateResult_cons, List.flatMap_cons]
    exact .lens l hlm sch hsch hf hto hw hb

theorem fwdSteps_guarded : ∀ (schs : List (SchemaDef V)) {v : SV} {x : V} {ss : List (Step V)},
    (∀ s ∈ schs, s ∈ L.allsch) → fwdSteps C L schs v x = .ok ss →
    ∃ b, Guarded C L v x b (translateResult x ss) (ss.flatMap (·.emitted)) := by
  intro schs
  induction schs with
  | nil =>
    intro v x ss _ h
    simp only [fwdSteps, Eval.ok.injEq] at h
    subst h
    exact ⟨v, .refl v x⟩
  | cons sch rest ih =>
    intro v x ss hmem h
    simp only [fwdSteps] at h
    obtain ⟨s, h3, h⟩ := Eval.bind_eq_ok.1 h
    obtain ⟨ss', h4, h⟩ := Eval.bind_eq_ok.1 h
    injection h with h; subst h
    have hto := (fwdStep_to h3).1
    rw [hto] at h4
    obtain ⟨b, hb⟩ := ih (fun s hs => hmem s (List.mem_cons_of_mem _ hs)) h4
    have hsch : sch ∈ L.allsch := hmem sch (by simp)
    refine ⟨b, ?_⟩
    rw [translateResult_cons, List.flatMap_cons]
    unfold fwdStep at h3
    split at h3
    · rename_i hmaj
      split at h3
      · cases h3
      · injection h3 with h3; subst h3
        exact .unify sch hsch hmaj hb
    · split at h3
      · obtain ⟨l, hl, hf, hto', hw, rfl⟩ := applyLens_ok.1 h3
        have hlm : l ∈ L.lenses := by
          unfold cueIdx at hl
          split at hl
          · exact (List.mem_filter.1 (List.mem_of_getElem? hl)).1
          · cases hl
        exact .lens l hlm sch hsch hf hto' hw hb
      · cases h3

theorem translateSteps_guarded {x : V} {frm tv : SV} {ss : List (Step V)}
    (h : translateSteps C L x frm tv = .ok ss) :
    ∃ b, Guarded C L frm x b (translateResult x ss) (ss.flatMap (·.emitted)) := by
  unfold translateSteps at h
  split at h
  · obtain ⟨hi, _, h⟩ := Eval.bind_eq_ok.1 h
    obtain ⟨lo, _, h⟩ := Eval.bind_eq_ok.1 h
    obtain ⟨ps, _, h⟩ := Eval.bind_eq_ok.1 h
    exact backSteps_guarded ps h
  · split at h
    · obtain ⟨hi, _, h⟩ := Eval.bind_eq_ok.1 h
      obtain ⟨lo, _, h⟩ := Eval.bind_eq_ok.1 h
      obtain ⟨schs, hsl, h⟩ := Eval.bind_eq_ok.1 h
      refine fwdSteps_guarded schs ?_ h
      intro s hs
      have := Eval.ofOption_eq_ok.1 hsl
      unfold cueSlice at this
      split at this
      · cases this
      · injection this with this
        rw [← this] at hs
        exact List.mem_of_mem_drop (List.mem_of_mem_take hs)
    · injection h with h; subst h
      exact ⟨frm, .refl frm x⟩

/-- **C28**.  Whatever the schemas and lenses of a lineage are (no binding is
assumed), the data a successful CUE translation returns comes from the instance's
data by a chain in which every lens is a lens of the lineage, its `from` is the
version reached so far (initially the instance's), and its `to` is the version of
the schema its result is combined with. -/
theorem C28_lens_guards (hm : (H i.sch.lin).lensmap = []) {n : Nat} {tv : SV}
    (ht : translate C H n i tv = .ok (j, lacs)) :
    ∃ b y em, Guarded C (H i.sch.lin) ((H i.sch.lin).ver i.sch.pos) i.raw b y em ∧
      j.raw = C.dflt y := by
  cases n with
  | zero => simp [translate] at ht
  | succ n =>
    have hv : i.valid = true := by
      cases hv : i.valid with
      | true => rfl
      | false => simp [translate, Inst.check, hv] at ht
    rw [translate_cue hm hv, translateCue_ok_iff] at ht
    obtain ⟨newpos, steps, h1, _, h3, _, h5, _⟩ := ht
    obtain ⟨b, hb⟩ := translateSteps_guarded h3
    refine ⟨b, _, _, hb, ?_⟩
    unfold validate validateFull at h5
    split at h5
    · cases h5
    · split at h5
      · cases hmu : mungeValidateErr _ <;> rw [hmu] at h5 <;> simp at h5
      · simp only [Res.bind_ok, Res.ok.injEq] at h5
        rw [← h5]

/-! ### C25: exactly the lenses between source and target -/

theorem flatidx_ver (hc : Contiguous L.allv) {k : Nat} (hk : k < L.allsch.length)
    (h2 : (L.ver k).major ≤ 2) : flatidx L.allv (L.ver k) = some (k : Int) := by
  rw [ver_lt hk] at h2 ⊢
  exact C26_index_partial hc (by simpa using hk) h2

theorem ascend_le {p q : Nat} {x y : V} (h : Ascend C L p x q y) : p ≤ q := by
  induction h with
  | refl => exact Nat.le_refl _
  | step _ _ ih => omega

theorem descend_le {p q : Nat} {x y : V} (h : Descend C L p x q y) : q ≤ p := by
  induction h with
  | refl => exact Nat.le_refl _
  | step _ _ ih => omega

theorem ascend_self {p : Nat} {x y : V} (h : Ascend C L p x p y) : y = x := by
  cases h with
  | refl => rfl
  | step _ t => have := ascend_le t; omega

theorem descend_self {p : Nat} {x y : V} (h : Descend C L p x p y) : y = x := by
  generalize hq : p = q at h
  cases h with
  | refl => rfl
  | step _ t => have := descend_le t; omega

theorem major_le (hs : StrictV L.allv) {a b : Nat} (hab : a ≤ b) (hb : b < L.allsch.length) :
    (L.ver a).major ≤ (L.ver b).major := by
  rcases Nat.lt_or_eq_of_le hab with h | h
  · have := less_iff.1 ((ver_less_iff hs (by omega) hb).2 h)
    omega
  · subst h; exact Nat.le_refl _

/-- The steps between versions of the first three majors are the walk. -/
theorem translateSteps_walk (hc : Contiguous L.allv) (he : ExactLenses L)
    (hso : LensSorted (L.lenses.map pairTF)) {p q : Nat} (hp : p < L.allsch.length)
    (hq : q < L.allsch.length) (hp2 : (L.ver p).major ≤ 2) (hq2 : (L.ver q).major ≤ 2) {x y : V} :
    (∃ ss, translateSteps C L x (L.ver p) (L.ver q) = .ok ss ∧ translateResult x ss = y) ↔
      Walk C L p x q y := by
  have hs := Contiguous.strictV hc
  unfold translateSteps Walk
  rw [flatidx_ver hc hp hp2, flatidx_ver hc hq hq2]
  simp only [Eval.ofOption_some, Eval.bind_ok]
  rcases Nat.lt_trichotomy p q with hlt | heq | hgt
  · have h1 : (L.ver q).less (L.ver p) = false := less_asymm ((ver_less_iff hs hp hq).2 hlt)
    rw [h1, (ver_less_iff hs hp hq).2 hlt]
    simp only [Bool.false_eq_true, if_false, if_true]
    obtain ⟨d, rfl⟩ : ∃ d, q = p + d := ⟨q - p, by omega⟩
    have hsl : cueSlice L.allsch ((p : Int) + 1) (((p + d : Nat) : Int) + 1) =
        some ((L.allsch.drop (p + 1)).take d) := by
      unfold cueSlice
      rw [if_neg (by omega)]
      congr 2
      omega
    rw [hsl, Eval.ofOption_some, Eval.bind_ok, fwdSteps_iff hc he hso d hq]
    constructor
    · intro h; exact .inl ⟨by omega, h⟩
    · rintro (⟨_, h⟩ | ⟨h, _⟩)
      · exact h
      · omega
  · subst heq
    rw [less_irrefl]
    simp only [Bool.false_eq_true, if_false]
    constructor
    · rintro ⟨ss, h, rfl⟩
      injection h with h; subst h
      exact .inl ⟨Nat.le_refl _, .refl _ _⟩
    · intro h
      refine ⟨[], rfl, ?_⟩
      rcases h with ⟨_, h⟩ | ⟨_, h⟩
      · rw [ascend_self h]; rfl
      · rw [descend_self h]; rfl
  · rw [(ver_less_iff hs hq hp).2 hgt]
    simp only [if_true]
    obtain ⟨d, rfl⟩ : ∃ d, p = q + d := ⟨p - q, by omega⟩
    have hr : rangeDown ((q + d : Nat) : Int) (q : Int) =
        some ((List.range d).map (fun (k : Nat) => ((q + d : Nat) : Int) - 1 - (k : Int))) := by
      unfold rangeDown
      rw [if_neg (by omega)]
      have : (((q + d : Nat) : Int) - (q : Int)).toNat = d := by omega
      rw [this]
    rw [hr, Eval.ofOption_some, Eval.bind_ok, backSteps_iff hs he hso d hp]
    · constructor
      · intro h; exact .inr ⟨by omega, h⟩
      · rintro (⟨h, _⟩ | ⟨_, h⟩)
        · omega
        · exact h
    · intro k h1 h2
      exact flatidx_ver hc (by omega)
        (Nat.le_trans (major_le hs (by omega : k ≤ q + d) hp) hp2)

/-- **C25** (partial).  In a lineage with contiguous versions and exactly the
required CUE lenses, translating between versions of the first three majors
succeeds exactly if the walk from neighbour to neighbour does and its result is
exportable and accepted by the target; and then returns that result.  Missing:
majors from 3 on (`C25_up_wrong`, `C25_down_wrong`). -/
theorem C25_translate_partial (h : bindLineage C force r opts = .ok L) (hg : goLenses opts = [])
    (hc : Contiguous L.allv) (he : ExactLenses L) (hH : H i.sch.lin = L) (hv : i.valid = true)
    (hst : C.isStruct i.raw = true) (hp : i.sch.pos < L.allsch.length)
    (hp2 : (L.ver i.sch.pos).major ≤ 2) {q : Nat} (hq : q < L.allsch.length)
    (hq2 : (L.ver q).major ≤ 2) (n : Nat) :
    translate C H (n + 1) i (L.ver q) = .ok (j, lacs) ↔
      lacs = [] ∧ ∃ y, Walk C L i.sch.pos i.raw q y ∧ Delivers C L ⟨i.sch.lin, q⟩ y j := by
  have hm : (H i.sch.lin).lensmap = [] := by rw [hH]; exact bind_lensmap_nil h hg
  have hs := Contiguous.strictV hc
  rw [translate_cue hm hv, translateCue_ok_iff, hH, schema_ver hs hq]
  constructor
  · rintro ⟨newpos, steps, h1, _, h3, h4, h5, rfl⟩
    injection h1 with h1; subst h1
    obtain ⟨hacc, rfl⟩ := (validate_ok_iff hH hq).1 h5
    exact ⟨rfl, _, (translateSteps_walk hc he (bind_lensSorted h hg) hp hq hp2 hq2).1
      ⟨steps, h3, rfl⟩, hq, h4, hacc, rfl⟩
  · rintro ⟨rfl, y, hw, hq', h4, hacc, rfl⟩
    obtain ⟨ss, h3, rfl⟩ :=
      (translateSteps_walk hc he (bind_lensSorted h hg) hp hq hp2 hq2).2 hw
    exact ⟨q, ss, rfl, hst, h3, h4, (validate_ok_iff hH hq).2 ⟨hacc, rfl⟩, rfl⟩

/-- The number of schemas of major 0. -/
def sizeOfFirstMajor (L : Lineage V) : Nat := L.allv.countP (fun v => v.major = 0)

theorem flatidx_three_ver (hc : Contiguous L.allv) {k : Nat} (hk : k < L.allsch.length)
    (h3 : (L.ver k).major = 3) :
    flatidx L.allv (L.ver k) = some ((k : Int) - (sizeOfFirstMajor L : Int)) ∧
      0 < sizeOfFirstMajor L := by
  rw [ver_lt hk] at h3 ⊢
  exact C26_index_wrong hc (by simpa using hk) h3

/-- **C25** (refutation).  In *every* contiguous lineage with exactly the required
CUE lenses, translating from one of the first three majors to a version of major 3
never performs the last steps: when it succeeds, the walk has stopped short of the
target by as many positions as major 0 has schemas, and the data found there is
returned as an instance of the target. -/
theorem C25_up_wrong (h : bindLineage C force r opts = .ok L) (hg : goLenses opts = [])
    (hc : Contiguous L.allv) (he : ExactLenses L) (hH : H i.sch.lin = L)
    (hp : i.sch.pos < L.allsch.length) (hp2 : (L.ver i.sch.pos).major ≤ 2) {q : Nat}
    (hq : q < L.allsch.length) (hq3 : (L.ver q).major = 3) {n : Nat}
    (ht : translate C H n i (L.ver q) = .ok (j, lacs)) :
    0 < sizeOfFirstMajor L ∧ i.sch.pos + sizeOfFirstMajor L ≤ q ∧
      ∃ y, Ascend C L i.sch.pos i.raw (q - sizeOfFirstMajor L) y ∧
        Delivers C L ⟨i.sch.lin, q⟩ y j := by
  have hm : (H i.sch.lin).lensmap = [] := by rw [hH]; exact bind_lensmap_nil h hg
  have hs := Contiguous.strictV hc
  obtain ⟨hfi, hpos⟩ := flatidx_three_ver hc hq hq3
  cases n with
  | zero => simp [translate] at ht
  | succ n =>
    have hv : i.valid = true := by
      cases hv : i.valid with
      | true => rfl
      | false => simp [translate, Inst.check, hv] at ht
    rw [translate_cue hm hv, translateCue_ok_iff, hH, schema_ver hs hq] at ht
    obtain ⟨newpos, steps, h1, _, h3, h4, h5, rfl⟩ := ht
    injection h1 with h1; subst h1
    obtain ⟨hacc, rfl⟩ := (validate_ok_iff hH hq).1 h5
    have hlt : i.sch.pos < q := by
      apply Nat.lt_of_not_le
      intro hle
      have := major_le hs hle hp
      omega
    unfold translateSteps at h3
    rw [less_asymm ((ver_less_iff hs hp hq).2 hlt), (ver_less_iff hs hp hq).2 hlt,
      flatidx_ver hc hp hp2, hfi] at h3
    simp only [Bool.false_eq_true, if_false, if_true, Eval.ofOption_some, Eval.bind_ok] at h3
    obtain ⟨schs, hsl, h3⟩ := Eval.bind_eq_ok.1 h3
    have hsl := Eval.ofOption_eq_ok.1 hsl
    unfold cueSlice at hsl
    split at hsl
    · cases hsl
    · rename_i hcond
      injection hsl with hsl
      obtain ⟨d, hd⟩ : ∃ d, q - sizeOfFirstMajor L = i.sch.pos + d :=
        ⟨q - sizeOfFirstMajor L - i.sch.pos, by omega⟩
      have e1 : ((i.sch.pos : Int) + 1).toNat = i.sch.pos + 1 := by omega
      have e2 : ((q : Int) - (sizeOfFirstMajor L : Int) + 1 - ((i.sch.pos : Int) + 1)).toNat = d := by
        omega
      rw [e1, e2] at hsl
      rw [← hsl] at h3
      refine ⟨hpos, by omega, _, ?_, hq, h4, hacc, rfl⟩
      rw [hd]
      exact (fwdSteps_iff hc he (bind_lensSorted h hg) d (by omega)).1 ⟨steps, h3, rfl⟩

/-- **C25** (refutation).  Likewise, translating from major 3 down to one of the
first three majors never applies any lens: when it succeeds, the data is returned
untranslated as an instance of the target (which then is exactly as many positions
below as major 0 has schemas). -/
theorem C25_down_wrong (h : bindLineage C force r opts = .ok L) (hg : goLenses opts = [])
    (hc : Contiguous L.allv) (he : ExactLenses L) (hH : H i.sch.lin = L)
    (hp : i.sch.pos < L.allsch.length) (hp3 : (L.ver i.sch.pos).major = 3) {q : Nat}
    (hq : q < L.allsch.length) (hq2 : (L.ver q).major ≤ 2) {n : Nat}
    (ht : translate C H n i (L.ver q) = .ok (j, lacs)) :
    0 < sizeOfFirstMajor L ∧ i.sch.pos = q + sizeOfFirstMajor L ∧
      Delivers C L ⟨i.sch.lin, q⟩ i.raw j := by
  have hm : (H i.sch.lin).lensmap = [] := by rw [hH]; exact bind_lensmap_nil h hg
  have hs := Contiguous.strictV hc
  obtain ⟨hfi, hpos⟩ := flatidx_three_ver hc hp hp3
  cases n with
  | zero => simp [translate] at ht
  | succ n =>
    have hv : i.valid = true := by
      cases hv : i.valid with
      | true => rfl
      | false => simp [translate, Inst.check, hv] at ht
    rw [translate_cue hm hv, translateCue_ok_iff, hH, schema_ver hs hq] at ht
    obtain ⟨newpos, steps, h1, _, h3, h4, h5, rfl⟩ := ht
    injection h1 with h1; subst h1
    obtain ⟨hacc, rfl⟩ := (validate_ok_iff hH hq).1 h5
    have hlt : q < i.sch.pos := by
      apply Nat.lt_of_not_le
      intro hle
      have := major_le hs hle hq
      omega
    unfold translateSteps at h3
    rw [(ver_less_iff hs hq hp).2 hlt, flatidx_ver hc hq hq2, hfi] at h3
    simp only [if_true, Eval.ofOption_some, Eval.bind_ok] at h3
    obtain ⟨ps, hps, h3⟩ := Eval.bind_eq_ok.1 h3
    have hps := Eval.ofOption_eq_ok.1 hps
    unfold rangeDown at hps
    split at hps
    · cases hps
    · rename_i hcond
      injection hps with hps
      cases hd : ((i.sch.pos : Int) - (sizeOfFirstMajor L : Int) - (q : Int)).toNat with
      | zero =>
        rw [hd] at hps
        simp only [List.range_zero, List.map_nil] at hps
        subst hps
        simp only [backSteps, Eval.ok.injEq] at h3
        subst h3
        exact ⟨hpos, by omega, hq, h4, hacc, rfl⟩
      | succ d =>
        exfalso
        rw [hd, range_map_succ] at hps
        subst hps
        simp only [backSteps] at h3
        obtain ⟨k, hk⟩ : ∃ k : Nat, (i.sch.pos : Int) - (sizeOfFirstMajor L : Int) - 1 = (k : Int) :=
          ⟨i.sch.pos - sizeOfFirstMajor L - 1, by omega⟩
        have hk1 : k + 1 < L.allsch.length := by omega
        rw [hk, cueIdx_nat, List.getElem?_eq_getElem (by omega)] at h3
        simp only [Eval.ofOption_some, Eval.bind_ok] at h3
        obtain ⟨idx, hidx, h3⟩ := Eval.bind_eq_ok.1 h3
        obtain ⟨s, hs3, _⟩ := Eval.bind_eq_ok.1 h3
        obtain ⟨l, hl, hf, hto, _, _⟩ := applyLens_ok.1 hs3
        -- the lens leads to position `k`, hence comes from `k + 1`, not from `i`
        have hlm : l ∈ backwardLenses L.lenses := by
          unfold cueIdx at hl
          split at hl
          · exact List.mem_of_getElem? hl
          · cases hl
        have hpair : (l.to, l.frm) ∈ (backwardLenses L.lenses).map pairTF :=
          List.mem_map.2 ⟨l, hlm, rfl⟩
        rw [backward_pairs hs he (bind_lensSorted h hg)] at hpair
        obtain ⟨m, hm', hmeq⟩ := List.mem_map.1 hpair
        rw [List.mem_range] at hm'
        simp only [Prod.mk.injEq] at hmeq
        rw [ver_sch (by omega)] at hto
        have e1 : m = k := ver_inj hs (by omega) (by omega) (by rw [hmeq.1, hto])
        have e2 : m + 1 = i.sch.pos := ver_inj hs (by omega) hp (by rw [hmeq.2, hf])
        omega

/-! ### Witnesses for C25 -/

/-- 0.0, 0.1, 1.0 with exactly the required lenses. -/
def threeExact : RawLineage SetCue.Val :=
  SetCue.withLenses threeVersions
    [SetCue.lens ⟨0, 1⟩ ⟨0, 0⟩ [1], SetCue.lens ⟨1, 0⟩ ⟨0, 1⟩ [2], SetCue.lens ⟨0, 1⟩ ⟨1, 0⟩ [3]]

/-- The CUE lens bound from `SetCue.lens`. -/
def cueLens (frm tv : SV) (out : SetCue.Val) : CueLens SetCue.Val :=
  { frm := frm, «to» := tv, run := fun _ => out, lacunas := fun _ => [], bad := fun _ => false }

/-- The lineage bound from `threeExact`. -/
def threeExactBound : Lineage SetCue.Val :=
  { threeBound with
    lenses := [cueLens ⟨0, 1⟩ ⟨0, 0⟩ [1], cueLens ⟨1, 0⟩ ⟨0, 1⟩ [2], cueLens ⟨0, 1⟩ ⟨1, 0⟩ [3]] }

theorem threeExactBound_eq : SetCue.bind threeExact = .ok threeExactBound := by rfl

theorem threeExactBound_contiguous : Contiguous threeExactBound.allv := by
  refine ⟨rfl, ?_⟩
  intro i hi
  match i, hi with
  | 0, _ => exact Or.inl rfl
  | 1, _ => exact Or.inr rfl

theorem threeExactBound_exact : ExactLenses threeExactBound := by
  refine ⟨by decide, ?_⟩
  intro id
  rw [← mem_requiredList]
  simp [threeExactBound, threeBound, Lineage.allv, requiredList, cueLens]

/-- An instance of the first schema of the lineage at address 0. -/
def instAt (p : Nat) (d : SetCue.Val) : Inst SetCue.Val :=
  { raw := d, name := [], sch := ⟨0, p⟩, valid := true }

/-- The hypotheses of `C25_translate_partial` are met, and both directions of
translation succeed. -/
example : translate SetCue.cue (fun _ => threeExactBound) 1 (instAt 0 [1]) ⟨1, 0⟩ =
      .ok (instAt 2 [3], []) ∧
    translate SetCue.cue (fun _ => threeExactBound) 1 (instAt 2 [3]) ⟨0, 0⟩ =
      .ok (instAt 0 [1], []) ∧
    ∃ y, Walk SetCue.cue threeExactBound 0 [1] 2 y := by
  have h1 : translate SetCue.cue (fun _ => threeExactBound) 1 (instAt 0 [1]) ⟨1, 0⟩ =
      .ok (instAt 2 [3], []) := by rfl
  refine ⟨h1, by rfl, ?_⟩
  obtain ⟨_, y, hw, _⟩ := (C25_translate_partial (H := fun _ => threeExactBound) (i := instAt 0 [1])
    (q := 2) threeExactBound_eq rfl threeExactBound_contiguous threeExactBound_exact rfl rfl rfl
    (by decide) (by decide) (by decide) (by decide) 0).1 h1
  exact ⟨y, hw⟩

/-- The hypotheses of `C24_result_valid` are met, and its conclusion for that case. -/
example : SetCue.bind threeExact = .ok threeExactBound ∧
    translate SetCue.cue (fun _ => threeExactBound) 1 (instAt 0 [1]) ⟨1, 0⟩ =
      .ok (instAt 2 [3], []) ∧
    threeExactBound.ver (instAt 2 [3]).sch.pos = ⟨1, 0⟩ ∧
    SetCue.cue.accepts threeExactBound.allsch[2].body [3] := ⟨rfl, by rfl, rfl, rfl⟩

/-- A lineage that binds with its only forward lens from 0.0 although its
neighbours are 0.1 and 1.0. -/
def wrongLens : Lineage SetCue.Val :=
  { threeBound with lenses := [cueLens ⟨0, 0⟩ ⟨1, 0⟩ [3]] }

/-- The hypotheses of `C28_lens_guards` are met (above), and where a lens would have
to be applied between the wrong versions translation fails. -/
example : (∃ r, SetCue.bind r = .ok wrongLens) ∧
    translate SetCue.cue (fun _ => wrongLens) 1 (instAt 1 [2]) ⟨1, 0⟩ = .err ⟨[.invalidLens]⟩ :=
  ⟨⟨SetCue.withLenses threeVersions [SetCue.lens ⟨0, 0⟩ ⟨1, 0⟩ [3]], rfl⟩, by rfl⟩

/-- 0.0, 1.0, 2.0, 3.0 with exactly the required lenses.  The lens to 3.0 gives 3;
the value 7 happens to be valid in 2.0 and in 3.0. -/
def fourExact : RawLineage SetCue.Val :=
  SetCue.lin [SetCue.sch 0 0 [0], SetCue.sch 1 0 [1], SetCue.sch 2 0 [2, 7], SetCue.sch 3 0 [3, 7]]
    [SetCue.lens ⟨1, 0⟩ ⟨0, 0⟩ [0], SetCue.lens ⟨0, 0⟩ ⟨1, 0⟩ [1], SetCue.lens ⟨2, 0⟩ ⟨1, 0⟩ [1],
     SetCue.lens ⟨1, 0⟩ ⟨2, 0⟩ [7], SetCue.lens ⟨3, 0⟩ ⟨2, 0⟩ [2], SetCue.lens ⟨2, 0⟩ ⟨3, 0⟩ [3]]

/-- The lineage bound from `fourExact`. -/
def fourExactBound : Lineage SetCue.Val :=
  { name := "toy".toList,
    allsch := [⟨⟨0, 0⟩, [0], [0], []⟩, ⟨⟨1, 0⟩, [1], [1], []⟩, ⟨⟨2, 0⟩, [2, 7], [2, 7], []⟩,
      ⟨⟨3, 0⟩, [3, 7], [3, 7], []⟩],
    lenses := [cueLens ⟨1, 0⟩ ⟨0, 0⟩ [0], cueLens ⟨0, 0⟩ ⟨1, 0⟩ [1], cueLens ⟨2, 0⟩ ⟨1, 0⟩ [1],
     cueLens ⟨1, 0⟩ ⟨2, 0⟩ [7], cueLens ⟨3, 0⟩ ⟨2, 0⟩ [2], cueLens ⟨2, 0⟩ ⟨3, 0⟩ [3]],
    lensmap := [] }

theorem fourExactBound_eq : SetCue.bind fourExact = .ok fourExactBound := by rfl

theorem fourExactBound_exact : ExactLenses fourExactBound := by
  refine ⟨by decide, ?_⟩
  intro id
  rw [← mem_requiredList]
  simp [fourExactBound, Lineage.allv, requiredList, cueLens]

/-- **C25** (refutation, witness).  A contiguous lineage with exactly the required
lenses in which `Translate` silently returns wrong data in both directions: 7 goes
from 2.0 to 3.0 and back as 7, although the lens up gives 3 and the lens down gives
2; and from 1.0 to 3.0 the last lens is not applied.  Other translations are
refused as `ErrInvalidLens`. -/
theorem C25_wrong_witness :
    SetCue.bind fourExact = .ok fourExactBound ∧ Contiguous fourExactBound.allv ∧
    ExactLenses fourExactBound ∧
    translate SetCue.cue (fun _ => fourExactBound) 1 (instAt 2 [7]) ⟨3, 0⟩ =
      .ok (instAt 3 [7], []) ∧
    Walk SetCue.cue fourExactBound 2 [7] 3 [3] ∧
    translate SetCue.cue (fun _ => fourExactBound) 1 (instAt 3 [7]) ⟨2, 0⟩ =
      .ok (instAt 2 [7], []) ∧
    Walk SetCue.cue fourExactBound 3 [7] 2 [2] ∧
    translate SetCue.cue (fun _ => fourExactBound) 1 (instAt 1 [1]) ⟨3, 0⟩ =
      .ok (instAt 3 [7], []) ∧
    translate SetCue.cue (fun _ => fourExactBound) 1 (instAt 3 [3]) ⟨0, 0⟩ =
      .err ⟨[.invalidLens]⟩ := by
  refine ⟨rfl, four_contiguous, fourExactBound_exact, by rfl, ?_, by rfl, ?_, by rfl, by rfl⟩
  · refine .inl ⟨by decide, .step (.major (by decide) (by decide) (cueLens ⟨2, 0⟩ ⟨3, 0⟩ [3]) ?_ rfl
      rfl ⟨rfl, rfl, ?_⟩) (.refl _ _)⟩
    · simp [fourExactBound]
    · intro _ lac hlac; simp [cueLens] at hlac
  · refine .inr ⟨by decide, .step (.lens (by decide) (cueLens ⟨3, 0⟩ ⟨2, 0⟩ [2]) ?_ rfl rfl
      ⟨rfl, rfl, ?_⟩) (.refl _ _)⟩
    · simp [fourExactBound]
    · intro _ lac hlac; simp [cueLens] at hlac

example : ∃ y, Ascend SetCue.cue fourExactBound 1 [1] 2 y ∧
    Delivers SetCue.cue fourExactBound ⟨0, 3⟩ y (instAt 3 [7]) :=
  (C25_up_wrong (C := SetCue.cue) (j := instAt 3 [7]) (lacs := [])
    (H := fun _ => fourExactBound) (i := instAt 1 [1]) fourExactBound_eq rfl
    four_contiguous fourExactBound_exact rfl (by decide) (by decide) (q := 3) (by decide) rfl
    (n := 1) (by rfl)).2.2

example : Delivers SetCue.cue fourExactBound ⟨0, 2⟩ [7] (instAt 2 [7]) :=
  (C25_down_wrong (C := SetCue.cue) (j := instAt 2 [7]) (lacs := [])
    (H := fun _ => fourExactBound) (i := instAt 3 [7]) fourExactBound_eq rfl
    four_contiguous fourExactBound_exact rfl (by decide) rfl (q := 2) (by decide) (by decide)
    (n := 1) (by rfl)).2.2

example : ∃ b y em, Guarded SetCue.cue threeExactBound ⟨0, 0⟩ [1] b y em ∧ [3] = SetCue.cue.dflt y :=
  C28_lens_guards (C := SetCue.cue) (j := instAt 2 [3]) (lacs := [])
    (H := fun _ => threeExactBound) (i := instAt 0 [1]) rfl (n := 1) (tv := ⟨1, 0⟩)
    (by rfl)

/-! ### C29: lacunas -/

/-- **C29** (refutation).  `Translate` never returns a lacuna, with CUE lenses or
with Go lenses. -/
theorem C29_never_returned {n : Nat} {tv : SV} (ht : translate C H n i tv = .ok (j, lacs)) :
    lacs = [] := by
  cases n with
  | zero => simp [translate] at ht
  | succ n =>
    simp only [translate] at ht
    obtain ⟨_, _, ht⟩ := Res.bind_eq_ok.1 ht
    split at ht
    · unfold translateGo at ht
      simp only at ht
      split at ht
      · injection ht with ht; cases ht; rfl
      · obtain ⟨_, _, h2⟩ := Res.map_eq_ok.1 ht
        cases h2; rfl
    · obtain ⟨_, _, _, _, _, _, _, h⟩ := translateCue_ok_iff.1 ht
      exact h

example : ([] : List Lac) = [] :=
  C29_never_returned (C := SetCue.cue) (j := instAt 2 [3]) (lacs := [])
    (H := fun _ => threeExactBound) (i := instAt 0 [1]) (n := 1)
    (tv := ⟨1, 0⟩) (by rfl)

/-- **C29** (partial).  If CUE treats the reference to the undeclared field as a
final error, then at least no lacuna is lost silently: the translations that
succeed are those in which no condition holds.  Missing: that lacunas are
returned. -/
theorem C29_lacunas_partial (hf : C.lacunaRefFatal = true) (hm : (H i.sch.lin).lensmap = [])
    {n : Nat} {tv : SV} (ht : translate C H n i tv = .ok (j, lacs)) :
    ∃ b y, Guarded C (H i.sch.lin) ((H i.sch.lin).ver i.sch.pos) i.raw b y lacs ∧
      j.raw = C.dflt y := by
  obtain ⟨b, y, em, hg, hr⟩ := C28_lens_guards hm ht
  have key : ∀ {a b : SV} {x y : V} {em : List Lac}, Guarded C (H i.sch.lin) a x b y em → em = [] := by
    intro a b x y em h
    induction h with
    | refl => rfl
    | lens l _ s _ _ _ hw _ ih =>
      rw [ih, List.append_nil, List.filter_eq_nil_iff]
      intro lac hlac
      simp [hw.2.2 hf lac hlac]
    | unify _ _ _ _ ih => exact ih
  rw [key hg] at hg
  rw [C29_never_returned ht]
  exact ⟨b, y, hg, hr⟩

example : ∃ b y, Guarded SetCue.cue threeExactBound ⟨0, 0⟩ [1] b y [] ∧ [3] = SetCue.cue.dflt y :=
  C29_lacunas_partial (C := SetCue.cue) (j := instAt 2 [3]) (lacs := [])
    (H := fun _ => threeExactBound) (i := instAt 0 [1]) rfl rfl (n := 1)
    (tv := ⟨1, 0⟩) (by rfl)

/-- The hypotheses of `C29_never_returned` and `C29_lacunas_partial` are met. -/
example : SetCue.cue.lacunaRefFatal = true ∧ threeExactBound.lensmap = [] ∧
    translate SetCue.cue (fun _ => threeExactBound) 1 (instAt 0 [1]) ⟨1, 0⟩ =
      .ok (instAt 2 [3], []) := ⟨rfl, rfl, by rfl⟩

/-- A lineage 0.0, 1.0 whose lenses have a lacuna that always applies. -/
def withLacuna : Lineage SetCue.Val :=
  { name := "toy".toList,
    allsch := [⟨⟨0, 0⟩, [0], [0], []⟩, ⟨⟨1, 0⟩, [1], [1], []⟩],
    lenses := [⟨⟨1, 0⟩, ⟨0, 0⟩, fun _ => [0], fun _ => [⟨true, 5⟩], fun _ => false⟩,
      ⟨⟨0, 0⟩, ⟨1, 0⟩, fun _ => [1], fun _ => [⟨true, 6⟩], fun _ => false⟩],
    lensmap := [] }

/-- **C29** (refutation, witness).  An applied lens emits a lacuna.  If the
undeclared field is an incomplete value, translation succeeds and loses it; if it is
a final error, translation fails with `ErrInvalidLens`. -/
theorem C29_lost_witness :
    (∃ r, SetCue.bind r = .ok withLacuna) ∧
    translate { SetCue.cue with lacunaRefFatal := false } (fun _ => withLacuna) 1 (instAt 0 [0])
      ⟨1, 0⟩ = .ok (instAt 1 [1], []) ∧
    Guarded { SetCue.cue with lacunaRefFatal := false } withLacuna ⟨0, 0⟩ [0] ⟨1, 0⟩ [1]
      [⟨true, 6⟩] ∧
    translate SetCue.cue (fun _ => withLacuna) 1 (instAt 0 [0]) ⟨1, 0⟩ =
      .err ⟨[.invalidLens]⟩ := by
  refine ⟨⟨SetCue.lin [SetCue.sch 0 0 [0], SetCue.sch 1 0 [1]]
    [SetCue.lens ⟨1, 0⟩ ⟨0, 0⟩ [0] [⟨true, 5⟩], SetCue.lens ⟨0, 0⟩ ⟨1, 0⟩ [1] [⟨true, 6⟩]], rfl⟩,
    by rfl, ?_, by rfl⟩
  refine .lens ⟨⟨0, 0⟩, ⟨1, 0⟩, fun _ => [1], fun _ => [⟨true, 6⟩], fun _ => false⟩ ?_
    ⟨⟨1, 0⟩, [1], [1], []⟩ ?_ rfl rfl ⟨rfl, rfl, ?_⟩ (.refl _ _)
  · simp [withLacuna]
  · simp [withLacuna]
  · intro h; simp at h

/-! ### C30: the errors of Translate -/

/-- **C30** (partial).  With CUE lenses an error of `Translate` is `ErrInvalidLens`,
`ErrLensIncomplete` or `ErrLensResultIsInvalidData`.  Missing: that the last two are
`ErrInvalidLens` as well (`C30_other_errors`). -/
theorem C30_errors_partial (hm : (H i.sch.lin).lensmap = []) {n : Nat} {tv : SV} {e : GoErr}
    (ht : translate C H n i tv = .err e) :
    e.is .invalidLens ∨ e.is .lensIncomplete ∨ e.is .lensResultIsInvalidData := by
  cases n with
  | zero => simp [translate] at ht
  | succ n =>
    have hv : i.valid = true := by
      cases hv : i.valid with
      | true => rfl
      | false => simp [translate, Inst.check, hv] at ht
    rw [translate_cue hm hv] at ht
    unfold translateCue at ht
    simp only at ht
    split at ht
    · split at ht
      · cases ht
      · split at ht
        · injection ht with ht; subst ht; exact .inl (by simp [GoErr.is])
        · injection ht with ht; subst ht; exact .inr (.inl (by simp [GoErr.is]))
        · split at ht
          · split at ht
            · cases ht
            · injection ht with ht; subst ht; exact .inr (.inr (by simp [GoErr.is]))
            · cases ht
            · cases ht
          · injection ht with ht; subst ht; exact .inr (.inl (by simp [GoErr.is]))
    all_goals cases ht

example : ∃ e, translate SetCue.cue (fun _ => fourExactBound) 1 (instAt 3 [3]) ⟨0, 0⟩ = .err e ∧
    (e.is .invalidLens ∨ e.is .lensIncomplete ∨ e.is .lensResultIsInvalidData) :=
  ⟨⟨[.invalidLens]⟩, by rfl, C30_errors_partial (C := SetCue.cue) (H := fun _ => fourExactBound)
    (i := instAt 3 [3]) rfl (n := 1) (tv := ⟨0, 0⟩) (by rfl)⟩

/-- 0.0, 1.0 with lenses whose results are `up` and `down`. -/
def twoWith (up down : SetCue.Val) : Lineage SetCue.Val :=
  { name := "toy".toList,
    allsch := [⟨⟨0, 0⟩, [0, 4], [0, 4], []⟩, ⟨⟨1, 0⟩, [1, 2], [1, 2], []⟩],
    lenses := [cueLens ⟨1, 0⟩ ⟨0, 0⟩ down, cueLens ⟨0, 0⟩ ⟨1, 0⟩ up],
    lensmap := [] }

theorem twoWith_bound (up down : SetCue.Val) : ∃ r, SetCue.bind r = .ok (twoWith up down) :=
  ⟨SetCue.lin [SetCue.sch 0 0 [0, 4], SetCue.sch 1 0 [1, 2]]
    [SetCue.lens ⟨1, 0⟩ ⟨0, 0⟩ down, SetCue.lens ⟨0, 0⟩ ⟨1, 0⟩ up], rfl⟩

/-- **C30** (refutation).  A lens with a non-concrete result, and a translation that
ends with data invalid in the target (here because of C25), give errors that are not
`ErrInvalidLens`. -/
theorem C30_other_errors :
    (∃ L e, (∃ r, SetCue.bind r = .ok L) ∧
      translate SetCue.cue (fun _ => L) 1 (instAt 0 [0]) ⟨1, 0⟩ = .err e ∧
      ¬ e.is .invalidLens ∧ e.is .lensIncomplete) ∧
    (∃ L e, (∃ r, SetCue.bind r = .ok L) ∧
      translate SetCue.cue (fun _ => L) 1 (instAt 2 [2]) ⟨3, 0⟩ = .err e ∧
      ¬ e.is .invalidLens ∧ e.is .lensResultIsInvalidData) :=
  ⟨⟨twoWith [1, 2] [0], ⟨[.lensIncomplete]⟩, twoWith_bound _ _, by rfl, by decide, by decide⟩,
   ⟨fourExactBound, ⟨[.lensResultIsInvalidData, .invalidData]⟩, ⟨fourExact, rfl⟩,
    by rfl, by decide, by decide⟩⟩

/-- The hypotheses of `C30_errors_partial` are met by a failing translation. -/
example : fourExactBound.lensmap = [] ∧
    translate SetCue.cue (fun _ => fourExactBound) 1 (instAt 3 [3]) ⟨0, 0⟩ =
      .err ⟨[.invalidLens]⟩ := ⟨rfl, by rfl⟩

/-! ### C31: translating to the own version -/

/-- **C31** (partial, CUE lenses).  Translating an instance to its own version
returns an instance of the same schema with the same data, whatever the lenses do,
provided the data is a struct, is its own default and can be exported.  Missing:
other data (`C31_incomplete_data`, `C55_panics_on_non_struct`). -/
theorem C31_own_version_partial (h : bindLineage C force r opts = .ok L) (hg : goLenses opts = [])
    (hs : StrictlyIncreasing L.allv) (hH : H i.sch.lin = L) (hv : i.valid = true)
    (hp : i.sch.pos < L.allsch.length) (hacc : C.accepts L.allsch[i.sch.pos].body i.raw)
    (hst : C.isStruct i.raw = true) (hd : C.dflt i.raw = i.raw) (hm : C.marshals i.raw = true)
    (n : Nat) :
    translate C H (n + 1) i (L.ver i.sch.pos) =
      .ok ({ raw := i.raw, name := [], sch := i.sch, valid := true }, []) := by
  have hlm : (H i.sch.lin).lensmap = [] := by rw [hH]; exact bind_lensmap_nil h hg
  rw [translate_cue hlm hv, translateCue_ok_iff, hH]
  refine ⟨i.sch.pos, [], schema_ver (strictV_iff.2 hs) hp, hst, ?_, ?_, ?_, rfl⟩
  · unfold translateSteps; rw [less_irrefl]; rfl
  · show C.marshals (C.dflt i.raw) = true
    rw [hd, hm]
  · show validate C H ⟨i.sch.lin, i.sch.pos⟩ (C.dflt i.raw) = _
    rw [hd]
    exact (validate_ok_iff hH hp).2 ⟨hacc, rfl⟩

/-- **C31** (Go lenses).  Translating an instance to its own version returns that
instance; the result does not depend on any mapper. -/
theorem C31_own_version_go (hne : (H i.sch.lin).lensmap ≠ []) (hv : i.valid = true) (n : Nat) :
    translate C H (n + 1) i ((H i.sch.lin).ver i.sch.pos) = .ok (i, []) := by
  simp [translate, Inst.check, hv, List.length_pos_iff.2 hne, translateGo]

example : translate SetCue.cue (fun _ => { threeBound with
      lensmap := [(⟨⟨0, 1⟩, ⟨0, 0⟩⟩, fun i _ => .ok (some i))] }) 1 (instAt 1 [2]) ⟨0, 1⟩ =
    .ok (instAt 1 [2], []) :=
  C31_own_version_go (H := fun _ => { threeBound with
      lensmap := [(⟨⟨0, 1⟩, ⟨0, 0⟩⟩, fun i _ => .ok (some i))] }) (i := instAt 1 [2])
    (by simp) rfl 0

example : translate SetCue.cue (fun _ => threeExactBound) 1 (instAt 1 [2]) ⟨0, 1⟩ =
    .ok (instAt 1 [2], []) := by
  refine C31_own_version_partial (H := fun _ => threeExactBound) (i := instAt 1 [2])
    threeExactBound_eq rfl ?_ rfl rfl (by decide) rfl rfl rfl rfl 0
  rw [← strictV_iff]
  exact Contiguous.strictV threeExactBound_contiguous

/-- **C31** (refutation, witness).  The schema 0.0 admits 0 and 4; `Validate`
accepts the data "4 or 5", since only 4 remains after unification; translating this
instance to its own version fails. -/
theorem C31_incomplete_data :
    validate SetCue.cue (fun _ => twoWith [1] [0]) ⟨0, 0⟩ [4, 5] = .ok (instAt 0 [4, 5]) ∧
    translate SetCue.cue (fun _ => twoWith [1] [0]) 1 (instAt 0 [4, 5]) ⟨0, 0⟩ =
      .err ⟨[.lensIncomplete]⟩ := ⟨by rfl, by rfl⟩

/-! ### C32: unknown versions -/

/-- **C32** (refutation).  With CUE lenses, translating to *any* version that the
lineage does not contain panics. -/
theorem C32_unknown_version_panics (h : bindLineage C force r opts = .ok L)
    (hg : goLenses opts = []) (hH : H i.sch.lin = L) (hv : i.valid = true) {tv : SV}
    (ht : tv ∉ L.allv) (n : Nat) : translate C H (n + 1) i tv = .panic .explicit := by
  have hlm : (H i.sch.lin).lensmap = [] := by rw [hH]; exact bind_lensmap_nil h hg
  rw [translate_cue hlm hv]
  unfold translateCue
  have : L.Schema tv = .err ⟨[.versionNotExist]⟩ := by
    unfold Lineage.Schema
    rw [if_neg]
    rw [synvExists_iff (bind_sorted h)]; exact ht
  simp only [hH, this]

example : translate SetCue.cue (fun _ => threeExactBound) 1 (instAt 0 [1]) ⟨0, 2⟩ =
    .panic .explicit :=
  C32_unknown_version_panics (H := fun _ => threeExactBound) (i := instAt 0 [1])
    threeExactBound_eq rfl rfl rfl (by decide) 0

example : SetCue.bind threeExact = .ok threeExactBound ∧ (⟨0, 2⟩ : SV) ∉ threeExactBound.allv :=
  ⟨rfl, by decide⟩

/-- **C32** (refutation, witness). -/
theorem C32_unknown_version_panics_witness :
    translate SetCue.cue (fun _ => threeExactBound) 1 (instAt 0 [1]) ⟨0, 2⟩ = .panic .explicit := by
  rfl

/-! ### C55: panics -/

/-- **C55** (refutation).  With CUE lenses, translating an instance whose data is
not a struct panics, whatever the target. -/
theorem C55_panics_on_non_struct (hm : (H i.sch.lin).lensmap = []) (hst : C.isStruct i.raw = false)
    (tv : SV) (n : Nat) : (∃ k, translate C H (n + 1) i tv = .panic k) := by
  cases hv : i.valid with
  | false => exact ⟨_, by simp [translate, Inst.check, hv]; rfl⟩
  | true =>
    rw [translate_cue hm hv]
    unfold translateCue
    simp only [hst, Bool.not_false, if_true]
    cases hsch : (H i.sch.lin).Schema tv with
    | ok p => exact ⟨_, rfl⟩
    | err e => exact ⟨_, rfl⟩
    | panic k => exact ⟨_, rfl⟩
    | fuel =>
      exfalso
      unfold Lineage.Schema Lineage.schema at hsch
      split at hsch
      · split at hsch <;> cases hsch
      · cases hsch

example : ∃ k, translate { SetCue.cue with isStruct := fun _ => false }
    (fun _ => threeExactBound) 1 (instAt 0 [1]) ⟨1, 0⟩ = .panic k :=
  C55_panics_on_non_struct (C := { SetCue.cue with isStruct := fun _ => false })
    (H := fun _ => threeExactBound) (i := instAt 0 [1]) rfl rfl ⟨1, 0⟩ 0

/-- **C55** (refutation, witness).  A valid instance of scalar data, obtained from
`Validate`, makes `Translate` panic. -/
theorem C55_panics_witness :
    ∃ C : Cue SetCue.Val, ∃ L, (∃ r, bindLineage C false r [] = .ok L) ∧
      validate C (fun _ => L) ⟨0, 0⟩ [0] = .ok (instAt 0 [0]) ∧
      translate C (fun _ => L) 1 (instAt 0 [0]) ⟨1, 0⟩ = .panic .explicit :=
  ⟨{ SetCue.cue with isStruct := fun _ => false }, twoWith [1] [0],
    ⟨SetCue.lin [SetCue.sch 0 0 [0, 4], SetCue.sch 1 0 [1, 2]]
      [SetCue.lens ⟨1, 0⟩ ⟨0, 0⟩ [0], SetCue.lens ⟨0, 0⟩ ⟨1, 0⟩ [1]], rfl⟩, by rfl, by rfl⟩

/-- **C55** (partial).  With CUE lenses, translating a valid instance that is a
struct to a version of its lineage returns (with a result or with an error), if the
evaluator's errors have the paths `Validate` expects. -/
theorem C55_returns_partial (hP : PathsOk C) (h : bindLineage C force r opts = .ok L)
    (hg : goLenses opts = []) (hH : H i.sch.lin = L) (hv : i.valid = true)
    (hst : C.isStruct i.raw = true) {tv : SV} (ht : tv ∈ L.allv) (n : Nat) :
    (∃ x, translate C H (n + 1) i tv = .ok x) ∨ ∃ e, translate C H (n + 1) i tv = .err e := by
  have hlm : (H i.sch.lin).lensmap = [] := by rw [hH]; exact bind_lensmap_nil h hg
  rw [translate_cue hlm hv]
  unfold translateCue
  obtain ⟨p, hp1, hp2, _⟩ := schema_found (bind_sorted h) ht
  simp only [hH, hp1, hst, Bool.not_true, Bool.false_eq_true, if_false]
  cases translateSteps C L i.raw (L.ver i.sch.pos) tv with
  | error => exact .inr ⟨_, rfl⟩
  | incomplete => exact .inr ⟨_, rfl⟩
  | ok ss =>
    simp only
    split
    · rcases validate_cases hP hH hp2 (C.dflt (translateResult i.raw ss)) with ⟨_, e⟩ | ⟨_, e, he⟩
      · rw [e]; exact .inl ⟨_, rfl⟩
      · rw [he]; exact .inr ⟨_, rfl⟩
    · exact .inr ⟨_, rfl⟩

example : (∃ x, translate SetCue.cue (fun _ => fourExactBound) 1 (instAt 3 [3]) ⟨0, 0⟩ = .ok x) ∨
    ∃ e, translate SetCue.cue (fun _ => fourExactBound) 1 (instAt 3 [3]) ⟨0, 0⟩ = .err e :=
  C55_returns_partial (H := fun _ => fourExactBound) (i := instAt 3 [3]) setCue_pathsOk
    fourExactBound_eq rfl rfl rfl rfl (by decide) 0

/-- The hypotheses of `C55_returns_partial` are met. -/
example : PathsOk SetCue.cue ∧ SetCue.bind fourExact = .ok fourExactBound ∧
    SetCue.cue.isStruct [3] = true ∧ (⟨0, 0⟩ : SV) ∈ fourExactBound.allv ∧
    ∃ e, translate SetCue.cue (fun _ => fourExactBound) 1 (instAt 3 [3]) ⟨0, 0⟩ = .err e :=
  ⟨setCue_pathsOk, rfl, rfl, by decide, ⟨[.invalidLens]⟩, by rfl⟩

end Thema.Props
