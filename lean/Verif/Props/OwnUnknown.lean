import Verif.Props.Exact
import Verif.Props.LensErrors
import Verif.Props.TranslateGo

/-!
# C158, C159: translating to the instance's own version, and to unknown versions
-/

namespace Thema.Props

open Thema Thema.Spec

variable {V : Type} {C : Cue V} {force : Bool} {r : RawLineage V} {opts : List (BindOption V)}
  {L : Lineage V} {H : Heap V} {i j : Inst V} {lacs : List Lac}

/-! ### C158: the instance's own version -/

theorem Schema_ver_search (hs : SortedV L.allv) {p : Nat} (hp : p < L.allsch.length) :
    L.Schema (L.ver p) = .ok (searchSynv L.allv (L.ver p)) := by
  unfold Lineage.Schema
  rw [if_pos, schema_ver_search hs hp]
  rw [synvExists_iff hs, ver_lt hp]
  exact List.getElem_mem _

/-- **C158**.  With CUE lenses, whatever they are and whichever versions the lineage
has, `Translate` to the instance's own version panics if the data is not a struct;
otherwise it takes the data with its defaults, reports `ErrLensIncomplete` if that
cannot be exported, and validates it against the first schema with the version. -/
theorem C158_own_version (hP : PathsOk C) (hO : OnlyCueErrors C)
    (h : bindLineage C force r opts = .ok L) (hg : goLenses opts = []) (hH : H i.sch.lin = L)
    (hv : i.valid = true) (hp : i.sch.pos < L.allsch.length) {q : Nat}
    (hq : FirstWith L (L.ver i.sch.pos) q) (n : Nat) :
    (C.isStruct i.raw = false → translate C H (n + 1) i (L.ver i.sch.pos) = .panic .explicit) ∧
    (C.isStruct i.raw = true →
      (C.marshals (C.dflt i.raw) = false →
        translate C H (n + 1) i (L.ver i.sch.pos) = .err ⟨[.lensIncomplete]⟩) ∧
      (C.marshals (C.dflt i.raw) = true →
        (C.accepts (L.allsch[q]'hq.1).body (C.dflt i.raw) →
          translate C H (n + 1) i (L.ver i.sch.pos) =
            .ok ({ raw := C.dflt i.raw, name := [], sch := ⟨i.sch.lin, q⟩, valid := true }, [])) ∧
        (¬ C.accepts (L.allsch[q]'hq.1).body (C.dflt i.raw) →
          translate C H (n + 1) i (L.ver i.sch.pos) =
            .err ⟨[.lensResultIsInvalidData, .invalidData]⟩))) := by
  have hs := bind_sorted h
  have hsch : L.Schema (L.ver i.sch.pos) = .ok q := by
    rw [Schema_ver_search hs hp, firstWith_unique (firstWith_search hs hp) hq]
  have hsteps : translateSteps C L i.raw (L.ver i.sch.pos) (L.ver i.sch.pos) = .ok [] := by
    unfold translateSteps; rw [less_irrefl]; rfl
  rw [translate_cue (by rw [hH]; exact bind_lensmap_nil h hg) hv]
  unfold translateCue
  simp only [hH, hsch, hsteps]
  refine ⟨fun hst => by simp [hst], fun hst => ?_⟩
  simp only [hst, Bool.not_true, Bool.false_eq_true, if_false]
  refine ⟨fun hm => ?_, fun hm => ⟨fun hacc => ?_, fun hna => ?_⟩⟩
  · show (if C.marshals (C.dflt i.raw) = true then _ else _) = _
    rw [hm]; rfl
  · show (if C.marshals (C.dflt i.raw) = true then _ else _) = _
    rw [if_pos hm]
    show (match validate C H ⟨i.sch.lin, q⟩ (C.dflt i.raw) with
      | .ok inst => _ | .err e => _ | .panic k => _ | .fuel => _) = _
    rw [(validate_ok_iff hH hq.1).2 ⟨hacc, rfl⟩]
  · show (if C.marshals (C.dflt i.raw) = true then _ else _) = _
    rw [if_pos hm]
    show (match validate C H ⟨i.sch.lin, q⟩ (C.dflt i.raw) with
      | .ok inst => _ | .err e => _ | .panic k => _ | .fuel => _) = _
    rcases validate_cases hP hH hq.1 (C.dflt i.raw) with ⟨hacc, _⟩ | ⟨_, e, he⟩
    · exact absurd hacc hna
    · have := validate_err_marks hO hH hq.1 he
      subst this
      rw [he]

/-- **C158**.  With Go lenses `Translate` to the instance's own version returns the
instance itself, whatever its data; to a later version of its major, the same data
under that version's schema, and no supplied function is asked. -/
theorem C158_own_version_go (h : bindLineage C force r opts = .ok L) (hne : goLenses opts ≠ [])
    (hd : L.allv.Nodup) (hH : H i.sch.lin = L) (hv : i.valid = true) {q : Nat}
    (hpq : i.sch.pos ≤ q) (hq : q < L.allsch.length)
    (hm : (L.ver i.sch.pos).major = (L.ver q).major) {n : Nat} (hn : L.allsch.length < n) :
    translate C H (n + 1) i (L.ver i.sch.pos) = .ok (i, []) ∧
    translate C H (n + 1) i (L.ver q) =
      .ok ({ raw := i.raw, name := i.name, sch := ⟨i.sch.lin, q⟩, valid := true }, []) := by
  refine ⟨?_, C36_go_forward_minor h hne hd hH hv hpq hq hm hn⟩
  rw [← hH]
  refine C31_own_version_go ?_ hv n
  rw [hH]
  exact List.length_pos_iff.1 (goReady_lensmap h hne)

/-- The instance is of the second schema with version 0.1; the data is validated
against the first, which accepts [2] and rejects [3]. -/
example :
    translate SetCue.cue (fun _ => dupBound) 1 (instAt 2 [2]) ⟨0, 1⟩ = .ok (instAt 1 [2], []) ∧
    translate SetCue.cue (fun _ => dupBound) 1 (instAt 2 [3]) ⟨0, 1⟩ =
      .err ⟨[.lensResultIsInvalidData, .invalidData]⟩ ∧
    translate SetCue.cue (fun _ => dupBound) 1 (instAt 2 [2, 3]) ⟨0, 1⟩ =
      .err ⟨[.lensIncomplete]⟩ :=
  have hf : FirstWith dupBound ⟨0, 1⟩ 1 := ⟨by decide, by decide, by
    intro k hk; obtain rfl : k = 0 := by omega
    decide⟩
  have hs := fun d => C158_own_version (H := fun _ => dupBound) (i := instAt 2 d) (q := 1)
    setCue_pathsOk setCue_onlyCueErrors dupBound_eq rfl rfl rfl (show 2 < 4 by decide) hf 0
  ⟨(((hs [2]).2 rfl).2 rfl).1 rfl, (((hs [3]).2 rfl).2 rfl).2 (by intro h; cases h),
    ((hs [2, 3]).2 rfl).1 rfl⟩

example : translate SetCue.cue (fun _ => threeGo) 5 (instAt 0 [1]) ⟨0, 0⟩ = .ok (instAt 0 [1], []) ∧
    translate SetCue.cue (fun _ => threeGo) 5 (instAt 0 [1]) ⟨0, 1⟩ = .ok (instAt 1 [1], []) :=
  C158_own_version_go (H := fun _ => threeGo) (i := instAt 0 [1]) (q := 1) threeGo_eq threeGo_ne
    (by decide) rfl rfl (by decide) (by decide) rfl (by decide)

/-! ### C159: versions that the lineage does not have -/

/-- The loop going up never meets an unknown version: it walks to the last schema and
then has no successor. -/
theorem goLoop_up_unknown {ls : List (ImperativeLens V)} {lin : Nat} (hH : H lin = L)
    (hr : GoReady L ls) (hst : StayInLineage H lin ls)
    (tr : Inst V → SV → Res (Inst V × List Lac)) {frm tv : SV}
    (htv : ∀ p, p < L.allsch.length → L.ver p ≠ tv) (hfrm : tv.less frm = false) :
    ∀ (d p n : Nat) (ti : Inst V), p + d + 1 = L.allsch.length → d < n → ti.valid = true →
      ti.sch = ⟨lin, p⟩ →
      ∃ o, GoAscend H lin ls (p + d) p ti o ∧
        goLoop H tr lin frm tv n p ti = o.bind fun _ => .panic .nilDeref := by
  intro d
  induction d with
  | zero =>
    intro p n ti hpq hn hv hsch
    obtain ⟨n, rfl⟩ : ∃ k, n = k + 1 := ⟨n - 1, by omega⟩
    have hsucc : L.successor p = .ok none := by
      rw [successor_eq hr.strict (by omega), if_neg (by omega)]
    refine ⟨_, .there ti, ?_⟩
    rw [goLoop]
    simp [hH, htv p (by omega), hfrm, hsucc, derefSch]
  | succ d ih =>
    intro p n ti hpq hn hv hsch
    obtain ⟨n, rfl⟩ : ∃ k, n = k + 1 := ⟨n - 1, by omega⟩
    have hp1 : p + 1 < L.allsch.length := by omega
    have hne : L.ver p ≠ tv := htv p (by omega)
    have hsucc : L.successor p = .ok (some (p + 1)) := by
      rw [successor_eq hr.strict (by omega), if_pos hp1]
    have hadd : p + (d + 1) = p + 1 + d := by omega
    rw [hadd]
    by_cases hm : (L.ver p).major = (L.ver (p + 1)).major
    · have hms : goMinorStep H tr ti =
          .ok { raw := ti.raw, name := ti.name, sch := ⟨lin, p + 1⟩, valid := true } := by
        unfold goMinorStep asSuccessor
        simp [Inst.check, hv, hsch, hH, hsucc, derefSch, hm]
      obtain ⟨o, ho1, ho2⟩ := ih (p + 1) n
        { raw := ti.raw, name := ti.name, sch := ⟨lin, p + 1⟩, valid := true }
        (by omega) (by omega) rfl rfl
      refine ⟨o, .step (by omega) (.minor (by rw [hH]; exact hm)) ho1, ?_⟩
      rw [goLoop]
      simp [hH, hne, hfrm, hsucc, derefSch, hm, hms, ho2]
    · obtain ⟨m, hl, hsup⟩ := hr.up hp1 hm
      obtain ⟨o1, ha⟩ := answer_total (H := H) (L.ver (p + 1)) (m ti ⟨lin, p + 1⟩)
      have hls : goLensStep H lin p (p + 1) ti = o1 :=
        goLensStep_answer (by rw [hH]; exact hl) (by rw [hH]; exact ha)
      have hgu : GoUp H lin ls p ti o1 :=
        .major (by rw [hH]; exact hm) (by rw [hH]; exact hsup) (by rw [hH]; exact ha)
      have hloop : goLoop H tr lin frm tv (n + 1) p ti =
          o1.bind fun rti => goLoop H tr lin frm tv n (p + 1) rti := by
        rw [goLoop]
        simp [hH, hne, hfrm, hsucc, derefSch, hm, hls]
      cases o1 with
      | ok i' =>
        obtain ⟨k1, k2⟩ := answer_sch hH hr.strict hst hsup hp1 ha
        obtain ⟨o, ho1, ho2⟩ := ih (p + 1) n i' (by omega) (by omega) k1 k2
        exact ⟨o, .step (by omega) hgu ho1, by rw [hloop]; exact ho2⟩
      | err e => exact ⟨_, .stop (by omega) hgu (by intro i' hh; cases hh), by rw [hloop]; rfl⟩
      | panic k => exact ⟨_, .stop (by omega) hgu (by intro i' hh; cases hh), by rw [hloop]; rfl⟩
      | fuel => exact ⟨_, .stop (by omega) hgu (by intro i' hh; cases hh), by rw [hloop]; rfl⟩

/-- Likewise going down, to the first schema. -/
theorem goLoop_down_unknown {ls : List (ImperativeLens V)} {lin : Nat} (hH : H lin = L)
    (hr : GoReady L ls) (hst : StayInLineage H lin ls)
    (tr : Inst V → SV → Res (Inst V × List Lac)) {frm tv : SV}
    (htv : ∀ p, p < L.allsch.length → L.ver p ≠ tv) (hfrm : tv.less frm = true) :
    ∀ (p n : Nat) (ti : Inst V), p < L.allsch.length → p < n → ti.valid = true →
      ti.sch = ⟨lin, p⟩ →
      ∃ o, GoDescend H lin ls 0 p ti o ∧
        goLoop H tr lin frm tv n p ti = o.bind fun _ => .panic .nilDeref := by
  intro p
  induction p with
  | zero =>
    intro n ti hpq hn hv hsch
    obtain ⟨n, rfl⟩ : ∃ k, n = k + 1 := ⟨n - 1, by omega⟩
    have hpred : L.predecessor 0 = .ok none := by
      rw [predecessor_eq hr.strict hr.zero hpq, if_pos rfl]
    refine ⟨_, .there ti, ?_⟩
    rw [goLoop]
    simp [hH, htv 0 hpq, hfrm, hpred, derefSch]
  | succ p ih =>
    intro n ti hpq hn hv hsch
    obtain ⟨n, rfl⟩ : ∃ k, n = k + 1 := ⟨n - 1, by omega⟩
    have hne : L.ver (p + 1) ≠ tv := htv _ hpq
    have hpred : L.predecessor (p + 1) = .ok (some p) := by
      rw [predecessor_eq hr.strict hr.zero hpq, if_neg (by omega)]
      rfl
    obtain ⟨m, hl, hsup⟩ := hr.down (p := p) hpq
    obtain ⟨o1, ha⟩ := answer_total (H := H) (L.ver p) (m ti ⟨lin, p⟩)
    have hls : goLensStep H lin (p + 1) p ti = o1 :=
      goLensStep_answer (by rw [hH]; exact hl) (by rw [hH]; exact ha)
    have hgd : GoDown H lin ls p ti o1 :=
      .ask (by rw [hH]; exact hsup) (by rw [hH]; exact ha)
    have hloop : goLoop H tr lin frm tv (n + 1) (p + 1) ti =
        o1.bind fun rti => goLoop H tr lin frm tv n p rti := by
      rw [goLoop]
      simp [hH, hne, hfrm, hpred, derefSch, hls]
    cases o1 with
    | ok i' =>
      obtain ⟨k1, k2⟩ := answer_sch hH hr.strict hst hsup (by omega) ha
      obtain ⟨o, ho1, ho2⟩ := ih n i' (by omega) (by omega) k1 k2
      exact ⟨o, .step (Nat.zero_le p) hgd ho1, by rw [hloop]; exact ho2⟩
    | err e => exact ⟨_, .stop (Nat.zero_le p) hgd (by intro i' hh; cases hh), by rw [hloop]; rfl⟩
    | panic k => exact ⟨_, .stop (Nat.zero_le p) hgd (by intro i' hh; cases hh), by rw [hloop]; rfl⟩
    | fuel => exact ⟨_, .stop (Nat.zero_le p) hgd (by intro i' hh; cases hh), by rw [hloop]; rfl⟩

/-- **C159**.  With Go lenses, `Translate` to a version that the lineage does not have
walks to the first schema if the version is before the instance's, to the last one
otherwise.  If that walk ends in an error or a panic, so does `Translate`; if it
succeeds, `Translate` dereferences a nil schema. -/
theorem C159_unknown_go (h : bindLineage C force r opts = .ok L) (hne : goLenses opts ≠ [])
    (h0 : L.ver 0 = ⟨0, 0⟩) (hd : L.allv.Nodup) (hH : H i.sch.lin = L)
    (hst : StayInLineage H i.sch.lin (goLenses opts)) (hv : i.valid = true)
    (hp : i.sch.pos < L.allsch.length) {tv : SV} (htv : tv ∉ L.allv) {e : Nat}
    (he : (Before tv (L.ver i.sch.pos) ∧ e = 0) ∨
      (¬ Before tv (L.ver i.sch.pos) ∧ e + 1 = L.allsch.length)) {n : Nat}
    (hn : L.allsch.length < n) (x : Res (Inst V × List Lac)) :
    translate C H (n + 1) i tv = x ↔
      ∃ o, GoWalk H (goLenses opts) i e o ∧ x = o.bind fun _ => .panic .nilDeref := by
  have hr := goReady h hne h0 hd
  have hver : ∀ p, p < L.allsch.length → L.ver p ≠ tv := by
    intro p hp he
    apply htv
    rw [← he, ver_lt hp]
    exact List.getElem_mem _
  have key : ∃ o, GoWalk H (goLenses opts) i e o ∧
      translate C H (n + 1) i tv = o.bind fun _ => .panic .nilDeref := by
    rw [translate_go (by rw [hH]; exact goReady_lensmap h hne) hv]
    unfold translateGo GoWalk
    simp only [hH, if_neg (fun he => hver _ hp (Eq.symm he) : ¬ tv = L.ver i.sch.pos)]
    have hmap : ∀ o : Res (Inst V),
        (o.bind fun _ => (.panic .nilDeref : Res (Inst V))).map (fun ti => (ti, ([] : List Lac))) =
          o.bind fun _ => .panic .nilDeref := by
      intro o; cases o <;> rfl
    rcases he with ⟨hb, rfl⟩ | ⟨hb, he⟩
    · obtain ⟨o, h1, h2⟩ := goLoop_down_unknown hH hr hst (translate C H n) hver
        (less_iff_before.2 hb) i.sch.pos n i hp (by omega) hv rfl
      refine ⟨o, ?_, by rw [h2]; exact hmap o⟩
      split
      · have hz : i.sch.pos = 0 := by omega
        rw [hz] at h1 ⊢
        cases h1 with
        | there => exact .there _
      · exact h1
    · have hb' : tv.less (L.ver i.sch.pos) = false := by
        rw [← Bool.not_eq_true, less_iff_before]; exact hb
      obtain ⟨o, h1, h2⟩ := goLoop_up_unknown hH hr hst (translate C H n) hver hb'
        (e - i.sch.pos) i.sch.pos n i (by omega) (by omega) hv rfl
      refine ⟨o, ?_, by rw [h2]; exact hmap o⟩
      rw [if_pos (by omega)]
      have : i.sch.pos + (e - i.sch.pos) = e := by omega
      rwa [this] at h1
  obtain ⟨o, h1, h2⟩ := key
  rw [h2]
  constructor
  · rintro rfl; exact ⟨o, h1, rfl⟩
  · rintro ⟨o', h1', rfl⟩
    rw [goWalk_unique hr.nodup h1 h1']

/-- Every supplied function answers a request for a schema of the lineage with an
instance of that schema. -/
def AnswersAll (L : Lineage V) (ls : List (ImperativeLens V)) : Prop :=
  ∀ l ∈ ls, ∀ m, l.mapper = some m → ∀ (i : Inst V) (s : SchPtr), s.pos < L.allsch.length →
    ∃ j, m i s = .ok (some j) ∧ j.valid = true ∧ j.sch = s

theorem answersAll_used {ls : List (ImperativeLens V)} {lin q : Nat} (hH : H lin = L)
    (ha : AnswersAll L ls) {a b : SV} {m : Mapper V} (hm : Supplied ls a b m) {i : Inst V}
    (hq : q < L.allsch.length) {o : Res (Inst V)} (h : Answer H (L.ver q) (m i ⟨lin, q⟩) o) :
    ∃ j, o = .ok j := by
  obtain ⟨l, hl, _, _, hlm⟩ := hm
  obtain ⟨j, hj, hv, hs⟩ := ha l hl m hlm i ⟨lin, q⟩ hq
  have : Answer H (L.ver q) (m i ⟨lin, q⟩) (.ok j) := by
    rw [hj]; exact .used hv (by unfold versionOf; rw [hs, hH])
  exact ⟨j, answer_unique h this⟩

theorem answersAll_walk {ls : List (ImperativeLens V)} (hH : H i.sch.lin = L)
    (ha : AnswersAll L ls) (hp : i.sch.pos < L.allsch.length) {q : Nat} (hq : q < L.allsch.length)
    {o : Res (Inst V)} (h : GoWalk H ls i q o) : ∃ j, o = .ok j := by
  unfold GoWalk at h
  split at h
  · rename_i hle
    clear hle hp
    generalize i.sch.lin = lin at h hH
    generalize i.sch.pos = p at h
    induction h with
    | there i => exact ⟨_, rfl⟩
    | step _ _ _ ih => exact ih
    | stop hp hu ho =>
      cases hu with
      | minor => exact ⟨_, rfl⟩
      | major _ hs hans => rw [hH] at hs hans; exact answersAll_used hH ha hs (by omega) hans
  · rename_i hle
    clear hle
    generalize i.sch.lin = lin at h hH
    generalize i.sch.pos = p at h hp
    induction h with
    | there i => exact ⟨_, rfl⟩
    | step _ _ _ ih => exact ih (by omega)
    | stop _ hu ho =>
      obtain ⟨hs, hans⟩ := hu
      rw [hH] at hs hans
      exact answersAll_used hH ha hs (by omega) hans

/-- **C159**.  With CUE lenses `Translate` to a version that the lineage does not have
always panics.  With Go lenses that all answer, it always dereferences a nil schema. -/
theorem C159_unknown_panics (h : bindLineage C force r opts = .ok L) (hH : H i.sch.lin = L)
    (hv : i.valid = true) (hp : i.sch.pos < L.allsch.length) {tv : SV} (htv : tv ∉ L.allv) {n : Nat}
    (hn : L.allsch.length < n) :
    (goLenses opts = [] → translate C H (n + 1) i tv = .panic .explicit) ∧
    (goLenses opts ≠ [] → L.ver 0 = ⟨0, 0⟩ → L.allv.Nodup →
      StayInLineage H i.sch.lin (goLenses opts) → AnswersAll L (goLenses opts) →
      translate C H (n + 1) i tv = .panic .nilDeref) := by
  refine ⟨fun hg => C32_unknown_version_panics h hg hH hv htv n, fun hne h0 hd hst hans => ?_⟩
  have hpos := bind_pos h
  obtain ⟨e, he⟩ : ∃ e, (Before tv (L.ver i.sch.pos) ∧ e = 0) ∨
      (¬ Before tv (L.ver i.sch.pos) ∧ e + 1 = L.allsch.length) := by
    by_cases hb : Before tv (L.ver i.sch.pos)
    · exact ⟨0, .inl ⟨hb, rfl⟩⟩
    · exact ⟨L.allsch.length - 1, .inr ⟨hb, by omega⟩⟩
  obtain ⟨o, h1, h2⟩ := (C159_unknown_go h hne h0 hd hH hst hv hp htv he hn _).1 rfl
  obtain ⟨j, rfl⟩ := answersAll_walk hH hans hp (by omega) h1
  rw [h2]; rfl

/-- 0.0 and 1.0, which both accept 5. -/
def bothFive : Lineage SetCue.Val :=
  { name := "toy".toList,
    allsch := [⟨⟨0, 0⟩, [1, 5], [1, 5], []⟩, ⟨⟨1, 0⟩, [2, 5], [2, 5], []⟩],
    lenses := [], lensmap := [] }

/-- Go lenses that validate 5 against the schema they are given. -/
def fiveLenses : List (ImperativeLens SetCue.Val) :=
  let m : Mapper SetCue.Val := fun _ s => (validate SetCue.cue (fun _ => bothFive) s [5]).map some
  [⟨⟨0, 0⟩, ⟨1, 0⟩, some m⟩, ⟨⟨1, 0⟩, ⟨0, 0⟩, some m⟩]

/-- `bothFive` with these lenses. -/
def fiveGo : Lineage SetCue.Val := { bothFive with lensmap := buildLensMap fiveLenses }

theorem fiveGo_eq : bindLineage SetCue.cue false
    (SetCue.lin [SetCue.sch 0 0 [1, 5], SetCue.sch 1 0 [2, 5]]) [.imperativeLenses fiveLenses] =
    .ok fiveGo := by rfl

theorem fiveGo_mapper {l : ImperativeLens SetCue.Val} (hl : l ∈ fiveLenses) {m : Mapper SetCue.Val}
    (hm : l.mapper = some m) :
    m = fun _ s => (validate SetCue.cue (fun _ => bothFive) s [5]).map some := by
  simp only [fiveLenses, List.mem_cons, List.not_mem_nil, or_false] at hl
  rcases hl with rfl | rfl <;> (injection hm with hm; exact hm.symm)

theorem fiveGo_stay : StayInLineage (fun _ => fiveGo) 0 fiveLenses := by
  intro l hl m hm i s j hs hj
  rw [fiveGo_mapper hl hm] at hj
  obtain ⟨j', hj', he⟩ := Res.map_eq_ok.1 hj
  injection he with he; subst he
  obtain ⟨hp, _, rfl⟩ := validate_ok_any hj'
  exact ⟨hs, hp⟩

theorem fiveGo_answers : AnswersAll fiveGo fiveLenses := by
  intro l hl m hm i s hs
  rw [fiveGo_mapper hl hm]
  have hs' : s.pos < bothFive.allsch.length := hs
  refine ⟨{ raw := [5], name := [], sch := s, valid := true }, ?_, rfl, rfl⟩
  have : validate SetCue.cue (fun _ => bothFive) ⟨s.lin, s.pos⟩ [5] =
      .ok { raw := [5], name := [], sch := s, valid := true } := by
    refine (validate_ok_iff (H := fun _ => bothFive) rfl hs').2 ⟨?_, rfl⟩
    obtain ⟨lin, p⟩ := s
    match p, hs' with
    | 0, _ => rfl
    | 1, _ => rfl
  show (validate SetCue.cue (fun _ => bothFive) ⟨s.lin, s.pos⟩ [5]).map some = _
  rw [this]; rfl

/-- From 1.0, version 0.7 is sought downwards and 1.3 upwards. -/
example : translate SetCue.cue (fun _ => fiveGo) 4 (instAt 1 [2]) ⟨0, 7⟩ = .panic .nilDeref ∧
    translate SetCue.cue (fun _ => fiveGo) 4 (instAt 1 [2]) ⟨1, 3⟩ = .panic .nilDeref :=
  have h := fun tv htv => (C159_unknown_panics (H := fun _ => fiveGo) (i := instAt 1 [2]) fiveGo_eq
    rfl rfl (by decide) (tv := tv) htv (n := 3) (by decide)).2 (by simp [goLenses, fiveLenses]) rfl
    (by decide) fiveGo_stay fiveGo_answers
  ⟨h _ (by decide), h _ (by decide)⟩

example : translate SetCue.cue (fun _ => threeExactBound) 5 (instAt 0 [1]) ⟨0, 2⟩ =
    .panic .explicit :=
  (C159_unknown_panics (H := fun _ => threeExactBound) (i := instAt 0 [1]) threeExactBound_eq
    rfl rfl (by decide) (tv := ⟨0, 2⟩) (by decide) (n := 4) (by decide)).1 rfl

/-- Go lenses that always fail. -/
def failLenses : List (ImperativeLens SetCue.Val) :=
  [⟨⟨0, 0⟩, ⟨1, 0⟩, some fun _ _ => .err ⟨[.invalidData]⟩⟩,
    ⟨⟨1, 0⟩, ⟨0, 0⟩, some fun _ _ => .err ⟨[.invalidData]⟩⟩]

/-- A function on the way that fails: its error is the outcome. -/
example : translate SetCue.cue (fun _ => { bothFive with lensmap := buildLensMap failLenses }) 4
    (instAt 1 [2]) ⟨0, 7⟩ = .err ⟨[.invalidData]⟩ := by
  refine (C159_unknown_go (H := fun _ => { bothFive with lensmap := buildLensMap failLenses })
    (i := instAt 1 [2]) (opts := [.imperativeLenses failLenses]) (force := false)
    (r := SetCue.lin [SetCue.sch 0 0 [1, 5], SetCue.sch 1 0 [2, 5]]) (by rfl)
    (by simp [goLenses, failLenses]) rfl (by decide) rfl ?_ rfl (by decide) (by decide) (e := 0)
    (.inl ⟨before_iff.2 (.inl (by decide)), rfl⟩) (n := 3) (by decide) _).2
    ⟨.err ⟨[.invalidData]⟩, ?_, rfl⟩
  · intro l hl m hm i s j _ hj
    simp only [goLenses, failLenses, List.flatMap_cons, List.flatMap_nil, List.append_nil,
      List.mem_cons, List.not_mem_nil, or_false] at hl
    rcases hl with rfl | rfl <;> (injection hm with hm; subst hm; cases hj)
  · unfold GoWalk
    rw [if_neg (by decide)]
    exact .stop (Nat.zero_le 0) (.ask ⟨_, List.mem_cons_self, rfl, rfl, rfl⟩ (.failed _))
      (by intro i' hh; cases hh)

end Thema.Props
