import Verif.Spec.TranslateGo
import Verif.Lemmas.Translate
import Verif.Props.Bind
import Mathlib.Data.List.Nodup

/-! # Lemmas about translation with Go lenses -/

namespace Thema

open Spec Props

variable {V : Type} {C : Cue V} {force : Bool} {r : RawLineage V} {opts : List (BindOption V)}
  {L : Lineage V} {H : Heap V}

/-- What the lemmas below use about a lineage bound with Go lenses. -/
structure GoReady (L : Lineage V) (ls : List (ImperativeLens V)) : Prop where
  strict : StrictV L.allv
  zero : L.allv.head? = some ⟨0, 0⟩
  served : ∀ id, Required L.allv id → ∃ l ∈ ls, pairOf l = id ∧
    ∃ m, l.mapper = some m ∧ L.lensmap.lookup id = some m
  nodup : (ls.map pairOf).Nodup

theorem goReady (h : bindLineage C force r opts = .ok L) (hne : goLenses opts ≠ [])
    (h0 : L.ver 0 = ⟨0, 0⟩) (hd : L.allv.Nodup) : GoReady L (goLenses opts) := by
  have hpos := bind_pos h
  have hz : L.allv.head? = some ⟨0, 0⟩ := by
    rw [List.head?_eq_getElem?, List.getElem?_eq_getElem (by simpa using hpos)]
    rw [ver_lt hpos] at h0
    rw [h0]
  have ha := bind_acceptable h
  obtain ⟨n1, n2, n3⟩ := (C13_go_lenses_exact ha hz hd hne).1 ⟨L, h⟩
  refine ⟨(bind_sorted h).strict hd, hz, ?_, n1⟩
  intro id hid
  rw [← n3] at hid
  obtain ⟨l, hl, rfl⟩ := List.mem_map.1 hid
  obtain ⟨m, hm1, hm2⟩ := (C13_go_lenses_stored h hne).2 l hl
  exact ⟨l, hl, rfl, m, hm1, hm2⟩

theorem goReady_lensmap (h : bindLineage C force r opts = .ok L) (hne : goLenses opts ≠ []) :
    0 < L.lensmap.length := by
  rw [(C13_go_lenses_stored h hne).1]
  exact List.length_pos_iff.2 hne

theorem GoReady.down {ls : List (ImperativeLens V)} (hr : GoReady L ls) {p : Nat}
    (hp : p + 1 < L.allsch.length) :
    ∃ m, L.lensmap.lookup ⟨L.ver (p + 1), L.ver p⟩ = some m ∧
      Supplied ls (L.ver (p + 1)) (L.ver p) m := by
  have hreq : Required L.allv ⟨L.ver (p + 1), L.ver p⟩ := by
    refine ⟨p, by simpa using hp, .inl ?_⟩
    rw [ver_lt hp, ver_lt (by omega)]
  obtain ⟨l, hl, hid, m, h1, h2⟩ := hr.served _ hreq
  exact ⟨m, h2, l, hl, congrArg LensID.frm hid, congrArg LensID.to hid, h1⟩

theorem GoReady.up {ls : List (ImperativeLens V)} (hr : GoReady L ls) {p : Nat}
    (hp : p + 1 < L.allsch.length) (hm : (L.ver p).major ≠ (L.ver (p + 1)).major) :
    ∃ m, L.lensmap.lookup ⟨L.ver p, L.ver (p + 1)⟩ = some m ∧
      Supplied ls (L.ver p) (L.ver (p + 1)) m := by
  have hreq : Required L.allv ⟨L.ver p, L.ver (p + 1)⟩ := by
    refine ⟨p, by simpa using hp, .inr ⟨?_, ?_⟩⟩
    · rw [ver_lt hp, ver_lt (by omega)] at hm; exact hm
    · rw [ver_lt hp, ver_lt (by omega)]
  obtain ⟨l, hl, hid, m, h1, h2⟩ := hr.served _ hreq
  exact ⟨m, h2, l, hl, congrArg LensID.frm hid, congrArg LensID.to hid, h1⟩

theorem supplied_unique {ls : List (ImperativeLens V)} (hn : (ls.map pairOf).Nodup) {a b : SV}
    {m m' : Mapper V} (h : Supplied ls a b m) (h' : Supplied ls a b m') : m = m' := by
  obtain ⟨l, hl, h1, h2, h3⟩ := h
  obtain ⟨l', hl', h1', h2', h3'⟩ := h'
  have : l = l' := by
    apply List.inj_on_of_nodup_map hn hl hl'
    simp [pairOf, h1, h2, h1', h2']
  subst this
  rw [h3] at h3'
  exact Option.some.inj h3'

theorem answer_unique {v : SV} {x : Res (Option (Inst V))} {o o' : Res (Inst V)}
    (h : Answer H v x o) (h' : Answer H v x o') : o = o' := by
  cases h <;> cases h' <;> first | rfl | contradiction | skip
  all_goals simp_all

theorem answer_total (v : SV) (x : Res (Option (Inst V))) : ∃ o, Answer H v x o := by
  match x with
  | .ok none => exact ⟨_, .nil⟩
  | .ok (some j) =>
    cases hv : j.valid with
    | false => exact ⟨_, .forged hv⟩
    | true =>
      by_cases hj : versionOf H j = v
      · exact ⟨_, .used hv hj⟩
      · exact ⟨_, .wrongVersion hv hj⟩
  | .err e => exact ⟨_, .failed e⟩
  | .panic k => exact ⟨_, .panicked k⟩
  | .fuel => exact ⟨_, .hangs⟩

theorem goLensStep_answer {lin p q : Nat} {ti : Inst V} {m : Mapper V} {o : Res (Inst V)}
    (hl : (H lin).lensmap.lookup ⟨(H lin).ver p, (H lin).ver q⟩ = some m)
    (ha : Answer H ((H lin).ver q) (m ti ⟨lin, q⟩) o) : goLensStep H lin p q ti = o := by
  unfold goLensStep
  simp only [hl]
  generalize m ti ⟨lin, q⟩ = x at ha
  cases ha with
  | used hv hj => simp [Inst.check, hv]; exact hj
  | wrongVersion hv hj => simp [Inst.check, hv]; intro hh; exact absurd hh hj
  | forged hv => simp [Inst.check, hv]
  | nil => rfl
  | failed => rfl
  | panicked => rfl
  | hangs => rfl

theorem goUp_unique {ls : List (ImperativeLens V)} (hn : (ls.map pairOf).Nodup) {lin p : Nat}
    {i : Inst V} {o o' : Res (Inst V)} (h : GoUp H lin ls p i o) (h' : GoUp H lin ls p i o') :
    o = o' := by
  cases h with
  | minor hm =>
    cases h' with
    | minor => rfl
    | major hm' => exact absurd hm hm'
  | major hm hs ha =>
    cases h' with
    | minor hm' => exact absurd hm' hm
    | major _ hs' ha' =>
      cases supplied_unique hn hs hs'
      exact answer_unique ha ha'

theorem goDown_unique {ls : List (ImperativeLens V)} (hn : (ls.map pairOf).Nodup) {lin p : Nat}
    {i : Inst V} {o o' : Res (Inst V)} (h : GoDown H lin ls p i o) (h' : GoDown H lin ls p i o') :
    o = o' := by
  obtain ⟨hs, ha⟩ := h
  obtain ⟨hs', ha'⟩ := h'
  cases supplied_unique hn hs hs'
  exact answer_unique ha ha'

theorem goAscend_unique {ls : List (ImperativeLens V)} (hn : (ls.map pairOf).Nodup)
    {lin p q : Nat} {i : Inst V} {o o' : Res (Inst V)} (h : GoAscend H lin ls q p i o)
    (h' : GoAscend H lin ls q p i o') : o = o' := by
  induction h generalizing o' with
  | there i =>
    cases h' with
    | there => rfl
    | step hp => omega
    | stop hp => omega
  | step hp hu _ ih =>
    cases h' with
    | there => omega
    | step _ hu' t' =>
      have := goUp_unique hn hu hu'
      injection this with this; subst this
      exact ih t'
    | stop _ hu' ho => exact absurd (goUp_unique hn hu' hu) (ho _)
  | stop hp hu ho =>
    cases h' with
    | there => omega
    | step _ hu' t' => exact absurd (goUp_unique hn hu hu') (ho _)
    | stop _ hu' ho' => exact goUp_unique hn hu hu'

theorem goDescend_unique {ls : List (ImperativeLens V)} (hn : (ls.map pairOf).Nodup)
    {lin p q : Nat} {i : Inst V} {o o' : Res (Inst V)} (h : GoDescend H lin ls q p i o)
    (h' : GoDescend H lin ls q p i o') : o = o' := by
  induction h generalizing o' with
  | there i =>
    cases h' with
    | there => rfl
    | step hp => omega
    | stop hp => omega
  | step hp hu _ ih =>
    cases h' with
    | there => omega
    | step _ hu' t' =>
      have := goDown_unique hn hu hu'
      injection this with this; subst this
      exact ih t'
    | stop _ hu' ho => exact absurd (goDown_unique hn hu' hu) (ho _)
  | stop hp hu ho =>
    cases h' with
    | there => omega
    | step _ hu' t' => exact absurd (goDown_unique hn hu hu') (ho _)
    | stop _ hu' ho' => exact goDown_unique hn hu hu'

/-- The answer that is used stays at the schema that was asked for. -/
theorem answer_sch {ls : List (ImperativeLens V)} {lin q : Nat} (hH : H lin = L)
    (hs : StrictV L.allv) (hst : StayInLineage H lin ls) {a b : SV} {m : Mapper V}
    (hm : Supplied ls a b m) {i j : Inst V} (hq : q < L.allsch.length)
    (ha : Answer H (L.ver q) (m i ⟨lin, q⟩) (.ok j)) : j.valid = true ∧ j.sch = ⟨lin, q⟩ := by
  obtain ⟨l, hl, _, _, hlm⟩ := hm
  generalize hx : m i ⟨lin, q⟩ = x at ha
  generalize ho : (Res.ok j) = o at ha
  cases ha with
  | used hv hj =>
    injection ho with ho; subst ho
    obtain ⟨h1, h2⟩ := hst l hl m hlm i ⟨lin, q⟩ j rfl hx
    refine ⟨hv, ?_⟩
    rw [hH] at h2
    have : j.sch.pos = q := by
      apply ver_inj hs h2 hq
      unfold versionOf at hj
      rw [h1, hH] at hj
      exact hj
    cases hj' : j.sch with
    | mk a b => rw [hj'] at h1 this; simp at h1 this; rw [h1, this]
  | failed => cases ho
  | panicked => cases ho
  | hangs => cases ho
  | nil => cases ho
  | forged => cases ho
  | wrongVersion => cases ho

/-- The loop going up follows the walk. -/
theorem goLoop_up {ls : List (ImperativeLens V)} {lin : Nat} (hH : H lin = L)
    (hr : GoReady L ls) (hst : StayInLineage H lin ls)
    (tr : Inst V → SV → Res (Inst V × List Lac)) {frm : SV} {q : Nat} (hq : q < L.allsch.length)
    (hfrm : (L.ver q).less frm = false) :
    ∀ (d p n : Nat) (ti : Inst V), p + d = q → d < n → ti.valid = true → ti.sch = ⟨lin, p⟩ →
      ∃ o, GoAscend H lin ls q p ti o ∧ goLoop H tr lin frm (L.ver q) n p ti = o := by
  intro d
  induction d with
  | zero =>
    intro p n ti hpq hn hv hsch
    have : p = q := by omega
    subst this
    obtain ⟨n, rfl⟩ : ∃ k, n = k + 1 := ⟨n - 1, by omega⟩
    exact ⟨_, .there ti, by simp [goLoop, hH]⟩
  | succ d ih =>
    intro p n ti hpq hn hv hsch
    obtain ⟨n, rfl⟩ : ∃ k, n = k + 1 := ⟨n - 1, by omega⟩
    have hp1 : p + 1 < L.allsch.length := by omega
    have hne : L.ver p ≠ L.ver q := by
      intro he
      have := ver_inj hr.strict (by omega : p < L.allsch.length) hq he
      omega
    have hsucc : L.successor p = .ok (some (p + 1)) := by
      rw [successor_eq hr.strict (by omega), if_pos hp1]
    by_cases hm : (L.ver p).major = (L.ver (p + 1)).major
    · have hms : goMinorStep H tr ti =
          .ok { raw := ti.raw, name := ti.name, sch := ⟨lin, p + 1⟩, valid := true } := by
        unfold goMinorStep asSuccessor
        simp [Inst.check, hv, hsch, hH, hsucc, derefSch, hm]
      obtain ⟨o, ho1, ho2⟩ := ih (p + 1) n
        { raw := ti.raw, name := ti.name, sch := ⟨lin, p + 1⟩, valid := true }
        (by omega) (by omega) rfl rfl
      refine ⟨o, .step (by omega) (.minor (by rw [hH]; exact hm)) ho1, ?_⟩
      rw [goLoop]
      simp [hH, hne, hfrm, hsucc, derefSch, hm, hms, ho2]
    · obtain ⟨m, hl, hsup⟩ := hr.up hp1 hm
      obtain ⟨o1, ha⟩ := answer_total (H := H) (L.ver (p + 1)) (m ti ⟨lin, p + 1⟩)
      have hls : goLensStep H lin p (p + 1) ti = o1 :=
        goLensStep_answer (by rw [hH]; exact hl) (by rw [hH]; exact ha)
      have hgu : GoUp H lin ls p ti o1 :=
        .major (by rw [hH]; exact hm) (by rw [hH]; exact hsup) (by rw [hH]; exact ha)
      have hloop : goLoop H tr lin frm (L.ver q) (n + 1) p ti =
          o1.bind fun rti => goLoop H tr lin frm (L.ver q) n (p + 1) rti := by
        rw [goLoop]
        simp [hH, hne, hfrm, hsucc, derefSch, hm, hls]
      cases o1 with
      | ok i' =>
        obtain ⟨k1, k2⟩ := answer_sch hH hr.strict hst hsup hp1 ha
        obtain ⟨o, ho1, ho2⟩ := ih (p + 1) n i' (by omega) (by omega) k1 k2
        exact ⟨o, .step (by omega) hgu ho1, by rw [hloop]; exact ho2⟩
      | err e => exact ⟨_, .stop (by omega) hgu (by intro i' hh; cases hh), by rw [hloop]; rfl⟩
      | panic k => exact ⟨_, .stop (by omega) hgu (by intro i' hh; cases hh), by rw [hloop]; rfl⟩
      | fuel => exact ⟨_, .stop (by omega) hgu (by intro i' hh; cases hh), by rw [hloop]; rfl⟩

/-- The loop going down follows the walk. -/
theorem goLoop_down {ls : List (ImperativeLens V)} {lin : Nat} (hH : H lin = L)
    (hr : GoReady L ls) (hst : StayInLineage H lin ls)
    (tr : Inst V → SV → Res (Inst V × List Lac)) {frm : SV} {q : Nat} (hq : q < L.allsch.length)
    (hfrm : (L.ver q).less frm = true) :
    ∀ (d n : Nat) (ti : Inst V), q + d < L.allsch.length → d < n → ti.valid = true →
      ti.sch = ⟨lin, q + d⟩ →
      ∃ o, GoDescend H lin ls q (q + d) ti o ∧ goLoop H tr lin frm (L.ver q) n (q + d) ti = o := by
  intro d
  induction d with
  | zero =>
    intro n ti hpq hn hv hsch
    obtain ⟨n, rfl⟩ : ∃ k, n = k + 1 := ⟨n - 1, by omega⟩
    exact ⟨_, .there ti, by simp [goLoop, hH]⟩
  | succ d ih =>
    intro n ti hpq hn hv hsch
    obtain ⟨n, rfl⟩ : ∃ k, n = k + 1 := ⟨n - 1, by omega⟩
    have hne : L.ver (q + (d + 1)) ≠ L.ver q := by
      intro he
      have := ver_inj hr.strict hpq hq he
      omega
    have hpred : L.predecessor (q + (d + 1)) = .ok (some (q + d)) := by
      rw [predecessor_eq hr.strict hr.zero hpq, if_neg (by omega)]
      rfl
    obtain ⟨m, hl, hsup⟩ := hr.down (p := q + d) hpq
    obtain ⟨o1, ha⟩ := answer_total (H := H) (L.ver (q + d)) (m ti ⟨lin, q + d⟩)
    have hls : goLensStep H lin (q + (d + 1)) (q + d) ti = o1 :=
      goLensStep_answer (by rw [hH]; exact hl) (by rw [hH]; exact ha)
    have hgd : GoDown H lin ls (q + d) ti o1 :=
      .ask (by rw [hH]; exact hsup) (by rw [hH]; exact ha)
    have hloop : goLoop H tr lin frm (L.ver q) (n + 1) (q + (d + 1)) ti =
        o1.bind fun rti => goLoop H tr lin frm (L.ver q) n (q + d) rti := by
      rw [goLoop]
      simp [hH, hne, hfrm, hpred, derefSch, hls]
    cases o1 with
    | ok i' =>
      obtain ⟨k1, k2⟩ := answer_sch hH hr.strict hst hsup (by omega) ha
      obtain ⟨o, ho1, ho2⟩ := ih n i' (by omega) (by omega) k1 k2
      exact ⟨o, .step (Nat.le_add_right q d) hgd ho1, by rw [hloop]; exact ho2⟩
    | err e => exact ⟨_, .stop (Nat.le_add_right q d) hgd (by intro i' hh; cases hh), by rw [hloop]; rfl⟩
    | panic k => exact ⟨_, .stop (Nat.le_add_right q d) hgd (by intro i' hh; cases hh), by rw [hloop]; rfl⟩
    | fuel => exact ⟨_, .stop (Nat.le_add_right q d) hgd (by intro i' hh; cases hh), by rw [hloop]; rfl⟩

end Thema
