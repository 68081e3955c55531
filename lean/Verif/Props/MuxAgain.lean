import Verif.Spec.MuxAgain
import Verif.Props.Mux

/-!
# Multiplexing what has been multiplexed
-/

namespace Thema.Props

open Thema Thema.Spec

variable {V T : Type} {C : Cue V} {force : Bool} {r : RawLineage V} {opts : List (BindOption V)}
  {L : Lineage V} {H : Heap V} {s : SchPtr} {dec : Decoder V} {enc : Encoder V}
  {Plain : V → Prop} {j : Inst V} {lacs : List Lac} {b : Bytes}

/-- Where the result of a multiplexer comes from. -/
theorem untypedMux_ok {n : Nat} (hf : untypedMux C H s dec n b = .ok (j, lacs)) :
    ∃ d, dec b = .ok d ∧ (validate C H s d = .ok j ∨
      ∃ i q, validate C H ⟨s.lin, q⟩ d = .ok i ∧
        translate C H n i ((H s.lin).ver s.pos) = .ok (j, lacs)) := by
  unfold untypedMux at hf
  obtain ⟨d, hd, hf⟩ := Res.bind_eq_ok.1 hf
  refine ⟨d, hd, ?_⟩
  split at hf
  · rename_i i hi
    cases hf
    exact .inl hi
  · obtain ⟨p, _, hf⟩ := Res.bind_eq_ok.1 hf
    rcases muxLoop_ok _ _ hf with ⟨i, q, hi, ht⟩ | hx
    · exact .inr ⟨i, q, hi, ht⟩
    · cases hx
  · cases hf
  · cases hf

/-- With CUE lenses the result is plain data that the schema accepts. -/
theorem mux_result_cue (hl : CodecLaws C dec enc Plain) (hdp : DefaultsPlain C Plain)
    (h : bindLineage C force r opts = .ok L) (hg : goLenses opts = []) (hd : L.allv.Nodup)
    (hH : H s.lin = L) (hsp : s.pos < L.allsch.length) {n : Nat}
    (hf : untypedMux C H s dec n b = .ok (j, lacs)) :
    C.accepts L.allsch[s.pos].body j.raw ∧ Plain j.raw := by
  obtain ⟨d, hdec, hv | ⟨i, q, hi, ht⟩⟩ := untypedMux_ok hf
  · obtain ⟨_, ha, rfl⟩ := validate_ok_any hv
    simp only [hH] at ha
    exact ⟨ha, hl.decoded _ _ hdec⟩
  · obtain ⟨_, _, rfl⟩ := validate_ok_any hi
    have hs := (bind_sorted h).strict hd
    rw [hH] at ht
    obtain ⟨_, _, h3, h4, ha⟩ := C24_result_valid (i := ⟨d, [], ⟨s.lin, q⟩, true⟩) h hg hH ht
    have e := ver_inj hs h4 hsp h3
    refine ⟨by simpa only [e] using ha, ?_⟩
    have hm : (H s.lin).lensmap = [] := by rw [hH]; exact bind_lensmap_nil h hg
    cases n with
    | zero => simp [translate] at ht
    | succ n =>
      rw [translate_cue (i := ⟨d, [], ⟨s.lin, q⟩, true⟩) hm rfl, translateCue_ok_iff] at ht
      obtain ⟨_, _, _, _, _, hmar, hv, _⟩ := ht
      obtain ⟨_, _, rfl⟩ := validate_ok_any hv
      exact hdp _ hmar

/-- With Go lenses that return genuine instances with plain data, likewise. -/
theorem mux_result_go (hlaw : SubsumeSound C (fun d => C.marshals d = true))
    (hl : CodecLaws C dec enc Plain) (hdp : DefaultsPlain C Plain)
    (hpm : ∀ d, Plain d → C.marshals d = true)
    (h : bindLineage C force r opts = .ok L) (h0 : L.ver 0 = ⟨0, 0⟩)
    (hb : ∀ lin, WellBound C (H lin)) (hH : H s.lin = L)
    (hst : StayInLineage H s.lin (goLenses opts))
    (hmap : ∀ lin, Preserve (GenuinePlain C H Plain) (H lin)) (hsp : s.pos < L.allsch.length)
    {n : Nat} (hn : L.allsch.length + 2 ≤ n)
    (hf : untypedMux C H s dec n b = .ok (j, lacs)) :
    C.accepts L.allsch[s.pos].body j.raw ∧ Plain j.raw := by
  obtain ⟨d, hdec, hv | ⟨i, q, hi, ht⟩⟩ := untypedMux_ok hf
  · obtain ⟨_, ha, rfl⟩ := validate_ok_any hv
    simp only [hH] at ha
    exact ⟨ha, hl.decoded _ _ hdec⟩
  · obtain ⟨hq, ha, rfl⟩ := validate_ok_any hi
    obtain ⟨_, _, _, _, _, hd⟩ := hb s.lin
    rw [hH] at ht hd
    have hplain := hl.decoded _ _ hdec
    have hgp : GenuinePlain C H Plain j := by
      refine translate_preserves (C := C) (H := H) hmap ?_ ?_ _ _ _ _ _
        (⟨⟨rfl, hpm _ hplain, hq, ha⟩, hplain⟩ : GenuinePlain C H Plain _) ht
      · intro n i j lacs ⟨hg, hp⟩ htr hs
        refine ⟨asSuccessor_genuine hlaw hb (fun hx => (htr hx).1) hg hs, ?_⟩
        unfold asSuccessor at hs
        obtain ⟨_, _, hs⟩ := Res.bind_eq_ok.1 hs
        obtain ⟨q, _, hs⟩ := Res.bind_eq_ok.1 hs
        split at hs
        · cases hs
          exact hp
        · exact (htr hs).2
      · intro i v j lacs _ ht _
        refine ⟨translateCue_genuine ht, ?_⟩
        obtain ⟨_, _, _, _, _, hmar, hv, _⟩ := translateCue_ok_iff.1 ht
        obtain ⟨_, _, rfl⟩ := validate_ok_any hv
        exact hdp _ hmar
    obtain ⟨⟨_, _, hpj, hacc⟩, hpl⟩ := hgp
    refine ⟨?_, hpl⟩
    have hsch := (translate_reaches h h0 hd (i := ⟨d, [], ⟨s.lin, q⟩, true⟩) hH hst
      (by rw [hH] at hq; exact hq) hsp hn ht).1
    simp only at hsch
    have e1 : H j.sch.lin = L := by rw [hsch]; exact hH
    have e2 : j.sch.pos = s.pos := by rw [hsch]
    simp only [e1, e2] at hacc
    exact hacc

/-- Data that the schema accepts pass through a byte multiplexer: they are only encoded anew. -/
theorem byte_passes (hH : H s.lin = L) (hP : PathsOk C) (hsp : s.pos < L.allsch.length) {n : Nat}
    {g : Bytes → Res (Bytes × List Lac)} (hg : newByteMux C H s dec enc n = .ok g) {w : V}
    {ob : Bytes} (hw : dec b = .ok w) (ha : C.accepts L.allsch[s.pos].body w)
    (he : enc w = .ok ob) : g b = .ok (ob, []) := by
  unfold newByteMux at hg
  obtain ⟨f, hf, rfl⟩ := Res.map_eq_ok.1 hg
  obtain ⟨_, _, rfl⟩ := Res.map_eq_ok.1 hf
  have hv : validate C H s w = .ok (asInstance s.lin s.pos w) := by
    rcases validate_cases hP hH hsp w with ⟨_, hv⟩ | ⟨hna, _⟩
    · exact hv
    · exact absurd ha hna
  simp [byteMux, untypedMux, hw, hv, asInstance, Inst.check, he]

/-- Splitting a byte multiplexer's success. -/
theorem byte_ok {n : Nat} {g : Bytes → Res (Bytes × List Lac)}
    (hg : newByteMux C H s dec enc n = .ok g) {ob : Bytes} (hb : g b = .ok (ob, lacs)) :
    ∃ j, untypedMux C H s dec n b = .ok (j, lacs) ∧ enc j.raw = .ok ob := by
  unfold newByteMux at hg
  obtain ⟨f, hf, rfl⟩ := Res.map_eq_ok.1 hg
  obtain ⟨_, _, rfl⟩ := Res.map_eq_ok.1 hf
  unfold byteMux at hb
  obtain ⟨⟨j, l⟩, hj, hb⟩ := Res.bind_eq_ok.1 hb
  obtain ⟨_, _, hb⟩ := Res.bind_eq_ok.1 hb
  obtain ⟨o, ho, hx⟩ := Res.map_eq_ok.1 hb
  cases hx
  exact ⟨j, hj, ho⟩

/-! ### C139 -/

/-- **C139.** CUE lenses: what a byte multiplexer returned, it returns again unchanged when it is
given it, and with no lacuna; it decodes to data that the schema accepts. -/
theorem C139_again_cue (hP : PathsOk C) (hl : CodecLaws C dec enc Plain)
    (hdp : DefaultsPlain C Plain) (h : bindLineage C force r opts = .ok L)
    (hg : goLenses opts = []) (hd : L.allv.Nodup) (hH : H s.lin = L)
    (hsp : s.pos < L.allsch.length) {n : Nat} {g : Bytes → Res (Bytes × List Lac)}
    (hm : newByteMux C H s dec enc n = .ok g) {ob : Bytes} (hb : g b = .ok (ob, lacs)) :
    g ob = .ok (ob, []) ∧ ∃ w, dec ob = .ok w ∧ C.accepts L.allsch[s.pos].body w := by
  obtain ⟨j, hj, he⟩ := byte_ok hm hb
  obtain ⟨ha, hp⟩ := mux_result_cue hl hdp h hg hd hH hsp hj
  obtain ⟨w, h1, h2, h3⟩ := hl.again _ _ hp he
  exact ⟨byte_passes hH hP hsp hm h1 (h3 _ ha) h2, w, h1, h3 _ ha⟩

/-- **C139.** Go lenses that return genuine instances of the lineage: likewise. -/
theorem C139_again_go (hP : PathsOk C) (hlaw : SubsumeSound C (fun d => C.marshals d = true))
    (hl : CodecLaws C dec enc Plain) (hdp : DefaultsPlain C Plain)
    (hpm : ∀ d, Plain d → C.marshals d = true) (h : bindLineage C force r opts = .ok L)
    (h0 : L.ver 0 = ⟨0, 0⟩) (hwb : ∀ lin, WellBound C (H lin)) (hH : H s.lin = L)
    (hst : StayInLineage H s.lin (goLenses opts))
    (hmap : ∀ lin, Preserve (GenuinePlain C H Plain) (H lin)) (hsp : s.pos < L.allsch.length)
    {n : Nat} (hn : L.allsch.length + 2 ≤ n) {g : Bytes → Res (Bytes × List Lac)}
    (hm : newByteMux C H s dec enc n = .ok g) {ob : Bytes} (hb : g b = .ok (ob, lacs)) :
    g ob = .ok (ob, []) ∧ ∃ w, dec ob = .ok w ∧ C.accepts L.allsch[s.pos].body w := by
  obtain ⟨j, hj, he⟩ := byte_ok hm hb
  obtain ⟨ha, hp⟩ := mux_result_go hlaw hl hdp hpm h h0 hwb hH hst hmap hsp hn hj
  obtain ⟨w, h1, h2, h3⟩ := hl.again _ _ hp he
  exact ⟨byte_passes hH hP hsp hm h1 (h3 _ ha) h2, w, h1, h3 _ ha⟩

/-- A decoder that drops zeros and takes one off the other bytes; it wants exactly one datum. -/
def toyDec : Decoder SetCue.Val := fun b =>
  let d := (b.filter (fun x => x != 0)).map (fun x => x - 1)
  if SetCue.cue.marshals d then .ok d else .err ⟨[]⟩

/-- The encoder for it. -/
def toyEnc : Encoder SetCue.Val := fun v => .ok (v.map (fun x => x + 1) ++ [0])

theorem toy_codec :
    CodecLaws SetCue.cue toyDec toyEnc (fun d => SetCue.cue.marshals d = true) := by
  constructor
  · intro b d hb
    unfold toyDec at hb
    simp only at hb
    split at hb
    · rename_i hm
      cases hb
      exact hm
    · cases hb
  · intro v ob hv he
    cases he
    refine ⟨v, ?_, rfl, fun _ h => h⟩
    have e : ((v.map (fun x => x + 1) ++ [0]).filter (fun x => x != 0)).map (fun x => x - 1) = v := by
      rw [List.filter_append, List.map_append]
      have h0 : ([0] : List Nat).filter (fun x => x != 0) = [] := by decide
      rw [h0, List.map_nil, List.append_nil,
        List.filter_eq_self.2 (by intro a ha; obtain ⟨x, _, rfl⟩ := List.mem_map.1 ha; simp),
        List.map_map]
      exact List.map_id'' (fun x => by simp) v
    unfold toyDec
    simp only [e, hv, if_true]

theorem toy_defaults : DefaultsPlain SetCue.cue (fun d => SetCue.cue.marshals d = true) :=
  fun _ h => h

/-- The hypotheses of `C139_again_cue` are met: 0.0 data, oddly spelled, are translated to 1.0, and
the result passes again. -/
example : ∃ g, newByteMux SetCue.cue (fun _ => threeExactBound) ⟨0, 2⟩ toyDec toyEnc 5 = .ok g ∧
    g [0, 2, 0] = .ok ([4, 0], []) ∧ g [4, 0] = .ok ([4, 0], []) := by
  refine ⟨_, rfl, by rfl, ?_⟩
  exact (C139_again_cue (H := fun _ => threeExactBound) (s := ⟨0, 2⟩) (b := [0, 2, 0]) (lacs := [])
    (n := 5) setCue_pathsOk toy_codec toy_defaults threeExactBound_eq rfl (by decide) rfl (by decide)
    rfl (by rfl)).1

/-- The hypotheses of `C139_again_go` are met. -/
example : ∃ g, newByteMux SetCue.cue (fun _ => threeGo) ⟨0, 0⟩ toyDec toyEnc 5 = .ok g ∧
    g [4] = .ok ([2, 0], []) ∧ g [2, 0] = .ok ([2, 0], []) := by
  refine ⟨_, rfl, by rfl, ?_⟩
  refine (C139_again_go (H := fun _ => threeGo) (s := ⟨0, 0⟩) (b := [4]) (lacs := []) (n := 5)
    setCue_pathsOk setCue_subsumeSound_concrete toy_codec toy_defaults (fun _ h => h) threeGo_eq rfl
    (fun _ => threeGo_wellBound) rfl threeGo_stay (fun _ => ?_) (by decide) (by decide) rfl
    (by rfl)).1
  intro id m hm i s j hi hj hv
  have := threeGo_preserve id m hm i s j hi.1 hj hv
  exact ⟨this, this.2.1⟩

end Thema.Props
