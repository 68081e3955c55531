import Verif.Props.Mux
import Verif.Props.Grow

/-!
# Multiplexers and lineages that grow

What a program that reads data through a multiplexer can rely on when later versions are added
to the lineage.
-/

namespace Thema.Props

open Thema Thema.Spec

variable {V : Type} {C : Cue V} {force force' : Bool} {r r' : RawLineage V}
  {opts opts' : List (BindOption V)} {O N : Lineage V} {H H' : Heap V} {s : SchPtr}
  {dec : Decoder V}

theorem admits_grown (hpre : O.allsch <+: N.allsch) {p : Nat} (hp : p < O.allsch.length) (d : V) :
    Admits C N p d ↔ Admits C O p d := by
  obtain ⟨c, hc⟩ := hpre
  unfold Admits
  rw [← hc, List.getElem?_append_left hp]

/-- What a multiplexer does with decoded data, in every case. -/
theorem untypedMux_cases (hP : PathsOk C) (h : bindLineage C force r opts = .ok O)
    (h0 : O.ver 0 = ⟨0, 0⟩) (hd : O.allv.Nodup) (hH : H s.lin = O) (hsp : s.pos < O.allsch.length)
    {n : Nat} (hn : O.allsch.length ≤ n) {b : Bytes} {d : V} (hb : dec b = .ok d) :
    (Admits C O s.pos d ∧ untypedMux C H s dec n b = .ok (asInstance s.lin s.pos d, [])) ∨
    (¬ Admits C O s.pos d ∧ ∃ p, NewestOther C O s.pos d p ∧
      untypedMux C H s dec n b = translate C H n (asInstance s.lin p d) (O.ver s.pos)) ∨
    ((∀ p, ¬ Admits C O p d) ∧ ∃ e, untypedMux C H s dec n b = .err e ∧
      validate C H s d = .err e) := by
  have hs := (bind_sorted h).strict hd
  have hpos := bind_pos h
  obtain ⟨f, hf, hall⟩ := C39_untyped_mux (dec := dec) hP h h0 hd hH hsp hn
  have hfe : f = untypedMux C H s dec n := by
    unfold newUntypedMux at hf
    rw [hH, allvstr_eq h hs h0 hn] at hf
    cases hf; rfl
  subst hfe
  obtain ⟨c1, c2, c3⟩ := (hall b).2 d hb
  by_cases ha : Admits C O s.pos d
  · exact .inl ⟨ha, c1 ha⟩
  by_cases hno : ∀ p, ¬ Admits C O p d
  · exact .inr (.inr ⟨hno, c3 hno⟩)
  · refine .inr (.inl ⟨ha, ?_⟩)
    rcases muxLoop_spec hP hs (head_zero h h0) hH hsp d (fun _ => (.ok () : Res Unit)) (.err ⟨[]⟩) n
      (O.allsch.length - 1) (by omega) (by omega) with ⟨i, h1, h2, h3, h4, _⟩ | ⟨h1, _⟩
    · have hnew : NewestOther C O s.pos d i :=
        ⟨h2, h3, fun q hq hqs hqa => h4 q hq (by have := admits_lt hqa; omega) hqs hqa⟩
      exact ⟨i, hnew, c2 ha i hnew⟩
    · exfalso
      apply hno
      intro p hp
      by_cases hps : p = s.pos
      · exact ha (hps ▸ hp)
      · exact h1 p (by have := admits_lt hp; omega) hps hp

/-- The step from translations to multiplexers. -/
theorem untypedMux_grown (hP : PathsOk C) (h : bindLineage C force r opts = .ok O)
    (h' : bindLineage C force' r' opts' = .ok N) (hp : r.schemas <+: r'.schemas)
    (h0 : O.ver 0 = ⟨0, 0⟩) (hd : N.allv.Nodup) (hH : H s.lin = O) (hH' : H' s.lin = N)
    (hsp : s.pos < O.allsch.length) {n : Nat} (hn : N.allsch.length ≤ n)
    (htr : ∀ p d, p < O.allsch.length → translate C H' n (asInstance s.lin p d) (O.ver s.pos) =
      translate C H n (asInstance s.lin p d) (O.ver s.pos)) :
    ∃ f f', newUntypedMux C H s dec n = .ok f ∧ newUntypedMux C H' s dec n = .ok f' ∧ ∀ b,
      (∀ d, dec b = .ok d → Admits C O s.pos d ∨ ∀ q, O.allsch.length ≤ q → ¬ Admits C N q d) →
      f' b = f b := by
  have hpre := grow_allsch h h' hp
  have hlen := hpre.length_le
  have hO := bind_pos h
  have hdO : O.allv.Nodup := hd.sublist (show O.allv <+: N.allv from hpre.map _).sublist
  have h0' : N.ver 0 = ⟨0, 0⟩ := by rw [ver_prefix hpre hO]; exact h0
  refine ⟨untypedMux C H s dec n, untypedMux C H' s dec n, ?_, ?_, ?_⟩
  · unfold newUntypedMux
    rw [hH, allvstr_eq h ((bind_sorted h).strict hdO) h0 (by omega)]; rfl
  · unfold newUntypedMux
    rw [hH', allvstr_eq h' ((bind_sorted h').strict hd) h0' hn]; rfl
  intro b hcond
  cases hb : dec b with
  | err e => simp [untypedMux, hb]
  | panic k => simp [untypedMux, hb]
  | fuel => simp [untypedMux, hb]
  | ok d =>
    have hsame := fun p (hlt : p < O.allsch.length) => admits_grown (C := C) hpre hlt d
    rcases untypedMux_cases (dec := dec) hP h h0 hdO hH hsp (n := n) (by omega) hb with
      ⟨a1, a2⟩ | ⟨a1, p, ⟨p1, p2, p3⟩, a2⟩ | ⟨a1, e, a2, a3⟩
    · rcases untypedMux_cases (dec := dec) hP h' h0' hd hH' (s := s) (by omega) hn hb with
        ⟨_, b2⟩ | ⟨b1, _⟩ | ⟨b1, _⟩
      · rw [a2, b2]
      · exact absurd ((hsame _ hsp).2 a1) b1
      · exact absurd ((hsame _ hsp).2 a1) (b1 _)
    · have hadd := (hcond d hb).resolve_left a1
      have hplt := admits_lt p2
      rcases untypedMux_cases (dec := dec) hP h' h0' hd hH' (s := s) (by omega) hn hb with
        ⟨b1, _⟩ | ⟨_, q, ⟨q1, q2, q3⟩, b2⟩ | ⟨b1, _⟩
      · exact absurd ((hsame _ hsp).1 b1) a1
      · have hqlt : q < O.allsch.length := Nat.lt_of_not_le fun hle => hadd q hle q2
        have hpq : q = p := by
          rcases Nat.lt_trichotomy q p with hlt | heq | hgt
          · exact absurd ((hsame _ hplt).2 p2) (q3 p hlt p1)
          · exact heq
          · exact absurd ((hsame _ hqlt).1 q2) (p3 q hgt q1)
        rw [a2, b2, hpq, ver_prefix hpre hsp, htr p d hplt]
      · exact absurd ((hsame _ hplt).2 p2) (b1 _)
    · have hadd := (hcond d hb).resolve_left (a1 _)
      have hno : ∀ q, ¬ Admits C N q d := by
        intro q hq
        by_cases hlt : q < O.allsch.length
        · exact a1 q ((hsame q hlt).1 hq)
        · exact hadd q (by omega) hq
      rcases untypedMux_cases (dec := dec) hP h' h0' hd hH' (s := s) (by omega) hn hb with
        ⟨b1, _⟩ | ⟨_, q, ⟨_, q2, _⟩, _⟩ | ⟨_, e', b2, b3⟩
      · exact absurd b1 (hno _)
      · exact absurd q2 (hno _)
      · have hv : validate C H' s d = validate C H s d := by
          unfold validate
          rw [show s = ⟨s.lin, s.pos⟩ from rfl, C136_validate h h' hp hH hH' hsp]
        rw [a2, b2]
        rw [hv, a3] at b3
        cases b3; rfl

/-! ### C141 -/

/-- **C141** (part).  After versions have been added to a lineage with CUE lenses, a multiplexer
for an old version does with every input what it did before - same instance, same error -, if its
own schema accepts the data or no added schema does.  Missing: data that an added schema accepts
and the multiplexer's own does not (`C141_taken_over`, `C141_data_changed`). -/
theorem C141_mux_cue_partial (hP : PathsOk C) (h : bindLineage C force r opts = .ok O)
    (h' : bindLineage C force' r' opts' = .ok N) (he : Extends r r') (hg : goLenses opts = [])
    (hg' : goLenses opts' = []) (hc : Contiguous O.allv) (hd : N.allv.Nodup) (hH : H s.lin = O)
    (hH' : H' s.lin = N) (hsp : s.pos < O.allsch.length) {n : Nat} (hn : N.allsch.length ≤ n) :
    ∃ f f', newUntypedMux C H s dec n = .ok f ∧ newUntypedMux C H' s dec n = .ok f' ∧ ∀ b,
      (∀ d, dec b = .ok d → Admits C O s.pos d ∨ ∀ q, O.allsch.length ≤ q → ¬ Admits C N q d) →
      f' b = f b := by
  have h0 : O.ver 0 = ⟨0, 0⟩ := by
    have hO := bind_pos h
    have := hc.1
    unfold Lineage.ver
    rw [List.head?_eq_getElem?] at this
    rw [this]; rfl
  exact untypedMux_grown hP h h' he.schemas h0 hd hH hH' hsp hn fun p d hlt =>
    C136_translate_cue (i := asInstance s.lin p d) h h' he hg hg' hc hH hH' hlt (ver_mem hsp) n

/-- **C141** (part).  The same with Go lenses, if the functions for the old pairs are still supplied
and keep to the old versions. -/
theorem C141_mux_go_partial (hP : PathsOk C) (h : bindLineage C force r opts = .ok O)
    (h' : bindLineage C force' r' opts' = .ok N) (hp : r.schemas <+: r'.schemas)
    (hg : goLenses opts ≠ []) (hls : ∀ l ∈ goLenses opts, l ∈ goLenses opts')
    (h0 : O.ver 0 = ⟨0, 0⟩) (hd : N.allv.Nodup) (hH : H s.lin = O) (hH' : H' s.lin = N)
    (hst : StayInLineage H s.lin (goLenses opts)) (hst' : StayInLineage H' s.lin (goLenses opts'))
    (hsp : s.pos < O.allsch.length) {n : Nat} (hn : N.allsch.length + 1 < n) :
    ∃ f f', newUntypedMux C H s dec n = .ok f ∧ newUntypedMux C H' s dec n = .ok f' ∧ ∀ b,
      (∀ d, dec b = .ok d → Admits C O s.pos d ∨ ∀ q, O.allsch.length ≤ q → ¬ Admits C N q d) →
      f' b = f b := by
  obtain ⟨m, rfl⟩ : ∃ m, n = m + 1 := ⟨n - 1, by omega⟩
  exact untypedMux_grown hP h h' hp h0 hd hH hH' hsp (by omega) fun p d hlt =>
    C136_translate_go (i := asInstance s.lin p d) h h' hp hg hls h0 hd hH hH' hst hst' hlt
      (ver_mem hsp) (by omega)

/-- **C141**, the rest is false.  Data that the multiplexer's own schema does not accept but an
added one does is translated from the newest such schema, whatever older schema it was translated
from before. -/
theorem C141_taken_over (hP : PathsOk C) (h : bindLineage C force r opts = .ok O)
    (h' : bindLineage C force' r' opts' = .ok N) (hp : r.schemas <+: r'.schemas)
    (h0 : O.ver 0 = ⟨0, 0⟩) (hd : N.allv.Nodup) (hH' : H' s.lin = N)
    (hsp : s.pos < O.allsch.length) {n : Nat} (hn : N.allsch.length ≤ n) {b : Bytes} {d : V}
    (hb : dec b = .ok d) (hna : ¬ Admits C O s.pos d)
    (hadd : ∃ q, O.allsch.length ≤ q ∧ Admits C N q d) :
    ∃ f' p, newUntypedMux C H' s dec n = .ok f' ∧ O.allsch.length ≤ p ∧ Admits C N p d ∧
      (∀ q, p < q → ¬ Admits C N q d) ∧
      f' b = translate C H' n (asInstance s.lin p d) (O.ver s.pos) := by
  have hpre := grow_allsch h h' hp
  have hlen := hpre.length_le
  have hO := bind_pos h
  have h0' : N.ver 0 = ⟨0, 0⟩ := by rw [ver_prefix hpre hO]; exact h0
  have hn1 : ¬ Admits C N s.pos d := fun ha => hna ((admits_grown hpre hsp d).1 ha)
  obtain ⟨q, hq, hqa⟩ := hadd
  rcases untypedMux_cases (dec := dec) hP h' h0' hd hH' (s := s) (by omega) hn hb with
    ⟨b1, _⟩ | ⟨_, p, ⟨p1, p2, p3⟩, b2⟩ | ⟨b1, _⟩
  · exact absurd b1 hn1
  · refine ⟨untypedMux C H' s dec n, p, ?_, ?_, p2, ?_, ?_⟩
    · unfold newUntypedMux
      rw [hH', allvstr_eq h' ((bind_sorted h').strict hd) h0' hn]; rfl
    · apply Nat.le_of_not_lt
      intro hlt
      exact p3 q (by omega) (by omega) hqa
    · intro k hk hka
      by_cases hks : k = s.pos
      · exact hn1 (hks ▸ hka)
      · exact p3 k hk hks hka
    · rw [b2, ver_prefix hpre hsp]
  · exact absurd hqa (b1 q)

/-- A lineage with two majors. -/
def muxBefore : RawLineage SetCue.Val :=
  SetCue.withLenses (SetCue.lin [SetCue.sch 0 0 [1, 5], SetCue.sch 1 0 [2, 3]])
    [SetCue.lens ⟨1, 0⟩ ⟨0, 0⟩ [1], SetCue.lens ⟨0, 0⟩ ⟨1, 0⟩ [2]]

/-- The same with a third one, which accepts some of the data of the first. -/
def muxAfter : RawLineage SetCue.Val :=
  SetCue.withLenses
    (SetCue.lin [SetCue.sch 0 0 [1, 5], SetCue.sch 1 0 [2, 3], SetCue.sch 2 0 [1, 4]])
    [SetCue.lens ⟨1, 0⟩ ⟨0, 0⟩ [1], SetCue.lens ⟨0, 0⟩ ⟨1, 0⟩ [2],
     SetCue.lens ⟨2, 0⟩ ⟨1, 0⟩ [3], SetCue.lens ⟨1, 0⟩ ⟨2, 0⟩ [4]]

theorem muxAfter_extends : Extends muxBefore muxAfter :=
  ⟨⟨[SetCue.sch 2 0 [1, 4]], rfl⟩,
    ⟨[SetCue.lens ⟨2, 0⟩ ⟨1, 0⟩ [3], SetCue.lens ⟨1, 0⟩ ⟨2, 0⟩ [4]], rfl, by
      intro l hl
      simp only [List.mem_cons, List.not_mem_nil, or_false] at hl
      rcases hl with rfl | rfl
      · exact .inl (by decide)
      · exact .inr (by decide)⟩⟩

/-- **C141**, the rest is false: a lineage where data of 0.0 that a multiplexer for 1.0 used to turn
into one value is turned into another after 2.0 was added. -/
theorem C141_data_changed :
    ∃ O N f f', SetCue.bind muxBefore = .ok O ∧ SetCue.bind muxAfter = .ok N ∧
      Extends muxBefore muxAfter ∧
      newUntypedMux SetCue.cue (fun _ => O) ⟨0, 1⟩ toyDecoder 6 = .ok f ∧
      newUntypedMux SetCue.cue (fun _ => N) ⟨0, 1⟩ toyDecoder 6 = .ok f' ∧
      f [1] = .ok (instAt 1 [2], []) ∧ f' [1] = .ok (instAt 1 [3], []) :=
  ⟨_, _, _, _, rfl, rfl, muxAfter_extends, rfl, rfl, rfl, rfl⟩

/-- The hypotheses of the part that holds are met: data of 0.0 that 2.0 does not accept, and data of
1.0, are returned as before. -/
example : ∃ O N f f', SetCue.bind muxBefore = .ok O ∧ SetCue.bind muxAfter = .ok N ∧
    Contiguous O.allv ∧ N.allv.Nodup ∧
    newUntypedMux SetCue.cue (fun _ => O) ⟨0, 1⟩ toyDecoder 6 = .ok f ∧
    newUntypedMux SetCue.cue (fun _ => N) ⟨0, 1⟩ toyDecoder 6 = .ok f' ∧
    (∀ b, (b = [5] ∨ b = [3]) → f' b = f b) ∧
    f [5] = .ok (instAt 1 [2], []) ∧ f [3] = .ok (instAt 1 [3], []) := by
  refine ⟨_, _, _, _, rfl, rfl, ⟨rfl, ?_⟩, by decide, rfl, rfl, ?_, rfl, rfl⟩
  · intro i hi
    match i, hi with
    | 0, _ => exact Or.inr rfl
  · rintro b (rfl | rfl) <;> rfl

end Thema.Props
