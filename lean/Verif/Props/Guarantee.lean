import Verif.Props.MuxGrow
import Verif.Spec.Guarantee

/-!
# Everything valid is translatable

The promise that makes a program independent of the version its input was written for: "any input
valid against any schema in that lineage will be translatable to the schema your program expects"
(`docs/overview.md:75`).
-/

namespace Thema.Props

open Thema Thema.Spec

variable {V : Type} {C : Cue V} {force : Bool} {r : RawLineage V}
  {opts : List (BindOption V)} {L : Lineage V} {H : Heap V} {i : Inst V} {s : SchPtr}
  {dec : Decoder V}

theorem exactLenses_down (he : ExactLenses L) {p : Nat} (hp : p + 1 < L.allsch.length) :
    ∃ l ∈ L.lenses, l.frm = L.ver (p + 1) ∧ l.to = L.ver p := by
  have hreq : Required L.allv ⟨L.ver (p + 1), L.ver p⟩ := by
    refine ⟨p, by simpa using hp, .inl ?_⟩
    rw [ver_lt hp, ver_lt (by omega : p < L.allsch.length)]
  obtain ⟨l, hl, e⟩ := List.mem_map.1 ((he.2 _).2 hreq)
  injection e with e1 e2
  exact ⟨l, hl, e1, e2⟩

theorem exactLenses_up (he : ExactLenses L) {p : Nat} (hp : p + 1 < L.allsch.length)
    (hm : (L.ver p).major ≠ (L.ver (p + 1)).major) :
    ∃ l ∈ L.lenses, l.frm = L.ver p ∧ l.to = L.ver (p + 1) := by
  have e1 : L.ver (p + 1) = L.allv[p + 1]'(by simpa using hp) := by
    rw [ver_lt hp]
  have e0 : L.ver p = L.allv[p]'(by simp; omega) := by
    rw [ver_lt (by omega : p < L.allsch.length)]
  have hreq : Required L.allv ⟨L.ver p, L.ver (p + 1)⟩ :=
    ⟨p, by simpa using hp, .inr ⟨by rw [← e1, ← e0]; exact hm, by rw [e1, e0]⟩⟩
  obtain ⟨l, hl, e⟩ := List.mem_map.1 ((he.2 _).2 hreq)
  injection e with e1 e2
  exact ⟨l, hl, e1, e2⟩

/-! ### C143 -/

/-- **C143** (part).  With CUE lenses: if each lens does its job - turns concrete data of its source
schema into concrete data of its target schema -, then every concrete instance of every version can
be translated to every version, and the result is a genuine instance of the target.  Missing: majors
from 3 on (C25), lineages whose lenses are missing, which bind all the same (`C143_lens_missing`),
and lenses that fail for some data (`C143_refuted`). -/
theorem C143_translatable_cue_partial (hlaw : SubsumeSound C (fun d => C.marshals d = true))
    (hel : EmbedLaws C) (h : bindLineage C force r opts = .ok L) (hon : ChecksOn force opts)
    (hg : goLenses opts = []) (hc : Contiguous L.allv) (he : ExactLenses L) (hw : LensesWork C L)
    (hH : H i.sch.lin = L) (hgen : Genuine C H i) (hst : C.isStruct i.raw = true)
    (hp2 : (L.ver i.sch.pos).major ≤ 2) {q : Nat} (hq : q < L.allsch.length)
    (hq2 : (L.ver q).major ≤ 2) (n : Nat) :
    ∃ j, translate C H (n + 1) i (L.ver q) = .ok (j, []) ∧ j.sch = ⟨i.sch.lin, q⟩ ∧
      Genuine C H j := by
  have hs := Contiguous.strictV hc
  obtain ⟨hv, hmar, hp, hacc⟩ := hgen
  simp only [hH] at hp hacc
  have up : ∀ (d p : Nat) (x : V) (hp : p < L.allsch.length), p + d = q →
      C.accepts L.allsch[p].body x → C.marshals x = true →
      ∃ y, Ascend C L p x q y ∧ C.accepts L.allsch[q].body y ∧ C.marshals y = true := by
    intro d
    induction d with
    | zero =>
      intro p x hp hpd ha hx
      have : p = q := by omega
      subst this
      exact ⟨x, .refl p x, ha, hx⟩
    | succ d ih =>
      intro p x hp hpd ha hx
      have hp1 : p + 1 < L.allsch.length := by omega
      by_cases hmaj : (L.ver p).major = (L.ver (p + 1)).major
      · obtain ⟨y0, hy0, _⟩ := C12_validity_stable hlaw h hon hs.nodup H (lin := i.sch.lin) hH
          (Nat.le_succ p) hp1 hmaj hx ((validate_ok_iff hH hp).2 ⟨ha, rfl⟩)
        have ha1 := ((validate_ok_iff hH hp1).1 hy0).1
        obtain ⟨e1, e2, e3⟩ := hel.embed _ _ ha1 hx
        obtain ⟨y, w, ya, ym⟩ := ih (p + 1) _ hp1 (by omega) e2 e3
        exact ⟨y, .step (.minor hp1 hmaj e1) w, ya, ym⟩
      · obtain ⟨l, hl, hf, ht⟩ := exactLenses_up he hp1 hmaj
        obtain ⟨w1, w2, w3⟩ := hw l hl p (p + 1) hp hp1 hf.symm ht.symm x ha hx
        obtain ⟨y, w, ya, ym⟩ := ih (p + 1) _ hp1 (by omega) w2 w3
        exact ⟨y, .step (.major hp1 hmaj l hl hf ht w1) w, ya, ym⟩
  have down : ∀ (d p : Nat) (x : V) (hp : p < L.allsch.length), q + d = p →
      C.accepts L.allsch[p].body x → C.marshals x = true →
      ∃ y, Descend C L p x q y ∧ C.accepts L.allsch[q].body y ∧ C.marshals y = true := by
    intro d
    induction d with
    | zero =>
      intro p x hp hpd ha hx
      have : p = q := by omega
      subst this
      exact ⟨x, .refl p x, ha, hx⟩
    | succ d ih =>
      intro p x hp hpd ha hx
      obtain ⟨p, rfl⟩ : ∃ p', p = p' + 1 := ⟨p - 1, by omega⟩
      obtain ⟨l, hl, hf, ht⟩ := exactLenses_down he hp
      have hp0 : p < L.allsch.length := by omega
      obtain ⟨w1, w2, w3⟩ := hw l hl (p + 1) p hp hp0 hf.symm ht.symm x ha hx
      obtain ⟨y, w, ya, ym⟩ := ih p _ hp0 (by omega) w2 w3
      exact ⟨y, .step (.lens hp l hl hf ht w1) w, ya, ym⟩
  obtain ⟨y, w, ya, ym⟩ : ∃ y, Walk C L i.sch.pos i.raw q y ∧
      C.accepts L.allsch[q].body y ∧ C.marshals y = true := by
    rcases Nat.le_total i.sch.pos q with hle | hle
    · obtain ⟨y, w, a⟩ := up (q - i.sch.pos) i.sch.pos i.raw hp (by omega) hacc hmar
      exact ⟨y, .inl ⟨hle, w⟩, a⟩
    · obtain ⟨y, w, a⟩ := down (i.sch.pos - q) i.sch.pos i.raw hp (by omega) hacc hmar
      exact ⟨y, .inr ⟨hle, w⟩, a⟩
  obtain ⟨d1, d2⟩ := hel.dflt _ _ ya ym
  refine ⟨_, (C25_translate_partial h hg hc he hH hv hst hp hp2 hq hq2 n).2
    ⟨rfl, y, w, hq, d2, d1, rfl⟩, rfl, rfl, d2, ?_⟩
  simp only [hH]
  exact ⟨hq, d1⟩

/-- **C143** (part).  With Go lenses: if each supplied function does its job, every genuine instance
of every version can be translated to every version, with a genuine instance as the result. -/
theorem C143_translatable_go_partial (hlaw : SubsumeSound C (fun d => C.marshals d = true))
    (h : bindLineage C force r opts = .ok L) (hon : ChecksOn force opts) (hne : goLenses opts ≠ [])
    (h0 : L.ver 0 = ⟨0, 0⟩) (hd : L.allv.Nodup) (hH : H i.sch.lin = L)
    (hst : StayInLineage H i.sch.lin (goLenses opts))
    (hw : FunctionsWork C H i.sch.lin (goLenses opts)) (hgen : Genuine C H i) {q : Nat}
    (hq : q < L.allsch.length) {n : Nat} (hn : L.allsch.length < n) :
    ∃ j, translate C H (n + 1) i (L.ver q) = .ok (j, []) ∧ j.sch = ⟨i.sch.lin, q⟩ ∧
      Genuine C H j := by
  have hr := goReady h hne h0 hd
  have hv := hgen.1
  have hp : i.sch.pos < L.allsch.length := by
    obtain ⟨_, _, hp, _⟩ := hgen
    rw [hH] at hp; exact hp
  generalize hlin : i.sch.lin = lin at *
  have ask : ∀ {p t : Nat} {k : Inst V}, p < L.allsch.length → t < L.allsch.length →
      Required L.allv ⟨L.ver p, L.ver t⟩ → Genuine C H k → k.sch = ⟨lin, p⟩ →
      ∃ m k', Supplied (goLenses opts) (L.ver p) (L.ver t) m ∧
        Answer H (L.ver t) (m k ⟨lin, t⟩) (.ok k') ∧ Genuine C H k' ∧ k'.sch = ⟨lin, t⟩ := by
    intro p t k hp ht hreq hk hks
    obtain ⟨l, hl, hid, m, hm, _⟩ := hr.served _ hreq
    have hf : l.frm = L.ver p := congrArg LensID.frm hid
    have hto : l.to = L.ver t := congrArg LensID.to hid
    obtain ⟨j, e, gj, sj⟩ := hw l hl m hm k hk (by rw [hks]) (by
      unfold versionOf; rw [hks]; simp only [hH]; exact hf.symm) t (by rw [hH]; exact ht)
      (by rw [hH]; exact hto.symm)
    refine ⟨m, j, ⟨l, hl, hf, hto, hm⟩, ?_, gj, sj⟩
    rw [e]
    exact .used gj.1 (by unfold versionOf; rw [sj]; simp only [hH])
  have vat : ∀ {p : Nat} (hp : p < L.allsch.length), L.ver p = L.allv[p]'(by simpa using hp) := by
    intro p hp
    rw [ver_lt hp]
  have up : ∀ (d p : Nat) (k : Inst V), p + d = q → k.sch = ⟨lin, p⟩ → Genuine C H k →
      ∃ j, GoAscend H lin (goLenses opts) q p k (.ok j) ∧ j.sch = ⟨lin, q⟩ ∧ Genuine C H j := by
    intro d
    induction d with
    | zero =>
      intro p k hpd hks hk
      have : p = q := by omega
      subst this
      exact ⟨k, .there k, hks, hk⟩
    | succ d ih =>
      intro p k hpd hks hk
      have hp1 : p + 1 < L.allsch.length := by omega
      have hp0 : p < L.allsch.length := by omega
      by_cases hmaj : (L.ver p).major = (L.ver (p + 1)).major
      · have hk' : Genuine C H { raw := k.raw, name := k.name, sch := ⟨lin, p + 1⟩, valid := true } := by
          obtain ⟨_, hx, hb, ha⟩ := hk
          simp only [hks, hH] at ha hb
          obtain ⟨y0, hy0, _⟩ := C12_validity_stable hlaw h hon hd H (lin := lin) hH
            (Nat.le_succ p) hp1 hmaj hx ((validate_ok_iff hH hp0).2 ⟨ha, rfl⟩)
          refine ⟨rfl, hx, ?_⟩
          simp only [hH]
          exact ⟨hp1, ((validate_ok_iff hH hp1).1 hy0).1⟩
        obtain ⟨j, w, a⟩ := ih (p + 1) _ (by omega) rfl hk'
        exact ⟨j, .step (by omega) (.minor (by rw [hH]; exact hmaj)) w, a⟩
      · obtain ⟨m, k', s1, s2, s3, s4⟩ := ask hp0 hp1
          ⟨p, by simpa using hp1, .inr ⟨by rw [← vat hp1, ← vat hp0]; exact hmaj, by
            rw [← vat hp1, ← vat hp0]⟩⟩ hk hks
        obtain ⟨j, w, a⟩ := ih (p + 1) k' (by omega) s4 s3
        exact ⟨j, .step (by omega) (.major (by rw [hH]; exact hmaj) (by rw [hH]; exact s1)
          (by rw [hH]; exact s2)) w, a⟩
  have down : ∀ (d p : Nat) (k : Inst V), q + d = p → p < L.allsch.length → k.sch = ⟨lin, p⟩ →
      Genuine C H k →
      ∃ j, GoDescend H lin (goLenses opts) q p k (.ok j) ∧ j.sch = ⟨lin, q⟩ ∧ Genuine C H j := by
    intro d
    induction d with
    | zero =>
      intro p k hpd _ hks hk
      have : p = q := by omega
      subst this
      exact ⟨k, .there k, hks, hk⟩
    | succ d ih =>
      intro p k hpd hp1 hks hk
      obtain ⟨p, rfl⟩ : ∃ p', p = p' + 1 := ⟨p - 1, by omega⟩
      have hp0 : p < L.allsch.length := by omega
      obtain ⟨m, k', s1, s2, s3, s4⟩ := ask hp1 hp0
        ⟨p, by simpa using hp1, .inl (by rw [← vat hp1, ← vat hp0])⟩ hk hks
      obtain ⟨j, w, a⟩ := ih p k' (by omega) hp0 s4 s3
      exact ⟨j, .step (by omega) (.ask (by rw [hH]; exact s1) (by rw [hH]; exact s2)) w, a⟩
  have hsch : i.sch = ⟨lin, i.sch.pos⟩ := by rw [← hlin]
  obtain ⟨j, w, a⟩ : ∃ j, GoWalk H (goLenses opts) i q (.ok j) ∧ j.sch = ⟨lin, q⟩ ∧
      Genuine C H j := by
    unfold GoWalk
    by_cases hle : i.sch.pos ≤ q
    · simp only [if_pos hle, hlin]
      exact up (q - i.sch.pos) i.sch.pos i (by omega) hsch hgen
    · simp only [if_neg hle, hlin]
      exact down (i.sch.pos - q) i.sch.pos i (by omega) hp hsch hgen
  exact ⟨j, (C33_go_walk h hne h0 hd (by rw [hlin]; exact hH) (by rw [hlin]; exact hst) hv hp hq hn
    _).2 ⟨_, w, rfl⟩, a⟩

/-- From instances to multiplexers: if whatever the lineage accepts can be translated to the version
a multiplexer is for, the multiplexer succeeds for every input that any schema accepts. -/
theorem mux_of_translatable (hP : PathsOk C) (h : bindLineage C force r opts = .ok L)
    (h0 : L.ver 0 = ⟨0, 0⟩) (hd : L.allv.Nodup) (hH : H s.lin = L) (hsp : s.pos < L.allsch.length)
    {n : Nat} (hn : L.allsch.length ≤ n) {b : Bytes} {d : V} (hb : dec b = .ok d)
    (hm : C.marshals d = true) (hany : ∃ p, Admits C L p d)
    (htr : ∀ p, Genuine C H (asInstance s.lin p d) →
      ∃ j, translate C H n (asInstance s.lin p d) (L.ver s.pos) = .ok (j, []) ∧
        j.sch = ⟨s.lin, s.pos⟩ ∧ Genuine C H j) :
    ∃ f j, newUntypedMux C H s dec n = .ok f ∧ f b = .ok (j, []) ∧ j.sch = s ∧ Genuine C H j := by
  have hgen : ∀ p, Admits C L p d → Genuine C H (asInstance s.lin p d) := by
    rintro p ⟨sc, h1, h2⟩
    obtain ⟨hp, rfl⟩ := List.getElem?_eq_some_iff.1 h1
    refine ⟨rfl, hm, ?_⟩
    simp only [asInstance, hH]
    exact ⟨hp, h2⟩
  have hf : newUntypedMux C H s dec n = .ok (untypedMux C H s dec n) := by
    unfold newUntypedMux
    rw [hH, allvstr_eq h ((bind_sorted h).strict hd) h0 hn]; rfl
  rcases untypedMux_cases (dec := dec) hP h h0 hd hH hsp hn hb with
    ⟨a1, a2⟩ | ⟨_, p, ⟨_, p2, _⟩, a2⟩ | ⟨a1, _⟩
  · exact ⟨_, _, hf, a2, rfl, hgen _ a1⟩
  · obtain ⟨j, e, js, jg⟩ := htr p (hgen p p2)
    exact ⟨_, j, hf, by rw [a2, e], js, jg⟩
  · obtain ⟨p, hp⟩ := hany
    exact absurd hp (a1 p)

/-- **C143** (part).  The program's side, with CUE lenses that do their job: a multiplexer for any
version turns whatever decodes to concrete data that some schema of the lineage accepts into a
genuine instance of its own version.  Missing: as for `C143_translatable_cue_partial`. -/
theorem C143_mux_cue_partial (hP : PathsOk C)
    (hlaw : SubsumeSound C (fun d => C.marshals d = true)) (hel : EmbedLaws C)
    (h : bindLineage C force r opts = .ok L) (hon : ChecksOn force opts) (hg : goLenses opts = [])
    (hc : Contiguous L.allv) (h2 : ∀ v ∈ L.allv, v.major ≤ 2) (he : ExactLenses L)
    (hw : LensesWork C L) (hH : H s.lin = L) (hsp : s.pos < L.allsch.length) {n : Nat}
    (hn : L.allsch.length ≤ n) {b : Bytes} {d : V} (hb : dec b = .ok d) (hm : C.marshals d = true)
    (hst : C.isStruct d = true) (hany : ∃ p, Admits C L p d) :
    ∃ f j, newUntypedMux C H s dec n = .ok f ∧ f b = .ok (j, []) ∧ j.sch = s ∧ Genuine C H j := by
  have h0 : L.ver 0 = ⟨0, 0⟩ := by
    have hO := bind_pos h
    have := hc.1
    unfold Lineage.ver
    rw [List.head?_eq_getElem?] at this
    rw [this]; rfl
  have hO := bind_pos h
  obtain ⟨m, rfl⟩ : ∃ m, n = m + 1 := ⟨n - 1, by omega⟩
  refine mux_of_translatable hP h h0 (Contiguous.strictV hc).nodup hH hsp hn hb hm hany ?_
  intro p hgen
  have hp : p < L.allsch.length := by
    obtain ⟨_, _, hp, _⟩ := hgen
    simpa [asInstance, hH] using hp
  exact C143_translatable_cue_partial (i := asInstance s.lin p d) hlaw hel h hon hg hc he hw hH hgen
    hst (h2 _ (ver_mem hp)) hsp (h2 _ (ver_mem hsp)) m

/-- **C143** (part).  The same with Go lenses, for lineages of any number of majors. -/
theorem C143_mux_go_partial (hP : PathsOk C)
    (hlaw : SubsumeSound C (fun d => C.marshals d = true))
    (h : bindLineage C force r opts = .ok L) (hon : ChecksOn force opts) (hne : goLenses opts ≠ [])
    (h0 : L.ver 0 = ⟨0, 0⟩) (hd : L.allv.Nodup) (hH : H s.lin = L)
    (hst : StayInLineage H s.lin (goLenses opts)) (hw : FunctionsWork C H s.lin (goLenses opts))
    (hsp : s.pos < L.allsch.length) {n : Nat} (hn : L.allsch.length + 1 < n) {b : Bytes} {d : V}
    (hb : dec b = .ok d) (hm : C.marshals d = true) (hany : ∃ p, Admits C L p d) :
    ∃ f j, newUntypedMux C H s dec n = .ok f ∧ f b = .ok (j, []) ∧ j.sch = s ∧ Genuine C H j := by
  obtain ⟨m, rfl⟩ : ∃ m, n = m + 1 := ⟨n - 1, by omega⟩
  refine mux_of_translatable hP h h0 hd hH hsp (by omega) hb hm hany ?_
  intro p hgen
  exact C143_translatable_go_partial (i := asInstance s.lin p d) hlaw h hon hne h0 hd hH hst hw hgen
    hsp (by omega)

/-- **C143**, the rest is false.  Any lineage can be stripped of its CUE lenses and still binds; then
no instance at all can be translated to a lower version.  (Majors up to 2.) -/
theorem C143_lens_missing (h : bindLineage C force r opts = .ok L) (hg : goLenses opts = [])
    (hc : Contiguous L.allv) :
    ∃ L', bindLineage C force { r with lenses := some [] } opts = .ok L' ∧ L'.allsch = L.allsch ∧
      ∀ (H : Heap V) (i : Inst V) (q n : Nat), H i.sch.lin = L' → i.valid = true →
        C.isStruct i.raw = true → i.sch.pos < L.allsch.length → q < i.sch.pos →
        (L.ver i.sch.pos).major ≤ 2 →
        translate C H (n + 1) i (L.ver q) = .err ⟨[.invalidLens]⟩ := by
  obtain ⟨L', h', hs, hl⟩ := C15_lenses_never_required h hg
  refine ⟨L', h', hs, ?_⟩
  intro H i q n hH hv hst hp hq h2
  have hver : ∀ k, L.ver k = L'.ver k := by
    intro k; unfold Lineage.ver Lineage.allv; rw [hs]
  have hc' : Contiguous L'.allv := by unfold Lineage.allv; rw [hs]; exact hc
  have hstr := Contiguous.strictV hc'
  rw [← hs] at hp
  rw [hver] at h2 ⊢
  have hq' : q < L'.allsch.length := by omega
  have hm : (H i.sch.lin).lensmap = [] := by rw [hH]; exact bind_lensmap_nil h' hg
  have hq2 : (L'.ver q).major ≤ 2 := Nat.le_trans (major_le hstr (by omega) hp) h2
  rw [translate_cue hm hv]
  unfold translateCue
  simp only [hH, schema_ver hstr hq', hst, Bool.not_true, Bool.false_eq_true, if_false]
  have hsteps : translateSteps C L' i.raw (L'.ver i.sch.pos) (L'.ver q) = .error := by
    unfold translateSteps
    rw [if_pos ((ver_less_iff hstr hq' hp).2 hq), flatidx_ver hc' hp h2, flatidx_ver hc' hq' hq2]
    simp only [Eval.ofOption_some, Eval.bind_ok, rangeDown]
    rw [if_neg (by omega)]
    obtain ⟨d, hd⟩ : ∃ d, ((i.sch.pos : Int) - (q : Int)).toNat = d + 1 :=
      ⟨i.sch.pos - q - 1, by omega⟩
    rw [hd, List.range_succ_eq_map]
    simp only [List.map_cons, Eval.ofOption_some, Eval.bind_ok, backSteps, hl, backwardLenses,
      List.filter_nil, applyLens, cueIdx, List.getElem?_nil]
    cases (if (0 : Int) ≤ (i.sch.pos : Int) - 1 - ((0 : Nat) : Int) then
      L'.allsch[((i.sch.pos : Int) - 1 - ((0 : Nat) : Int)).toNat]? else none) with
    | none => rfl
    | some sc =>
      simp only [Eval.ofOption_some, Eval.bind_ok]
      cases flatidx L'.allv sc.v with
      | none => rfl
      | some k => simp [Eval.bind]
  rw [hsteps]

/-- **C143**, the rest is false: a lineage with exactly the required lenses that binds, where a lens
gives nothing for some of the data its source schema accepts, so that valid data cannot be
translated; and a lineage that binds with its Go lenses, one of which refuses valid data. -/
theorem C143_refuted :
    ∃ L d, SetCue.bind (SetCue.lin [SetCue.sch 0 0 [1], SetCue.sch 1 0 [2]]
        [SetCue.lens ⟨1, 0⟩ ⟨0, 0⟩ [7], SetCue.lens ⟨0, 0⟩ ⟨1, 0⟩ [2]]) = .ok L ∧
      ExactLenses L ∧ Contiguous L.allv ∧
      validate SetCue.cue (fun _ => L) ⟨0, 1⟩ d = .ok (instAt 1 d) ∧
      SetCue.cue.marshals d = true ∧
      translate SetCue.cue (fun _ => L) 1 (instAt 1 d) ⟨0, 0⟩ = .err ⟨[.invalidLens]⟩ ∧
      ∃ G e, bindLineage SetCue.cue false (SetCue.withLenses threeVersions [])
          [.imperativeLenses (threeGoLenses threeHeap [9] [2] [3])] = .ok G ∧
        validate SetCue.cue (fun _ => G) ⟨0, 1⟩ [2] = .ok (instAt 1 [2]) ∧
        translate SetCue.cue (fun _ => G) 5 (instAt 1 [2]) ⟨0, 0⟩ = .err e := by
  refine ⟨_, [2], rfl, ?_, ⟨rfl, ?_⟩, rfl, rfl, rfl, _, _, rfl, rfl, rfl⟩
  · refine ⟨by decide, fun id => ?_⟩
    rw [← mem_requiredList]
    simp [Lineage.allv, requiredList, SetCue.lens, SetCue.lin, cueLenses, RawLens.cue?]
  · intro i hi
    rcases i with _ | i
    · right; rfl
    · exact absurd hi (by simp [Lineage.allv])

theorem threeExactBound_work : LensesWork SetCue.cue threeExactBound := by
  intro l hl p q hp hq hf ht x _ _
  simp only [threeExactBound, List.mem_cons, List.not_mem_nil, or_false] at hl
  have hq3 : q < 3 := hq
  rcases hl with rfl | rfl | rfl
  · match q, hq3, hq, ht with
    | 0, _, _, _ => exact ⟨⟨rfl, rfl, fun _ _ h => nomatch h⟩, rfl, rfl⟩
    | 1, _, _, ht => exact absurd ht (by decide)
    | 2, _, _, ht => exact absurd ht (by decide)
  · match q, hq3, hq, ht with
    | 0, _, _, ht => exact absurd ht (by decide)
    | 1, _, _, _ => exact ⟨⟨rfl, rfl, fun _ _ h => nomatch h⟩, rfl, rfl⟩
    | 2, _, _, ht => exact absurd ht (by decide)
  · match q, hq3, hq, ht with
    | 0, _, _, ht => exact absurd ht (by decide)
    | 1, _, _, ht => exact absurd ht (by decide)
    | 2, _, _, _ => exact ⟨⟨rfl, rfl, fun _ _ h => nomatch h⟩, rfl, rfl⟩

/-- The hypotheses are met: in a lineage 0.0, 0.1, 1.0 with CUE lenses data of every version can be
translated to every other, and a multiplexer for 0.0 takes them all. -/
example (p q : Nat) (d : SetCue.Val) (hq : q < 3)
    (hd : (p = 0 ∧ d = [1]) ∨ (p = 1 ∧ d = [2]) ∨ (p = 2 ∧ d = [3])) :
    ∃ j, translate SetCue.cue (fun _ => threeExactBound) 1 (instAt p d) (threeExactBound.ver q) =
      .ok (j, []) ∧ j.sch = ⟨0, q⟩ ∧ Genuine SetCue.cue (fun _ => threeExactBound) j := by
  have h2 : ∀ k, k < 3 → (threeExactBound.ver k).major ≤ 2 := by decide
  refine C143_translatable_cue_partial (H := fun _ => threeExactBound) (i := instAt p d)
    setCue_subsumeSound_concrete setCue_embedLaws (r := threeExact) (opts := []) (force := false)
    threeExactBound_eq (.inr (by simp)) rfl threeExactBound_contiguous threeExactBound_exact
    threeExactBound_work rfl ?_ ?_ ?_ hq (h2 q hq) 0
  · rcases hd with ⟨rfl, rfl⟩ | ⟨rfl, rfl⟩ | ⟨rfl, rfl⟩ <;> exact ⟨rfl, rfl, by decide, rfl⟩
  · rcases hd with ⟨rfl, rfl⟩ | ⟨rfl, rfl⟩ | ⟨rfl, rfl⟩ <;> rfl
  · rcases hd with ⟨rfl, rfl⟩ | ⟨rfl, rfl⟩ | ⟨rfl, rfl⟩ <;> decide

theorem threeGo_work :
    FunctionsWork SetCue.cue (fun _ => threeGo) 0 (threeGoLenses threeHeap [1] [2] [3]) := by
  intro l hl m hm i _ _ _ p hp ht
  have hp3 : p < 3 := hp
  simp only [threeGoLenses, List.mem_cons, List.not_mem_nil, or_false] at hl
  rcases hl with rfl | rfl | rfl <;> (injection hm with hm; subst hm)
  · match p, hp3, ht with
    | 0, _, _ => exact ⟨instAt 0 [1], rfl, ⟨rfl, rfl, by decide, rfl⟩, rfl⟩
    | 1, _, ht => exact absurd ht (by decide)
    | 2, _, ht => exact absurd ht (by decide)
  · match p, hp3, ht with
    | 0, _, ht => exact absurd ht (by decide)
    | 1, _, _ => exact ⟨instAt 1 [2], rfl, ⟨rfl, rfl, by decide, rfl⟩, rfl⟩
    | 2, _, ht => exact absurd ht (by decide)
  · match p, hp3, ht with
    | 0, _, ht => exact absurd ht (by decide)
    | 1, _, ht => exact absurd ht (by decide)
    | 2, _, _ => exact ⟨instAt 2 [3], rfl, ⟨rfl, rfl, by decide, rfl⟩, rfl⟩

/-- And with Go lenses: a multiplexer for 0.1 takes data of every version. -/
example (b : Nat) (hb : b = 1 ∨ b = 2 ∨ b = 3) :
    ∃ f j, newUntypedMux SetCue.cue (fun _ => threeGo) ⟨0, 1⟩ toyDecoder 6 = .ok f ∧
      f [b] = .ok (j, []) ∧ j.sch = ⟨0, 1⟩ ∧ Genuine SetCue.cue (fun _ => threeGo) j := by
  refine C143_mux_go_partial (d := [b]) setCue_pathsOk setCue_subsumeSound_concrete threeGo_eq
    (.inr (by simp)) (by simp [threeGoLenses, goLenses]) rfl (by decide) rfl threeGo_stay threeGo_work
    (by decide) (by decide) ?_ ?_ ?_
  · rcases hb with rfl | rfl | rfl <;> rfl
  · rcases hb with rfl | rfl | rfl <;> rfl
  · rcases hb with rfl | rfl | rfl
    · exact ⟨0, _, rfl, rfl⟩
    · exact ⟨1, _, rfl, rfl⟩
    · exact ⟨2, _, rfl, rfl⟩

end Thema.Props
