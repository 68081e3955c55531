import Verif.Lemmas.Exemplars

/-!
# C129, C130: the exemplar lineages
-/

namespace Thema.Props

open Thema Exemplars

/-- What binding an exemplar gives. -/
def exBound (r : RawLineage Val) : Lineage Val :=
  { name := r.name
    allsch := r.schemas.map fun x =>
      { v := x.version.getD synv0, schema := x.schema, body := x.body, examples := x.examples }
    lenses := cueLenses r
    lensmap := [] }

/-- **C129**: all exemplars can be bound, by `All` and by the functions for single ones. -/
theorem C129_bind (fatal : Bool) :
    (∀ p ∈ all, bindLineage (cue fatal) false p.1 p.2 = .ok (exBound p.1)) ∧
    ∀ r ∈ [narrowing, rename, defaultchange, expand, single],
      lineageForExemplar fatal false r [] = .ok (exBound r) := by
  constructor
  · cases fatal <;> simp only [all, List.forall_mem_cons] <;>
      refine ⟨?_, ?_, ?_, ?_, ?_, ?_, by simp⟩ <;> rfl
  · cases fatal <;> simp only [List.forall_mem_cons] <;>
      refine ⟨?_, ?_, ?_, ?_, ?_, by simp⟩ <;> rfl

variable {fatal : Bool} {H : Heap Val} {k n : Nat} {l : List (Str × Atom)} {i : Inst Val}

/-- The fields of a definition. -/
def exFields (l : List (String × Field)) : Fields := l.map fun e => (e.1.toList, e.2)

theorem ex_valid {L : Lineage Val} {p : Nat} {gs : Fields} (hH : H k = L) (hb : BodyIs L p gs)
    (hd : ∀ e ∈ gs, e.2.opt = true ∨ e.2.value = none) (hn : (l.map (·.1)).Nodup)
    (hv : validate (cue fatal) H ⟨k, p⟩ (data l) = .ok i) :
    i = ⟨data l, [], ⟨k, p⟩, true⟩ ∧ Rep (data l) (fun n => l.lookup n) ∧
      Fits gs (fun n => l.lookup n) ∧ LabelsIn gs (data l) := by
  obtain ⟨h1, h2⟩ := validate_inv hH hb hv
  exact ⟨h1, Rep.data hn, (valid_fits h2 hd).1, LabelsIn.data (valid_fits h2 hd).2⟩

/-- **C129** for the version that the instance has, for all exemplars. -/
theorem C129_same {r : RawLineage Val} (hr : r ∈ all.map (·.1)) {p : Nat}
    (hp : p < (exBound r).allsch.length) (hH : H k = exBound r) (hn : (l.map (·.1)).Nodup)
    (hv : validate (cue fatal) H ⟨k, p⟩ (data l) = .ok i) :
    translate (cue fatal) H (n + 1) i ((exBound r).ver p) = .ok (i, []) := by
  have hb : ∃ gs, BodyIs (exBound r) p gs ∧ (exBound r).Schema ((exBound r).ver p) = .ok p := by
    simp only [all, List.map, List.mem_cons, List.not_mem_nil, or_false] at hr
    rcases hr with rfl | rfl | rfl | rfl | rfl | rfl
    · rcases p with _ | _ | _ | _ | p <;> first
        | exact ⟨_, rfl, rfl⟩
        | exact absurd hp (by simp [exBound, defaultchange, Exemplars.lin])
    · rcases p with _ | _ | _ | _ | p <;> first
        | exact ⟨_, rfl, rfl⟩
        | exact absurd hp (by simp [exBound, disjunct, Exemplars.lin])
    · rcases p with _ | _ | _ | _ | p <;> first
        | exact ⟨_, rfl, rfl⟩
        | exact absurd hp (by simp [exBound, narrowing, Exemplars.lin])
    · rcases p with _ | _ | _ | _ | p <;> first
        | exact ⟨_, rfl, rfl⟩
        | exact absurd hp (by simp [exBound, rename, Exemplars.lin])
    · rcases p with _ | _ | _ | _ | p <;> first
        | exact ⟨_, rfl, rfl⟩
        | exact absurd hp (by simp [exBound, expand, Exemplars.lin])
    · rcases p with _ | _ | _ | _ | p <;> first
        | exact ⟨_, rfl, rfl⟩
        | exact absurd hp (by simp [exBound, single, Exemplars.lin])
  obtain ⟨gs, hb, hs⟩ := hb
  obtain ⟨rfl, hc⟩ := validate_inv hH hb hv
  exact translate_ok (steps := []) hH rfl hs rfl (by simp [translateSteps, SV.less]) rfl
    (Rep.data hn).concrete hb hc

/-! ### rename -/

/-- The fields of the schemas. -/
def renameBefore : Fields := exFields [("before", typ .str), ("unchanged", typ .str)]
def renameAfter : Fields := exFields [("after", typ .str), ("unchanged", typ .str)]

theorem rename_up {x : Val} {m : Str → Option Atom} (hH : H k = exBound rename) (hx : Rep x m)
    (hf : Fits renameBefore m) : ∃ y,
    translate (cue fatal) H (n + 1) ⟨x, [], ⟨k, 0⟩, true⟩ ⟨1, 0⟩ = .ok (⟨y, [], ⟨k, 1⟩, true⟩, []) ∧
    ∃ m', Rep y m' ∧ Fits renameAfter m' ∧ m' "after".toList = m "before".toList ∧
      m' "unchanged".toList = m "unchanged".toList := by
  obtain ⟨a, ha, hall⟩ := Fits.required hf (f := "before".toList) (g := typ .str) (by decide) rfl rfl
  obtain ⟨b, rfl⟩ := ex_str hall
  obtain ⟨a, hu, hall⟩ := Fits.required hf (f := "unchanged".toList) (g := typ .str) (by decide) rfl rfl
  obtain ⟨u, rfl⟩ := ex_str hall
  have hb' : input x "before" = some (.str b) := (hx.get _).trans ha
  have hu' : input x "unchanged" = some (.str u) := (hx.get _).trans hu
  have hfit : exFits renameAfter [("after".toList, .str b), ("unchanged".toList, .str u)] = true := rfl
  refine ⟨_, translate_lens (d := [("after".toList, .str b), ("unchanged".toList, .str u)])
    (gs := renameAfter) (ls := forwardLenses (exBound rename).lenses) (idx := 0)
    (l := ⟨⟨0, 0⟩, ⟨1, 0⟩, fun x => result [("after", input x "before"),
      ("unchanged", input x "unchanged")], fun _ => [], fun _ => false⟩)
    hH rfl rfl ?_ rfl rfl rfl rfl rfl rfl (by simp only [hb', hu']; rfl) (by simp) (by decide)
    (exFits_fits hfit) (exFits_in hfit) (.inr rfl), _, (Rep.data (by simp)).embed (exFits_fits hfit),
    exFits_fits hfit, ha.symm ▸ rfl, hu.symm ▸ rfl⟩
  obtain ⟨c, fs, rfl, _⟩ := hx
  rfl

theorem rename_down {x : Val} {m : Str → Option Atom} (hH : H k = exBound rename) (hx : Rep x m)
    (hf : Fits renameAfter m) : ∃ y,
    translate (cue fatal) H (n + 1) ⟨x, [], ⟨k, 1⟩, true⟩ ⟨0, 0⟩ = .ok (⟨y, [], ⟨k, 0⟩, true⟩, []) ∧
    ∃ m', Rep y m' ∧ Fits renameBefore m' ∧ m' "before".toList = m "after".toList ∧
      m' "unchanged".toList = m "unchanged".toList := by
  obtain ⟨a, ha, hall⟩ := Fits.required hf (f := "after".toList) (g := typ .str) (by decide) rfl rfl
  obtain ⟨b, rfl⟩ := ex_str hall
  obtain ⟨a, hu, hall⟩ := Fits.required hf (f := "unchanged".toList) (g := typ .str) (by decide) rfl rfl
  obtain ⟨u, rfl⟩ := ex_str hall
  have hb' : input x "after" = some (.str b) := (hx.get _).trans ha
  have hu' : input x "unchanged" = some (.str u) := (hx.get _).trans hu
  have hfit : exFits renameBefore [("before".toList, .str b), ("unchanged".toList, .str u)] = true := rfl
  refine ⟨_, translate_lens (d := [("before".toList, .str b), ("unchanged".toList, .str u)])
    (gs := renameBefore) (ls := backwardLenses (exBound rename).lenses) (idx := 0)
    (l := ⟨⟨1, 0⟩, ⟨0, 0⟩, fun x => result [("before", input x "after"),
      ("unchanged", input x "unchanged")], fun _ => [], fun _ => false⟩)
    hH rfl rfl ?_ rfl rfl rfl rfl rfl rfl (by simp only [hb', hu']; rfl) (by simp) (by decide)
    (exFits_fits hfit) (exFits_in hfit) (.inr rfl), _, (Rep.data (by simp)).embed (exFits_fits hfit),
    exFits_fits hfit, ha.symm ▸ rfl, hu.symm ▸ rfl⟩
  obtain ⟨c, fs, rfl, _⟩ := hx
  rfl

/-- **C129** for the exemplar `rename`. -/
theorem C129_rename (hH : H k = exBound rename) (hn : (l.map (·.1)).Nodup) {p q : Nat} (hp : p < 2)
    (hq : q < 2) (hv : validate (cue fatal) H ⟨k, p⟩ (data l) = .ok i) :
    ∃ j lacs, translate (cue fatal) H (n + 1) i ((exBound rename).ver q) = .ok (j, lacs) ∧
      j.sch = ⟨k, q⟩ := by
  rcases p with _ | _ | p
  · obtain ⟨rfl, hr, hf, _⟩ := ex_valid (p := 0) (gs := renameBefore) hH rfl (by decide) hn hv
    rcases q with _ | _ | q
    · exact ⟨_, _, C129_same (by simp [all]) (by decide) hH hn hv, rfl⟩
    · obtain ⟨y, h, _⟩ := rename_up (fatal := fatal) (n := n) hH hr hf
      exact ⟨_, _, h, rfl⟩
    · omega
  · obtain ⟨rfl, hr, hf, _⟩ := ex_valid (p := 1) (gs := renameAfter) hH rfl (by decide) hn hv
    rcases q with _ | _ | q
    · obtain ⟨y, h, _⟩ := rename_down (fatal := fatal) (n := n) hH hr hf
      exact ⟨_, _, h, rfl⟩
    · exact ⟨_, _, C129_same (by simp [all]) (by decide) hH hn hv, rfl⟩
    · omega
  · omega

/-- The fields of an instance, as far as they have values, are these. -/
theorem fits_none {gs : Fields} {m : Str → Option Atom} (h : Fits gs m) {f : Str}
    (hl : gs.lookup f = none) : m f = none := by
  cases hm : m f with
  | none => rfl
  | some a =>
    obtain ⟨g, hg, _⟩ := h.1 _ _ hm
    rw [hl] at hg; cases hg

/-- **C130** for the exemplar `rename`: the field is renamed, the other one is kept, and there are no
others.  Translating back restores the data. -/
theorem C130_rename (hH : H k = exBound rename) (hn : (l.map (·.1)).Nodup)
    (hv : validate (cue fatal) H ⟨k, 0⟩ (data l) = .ok i) :
    ∃ j j', translate (cue fatal) H (n + 1) i ⟨1, 0⟩ = .ok (j, []) ∧
      translate (cue fatal) H (n + 1) j ⟨0, 0⟩ = .ok (j', []) ∧
      j.raw.get "after".toList = l.lookup "before".toList ∧
      j.raw.get "unchanged".toList = l.lookup "unchanged".toList ∧
      (∀ f, f ≠ "after".toList → f ≠ "unchanged".toList → j.raw.get f = none) ∧
      ∀ f, j'.raw.get f = l.lookup f := by
  obtain ⟨rfl, hr, hf, _⟩ := ex_valid (p := 0) (gs := renameBefore) hH rfl (by decide) hn hv
  obtain ⟨y, h, m, hm, hfm, h1, h2⟩ := rename_up (fatal := fatal) (n := n) hH hr hf
  obtain ⟨z, h', m', hm', hfm', h3, h4⟩ := rename_down (fatal := fatal) (n := n) hH hm hfm
  refine ⟨_, _, h, h', (hm.get _).trans h1, (hm.get _).trans h2, fun f hfa hfu => ?_, fun f => ?_⟩
  · have e1 : (f == "after".toList) = false := by simpa using hfa
    have e2 : (f == "unchanged".toList) = false := by simpa using hfu
    refine (hm.get f).trans (fits_none hfm ?_)
    simp only [renameAfter, exFields, List.map, List.lookup, e1, e2]
  · refine (hm'.get f).trans ?_
    by_cases e1 : f = "before".toList
    · rw [e1, h3, h1]
    · by_cases e2 : f = "unchanged".toList
      · rw [e2, h4, h2]
      · have e1 : (f == "before".toList) = false := by simpa using e1
        have e2 : (f == "unchanged".toList) = false := by simpa using e2
        have hl : renameBefore.lookup f = none := by
          simp only [renameBefore, exFields, List.map, List.lookup, e1, e2]
        exact (fits_none hfm' hl).trans (fits_none hf hl).symm

/-! ### narrowing -/

/-- The fields of the schemas. -/
def narrowingWide : Fields := exFields [("boolish",
  { alts := [.const (s "true"), .const (s "false"), .kind .bool, .kind .str] })]
def narrowingBool : Fields := exFields [("properbool", typ .bool)]

/-- The lens upwards. -/
def narrowingUp : CueLens Val :=
  ⟨⟨0, 0⟩, ⟨1, 0⟩,
    (fun x => match input x "boolish" with
      | some (.str t) => result [("properbool", some (.bool (.str t = s "true")))]
      | some (.bool b) => result [("properbool", some (.bool b))]
      | _ => result []),
    (fun x => match input x "boolish" with
      | some (.str t) =>
        if .str t = s "true" ∨ .str t = s "false" then [] else [⟨true, lossyFieldMapping⟩]
      | _ => []), fun _ => false⟩

/-- The meaning of `boolish`: strings other than `"true"` are false. -/
def boolishMeaning : Atom → Bool
  | .bool b => b
  | .str t => t = "true".toList
  | _ => false

/-- Values of `boolish` that have a meaning as a boolean. -/
def boolishClear : Atom → Prop
  | .bool _ => True
  | .str t => t = "true".toList ∨ t = "false".toList
  | _ => False

theorem boolish_cases {a : Atom} {g : Field}
    (hg : g = { alts := [.const (s "true"), .const (s "false"), .kind .bool, .kind .str] })
    (h : g.allows a = true) : (∃ b, a = .bool b) ∨ ∃ t, a = .str t := by
  subst hg
  cases a <;> simp [Field.allows, Alt.meet, Atom.kind, s] at h ⊢

theorem narrowing_up {x : Val} {m : Str → Option Atom} (hH : H k = exBound narrowing)
    (hx : Rep x m) {a : Atom} (ha : m "boolish".toList = some a)
    (hall : (∃ b, a = .bool b) ∨ ∃ t, a = .str t) (hc : fatal = false ∨ boolishClear a) :
    ∃ y,
    translate (cue fatal) H (n + 1) ⟨x, [], ⟨k, 0⟩, true⟩ ⟨1, 0⟩ = .ok (⟨y, [], ⟨k, 1⟩, true⟩, []) ∧
    ∃ m', Rep y m' ∧ Fits narrowingBool m' ∧
      m' "properbool".toList = some (.bool (boolishMeaning a)) := by
  have hb : input x "boolish" = some a := (hx.get _).trans ha
  have hfit : exFits narrowingBool [("properbool".toList, .bool (boolishMeaning a))] = true := rfl
  refine ⟨_, translate_lens (d := [("properbool".toList, .bool (boolishMeaning a))])
    (gs := narrowingBool) (ls := forwardLenses (exBound narrowing).lenses) (idx := 0)
    (l := narrowingUp)
    hH rfl rfl ?_ rfl rfl rfl rfl rfl rfl ?_ (by simp) (by decide)
    (exFits_fits hfit) (exFits_in hfit) ?_, _, (Rep.data (by simp)).embed (exFits_fits hfit),
    exFits_fits hfit, rfl⟩
  · obtain ⟨c, fs, rfl, _⟩ := hx
    rfl
  · simp only [narrowingUp, hb]
    rcases hall with ⟨b, rfl⟩ | ⟨t, rfl⟩
    · rfl
    · simp only [boolishMeaning, s, Atom.str.injEq]
      rfl
  · rcases hc with h | h
    · exact .inl h
    · refine .inr ?_
      simp only [narrowingUp, hb]
      rcases hall with ⟨b, rfl⟩ | ⟨t, rfl⟩
      · rfl
      · have h : t = "true".toList ∨ t = "false".toList := h
        simp only [s, Atom.str.injEq, if_pos h]
        rfl

theorem narrowing_up_fatal {x : Val} {m : Str → Option Atom} (hH : H k = exBound narrowing)
    (hx : Rep x m) {t : Str} (ha : m "boolish".toList = some (.str t))
    (hc : ¬ boolishClear (.str t)) :
    translate (cue true) H (n + 1) ⟨x, [], ⟨k, 0⟩, true⟩ ⟨1, 0⟩ = .err ⟨[.invalidLens]⟩ := by
  have hb : input x "boolish" = some (.str t) := (hx.get _).trans ha
  refine lens_fatal (gs := narrowingBool) (ls := [narrowingUp]) (idx := 0) (l := narrowingUp) hH rfl
    (q := 1) rfl ?_ rfl rfl ?_
  · obtain ⟨c, fs, rfl, _⟩ := hx
    rfl
  · have h : ¬ (t = "true".toList ∨ t = "false".toList) := hc
    simp only [narrowingUp, hb, s, Atom.str.injEq, if_neg h]
    rfl

theorem narrowing_down {x : Val} {m : Str → Option Atom} (hH : H k = exBound narrowing)
    (hx : Rep x m) (hf : Fits narrowingBool m) : ∃ y,
    translate (cue fatal) H (n + 1) ⟨x, [], ⟨k, 1⟩, true⟩ ⟨0, 0⟩ = .ok (⟨y, [], ⟨k, 0⟩, true⟩, []) ∧
    ∃ m', Rep y m' ∧ Fits narrowingWide m' ∧ m' "boolish".toList = m "properbool".toList := by
  obtain ⟨a, ha, hall⟩ :=
    Fits.required hf (f := "properbool".toList) (g := typ .bool) (by decide) rfl rfl
  obtain ⟨b, rfl⟩ := ex_bool hall
  have hb : input x "properbool" = some (.bool b) := (hx.get _).trans ha
  have hfit : exFits narrowingWide [("boolish".toList, .bool b)] = true := rfl
  refine ⟨_, translate_lens (d := [("boolish".toList, .bool b)])
    (gs := narrowingWide) (ls := backwardLenses (exBound narrowing).lenses) (idx := 0)
    (l := ⟨⟨1, 0⟩, ⟨0, 0⟩, fun x => result [("boolish", input x "properbool")], fun _ => [],
      fun _ => false⟩)
    hH rfl rfl ?_ rfl rfl rfl rfl rfl rfl (by simp only [hb]; rfl) (by simp) (by decide)
    (exFits_fits hfit) (exFits_in hfit) (.inr rfl), _, (Rep.data (by simp)).embed (exFits_fits hfit),
    exFits_fits hfit, ha.symm ▸ rfl⟩
  obtain ⟨c, fs, rfl, _⟩ := hx
  rfl

/-- The value of `boolish` in valid data. -/
theorem narrowing_valid (hH : H k = exBound narrowing) (hn : (l.map (·.1)).Nodup)
    (hv : validate (cue fatal) H ⟨k, 0⟩ (data l) = .ok i) :
    i = ⟨data l, [], ⟨k, 0⟩, true⟩ ∧ Rep (data l) (fun n => l.lookup n) ∧
      ∃ a, l.lookup "boolish".toList = some a ∧ ((∃ b, a = .bool b) ∨ ∃ t, a = .str t) := by
  obtain ⟨h1, h2, h3, _⟩ := ex_valid (p := 0) (gs := narrowingWide) hH rfl (by decide) hn hv
  obtain ⟨a, ha, hall⟩ := Fits.required h3 (f := "boolish".toList) (by decide) rfl rfl
  exact ⟨h1, h2, a, ha, boolish_cases rfl hall⟩

/-- **C129** for the exemplar `narrowing`, downwards and, if references of `#Translate` to the field
`lacuna` are not fatal (`Cue.lacunaRefFatal`) or the value is clearly a boolean, upwards.  (Missing:
the other strings if they are, see `C129_lacuna_fatal`.) -/
theorem C129_narrowing_partial (hH : H k = exBound narrowing) (hn : (l.map (·.1)).Nodup) :
    (validate (cue fatal) H ⟨k, 0⟩ (data l) = .ok i →
      (fatal = false ∨ ∀ a, l.lookup "boolish".toList = some a → boolishClear a) →
      ∃ j lacs, translate (cue fatal) H (n + 1) i ⟨1, 0⟩ = .ok (j, lacs) ∧ j.sch = ⟨k, 1⟩) ∧
    (validate (cue fatal) H ⟨k, 1⟩ (data l) = .ok i →
      ∃ j lacs, translate (cue fatal) H (n + 1) i ⟨0, 0⟩ = .ok (j, lacs) ∧ j.sch = ⟨k, 0⟩) := by
  refine ⟨fun hv hc => ?_, fun hv => ?_⟩
  · obtain ⟨rfl, hr, a, ha, hall⟩ := narrowing_valid hH hn hv
    obtain ⟨y, h, _⟩ := narrowing_up (n := n) hH hr ha hall (hc.imp id fun h => h a ha)
    exact ⟨_, _, h, rfl⟩
  · obtain ⟨rfl, hr, hf, _⟩ := ex_valid (p := 1) (gs := narrowingBool) hH rfl (by decide) hn hv
    obtain ⟨y, h, _⟩ := narrowing_down (fatal := fatal) (n := n) hH hr hf
    exact ⟨_, _, h, rfl⟩

/-- **C129** is false for the exemplar `narrowing` if references to the field `lacuna` are fatal:
instances with a string other than `"true"` and `"false"`, for which the lens has a lacuna, cannot
be translated. -/
theorem C129_lacuna_fatal (hH : H k = exBound narrowing) (hn : (l.map (·.1)).Nodup)
    (hv : validate (cue true) H ⟨k, 0⟩ (data l) = .ok i) {a : Atom}
    (ha : l.lookup "boolish".toList = some a) (hc : ¬ boolishClear a) :
    translate (cue true) H (n + 1) i ⟨1, 0⟩ = .err ⟨[.invalidLens]⟩ := by
  obtain ⟨rfl, hr, a', ha', hall⟩ := narrowing_valid hH hn hv
  rw [ha] at ha'
  injection ha' with ha'
  subst ha'
  rcases hall with ⟨b, rfl⟩ | ⟨t, rfl⟩
  · exact absurd trivial hc
  · exact narrowing_up_fatal hH hr ha hc

/-- **C130** for the exemplar `narrowing`: booleans stay what they are, `"true"` becomes true, all
other strings become false; downwards booleans stay what they are. -/
theorem C130_narrowing (hH : H k = exBound narrowing) (hn : (l.map (·.1)).Nodup) {j : Inst Val}
    {lacs : List Lac} :
    (validate (cue fatal) H ⟨k, 0⟩ (data l) = .ok i →
      translate (cue fatal) H (n + 1) i ⟨1, 0⟩ = .ok (j, lacs) →
      ∃ a, l.lookup "boolish".toList = some a ∧
        j.raw.get "properbool".toList = some (.bool (boolishMeaning a))) ∧
    (validate (cue fatal) H ⟨k, 1⟩ (data l) = .ok i →
      translate (cue fatal) H (n + 1) i ⟨0, 0⟩ = .ok (j, lacs) →
      j.raw.get "boolish".toList = l.lookup "properbool".toList) := by
  refine ⟨fun hv ht => ?_, fun hv ht => ?_⟩
  · obtain ⟨rfl, hr, a, ha, hall⟩ := narrowing_valid hH hn hv
    by_cases hc : fatal = false ∨ boolishClear a
    · obtain ⟨y, h, m, hm, _, h1⟩ := narrowing_up (n := n) hH hr ha hall hc
      rw [h] at ht
      injection ht with ht
      injection ht with ht
      subst ht
      exact ⟨a, ha, (hm.get _).trans h1⟩
    · have hf : fatal = true := by
        cases fatal
        · exact absurd (.inl rfl) hc
        · rfl
      subst hf
      rw [C129_lacuna_fatal hH hn hv ha (fun h => hc (.inr h))] at ht
      cases ht
  · obtain ⟨rfl, hr, hf, _⟩ := ex_valid (p := 1) (gs := narrowingBool) hH rfl (by decide) hn hv
    obtain ⟨y, h, m, hm, _, h1⟩ := narrowing_down (fatal := fatal) (n := n) hH hr hf
    rw [h] at ht
    injection ht with ht
    injection ht with ht
    subst ht
    exact (hm.get _).trans h1

/-! ### defaultchange -/

/-- The field of the schemas. -/
def aunionFields (d : Atom) : Fields := exFields [("aunion",
  { alts := [.const (s "foo"), .const (s "bar"), .const (s "baz")], dflt := some d })]

/-- The defaults of the two versions. -/
def exDefault : Nat → Atom
  | 0 => s "foo"
  | _ => s "bar"

/-- The lenses. -/
def aunionLens (v w : SV) (old new : Atom) : CueLens Val :=
  ⟨v, w, changeDefault old new, changeDefaultLacunas, fun _ => false⟩

theorem aunion_keys {d : Atom} (h : concrete (unify (.obj true (aunionFields d)) (data l)) = true) :
    l.lookup "anion".toList = none := by
  cases ha : l.lookup "anion".toList with
  | none => rfl
  | some a =>
    have : ((aunionFields d).lookup "anion".toList).isSome = true := valid_within h _ (lookup_mem ha)
    have h' : ("anion".toList == "aunion".toList) = false := by decide
    simp only [aunionFields, exFields, List.map, List.lookup, h'] at this
    cases this

theorem changeDefault_stuck (hn : (l.map (·.1)).Nodup) {old new : Atom}
    (hk : l.lookup "anion".toList = none) (hne : l.lookup "aunion".toList ≠ some old) :
    changeDefault old new (data l) = .stuck := by
  have h1 : input (data l) "aunion" = l.lookup "aunion".toList := (Rep.data hn).get _
  have h2 : input (data l) "anion" = none := ((Rep.data hn).get _).trans hk
  unfold changeDefault
  rw [h1, h2]
  cases ha : l.lookup "aunion".toList with
  | none => rfl
  | some a =>
    have : a ≠ old := fun e => hne (e ▸ ha)
    simp only [this, if_false]
    rfl

/-- **C129** is false for the exemplar `defaultchange`: instances whose `aunion` does not have the
default of their version cannot be translated to the other version.  (The lenses refer to
`input.anion`.) -/
theorem C129_defaultchange_fails (hH : H k = exBound defaultchange) (hn : (l.map (·.1)).Nodup)
    {p q : Nat} (hp : p < 2) (hq : q < 2) (hpq : p ≠ q)
    (hv : validate (cue fatal) H ⟨k, p⟩ (data l) = .ok i)
    (hd : l.lookup "aunion".toList ≠ some (exDefault p)) :
    ∃ e, translate (cue fatal) H (n + 1) i ((exBound defaultchange).ver q) = .err e := by
  rcases p with _ | _ | p
  · rcases q with _ | _ | q
    · exact absurd rfl hpq
    · obtain ⟨rfl, hc⟩ := validate_inv (gs := aunionFields (s "foo")) (p := 0) hH rfl hv
      refine lens_fails (gs := aunionFields (s "bar"))
        (ls := forwardLenses (exBound defaultchange).lenses) (idx := 0)
        (l := aunionLens ⟨0, 0⟩ ⟨1, 0⟩ (s "foo") (s "bar")) hH rfl (q := 1) rfl rfl rfl rfl ?_
      show concrete (embed (changeDefault (s "foo") (s "bar") (data l)) _) = false
      rw [show changeDefault (s "foo") (s "bar") (data l) = .stuck from
        changeDefault_stuck hn (aunion_keys hc) hd]
      rfl
    · omega
  · rcases q with _ | _ | q
    · obtain ⟨rfl, hc⟩ := validate_inv (gs := aunionFields (s "bar")) (p := 1) hH rfl hv
      refine lens_fails (gs := aunionFields (s "foo"))
        (ls := backwardLenses (exBound defaultchange).lenses) (idx := 0)
        (l := aunionLens ⟨1, 0⟩ ⟨0, 0⟩ (s "bar") (s "foo")) hH rfl (q := 0) rfl rfl rfl rfl ?_
      show concrete (embed (changeDefault (s "bar") (s "foo") (data l)) _) = false
      rw [show changeDefault (s "bar") (s "foo") (data l) = .stuck from
        changeDefault_stuck hn (aunion_keys hc) hd]
      rfl
    · exact absurd rfl hpq
    · omega
  · omega

/-- If references to the field `lacuna` are fatal, no instance of the first version of
`defaultchange` can be translated. -/
theorem C129_defaultchange_fatal (hH : H k = exBound defaultchange) (hn : (l.map (·.1)).Nodup)
    (hv : validate (cue true) H ⟨k, 0⟩ (data l) = .ok i) :
    ∃ e, translate (cue true) H (n + 1) i ⟨1, 0⟩ = .err e := by
  by_cases hd : l.lookup "aunion".toList = some (s "foo")
  · obtain ⟨rfl, hc⟩ := validate_inv (gs := aunionFields (s "foo")) (p := 0) hH rfl hv
    refine ⟨_, lens_fatal (gs := aunionFields (s "bar"))
      (ls := forwardLenses (exBound defaultchange).lenses) (idx := 0)
      (l := aunionLens ⟨0, 0⟩ ⟨1, 0⟩ (s "foo") (s "bar")) hH rfl (q := 1) rfl rfl rfl rfl ?_⟩
    have h1 : input (data l) "aunion" = some (s "foo") := ((Rep.data hn).get _).trans hd
    simp only [aunionLens, changeDefaultLacunas, h1, if_true]
    rfl
  · exact C129_defaultchange_fails (q := 1) hH hn (by omega) (by omega) (by omega) hv hd

/-- **C130** for the exemplar `defaultchange`: the old default becomes the new one, downwards and,
if references to the field `lacuna` are not fatal, upwards.  (Missing: all other values, see
`C129_defaultchange_fails`.) -/
theorem C130_defaultchange_partial (hH : H k = exBound defaultchange) (hn : (l.map (·.1)).Nodup)
    {p q : Nat} (hp : p < 2) (hq : q < 2) (hpq : p ≠ q)
    (hv : validate (cue fatal) H ⟨k, p⟩ (data l) = .ok i)
    (hd : l.lookup "aunion".toList = some (exDefault p)) (hf : fatal = false ∨ p = 1) :
    ∃ j, translate (cue fatal) H (n + 1) i ((exBound defaultchange).ver q) = .ok (j, []) ∧
      j.sch = ⟨k, q⟩ ∧ j.raw.get "aunion".toList = some (exDefault q) := by
  rcases p with _ | _ | p
  · rcases q with _ | _ | q
    · exact absurd rfl hpq
    · obtain ⟨rfl, hc⟩ := validate_inv (gs := aunionFields (s "foo")) (p := 0) hH rfl hv
      have h1 : input (data l) "aunion" = some (s "foo") := ((Rep.data hn).get _).trans hd
      have hfit : exFits (aunionFields (s "bar")) [("aunion".toList, s "bar")] = true := by decide
      refine ⟨_, translate_lens (d := [("aunion".toList, s "bar")]) (gs := aunionFields (s "bar"))
        (ls := forwardLenses (exBound defaultchange).lenses) (idx := 0)
        (l := aunionLens ⟨0, 0⟩ ⟨1, 0⟩ (s "foo") (s "bar")) hH rfl (q := 1) rfl rfl rfl rfl rfl rfl
        rfl rfl ?_ (by simp) (by decide) (exFits_fits hfit) (exFits_in hfit) (.inl (hf.resolve_right (by omega))), rfl,
        ((Rep.data (by simp)).embed (exFits_fits hfit)).get _⟩
      show changeDefault (s "foo") (s "bar") (data l) = _
      simp only [changeDefault, h1, if_true]
      rfl
    · omega
  · rcases q with _ | _ | q
    · obtain ⟨rfl, hc⟩ := validate_inv (gs := aunionFields (s "bar")) (p := 1) hH rfl hv
      have h1 : input (data l) "aunion" = some (s "bar") := ((Rep.data hn).get _).trans hd
      have hfit : exFits (aunionFields (s "foo")) [("aunion".toList, s "foo")] = true := by decide
      refine ⟨_, translate_lens (d := [("aunion".toList, s "foo")]) (gs := aunionFields (s "foo"))
        (ls := backwardLenses (exBound defaultchange).lenses) (idx := 0)
        (l := aunionLens ⟨1, 0⟩ ⟨0, 0⟩ (s "bar") (s "foo")) hH rfl (q := 0) rfl rfl rfl rfl rfl rfl
        rfl rfl ?_ (by simp) (by decide) (exFits_fits hfit) (exFits_in hfit) (.inr ?_), rfl,
        ((Rep.data (by simp)).embed (exFits_fits hfit)).get _⟩
      · show changeDefault (s "bar") (s "foo") (data l) = _
        simp only [changeDefault, h1, if_true]
        rfl
      · simp only [aunionLens, changeDefaultLacunas, h1]
        rfl
    · exact absurd rfl hpq
    · omega
  · omega

/-- **C130** is false for the exemplar `defaultchange`: the lens back to the first version does not
report that it changes the default. -/
theorem C130_defaultchange_lacuna (hn : (l.map (·.1)).Nodup)
    (hd : l.lookup "aunion".toList = some (exDefault 1)) :
    ∃ st, translateSteps (cue fatal) (exBound defaultchange) (data l) ⟨1, 0⟩ ⟨0, 0⟩ = .ok [st] ∧
      st.result.get "aunion".toList = some (exDefault 0) ∧ st.emitted = [] := by
  have h1 : input (data l) "aunion" = some (s "bar") := ((Rep.data hn).get _).trans hd
  have hfit : exFits (aunionFields (s "foo")) [("aunion".toList, s "foo")] = true := by decide
  have hlac : (aunionLens ⟨1, 0⟩ ⟨0, 0⟩ (s "bar") (s "foo")).lacunas (data l) = [] := by
    simp only [aunionLens, changeDefaultLacunas, h1]
    rfl
  have hrun : (aunionLens ⟨1, 0⟩ ⟨0, 0⟩ (s "bar") (s "foo")).run (data l) =
      data [("aunion".toList, s "foo")] := by
    show changeDefault (s "bar") (s "foo") (data l) = _
    simp only [changeDefault, h1, if_true]
    rfl
  have h := applyLens_ok (fatal := fatal) (ls := backwardLenses (exBound defaultchange).lenses)
    (idx := 0) (v := ⟨1, 0⟩) (x := data l) (sch := defOf ⟨0, 0⟩ (aunionFields (s "foo")))
    (l := aunionLens ⟨1, 0⟩ ⟨0, 0⟩ (s "bar") (s "foo")) rfl rfl rfl rfl hrun
    (Rep.data (by simp)) rfl (exFits_fits hfit) (.inr (by rw [hlac]; rfl))
  have hr : translateSteps (cue fatal) (exBound defaultchange) (data l) ⟨1, 0⟩ ⟨0, 0⟩ =
    (applyLens (cue fatal) (backwardLenses (exBound defaultchange).lenses) 0 ⟨1, 0⟩ (data l)
      (defOf ⟨0, 0⟩ (aunionFields (s "foo")))).bind fun s => .ok [s] := rfl
  rw [hr, h]
  refine ⟨_, rfl, ((Rep.data (by simp)).embed (exFits_fits hfit)).get _, ?_⟩
  simp only [hlac]
  rfl

/-! ### disjunct -/

/-- The fields of the schemas. -/
def disjunctTwo : Fields := exFields [("rootfield", { alts := [.kind .one, .kind .two] })]
def disjunctThree : Fields := exFields [("rootfield",
  { alts := [.kind .one, .kind .two, .kind .threeInt, .kind .threeStr] })]

/-- **C129** is false for the exemplar `disjunct`: no instance of the second version can be
translated to the first one, not even if it is one of both. -/
theorem C129_disjunct_down (hH : H k = exBound disjunct)
    (hv : validate (cue fatal) H ⟨k, 1⟩ (data l) = .ok i) :
    ∃ e, translate (cue fatal) H (n + 1) i ⟨0, 0⟩ = .err e := by
  obtain ⟨rfl, hc⟩ := validate_inv (gs := disjunctThree) (p := 1) hH rfl hv
  exact lens_fails (gs := disjunctTwo) (ls := backwardLenses (exBound disjunct).lenses) (idx := 0)
    (l := ⟨⟨0, 1⟩, ⟨0, 0⟩, fun _ => result [], fun _ => [], fun _ => false⟩) hH rfl (q := 0) rfl rfl
    rfl rfl rfl


/-- Steps up within a major version. -/
theorem minor_up {L : Lineage Val} {p q : Nat} {x : Val} {m : Str → Option Atom} {to : SV}
    {schs : List (SchemaDef Val)} {gs : Fields} (hH : H k = L) (hl : L.lensmap = [])
    (hs : L.Schema to = .ok q) (hx : Rep x m) (hlab : LabelsIn gs x)
    (hr : translateSteps (cue fatal) L x (L.ver p) to = fwdSteps (cue fatal) L schs (L.ver p) x)
    (hb : BodyIs L q gs) (hnd : (gs.map (·.1)).Nodup) (hfit : Fits gs m)
    (hlast : schs.getLast? = some (defOf to gs))
    (h : ∀ sch ∈ schs, sch.v.major = (L.ver p).major ∧ ∃ gs', sch.body = .obj true gs' ∧
      Fits gs' m ∧ ∀ e ∈ gs', (gs.lookup e.1).isSome = true) :
    ∃ y, translate (cue fatal) H (n + 1) ⟨x, [], ⟨k, p⟩, true⟩ to =
      .ok (⟨y, [], ⟨k, q⟩, true⟩, []) ∧ Rep y m := by
  obtain ⟨steps, h1, h2, h3⟩ := fwdSteps_minor (fatal := fatal) (L := L) (hs := gs) schs (L.ver p) x
    hx hlab h
  refine ⟨_, translate_ok hH hl hs ?_ (hr.trans h1) rfl h2.concrete hb
    (h2.valid hfit (h3 _ hlast rfl) hnd), h2⟩
  obtain ⟨c, fs, rfl, _⟩ := hx
  rfl

/-- All data of one schema are data of another one, decided. -/
def exMono (gs hs : Fields) : Bool :=
  (gs.all fun e => match hs.lookup e.1 with
    | some f => e.2.alts.all fun a => decide (a ∈ f.alts)
    | none => false) &&
  hs.all fun e => e.2.opt || gs.any fun g => (g.1 == e.1) && !g.2.opt

theorem exMono_fits {gs hs : Fields} (h : exMono gs hs = true) {m : Str → Option Atom}
    (hf : Fits gs m) : Fits hs m := by
  simp only [exMono, Bool.and_eq_true, List.all_eq_true, Bool.or_eq_true, List.any_eq_true,
    beq_iff_eq] at h
  refine hf.mono (fun e he => ?_) (fun e he => (h.2 e he).imp id ?_)
  · have := h.1 e he
    split at this
    · rename_i f hl
      exact ⟨f, hl, fun a ha => by simpa using List.all_eq_true.1 this a ha⟩
    · cases this
  · rintro ⟨g, hg, h1, h2⟩
    exact ⟨g.2, h1 ▸ hg, by simpa using h2⟩

theorem exMono_keys {gs hs : Fields} (h : exMono gs hs = true) {n : Str}
    (hn : (gs.lookup n).isSome = true) : (hs.lookup n).isSome = true := by
  obtain ⟨g, hg⟩ := Option.isSome_iff_exists.1 hn
  simp only [exMono, Bool.and_eq_true, List.all_eq_true] at h
  have := h.1 _ (lookup_mem hg)
  dsimp only at this
  split at this
  · rename_i f hl
    rw [hl]; rfl
  · cases this

/-- **C129** and **C130** for the exemplar `disjunct`, upwards: the data stay the same.  (Missing:
downwards, see `C129_disjunct_down`.) -/
theorem C129_disjunct_partial (hH : H k = exBound disjunct) (hn : (l.map (·.1)).Nodup)
    (hv : validate (cue fatal) H ⟨k, 0⟩ (data l) = .ok i) :
    ∃ j, translate (cue fatal) H (n + 1) i ⟨0, 1⟩ = .ok (j, []) ∧ j.sch = ⟨k, 1⟩ ∧
      ∀ f, j.raw.get f = l.lookup f := by
  obtain ⟨rfl, hr, hf, hlab⟩ := ex_valid (p := 0) (gs := disjunctTwo) hH rfl (by decide) hn hv
  have hf' : Fits disjunctThree (fun n => l.lookup n) := exMono_fits rfl hf
  have hlab' : LabelsIn disjunctThree (data l) := by
    obtain ⟨c, fs, h, h'⟩ := hlab
    exact ⟨c, fs, h, fun e he => exMono_keys rfl (h' e he)⟩
  obtain ⟨y, h, hy⟩ := minor_up (fatal := fatal) (n := n) (p := 0) (q := 1) (to := ⟨0, 1⟩)
    (schs := [defOf ⟨0, 1⟩ disjunctThree]) (gs := disjunctThree) hH rfl rfl hr hlab' rfl rfl
    (by decide) hf' rfl (by
      simp only [List.mem_singleton, forall_eq]
      exact ⟨rfl, _, rfl, hf', fun e he => lookup_isSome_of_mem he⟩)
  exact ⟨_, h, rfl, fun f => hy.get f⟩

/-! ### expand -/

/-- The fields of the schemas. -/
def expandAt : Nat → Fields
  | 0 => exFields [("init", typ .str)]
  | 1 => exFields [("init", typ .str), optInt]
  | 2 => exFields [("init", typ .str), optInt, withDefault ["foo", "bar"]]
  | _ => exFields [("init", typ .str), optInt, withDefault ["foo", "bar", "baz"]]

/-- The part of data that the fields have. -/
def exRestrict (gs : Fields) (m : Str → Option Atom) (n : Str) : Option Atom :=
  if (gs.lookup n).isSome then m n else none

/-- The schemas of the versions after `p` up to `q`. -/
def expandUpTo (p q : Nat) : List (SchemaDef Val) :=
  ((List.range (q - p)).map (· + p + 1)).map fun j => defOf ⟨0, j⟩ (expandAt j)

theorem expand_le {p q : Nat} (hpq : p ≤ q) : exMono (expandAt p) (expandAt q) = true := by
  rcases p with _ | _ | _ | p <;> rcases q with _ | _ | _ | q <;> first | omega | rfl

theorem expand_mono {p q : Nat} (hpq : p ≤ q) {m : Str → Option Atom} (h : Fits (expandAt p) m) :
    Fits (expandAt q) m := exMono_fits (expand_le hpq) h

theorem expand_keys {p q : Nat} (hpq : p ≤ q) {n : Str}
    (h : ((expandAt p).lookup n).isSome = true) : ((expandAt q).lookup n).isSome = true :=
  exMono_keys (expand_le hpq) h

theorem expand_up {x : Val} {m : Str → Option Atom} {p q : Nat} (hpq : p < q) (hq : q < 4)
    (hH : H k = exBound expand) (hx : Rep x m) (hf : Fits (expandAt p) m)
    (hlab : LabelsIn (expandAt p) x) :
    ∃ y, translate (cue fatal) H (n + 1) ⟨x, [], ⟨k, p⟩, true⟩ ⟨0, q⟩ =
      .ok (⟨y, [], ⟨k, q⟩, true⟩, []) ∧ Rep y m := by
  have hlab' : LabelsIn (expandAt q) x := by
    obtain ⟨c, fs, h, h'⟩ := hlab
    exact ⟨c, fs, h, fun e he => expand_keys (Nat.le_of_lt hpq) (h' e he)⟩
  have hall : ∀ sch ∈ expandUpTo p q, sch.v.major = 0 ∧
      ∃ gs', sch.body = .obj true gs' ∧ Fits gs' m ∧
        ∀ e ∈ gs', ((expandAt q).lookup e.1).isSome = true := by
    intro sch hs
    simp only [expandUpTo, List.mem_map, List.mem_range] at hs
    obtain ⟨j, ⟨d, hd, rfl⟩, rfl⟩ := hs
    exact ⟨rfl, _, rfl, expand_mono (by omega) hf,
      fun e he => expand_keys (by omega) (lookup_isSome_of_mem he)⟩
  have hv : ((exBound expand).ver p).major = 0 := by
    rcases p with _ | _ | _ | p <;> first | omega | rfl
  refine minor_up (schs := expandUpTo p q) (gs := expandAt q) hH rfl ?_ hx hlab' ?_ ?_ ?_
    (expand_mono (Nat.le_of_lt hpq) hf) ?_ (by rw [hv]; exact hall)
  all_goals
    rcases q with _ | _ | _ | _ | q <;> rcases p with _ | _ | _ | p <;>
      first
        | omega
        | rfl
        | decide

/-- The lens from position `p + 1` to position `p`. -/
def expandLens : Nat → CueLens Val
  | 0 => ⟨⟨0, 1⟩, ⟨0, 0⟩, fun x => result [("init", input x "init")], fun _ => [], fun _ => false⟩
  | 1 => ⟨⟨0, 2⟩, ⟨0, 1⟩, fun x => result (("init", input x "init") :: ifExists x "optional"),
      fun _ => [], fun _ => false⟩
  | _ => ⟨⟨0, 3⟩, ⟨0, 2⟩, fun x =>
       result (("init", input x "init") :: (ifExists x "optional" ++ ifExists x "withDefault")),
      fun _ => [], fun _ => false⟩

theorem expand_back {x : Val} {m : Str → Option Atom} {p : Nat} (hp : p < 3)
    (hx : Rep x m) (hf : Fits (expandAt (p + 1)) m)
    (hbaz : p = 2 → m "withDefault".toList ≠ some (s "baz")) :
    ∃ st, applyLens (cue fatal) (backwardLenses (exBound expand).lenses) p ⟨0, p + 1⟩ x
        (defOf ⟨0, p⟩ (expandAt p)) = .ok st ∧ st.to = ⟨0, p⟩ ∧
      Rep st.result (exRestrict (expandAt p) m) ∧ Within (expandAt p) st.result ∧
      Fits (expandAt p) (exRestrict (expandAt p) m) := by
  have fin : ∀ d : List (Str × Atom), (expandLens p).run x = data d → (d.map (·.1)).Nodup →
      exFits (expandAt p) d = true → (∀ e ∈ expandAt p, d.lookup e.1 = m e.1) →
      ∃ st, applyLens (cue fatal) (backwardLenses (exBound expand).lenses) p ⟨0, p + 1⟩ x
          (defOf ⟨0, p⟩ (expandAt p)) = .ok st ∧ st.to = ⟨0, p⟩ ∧
        Rep st.result (exRestrict (expandAt p) m) ∧ Within (expandAt p) st.result ∧
        Fits (expandAt p) (exRestrict (expandAt p) m) := by
    intro d hrun hnd hfit hl
    obtain ⟨st, h1, h2, h3, h4⟩ := lens_step (fatal := fatal) (x := x) (v := ⟨0, p + 1⟩)
      (to := ⟨0, p⟩) (gs := expandAt p) (ls := backwardLenses (exBound expand).lenses) (idx := p)
      (l := expandLens p)
      (by rcases p with _ | _ | _ | p <;> first | rfl | omega)
      (by rcases p with _ | _ | _ | p <;> first | rfl | omega)
      (by rcases p with _ | _ | _ | p <;> first | rfl | omega)
      (by rcases p with _ | _ | _ | p <;> first | rfl | omega)
      (by rcases p with _ | _ | _ | p <;> first | rfl | omega) hrun hnd hfit
    have he : (fun n => d.lookup n) = exRestrict (expandAt p) m :=
      funext fun n => restrict_eq hl (exFits_in hfit) n
    exact ⟨st, h1, h2, he ▸ h3, h4, he ▸ exFits_fits hfit⟩
  obtain ⟨a, ha, hall⟩ := Fits.required hf (f := "init".toList) (g := typ .str)
    (by rcases p with _ | _ | _ | p <;> first | omega | decide)
    (by rcases p with _ | _ | _ | p <;> first | omega | rfl) rfl
  obtain ⟨b, rfl⟩ := ex_str hall
  have hb : input x "init" = some (.str b) := (hx.get _).trans ha
  have hopt := Fits.optional hf (f := "optional".toList) (g := typ .int true)
    (by rcases p with _ | _ | _ | p <;> first | omega | rfl)
  rcases p with _ | _ | _ | p
  · refine fin [("init".toList, .str b)] (by simp only [expandLens, hb]; rfl) (by simp) rfl ?_
    intro e he
    simp only [expandAt, exFields, List.map, List.mem_singleton] at he
    subst he
    exact ha.symm
  · rcases hopt with ho | ⟨o, ho, hall⟩
    · have ho' : input x "optional" = none := (hx.get _).trans ho
      refine fin [("init".toList, .str b)] (by simp only [expandLens, hb, ifExists, ho']; rfl)
        (by simp) rfl ?_
      simp only [expandAt, exFields, List.map, List.forall_mem_cons, optInt]
      exact ⟨ha.symm, ho.symm, by simp⟩
    · obtain ⟨o, rfl⟩ := ex_int hall
      have ho' : input x "optional" = some (.int o) := (hx.get _).trans ho
      refine fin [("init".toList, .str b), ("optional".toList, .int o)]
        (by simp only [expandLens, hb, ifExists, ho']; rfl) (by simp) rfl ?_
      simp only [expandAt, exFields, List.map, List.forall_mem_cons, optInt]
      exact ⟨ha.symm, ho.symm, by simp⟩
  · have hw := Fits.optional hf (f := "withDefault".toList)
      (g := (withDefault ["foo", "bar", "baz"]).2) rfl
    have hw' : m "withDefault".toList = none ∨ m "withDefault".toList = some (s "foo") ∨
        m "withDefault".toList = some (s "bar") := by
      rcases hw with hw | ⟨w, hw, hall⟩
      · exact .inl hw
      · have hne := hbaz rfl
        rw [hw] at hne ⊢
        simp only [Field.allows, withDefault, List.map, List.any_cons, List.any_nil, Alt.meet] at hall
        by_cases h1 : w = s "foo"
        · simp [h1]
        · by_cases h2 : w = s "bar"
          · simp [h2]
          · by_cases h3 : w = s "baz"
            · exact absurd (congrArg some h3) hne
            · simp [Ne.symm h1, Ne.symm h2, Ne.symm h3] at hall
    rcases hopt with ho | ⟨o, ho, hall⟩
    · have ho' : input x "optional" = none := (hx.get _).trans ho
      rcases hw' with hw | hw | hw
      · have hw' : input x "withDefault" = none := (hx.get _).trans hw
        refine fin [("init".toList, .str b)]
          (by simp only [expandLens, hb, ifExists, ho', hw']; rfl) (by simp) rfl ?_
        simp only [expandAt, exFields, List.map, List.forall_mem_cons, optInt, withDefault]
        exact ⟨ha.symm, ho.symm, hw.symm, by simp⟩
      all_goals
        have hw' : input x "withDefault" = _ := (hx.get _).trans hw
        refine fin [("init".toList, .str b), ("withDefault".toList, _)]
          (by simp only [expandLens, hb, ifExists, ho', hw']; rfl) (by simp) rfl ?_
        simp only [expandAt, exFields, List.map, List.forall_mem_cons, optInt, withDefault]
        exact ⟨ha.symm, ho.symm, hw.symm, by simp⟩
    · obtain ⟨o, rfl⟩ := ex_int hall
      have ho' : input x "optional" = some (.int o) := (hx.get _).trans ho
      rcases hw' with hw | hw | hw
      · have hw' : input x "withDefault" = none := (hx.get _).trans hw
        refine fin [("init".toList, .str b), ("optional".toList, .int o)]
          (by simp only [expandLens, hb, ifExists, ho', hw']; rfl) (by simp) rfl ?_
        simp only [expandAt, exFields, List.map, List.forall_mem_cons, optInt, withDefault]
        exact ⟨ha.symm, ho.symm, hw.symm, by simp⟩
      all_goals
        have hw' : input x "withDefault" = _ := (hx.get _).trans hw
        refine fin [("init".toList, .str b), ("optional".toList, .int o), ("withDefault".toList, _)]
          (by simp only [expandLens, hb, ifExists, ho', hw']; rfl) (by simp) rfl ?_
        simp only [expandAt, exFields, List.map, List.forall_mem_cons, optInt, withDefault]
        exact ⟨ha.symm, ho.symm, hw.symm, by simp⟩
  · omega

/-- The positions visited on the way down. -/
def downList (q : Nat) : Nat → List Int
  | 0 => []
  | d + 1 => ((q + d : Nat) : Int) :: downList q d

theorem exRestrict_fits {gs : Fields} {m : Str → Option Atom} (h : Fits gs m) :
    exRestrict gs m = m := by
  funext n
  unfold exRestrict
  split
  · rfl
  · rename_i hn
    exact (fits_none h (Option.not_isSome_iff_eq_none.1 hn)).symm

theorem expand_backSteps (q : Nat) : ∀ (d : Nat) (x : Val) (m : Str → Option Atom), q + d < 4 →
    Rep x m → Fits (expandAt (q + d)) m → Within (expandAt (q + d)) x →
    (q + d = 3 → 0 < d → m "withDefault".toList ≠ some (s "baz")) →
    ∃ steps, backSteps (cue fatal) (exBound expand) (downList q d) ⟨0, q + d⟩ x = .ok steps ∧
      Rep (translateResult x steps) (exRestrict (expandAt q) m) ∧
      Within (expandAt q) (translateResult x steps) ∧
      Fits (expandAt q) (exRestrict (expandAt q) m)
  | 0, x, m, _, hx, hf, hw, _ => by
    have he := exRestrict_fits hf
    exact ⟨[], rfl, he.symm ▸ hx, hw, he.symm ▸ hf⟩
  | d + 1, x, m, hd, hx, hf, hw, hbaz => by
    obtain ⟨st, h1, h2, h3, h4, h5⟩ := expand_back (fatal := fatal) (p := q + d) (by omega) hx hf
      (fun e => hbaz (by omega) (by omega))
    obtain ⟨steps, h6, h7, h8, h9⟩ := expand_backSteps q d st.result _ (by omega) h3 h5 h4 (by omega)
    have he : exRestrict (expandAt q) (exRestrict (expandAt (q + d)) m) = exRestrict (expandAt q) m := by
      funext n
      unfold exRestrict
      split
      · rename_i hn
        rw [if_pos (expand_keys (Nat.le_add_right q d) hn)]
      · rfl
    rw [he] at h7 h9
    refine ⟨st :: steps, ?_, by rw [translateResult_cons]; exact h7,
      by rw [translateResult_cons]; exact h8, h9⟩
    have e1 : cueIdx (exBound expand).allsch ((q + d : Nat) : Int) =
        some (defOf ⟨0, q + d⟩ (expandAt (q + d))) := by
      have hq : q + d < 3 := by omega
      generalize q + d = p at hq ⊢
      rcases p with _ | _ | _ | p <;> first | omega | rfl
    have e2 : flatidx (exBound expand).allv ⟨0, q + d⟩ = some ((q + d : Nat) : Int) := by
      have hq : q + d < 3 := by omega
      generalize q + d = p at hq ⊢
      rcases p with _ | _ | _ | p <;> first | omega | rfl
    simp only [downList, backSteps, e1, Eval.ofOption_some, Eval.bind_ok]
    rw [show (defOf ⟨0, q + d⟩ (expandAt (q + d))).v = ⟨0, q + d⟩ from rfl, e2]
    simp only [Eval.ofOption_some, Eval.bind_ok]
    have h1' : applyLens (cue fatal) (backwardLenses (exBound expand).lenses) ((q + d : Nat) : Int)
        ⟨0, q + (d + 1)⟩ x (defOf ⟨0, q + d⟩ (expandAt (q + d))) = .ok st := h1
    rw [h1', Eval.bind_ok, h2, h6]
    rfl

theorem expand_down {x : Val} {m : Str → Option Atom} {p q : Nat} (hpq : q < p) (hp : p < 4)
    (hH : H k = exBound expand) (hx : Rep x m) (hf : Fits (expandAt p) m)
    (hw : Within (expandAt p) x)
    (hbaz : p = 3 → m "withDefault".toList ≠ some (s "baz")) :
    ∃ y, translate (cue fatal) H (n + 1) ⟨x, [], ⟨k, p⟩, true⟩ ⟨0, q⟩ =
      .ok (⟨y, [], ⟨k, q⟩, true⟩, []) ∧ Rep y (exRestrict (expandAt q) m) := by
  obtain ⟨d, rfl⟩ : ∃ d, p = q + d := ⟨p - q, by omega⟩
  obtain ⟨steps, h1, h2, h3, h4⟩ := expand_backSteps (fatal := fatal) q d x m hp hx hf hw
    (fun e _ => hbaz e)
  have hr : translateSteps (cue fatal) (exBound expand) x ((exBound expand).ver (q + d)) ⟨0, q⟩ =
      backSteps (cue fatal) (exBound expand) (downList q d) ⟨0, q + d⟩ x := by
    rcases q with _ | _ | _ | q <;> rcases d with _ | _ | _ | _ | d <;> first | omega | rfl
  refine ⟨_, translate_ok hH rfl ?_ ?_ (hr.trans h1) rfl h2.concrete ?_ (h2.valid h4 h3 ?_), h2⟩
  · rcases q with _ | _ | _ | q <;> first | omega | rfl
  · obtain ⟨c, fs, rfl, _⟩ := hx
    rfl
  · rcases q with _ | _ | _ | q <;> first | omega | rfl
  · rcases q with _ | _ | _ | q <;> first | omega | decide

theorem expand_valid {p : Nat} (hp : p < 4) (hH : H k = exBound expand) (hn : (l.map (·.1)).Nodup)
    (hv : validate (cue fatal) H ⟨k, p⟩ (data l) = .ok i) :
    i = ⟨data l, [], ⟨k, p⟩, true⟩ ∧ Rep (data l) (fun n => l.lookup n) ∧
      Fits (expandAt p) (fun n => l.lookup n) ∧ LabelsIn (expandAt p) (data l) := by
  refine ex_valid hH ?_ ?_ hn hv
  · rcases p with _ | _ | _ | _ | p <;> first | omega | rfl
  · rcases p with _ | _ | _ | _ | p <;> first | omega | decide

/-- **C130** for the exemplar `expand`: translated data have the fields of the version that they had
before, with the same values.  (Missing: `"baz"` downwards, see `C129_expand_baz`.) -/
theorem C130_expand_partial (hH : H k = exBound expand) (hn : (l.map (·.1)).Nodup) {p q : Nat}
    (hp : p < 4) (hq : q < 4) (hv : validate (cue fatal) H ⟨k, p⟩ (data l) = .ok i)
    (hbaz : q < p → l.lookup "withDefault".toList ≠ some (s "baz")) :
    ∃ j, translate (cue fatal) H (n + 1) i ⟨0, q⟩ = .ok (j, []) ∧ j.sch = ⟨k, q⟩ ∧
      ∀ f, j.raw.get f = if f = "init".toList ∨ (f = "optional".toList ∧ 1 ≤ q) ∨
        (f = "withDefault".toList ∧ 2 ≤ q) then l.lookup f else none := by
  obtain ⟨rfl, hr, hf, hlab⟩ := expand_valid hp hH hn hv
  have hsel : ∀ f m, exRestrict (expandAt q) m f = if f = "init".toList ∨
      (f = "optional".toList ∧ 1 ≤ q) ∨ (f = "withDefault".toList ∧ 2 ≤ q) then m f else none := by
    intro f m
    have bd : ∀ a b : Str, (a == b) = decide (a = b) := fun a b => by by_cases h : a = b <;> simp [h]
    unfold exRestrict
    congr 1
    rcases q with _ | _ | _ | q <;>
      simp only [expandAt, exFields, List.map, List.lookup, optInt, withDefault, bd] <;>
      by_cases h1 : f = "init".toList <;> by_cases h2 : f = "optional".toList <;>
      by_cases h3 : f = "withDefault".toList <;> simp_all
  rcases Nat.lt_trichotomy p q with h | h | h
  · obtain ⟨y, h1, h2⟩ := expand_up (fatal := fatal) (n := n) h hq hH hr hf hlab
    refine ⟨_, h1, rfl, fun f => ?_⟩
    rw [← hsel f (fun n => l.lookup n), exRestrict_fits (expand_mono (Nat.le_of_lt h) hf)]
    exact h2.get f
  · subst h
    have hver : (exBound expand).ver p = ⟨0, p⟩ := by
      rcases p with _ | _ | _ | _ | p <;> first | omega | rfl
    refine ⟨_, hver ▸ C129_same (by simp [all]) (by simpa [exBound, expand, Exemplars.lin] using hp)
      hH hn hv, rfl, fun f => ?_⟩
    rw [← hsel f (fun n => l.lookup n), exRestrict_fits hf]
    exact hr.get f
  · have hw : Within (expandAt p) (data l) := by
      obtain ⟨_, hc⟩ := validate_inv (gs := expandAt p) (p := p) hH
        (by rcases p with _ | _ | _ | _ | p <;> first | omega | rfl) hv
      exact Within.data (valid_within hc)
    obtain ⟨y, h1, h2⟩ := expand_down (fatal := fatal) (n := n) h hp hH hr hf hw (fun _ => hbaz h)
    refine ⟨_, h1, rfl, fun f => ?_⟩
    rw [← hsel f (fun n => l.lookup n)]
    exact h2.get f

/-- **C129** is false for the exemplar `expand`: instances with the value that was added last cannot
be translated to earlier versions.  (According to the comment at the lens they would have the
default value there.) -/
theorem C129_expand_baz (hH : H k = exBound expand) (hn : (l.map (·.1)).Nodup) {q : Nat} (hq : q < 3)
    (hv : validate (cue fatal) H ⟨k, 3⟩ (data l) = .ok i)
    (hbaz : l.lookup "withDefault".toList = some (s "baz")) :
    translate (cue fatal) H (n + 1) i ⟨0, q⟩ = .err ⟨[.invalidLens]⟩ := by
  obtain ⟨rfl, hr, hf, hlab⟩ := expand_valid (by omega) hH hn hv
  have hs : applyLens (cue fatal) (backwardLenses (exBound expand).lenses) 2 ⟨0, 3⟩ (data l)
      (defOf ⟨0, 2⟩ (expandAt 2)) = .error := by
    obtain ⟨a, ha, hall⟩ := Fits.required hf (f := "init".toList) (g := typ .str) (by decide) rfl rfl
    obtain ⟨b, rfl⟩ := ex_str hall
    have hb : input (data l) "init" = some (.str b) := (hr.get _).trans ha
    have hw : input (data l) "withDefault" = some (s "baz") := (hr.get _).trans hbaz
    have he : ∃ d, (expandLens 2).run (data l) = data d ∧
        (cue fatal).isErr (embed (data d) (.obj true (expandAt 2))) = true := by
      rcases Fits.optional hf (f := "optional".toList) (g := typ .int true) rfl with ho | ⟨o, ho, hall⟩
      · have ho' : input (data l) "optional" = none := (hr.get _).trans ho
        exact ⟨[("init".toList, .str b), ("withDefault".toList, s "baz")],
          by simp only [expandLens, hb, ifExists, ho', hw]; rfl, rfl⟩
      · obtain ⟨o, rfl⟩ := ex_int hall
        have ho' : input (data l) "optional" = some (.int o) := (hr.get _).trans ho
        exact ⟨[("init".toList, .str b), ("optional".toList, .int o), ("withDefault".toList, s "baz")],
          by simp only [expandLens, hb, ifExists, ho', hw]; rfl, rfl⟩
    obtain ⟨d, h1, h2⟩ := he
    have hi : cueIdx (backwardLenses (exBound expand).lenses) 2 = some (expandLens 2) := rfl
    simp only [applyLens, hi, Eval.ofOption_some, Eval.bind_ok, h1]
    have h2' : (cue fatal).isErr ((cue fatal).embed (data d) (defOf ⟨0, 2⟩ (expandAt 2)).body) = true :=
      h2
    rw [h2']
    simp only [if_true]
    repeat' split
    all_goals rfl
  refine translate_error (q := q) hH rfl ?_ rfl ?_
  · rcases q with _ | _ | _ | q <;> first | omega | rfl
  · have hr : ∃ rest, translateSteps (cue fatal) (exBound expand) (data l) ((exBound expand).ver 3)
        ⟨0, q⟩ = (applyLens (cue fatal) (backwardLenses (exBound expand).lenses) 2 ⟨0, 3⟩ (data l)
          (defOf ⟨0, 2⟩ (expandAt 2))).bind fun s =>
            (backSteps (cue fatal) (exBound expand) rest s.to s.result).bind fun ss => .ok (s :: ss) := by
      rcases q with _ | _ | _ | q
      · exact ⟨[1, 0], rfl⟩
      · exact ⟨[1], rfl⟩
      · exact ⟨[], rfl⟩
      · omega
    obtain ⟨rest, hr⟩ := hr
    rw [hr, hs]
    rfl

/-! ### Examples: the hypotheses can be met -/

/-- Whether data are valid. -/
def exValid (r : RawLineage Val) (p : Nat) (l : List (Str × Atom)) : Bool :=
  match validate (cue true) (fun _ => exBound r) ⟨0, p⟩ (data l) with
  | .ok _ => true
  | _ => false

/-- Valid data of each kind that the theorems speak about. -/
example :
    exValid rename 0 [("before".toList, s "x"), ("unchanged".toList, s "y")] = true ∧
    exValid narrowing 0 [("boolish".toList, s "maybe")] = true ∧
    ¬ boolishClear (s "maybe") ∧ boolishClear (s "true") ∧
    exValid narrowing 1 [("properbool".toList, .bool true)] = true ∧
    exValid defaultchange 0 [("aunion".toList, s "baz")] = true ∧
    exValid defaultchange 0 [] = true ∧
    exValid defaultchange 1 [("aunion".toList, s "bar")] = true ∧
    exValid disjunct 0 [("rootfield".toList, .two ['x'])] = true ∧
    exValid disjunct 1 [("rootfield".toList, .threeStr ['x'])] = true ∧
    exValid expand 3 [("init".toList, s "x"), ("withDefault".toList, s "baz")] = true ∧
    exValid expand 2 [("init".toList, s "x"), ("optional".toList, .int 3)] = true := by
  refine ⟨rfl, rfl, by simp [boolishClear, s], by simp [boolishClear, s], rfl, rfl, rfl, rfl, rfl, rfl,
    rfl, rfl⟩

/-- Data that do not fit a schema are not valid. -/
example :
    exValid defaultchange 0 [("anion".toList, s "baz")] = false ∧
    exValid expand 2 [("init".toList, s "x"), ("withDefault".toList, s "baz")] = false :=
  ⟨rfl, rfl⟩

/-! ### The theorems on concrete data -/

theorem exValid_ok {r : RawLineage Val} {p : Nat} {l : List (Str × Atom)}
    (h : exValid r p l = true) :
    ∃ i, validate (cue true) (fun _ => exBound r) ⟨0, p⟩ (data l) = .ok i := by
  unfold exValid at h
  split at h
  · exact ⟨_, by assumption⟩
  · cases h

example : ∃ i j j' : Inst Val,
    validate (cue true) (fun _ => exBound rename) ⟨0, 0⟩
      (data [("before".toList, s "x"), ("unchanged".toList, s "y")]) = .ok i ∧
    translate (cue true) (fun _ => exBound rename) 1 i ((exBound rename).ver 0) = .ok (i, []) ∧
    translate (cue true) (fun _ => exBound rename) 1 i ⟨1, 0⟩ = .ok (j, []) ∧
    translate (cue true) (fun _ => exBound rename) 1 j ⟨0, 0⟩ = .ok (j', []) ∧
    j.raw.get "after".toList = some (s "x") ∧ j'.raw.get "before".toList = some (s "x") := by
  obtain ⟨i, hi⟩ := exValid_ok (r := rename) (p := 0)
    (l := [("before".toList, s "x"), ("unchanged".toList, s "y")]) rfl
  obtain ⟨j, j', h1, h2, h3, _, _, h6⟩ := C130_rename (n := 0) rfl (by decide) hi
  exact ⟨i, j, j', hi, C129_same (n := 0) (by simp [all]) (by decide) rfl (by decide) hi, h1, h2,
    h3, h6 _⟩

example : ∃ i, validate (cue true) (fun _ => exBound narrowing) ⟨0, 0⟩
      (data [("boolish".toList, s "maybe")]) = .ok i ∧
    translate (cue true) (fun _ => exBound narrowing) 1 i ⟨1, 0⟩ = .err ⟨[.invalidLens]⟩ := by
  obtain ⟨i, hi⟩ := exValid_ok (r := narrowing) (p := 0) (l := [("boolish".toList, s "maybe")]) rfl
  exact ⟨i, hi, C129_lacuna_fatal (n := 0) rfl (by decide) hi rfl (by simp [boolishClear, s])⟩

example : ∃ i j : Inst Val, ∃ lacs, validate (cue true) (fun _ => exBound narrowing) ⟨0, 0⟩
      (data [("boolish".toList, s "true")]) = .ok i ∧
    translate (cue true) (fun _ => exBound narrowing) 1 i ⟨1, 0⟩ = .ok (j, lacs) ∧
    j.raw.get "properbool".toList = some (.bool true) := by
  obtain ⟨i, hi⟩ := exValid_ok (r := narrowing) (p := 0) (l := [("boolish".toList, s "true")]) rfl
  obtain ⟨j, lacs, h, _⟩ := (C129_narrowing_partial (n := 0) (l := [("boolish".toList, s "true")])
    rfl (by decide)).1 hi
    (.inr fun a ha => by
      have : a = s "true" := by simpa using ha.symm
      subst this; simp [boolishClear, s])
  obtain ⟨a, ha, hj⟩ := (C130_narrowing (n := 0) (l := [("boolish".toList, s "true")])
    rfl (by decide)).1 hi h
  have : a = s "true" := by simpa using ha.symm
  subst this
  exact ⟨i, j, lacs, hi, h, by simpa [boolishMeaning, s] using hj⟩

example : ∃ i e, validate (cue true) (fun _ => exBound defaultchange) ⟨0, 0⟩
      (data [("aunion".toList, s "baz")]) = .ok i ∧
    translate (cue true) (fun _ => exBound defaultchange) 1 i ((exBound defaultchange).ver 1) =
      .err e := by
  obtain ⟨i, hi⟩ := exValid_ok (r := defaultchange) (p := 0) (l := [("aunion".toList, s "baz")]) rfl
  obtain ⟨e, he⟩ := C129_defaultchange_fails (n := 0) (q := 1) rfl (by decide) (by decide)
    (by decide) (by decide) hi (by simp [exDefault, s])
  exact ⟨i, e, hi, he⟩

example : ∃ i e, validate (cue true) (fun _ => exBound defaultchange) ⟨0, 0⟩ (data []) = .ok i ∧
    translate (cue true) (fun _ => exBound defaultchange) 1 i ⟨1, 0⟩ = .err e := by
  obtain ⟨i, hi⟩ := exValid_ok (r := defaultchange) (p := 0) (l := []) rfl
  obtain ⟨e, he⟩ := C129_defaultchange_fatal (n := 0) rfl (by decide) hi
  exact ⟨i, e, hi, he⟩

example : ∃ i j : Inst Val, validate (cue true) (fun _ => exBound defaultchange) ⟨0, 1⟩
      (data [("aunion".toList, s "bar")]) = .ok i ∧
    translate (cue true) (fun _ => exBound defaultchange) 1 i ((exBound defaultchange).ver 0) =
      .ok (j, []) ∧ j.raw.get "aunion".toList = some (s "foo") := by
  obtain ⟨i, hi⟩ := exValid_ok (r := defaultchange) (p := 1) (l := [("aunion".toList, s "bar")]) rfl
  obtain ⟨j, h, _, hj⟩ := C130_defaultchange_partial (n := 0) (q := 0) rfl (by decide) (by decide)
    (by decide) (by decide) hi rfl (.inr rfl)
  exact ⟨i, j, hi, h, hj⟩

example := C130_defaultchange_lacuna (fatal := true) (l := [("aunion".toList, s "bar")])
  (by decide) rfl

example : ∃ i e, validate (cue true) (fun _ => exBound disjunct) ⟨0, 1⟩
      (data [("rootfield".toList, .threeStr ['x'])]) = .ok i ∧
    translate (cue true) (fun _ => exBound disjunct) 1 i ⟨0, 0⟩ = .err e := by
  obtain ⟨i, hi⟩ := exValid_ok (r := disjunct) (p := 1)
    (l := [("rootfield".toList, .threeStr ['x'])]) rfl
  obtain ⟨e, he⟩ := C129_disjunct_down (n := 0) rfl hi
  exact ⟨i, e, hi, he⟩

example : ∃ i j : Inst Val, validate (cue true) (fun _ => exBound disjunct) ⟨0, 0⟩
      (data [("rootfield".toList, .two ['x'])]) = .ok i ∧
    translate (cue true) (fun _ => exBound disjunct) 1 i ⟨0, 1⟩ = .ok (j, []) ∧
    j.raw.get "rootfield".toList = some (.two ['x']) := by
  obtain ⟨i, hi⟩ := exValid_ok (r := disjunct) (p := 0)
    (l := [("rootfield".toList, .two ['x'])]) rfl
  obtain ⟨j, h, _, hj⟩ := C129_disjunct_partial (n := 0) rfl (by decide) hi
  exact ⟨i, j, hi, h, hj _⟩

example : ∃ i j : Inst Val, validate (cue true) (fun _ => exBound expand) ⟨0, 2⟩
      (data [("init".toList, s "x"), ("optional".toList, .int 3)]) = .ok i ∧
    translate (cue true) (fun _ => exBound expand) 1 i ⟨0, 0⟩ = .ok (j, []) ∧
    j.raw.get "init".toList = some (s "x") ∧ j.raw.get "optional".toList = none := by
  obtain ⟨i, hi⟩ := exValid_ok (r := expand) (p := 2)
    (l := [("init".toList, s "x"), ("optional".toList, .int 3)]) rfl
  obtain ⟨j, h, _, hj⟩ := C130_expand_partial (n := 0) (q := 0) rfl (by decide) (by decide)
    (by decide) hi (fun _ => by decide)
  exact ⟨i, j, hi, h, hj _, hj _⟩

example : ∃ i, validate (cue true) (fun _ => exBound expand) ⟨0, 3⟩
      (data [("init".toList, s "x"), ("withDefault".toList, s "baz")]) = .ok i ∧
    translate (cue true) (fun _ => exBound expand) 1 i ⟨0, 1⟩ = .err ⟨[.invalidLens]⟩ := by
  obtain ⟨i, hi⟩ := exValid_ok (r := expand) (p := 3)
    (l := [("init".toList, s "x"), ("withDefault".toList, s "baz")]) rfl
  exact ⟨i, hi, C129_expand_baz (n := 0) rfl (by decide) (by decide) hi rfl⟩

example : ∃ i j : Inst Val, ∃ lacs, validate (cue true) (fun _ => exBound rename) ⟨0, 1⟩
      (data [("after".toList, s "x"), ("unchanged".toList, s "y")]) = .ok i ∧
    translate (cue true) (fun _ => exBound rename) 1 i ((exBound rename).ver 0) = .ok (j, lacs) := by
  obtain ⟨i, hi⟩ := exValid_ok (r := rename) (p := 1)
    (l := [("after".toList, s "x"), ("unchanged".toList, s "y")]) rfl
  obtain ⟨j, lacs, h, _⟩ := C129_rename (n := 0) (q := 0) rfl (by decide) (by decide) (by decide) hi
  exact ⟨i, j, lacs, hi, h⟩

end Thema.Props
