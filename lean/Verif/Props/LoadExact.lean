import Verif.Props.Load

/-!
# What the loaders see, exactly (C177)
-/

namespace Thema.Props

open Load

/-- Where Thema's own CUE files are put, and which: in Thema's own module all embedded files over
those of the caller; in other modules only the CUE files, where CUE looks for the package. -/
def Embedded (cueFS jointFS : FS) (cfg : Cfg) (q : Path) (c : Str) : Prop :=
  (cfg.module = themaMod ∧ ∃ p, (p, .file (some c)) ∈ jointFS ∧ q = cfg.moduleRoot ++ p) ∨
  (cfg.module ≠ themaMod ∧ ∃ p, (p, .file (some c)) ∈ cueFS ∧
    q = cfg.moduleRoot ++ (["cue.mod", "pkg", "github.com", "grafana", "thema"].map String.toList) ++ p)

/-- **C177**.  For every module, what the loader sees at a path: Thema's own file if there is one,
else the caller's file if there is one, and otherwise nothing. -/
theorem C177_files {parse : Str → Option Str} {cueFS jointFS modFS : FS} (hw : WFfs modFS)
    (hc : WFfs cueFS) (hj : WFfs jointFS) {dir : Str} {pkg : Option Str} {cfg : Cfg}
    (h : instanceWithThema parse cueFS jointFS modFS dir pkg = .ok cfg) (q : Path) (c : Str) :
    cfg.overlay.get q = some c ↔ Embedded cueFS jointFS cfg q c ∨
      ((∀ d, ¬ Embedded cueFS jointFS cfg q d) ∧
        ∃ p, (p, .file (some c)) ∈ modFS ∧ q = cfg.moduleRoot ++ p) := by
  have hpath : (["cue.mod", "pkg", "github.com", "grafana", "thema"].map String.toList) =
    themaModPath := rfl
  obtain ⟨o, h1, h2, _, h4, _⟩ := instance_ok h
  rw [← h4] at h1 h2
  obtain ⟨a1, a2⟩ := toOverlay_get modFS [] o hw.nodup h1
  -- the embedded files
  have key : (∀ d, Embedded cueFS jointFS cfg q d → cfg.overlay.get q = some d) ∧
      ((∀ d, ¬ Embedded cueFS jointFS cfg q d) → cfg.overlay.get q = o.get q) := by
    unfold Embedded
    rw [hpath]
    by_cases hm : cfg.module = themaMod
    · rw [if_pos hm] at h2
      obtain ⟨b1, b2⟩ := toOverlay_get jointFS o _ hj.nodup h2
      refine ⟨?_, fun hno => b2 q fun p c hp he => hno c (.inl ⟨hm, p, hp, he⟩)⟩
      rintro d (⟨_, p, hp, rfl⟩ | ⟨hm', _⟩)
      · exact b1 p d hp
      · exact absurd hm hm'
    · rw [if_neg hm] at h2
      obtain ⟨b1, b2⟩ := toOverlay_get cueFS o _ hc.nodup h2
      refine ⟨?_, fun hno => b2 q fun p c hp he => hno c (.inr ⟨hm, p, hp, he⟩)⟩
      rintro d (⟨hm', _⟩ | ⟨_, p, hp, rfl⟩)
      · exact absurd hm' hm
      · exact b1 p d hp
  constructor
  · intro hq
    by_cases he : ∃ d, Embedded cueFS jointFS cfg q d
    · obtain ⟨d, hd⟩ := he
      have := key.1 d hd
      rw [hq] at this
      injection this with this
      subst this
      exact .inl hd
    · have he : ∀ d, ¬ Embedded cueFS jointFS cfg q d := fun d hd => he ⟨d, hd⟩
      refine .inr ⟨he, ?_⟩
      rw [key.2 he] at hq
      by_cases hu : ∃ p c', (p, Entry.file (some c')) ∈ modFS ∧ q = cfg.moduleRoot ++ p
      · obtain ⟨p, c', hp, rfl⟩ := hu
        rw [a1 p c' hp] at hq
        injection hq with hq
        subst hq
        exact ⟨p, hp, rfl⟩
      · rw [a2 q fun p c' hp he => hu ⟨p, c', hp, he⟩] at hq
        cases hq
  · rintro (hd | ⟨he, p, hp, rfl⟩)
    · exact key.1 c hd
    · rw [key.2 he]
      exact a1 p c hp

/-- **C177**.  `AsModFS` followed by `InstanceWithThema`: a file system without a module, all of
whose files can be read and without a Thema below `cue.mod`, is loaded as a module with the name
that is given, if the name needs no escapes in CUE. -/
theorem C177_injected {parse : Str → Option Str}
    (hp : ∀ s x, Lit.unquote Lit.cueEsc (Lit.inQuotes s) = some x →
      parse ("module: ".toList ++ Lit.inQuotes s) = some x)
    {cueFS jointFS fs fs' : FS} (hw : WFfs fs) (hw' : WFfs fs') (hc : Readable cueFS)
    (hj : Readable jointFS) (hr : Readable fs) (hno : stat fs moduleCue = none)
    (hv : (themaModPath, .dir) ∉ fs) {name : Str} (hn : Lit.Plain name) (hne : name ≠ [])
    (hfs : ∀ p, stat fs' p = asModFS fs name p) (dir : Str) (pkg : Option Str) :
    ∃ cfg, instanceWithThema parse cueFS jointFS fs' dir pkg = .ok cfg ∧ cfg.module = name := by
  obtain ⟨h1, h2, h3⟩ := C94_frame hw hno name
  refine (C95_success_iff hw' hc hj dir pkg name).2 ⟨⟨hne, moduleText name, ?_, ?_⟩, ?_, ?_⟩
  · rw [← stat_mem hw'.nodup, hfs, h1]
  · exact C94_name_partial hp hn
  · intro hm
    rw [← stat_mem hw'.nodup, hfs, h3 _ (by decide) (by decide) (by decide), stat_mem hw.nodup] at hm
    exact hv hm
  · intro p hm
    rw [← stat_mem hw'.nodup, hfs] at hm
    by_cases e0 : p = []
    · subst e0
      have := (stat_mem hw'.nodup (p := []) (e := .file none)).1 (by rw [hfs]; exact hm)
      exact hw'.root _ this
    · by_cases e1 : p = cueMod
      · subst e1; rw [h2] at hm; cases hm
      · by_cases e2 : p = moduleCue
        · subst e2; rw [h1] at hm; cases hm
        · rw [h3 p e0 e1 e2, stat_mem hw.nodup] at hm
          exact hr p hm

/-- **C177**.  The command line: the overlay is always made if Thema's files can be read.  In
Thema's own module it is empty; in any other it has exactly Thema's CUE files where CUE looks for
the package; where there is no module it has also a `module.cue` for a module without a name. -/
theorem C177_cli {cueFS : FS} (hc : WFfs cueFS) (hr : Readable cueFS) (root : Path)
    (mod : Option Str) :
    ∃ o, cliOverlay cueFS root mod = some o ∧ ∀ q c, o.get q = some c ↔
      (mod ≠ some "github.com/grafana/thema".toList ∧
        ∃ p, (p, .file (some c)) ∈ cueFS ∧
          q = root ++ (["cue.mod", "pkg", "github.com", "grafana", "thema"].map String.toList) ++ p) ∨
      (mod = none ∧ q = root ++ (["cue.mod", "module.cue"].map String.toList) ∧
        c = "module: \"\"".toList) := by
  have hpath : (["cue.mod", "pkg", "github.com", "grafana", "thema"].map String.toList) =
    themaModPath := rfl
  have hpath2 : (["cue.mod", "module.cue"].map String.toList) = moduleCue := rfl
  rw [hpath, hpath2]
  have hov : ∀ (fs : FS) (o : Overlay), Readable fs →
      ∃ o', toOverlay (root ++ themaModPath) fs o = some o' := by
    intro fs
    induction fs with
    | nil => intro o _; exact ⟨o, rfl⟩
    | cons x fs ih =>
      intro o hr
      have hr' : Readable fs := fun p hm => hr p (List.mem_cons_of_mem _ hm)
      obtain ⟨p, e⟩ := x
      cases e with
      | dir => exact ih _ hr'
      | file c =>
        cases c with
        | none => exact absurd (List.mem_cons_self ..) (hr p)
        | some c => exact ih _ hr'
  have hget : ∀ o o', toOverlay (root ++ themaModPath) cueFS o = some o' → ∀ q c,
      o'.get q = some c ↔ (∃ p, (p, .file (some c)) ∈ cueFS ∧ q = root ++ themaModPath ++ p) ∨
        ((∀ p d, (p, .file (some d)) ∈ cueFS → q ≠ root ++ themaModPath ++ p) ∧
          o.get q = some c) := by
    intro o o' ho q c
    obtain ⟨b1, b2⟩ := toOverlay_get cueFS o o' hc.nodup ho
    by_cases ht : ∃ p d, (p, Entry.file (some d)) ∈ cueFS ∧ q = root ++ themaModPath ++ p
    · obtain ⟨p, d, hp, rfl⟩ := ht
      rw [b1 p d hp]
      constructor
      · intro he; injection he with he; subst he; exact .inl ⟨p, hp, rfl⟩
      · rintro (⟨p', hp', he⟩ | ⟨hno, _⟩)
        · have := List.append_cancel_left he
          subst this
          have e1 := (stat_mem hc.nodup).2 hp
          rw [(stat_mem hc.nodup).2 hp'] at e1
          injection e1 with e1
          injection e1 with e1
          exact e1.symm
        · exact absurd rfl (hno p d hp)
    · have ht : ∀ p d, (p, Entry.file (some d)) ∈ cueFS → q ≠ root ++ themaModPath ++ p :=
        fun p d hp he => ht ⟨p, d, hp, he⟩
      rw [b2 q ht]
      constructor
      · exact fun he => .inr ⟨ht, he⟩
      · rintro (⟨p, hp, he⟩ | ⟨_, he⟩)
        · exact absurd he (ht p c hp)
        · exact he
  cases mod with
  | none =>
    obtain ⟨o, ho⟩ := hov cueFS [(root ++ moduleCue, "module: \"\"".toList)] hr
    refine ⟨o, ho, fun q c => ?_⟩
    rw [hget _ _ ho]
    have hdis : ∀ p d, (p, Entry.file (some d)) ∈ cueFS →
        root ++ moduleCue ≠ root ++ themaModPath ++ p := by
      intro p d _ he
      rw [List.append_assoc] at he
      have := List.append_cancel_left he
      simp [moduleCue, themaModPath] at this
    constructor
    · rintro (⟨p, hp, rfl⟩ | ⟨_, he⟩)
      · exact .inl ⟨by simp, p, hp, rfl⟩
      · simp only [Overlay.get] at he
        split at he
        · rename_i hq
          injection he with he
          exact .inr ⟨rfl, hq.symm, he.symm⟩
        · cases he
    · rintro (⟨_, p, hp, rfl⟩ | ⟨_, rfl, rfl⟩)
      · exact .inl ⟨p, hp, rfl⟩
      · refine .inr ⟨hdis, ?_⟩
        simp [Overlay.get]
  | some m =>
    by_cases hm : m = themaMod
    · refine ⟨[], by simp [cliOverlay, hm], fun q c => ?_⟩
      subst hm
      constructor
      · intro he; cases he
      · rintro (⟨hne, _⟩ | ⟨he, _⟩)
        · exact absurd rfl hne
        · cases he
    · obtain ⟨o, ho⟩ := hov cueFS [] hr
      refine ⟨o, by simp [cliOverlay, hm, ho], fun q c => ?_⟩
      rw [hget _ _ ho]
      constructor
      · rintro (⟨p, hp, rfl⟩ | ⟨_, he⟩)
        · exact .inl ⟨fun he => hm (Option.some.inj he), p, hp, rfl⟩
        · cases he
      · rintro (⟨_, p, hp, rfl⟩ | ⟨he, _⟩)
        · exact .inl ⟨p, hp, rfl⟩
        · cases he

example : ∃ cfg, instanceWithThema parseLit cueFiles cueFiles fleetFS "ship".toList none = .ok cfg ∧
    Embedded cueFiles cueFiles cfg (cfg.moduleRoot ++ themaModPath ++ ["lineage.cue".toList])
      "l".toList := ⟨_, rfl, .inr ⟨by decide, _, by decide, rfl⟩⟩

theorem stat_snoc {fs : FS} {p q : Path} {e : Entry} (h : q ≠ p) :
    stat (fs ++ [(q, e)]) p = stat fs p := by
  induction fs with
  | nil => simp [stat, h]
  | cons x fs ih =>
    obtain ⟨p', e'⟩ := x
    rw [List.cons_append, stat, stat, ih]

/-- `vendoredFS` with a module: the hypotheses of `C177_injected` can be met. -/
def vendoredMod : FS :=
  vendoredFS ++ [(moduleCue, .file (some (moduleText "example.com/fleet".toList)))]

example : ∃ cfg, instanceWithThema parseLit cueFiles cueFiles vendoredMod [] none = .ok cfg ∧
    cfg.module = "example.com/fleet".toList := by
  refine C177_injected parseLit_law vendoredFS_wf (fs' := vendoredMod) ⟨by decide, ?_, ?_⟩ ?_ ?_ ?_
    (by decide) (by decide) (by decide) (by decide) ?_ _ _
  · intro p e hm q hq h0 hne
    simp only [vendoredMod, vendoredFS, List.mem_append, List.mem_cons, List.not_mem_nil, or_false,
      Prod.mk.injEq] at hm
    have hq' := mem_prefixes.2 hq
    rcases hm with (⟨rfl, _⟩ | ⟨rfl, _⟩ | ⟨rfl, _⟩ | ⟨rfl, _⟩) | ⟨rfl, _⟩ <;>
      simp [prefixes, moduleCue] at hq' <;> simp_all [vendoredFS, vendoredMod, moduleCue]
  · intro c h; simp [vendoredMod, vendoredFS, moduleCue] at h
  · intro p h; simp [cueFiles] at h
  · intro p h; simp [cueFiles] at h
  · intro p h; simp [vendoredFS] at h
  · intro p
    by_cases e0 : p = []
    · subst e0; decide
    · by_cases e1 : p = cueMod
      · subst e1; decide
      · by_cases e2 : p = moduleCue
        · subst e2; decide
        · rw [(C94_frame vendoredFS_wf (by decide) _).2.2 p e0 e1 e2]
          exact stat_snoc (Ne.symm e2)

end Thema.Props
