import Verif.Model.Load
import Verif.Lemmas.Lit

/-!
# Loading lineages from a file system (C94 - C97)
-/

namespace Thema.Props

open Load

/-- `fs.FS` values: each path once, and directories above everything. -/
structure WFfs (fs : FS) : Prop where
  nodup : (fs.map (·.1)).Nodup
  parents : ∀ p e, (p, e) ∈ fs → ∀ q, q <+: p → q ≠ [] → q ≠ p → (q, .dir) ∈ fs
  root : ∀ c, ([], .file c) ∉ fs

theorem stat_mem {fs : FS} (h : (fs.map (·.1)).Nodup) {p : Path} {e : Entry} :
    stat fs p = some e ↔ (p, e) ∈ fs := by
  induction fs with
  | nil => simp [stat]
  | cons x fs ih =>
    obtain ⟨q, d⟩ := x
    simp only [List.map_cons, List.nodup_cons] at h
    rw [stat]
    by_cases hq : q = p
    · rw [if_pos hq]
      subst hq
      constructor
      · intro h'; injection h' with h'; subst h'; exact List.mem_cons_self ..
      · intro hm
        rcases List.mem_cons.1 hm with hm | hm
        · injection hm with _ hm; rw [hm]
        · exact absurd (List.mem_map_of_mem (f := Prod.fst) hm) h.1
    · rw [if_neg hq, ih h.2]
      constructor
      · exact List.mem_cons_of_mem _
      · intro hm
        rcases List.mem_cons.1 hm with hm | hm
        · injection hm with h1 _; exact absurd h1.symm hq
        · exact hm

theorem stat_none {fs : FS} {p : Path} : stat fs p = none ↔ ∀ e, (p, e) ∉ fs := by
  induction fs with
  | nil => simp [stat]
  | cons x fs ih =>
    obtain ⟨q, d⟩ := x
    rw [stat]
    by_cases hq : q = p
    · rw [if_pos hq]
      constructor
      · intro h; cases h
      · intro h; exact absurd (hq ▸ List.mem_cons_self ..) (h d)
    · rw [if_neg hq, ih]
      constructor
      · intro h e hm
        rcases List.mem_cons.1 hm with hm | hm
        · injection hm with h1 _; exact hq h1.symm
        · exact h e hm
      · intro h e hm; exact h e (List.mem_cons_of_mem _ hm)

theorem mem_prefixes {p q : Path} : q ∈ prefixes p ↔ q <+: p := by
  induction p generalizing q with
  | nil => simp [prefixes]
  | cons c p ih =>
    rw [prefixes, List.mem_cons, List.mem_map]
    constructor
    · rintro (h | ⟨r, hr, h⟩)
      · rw [h]; exact List.nil_prefix
      · rw [← h, List.cons_prefix_cons]; exact ⟨rfl, ih.1 hr⟩
    · intro h
      cases q with
      | nil => exact .inl rfl
      | cons d q =>
        rw [List.cons_prefix_cons] at h
        exact .inr ⟨q, ih.2 h.2, by rw [h.1]⟩

/-! ### AsModFS -/

/-- **C94** (no-op).  If there is a file `cue.mod/module.cue`, nothing changes. -/
theorem C94_noop {fs : FS} {e : Entry} (h : stat fs moduleCue = some e) (modname : Str) (p : Path) :
    asModFS fs modname p = stat fs p := by
  simp [asModFS, h]

/-- **C94** (frame).  Otherwise there is a file `cue.mod/module.cue` with the name of the
module, and every other file and directory (but for the directory `cue.mod`) is what it
was. -/
theorem C94_frame {fs : FS} (hw : WFfs fs) (h : stat fs moduleCue = none)
    (modname : Str) :
    asModFS fs modname moduleCue = some (.file (some (moduleText modname))) ∧
    asModFS fs modname cueMod = some .dir ∧
    ∀ p, p ≠ [] → p ≠ cueMod → p ≠ moduleCue → asModFS fs modname p = stat fs p := by
  have e0 : ∀ p, asModFS fs modname p = mergedStat (injected modname) (stat fs) p := by
    intro p; simp [asModFS, h]
  refine ⟨?_, ?_, ?_⟩
  · rw [e0]; rfl
  · rw [e0]; rfl
  · intro p h0 h1 h2
    rw [e0]
    have hi : injected modname p = none := by simp [injected, h0, h1, h2]
    simp only [mergedStat, hi]
    split
    · rename_i hany
      rw [List.any_eq_true] at hany
      obtain ⟨q, hq, hfile⟩ := hany
      rw [mem_prefixes] at hq
      have hqm : q = moduleCue := by
        unfold injected at hfile
        split at hfile
        · cases hfile
        · split at hfile
          · cases hfile
          · split at hfile
            · assumption
            · cases hfile
      subst hqm
      symm
      rw [stat_none]
      intro e hm
      have := hw.parents p e hm moduleCue hq (by decide) (Ne.symm h2)
      exact stat_none.1 h _ this
    · rfl

/-- **C94** (name, partial).  The injected file names the module, if the name needs no
escapes in CUE.  `parse` evaluates the field `module`; a file that is only a string literal
for it gives the value of the literal.  Missing: names with quotation marks, backslashes or
line feeds. -/
theorem C94_name_partial {parse : Str → Option Str}
    (hp : ∀ s x, Lit.unquote Lit.cueEsc (Lit.inQuotes s) = some x →
      parse ("module: ".toList ++ Lit.inQuotes s) = some x)
    {modname : Str} (h : Lit.Plain modname) : parse (moduleText modname) = some modname :=
  hp _ _ ((Lit.unquote_inQuotes Lit.cueEsc_shrinks _).2 h)

/-- **C94** (refutation).  A name with a backslash can be taken for another. -/
theorem C94_name_changed {parse : Str → Option Str}
    (hp : ∀ s x, Lit.unquote Lit.cueEsc (Lit.inQuotes s) = some x →
      parse ("module: ".toList ++ Lit.inQuotes s) = some x) :
    parse (moduleText "fleet\\tug".toList) = some "fleet\tug".toList :=
  hp _ _ (by decide)

/-- A file system with a `cue.mod` that has no `module.cue`. -/
def vendoredFS : FS :=
  [([], .dir), (["cue.mod".toList], .dir), (["cue.mod".toList, "pkg".toList], .dir),
   (["ship.cue".toList], .file (some "x".toList))]

theorem vendoredFS_wf : WFfs vendoredFS := by
  refine ⟨by decide, ?_, fun c h => by simp [vendoredFS] at h⟩
  intro p e hm q hq h0 hne
  simp only [vendoredFS, List.mem_cons, List.not_mem_nil, or_false, Prod.mk.injEq] at hm
  have hq' := mem_prefixes.2 hq
  rcases hm with ⟨rfl, _⟩ | ⟨rfl, _⟩ | ⟨rfl, _⟩ | ⟨rfl, _⟩ <;>
    simp [prefixes] at hq' <;> simp_all [vendoredFS]

/-- **C94** (refutation).  "If a cue.mod already exists in the provided fs.FS, this func is a
no-op": not if it has no `module.cue`. -/
theorem C94_cue_mod_not_noop : stat vendoredFS cueMod = some .dir ∧
    asModFS vendoredFS "example.com/fleet".toList moduleCue ≠ stat vendoredFS moduleCue := by
  decide

example : WFfs vendoredFS ∧ stat vendoredFS moduleCue = none ∧
    Lit.Plain "example.com/fleet".toList :=
  ⟨vendoredFS_wf, by decide, by decide⟩

/-! ### InstanceWithThema -/

theorem under_iff {a b : Path} : under a b = true ↔ a <+: b := by
  induction a generalizing b with
  | nil => simp [under]
  | cons x a ih =>
    cases b with
    | nil => simp [under]
    | cons y b => simp [under, ih, List.cons_prefix_cons]

/-- The module file is there, is readable and names a module. -/
def Names (parse : Str → Option Str) (fs : FS) (m : Str) : Prop :=
  m ≠ [] ∧ ∃ b, (moduleCue, .file (some b)) ∈ fs ∧ parse b = some m

theorem walkMod_ok {parse : Str → Option Str} : ∀ (fs : FS) (_ : (fs.map (·.1)).Nodup) (m m' : Str),
    walkMod parse fs m = .ok m' ↔
      (themaModPath, .dir) ∉ fs ∧
      ((Names parse fs m') ∨ ((∀ c, (moduleCue, .file c) ∉ fs) ∧ m' = m)) := by
  intro fs
  induction fs with
  | nil =>
    intro _ m m'
    simp only [walkMod, Names, Except.ok.injEq]
    constructor
    · intro h; exact ⟨by simp, .inr ⟨by simp, h.symm⟩⟩
    · rintro ⟨_, ⟨_, b, hb, _⟩ | ⟨_, h⟩⟩
      · cases hb
      · exact h.symm
  | cons x fs ih =>
    obtain ⟨p, e⟩ := x
    intro hn m m'
    simp only [List.map_cons, List.nodup_cons] at hn
    have hnp : ∀ e', (p, e') ∉ fs := fun e' hm => hn.1 (List.mem_map_of_mem (f := Prod.fst) hm)
    -- skipped entries
    have skip : (p, e) ≠ (themaModPath, Entry.dir) → (∀ c, (p, e) ≠ (moduleCue, Entry.file c)) →
        ((themaModPath, Entry.dir) ∉ fs ∧
          (Names parse fs m' ∨ ((∀ c, (moduleCue, Entry.file c) ∉ fs) ∧ m' = m)) ↔
        (themaModPath, Entry.dir) ∉ (p, e) :: fs ∧
          (Names parse ((p, e) :: fs) m' ∨
            ((∀ c, (moduleCue, Entry.file c) ∉ (p, e) :: fs) ∧ m' = m))) := by
      intro h1 h2
      have a1 : (themaModPath, Entry.dir) ∉ (p, e) :: fs ↔ (themaModPath, Entry.dir) ∉ fs := by
        rw [List.mem_cons, not_or]
        exact ⟨fun h => h.2, fun h => ⟨fun h' => h1 h'.symm, h⟩⟩
      have a2 : ∀ c, (moduleCue, Entry.file c) ∈ (p, e) :: fs ↔ (moduleCue, Entry.file c) ∈ fs := by
        intro c
        rw [List.mem_cons]
        exact ⟨fun h => h.resolve_left fun h' => h2 c h'.symm, .inr⟩
      simp only [a1, a2, Names]
    rw [walkMod.eq_def]
    dsimp only
    split
    · rename_i hc
      rw [ih hn.2 m m']
      refine skip ?_ ?_
      · rintro h; injection h with h _; subst h
        exact absurd hc (by decide)
      · rintro c h; injection h with h _; subst h
        exact absurd hc (by decide)
    · cases e with
      | dir =>
        simp only
        by_cases hp : p = themaModPath
        · rw [if_pos hp]
          constructor
          · intro h; cases h
          · rintro ⟨h, _⟩; exact absurd (hp ▸ List.mem_cons_self ..) h
        · rw [if_neg hp, ih hn.2 m m']
          exact skip (fun h => hp (Prod.mk.inj h).1) (fun c h => nomatch (Prod.mk.inj h).2)
      | file c =>
        simp only
        by_cases hp : p = moduleCue
        · rw [if_pos hp]
          subst hp
          have a1 : (themaModPath, Entry.dir) ∉ (moduleCue, Entry.file c) :: fs ↔
              (themaModPath, Entry.dir) ∉ fs := by
            rw [List.mem_cons, not_or]
            exact ⟨fun h => h.2, fun h => ⟨fun h' => (nomatch (Prod.mk.inj h').2), h⟩⟩
          have a3 : ¬ ∀ d, (moduleCue, Entry.file d) ∉ (moduleCue, Entry.file c) :: fs :=
            fun h => h c (List.mem_cons_self ..)
          have a4 : Names parse ((moduleCue, Entry.file c) :: fs) m' ↔
              m' ≠ [] ∧ ∃ b, c = some b ∧ parse b = some m' := by
            constructor
            · rintro ⟨h1, b, hb, h2⟩
              rcases List.mem_cons.1 hb with hb | hb
              · injection hb with _ hb; injection hb with hb
                exact ⟨h1, b, hb.symm, h2⟩
              · exact absurd hb (hnp _)
            · rintro ⟨h1, b, rfl, h2⟩
              exact ⟨h1, b, List.mem_cons_self .., h2⟩
          rw [a1, a4]
          have a5 : ∀ m₂ m₃, ((Names parse fs m₂) ∨ ((∀ c, (moduleCue, Entry.file c) ∉ fs) ∧ m₂ = m₃))
              ↔ m₂ = m₃ := by
            intro m₂ m₃
            constructor
            · rintro (⟨_, b, hb, _⟩ | ⟨_, h⟩)
              · exact absurd hb (hnp _)
              · exact h
            · intro h; exact .inr ⟨fun c => hnp _, h⟩
          cases c with
          | none =>
            constructor
            · intro h; cases h
            · rintro ⟨_, ⟨_, b, hb, _⟩ | ⟨h, _⟩⟩
              · cases hb
              · exact absurd h a3
          | some b =>
            simp only
            cases hpb : parse b with
            | none =>
              constructor
              · intro h; cases h
              · rintro ⟨_, ⟨_, b', hb, h⟩ | ⟨h, _⟩⟩
                · injection hb with hb; subst hb; rw [hpb] at h; cases h
                · exact absurd h a3
            | some n =>
              simp only
              by_cases hn0 : n = []
              · rw [if_pos hn0]
                constructor
                · intro h; cases h
                · rintro ⟨_, ⟨h0, b', hb, h⟩ | ⟨h, _⟩⟩
                  · injection hb with hb; subst hb; rw [hpb] at h; injection h with h
                    exact absurd (h.symm.trans hn0) h0
                  · exact absurd h a3
              · rw [if_neg hn0, ih hn.2 n m', a5]
                constructor
                · rintro ⟨h1, h2⟩
                  exact ⟨h1, .inl ⟨h2 ▸ hn0, b, rfl, h2 ▸ hpb⟩⟩
                · rintro ⟨h1, ⟨_, b', hb, h⟩ | ⟨h, _⟩⟩
                  · injection hb with hb; subst hb; rw [hpb] at h; injection h with h
                    exact ⟨h1, h.symm⟩
                  · exact absurd h a3
        · rw [if_neg hp, ih hn.2 m m']
          exact skip (fun h => nomatch (Prod.mk.inj h).2) (fun c h => hp (Prod.mk.inj h).1)

/-- All files can be read. -/
def Readable (fs : FS) : Prop := ∀ p, (p, .file none) ∉ fs

theorem toOverlay_some {pfx : Path} : ∀ (fs : FS) (o : Overlay),
    (∃ o', toOverlay pfx fs o = some o') ↔ Readable fs := by
  intro fs
  induction fs with
  | nil => intro o; simp [toOverlay, Readable]
  | cons x fs ih =>
    obtain ⟨p, e⟩ := x
    intro o
    have key : (p, e) ≠ (p, Entry.file none) →
        (Readable ((p, e) :: fs) ↔ Readable fs) := by
      intro h
      constructor
      · intro hr q hm; exact hr q (List.mem_cons_of_mem _ hm)
      · intro hr q hm
        rcases List.mem_cons.1 hm with hm | hm
        · injection hm with h1 h2; exact h (by rw [h2])
        · exact hr q hm
    cases e with
    | dir => rw [toOverlay, ih, key (fun h => nomatch (Prod.mk.inj h).2)]
    | file c =>
      cases c with
      | none =>
        simp only [toOverlay]
        constructor
        · rintro ⟨_, h⟩; cases h
        · intro h; exact absurd (List.mem_cons_self ..) (h p)
      | some c =>
        rw [toOverlay, ih, key (fun h => nomatch Entry.file.inj (Prod.mk.inj h).2)]

theorem get_append (o o' : Overlay) (q : Path) :
    (o ++ o').get q = match Overlay.get o' q with
      | some d => some d
      | none => Overlay.get o q := by
  induction o with
  | nil => simp only [List.nil_append, Overlay.get]; cases Overlay.get o' q <;> rfl
  | cons x o ih =>
    obtain ⟨p, c⟩ := x
    rw [List.cons_append, Overlay.get, ih, Overlay.get]
    cases Overlay.get o' q <;> rfl

/-- What an overlay made from a file system has. -/
theorem toOverlay_get {pfx : Path} : ∀ (fs : FS) (o o' : Overlay) (_ : (fs.map (·.1)).Nodup),
    toOverlay pfx fs o = some o' →
    (∀ p c, (p, .file (some c)) ∈ fs → o'.get (pfx ++ p) = some c) ∧
    (∀ q, (∀ p c, (p, .file (some c)) ∈ fs → q ≠ pfx ++ p) → o'.get q = o.get q) := by
  intro fs
  induction fs with
  | nil =>
    intro o o' _ h
    rw [toOverlay] at h; injection h with h; subst h
    exact ⟨fun p c hm => (nomatch hm), fun q _ => rfl⟩
  | cons x fs ih =>
    obtain ⟨p, e⟩ := x
    intro o o' hn h
    simp only [List.map_cons, List.nodup_cons] at hn
    cases e with
    | dir =>
      rw [toOverlay] at h
      obtain ⟨h1, h2⟩ := ih o o' hn.2 h
      refine ⟨fun q c hm => ?_, fun q hq => h2 q fun p' c hm => hq p' c (List.mem_cons_of_mem _ hm)⟩
      rcases List.mem_cons.1 hm with hm | hm
      · cases hm
      · exact h1 q c hm
    | file c =>
      cases c with
      | none => rw [toOverlay] at h; cases h
      | some c =>
        rw [toOverlay] at h
        obtain ⟨h1, h2⟩ := ih _ o' hn.2 h
        constructor
        · intro q d hm
          rcases List.mem_cons.1 hm with hm | hm
          · injection hm with e1 e2
            injection e2 with e2; injection e2 with e2
            subst e1; subst e2
            rw [h2, get_append]
            · simp [Overlay.get]
            · intro p' c' hm' he
              have := List.append_cancel_left he
              subst this
              exact hn.1 (List.mem_map_of_mem (f := Prod.fst) hm')
          · exact h1 q d hm
        · intro q hq
          rw [h2 q fun p' c' hm => hq p' c' (List.mem_cons_of_mem _ hm), get_append]
          have : ¬ pfx ++ p = q := fun he => hq p c (List.mem_cons_self ..) he.symm
          simp [Overlay.get, this]

/-- **C95** (errors).  The configuration is made exactly if `cue.mod/module.cue` is a
readable file that names a module, there is no directory for Thema below `cue.mod/pkg` and
all files are readable. -/
theorem C95_success_iff {parse : Str → Option Str} {cueFS jointFS modFS : FS} (hw : WFfs modFS)
    (hc : Readable cueFS) (hj : Readable jointFS) (dir : Str) (pkg : Option Str) (m : Str) :
    (∃ cfg, instanceWithThema parse cueFS jointFS modFS dir pkg = .ok cfg ∧ cfg.module = m) ↔
      Names parse modFS m ∧ (themaModPath, .dir) ∉ modFS ∧ Readable modFS := by
  unfold instanceWithThema
  by_cases hs : stat modFS cueMod = none
  · rw [if_pos hs]
    constructor
    · rintro ⟨_, h, _⟩; cases h
    · rintro ⟨⟨_, b, hb, _⟩, _⟩
      have := hw.parents _ _ hb cueMod (by decide) (by decide) (by decide)
      exact absurd this (stat_none.1 hs _)
  · rw [if_neg hs]
    cases hwalk : walkMod parse modFS [] with
    | error e =>
      constructor
      · rintro ⟨_, h, _⟩; cases h
      · rintro ⟨h1, h2, _⟩
        have := (walkMod_ok modFS hw.nodup [] m).2 ⟨h2, .inl h1⟩
        rw [hwalk] at this; cases this
    | ok n =>
      obtain ⟨h1, h2⟩ := (walkMod_ok modFS hw.nodup [] n).1 hwalk
      simp only
      have uniq : Names parse modFS m → n = m := by
        intro h
        have := (walkMod_ok modFS hw.nodup [] m).2 ⟨h1, .inl h⟩
        rw [hwalk] at this; injection this
      by_cases hn0 : n = []
      · rw [if_pos hn0]
        constructor
        · rintro ⟨_, h, _⟩; cases h
        · rintro ⟨h, _⟩; exact absurd ((uniq h).symm.trans hn0) h.1
      · rw [if_neg hn0]
        have hN : Names parse modFS n := h2.resolve_right fun h => hn0 h.2
        cases ho : toOverlay (joinAbs [] n) modFS [] with
        | none =>
          constructor
          · rintro ⟨_, h, _⟩; cases h
          · rintro ⟨_, _, h⟩
            obtain ⟨o, ho'⟩ := (toOverlay_some (pfx := joinAbs [] n) modFS []).2 h
            rw [ho] at ho'; cases ho'
        | some o =>
          have hr : Readable modFS := (toOverlay_some modFS []).1 ⟨o, ho⟩
          simp only
          have : ∃ o', (if n = themaMod then toOverlay (joinAbs [] n) jointFS o
              else toOverlay (joinAbs [] n ++ themaModPath) cueFS o) = some o' := by
            split
            · exact (toOverlay_some jointFS o).2 hj
            · exact (toOverlay_some cueFS o).2 hc
          obtain ⟨o', ho'⟩ := this
          rw [ho']
          constructor
          · rintro ⟨cfg, h, h'⟩
            injection h with h
            rw [← h] at h'
            have h' : n = m := h'
            subst h'
            exact ⟨hN, h1, hr⟩
          · rintro ⟨h, _⟩
            exact ⟨_, rfl, uniq h⟩

/-- What the configuration is made of. -/
theorem instance_ok {parse : Str → Option Str} {cueFS jointFS modFS : FS} {dir : Str}
    {pkg : Option Str} {cfg : Cfg}
    (h : instanceWithThema parse cueFS jointFS modFS dir pkg = .ok cfg) :
    ∃ o, toOverlay (joinAbs [] cfg.module) modFS [] = some o ∧
      (if cfg.module = themaMod then toOverlay (joinAbs [] cfg.module) jointFS o
        else toOverlay (joinAbs [] cfg.module ++ themaModPath) cueFS o) = some cfg.overlay ∧
      walkMod parse modFS [] = .ok cfg.module ∧
      cfg.moduleRoot = joinAbs [] cfg.module ∧
      cfg.dir = (if dir = [] ∨ dir = ['.'] then cfg.moduleRoot else joinAbs cfg.moduleRoot dir) ∧
      cfg.package = pkg.getD
        (if dir = [] ∨ dir = ['.'] then baseAbs cfg.moduleRoot else baseStr dir) := by
  unfold instanceWithThema at h
  split at h
  · cases h
  · cases hwalk : walkMod parse modFS [] with
    | error e => rw [hwalk] at h; cases h
    | ok n =>
      rw [hwalk] at h
      simp only at h
      split at h
      · cases h
      · cases ho : toOverlay (joinAbs [] n) modFS [] with
        | none => rw [ho] at h; cases h
        | some o =>
          rw [ho] at h
          simp only at h
          split at h
          · cases h
          · rename_i o' ho'
            injection h with h
            subst h
            exact ⟨o, ho, ho', rfl, rfl, rfl, rfl⟩

/-- **C95** (files, partial).  Outside of Thema's own module, the loader sees every file of
the caller, in the directory of its module, and every CUE file of Thema, where CUE looks for
its package, with their contents, and no other file.  Missing: Thema's own module
(`C95_thema_module`). -/
theorem C95_files_partial {parse : Str → Option Str} {cueFS jointFS modFS : FS} (hw : WFfs modFS)
    (hc : WFfs cueFS) {dir : Str} {pkg : Option Str} {cfg : Cfg}
    (h : instanceWithThema parse cueFS jointFS modFS dir pkg = .ok cfg)
    (hm : cfg.module ≠ themaMod) (q : Path) (c : Str) :
    cfg.overlay.get q = some c ↔
      (∃ p, (p, .file (some c)) ∈ modFS ∧ q = cfg.moduleRoot ++ p) ∨
      (∃ p, (p, .file (some c)) ∈ cueFS ∧ q = cfg.moduleRoot ++ themaModPath ++ p) := by
  obtain ⟨o, h1, h2, h3, h4, _⟩ := instance_ok h
  rw [if_neg hm] at h2
  rw [← h4] at h1 h2
  obtain ⟨a1, a2⟩ := toOverlay_get modFS [] o hw.nodup h1
  obtain ⟨b1, b2⟩ := toOverlay_get cueFS o _ hc.nodup h2
  have hno := ((walkMod_ok modFS hw.nodup [] _).1 h3).1
  have disj : ∀ p c, (p, Entry.file (some c)) ∈ modFS → ∀ p' c', (p', Entry.file (some c')) ∈ cueFS →
      cfg.moduleRoot ++ p ≠ cfg.moduleRoot ++ themaModPath ++ p' := by
    intro p c hp p' c' hp' he
    rw [List.append_assoc] at he
    have he := List.append_cancel_left he
    have hne : p' ≠ [] := fun h0 => hc.root _ (h0 ▸ hp')
    refine hno (hw.parents _ _ hp themaModPath (he ▸ List.prefix_append _ _) (by decide) ?_)
    intro h0
    rw [← h0] at he
    have := congrArg List.length he
    rw [List.length_append] at this
    exact hne (List.eq_nil_of_length_eq_zero (by omega))
  have userGet : ∀ p c, (p, Entry.file (some c)) ∈ modFS →
      cfg.overlay.get (cfg.moduleRoot ++ p) = some c := by
    intro p c hp
    rw [b2 _ fun p' c' hp' => disj p c hp p' c' hp']
    exact a1 p c hp
  constructor
  · intro hq
    by_cases hu : ∃ p c', (p, Entry.file (some c')) ∈ modFS ∧ q = cfg.moduleRoot ++ p
    · obtain ⟨p, c', hp, rfl⟩ := hu
      rw [userGet p c' hp] at hq; injection hq with hq; subst hq
      exact .inl ⟨p, hp, rfl⟩
    · by_cases ht : ∃ p c', (p, Entry.file (some c')) ∈ cueFS ∧ q = cfg.moduleRoot ++ themaModPath ++ p
      · obtain ⟨p, c', hp, rfl⟩ := ht
        rw [b1 p c' hp] at hq; injection hq with hq; subst hq
        exact .inr ⟨p, hp, rfl⟩
      · rw [b2 q fun p c' hp he => ht ⟨p, c', hp, he⟩, a2 q fun p c' hp he => hu ⟨p, c', hp, he⟩] at hq
        cases hq
  · rintro (⟨p, hp, rfl⟩ | ⟨p, hp, rfl⟩)
    · exact userGet p c hp
    · exact b1 p c hp

/-- **C95** (refutation).  In Thema's own module the caller's files are not used if Thema has
embedded a file of the same path. -/
theorem C95_thema_module {parse : Str → Option Str} {cueFS jointFS modFS : FS}
    (hj : WFfs jointFS) {dir : Str} {pkg : Option Str} {cfg : Cfg}
    (h : instanceWithThema parse cueFS jointFS modFS dir pkg = .ok cfg)
    (hm : cfg.module = themaMod) {p : Path} {c : Str} (hp : (p, .file (some c)) ∈ jointFS) :
    cfg.overlay.get (cfg.moduleRoot ++ p) = some c := by
  obtain ⟨o, h1, h2, h3, h4, _⟩ := instance_ok h
  rw [if_pos hm, ← h4] at h2
  exact (toOverlay_get jointFS o _ hj.nodup h2).1 p c hp

/-! ### Names -/

/-- An element of a path as it should be: not empty, `.` or `..`, without slashes. -/
def GoodElem (s : Str) : Prop := s ≠ [] ∧ s ≠ ['.'] ∧ s ≠ ['.', '.'] ∧ '/' ∉ s

/-- A path written with slashes. -/
def slash : List Str → Str
  | [] => []
  | [s] => s
  | s :: ss => s ++ '/' :: slash ss

theorem splitSlash_ne (s : Str) : splitSlash s ≠ [] := by
  cases s with
  | nil => simp [splitSlash]
  | cons c s =>
    rw [splitSlash]
    split
    · simp
    · split <;> simp

theorem splitSlash_noslash {s : Str} (h : '/' ∉ s) : splitSlash s = [s] := by
  induction s with
  | nil => rfl
  | cons c s ih =>
    rw [splitSlash, if_neg (fun e => h (by simp [e])), ih (fun hm => h (List.mem_cons_of_mem _ hm))]

theorem splitSlash_cons {s t : Str} (h : '/' ∉ s) : splitSlash (s ++ '/' :: t) = s :: splitSlash t := by
  induction s with
  | nil => rw [List.nil_append, splitSlash, if_pos rfl]
  | cons c s ih =>
    rw [List.cons_append, splitSlash, if_neg (fun e => h (by simp [e])),
      ih (fun hm => h (List.mem_cons_of_mem _ hm))]

theorem splitSlash_slash : ∀ (ss : List Str), ss ≠ [] → (∀ s ∈ ss, '/' ∉ s) →
    splitSlash (slash ss) = ss
  | [], h, _ => absurd rfl h
  | [s], _, h => by rw [slash]; exact splitSlash_noslash (h s (List.mem_cons_self ..))
  | s :: t :: ss, _, h => by
    rw [slash, splitSlash_cons (h s (List.mem_cons_self ..)),
      splitSlash_slash (t :: ss) (by simp) fun x hx => h x (List.mem_cons_of_mem _ hx)]
    simp

theorem cleanAbs_good : ∀ (ss acc : List Str), (∀ s ∈ ss, GoodElem s) →
    cleanAbs ss acc = acc.reverse ++ ss := by
  intro ss
  induction ss with
  | nil => intro acc _; simp [cleanAbs]
  | cons s ss ih =>
    intro acc h
    obtain ⟨h1, h2, h3, _⟩ := h s (List.mem_cons_self ..)
    rw [cleanAbs, if_neg h1, if_neg h2, if_neg h3, ih _ fun x hx => h x (List.mem_cons_of_mem _ hx)]
    simp

theorem joinAbs_good {root ss : List Str} (h0 : ss ≠ []) (h : ∀ s ∈ ss, GoodElem s) :
    joinAbs root (slash ss) = root ++ ss := by
  rw [joinAbs, splitSlash_slash ss h0 fun s hs => (h s hs).2.2.2, cleanAbs_good _ _ h,
    List.reverse_reverse]

theorem slash_ne {ss : List Str} (h0 : ss ≠ []) (h : ∀ s ∈ ss, GoodElem s) : slash ss ≠ [] := by
  intro he
  have := splitSlash_slash ss h0 fun s hs => (h s hs).2.2.2
  rw [he] at this
  have : ss = [[]] := this.symm
  exact (h [] (this ▸ List.mem_cons_self ..)).1 rfl

theorem slash_last : ∀ {ss : List Str}, ss ≠ [] → (∀ s ∈ ss, GoodElem s) →
    ∃ c, (slash ss).getLast? = some c ∧ c ≠ '/'
  | [], h0, _ => absurd rfl h0
  | [s], _, h => by
    have hg := h s (List.mem_cons_self ..)
    rw [slash]
    refine ⟨s.getLast hg.1, List.getLast?_eq_some_getLast hg.1, fun he => hg.2.2.2 ?_⟩
    rw [← he]; exact List.getLast_mem hg.1
  | s :: t :: ss, _, h => by
    obtain ⟨c, h1, h2⟩ := slash_last (ss := t :: ss) (by simp)
      fun x hx => h x (List.mem_cons_of_mem _ hx)
    refine ⟨c, ?_, h2⟩
    rw [slash, List.getLast?_append, List.getLast?_cons]
    · rw [h1]; rfl
    · simp

theorem dropSlashes_good {s : Str} {c : Char} (h : s.getLast? = some c) (hc : c ≠ '/') :
    dropSlashes s = s := by
  unfold dropSlashes
  have : s.reverse.head? = some c := by rw [List.head?_reverse]; exact h
  cases hr : s.reverse with
  | nil => rw [hr] at this; cases this
  | cons d r =>
    rw [hr] at this
    injection this with this
    subst this
    rw [List.dropWhile_cons_of_neg (by simpa using hc), ← hr, List.reverse_reverse]

theorem baseStr_good {ss : List Str} {l : Str} (h : ∀ s ∈ ss ++ [l], GoodElem s) :
    baseStr (slash (ss ++ [l])) = l := by
  have h0 : ss ++ [l] ≠ [] := by simp
  obtain ⟨c, h1, h2⟩ := slash_last h0 h
  unfold baseStr
  rw [dropSlashes_good h1 h2, if_neg (slash_ne h0 h), if_neg (slash_ne h0 h),
    splitSlash_slash _ h0 fun s hs => (h s hs).2.2.2]
  simp

/-- **C96**.  The module is loaded in the directory with its name.  `""` and `"."` load its
root and, without a `Package` option, the package with the last element of the name of the
module; a directory `ss/l` of the module is loaded with the package `l`.  A `Package` option
sets the package. -/
theorem C96_package {parse : Str → Option Str} {cueFS jointFS modFS : FS} {dir : Str}
    {pkg : Option Str} {cfg : Cfg}
    (h : instanceWithThema parse cueFS jointFS modFS dir pkg = .ok cfg)
    {ms : List Str} {ml : Str} (hm : cfg.module = slash (ms ++ [ml]))
    (hg : ∀ s ∈ ms ++ [ml], GoodElem s) :
    cfg.moduleRoot = ms ++ [ml] ∧
    (∀ n, pkg = some n → cfg.package = n) ∧
    (dir = [] ∨ dir = ['.'] → cfg.dir = ms ++ [ml] ∧ (pkg = none → cfg.package = ml)) ∧
    (∀ ss l, dir = slash (ss ++ [l]) → (∀ s ∈ ss ++ [l], GoodElem s) →
      cfg.dir = (ms ++ [ml]) ++ (ss ++ [l]) ∧ (pkg = none → cfg.package = l)) := by
  obtain ⟨o, _, _, _, h4, h5, h6⟩ := instance_ok h
  have hroot : cfg.moduleRoot = ms ++ [ml] := by
    rw [h4, hm, joinAbs_good (by simp) hg]; rfl
  rw [hroot] at h5 h6
  refine ⟨hroot, ?_, ?_, ?_⟩
  · rintro n rfl; exact h6
  · intro hd
    rw [if_pos hd] at h5 h6
    refine ⟨h5, ?_⟩
    rintro rfl
    rw [h6]
    simp [baseAbs]
  · intro ss l hd hgd
    have hnd : ¬ (dir = [] ∨ dir = ['.']) := by
      rintro (h' | h')
      · exact slash_ne (by simp) hgd (hd.symm.trans h')
      · have h1 := splitSlash_slash (ss ++ [l]) (by simp) fun s hs => (hgd s hs).2.2.2
        rw [← hd, h'] at h1
        have h1 : ss ++ [l] = [['.']] := h1.symm
        exact (hgd ['.'] (h1 ▸ List.mem_cons_self ..)).2.1 rfl
    rw [if_neg hnd] at h5 h6
    refine ⟨?_, ?_⟩
    · rw [h5, hd, joinAbs_good (by simp) hgd]
    · rintro rfl
      rw [h6, hd]
      exact baseStr_good hgd

theorem cleanAbs_mid : ∀ (a : List Str) {b c : List Str},
    (∀ acc, cleanAbs b acc = cleanAbs c acc) → ∀ acc, cleanAbs (a ++ b) acc = cleanAbs (a ++ c) acc
  | [], _, _, h, acc => h acc
  | s :: a, b, c, h, acc => by
    have ih := cleanAbs_mid a h
    rw [List.cons_append, List.cons_append, cleanAbs, cleanAbs]
    split
    · exact ih _
    · split
      · exact ih _
      · split
        · exact ih _
        · exact ih _

theorem dir_joinAbs {parse : Str → Option Str} {cueFS jointFS modFS : FS} {dir : Str}
    {pkg : Option Str} {cfg : Cfg}
    (h : instanceWithThema parse cueFS jointFS modFS dir pkg = .ok cfg) :
    cfg.dir = joinAbs cfg.moduleRoot dir := by
  obtain ⟨o, _, _, _, h4, h5, _⟩ := instance_ok h
  rw [h5]
  split
  · rename_i hd
    rcases hd with rfl | rfl <;> simp [joinAbs, splitSlash, cleanAbs]
  · rfl

/-- **C96** (dots).  In the directory that is asked for, empty elements and `.` have no effect,
and `..` undoes the element before it. -/
theorem C96_dots {parse : Str → Option Str} {cueFS jointFS modFS : FS} {pkg : Option Str}
    {cfg cfg' : Cfg} {a b mid : List Str} (hab : a ++ b ≠ []) (ha : ∀ s ∈ a ++ b, '/' ∉ s)
    (hmid : mid = [[]] ∨ mid = [['.']] ∨ ∃ x, GoodElem x ∧ mid = [x, ['.', '.']])
    (h : instanceWithThema parse cueFS jointFS modFS (slash (a ++ b)) pkg = .ok cfg)
    (h' : instanceWithThema parse cueFS jointFS modFS (slash (a ++ mid ++ b)) pkg = .ok cfg') :
    cfg'.dir = cfg.dir := by
  have hroot : cfg'.moduleRoot = cfg.moduleRoot := by
    obtain ⟨_, _, _, h3, h4, _⟩ := instance_ok h
    obtain ⟨_, _, _, h3', h4', _⟩ := instance_ok h'
    rw [h3] at h3'
    injection h3' with h3'
    rw [h4, h4', h3']
  have hs : ∀ s ∈ a ++ mid ++ b, '/' ∉ s := by
    intro s hm
    simp only [List.mem_append] at hm
    rcases hm with (hm | hm) | hm
    · exact ha s (List.mem_append_left _ hm)
    · rcases hmid with rfl | rfl | ⟨x, hx, rfl⟩
      · simp only [List.mem_singleton] at hm; subst hm; simp
      · simp only [List.mem_singleton] at hm; subst hm; decide
      · simp only [List.mem_cons, List.not_mem_nil, or_false] at hm
        rcases hm with rfl | rfl
        · exact hx.2.2.2
        · decide
    · exact ha s (List.mem_append_right _ hm)
  have hne : a ++ mid ++ b ≠ [] := by
    rcases hmid with rfl | rfl | ⟨x, _, rfl⟩ <;> simp
  rw [dir_joinAbs h, dir_joinAbs h', hroot, joinAbs, joinAbs, splitSlash_slash _ hab ha,
    splitSlash_slash _ hne hs, List.append_assoc]
  refine cleanAbs_mid a (fun acc => ?_) _
  rcases hmid with rfl | rfl | ⟨x, hx, rfl⟩
  · simp [cleanAbs]
  · simp [cleanAbs]
  · simp [cleanAbs, hx.1, hx.2.1, hx.2.2.1]

/-- A file system with a module. -/
def fleetFS : FS :=
  [([], .dir), (["cue.mod".toList], .dir),
   (["cue.mod".toList, "module.cue".toList], .file (some "module: \"example.com/fleet\"".toList)),
   (["ship".toList], .dir), (["ship".toList, "ship.cue".toList], .file (some "x".toList))]

/-- An evaluation of module files that consist of one literal. -/
def parseLit (s : Str) : Option Str :=
  if "module: ".toList.isPrefixOf s then Lit.unquote Lit.cueEsc (s.drop 8) else none

/-- `fleetFS` with Thema reduced to one file. -/
example : ∃ cfg, instanceWithThema parseLit [(["lineage.cue".toList], .file (some "l".toList))] []
      fleetFS "ship".toList none = .ok cfg ∧
    cfg.package = "ship".toList ∧ cfg.dir = ["example.com".toList, "fleet".toList, "ship".toList] ∧
    cfg.overlay.get (["example.com".toList, "fleet".toList] ++ themaModPath ++
      ["lineage.cue".toList]) = some "l".toList := by
  refine ⟨_, rfl, ?_, ?_, ?_⟩ <;> decide

/-- `crew/../ship` is `ship`. -/
example : ∃ cfg cfg', instanceWithThema parseLit [] [] fleetFS (slash (["ship".toList] ++ [])) none
      = .ok cfg ∧
    instanceWithThema parseLit [] [] fleetFS
      (slash ([] ++ ["crew".toList, "..".toList] ++ ["ship".toList])) none = .ok cfg' ∧
    cfg'.dir = cfg.dir ∧ cfg.dir = ["example.com".toList, "fleet".toList, "ship".toList] := by
  refine ⟨_, _, rfl, rfl, ?_, ?_⟩ <;> decide

theorem fleetFS_wf : WFfs fleetFS := by
  refine ⟨by decide, ?_, fun c h => by simp [fleetFS] at h⟩
  intro p e hm q hq h0 hne
  simp only [fleetFS, List.mem_cons, List.not_mem_nil, or_false, Prod.mk.injEq] at hm
  have hq' := mem_prefixes.2 hq
  rcases hm with ⟨rfl, _⟩ | ⟨rfl, _⟩ | ⟨rfl, _⟩ | ⟨rfl, _⟩ | ⟨rfl, _⟩ <;>
    simp [prefixes] at hq' <;> simp_all [fleetFS]

example : WFfs fleetFS ∧ Names parseLit fleetFS "example.com/fleet".toList ∧
    (themaModPath, Entry.dir) ∉ fleetFS :=
  ⟨fleetFS_wf, ⟨by decide, "module: \"example.com/fleet\"".toList, by decide, by decide⟩, by decide⟩

/-- A changed `lineage.cue` in Thema's own module is not seen. -/
example : ∃ cfg, instanceWithThema parseLit []
      [(["lineage.cue".toList], .file (some "embedded".toList))]
      [(["cue.mod".toList], .dir),
       (["cue.mod".toList, "module.cue".toList],
        .file (some "module: \"github.com/grafana/thema\"".toList)),
       (["lineage.cue".toList], .file (some "changed".toList))] [] none = .ok cfg ∧
    cfg.module = themaMod ∧
    cfg.overlay.get (cfg.moduleRoot ++ ["lineage.cue".toList]) = some "embedded".toList := by
  refine ⟨_, rfl, ?_, ?_⟩ <;> decide

/-! ### The command line -/

/-- **C97** (partial).  The command line hides no file on disk but those of a vendored Thema
and, where there is no module, `cue.mod/module.cue`.  Missing: a vendored Thema
(`C97_vendored_hidden`). -/
theorem C97_disk_files_partial {cueFS : FS} {root : Path} {mod : Option Str} {o : Overlay}
    (hc : WFfs cueFS) (h : cliOverlay cueFS root mod = some o) (q : Path)
    (h1 : ¬ (root ++ themaModPath) <+: q) (h2 : mod = none → q ≠ root ++ moduleCue) :
    o.get q = none := by
  have key : ∀ o0 o', toOverlay (root ++ themaModPath) cueFS o0 = some o' → o'.get q = o0.get q := by
    intro o0 o' h'
    refine (toOverlay_get cueFS o0 o' hc.nodup h').2 q ?_
    rintro p c _ rfl
    exact h1 (List.prefix_append _ _)
  unfold cliOverlay at h
  cases mod with
  | none =>
    simp only at h
    rw [key _ _ h]
    have := h2 rfl
    simp [Overlay.get, Ne.symm this]
  | some m =>
    simp only at h
    split at h
    · injection h with h; subst h; rfl
    · rw [key _ _ h]; rfl

/-- **C97** (refutation).  Files of a Thema that the user has vendored are replaced by the
embedded ones, silently; `InstanceWithThema` reports an error. -/
theorem C97_vendored_hidden {cueFS : FS} {root : Path} {m : Str} {o : Overlay} (hc : WFfs cueFS)
    (hm : m ≠ themaMod) (h : cliOverlay cueFS root (some m) = some o) {p : Path} {c : Str}
    (hp : (p, .file (some c)) ∈ cueFS) : o.get (root ++ themaModPath ++ p) = some c := by
  unfold cliOverlay at h
  simp only at h
  rw [if_neg hm] at h
  exact (toOverlay_get cueFS [] o hc.nodup h).1 p c hp

example : "example.com/fleet".toList ≠ themaMod ∧
    (cliOverlay fleetFS ["home".toList] (some "example.com/fleet".toList)).isSome = true := by decide

/-! ### The theorems on the file systems above -/

theorem parseLit_law (s x : Str) (h : Lit.unquote Lit.cueEsc (Lit.inQuotes s) = some x) :
    parseLit ("module: ".toList ++ Lit.inQuotes s) = some x := by
  simpa [parseLit] using h

example := C94_noop (fs := fleetFS) (e := .file (some "module: \"example.com/fleet\"".toList))
  (by decide) "other".toList ["ship".toList]

example := C94_frame vendoredFS_wf (by decide) "example.com/fleet".toList

example : parseLit (moduleText "example.com/fleet".toList) = some "example.com/fleet".toList :=
  C94_name_partial parseLit_law (by decide)

example : parseLit (moduleText "fleet\\tug".toList) = some "fleet\tug".toList :=
  C94_name_changed parseLit_law

def cueFiles : FS := [(["lineage.cue".toList], .file (some "l".toList))]

theorem cueFiles_wf : WFfs cueFiles where
  nodup := by decide
  parents p e h q hq h0 hne := by
    simp only [cueFiles, List.mem_singleton, Prod.mk.injEq] at h
    obtain ⟨rfl, -⟩ := h
    rcases q with _ | ⟨a, _ | ⟨b, q⟩⟩
    · exact absurd rfl h0
    · simp only [List.cons_prefix_cons, List.nil_prefix, and_true] at hq
      exact absurd (by rw [hq]) hne
    · simp at hq
  root c h := by simp [cueFiles] at h

example : ∃ cfg, instanceWithThema parseLit cueFiles cueFiles fleetFS "ship".toList none = .ok cfg ∧
    cfg.module = "example.com/fleet".toList :=
  (C95_success_iff fleetFS_wf (by intro p h; simp [cueFiles] at h)
    (by intro p h; simp [cueFiles] at h) _ _ _).2
    ⟨⟨by decide, "module: \"example.com/fleet\"".toList, by decide, by decide⟩, by decide,
      by intro p h; simp [fleetFS] at h⟩

example : ∃ cfg, instanceWithThema parseLit cueFiles cueFiles fleetFS "ship".toList none = .ok cfg ∧
    cfg.overlay.get (cfg.moduleRoot ++ ["ship".toList, "ship.cue".toList]) = some "x".toList ∧
    cfg.overlay.get (cfg.moduleRoot ++ themaModPath ++ ["lineage.cue".toList]) =
      some "l".toList :=
  ⟨_, rfl,
    (C95_files_partial fleetFS_wf cueFiles_wf (parse := parseLit) (jointFS := cueFiles)
      (dir := "ship".toList) (pkg := none) rfl (by decide) _ _).2
      (.inl ⟨_, by decide, rfl⟩),
    (C95_files_partial fleetFS_wf cueFiles_wf (parse := parseLit) (jointFS := cueFiles)
      (dir := "ship".toList) (pkg := none) rfl (by decide) _ _).2
      (.inr ⟨_, by decide, rfl⟩)⟩

def themaFS : FS :=
  [(["cue.mod".toList], .dir),
   (["cue.mod".toList, "module.cue".toList],
    .file (some "module: \"github.com/grafana/thema\"".toList)),
   (["lineage.cue".toList], .file (some "changed".toList))]

example : ∃ cfg, instanceWithThema parseLit [] cueFiles themaFS [] none = .ok cfg ∧
    cfg.overlay.get (cfg.moduleRoot ++ ["lineage.cue".toList]) = some "l".toList :=
  ⟨_, rfl, C95_thema_module cueFiles_wf (parse := parseLit) (cueFS := []) (modFS := themaFS)
    (dir := []) (pkg := none) rfl (by decide) (by decide)⟩

example : ∃ cfg, instanceWithThema parseLit cueFiles cueFiles fleetFS "ship".toList none = .ok cfg ∧
    cfg.moduleRoot = ["example.com".toList, "fleet".toList] ∧
    cfg.dir = ["example.com".toList, "fleet".toList, "ship".toList] ∧
    cfg.package = "ship".toList := by
  refine ⟨_, rfl, ?_⟩
  have h := C96_package (parse := parseLit) (cueFS := cueFiles) (jointFS := cueFiles)
    (modFS := fleetFS) (dir := "ship".toList) (pkg := none) rfl (ms := ["example.com".toList])
    (ml := "fleet".toList) (by decide) (by simp [GoodElem])
  exact ⟨h.1, (h.2.2.2 [] "ship".toList (by decide) (by simp [GoodElem])).1,
    (h.2.2.2 [] "ship".toList (by decide) (by simp [GoodElem])).2 rfl⟩

example : ∃ cfg cfg', instanceWithThema parseLit [] [] fleetFS (slash ([] ++ ["ship".toList])) none
      = .ok cfg ∧
    instanceWithThema parseLit [] [] fleetFS
      (slash ([] ++ ["crew".toList, "..".toList] ++ ["ship".toList])) none = .ok cfg' ∧
    cfg'.dir = cfg.dir :=
  ⟨_, _, rfl, rfl, C96_dots (parse := parseLit) (cueFS := []) (jointFS := []) (modFS := fleetFS)
    (pkg := none) (a := []) (b := ["ship".toList]) (mid := ["crew".toList, "..".toList]) (by simp)
    (by simp) (.inr (.inr ⟨"crew".toList, by simp [GoodElem], rfl⟩)) rfl rfl⟩

example : ∃ o, cliOverlay cueFiles ["home".toList] (some "example.com/fleet".toList) = some o ∧
    o.get ["home".toList, "ship.cue".toList] = none ∧
    o.get (["home".toList] ++ themaModPath ++ ["lineage.cue".toList]) = some "l".toList :=
  ⟨_, rfl, C97_disk_files_partial cueFiles_wf (root := ["home".toList])
      (mod := some "example.com/fleet".toList) rfl _ (by decide) (by simp),
    C97_vendored_hidden cueFiles_wf (root := ["home".toList]) (m := "example.com/fleet".toList)
      (by decide) rfl (by decide)⟩

end Thema.Props
