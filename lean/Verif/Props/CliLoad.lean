import Verif.Spec.CliLoad
import Verif.Model.CliGen
import Verif.Props.Bind

/-!
# Loading a lineage on the command line (C80 - C82)
-/

namespace Thema.Props

open Spec Cli

variable {V : Type} {C : Cue V} {fs : Fs}

/-! ### C80: the CUE module -/

theorem atOrAbove_cons {d : Dir} {c : Str} {up : Dir} :
    AtOrAbove d (c :: up) ↔ d = c :: up ∨ AtOrAbove d up := by
  unfold AtOrAbove
  constructor
  · rintro ⟨below, h⟩
    cases below with
    | nil => exact .inl h.symm
    | cons b below =>
      simp only [List.cons_append, List.cons.injEq] at h
      exact .inr ⟨below, h.2⟩
  · rintro (rfl | ⟨below, h⟩)
    · exact ⟨[], rfl⟩
    · exact ⟨c :: below, by rw [h]; rfl⟩

theorem atOrAbove_nil {d : Dir} : AtOrAbove d [] ↔ d = [] := by
  unfold AtOrAbove
  constructor
  · rintro ⟨below, h⟩; exact (List.append_eq_nil_iff.1 h.symm).2
  · rintro rfl; exact ⟨[], rfl⟩

theorem atOrAbove_length {d s : Dir} (h : AtOrAbove d s) : d.length ≤ s.length := by
  obtain ⟨b, rfl⟩ := h; simp

theorem findCueModLoop_found : ∀ (start dir : Dir) (m : Str),
    findCueModLoop fs start = .found ⟨dir, m⟩ ↔ NearestCueMod fs start dir m ∧ dir ≠ []
  | [], dir, m => by
    simp only [findCueModLoop, reduceCtorEq, false_iff]
    rintro ⟨⟨h, _⟩, hne⟩
    exact hne (atOrAbove_nil.1 h)
  | c :: up, dir, m => by
    have ih := findCueModLoop_found up dir m
    unfold findCueModLoop
    have step : fs.cueMod (c :: up) = .notExist →
        (NearestCueMod fs (c :: up) dir m ↔ NearestCueMod fs up dir m) := by
      intro hne
      unfold NearestCueMod
      constructor
      · rintro ⟨h1, h2, h3⟩
        rcases atOrAbove_cons.1 h1 with rfl | h1
        · rw [hne] at h2; cases h2
        · exact ⟨h1, h2, fun d hd hl => h3 d (atOrAbove_cons.2 (.inr hd)) hl⟩
      · rintro ⟨h1, h2, h3⟩
        refine ⟨atOrAbove_cons.2 (.inr h1), h2, fun d hd hl => ?_⟩
        rcases atOrAbove_cons.1 hd with rfl | hd
        · exact hne
        · exact h3 d hd hl
    have other : fs.cueMod (c :: up) ≠ .notExist → NearestCueMod fs (c :: up) dir m →
        dir = c :: up := by
      rintro hne ⟨h1, h2, h3⟩
      rcases atOrAbove_cons.1 h1 with rfl | h1
      · rfl
      · refine absurd (h3 (c :: up) ⟨[], rfl⟩ ?_) hne
        have := atOrAbove_length h1
        simp; omega
    split
    · rename_i m' hc
      constructor
      · intro h
        injection h with h
        injection h with h1 h2
        subst h1; subst h2
        refine ⟨⟨⟨[], rfl⟩, hc, fun d hd hl => ?_⟩, by simp⟩
        have := atOrAbove_length hd
        omega
      · rintro ⟨h, _⟩
        have hd := other (by rw [hc]; simp) h
        subst hd
        have := h.2.1
        rw [hc] at this
        injection this with this; injection this with this; rw [this]
    · rename_i hc
      simp only [reduceCtorEq, false_iff]
      rintro ⟨h, _⟩
      have hd := other (by rw [hc]; simp) h
      subst hd
      have := h.2.1
      rw [hc] at this; cases this
    · rename_i hc
      simp only [reduceCtorEq, false_iff]
      rintro ⟨h, _⟩
      have hd := other (by rw [hc]; simp) h
      subst hd
      have := h.2.1
      rw [hc] at this; cases this
    · rename_i hc
      rw [ih, step hc]

/-- The directory in which the search starts. -/
def startDir (path : Dir) (isDir : Bool) : Dir := if isDir then path else path.tail

/-- **C80** (partial).  The search finds a module exactly if the nearest
`cue.mod/module.cue` at or above the path is readable, names a module and is not in the
root directory; and then returns that directory and name.  Missing: a module in the root
directory (`C80_root_never_found`). -/
theorem C80_nearest_partial (fs : Fs) (path : Dir) (isDir : Bool) (dir : Dir) (m : Str) :
    findCueMod fs path isDir = .found ⟨dir, m⟩ ↔
      NearestCueMod fs (startDir path isDir) dir m ∧ dir ≠ [] :=
  findCueModLoop_found _ _ _

theorem findCueModLoop_root : ∀ (start : Dir), (∀ d, AtOrAbove d start → d ≠ [] →
    fs.cueMod d = .notExist) → findCueModLoop fs start = .notFound
  | [], _ => rfl
  | c :: up, h => by
    unfold findCueModLoop
    rw [h (c :: up) ⟨[], rfl⟩ (by simp)]
    exact findCueModLoop_root up fun d hd hne => h d (atOrAbove_cons.2 (.inr hd)) hne

/-- **C80** (refutation).  A `cue.mod` in the root directory is never found: if it is the
nearest one, the search ends as if there were none. -/
theorem C80_root_never_found (path : Dir) (isDir : Bool) (m : Str)
    (h : NearestCueMod fs (startDir path isDir) [] m) : findCueMod fs path isDir = .notFound := by
  apply findCueModLoop_root
  intro d hd hne
  exact h.2.2 d hd (List.length_pos_iff.2 hne)

/-- `cue.mod` in the root directory only, `go.mod` in `/a`. -/
def rootFs : Fs where
  cueMod d := if d = [] then .content (some "example.com/m".toList) else .notExist
  goMod d := if d = ["a".toList] then .content "example.com/a".toList else .notExist

theorem rootFs_nearest (start : Dir) :
    NearestCueMod rootFs start [] "example.com/m".toList := by
  refine ⟨⟨start, (List.append_nil _).symm⟩, by simp only [rootFs, if_true], ?_⟩
  intro d _ hl
  have hd : d ≠ [] := List.length_pos_iff.1 hl
  unfold rootFs
  exact if_neg hd

example : findCueMod rootFs ["x.cue".toList, "b".toList, "a".toList] false = .notFound :=
  C80_root_never_found _ _ _ (rootFs_nearest _)

/-- `cue.mod` in `/a` (with an empty name) and in the root. -/
def emptyNameFs : Fs where
  cueMod d := if d = ["a".toList] then .content (some []) else
    if d = [] then .content (some "example.com/m".toList) else .notExist
  goMod d := if d = ["b".toList, "a".toList] then .content "example.com/b".toList else .notExist

example : findCueMod emptyNameFs ["b".toList, "a".toList] true = .found ⟨["a".toList], []⟩ := by
  decide

/-! ### The module of generated bindings -/

theorem lookGoMod_some {p : Dir} {r r' : Rootfind} (h : lookGoMod fs p r = some r') :
    r'.cuemod = r.cuemod ∧ r'.cuemodpath = r.cuemodpath := by
  unfold lookGoMod at h
  split at h
  · injection h with h; subst h; exact ⟨rfl, rfl⟩
  · split at h
    · injection h with h; subst h; exact ⟨rfl, rfl⟩
    · injection h with h; subst h; exact ⟨rfl, rfl⟩
    · cases h

/-- The search for the root finds the nearest `cue.mod`, in the root directory too. -/
theorem findModRootLoop_cue : ∀ (start dir : Dir) (m : Str) (r : Rootfind),
    NearestCueMod fs start dir m → (∀ d, AtOrAbove d start → fs.goMod d ≠ .failed) →
    ∃ r', findModRootLoop fs start r = some r' ∧ r'.cuemod = m ∧ r'.cuemodpath = some dir
  | [], dir, m, r, h, hg => by
    have := atOrAbove_nil.1 h.1
    subst this
    refine ⟨{ r with cuemod := m, cuemodpath := some [] }, ?_, rfl, rfl⟩
    simp only [findModRootLoop, h.2.1]
  | c :: up, dir, m, r, h, hg => by
    obtain ⟨h1, h2, h3⟩ := h
    rcases atOrAbove_cons.1 h1 with rfl | h1
    · refine ⟨{ r with cuemod := m, cuemodpath := some (c :: up) }, ?_, rfl, rfl⟩
      simp only [findModRootLoop, h2]
    · have hne : fs.cueMod (c :: up) = .notExist := by
        refine h3 _ ⟨[], rfl⟩ ?_
        have := atOrAbove_length h1
        simp; omega
      have hl : ∃ r', lookGoMod fs (c :: up) r = some r' := by
        unfold lookGoMod
        split
        · exact ⟨_, rfl⟩
        · split
          · exact ⟨_, rfl⟩
          · exact ⟨_, rfl⟩
          · rename_i hx; exact absurd hx (hg _ ⟨[], rfl⟩)
      obtain ⟨r', hr'⟩ := hl
      obtain ⟨r'', h''⟩ := findModRootLoop_cue up dir m r'
        ⟨h1, h2, fun d hd hl => h3 d (atOrAbove_cons.2 (.inr hd)) hl⟩
        (fun d hd => hg d (atOrAbove_cons.2 (.inr hd)))
      refine ⟨r'', ?_, h''.2⟩
      simp only [findModRootLoop, hne, hr', Option.bind_some, h''.1]

/-- **C80** (refutation).  For a module in the root directory, the lineage is loaded as if it
were in no module, while bindings are generated for that module. -/
theorem C80_root_module_differs (path : Dir) (isDir : Bool) {m : Str} (hm : m ≠ [])
    (h : NearestCueMod fs (startDir path isDir) [] m)
    (hg : ∀ d, AtOrAbove d (startDir path isDir) → fs.goMod d ≠ .failed) :
    findCueMod fs path isDir = .notFound ∧
    ∃ r, findModRoot fs path isDir = some r ∧ r.modname = m ∧ r.modpath = some [] := by
  refine ⟨C80_root_never_found path isDir m h, ?_⟩
  obtain ⟨r, hr, h1, h2⟩ := findModRootLoop_cue _ [] m ⟨[], none, [], none⟩ h hg
  refine ⟨r, hr, ?_, ?_⟩
  · simp [Rootfind.modname, Rootfind.exists_, h1, hm]
  · simp [Rootfind.modpath, Rootfind.exists_, h1, h2, hm]

example : (findModRoot rootFs ["a".toList] true).map (·.modname) =
    some "example.com/m".toList := by decide

/-! ### C81: the import path of generated bindings -/

theorem lookGoMod_set {p : Dir} {r : Rootfind} (h : r.gomodpath ≠ none) :
    lookGoMod fs p r = some r := by
  unfold lookGoMod
  split
  · rfl
  · rename_i hn; exact absurd hn h

/-- Once `go.mod` has been found, it stays. -/
theorem findModRootLoop_go : ∀ (start : Dir) (r r' : Rootfind), r.gomodpath ≠ none →
    findModRootLoop fs start r = some r' → r'.gomod = r.gomod ∧ r'.gomodpath = r.gomodpath
  | [], r, r', hr, h => by
    unfold findModRootLoop at h
    split at h
    · injection h with h; subst h; exact ⟨rfl, rfl⟩
    · cases h
    · rw [lookGoMod_set hr] at h; injection h with h; subst h; exact ⟨rfl, rfl⟩
    · rw [lookGoMod_set hr] at h; injection h with h; subst h; exact ⟨rfl, rfl⟩
  | c :: up, r, r', hr, h => by
    unfold findModRootLoop at h
    split at h
    · injection h with h; subst h; exact ⟨rfl, rfl⟩
    · cases h
    · rw [lookGoMod_set hr] at h; exact findModRootLoop_go up r r' hr h
    · rw [lookGoMod_set hr] at h; exact findModRootLoop_go up r r' hr h

/-- The nearest `go.mod` below the nearest `cue.mod` is found. -/
theorem findModRootLoop_gomod : ∀ (start gdir : Dir) (g : Str) (r r' : Rootfind),
    NearestGoMod fs start gdir g → r.gomodpath = none →
    (∀ d, AtOrAbove d start → gdir.length ≤ d.length → fs.cueMod d = .notExist) →
    findModRootLoop fs start r = some r' → r'.gomod = g ∧ r'.gomodpath = some gdir
  | [], gdir, g, r, r', h, hr, hc, hf => by
    have hcs : fs.cueMod [] = .notExist := hc [] ⟨[], rfl⟩ (atOrAbove_length h.1)
    have hd := atOrAbove_nil.1 h.1
    subst hd
    have hg := h.2.1
    simp only [findModRootLoop, hcs, lookGoMod, hr, hg] at hf
    injection hf with hf; subst hf; exact ⟨rfl, rfl⟩
  | c :: up, gdir, g, r, r', h, hr, hc, hf => by
    have hcs : fs.cueMod (c :: up) = .notExist := hc _ ⟨[], rfl⟩ (atOrAbove_length h.1)
    obtain ⟨h1, h2, h3⟩ := h
    rcases atOrAbove_cons.1 h1 with rfl | h1
    · simp only [findModRootLoop, hcs, lookGoMod, hr, h2, Option.bind_some] at hf
      exact findModRootLoop_go up _ r' (by simp) hf
    · have hne : fs.goMod (c :: up) = .notExist := by
        refine h3 _ ⟨[], rfl⟩ ?_
        have := atOrAbove_length h1
        simp; omega
      simp only [findModRootLoop, hcs, lookGoMod, hr, hne, Option.bind_some] at hf
      exact findModRootLoop_gomod up gdir g r r'
        ⟨h1, h2, fun d hd hl => h3 d (atOrAbove_cons.2 (.inr hd)) hl⟩ hr
        (fun d hd hl => hc d (atOrAbove_cons.2 (.inr hd)) hl) hf

/-- Without a `cue.mod`, the nearest `go.mod` is found. -/
theorem findModRootLoop_nocue : ∀ (start : Dir) (r r' : Rootfind), r.cuemod = [] →
    (∀ d, AtOrAbove d start → ∀ x, fs.cueMod d ≠ .content x) →
    findModRootLoop fs start r = some r' → r'.cuemod = []
  | [], r, r', hr, hc, h => by
    unfold findModRootLoop at h
    split at h
    · rename_i hx; exact absurd hx (hc [] ⟨[], rfl⟩ _)
    · cases h
    · rw [(lookGoMod_some h).1, hr]
    · rw [(lookGoMod_some h).1, hr]
  | c :: up, r, r', hr, hc, h => by
    have hup : ∀ d, AtOrAbove d up → ∀ x, fs.cueMod d ≠ .content x :=
      fun d hd => hc d (atOrAbove_cons.2 (.inr hd))
    have step : ∀ o, lookGoMod fs (c :: up) r = o → o.bind (findModRootLoop fs up) = some r' →
        r'.cuemod = [] := by
      intro o ho hb
      cases o with
      | none => cases hb
      | some r1 =>
        exact findModRootLoop_nocue up r1 r' (by rw [(lookGoMod_some ho).1, hr]) hup hb
    unfold findModRootLoop at h
    split at h
    · rename_i hx; exact absurd hx (hc _ ⟨[], rfl⟩ _)
    · cases h
    · exact step _ rfl h
    · exact step _ rfl h

/-- **C81**.  Generated bindings load the lineage under its import path: the name of the
nearest CUE module, followed by the path from the module's directory to the lineage's.
The nearest module counts wherever it is, the root directory included. -/
theorem C81_import_path (path : Dir) (isDir : Bool) {dir below : Dir} {m : Str} (hm : m ≠ [])
    (h : NearestCueMod fs (startDir path isDir) dir m) (hb : startDir path isDir = below ++ dir)
    (hg : ∀ d, AtOrAbove d (startDir path isDir) → fs.goMod d ≠ .failed) :
    ∃ r, findModRoot fs path isDir = some r ∧
      bindModName r false (startDir path isDir) =
        if below = [] then m else m ++ '/' :: slashed below.reverse := by
  obtain ⟨r, hr, h1, h2⟩ := findModRootLoop_cue _ dir m ⟨[], none, [], none⟩ h hg
  refine ⟨r, hr, ?_⟩
  have he : r.exists_ = true := by simp [Rootfind.exists_, h1, hm]
  have hn : r.modname = m := by simp [Rootfind.modname, he, h1, hm]
  have hp : r.modpath = some dir := by simp [Rootfind.modpath, he, h2]
  have hl : (below ++ dir).length - dir.length = below.length := by simp
  unfold bindModName
  simp only [he, Bool.not_true, Bool.or_false, Bool.false_eq_true, if_false, hp, Option.getD_some,
    hb, hn, h1]
  rw [hl, List.take_left]
  by_cases hbe : below = []
  · simp [hbe]
  · simp [hbe, hm]

/-- **C81** (partial; the Go module).  Where there is no CUE module, or the nearest one has an
empty name, they load it under the name of the nearest Go module.  Missing: a Go module that
is not below the nameless CUE module (`C81_nameless_hides`). -/
theorem C81_go_module_partial (path : Dir) (isDir : Bool) {gdir : Dir} {g : Str} (hg0 : g ≠ [])
    {r : Rootfind} (hr : findModRoot fs path isDir = some r)
    (hgo : NearestGoMod fs (startDir path isDir) gdir g)
    (h : (∀ d, AtOrAbove d (startDir path isDir) → fs.cueMod d = .notExist) ∨
      ∃ dir, NearestCueMod fs (startDir path isDir) dir [] ∧ dir.length < gdir.length ∧
        ∀ d, AtOrAbove d (startDir path isDir) → fs.goMod d ≠ .failed) :
    bindModName r false (startDir path isDir) = g := by
  have hc : r.cuemod = [] := by
    rcases h with h | ⟨dir, h, _, hg⟩
    · exact findModRootLoop_nocue _ _ _ rfl (fun d hd x => by rw [h d hd]; simp) hr
    · obtain ⟨r', hr', h1, _⟩ := findModRootLoop_cue _ dir [] ⟨[], none, [], none⟩ h hg
      have : some r = some r' := hr.symm.trans hr'
      injection this with this; subst this; exact h1
  have hg : r.gomod = g := by
    refine (findModRootLoop_gomod _ gdir g _ r hgo rfl ?_ hr).1
    rcases h with h | ⟨dir, h, hlt, _⟩
    · intro d hd _; exact h d hd
    · intro d hd hl; exact h.2.2 d hd (by omega)
  have he : r.exists_ = true := by simp [Rootfind.exists_, hg, hg0]
  simp [bindModName, he, hc, Rootfind.modname, hg]

example : (findModRoot rootFs ["x.cue".toList, "b".toList, "a".toList] false).map
    (bindModName · false ["b".toList, "a".toList]) = some "example.com/m/a/b".toList := by decide

example : (findModRoot emptyNameFs ["b".toList, "a".toList] true).map
    (bindModName · false ["b".toList, "a".toList]) = some "example.com/b".toList := by decide

/-- Without a `go.mod` below the nearest `cue.mod`, none is found. -/
theorem findModRootLoop_nogo : ∀ (start dir : Dir) (m : Str) (r : Rootfind),
    NearestCueMod fs start dir m →
    (∀ d, AtOrAbove d start → dir.length < d.length → fs.goMod d = .notExist) →
    findModRootLoop fs start r = some { r with cuemod := m, cuemodpath := some dir }
  | [], dir, m, r, h, _ => by
    have := atOrAbove_nil.1 h.1
    subst this
    simp only [findModRootLoop, h.2.1]
  | c :: up, dir, m, r, h, hg => by
    obtain ⟨h1, h2, h3⟩ := h
    rcases atOrAbove_cons.1 h1 with rfl | h1
    · simp only [findModRootLoop, h2]
    · have hlt : dir.length < (c :: up).length := by
        have := atOrAbove_length h1
        simp; omega
      have hl : lookGoMod fs (c :: up) r = some r := by
        unfold lookGoMod
        rw [hg _ ⟨[], rfl⟩ hlt]
        split <;> rfl
      simp only [findModRootLoop, h3 _ ⟨[], rfl⟩ hlt, hl, Option.bind_some]
      exact findModRootLoop_nogo up dir m r
        ⟨h1, h2, fun d hd hl => h3 d (atOrAbove_cons.2 (.inr hd)) hl⟩
        (fun d hd hl => hg d (atOrAbove_cons.2 (.inr hd)) hl)

/-- **C81** (refutation).  A nameless CUE module hides the Go module of its own directory and
all above, and named CUE modules above: whatever they are, the bindings have no module name. -/
theorem C81_nameless_hides (path : Dir) (isDir : Bool) {dir : Dir}
    (h : NearestCueMod fs (startDir path isDir) dir [])
    (hg : ∀ d, AtOrAbove d (startDir path isDir) → dir.length < d.length →
      fs.goMod d = .notExist) :
    ∃ r, findModRoot fs path isDir = some r ∧ bindModName r false (startDir path isDir) = [] :=
  ⟨_, findModRootLoop_nogo _ dir [] ⟨[], none, [], none⟩ h hg, by
    simp [bindModName, Rootfind.exists_]⟩

/-- A nameless `cue.mod` and a `go.mod` in `/a`. -/
def besideFs : Fs where
  cueMod d := if d = ["a".toList] then .content (some []) else .notExist
  goMod d := if d = ["a".toList] then .content "example.com/a".toList else .notExist

example : ∃ r, findModRoot besideFs ["x.cue".toList, "a".toList] false = some r ∧
    bindModName r false ["a".toList] = [] :=
  C81_nameless_hides (fs := besideFs) ["x.cue".toList, "a".toList] false (dir := ["a".toList])
    ⟨⟨[], rfl⟩, by simp only [besideFs, if_true], fun d _ hl => by
      have hne : d ≠ ["a".toList] := fun e => by
        rw [e] at hl; exact Nat.lt_irrefl _ hl
      exact if_neg hne⟩
    (fun d _ hl => by
      have hne : d ≠ ["a".toList] := fun e => by
        rw [e] at hl; exact Nat.lt_irrefl _ hl
      exact if_neg hne)

example : (findModRoot besideFs ["x.cue".toList, "a".toList] false).map (·.modname) =
    some [] := by decide

/-! ### C82: one lineage among the packages -/

theorem loadone_cases (force skip : Bool) (p : Pkg V) :
    (∃ L, loadone C force skip p = .ok L ∧ Holds C force skip p L) ∨
    (∃ e, loadone C force skip p = .err e ∧ ∀ L, ¬ Holds C force skip p L) := by
  cases p with
  | broken e => exact .inr ⟨e, rfl, by rintro L ⟨r, h, _⟩; cases h⟩
  | noValue => exact .inr ⟨_, rfl, by rintro L ⟨r, h, _⟩; cases h⟩
  | value r =>
    have hr := C16_never_panics (C := C) (force := force) (r := r)
      (opts := if skip then [.skipBuggyChecks] else [])
    unfold loadone
    cases hb : bindLineage C force r (if skip then [.skipBuggyChecks] else []) with
    | ok L => exact .inl ⟨L, hb, r, rfl, hb⟩
    | err e =>
      refine .inr ⟨e, hb, ?_⟩
      rintro L ⟨r', h, hL⟩
      injection h with h; subst h
      rw [hb] at hL; cases hL
    | panic k => rw [hb] at hr; exact hr.elim
    | fuel => rw [hb] at hr; exact hr.elim

theorem holds_unique {force skip : Bool} {p : Pkg V} {L M : Lineage V}
    (h : Holds C force skip p L) (h' : Holds C force skip p M) : L = M := by
  obtain ⟨r, rfl, hr⟩ := h
  obtain ⟨r', h1, hr'⟩ := h'
  injection h1 with h1; subst h1
  rw [hr] at hr'; injection hr'

/-- What `loadAll` gives for the packages `ps` numbered from `i` on. -/
inductive Loaded (C : Cue V) (force skip : Bool) :
    Nat → List (Pkg V) → List (Nat × Except GoErr (Lineage V)) → Prop
  | nil (i) : Loaded C force skip i [] []
  | ok (i p ps rs L) : Holds C force skip p L → Loaded C force skip (i + 1) ps rs →
      Loaded C force skip i (p :: ps) ((i, .ok L) :: rs)
  | err (i p ps rs e) : (∀ L, ¬ Holds C force skip p L) → Loaded C force skip (i + 1) ps rs →
      Loaded C force skip i (p :: ps) ((i, .error e) :: rs)

theorem loadAll_loaded (force skip : Bool) : ∀ (i : Nat) (ps : List (Pkg V)),
    ∃ rs, loadAll C force skip i ps = .ok rs ∧ Loaded C force skip i ps rs
  | i, [] => ⟨[], rfl, .nil i⟩
  | i, p :: ps => by
    obtain ⟨rs, h, hl⟩ := loadAll_loaded force skip (i + 1) ps
    unfold loadAll
    rcases loadone_cases (C := C) force skip p with ⟨L, h1, hh⟩ | ⟨e, h1, hh⟩
    · rw [h1, h]; exact ⟨_, rfl, .ok _ _ _ _ _ hh hl⟩
    · rw [h1, h]; exact ⟨_, rfl, .err _ _ _ _ _ hh hl⟩

/-- Exactly one package, the `i`-th, holds a lineage: `L`. -/
def OnlyLineage (C : Cue V) (force skip : Bool) (ps : List (Pkg V)) (i : Nat)
    (L : Lineage V) : Prop :=
  (∃ p, ps[i]? = some p ∧ Holds C force skip p L) ∧
  ∀ j q M, ps[j]? = some q → Holds C force skip q M → j = i

theorem pickLoop_some {force skip : Bool} {i : Nat} {ps : List (Pkg V)}
    {rs : List (Nat × Except GoErr (Lineage V))} (h : Loaded C force skip i ps rs)
    (x : Nat × Lineage V) :
    (pickLoop (some x) rs = .ok (some x) ∧ ∀ q ∈ ps, ∀ M, ¬ Holds C force skip q M) ∨
    (∃ e, pickLoop (some x) rs = .error e) ∧ ∃ q ∈ ps, ∃ M, Holds C force skip q M := by
  induction h with
  | nil i => exact .inl ⟨rfl, by simp⟩
  | ok i p ps rs L hh _ _ => exact .inr ⟨⟨_, rfl⟩, p, by simp, L, hh⟩
  | err i p ps rs e hh _ ih =>
    rcases ih with ⟨h1, h2⟩ | ⟨h1, q, hq, M, hM⟩
    · refine .inl ⟨h1, ?_⟩
      intro q hq
      rcases List.mem_cons.1 hq with rfl | hq
      · exact hh
      · exact h2 q hq
    · exact .inr ⟨h1, q, by simp [hq], M, hM⟩

theorem pickLoop_none {force skip : Bool} {i : Nat} {ps : List (Pkg V)}
    {rs : List (Nat × Except GoErr (Lineage V))} (h : Loaded C force skip i ps rs) :
    (∃ j L, pickLoop none rs = .ok (some (i + j, L)) ∧ OnlyLineage C force skip ps j L) ∨
    (∃ e, pickLoop none rs = .error e ∧ ∀ j L, ¬ OnlyLineage C force skip ps j L) ∨
    (pickLoop none rs = .ok none ∧ ∀ q ∈ ps, ∀ M, ¬ Holds C force skip q M) := by
  induction h with
  | nil i => exact .inr (.inr ⟨rfl, by simp⟩)
  | ok i p ps rs L hh hl _ =>
    rcases pickLoop_some hl (i, L) with ⟨h1, h2⟩ | ⟨⟨e, h1⟩, q, hq, M, hM⟩
    · refine .inl ⟨0, L, h1, ⟨p, rfl, hh⟩, ?_⟩
      intro j q M hj hM
      cases j with
      | zero => rfl
      | succ j =>
        simp only [List.getElem?_cons_succ] at hj
        exact absurd hM (h2 q (List.mem_of_getElem? hj) M)
    · refine .inr (.inl ⟨e, h1, ?_⟩)
      rintro j L' ⟨_, hu⟩
      obtain ⟨k, hk⟩ := List.getElem?_of_mem hq
      have e1 := hu 0 p L rfl hh
      have e2 := hu (k + 1) q M (by simpa using hk) hM
      omega
  | err i p ps rs e hh hl ih =>
    rcases ih with ⟨j, L, h1, h2⟩ | ⟨e', h1, h2⟩ | ⟨h1, h2⟩
    · refine .inl ⟨j + 1, L, ?_, ?_, ?_⟩
      · rw [show i + (j + 1) = i + 1 + j by omega]; exact h1
      · simpa using h2.1
      · intro k q M hk hM
        cases k with
        | zero =>
          simp only [List.getElem?_cons_zero, Option.some.injEq] at hk
          subst hk; exact absurd hM (hh M)
        | succ k =>
          simp only [List.getElem?_cons_succ] at hk
          rw [h2.2 k q M hk hM]
    · refine .inr (.inl ⟨e', h1, ?_⟩)
      rintro j L ⟨⟨q, hq, hL⟩, hu⟩
      cases j with
      | zero =>
        simp only [List.getElem?_cons_zero, Option.some.injEq] at hq
        subst hq; exact absurd hL (hh L)
      | succ j =>
        refine h2 j L ⟨⟨q, by simpa using hq, hL⟩, ?_⟩
        intro k q' M hk hM
        have := hu (k + 1) q' M (by simpa using hk) hM
        omega
    · refine .inr (.inr ⟨h1, ?_⟩)
      intro q hq
      rcases List.mem_cons.1 hq with rfl | hq
      · exact hh
      · exact h2 q hq

theorem onlyLineage_holds {force skip : Bool} {ps : List (Pkg V)} {i : Nat} {L : Lineage V}
    (h : OnlyLineage C force skip ps i L) : ∃ q ∈ ps, Holds C force skip q L := by
  obtain ⟨⟨p, hp, hL⟩, _⟩ := h
  exact ⟨p, List.mem_of_getElem? hp, hL⟩

theorem buildInsts_cases (force skip : Bool) (ps : List (Pkg V)) :
    (∃ i L, buildInsts C force skip ps = .ok (.ok (some (i, L))) ∧
      OnlyLineage C force skip ps i L) ∨
    (∃ e, buildInsts C force skip ps = .ok (.error e) ∧
      ∀ i L, ¬ OnlyLineage C force skip ps i L) := by
  obtain ⟨rs, hrs, hl⟩ := loadAll_loaded (C := C) force skip 0 ps
  unfold buildInsts
  rw [hrs]
  simp only [Res.map, Res.bind_ok]
  split
  · cases hl
    exact .inr ⟨_, rfl, by rintro i L ⟨⟨p, hp, _⟩, _⟩; simp at hp⟩
  · cases hl with
    | ok i p ps rs L hh hl =>
      cases hl
      refine .inl ⟨0, _, rfl, ⟨p, rfl, hh⟩, ?_⟩
      intro j q M hj _
      cases j with
      | zero => rfl
      | succ j => simp at hj
  · cases hl with
    | err i p ps rs e hh hl =>
      cases hl
      refine .inr ⟨_, rfl, ?_⟩
      intro i L ho
      obtain ⟨q, hq, hL⟩ := onlyLineage_holds ho
      rw [List.mem_singleton.1 hq] at hL
      exact hh L hL
  · rename_i h0 h1 h2
    rcases pickLoop_none hl with ⟨j, L, hp, ho⟩ | ⟨e, hp, ho⟩ | ⟨hp, ho⟩
    · rw [hp]
      refine .inl ⟨j, L, ?_, ho⟩
      simp
    · rw [hp]
      exact .inr ⟨e, rfl, ho⟩
    · rw [hp]
      have hno : ∀ i L, ¬ OnlyLineage C force skip ps i L := by
        intro i L h
        obtain ⟨q, hq, hL⟩ := onlyLineage_holds h
        exact ho q hq L hL
      cases hl with
      | nil => exact absurd rfl h0
      | ok i p ps rs L hh _ => exact absurd hh (ho p (by simp) L)
      | err i p ps rs e hh _ => exact .inr ⟨e, rfl, hno⟩

/-- **C82**.  Loading gives a lineage exactly if one, and only one, of the CUE packages
holds a value that binds; it is that package's lineage, under the same skip option.
Otherwise loading fails.  There is never a panic nor a nil lineage without an error. -/
theorem C82_exactly_one (force skip : Bool) (ps : List (Pkg V)) :
    (∀ i L, buildInsts C force skip ps = .ok (.ok (some (i, L))) ↔
      OnlyLineage C force skip ps i L) ∧
    ((¬ ∃ i L, OnlyLineage C force skip ps i L) →
      ∃ e, buildInsts C force skip ps = .ok (.error e)) := by
  rcases buildInsts_cases (C := C) force skip ps with ⟨i, L, h, ho⟩ | ⟨e, h, ho⟩
  · refine ⟨?_, fun hn => absurd ⟨i, L, ho⟩ hn⟩
    intro i' L'
    rw [h]
    constructor
    · intro heq
      injection heq with heq; injection heq with heq; injection heq with heq
      injection heq with h1 h2
      subst h1; subst h2; exact ho
    · intro ho'
      obtain ⟨⟨p, hp, hL⟩, _⟩ := ho
      have hi := ho'.2 i p L hp hL
      subst hi
      obtain ⟨⟨p', hp', hL'⟩, _⟩ := ho'
      rw [hp] at hp'; injection hp' with hp'; subst hp'
      rw [holds_unique hL hL']
  · refine ⟨?_, fun _ => ⟨e, h⟩⟩
    intro i L
    rw [h]
    constructor
    · intro heq; injection heq with heq; cases heq
    · intro h'; exact absurd h' (ho i L)

private theorem pickLoop_without {force skip : Bool} {i : Nat} {ps : List (Pkg V)}
    {rs : List (Nat × Except GoErr (Lineage V))} (h : Loaded C force skip i ps rs)
    (hn : ∀ q ∈ ps, ∀ L, ¬ Holds C force skip q L) : pickLoop none rs = .ok none := by
  induction h with
  | nil i => rfl
  | ok i p ps rs L hh _ _ => exact absurd hh (hn p (List.mem_cons_self ..) L)
  | err i p ps rs e hh _ ih => exact ih fun q hq => hn q (List.mem_cons_of_mem _ hq)

/-- **C82** (which error).  If none of the packages holds a lineage, the error is that of the first
one: its own if it is broken, that of `BindLineage` if its value does not bind. -/
theorem C82_first_error {force skip : Bool} {p : Pkg V} {ps : List (Pkg V)} {e : GoErr}
    (hp : FailsWith C force skip p e) (hn : ∀ q ∈ ps, ∀ L, ¬ Holds C force skip q L) :
    buildInsts C force skip (p :: ps) = .ok (.error e) := by
  have h1 : loadone C force skip p = .err e := by
    rcases hp with rfl | ⟨rfl, rfl⟩ | ⟨r, rfl, h⟩
    · rfl
    · rfl
    · exact h
  obtain ⟨rs, hrs, hl⟩ := loadAll_loaded (C := C) force skip (0 + 1) ps
  have h2 : loadAll C force skip 0 (p :: ps) = .ok ((0, .error e) :: rs) := by
    rw [loadAll, h1]
    simp only [hrs]
    rfl
  have h3 := pickLoop_without hl hn
  unfold buildInsts
  rw [h2]
  cases rs with
  | nil => rfl
  | cons x xs =>
    have h4 : pickLoop none ((0, .error e) :: x :: xs) = .ok none := h3
    simp only [Res.map, Res.bind_ok, h4]
    rfl

/-- Of two packages without lineages the first is broken: its error is returned. -/
example : buildInsts SetCue.cue false false [.broken ⟨[.invalidLineage]⟩, .noValue] =
    .ok (.error ⟨[.invalidLineage]⟩) :=
  C82_first_error (.inl rfl) (by
    intro q hq L h
    rw [List.mem_singleton.1 hq] at h
    obtain ⟨r, h, _⟩ := h
    cases h)

/-- Two packages, of which the second holds a lineage. -/
example : ∃ L, buildInsts SetCue.cue false false
    [.noValue, .value (SetCue.lin [SetCue.sch 0 0 [1], SetCue.sch 0 1 [1, 2]])] =
      .ok (.ok (some (1, L))) := ⟨_, rfl⟩

/-- Two lineages: refused. -/
example : buildInsts SetCue.cue false false
    [.value (SetCue.lin [SetCue.sch 0 0 [1]]), .noValue, .value (SetCue.lin [SetCue.sch 0 0 [1]])] =
      .ok (.error ⟨[]⟩) := rfl

end Thema.Props
