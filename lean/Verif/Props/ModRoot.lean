import Verif.Props.CliLoad

/-!
# C170: which module the commands work in, exactly
-/

namespace Thema.Props

open Spec Cli

variable {fs : Fs}

/-- The file is there and can be read. -/
def HasCueMod (fs : Fs) (d : Dir) : Prop := ∃ x, fs.cueMod d = .content x

/-- `dir` is the nearest directory, from `start` up to the root, with a module file that can be
read. -/
def NearestReadable (fs : Fs) (start dir : Dir) : Prop :=
  AtOrAbove dir start ∧ HasCueMod fs dir ∧
  ∀ d, AtOrAbove d start → dir.length < d.length → ¬ HasCueMod fs d

/-- `d` is at or above `start`, and below all module files that can be read. -/
def BelowCueMods (fs : Fs) (start d : Dir) : Prop :=
  AtOrAbove d start ∧ ∀ d', AtOrAbove d' start → d.length ≤ d'.length → ¬ HasCueMod fs d'

/-- `d` is the nearest directory, from `start` up, whose `go.mod` is not simply absent, and
it is below all module files. -/
def GoModAt (fs : Fs) (start d : Dir) : Prop :=
  BelowCueMods fs start d ∧ fs.goMod d ≠ .notExist ∧
  ∀ d', AtOrAbove d' start → d.length < d'.length → fs.goMod d' = .notExist

theorem above_tail {c : Str} {up d : Dir} (h : AtOrAbove d up) : AtOrAbove d (c :: up) :=
  atOrAbove_cons.2 (.inr h)

theorem above_self (d : Dir) : AtOrAbove d d := ⟨[], rfl⟩

theorem above_shorter {c : Str} {up d : Dir} (h : AtOrAbove d up) : d.length < (c :: up).length := by
  have := atOrAbove_length h
  simp only [List.length_cons]
  omega

theorem above_eq {s d : Dir} (h : AtOrAbove d s) (hl : s.length ≤ d.length) : d = s := by
  obtain ⟨b, rfl⟩ := h
  have : b = [] := by
    simp only [List.length_append] at hl
    exact List.length_eq_zero_iff.1 (by omega)
  rw [this]; rfl

theorem nearestReadable_here {s : Dir} (h : HasCueMod fs s) {d : Dir} :
    NearestReadable fs s d ↔ d = s := by
  constructor
  · rintro ⟨h1, h2, h3⟩
    apply above_eq h1
    apply Nat.le_of_not_lt
    intro hlt
    exact h3 s (above_self s) hlt h
  · rintro rfl
    refine ⟨above_self _, h, fun d' hd' hlt => ?_⟩
    have := atOrAbove_length hd'
    omega

theorem nearestReadable_up {c : Str} {up d : Dir} (h : ¬ HasCueMod fs (c :: up)) :
    NearestReadable fs (c :: up) d ↔ NearestReadable fs up d := by
  constructor
  · rintro ⟨h1, h2, h3⟩
    rcases atOrAbove_cons.1 h1 with rfl | h1
    · exact absurd h2 h
    · exact ⟨h1, h2, fun d' hd' => h3 d' (above_tail hd')⟩
  · rintro ⟨h1, h2, h3⟩
    refine ⟨above_tail h1, h2, fun d' hd' hlt => ?_⟩
    rcases atOrAbove_cons.1 hd' with rfl | hd'
    · exact h
    · exact h3 d' hd' hlt

theorem below_here {s d : Dir} (h : HasCueMod fs s) : ¬ BelowCueMods fs s d := by
  rintro ⟨h1, h2⟩
  exact h2 s (above_self s) (atOrAbove_length h1) h

theorem below_up {c : Str} {up d : Dir} (h : ¬ HasCueMod fs (c :: up)) :
    BelowCueMods fs (c :: up) d ↔ d = c :: up ∨ BelowCueMods fs up d := by
  constructor
  · rintro ⟨h1, h2⟩
    rcases atOrAbove_cons.1 h1 with rfl | h1
    · exact .inl rfl
    · exact .inr ⟨h1, fun d' hd' => h2 d' (above_tail hd')⟩
  · rintro (rfl | ⟨h1, h2⟩)
    · refine ⟨above_self _, fun d' hd' hl => ?_⟩
      rw [above_eq hd' hl]
      exact h
    · refine ⟨above_tail h1, fun d' hd' hl => ?_⟩
      rcases atOrAbove_cons.1 hd' with rfl | hd'
      · exact h
      · exact h2 d' hd' hl

theorem below_root {d : Dir} (h : ¬ HasCueMod fs []) : BelowCueMods fs [] d ↔ d = [] := by
  constructor
  · rintro ⟨h1, _⟩; exact atOrAbove_nil.1 h1
  · rintro rfl
    refine ⟨above_self _, fun d' hd' _ => ?_⟩
    rw [atOrAbove_nil.1 hd']
    exact h

theorem goModAt_stop {s d : Dir} (h : ¬ HasCueMod fs s) (hg : fs.goMod s ≠ .notExist) :
    GoModAt fs s d ↔ d = s := by
  constructor
  · rintro ⟨h1, h2, h3⟩
    apply above_eq h1.1
    apply Nat.le_of_not_lt
    intro hlt
    exact hg (h3 s (above_self s) hlt)
  · rintro rfl
    refine ⟨⟨above_self _, fun d' hd' hl => ?_⟩, hg, fun d' hd' hl => ?_⟩
    · rw [above_eq hd' hl]; exact h
    · have := atOrAbove_length hd'; omega

theorem goModAt_up {c : Str} {up d : Dir} (h : ¬ HasCueMod fs (c :: up))
    (hg : fs.goMod (c :: up) = .notExist) : GoModAt fs (c :: up) d ↔ GoModAt fs up d := by
  unfold GoModAt
  rw [below_up h]
  constructor
  · rintro ⟨rfl | h1, h2, h3⟩
    · exact absurd hg h2
    · exact ⟨h1, h2, fun d' hd' => h3 d' (above_tail hd')⟩
  · rintro ⟨h1, h2, h3⟩
    refine ⟨.inr h1, h2, fun d' hd' hl => ?_⟩
    rcases atOrAbove_cons.1 hd' with rfl | hd'
    · exact hg
    · exact h3 d' hd' hl

theorem goModAt_here {s d : Dir} (h : HasCueMod fs s) : ¬ GoModAt fs s d :=
  fun hx => below_here h hx.1

theorem goModAt_root_none {d : Dir} (hg : fs.goMod [] = .notExist) : ¬ GoModAt fs [] d := by
  rintro ⟨⟨h1, _⟩, h2, _⟩
  rw [atOrAbove_nil.1 h1] at h2
  exact h2 hg

/-- What is found of the CUE module. -/
def CueFound (fs : Fs) (start : Dir) (r0 r : Rootfind) : Prop :=
  (∃ dir m, NearestReadable fs start dir ∧ fs.cueMod dir = .content (some m) ∧ r.cuemod = m ∧
    r.cuemodpath = some dir) ∨
  (∀ d, AtOrAbove d start → ¬ HasCueMod fs d) ∧ r.cuemod = r0.cuemod ∧
    r.cuemodpath = r0.cuemodpath

/-- What is found of the Go module. -/
def GoFound (fs : Fs) (start : Dir) (r0 r : Rootfind) : Prop :=
  (∃ d g, GoModAt fs start d ∧ fs.goMod d = .content g ∧ r.gomod = g ∧ r.gomodpath = some d) ∨
  (∀ d, ¬ GoModAt fs start d) ∧ r.gomod = r0.gomod ∧ r.gomodpath = r0.gomodpath

theorem hasCueMod_not {d : Dir} (h : fs.cueMod d = .notExist ∨ fs.cueMod d = .failed) :
    ¬ HasCueMod fs d := by
  rintro ⟨x, hx⟩
  rcases h with h | h <;> rw [h] at hx <;> cases hx

theorem cueFound_here {s : Dir} {x : Option Str} (h : fs.cueMod s = .content x) {r0 r : Rootfind} :
    CueFound fs s r0 r ↔ x = some r.cuemod ∧ r.cuemodpath = some s := by
  have hh : HasCueMod fs s := ⟨x, h⟩
  unfold CueFound
  constructor
  · rintro (⟨dir, m, h1, h2, h3, h4⟩ | ⟨h1, _⟩)
    · obtain rfl := (nearestReadable_here hh).1 h1
      rw [h] at h2
      injection h2 with h2
      exact ⟨by rw [h2, h3], h4⟩
    · exact absurd hh (h1 s (above_self s))
  · rintro ⟨rfl, h2⟩
    exact .inl ⟨s, _, (nearestReadable_here hh).2 rfl, h, rfl, h2⟩

theorem cueFound_up {c : Str} {up : Dir} (h : ¬ HasCueMod fs (c :: up)) {r0 r : Rootfind} :
    CueFound fs (c :: up) r0 r ↔ CueFound fs up r0 r := by
  unfold CueFound
  simp only [nearestReadable_up h]
  have : (∀ d, AtOrAbove d (c :: up) → ¬ HasCueMod fs d) ↔
      ∀ d, AtOrAbove d up → ¬ HasCueMod fs d := by
    constructor
    · intro hx d hd; exact hx d (above_tail hd)
    · intro hx d hd
      rcases atOrAbove_cons.1 hd with rfl | hd
      · exact h
      · exact hx d hd
  rw [this]

theorem cueFound_root {r0 r : Rootfind} (h : ¬ HasCueMod fs []) :
    CueFound fs [] r0 r ↔ r.cuemod = r0.cuemod ∧ r.cuemodpath = r0.cuemodpath := by
  unfold CueFound
  constructor
  · rintro (⟨dir, m, ⟨h1, h2, _⟩, _⟩ | ⟨_, h2⟩)
    · rw [atOrAbove_nil.1 h1] at h2
      exact absurd h2 h
    · exact h2
  · intro hx
    refine .inr ⟨fun d hd => ?_, hx⟩
    rw [atOrAbove_nil.1 hd]
    exact h

theorem rootfind_ext {a b : Rootfind} (h1 : a.cuemod = b.cuemod) (h2 : a.cuemodpath = b.cuemodpath)
    (h3 : a.gomod = b.gomod) (h4 : a.gomodpath = b.gomodpath) : a = b := by
  cases a; cases b; simp_all

/-- The loop when `go.mod` has been found. -/
theorem findModRootLoop_seen : ∀ (start : Dir) (r0 r : Rootfind), r0.gomodpath ≠ none →
    (findModRootLoop fs start r0 = some r ↔
      CueFound fs start r0 r ∧ r.gomod = r0.gomod ∧ r.gomodpath = r0.gomodpath)
  | [], r0, r, hr => by
    unfold findModRootLoop
    cases hc : fs.cueMod [] with
    | content x =>
      rw [cueFound_here hc]
      cases x with
      | none => simp
      | some m =>
        simp only [Option.some.injEq]
        constructor
        · rintro rfl; exact ⟨⟨rfl, rfl⟩, rfl, rfl⟩
        · rintro ⟨⟨rfl, h2⟩, h3, h4⟩
          exact rootfind_ext rfl h2.symm h3.symm h4.symm
    | notExist =>
      simp only [lookGoMod_set hr, Option.some.injEq, cueFound_root (hasCueMod_not (.inl hc))]
      constructor
      · rintro rfl; exact ⟨⟨rfl, rfl⟩, rfl, rfl⟩
      · rintro ⟨⟨h1, h2⟩, h3, h4⟩
        exact rootfind_ext h1.symm h2.symm h3.symm h4.symm
    | failed =>
      simp only [lookGoMod_set hr, Option.some.injEq, cueFound_root (hasCueMod_not (.inr hc))]
      constructor
      · rintro rfl; exact ⟨⟨rfl, rfl⟩, rfl, rfl⟩
      · rintro ⟨⟨h1, h2⟩, h3, h4⟩
        exact rootfind_ext h1.symm h2.symm h3.symm h4.symm
  | c :: up, r0, r, hr => by
    unfold findModRootLoop
    cases hc : fs.cueMod (c :: up) with
    | content x =>
      rw [cueFound_here hc]
      cases x with
      | none => simp
      | some m =>
        simp only [Option.some.injEq]
        constructor
        · rintro rfl; exact ⟨⟨rfl, rfl⟩, rfl, rfl⟩
        · rintro ⟨⟨rfl, h2⟩, h3, h4⟩
          exact rootfind_ext rfl h2.symm h3.symm h4.symm
    | notExist =>
      simp only [lookGoMod_set hr, Option.bind_some, cueFound_up (hasCueMod_not (.inl hc))]
      exact findModRootLoop_seen up r0 r hr
    | failed =>
      simp only [lookGoMod_set hr, Option.bind_some, cueFound_up (hasCueMod_not (.inr hc))]
      exact findModRootLoop_seen up r0 r hr

theorem goFound_stop {s : Dir} (h : ¬ HasCueMod fs s) {g : Str} (hg : fs.goMod s = .content g)
    {r0 r : Rootfind} : GoFound fs s r0 r ↔ r.gomod = g ∧ r.gomodpath = some s := by
  have hg' : fs.goMod s ≠ .notExist := by rw [hg]; simp
  unfold GoFound
  simp only [goModAt_stop h hg']
  constructor
  · rintro (⟨d, g', rfl, h2, h3, h4⟩ | ⟨h1, _⟩)
    · rw [hg] at h2
      injection h2 with h2
      exact ⟨h3.trans h2.symm, h4⟩
    · exact absurd rfl (h1 s)
  · rintro ⟨h1, h2⟩
    exact .inl ⟨s, g, rfl, hg, h1, h2⟩

theorem goFound_failed {s : Dir} (h : ¬ HasCueMod fs s) (hg : fs.goMod s = .failed)
    {r0 r : Rootfind} : ¬ GoFound fs s r0 r := by
  have hg' : fs.goMod s ≠ .notExist := by rw [hg]; simp
  unfold GoFound
  simp only [goModAt_stop h hg']
  rintro (⟨d, g', rfl, h2, _⟩ | ⟨h1, _⟩)
  · rw [hg] at h2; cases h2
  · exact absurd rfl (h1 s)

theorem goFound_here {s : Dir} (h : HasCueMod fs s) {r0 r : Rootfind} :
    GoFound fs s r0 r ↔ r.gomod = r0.gomod ∧ r.gomodpath = r0.gomodpath := by
  unfold GoFound
  constructor
  · rintro (⟨d, g', h1, _⟩ | ⟨_, h2⟩)
    · exact absurd h1 (goModAt_here h)
    · exact h2
  · intro hx
    exact .inr ⟨fun d => goModAt_here h, hx⟩

theorem findModRootLoop_iff : ∀ (start : Dir) (r0 r : Rootfind), r0.gomodpath = none →
    (findModRootLoop fs start r0 = some r ↔ CueFound fs start r0 r ∧ GoFound fs start r0 r)
  | [], r0, r, hr => by
    unfold findModRootLoop
    have key : ¬ HasCueMod fs [] → (lookGoMod fs [] r0 = some r ↔
        CueFound fs [] r0 r ∧ GoFound fs [] r0 r) := by
      intro hn
      unfold lookGoMod
      rw [hr, cueFound_root hn]
      simp only
      cases hg : fs.goMod [] with
      | content g =>
        rw [goFound_stop hn hg]
        simp only [Option.some.injEq]
        constructor
        · rintro rfl; exact ⟨⟨rfl, rfl⟩, rfl, rfl⟩
        · rintro ⟨⟨h1, h2⟩, h3, h4⟩
          exact rootfind_ext h1.symm h2.symm h3.symm h4.symm
      | failed =>
        simp only [reduceCtorEq, false_iff, not_and]
        exact fun _ => goFound_failed hn hg
      | notExist =>
        unfold GoFound
        simp only [goModAt_root_none hg, false_and, exists_false, false_or, not_false_eq_true,
          implies_true, true_and, Option.some.injEq]
        constructor
        · rintro rfl; exact ⟨⟨rfl, rfl⟩, rfl, rfl⟩
        · rintro ⟨⟨h1, h2⟩, h3, h4⟩
          exact rootfind_ext h1.symm h2.symm h3.symm h4.symm
    cases hc : fs.cueMod [] with
    | content x =>
      rw [cueFound_here hc, goFound_here ⟨x, hc⟩]
      cases x with
      | none => simp
      | some m =>
        simp only [Option.some.injEq]
        constructor
        · rintro rfl; exact ⟨⟨rfl, rfl⟩, rfl, rfl⟩
        · rintro ⟨⟨rfl, h2⟩, h3, h4⟩
          exact rootfind_ext rfl h2.symm h3.symm h4.symm
    | notExist => exact key (hasCueMod_not (.inl hc))
    | failed => exact key (hasCueMod_not (.inr hc))
  | c :: up, r0, r, hr => by
    unfold findModRootLoop
    have key : ¬ HasCueMod fs (c :: up) →
        ((lookGoMod fs (c :: up) r0).bind (findModRootLoop fs up) = some r ↔
          CueFound fs (c :: up) r0 r ∧ GoFound fs (c :: up) r0 r) := by
      intro hn
      unfold lookGoMod
      rw [hr, cueFound_up hn]
      simp only
      cases hg : fs.goMod (c :: up) with
      | content g =>
        rw [goFound_stop hn hg]
        simp only [Option.bind_some]
        rw [findModRootLoop_seen up _ r (by simp)]
        rfl
      | failed =>
        simp only [Option.bind_none, reduceCtorEq, false_iff, not_and]
        exact fun _ => goFound_failed hn hg
      | notExist =>
        simp only [Option.bind_some]
        rw [findModRootLoop_iff up r0 r hr]
        unfold GoFound
        simp only [goModAt_up hn hg]
    cases hc : fs.cueMod (c :: up) with
    | content x =>
      rw [cueFound_here hc, goFound_here ⟨x, hc⟩]
      cases x with
      | none => simp
      | some m =>
        simp only [Option.some.injEq]
        constructor
        · rintro rfl; exact ⟨⟨rfl, rfl⟩, rfl, rfl⟩
        · rintro ⟨⟨rfl, h2⟩, h3, h4⟩
          exact rootfind_ext rfl h2.symm h3.symm h4.symm
    | notExist => exact key (hasCueMod_not (.inl hc))
    | failed => exact key (hasCueMod_not (.inr hc))

/-- **C170**.  `findModRoot` finds the nearest directory, up to and including the root, with a
module file that can be read, and the nearest one below it (up to the root, if there is no
such module file) with a `go.mod`.  It fails exactly if the module file has no name that is a
string, or the `go.mod` is there but cannot be read.  Module files that cannot be read count
as absent. -/
theorem C170_mod_root (fs : Fs) (path : Dir) (isDir : Bool) (r : Rootfind) :
    findModRoot fs path isDir = some r ↔
      ((∃ dir m, NearestReadable fs (startDir path isDir) dir ∧
          fs.cueMod dir = .content (some m) ∧ r.cuemod = m ∧ r.cuemodpath = some dir) ∨
        (∀ d, AtOrAbove d (startDir path isDir) → ¬ HasCueMod fs d) ∧ r.cuemod = [] ∧
          r.cuemodpath = none) ∧
      ((∃ d g, GoModAt fs (startDir path isDir) d ∧ fs.goMod d = .content g ∧ r.gomod = g ∧
          r.gomodpath = some d) ∨
        (∀ d, ¬ GoModAt fs (startDir path isDir) d) ∧ r.gomod = [] ∧ r.gomodpath = none) :=
  findModRootLoop_iff _ _ _ rfl

/-- The module file of `/a` cannot be read; the root has a module; `/b/a` has a `go.mod`. -/
def unreadableFs : Fs where
  cueMod d := if d = ["a".toList] then .failed else
    if d = [] then .content (some "example.com/m".toList) else .notExist
  goMod d := if d = ["b".toList, "a".toList] then .content "example.com/b".toList else .notExist

/-- The Go module and the module of the root are found past the unreadable file. -/
example : ∃ r, findModRoot unreadableFs ["x.cue".toList, "b".toList, "a".toList] false = some r ∧
    r.cuemodpath = some [] ∧ r.gomodpath = some ["b".toList, "a".toList] :=
  ⟨_, rfl, rfl, rfl⟩

example : NearestReadable unreadableFs ["b".toList, "a".toList] [] ∧
    GoModAt unreadableFs ["b".toList, "a".toList] ["b".toList, "a".toList] := by
  have hr := (C170_mod_root unreadableFs ["b".toList, "a".toList] true _).1 rfl
  constructor
  · rcases hr.1 with ⟨dir, m, h1, _, _, h4⟩ | ⟨_, _, h⟩
    · injection h4 with h4; subst h4; exact h1
    · cases h
  · rcases hr.2 with ⟨dir, m, h1, _, _, h4⟩ | ⟨_, _, h⟩
    · injection h4 with h4; subst h4; exact h1
    · cases h

/-- An unreadable `go.mod` below the module file is an error. -/
example : findModRoot { unreadableFs with goMod := fun d => if d = ["a".toList] then .failed else .notExist }
    ["b".toList, "a".toList] true = none := rfl

theorem findCueModLoop_failed : ∀ (start : Dir), findCueModLoop fs start = .failed ↔
    ∃ d, AtOrAbove d start ∧ d ≠ [] ∧ (fs.cueMod d = .failed ∨ fs.cueMod d = .content none) ∧
      ∀ d', AtOrAbove d' start → d.length < d'.length → fs.cueMod d' = .notExist
  | [] => by
    simp only [findCueModLoop, reduceCtorEq, false_iff]
    rintro ⟨d, h1, h2, _⟩
    exact h2 (atOrAbove_nil.1 h1)
  | c :: up => by
    have here : (fs.cueMod (c :: up) = .failed ∨ fs.cueMod (c :: up) = .content none) →
        ∃ d, AtOrAbove d (c :: up) ∧ d ≠ [] ∧
          (fs.cueMod d = .failed ∨ fs.cueMod d = .content none) ∧
          ∀ d', AtOrAbove d' (c :: up) → d.length < d'.length → fs.cueMod d' = .notExist := by
      intro h
      refine ⟨c :: up, above_self _, by simp, h, fun d' hd' hl => ?_⟩
      have := atOrAbove_length hd'
      omega
    unfold findCueModLoop
    cases hc : fs.cueMod (c :: up) with
    | content x =>
      cases x with
      | none =>
        simp only [true_iff]
        exact here (.inr hc)
      | some m =>
        simp only [reduceCtorEq, false_iff]
        rintro ⟨d, h1, _, h3, h4⟩
        rcases atOrAbove_cons.1 h1 with rfl | h1
        · rw [hc] at h3; simp at h3
        · have := h4 _ (above_self _) (above_shorter h1)
          rw [hc] at this; cases this
    | failed =>
      simp only [true_iff]
      exact here (.inl hc)
    | notExist =>
      simp only
      rw [findCueModLoop_failed up]
      constructor
      · rintro ⟨d, h1, h2, h3, h4⟩
        refine ⟨d, above_tail h1, h2, h3, fun d' hd' hl => ?_⟩
        rcases atOrAbove_cons.1 hd' with rfl | hd'
        · exact hc
        · exact h4 d' hd' hl
      · rintro ⟨d, h1, h2, h3, h4⟩
        rcases atOrAbove_cons.1 h1 with rfl | h1
        · rw [hc] at h3; simp at h3
        · exact ⟨d, h1, h2, h3, fun d' hd' => h4 d' (above_tail hd')⟩

theorem findCueModLoop_notFound : ∀ (start : Dir), findCueModLoop fs start = .notFound ↔
    ∀ d, AtOrAbove d start → d ≠ [] → fs.cueMod d = .notExist
  | [] => by
    simp only [findCueModLoop, true_iff]
    intro d hd hn
    exact absurd (atOrAbove_nil.1 hd) hn
  | c :: up => by
    unfold findCueModLoop
    cases hc : fs.cueMod (c :: up) with
    | content x =>
      have : ¬ ∀ d, AtOrAbove d (c :: up) → d ≠ [] → fs.cueMod d = .notExist := by
        intro h
        have := h _ (above_self _) (by simp)
        rw [hc] at this; cases this
      cases x <;> simp [this]
    | failed =>
      have : ¬ ∀ d, AtOrAbove d (c :: up) → d ≠ [] → fs.cueMod d = .notExist := by
        intro h
        have := h _ (above_self _) (by simp)
        rw [hc] at this; cases this
      simp [this]
    | notExist =>
      simp only
      rw [findCueModLoop_notFound up]
      constructor
      · intro h d hd hn
        rcases atOrAbove_cons.1 hd with rfl | hd
        · exact hc
        · exact h d hd hn
      · intro h d hd
        exact h d (above_tail hd)

/-- **C170**.  `findCueMod` finds the nearest module file below the root directory; it says that
there is none exactly if there is none below the root; and it fails exactly if the nearest one
cannot be read or has no name that is a string. -/
theorem C170_cue_mod (fs : Fs) (path : Dir) (isDir : Bool) :
    (∀ dir m, findCueMod fs path isDir = .found ⟨dir, m⟩ ↔
      NearestCueMod fs (startDir path isDir) dir m ∧ dir ≠ []) ∧
    (findCueMod fs path isDir = .notFound ↔
      ∀ d, AtOrAbove d (startDir path isDir) → d ≠ [] → fs.cueMod d = .notExist) ∧
    (findCueMod fs path isDir = .failed ↔
      ∃ d, AtOrAbove d (startDir path isDir) ∧ d ≠ [] ∧
        (fs.cueMod d = .failed ∨ fs.cueMod d = .content none) ∧
        ∀ d', AtOrAbove d' (startDir path isDir) → d.length < d'.length →
          fs.cueMod d' = .notExist) :=
  ⟨fun _ _ => findCueModLoop_found _ _ _, findCueModLoop_notFound _, findCueModLoop_failed _⟩

/-- The commands that read data stop at the unreadable file. -/
example : findCueMod unreadableFs ["b".toList, "a".toList] true = .failed := rfl

example : ∃ d, AtOrAbove d ["b".toList, "a".toList] ∧ d ≠ [] ∧
    (unreadableFs.cueMod d = .failed ∨ unreadableFs.cueMod d = .content none) ∧
    ∀ d', AtOrAbove d' ["b".toList, "a".toList] → d.length < d'.length →
      unreadableFs.cueMod d' = .notExist :=
  (C170_cue_mod unreadableFs ["b".toList, "a".toList] true).2.2.1 rfl

example : NearestCueMod emptyNameFs ["b".toList, "a".toList] ["a".toList] [] :=
  (((C170_cue_mod emptyNameFs ["b".toList, "a".toList] true).1 _ _).1 (by decide)).1

end Thema.Props
