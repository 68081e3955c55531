import Verif.Model.CliLoad

/-!
# What loading is supposed to do
-/

namespace Thema.Spec

open Cli

variable {V : Type}

/-- `dir` is `start` or one of the directories above it. -/
def AtOrAbove (dir start : Dir) : Prop := ∃ below, start = below ++ dir

/-- `dir` is the nearest directory, from `start` up to the root, that has a readable
`cue.mod/module.cue`, naming the module `m`; the ones below have none. -/
def NearestCueMod (fs : Fs) (start dir : Dir) (m : Str) : Prop :=
  AtOrAbove dir start ∧ fs.cueMod dir = .content (some m) ∧
  ∀ d, AtOrAbove d start → dir.length < d.length → fs.cueMod d = .notExist

/-- `dir` is the nearest directory from `start` up to the root that has a `go.mod`, for the
module `m`. -/
def NearestGoMod (fs : Fs) (start dir : Dir) (m : Str) : Prop :=
  AtOrAbove dir start ∧ fs.goMod dir = .content m ∧
  ∀ d, AtOrAbove d start → dir.length < d.length → fs.goMod d = .notExist

/-- The package holds a value that can be bound as the lineage `L`. -/
def Holds (C : Cue V) (force skip : Bool) (p : Pkg V) (L : Lineage V) : Prop :=
  ∃ r, p = .value r ∧ bindLineage C force r (if skip then [.skipBuggyChecks] else []) = .ok L

/-- Why the package holds no lineage: it is broken, or there is no value (an error of no known kind),
or the value does not bind. -/
def FailsWith (C : Cue V) (force skip : Bool) (p : Pkg V) (e : GoErr) : Prop :=
  p = .broken e ∨ (p = .noValue ∧ e = ⟨[]⟩) ∨
    ∃ r, p = .value r ∧ bindLineage C force r (if skip then [.skipBuggyChecks] else []) = .err e

end Thema.Spec
