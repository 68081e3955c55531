import Verif.Model.SubpathText
import Verif.Spec.Split
import Verif.Spec.Validate

/-!
# Specification vocabulary for errors about subpaths
-/

namespace Thema.Spec

open OApi Path

variable {V : Type}

/-- `i` is the index of the first selector of the path that is not a field of the value. -/
def FirstAbsent (C : OCue V) (v : V) (p : P) (i : Nat) : Prop :=
  (∃ sel, p[i]? = some sel ∧ C.allows v sel = false) ∧
  ∀ (j : Nat) (sel : Sel), j < i → p[j]? = some sel → C.allows v sel = true

/-- All selectors of the path are fields of the value. -/
def AllFields (C : OCue V) (v : V) (p : P) : Prop := ∀ sel ∈ p, C.allows v sel = true

/-- The file is in the directory of the module `github.com/grafana/thema`. -/
def ThemaFile (f : Str) : Prop :=
  ∃ pre post, f = pre ++ "github.com/grafana/thema/".toList ++ post ∧
    (pre = [] ∨ ∃ q, pre = q ++ ['/'])

/-- The value that the subpath is looked up in (the first one, if there are two). -/
def lookedIn (s : Sch V) (cfg : Config V) : V := if cfg.splitSchema then s.schraw else s.schdef

end Thema.Spec
