import Verif.Model.Lineage

/-!
# IsAppendOnly

`lineage.go:294-318`, `internal/cuetil/equal.go`.
-/

namespace Thema

variable {V : Type}

/-- `internal/cuetil/equal.go:8-18`, `Equal`.  CUE's errors carry no sentinel. -/
def cueEqual (C : Cue V) (a b : V) : Res Unit :=
  if !C.subsumeRaw a b then .err ⟨[]⟩
  else if !C.subsumeRaw b a then .err ⟨[]⟩
  else .ok ()

/-- `lineage.go:302-315`: the loop over the old schemas.  `LookupPath("schema")`
on the `#SchemaDef` is the author's literal, not the joined `_#schema`. -/
def isAppendOnlyLoop (C : Cue V) (newS : List (SchemaDef V)) :
    Nat → List (SchemaDef V) → Res Unit
  | _, [] => .ok ()
  | i, s :: rest =>
    (goIdx newS i).bind fun n =>
      (cueEqual C s.schema n.schema).bind fun _ => isAppendOnlyLoop C newS (i + 1) rest

/-- `lineage.go:294-318`, `IsAppendOnly`. -/
def isAppendOnly (C : Cue V) (old new : Lineage V) : Res Unit :=
  if new.allsch.length < old.allsch.length then .err ⟨[]⟩
  else isAppendOnlyLoop C new.allsch 0 old.allsch

end Thema
