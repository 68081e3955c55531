import Verif.Model.Rewrite
import Verif.Model.Bind

/-!
# Using a rewritten legacy lineage

What CUE makes of the fields `schemas` and `lenses` that `encoding/cue/rewrite.go` writes, as the
value given to `BindLineage`, and of the bodies of lenses, before and after.
-/

namespace Thema.Migrate

open Thema.Rewrite

variable {V : Type}

/-- Evaluation of the parts of an expression, apart from names. -/
structure Meaning (V : Type) where
  leaf : V
  sel : V → Str → V
  pair : V → V → V

/-- The value of an expression with these values for names. -/
def eval (S : Meaning V) (env : Str → V) : Ast → V
  | .ident n => env n
  | .leaf => S.leaf
  | .sel x l => S.sel (eval S env x) l
  | .pair l r => S.pair (eval S env l) (eval S env r)

/-- What a lens is evaluated with: the values of names outside of the lens, and of versions.
`faulty` tells whether CUE finds an error in the body of a lens when no data is given (`input` is
`_`, `lineage.cue:255`).  (Names that a body declares itself are not looked at.) -/
structure Ctx (V : Type) where
  S : Meaning V
  outer : Str → V
  version : SV → V
  faulty : Ast → Bool

/-- Names in the body `rel` of a legacy lens (`internal/legacy/lineage.cue:49-63`): `from` is the
data, `to` the schema to translate to.  (The other fields of the lens are not looked at.) -/
def legacyEnv (K : Ctx V) (data to : V) (n : Str) : V :=
  if n = "from".toList then data else if n = "to".toList then to else K.outer n

/-- Names in the body `result` of a lens (`lineage.cue:246-276`, with the fields that
`encoding/cue/rewrite.go:213-219` writes): `input` is the data, `result` the body itself, `from`
and `to` are the versions. -/
def newEnv (K : Ctx V) (frm to : SV) (data result : V) (n : Str) : V :=
  if n = "input".toList then data
  else if n = "result".toList then result
  else if n = "from".toList then K.version frm
  else if n = "to".toList then K.version to
  else K.outer n

/-- What a legacy lens does. -/
def legacyRun (K : Ctx V) (to : V) (rel : Ast) (x : V) : V := eval K.S (legacyEnv K x to) rel

/-- What the lens does that is written for it (`encoding/cue/rewrite.go:181-220`): the body is
rewritten.  `result` is the value of the body, which it may refer to; `bottom` is `_|_`, which is
written when there is no body. -/
def newRun (K : Ctx V) (result : SV → SV → V → V) (bottom : V) (l : LLens Ast) (x : V) : V :=
  match l.body with
  | some rel => eval K.S (newEnv K l.frm l.to x (result l.frm l.to x)) (rewriteFromTo rel)
  | none => bottom

/-- The value of the fields written by `encoding/cue/rewrite.go:97-130` for a legacy lineage with
this name.  `body` gives the closed schema joined with the join schema (`lineage.cue:234`).  The
literal `_|_` in a lens is an error of the value (`bind.go:178`), as is an error in a body.  Lenses
here have no lacunas, and other parts of the value have no errors. -/
def migrated (K : Ctx V) (result : SV → SV → V → V) (bottom : V) (body : V → V) (name : Str)
    (seqs : List (Seq V Ast)) : RawLineage V :=
  { exists_ := true
    nameField := .concrete
    schemasField := .concrete
    name := name
    finalErr := false
    rawErr := (extractParts seqs).2.any fun l =>
      match l.body with
      | some rel => K.faulty (rewriteFromTo rel)
      | none => true
    uniErr := false
    schemas := (extractParts seqs).1.map fun s =>
      { version := some s.synv, schema := s.raw, body := body s.raw, examples := [] }
    lenses := some ((extractParts seqs).2.map fun l =>
      { to := some l.to, frm := some l.frm, run := newRun K result bottom l,
        lacunas := fun _ => [], bad := fun _ => l.body.isNone }) }

end Thema.Migrate
