import Verif.Model.Rewrite

/-!
# `thema lineage fix`

`encoding/cue/rewrite.go:24-220` (`RewriteLegacyLineage` without `extractParts` and
`rewriteFromTo`, which are in `Model/Rewrite.lean`) and `cmd/thema/lineage_fix.go`.

Evaluation of CUE is external: which sequences, schemas and lenses the value at the path has, and
which syntax each was written with (`cue.Value.Source`), is given.
-/

namespace Thema.Fix

open Thema.Rewrite

/-- CUE syntax, as far as `RewriteLegacyLineage` looks into it: struct literals with their
declarations (fields with the name of their label, if it has one, and other declarations, which
have none), list literals, other expressions with their parts, and what has no parts. -/
inductive Syn
  | leaf (text : Str)
  | struct (ds : List (Option Str × Syn))
  | list (es : List Syn)
  | expr (kind : Str) (es : List Syn)

/-- `cue.Value.Source` of a value: nil, a struct literal, a field with a value, or another
node. -/
inductive Source
  | nil
  | lit (ds : List (Option Str × Syn))
  | field (v : Syn)
  | other

/-- A lens of a sequence (`lens.forward` or `lens.reverse`): the sources of its `rel` and its
`lacunas`, if they exist. -/
structure Lens where
  mapper : Option Source
  lacunas : Option Source

/-- Name of a label. -/
def seqsName : Str := "seqs".toList
/-- Name of a label. -/
def schemasName : Str := "schemas".toList
/-- Name of a label. -/
def lensesName : Str := "lenses".toList
/-- Name of a label. -/
def versionName : Str := "version".toList
/-- Name of a label. -/
def schemaName : Str := "schema".toList

/-- Decimal digits. -/
def decimal (n : Nat) : Str := (toString n).toList

/-- `rewrite.go:242-250`, `synvToAST`. -/
def synvToAST (v : SV) : Syn := .list [.leaf (decimal v.major), .leaf (decimal v.minor)]

/-- `rewrite.go:137-152`, `legacySchema.toAST`. -/
def schToAST (s : LSchema Source) : Res Syn :=
  match s.raw with
  | .lit ds => .ok (.struct [(some versionName, synvToAST s.synv), (some schemaName, .struct ds)])
  | _ => .err ⟨[]⟩

/-- The body of a lens that is missing: `{_|_}`, with a comment (`rewrite.go:184-194`). -/
def todoBody : Syn := .struct [(none, .leaf "_|_".toList)]

/-- `rewrite.go:181-205`: the body.  `rw` is `rewriteFromTo` (`C59`). -/
def mapSrc (rw : Syn → Syn) : Option Source → Res Syn
  | none => .ok todoBody
  | some .nil => .err ⟨[]⟩
  | some (.field (.struct ds)) => .ok (rw (.struct ds))
  | some (.field _) => .err ⟨[]⟩
  | some _ => .panic .typeAssertion

/-- `rewrite.go:207-212`: the lacunas. -/
def lacSrc (rw : Syn → Syn) : Option Source → Res Syn
  | none => .ok (.list [])
  | some .nil => .ok (.list [])
  | some (.field (.list es)) => .ok (rw (.list es))
  | some _ => .panic .typeAssertion

/-- `rewrite.go:181-220`, `legacyLens.toAST`. -/
def lensToAST (rw : Syn → Syn) (l : LLens Lens) : Res Syn :=
  (mapSrc rw (l.body.bind (·.mapper))).bind fun m =>
    (lacSrc rw (l.body.bind (·.lacunas))).map fun lac =>
      .struct [(some "to".toList, synvToAST l.to), (some "from".toList, synvToAST l.frm),
        (some "input".toList, .leaf "_".toList), (some "result".toList, m),
        (some "lacunas".toList, lac)]

/-- A loop that stops at the first call that does not succeed. -/
def collect {α β : Type} (f : α → Res β) : List α → Res (List β)
  | [] => .ok []
  | a :: as => (f a).bind fun b => (collect f as).map (b :: ·)

/-- `rewrite.go:102-130`, `rewrite`: the values of the fields `schemas` and `lenses`. -/
def rewrite (rw : Syn → Syn) (seqs : List (Seq Source Lens)) : Res (Syn × Syn) :=
  (collect schToAST (extractParts seqs).1).bind fun ss =>
    (collect (lensToAST rw) (extractParts seqs).2).map fun ls => (.list ss, .list ls)

/-! ### `astutil.Apply` -/

/-- The parts of an expression, one after the other. -/
def visitAll (f : Syn → Option Syn) : List Syn → Option (List Syn)
  | [] => some []
  | e :: es => (f e).bind fun e' => (visitAll f es).map (e' :: ·)

/-- The declarations of a struct literal (`rewrite.go:83-93`, the function given to
`astutil.Apply`).  `Replace` sets the node whose parts are visited next, so that the replacement
is visited; a node that `InsertAfter` adds is not. -/
def visitDecls (f : Syn → Option Syn) (S L : Syn) :
    List (Option Str × Syn) → Option (List (Option Str × Syn))
  | [] => some []
  | (l, v) :: ds =>
    if l = some seqsName then
      (f S).bind fun S' =>
        (visitDecls f S L ds).map fun r => (some schemasName, S') :: (some lensesName, L) :: r
    else (f v).bind fun v' => (visitDecls f S L ds).map ((l, v') :: ·)

/-- `rewrite.go:83-93`: `astutil.Apply` of the source of the lineage, with at most so many calls
inside one another; `none` means that these are not enough. -/
def visit (S L : Syn) : Nat → Syn → Option Syn
  | 0, _ => none
  | _ + 1, .leaf t => some (.leaf t)
  | n + 1, .struct ds => (visitDecls (visit S L n) S L ds).map .struct
  | n + 1, .list es => (visitAll (visit S L n) es).map .list
  | n + 1, .expr k es => (visitAll (visit S L n) es).map (.expr k)

/-- `rewrite.go:24-95`, `RewriteLegacyLineage`, for a value that exists at the path, with the
given sequences, and that was written as the struct literal with these declarations in one of the
files of the instance: what then stands in their place.  The rest of the file stays. -/
def fix (rw : Syn → Syn) (seqs : List (Seq Source Lens)) (src : List (Option Str × Syn))
    (fuel : Nat) : Res Syn :=
  (rewrite rw seqs).bind fun p =>
    match visit p.1 p.2 fuel (.struct src) with
    | some t => .ok t
    | none => .fuel

end Thema.Fix
