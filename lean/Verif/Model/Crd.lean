import Verif.Model.Surface
import Verif.Model.Translate
import Verif.Model.Version

/-!
# Custom resource definitions

`crd/crd.cue`, which `CueFS` and `CueJointFS` carry (`embed.go:17-24`).
-/

namespace Thema.Crd

open Thema

/-- A value given as the argument `lin` of `#CRD`: the names of its regular fields, and what its
field `seqs` has if there is one: the schemas of each sequence. -/
structure LinVal (V : Type) where
  fields : List Str
  seqs : List (List V)

variable {V : Type}

/-- `lineage.cue:12-160`: the regular fields of `#Lineage`. -/
def lineageFields : List Str :=
  ["name".toList, "joinSchema".toList, "schemas".toList, "lenses".toList]

/-- `crd.cue:14`, `lin: thema.#Lineage`: definitions are closed, so that another regular field is an
error.  (That the fields have proper values is left out.) -/
def asLineage (x : LinVal V) : Eval (LinVal V) :=
  if x.fields.all (lineageFields.contains ·) then .ok x else .error

/-- `lin.seqs`: an error if there is no such field and the struct is closed. -/
def selSeqs (x : LinVal V) : Eval (List (List V)) :=
  if x.fields.contains "seqs".toList then .ok x.seqs else .error

/-- An element of `crd.spec.versions`. -/
structure CrdVersion (V : Type) where
  name : Str
  served : Bool
  storage : Bool
  schema : V
  deriving DecidableEq

/-- `crd.cue:11-88`: the scopes around the expressions `list.Contains(served, ...)` and
`[seqv, schv] == storage`: the fields of the element, the variables of both `for` clauses, the fields
of `spec`, of `crd`, and of `#CRD`. -/
def crdScopes : List (List Str) :=
  [["served".toList, "storage".toList, "name".toList, "schema".toList],
   ["schv".toList, "sch".toList], ["seqv".toList, "seq".toList], ["versions".toList],
   ["apiVersion".toList, "kind".toList, "metadata".toList, "spec".toList],
   ["_sv".toList, "served".toList, "storage".toList, "lin".toList, "spec".toList, "crdspec".toList,
    "crd".toList, "crv".toList]]

/-- Whether a name that stands for an argument of `#CRD` does mean it; where it means the very field
that it is the value of, the field has no value. -/
def means (scopes : List (List Str)) (n : Str) : Bool := resolve scopes n == some 5

/-- `crd.cue:79-86`: the fields for one schema. -/
def fieldsFor (scopes : List (List Str)) (served : List SV) (storage : SV) (v : SV) (sch : V) :
    Str × Eval (CrdVersion V) :=
  ('v' :: v.str,
    if means scopes "served".toList && means scopes "storage".toList then
      .ok ⟨'v' :: v.str, served.contains v, v == storage, sch⟩
    else .incomplete)

/-- `crd.cue:78-87`: the element for one sequence.  The inner comprehension stands in the struct that
is the element, so that the fields of all schemas are fields of this one struct: names that differ
are in conflict.  A sequence without schemas gives the struct without fields. -/
def element : List (Str × Eval (CrdVersion V)) → Eval (Option (CrdVersion V))
  | [] => .ok none
  | (n, e) :: rest =>
    if rest.all (fun x => x.1 == n) then e.bind fun c => .ok (some c) else .error

/-- `crd.cue:76-88`, `spec.versions`; `k` is the number of the first of the sequences. -/
def versions (scopes : List (List Str)) (served : List SV) (storage : SV) :
    Nat → List (List V) → Eval (List (Option (CrdVersion V)))
  | _, [] => .ok []
  | k, seq :: rest =>
    (element (seq.zipIdx.map fun x => fieldsFor scopes served storage ⟨k, x.2⟩ x.1)).bind fun e =>
      (versions scopes served storage (k + 1) rest).bind fun es => .ok (e :: es)

/-- `crd.cue:10-94`, `#CRD`: the versions of the field `crd`.  (The other fields of the definition,
which are copied from the arguments, are left out.) -/
def crd (served : List SV) (storage : SV) (lin : LinVal V) :
    Eval (List (Option (CrdVersion V))) :=
  (asLineage lin).bind fun l => (selSeqs l).bind fun seqs => versions crdScopes served storage 0 seqs

end Thema.Crd
