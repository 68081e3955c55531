import Verif.Model.Validate

/-!
# The text of validation errors

`validate.go`: the `Error` methods.
-/

namespace Thema.ErrText

/-- `validate.go:286-293`, `coords.String`: the name of the lineage, the version of the schema
and the path. -/
def coordsText (name : Str) (v : SV) (path : List Str) : Str :=
  '<' :: name ++ "@v".toList ++ v.str ++ ">.".toList ++ joinWith ['.'] path

/-- The loops over positions; `pos` is `token.Pos.String` (here: of a file name). -/
def positions (pos : Str → Str) : List Str → Str
  | [] => []
  | p :: ps => '\n' :: '\t' :: '\t' :: pos p ++ positions pos ps

/-- A text in backquotes. -/
def quoted (s : Str) : Str := '`' :: s ++ ['`']

/-- `validate.go:22-49`, `onesidederr.Error`, and `validate.go:63-75`, `twosidederr.Error`. -/
def fieldText (pos : Str → Str) (name : Str) (v : SV) : FieldErr → Str
  | .oneSided schpos datapos code path val =>
    coordsText name v path ++ ": validation failed, data is not an instance:".toList ++
      (match code with
      | .missingField =>
        '\n' :: '\t' :: "schema specifies that field exists with type ".toList ++ quoted val ++
          positions pos schpos ++
          '\n' :: '\t' :: "but field was absent from data".toList ++ positions pos datapos
      | .excessField =>
        '\n' :: '\t' :: "schema is closed and does not specify field".toList ++
          positions pos schpos ++
          '\n' :: '\t' :: "but field exists in data with value ".toList ++ quoted val ++
          positions pos datapos
      | _ => [])
  | .twoSided schpos datapos _ path sv dv =>
    coordsText name v path ++ ": validation failed, data is not an instance:".toList ++
      '\n' :: '\t' :: "schema expected ".toList ++ quoted sv ++ positions pos schpos ++
      '\n' :: '\t' :: "but data contained ".toList ++ quoted dv ++ positions pos datapos

/-- `validate.go:99-107`, `validationFailure.Error`. -/
def failureText (pos : Str → Str) (name : Str) (v : SV) : List FieldErr → Str
  | [] => []
  | e :: es => fieldText pos name v e ++ '\n' :: failureText pos name v es

/-- The error of CUE for a field that a closed struct does not have (`internal/core/adt/closed.go`
of CUE: `ctx.NewErrf("field not allowed: %s", label)`); its argument is the name of the field. -/
def excessErr (path : List Str) (label : Str) (positions : List Str) : CueErr :=
  { path := path, msg := "field not allowed: %s".toList, vals := [.str label],
    positions := positions }

end Thema.ErrText
