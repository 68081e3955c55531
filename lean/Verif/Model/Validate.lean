import Verif.Model.Version

/-!
# Validation errors

`validate.go`: turning CUE errors into Thema's errors.
-/

namespace Thema

/-- A string (character list). -/
abbrev Str := List Char

/-- An argument of a CUE error message (`errors.Error.Msg()`): a string, a
`cue.Kind` (a bit mask), or anything else. -/
inductive Operand
  | str (s : Str)
  | kind (k : Nat)
  | other
  deriving DecidableEq, Repr

/-- One element of `errors.Errors(err)` (CUE), reduced to what `validate.go`
looks at: `Path()`, `Msg()`, and the file names of `InputPositions()`. -/
structure CueErr where
  path : List Str
  msg : Str
  vals : List Operand
  positions : List Str
  deriving DecidableEq, Repr

/-- What `x.Validate(cue.Concrete(true))` returns when it is not nil: an error
that is not a CUE error, or a CUE error with its list of sub-errors. -/
inductive ValErr
  | notCue (marks : List Sentinel)
  | cue (es : List CueErr)
  deriving DecidableEq, Repr

/-- `errors/errors.go:11-29`, `ValidationCode`. -/
inductive Code
  | kindConflict
  | outOfBounds
  | missingField
  | excessField
  deriving DecidableEq, Repr

/-- `validate.go:15-20` and `56-61`: `onesidederr` and `twosidederr`, with the
field path of their `coords`. -/
inductive FieldErr
  | oneSided (schpos datapos : List Str) (code : Code) (path : List Str) (val : Str)
  | twoSided (schpos datapos : List Str) (code : Code) (path : List Str) (sv dv : Str)
  deriving DecidableEq, Repr

/-- `strings.HasSuffix`. -/
def hasSuffix (s suf : Str) : Bool := suf.reverse.isPrefixOf s.reverse

/-- `strings.Contains`. -/
def containsStr (s sub : Str) : Bool :=
  match s with
  | [] => sub.isPrefixOf []
  | c :: cs => sub.isPrefixOf (c :: cs) || containsStr cs sub

/-- `strings.Split(s, sep)` for a non-empty `sep`.  `skip` counts characters of a
separator already recognised, `cur` is the current part, reversed. -/
def splitStrAux (sep : Str) : Nat → Str → Str → List Str
  | _, cur, [] => [cur.reverse]
  | skip + 1, cur, _ :: cs => splitStrAux sep skip cur cs
  | 0, cur, c :: cs =>
    if sep.isPrefixOf (c :: cs) then cur.reverse :: splitStrAux sep (sep.length - 1) [] cs
    else splitStrAux sep 0 (c :: cur) cs

/-- `strings.Split(s, sep)` for a non-empty `sep`. -/
def splitStr (sep s : Str) : List Str := splitStrAux sep 0 [] s

/-- `validate.go:217-236`, `schErrMsgFormatMap`. -/
def schErrMsgFormatMap : List (Str × Str) :=
  [ ("int & >=0 & <=255", "uint8"),
    ("int & >=0 & <=65535", "uint16"),
    ("int & >=0 & <=4294967295", "uint32"),
    ("int & >=0 & <=18446744073709551615", "uint64"),
    (">=0 & <=255 & int", "uint8"),
    (">=0 & <=65535 & int", "uint16"),
    (">=0 & <=4294967295 & int", "uint32"),
    (">=0 & <=18446744073709551615 & int", "uint64"),
    ("int & >=-128 & <=127", "int8"),
    (">=-128 & <=127 & int", "int8"),
    ("int & >=-32768 & <=32767", "int16"),
    (">=-32768 & <=32767 & int", "int16"),
    ("int & >=-2147483648 & <=2147483647", "int32"),
    (">=-2147483648 & <=2147483647 & int", "int32"),
    ("int & >=-9223372036854775808 & <=9223372036854775807", "int64"),
    (">=-9223372036854775808 & <=9223372036854775807 & int", "int64"),
    (">=-340282346638528859811704183484516925440 & <=340282346638528859811704183484516925440",
      "float32"),
    (">=-1.797693134862315708145274237317043567981E+308 & <=1.797693134862315708145274237317043567981E+308",
      "float64") ].map (fun p => (p.1.toList, p.2.toList))

/-- `validate.go:243-245`: the replacement of one part. -/
def readablePart (part : Str) : Str :=
  match schErrMsgFormatMap.lookup part with
  | some m => m
  | none => part

/-- `validate.go:238-251`, `humanReadableCUEType`. -/
def humanReadableCUEType (value : Str) : Str :=
  joinWith " | ".toList ((splitStr " | ".toList value).map readablePart)

/-- `validate.go:264-270`: the loop of `splitTokens`, with the slices built so far. -/
def splitTokensLoop : List Str → List Str × List Str → List Str × List Str
  | [], acc => acc
  | pos :: rest, (schpos, datapos) =>
    if hasSuffix pos ".cue".toList then splitTokensLoop rest (schpos ++ [pos], datapos)
    else splitTokensLoop rest (schpos, datapos ++ [pos])

/-- `validate.go:253-273`, `splitTokens` (on file names). -/
def splitTokens (poslist : List Str) : List Str × List Str :=
  if poslist.length = 0 then ([], []) else splitTokensLoop poslist ([], [])

/-- Go slicing `xs[n:]`: panics when `n > len(xs)`. -/
def goDrop {α : Type} (n : Nat) (xs : List α) : Res (List α) :=
  if n ≤ xs.length then .ok (xs.drop n) else .panic .indexOutOfRange

/-- `validate.go:276-280`: the loop of `trimThemaPath` looking for "schemas" from
index `i` on; `rest` is `parts[i:]`. -/
def trimThemaPathLoop (parts : List Str) : Nat → List Str → Res (List Str)
  | _, [] => goDrop 1 parts
  | i, s :: rest =>
    if s = "schemas".toList then goDrop (i + 3) parts else trimThemaPathLoop parts (i + 1) rest

/-- `validate.go:275-284`, `trimThemaPath`. -/
def trimThemaPath (parts : List Str) : Res (List Str) := trimThemaPathLoop parts 0 parts

/-- `validate.go:154` and `181`: the test "data first". -/
def dataFirst (positions : List Str) : Bool :=
  match positions with
  | p :: _ => decide (positions.length > 1) && !(hasSuffix p ".cue".toList)
  | [] => false

/-- `datakind.IsAnyOf(schkind)` (CUE): the bit masks intersect. -/
def isAnyOf (k of_ : Nat) : Bool := (k &&& of_) != 0

/-- `validate.go:126-212`: the `switch len(vals)` of `mungeValidateErr` for one
sub-error whose positions and path have been processed; `none` when the sub-error
is of an unrecognised form and is dropped. -/
def mungeSwitch (ee : CueErr) (schpos datapos path : List Str) : Option FieldErr :=
  match ee.vals with
  | [.str val] =>
    if containsStr ee.msg "incomplete".toList then
      some (.oneSided schpos datapos .missingField path (humanReadableCUEType val))
    else if containsStr ee.msg "not allowed".toList then
      some (.oneSided schpos datapos .excessField path (humanReadableCUEType val))
    else none
  | [v0, v1] =>
    match (if dataFirst ee.positions then (v1, v0) else (v0, v1)) with
    | (.str s, .str d) =>
      some (.twoSided schpos datapos .outOfBounds path (humanReadableCUEType s) d)
    | _ => none
  | [v0, v1, v2, v3] =>
    match (if dataFirst ee.positions then (v1, v0, v3, v2) else (v0, v1, v2, v3)) with
    | (.str s, .str d, .kind skk, .kind dkk) =>
      some (.twoSided schpos datapos
        (if isAnyOf dkk skk then .outOfBounds else .kindConflict) path
        (humanReadableCUEType s) d)
    | _ => none
  | _ => none

/-- `validate.go:118-212`: the body of the loop of `mungeValidateErr` for one
sub-error. -/
def mungeOne (ee : CueErr) : Res (Option FieldErr) :=
  (trimThemaPath ee.path).map fun path =>
    mungeSwitch ee (splitTokens ee.positions).1 (splitTokens ee.positions).2 path

/-- `validate.go:116-214`: the loop of `mungeValidateErr`. -/
def mungeLoop : List CueErr → Res (List FieldErr)
  | [] => .ok []
  | ee :: rest =>
    (mungeOne ee).bind fun o =>
      (mungeLoop rest).bind fun r =>
        .ok (match o with
          | some fe => fe :: r
          | none => r)

/-- The error `Validate` returns: the sentinels it is and, for CUE errors, the
field errors it lists. -/
structure ValidationFailure where
  err : GoErr
  fields : List FieldErr
  deriving DecidableEq, Repr

/-- `validate.go:110-215`, `mungeValidateErr`.  A `validationFailure` unwraps to
`ErrInvalidData` (`validate.go:95-97`) and is a non-nil error even when the
slice is nil; an error that is not a CUE error is returned as is. -/
def mungeValidateErr (e : ValErr) : Res ValidationFailure :=
  match e with
  | .notCue marks => .ok ⟨⟨marks⟩, []⟩
  | .cue es => (mungeLoop es).map fun fs => ⟨⟨[.invalidData]⟩, fs⟩

end Thema
