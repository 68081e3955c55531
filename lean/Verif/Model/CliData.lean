import Verif.Model.Translate
import Verif.Model.Mux

/-!
# The commands `thema data ...`

`cmd/thema/data.go` and the end of `dynLoad` (`cmd/thema/load.go:188-201`).
-/

namespace Thema.Cli

/-- Why a command failed, as far as the text it prints is concerned.  Cobra prints
`Error: ` and the text of the error returned by `RunE` or a pre-run hook, and `main`
exits with status 1 (`cmd/thema/main.go:29-32`; `SilenceErrors` is never set). -/
inductive CliErr
  /-- `errors.New("")` (`data.go:155`) -/
  | empty
  /-- the validation failure returned by the schema at this position -/
  | invalid (pos : Nat) (f : ValidationFailure)
  /-- "input data is not valid for any schema in lineage" (`data.go:180,247,291`) -/
  | noSchema
  /-- "no path provided and nothing on stdin" (`data.go:314`) -/
  | nothingOnStdin
  /-- the argument cannot be read (`data.go:323-340`) -/
  | unreadable
  /-- "too many args" (`data.go:343`) -/
  | tooManyArgs
  /-- "unrecognized format of input data" (`data.go:387`) -/
  | unrecognizedFormat
  /-- "... input format specified, but file extension is ..." (`data.go:391,400`) -/
  | extensionMismatch
  /-- "unknown input format requested" (`data.go:408`) -/
  | unknownFormat
  /-- "must specify an explicit schema version" (`load.go:228`) -/
  | versionRequired
  /-- any other error -/
  | other (e : GoErr)
  deriving DecidableEq, Repr

/-- How a command ends: status 0 after writing `stdout`, or status 1. -/
inductive Exit (α : Type)
  | success (stdout : α)
  | failure (e : CliErr)
  deriving DecidableEq, Repr

/-! ### Input -/

/-- What standard input is attached to. -/
inductive StdinKind
  | namedPipe
  | regularFile
  | charDevice
  deriving DecidableEq, Repr

/-- Standard input. -/
structure Stdin where
  kind : StdinKind
  bytes : Bytes

/-- A path in the file system: absent or unreadable, a directory, or a file. -/
inductive FileState
  | unreadable
  | dir
  | file (b : Bytes)

/-- `data.go:305-347`, `pathOrStdin`. -/
def pathOrStdin (stdin : Stdin) (fs : Str → FileState) (args : List Str) : Except CliErr Bytes :=
  match args with
  | [] => if stdin.kind = .namedPipe then .ok stdin.bytes else .error .nothingOnStdin
  | [p] =>
    match fs p with
    | .unreadable => .error .unreadable
    | .dir => .error .unreadable
    | .file b => .ok b
  | _ => .error .tooManyArgs

/-- `filepath.Ext` (Unix): the suffix from the last dot after the last slash.  `acc` is
the suffix read so far, the path is given in reverse. -/
def extLoop : Str → Str → Str
  | [], _ => []
  | c :: cs, acc =>
    if c = '/' then [] else if c = '.' then c :: acc else extLoop cs (c :: acc)

/-- `filepath.Ext`. -/
def fileExt (p : Str) : Str := extLoop p.reverse []

/-- `data.go:360-367`: what the extension of the single argument says. -/
def extFormat (args : List Str) : Str :=
  match args with
  | [p] =>
    if fileExt p = ".json".toList ∨ fileExt p = ".ldjson".toList then "json".toList
    else if fileExt p = ".yaml".toList ∨ fileExt p = ".yml".toList then "yaml".toList
    else []
  | _ => []

variable {V : Type}

/-- The two codecs (`vmux/mux.go:63-69` and `90-96`); `none` is an error. -/
structure Codecs (V : Type) where
  json : Bytes → Option V
  yaml : Bytes → Option V

/-- `data.go:372-409`, the switch of `validateDataInput`.  The command value is fresh
in every process, so that `dc.inbytes` is what `pathOrStdin` returned. -/
def decodeInput (K : Codecs V) (format ext : Str) (b : Bytes) : Except CliErr V :=
  if format = [] then
    match K.json b with
    | some v => .ok v
    | none =>
      match K.yaml b with
      | some v => .ok v
      | none => .error .unrecognizedFormat
  else if format = "json".toList then
    if ext ≠ "json".toList then .error .extensionMismatch
    else match K.json b with
      | some v => .ok v
      | none => .error (.other ⟨[]⟩)
  else if format = "yaml".toList then
    if ext ≠ "yaml".toList then .error .extensionMismatch
    else match K.yaml b with
      | some v => .ok v
      | none => .error (.other ⟨[]⟩)
  else .error .unknownFormat

/-- `data.go:349-412`, `validateDataInput`. -/
def validateDataInput (K : Codecs V) (stdin : Stdin) (fs : Str → FileState) (format : Str)
    (args : List Str) : Except CliErr V :=
  match pathOrStdin stdin fs args with
  | .error e => .error e
  | .ok b => decodeInput K format (extFormat args) b

/-! ### Schema selection -/

/-- `load.go:190-201`: the schema for `--version` (`--to`), the latest if the flag is
empty. -/
def selectSchema (L : Lineage V) (verstr : Str) : Res (Except CliErr Nat) :=
  if verstr = [] then L.latest.map .ok
  else
    match parseSV verstr with
    | .ok v =>
      match L.Schema v with
      | .ok p => .ok (.ok p)
      | .err _ => .ok (.error (.other ⟨[]⟩))
      | .panic k => .panic k
      | .fuel => .fuel
    | .err e => .ok (.error (.other e))
    | .panic k => .panic k
    | .fuel => .fuel

/-! ### The commands -/

/-- `fmt.Fprintf(out, "%s\n", v)`. -/
def versionLine (v : SV) : Str := v.str ++ ['\n']

/-- `data.go:105-115`, `runValidate`. -/
def runValidate (C : Cue V) (H : Heap V) (s : SchPtr) (d : V) : Res (Exit Str) :=
  (validateFull C H s d).map fun
    | .inl _ => .success []
    | .inr f => .failure (.invalid s.pos f)

/-- `data.go:145-155`: the rest of `runValidateAny`, with `reterr`. -/
def validateAnyRest (C : Cue V) (H : Heap V) (lin : Nat) (d : V) (n : Nat)
    (reterr : Option CliErr) : Res (Exit Str) :=
  (validateAny C H lin d n).map fun
    | some inst => .success (versionLine ((H inst.sch.lin).ver inst.sch.pos))
    | none =>
      match reterr with
      | some e => .failure e
      | none => .failure .empty

/-- `data.go:132-156`, `runValidateAny`; `sch` is `dl.sch`, possibly nil. -/
def runValidateAny (C : Cue V) (H : Heap V) (lin : Nat) (sch : Option Nat) (d : V) (n : Nat) :
    Res (Exit Str) :=
  match sch with
  | some p =>
    (validateFull C H ⟨lin, p⟩ d).bind fun
      | .inl _ => .ok (.success (versionLine ((H lin).ver p)))
      | .inr f => validateAnyRest C H lin d n (some (.invalid p f))
  | none => validateAnyRest C H lin d n none

/-- `data.go:237-249` and `281-293`: the instance that is hydrated or dehydrated. -/
def hydrateInput (C : Cue V) (H : Heap V) (lin : Nat) (sch : Option Nat) (d : V) (n : Nat) :
    Res (Except CliErr (Inst V)) :=
  match sch with
  | some p =>
    (validateFull C H ⟨lin, p⟩ d).map fun
      | .inl i => .ok i
      | .inr f => .error (.invalid p f)
  | none =>
    (validateAny C H lin d n).map fun
      | some i => .ok i
      | none => .error .noSchema

/-- `data.go:232-259` and `276-303`, `runHydrate` and `runDehydrate`; `op` is
`inst.Hydrate().Underlying()` or `inst.Dehydrate().Underlying()`, `marshal` is
`json.MarshalIndent`, `none` for an error. -/
def runHydrate (C : Cue V) (H : Heap V) (op : Inst V → V) (marshal : V → Option Str) (lin : Nat)
    (sch : Option Nat) (d : V) (n : Nat) : Res (Exit Str) :=
  (hydrateInput C H lin sch d n).map fun
    | .error e => .failure e
    | .ok i =>
      match marshal (op i) with
      | some s => .success s
      | none => .failure (.other ⟨[]⟩)

/-- `data.go:210-215`, `translationResult`. -/
structure TranslationResult (V : Type) where
  frm : Str
  to : Str
  result : V
  lacunas : List Lac
  deriving DecidableEq, Repr

/-- `data.go:173-208`, `runTranslate`, up to the rendering as JSON.
`validateTranslationResult` (`data.go:416-435`) is `bad`: the translated value does not
exist, is an error or is not concrete. -/
def runTranslate (C : Cue V) (H : Heap V) (bad : V → Bool) (lin : Nat) (p : Nat) (d : V) (n : Nat) :
    Res (Exit (TranslationResult V)) :=
  (validateAny C H lin d n).bind fun
    | none => .ok (.failure .noSchema)
    | some inst =>
      match translate C H n inst ((H lin).ver p) with
      | .err e => .ok (.failure (.other e))
      | .panic k => .panic k
      | .fuel => .fuel
      | .ok (tinst, lac) =>
        if bad tinst.raw then .ok (.failure (.other ⟨[]⟩))
        else .ok (.success
          { frm := ((H inst.sch.lin).ver inst.sch.pos).str,
            «to» := ((H tinst.sch.lin).ver tinst.sch.pos).str,
            result := tinst.raw, lacunas := lac })

/-- The flags of the `data` commands (`data.go:43-71`).  No code reads `quiet`. -/
structure DataFlags where
  verstr : Str
  format : Str
  quiet : Bool

/-- Everything a `data` command depends on: the loaded lineage, the codecs, the
command line and the input. -/
structure DataEnv (V : Type) where
  C : Cue V
  H : Heap V
  lin : Nat
  K : Codecs V
  stdin : Stdin
  fs : Str → FileState
  args : List Str
  fuel : Nat

/-- The pre-run hooks (`data.go:46,53,60,66,72`, `load.go:213-235`) and then the command:
the schema is selected, the data is read, the command runs. -/
def dataCommand {α : Type} (E : DataEnv V) (F : DataFlags) (needVersion : Bool)
    (run : Nat → V → Res (Exit α)) : Res (Exit α) :=
  (selectSchema (E.H E.lin) F.verstr).bind fun
    | .error e => .ok (.failure e)
    | .ok p =>
      if needVersion && F.verstr.isEmpty then .ok (.failure .versionRequired)
      else
        match validateDataInput E.K E.stdin E.fs F.format E.args with
        | .error e => .ok (.failure e)
        | .ok d => run p d

/-- `thema data validate`. -/
def cmdValidate (E : DataEnv V) (F : DataFlags) : Res (Exit Str) :=
  dataCommand E F false fun p d => runValidate E.C E.H ⟨E.lin, p⟩ d

/-- `thema data validate-any`. -/
def cmdValidateAny (E : DataEnv V) (F : DataFlags) : Res (Exit Str) :=
  dataCommand E F false fun p d => runValidateAny E.C E.H E.lin (some p) d E.fuel

/-- `thema data hydrate` and `thema data dehydrate`. -/
def cmdHydrate (E : DataEnv V) (op : Inst V → V) (marshal : V → Option Str) (F : DataFlags) :
    Res (Exit Str) :=
  dataCommand E F false fun p d => runHydrate E.C E.H op marshal E.lin (some p) d E.fuel

/-- `thema data translate`. -/
def cmdTranslate (E : DataEnv V) (bad : V → Bool) (F : DataFlags) :
    Res (Exit (TranslationResult V)) :=
  dataCommand E F true fun p d => runTranslate E.C E.H bad E.lin p d E.fuel

end Thema.Cli
