import Verif.Model.Cue
import Verif.Model.Search

/-!
# Lineages, schemas, instances

`lineage.go`, `schema.go`, `instance.go`: the objects and schema navigation.
-/

namespace Thema

/-- A pointer to a `schemaDef`: the lineage it belongs to (`sch.lin`) and its
position in `lin.allsch`.  Go compares schemas by pointer (`schema.go:237`). -/
structure SchPtr where
  lin : Nat
  pos : Nat
  deriving DecidableEq, Repr

/-- `schema.go:25-36`, `schemaDef`.  `ref` is the whole `#SchemaDef`; the parts
of it that the code reads are kept: `schema` (the author's literal), `body`
(`_#schema`, the field `def`), and `examples`. -/
structure SchemaDef (V : Type) where
  v : SV
  schema : V
  body : V
  examples : List (Str × V)

/-- `instance.go:36-46`, `Instance` (a heap object; the model passes it by
value, the code never mutates one that it has returned). -/
structure Inst (V : Type) where
  raw : V
  name : Str
  sch : SchPtr
  valid : Bool

/-- `bind.go:53-59`, `lensID`. -/
structure LensID where
  frm : SV
  to : SV
  deriving DecidableEq, Repr

/-- `surface.go:92-95`, the `Mapper` of an `ImperativeLens`: given the instance
and the schema to map to, returns an instance (`none` is a nil pointer) or an
error.  Modelled as a function of its arguments. -/
abbrev Mapper (V : Type) := Inst V → SchPtr → Res (Option (Inst V))

/-- A lacuna inside a CUE lens (`lacuna.cue:17-48`), reduced to its condition and
an identifier of its contents. -/
structure Lac where
  condition : Bool
  content : Nat
  deriving DecidableEq, Repr

/-- `lineage.cue:246-276`, `#Lens`.  `run x` is the value of `result` when
`input` is filled with `x`; `lacunas x` that of `lacunas`; `bad x` says that
filling makes another part of the lens an error. -/
structure CueLens (V : Type) where
  frm : SV
  to : SV
  run : V → V
  lacunas : V → List Lac
  bad : V → Bool

/-- `lineage.go:22-44`, `baseLineage`.  `allv` is built in lockstep with
`allsch` (`bind.go:109-110`) and is therefore a function of it here. -/
structure Lineage (V : Type) where
  name : Str
  allsch : List (SchemaDef V)
  lenses : List (CueLens V)
  lensmap : List (LensID × Mapper V)

namespace Lineage

variable {V : Type}

/-- `lineage.go:38`, `allv`. -/
def allv (L : Lineage V) : List SV := L.allsch.map (·.v)

/-- `sch.v` for the schema at position `p` (`schema.go:33,155-157`).  Schema
pointers always refer to an existing schema, so that the default is never
used. -/
def ver (L : Lineage V) (p : Nat) : SV := (L.allv[p]?).getD synv0

/-- `lineage.go:270-272`, `schema`. -/
def schema (L : Lineage V) (v : SV) : Res Nat :=
  if searchSynv L.allv v < L.allsch.length then .ok (searchSynv L.allv v)
  else .panic .indexOutOfRange

/-- `lineage.go:256-264`, `Schema`. -/
def Schema (L : Lineage V) (v : SV) : Res Nat :=
  if synvExists L.allv v then L.schema v else .err ⟨[.versionNotExist]⟩

/-- `surface.go:101-107`, `SchemaP`. -/
def schemaP (L : Lineage V) (v : SV) : Res Nat :=
  match L.Schema v with
  | .err _ => .panic .explicit
  | r => r

/-- `lineage.go:192-194`, `Latest`: `allsch[len(allsch)-1]`. -/
def latest (L : Lineage V) : Res Nat :=
  if L.allsch.length = 0 then .panic .indexOutOfRange else .ok (L.allsch.length - 1)

/-- `lineage.go:198-200`, `First`. -/
def first (L : Lineage V) : Res Nat :=
  if L.allsch.length = 0 then .panic .indexOutOfRange else .ok 0

/-- `lineage.go:205-211`, `All`: the schema pointers in order. -/
def all (L : Lineage V) : List Nat := List.range L.allsch.length

/-- `surface.go:113-115`, `LatestVersion`. -/
def latestVersion (L : Lineage V) : Res SV := L.latest.map L.ver

/-- `schema.go:110-117`, `successor`. -/
def successor (L : Lineage V) (p : Nat) : Res (Option Nat) :=
  match L.allv.getLast? with
  | none => .panic .indexOutOfRange
  | some lastv =>
    if lastv = L.ver p then .ok none
    else
      (goIdx L.allv (searchSynv L.allv (L.ver p) + 1)).bind fun succv =>
        (L.schema succv).map some

/-- `schema.go:127-134`, `predecessor`.  The index `searchSynv(..) - 1` is an
`int`; it is out of range when the search returns 0. -/
def predecessor (L : Lineage V) (p : Nat) : Res (Option Nat) :=
  if L.ver p = synv0 then .ok none
  else if searchSynv L.allv (L.ver p) = 0 then .panic .indexOutOfRange
  else
    (goIdx L.allv (searchSynv L.allv (L.ver p) - 1)).bind fun predv =>
      (L.schema predv).map some

/-- Go `uint` increment (64 bit). -/
def uintSucc (n : Nat) : Nat := (n + 1) % 2 ^ 64

/-- `schema.go:139-141`, `LatestInMajor`. -/
def latestInMajor (L : Lineage V) (p : Nat) : Res Nat :=
  let i := searchSynv L.allv ⟨uintSucc (L.ver p).major, 0⟩
  if i < L.allsch.length then .ok i else .panic .indexOutOfRange

/-- `surface.go:123-129`, `LatestVersionInSequence`. -/
def latestVersionInSequence (L : Lineage V) (seqv : Nat) : Res SV :=
  (L.Schema ⟨seqv, 0⟩).bind fun p => (L.latestInMajor p).map L.ver

/-- `sch.def` of the schema at position `p`. -/
def body? (L : Lineage V) (p : Nat) : Option V := (L.allsch[p]?).map (·.body)

end Lineage

/-- All lineages bound so far in the process, by pointer. -/
abbrev Heap (V : Type) := Nat → Lineage V

variable {V : Type}

/-- `schema.go:74-100`, `Validate`, returning either an instance or the failure.
Schema pointers are always valid; the `none` case does not occur. -/
def validateFull (C : Cue V) (H : Heap V) (s : SchPtr) (data : V) :
    Res (Inst V ⊕ ValidationFailure) :=
  match (H s.lin).body? s.pos with
  | none => .panic .nilDeref
  | some b =>
    match C.validate (C.unify b data) with
    | some e => (mungeValidateErr e).map Sum.inr
    | none => .ok (Sum.inl { raw := data, name := [], sch := s, valid := true })

/-- `schema.go:74-100`, `Validate`, as a `(value, error)` call. -/
def validate (C : Cue V) (H : Heap V) (s : SchPtr) (data : V) : Res (Inst V) :=
  (validateFull C H s data).bind fun
    | .inl i => .ok i
    | .inr f => .err f.err

/-- `lineage.go:245-250`: the loop of `ValidateAny`, from the schema at `p`, with
`n` iterations allowed. -/
def validateAnyLoop (C : Cue V) (H : Heap V) (lin : Nat) (data : V) :
    Nat → Nat → Res (Option (Inst V))
  | 0, _ => .fuel
  | n + 1, p =>
    match validate C H ⟨lin, p⟩ data with
    | .ok inst => .ok (some inst)
    | .err _ =>
      ((H lin).successor p).bind fun
        | none => .ok none
        | some q => validateAnyLoop C H lin data n q
    | .panic k => .panic k
    | .fuel => .fuel

/-- `lineage.go:242-251`, `ValidateAny`. -/
def validateAny (C : Cue V) (H : Heap V) (lin : Nat) (data : V) (n : Nat) :
    Res (Option (Inst V)) :=
  ((H lin).schema synv0).bind fun p => validateAnyLoop C H lin data n p

end Thema
