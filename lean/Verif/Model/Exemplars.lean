import Verif.Model.Translate
import Verif.Model.SetCue

/-!
# The exemplar lineages

`exemplars/*.cue` and `exemplars/exemplars.go`.

The schemas of the exemplars are structs of fields with basic values; here is an evaluator for
such structs.  The values of the field `rootfield` of the exemplar `disjunct`, which are
structs of one of four forms, count as basic values too.
-/

namespace Thema.Exemplars

/-- Basic values.  `one` to `threeStr` are the values of `rootfield` (`exemplars/disjunct.cue`):
`{branch: 1, branchone: s}`, `{branch: 2, branchtwo: s}`,
`{branch: 3, branchthree: branchthreeinner: n}` and the same with a string. -/
inductive Atom
  | bool (b : Bool)
  | int (n : Int)
  | str (s : Str)
  | one (s : Str)
  | two (s : Str)
  | threeInt (n : Int)
  | threeStr (s : Str)
  deriving DecidableEq

/-- Their types. -/
inductive Kind
  | bool | int | str | one | two | threeInt | threeStr
  deriving DecidableEq

/-- The type of a value. -/
def Atom.kind : Atom → Kind
  | .bool _ => .bool
  | .int _ => .int
  | .str _ => .str
  | .one _ => .one
  | .two _ => .two
  | .threeInt _ => .threeInt
  | .threeStr _ => .threeStr

/-- An alternative of a disjunction. -/
inductive Alt
  | const (a : Atom)
  | kind (k : Kind)
  deriving DecidableEq

/-- The unification of two alternatives. -/
def Alt.meet : Alt → Alt → Option Alt
  | .const a, .const b => if a = b then some (.const a) else none
  | .const a, .kind k => if a.kind = k then some (.const a) else none
  | .kind k, .const a => if a.kind = k then some (.const a) else none
  | .kind k, .kind l => if k = l then some (.kind k) else none

/-- A field: whether it is optional, the alternatives of its value, and the one that is marked as
the default. -/
structure Field where
  opt : Bool := false
  alts : List Alt
  dflt : Option Atom := none
  deriving DecidableEq

/-- Whether a value is an instance of one of the alternatives. -/
def Field.allows (f : Field) (a : Atom) : Bool :=
  f.alts.any fun x => (x.meet (.const a)).isSome

/-- The default of a unification. -/
def meetDflt (f g : Field) : Option Atom :=
  match f.dflt, g.dflt with
  | some a, some b => if a = b then some a else none
  | some a, none => if g.allows a then some a else none
  | none, some b => if f.allows b then some b else none
  | none, none => none

/-- Alternatives that are the same count once. -/
def dedup : List Alt → List Alt
  | [] => []
  | x :: xs => if (dedup xs).contains x then dedup xs else x :: dedup xs

/-- The unification of two fields. -/
def Field.meet (f g : Field) : Field :=
  { opt := f.opt && g.opt
    alts := dedup (f.alts.flatMap fun x => g.alts.filterMap fun y => x.meet y)
    dflt := meetDflt f g }

/-- The value of a field that is concrete, or has a default. -/
def Field.value (f : Field) : Option Atom :=
  match f.alts with
  | [] => none
  | [.const a] => some a
  | _ => f.dflt

/-- The fields of a struct, by their labels. -/
abbrev Fields := List (Str × Field)

/-- Values: an error, an incomplete value, or a struct, which is closed if it is a definition. -/
inductive Val
  | bot
  | stuck
  | obj (closed : Bool) (fs : Fields)
  deriving DecidableEq

/-- The unification of the fields of two structs. -/
def meetFields (fs gs : Fields) : Fields :=
  (fs.map fun e => (e.1, match gs.lookup e.1 with | some g => e.2.meet g | none => e.2)) ++
    gs.filter fun e => (fs.lookup e.1).isNone

/-- Whether a struct can have the fields of another. -/
def fits (closed : Bool) (fs gs : Fields) : Bool :=
  !closed || gs.all fun e => (fs.lookup e.1).isSome

/-- Unification. -/
def unify : Val → Val → Val
  | .obj c fs, .obj d gs =>
    if fits c fs gs && fits d gs fs then .obj (c || d) (meetFields fs gs) else .bot
  | .bot, _ => .bot
  | _, .bot => .bot
  | _, _ => .stuck

/-- Embedding `{a, b}`, which may have the fields of both. -/
def embed : Val → Val → Val
  | .obj c fs, .obj d gs => .obj (c || d) (meetFields fs gs)
  | .bot, _ => .bot
  | _, .bot => .bot
  | _, _ => .stuck

/-- The field is there and has no value. -/
def conflict (f : Field) : Bool := !f.opt && f.alts.isEmpty

/-- All fields that are there have a value. -/
def concrete : Val → Bool
  | .obj _ fs => fs.all fun e => e.2.opt || e.2.value.isSome
  | _ => false

/-- One struct subsumes another, both being definitions.  (Defaults are not compared; the lineage
where that matters is bound without this check.) -/
def subsumes : Val → Val → Bool
  | .obj _ fs, .obj _ gs =>
    (gs.all fun e => match fs.lookup e.1 with
      | some f => e.2.alts.all fun y => f.alts.any fun x => x.meet y = some y
      | none => false) &&
    (fs.all fun e => e.2.opt || match gs.lookup e.1 with
      | some g => !g.opt
      | none => false)
  | _, _ => false

/-- The evaluator.  `fatal`: see `Cue.lacunaRefFatal`. -/
def cue (fatal : Bool) : Cue Val where
  unify := unify
  validate v := if concrete v then none else some (SetCue.errAt "conflicting values")
  subsumeAll := subsumes
  subsumeRaw := subsumes
  embed := embed
  isErr v := match v with
    | .bot => true
    | .stuck => false
    | .obj _ fs => fs.any fun e => conflict e.2
  dflt v := v
  marshals := concrete
  isStruct v := match v with
    | .bot => false
    | _ => true
  lacunaRefFatal := fatal

/-- A field with a constant. -/
def con (a : Atom) : Field := { alts := [.const a] }

/-- A field with a type. -/
def typ (k : Kind) (opt : Bool := false) : Field := { opt := opt, alts := [.kind k] }

/-- An object of data. -/
def data (l : List (Str × Atom)) : Val := .obj false (l.map fun e => (e.1, con e.2))

/-- The value of a field, if it exists. -/
def Val.get (x : Val) (n : Str) : Option Atom :=
  match x with
  | .obj _ fs =>
    match fs.lookup n with
    | some f => if f.opt then none else f.value
    | none => none
  | _ => none

/-- `input.n`, if it exists. -/
def input (x : Val) (n : String) : Option Atom := x.get n.toList

/-- The struct with these fields, if they all exist; a reference to a field that does not exist is
incomplete. -/
def result (l : List (String × Option Atom)) : Val :=
  if l.all (·.2.isSome) then
    data (l.filterMap fun e => e.2.map fun a => (e.1.toList, a))
  else .stuck

/-- A closed struct. -/
def defn (l : List (String × Field)) : Val := .obj true (l.map fun e => (e.1.toList, e.2))

/-- An element of `schemas`. -/
def sch (major minor : Nat) (body : Val) : RawSchema Val :=
  { version := some ⟨major, minor⟩, schema := body, body := body, examples := [] }

/-- An element of `lenses`. -/
def lens (frm to : SV) (run : Val → Val) (lacunas : Val → List Lac := fun _ => []) :
    RawLens Val :=
  { frm := some frm, to := some to, run := run, lacunas := lacunas, bad := fun _ => false }

/-- A lineage. -/
def lin (name : String) (schemas : List (RawSchema Val)) (lenses : List (RawLens Val)) :
    RawLineage Val :=
  { exists_ := true, nameField := .concrete, schemasField := .concrete, name := name.toList,
    finalErr := false, rawErr := false, uniErr := false, schemas := schemas,
    lenses := some lenses }

/-- A string constant. -/
def s (x : String) : Atom := .str x.toList

/-- `exemplars/single.cue`. -/
def single : RawLineage Val :=
  lin "single" [sch 0 0 (defn [("astring", typ .str), ("anint", typ .int), ("abool", typ .bool)])] []

/-- `exemplars/rename.cue`. -/
def rename : RawLineage Val :=
  lin "rename"
    [sch 0 0 (defn [("before", typ .str), ("unchanged", typ .str)]),
     sch 1 0 (defn [("after", typ .str), ("unchanged", typ .str)])]
    [lens ⟨1, 0⟩ ⟨0, 0⟩ fun x =>
       result [("before", input x "after"), ("unchanged", input x "unchanged")],
     lens ⟨0, 0⟩ ⟨1, 0⟩ fun x =>
       result [("after", input x "before"), ("unchanged", input x "unchanged")]]

/-- The numbers of the types of lacunas (`lacuna.cue:62-94`). -/
def lossyFieldMapping : Nat := 3
def changedDefault : Nat := 4

/-- `exemplars/narrowing.cue`.  Of a `boolish` that is neither a string nor a boolean no result is
made; there are none in the schema. -/
def narrowing : RawLineage Val :=
  lin "narrowing"
    [sch 0 0 (defn [("boolish",
       { alts := [.const (s "true"), .const (s "false"), .kind .bool, .kind .str] })]),
     sch 1 0 (defn [("properbool", typ .bool)])]
    [lens ⟨1, 0⟩ ⟨0, 0⟩ fun x => result [("boolish", input x "properbool")],
     lens ⟨0, 0⟩ ⟨1, 0⟩
       (fun x => match input x "boolish" with
         | some (.str t) => result [("properbool", some (.bool (.str t = s "true")))]
         | some (.bool b) => result [("properbool", some (.bool b))]
         | _ => result [])
       (fun x => match input x "boolish" with
         | some (.str t) =>
           if .str t = s "true" ∨ .str t = s "false" then [] else [⟨true, lossyFieldMapping⟩]
         | _ => [])]

/-- `aunion` with its default (`exemplars/defaultchange.cue`). -/
def aunion (d : Atom) : Val :=
  defn [("aunion",
    { alts := [.const (s "foo"), .const (s "bar"), .const (s "baz")], dflt := some d })]

/-- `exemplars/defaultchange.cue:20-27`, and `49-57` with the defaults exchanged: the lenses.
`input.anion` is what is written there. -/
def changeDefault (old new : Atom) (x : Val) : Val :=
  match input x "aunion" with
  | none => .stuck
  | some a => if a = old then result [("aunion", some new)] else result [("aunion", input x "anion")]

/-- `exemplars/defaultchange.cue:28-42` and `58-73`: the lacunas, with the same condition in both
lenses. -/
def changeDefaultLacunas (x : Val) : List Lac :=
  if input x "aunion" = some (s "foo") then [⟨true, changedDefault⟩] else []

/-- `exemplars/defaultchange.cue`. -/
def defaultchange : RawLineage Val :=
  lin "defaultchange" [sch 0 0 (aunion (s "foo")), sch 1 0 (aunion (s "bar"))]
    [lens ⟨1, 0⟩ ⟨0, 0⟩ (changeDefault (s "bar") (s "foo")) changeDefaultLacunas,
     lens ⟨0, 0⟩ ⟨1, 0⟩ (changeDefault (s "foo") (s "bar")) changeDefaultLacunas]

/-- The field `optional` of the exemplar `expand`. -/
def optInt : String × Field := ("optional", typ .int true)

/-- The field `withDefault` of the exemplar `expand`. -/
def withDefault (alts : List String) : String × Field :=
  ("withDefault",
    { opt := true, alts := alts.map fun x => .const (s x), dflt := some (s "foo") })

/-- `if input.n != _|_ { n: input.n }`. -/
def ifExists (x : Val) (n : String) : List (String × Option Atom) :=
  match input x n with
  | some a => [(n, some a)]
  | none => []

/-- `exemplars/expand.cue`. -/
def expand : RawLineage Val :=
  lin "expand"
    [sch 0 0 (defn [("init", typ .str)]),
     sch 0 1 (defn [("init", typ .str), optInt]),
     sch 0 2 (defn [("init", typ .str), optInt, withDefault ["foo", "bar"]]),
     sch 0 3 (defn [("init", typ .str), optInt, withDefault ["foo", "bar", "baz"]])]
    [lens ⟨0, 1⟩ ⟨0, 0⟩ fun x => result [("init", input x "init")],
     lens ⟨0, 2⟩ ⟨0, 1⟩ fun x => result (("init", input x "init") :: ifExists x "optional"),
     lens ⟨0, 3⟩ ⟨0, 2⟩ fun x =>
       result (("init", input x "init") :: (ifExists x "optional" ++ ifExists x "withDefault"))]

/-- `exemplars/disjunct.cue`; its lens makes an empty struct. -/
def disjunct : RawLineage Val :=
  lin "disjunct"
    [sch 0 0 (defn [("rootfield", { alts := [.kind .one, .kind .two] })]),
     sch 0 1 (defn [("rootfield",
       { alts := [.kind .one, .kind .two, .kind .threeInt, .kind .threeStr] })])]
    [lens ⟨0, 1⟩ ⟨0, 0⟩ fun _ => result []]

/-- `exemplars/exemplars.go:39-46`, `nameOpts`, with the lineages that `buildAll` finds. -/
def all : List (RawLineage Val × List (BindOption Val)) :=
  [(defaultchange, [.skipBuggyChecks]), (disjunct, [.skipBuggyChecks]), (narrowing, []),
   (rename, []), (expand, []), (single, [])]

/-- `exemplars/exemplars.go:144-151`, `lineageForExemplar`: what is bound for a name. -/
def lineageForExemplar (fatal force : Bool) (r : RawLineage Val) (o : List (BindOption Val)) :
    Res (Lineage Val) :=
  bindLineage (cue fatal) force r
    (if r.name = "defaultchange".toList ∨ r.name = "narrowing".toList ∨ r.name = "rename".toList
      then o ++ [.skipBuggyChecks] else o)

end Thema.Exemplars
