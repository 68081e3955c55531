import Verif.Model.Translate

/-!
# Examples, CUE-level search, reports on Go migrations, post-processing of Go files

`schema.go:38-59`, `traverse.cue`, `bind.go:217-300`, `encoding/gocode/postprocessing.go`.
-/

namespace Thema

variable {V : Type}

/-! ### Examples -/

/-- How CUE prints a label (`cue.Selector.String`): `isPlain` are the labels that can be
written without quotation marks (identifiers that are neither hidden nor definitions), `quote`
is `literal.Label.Quote`. -/
structure Labels where
  isPlain : Str → Bool
  quote : Str → Str

/-- `cue.Selector.String` for a regular field. -/
def Labels.selector (S : Labels) (n : Str) : Str := if S.isPlain n then n else S.quote n

/-- Go `m[k] = a`. -/
def mapPut {α : Type} (m : List (Str × α)) (k : Str) (a : α) : List (Str × α) :=
  m.filter (fun e => e.1 ≠ k) ++ [(k, a)]

/-- `schema.go:47-56`: the loop over the fields of `examples`. -/
def examplesLoop (S : Labels) (s : SchPtr) :
    List (Str × V) → List (Str × Inst V) → List (Str × Inst V)
  | [], m => m
  | e :: rest, m =>
    let label := S.selector e.1
    examplesLoop S s rest
      (mapPut m label { raw := e.2, name := label, sch := s, valid := true })

/-- `schema.go:38-59`, `Examples`.  `SchemaDef.examples` are the regular fields of `examples`,
none if the author wrote none (`Fields` of an optional field that is not there gives no error
and no fields: `schema_test.go:124`). -/
def examples (S : Labels) (H : Heap V) (s : SchPtr) : List (Str × Inst V) :=
  match (H s.lin).allsch[s.pos]? with
  | some sch => examplesLoop S s sch.examples []
  | none => []

/-! ### #SearchAndValidate, #ValidFor -/

/-- CUE resolves a name in the innermost enclosing scope that declares it; the number of
scopes to go out. -/
def resolve : List (List Str) → Str → Option Nat
  | [], _ => none
  | sc :: rest, n => if sc.contains n then some 0 else (resolve rest n).map (· + 1)

/-- `traverse.cue:13-22`: the scopes around the value of the field `inst` in an element of the
list: the fields of the element, the variables of the `for` clause, and the fields and alias of
`#SearchAndValidate`. -/
def searchScopes : List (List Str) :=
  [["v".toList, "lin".toList, "inst".toList], ["sch".toList],
   ["fn".toList, "lin".toList, "inst".toList, "out".toList]]

/-- What `inst` means in an expression that is the value of a field `inst` in the innermost
scope: a reference of a field to itself is no constraint (`none`), the argument of
`#SearchAndValidate` is two scopes further out. -/
def searchInst (inst : V) : Option V :=
  match resolve searchScopes "inst".toList with
  | some 2 => some inst
  | _ => none

/-- `inst & sch._#schema` where no constraint leaves the other operand. -/
def andSchema (C : Cue V) (x : Option V) (body : V) : V :=
  match x with
  | some d => C.unify d body
  | none => body

/-- `traverse.cue:13-23`, `#SearchAndValidate`: the version and the instance of `out`, `none`
for `_|_`. -/
def searchAndValidate (C : Cue V) (L : Lineage V) (inst : V) : Option (SV × V) :=
  ((L.allsch.filter fun sch => !C.isErr (C.unify inst sch.body)).map fun sch =>
    (sch.v, andSchema C (searchInst inst) sch.body)).head?

/-- `traverse.cue:25-31`, `#ValidFor`; `none` for `_|_`. -/
def validFor (C : Cue V) (L : Lineage V) (inst : V) : Option SV :=
  ((L.allsch.filter fun sch => !C.isErr (C.unify sch.body inst)).map (·.v)).head?

/-! ### The report on superfluous Go migrations -/

/-- `bind.go:217-299`: the report that `checkGoLensCompleteness` writes into its error, for a
lineage with the versions `vs` (`Verif/Model/Bind.lean` has the function, without the text). -/
def goLensReport (vs : List SV) (implens : List (ImperativeLens V)) :
    Res (List (LensID × Reason)) :=
  (collectLenses [] implens).bind fun all =>
    erroneousReport vs (requireLoop synv0 vs.tail (all, [])).1 implens

/-! ### PostprocessGoFile -/

/-- A `dst.File`: `imports` is the field `Imports`, which the parser fills in, `decls` are the
paths of the import declarations, `rest` are the other declarations. -/
structure GoFile (R : Type) where
  imports : List Str
  decls : List Str
  rest : R

/-- The libraries that `PostprocessGoFile` calls. -/
structure GoTools (T R : Type) where
  /-- `decorator.ParseFile` -/
  parse : T → Option (GoFile R)
  /-- `decorator.Fprint` -/
  print : GoFile R → Option T
  /-- `imports.Process` -/
  process : T → Option T
  /-- the imports of `parser.ParseFile`, whose error is ignored -/
  importsOf : T → List Str

/-- `postprocessing.go:18-29`, `GenGoFile`.  An applier is what `dstutil.Apply` with it does to
the file. -/
structure GenGoFile (T R : Type) where
  appliers : List (GoFile R → GoFile R)
  input : T
  ignoreDiscovered : Bool

/-- `postprocessing.go:59-64`: the imports that were added. -/
def addedImports (before after : List Str) : List Str := after.filter fun p => !before.contains p

/-- `postprocessing.go:31-74`, `PostprocessGoFile`. -/
def postprocess {T R : Type} (G : GoTools T R) (cfg : GenGoFile T R) : Res T :=
  match G.parse cfg.input with
  | none => .err ⟨[]⟩
  | some gf0 =>
    let gf := cfg.appliers.foldl (fun f af => af f) gf0
    match G.print gf with
    | none => .err ⟨[]⟩
    | some buf =>
      match G.process buf with
      | none => .err ⟨[]⟩
      | some byt =>
        if cfg.ignoreDiscovered then .ok byt
        else if (addedImports gf.imports (G.importsOf byt)).length ≠ 0 then .err ⟨[]⟩
        else .ok byt

end Thema
