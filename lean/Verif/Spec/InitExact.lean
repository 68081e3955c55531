import Verif.Spec.Init

/-!
# What `thema lineage init` does, exactly
-/

namespace Thema.Init

/-- The document the command is given: the file named by its only argument, or standard input
if there is no argument and it is a named pipe. -/
def Given (stdin : Cli.Stdin) (fs : Str → Cli.FileState) (args : List Str) (b : Bytes) : Prop :=
  (args = [] ∧ stdin.kind = .namedPipe ∧ stdin.bytes = b) ∨ ∃ p, args = [p] ∧ fs p = .file b

/-- How CUE's loader is asked for a document. -/
def loadArgs : List Str → List Str
  | [] => [['-']]
  | args => args

/-- The text of a lineage with the name between quotation marks as it is. -/
def written (pkg name sch : Str) : Str :=
  (match pkg with
    | [] => []
    | p => "package ".toList ++ p ++ "\n".toList) ++
  "import \"github.com/grafana/thema\"\n\nthema.#Lineage\nname: \"".toList ++ name ++
  "\"\nschemas: [\n    {\n        version: [0, 0]\n        schema: {\n            ".toList ++ sch ++
  "\n        }\n    }\n]\n".toList

/-- The package and the schema that a subcommand writes a lineage with.

`openapi`: the first file the loader finds has to be there and be YAML or JSON, and is read as
such; then the schema at `srcpath` is taken.  `jsonschema`: the document is converted. -/
inductive Writes {F : Type} (X : Ext F) (stdin : Cli.Stdin) (fs : Str → Cli.FileState) (f : Flags)
    (args : List Str) : Sub → Str → Str → Prop
  | empty {p} : args = [] → f.name ≠ [] → Asked f p → (∀ q, p = some q → X.validIdent q = true) →
      Writes X stdin fs f args .empty (p.getD []) X.emptySch
  | yaml {b rest file sch} : Given stdin fs args b →
      X.orphaned (loadArgs args) b = some .yaml :: rest → X.yaml b = some file →
      X.openAPI file f.srcpath = some sch → Writes X stdin fs f args .openapi f.pkgname sch
  | json {b rest file sch} : Given stdin fs args b →
      X.orphaned (loadArgs args) b = some .json :: rest → X.json b = some file →
      X.openAPI file f.srcpath = some sch → Writes X stdin fs f args .openapi f.pkgname sch
  | jsonschema {b sch} : Given stdin fs args b → X.jsonSchema b f.srcpath = some sch →
      Writes X stdin fs f args .jsonschema f.pkgname sch

/-- The command crashes: `openapi` if the loader finds no file, or finds JSON that cannot be
read. -/
inductive Crashes {F : Type} (X : Ext F) (stdin : Cli.Stdin) (fs : Str → Cli.FileState)
    (args : List Str) : PanicKind → Prop
  | nothing {b} : Given stdin fs args b → X.orphaned (loadArgs args) b = [] →
      Crashes X stdin fs args .indexOutOfRange
  | badJSON {b rest} : Given stdin fs args b →
      X.orphaned (loadArgs args) b = some .json :: rest → X.json b = none →
      Crashes X stdin fs args .nilDeref

end Thema.Init
