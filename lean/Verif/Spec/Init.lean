import Verif.Model.Init
import Verif.Lemmas.Lit

/-!
# What `thema lineage init` should do
-/

namespace Thema.Init

/-- The package that the flags ask for (their help texts: "Name for generated package. If
omitted, --name value is used"; "Generate lineage without a package directive"). -/
inductive Asked (f : Flags) : Option Str → Prop
  | no : f.nopkg = true → f.pkgname = [] → Asked f none
  | given : f.nopkg = false → f.pkgname ≠ [] → Asked f (some f.pkgname)
  | dflt : f.nopkg = false → f.pkgname = [] → Asked f (some f.name)

/-- A text is that of a lineage: the lines in order are a package clause if there is a package,
an import, an embedding, the field `name` with a literal for the name, and the field `schemas`
with one schema of version 0.0 that embeds an expression. -/
def IsLineage (pkg : Option Str) (name sch text : Str) : Prop :=
  ∃ clause lit : Str,
    (match pkg with
      | none => clause = []
      | some p => clause = "package ".toList ++ p ++ "\n".toList) ∧
    Lit.unquote Lit.cueEsc lit = some name ∧
    text = clause ++ "import \"github.com/grafana/thema\"\n\nthema.#Lineage\nname: ".toList ++ lit ++
      "\nschemas: [\n    {\n        version: [0, 0]\n        schema: {\n            ".toList ++ sch ++
      "\n        }\n    }\n]\n".toList

end Thema.Init
