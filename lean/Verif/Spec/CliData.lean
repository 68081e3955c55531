import Verif.Model.CliData
import Verif.Spec.Validate
import Verif.Spec.Version
import Verif.Spec.Mux

/-!
# What the `data` commands are documented to do

From the help texts in `cmd/thema/data.go`.
-/

namespace Thema.Spec

open Cli

variable {V : Type}

/-- The bytes the command is given: the contents of the file named by its single
argument; without argument, what is on standard input - of whatever kind. -/
def Given (E : DataEnv V) (b : Bytes) : Prop :=
  (∃ p, E.args = [p] ∧ E.fs p = .file b) ∨ (E.args = [] ∧ E.stdin.bytes = b)

/-- `b` decodes to `d` under the requested format: as JSON, as YAML, or, when no format is
requested, as whichever of the two it is, JSON first. -/
def DecodesAs (K : Codecs V) (format : Str) (b : Bytes) (d : V) : Prop :=
  (format = "json".toList ∧ K.json b = some d) ∨
  (format = "yaml".toList ∧ K.yaml b = some d) ∨
  (format = [] ∧ (K.json b = some d ∨ (K.json b = none ∧ K.yaml b = some d)))

/-- The path ends with this extension. -/
def EndsWith (p ext : Str) : Prop := ∃ base, p = base ++ ext

/-- The argument's name says that its format is `format`. -/
def NamedAs (E : DataEnv V) (format : Str) : Prop :=
  ∃ p, E.args = [p] ∧
    ((format = "json".toList ∧ (EndsWith p ".json".toList ∨ EndsWith p ".ldjson".toList)) ∨
     (format = "yaml".toList ∧ (EndsWith p ".yaml".toList ∨ EndsWith p ".yml".toList)))

/-- The documented input: given and decodable. -/
def DataIs (E : DataEnv V) (F : DataFlags) (d : V) : Prop :=
  ∃ b, Given E b ∧ DecodesAs E.K F.format b d

/-- The undocumented restrictions: standard input must be a named pipe, and a requested
format must agree with the extension of the argument. -/
def Restricted (E : DataEnv V) (F : DataFlags) : Prop :=
  (E.args = [] → E.stdin.kind = .namedPipe) ∧ (F.format ≠ [] → NamedAs E F.format)

/-- The schema a `--version` flag selects: the latest without flag, otherwise the first
one with the version that the flag denotes. -/
def Selected (L : Lineage V) (verstr : Str) (p : Nat) : Prop :=
  (verstr = [] ∧ p + 1 = L.allsch.length) ∨
  (verstr ≠ [] ∧ p < L.allsch.length ∧ VersionString verstr (L.ver p) ∧
    (L.ver p).major < 2 ^ 32 ∧ (L.ver p).minor < 2 ^ 32 ∧ ∀ q, q < p → L.ver q ≠ L.ver p)

/-- `p` is the oldest schema that admits the data. -/
def Oldest (C : Cue V) (L : Lineage V) (d : V) (p : Nat) : Prop :=
  Admits C L p d ∧ ∀ q, q < p → ¬ Admits C L q d

end Thema.Spec
