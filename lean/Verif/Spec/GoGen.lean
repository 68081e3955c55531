import Verif.Model.GoGen

/-!
# What Go requires of a generated file
-/

namespace Thema.GoGen

/-- The file declares `n`. -/
def Declares (f : GoFile) (n : Str) : Prop := ∃ d ∈ f.decls, d.name = n

/-- The file uses `n` without declaring it: it does not compile unless another file of the
package declares `n`. -/
def Undefined (f : GoFile) (n : Str) : Prop := (∃ d ∈ f.decls, n ∈ d.uses) ∧ ¬ Declares f n

/-- Go exports names that begin with an upper case letter. -/
def Exported (S : Std) (n : Str) : Prop := ∃ c r, n = c :: r ∧ S.isUpper c = true

/-- A character of an identifier. -/
def IdentChar (S : Std) (c : Char) : Prop := S.isLetter c = true ∨ S.isDigit c = true ∨ c = '_'

/-- A Go identifier (specification, "Identifiers"). -/
def IsIdent (S : Std) (n : Str) : Prop :=
  ∃ c r, n = c :: r ∧ (S.isLetter c = true ∨ c = '_') ∧ ∀ d ∈ r, IdentChar S d

/-- The keywords of Go. -/
def keywords : List Str :=
  ["break", "case", "chan", "const", "continue", "default", "defer", "else", "fallthrough",
   "for", "func", "go", "goto", "if", "import", "interface", "map", "package", "range",
   "return", "select", "struct", "switch", "type", "var"].map String.toList

/-- What can follow `package` (specification, "Package clause"). -/
def PackageName (S : Std) (n : Str) : Prop := IsIdent S n ∧ n ∉ keywords ∧ n ≠ ['_']

/-- Facts about ASCII characters. -/
structure Lawful (S : Std) : Prop where
  upper : ∀ c, 'A' ≤ c → c ≤ 'Z' → S.isUpper c = true
  notUpper : ∀ c, 'a' ≤ c → c ≤ 'z' → S.isUpper c = false
  letter : ∀ c, ('a' ≤ c ∧ c ≤ 'z') ∨ ('A' ≤ c ∧ c ≤ 'Z') → S.isLetter c = true
  noPrint : ∀ c, Lit.illegal c = true → S.isPrint c = false

/-- The ASCII part of the functions of the standard library. -/
def ascii : Std where
  title := fun s => match s with
    | [] => []
    | c :: r => c.toUpper :: r
  lower := fun s => s.map Char.toLower
  isPrint := fun c => decide (32 ≤ c.toNat) && decide (c.toNat < 127)
  isLetter := Char.isAlpha
  isDigit := Char.isDigit
  isUpper := Char.isUpper

/-- The suffix asked for: none, or the configured title, or else the name of the lineage in title
case. -/
def suffixAsked (S : Std) (name : Str) (cfg : BindingConfig) : Str :=
  match cfg.factoryNameSuffix, cfg.titleName with
  | false, _ => []
  | true, [] => S.title name
  | true, c :: t => c :: t

end Thema.GoGen
