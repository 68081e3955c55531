import Verif.Model.OGen
import Verif.Model.Lit

/-!
# Specification vocabulary for generated Go types
-/

namespace Thema.OGen

open Thema.GoTypes

/-! ### Names -/

/-- An identifier of Go (specification, "Identifiers"). -/
def GoIdent (U : Uni) (s : Str) : Prop :=
  ∃ c r, s = c :: r ∧ (U.isLetter c ∨ c = '_') ∧ ∀ x ∈ r, U.isLetter x ∨ U.isDigit x ∨ x = '_'

/-- An exported identifier: it begins with an upper case letter. -/
def Exported (U : Uni) (s : Str) : Prop := ∃ c r, s = c :: r ∧ U.isUpper c

/-- The characters that are kept in names: cased letters and digits. -/
def kept (U : Uni) (c : Char) : Bool := U.isUpper c || U.isLower c || U.isDigit c

/-- What is used of Unicode. -/
structure UniLaws (U : Uni) : Prop where
  ascii_letter : ∀ c : Char, c.isAlpha → U.isLetter c
  ascii_upper : ∀ c : Char, c.isUpper → U.isUpper c
  ascii_lower : ∀ c : Char, c.isLower → U.isLower c
  other : ∀ c : Char, c.toNat < 128 → c.isAlphanum = false → kept U c = false
  letter_alpha : ∀ c : Char, c.toNat < 128 → U.isLetter c → c.isAlpha
  upper_letter : ∀ c, U.isUpper c → U.isLetter c
  lower_letter : ∀ c, U.isLower c → U.isLetter c
  toUpper_letter : ∀ c, U.isLower c → U.isLetter (U.toUpper c)
  toUpper_upper : ∀ c, U.isUpper c → U.toUpper c = c
  letter_not_digit : ∀ c, U.isLetter c → U.isDigit c = false
  letter_not_number : ∀ c, U.isLetter c → U.isNumber c = false
  digit_number : ∀ c, U.isDigit c → U.isNumber c
  upper_not_lower : ∀ c, U.isUpper c → U.isLower c = false

/-- The ASCII characters. -/
def ascii : Uni := ⟨Char.isUpper, Char.isLower, Char.isDigit, Char.isAlpha, Char.isDigit,
  Char.toUpper⟩

/-- The characters that have a name. -/
def hasWord (c : Char) : Bool := "-+&|~=#.*^%".toList.contains c

/-- Names that give exported identifiers: empty, `$`; those that begin (after dollar signs)
with a digit or a character that has a name; those whose first cased letter or digit is an
upper case letter, or a lower case letter that has an upper case form and is the first
character or follows a separator. -/
def GoodName (U : Uni) (name : Str) : Prop :=
  name = [] ∨ name = ['$'] ∨
  (∃ c, (name.dropWhile (· == '$')).head? = some c ∧ (hasWord c ∨ U.isDigit c)) ∨
  (∃ a c b, name = a ++ c :: b ∧ (∀ x ∈ a, kept U x = false) ∧
    (U.isUpper c ∨ U.isLower c ∧ U.isUpper (U.toUpper c) ∧
      (a = [] ∨ ∃ a' s, a = a' ++ [s] ∧ isSep s)))

/-- The names of the fields of a struct as they are written; a field without a name is an
embedded one. -/
def goNames : GFs → List Str
  | .nil => []
  | .cons f _ r => f.go :: goNames r

/-- The names of properties. -/
def propNames : OPs → List Str
  | .nil => []
  | .cons n _ _ _ r => n :: propNames r

/-! ### Enumerations -/

/-- `cs` are the constants that a run of the generator may write for a type `ty` with the
allowed values `values`: two maps are iterated over, in any order. -/
def Outcome (U : Uni) (ty : Str) (values : List Str) (cs : SMap) : Prop :=
  ∃ o₁ o₂, List.Perm o₁ (enumNames U values) ∧ List.Perm o₂ (enumValues U o₁) ∧
    cs = constants U ty o₂

/-- Letters and digits of which the first is an upper case letter. -/
def PlainName (U : Uni) (s : Str) : Prop :=
  Exported U s ∧ ∀ c ∈ s, kept U c

end Thema.OGen
