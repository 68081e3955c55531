import Verif.Model.Version

/-!
# Specification vocabulary for versions

What it means for a string to be a decimal numeral, and the numeric order on
versions.  Independent of the parser, printer and comparison in the model.
-/

namespace Thema.Spec

/-- `a` comes before `b`: lexicographic order on (major, minor). -/
def Before (a b : SV) : Prop :=
  Prod.Lex (· < ·) (· < ·) (a.major, a.minor) (b.major, b.minor)

/-- Non-strict version of `Before`. -/
def NotAfter (a b : SV) : Prop := ¬ Before b a

/-- The ten ASCII digits. -/
def digits : List Char := ['0', '1', '2', '3', '4', '5', '6', '7', '8', '9']

/-- The number a digit string denotes (positional, base ten). -/
def denote (s : List Char) : Nat := s.foldl (fun n c => 10 * n + digits.idxOf c) 0

/-- `s` is a decimal numeral (leading zeros allowed) for `n`. -/
def Numeral (s : List Char) (n : Nat) : Prop :=
  s ≠ [] ∧ (∀ c ∈ s, c ∈ digits) ∧ denote s = n

/-- `s` is *the* decimal numeral for `n`: it has no superfluous leading zeros. -/
def CanonicalNumeral (s : List Char) (n : Nat) : Prop :=
  Numeral s n ∧ (0 < n → s.head? ≠ some '0') ∧ (n = 0 → s = ['0'])

/-- `s` is a version string denoting `v`: two numerals separated by one dot. -/
def VersionString (s : List Char) (v : SV) : Prop :=
  ∃ a b, s = a ++ '.' :: b ∧ Numeral a v.major ∧ Numeral b v.minor

end Thema.Spec
