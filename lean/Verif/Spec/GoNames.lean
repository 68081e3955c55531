import Verif.Spec.OGen

/-!
# Names and constants in generated Go
-/

namespace Thema.GoNames

open OGen

/-- The signs that have a name, and their names. -/
def signs : List (Char × Str) :=
  [('-', "Minus".toList), ('+', "Plus".toList), ('&', "And".toList), ('|', "Or".toList),
   ('~', "Tilde".toList), ('=', "Equal".toList), ('#', "Hash".toList), ('.', "Dot".toList),
   ('*', "Asterisk".toList), ('^', "Caret".toList), ('%', "Percent".toList)]

/-- The characters after which a word begins. -/
def separators : Str := "-#@!$&=.+:;_~ (){}[]".toList

/-- The signs and dollar signs at the start of a name. -/
def leading (name : Str) : Str := name.takeWhile fun c => c = '$' ∨ c ∈ signs.map (·.1)

/-- The name of a sign, nothing for a dollar sign. -/
def signName (c : Char) : Str := (signs.lookup c).getD []

/-- What the Go name begins with. -/
def front (U : Uni) (name : Str) : Str :=
  if name = [] then "Empty".toList
  else if name = ['$'] then "DollarSign".toList
  else
    let words := (leading name).flatMap signName
    if words = [] ∧ ((name.drop (leading name).length).head?.any U.isDigit) = true then "N".toList
    else words

/-- A word begins at this place. -/
def wordStart (name : Str) : Nat → Bool
  | 0 => true
  | i + 1 => name[i]?.any fun s => decide (s ∈ separators)

/-- The cased letters and digits, lower case letters at the start of words in upper case. -/
def letters (U : Uni) (name : Str) : Str :=
  (name.zipIdx.filter fun p => U.isUpper p.1 || U.isLower p.1 || U.isDigit p.1).map fun p =>
    if U.isLower p.1 && wordStart name p.2 then U.toUpper p.1 else p.1

/-- The Go name. -/
def goName (U : Uni) (name : Str) : Str := front U name ++ letters U name

/-! ### Constants -/

/-- The Go name of an allowed value, made an identifier: an underscore in place of a digit at its
start, and before a keyword or predeclared name. -/
def baseName (U : Uni) (v : Str) : Str :=
  let s := match goName U v with
    | [] => []
    | c :: r => (if U.isNumber c then '_' else c) :: r
  if s ∈ keywords ∨ s ∈ predeclared then '_' :: s else s

/-- The name of the value at a place of a list: with the number of values before it that have the
same name, if there are any. -/
def numbered (U : Uni) (values : List Str) (i : Nat) (v : Str) : Str :=
  let n := ((values.take i).filter fun w => baseName U w = baseName U v).length
  baseName U v ++ if n = 0 then [] else (toString n).toList

/-- The constant for a name. -/
def constName (U : Uni) (ty n : Str) : Str :=
  ty ++ match goName U n with
    | [] => []
    | c :: r => U.toUpper c :: r

/-- `k` may be the constant of the value `v`, one of `values`, which are distinct: no later value
has the same numbered name. -/
def Candidate (U : Uni) (ty : Str) (values : List Str) (k v : Str) : Prop :=
  ∃ i, values[i]? = some v ∧ k = constName U ty (numbered U values i v) ∧
    ∀ j w, i < j → values[j]? = some w → numbered U values j w ≠ numbered U values i v

end Thema.GoNames
