import Verif.Model.Assign

/-!
# The text of the error of `AssignableTo`

`assignable.go:343-361`: `assignErrs` is a map from paths to errors; its `Error` walks over the map.
-/

namespace Thema.Assign

/-- The map that the assignments leave, as its entries: a later assignment to a key replaces an
earlier one. -/
def errMap : Errs → Errs
  | [] => []
  | (p, m) :: rest => if (rest.map (·.1)).contains p then errMap rest else (p, m) :: errMap rest

/-- `assignable.go:345-361`, `Error`, when the map is walked over in the order `entries`;
`render` is `err.Error()`.  `fmt.Fprint` puts no space between operands one of which is a string. -/
def errorText (render : P × Msg → Str) : Errs → Str
  | [] => []
  | [e] => render e
  | e :: rest => render e ++ '\n' :: errorText render rest

/-- The texts that a call may give: Go walks over a map in any order. -/
def ErrorTexts (render : P × Msg → Str) (es : Errs) (t : Str) : Prop :=
  ∃ entries, entries.Perm (errMap es) ∧ t = errorText render entries

end Thema.Assign
