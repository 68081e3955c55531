import Verif.Model.Path

/-!
# Comments of generated Go code

`encoding/gocode/decorators.go:48-100`.

The regular expressions are written out by hand, with Go's rules (leftmost match, `*?` as short
as possible, `*` as long as possible), for comments of one line.  Which texts are equal up to
case, and which runes are lower case letters, is given.
-/

namespace Thema.Comment

/-- Go's `strings.EqualFold` and `unicode.IsLower`. -/
structure Runes where
  fold : Str → Str → Bool
  lower : Char → Bool

/-- The text before and after the first space. -/
def cutSpace : Str → Option (Str × Str)
  | [] => none
  | c :: cs =>
    if c = ' ' then some ([], cs) else (cutSpace cs).map fun p => (c :: p.1, p.2)

/-- `[A-Z]`. -/
def isAZ (c : Char) : Bool := 'A' ≤ c ∧ c ≤ 'Z'

/-- `decorators.go:76`: a match of `(//) ([A-Z].*?) ([A-Z]?.*?) (.*)` at the beginning, by its
second, third and fourth group. -/
def matchAt : Str → Option (Str × Str × Str)
  | '/' :: '/' :: ' ' :: c :: cs =>
    if isAZ c then
      (cutSpace cs).bind fun p => (cutSpace p.2).map fun q => (c :: p.1, q.1, q.2)
    else none
  | _ => none

/-- The leftmost match. -/
def firstMatch : Str → Option (Str × Str × Str)
  | [] => none
  | c :: cs => (matchAt (c :: cs)).orElse fun _ => firstMatch cs

/-- `decorators.go:75-90`, `removeGoFieldComment`, for the first line of a comment. -/
def removeGoFieldComment (R : Runes) (s : Str) : Res Str :=
  match firstMatch s with
  | none => .ok s
  | some (g2, g3, g4) =>
    if R.fold g3 g2 then .ok ("// ".toList ++ g3 ++ ' ' :: g4)
    else
      match g3 with
      | [] => .panic .indexOutOfRange
      | r :: rs => if R.lower r then .ok s else .ok ("// ".toList ++ (r :: rs) ++ ' ' :: g4)

/-- What begins with the last `TODO` after a space. -/
def lastTODO : Str → Option Str
  | [] => none
  | c :: cs =>
    match lastTODO cs with
    | some t => some t
    | none => if c = ' ' ∧ "TODO".toList <+: cs then some cs else none

/-- `decorators.go:68-73`, `fixTODOComment`: `(//) (.*) (TODO.*)`, replaced by the first and the
third group. -/
def fixTODOComment : Str → Str
  | [] => []
  | c :: cs =>
    match (if "// ".toList <+: c :: cs then lastTODO ((c :: cs).drop 3) else none) with
    | some t => "// ".toList ++ t
    | none => c :: fixTODOComment cs

/-- The first line of the comment that oapi-codegen writes for a type or a field of this name with
a documentation that begins with this line. -/
def generated (name doc : Str) : Str := "// ".toList ++ name ++ ' ' :: doc

/-- `decorators.go:60-63`: the first line above a field. -/
def fieldComment (R : Runes) (name doc : Str) : Res Str :=
  removeGoFieldComment R (generated name doc)

/-- `decorators.go:53-58`: the first line above a type. -/
def typeComment (R : Runes) (name doc : Str) : Res Str :=
  (removeGoFieldComment R (generated name doc)).map fixTODOComment

end Thema.Comment
