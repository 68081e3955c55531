import Verif.Model.Validate

/-!
# Lines of a text
-/

namespace Thema.Spec

/-- The lines of a text that does not end with a line feed (or is one empty line). -/
def linesOf : Str → List Str
  | [] => [[]]
  | c :: cs =>
    if c = '\n' then [] :: linesOf cs
    else match linesOf cs with
      | [] => [[c]]
      | l :: ls => (c :: l) :: ls

end Thema.Spec
