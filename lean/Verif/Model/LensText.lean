import Verif.Model.Surface
import Verif.Model.Mux

/-!
# What errors say about Go migrations, and those of multiplexers

`Model/Bind.lean` and `Model/Mux.lean` keep the classification of errors only; this is what they
say.
-/

namespace Thema

variable {V : Type}

/-- `bind.go:61-63`, `lensID.String`. -/
def LensID.str (id : LensID) : Str := id.frm.str ++ " -> ".toList ++ id.to.str

/-- The errors of `checkGoLensCompleteness` (`bind.go:217-308`), with what they list. -/
inductive GoLensProblem
  | duplicate (id : LensID)
  | nilFunc (id : LensID)
  | missing (ids : List LensID)
  | superfluous (rep : List (LensID × Reason))
  deriving DecidableEq, Repr

/-- `bind.go:219-229`: the error of the first loop; `all` are the keys of the map. -/
def collectProblem : List LensID → List (ImperativeLens V) → Option GoLensProblem
  | _, [] => none
  | all, l :: rest =>
    if all.contains l.id then some (.duplicate l.id)
    else if l.mapper.isNone then some (.nilFunc l.id)
    else collectProblem (all ++ [l.id]) rest

/-- `bind.go:217-308`: the error of `checkGoLensCompleteness`, for a lineage with the versions
`vs`. -/
def goLensProblem (vs : List SV) (ls : List (ImperativeLens V)) : Res (Option GoLensProblem) :=
  match collectProblem [] ls with
  | some p => .ok (some p)
  | none =>
    match requireLoop synv0 vs.tail (ls.map (·.id), []) with
    | (left, missing) =>
      if missing.length > 0 then .ok (some (.missing missing))
      else if left.length > 0 then (erroneousReport vs left ls).map fun r => some (.superfluous r)
      else .ok none

/-- The sentinel that the error is marked with (`bind.go:223,226,265,299`). -/
def GoLensProblem.mark : GoLensProblem → GoErr
  | .duplicate _ => ⟨[]⟩
  | .nilFunc _ => ⟨[]⟩
  | .missing _ => ⟨[.missingLenses]⟩
  | .superfluous _ => ⟨[.erroneousLenses]⟩

/-- `bind.go:279-297`: what is printed in parentheses. -/
def Reason.str : Reason → Str
  | .noSuchSchema v => "schema version ".toList ++ v.str ++ " does not exist".toList
  | .selfMigration => "self-migrations not allowed".toList
  | .predecessorIs p f t => p.str ++ " is predecessor of ".toList ++ f.str ++ ", not ".toList ++ t.str
  | .minorAutomatic => "minor version upgrades are handled automatically".toList
  | .successorIs s f t => s.str ++ " is successor of ".toList ++ f.str ++ ", not ".toList ++ t.str

/-- `bind.go:223,226,258-265,268-299`: the text of the error. -/
def GoLensProblem.str : GoLensProblem → Str
  | .duplicate id => "duplicate Go migration ".toList ++ id.str
  | .nilFunc id => "nil Go migration func for ".toList ++ id.str
  | .missing ids => "Go migrations not provided for the following version pairs:".toList ++ '\n' ::
      ids.flatMap fun id => '\t' :: id.str ++ ['\n']
  | .superfluous rep =>
      "Go migrations erroneously provided for the following version pairs:".toList ++ '\n' ::
      rep.flatMap fun e => '\t' :: e.1.str ++ " (".toList ++ e.2.str ++ [')']

/-- `vmux/untyped.go:54` and `vmux/typed.go:64`: the text of the error if no schema accepts the
data; `vs` are the versions that `allvstr` collected, `v` the version of the multiplexer's schema,
`text` the text of the error of that schema. -/
def noMatchText (vs : List SV) (v : SV) (text : Str) : Str :=
  "data invalid against all versions (".toList ++ versionListStr vs ++
    "), error against ".toList ++ v.str ++ ": ".toList ++ text

/-- `vmux/untyped.go:23-56`: the text of the error that a multiplexer returns after it has tried all
schemas, `none` if it returns something else; `text` is that of an error of `Validate`. -/
def muxText (C : Cue V) (H : Heap V) (s : SchPtr) (dec : Decoder V) (text : SchPtr → V → Str)
    (n : Nat) (b : Bytes) : Res (Option Str) :=
  (allvstr (H s.lin) n).bind fun vs =>
    (dec b).bind fun d =>
      match validate C H s d with
      | .ok _ => .ok none
      | .err _ =>
        (muxLatest (H s.lin)).bind fun p =>
          muxLoop C H s d (fun _ => .ok none)
            (.ok (some (noMatchText vs ((H s.lin).ver s.pos) (text s d)))) n p
      | .panic k => .panic k
      | .fuel => .fuel

end Thema
