import Verif.Model.Typed

/-!
# Vocabulary for Go types bound to schemas

Which data a schema has as instances, the data with the defaults of the schema, and the Go
value that holds some data.
-/

namespace Thema.Spec.Typed

open Thema.Typed

/-- The declaration of a field: whether it is optional, and its type. -/
def decl : SF → Str → Option (Bool × S)
  | .nil, _ => none
  | .cons n opt s rest, m => if n = m then some (opt, s) else decl rest m

/-- The type of a field of a Go struct. -/
def goField : GF → Str → Option GT
  | .nil, _ => none
  | .cons n t rest, m => if n = m then some t else goField rest m

/-- The names of the fields. -/
def names : SF → List Str
  | .nil => []
  | .cons n _ _ rest => n :: names rest

mutual
/-- A required field of this type may be left out of data. -/
def mayOmit : S → Bool
  | .con _ _ => true
  | .typ _ _ d => d.isSome
  | .olist _ _ => true
  | .st fs => mayOmitF fs
def mayOmitF : SF → Bool
  | .nil => true
  | .cons _ opt s rest => (opt || mayOmit s) && mayOmitF rest
end

mutual
/-- Instances of a schema. -/
def Valid : S → D → Prop
  | .con k c, d => d = .con k c
  | .typ k max _, d => ∃ c, d = .con k c ∧ c ≤ max
  | .olist e _, d => ∃ l, d = .list l ∧ ∀ x ∈ l, Valid e x
  | .st fs, d => ∃ ds, d = .st ds ∧ (∀ f ∈ ds, f.1 ∈ names fs) ∧ ValidF fs ds
/-- Each field has an instance of its type, or may be absent. -/
def ValidF : SF → List (Str × D) → Prop
  | .nil, _ => True
  | .cons n opt s rest, ds =>
    (match ds.lookup n with
      | some d => Valid s d
      | none => opt = true ∨ mayOmit s = true) ∧ ValidF rest ds
end

/-- The default of a field as data: none for optional fields. -/
def own (n : Str) : Bool → Option D → List (Str × D)
  | false, some d => [(n, d)]
  | _, _ => []

mutual
/-- The default of a schema: what its fields are if the data does not say. -/
def dflt : S → Option D
  | .con k c => some (.con k c)
  | .typ k _ d => d.map (.con k)
  | .olist _ l => some (.list l)
  | .st fs => some (.st (dfltF fs))
def dfltF : SF → List (Str × D)
  | .nil => []
  | .cons n opt s rest =>
    own n opt (dflt s) ++ dfltF rest
end

mutual
/-- The data with the defaults of the schema filled in. -/
def fill : S → D → D
  | .olist e _, .list l => .list (l.map fun x => fill e x)
  | .st fs, .st ds => .st (fillF fs ds)
  | _, d => d
def fillF : SF → List (Str × D) → List (Str × D)
  | .nil, _ => []
  | .cons n opt s rest, ds =>
    (match ds.lookup n with
      | some d => [(n, fill s d)]
      | none => own n opt (dflt s)) ++ fillF rest ds
end

mutual
/-- The Go value that holds this data, and zero values where the data has nothing. -/
def rep : GT → D → GV
  | .ptr t, d => .ptr (some (rep t d))
  | .scal _ _, .con _ c => .scal c
  | .slice t, .list l => .slice (some (l.map fun x => rep t x))
  | .st gs, .st ds => .st (repF gs ds)
  | .scal _ _, _ => .scal 0
  | .slice _, _ => .slice none
  | .st gs, _ => .st (repF gs [])
def repF : GF → List (Str × D) → List (Str × GV)
  | .nil, _ => []
  | .cons n t rest, ds =>
    (n, match ds.lookup n with
      | some d => rep t d
      | none => zero t) :: repF rest ds
end

mutual
/-- A well-formed schema: a default is an instance, names of fields are distinct. -/
def WF : S → Prop
  | .con _ _ => True
  | .typ _ max d => ∀ c, d = some c → c ≤ max
  | .olist e l => WF e ∧ ∀ x ∈ l, Valid e x
  | .st fs => (names fs).Nodup ∧ WFF fs
def WFF : SF → Prop
  | .nil => True
  | .cons _ _ s rest => WF s ∧ WFF rest
end

mutual
/-- Instances name all their required fields: none may be left out, at any depth. -/
def Spelled : S → Prop
  | .con _ _ => True
  | .typ _ _ _ => True
  | .olist e _ => Spelled e
  | .st fs => SpelledF fs
def SpelledF : SF → Prop
  | .nil => True
  | .cons _ opt s rest => (opt = true ∨ mayOmit s = false) ∧ Spelled s ∧ SpelledF rest
end

/-- No structs in it. -/
def Structless : S → Prop
  | .olist e _ => Structless e
  | .st _ => False
  | _ => True

mutual
/-- Defaults only occur where `NewT` finds them: not below optional fields and list elements;
and only lists without structs have default elements. -/
def Reached : S → Prop
  | .con _ _ => True
  | .typ _ _ _ => True
  | .olist e l => Spelled e ∧ (l = [] ∨ Structless e)
  | .st fs => ReachedF fs
def ReachedF : SF → Prop
  | .nil => True
  | .cons _ opt s rest => (if opt then Spelled s else Reached s) ∧ ReachedF rest
end

end Thema.Spec.Typed
