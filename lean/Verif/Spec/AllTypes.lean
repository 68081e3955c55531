import Verif.Spec.NestedTypes

/-!
# The Go types of schemas with additional properties, alternatives and parts
-/

namespace Thema.AllTypes

open GoTypes OGen GoNames PlainTypes NestedTypes

/-- A type that is to be declared: its name, the name in its comment (empty for an alternative),
whether it has a description, its type, and the schema it is for (none for a reference). -/
structure Entry where
  name : Str
  json : Str
  described : Bool
  type : GT
  src : Option OS
  deriving DecidableEq

/-- The name of the type of a struct in a struct, array or map: the names on the path to it,
without their signs, joined by underscores. -/
def joined (U : Uni) (path : List Str) : Str := "_".toList.intercalate (path.map (letters U))

/-! ### References of `allOf` -/

/-- A reference among properties, in their order, in place of the one of its name. -/
def place (n : Str) : OPs → OPs
  | .nil => .cons n false false .inner .nil
  | .cons m r nl s ps =>
    if n = m then .cons n r false .inner ps
    else if n.map Char.toNat < m.map Char.toNat then
      .cons n false false .inner (.cons m r nl s ps)
    else .cons m r nl s (place n ps)

/-- The references without underscore in their names among properties. -/
def withRefs (allOf : List Str) (ps : OPs) : OPs :=
  (allOf.filter fun n => '_' ∉ n).foldl (fun ps n => place n ps) ps

/-- A struct with additional properties, or something with alternatives: it gets a type of its own
wherever it is used. -/
def isOpen : OS → Bool
  | .obj _ allOf ps a alts => alts ≠ .nil ∨ (withRefs allOf ps ≠ .nil ∧ a ≠ .no)
  | _ => false

/-- Nothing but alternatives. -/
def onlyAlts : OS → Bool
  | .obj _ allOf ps a alts => alts ≠ .nil ∧ withRefs allOf ps = .nil ∧ a = .no
  | _ => false

/-- How a schema of type `t` is used, and what is declared for it besides `o`. -/
def used (U : Uni) (path : List Str) (s : OS) (t : GT) (o : List Entry) : GT × List Entry :=
  if isOpen s then
    (.ident (joined U path), o ++ [⟨joined U path, nestedJson U path, false, t, source s⟩])
  else (t, o)

/-- The fields for additional properties of type `u`, and for alternatives. -/
def tailOf (a : OAs) (u : GT) (alts : OEs) : GFs :=
  let l : GFs := if alts = .nil then .nil else
    .cons ⟨"union".toList, .none⟩ (.sel "json".toList "RawMessage".toList) .nil
  if a = .no then l else
    .cons ⟨"AdditionalProperties".toList, .ignored⟩ (.map (.ident "string".toList) u) l

mutual
/-- The type of a schema at a path; the types that are to be declared for its properties, which
are lost if it is an element of a map; and the others.  (Properties that a reference replaces have
to have types, too: see `gen` in `Model/OGen.lean`.) -/
inductive TypeAt (U : Uni) (noPtr : Bool) : List Str → OS → GT → List Entry → List Entry → Prop
  | ref {path n} : TypeAt U noPtr path (.ref n) (.ident (goName U n)) [] []
  | basic {path k f t} : BasicType k f t → TypeAt U noPtr path (.prim k f []) t [] []
  | enum {path k f v e t} : BasicType k f t → 1 < path.length →
      TypeAt U noPtr path (.prim k f (v :: e)) (.ident (nestedName U path)) []
        [⟨nestedName U path, nestedJson U path, false, t, some (.prim k f (v :: e))⟩]
  | bare {path k f v e t} : BasicType k f t → path.length ≤ 1 →
      TypeAt U noPtr path (.prim k f (v :: e)) t [] []
  | arr {path s t n o} : TypeAt U noPtr path s t n o →
      TypeAt U noPtr path (.arr s) (.arr (used U (path ++ ["Item".toList]) s t o).1) n
        (used U (path ++ ["Item".toList]) s t o).2
  | any {path allOf ps} : withRefs allOf ps = .nil →
      TypeAt U noPtr path (.obj false allOf ps .no .nil) (.ident "any".toList) [] []
  | object {path allOf ps} : withRefs allOf ps = .nil →
      TypeAt U noPtr path (.obj true allOf ps .no .nil)
        (.map (.ident "string".toList) (.ident "any".toList)) [] []
  | map {path typed allOf ps a u o} : withRefs allOf ps = .nil → a ≠ .no →
      AddlAt U noPtr path a u o →
      TypeAt U noPtr path (.obj typed allOf ps a .nil) (.map (.ident "string".toList) u) [] o
  | struct {path typed allOf ps a alts u o fs' n' fs n o'} :
      withRefs allOf ps ≠ .nil ∨ alts ≠ .nil → AddlAt U noPtr path a u o →
      FieldsAt U noPtr path (tailOf a u alts) ps fs' n' →
      FieldsAt U noPtr path (tailOf a u alts) (withRefs allOf ps) fs n →
      AltsAt U noPtr path 0 alts o' →
      TypeAt U noPtr path (.obj typed allOf ps a alts) (.struct fs) n (o ++ o')
/-- The type of additional properties, and what is declared for it. -/
inductive AddlAt (U : Uni) (noPtr : Bool) : List Str → OAs → GT → List Entry → Prop
  | no {path} : AddlAt U noPtr path .no (.ident "any".toList) []
  | free {path} : AddlAt U noPtr path .free (.ident "any".toList) []
  | of {path s t n o} : TypeAt U noPtr path s t n o →
      AddlAt U noPtr path (.of s) (used U (path ++ ["AdditionalProperties".toList]) s t o).1
        (used U (path ++ ["AdditionalProperties".toList]) s t o).2
/-- The fields of properties, followed by others, and what is declared for them. -/
inductive FieldsAt (U : Uni) (noPtr : Bool) : List Str → GFs → OPs → GFs → List Entry → Prop
  | nil {path last} : FieldsAt U noPtr path last .nil last []
  | cons {path last m r nl s ps t fs n o es} : TypeAt U noPtr (path ++ [m]) s t n o →
      FieldsAt U noPtr path last ps fs es →
      FieldsAt U noPtr path last (.cons m r nl s ps)
        (.cons ⟨goName U m, .key m (!r && !nl)⟩
          (NestedTypes.fieldType noPtr r nl s (used U (path ++ [m]) s t o).1) fs)
        (n ++ (used U (path ++ [m]) s t o).2 ++ es)
  | ref {path last m r nl ps fs es} : FieldsAt U noPtr path last ps fs es →
      FieldsAt U noPtr path last (.cons m r nl .inner ps)
        (.cons ⟨[], if r ∨ nl then .key m false else .none⟩ (.ident (goName U m)) fs) es
/-- The types for alternatives, from the `i`th on: one for each that is not a reference, and
nothing for what is in them. -/
inductive AltsAt (U : Uni) (noPtr : Bool) : List Str → Nat → OEs → List Entry → Prop
  | nil {path i} : AltsAt U noPtr path i .nil []
  | ref {path i d m alts es} : AltsAt U noPtr path (i + 1) alts es →
      AltsAt U noPtr path i (.cons d (.ref m) alts) es
  | cons {path i d s alts t n o es} : (∀ m, s ≠ .ref m) → TypeAt U noPtr path s t n o →
      AltsAt U noPtr path (i + 1) alts es →
      AltsAt U noPtr path i (.cons d s alts)
        (⟨nestedName U (path ++ [Nat.toDigits 10 i]), [], d, t, source s⟩ :: es)
end

/-- The types that components ask for. -/
inductive EntriesAs (U : Uni) (noPtr : Bool) : List (Str × OS) → List Entry → Prop
  | nil : EntriesAs U noPtr [] []
  | cons {m s t cs n o es} : TypeAt U noPtr [m] s t n o → EntriesAs U noPtr cs es →
      EntriesAs U noPtr ((m, s) :: cs) (⟨goName U m, m, false, t, source s⟩ :: (n ++ o ++ es))

/-! ### What is left of them -/

/-- The first entry of every name. -/
def firstOfName : List Entry → List Entry
  | [] => []
  | e :: es => e :: (firstOfName es).filter fun x => x.name ≠ e.name

/-- What an entry is for. -/
def Entry.is (p : OS → Bool) (e : Entry) : Bool :=
  match e.src with
  | some s => p s
  | none => false

/-- An alternative without description. -/
def Entry.anonymous (e : Entry) : Bool := e.json = [] ∧ e.described = false

/-- Some entry of the name has nothing but alternatives. -/
def lost (es : List Entry) (n : Str) : Bool := es.any fun e => e.name = n ∧ e.is onlyAlts

/-- Alternatives without description are not declared, nor is what has nothing but alternatives; an
entry that is both takes the next one with it. -/
def survivors (gone : Str → Bool) : List Entry → List Entry
  | [] => []
  | e :: es =>
    if e.anonymous ∧ gone e.name then survivors gone es.tail
    else if e.anonymous ∨ gone e.name then survivors gone es
    else e :: survivors gone es
termination_by es => es.length
decreasing_by all_goals (simp only [List.length_cons, List.length_tail]; omega)

mutual
/-- Names replaced in a type.  In slices whose elements are maps they are not, except, if `deep`,
in structs; and in structs that are the values of maps only if `deep`. -/
def subst (deep : Bool) (f : Str → Str) : GT → GT
  | .ident n => .ident (f n)
  | .sel p n => .sel p n
  | .star t => .star (subst deep f t)
  | .arr (.map k v) => .arr (.map k (if deep then inStructs deep f v else v))
  | .arr t => .arr (subst deep f t)
  | .map k (.struct fs) => .map k (if deep then .struct (substFs deep f fs) else .struct fs)
  | .map k v => .map k (subst deep f v)
  | .struct fs => .struct (substFs deep f fs)
/-- Names replaced in structs only. -/
def inStructs (deep : Bool) (f : Str → Str) : GT → GT
  | .ident n => .ident n
  | .sel p n => .sel p n
  | .star t => .star (inStructs deep f t)
  | .arr t => .arr (inStructs deep f t)
  | .map k v => .map k (inStructs deep f v)
  | .struct fs => .struct (substFs deep f fs)
def substFs (deep : Bool) (f : Str → Str) : GFs → GFs
  | .nil => .nil
  | .cons n t fs => .cons n (subst deep f t) (substFs deep f fs)
end

/-- In a declaration: a name alone stays. -/
def substDecl (deep : Bool) (f : Str → Str) : GT → GT
  | .ident n => .ident n
  | t => subst deep f t

/-- The comment of an entry. -/
def docOf (replace : Str → Str) (e : Entry) : Str :=
  let d := if e.described then "// ".toList ++ e.name ++ " is described".toList
    else comment e.name e.json
  if '_' ∈ e.name then replace d else d

/-- The declaration of an entry: what has nothing but alternatives becomes `any`; underscores are
removed from names. -/
def declOf (replace : Str → Str) (gone : Str → Bool) (e : Entry) : Decl :=
  .typ [docOf replace e] (e.name.filter (· ≠ '_'))
    (substDecl true (fun n => n.filter (· ≠ '_'))
      (substDecl false (fun n => if gone n then "any".toList else n) e.type))

/-- The file for a list of types: constants, of the enumerations, and declarations. -/
def fileOf (replace : Str → Str) (es : List Entry) : List Decl :=
  .consts [] :: (((firstOfName es).filter (·.is isEnum)).map (fun e => Decl.consts [e.name]) ++
    (survivors (lost es) (firstOfName es)).map (declOf replace (lost es)))

mutual
/-- A schema as in a document: nothing that references of `allOf` are replaced with. -/
def InDoc : OS → Prop
  | .ref _ => True
  | .prim _ _ _ => True
  | .arr s => InDoc s
  | .inner => False
  | .obj _ _ ps a es => InDocA a ∧ InDocPs ps ∧ InDocEs es
def InDocPs : OPs → Prop
  | .nil => True
  | .cons _ _ _ s ps => InDoc s ∧ InDocPs ps
def InDocA : OAs → Prop
  | .no => True
  | .free => True
  | .of s => InDoc s
def InDocEs : OEs → Prop
  | .nil => True
  | .cons _ s es => InDoc s ∧ InDocEs es
end

end Thema.AllTypes
