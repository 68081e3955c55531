import Verif.Spec.JSchema

/-!
# The JSON Schema document that is made from an OpenAPI document

What the generator does to a document, as a relation between the document that goes
in and the document that comes out.  Only the syntax trees are shared with the model.
-/

namespace Thema.JSchema

/-- What a struct says its type is: the literal in its first field labelled `"type"`.
A struct that says so is a schema to the generator, any other struct is not.  (A literal
that is not a string stands for its token, which is never the name of a type.) -/
def statedType (es : List Node) : Option String :=
  match lookupLit es "type" with
  | some (.str t) => some t
  | some (.lit t) => some t
  | _ => none

/-- The struct says `"nullable": true` (in its first field of that label). -/
def saysNullable (es : List Node) : Bool :=
  match lookupLit es "nullable" with
  | some (.lit t) => t == "true"
  | _ => false

/-- The keywords of OpenAPI that a typed schema must lose. -/
def ownKeywords : List String :=
  ["deprecated", "discriminator", "example", "externalDocs", "nullable", "readOnly", "writeOnly",
   "xml"]

/-- `"$schema": "http://json-schema.org/draft-04/schema#"`. -/
def draft4 : Node := .field (.str "$schema") (.str "http://json-schema.org/draft-04/schema#")

mutual
/-- The schemas of unknown type that the generator comes across, in the order of the
document; each is given by whether it lies inside of another typed schema.  Inside of a
typed schema only the parts that go with the type are looked at. -/
def faults (inside : Bool) : Node → List Bool
  | .str _ => []
  | .lit _ => []
  | .field _ x => faults inside x
  | .list es => faultsL inside es
  | .file es => faultsL inside es
  | .struct es =>
    match statedType es with
    | none => faultsL inside es
    | some t => if t ∈ knownTypes then faultsP (partKeys t) es else [inside]
def faultsL (inside : Bool) : List Node → List Bool
  | [] => []
  | e :: es => faults inside e ++ faultsL inside es
/-- … inside the first field with each of the labels `ks`. -/
def faultsP (ks : List String) : List Node → List Bool
  | [] => []
  | .field (.str k) x :: es =>
    if k ∈ ks then faults true x ++ faultsP (ks.filter (· ≠ k)) es else faultsP ks es
  | _ :: es => faultsP ks es
end

mutual
/-- `Converted inside s s'`: `s'` is what the generator makes of `s`. -/
inductive Converted : Bool → Node → Node → Prop
  | str (i : Bool) (s : String) : Converted i (.str s) (.str s)
  | lit (i : Bool) (t : String) : Converted i (.lit t) (.lit t)
  | field (i : Bool) (l : Lab) (x x' : Node) (h : Converted i x x') :
      Converted i (.field l x) (.field l x')
  | list (i : Bool) (es es' : List Node) (h : ConvertedL i es es') : Converted i (.list es) (.list es')
  | file (i : Bool) (es es' : List Node) (h : ConvertedL i es es') : Converted i (.file es) (.file es')
  /-- Structs without a type are only gone through. -/
  | untyped (i : Bool) (es es' : List Node) (ht : statedType es = none) (h : ConvertedL i es es') :
      Converted i (.struct es) (.struct es')
  /-- A typed schema that lies inside of another one. -/
  | inner (es es' : List Node) (t : String) (ht : statedType es = some t) (hk : t ∈ knownTypes)
      (h : Keywords (partKeys t) (saysNullable es) es es') :
      Converted true (.struct es) (.struct es')
  /-- A typed schema that does not: it says which standard it follows. -/
  | outer (es es' : List Node) (t : String) (ht : statedType es = some t) (hk : t ∈ knownTypes)
      (h : Keywords (partKeys t) (saysNullable es) es es') :
      Converted false (.struct es) (.struct (es' ++ [draft4]))
/-- One by one. -/
inductive ConvertedL : Bool → List Node → List Node → Prop
  | nil (i : Bool) : ConvertedL i [] []
  | cons (i : Bool) (e e' : Node) (es es' : List Node) (h : Converted i e e')
      (hs : ConvertedL i es es') : ConvertedL i (e :: es) (e' :: es')
/-- `Keywords ks null es es'`: the fields of a typed schema become `es'`; `ks` are the labels
of the parts still to come, `null` says whether the schema is nullable. -/
inductive Keywords : List String → Bool → List Node → List Node → Prop
  | nil (ks : List String) (n : Bool) : Keywords ks n [] []
  /-- OpenAPI's own keywords go. -/
  | gone (ks : List String) (n : Bool) (k : String) (x : Node) (es es' : List Node)
      (hk : k ∈ ownKeywords) (hs : Keywords ks n es es') :
      Keywords ks n (.field (.str k) x :: es) es'
  /-- The schemas of the parts are converted. -/
  | part (ks : List String) (n : Bool) (k : String) (x x' : Node) (es es' : List Node)
      (hk : k ∈ ks) (h : Converted true x x') (hs : Keywords (ks.filter (· ≠ k)) n es es') :
      Keywords ks n (.field (.str k) x :: es) (.field (.str k) x' :: es')
  /-- The type of a nullable schema may also be `null`. -/
  | orNull (ks : List String) (x : Node) (es es' : List Node) (hx : x ≠ .str "null")
      (hs : Keywords ks true es es') :
      Keywords ks true (.field (.str "type") x :: es)
        (.field (.str "type") (.list [x, .str "null"]) :: es')
  /-- All other keywords stay as they are. -/
  | kept (ks : List String) (n : Bool) (k : String) (x : Node) (es es' : List Node)
      (h1 : k ∉ ownKeywords) (h2 : k ∉ ks) (h3 : k ≠ "type" ∨ n = false ∨ x = .str "null")
      (hs : Keywords ks n es es') :
      Keywords ks n (.field (.str k) x :: es) (.field (.str k) x :: es')
  /-- And so does anything without a literal label. -/
  | other (ks : List String) (n : Bool) (e : Node) (es es' : List Node)
      (he : ∀ k x, e ≠ .field (.str k) x) (hs : Keywords ks n es es') :
      Keywords ks n (e :: es) (e :: es')
end

end Thema.JSchema
