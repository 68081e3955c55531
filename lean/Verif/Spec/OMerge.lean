import Verif.Model.OMerge
import Verif.Spec.GoJson

/-!
# Data and schemas with members of `allOf` that are not references
-/

namespace Thema.OMerge

open OGen GoJson

/-- The fields of a schema. -/
def MH.typ : MH → Typ | .mk t _ _ _ _ _ _ _ _ _ _ _ => t
def MH.format : MH → Str | .mk _ f _ _ _ _ _ _ _ _ _ _ => f
def MH.enum : MH → List Str | .mk _ _ e _ _ _ _ _ _ _ _ _ => e
def MH.dflt : MH → Bool | .mk _ _ _ d _ _ _ _ _ _ _ _ => d
def MH.flags : MH → Flags | .mk _ _ _ _ f _ _ _ _ _ _ _ => f
def MH.required : MH → List Str | .mk _ _ _ _ _ r _ _ _ _ _ _ => r
def MH.props : MH → MPs | .mk _ _ _ _ _ _ p _ _ _ _ _ => p
def MH.addl : MH → MAs | .mk _ _ _ _ _ _ _ a _ _ _ _ => a
def MH.items : MH → MIs | .mk _ _ _ _ _ _ _ _ i _ _ _ => i
def MH.one : MH → MEs | .mk _ _ _ _ _ _ _ _ _ o _ _ => o
def MH.any : MH → MEs | .mk _ _ _ _ _ _ _ _ _ _ a _ => a
def MH.parts : MH → MParts | .mk _ _ _ _ _ _ _ _ _ _ _ p => p

/-- Properties as a list. -/
def MPs.toList : MPs → List (Str × Bool × MS)
  | .nil => []
  | .cons n nl s ps => (n, nl, s) :: ps.toList

/-- The members of `allOf` as a list. -/
def MParts.toList : MParts → List MH
  | .nil => []
  | .cons _ h ps => h :: ps.toList

/-- A schema that data of the first has to be valid for: itself, those in its `allOf`, and
theirs. -/
inductive Member : MH → MH → Prop
  | self {h} : Member h h
  | part {h p m} : p ∈ h.parts.toList → Member p m → Member h m

/-- The schema or a member has a property. -/
def Def (h : MH) (k : Str) (nl : Bool) (c : MS) : Prop :=
  ∃ m, Member h m ∧ (k, nl, c) ∈ m.props.toList

/-- The schema or a member requires a property. -/
def Requires (h : MH) (k : Str) : Prop := ∃ m, Member h m ∧ k ∈ m.required

/-- A member that has no `allOf` itself. -/
inductive Leaf : MH → MH → Prop
  | self {h} : h.parts = .nil → Leaf h h
  | part {h p m} : p ∈ h.parts.toList → Leaf p m → Leaf h m

/-- The schema, or a member that has no `allOf` itself. -/
def Kept (h m : MH) : Prop := m = h ∨ Leaf h m

/-- No member has both `allOf` and something of its own besides. -/
inductive Plain : MH → Prop
  | intro {h} : (∀ p ∈ h.parts.toList, p.parts = .nil ∨
      p.props = .nil ∧ p.required = [] ∧ p.enum = []) →
      (∀ p ∈ h.parts.toList, Plain p) → Plain h

/-- The elements of an array. -/
def Js.toList : Js → List J
  | .nil => []
  | .cons x xs => x :: Js.toList xs

/-- A schema without any restriction but its type. -/
def Empty (h : MH) : Prop :=
  h.props = .nil ∧ h.addl = .no ∧ h.one = .nil ∧ h.any = .nil ∧ h.parts = .nil

/-- The data that a schema accepts (OpenAPI 3.0; without `additionalProperties` an object with
properties has no others than those of the schema and its members): data with `allOf` is valid for
all members.  Left out: alternatives; additional properties besides properties, or with `allOf`;
items of arrays with `allOf`; objects with `allOf` where all members are references, which are
in `GoJson.Valid`.  If `strict`, some data is left out:

* numbers that the Go type does not have, and numbers where anything is allowed that are not
  of type `float64`;
* for properties that are neither required nor nullable: `null` and empty arrays and objects;
* nullable properties that are absent;
* objects of schemas that are not `Plain`. -/
inductive MValid (S : Std) (strict : Bool) (raw : List (Str × MH)) : MS → J → Prop
  | ref {n h j} : raw.lookup n = some h → MValid S strict raw (.val h) j →
      MValid S strict raw (.ref n) j
  | str {h s} : h.typ = .prim .string →
      (∀ m, Member h m → m.enum = [] ∨ s ∈ m.enum) → MValid S strict raw (.val h) (.str s)
  | bool {h b} : h.typ = .prim .boolean → MValid S strict raw (.val h) (.bool b)
  | int {h q} : h.typ = .prim .integer → q.den = 1 →
      (∀ m, Member h m → InFormat m.format q.num) → (strict = true → InGo h.format q.num) →
      MValid S strict raw (.val h) (.num q)
  | num {h q} : h.typ = .prim .number → (strict = true → InFloat S h.format q) →
      MValid S strict raw (.val h) (.num q)
  | arr {h s xs} : h.typ = .array → h.items = .of s → h.parts = .nil →
      (∀ x ∈ Js.toList xs, MValid S strict raw s x) → MValid S strict raw (.val h) (.arr xs)
  | any {h j} : h.typ = .none → Empty h → (strict = true → Exact S j) →
      MValid S strict raw (.val h) j
  | free {h ms} : h.typ = .object → Empty h → (strict = true → Exact S (.obj ms)) →
      MValid S strict raw (.val h) (.obj ms)
  | map {h s ms} : h.typ = .none ∨ h.typ = .object → h.props = .nil → h.addl = .of s →
      h.one = .nil → h.any = .nil → h.parts = .nil → ms.keys.Nodup →
      (∀ k x, ms.get k = some x → MValid S strict raw s x) → MValid S strict raw (.val h) (.obj ms)
  | obj {h ms} : h.typ = .none ∨ h.typ = .object →
      (h.parts = .nil ∨ h.parts.inline = true) → (strict = true → Plain h) →
      (∀ m, Member h m → m.addl = .no ∧ m.one = .nil ∧ m.any = .nil) →
      (∃ k nl c, Def h k nl c) → ms.keys.Nodup →
      (∀ k, Requires h k → k ∈ ms.keys) →
      (strict = true → ∀ k c, Def h k true c → k ∈ ms.keys) →
      (∀ k ∈ ms.keys, ∃ nl c, Def h k nl c) →
      (strict = true → ∀ k x nl c, ms.get k = some x → Def h k nl c → nl = false →
        ¬ Requires h k → x ≠ .null ∧ x ≠ .arr .nil ∧ x ≠ .obj .nil) →
      (∀ k x nl c, ms.get k = some x → Def h k nl c → ¬ (nl = true ∧ x = .null) →
        MValid S strict raw c x) →
      MValid S strict raw (.val h) (.obj ms)

/-- The properties that the fields of a struct are tagged with, and whether they are left out if
they are empty. -/
def fieldKeys : GoTypes.GFs → List (Str × Bool)
  | .nil => []
  | .cons f _ r => match f.tag with
    | .key k o => (k, o) :: fieldKeys r
    | _ => fieldKeys r

end Thema.OMerge
