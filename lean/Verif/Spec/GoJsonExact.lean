import Verif.Spec.GoJson

/-!
# What data become that are read into generated Go types and written again

The relation `Comes` says what a value that is valid for a schema becomes, in terms of the schema
alone.
-/

namespace Thema.GoJson

open GoTypes OGen

mutual
/-- No object has two members with the same key. -/
def Distinct : J → Prop
  | .arr xs => Distincts xs
  | .obj ms => ms.keys.Nodup ∧ DistinctMs ms
  | .null => True
  | .bool _ => True
  | .num _ => True
  | .str _ => True
def Distincts : Js → Prop
  | .nil => True
  | .cons x xs => Distinct x ∧ Distincts xs
def DistinctMs : JMs → Prop
  | .nil => True
  | .cons _ x ms => Distinct x ∧ DistinctMs ms
end

mutual
/-- No two properties of an object, with its parts, have names that Go takes for the same. -/
def Apart (S : Std) (comps : List (Str × OS)) : OS → Prop
  | .obj typed allOf ps a es =>
    (∀ p q k k' v w, At comps (.obj typed allOf ps a es) p k v →
      At comps (.obj typed allOf ps a es) q k' w → S.fold k k' = true → k = k') ∧
    ApartPs S comps ps ∧ ApartA S comps a
  | .arr s => Apart S comps s
  | .ref _ => True
  | .prim _ _ _ => True
  | .inner => True
def ApartPs (S : Std) (comps : List (Str × OS)) : OPs → Prop
  | .nil => True
  | .cons _ _ _ s ps => Apart S comps s ∧ ApartPs S comps ps
def ApartA (S : Std) (comps : List (Str × OS)) : OAs → Prop
  | .of s => Apart S comps s
  | .no => True
  | .free => True
end

mutual
/-- All properties of objects and their parts count. -/
def AllCount (comps : List (Str × OS)) : OS → Prop
  | .obj typed allOf ps a es =>
    (∀ p k v, At comps (.obj typed allOf ps a es) p k v →
      ∃ w, Counts comps (.obj typed allOf ps a es) k w) ∧
    AllCountPs comps ps ∧ AllCountA comps a
  | .arr s => AllCount comps s
  | .ref _ => True
  | .prim _ _ _ => True
  | .inner => True
def AllCountPs (comps : List (Str × OS)) : OPs → Prop
  | .nil => True
  | .cons _ _ _ s ps => AllCount comps s ∧ AllCountPs comps ps
def AllCountA (comps : List (Str × OS)) : OAs → Prop
  | .of s => AllCount comps s
  | .no => True
  | .free => True
end

mutual
/-- What data become where anything is allowed: numbers are rounded to `float64`, all else stays,
whatever the order of the members of objects. -/
inductive Rounded (S : Std) : J → J → Prop
  | null : Rounded S .null .null
  | bool {b} : Rounded S (.bool b) (.bool b)
  | str {s} : Rounded S (.str s) (.str s)
  | num {q q'} : S.r64 q = some q' → Rounded S (.num q) (.num q')
  | arr {xs ys} : Roundeds S xs ys → Rounded S (.arr xs) (.arr ys)
  | obj {ms ms'} : (∀ k, k ∈ ms.keys ↔ k ∈ ms'.keys) →
      (∀ k x y, ms.get k = some x → ms'.get k = some y → Rounded S x y) →
      Rounded S (.obj ms) (.obj ms')
inductive Roundeds (S : Std) : Js → Js → Prop
  | nil : Roundeds S .nil .nil
  | cons {x y xs ys} : Rounded S x y → Roundeds S xs ys → Roundeds S (.cons x xs) (.cons y ys)
end

mutual
/-- What data of a schema become:

* strings, booleans and integers stay, where the integers must be of the Go type for the format;
* numbers are rounded to `float64` (format `double`) or else to `float32`;
* where anything is allowed, numbers are rounded to `float64`;
* arrays and maps: element by element;
* objects with properties: only the properties that count are kept, each as `Member` says. -/
inductive Comes (S : Std) (comps : List (Str × OS)) : OS → J → J → Prop
  | ref {n s j j'} : comps.lookup n = some s → Comes S comps s j j' → Comes S comps (.ref n) j j'
  | str {f enum s} : Comes S comps (.prim .string f enum) (.str s) (.str s)
  | bool {f enum b} : Comes S comps (.prim .boolean f enum) (.bool b) (.bool b)
  | int {f enum q} : InGo f q.num → Comes S comps (.prim .integer f enum) (.num q) (.num q)
  | num {f enum q q'} : (if f = "double".toList then S.r64 q else S.r32 q) = some q' →
      Comes S comps (.prim .number f enum) (.num q) (.num q')
  | arr {s xs ys} : ComesAll S comps s xs ys → Comes S comps (.arr s) (.arr xs) (.arr ys)
  | any {typed j j'} : Rounded S j j' → Comes S comps (.obj typed [] .nil .no .nil) j j'
  | free {typed j j'} : Rounded S j j' → Comes S comps (.obj typed [] .nil .free .nil) j j'
  | map {typed s ms ms'} : (∀ k, k ∈ ms.keys ↔ k ∈ ms'.keys) →
      (∀ k x y, ms.get k = some x → ms'.get k = some y → Comes S comps s x y) →
      Comes S comps (.obj typed [] .nil (.of s) .nil) (.obj ms) (.obj ms')
  | struct {typed allOf ps ms ms'} : HasFields allOf ps →
      (∀ k ∈ ms'.keys, ∃ v, Counts comps (.obj typed allOf ps .no .nil) k v) →
      (∀ k r nl s, Counts comps (.obj typed allOf ps .no .nil) k (r, nl, s) →
        Member S comps r nl s (ms.get k) (ms'.get k)) →
      Comes S comps (.obj typed allOf ps .no .nil) (.obj ms) (.obj ms')
inductive ComesAll (S : Std) (comps : List (Str × OS)) : OS → Js → Js → Prop
  | nil {s} : ComesAll S comps s .nil .nil
  | cons {s x y xs ys} : Comes S comps s x y → ComesAll S comps s xs ys →
      ComesAll S comps s (.cons x xs) (.cons y ys)
/-- What the value of a property becomes, if there is one, given whether the property is required
and nullable: one that is nullable is `null` if it is absent or `null`; one that is neither
required nor nullable stays absent, and is lost if it is `null` or what an empty slice or map is
read from; else the value becomes what its schema says. -/
inductive Member (S : Std) (comps : List (Str × OS)) : Bool → Bool → OS → Option J → Option J → Prop
  | absent {s} : Member S comps false false s none none
  | made {r s} : Member S comps r true s none (some .null)
  | null {r s} : Member S comps r true s (some .null) (some .null)
  | lost {s x} : ¬ Visible s x → Member S comps false false s (some x) none
  | kept {r nl s x y} : (r = false → nl = false → Visible s x) → (nl = true → x ≠ .null) →
      Comes S comps s x y → Member S comps r nl s (some x) (some y)
end

/-- Rounding twice is rounding once. -/
structure RoundLaws (S : Std) : Prop where
  r32 : ∀ q q', S.r32 q = some q' → S.r32 q' = some q'
  r64 : ∀ q q', S.r64 q = some q' → S.r64 q' = some q'

/-- `j` is read into the type `t` as the Go value `v`. -/
def ReadAs (U : Uni) (S : Std) (ds : List Decl) (t : GT) (j : J) (v : GV) : Prop :=
  ∃ k, ∀ m, k ≤ m → dec U S ds m t j = some v

end Thema.GoJson
