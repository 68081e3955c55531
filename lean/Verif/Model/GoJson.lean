import Verif.Model.OGen

/-!
# JSON and Go values

What `encoding/json` does with the types that are generated (C111): `Unmarshal` into a zero
value of a declared type, and `Marshal`.  The generated types have no methods: those that
`oapi-codegen` writes are deleted (`encoding/gocode/decorators.go:141-143`).

Numbers are rational numbers, that is, different notations for one number are the same (`1.0`
is not an integer for `Unmarshal`, but integers are not written so).  The option `string` of
tags is left out.
-/

namespace Thema.GoJson

open GoTypes OGen

mutual
/-- JSON values. -/
inductive J
  | null
  | bool (b : Bool)
  | num (q : Rat)
  | str (s : Str)
  | arr (xs : Js)
  | obj (ms : JMs)
  deriving DecidableEq
inductive Js
  | nil
  | cons (x : J) (xs : Js)
  deriving DecidableEq
/-- The members of an object. -/
inductive JMs
  | nil
  | cons (k : Str) (x : J) (ms : JMs)
  deriving DecidableEq
end

mutual
/-- Go values: the nil of pointers, slices, maps and interfaces; values of basic types; the
text of a `json.RawMessage` or what a type of another package is written as; an interface; a
pointer; a slice; a slice of bytes; a map; a struct, with the fields that `encoding/json` sees,
also those of embedded structs. -/
inductive GV
  | nil
  | bool (b : Bool)
  | num (q : Rat)
  | str (s : Str)
  | raw (j : J)
  | iface (v : GV)
  | ptr (v : GV)
  | slice (vs : GVs)
  | bytes (vs : GVs)
  | map (ms : GMs)
  | struct (fs : GVFs)
  deriving DecidableEq
inductive GVs
  | nil
  | cons (v : GV) (vs : GVs)
  deriving DecidableEq
inductive GMs
  | nil
  | cons (k : Str) (v : GV) (ms : GMs)
  deriving DecidableEq
/-- The fields of a struct with their values. -/
inductive GVFs
  | nil
  | cons (f : Field) (v : GV) (fs : GVFs)
  deriving DecidableEq
end

/-- What is left open: rounding to `float32` and `float64` (none if the number is too large);
base64; the comparison of keys without case; types of other packages: what they write after
having read a value, and what their zero values write. -/
structure Std where
  r32 : Rat → Option Rat
  r64 : Rat → Option Rat
  b64 : GVs → Str
  unb64 : Str → Option GVs
  fold : Str → Str → Bool
  ext : Str → Str → J → Option J
  extZero : Str → Str → J

/-- The declared type of a name. -/
def declType : List Decl → Str → Option GT
  | [], _ => none
  | .typ _ n t :: ds, x => if n = x then some t else declType ds x
  | _ :: ds, x => declType ds x

/-- The number of pointers, and what they point to: a type that is no pointer and no declared
name.  (Without methods, the names of types do not matter.) -/
def head (ds : List Decl) : Nat → GT → Option (Nat × GT)
  | 0, _ => none
  | n + 1, .star t => (head ds n t).map fun p => (p.1 + 1, p.2)
  | n + 1, .ident x =>
    match declType ds x with
    | some t => head ds n t
    | none => some (0, .ident x)
  | _ + 1, .sel p x => some (0, .sel p x)
  | _ + 1, .arr e => some (0, .arr e)
  | _ + 1, .map k v => some (0, .map k v)
  | _ + 1, .struct fs => some (0, .struct fs)

/-- Pointers to a value. -/
def ptrs : Nat → GV → GV
  | 0, v => v
  | n + 1, v => .ptr (ptrs n v)

/-- The ranges of the types of integers. -/
def intRange (x : Str) : Option (Int × Int) :=
  if x = "int".toList ∨ x = "int64".toList then some (-2 ^ 63, 2 ^ 63 - 1)
  else if x = "int32".toList then some (-2 ^ 31, 2 ^ 31 - 1)
  else if x = "int16".toList then some (-2 ^ 15, 2 ^ 15 - 1)
  else if x = "int8".toList then some (-2 ^ 7, 2 ^ 7 - 1)
  else if x = "uint".toList ∨ x = "uint64".toList then some (0, 2 ^ 64 - 1)
  else if x = "uint32".toList then some (0, 2 ^ 32 - 1)
  else if x = "uint16".toList then some (0, 2 ^ 16 - 1)
  else if x = "uint8".toList ∨ x = "byte".toList then some (0, 2 ^ 8 - 1)
  else none

/-- The zero value of a predeclared type. -/
def zeroOf (x : Str) : GV :=
  if x = "string".toList then .str []
  else if x = "bool".toList then .bool false
  else if x = "any".toList then .nil
  else .num 0

/-- Whether the type is `json.RawMessage`. -/
def isRawMessage (p x : Str) : Bool := p == "json".toList && x == "RawMessage".toList

/-- `isValidTag`, of one character. -/
def validTag (U : Uni) (c : Char) : Bool :=
  "!#$%&()*+-./:;<=>?@[]^_{|}~ ".toList.contains c || U.isLetter c || U.isDigit c

/-- The key of a field, if `encoding/json` sees the field: it must be exported.  The tag is
`json:"<name>"` or `json:"<name>,omitempty"`: `-` alone means that the field is ignored, the
name ends at the first comma, and if it is not valid that of the field is taken.  (Names with
quotes, back quotes and backslashes break the tag altogether, and those with a comma bring
options; here the name of the field is taken or the first part.) -/
def keyOf (U : Uni) (f : Field) : Option Str :=
  match f.go with
  | [] => none
  | c :: _ =>
    if !U.isUpper c then none
    else match f.tag with
      | .key k om =>
        let n := k.takeWhile (· != ',')
        if k = ['-'] ∧ om = false then none
        else if n ≠ [] ∧ n.all (validTag U) = true then some n
        else some f.go
      | .ignored => none
      | .none => some f.go

/-! ### Embedded fields

The function `typeFields` of `encoding/json`. -/

/-- Whether the tag of a field gives its key. -/
def tagged (U : Uni) (f : Field) : Bool :=
  match f.tag with
  | .key k _ =>
    let n := k.takeWhile (· != ',')
    n != [] && n.all (validTag U)
  | _ => false

/-- The list of the fields of a struct. -/
def GFs.toList : GFs → List (Field × GT)
  | .nil => []
  | .cons f t fs => (f, t) :: GFs.toList fs

/-- The fields of a struct from their list. -/
def GFs.ofList : List (Field × GT) → GFs
  | [] => .nil
  | (f, t) :: l => .cons f t (GFs.ofList l)

/-- The fields of a struct type. -/
def structOf (ds : List Decl) (n : Nat) (t : GT) : Option GFs :=
  match head ds n t with
  | some (0, .struct fs) => some fs
  | _ => none

/-- What a field contributes: itself, or, if it is an embedded struct, the fields of that, which
`inner` lists.  An embedded field that is no struct or that has a tag is a field with the name of
its type.  (Embedded fields are types with a name, without a pointer.)  `path` are the names of
the types that are embedded to come here. -/
def contrib (ds : List Decl) (n : Nat) (path : List Str)
    (inner : List Str → GFs → List (List Str × Field × GT)) :
    Field × GT → List (List Str × Field × GT)
  | (f, t) =>
    if f.go = [] then
      match t with
      | .ident x =>
        match f.tag, structOf ds n t with
        | .none, some fs => inner (path ++ [x]) fs
        | _, _ => [(path, ⟨x, f.tag⟩, t)]
      | _ => []
    else [(path, f, t)]

/-- The fields of a struct and of the structs that are embedded in it, and where they are.  (The
code leaves out structs that it met before, at a lesser depth; their fields are hidden by those
that are there.) -/
def candidates (ds : List Decl) : Nat → List Str → GFs → List (List Str × Field × GT)
  | 0, _, _ => []
  | n + 1, path, fs => (GFs.toList fs).flatMap (contrib ds n path (candidates ds n))

/-- Whether two fields are the same.  Of the structs of a depth the code counts how many times
each of them is embedded, but only by different structs: those that are met several times are
looked at once.  So fields of a depth are the same if the structs that have them are, and the
structs that embed those. -/
def samePlace (c c' : List Str × Field × GT) : Bool :=
  c.1.length == c'.1.length && c.1.reverse.take 2 == c'.1.reverse.take 2 && c.2.1 == c'.2.1

/-- `dominantField`: of the fields with the same key, that with the least depth counts, and of
those with the same depth the one with a tag; if there are several left, none counts. -/
def dominant (U : Uni) (cs : List (List Str × Field × GT)) (c : List Str × Field × GT) : Bool :=
  match keyOf U c.2.1 with
  | none => true
  | some k =>
    (cs.filter fun c' => keyOf U c'.2.1 == some k).all fun c' =>
      decide (c.1.length < c'.1.length) || c.1.length == c'.1.length &&
        ((tagged U c.2.1 && !tagged U c'.2.1) || tagged U c.2.1 == tagged U c'.2.1 && samePlace c c')

/-- Without elements that are related to an earlier one. -/
def firsts {α : Type} (r : α → α → Bool) : List α → List α
  | [] => []
  | a :: l => a :: (firsts r l).filter fun b => !r a b

/-- The fields that count. -/
def visible (U : Uni) (ds : List Decl) (n : Nat) (fs : GFs) : GFs :=
  let cs := candidates ds n [] fs
  GFs.ofList ((firsts samePlace (cs.filter (dominant U cs))).map (·.2))

mutual
/-- The zero value of a type.  Of a struct only the fields that count are listed. -/
def zero (U : Uni) (S : Std) (ds : List Decl) : Nat → GT → GV
  | 0, _ => .nil
  | n + 1, .ident x =>
    match declType ds x with
    | some t => zero U S ds n t
    | none => zeroOf x
  | _ + 1, .sel p x => if isRawMessage p x then .nil else .raw (S.extZero p x)
  | n + 1, .struct fs => .struct (zeros U S ds n (visible U ds n fs))
  | _ + 1, _ => .nil
def zeros (U : Uni) (S : Std) (ds : List Decl) : Nat → GFs → GVFs
  | n + 1, .cons f t fs => .cons f (zero U S ds n t) (zeros U S ds n fs)
  | _, _ => .nil
end

/-- The key and the type of the first field with a certain key. -/
def findField (U : Uni) (p : Str → Bool) : GFs → Option (Str × GT)
  | .nil => none
  | .cons f t fs =>
    match keyOf U f with
    | some k => if p k then some (k, t) else findField U p fs
    | none => findField U p fs

/-- The field for a key: first with this key, then with one that differs in case. -/
def fieldFor (U : Uni) (S : Std) (fs : GFs) (k : Str) : Option (Str × GT) :=
  match findField U (· == k) fs with
  | some r => some r
  | none => findField U (S.fold k) fs

mutual
/-- Reading a value into an interface. -/
def decAny (S : Std) : J → Option GV
  | .null => some .nil
  | .bool b => some (.iface (.bool b))
  | .num q => (S.r64 q).map fun q => .iface (.num q)
  | .str s => some (.iface (.str s))
  | .arr xs => (decAnys S xs).map fun vs => .iface (.slice vs)
  | .obj ms => (decAnyMs S ms).map fun ms => .iface (.map ms)
def decAnys (S : Std) : Js → Option GVs
  | .nil => some .nil
  | .cons x xs => (decAny S x).bind fun v => (decAnys S xs).map fun vs => .cons v vs
def decAnyMs (S : Std) : JMs → Option GMs
  | .nil => some .nil
  | .cons k x ms => (decAny S x).bind fun v => (decAnyMs S ms).map fun vs => .cons k v vs
end

/-- Reading `null` into a type that is no pointer: no effect, but for what can be nil. -/
def decNull (U : Uni) (S : Std) (ds : List Decl) (n : Nat) : GT → Option GV
  | .arr _ => some .nil
  | .map _ _ => some .nil
  | .sel p x => if isRawMessage p x then some (.raw .null) else (S.ext p x .null).map .raw
  | t => some (zero U S ds n t)

/-- Reading a string. -/
def decStr (S : Std) (byte : Bool) (s : Str) : GT → Option GV
  | .ident x =>
    if x = "string".toList then some (.str s)
    else if x = "any".toList then decAny S (.str s)
    else none
  | .sel p x => if isRawMessage p x then some (.raw (.str s)) else (S.ext p x (.str s)).map .raw
  | .arr _ => if byte then (S.unb64 s).map .bytes else none
  | _ => none

/-- Reading a boolean. -/
def decBool (S : Std) (b : Bool) : GT → Option GV
  | .ident x =>
    if x = "bool".toList then some (.bool b)
    else if x = "any".toList then decAny S (.bool b)
    else none
  | .sel p x => if isRawMessage p x then some (.raw (.bool b)) else (S.ext p x (.bool b)).map .raw
  | _ => none

/-- Reading a number. -/
def decNum (S : Std) (q : Rat) : GT → Option GV
  | .ident x =>
    if x = "float64".toList then (S.r64 q).map .num
    else if x = "float32".toList then (S.r32 q).map .num
    else if x = "any".toList then decAny S (.num q)
    else match intRange x with
      | some (lo, hi) => if q.den = 1 ∧ lo ≤ q.num ∧ q.num ≤ hi then some (.num q) else none
      | none => none
  | .sel p x => if isRawMessage p x then some (.raw (.num q)) else (S.ext p x (.num q)).map .raw
  | _ => none

/-- Whether a slice is one of bytes. -/
def isByte (ds : List Decl) (n : Nat) (t : GT) : Bool :=
  match head ds n t with
  | some (0, .ident x) => x == "uint8".toList || x == "byte".toList
  | _ => false

/-- The last value read for a key. -/
def lastFor (k : Str) : GMs → Option GV
  | .nil => none
  | .cons k' v ms =>
    match lastFor k ms with
    | some w => some w
    | none => if k' = k then some v else none

/-- The fields of a struct: what was read, else the zero value. -/
def assemble (U : Uni) (S : Std) (ds : List Decl) (n : Nat) (ms : GMs) : GFs → GVFs
  | .nil => .nil
  | .cons f t fs =>
    .cons f (match (keyOf U f).bind (fun k => lastFor k ms) with
      | some v => v
      | none => zero U S ds n t) (assemble U S ds n ms fs)

mutual
/-- `json.Unmarshal` into a zero value of a type. -/
def dec (U : Uni) (S : Std) (ds : List Decl) (n : Nat) (t : GT) : J → Option GV
  | .null => match t with
    | .star _ => some .nil
    | _ => (head ds n t).bind fun p => if p.1 = 0 then decNull U S ds n p.2 else some .nil
  | .bool b => (head ds n t).bind fun p => (decBool S b p.2).map (ptrs p.1)
  | .num q => (head ds n t).bind fun p => (decNum S q p.2).map (ptrs p.1)
  | .str s => (head ds n t).bind fun p => (decStr S (match p.2 with
      | .arr e => isByte ds n e
      | _ => false) s p.2).map (ptrs p.1)
  | .arr xs => (head ds n t).bind fun p => (match p.2 with
      | .arr e => (decs U S ds n e xs).map fun vs => if isByte ds n e then GV.bytes vs else GV.slice vs
      | .ident x => if x = "any".toList then decAny S (.arr xs) else none
      | .sel q x => if isRawMessage q x then some (.raw (.arr xs))
          else (S.ext q x (.arr xs)).map .raw
      | _ => none).map (ptrs p.1)
  | .obj ms => (head ds n t).bind fun p => (match p.2 with
      | .map _ e => (decMs U S ds n e ms).map GV.map
      | .struct fs => (decFs U S ds n (visible U ds n fs) ms).map fun vs =>
          GV.struct (assemble U S ds n vs (visible U ds n fs))
      | .ident x => if x = "any".toList then decAny S (.obj ms) else none
      | .sel q x => if isRawMessage q x then some (.raw (.obj ms))
          else (S.ext q x (.obj ms)).map .raw
      | _ => none).map (ptrs p.1)
def decs (U : Uni) (S : Std) (ds : List Decl) (n : Nat) (t : GT) : Js → Option GVs
  | .nil => some .nil
  | .cons x xs => (dec U S ds n t x).bind fun v => (decs U S ds n t xs).map fun vs => .cons v vs
def decMs (U : Uni) (S : Std) (ds : List Decl) (n : Nat) (t : GT) : JMs → Option GMs
  | .nil => some .nil
  | .cons k x ms => (dec U S ds n t x).bind fun v => (decMs U S ds n t ms).map fun vs => .cons k v vs
/-- The members of an object for the fields of a struct; those without a field are skipped. -/
def decFs (U : Uni) (S : Std) (ds : List Decl) (n : Nat) (fs : GFs) : JMs → Option GMs
  | .nil => some .nil
  | .cons k x ms =>
    match fieldFor U S fs k with
    | none => decFs U S ds n fs ms
    | some (k', t) =>
      (dec U S ds n t x).bind fun v => (decFs U S ds n fs ms).map fun vs => .cons k' v vs
end

/-- `isEmptyValue`. -/
def GV.isEmpty : GV → Bool
  | .nil => true
  | .bool b => !b
  | .num q => q == 0
  | .str s => s == []
  | .slice .nil => true
  | .bytes .nil => true
  | .map .nil => true
  | _ => false

/-- Whether a field is left out if its value is empty. -/
def omitEmpty (f : Field) : Bool :=
  match f.tag with
  | .key _ o => o
  | _ => false

mutual
/-- `json.Marshal`.  (Keys of maps are sorted; the order of members does not matter here.) -/
def enc (U : Uni) (S : Std) : GV → J
  | .nil => .null
  | .bool b => .bool b
  | .num q => .num q
  | .str s => .str s
  | .raw j => j
  | .iface v => enc U S v
  | .ptr v => enc U S v
  | .slice vs => .arr (encs U S vs)
  | .bytes vs => .str (S.b64 vs)
  | .map ms => .obj (encMs U S ms)
  | .struct fs => .obj (encFs U S fs)
def encs (U : Uni) (S : Std) : GVs → Js
  | .nil => .nil
  | .cons v vs => .cons (enc U S v) (encs U S vs)
def encMs (U : Uni) (S : Std) : GMs → JMs
  | .nil => .nil
  | .cons k v ms => .cons k (enc U S v) (encMs U S ms)
def encFs (U : Uni) (S : Std) : GVFs → JMs
  | .nil => .nil
  | .cons f v fs =>
    match keyOf U f with
    | none => encFs U S fs
    | some k =>
      if omitEmpty f && v.isEmpty then encFs U S fs else .cons k (enc U S v) (encFs U S fs)
end

end Thema.GoJson
