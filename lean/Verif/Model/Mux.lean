import Verif.Model.Translate

/-!
# Version multiplexers

`vmux/mux.go`, `vmux/untyped.go`, `vmux/typed.go`, `vmux/byte.go`, `vmux/value.go`,
and the typed schemas and instances they use (`schema.go:228-268`,
`instance.go:14-30,145-181`).
-/

namespace Thema

variable {V T : Type}

/-- A Go `[]byte`. -/
abbrev Bytes := List Nat

/-- `vmux/mux.go:28-30`, `Decoder`: an arbitrary function. -/
abbrev Decoder (V : Type) := Bytes → Res V

/-- `vmux/mux.go:34-36`, `Encoder`: an arbitrary function. -/
abbrev Encoder (V : Type) := V → Res Bytes

/-- A value of the interface type `Schema`: a `*schemaDef` or a
`*unaryTypedSchema` around another one (`schema.go:10-13,240-244`). -/
inductive SchemaI
  | def_ (p : SchPtr)
  | typed (inner : SchemaI)
  deriving DecidableEq, Repr

/-- The schema whose methods a `Schema` value has: a `unaryTypedSchema` embeds
(`schema.go:241`) and so inherits `Validate`, `Version`, `Lineage`, `Predecessor`. -/
def SchemaI.ptr : SchemaI → SchPtr
  | .def_ p => p
  | .typed s => s.ptr

/-- `schema.go:240-244`, `unaryTypedSchema`.  `newT` is the value `newfn` makes (a
fresh copy each time), `decode` is CUE's `Decode` into an existing Go value of type
`T`, an arbitrary function. -/
structure TypedSchema (V T : Type) where
  sch : SchemaI
  newT : T
  decode : V → T → Res T

/-- `schema.go:172-227`, `BindType`, after the checks that the type fits: a typed
schema around the given one. -/
def bindType (sch : SchemaI) (newT : T) (decode : V → T → Res T) : TypedSchema V T :=
  { sch := sch, newT := newT, decode := decode }

/-- The `Schema` that a typed schema is. -/
def TypedSchema.asSchema (ts : TypedSchema V T) : SchemaI := .typed ts.sch

/-- `instance.go:145-148`, `TypedInstance`.  Its `tsch` is the typed schema that it
is made for, kept by the caller. -/
structure TInst (V T : Type) where
  inst : Inst V
  tsch : TypedSchema V T

/-- `schema.go:229-238`, `schemaIs`, where the second argument is the schema of an
instance and hence a `*schemaDef`. -/
def schemaIs (s : SchemaI) (p : SchPtr) : Res Bool :=
  match s with
  | .def_ q => .ok (q = p)
  | .typed _ => .panic .explicit

/-- `instance.go:19-30`, `BindInstanceType`. -/
def bindInstanceType (i : Inst V) (ts : TypedSchema V T) : Res (TInst V T) :=
  i.check.bind fun _ =>
    (schemaIs ts.sch i.sch).bind fun is => if is then .ok ⟨i, ts⟩ else .err ⟨[]⟩

/-- `schema.go:254-264`, `ValidateTyped`. -/
def validateTyped (C : Cue V) (H : Heap V) (ts : TypedSchema V T) (d : V) : Res (TInst V T) :=
  (validate C H ts.sch.ptr d).map fun i => ⟨i, ts⟩

/-- `instance.go:163-170`, `Value`: decode over a fresh `NewT`. -/
def TInst.value (i : TInst V T) : Res T :=
  i.inst.check.bind fun _ => i.tsch.decode i.inst.raw i.tsch.newT

/-- `vmux/mux.go:14-20`: the loop of `allvstr`, with `n` iterations allowed; the
versions collected (to be joined into a string). -/
def allvstrLoop (L : Lineage V) : Nat → Nat → Res (List SV)
  | 0, _ => .fuel
  | n + 1, p =>
    (L.successor p).bind fun
      | none => .ok [L.ver p]
      | some q => (allvstrLoop L n q).map (L.ver p :: ·)

/-- `vmux/mux.go:14-20`, `allvstr`. -/
def allvstr (L : Lineage V) (n : Nat) : Res (List SV) :=
  (L.schemaP synv0).bind fun p => allvstrLoop L n p

/-- `vmux/mux.go:22-24`, `latest`. -/
def muxLatest (L : Lineage V) : Res Nat := L.latestVersion.bind L.schemaP

/-- `vmux/untyped.go:44-55` and `vmux/typed.go:44-65`: the walk from `p` to older
schemas, skipping the version `s` has, up to the first that validates; `found` is
done with the instance, `notFound` if there is none. -/
def muxLoop {β : Type} (C : Cue V) (H : Heap V) (s : SchPtr) (d : V) (found : Inst V → Res β)
    (notFound : Res β) : Nat → Nat → Res β
  | 0, _ => .fuel
  | n + 1, p =>
    let next := ((H s.lin).predecessor p).bind fun
      | none => notFound
      | some q => muxLoop C H s d found notFound n q
    if (H s.lin).ver p = (H s.lin).ver s.pos then next
    else
      match validate C H ⟨s.lin, p⟩ d with
      | .ok inst => found inst
      | .err _ => next
      | .panic k => .panic k
      | .fuel => .fuel

/-- `vmux/untyped.go:28-56`: the function that `NewUntypedMux` returns.  The final
error wraps that of the given schema, and so has its marks. -/
def untypedMux (C : Cue V) (H : Heap V) (s : SchPtr) (dec : Decoder V) (n : Nat) (b : Bytes) :
    Res (Inst V × List Lac) :=
  (dec b).bind fun d =>
    match validate C H s d with
    | .ok i => .ok (i, [])
    | .err e =>
      (muxLatest (H s.lin)).bind fun p =>
        muxLoop C H s d (fun i => translate C H n i ((H s.lin).ver s.pos)) (.err e) n p
    | .panic k => .panic k
    | .fuel => .fuel

/-- `vmux/untyped.go:23-57`, `NewUntypedMux`. -/
def newUntypedMux (C : Cue V) (H : Heap V) (s : SchPtr) (dec : Decoder V) (n : Nat) :
    Res (Bytes → Res (Inst V × List Lac)) :=
  (allvstr (H s.lin) n).map fun _ => untypedMux C H s dec n

/-- `vmux/typed.go:57-58`: an error of `BindInstanceType` is "unreachable". -/
def unreachable {β : Type} : Res β → Res β
  | .err _ => .panic .explicit
  | x => x

/-- `vmux/typed.go:28-66`: the function that `NewTypedMux` returns. -/
def typedMux (C : Cue V) (H : Heap V) (ts : TypedSchema V T) (dec : Decoder V) (n : Nat)
    (b : Bytes) : Res (TInst V T × List Lac) :=
  (dec b).bind fun d =>
    match validateTyped C H ts d with
    | .ok i => .ok (i, [])
    | .err e =>
      (muxLatest (H ts.sch.ptr.lin)).bind fun p =>
        muxLoop C H ts.sch.ptr d
          (fun i => (translate C H n i ((H ts.sch.ptr.lin).ver ts.sch.ptr.pos)).bind fun x =>
            (unreachable (bindInstanceType x.1 ts)).map fun t => (t, x.2))
          (.err e) n p
    | .panic k => .panic k
    | .fuel => .fuel

/-- `vmux/typed.go:23-67`, `NewTypedMux`. -/
def newTypedMux (C : Cue V) (H : Heap V) (ts : TypedSchema V T) (dec : Decoder V) (n : Nat) :
    Res (Bytes → Res (TInst V T × List Lac)) :=
  (allvstr (H ts.sch.ptr.lin) n).map fun _ => typedMux C H ts dec n

/-- `vmux/byte.go:22-30`: the function that `NewByteMux` returns, from the function
`f` of the untyped multiplexer. -/
def byteMux (f : Bytes → Res (Inst V × List Lac)) (enc : Encoder V) (b : Bytes) :
    Res (Bytes × List Lac) :=
  (f b).bind fun x => x.1.check.bind fun _ => (enc x.1.raw).map fun ob => (ob, x.2)

/-- `vmux/byte.go:20-30`, `NewByteMux`. -/
def newByteMux (C : Cue V) (H : Heap V) (s : SchPtr) (dec : Decoder V) (enc : Encoder V)
    (n : Nat) : Res (Bytes → Res (Bytes × List Lac)) :=
  (newUntypedMux C H s dec n).map fun f => byteMux f enc

/-- `vmux/value.go:23-29`: the function that `NewValueMux` returns, from the function
`f` of the typed multiplexer.  Beside an error the code also returns a value (`NewT` or
what was decoded), which is not modelled. -/
def valueMux (f : Bytes → Res (TInst V T × List Lac)) (b : Bytes) : Res (T × List Lac) :=
  (f b).bind fun x => x.1.value.map fun t => (t, x.2)

/-- `vmux/value.go:21-31`, `NewValueMux`. -/
def newValueMux (C : Cue V) (H : Heap V) (ts : TypedSchema V T) (dec : Decoder V) (n : Nat) :
    Res (Bytes → Res (T × List Lac)) :=
  (newTypedMux C H ts dec n).map fun f => valueMux f

end Thema
