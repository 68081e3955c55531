import Verif.Model.Path

/-!
# TypeScript types

`encoding/typescript/gen.go:28-101`.

cuetsy is external.  The configuration belongs to the caller, who sees what is written to it.
-/

namespace Thema.TsGen

/-- `typescript/gen.go:28-57`, `TypeConfig`. -/
structure Config (K : Type) where
  cuetsy : Option K := none
  group : Bool := false
  rootName : Str := []
  rootAsType : Bool := false

/-- `cuetsy.TypeInterface`, `cuetsy.TypeAlias`. -/
inductive Kind
  | interface | alias
  deriving DecidableEq

/-- cuetsy and the standard library. -/
structure Ext (V K N : Type) where
  /-- `strings.Title`. -/
  title : Str → Str
  /-- `gen.go:66-69`: the default configuration. -/
  defaults : K
  /-- `cuetsy.GenerateAST`: the nodes for the definitions and fields in a value. -/
  children : V → K → Option (List N)
  /-- `cuetsy.GenerateSingleAST`: the node for the type, and the one for its default, if there
  is one. -/
  single : Str → V → Kind → Option (N × Option N)

variable {V K N : Type}

/-- `gen.go:65-73`: the configuration with defaults, in place. -/
def complete (X : Ext V K N) (lineage : Str) (cfg : Config K) : Config K :=
  { cfg with
    cuetsy := some (cfg.cuetsy.getD X.defaults)
    rootName := if cfg.rootName = [] then X.title lineage else cfg.rootName }

/-- `gen.go:61-101`, `GenerateTypes`, for the schema with this definition of the lineage of this
name: the nodes of the file, and what the configuration is afterwards. -/
def generateTypes (X : Ext V K N) (lineage : Str) (schdef : V) (cfg : Config K) :
    Option (List N) × Config K :=
  let cfg' := complete X lineage cfg
  ((X.children schdef (cfg'.cuetsy.getD X.defaults)).bind fun nodes =>
    if cfg'.group then some nodes
    else
      (X.single cfg'.rootName schdef (if cfg'.rootAsType then .alias else .interface)).map fun top =>
        nodes ++ top.1 :: top.2.toList,
   cfg')

/-- Several calls with one configuration. -/
def generateAll (X : Ext V K N) : List (Str × V) → Config K → List (Option (List N))
  | [], _ => []
  | (n, v) :: rest, cfg =>
    (generateTypes X n v cfg).1 :: generateAll X rest (generateTypes X n v cfg).2

end Thema.TsGen
