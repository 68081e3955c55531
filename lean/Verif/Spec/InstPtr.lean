import Mathlib.Logic.Relation
import Verif.Model.InstPtr

/-! # Instances in memory: what programs may observe (C149) -/

namespace Thema.Spec.Ptr

open Thema.Ptr

variable {V σ α β : Type}

/-- A call that leaves every existing instance as it is. -/
def Gentle (x : PM V σ α) : Prop :=
  ∀ m i c, m.load i = some c → (x m).2.load i = some c

/-- The functions that a program supplies as lenses do not themselves assign to instances (they may
make new ones, and do with the program's own memory what they like). -/
def GentleLenses (G : Lenses V σ) : Prop :=
  ∀ lin id f, (id, f) ∈ G lin → ∀ i s, Gentle (f i s)

/-- One call of the API by a program, or a change of the program's own memory. -/
inductive Call (C : Cue V) (D : Hydrate.HCue V) (H : Heap V) (G : Lenses V σ) :
    Mem V σ → Mem V σ → Prop
  | own (m : Mem V σ) (p : σ) : Call C D H G m { m with prog := p }
  | validate (m : Mem V σ) (s : SchPtr) (d : V) : Call C D H G m (Thema.Ptr.validate C H s d m).2
  | validateAny (m : Mem V σ) (lin : Nat) (d : V) (n : Nat) :
      Call C D H G m (Thema.Ptr.validateAny C H lin d n m).2
  | examples (m : Mem V σ) (s : SchPtr) : Call C D H G m (Thema.Ptr.examples H s m).2
  | hydrate (m : Mem V σ) (n : Nat) (ref : V) (i : IPtr) : Call C D H G m (Thema.Ptr.hydrate D n ref i m).2
  | dehydrate (m : Mem V σ) (n : Nat) (ref : V) (i : IPtr) :
      Call C D H G m (Thema.Ptr.dehydrate D n ref i m).2
  | asSuccessor (m : Mem V σ) (n : Nat) (i : IPtr) :
      Call C D H G m (Thema.Ptr.asSuccessor H (Thema.Ptr.translate C H G n) i m).2
  | asPredecessor (m : Mem V σ) (n : Nat) (i : IPtr) :
      Call C D H G m (Thema.Ptr.asPredecessor H (Thema.Ptr.translate C H G n) i m).2
  | translate (m : Mem V σ) (n : Nat) (i : IPtr) (to : SV) :
      Call C D H G m (Thema.Ptr.translate C H G n i to m).2

/-- The memory after some sequence of calls. -/
abbrev Later (C : Cue V) (D : Hydrate.HCue V) (H : Heap V) (G : Lenses V σ) :
    Mem V σ → Mem V σ → Prop :=
  Relation.ReflTransGen (Call C D H G)

/-- The supplied functions keep what they are given: `log` is the part of the program's memory where
they add the pointer and what it points to at that moment. -/
def Record (log : σ → List (IPtr × Inst V)) (G : Lenses V σ) : Prop :=
  ∀ lin id f, (id, f) ∈ G lin → ∀ i s m c, m.load i = some c →
    log (f i s m).2.prog = log m.prog ++ [(i, c)]

/-- The supplied functions return instances of the schema they are asked for. -/
def AsAsked (G : Lenses V σ) : Prop :=
  ∀ lin id f, (id, f) ∈ G lin → ∀ i s m j m' c, f i s m = (.ok (some j), m') →
    m'.load j = some c → c.sch = s

/-- What a call returns is, once pointers are followed, the value `v`. -/
def Returns (follow : Mem V σ → α → Option β) (r : Res α × Mem V σ) (v : Res β) : Prop :=
  match r.1, v with
  | .ok a, .ok b => follow r.2 a = some b
  | .err e, .err e' => e = e'
  | .panic k, .panic k' => k = k'
  | .fuel, .fuel => True
  | _, _ => False

/-- Following a pointer that may be nil. -/
def followOpt (m : Mem V σ) : Option IPtr → Option (Option (Inst V))
  | none => some none
  | some i => (m.load i).map some

/-- Following the pointer in the results of `Translate`. -/
def followPair (m : Mem V σ) (r : IPtr × List Lac) : Option (Inst V × List Lac) :=
  (m.load r.1).map fun x => (x, r.2)

/-- The lenses over memory are those of the lineages over values. -/
def SameLenses (H : Heap V) (G : Lenses V σ) : Prop :=
  ∀ lin, (G lin).length = (H lin).lensmap.length ∧ ∀ id,
    ((G lin).lookup id = none ∧ (H lin).lensmap.lookup id = none) ∨
    ∃ f g, (G lin).lookup id = some f ∧ (H lin).lensmap.lookup id = some g ∧
      ∀ i s m c, m.load i = some c → Returns followOpt (f i s m) (g c s)

end Thema.Spec.Ptr
