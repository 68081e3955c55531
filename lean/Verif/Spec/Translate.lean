import Verif.Model.Translate
import Verif.Spec.Lineage

/-!
# Specification vocabulary for translation

Translation as a walk over neighbouring positions of the schema list, without any
index arithmetic.
-/

namespace Thema.Spec

variable {V : Type}

/-- A lens accepts the data `x` and its result fits the schema body `b`. -/
def LensWorks (C : Cue V) (l : CueLens V) (x b : V) : Prop :=
  l.bad x = false ∧ C.isErr (C.embed (l.run x) b) = false ∧
    (C.lacunaRefFatal = true → ∀ lac ∈ l.lacunas x, lac.condition = false)

/-- The next position up: unification within a major, the lens for exactly this
pair of versions across majors. -/
inductive StepUp (C : Cue V) (L : Lineage V) (p : Nat) (x : V) : V → Prop
  | minor (h : p + 1 < L.allsch.length) (hm : (L.ver p).major = (L.ver (p + 1)).major)
      (hok : C.isErr (C.embed x L.allsch[p + 1].body) = false) :
      StepUp C L p x (C.embed x L.allsch[p + 1].body)
  | major (h : p + 1 < L.allsch.length) (hm : (L.ver p).major ≠ (L.ver (p + 1)).major)
      (l : CueLens V) (hl : l ∈ L.lenses) (hf : l.frm = L.ver p) (ht : l.to = L.ver (p + 1))
      (hw : LensWorks C l x L.allsch[p + 1].body) :
      StepUp C L p x (C.embed (l.run x) L.allsch[p + 1].body)

/-- From position `p + 1` to the position below, with the lens for exactly this pair. -/
inductive StepDown (C : Cue V) (L : Lineage V) (p : Nat) (x : V) : V → Prop
  | lens (h : p + 1 < L.allsch.length)
      (l : CueLens V) (hl : l ∈ L.lenses) (hf : l.frm = L.ver (p + 1)) (ht : l.to = L.ver p)
      (hw : LensWorks C l x (L.allsch[p]'(by omega)).body) :
      StepDown C L p x (C.embed (l.run x) (L.allsch[p]'(by omega)).body)

/-- `Ascend p x q y`: going up from position `p` with data `x`, one neighbour after
the other, arrives at position `q` with data `y`. -/
inductive Ascend (C : Cue V) (L : Lineage V) : Nat → V → Nat → V → Prop
  | refl (p : Nat) (x : V) : Ascend C L p x p x
  | step {p q : Nat} {x x' y : V} (h : StepUp C L p x x') (t : Ascend C L (p + 1) x' q y) :
      Ascend C L p x q y

/-- Likewise going down. -/
inductive Descend (C : Cue V) (L : Lineage V) : Nat → V → Nat → V → Prop
  | refl (p : Nat) (x : V) : Descend C L p x p x
  | step {p q : Nat} {x x' y : V} (h : StepDown C L p x x') (t : Descend C L p x' q y) :
      Descend C L (p + 1) x q y

/-- The walk from `p` to `q`. -/
def Walk (C : Cue V) (L : Lineage V) (p : Nat) (x : V) (q : Nat) (y : V) : Prop :=
  (p ≤ q ∧ Ascend C L p x q y) ∨ (q ≤ p ∧ Descend C L p x q y)

/-- What becomes of the value `y` that a walk ends with at the schema `s`: it must
be exportable and accepted by the schema; the instance carries its default. -/
def Delivers (C : Cue V) (L : Lineage V) (s : SchPtr) (y : V) (r : Inst V) : Prop :=
  ∃ h : s.pos < L.allsch.length, C.marshals (C.dflt y) = true ∧
    C.accepts L.allsch[s.pos].body (C.dflt y) ∧
    r = { raw := C.dflt y, name := [], sch := s, valid := true }

/-- The CUE lenses are the required ones, each once (in any order that binds). -/
def ExactLenses (L : Lineage V) : Prop :=
  (L.lenses.map (fun l => (⟨l.frm, l.to⟩ : LensID))).Nodup ∧
    ∀ id : LensID, id ∈ L.lenses.map (fun l => (⟨l.frm, l.to⟩ : LensID)) ↔ Required L.allv id

/-- A chain of lens applications and minor unifications that never mixes up
versions, but may end anywhere: from version `a` with data `x` to version `b` with
data `y`.  The last argument collects the lacunas whose condition holds. -/
inductive Guarded (C : Cue V) (L : Lineage V) : SV → V → SV → V → List Lac → Prop
  | refl (a : SV) (x : V) : Guarded C L a x a x []
  | lens {a b : SV} {x y : V} {em : List Lac} (l : CueLens V) (hl : l ∈ L.lenses)
      (s : SchemaDef V) (hs : s ∈ L.allsch) (hf : l.frm = a) (ht : l.to = s.v)
      (hw : LensWorks C l x s.body)
      (t : Guarded C L s.v (C.embed (l.run x) s.body) b y em) :
      Guarded C L a x b y ((l.lacunas x).filter (·.condition) ++ em)
  | unify {a b : SV} {x y : V} {em : List Lac} (s : SchemaDef V) (hs : s ∈ L.allsch)
      (hm : a.major = s.v.major) (t : Guarded C L s.v (C.embed x s.body) b y em) :
      Guarded C L a x b y em

end Thema.Spec
