import Verif.Model.Translate
import Verif.Spec.Lineage

/-!
# Specification vocabulary for translation with Go lenses

A walk over neighbouring positions that asks the supplied functions, with every
way it can end.
-/

namespace Thema.Spec

variable {V : Type}

/-- `m` is the function supplied at bind time for the pair of versions. -/
def Supplied (ls : List (ImperativeLens V)) (a b : SV) (m : Mapper V) : Prop :=
  ∃ l ∈ ls, l.frm = a ∧ l.to = b ∧ l.mapper = some m

/-- The version of the schema of an instance. -/
def versionOf (H : Heap V) (i : Inst V) : SV := (H i.sch.lin).ver i.sch.pos

/-- What is made of the answer of a supplied function that should produce version
`v`: a valid instance of version `v` is used; a nil instance and an instance of
another version are errors; an instance that did not come from thema is a panic;
errors and panics are passed on. -/
inductive Answer (H : Heap V) (v : SV) : Res (Option (Inst V)) → Res (Inst V) → Prop
  | used {j : Inst V} (hv : j.valid = true) (hj : versionOf H j = v) :
      Answer H v (.ok (some j)) (.ok j)
  | wrongVersion {j : Inst V} (hv : j.valid = true) (hj : versionOf H j ≠ v) :
      Answer H v (.ok (some j)) (.err ⟨[]⟩)
  | forged {j : Inst V} (hv : j.valid = false) : Answer H v (.ok (some j)) (.panic .explicit)
  | nil : Answer H v (.ok none) (.err ⟨[]⟩)
  | failed (e : GoErr) : Answer H v (.err e) (.err e)
  | panicked (k : PanicKind) : Answer H v (.panic k) (.panic k)
  | hangs : Answer H v .fuel .fuel

/-- One step up from position `p`: within a major the same data under the next
schema, otherwise the supplied function is asked. -/
inductive GoUp (H : Heap V) (lin : Nat) (ls : List (ImperativeLens V)) (p : Nat) (i : Inst V) :
    Res (Inst V) → Prop
  | minor (hm : ((H lin).ver p).major = ((H lin).ver (p + 1)).major) :
      GoUp H lin ls p i (.ok { raw := i.raw, name := i.name, sch := ⟨lin, p + 1⟩, valid := true })
  | major (hm : ((H lin).ver p).major ≠ ((H lin).ver (p + 1)).major) {m : Mapper V}
      (hs : Supplied ls ((H lin).ver p) ((H lin).ver (p + 1)) m) {o : Res (Inst V)}
      (ha : Answer H ((H lin).ver (p + 1)) (m i ⟨lin, p + 1⟩) o) : GoUp H lin ls p i o

/-- One step down from position `p + 1`: the supplied function is asked. -/
inductive GoDown (H : Heap V) (lin : Nat) (ls : List (ImperativeLens V)) (p : Nat) (i : Inst V) :
    Res (Inst V) → Prop
  | ask {m : Mapper V} (hs : Supplied ls ((H lin).ver (p + 1)) ((H lin).ver p) m)
      {o : Res (Inst V)} (ha : Answer H ((H lin).ver p) (m i ⟨lin, p⟩) o) :
      GoDown H lin ls p i o

/-- Going up from `p` to `q`, one neighbour after the other, stopping at the first
step that does not succeed. -/
inductive GoAscend (H : Heap V) (lin : Nat) (ls : List (ImperativeLens V)) (q : Nat) :
    Nat → Inst V → Res (Inst V) → Prop
  | there (i : Inst V) : GoAscend H lin ls q q i (.ok i)
  | step {p : Nat} {i i' : Inst V} {o : Res (Inst V)} (hp : p < q)
      (h : GoUp H lin ls p i (.ok i')) (t : GoAscend H lin ls q (p + 1) i' o) :
      GoAscend H lin ls q p i o
  | stop {p : Nat} {i : Inst V} {o : Res (Inst V)} (hp : p < q) (h : GoUp H lin ls p i o)
      (ho : ∀ i', o ≠ .ok i') : GoAscend H lin ls q p i o

/-- Likewise going down. -/
inductive GoDescend (H : Heap V) (lin : Nat) (ls : List (ImperativeLens V)) (q : Nat) :
    Nat → Inst V → Res (Inst V) → Prop
  | there (i : Inst V) : GoDescend H lin ls q q i (.ok i)
  | step {p : Nat} {i i' : Inst V} {o : Res (Inst V)} (hp : q ≤ p)
      (h : GoDown H lin ls p i (.ok i')) (t : GoDescend H lin ls q p i' o) :
      GoDescend H lin ls q (p + 1) i o
  | stop {p : Nat} {i : Inst V} {o : Res (Inst V)} (hp : q ≤ p) (h : GoDown H lin ls p i o)
      (ho : ∀ i', o ≠ .ok i') : GoDescend H lin ls q (p + 1) i o

/-- The walk from the schema of `i` to position `q` of its lineage. -/
def GoWalk (H : Heap V) (ls : List (ImperativeLens V)) (i : Inst V) (q : Nat)
    (o : Res (Inst V)) : Prop :=
  if i.sch.pos ≤ q then GoAscend H i.sch.lin ls q i.sch.pos i o
  else GoDescend H i.sch.lin ls q i.sch.pos i o

/-- The supplied functions keep to the lineage: an instance they return for a schema
of lineage `lin` is an instance of some schema of that lineage. -/
def StayInLineage (H : Heap V) (lin : Nat) (ls : List (ImperativeLens V)) : Prop :=
  ∀ l ∈ ls, ∀ m, l.mapper = some m → ∀ i s j, s.lin = lin → m i s = .ok (some j) →
    j.sch.lin = lin ∧ j.sch.pos < (H lin).allsch.length

/-- The supplied functions always return. -/
def Return (ls : List (ImperativeLens V)) : Prop :=
  ∀ l ∈ ls, ∀ m, l.mapper = some m → ∀ i s, m i s ≠ .fuel

/-- An instance that is what it claims to be: its schema exists and accepts its
data, which is concrete. -/
def Genuine (C : Cue V) (H : Heap V) (i : Inst V) : Prop :=
  i.valid = true ∧ C.marshals i.raw = true ∧
    ∃ h : i.sch.pos < (H i.sch.lin).allsch.length,
      C.accepts ((H i.sch.lin).allsch[i.sch.pos]).body i.raw

/-- The instances that a program can get hold of by API calls: `Validate` and
`ValidateAny` of concrete data, `Translate`, `AsSuccessor`, `AsPredecessor` and
`Examples` (`schema.go:40-59`). -/
inductive Obtainable (C : Cue V) (H : Heap V) : Inst V → Prop
  | validate {s : SchPtr} {d : V} {i : Inst V} (hd : C.marshals d = true)
      (h : validate C H s d = .ok i) : Obtainable C H i
  | validateAny {lin n : Nat} {d : V} {i : Inst V} (hd : C.marshals d = true)
      (h : validateAny C H lin d n = .ok (some i)) : Obtainable C H i
  | translate {i j : Inst V} {n : Nat} {v : SV} {lacs : List Lac} (hi : Obtainable C H i)
      (h : translate C H n i v = .ok (j, lacs)) : Obtainable C H j
  | asSuccessor {i j : Inst V} {n : Nat} {lacs : List Lac} (hi : Obtainable C H i)
      (h : asSuccessor H (Thema.translate C H n) i = .ok (j, lacs)) : Obtainable C H j
  | asPredecessor {i j : Inst V} {n : Nat} {lacs : List Lac} (hi : Obtainable C H i)
      (h : asPredecessor H (Thema.translate C H n) i = .ok (j, lacs)) : Obtainable C H j
  | example_ {s : SchPtr} {sch : SchemaDef V} {name : Str} {d : V}
      (hs : (H s.lin).allsch[s.pos]? = some sch) (he : (name, d) ∈ sch.examples) :
      Obtainable C H { raw := d, name := name, sch := s, valid := true }

/-- The Go lenses of a lineage return only instances that satisfy `P`, when given
such. -/
def Preserve (P : Inst V → Prop) (L : Lineage V) : Prop :=
  ∀ id m, (id, m) ∈ L.lensmap → ∀ i s j, P i → m i s = .ok (some j) → j.valid = true → P j

/-- The lineage comes from a successful bind with the compatibility checks in force,
and its versions are distinct. -/
def WellBound (C : Cue V) (L : Lineage V) : Prop :=
  ∃ force r opts, bindLineage C force r opts = .ok L ∧ ChecksOn force opts ∧ L.allv.Nodup

end Thema.Spec
