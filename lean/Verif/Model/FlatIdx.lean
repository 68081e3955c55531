import Verif.Model.Version

/-!
# Version-to-position index

`lineage.cue:112-146,193-197`: `_counts`, `_pos`, `_basis`, `_flatidx`, as a
function of the list of schema versions.  CUE integers are unbounded.
-/

namespace Thema

/-- `lineage.cue:124`: the comprehension
`for i, sch in list.Drop(SS, 1) if SS[i].version[0] < sch.version[0] {i + 1}`,
with `i` the index of the head of the list. -/
def bumps : Nat → List SV → List Int
  | i, a :: b :: rest =>
    if a.major < b.major then ((i + 1 : Nat) : Int) :: bumps (i + 1) (b :: rest)
    else bumps (i + 1) (b :: rest)
  | _, _ => []

/-- `lineage.cue:124`, `_pos`. -/
def posList (vs : List SV) : List Int := 0 :: bumps 0 vs

/-- `lineage.cue:125-127`: `_pos[i+1] - list.Sum(list.Slice(_pos, 0, i+1))` for
each `i < len(_pos)-1`.  (The index is in range, so that the default is never
used.) -/
def countsInit (pos : List Int) : List Int :=
  (List.range (pos.length - 1)).map (fun i => pos.getD (i + 1) 0 - (pos.take (i + 1)).sum)

/-- `lineage.cue:115-139`, `_counts` (before the `uint64` constraint).  For an
empty list CUE uses a one-element stand-in (`lineage.cue:91-93`). -/
def counts (vs : List SV) : List Int :=
  if vs.length ≤ 1 then [0]
  else
    let pos := posList vs
    countsInit pos ++ [(vs.length : Int) - pos.getLastD 0]

/-- `lineage.cue:115`: every count is a `uint64` (the upper bound is not
reachable by a list length). -/
def countsOk (vs : List SV) : Bool := (counts vs).all (fun c => decide (0 ≤ c))

/-- `lineage.cue:144-146`, `_basis`. -/
def basis (vs : List SV) : List Int :=
  0 :: (List.range ((counts vs).length - 1)).map (fun maj => ((counts vs).take (maj + 1)).sum)

/-- `lineage.cue:193-197`, `_flatidx`: `_basis[v[0]] + v[1]`; `none` when the
index into `_basis` is out of range (an error in CUE). -/
def flatidx (vs : List SV) (v : SV) : Option Int :=
  ((basis vs)[v.major]?).map (· + (v.minor : Int))

end Thema
