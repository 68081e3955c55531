import Verif.Model.Version

/-!
# Binary search

Go's `sort.Search` and its use in `lineage.go:276-283`.
-/

namespace Thema

/-- The loop of Go's `sort.Search`:

    for i < j { h := int(uint(i+j) >> 1); if !f(h) { i = h + 1 } else { j = h } }
    return i

The first argument bounds the number of iterations, so that the definition is
structurally recursive; `j - i` decreases in each iteration, so that `j - i`
iterations are always enough. -/
def searchLoop (f : Nat → Bool) : Nat → Nat → Nat → Nat
  | 0, i, _ => i
  | fuel + 1, i, j =>
    if i < j then
      if !f ((i + j) / 2) then searchLoop f fuel ((i + j) / 2 + 1) j
      else searchLoop f fuel i ((i + j) / 2)
    else i

/-- `sort.Search(n, f)`. -/
def goSearch (n : Nat) (f : Nat → Bool) : Nat := searchLoop f n 0 n

/-- `lineage.go:276-278`, `searchSynv`.  `sort.Search` only evaluates the
predicate at indices below `len(a)`; the model's predicate is arbitrary (false)
elsewhere. -/
def searchSynv (a : List SV) (x : SV) : Nat :=
  goSearch a.length (fun i => match a[i]? with
    | some v => !(v.less x)
    | none => false)

/-- `lineage.go:280-283`, `synvExists`. -/
def synvExists (a : List SV) (x : SV) : Bool :=
  let i := searchSynv a x
  match a[i]? with
  | some v => v == x
  | none => false

end Thema
