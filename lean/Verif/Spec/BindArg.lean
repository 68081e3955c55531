import Verif.Spec.Typed

/-!
# What `BindType` does to the value that its argument points to
-/

namespace Thema.Spec.BindArg

open Thema.Typed Thema.Spec.Typed

mutual
/-- Go values of a type. -/
def Of : GT → GV → Prop
  | .scal _ _, .scal _ => True
  | .ptr _, .ptr none => True
  | .ptr t, .ptr (some x) => Of t x
  | .slice _, .slice none => True
  | .slice t, .slice (some l) => ∀ x ∈ l, Of t x
  | .st gs, .st xs => OfF gs xs
  | _, _ => False
/-- The fields of a struct, in order. -/
def OfF : GF → List (Str × GV) → Prop
  | .nil, [] => True
  | .cons n t rest, (m, x) :: xs => n = m ∧ Of t x ∧ OfF rest xs
  | _, _ => False
end

mutual
/-- Data written over a Go value of this type: before, after.  (`reuse`: the decoder writes over the
elements of slices that are long enough.) -/
inductive Written (reuse : Bool) : GT → D → GV → GV → Prop
  | basic {k m c x} : Written reuse (.scal k m) (.con k c) (.scal x) (.scal c)
  | target {t d x y} : Written reuse t d x y → Written reuse (.ptr t) d (.ptr (some x)) (.ptr (some y))
  | new {t d y} : Written reuse t d (zero t) y → Written reuse (.ptr t) d (.ptr none) (.ptr (some y))
  | over {t ds old ys} : reuse = true → old ≠ [] → ds.length ≤ old.length → ys.length = ds.length →
      (∀ (i : Nat) d x y, ds[i]? = some d → old[i]? = some x → ys[i]? = some y → Written reuse t d x y) →
      Written reuse (.slice t) (.list ds) (.slice (some old)) (.slice (some ys))
  | fresh {t ds old ys} :
      (∀ l, old = some l → reuse = true → l ≠ [] → l.length < ds.length) →
      ys.length = ds.length →
      (∀ (i : Nat) d y, ds[i]? = some d → ys[i]? = some y → Written reuse t d (zero t) y) →
      Written reuse (.slice t) (.list ds) (.slice old) (.slice (some ys))
  | struct {gs ds xs ys} : WrittenF reuse gs ds xs ys →
      Written reuse (.st gs) (.st ds) (.st xs) (.st ys)
/-- Fields that the data do not have are kept. -/
inductive WrittenF (reuse : Bool) : GF → List (Str × D) → List (Str × GV) → List (Str × GV) → Prop
  | nil {ds} : WrittenF reuse .nil ds [] []
  | set {n t rest ds d x y xs ys} : ds.lookup n = some d → Written reuse t d x y →
      WrittenF reuse rest ds xs ys → WrittenF reuse (.cons n t rest) ds ((n, x) :: xs) ((n, y) :: ys)
  | kept {n t rest ds x xs ys} : ds.lookup n = none → WrittenF reuse rest ds xs ys →
      WrittenF reuse (.cons n t rest) ds ((n, x) :: xs) ((n, x) :: ys)
end

mutual
/-- A Go value of this type before and after a schema has been written over it: constants and defaults
are written over it; without a default pointers are cleared and basic values kept; structs go
field by field. -/
inductive After (reuse : Bool) : GT → S → GV → GV → Prop
  | const {t k c x y} : Written reuse t (.con k c) x y → After reuse t (.con k c) x y
  | dflt {t k m c x y} : Written reuse t (.con k c) x y → After reuse t (.typ k m (some c)) x y
  | list {t e l x y} : Written reuse t (.list l) x y → After reuse t (.olist e l) x y
  | cleared {t k m x} : After reuse (.ptr t) (.typ k m none) x (.ptr none)
  | kept {k' m' k m x} : After reuse (.scal k' m') (.typ k m none) x x
  | target {t fs x y} : After reuse t (.st fs) x y →
      After reuse (.ptr t) (.st fs) (.ptr (some x)) (.ptr (some y))
  | new {t fs y} : After reuse t (.st fs) (zero t) y →
      After reuse (.ptr t) (.st fs) (.ptr none) (.ptr (some y))
  | struct {gs fs xs ys} : AfterF reuse gs fs xs ys →
      After reuse (.st gs) (.st fs) (.st xs) (.st ys)
/-- Optional fields are kept. -/
inductive AfterF (reuse : Bool) : GF → SF → List (Str × GV) → List (Str × GV) → Prop
  | nil {fs} : AfterF reuse .nil fs [] []
  | required {n t rest fs s x y xs ys} : decl fs n = some (false, s) → After reuse t s x y →
      AfterF reuse rest fs xs ys → AfterF reuse (.cons n t rest) fs ((n, x) :: xs) ((n, y) :: ys)
  | optional {n t rest fs s x xs ys} : decl fs n = some (true, s) → AfterF reuse rest fs xs ys →
      AfterF reuse (.cons n t rest) fs ((n, x) :: xs) ((n, x) :: ys)
end

end Thema.Spec.BindArg
