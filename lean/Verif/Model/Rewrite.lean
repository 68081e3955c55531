import Verif.Model.Lineage

/-!
# Rewriting legacy lineages

`encoding/cue/rewrite.go`.
-/

namespace Thema.Rewrite

/-- A sequence of a legacy lineage, reduced to what `extractParts` looks up in it:
its `schemas`, and `lens.forward`, `lens.reverse` (`rel` and `lacunas` together).
`none` is a value that does not exist. -/
structure Seq (α β : Type) where
  schemas : List α
  forward : Option β
  reverse : Option β

/-- `encoding/cue/rewrite.go:132-135`, `legacySchema`. -/
structure LSchema (α : Type) where
  synv : SV
  raw : α
  deriving DecidableEq

/-- `encoding/cue/rewrite.go:154-157`, `legacyLens`; `mapper` and `lacunas`
together are `body`. -/
structure LLens (β : Type) where
  to : SV
  frm : SV
  body : Option β
  deriving DecidableEq

/-- Go `uint` decrement (64 bit). -/
def uintPred (n : Nat) : Nat := (n + (2 ^ 64 - 1)) % 2 ^ 64

variable {α β : Type}

/-- `encoding/cue/rewrite.go:298-310`: the inner loop.  Returns what is appended
to `schlist` and `lenslist`, and the final `minv`. -/
def innerLoop (majv : Nat) : Nat → List α → List (LSchema α) × List (LLens β) × Nat
  | minv, [] => ([], [], minv)
  | minv, s :: rest =>
    let r := innerLoop majv (Lineage.uintSucc minv) rest
    (⟨⟨majv, minv⟩, s⟩ :: r.1,
     (if minv ≠ 0 then [⟨⟨majv, uintPred minv⟩, ⟨majv, minv⟩, none⟩] else []) ++ r.2.1,
     r.2.2)

/-- `encoding/cue/rewrite.go:282-296`: the lenses across the boundary. -/
def crossLenses (majv lastminv : Nat) (s : Seq α β) : List (LLens β) :=
  if majv ≠ 0 then
    [⟨⟨uintPred majv, uintPred lastminv⟩, ⟨majv, 0⟩, s.reverse⟩,
     ⟨⟨majv, 0⟩, ⟨uintPred majv, uintPred lastminv⟩, s.forward⟩]
  else []

/-- `encoding/cue/rewrite.go:273-314`: the outer loop. -/
def extractLoop : Nat → Nat → List (Seq α β) → List (LSchema α) × List (LLens β)
  | _, _, [] => ([], [])
  | majv, lastminv, s :: rest =>
    let i := innerLoop (β := β) majv 0 s.schemas
    let r := extractLoop (Lineage.uintSucc majv) i.2.2 rest
    (i.1 ++ r.1, crossLenses majv lastminv s ++ i.2.1 ++ r.2)

/-- `encoding/cue/rewrite.go:263-317`, `extractParts`.  (`seqs` and every
`schemas` being lists is presupposed; otherwise an error is returned.) -/
def extractParts (seqs : List (Seq α β)) : List (LSchema α) × List (LLens β) :=
  extractLoop 0 0 seqs

/-- A CUE syntax tree as the visitor `rewriteFromTo` sees it: identifiers,
selector expressions `x.label`, and everything else, with children nested in
pairs. -/
inductive Ast
  | ident (name : Str)
  | leaf
  | sel (x : Ast) (label : Str)
  | pair (l r : Ast)
  deriving DecidableEq, Repr

/-- `encoding/cue/rewrite.go:161-179,203,210`: `astutil.Apply` with
`rewriteFromTo`.  `Apply` calls the function on a node before its children and
skips them when it returns false.  What is put in is a literal with the text `input` or
`result`, which is printed, and read again, as that identifier. -/
def rewriteFromTo : Ast → Ast
  | .sel (.ident n) l =>
    if n = "from".toList then .sel (.ident "input".toList) l
    else if n = "to".toList then .sel (.ident "result".toList) l
    else .sel (.ident n) l
  | .sel x l => .sel x l
  | .pair l r => .pair (rewriteFromTo l) (rewriteFromTo r)
  | .ident n => .ident n
  | .leaf => .leaf

end Thema.Rewrite
