import Verif.Model.Fix

/-!
# Which file `thema lineage fix` writes, and where in it

`encoding/cue/rewrite.go:24-95` with `findSeqsVal` (`222-240`) and `isStructLiteral` (`252-261`), and
`cmd/thema/lineage_fix.go:39-57`.  `Model/Fix.lean` is about what is put in the place of the lineage;
this is about how the place is found in a package of several files.
-/

namespace Thema.FixFile

open Thema.Rewrite Thema.Fix

/-- Where a node of a syntax tree stands: the number of its file and the way down to it.  A field and
its value have the same place; `isStructLiteral` makes no difference between them. -/
structure Loc where
  file : Nat
  pos : List Nat
  deriving DecidableEq

/-- The syntax at the end of a way down. -/
def at? : List Nat → Syn → Option Syn
  | [], t => some t
  | i :: p, .struct ds => ds[i]?.bind fun d => at? p d.2
  | i :: p, .list es => es[i]?.bind (at? p)
  | i :: p, .expr _ es => es[i]?.bind (at? p)
  | _ :: _, .leaf _ => none

/-- Change of the syntax at the end of a way down. -/
def changeAt (f : Syn → Syn) : List Nat → Syn → Syn
  | [], t => f t
  | i :: p, .struct ds => .struct (ds.modify i fun d => (d.1, changeAt f p d.2))
  | i :: p, .list es => .list (es.modify i (changeAt f p))
  | i :: p, .expr k es => .expr k (es.modify i (changeAt f p))
  | _ :: _, .leaf x => .leaf x

/-- What a legacy lineage has: its sequences (`Model/Fix.lean`), and where the bodies and lacunas of
its lenses stand. -/
structure Legacy where
  seqs : List (Seq Source Lens)
  bodies : List Loc

/-- A `cue.Value`, as far as it is looked into: its `Source` (nil, or a node), its field `seqs` if
there is one, and its operands if it is a unification (`Expr`; otherwise none). -/
inductive View where
  | mk (src : Option Loc) (legacy : Option Legacy) (operands : List View)

/-- `Source`. -/
def View.src : View → Option Loc
  | .mk s _ _ => s
/-- The field `seqs`. -/
def View.legacy : View → Option Legacy
  | .mk _ l _ => l
/-- `Expr`, of a unification. -/
def View.operands : View → List View
  | .mk _ _ o => o

/-- The files of the package (`BuildInstance().Files`), and those of the packages it imports, which
are numbered after them. -/
structure World where
  files : List Syn
  others : List Syn

/-- The syntax at a place. -/
def World.get (W : World) (l : Loc) : Option Syn := (W.files ++ W.others)[l.file]?.bind (at? l.pos)

/-- `rewrite.go:252-261`, `isStructLiteral`: a struct literal or a field with one.  A whole file is
neither (`ast.File`). -/
def isStructLiteral (W : World) (v : View) : Bool :=
  match v.src with
  | none => false
  | some l =>
    !l.pos.isEmpty && match W.get l with
      | some (.struct _) => true
      | _ => false

mutual
/-- `rewrite.go:222-240`, `findSeqsVal`. -/
def findSeqsVal (W : World) : View → Option View
  | .mk s l ops => if isStructLiteral W (.mk s l ops) then some (.mk s l ops) else findOperand W ops

/-- `rewrite.go:228-236`: the loop over the operands. -/
def findOperand (W : World) : List View → Option View
  | [] => none
  | v :: vs =>
    if v.legacy.isSome then
      match findSeqsVal W v with
      | some u => some u
      | none => findOperand W vs
    else findOperand W vs
end

/-- `rewrite.go:64-81`: the loop over the files of the package, looking for the node. -/
def findFile (l : Loc) : Nat → List Syn → Option (Nat × Syn)
  | _, [] => none
  | i, f :: fs => if i = l.file ∧ (at? l.pos f).isSome then some (i, f) else findFile l (i + 1) fs

/-- `rewrite.go:203` and `210`: `astutil.Apply` changes the bodies and lacunas where they stand. -/
def renamed (rw : Syn → Syn) (i : Nat) (bodies : List Loc) (f : Syn) : Syn :=
  bodies.foldl (fun t b => if b.file = i then changeAt rw b.pos t else t) f

/-- `rewrite.go:24-95`, `RewriteLegacyLineage`, for the value at the path (`none`: there is none):
the number of the file that is returned, and what it then is.  `root` says that the path is empty. -/
def rewriteFile (rw : Syn → Syn) (W : World) (v : Option View) (root : Bool) (fuel : Nat) :
    Res (Nat × Syn) :=
  match v with
  | none => .err ⟨[]⟩
  | some v =>
    if v.legacy.isNone then .err ⟨[]⟩
    else
      match (match findSeqsVal W v with
        | some u => some u
        | none => if root then some v else none) with
      | none => .err ⟨[]⟩
      | some u =>
        match u.legacy with
        | none => .err ⟨[]⟩
        | some lin =>
          (rewrite rw lin.seqs).bind fun p =>
            match u.src with
            | none => .panic .explicit
            | some l =>
              match findFile l 0 W.files with
              | none => .panic .explicit
              | some (i, f) =>
                let f' := renamed rw i lin.bodies f
                match (at? l.pos f').bind (visit p.1 p.2 fuel) with
                | some t => .ok (i, changeAt (fun _ => t) l.pos f')
                | none => .fuel

/-- `lineage_fix.go:39-57`: the files of the package afterwards, and the exit status (none if the
command does not end).  Printing (`FmtNode`) may fail; writing does not. -/
def fixCmd (rw : Syn → Syn) (printable : Syn → Bool) (W : World) (v : Option View) (root : Bool)
    (fuel : Nat) : List Syn × Option Nat :=
  match rewriteFile rw W v root fuel with
  | .ok (i, t) => if printable t then (W.files.set i t, some 0) else (W.files, some 1)
  | .err _ => (W.files, some 1)
  | .panic _ => (W.files, some 2)
  | .fuel => (W.files, none)

end Thema.FixFile
