import Verif.Model.OApi

/-!
# What `GenerateSchema` returns, exactly
-/

namespace Thema.OApi

open Path

variable {V : Type}

/-- The title of the document, which is also the name of the root unless groups are asked for:
the configured name, or the last selector of the subpath, or the name of the lineage without the
characters that labels cannot have. -/
def titleOf (s : Sch V) (cfg : Config V) : Str :=
  match cfg.group, cfg.rootName, cfg.subpath.reverse with
  | true, _, _ => s.lineage.filter keepRune
  | false, c :: cs, _ => c :: cs
  | false, [], l :: _ => if l.opt then l.text ++ ['?'] else l.text
  | false, [], [] => s.lineage.filter keepRune

/-- The values that the document is made from: with `SplitSchema` the schema as written and the
`joinSchema`, otherwise the schema. -/
def tops (s : Sch V) (cfg : Config V) : List V :=
  if cfg.splitSchema then [s.schraw, s.join] else [s.schdef]

/-- The roots of the document with their names. -/
def roots (C : OCue V) (s : Sch V) (cfg : Config V) : List (Str × V) :=
  if cfg.group then (C.fields s.schdef).map fun x => (trimMarks (Sel.str x.1), x.2)
  else (tops s cfg).map fun v =>
    (titleOf s cfg, if cfg.subpath = [] then v else C.lookup v cfg.subpath)

/-- The check of the subpath: each selector is a field of the value itself, and of the
`joinSchema`. -/
def SubpathOk (C : OCue V) (s : Sch V) (cfg : Config V) (v : V) : Prop :=
  cfg.subpath = [] ∨ ∀ sel ∈ cfg.subpath, C.allows v sel = true ∧ C.allows s.join sel = true

/-- The name of a value at the path `q` below a root with the name `n`; the empty name means that
there is no component for it. -/
def nameOf [DecidableEq V] (s : Sch V) (user : Option (NameFunc V)) (n : Str) (v : V) (q : P) : Str :=
  if q = [] ∨ pathStr q = '#' :: n then n
  else if v = s.schraw ∨ v = s.join then []
  else if v = s.schdef then n
  else (user.getD fun _ p => trimMarks (pathStr p)) v q

/-- The components for a root. -/
def componentsOf [DecidableEq V] (C : OCue V) (s : Sch V) (user : Option (NameFunc V))
    (r : Str × V) : List (Str × V) :=
  ((C.visits (C.define r.1 r.2)).map fun x => (nameOf s user r.1 x.1 x.2.tail, x.1)).filter
    fun c => decide (c.1 ≠ [])

/-- CUE's encoder only asks for the names of values in the definition that it is given. -/
def Rooted (C : OCue V) : Prop :=
  ∀ n v, ∀ x ∈ C.visits (C.define n v), x.2.head? = some (defSel n)

/-- A marker of optional fields or of definitions. -/
def IsMark (c : Char) : Prop := c = '?' ∨ c = '#'

/-- `t` is `s` without the markers at its ends. -/
def Unmarked (s t : Str) : Prop :=
  ∃ a b, s = a ++ t ++ b ∧ (∀ c ∈ a, IsMark c) ∧ (∀ c ∈ b, IsMark c) ∧
    (∀ c, t.head? = some c → ¬ IsMark c) ∧ ∀ c, t.getLast? = some c → ¬ IsMark c

end Thema.OApi
