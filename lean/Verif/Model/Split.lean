import Verif.Model.Basic

/-!
# Conjunct splitting

`internal/cuetil/split.go` and the `#Lineage` bookkeeping at the start of
`BindLineage`.
-/

namespace Thema

/-- `cue.Op`, the operators that matter here. -/
inductive Op
  | noOp
  | and
  | or
  | other
  deriving DecidableEq, Repr

/-- A CUE value as `Value.Expr()` presents it: an atom (`NoOp` with the value
itself as its only argument) or an operator with arguments.  `α` identifies the
value; for atoms this includes where it refers to. -/
inductive CVal (α : Type) where
  | atom (a : α)
  | node (op : Op) (a : α) (args : List (CVal α))

variable {α : Type}

/-- `split.go:22-34`: the in-place de-duplication loop.  `kept` is `args[:k]`;
`eq x y` is "`x` and `y` subsume each other". -/
def dedupLoop (eq : CVal α → CVal α → Bool) : List (CVal α) → List (CVal α) → List (CVal α)
  | kept, [] => kept
  | kept, x :: rest =>
    if kept.any (fun y => eq x y) then dedupLoop eq kept rest
    else dedupLoop eq (kept ++ [x]) rest

/-- `split.go:22-34`.  `args[:1]` of an empty slice would panic; CUE returns at
least one argument for every operator (`node` with no arguments is treated as
having none left). -/
def dedup (eq : CVal α → CVal α → Bool) : List (CVal α) → List (CVal α)
  | [] => []
  | x :: rest => dedupLoop eq [x] rest

/-- Size measure for the recursion of `AppendSplit`. -/
def CVal.size : CVal α → Nat
  | .atom _ => 1
  | .node _ _ args => 1 + (args.attach.map (fun ⟨x, _⟩ => x.size)).sum

theorem CVal.size_pos (v : CVal α) : 0 < v.size := by
  cases v <;> simp [CVal.size] <;> omega

theorem CVal.size_lt {op : Op} {a : α} {args : List (CVal α)} {x : CVal α} (h : x ∈ args) :
    x.size < (CVal.node op a args).size := by
  have h' : x.size ≤ (args.map CVal.size).sum := by
    clear op a
    induction args with
    | nil => cases h
    | cons y ys ih =>
      rcases List.mem_cons.1 h with rfl | h
      · simp
      · have := ih h; simp; omega
  simp only [CVal.size, List.map_attach_eq_pmap, List.pmap_eq_map]
  omega

theorem dedupLoop_subset (eq : CVal α → CVal α → Bool) (rest : List (CVal α)) :
    ∀ kept x, x ∈ dedupLoop eq kept rest → x ∈ kept ∨ x ∈ rest := by
  induction rest with
  | nil => intro kept x h; exact .inl h
  | cons y ys ih =>
    intro kept x h
    simp only [dedupLoop] at h
    split at h
    · rcases ih _ _ h with h | h
      · exact .inl h
      · exact .inr (List.mem_cons_of_mem _ h)
    · rcases ih _ _ h with h | h
      · rcases List.mem_append.1 h with h | h
        · exact .inl h
        · exact .inr (by simp at h; simp [h])
      · exact .inr (List.mem_cons_of_mem _ h)

theorem dedup_subset (eq : CVal α → CVal α → Bool) (args : List (CVal α)) {x : CVal α}
    (h : x ∈ dedup eq args) : x ∈ args := by
  cases args with
  | nil => exact h
  | cons y ys =>
    rcases dedupLoop_subset eq ys _ _ h with h | h
    · simp at h; simp [h]
    · exact List.mem_cons_of_mem _ h

/-- `split.go:16-48`, `AppendSplit(v, splitBy, a)` without the accumulator: the
values appended to `a`.  Values that do not exist (line 17), for which nothing is
appended, are left out: a unification with one does not exist itself, and
`BindLineage` refuses it (`checkExists`). -/
def appendSplit (eq : CVal α → CVal α → Bool) (splitBy : Op) : CVal α → List (CVal α)
  | .atom a => [.atom a]
  | .node op a args =>
    if op = .noOp ∧ (dedup eq args).length = 1 then dedup eq args
    else if op ≠ splitBy then [.node op a args]
    else (dedup eq args).attach.flatMap (fun ⟨x, _⟩ => appendSplit eq splitBy x)
termination_by v => v.size
decreasing_by
  rename_i h
  exact CVal.size_lt (dedup_subset eq args h)

/-- `av.ReferencePath()` has path "#Lineage" (`lineage.go:72-73`): only atoms are
references. -/
def CVal.refLineage (isLin : α → Bool) : CVal α → Bool
  | .atom a => isLin a
  | .node _ _ _ => false

/-- `a.Unify(b)`; `tag` identifies the new value. -/
def CVal.unify (tag : α) (a b : CVal α) : CVal α := .node .and tag [a, b]

/-- `lineage.go:65-108`: the choice of `raw` and `uni` in `BindLineage`.  `lindef`
is `rt.linDef()`.  The result is `(raw, uni)`; with no other conjunct than
`#Lineage` the index `others[0]` is out of range. -/
def unifyDecision (eq : CVal α → CVal α → Bool) (isLin : α → Bool) (tag : α)
    (lindef orig : CVal α) : Res (CVal α × CVal α) :=
  let vlist := appendSplit eq .and orig
  if vlist.length > 1 then
    let others := vlist.filter (fun av => !(av.refLineage isLin))
    if others.length = vlist.length then
      .ok (orig, lindef.unify tag orig)
    else
      let raw : Res (CVal α) :=
        if others.length = 1 then .ok orig
        else
          match others with
          | o0 :: o1 :: rest => .ok (rest.foldl (CVal.unify tag) (o0.unify tag o1))
          | _ => .panic .indexOutOfRange
      raw.bind fun raw =>
        if others.length = vlist.length - 1 then .ok (raw, orig)
        else .ok (raw, lindef.unify tag raw)
  else .ok (orig, lindef.unify tag orig)

end Thema
