import Verif.Spec.InitFile

/-! # C150: what a new lineage needs is in it -/

namespace Thema.Props

open Thema.InitFile

theorem elts_append (a b : List Decl) : elts (a ++ b) = elts a ++ elts b := by
  induction a with
  | nil => rfl
  | cons d a ih => cases d <;> simp [elts, ih]

theorem elts_drop_nil {a : List Decl} (h : elts a = []) : ∀ k, elts (a.drop k) = [] := by
  induction a with
  | nil => intro k; simp [elts]
  | cons d a ih =>
    intro k
    cases k with
    | zero => exact h
    | succ k =>
      rw [List.drop_succ_cons]
      refine ih ?_ k
      cases d <;> simp [elts] at h <;> exact h

theorem startLoop_elts : ∀ (ds pre : List Decl) (s : Nat), s ≤ pre.length → elts pre = [] →
    elts ((pre ++ ds).drop (startLoop pre.length s ds)) = elts ds := by
  intro ds
  induction ds with
  | nil =>
    intro pre s _ h
    simpa [elts] using elts_drop_nil h (startLoop pre.length s [])
  | cons d ds ih =>
    intro pre s hs h
    have step : ∀ s', s' ≤ pre.length + 1 → elts [d] = [] →
        elts ((pre ++ d :: ds).drop (startLoop (pre.length + 1) s' ds)) = elts (d :: ds) := by
      intro s' hs' hd
      have := ih (pre ++ [d]) s' (by simpa using hs') (by rw [elts_append, h, hd]; rfl)
      rw [List.append_assoc, List.length_append] at this
      rw [show elts (d :: ds) = elts ds from by
        rw [show d :: ds = [d] ++ ds from rfl, elts_append, hd]; rfl]
      exact this
    cases d with
    | elt l v =>
      simp only [startLoop]
      rw [List.drop_append_of_le_length hs, elts_append, elts_drop_nil h]
      rfl
    | package p => exact step _ (Nat.le_refl _) rfl
    | imports p => exact step _ (Nat.le_refl _) rfl
    | comment p => exact step _ (by omega) rfl
    | «attribute» p => exact step _ (by omega) rfl

theorem free_embed {n : Str} {e : Node} : Free n (.struct [(none, e)]) ↔ Free n e := by
  constructor
  · intro h
    cases h with
    | struct h hf hl =>
      simp only [List.mem_singleton, Prod.mk.injEq] at h
      rw [← h.2]; exact hf
  · intro h
    exact .struct (l := none) (by simp) h (by simp [labels])

/-- The expression made from a file: the struct of what the file declares, or the only expression in
it. -/
theorem toExpr_file (ds : List Decl) :
    toExpr (.file ds) = .struct (elts ds) ∨ elts ds = [(none, toExpr (.file ds))] := by
  have h := startLoop_elts ds [] 0 (Nat.le_refl _) rfl
  simp only [List.nil_append, List.length_nil] at h
  simp only [toExpr]
  split
  · rename_i e he
    rw [he] at h
    exact .inr h.symm
  · rw [h]; exact .inl rfl

theorem free_toExpr {n : Str} (ds : List Decl) :
    Free n (toExpr (.file ds)) ↔ Free n (.struct (elts ds)) := by
  rcases toExpr_file ds with h | h
  · rw [h]
  · rw [h, free_embed]

/-- The names that the file of a new lineage gives a meaning. -/
def given : List Str :=
  ["thema".toList, "name".toList, "schemas".toList, "version".toList, "schema".toList]

theorem newLineage_imported (sch : Syntax) (name pkg : Str) :
    imported (newLineage sch name pkg) = ["thema".toList] := by
  unfold newLineage
  split <;> rfl

theorem newLineage_elts (sch : Syntax) (name pkg : Str) :
    elts (newLineage sch name pkg) =
      [(none, .op "#Lineage".toList [.ident "thema".toList]),
       (some "name".toList, .op name []),
       (some "schemas".toList, .op "[]".toList [.struct
         [(some "version".toList, .op "[0, 0]".toList []),
          (some "schema".toList, .struct [(none, toExpr sch)])]])] := by
  unfold newLineage
  split <;> rfl

theorem dangling_newLineage {sch : Syntax} {name pkg n : Str} :
    Dangling (newLineage sch name pkg) n ↔ Free n (toExpr sch) ∧ n ∉ given := by
  unfold Dangling
  rw [newLineage_imported, newLineage_elts]
  constructor
  · rintro ⟨hf, hi⟩
    cases hf with
    | struct h hf hl =>
      simp only [labels, List.filterMap_cons, List.filterMap_nil, List.mem_cons, List.not_mem_nil,
        or_false, not_or] at hl
      simp only [List.mem_cons, List.not_mem_nil, or_false, Prod.mk.injEq] at h hi
      rcases h with ⟨_, rfl⟩ | ⟨_, rfl⟩ | ⟨_, rfl⟩
      · cases hf with
        | op h hf =>
          simp only [List.mem_singleton] at h
          subst h
          cases hf
          exact absurd rfl hi
      · cases hf with
        | op h hf => simp at h
      · cases hf with
        | op h hf =>
          simp only [List.mem_singleton] at h
          subst h
          cases hf with
          | struct h hf hl2 =>
            simp only [labels, List.filterMap_cons, List.filterMap_nil, List.mem_cons,
              List.not_mem_nil, or_false, not_or] at hl2
            simp only [List.mem_cons, List.not_mem_nil, or_false, Prod.mk.injEq] at h
            rcases h with ⟨_, rfl⟩ | ⟨_, rfl⟩
            · cases hf with
              | op h hf => simp at h
            · refine ⟨free_embed.1 hf, ?_⟩
              simp only [given, List.mem_cons, List.not_mem_nil, or_false, not_or]
              exact ⟨hi, hl.1, hl.2, hl2.1, hl2.2⟩
  · rintro ⟨hf, hg⟩
    simp only [given, List.mem_cons, List.not_mem_nil, or_false, not_or] at hg
    refine ⟨.struct (l := some "schemas".toList) (v := .op "[]".toList [.struct
         [(some "version".toList, .op "[0, 0]".toList []),
          (some "schema".toList, .struct [(none, toExpr sch)])]]) (by simp) (.op List.mem_cons_self
        (.struct (l := some "schema".toList) (v := .struct [(none, toExpr sch)])
          (List.mem_cons_of_mem _ List.mem_cons_self)
          (free_embed.2 hf) ?_)) ?_, ?_⟩
    · simp [labels]; exact ⟨hg.2.2.2.1, hg.2.2.2.2⟩
    · simp [labels]; exact ⟨hg.2.1, hg.2.2.1⟩
    · simpa using hg.1

/-- If the schema needs no imports, every name in the new lineage has a meaning. -/
theorem C150_complete_partial {sch : Syntax} (h : Complete sch)
    (hi : ∀ ds, sch = .file ds → imported ds = []) (name pkg n : Str) :
    ¬ Dangling (newLineage sch name pkg) n := by
  rw [dangling_newLineage]
  rintro ⟨hf, -⟩
  cases sch with
  | expr e => exact h n hf
  | file ds => exact h n ⟨(free_toExpr ds).1 hf, by rw [hi ds rfl]; simp⟩

/-- But a package that the schema imports and uses is not imported by the lineage: every name that the
declarations of the schema use from outside is without a meaning there, so that the lineage cannot be
loaded. -/
theorem C150_imports_lost {ds : List Decl} {n : Str} (hu : Free n (.struct (elts ds)))
    (hn : n ∉ given) (name pkg : Str) :
    n ∉ imported (newLineage (.file ds) name pkg) ∧ Dangling (newLineage (.file ds) name pkg) n := by
  refine ⟨?_, dangling_newLineage.2 ⟨(free_toExpr ds).2 hu, hn⟩⟩
  rw [newLineage_imported]
  intro h
  exact hn (by simp only [given, List.mem_cons]; exact .inl (by simpa using h))

/-- A complete schema with imports gives a lineage without dangling names exactly if it uses none of
the imports (but for names that the lineage itself declares). -/
theorem C150_complete_iff {ds : List Decl} (h : Complete (.file ds)) (name pkg : Str) :
    (∀ n, ¬ Dangling (newLineage (.file ds) name pkg) n) ↔
      ∀ n ∈ imported ds, Free n (.struct (elts ds)) → n ∈ given := by
  constructor
  · intro hd n hn hf
    refine Decidable.byContradiction fun hg => ?_
    exact hd n (dangling_newLineage.2 ⟨(free_toExpr ds).2 hf, hg⟩)
  · intro hg n hd
    obtain ⟨hf, hng⟩ := dangling_newLineage.1 hd
    have hf' := (free_toExpr ds).1 hf
    by_cases hi : n ∈ imported ds
    · exact hng (hg n hi hf')
    · exact h n ⟨hf', hi⟩

/-- The schema 0.0 of the new lineage is the expression given, or consists of what the file given
declares. -/
theorem C150_schema (sch : Syntax) (name pkg : Str) :
    ∃ e, FirstSchema (newLineage sch name pkg) e ∧
      (∀ x, sch = .expr x → e = x) ∧
      (∀ ds, sch = .file ds → e = .struct (elts ds) ∨ elts ds = [(none, e)]) := by
  refine ⟨toExpr sch, .here (v := .op "[0, 0]".toList []) (l := "schema".toList)
    (k := "[]".toList) ?_ rfl rfl, ?_, ?_⟩
  · unfold newLineage
    simp
  · rintro x rfl; rfl
  · rintro ds rfl; exact toExpr_file ds

/-- A schema `import "strings"` with a field `title: strings.MinRunes(1)`, as converted from a JSON
Schema with `minLength`. -/
def minRunes : List Decl :=
  [.imports ["strings".toList],
   .elt (some "title".toList) (.op "()".toList [.op "MinRunes".toList [.ident "strings".toList],
     .op "1".toList []])]

theorem minRunes_free {n : Str} : Free n (.struct (elts minRunes)) ↔ n = "strings".toList := by
  constructor
  · intro h
    cases h with
    | struct h hf hl =>
      simp only [elts, minRunes, List.mem_singleton, Prod.mk.injEq] at h
      obtain ⟨_, rfl⟩ := h
      cases hf with
      | op h hf =>
        simp only [List.mem_cons, List.not_mem_nil, or_false] at h
        rcases h with rfl | rfl
        · cases hf with
          | op h hf =>
            simp only [List.mem_singleton] at h
            subst h
            cases hf
            rfl
        · cases hf with
          | op h hf => simp at h
  · rintro rfl
    exact .struct (l := some "title".toList) (v := .op "()".toList
      [.op "MinRunes".toList [.ident "strings".toList], .op "1".toList []]) List.mem_cons_self
      (.op (List.mem_cons_self) (.op List.mem_cons_self .ident)) (by simp [labels, elts, minRunes])

/-- It is complete, and the lineage made from it is not. -/
theorem C150_witness : Complete (.file minRunes) ∧
    ∀ name pkg, Dangling (newLineage (.file minRunes) name pkg) "strings".toList := by
  refine ⟨fun n hn => hn.2 ?_, fun name pkg =>
    (C150_imports_lost (minRunes_free.2 rfl) (by decide) _ _).2⟩
  rw [minRunes_free.1 hn.1]
  simp [imported, minRunes]

/-- A complete schema without imports. -/
example : Complete (.expr (.struct [(some "title".toList, .ident "kind".toList),
    (some "kind".toList, .op "string".toList [])])) := by
  intro n h
  cases h with
  | struct h hf hl =>
    simp only [List.mem_cons, List.not_mem_nil, or_false, Prod.mk.injEq] at h
    rcases h with ⟨_, rfl⟩ | ⟨_, rfl⟩
    · cases hf
      exact hl (by decide)
    · cases hf with
      | op h hf => simp at h

end Thema.Props
