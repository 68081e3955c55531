import Verif.Props.GoGen
import Verif.Props.TsGen

/-!
# Configurations of code generators, exactly (C186, C187)
-/

namespace Thema.Props

open GoGen TsGen

/-- The first name that is not empty. -/
def firstName : List Str → Str
  | [] => []
  | [] :: rest => firstName rest
  | n :: _ => n

theorem firstName_nil (l : List Str) : firstName ([] :: l) = firstName l := rfl

theorem firstName_cons {n : Str} (h : n ≠ []) (l : List Str) : firstName (n :: l) = n := by
  cases n with
  | nil => exact absurd rfl h
  | cons c n => rfl

theorem firstName_mem : ∀ {l : List Str}, firstName l ≠ [] → firstName l ∈ l
  | [], h => absurd rfl h
  | [] :: l, h => List.mem_cons_of_mem _ (firstName_mem (l := l) h)
  | (_ :: _) :: _, _ => List.mem_cons_self ..

/-- **C186** (Go).  With one configuration for several lineages, the types of each are in the
configured package, or else in the package with the first name, not empty, of the lineages up to
this one. -/
theorem C186_packages : ∀ (names : List Str) (p : Str) (i : Nat), i < names.length →
    (typesPackages names ⟨p⟩)[i]? = some (firstName (p :: names.take (i + 1)))
  | [], _, _, h => by simp at h
  | n :: ns, p, i, h => by
    have hstep : typesPackage n ⟨p⟩ = (firstName [p, n], ⟨firstName [p, n]⟩) := by
      unfold typesPackage
      cases p with
      | nil => cases n <;> rfl
      | cons c p => rfl
    rw [typesPackages, hstep]
    cases i with
    | zero => rfl
    | succ i =>
      rw [List.getElem?_cons_succ, C186_packages ns _ i (by simpa using h), List.take_succ_cons]
      cases p with
      | nil => cases n <;> rfl
      | cons c p => rfl

/-- **C186** (Go).  Without a configured package, the types of all lineages are in the package with
their own lowercase name, as documented, exactly if all these are the name of the first lineage. -/
theorem C186_own_package_iff (S : Std) (n : Str) (ns : List Str) (hn : n ≠ []) :
    typesPackages (n :: ns) ⟨[]⟩ = (n :: ns).map S.lower ↔ ∀ m ∈ n :: ns, S.lower m = n := by
  rw [C92_types_reused hn, List.map_inj_left]
  exact ⟨fun h m hm => (h m hm).symm, fun h m hm => (h m hm).symm⟩

section

variable {V K N : Type} {X : Ext V K N}

/-- What matters of a configuration. -/
theorem generateTypes_congr {n : Str} {v : V} {c c' : Config K} (h1 : c.group = c'.group)
    (h2 : c.rootAsType = c'.rootAsType) (h3 : c.cuetsy.getD X.defaults = c'.cuetsy.getD X.defaults)
    (h4 : (complete X n c).rootName = (complete X n c').rootName) :
    (generateTypes X n v c).1 = (generateTypes X n v c').1 := by
  simp only [complete] at h4
  simp only [generateTypes, complete, Option.getD_some, h1, h2, h3, h4]
  rfl

/-- **C186** (TypeScript).  With one configuration for several lineages, the file of each is the one
documented for the configured name of the root, or else for the first title, not empty, of the
lineages up to this one; all other settings are as configured. -/
theorem C186_roots : ∀ (ls : List (Str × V)) (cfg : Config K) (i : Nat) (l : Str × V),
    ls[i]? = some l →
    ∃ out, (generateAll X ls cfg)[i]? = some out ∧
      Documented X l.1 l.2 { cfg with
        rootName := firstName (cfg.rootName :: (ls.take (i + 1)).map fun l => X.title l.1) } out := by
  have key : ∀ (ls : List (Str × V)) (cfg : Config K) (i : Nat) (l : Str × V), ls[i]? = some l →
      (generateAll X ls cfg)[i]? = some (generateTypes X l.1 l.2 { cfg with
        rootName := firstName (cfg.rootName :: (ls.take (i + 1)).map fun l => X.title l.1) }).1 := by
    intro ls
    induction ls with
    | nil => intro cfg i l h; simp at h
    | cons p ls ih =>
      intro cfg i l h
      obtain ⟨n, v⟩ := p
      have hstep : (complete X n cfg).rootName = firstName [cfg.rootName, X.title n] := by
        simp only [complete]
        cases hr : cfg.rootName with
        | nil => rw [if_pos rfl]; cases X.title n <;> rfl
        | cons c r => rfl
      rw [generateAll]
      cases i with
      | zero =>
        cases h
        simp only [List.getElem?_cons_zero, Option.some.injEq]
        refine generateTypes_congr rfl rfl rfl ?_
        simp only [complete, Nat.zero_add, List.take_succ_cons, List.take_zero, List.map_cons,
          List.map_nil]
        cases hr : cfg.rootName with
        | nil => cases ht : X.title n <;> rfl
        | cons c r => rfl
      | succ i =>
        rw [List.getElem?_cons_succ, ih _ i l (by simpa using h)]
        simp only [Option.some.injEq]
        have h5 : ∀ t, firstName ((complete X n cfg).rootName :: t) =
            firstName (cfg.rootName :: X.title n :: t) := by
          intro t
          rw [hstep]
          cases cfg.rootName with
          | nil => cases X.title n <;> rfl
          | cons c r => rfl
        refine generateTypes_congr rfl rfl (by simp [generateTypes, complete]) ?_
        simp only [generateTypes, List.take_succ_cons, List.map_cons]
        rw [h5]
        rfl
  intro ls cfg i l h
  exact ⟨_, key ls cfg i l h, C118_documented _ _ _⟩

end

/-! ## C187 -/

theorem identChars_of_append {S : Std} {p x : Str} (hp : p ≠ []) (h : IsIdent S (p ++ x)) :
    ∀ c ∈ x, IdentChar S c := by
  obtain ⟨a, r, h1, _, h3⟩ := h
  cases p with
  | nil => exact absurd rfl hp
  | cons b q =>
    rw [List.cons_append, List.cons.injEq] at h1
    exact fun c hc => h3 c (h1.2 ▸ List.mem_append_right _ hc)

/-- **C187**.  All names in generated bindings are Go identifiers exactly if all characters of the
name of the lineage, and of the suffix of the factory's name, may be in identifiers. -/
theorem C187_identifiers_iff {S : Std} (hS : Lawful S) (name : Str) (cfg : BindingConfig) :
    (∀ d ∈ (generateBinding S name cfg).decls, IsIdent S d.name ∧ ∀ n ∈ d.uses, IsIdent S n) ↔
      (∀ c ∈ name, IdentChar S c) ∧ ∀ c ∈ suffixAsked S name cfg, IdentChar S c := by
  refine ⟨fun h => ⟨?_, ?_⟩, fun h => C90_identifiers_partial hS name cfg h.1 h.2⟩
  · obtain ⟨d, hd, hu⟩ := (uses_cases (S := S) (name := name) (cfg := cfg) (loadFunc name)).2
      (.inr (.inl rfl))
    exact identChars_of_append (by decide) ((h d hd).2 _ hu)
  · obtain ⟨d, hd, hn⟩ := (declares_cases (S := S) (name := name) (cfg := cfg)
      (factoryName S name cfg)).2 (.inl rfl)
    have h1 := (h d hd).1
    rw [hn, factoryName, ← List.append_assoc] at h1
    exact identChars_of_append (by cases cfg.privateFactory <;> decide) h1

/-- **C187**.  The package clause is valid exactly if the configured package name is, or, without
one, the lowercase name of the lineage: an identifier that is neither a keyword nor `_`. -/
theorem C187_package_iff (S : Std) (name : Str) (cfg : BindingConfig) :
    PackageName S (generateBinding S name cfg).package ↔
      (cfg.packageName ≠ [] ∧ PackageName S cfg.packageName) ∨
      (cfg.packageName = [] ∧ IsIdent S (S.lower name) ∧ S.lower name ∉ keywords ∧
        S.lower name ≠ ['_']) := by
  rw [C92_bindings]
  by_cases h : cfg.packageName = []
  · simp [h, PackageName]
  · simp [h]

/-! ### Examples -/

example : (typesPackages ["ship".toList, "crew".toList, "fleet".toList] ⟨[]⟩)[2]? =
    some "ship".toList :=
  C186_packages _ [] 2 (by decide)

example : typesPackages ["ship".toList, "ship".toList] ⟨[]⟩ =
    ["ship".toList, "ship".toList].map ascii.lower :=
  (C186_own_package_iff ascii _ _ (by decide)).2 (by decide)

example : ∃ out, (generateAll toyTs [("ship".toList, "A".toList), ("crew".toList, "B".toList)] {})[1]?
      = some out ∧
    Documented toyTs "crew".toList "B".toList { rootName := "Ship".toList } out :=
  C186_roots _ _ 1 ("crew".toList, "B".toList) rfl

example : ¬ ∀ d ∈ (generateBinding ascii "my-kind".toList {}).decls,
    IsIdent ascii d.name ∧ ∀ n ∈ d.uses, IsIdent ascii n := by
  rw [C187_identifiers_iff ascii_lawful]
  rintro ⟨h, _⟩
  rcases h '-' (by decide) with h | h | h <;> revert h <;> decide

example : PackageName ascii (generateBinding ascii "type".toList
    { packageName := "typekind".toList }).package :=
  (C187_package_iff _ _ _).2 (.inl ⟨by decide, ⟨'t', "ypekind".toList, rfl, .inl (by decide),
    fun d hd => .inl (by
      have : ∀ d ∈ "ypekind".toList, ascii.isLetter d = true := by decide
      exact this d hd)⟩, by decide, by decide⟩)

end Thema.Props
