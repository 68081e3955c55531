import Verif.Lemmas.OGenPipe

/-!
# Generated Go files are closed (C110)
-/

namespace Thema.Props

open GoTypes OGen GoJson

variable {U : Uni}

/-- **C110** (where it holds).  The file that is generated for schemas that have good names, no
alternatives, with `allOf` only references to structs, not properties together with additional
properties, and no enumerations below properties of additional properties declares one type for
every schema, and every type that it uses. -/
theorem C110_closed_partial (L : UniLaws U) {replace : Str → Str} {noPtr : Bool}
    {comps : List (Str × OS)} {ds : List Decl} (ht : TameAll U comps)
    (h : goTypes U replace noPtr comps = .ok ds) :
    (∀ n, ¬ UndefinedType basicTypes ds n) ∧ (declared ds).Nodup ∧
      ∀ n s, (n, s) ∈ comps → typeName U n ∈ declared ds := by
  obtain ⟨ts, ts', hts, hts', rfl⟩ := goTypes_tame L ht h
  have dd := dedupe_spec hts'
  have key : ∀ t ∈ ts, t.name ∈ declared (.consts [] ::
      (((firstTDs [] ts).filter (fun t => !t.enum.isEmpty)).map (fun t => Decl.consts [t.name])
        ++ ts'.map (fun t => Decl.typ t.doc t.name (dep noPtr t.decl)))) := by
    intro t htm
    obtain ⟨p, hp, hpn, _⟩ := dd.2.1 t htm
    rw [List.nil_append] at hp
    rw [← hpn, declared, List.mem_filterMap]
    exact ⟨_, List.mem_cons_of_mem _ (List.mem_append_right _ (List.mem_map_of_mem hp)), rfl⟩
  have hfirst : ∀ (l : List TD) (seen : List Str), ∀ t ∈ firstTDs seen l, t ∈ l := by
    intro l
    induction l with
    | nil => intro seen t h; cases h
    | cons a l ih =>
      intro seen t h
      rw [firstTDs] at h
      split at h
      · exact List.mem_cons_of_mem _ (ih _ t h)
      · rcases List.mem_cons.1 h with rfl | h
        · exact List.mem_cons_self ..
        · exact List.mem_cons_of_mem _ (ih _ t h)
  have hdecl : declared (.consts [] ::
      (((firstTDs [] ts).filter (fun t => !t.enum.isEmpty)).map (fun t => Decl.consts [t.name])
        ++ ts'.map (fun t => Decl.typ t.doc t.name (dep noPtr t.decl)))) = ts'.map (·.name) := by
    have h1 : ∀ l : List TD, declared (l.map (fun t => Decl.consts [t.name])) = [] := by
      intro l
      induction l with
      | nil => rfl
      | cons a l ih => exact ih
    have h2 : ∀ l : List TD, declared (l.map (fun t => Decl.typ t.doc t.name (dep noPtr t.decl))) =
        l.map (·.name) := by
      intro l
      induction l with
      | nil => rfl
      | cons a l ih => exact congrArg (a.name :: ·) ih
    show declared (_ ++ _) = _
    rw [declared, List.filterMap_append]
    have e1 := h1 ((firstTDs [] ts).filter (fun t => !t.enum.isEmpty))
    have e2 := h2 ts'
    rw [declared] at e1 e2
    rw [e1, e2]
    rfl
  refine ⟨?_, ?_, ?_⟩
  rotate_left
  · rw [hdecl]; exact dd.2.2.1
  · intro n s hm
    obtain ⟨g, _, hg, _⟩ := (typesFor_spec hts).2 n s hm
    exact key _ hg
  rintro n ⟨⟨d, hd, hn⟩, hu, hb⟩
  rcases List.mem_cons.1 hd with rfl | hd
  · cases hn
  rcases List.mem_append.1 hd with hd | hd
  · obtain ⟨t, ht', rfl⟩ := List.mem_map.1 hd
    rcases List.mem_cons.1 hn with rfl | hn
    · exact hu (key t (hfirst _ _ t (List.mem_filter.1 ht').1))
    · cases hn
  · obtain ⟨t, ht', rfl⟩ := List.mem_map.1 hd
    have hn : n ∈ refs (dep noPtr t.decl) := hn
    rw [refs_dep] at hn
    rcases (td_ok L ht hts (dd.1.subset ht')).2.2.2.2.2 n hn with h | ⟨u, hu', rfl⟩
    · exact hb h
    · exact hu (key u hu')

/-- A component with a struct, an enumeration, a map and references, also to itself. -/
def closedComps : List (Str × OS) :=
  [("Foo".toList, .obj true []
     (.cons "bar".toList true false (.prim .string [] ["a".toList, "b".toList])
     (.cons "foos".toList false false (.obj true [] .nil (.of (.ref "Foo".toList)) .nil)
     (.cons "ints".toList false true (.arr (.prim .integer "int32".toList [])) .nil))) .no .nil)]

theorem closedComps_tame : TameAll ascii closedComps := by
  refine ⟨?_, by decide, ?_, fun _ => 0, ?_⟩
  · intro n s h
    rcases List.mem_cons.1 h with h | h
    · injection h with h1 h2
      subst h1
      exact ⟨⟨'F', "oo".toList, rfl, .inl (by decide)⟩, by decide⟩
    · cases h
  · intro n s h
    rcases List.mem_cons.1 h with h | h
    · injection h with h1 h2
      subst h2
      have g : ∀ s : Str, (∃ c r, typeName ascii s = c :: r ∧ ascii.isUpper c = true) → GoodName ascii s :=
        fun s h => (exported_iff ascii_laws s).1 h
      simp only [Tame, TameA, TamePs, FlatEnum, TagName]
      refine ⟨parts_nil, trivial, trivial, ⟨by decide, g _ ⟨'B', "ar".toList, by decide, by decide⟩, by decide,
        by decide, g _ ⟨'F', "oos".toList, by decide, by decide⟩, ?_,
        by decide, g _ ⟨'I', "nts".toList, by decide, by decide⟩, by decide, trivial⟩, Or.inr ⟨.inl (by simp), trivial⟩,
        by decide, by decide⟩
      exact ⟨parts_nil, trivial, ⟨by decide, trivial⟩, trivial, .inl ⟨trivial, trivial⟩, by decide,
        by decide⟩
    · cases h
  · intro n typed allOf ps a es h m hm
    rcases List.mem_cons.1 h with h | h
    · injection h with _ h
      injection h with _ h
      subst h
      cases hm
    · cases h

example : TameAll ascii closedComps ∧ ∃ ds, goTypes ascii id false closedComps = .ok ds ∧
    "FooBar".toList ∈ declared ds :=
  ⟨closedComps_tame, _, rfl, by decide +kernel⟩

/-- **C110** refuted (witness): an enumeration below a property of the additional properties
of an object.  The definitions that come with the properties are dropped (`schema.go:355`). -/
theorem C110_nested_enum : ∃ ds, goTypes ascii id false
    [("foo".toList, .obj true [] .nil (.of (.obj true []
      (.cons "bar".toList true false (.prim .string [] ["a".toList]) .nil) .no .nil)) .nil)] = .ok ds ∧
    UndefinedType basicTypes ds "FooBar".toList :=
  ⟨_, rfl, ⟨_, List.mem_cons_of_mem _ (List.mem_cons_self ..), by decide +kernel⟩,
    by decide +kernel, by decide⟩

/-- **C110** refuted (witness): an enumeration below a property of an alternative, with an
object that has properties itself. -/
theorem C110_alternative_enum : ∃ ds, goTypes ascii id false
    [("foo".toList, .obj true [] (.cons "x".toList true false (.prim .string [] []) .nil) .no
      (.cons true (.obj true []
        (.cons "bar".toList true false (.prim .string [] ["a".toList]) .nil) .no .nil) .nil))] = .ok ds ∧
    UndefinedType basicTypes ds "FooBar".toList :=
  ⟨_, rfl, ⟨_, List.mem_cons_of_mem _ (List.mem_cons_of_mem _ (List.mem_cons_self ..)),
    by decide +kernel⟩, by decide +kernel, by decide⟩

/-- **C110** refuted (witness): maps with alternatives as values, in an array. -/
theorem C110_array_of_maps : ∃ ds, goTypes ascii id false
    [("foo".toList, .obj true [] (.cons "bar".toList true false (.arr (.obj true [] .nil
      (.of (.obj false [] .nil .no (.cons false (.prim .string [] []) .nil))) .nil)) .nil) .no .nil)]
      = .ok ds ∧
    UndefinedType basicTypes ds "Foo_Bar_AdditionalProperties".toList :=
  ⟨_, rfl, ⟨_, List.mem_cons_of_mem _ (List.mem_cons_self ..), by decide +kernel⟩,
    by decide +kernel, by decide⟩

/-- **C110** refuted (witness): the constants of an enumeration that is an alternative stay,
without their type. -/
theorem C110_constants_without_type : ∃ ds, goTypes ascii id false
    [("foo".toList, .obj true [] (.cons "bar".toList true false (.obj false [] .nil .no
      (.cons false (.prim .string [] ["a".toList]) (.cons false (.prim .integer [] []) .nil))) .nil)
      .no .nil)] = .ok ds ∧
    UndefinedType basicTypes ds "FooBar0".toList :=
  ⟨_, rfl, ⟨_, List.mem_cons_of_mem _ (List.mem_cons_self ..), by decide +kernel⟩,
    by decide +kernel, by decide⟩

/-- **C110** refuted, generally: of two definitions with the same Go name that are references,
the second one is dropped without an error, whatever they refer to. -/
theorem C110_reference_dropped {n m a b : Str} (he : typeName U n = typeName U m) :
    ∃ t, typesFor U [(n, .ref a), (m, .ref b)] = .ok t ∧ dedupe [] t =
      .ok [{ name := typeName U n, json := n, decl := .ident (typeName U a), src := none }] := by
  refine ⟨_, rfl, ?_⟩
  simp [dedupe, GSch.td, GSch.defs, GSch.typeDecl, he, Res.bind]

example : typeName ascii "foo".toList = typeName ascii "Foo".toList := by decide

/-- **C110** refuted (witness): the whole file for such definitions; data of `Foo` is a boolean,
but its type is a string. -/
theorem C110_reference_dropped_file : ∃ ds, goTypes ascii id false
    [("foo".toList, .ref "a".toList), ("Foo".toList, .ref "b".toList),
     ("a".toList, .prim .string [] []), ("b".toList, .prim .boolean [] [])] = .ok ds ∧
    declType ds "Foo".toList = some (.ident "A".toList) ∧
    declType ds "A".toList = some (.ident "string".toList) :=
  ⟨_, rfl, by decide +kernel, by decide +kernel⟩

end Thema.Props
