import Verif.Lemmas.GoJsonSeen
import Verif.Props.GoJson

/-!
# Go types of schemas that are composed with `allOf` (C119)
-/

namespace Thema.Props

open GoTypes OGen GoJson

variable {U : Uni} {S : Std} {ds : List Decl} {comps : List (Str × OS)}

/-- **C119** (where it holds).  Of the properties of a schema and of the schemas that it refers to
with `allOf`, the generated type writes only those that count, and always those of them that are
required or nullable.  That the values are kept is `C111_roundtrip_partial`. -/
theorem C119_written_partial (L : UniLaws U) {replace : Str → Str} (ht : TameAll U comps)
    (h : goTypes U replace false comps = .ok ds) {n : Str} {typed : Bool} {allOf : List Str}
    {ps : OPs} {ms : JMs} {j : J} (hm : (n, OS.obj typed allOf ps .no .nil) ∈ comps)
    (hps : HasFields allOf ps) (hb : Becomes U S ds (.ident (typeName U n)) (.obj ms) j) :
    ∃ out, j = .obj out ∧
      (∀ k ∈ out.keys, ∃ v, Counts comps (.obj typed allOf ps .no .nil) k v) ∧
      ∀ k r nl s, Counts comps (.obj typed allOf ps .no .nil) k (r, nl, s) →
        (r || nl) = true → k ∈ out.keys :=
  struct_writes L ht h hm hps hb

/-- Properties of one part that nothing else has count. -/
theorem C119_counts {typed : Bool} {allOf : List Str} {ps : OPs} {p : List Str} {k : Str}
    {v : Bool × Bool × OS} (h : At comps (.obj typed allOf ps .no .nil) p k v)
    (hu : ∀ m ∈ p, '_' ∉ m)
    (hq : ∀ q w, At comps (.obj typed allOf ps .no .nil) q k w → q = p) :
    Counts comps (.obj typed allOf ps .no .nil) k v :=
  ⟨p, h, hu, fun q w hat _ => .inr (by rw [hq q w hat]; exact ⟨rfl, rfl⟩)⟩

/-! ### An example -/

/-- Two schemas with a property each, and one with the properties of both and a size. -/
def twoComps (a k b l : Str) : List (Str × OS) :=
  [(a, .obj true [] (.cons k true false (.prim .string [] []) .nil) .no .nil),
   (b, .obj true [] (.cons l false false (.prim .string [] []) .nil) .no .nil),
   ("Thing".toList, .obj true [a, b]
     (.cons "size".toList true false (.prim .boolean [] []) .nil) .no .nil)]

theorem twoComps_tame {a k b l : Str} (ha : Cased ascii a) (hb : Cased ascii b)
    (hk : TagName ascii k) (hl : TagName ascii l) (gk : GoodName ascii k) (gl : GoodName ascii l)
    (hn : [typeName ascii a, typeName ascii b, "Thing".toList].Nodup)
    (hs : "size".toList ∉ [a, b]) : TameAll ascii (twoComps a k b l) := by
  have hne : a ≠ b := fun e => by simp [e] at hn
  have hta : a ≠ "Thing".toList := fun e => by
    subst e
    have : typeName ascii "Thing".toList = "Thing".toList := by decide
    rw [this] at hn
    simp at hn
  have htb : b ≠ "Thing".toList := fun e => by
    subst e
    have : typeName ascii "Thing".toList = "Thing".toList := by decide
    rw [this] at hn
    simp at hn
  refine ⟨?_, hn, ?_, fun n => if n = "Thing".toList then 1 else 0, ?_⟩
  · intro n s h
    simp only [twoComps, List.mem_cons, List.not_mem_nil, or_false, Prod.mk.injEq] at h
    rcases h with ⟨rfl, _⟩ | ⟨rfl, _⟩ | ⟨rfl, _⟩
    · exact ha
    · exact hb
    · exact ⟨⟨'T', "hing".toList, rfl, .inl (by decide)⟩, by decide⟩
  · intro n s h
    simp only [twoComps, List.mem_cons, List.not_mem_nil, or_false, Prod.mk.injEq] at h
    rcases h with ⟨_, rfl⟩ | ⟨_, rfl⟩ | ⟨_, rfl⟩
    · simp only [Tame, TameA, TamePs]
      exact ⟨parts_nil, trivial, trivial, ⟨hk, gk, by decide, trivial⟩, .inr ⟨.inl (by simp), trivial⟩,
        by simp [propNames], by simp [propNames]⟩
    · simp only [Tame, TameA, TamePs]
      exact ⟨parts_nil, trivial, trivial, ⟨hl, gl, by decide, trivial⟩, .inr ⟨.inl (by simp), trivial⟩,
        by simp [propNames], by simp [propNames]⟩
    · simp only [Tame, TameA, TamePs, TagName]
      refine ⟨⟨by simpa using hne, ?_⟩, trivial, trivial,
        ⟨by decide, (exported_iff ascii_laws _).1 ⟨'S', "ize".toList, by decide, by decide⟩,
          trivial, trivial⟩, .inr ⟨.inl (by simp), trivial⟩, by decide, by decide⟩
      intro m hm
      refine ⟨fun hc => hs ?_, ?_⟩
      · simp only [propNames, List.mem_cons, List.not_mem_nil, or_false] at hc
        rwa [← hc]
      · simp only [List.mem_cons, List.not_mem_nil, or_false] at hm
        rcases hm with rfl | rfl
        · refine ⟨.obj true [] (.cons k true false (.prim .string [] []) .nil) .no .nil, ?_, ?_⟩
          · rw [twoComps, List.lookup_cons, beq_self_eq_true]
          · simp [IsStruct, HasFields]
        · refine ⟨.obj true [] (.cons l false false (.prim .string [] []) .nil) .no .nil, ?_, ?_⟩
          · rw [twoComps, List.lookup_cons]
            rw [show (m == a) = false from by simpa using Ne.symm hne]
            simp
          · simp [IsStruct, HasFields]
  · intro n typed allOf ps x es h m hm
    simp only [twoComps, List.mem_cons, List.not_mem_nil, or_false, Prod.mk.injEq] at h
    rcases h with ⟨_, h⟩ | ⟨_, h⟩ | ⟨rfl, h⟩
    · injection h with _ h; subst h; cases hm
    · injection h with _ h; subst h; cases hm
    · injection h with _ h
      subst h
      simp only [List.mem_cons, List.not_mem_nil, or_false] at hm
      rcases hm with rfl | rfl
      · dsimp only; rw [if_neg hta, if_pos rfl]; exact Nat.zero_lt_one
      · dsimp only; rw [if_neg htb, if_pos rfl]; exact Nat.zero_lt_one

/-- A thing has the properties of `Base` and `Named`, and a size. -/
abbrev partComps : List (Str × OS) :=
  twoComps "Base".toList "id".toList "Named".toList "name".toList

/-- The schema of a thing. -/
def thing : OS := .obj true ["Base".toList, "Named".toList]
  (.cons "size".toList true false (.prim .boolean [] []) .nil) .no .nil

theorem partComps_tame : TameAll ascii partComps :=
  twoComps_tame ⟨⟨'B', "ase".toList, rfl, .inl (by decide)⟩, by decide⟩
    ⟨⟨'N', "amed".toList, rfl, .inl (by decide)⟩, by decide⟩ (by simp only [TagName]; decide)
    (by simp only [TagName]; decide)
    ((exported_iff ascii_laws _).1 ⟨'I', "d".toList, by decide, by decide⟩)
    ((exported_iff ascii_laws _).1 ⟨'N', "ame".toList, by decide, by decide⟩) (by decide) (by decide)

/-- The properties of a thing. -/
theorem thing_at {p : List Str} {k : Str} {v : Bool × Bool × OS} :
    At partComps thing p k v ↔
      (p, k, v) = (["Base".toList], "id".toList, true, false, .prim .string [] []) ∨
      (p, k, v) = (["Named".toList], "name".toList, false, false, .prim .string [] []) ∨
      (p, k, v) = ([], "size".toList, true, false, .prim .boolean [] []) := by
  constructor
  · intro h
    unfold thing at h
    cases h with
    | own h =>
      simp only [findProp] at h
      split at h
      · rename_i e; subst e; injection h with h; subst h; exact .inr (.inr rfl)
      · cases h
    | part hm hs h =>
      simp only [List.mem_cons, List.not_mem_nil, or_false] at hm
      rcases hm with rfl | rfl
      · injection hs with hs
        subst hs
        cases h with
        | own h =>
          simp only [findProp] at h
          split at h
          · rename_i e; subst e; injection h with h; subst h; exact .inl rfl
          · cases h
        | part hm _ _ => cases hm
      · injection hs with hs
        subst hs
        cases h with
        | own h =>
          simp only [findProp] at h
          split at h
          · rename_i e; subst e; injection h with h; subst h; exact .inr (.inl rfl)
          · cases h
        | part hm _ _ => cases hm
  · rintro (h | h | h)
    · simp only [Prod.mk.injEq] at h
      obtain ⟨rfl, rfl, rfl, rfl, rfl⟩ := h
      exact .part (List.mem_cons_self ..) rfl (.own rfl)
    · simp only [Prod.mk.injEq] at h
      obtain ⟨rfl, rfl, rfl, rfl, rfl⟩ := h
      exact .part (List.mem_cons_of_mem _ (List.mem_cons_self ..)) rfl (.own rfl)
    · simp only [Prod.mk.injEq] at h
      obtain ⟨rfl, rfl, rfl, rfl, rfl⟩ := h
      exact .own rfl

/-- All properties of a thing are in one place. -/
theorem thing_once {p q : List Str} {k : Str} {v w : Bool × Bool × OS}
    (h : At partComps thing p k v) (h' : At partComps thing q k w) : p = q ∧ v = w := by
  rcases thing_at.1 h with h | h | h <;> rcases thing_at.1 h' with h' | h' | h' <;>
    simp only [Prod.mk.injEq] at h h' <;> obtain ⟨rfl, rfl, rfl, rfl, rfl⟩ := h <;>
    obtain ⟨rfl, e, rfl, rfl, rfl⟩ := h' <;>
    first
      | exact ⟨rfl, rfl⟩
      | exact absurd e (by decide)

theorem thing_counts {p : List Str} {k : Str} {v : Bool × Bool × OS}
    (h : At partComps thing p k v) : Counts partComps thing k v := by
  refine C119_counts h ?_ fun q w hq => (thing_once hq h).1
  rcases thing_at.1 h with h | h | h <;> simp only [Prod.mk.injEq] at h <;> obtain ⟨rfl, _⟩ := h <;>
    decide

/-- A thing. -/
def thingData : J :=
  .obj (.cons "id".toList (.str "a".toList) (.cons "size".toList (.bool true)
    (.cons "name".toList (.str "b".toList) .nil)))

example : Valid std true partComps (.ref "Thing".toList) thingData := by
  refine .ref rfl (.all (by simp) ?_ (fun p q k v w h h' => (thing_once h h').2)
    (fun _ p k v h => ⟨v, thing_counts h⟩) (by decide) ?_ ?_)
  · have obj : ∀ {typed props}, Objects partComps (.obj typed [] props .no .nil) :=
      .intro (fun m hm => by cases hm) (fun m s hm => by cases hm)
    refine .intro (by decide) fun m s hm hs => ?_
    simp only [List.mem_cons, List.not_mem_nil, or_false] at hm
    rcases hm with rfl | rfl
    · injection hs with hs; subst hs; exact obj
    · injection hs with hs; subst hs; exact obj
  · intro p k r nl s h _
    rcases thing_at.1 h with h | h | h <;> simp only [Prod.mk.injEq] at h <;>
      obtain ⟨_, rfl, _⟩ := h <;> decide
  · refine .prop (thing_at.2 (.inl rfl)) (by simp) (.str (.inl rfl)) ?_
    refine .prop (thing_at.2 (.inr (.inr rfl))) (by simp) .bool ?_
    exact .prop (thing_at.2 (.inr (.inl rfl))) (fun _ _ _ => trivial) (.str (.inl rfl)) .nil

/-! ### Where it does not hold -/

/-- **C119** refuted, generally: a property that two of the schemas have that are referred to,
but not the schema itself, is lost. -/
theorem C119_twice_lost (L : UniLaws U) {replace : Str → Str} (ht : TameAll U comps)
    (h : goTypes U replace false comps = .ok ds) {n m m' k : Str} {typed : Bool} {allOf : List Str}
    {ps : OPs} {s s' : OS} {v v' : Bool × Bool × OS} {ms : JMs} {j : J}
    (hn : (n, OS.obj typed allOf ps .no .nil) ∈ comps) (hps : HasFields allOf ps)
    (hk : findProp k ps = none) (hm : m ∈ allOf) (hm' : m' ∈ allOf) (hne : m ≠ m')
    (hu : '_' ∉ m) (hu' : '_' ∉ m') (hs : comps.lookup m = some s)
    (hs' : comps.lookup m' = some s') (hv : At comps s [] k v) (hv' : At comps s' [] k v')
    (hb : Becomes U S ds (.ident (typeName U n)) (.obj ms) j) :
    ∃ out, j = .obj out ∧ k ∉ out.keys := by
  obtain ⟨out, rfl, h1, _⟩ := struct_writes L ht h hn hps hb
  refine ⟨out, rfl, fun hc => ?_⟩
  obtain ⟨w, p, hp, _, hmin⟩ := h1 k hc
  have e1 := hmin [m] v (.part hm hs hv) (by simpa using hu)
  have e2 := hmin [m'] v' (.part hm' hs' hv') (by simpa using hu')
  cases hp with
  | own hp => rw [hk] at hp; cases hp
  | part _ _ _ =>
    simp only [List.length_cons, List.length_nil] at e1 e2
    have e1 := (e1.resolve_left (by omega)).2
    have e2 := (e2.resolve_left (by omega)).2
    rw [← e2] at e1
    simp at e1
    exact hne e1

/-- **C119** refuted, generally: properties that are only in schemas with an underscore in their
name are lost. -/
theorem C119_underscore_lost (L : UniLaws U) {replace : Str → Str} (ht : TameAll U comps)
    (h : goTypes U replace false comps = .ok ds) {n k : Str} {typed : Bool} {allOf : List Str}
    {ps : OPs} {ms : JMs} {j : J}
    (hn : (n, OS.obj typed allOf ps .no .nil) ∈ comps) (hps : HasFields allOf ps)
    (hk : ∀ p v, At comps (.obj typed allOf ps .no .nil) p k v → ∃ m ∈ p, '_' ∈ m)
    (hb : Becomes U S ds (.ident (typeName U n)) (.obj ms) j) :
    ∃ out, j = .obj out ∧ k ∉ out.keys := by
  obtain ⟨out, rfl, h1, _⟩ := struct_writes L ht h hn hps hb
  refine ⟨out, rfl, fun hc => ?_⟩
  obtain ⟨w, p, hp, hu, _⟩ := h1 k hc
  obtain ⟨m, h1, h2⟩ := hk p w hp
  exact hu m h1 h2

/-- `id` is lost if both schemas have it. -/
example : let comps := twoComps "Base".toList "id".toList "Named".toList "id".toList
    TameAll ascii comps ∧ ∃ ds, goTypes ascii id false comps = .ok ds ∧
      Becomes ascii std ds (.ident "Thing".toList)
        (.obj (.cons "id".toList (.str "a".toList) (.cons "size".toList (.bool true) .nil)))
        (.obj (.cons "size".toList (.bool true) .nil)) := by
  refine ⟨?_, _, rfl, becomes 9 (.struct (.cons (keyFld "Size" "size" false) (.bool true) .nil))
    ?_ ?_⟩
  · exact twoComps_tame ⟨⟨'B', "ase".toList, rfl, .inl (by decide)⟩, by decide⟩
      ⟨⟨'N', "amed".toList, rfl, .inl (by decide)⟩, by decide⟩ (by simp only [TagName]; decide)
      (by simp only [TagName]; decide)
      ((exported_iff ascii_laws _).1 ⟨'I', "d".toList, by decide, by decide⟩)
      ((exported_iff ascii_laws _).1 ⟨'I', "d".toList, by decide, by decide⟩) (by decide)
      (by decide)
  · rfl
  · decide +kernel

/-- `id` is lost if it is in `Base_1`. -/
example : let comps := twoComps "Base_1".toList "id".toList "Named".toList "name".toList
    TameAll ascii comps ∧ ∃ ds, goTypes ascii id false comps = .ok ds ∧
      Becomes ascii std ds (.ident "Thing".toList)
        (.obj (.cons "id".toList (.str "a".toList) (.cons "size".toList (.bool true) .nil)))
        (.obj (.cons "size".toList (.bool true) .nil)) := by
  refine ⟨?_, _, rfl, becomes 9 (.struct (.cons (keyFld "Name" "name" true) .nil
    (.cons (keyFld "Size" "size" false) (.bool true) .nil))) ?_ ?_⟩
  · exact twoComps_tame ⟨⟨'B', "ase_1".toList, rfl, .inl (by decide)⟩, by decide⟩
      ⟨⟨'N', "amed".toList, rfl, .inl (by decide)⟩, by decide⟩ (by simp only [TagName]; decide)
      (by simp only [TagName]; decide)
      ((exported_iff ascii_laws _).1 ⟨'I', "d".toList, by decide, by decide⟩)
      ((exported_iff ascii_laws _).1 ⟨'N', "ame".toList, by decide, by decide⟩) (by decide)
      (by decide)
  · rfl
  · decide +kernel

/-- A schema without properties of its own has those of its parts. -/
example : ∃ ds, goTypes ascii id false (partComps ++
      [("Whole".toList, .obj true ["Base".toList, "Named".toList] .nil .no .nil)]) = .ok ds ∧
    RoundTrip ascii std ds (.ident "Whole".toList)
      (.obj (.cons "id".toList (.str "a".toList) (.cons "name".toList (.str "b".toList) .nil))) := by
  refine ⟨_, rfl, becomes 9 (.struct (.cons (keyFld "Id" "id" false) (.str "a".toList)
    (.cons (keyFld "Name" "name" true) (.ptr (.str "b".toList)) .nil))) ?_ ?_⟩
  · rfl
  · decide +kernel

/-- **C119** refuted (witness): of a schema that refers to a schema of maps, the members of the
map are lost, and the type writes one that is not there. -/
theorem C119_map_lost : ∃ ds, goTypes ascii id false
    [("foo".toList, .obj true ["tags".toList]
      (.cons "bar".toList true false (.prim .string [] []) .nil) .no .nil),
     ("tags".toList, .obj true [] .nil (.of (.prim .string [] [])) .nil)] = .ok ds ∧
    Becomes ascii std ds (.ident "Foo".toList)
      (.obj (.cons "bar".toList (.str "x".toList) (.cons "baz".toList (.str "y".toList) .nil)))
      (.obj (.cons "bar".toList (.str "x".toList) (.cons "Tags".toList .null .nil))) := by
  refine ⟨_, rfl, becomes 9 (.struct (.cons (keyFld "Bar" "bar" false) (.str "x".toList)
    (.cons ⟨"Tags".toList, .none⟩ .nil .nil))) ?_ ?_⟩
  · rfl
  · decide +kernel

/-- **C119** refuted (witness): an optional property with the name of a schema that is referred to is
lost. -/
theorem C119_name_lost : ∃ ds, goTypes ascii id false
    [("base".toList, .obj true []
      (.cons "id".toList true false (.prim .string [] []) .nil) .no .nil),
     ("foo".toList, .obj true ["base".toList]
      (.cons "base".toList false false (.prim .string [] []) .nil) .no .nil)] = .ok ds ∧
    Becomes ascii std ds (.ident "Foo".toList)
      (.obj (.cons "base".toList (.str "x".toList) (.cons "id".toList (.str "y".toList) .nil)))
      (.obj (.cons "id".toList (.str "y".toList) .nil)) := by
  refine ⟨_, rfl, becomes 9 (.struct (.cons (keyFld "Id" "id" false) (.str "y".toList) .nil)) ?_ ?_⟩
  · rfl
  · decide +kernel

end Thema.Props
