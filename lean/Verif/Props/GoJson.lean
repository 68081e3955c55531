import Verif.Lemmas.GoJsonLoss
import Verif.Props.OGenFile

/-!
# Data survives generated Go types (C111)
-/

namespace Thema.Props

open GoTypes OGen GoJson

variable {U : Uni} {S : Std} {ds : List Decl} {comps : List (Str × OS)}

/-- **C111** (where it holds).  Data that is valid for a schema, read into the generated Go type
and written again, is the same data.  This holds for schemas without alternatives, special
formats of strings and properties together with additional properties, with `allOf` only for
references to structs, all properties of which count, and for data without numbers that the Go
type cannot have, where no optional property is an empty array or map, and no nullable property
is absent. -/
theorem C111_roundtrip_partial (L : UniLaws U) {replace : Str → Str} (ht : TameAll U comps)
    (h : goTypes U replace false comps = .ok ds) {n : Str} {j : J}
    (hv : Valid S true comps (.ref n) j) : RoundTrip U S ds (.ident (typeName U n)) j := by
  have E := env_of L ht h
  have hl : (comps.lookup n).isSome = true := by
    cases hv with
    | ref h _ => simp [h]
  exact valid_rt E hv [] [] _ hl rfl fun td htd => by cases htd

/-- An evaluator for examples: numbers of type `float32` are rounded down to multiples of
`1/2^20`; `AQI=` is the base64 text of the bytes 1 and 2. -/
def std : Std where
  r32 := fun q => some ((q * 1048576).floor / 1048576)
  r64 := some
  b64 := fun _ => "AQI=".toList
  unb64 := fun _ => none
  fold := fun _ _ => false
  ext := fun _ _ j => some j
  extZero := fun _ _ => .null

/-- Data for `closedComps`. -/
def closedData : J :=
  .obj (.cons "bar".toList (.str "a".toList)
    (.cons "foos".toList (.obj (.cons "x".toList
      (.obj (.cons "bar".toList (.str "b".toList) (.cons "ints".toList .null .nil))) .nil))
    (.cons "ints".toList (.arr (.cons (.num 7) .nil)) .nil)))

example : Valid std true closedComps (.ref "Foo".toList) closedData := by
  have req : ∀ ms : JMs, "bar".toList ∈ ms.keys → "ints".toList ∈ ms.keys → ∀ n r nl s,
      findProp n (.cons "bar".toList true false (.prim .string [] ["a".toList, "b".toList])
        (.cons "foos".toList false false (.obj true [] .nil (.of (.ref "Foo".toList)) .nil)
        (.cons "ints".toList false true (.arr (.prim .integer "int32".toList [])) .nil))) =
        some (r, nl, s) → (r = true ∨ true = true ∧ nl = true) → n ∈ ms.keys := by
    intro ms h1 h2 n r nl s hf hr
    simp only [findProp] at hf
    split at hf
    · rename_i e; subst e; exact h1
    · split at hf
      · simp only [Option.some.injEq, Prod.mk.injEq] at hf
        obtain ⟨rfl, rfl, _⟩ := hf
        simp at hr
      · split at hf
        · rename_i e; subst e; exact h2
        · cases hf
  refine .ref rfl (.obj (.inl (by simp)) (by decide) (req _ (by decide) (by decide)) ?_ .none)
  refine .prop rfl (by simp) (.str (.inr (by decide))) ?_
  refine .prop (r := false) (nl := false) rfl (fun _ _ _ => trivial) ?_ ?_
  · refine .obj (.inr (by simp)) (by decide) (fun n r nl s h => by cases h) ?_ .none
    refine .addl rfl (.ref rfl ?_) .nil
    refine .obj (.inl (by simp)) (by decide) (req _ (by decide) (by decide)) ?_ .none
    refine .prop rfl (by simp) (.str (.inr (by decide))) (.null rfl .nil)
  · refine .prop (nl := true) rfl (by simp) (.arr (.cons (.int (by decide) ?_ ?_) .nil)) .nil
    · exact ⟨fun _ => by decide, fun h => absurd h (by decide)⟩
    · intro _; unfold InGo; rw [if_pos rfl]; decide

/-! ### Where it does not hold -/

/-- **C111** refuted, generally: an optional property that is an empty array is lost. -/
theorem C111_empty_array_lost (L : UniLaws U) {replace : Str → Str} (ht : TameAll U comps)
    (h : goTypes U replace false comps = .ok ds) {n k : Str} {typed : Bool} {ps : OPs} {s : OS}
    {ms : JMs} {j : J} (hm : (n, OS.obj typed [] ps .no .nil) ∈ comps)
    (hk : findProp k ps = some (false, false, .arr s)) (hn : ms.keys.Nodup)
    (hms : ∀ k ∈ ms.keys, k ∈ propNames ps) (hx : ms.get k = some (.arr .nil))
    (hb : Becomes U S ds (.ident (typeName U n)) (.obj ms) j) :
    ∃ out, j = .obj out ∧ k ∉ out.keys := by
  obtain ⟨gs, T, out, M, w, h1, _, rfl, rfl, _, h5, h6⟩ := prop_becomes L ht h hm hk hn hms hb
  refine ⟨out, rfl, ?_⟩
  rw [gen] at h1
  obtain ⟨a, ha, h1⟩ := bind_ok h1
  injection h1 with h1
  subst h1
  specialize h5 _ hx
  have hw : w.isEmpty = true := by
    simp only [genArr, GSch.typeDecl, Bool.not_false, Bool.or_false, if_true, depField] at h5
    simp only [dec, head, decs, Option.bind_some, Option.map_some, ptrs] at h5
    injection h5 with h5
    subst h5
    generalize isByte ds (M + 2) _ = b
    cases b <;> rfl
  rw [hw] at h6
  exact h6

/-- **C111** refuted, generally: an optional property that is an empty map is lost. -/
theorem C111_empty_map_lost (L : UniLaws U) {replace : Str → Str} (ht : TameAll U comps)
    (h : goTypes U replace false comps = .ok ds) {n k : Str} {typed typed' : Bool} {ps : OPs}
    {a : OAs} {ms : JMs} {j : J} (hm : (n, OS.obj typed [] ps .no .nil) ∈ comps)
    (hk : findProp k ps = some (false, false, .obj typed' [] .nil a .nil))
    (ha : typed' = true ∨ a ≠ .no) (hn : ms.keys.Nodup)
    (hms : ∀ k ∈ ms.keys, k ∈ propNames ps) (hx : ms.get k = some (.obj .nil))
    (hb : Becomes U S ds (.ident (typeName U n)) (.obj ms) j) :
    ∃ out, j = .obj out ∧ k ∉ out.keys := by
  obtain ⟨gs, T, out, M, w, h1, _, rfl, rfl, _, h5, h6⟩ := prop_becomes L ht h hm hk hn hms hb
  refine ⟨out, rfl, ?_⟩
  have hgs : ∃ e, gs.typeDecl = .map (id' "string") e := by
    rw [gen] at h1
    dsimp only at h1
    split at h1
    · rename_i hc
      injection h1 with h1
      subst h1
      have : typed' = true := ha.resolve_right fun hne => hne hc.2.1
      exact ⟨id' "any", by simp [GSch.typeDecl, this]⟩
    · obtain ⟨ga, hga, h1⟩ := bind_ok h1
      rw [if_pos (by simp)] at h1
      injection h1 with h1
      subst h1
      exact ⟨_, rfl⟩
  obtain ⟨e, he⟩ := hgs
  specialize h5 _ hx
  have hw : w.isEmpty = true := by
    simp only [he, Bool.not_false, Bool.or_false, if_true, depField] at h5
    simp only [dec, head, decMs, Option.bind_some, Option.map_some, ptrs] at h5
    injection h5 with h5
    subst h5
    rfl
  rw [hw] at h6
  exact h6

/-- **C111** refuted, generally: a nullable property that is absent is written as `null`. -/
theorem C111_absent_becomes_null (L : UniLaws U) {replace : Str → Str} (ht : TameAll U comps)
    (h : goTypes U replace false comps = .ok ds) {n k : Str} {typed r : Bool} {ps : OPs} {s : OS}
    {ms : JMs} {j : J} (hm : (n, OS.obj typed [] ps .no .nil) ∈ comps)
    (hk : findProp k ps = some (r, true, s)) (hn : ms.keys.Nodup)
    (hms : ∀ k ∈ ms.keys, k ∈ propNames ps) (hx : k ∉ ms.keys)
    (hb : Becomes U S ds (.ident (typeName U n)) (.obj ms) j) :
    ∃ out, j = .obj out ∧ out.get k = some .null := by
  obtain ⟨gs, T, out, M, w, h1, _, hT, rfl, h4, _, h6⟩ := prop_becomes L ht h hm hk hn hms hb
  refine ⟨out, rfl, ?_⟩
  have h4 := h4 (get_none_iff.2 hx)
  have hz := zero_opt (U := U) (S := S) (ds := ds) (r := r) (nl := true) (gen_noStar h1) (by simp) (M + 2)
  rw [fieldT, ← hT] at hz
  rw [hz] at h4
  subst h4
  rw [if_neg (by simp)] at h6
  obtain ⟨y, hy, hj⟩ := h6
  cases y <;> simp [enc, jeq] at hj
  exact hy

/-- The zero values of simple types. -/
inductive ZeroData : Kind → J → Prop
  | bool : ZeroData .boolean (.bool false)
  | str : ZeroData .string (.str [])
  | int : ZeroData .integer (.num 0)
  | num : ZeroData .number (.num 0)

/-- **C111** refuted, generally: with `NoOptionalPointers` an optional property that is
`false`, `""` or `0` is lost. -/
theorem C111_no_pointers_zero_lost (L : UniLaws U) {replace : Str → Str} (ht : TameAll U comps)
    (h0 : S.r32 0 = some 0 ∧ S.r64 0 = some 0)
    (h : goTypes U replace true comps = .ok ds) {n k f : Str} {kind : Kind} {typed : Bool}
    {ps : OPs} {ms : JMs} {x j : J} (hm : (n, OS.obj typed [] ps .no .nil) ∈ comps)
    (hk : findProp k ps = some (false, false, .prim kind f [])) (hn : ms.keys.Nodup)
    (hms : ∀ k ∈ ms.keys, k ∈ propNames ps) (hx : ms.get k = some x) (hz : ZeroData kind x)
    (hb : Becomes U S ds (.ident (typeName U n)) (.obj ms) j) :
    ∃ out, j = .obj out ∧ k ∉ out.keys := by
  obtain ⟨gs, T, out, M, w, h1, _, rfl, rfl, _, h5, h6⟩ := prop_becomes L ht h hm hk hn hms hb
  refine ⟨out, rfl, ?_⟩
  specialize h5 _ hx
  have htm : Tame U comps (.prim kind f []) := by
    have := ht.tame n _ hm
    rw [Tame] at this
    exact prop_tame this.2.2.2.1 hk
  obtain ⟨y, hy, hp⟩ := primType_tame htm
  rw [gen, genPrim, hp] at h1
  simp only [Res.bind, List.isEmpty_nil, Bool.not_true, Bool.false_and, Bool.false_eq_true,
    if_false] at h1
  injection h1 with h1
  subst h1
  have hbt := (declType_tame L ht h).1 y hy.basic
  simp only [GSch.typeDecl, Bool.not_false, Bool.or_false, if_true, depField] at h5
  have hh : head ds (M + 2) (.ident y) = some (0, .ident y) := by rw [head, hbt]
  have hw : w.isEmpty = true := by
    cases hz with
    | bool =>
      rw [dec, hh] at h5
      cases hy
      injection h5 with h5; subst h5; rfl
    | str =>
      rw [dec, hh] at h5
      cases hy
      injection h5 with h5; subst h5; rfl
    | int =>
      rw [dec, hh] at h5
      simp only [Option.bind_some, decNum] at h5
      have key : ∀ o : Option GV, o.map (ptrs 0) = o := by intro o; cases o <;> rfl
      rw [key] at h5
      split at h5
      · rw [h0.2] at h5; injection h5 with h5; subst h5; rfl
      · split at h5
        · rw [h0.1] at h5; injection h5 with h5; subst h5; rfl
        · split at h5
          · rename_i e
            subst e
            generalize he : "any".toList = z at hy
            cases hy with
            | integer hmem => subst he; exact absurd hmem (by decide)
            | int _ => exact absurd he (by decide)
          · split at h5
            · split at h5
              · injection h5 with h5; subst h5; rfl
              · cases h5
            · cases h5
    | num =>
      rw [dec, hh] at h5
      cases hy with
      | double =>
        have h5 : ((S.r64 0).map GV.num).map (ptrs 0) = some w := h5
        rw [h0.2] at h5; injection h5 with h5; subst h5; rfl
      | float _ =>
        have h5 : ((S.r32 0).map GV.num).map (ptrs 0) = some w := h5
        rw [h0.1] at h5; injection h5 with h5; subst h5; rfl
  rw [hw] at h6
  exact h6
where
  prop_tame {k : Str} {r nl : Bool} {s : OS} : ∀ {ps : OPs}, TamePs U comps ps →
      findProp k ps = some (r, nl, s) → Tame U comps s
    | .nil, _, h => by cases h
    | .cons _ _ _ _ ps, ht, h => by
      rw [TamePs] at ht
      rw [findProp] at h
      split at h
      · injection h with h
        injection h with h1 h
        injection h with h2 h
        subst h
        exact ht.2.2.1
      · exact prop_tame ht.2.2.2 h

/-- **C111** refuted, generally: with `NoOptionalPointers` an optional struct that is absent is
written with its zero value. -/
theorem C111_no_pointers_struct_appears (L : UniLaws U) {replace : Str → Str} (ht : TameAll U comps)
    (h : goTypes U replace true comps = .ok ds) {n k : Str} {typed typed' r nl : Bool}
    {ps ps' : OPs} {ms : JMs} {j : J} (hm : (n, OS.obj typed [] ps .no .nil) ∈ comps)
    (hk : findProp k ps = some (r, nl, .obj typed' [] ps' .no .nil)) (hps : ps' ≠ .nil)
    (hn : ms.keys.Nodup) (hms : ∀ k ∈ ms.keys, k ∈ propNames ps) (hx : k ∉ ms.keys)
    (hb : Becomes U S ds (.ident (typeName U n)) (.obj ms) j) :
    ∃ out o, j = .obj out ∧ out.get k = some (.obj o) := by
  obtain ⟨gs, T, out, M, w, h1, _, rfl, rfl, h4, _, h6⟩ := prop_becomes L ht h hm hk hn hms hb
  have h4 := h4 (get_none_iff.2 hx)
  have hgs : ∃ fs, gs.typeDecl = .struct fs := by
    rw [gen] at h1
    dsimp only at h1
    rw [if_neg (by simp [hps])] at h1
    obtain ⟨ga, hga, h1⟩ := bind_ok h1
    rw [if_neg (by simp [hps])] at h1
    obtain ⟨l, hl, h1⟩ := bind_ok h1
    obtain ⟨ges, hges, h1⟩ := bind_ok h1
    injection h1 with h1
    subst h1
    exact ⟨_, rfl⟩
  obtain ⟨fs, hfs⟩ := hgs
  have hw : ∃ vs, w = .struct vs := by
    rw [h4, hfs]
    split
    · rw [depField, if_pos rfl, zero]; exact ⟨_, rfl⟩
    · rw [depField, zero]; exact ⟨_, rfl⟩
  obtain ⟨vs, rfl⟩ := hw
  rw [if_neg (by simp [GV.isEmpty])] at h6
  obtain ⟨y, hy, hj⟩ := h6
  cases y <;> simp [enc, jeq] at hj
  exact ⟨out, _, rfl, hy⟩

/-- **C111** refuted, generally: numbers without a format become `float32`: any number that
`float32` does not have is changed or cannot be read, though it is valid. -/
theorem C111_number_not_float32 (L : UniLaws U) {replace : Str → Str} {noPtr : Bool}
    (ht : TameAll U comps) (h : goTypes U replace noPtr comps = .ok ds) {n : Str} {e : List Str}
    {q : Rat} (hl : comps.lookup n = some (.prim .number [] e)) (hq : S.r32 q ≠ some q) :
    Valid S false comps (.ref n) (.num q) ∧ ¬ RoundTrip U S ds (.ident (typeName U n)) (.num q) := by
  refine ⟨.ref hl (.num (by simp)), ?_⟩
  rintro ⟨v, K, hv⟩
  obtain ⟨hb, _, hc⟩ := declType_tame L ht h
  obtain ⟨g, hg, hd, _⟩ := hc n _ (lookup_mem hl)
  rw [gen, genPrim, primType] at hg
  simp only [Res.bind, List.length_singleton, Nat.lt_irrefl, decide_false, Bool.and_false,
    Bool.false_eq_true, if_false] at hg
  injection hg with hg
  subst hg
  obtain ⟨h1, h2⟩ := hv (K + 2) (by omega)
  have hh : head ds (K + 2) (.ident (typeName U n)) = some (0, .ident "float32".toList) := by
    rw [head, hd]
    show head ds (K + 1) (.ident "float32".toList) = _
    rw [head, hb _ (by decide)]
  rw [dec, hh] at h1
  have h1 : ((S.r32 q).map GV.num).map (ptrs 0) = some v := h1
  cases hr : S.r32 q with
  | none => rw [hr] at h1; cases h1
  | some q' =>
    rw [hr] at h1
    injection h1 with h1
    subst h1
    have h2 : (q' == q) = true := h2
    exact hq (by rw [hr, eq_of_beq h2])

/-- **C111** refuted, generally: integers without a format become `int`: those that need more
than 64 bits cannot be read, though they are valid. -/
theorem C111_integer_too_large (L : UniLaws U) {replace : Str → Str} {noPtr : Bool}
    (ht : TameAll U comps) (h : goTypes U replace noPtr comps = .ok ds) {n : Str} {e : List Str}
    {q : Rat} (hl : comps.lookup n = some (.prim .integer [] e)) (hd1 : q.den = 1)
    (hq : q.num < -2 ^ 63 ∨ 2 ^ 63 ≤ q.num) :
    Valid S false comps (.ref n) (.num q) ∧
      Unreadable U S ds (.ident (typeName U n)) (.num q) := by
  refine ⟨.ref hl (.int hd1 ⟨fun h => absurd h (by decide), fun h => absurd h (by decide)⟩
    (by simp)), ?_⟩
  obtain ⟨hb, _, hc⟩ := declType_tame L ht h
  obtain ⟨g, hg, hd, _⟩ := hc n _ (lookup_mem hl)
  rw [gen, genPrim, primType] at hg
  simp only [Res.bind] at hg
  rw [if_neg (by decide)] at hg
  simp only [List.length_singleton, Nat.lt_irrefl, decide_false, Bool.and_false,
    Bool.false_eq_true, if_false] at hg
  injection hg with hg
  subst hg
  refine ⟨2, fun m hm => ?_⟩
  obtain ⟨M, rfl⟩ : ∃ M, m = M + 2 := ⟨m - 2, by omega⟩
  have hh : head ds (M + 2) (.ident (typeName U n)) = some (0, .ident "int".toList) := by
    rw [head, hd]
    show head ds (M + 1) (.ident "int".toList) = _
    rw [head, hb _ (by decide)]
  rw [dec, hh]
  show (decNum S q (.ident "int".toList)).map (ptrs 0) = none
  have hr : intRange "int".toList = some (-2 ^ 63, 2 ^ 63 - 1) := by
    unfold intRange
    rw [if_pos (by decide)]
  rw [decNum, if_neg (by decide), if_neg (by decide), if_neg (by decide), hr]
  simp only
  rw [if_neg (by rintro ⟨_, h1, h2⟩; omega)]
  rfl

/-! The hypotheses of these theorems are met by: -/

/-- Optional and nullable properties. -/
def optComps : List (Str × OS) :=
  [("Foo".toList, .obj true []
     (.cons "l".toList false false (.arr (.prim .string [] []))
     (.cons "m".toList false false (.obj true [] .nil .no .nil)
     (.cons "n".toList false true (.prim .string [] [])
     (.cons "o".toList false false (.prim .boolean [] [])
     (.cons "s".toList false false (.obj true [] (.cons "b".toList true false
       (.prim .boolean [] []) .nil) .no .nil) .nil))))) .no .nil),
   ("Int".toList, .prim .integer [] []), ("Num".toList, .prim .number [] [])]

theorem optComps_tame : TameAll ascii optComps := by
  have g : ∀ s : Str, (∃ c r, typeName ascii s = c :: r ∧ ascii.isUpper c = true) → GoodName ascii s :=
    fun s h => (exported_iff ascii_laws s).1 h
  refine ⟨?_, by decide, ?_, fun _ => 0, ?_⟩
  · intro n s h
    simp only [optComps, List.mem_cons, List.not_mem_nil, or_false, Prod.mk.injEq] at h
    rcases h with ⟨rfl, _⟩ | ⟨rfl, _⟩ | ⟨rfl, _⟩
    · exact ⟨⟨'F', "oo".toList, rfl, .inl (by decide)⟩, by decide⟩
    · exact ⟨⟨'I', "nt".toList, rfl, .inl (by decide)⟩, by decide⟩
    · exact ⟨⟨'N', "um".toList, rfl, .inl (by decide)⟩, by decide⟩
  · intro n s h
    simp only [optComps, List.mem_cons, List.not_mem_nil, or_false, Prod.mk.injEq] at h
    rcases h with ⟨_, rfl⟩ | ⟨_, rfl⟩ | ⟨_, rfl⟩
    · simp only [Tame, TameA, TamePs, TagName]
      refine ⟨parts_nil, trivial, trivial,
        ⟨by decide, g _ ⟨'L', [], by decide, by decide⟩, by decide,
         by decide, g _ ⟨'M', [], by decide, by decide⟩, ?_,
         by decide, g _ ⟨'N', [], by decide, by decide⟩, by decide,
         by decide, g _ ⟨'O', [], by decide, by decide⟩, by decide,
         by decide, g _ ⟨'S', [], by decide, by decide⟩, ?_, trivial⟩, .inr ⟨.inl (by simp), trivial⟩,
        by decide, by decide⟩
      · exact ⟨parts_nil, trivial, trivial, trivial, .inl ⟨trivial, trivial⟩, by decide, by decide⟩
      · exact ⟨parts_nil, trivial, trivial, ⟨by decide, g _ ⟨'B', [], by decide, by decide⟩,
          by decide, trivial⟩, .inr ⟨.inl (by simp), trivial⟩, by decide, by decide⟩
    · simp only [Tame]; decide
    · simp only [Tame]; decide
  · intro n typed allOf ps a es h m hm
    simp only [optComps, List.mem_cons, List.not_mem_nil, or_false, Prod.mk.injEq] at h
    rcases h with ⟨_, h⟩ | ⟨_, h⟩ | ⟨_, h⟩
    · injection h with _ h
      subst h
      cases hm
    · cases h
    · cases h

/-- The types for `optComps`. -/
def optDecls (noPtr : Bool) : List Decl :=
  match goTypes ascii id noPtr optComps with
  | .ok ds => ds
  | _ => []

theorem becomes {t : GT} {j j' : J} (N : Nat) (v : GV)
    (h : (fun k => dec U S ds (k + N) t j) = fun _ => some v)
    (he : jeq (enc U S v) j' = true) : Becomes U S ds t j j' := by
  refine ⟨v, N, fun m hm => ⟨?_, he⟩⟩
  obtain ⟨k, rfl⟩ : ∃ k, m = k + N := ⟨m - N, by omega⟩
  exact congrFun h k

/-- A field with its tag. -/
def keyFld (n k : String) (omit' : Bool) : Field := ⟨n.toList, .key k.toList omit'⟩

example : TameAll ascii optComps ∧ goTypes ascii id false optComps = .ok (optDecls false) ∧
    goTypes ascii id true optComps = .ok (optDecls true) :=
  ⟨optComps_tame, rfl, rfl⟩

example : Becomes ascii std (optDecls false) (.ident "Foo".toList)
    (.obj (.cons "l".toList (.arr .nil) (.cons "m".toList (.obj .nil) .nil)))
    (.obj (.cons "n".toList .null .nil)) := by
  refine becomes 9 (.struct (.cons (keyFld "L" "l" true) (.slice .nil) (.cons (keyFld "M" "m" true) (.map .nil)
    (.cons (keyFld "N" "n" false) .nil (.cons (keyFld "O" "o" true) .nil
    (.cons (keyFld "S" "s" true) .nil .nil)))))) ?_ ?_
  · rfl
  · decide +kernel

example : Becomes ascii std (optDecls true) (.ident "Foo".toList)
    (.obj (.cons "o".toList (.bool false) .nil))
    (.obj (.cons "n".toList (.str []) (.cons "s".toList
      (.obj (.cons "b".toList (.bool false) .nil)) .nil))) := by
  refine becomes 9 (.struct (.cons (keyFld "L" "l" true) .nil (.cons (keyFld "M" "m" true) .nil
    (.cons (keyFld "N" "n" false) (.str []) (.cons (keyFld "O" "o" true) (.bool false)
    (.cons (keyFld "S" "s" true) (.struct (.cons (keyFld "B" "b" false) (.bool false) .nil)) .nil)))))) ?_ ?_
  · rfl
  · decide +kernel

example : std.r32 (1 / 3) ≠ some (1 / 3) := by decide +kernel

/-! ### Schemas for which it does not hold -/

/-- **C111** refuted (witness): additional properties beside properties are lost, as the
methods that would read them are deleted. -/
theorem C111_additional_lost : ∃ ds, goTypes ascii id false
    [("foo".toList, .obj true [] (.cons "bar".toList false false (.prim .string [] []) .nil)
      (.of (.prim .string [] [])) .nil)] = .ok ds ∧
    Becomes ascii std ds (.ident "Foo".toList)
      (.obj (.cons "bar".toList (.str "x".toList) (.cons "baz".toList (.str "y".toList) .nil)))
      (.obj (.cons "bar".toList (.str "x".toList) .nil)) := by
  refine ⟨_, rfl, becomes 9 (.struct (.cons (keyFld "Bar" "bar" true)
    (.ptr (.str "x".toList)) (.cons ⟨"AdditionalProperties".toList, .ignored⟩ .nil .nil))) ?_ ?_⟩
  · rfl
  · decide +kernel

/-- **C111** refuted (witness): of an object with properties and alternatives, what belongs to
the alternatives is lost. -/
theorem C111_alternatives_lost : ∃ ds, goTypes ascii id false
    [("foo".toList, .obj true [] (.cons "kind".toList true false (.prim .string [] []) .nil) .no
      (.cons false (.obj true [] (.cons "bar".toList true false (.prim .string [] []) .nil) .no .nil)
        .nil))] = .ok ds ∧
    Becomes ascii std ds (.ident "Foo".toList)
      (.obj (.cons "kind".toList (.str "x".toList) (.cons "bar".toList (.str "y".toList) .nil)))
      (.obj (.cons "kind".toList (.str "x".toList) .nil)) := by
  refine ⟨_, rfl, becomes 9 (.struct (.cons (keyFld "Kind" "kind" false)
    (.str "x".toList) (.cons ⟨"union".toList, .none⟩ .nil .nil))) ?_ ?_⟩
  · rfl
  · decide +kernel

/-- **C111** refuted (witness): required properties of which the Go name is not exported, or
that are called `-`, are lost; one with a comma in its name gets another name, as does one with
characters that are not allowed in tags. -/
theorem C111_names_lost : ∃ ds, goTypes ascii id false
    [("foo".toList, .obj true []
      (.cons "-".toList true false (.prim .string [] [])
      (.cons "/bar".toList true false (.prim .string [] [])
      (.cons "a,b".toList true false (.prim .string [] [])
      (.cons "it's".toList true false (.prim .string [] []) .nil)))) .no .nil)] = .ok ds ∧
    Becomes ascii std ds (.ident "Foo".toList)
      (.obj (.cons "-".toList (.str "x".toList) (.cons "/bar".toList (.str "y".toList)
        (.cons "a,b".toList (.str "z".toList) (.cons "it's".toList (.str "u".toList) .nil)))))
      (.obj (.cons "a".toList (.str []) (.cons "Its".toList (.str []) .nil))) := by
  refine ⟨_, rfl, becomes 9 (.struct (.cons (keyFld "Minus" "-" false) (.str [])
    (.cons (keyFld "bar" "/bar" false) (.str []) (.cons (keyFld "Ab" "a,b" false) (.str [])
    (.cons (keyFld "Its" "it's" false) (.str []) .nil))))) ?_ ?_⟩
  · rfl
  · decide +kernel

/-- **C111** refuted (witness): an array of integers of the format `uint8` is written as a
string. -/
theorem C111_bytes_become_string : ∃ ds, goTypes ascii id false
    [("foo".toList, .arr (.prim .integer "uint8".toList []))] = .ok ds ∧
    Becomes ascii std ds (.ident "Foo".toList) (.arr (.cons (.num 1) (.cons (.num 2) .nil)))
      (.str "AQI=".toList) := by
  refine ⟨_, rfl, becomes 9 (.bytes (.cons (.num 1) (.cons (.num 2) .nil))) ?_ ?_⟩
  · rfl
  · decide +kernel

end Thema.Props
