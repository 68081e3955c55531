import Verif.Lemmas.GoJsonExactRT
import Verif.Props.GoJson

/-!
# What data become that are read into generated Go types and written again (C199)
-/

namespace Thema.Props

open GoTypes OGen GoJson

variable {U : Uni} {S : Std} {ds : List Decl} {comps : List (Str × OS)}

/-- From some depth on, reading settles. -/
private theorem settled (L : UniLaws U) {replace : Str → Str} (ht : TameAll U comps)
    (h : goTypes U replace false comps = .ok ds)
    (ha : ∀ n s, (n, s) ∈ comps → Apart S comps s) {n : Str} {j : J}
    (hv : Valid S false comps (.ref n) j) (hj : Distinct j) :
    Settles U S ds (.ident (typeName U n)) j (Comes S comps (.ref n) j) := by
  have hl : (comps.lookup n).isSome = true := by
    cases hv with
    | ref h _ => simp [h]
  exact valid_settles (env_of L ht h) ha hv [] [] _ hl trivial rfl (fun td htd => by cases htd) hj

/-- **C199**.  What valid data become that are read into the generated Go type and written again is
exactly what `Comes` says: numbers are rounded, nullable properties that are absent become `null`,
optional properties that are `null` or empty are lost, as are properties that do not count, and
everything else stays. -/
theorem C199_becomes (L : UniLaws U) {replace : Str → Str} (ht : TameAll U comps)
    (h : goTypes U replace false comps = .ok ds)
    (ha : ∀ n s, (n, s) ∈ comps → Apart S comps s) {n : Str} {j j' : J}
    (hv : Valid S false comps (.ref n) j) (hj : Distinct j) :
    Becomes U S ds (.ident (typeName U n)) j j' ↔ Comes S comps (.ref n) j j' := by
  rcases settled L ht h ha hv hj with ⟨v, K, h1, _, h2⟩ | ⟨⟨K, h1⟩, h2⟩
  · rw [h2]
    constructor
    · rintro ⟨w, k, hw⟩
      have e := (hw (K + k) (by omega)).1
      rw [h1 (K + k) (by omega)] at e
      injection e with e
      subst e
      exact (hw k (Nat.le_refl k)).2
    · exact fun he => ⟨v, K, fun m hm => ⟨h1 m hm, he⟩⟩
  · refine ⟨?_, fun hc => (h2 j' hc).elim⟩
    rintro ⟨w, k, hw⟩
    have e := (hw (K + k) (by omega)).1
    rw [h1 (K + k) (by omega)] at e
    cases e

/-- **C199**.  Valid data cannot be read into the generated Go type if and only if there is nothing
that they could become, that is, if they have a number that is out of the range of the Go type. -/
theorem C199_unreadable (L : UniLaws U) {replace : Str → Str} (ht : TameAll U comps)
    (h : goTypes U replace false comps = .ok ds)
    (ha : ∀ n s, (n, s) ∈ comps → Apart S comps s) {n : Str} {j : J}
    (hv : Valid S false comps (.ref n) j) (hj : Distinct j) :
    Unreadable U S ds (.ident (typeName U n)) j ↔ ¬ ∃ j', Comes S comps (.ref n) j j' := by
  constructor
  · rintro ⟨k, hk⟩ ⟨j', hc⟩
    obtain ⟨v, K, hw⟩ := (C199_becomes L ht h ha hv hj).2 hc
    have e := (hw (K + k) (by omega)).1
    rw [hk (K + k) (by omega)] at e
    cases e
  · intro hno
    rcases settled L ht h ha hv hj with ⟨v, K, h1, hd, h2⟩ | ⟨h1, _⟩
    · exact absurd ⟨enc U S v, (h2 _).2 (jeq_refl _ hd)⟩ hno
    · exact h1

/-- **C199**.  Valid data survive if and only if they become the same. -/
theorem C199_same (L : UniLaws U) {replace : Str → Str} (ht : TameAll U comps)
    (h : goTypes U replace false comps = .ok ds)
    (ha : ∀ n s, (n, s) ∈ comps → Apart S comps s) {n : Str} {j : J}
    (hv : Valid S false comps (.ref n) j) (hj : Distinct j) :
    RoundTrip U S ds (.ident (typeName U n)) j ↔ Comes S comps (.ref n) j j :=
  C199_becomes L ht h ha hv hj

/-! The hypotheses are met by: -/

/-- Data for `optComps`: an empty array, an empty map, and no nullable property. -/
def optData : J :=
  .obj (.cons "l".toList (.arr .nil) (.cons "m".toList (.obj .nil)
    (.cons "o".toList (.bool false) .nil)))

example : Valid std false optComps (.ref "Foo".toList) optData ∧ Distinct optData ∧
    ∀ n s, (n, s) ∈ optComps → Apart std optComps s := by
  refine ⟨?_, ?_, ?_⟩
  · refine .ref rfl (.obj (.inl (by simp)) (by decide) ?_ ?_ .none)
    · intro n r nl s hf hr
      have hr : r = true := hr.resolve_right fun h => absurd h.1 (by simp)
      subst hr
      simp only [findProp] at hf
      repeat' split at hf
      all_goals simp at hf
    · refine .prop (r := false) (nl := false) rfl nofun (.arr .nil) ?_
      refine .prop (r := false) (nl := false) rfl nofun (.free nofun) ?_
      exact .prop (r := false) (nl := false) rfl nofun .bool .nil
  · simp [optData, Distinct, DistinctMs, Distincts, JMs.keys]
  · intro n s h
    simp only [optComps, List.mem_cons, List.not_mem_nil, or_false, Prod.mk.injEq] at h
    rcases h with ⟨_, rfl⟩ | ⟨_, rfl⟩ | ⟨_, rfl⟩ <;> simp [Apart, ApartPs, ApartA, std]

/-- The array and the map are lost, and the nullable property becomes `null`. -/
example : Comes std optComps (.ref "Foo".toList) optData
    (.obj (.cons "n".toList .null (.cons "o".toList (.bool false) .nil))) := by
  refine .ref rfl (.struct (.inl (by simp)) ?_ ?_)
  · intro k hk
    simp only [JMs.keys, List.mem_cons, List.not_mem_nil, or_false] at hk
    rcases hk with rfl | rfl
    · exact ⟨_, counts_own (.own rfl)⟩
    · exact ⟨_, counts_own (.own rfl)⟩
  · rintro k r nl s ⟨p, hp, _⟩
    cases hp with
    | part h _ _ => cases h
    | own hf =>
      simp only [findProp] at hf
      repeat' split at hf
      all_goals simp only [Option.some.injEq, Prod.mk.injEq, reduceCtorEq] at hf
      all_goals
        obtain ⟨rfl, rfl, rfl⟩ := hf
        rename_i e
        subst e
      · exact .lost (fun h => h)
      · exact .lost (fun h => h)
      · exact .made
      · exact .kept (fun _ _ => trivial) nofun .bool
      · exact .absent

end Thema.Props
