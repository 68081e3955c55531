import Verif.Lemmas.GoJsonAgain
import Verif.Props.GoJsonExact
import Verif.Props.GoParts

/-!
# Data that generated Go types write are valid, and stay as they are (C200)
-/

namespace Thema.Props

open GoTypes OGen GoJson

variable {U : Uni} {S : Std} {ds : List Decl} {comps : List (Str × OS)}

private theorem written (L : UniLaws U) {replace : Str → Str} (ht : TameAll U comps)
    (h : goTypes U replace false comps = .ok ds)
    (ha : ∀ n s, (n, s) ∈ comps → Apart S comps s) {n : Str} {j : J} {v : GV}
    (hv : Valid S false comps (.ref n) j) (hj : Distinct j)
    (hr : ReadAs U S ds (.ident (typeName U n)) j v) :
    Comes S comps (.ref n) j (enc U S v) ∧ Distinct (enc U S v) := by
  have hl : (comps.lookup n).isSome = true := by
    cases hv with
    | ref h _ => simp [h]
  obtain ⟨k, hk⟩ := hr
  have hs : Settles U S ds (.ident (typeName U n)) j (Comes S comps (.ref n) j) :=
    valid_settles (env_of L ht h) ha hv [] [] _ hl trivial rfl (fun td htd => by cases htd) hj
  rcases hs with
    ⟨w, K, h1, hd, h2⟩ | ⟨⟨K, h1⟩, _⟩
  · have e := hk (K + k) (by omega)
    rw [h1 (K + k) (by omega)] at e
    injection e with e
    subst e
    exact ⟨(h2 _).2 (jeq_refl _ hd), hd⟩
  · have e := hk (K + k) (by omega)
    rw [h1 (K + k) (by omega)] at e
    cases e

/-- **C200**.  If all properties count, then what is written of valid data that have been read into
the generated Go type is valid, too, and has no member twice. -/
theorem C200_valid (L : UniLaws U) {replace : Str → Str} (ht : TameAll U comps)
    (h : goTypes U replace false comps = .ok ds)
    (ha : ∀ n s, (n, s) ∈ comps → Apart S comps s)
    (hc : ∀ n s, (n, s) ∈ comps → AllCount comps s) {n : Str} {j : J} {v : GV}
    (hv : Valid S false comps (.ref n) j) (hj : Distinct j)
    (hr : ReadAs U S ds (.ident (typeName U n)) j v) :
    Valid S false comps (.ref n) (enc U S v) ∧ Distinct (enc U S v) := by
  obtain ⟨h1, h2⟩ := written L ht h ha hv hj hr
  exact ⟨comes_valid hc h1 trivial hv h2, h2⟩

/-- **C200**.  Reading and writing a second time changes nothing. -/
theorem C200_stable (L : UniLaws U) (R : RoundLaws S) {replace : Str → Str} (ht : TameAll U comps)
    (h : goTypes U replace false comps = .ok ds)
    (ha : ∀ n s, (n, s) ∈ comps → Apart S comps s)
    (hc : ∀ n s, (n, s) ∈ comps → AllCount comps s) {n : Str} {j : J} {v : GV}
    (hv : Valid S false comps (.ref n) j) (hj : Distinct j)
    (hr : ReadAs U S ds (.ident (typeName U n)) j v) :
    RoundTrip U S ds (.ident (typeName U n)) (enc U S v) := by
  obtain ⟨h1, h2⟩ := written L ht h ha hv hj hr
  exact (C199_same L ht h ha (comes_valid hc h1 trivial hv h2) h2).2 (comes_twice R h1)

/-- **C200**.  If a property is required that does not count, then what is written is not valid. -/
theorem C200_invalid (L : UniLaws U) {replace : Str → Str} (ht : TameAll U comps)
    (h : goTypes U replace false comps = .ok ds)
    (ha : ∀ n s, (n, s) ∈ comps → Apart S comps s) {n k : Str} {typed : Bool} {allOf : List Str}
    {ps : OPs} {p : List Str} {nl : Bool} {s : OS} {j : J} {v : GV}
    (hn : comps.lookup n = some (.obj typed allOf ps .no .nil))
    (hp : At comps (.obj typed allOf ps .no .nil) p k (true, nl, s))
    (hk : ¬ ∃ w, Counts comps (.obj typed allOf ps .no .nil) k w)
    (hv : Valid S false comps (.ref n) j) (hj : Distinct j)
    (hr : ReadAs U S ds (.ident (typeName U n)) j v) :
    ¬ Valid S false comps (.ref n) (enc U S v) := by
  obtain ⟨h1, _⟩ := written L ht h ha hv hj hr
  generalize enc U S v = j' at h1
  intro hv'
  cases h1 with
  | ref hl h1 =>
  cases hv' with
  | ref hl' hv' =>
  rw [hn] at hl hl'
  injection hl with hl
  injection hl' with hl'
  subst hl hl'
  cases h1 with
  | any _ =>
    cases hp with
    | own hf => cases hf
    | part hm _ _ => cases hm
  | struct _ h2 _ =>
    refine hk (h2 k ?_)
    cases hv' with
    | any _ =>
      cases hp with
      | own hf => cases hf
      | part hm _ _ => cases hm
    | free _ =>
      cases hp with
      | own hf => cases hf
      | part hm _ _ => cases hm
    | obj _ _ h5 _ _ =>
      cases hp with
      | own hf => exact h5 k _ _ _ hf (.inl rfl)
      | part hm _ _ => cases hm
    | all _ _ _ _ _ h6 _ => exact h6 p k _ _ _ hp (.inl rfl)

/-! The hypotheses are met by: -/

example : RoundLaws std ∧ ∀ n s, (n, s) ∈ optComps → AllCount optComps s := by
  refine ⟨⟨?_, ?_⟩, ?_⟩
  · intro q q' h
    simp only [std, Option.some.injEq] at h ⊢
    subst h
    rw [Rat.div_mul_cancel (by decide), Rat.floor_intCast]
  · intro q q' h
    simp only [std, Option.some.injEq] at h ⊢
  · have own : ∀ {typed ps a es p k v}, At optComps (.obj typed [] ps a es) p k v →
        ∃ w, Counts optComps (.obj typed [] ps a es) k w := by
      intro typed ps a es p k v h
      cases h with
      | own h => exact ⟨_, counts_own (.own h)⟩
      | part h _ _ => cases h
    intro n s h
    simp only [optComps, List.mem_cons, List.not_mem_nil, or_false, Prod.mk.injEq] at h
    rcases h with ⟨_, rfl⟩ | ⟨_, rfl⟩ | ⟨_, rfl⟩
    · simp only [AllCount, AllCountPs, AllCountA, and_true, true_and]
      exact ⟨fun _ _ _ h => own h, fun _ _ _ h => own h, fun _ _ _ h => own h⟩
    · trivial
    · trivial

/-- A schema whose part `Base_1` requires `id`. -/
private def lowComps : List (Str × OS) :=
  twoComps "Base_1".toList "id".toList "Named".toList "name".toList

private def low : OS := .obj true ["Base_1".toList, "Named".toList]
  (.cons "size".toList true false (.prim .boolean [] []) .nil) .no .nil

private theorem low_at {p : List Str} {k : Str} {v : Bool × Bool × OS}
    (h : At lowComps low p k v) :
    (p, k, v) = (["Base_1".toList], "id".toList, true, false, .prim .string [] []) ∨
    (p, k, v) = (["Named".toList], "name".toList, false, false, .prim .string [] []) ∨
    (p, k, v) = ([], "size".toList, true, false, .prim .boolean [] []) := by
  unfold low at h
  cases h with
  | own h =>
    simp only [findProp] at h
    split at h
    · rename_i e; subst e; injection h with h; subst h; exact .inr (.inr rfl)
    · cases h
  | part hm hs h =>
    simp only [List.mem_cons, List.not_mem_nil, or_false] at hm
    rcases hm with rfl | rfl
    · injection hs with hs
      subst hs
      cases h with
      | own h =>
        simp only [findProp] at h
        split at h
        · rename_i e; subst e; injection h with h; subst h; exact .inl rfl
        · cases h
      | part hm _ _ => cases hm
    · injection hs with hs
      subst hs
      cases h with
      | own h =>
        simp only [findProp] at h
        split at h
        · rename_i e; subst e; injection h with h; subst h; exact .inr (.inl rfl)
        · cases h
      | part hm _ _ => cases hm

example : At lowComps low ["Base_1".toList] "id".toList (true, false, .prim .string [] []) ∧
    (¬ ∃ w, Counts lowComps low "id".toList w) ∧
    Valid std false lowComps (.ref "Thing".toList)
      (.obj (.cons "id".toList (.str "a".toList) (.cons "size".toList (.bool true) .nil))) := by
  have hb : At lowComps low ["Base_1".toList] "id".toList (true, false, .prim .string [] []) :=
    .part (List.mem_cons_self ..) rfl (.own rfl)
  refine ⟨hb, ?_, ?_⟩
  · rintro ⟨w, p, hp, hu, _⟩
    rcases low_at hp with h | h | h <;> simp only [Prod.mk.injEq] at h <;> obtain ⟨rfl, e, _⟩ := h
    · exact absurd (hu _ (List.mem_cons_self ..)) (by decide)
    · exact absurd e (by decide)
    · exact absurd e (by decide)
  · refine .ref (s := low) rfl (.all (by simp) ?_ ?_ nofun (by decide) ?_ ?_)
    · have obj : ∀ {typed props}, Objects lowComps (.obj typed [] props .no .nil) :=
        .intro (fun m hm => by cases hm) (fun m s hm => by cases hm)
      refine .intro (by decide) fun m s hm hs => ?_
      simp only [List.mem_cons, List.not_mem_nil, or_false] at hm
      rcases hm with rfl | rfl
      · injection hs with hs; subst hs; exact obj
      · injection hs with hs; subst hs; exact obj
    · intro p q k v w h h'
      rcases low_at h with h | h | h <;> rcases low_at h' with h' | h' | h' <;>
        simp only [Prod.mk.injEq] at h h' <;> obtain ⟨rfl, rfl, rfl, rfl, rfl⟩ := h <;>
        obtain ⟨rfl, e, rfl, rfl, rfl⟩ := h' <;>
        first
          | rfl
          | exact absurd e (by decide)
    · intro p k r nl s h hr
      have hr : r = true := hr.resolve_right fun h => absurd h.1 (by simp)
      subst hr
      rcases low_at h with h | h | h <;> simp only [Prod.mk.injEq] at h
      · obtain ⟨_, rfl, _⟩ := h; decide
      · exact absurd h.2.2.1 (by decide)
      · obtain ⟨_, rfl, _⟩ := h; decide
    · exact .prop hb nofun (.str (.inl rfl)) (.prop (.own rfl) nofun .bool .nil)

end Thema.Props
