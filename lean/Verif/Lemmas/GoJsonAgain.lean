import Verif.Lemmas.GoJsonExactRT

/-!
# What data become is valid, and stays
-/

namespace Thema.GoJson

open GoTypes OGen

variable {U : Uni} {S : Std} {comps : List (Str × OS)}

theorem count_find {k : Str} {r nl : Bool} {s : OS} : ∀ {ps : OPs}, AllCountPs comps ps →
    findProp k ps = some (r, nl, s) → AllCount comps s
  | .nil, _, h => by cases h
  | .cons n r' nl' s' ps, ha, h => by
    rw [AllCountPs] at ha
    rw [findProp] at h
    split at h
    · injection h with h
      injection h with _ h
      injection h with _ h
      subst h
      exact ha.1
    · exact count_find ha.2 h

theorem at_count (A : ∀ n s, (n, s) ∈ comps → AllCount comps s) : ∀ {root : OS} {p : List Str}
    {k : Str} {v : Bool × Bool × OS}, AllCount comps root → At comps root p k v →
    AllCount comps v.2.2
  | _, _, _, (r, nl, s), ha, .own h => by
    rw [AllCount] at ha
    exact count_find ha.2.1 h
  | _, _, _, _, _, .part _ hl h => at_count A (A _ _ (lookup_mem hl)) h

theorem validMs_get {ps : OPs} {a : OAs} {k : Str} {x : J} : ∀ {ms : JMs},
    ValidMs S false comps ps a ms → ms.get k = some x →
    (∀ r nl s, findProp k ps = some (r, nl, s) → nl = true ∧ x = .null ∨ Valid S false comps s x) ∧
    (findProp k ps = none → a = .free ∨ ∃ s, a = .of s ∧ Valid S false comps s x)
  | .nil, _, h => by cases h
  | .cons k' y ms, hv, h => by
    rw [JMs.get] at h
    split at h
    · rename_i e
      subst e
      injection h with h
      subst h
      cases hv with
      | prop h1 _ h2 _ =>
        refine ⟨fun r nl s hf => ?_, fun hf => ?_⟩
        · rw [h1] at hf
          injection hf with hf
          injection hf with _ hf
          injection hf with _ hf
          subst hf
          exact .inr h2
        · rw [h1] at hf
          cases hf
      | null h1 _ =>
        refine ⟨fun r nl s hf => ?_, fun hf => ?_⟩
        · rw [h1] at hf
          injection hf with hf
          injection hf with _ hf
          injection hf with hf _
          exact .inl ⟨hf.symm, rfl⟩
        · rw [h1] at hf
          cases hf
      | free h1 _ _ =>
        refine ⟨fun r nl s hf => ?_, fun _ => .inl rfl⟩
        rw [h1] at hf
        cases hf
      | addl h1 h2 _ =>
        refine ⟨fun r nl s hf => ?_, fun _ => .inr ⟨_, rfl, h2⟩⟩
        rw [h1] at hf
        cases hf
    · cases hv with
      | prop _ _ _ hv => exact validMs_get hv h
      | null _ hv => exact validMs_get hv h
      | free _ _ hv => exact validMs_get hv h
      | addl _ _ hv => exact validMs_get hv h

theorem validParts_get {root : OS} {k : Str} {x : J} : ∀ {ms : JMs},
    ValidParts S false comps root ms → ms.get k = some x →
    ∃ p r nl s, At comps root p k (r, nl, s) ∧ (nl = true ∧ x = .null ∨ Valid S false comps s x)
  | .nil, _, h => by cases h
  | .cons k' y ms, hv, h => by
    rw [JMs.get] at h
    split at h
    · rename_i e
      subst e
      injection h with h
      subst h
      cases hv with
      | prop h1 _ h2 _ => exact ⟨_, _, _, _, h1, .inr h2⟩
      | null h1 _ => exact ⟨_, _, _, _, h1, .inl ⟨rfl, rfl⟩⟩
    · cases hv with
      | prop _ _ _ hv => exact validParts_get hv h
      | null _ hv => exact validParts_get hv h

theorem build_props {ps : OPs} {a : OAs} : ∀ {ms : JMs}, AllMs (fun k y => ∃ r nl s,
    findProp k ps = some (r, nl, s) ∧ (nl = true ∧ y = .null ∨ Valid S false comps s y)) ms →
    ValidMs S false comps ps a ms
  | .nil, _ => .nil
  | .cons k y ms, ⟨⟨r, nl, s, h1, h2⟩, h⟩ => by
    rcases h2 with ⟨rfl, rfl⟩ | h2
    · exact .null h1 (build_props h)
    · exact .prop h1 nofun h2 (build_props h)

theorem build_parts {root : OS} : ∀ {ms : JMs}, AllMs (fun k y => ∃ p r nl s,
    At comps root p k (r, nl, s) ∧ (nl = true ∧ y = .null ∨ Valid S false comps s y)) ms →
    ValidParts S false comps root ms
  | .nil, _ => .nil
  | .cons k y ms, ⟨⟨p, r, nl, s, h1, h2⟩, h⟩ => by
    rcases h2 with ⟨rfl, rfl⟩ | h2
    · exact .null h1 (build_parts h)
    · exact .prop h1 nofun h2 (build_parts h)

theorem build_free : ∀ {ms : JMs}, ValidMs S false comps .nil .free ms
  | .nil => .nil
  | .cons _ _ _ => .free rfl nofun build_free

theorem build_of {s : OS} : ∀ {ms : JMs}, AllMs (fun _ y => Valid S false comps s y) ms →
    ValidMs S false comps .nil (.of s) ms
  | .nil, _ => .nil
  | .cons _ _ _, h => .addl rfl h.1 (build_of h.2)

mutual
/-- What data become is valid. -/
theorem comes_valid (A : ∀ n s, (n, s) ∈ comps → AllCount comps s) : ∀ {s : OS} {j j' : J},
    Comes S comps s j j' → AllCount comps s → Valid S false comps s j → Distinct j' →
    Valid S false comps s j'
  | _, _, _, .ref hl h, _, hv, hd => by
    cases hv with
    | ref hl' hv =>
      rw [hl] at hl'
      injection hl' with e
      subst e
      exact .ref hl (comes_valid A h (A _ _ (lookup_mem hl)) hv hd)
  | _, _, _, .str, _, hv, _ => hv
  | _, _, _, .bool, _, hv, _ => hv
  | _, _, _, .int _, _, hv, _ => hv
  | _, _, _, .num _, _, _, _ => .num nofun
  | _, _, _, .arr h, hc, hv, hd => by
    cases hv with
    | arr hv => exact .arr (comesAll_valid A h hc hv hd)
  | _, _, _, .any (typed := typed) h, _, hv, _ => by
    cases typed with
    | false => exact .any nofun
    | true =>
      cases hv with
      | free _ =>
        cases h with
        | obj _ _ => exact .free nofun
      | obj h1 _ _ _ _ => rcases h1 with h | h <;> exact absurd rfl h
      | all h1 => exact absurd rfl h1
  | _, _, _, .free h, _, hv, hd => by
    cases hv with
    | obj h1 _ _ _ _ =>
      cases h with
      | obj _ _ =>
        rw [Distinct] at hd
        exact .obj h1 hd.1 nofun build_free .none
  | _, _, _, .map (ms' := ms') h1 h2, hc, hv, hd => by
    cases hv with
    | obj h3 _ _ h4 _ =>
      rw [Distinct] at hd
      rw [AllCount, AllCountA] at hc
      refine .obj h3 hd.1 nofun (build_of ?_) .none
      refine (allMs_and (get_all ms' hd.1) (distinct_all hd.2)).imp fun k y hk hy => ?_
      obtain ⟨x, hx⟩ := get_of_mem ((h1 k).2 hk)
      rcases (validMs_get h4 hx).2 rfl with e | ⟨s', e, hv⟩
      · cases e
      · injection e with e
        subst e
        exact comes_valid A (h2 k x y hx hy.1) hc.2.2 hv hy.2
  | _, _, _, .struct (typed := typed) (allOf := allOf) (ps := ps) (ms := ms) (ms' := ms') hne h1 h2,
      hc, hv, hd => by
    rw [Distinct] at hd
    have hcnt : ∀ p k v, At comps (.obj typed allOf ps .no .nil) p k v →
        ∃ w, Counts comps (.obj typed allOf ps .no .nil) k w := by
      rw [AllCount] at hc
      exact hc.1
    have hall := allMs_and (get_all ms' hd.1) (distinct_all hd.2)
    have req : ∀ k nl s, Counts comps (.obj typed allOf ps .no .nil) k (true, nl, s) →
        k ∈ ms.keys → k ∈ ms'.keys := by
      intro k nl s hk hm
      have := h2 k true nl s hk
      obtain ⟨x, hx⟩ := get_of_mem hm
      rw [hx] at this
      cases hy : ms'.get k with
      | some y => exact get_mem _ hy
      | none => rw [hy] at this; cases this
    have mem : ∀ k r nl s (h : Counts comps (.obj typed allOf ps .no .nil) k (r, nl, s)),
        AllCount comps s → _ := fun k r nl s h hs => member_valid A (h2 k r nl s h) hs
    clear h2
    cases hv with
    | any _ =>
      rcases hne with h | ⟨m, hm, _⟩
      · exact absurd rfl h
      · cases hm
    | free _ =>
      rcases hne with h | ⟨m, hm, _⟩
      · exact absurd rfl h
      · cases hm
    | obj h3 h4 h5 h6 h7 =>
      have own : ∀ {k v}, Counts comps (.obj typed [] ps .no .nil) k v → findProp k ps = some v := by
        rintro k v ⟨p, hp, _⟩
        cases hp with
        | own h => exact h
        | part h _ _ => cases h
      refine .obj h3 hd.1 (fun n r nl s hf hr => ?_) (build_props (hall.imp fun k y hk hy => ?_)) .none
      · have hr : r = true := hr.resolve_right fun h => absurd h.1 (by simp)
        subst hr
        exact req n nl s (counts_own (.own hf)) (h5 n _ nl s hf (.inl rfl))
      · obtain ⟨⟨r, nl, s⟩, hv⟩ := h1 k hk
        refine ⟨r, nl, s, own hv, mem k r nl s hv (at_count A hc (.own (own hv))) ?_ y hy.1 hy.2⟩
        exact fun x hx => (validMs_get h6 hx).1 r nl s (own hv)
    | all g1 g2 g3 g4 g5 g6 g7 =>
      refine .all g1 g2 g3 nofun hd.1 (fun p k r nl s hat hr => ?_)
        (build_parts (hall.imp fun k y hk hy => ?_))
      · have hr : r = true := hr.resolve_right fun h => absurd h.1 (by simp)
        subst hr
        obtain ⟨w, hw⟩ := hcnt p k _ hat
        obtain ⟨q, hq, hq'⟩ := hw
        have e := g3 _ _ _ _ _ hq hat
        subst e
        exact req k nl s ⟨q, hq, hq'⟩ (g6 p k _ nl s hat (.inl rfl))
      · obtain ⟨⟨r, nl, s⟩, hv⟩ := h1 k hk
        obtain ⟨q, hq, hq'⟩ := hv
        refine ⟨q, r, nl, s, hq, mem k r nl s ⟨q, hq, hq'⟩ (at_count A hc hq) ?_ y hy.1 hy.2⟩
        intro x hx
        obtain ⟨p, r', nl', s', h8, h9⟩ := validParts_get g7 hx
        have e := g3 _ _ _ _ _ h8 hq
        injection e with _ e
        injection e with e1 e2
        subst e1 e2
        exact h9
theorem comesAll_valid (A : ∀ n s, (n, s) ∈ comps → AllCount comps s) : ∀ {s : OS} {xs ys : Js},
    ComesAll S comps s xs ys → AllCount comps s → Valids S false comps s xs → Distincts ys →
    Valids S false comps s ys
  | _, _, _, .nil, _, _, _ => .nil
  | _, _, _, .cons h1 h2, hc, hv, hd => by
    rw [Distincts] at hd
    cases hv with
    | cons hv1 hv2 => exact .cons (comes_valid A h1 hc hv1 hd.1) (comesAll_valid A h2 hc hv2 hd.2)
theorem member_valid (A : ∀ n s, (n, s) ∈ comps → AllCount comps s) : ∀ {r nl : Bool} {s : OS}
    {o o' : Option J}, Member S comps r nl s o o' → AllCount comps s →
    (∀ x, o = some x → nl = true ∧ x = .null ∨ Valid S false comps s x) →
    ∀ y, o' = some y → Distinct y → nl = true ∧ y = .null ∨ Valid S false comps s y
  | _, _, _, _, _, .absent, _, _, _, h, _ => by cases h
  | _, _, _, _, _, .made, _, _, _, h, _ => by injection h with h; subst h; exact .inl ⟨rfl, rfl⟩
  | _, _, _, _, _, .null, _, _, _, h, _ => by injection h with h; subst h; exact .inl ⟨rfl, rfl⟩
  | _, _, _, _, _, .lost _, _, _, _, h, _ => by cases h
  | _, _, _, _, _, .kept _ hn h, hc, hv, y, hy, hd => by
    injection hy with hy
    subst hy
    rcases hv _ rfl with ⟨e1, e2⟩ | hv
    · exact absurd e2 (hn e1)
    · exact .inr (comes_valid A h hc hv hd)
end

/-! ### A second time -/

mutual
theorem rounded_twice (R : RoundLaws S) : ∀ {j j' : J}, Rounded S j j' → Rounded S j' j'
  | _, _, .null => .null
  | _, _, .bool => .bool
  | _, _, .str => .str
  | _, _, .num h => .num (R.r64 _ _ h)
  | _, _, .arr h => .arr (roundeds_twice R h)
  | _, _, .obj h1 h2 => .obj (fun _ => Iff.rfl) fun k x y hx hy => by
    rw [hx] at hy
    injection hy with hy
    subst hy
    obtain ⟨w, hw⟩ := get_of_mem ((h1 k).2 (get_mem _ hx))
    exact rounded_twice R (h2 k w x hw hx)
theorem roundeds_twice (R : RoundLaws S) : ∀ {xs ys : Js}, Roundeds S xs ys → Roundeds S ys ys
  | _, _, .nil => .nil
  | _, _, .cons h1 h2 => .cons (rounded_twice R h1) (roundeds_twice R h2)
end

theorem comes_null : ∀ {s : OS} {j j' : J}, Comes S comps s j j' → j' = .null → j = .null
  | _, _, _, .ref _ h, e => comes_null h e
  | _, _, _, .str, e => by cases e
  | _, _, _, .bool, e => by cases e
  | _, _, _, .int _, e => by cases e
  | _, _, _, .num _, e => by cases e
  | _, _, _, .arr _, e => by cases e
  | _, _, _, .any h, e => by subst e; cases h; rfl
  | _, _, _, .free h, e => by subst e; cases h; rfl
  | _, _, _, .map _ _, e => by cases e
  | _, _, _, .struct _ _ _, e => by cases e

theorem keys_nil {ms ms' : JMs} (h : ∀ k, k ∈ ms.keys ↔ k ∈ ms'.keys) (e : ms' = .nil) :
    ms = .nil := by
  subst e
  cases ms with
  | nil => rfl
  | cons k x ms => exact absurd ((h k).1 (List.mem_cons_self ..)) (by simp [JMs.keys])

theorem visible_ne {s : OS} {j : J} (h0 : j ≠ .null) (h1 : j ≠ .arr .nil) (h2 : j ≠ .obj .nil) :
    Visible s j := by
  unfold Visible
  split <;> first | trivial | exact h0 rfl | exact h1 rfl | exact h2 rfl

theorem comes_visible {s : OS} {j j' : J} (h : Comes S comps s j j') (hv : Visible s j) :
    Visible s j' := by
  have hn : j' ≠ .null := fun e => by
    have := comes_null h e
    subst this
    exact not_visible_null hv
  have rnd : ∀ {j j' : J}, Rounded S j j' → (j' = .obj .nil → j = .obj .nil) := by
    rintro j j' h rfl
    cases h with
    | obj h1 _ => rw [keys_nil h1 rfl]
  cases h with
  | ref hl h =>
    cases j' with
    | null => exact absurd rfl hn
    | arr xs => cases xs <;> trivial
    | obj ms => cases ms <;> trivial
    | _ => trivial
  | str => trivial
  | bool => trivial
  | int _ => trivial
  | num _ => trivial
  | arr h =>
    cases h with
    | nil => exact hv
    | cons _ _ => trivial
  | any h =>
    rename_i typed
    cases typed with
    | false =>
      cases j' with
      | null => exact absurd rfl hn
      | arr xs => cases xs <;> trivial
      | obj ms => cases ms <;> trivial
      | _ => trivial
    | true =>
      cases j' with
      | null => exact absurd rfl hn
      | arr xs => cases xs <;> trivial
      | obj ms =>
        cases ms with
        | nil => rw [rnd h rfl] at hv; exact hv
        | cons _ _ _ => trivial
      | _ => trivial
  | free h =>
    rename_i typed
    cases j' with
    | null => exact absurd rfl hn
    | arr xs => cases typed <;> cases xs <;> trivial
    | obj ms =>
      cases ms with
      | nil => rw [rnd h rfl] at hv; exact hv
      | cons _ _ _ => cases typed <;> trivial
    | _ => cases typed <;> trivial
  | map h1 _ =>
    rename_i typed ms ms' _
    cases ms' with
    | nil => rw [keys_nil h1 rfl] at hv; exact hv
    | cons _ _ _ => cases typed <;> trivial
  | struct hne _ _ =>
    rename_i typed allOf ps ms ms' _ _
    cases typed <;> cases allOf <;> cases ps <;> cases ms' <;> first | trivial | skip
    all_goals
      rcases hne with h | ⟨m, hm, _⟩
      · exact absurd rfl h
      · cases hm

mutual
/-- What data become stays as it is. -/
theorem comes_twice (R : RoundLaws S) : ∀ {s : OS} {j j' : J}, Comes S comps s j j' →
    Comes S comps s j' j'
  | _, _, _, .ref hl h => .ref hl (comes_twice R h)
  | _, _, _, .str => .str
  | _, _, _, .bool => .bool
  | _, _, _, .int h => .int h
  | _, _, _, .num (f := f) h => .num (by
      split at h
      · rename_i e; rw [if_pos e]; exact R.r64 _ _ h
      · rename_i e; rw [if_neg e]; exact R.r32 _ _ h)
  | _, _, _, .arr h => .arr (comesAll_twice R h)
  | _, _, _, .any h => .any (rounded_twice R h)
  | _, _, _, .free h => .free (rounded_twice R h)
  | _, _, _, .map h1 h2 => .map (fun _ => Iff.rfl) fun k x y hx hy => by
    rw [hx] at hy
    injection hy with hy
    subst hy
    obtain ⟨w, hw⟩ := get_of_mem ((h1 k).2 (get_mem _ hx))
    exact comes_twice R (h2 k w x hw hx)
  | _, _, _, .struct hne h1 h2 => .struct hne h1 fun k r nl s hc => member_twice R (h2 k r nl s hc)
theorem comesAll_twice (R : RoundLaws S) : ∀ {s : OS} {xs ys : Js}, ComesAll S comps s xs ys →
    ComesAll S comps s ys ys
  | _, _, _, .nil => .nil
  | _, _, _, .cons h1 h2 => .cons (comes_twice R h1) (comesAll_twice R h2)
theorem member_twice (R : RoundLaws S) : ∀ {r nl : Bool} {s : OS} {o o' : Option J},
    Member S comps r nl s o o' → Member S comps r nl s o' o'
  | _, _, _, _, _, .absent => .absent
  | _, _, _, _, _, .made => .null
  | _, _, _, _, _, .null => .null
  | _, _, _, _, _, .lost _ => .absent
  | _, _, _, _, _, .kept h1 h2 h3 => .kept (fun a b => comes_visible h3 (h1 a b))
      (fun a e => h2 a (comes_null h3 e)) (comes_twice R h3)
end

end Thema.GoJson
