import Verif.Spec.Assign

/-!
# Lemmas on assignability
-/

namespace Thema.Assign

open Spec.Assign

variable {V : Type} {O : Obs V}

theorem core_strip (O : Obs V) (g : V) : Core O g (stripLeadNull O g) := by
  unfold stripLeadNull
  cases ho : O.isOr g with
  | false => left; simp [ho]
  | true =>
    right
    simp only [if_true]
    cases hf : (O.alts g).find? (fun x => !O.isNull x) with
    | some x =>
      left
      rw [List.find?_eq_some_iff_append] at hf
      obtain ⟨hx, pre, post, he, hp⟩ := hf
      exact ⟨ho, pre, post, he, by simpa using hp, by simpa using hx⟩
    | none =>
      right
      rw [List.find?_eq_none] at hf
      exact ⟨ho, by simpa using hf, rfl⟩

theorem core_eq {g g' : V} (h : Core O g g') : stripLeadNull O g = g' := by
  unfold stripLeadNull
  rcases h with ⟨ho, rfl⟩ | ⟨ho, pre, post, he, hp, hg⟩ | ⟨ho, ha, rfl⟩
  · simp [ho]
  · have : (O.alts g).find? (fun x => !O.isNull x) = some g' := by
      rw [List.find?_eq_some_iff_append]
      exact ⟨by simp [hg], pre, post, he, by simpa using hp⟩
    simp [ho, this]
  · have : (O.alts g').find? (fun x => !O.isNull x) = none := by
      rw [List.find?_eq_none]; simpa using ha
    simp [ho, this]

theorem isScalar_iff (k : Kinds) : k.isScalar = true ↔ Basic k := by
  simp only [Kinds.isScalar, Basic, Bool.or_eq_true, beq_iff_eq]
  constructor
  · rintro (((((h | h) | h) | h) | h) | h) <;> simp [h]
  · rintro (h | h | h | h | h | h) <;> simp [h]

theorem noNull_null (k : Kinds) : k.noNull.null = false := rfl

theorem noNull_ne_nullK (k : Kinds) : k.noNull ≠ .nullK := by
  intro h
  have := congrArg Kinds.null h
  simp [Kinds.noNull, Kinds.nullK] at this

theorem elemLoop_some {x los : V} {rest : List V} {r : V × V} :
    elemLoop O x los rest = some r ↔
      SameTypes O (x :: rest) ∧ r = ((x :: rest).getLast (by simp),
        if rest = [] then los else (x :: rest).getLast (by simp)) := by
  induction rest generalizing x los with
  | nil => simp [elemLoop, SameTypes, eq_comm]
  | cons y rest ih =>
    unfold elemLoop
    by_cases hm : mutual_ O x y = true
    · rw [if_pos hm, ih]
      simp only [mutual_, Bool.and_eq_true] at hm
      rw [SameTypes]
      by_cases hr : rest = []
      · subst hr; simp [hm, SameTypes]
      · simp [hm, hr]
    · rw [if_neg hm]
      simp only [mutual_, Bool.and_eq_true, not_and] at hm
      rw [SameTypes]
      simp only [reduceCtorEq, false_iff, not_and]
      intro h
      exact absurd h.2.1 (hm h.1)

theorem sameTypes_snoc {l : List V} {a : V} :
    SameTypes O (l ++ [a]) ↔ SameTypes O l ∧
      ∀ e, l.getLast? = some e → O.sub e a = true ∧ O.sub a e = true := by
  induction l with
  | nil => simp [SameTypes]
  | cons x l ih =>
    cases l with
    | nil => simp [SameTypes]
    | cons y l =>
      simp only [List.cons_append] at ih ⊢
      rw [SameTypes, SameTypes, ih]
      simp only [List.getLast?_cons_cons]
      exact ⟨fun h => ⟨⟨h.1, h.2.1, h.2.2.1⟩, h.2.2.2⟩, fun h => ⟨h.1.1, h.1.2.1, h.1.2.2, h.2⟩⟩

/-! ### The struct loop -/

theorem lookup_of_mem {k : Str} {v : V} : ∀ {l : List (Str × V)}, (l.map (·.1)).Nodup →
    (k, v) ∈ l → l.lookup k = some v
  | [], _, h => by simp at h
  | (k', v') :: l, hn, h => by
    simp only [List.map_cons, List.nodup_cons] at hn
    simp only [List.mem_cons, Prod.mk.injEq] at h
    rcases h with ⟨rfl, rfl⟩ | h
    · simp [List.lookup]
    · have hne : k ≠ k' := fun e => hn.1 (e ▸ List.mem_map.2 ⟨(k, v), h, rfl⟩)
      have : (k == k') = false := by simpa using hne
      simp [List.lookup, this, lookup_of_mem hn.2 h]

theorem mem_of_lookup {k : Str} {v : V} : ∀ {l : List (Str × V)}, l.lookup k = some v →
    (k, v) ∈ l
  | [], h => by simp at h
  | (k', v') :: l, h => by
    by_cases hk : k = k'
    · subst hk; simp [List.lookup] at h; simp [h]
    · have : (k == k') = false := by simpa using hk
      simp [List.lookup, this] at h
      exact List.mem_cons_of_mem _ (mem_of_lookup h)

theorem lookup_none {k : Str} : ∀ {l : List (Str × V)}, l.lookup k = none ↔ k ∉ l.map (·.1)
  | [] => by simp
  | (k', v') :: l => by
    by_cases hk : k = k'
    · subst hk; simp [List.lookup]
    · have : (k == k') = false := by simpa using hk
      simp [List.lookup, this, lookup_none (l := l), hk]

theorem nodup_filter {l : List (Str × V)} (h : (l.map (·.1)).Nodup) (q : Str × V → Bool) :
    ((l.filter q).map (·.1)).Nodup := h.sublist (List.Sublist.map _ List.filter_sublist)

theorem structLoop_nil {rec : V → V → P → Res Errs} {p : P} :
    ∀ {ss gs : List (Str × V)}, (ss.map (·.1)).Nodup → (gs.map (·.1)).Nodup →
    (structLoop rec p ss gs = .ok [] ↔
      (∀ k, k ∈ ss.map (·.1) ↔ k ∈ gs.map (·.1)) ∧
      ∀ k sv gv, (k, sv) ∈ ss → (k, gv) ∈ gs → rec gv sv (p ++ [some k]) = .ok []) := by
  intro ss
  induction ss with
  | nil =>
    intro gs _ _
    simp only [structLoop, Res.ok.injEq, List.map_eq_nil_iff]
    constructor
    · rintro rfl; simp
    · intro h
      cases gs with
      | nil => rfl
      | cons x gs => have := (h.1 x.1).2 (by simp); simp at this
  | cons f ss ih =>
    intro gs hss hgs
    obtain ⟨k, sv⟩ := f
    simp only [List.map_cons, List.nodup_cons] at hss
    unfold structLoop
    cases hl : gs.lookup k with
    | none =>
      have hk := lookup_none.1 hl
      constructor
      · intro h
        simp only [Res.map] at h
        rw [Res.bind_eq_ok'] at h
        obtain ⟨a, _, h⟩ := h
        simp at h
      · intro h
        exact absurd ((h.1 k).1 (by simp)) hk
    | some gv =>
      have hg := mem_of_lookup hl
      simp only []
      rw [Res.bind_eq_ok']
      have key : ∀ es, (structLoop rec p ss (gs.filter (fun f => decide (f.1 ≠ k)))).map (es ++ ·)
          = .ok [] ↔ es = [] ∧ structLoop rec p ss (gs.filter (fun f => decide (f.1 ≠ k))) = .ok [] := by
        intro es
        simp only [Res.map]
        rw [Res.bind_eq_ok']
        constructor
        · rintro ⟨a, ha, h⟩
          simp at h
          exact ⟨h.1, h.2 ▸ ha⟩
        · rintro ⟨rfl, h⟩
          exact ⟨[], h, rfl⟩
      simp only [key]
      rw [show (∃ a, rec gv sv (p ++ [some k]) = .ok a ∧ a = [] ∧
          structLoop rec p ss (gs.filter (fun f => decide (f.1 ≠ k))) = .ok []) ↔
          (rec gv sv (p ++ [some k]) = .ok [] ∧
          structLoop rec p ss (gs.filter (fun f => decide (f.1 ≠ k))) = .ok []) from
        ⟨fun ⟨a, h1, h2, h3⟩ => ⟨h2 ▸ h1, h3⟩, fun ⟨h1, h2⟩ => ⟨[], h1, rfl, h2⟩⟩]
      rw [ih hss.2 (nodup_filter hgs _)]
      have hmem : ∀ k', k' ∈ (gs.filter (fun f => decide (f.1 ≠ k))).map (·.1) ↔
          k' ∈ gs.map (·.1) ∧ k' ≠ k := by
        intro k'
        simp only [List.mem_map, List.mem_filter, decide_eq_true_eq]
        constructor
        · rintro ⟨f, ⟨hf, hne⟩, rfl⟩; exact ⟨⟨f, hf, rfl⟩, hne⟩
        · rintro ⟨⟨f, hf, rfl⟩, hne⟩; exact ⟨f, ⟨hf, hne⟩, rfl⟩
      constructor
      · rintro ⟨hr, hk, hrec⟩
        refine ⟨fun k' => ?_, ?_⟩
        · simp only [List.map_cons, List.mem_cons]
          rw [hk k', hmem]
          constructor
          · rintro (rfl | h)
            · exact List.mem_map.2 ⟨_, hg, rfl⟩
            · exact h.1
          · intro h
            by_cases he : k' = k
            · exact .inl he
            · exact .inr ⟨h, he⟩
        · intro k' sv' gv' hs hg'
          simp only [List.mem_cons, Prod.mk.injEq] at hs
          rcases hs with ⟨rfl, rfl⟩ | hs
          · rw [lookup_of_mem hgs hg'] at hl
            cases hl
            exact hr
          · refine hrec k' sv' gv' hs ?_
            refine List.mem_filter.2 ⟨hg', ?_⟩
            have : k' ≠ k := fun e => hss.1 (e ▸ List.mem_map.2 ⟨_, hs, rfl⟩)
            simpa using this
      · rintro ⟨hk, hrec⟩
        refine ⟨hrec k sv gv (by simp) hg, fun k' => ?_, ?_⟩
        · rw [hmem, ← hk k']
          simp only [List.map_cons, List.mem_cons]
          constructor
          · intro h
            exact ⟨.inr h, fun e => hss.1 (e ▸ h)⟩
          · rintro ⟨rfl | h, hne⟩
            · exact absurd rfl hne
            · exact h
        · intro k' sv' gv' hs hg'
          exact hrec k' sv' gv' (List.mem_cons_of_mem _ hs) (List.mem_filter.1 hg').1

/-! ### Fuel -/

/-- `r'` is defined wherever `r` is. -/
def Ext (r r' : V → V → P → Res Errs) : Prop :=
  ∀ g s p, r g s p ≠ .fuel → r' g s p = r g s p

theorem structLoop_ext {r r' : V → V → P → Res Errs} (h : Ext r r') (p : P) :
    ∀ ss gs, structLoop r p ss gs ≠ .fuel → structLoop r' p ss gs = structLoop r p ss gs := by
  intro ss
  induction ss with
  | nil => intro gs _; rfl
  | cons f ss ih =>
    intro gs hne
    obtain ⟨k, sv⟩ := f
    rw [structLoop] at hne ⊢
    rw [structLoop]
    cases hl : gs.lookup k with
    | none =>
      simp only [hl] at hne ⊢
      rw [ih]
      intro he
      rw [he] at hne
      exact hne rfl
    | some gv =>
      simp only [hl] at hne ⊢
      have h1 : r gv sv (p ++ [some k]) ≠ .fuel := by
        intro he
        rw [he] at hne
        exact hne rfl
      rw [h _ _ _ h1]
      cases hr : r gv sv (p ++ [some k]) with
      | ok es =>
        simp only [hr, Res.bind_ok] at hne ⊢
        rw [ih]
        intro he
        rw [he] at hne
        exact hne rfl
      | err e => rfl
      | panic k => rfl
      | fuel => exact absurd hr h1

theorem checkStruct_ext {r r' : V → V → P → Res Errs} (h : Ext r r') (g s : V) (p : P)
    (hne : checkStruct O r g s p ≠ .fuel) : checkStruct O r' g s p = checkStruct O r g s p := by
  unfold checkStruct at hne ⊢
  cases hs : O.fields s with
  | none => rfl
  | some ss =>
    cases hg : O.fields g with
    | none => rfl
    | some gs =>
      simp only [hs, hg] at hne
      exact structLoop_ext h p ss gs hne

theorem checkListBody_ext {r r' : V → V → P → Res Errs} (h : Ext r r') (g s : V) (p : P)
    (hne : checkListBody O r g s p ≠ .fuel) :
    checkListBody O r' g s p = checkListBody O r g s p := by
  unfold checkListBody at hne ⊢
  split at hne
  · rename_i h1; rw [if_pos h1, if_pos h1]
  rename_i h1; rw [if_neg h1, if_neg h1]
  split at hne
  · rename_i h2; rw [if_pos h2, if_pos h2]
  rename_i h2; rw [if_neg h2, if_neg h2]
  cases h3 : elemTypes O s with
  | none => rfl
  | some x =>
    obtain ⟨last, los⟩ := x
    simp only [h3] at hne ⊢
    split at hne
    · rename_i h4
      rw [if_pos h4, if_pos h4]
      cases hg : O.elems g with
      | nil => rfl
      | cons x _ => simp only [hg] at hne ⊢; exact h _ _ _ hne
    · rename_i h4
      rw [if_neg h4, if_neg h4]
      cases last with
      | none => exact h _ _ _ hne
      | some l =>
        simp only at hne ⊢
        split at hne
        · rename_i h5; rw [if_pos h5, if_pos h5]; exact h _ _ _ hne
        · rename_i h5; rw [if_neg h5, if_neg h5]

theorem checkList_ext {r r' : V → V → P → Res Errs} (h : Ext r r') (g s : V) (p : P)
    (hne : checkList O r g s p ≠ .fuel) : checkList O r' g s p = checkList O r g s p := by
  unfold checkList at hne ⊢
  split at hne
  · rename_i h1; rw [if_pos h1, if_pos h1]
    split at hne
    · rename_i h2; rw [if_pos h2, if_pos h2]
    · rename_i h2; rw [if_neg h2, if_neg h2]
      cases ha : O.alts s with
      | nil => rfl
      | cons s' _ => simp only [ha] at hne ⊢; exact checkListBody_ext h g s' p hne
  · rename_i h1; rw [if_neg h1, if_neg h1]; exact checkListBody_ext h g s p hne

theorem check_ext_succ (O : Obs V) : ∀ n, Ext (check O n) (check O (n + 1)) := by
  intro n
  induction n with
  | zero => intro g s p h; exact absurd rfl h
  | succ n ih =>
    intro g s p hne
    rw [check] at hne ⊢
    rw [check]
    split at hne
    · rename_i h; rw [if_pos h, if_pos h]
    rename_i h; rw [if_neg h, if_neg h]
    split at hne
    · rename_i h; rw [if_pos h, if_pos h]
    rename_i h; rw [if_neg h, if_neg h]
    split at hne
    · rename_i h; rw [if_pos h, if_pos h]; exact checkList_ext ih _ _ _ hne
    rename_i h; rw [if_neg h, if_neg h]
    split at hne
    · rename_i h; rw [if_pos h, if_pos h]
    rename_i h; rw [if_neg h, if_neg h]
    split at hne
    · rename_i h; rw [if_pos h, if_pos h]
      split at hne
      · rename_i h; rw [if_pos h, if_pos h]
      rename_i h; rw [if_neg h, if_neg h]
      exact checkStruct_ext ih _ _ _ hne
    rename_i h; rw [if_neg h, if_neg h]

theorem check_ext (O : Obs V) {n m : Nat} (h : n ≤ m) : Ext (check O n) (check O m) := by
  induction h with
  | refl => intro g s p _; rfl
  | step _ ih =>
    intro g s p hne
    rw [check_ext_succ O _ g s p (by rw [ih g s p hne]; exact hne), ih g s p hne]

theorem check_mono {n m : Nat} (h : n ≤ m) {g s : V} {p : P} {es : Errs}
    (he : check O n g s p = .ok es) : check O m g s p = .ok es := by
  rw [check_ext O h g s p (by rw [he]; simp), he]

end Thema.Assign
