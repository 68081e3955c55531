import Verif.Lemmas.GoJsonRT

/-!
# What becomes of one property
-/

namespace Thema.GoJson

open GoTypes OGen

variable {U : Uni} {S : Std} {ds : List Decl} {comps : List (Str × OS)}

theorem get_none_iff {k : Str} : ∀ {ms : JMs}, ms.get k = none ↔ k ∉ ms.keys
  | .nil => by simp [JMs.get, JMs.keys]
  | .cons k' x ms => by
    rw [JMs.get, JMs.keys, List.mem_cons, not_or]
    split
    · rename_i e; subst e; simp
    · rename_i e
      rw [get_none_iff (ms := ms)]
      exact ⟨fun h => ⟨fun h' => e h'.symm, h⟩, fun h => h.2⟩

theorem jeqMs_get {b : JMs} {k : Str} {x : J} : ∀ {a : JMs}, jeqMs a b = true → a.get k = some x →
    ∃ y, b.get k = some y ∧ jeq x y = true
  | .nil, _, h => by cases h
  | .cons k' x' a, h, hg => by
    rw [jeqMs, Bool.and_eq_true] at h
    rw [JMs.get] at hg
    split at hg
    · rename_i e
      subst e
      injection hg with hg
      subst hg
      revert h
      cases hb : b.get k' with
      | none => simp
      | some y => exact fun h => ⟨y, rfl, h.1⟩
    · exact jeqMs_get h.2 hg

/-- The value of a field. -/
def valueOf (U : Uni) (S : Std) (ds : List Decl) (m : Nat) (k : Str) (vs : GMs) (t : GT) : GV :=
  match lastFor k vs with
  | some v => v
  | none => zero U S ds m t

theorem assemble_cons {m : Nat} {k : Str} {vs : GMs} {f : Field} {t : GT} {fs : GFs}
    (h : keyOf U f = some k) : assemble U S ds m vs (.cons f t fs) =
      .cons f (valueOf U S ds m k vs t) (assemble U S ds m vs fs) := by
  rw [assemble, h]
  rfl

theorem encFs_cons {k : Str} {f : Field} {w : GV} {fs : GVFs} (h : keyOf U f = some k) :
    encFs U S (.cons f w fs) = if omitEmpty f && w.isEmpty then encFs U S fs
      else .cons k (enc U S w) (encFs U S fs) := by
  rw [encFs, h]

/-- The keys that are written are names of properties. -/
theorem enc_keys (L : UniLaws U) {all : Bool} {c : Str} {path : List Str} {m : Nat} {vs : GMs} :
    ∀ (ps : OPs) {l : List Prop'}, TamePs U comps ps → genPs U (c :: path) ps = .ok l →
    ∀ k ∈ (encFs U S (assemble U S ds m vs (depFs all (fieldsOf U .nil l)))).keys,
      k ∈ propNames ps
  | .nil, l, _, hg, k, hk => by
    rw [genPs] at hg; injection hg with hg; subst hg
    exact hk
  | .cons n r nl s ps, l, ht, hg, k, hk => by
    rw [genPs] at hg
    obtain ⟨a, ha, hg⟩ := bind_ok hg
    obtain ⟨l', hl, hg⟩ := bind_ok hg
    rw [TamePs] at ht
    have ih := gen_good s ht.2.2.1 (path := path ++ [n]) ha
    rw [genProp_eq ih.addl ih.union] at hg
    injection hg with hg
    subst hg
    have hkey : ∀ om, keyOf U ⟨typeName U n, .key n om⟩ = some n := fun om =>
      key_ok L ht.1 ((exported_iff L n).2 ht.2.1)
    rw [fieldsOf, depFs, field_eq ih.inner ih.skip, assemble_cons (hkey _),
      encFs_cons (hkey _)] at hk
    generalize valueOf U S ds m n vs _ = w at hk
    rw [propNames]
    split at hk
    · exact List.mem_cons_of_mem _ (enc_keys L ps ht.2.2.2 hl k hk)
    · rw [JMs.keys] at hk
      rcases List.mem_cons.1 hk with rfl | hk
      · exact List.mem_cons_self ..
      · exact List.mem_cons_of_mem _ (enc_keys L ps ht.2.2.2 hl k hk)

/-- The field of a property, and what is written for it. -/
theorem enc_get (L : UniLaws U) {all : Bool} {c k : Str} {path : List Str} {r nl : Bool} {s : OS} :
    ∀ (ps : OPs) {l : List Prop'}, TamePs U comps ps → genPs U (c :: path) ps = .ok l →
    (propNames ps).Nodup → findProp k ps = some (r, nl, s) → ∃ gs T,
      gen U (c :: (path ++ [k])) s = .ok gs ∧
      T = depField all (if !r || nl then .star gs.typeDecl else gs.typeDecl) ∧
      findField U (· == k) (depFs all (fieldsOf U .nil l)) = some (k, T) ∧
      ∀ m vs, (encFs U S (assemble U S ds m vs (depFs all (fieldsOf U .nil l)))).get k =
        if !(r || nl) && (valueOf U S ds m k vs T).isEmpty then none
        else some (enc U S (valueOf U S ds m k vs T))
  | .nil, l, _, _, _, h => by cases h
  | .cons n r' nl' s' ps, l, ht, hg, hn, h => by
    rw [genPs] at hg
    obtain ⟨a, ha, hg⟩ := bind_ok hg
    obtain ⟨l', hl, hg⟩ := bind_ok hg
    rw [TamePs] at ht
    rw [propNames, List.nodup_cons] at hn
    have ih := gen_good s' ht.2.2.1 (path := path ++ [n]) ha
    rw [genProp_eq ih.addl ih.union] at hg
    injection hg with hg
    subst hg
    have hkey : ∀ om, keyOf U ⟨typeName U n, .key n om⟩ = some n := fun om =>
      key_ok L ht.1 ((exported_iff L n).2 ht.2.1)
    rw [fieldsOf, depFs, field_eq ih.inner ih.skip, findField, hkey]
    generalize hT : depField all (if !r' || nl' then a.typeDecl.star else a.typeDecl) = T0
    simp only
    rw [findProp] at h
    split at h
    · rename_i e
      subst e
      injection h with h
      injection h with h1 h
      injection h with h2 h3
      subst h1 h2 h3
      refine ⟨a, T0, ha, hT.symm, by simp, fun m vs => ?_⟩
      rw [assemble_cons (hkey _), encFs_cons (hkey _)]
      have ho : omitEmpty ⟨typeName U n, .key n (!(r' || nl'))⟩ = !(r' || nl') := rfl
      rw [ho]
      split
      · rw [get_none_iff]
        exact fun hk => hn.1 (enc_keys L ps ht.2.2.2 hl _ hk)
      · rw [JMs.get, if_pos rfl]
    · rename_i e
      obtain ⟨gs, T, h1, h2, h3, h4⟩ := enc_get L ps ht.2.2.2 hl hn.2 h
      refine ⟨gs, T, h1, h2, ?_, fun m vs => ?_⟩
      · rw [if_neg (by simpa using e)]
        exact h3
      · rw [assemble_cons (hkey _), encFs_cons (hkey _), ← h4]
        split
        · rfl
        · rw [JMs.get, if_neg e]

/-- What is read. -/
theorem decFs_last {fs : GFs} {m : Nat} {k : Str} : ∀ {ms : JMs} {vs : GMs},
    decFs U S ds m fs ms = some vs → ms.keys.Nodup →
    (∀ k' ∈ ms.keys, ∃ t, fieldFor U S fs k' = some (k', t)) →
    (ms.get k = none → lastFor k vs = none) ∧
    ∀ x t, ms.get k = some x → fieldFor U S fs k = some (k, t) →
      ∃ v, dec U S ds m t x = some v ∧ lastFor k vs = some v
  | .nil, vs, h, _, _ => by
    rw [decFs] at h; injection h with h; subst h
    exact ⟨fun _ => rfl, fun x t h => by cases h⟩
  | .cons k' y ms, vs, h, hn, hf => by
    rw [JMs.keys, List.nodup_cons] at hn
    obtain ⟨t', ht'⟩ := hf k' (List.mem_cons_self ..)
    rw [decFs, ht'] at h
    simp only at h
    obtain ⟨v, hv, h⟩ := Option.bind_eq_some_iff.1 h
    obtain ⟨vs', hvs, rfl⟩ := Option.map_eq_some_iff.1 h
    obtain ⟨ih1, ih2⟩ := decFs_last (k := k) hvs hn.2 fun k'' hk => hf k'' (List.mem_cons_of_mem _ hk)
    rw [JMs.get, lastFor]
    split
    · rename_i e
      subst e
      refine ⟨(fun h => by cases h), fun x t hx ht => ?_⟩
      injection hx with hx
      subst hx
      rw [ht'] at ht
      injection ht with ht
      injection ht with _ ht
      subst ht
      refine ⟨v, hv, ?_⟩
      rw [ih1 (get_none_iff.2 hn.1)]
    · rename_i e
      refine ⟨fun h => ?_, fun x t hx ht => ?_⟩
      · rw [ih1 h]
      · obtain ⟨w, h1, h2⟩ := ih2 x t hx ht
        exact ⟨w, h1, by rw [h2]⟩

/-- The definitions of a schema are declared. -/
def DeclsA (ds : List Decl) (all : Bool) (g : GSch) : Prop :=
  ∀ td ∈ g.defs, declType ds td.name = some (dep all td.decl)

theorem findProp_of_mem {k : Str} : ∀ {ps : OPs}, k ∈ propNames ps →
    ∃ r nl s, findProp k ps = some (r, nl, s)
  | .nil, h => by cases h
  | .cons n r nl s ps, h => by
    rw [propNames] at h
    rw [findProp]
    by_cases e : n = k
    · exact ⟨r, nl, s, by rw [if_pos e]⟩
    · rw [if_neg e]
      rcases List.mem_cons.1 h with h | h
      · exact absurd h.symm e
      · exact findProp_of_mem h

/-- What becomes of one property. -/
theorem prop_becomes (L : UniLaws U) {replace : Str → Str} {all : Bool} (ht : TameAll U comps)
    (h : goTypes U replace all comps = .ok ds) {n k : Str} {typed r nl : Bool} {ps : OPs} {s : OS}
    {ms : JMs} {j : J} (hm : (n, OS.obj typed [] ps .no .nil) ∈ comps)
    (hk : findProp k ps = some (r, nl, s)) (hn : ms.keys.Nodup)
    (hms : ∀ k ∈ ms.keys, k ∈ propNames ps)
    (hb : Becomes U S ds (.ident (typeName U n)) (.obj ms) j) :
    ∃ gs T out M w, gen U [n, k] s = .ok gs ∧ DeclsA ds all gs ∧
      T = depField all (if !r || nl then .star gs.typeDecl else gs.typeDecl) ∧
      j = .obj out ∧ (ms.get k = none → w = zero U S ds (M + 2) T) ∧
      (∀ x, ms.get k = some x → dec U S ds (M + 2) T x = some w) ∧
      (if !(r || nl) && w.isEmpty then k ∉ out.keys
        else ∃ y, out.get k = some y ∧ jeq (enc U S w) y = true) := by
  obtain ⟨_, _, hc⟩ := declType_tame L ht h
  obtain ⟨g, hg, hd, hdefs⟩ := hc n _ hm
  have htm := ht.tame n _ hm
  rw [Tame] at htm
  obtain ⟨_, _, _, htp, _, hnd, _⟩ := htm
  have hps : ps ≠ .nil := by rintro rfl; cases hk
  rw [gen] at hg
  dsimp only at hg
  rw [if_neg (by simp [hps])] at hg
  obtain ⟨ga, hga, hg⟩ := bind_ok hg
  rw [if_neg (by simp [hps])] at hg
  obtain ⟨l, hl, hg⟩ := bind_ok hg
  obtain ⟨ges, hges, hg⟩ := bind_ok hg
  rw [genEs] at hges
  injection hges with hges
  subst hges
  rw [genA] at hga
  injection hga with hga
  subst hga
  injection hg with hg
  subst hg
  have hd : declType ds (typeName U n) = some (.struct (depFs all (fieldsOf U .nil l))) := hd
  obtain ⟨v, K, hv⟩ := hb
  obtain ⟨h1, h2⟩ := hv (K + 2) (by omega)
  obtain ⟨gs, T, e1, e2, e3, e4⟩ := enc_get (S := S) (ds := ds) (all := all) L ps htp hl hnd hk
  have hff : ∀ k' ∈ ms.keys, ∃ t, fieldFor U S (depFs all (fieldsOf U .nil l)) k' = some (k', t) := by
    intro k' hk'
    have : ∃ r nl s, findProp k' ps = some (r, nl, s) := findProp_of_mem (hms k' hk')
    obtain ⟨r', nl', s', hf⟩ := this
    obtain ⟨_, T', _, _, f3, _⟩ := enc_get (S := S) (ds := ds) (all := all) L ps htp hl hnd hf
    exact ⟨T', by rw [fieldFor, f3]⟩
  rw [dec, head, hd] at h1
  have h1 : ((decFs U S ds (K + 2) (depFs all (fieldsOf U .nil l)) ms).map fun vs =>
    GV.struct (assemble U S ds (K + 2) vs (depFs all (fieldsOf U .nil l)))).map (ptrs 0) = some v := by
    rw [← h1]
    show _ = Option.map (ptrs 0) (Option.map _ (decFs U S ds (K + 2) (visible U ds (K + 1 + 1) _) ms))
    rw [visible_plain L htp hl hnd]
  rw [Option.map_map] at h1
  obtain ⟨vs, hvs, rfl⟩ := Option.map_eq_some_iff.1 h1
  obtain ⟨l1, l2⟩ := decFs_last (k := k) hvs hn hff
  have hj : ∃ out, j = .obj out ∧
      jeqMs (encFs U S (assemble U S ds (K + 2) vs (depFs all (fieldsOf U .nil l)))) out = true ∧
      ∀ k ∈ out.keys, k ∈ (encFs U S (assemble U S ds (K + 2) vs
        (depFs all (fieldsOf U .nil l)))).keys := by
    have h2 : jeq (.obj (encFs U S (assemble U S ds (K + 2) vs
      (depFs all (fieldsOf U .nil l))))) j = true := h2
    cases j with
    | obj out =>
      rw [jeq, Bool.and_eq_true, List.all_eq_true] at h2
      exact ⟨out, rfl, h2.1, fun k hk => List.contains_iff_mem.1 (h2.2 k hk)⟩
    | _ => simp [jeq] at h2
  obtain ⟨out, rfl, hj1, hj2⟩ := hj
  refine ⟨gs, T, out, K, valueOf U S ds (K + 2) k vs T, e1, ?_, e2, rfl, ?_, ?_, ?_⟩
  · intro td htd
    refine hdefs td ?_
    simp only [GSch.defs, embed, List.append_nil, List.mem_flatMap]
    obtain ⟨p, hp, _, _, _, f1⟩ := genPs_find ps htp hl hk
    have e1 : gen U [n, k] s = .ok gs := e1
    have f1 : gen U [n, k] s = .ok p.s := f1
    rw [e1] at f1
    injection f1 with f1
    subst f1
    exact ⟨p, hp, htd⟩
  · intro hx
    rw [valueOf, l1 hx]
  · intro x hx
    obtain ⟨w, w1, w2⟩ := l2 x T hx (by rw [fieldFor, e3])
    rw [valueOf, w2, w1]
  · have e4 := e4 (K + 2) vs
    split
    · rename_i hc
      rw [if_pos hc] at e4
      exact fun hk => get_none_iff.1 e4 (hj2 k hk)
    · rename_i hc
      rw [if_neg hc] at e4
      exact jeqMs_get hj1 e4

end Thema.GoJson
