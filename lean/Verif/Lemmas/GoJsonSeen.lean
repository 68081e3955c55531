import Verif.Lemmas.GoJsonLoss

/-!
# What a generated struct writes
-/

namespace Thema.GoJson

open GoTypes OGen

variable {U : Uni} {S : Std} {ds : List Decl} {comps : List (Str × OS)}

/-- Only the keys of the fields are written. -/
theorem encFs_sub (L : UniLaws U) {m : Nat} {vs : GMs} {k : Str} : ∀ {rows : List Row},
    (∀ x ∈ rows, Row.Ok U ds comps x) →
    k ∈ (encFs U S (assemble U S ds m vs (GFs.ofList (rows.map (Row.field U))))).keys →
    k ∈ rows.map (·.key)
  | [], _, h => by cases h
  | x :: rows, hok, h => by
    have hk := row_key L (hok x (List.mem_cons_self ..))
    rw [List.map_cons, GFs.ofList, assemble_cons hk, encFs_cons hk] at h
    have ih := fun h => encFs_sub (k := k) L (rows := rows) (m := m) (vs := vs)
      (fun y hy => hok y (List.mem_cons_of_mem _ hy)) h
    rw [List.map_cons]
    split at h
    · exact List.mem_cons_of_mem _ (ih h)
    · rw [JMs.keys] at h
      rcases List.mem_cons.1 h with h | h
      · exact h ▸ List.mem_cons_self ..
      · exact List.mem_cons_of_mem _ (ih h)

/-- Fields that are not left out if they are empty are always written. -/
theorem encFs_mem (L : UniLaws U) {m : Nat} {vs : GMs} {y : Row} (hy : (y.r || y.nl) = true) :
    ∀ {rows : List Row}, (∀ x ∈ rows, Row.Ok U ds comps x) → y ∈ rows →
    y.key ∈ (encFs U S (assemble U S ds m vs (GFs.ofList (rows.map (Row.field U))))).keys
  | [], _, h => by cases h
  | x :: rows, hok, h => by
    have hk := row_key L (hok x (List.mem_cons_self ..))
    rw [List.map_cons, GFs.ofList, assemble_cons hk, encFs_cons hk]
    rcases List.mem_cons.1 h with rfl | h
    · rw [if_neg]
      · rw [JMs.keys]
        exact List.mem_cons_self ..
      · simp [Row.field, omitEmpty, hy]
    · have ih := encFs_mem L (m := m) (vs := vs) hy
        (fun z hz => hok z (List.mem_cons_of_mem _ hz)) h
      split
      · exact ih
      · rw [JMs.keys]
        exact List.mem_cons_of_mem _ ih

theorem jeqMs_keys {b : JMs} : ∀ {a : JMs}, jeqMs a b = true → ∀ k ∈ a.keys, k ∈ b.keys
  | .nil, _, k, hk => by cases hk
  | .cons k' x a, h, k, hk => by
    rw [jeqMs, Bool.and_eq_true] at h
    rw [JMs.keys] at hk
    rcases List.mem_cons.1 hk with rfl | hk
    · cases hg : b.get k with
      | none => rw [hg] at h; exact absurd h.1 (by simp)
      | some y =>
        refine Decidable.byContradiction fun hc => ?_
        rw [get_none_iff.2 hc] at hg
        cases hg
    · exact jeqMs_keys h.2 k hk

/-- What a generated struct writes. -/
theorem struct_writes (L : UniLaws U) {replace : Str → Str} (ht : TameAll U comps)
    (h : goTypes U replace false comps = .ok ds) {n : Str} {typed : Bool} {allOf : List Str}
    {ps : OPs} {ms : JMs} {j : J} (hm : (n, OS.obj typed allOf ps .no .nil) ∈ comps)
    (hps : HasFields allOf ps) (hb : Becomes U S ds (.ident (typeName U n)) (.obj ms) j) :
    ∃ out, j = .obj out ∧
      (∀ k ∈ out.keys, ∃ v, Counts comps (.obj typed allOf ps .no .nil) k v) ∧
      ∀ k r nl s, Counts comps (.obj typed allOf ps .no .nil) k (r, nl, s) →
        (r || nl) = true → k ∈ out.keys := by
  have E := env_of L ht h
  obtain ⟨g, hg, hd, hdefs⟩ := E.comp n _ hm
  obtain ⟨fs, rows, K0, hfs, hok, hnk, hiff, hvis⟩ := rows_all E (ht.tame n _ hm) hps hg hdefs
  obtain ⟨v, K, hv⟩ := hb
  obtain ⟨h1, h2⟩ := hv (K + K0 + 2) (by omega)
  rw [dec, head, hd, hfs] at h1
  have h1 : ((decFs U S ds (K + K0 + 2) (visible U ds (K + K0 + 2) fs) ms).map fun vs =>
    GV.struct (assemble U S ds (K + K0 + 2) vs (visible U ds (K + K0 + 2) fs))).map (ptrs 0) =
      some v := h1
  rw [hvis _ (by omega), Option.map_map] at h1
  obtain ⟨vs, hvs, rfl⟩ := Option.map_eq_some_iff.1 h1
  have h2 : jeq (.obj (encFs U S (assemble U S ds (K + K0 + 2) vs
    (GFs.ofList (rows.map (Row.field U)))))) j = true := h2
  cases j with
  | obj out =>
    rw [jeq, Bool.and_eq_true, List.all_eq_true] at h2
    refine ⟨out, rfl, fun k hk => ?_, fun k r nl s hc hr => ?_⟩
    · have := encFs_sub E.laws hok (List.contains_iff_mem.1 (h2.2 k hk))
      obtain ⟨x, hx, rfl⟩ := List.mem_map.1 this
      exact ⟨_, (hiff _ _).2 ⟨x, hx, rfl, rfl⟩⟩
    · obtain ⟨x, hx, rfl, e⟩ := (hiff _ _).1 hc
      injection e with e1 e
      injection e with e2 e3
      have := encFs_mem (S := S) (m := K + K0 + 2) (vs := vs) E.laws (y := x)
        (by rw [e1, e2]; exact hr) hok hx
      exact jeqMs_keys h2.1 _ this
  | _ => simp [jeq] at h2

end Thema.GoJson
