import Verif.Spec.AppendOnly
import Verif.Props.Mux

/-!
# IsAppendOnly (C42 - C44, C57)
-/

namespace Thema.Props

open Spec

variable {V : Type} {C : Cue V} {a b c old new : Lineage V}

theorem cueEqual_cases (C : Cue V) (x y : V) :
    (SameValue C x y ∧ cueEqual C x y = .ok ()) ∨
    (¬ SameValue C x y ∧ cueEqual C x y = .err ⟨[]⟩) := by
  unfold cueEqual SameValue
  cases C.subsumeRaw x y <;> cases C.subsumeRaw y x <;> simp

theorem isAppendOnlyLoop_spec (C : Cue V) (newS : List (SchemaDef V)) :
    ∀ (rest : List (SchemaDef V)) (i : Nat), i + rest.length ≤ newS.length →
    ((∀ k s, rest[k]? = some s → ∃ t, newS[i + k]? = some t ∧ SameValue C s.schema t.schema) ∧
      isAppendOnlyLoop C newS i rest = .ok ()) ∨
    ((∃ k s, rest[k]? = some s ∧ ∃ t, newS[i + k]? = some t ∧ ¬ SameValue C s.schema t.schema) ∧
      isAppendOnlyLoop C newS i rest = .err ⟨[]⟩) := by
  intro rest
  induction rest with
  | nil => intro i _; left; exact ⟨by simp, rfl⟩
  | cons s rest ih =>
    intro i hi
    have hlt : i < newS.length := by simp at hi; omega
    have hget : newS[i]? = some newS[i] := List.getElem?_eq_getElem hlt
    unfold isAppendOnlyLoop
    rw [goIdx_lt hlt, Res.bind_ok]
    rcases cueEqual_cases C s.schema newS[i].schema with ⟨hs, he⟩ | ⟨hs, he⟩
    · rw [he, Res.bind_ok]
      rcases ih (i + 1) (by simp at hi; omega) with ⟨h1, h2⟩ | ⟨⟨k, x, hk, t, ht, hne⟩, h2⟩
      · left
        refine ⟨?_, h2⟩
        intro k x hk
        cases k with
        | zero =>
          simp only [List.getElem?_cons_zero, Option.some.injEq] at hk
          subst hk
          exact ⟨newS[i], hget, hs⟩
        | succ k =>
          have := h1 k x (by simpa using hk)
          rwa [show i + 1 + k = i + (k + 1) by omega] at this
      · right
        refine ⟨⟨k + 1, x, by simpa using hk, t, ?_, hne⟩, h2⟩
        rwa [show i + (k + 1) = i + 1 + k by omega]
    · right
      rw [he]
      exact ⟨⟨0, s, rfl, newS[i], hget, hs⟩, rfl⟩

/-- **C42**.  `IsAppendOnly` returns nil exactly if every old schema has, at the
same position in the new lineage, a schema whose literal it is equal to (so in
particular none was removed); otherwise it returns an error.  It never panics. -/
theorem C42_append_only_exact (C : Cue V) (old new : Lineage V) :
    (KeepsLiterals C old.allsch new.allsch ↔ isAppendOnly C old new = .ok ()) ∧
    (¬ KeepsLiterals C old.allsch new.allsch ↔ ∃ e, isAppendOnly C old new = .err e) := by
  have key : (KeepsLiterals C old.allsch new.allsch ∧ isAppendOnly C old new = .ok ()) ∨
      (¬ KeepsLiterals C old.allsch new.allsch ∧ isAppendOnly C old new = .err ⟨[]⟩) := by
    unfold isAppendOnly
    by_cases hlen : new.allsch.length < old.allsch.length
    · right
      rw [if_pos hlen]
      refine ⟨?_, rfl⟩
      intro hk
      obtain ⟨t, ht, _⟩ := hk new.allsch.length _ (List.getElem?_eq_getElem hlen)
      simp at ht
    · rw [if_neg hlen]
      rcases isAppendOnlyLoop_spec C new.allsch old.allsch 0 (by omega) with
        ⟨h1, h2⟩ | ⟨⟨k, s, hk, t, ht, hne⟩, h2⟩
      · left
        refine ⟨fun i s hi => ?_, h2⟩
        have := h1 i s hi
        rwa [Nat.zero_add] at this
      · right
        refine ⟨?_, h2⟩
        intro hkeep
        obtain ⟨t', ht', hs⟩ := hkeep k s hk
        rw [Nat.zero_add, ht'] at ht
        obtain rfl := Option.some.inj ht
        exact hne hs
  rcases key with ⟨h1, h2⟩ | ⟨h1, h2⟩
  · exact ⟨⟨fun _ => h2, fun _ => h1⟩, ⟨fun h => absurd h1 h, by rintro ⟨e, he⟩; simp [h2] at he⟩⟩
  · exact ⟨⟨fun h => absurd h h1, fun h => by simp [h2] at h⟩, ⟨fun _ => ⟨_, h2⟩, fun _ => h1⟩⟩

/-- **C43**.  If subsumption is reflexive, every lineage is append-only relative to
itself. -/
theorem C43_reflexive (h : ∀ x, C.subsumeRaw x x = true) (a : Lineage V) :
    isAppendOnly C a a = .ok () :=
  ((C42_append_only_exact C a a).1).1 fun _ s hs => ⟨s, hs, h _, h _⟩

/-- **C43**.  If subsumption is transitive, so is `IsAppendOnly`: checking each
release against the one before it is enough. -/
theorem C43_transitive
    (ht : ∀ x y z, C.subsumeRaw x y = true → C.subsumeRaw y z = true → C.subsumeRaw x z = true)
    (hab : isAppendOnly C a b = .ok ()) (hbc : isAppendOnly C b c = .ok ()) :
    isAppendOnly C a c = .ok () := by
  have h1 := ((C42_append_only_exact C a b).1).2 hab
  have h2 := ((C42_append_only_exact C b c).1).2 hbc
  refine ((C42_append_only_exact C a c).1).1 fun i s hs => ?_
  obtain ⟨t, ht', e1, e2⟩ := h1 i s hs
  obtain ⟨u, hu, e3, e4⟩ := h2 i t ht'
  exact ⟨u, hu, ht _ _ _ e1 e3, ht _ _ _ e4 e2⟩

/-- **C43**.  A whole release history: if each release is append-only relative to
the previous one, each is so relative to every earlier one. -/
theorem C43_history
    (hl : PreorderLaws C.subsumeRaw) (rel : Nat → Lineage V)
    (h : ∀ n, isAppendOnly C (rel n) (rel (n + 1)) = .ok ()) {m n : Nat} (hmn : m ≤ n) :
    isAppendOnly C (rel m) (rel n) = .ok () := by
  induction hmn with
  | refl => exact C43_reflexive hl.refl _
  | step _ ih => exact C43_transitive hl.trans ih (h _)

theorem setCue_preorder : PreorderLaws SetCue.cue.subsumeRaw := by
  constructor
  · intro x; simp [SetCue.cue]
  · intro x y z h1 h2
    simp only [SetCue.cue, List.all_eq_true, List.contains_iff_mem] at *
    exact fun w hw => h1 _ (h2 _ hw)

theorem setCue_preorder_all : PreorderLaws SetCue.cue.subsumeAll := setCue_preorder

example : isAppendOnly SetCue.cue threeBound threeBound = .ok () :=
  C43_reflexive setCue_preorder.refl threeBound

example : ∃ a b c, SetCue.bind (SetCue.lin [SetCue.sch 0 0 [1]]) = .ok a ∧
    SetCue.bind (SetCue.lin [SetCue.sch 0 0 [1], SetCue.sch 0 1 [1, 2]]) = .ok b ∧
    SetCue.bind (SetCue.lin [SetCue.sch 0 0 [1], SetCue.sch 0 1 [2, 1], SetCue.sch 1 0 [3]]) =
      .ok c ∧ isAppendOnly SetCue.cue a c = .ok () :=
  ⟨_, _, _, rfl, rfl, rfl, C43_transitive setCue_preorder.trans
    (b := { name := "toy".toList, allsch := [⟨⟨0, 0⟩, [1], [1], []⟩, ⟨⟨0, 1⟩, [1, 2], [1, 2], []⟩],
            lenses := [], lensmap := [] }) rfl rfl⟩

/-- A history of releases, each with one more minor version. -/
example {m n : Nat} (h : m ≤ n) :
    let rel := fun k => (⟨"toy".toList, (List.range k).map fun i => ⟨⟨0, i⟩, [i], [i], []⟩, [], []⟩ :
      Lineage SetCue.Val)
    isAppendOnly SetCue.cue (rel m) (rel n) = .ok () := by
  intro rel
  refine C43_history setCue_preorder rel (fun k => ?_) h
  refine (C42_append_only_exact SetCue.cue (rel k) (rel (k + 1))).1.1 ?_
  intro i s hs
  refine ⟨s, ?_, setCue_preorder.refl _, setCue_preorder.refl _⟩
  obtain ⟨hi, he⟩ := List.getElem?_eq_some_iff.1 hs
  have hi' : i < k := by simpa [rel] using hi
  simp only [rel, List.getElem_map, List.getElem_range] at he
  rw [← he]
  simp [rel, show i < k + 1 by omega]

/-- A history in which a schema is added with every release, and one that drops
and one that changes a schema. -/
example :
    ∃ a b c d, SetCue.bind (SetCue.lin [SetCue.sch 0 0 [1]]) = .ok a ∧
      SetCue.bind (SetCue.lin [SetCue.sch 0 0 [1], SetCue.sch 0 1 [1, 2]]) = .ok b ∧
      SetCue.bind (SetCue.lin [SetCue.sch 0 0 [1], SetCue.sch 0 1 [2, 1], SetCue.sch 1 0 [3]])
        = .ok c ∧
      SetCue.bind (SetCue.lin [SetCue.sch 0 0 [1], SetCue.sch 0 1 [2, 1, 3]]) = .ok d ∧
      isAppendOnly SetCue.cue a b = .ok () ∧ isAppendOnly SetCue.cue b c = .ok () ∧
      (∃ e, isAppendOnly SetCue.cue c b = .err e) ∧ (∃ e, isAppendOnly SetCue.cue b d = .err e) :=
  ⟨_, _, _, _, rfl, rfl, rfl, rfl, rfl, rfl, ⟨_, rfl⟩, ⟨_, rfl⟩⟩

/-- The versions of a lineage that satisfies the compatibility rule and has no
gaps are determined by its complete schemas. -/
theorem versions_determined (hl : PreorderLaws C.subsumeAll)
    (ho : Contiguous (old.allsch.map (·.v))) (hn : Contiguous (new.allsch.map (·.v)))
    (hco : CompatRule C old.allsch) (hcn : CompatRule C new.allsch)
    (hb : ∀ i (h : i < old.allsch.length), ∃ h' : i < new.allsch.length,
      SameBody C old.allsch[i].body new.allsch[i].body) :
    ∀ i (h : i < old.allsch.length), ∃ h' : i < new.allsch.length,
      old.allsch[i].v = new.allsch[i].v := by
  intro i
  induction i with
  | zero =>
    intro h
    obtain ⟨h', _⟩ := hb 0 h
    refine ⟨h', ?_⟩
    have e1 := ho.1
    have e2 := hn.1
    rw [List.head?_eq_getElem?, List.getElem?_map, List.getElem?_eq_getElem h] at e1
    rw [List.head?_eq_getElem?, List.getElem?_map, List.getElem?_eq_getElem h'] at e2
    simp only [Option.map_some, Option.some.injEq] at e1 e2
    rw [e1, e2]
  | succ i ih =>
    intro h
    obtain ⟨h', hb1⟩ := hb (i + 1) h
    obtain ⟨h0', hb0⟩ := hb i (by omega)
    obtain ⟨_, he⟩ := ih (by omega)
    refine ⟨h', ?_⟩
    have n1 := ho.2 i (by simpa using h)
    have n2 := hn.2 i (by simpa using h')
    simp only [List.getElem_map] at n1 n2
    have c1 := hco i h
    have c2 := hcn i h'
    have hc : C.subsumeAll old.allsch[i + 1].body old.allsch[i].body = true ↔
        C.subsumeAll new.allsch[i + 1].body new.allsch[i].body = true :=
      ⟨fun hx => hl.trans _ _ _ hb1.2 (hl.trans _ _ _ hx hb0.1),
       fun hx => hl.trans _ _ _ hb1.1 (hl.trans _ _ _ hx hb0.2)⟩
    have hm : old.allsch[i + 1].v.minor ≠ 0 ↔ new.allsch[i + 1].v.minor ≠ 0 :=
      c1.trans (hc.trans c2.symm)
    rcases n1 with n1 | n1 <;> rcases n2 with n2 | n2
    · rw [n1, n2, he]
    · exact absurd (by rw [n2]) (hm.1 (by rw [n1]; exact Nat.succ_ne_zero _))
    · exact absurd (by rw [n1]) (hm.2 (by rw [n2]; exact Nat.succ_ne_zero _))
    · rw [n1, n2, he]

/-- **C44**.  Let two lineages be bound with the compatibility checks in force,
have no version gaps, and join the same thing to their schemas.  If `IsAppendOnly`
accepts the pair, then every version of the old lineage is a version of the new
one, `Schema` finds it there, and the two complete schemas are equal — although
`IsAppendOnly` itself looks at no version.  (It needs subsumption to be
transitive.) -/
theorem C44_versions_keep_schemas {force force' : Bool} {r r' : RawLineage V}
    {opts opts' : List (BindOption V)}
    (hbo : bindLineage C force r opts = .ok old) (hbn : bindLineage C force' r' opts' = .ok new)
    (hon : ChecksOn force opts) (hon' : ChecksOn force' opts')
    (hco : Contiguous old.allv) (hcn : Contiguous new.allv)
    (hl : PreorderLaws C.subsumeAll) (hj : SameJoin C old.allsch new.allsch)
    (h : isAppendOnly C old new = .ok ()) {v : SV} (hv : v ∈ old.allv) :
    ∃ p s t, old.Schema v = .ok p ∧ new.Schema v = .ok p ∧
      old.allsch[p]? = some s ∧ new.allsch[p]? = some t ∧ s.v = v ∧ t.v = v ∧
      SameValue C s.schema t.schema ∧ SameBody C s.body t.body := by
  have hk := ((C42_append_only_exact C old new).1).2 h
  have hb : ∀ i (h : i < old.allsch.length), ∃ h' : i < new.allsch.length,
      SameValue C old.allsch[i].schema new.allsch[i].schema ∧
      SameBody C old.allsch[i].body new.allsch[i].body := by
    intro i hi
    obtain ⟨t, ht, hs⟩ := hk i _ (List.getElem?_eq_getElem hi)
    obtain ⟨hi', rfl⟩ := List.getElem?_eq_some_iff.1 ht
    exact ⟨hi', hs, hj _ (List.getElem_mem _) _ (List.getElem_mem _) hs⟩
  have hd := versions_determined hl hco hcn (C11_compat_enforced hbo hon).1
    (C11_compat_enforced hbn hon').1 (fun i hi => ⟨(hb i hi).1, (hb i hi).2.2⟩)
  obtain ⟨p, hp, hlt, hver⟩ := schema_found (bind_sorted hbo) hv
  obtain ⟨hlt', hs1, hs2⟩ := hb p hlt
  obtain ⟨_, hvv⟩ := hd p hlt
  have hov : old.allsch[p].v = v := by
    rw [ver_lt hlt] at hver
    simpa [Lineage.allv] using hver
  have hnv : new.allsch[p].v = v := hvv ▸ hov
  have hmem : v ∈ new.allv := by
    rw [← hnv]
    exact List.mem_map_of_mem (List.getElem_mem hlt')
  obtain ⟨q, hq, hqlt, hqver⟩ := schema_found (bind_sorted hbn) hmem
  have : q = p := by
    apply StrictV.inj (Contiguous.strictV hcn) (by simpa [Lineage.allv] using hqlt)
      (by simpa [Lineage.allv] using hlt')
    rw [ver_lt hqlt] at hqver
    have hnv' : (new.allv)[p]'(by simpa [Lineage.allv] using hlt') = v := by
      simpa [Lineage.allv] using hnv
    rw [hnv']
    exact hqver
  subst this
  exact ⟨q, _, _, hp, hq, List.getElem?_eq_getElem hlt, List.getElem?_eq_getElem hlt', hov, hnv,
    hs1, hs2⟩

/-- Evidence that the hypotheses of `C44_versions_keep_schemas` are met by a pair
of different lineages. -/
example :
    let r := SetCue.lin [SetCue.sch 0 0 [1], SetCue.sch 0 1 [1, 2], SetCue.sch 1 0 [2]]
      [SetCue.lens ⟨0, 1⟩ ⟨0, 0⟩ [1], SetCue.lens ⟨1, 0⟩ ⟨0, 1⟩ [1], SetCue.lens ⟨0, 1⟩ ⟨1, 0⟩ [1]]
    let r' := SetCue.lin [SetCue.sch 0 0 [1], SetCue.sch 0 1 [2, 1], SetCue.sch 1 0 [2],
        SetCue.sch 1 1 [2, 3]]
      [SetCue.lens ⟨0, 1⟩ ⟨0, 0⟩ [1], SetCue.lens ⟨1, 0⟩ ⟨0, 1⟩ [1], SetCue.lens ⟨0, 1⟩ ⟨1, 0⟩ [1],
       SetCue.lens ⟨1, 1⟩ ⟨1, 0⟩ [2]]
    ∃ old new, bindLineage SetCue.cue false r [] = .ok old ∧
      bindLineage SetCue.cue false r' [] = .ok new ∧
      ChecksOn false ([] : List (BindOption SetCue.Val)) ∧
      old.allv = [⟨0, 0⟩, ⟨0, 1⟩, ⟨1, 0⟩] ∧ new.allv = [⟨0, 0⟩, ⟨0, 1⟩, ⟨1, 0⟩, ⟨1, 1⟩] ∧
      Contiguous old.allv ∧ Contiguous new.allv ∧
      PreorderLaws SetCue.cue.subsumeAll ∧ SameJoin SetCue.cue old.allsch new.allsch ∧
      isAppendOnly SetCue.cue old new = .ok () := by
  refine ⟨_, _, rfl, rfl, Or.inr (by simp), rfl, rfl, ?_, ?_, setCue_preorder_all, ?_, rfl⟩
  · refine ⟨rfl, ?_⟩
    intro i hi
    rcases i with _ | _ | i
    · left; rfl
    · right; rfl
    · exact absurd hi (by simp [Lineage.allv])
  · refine ⟨rfl, ?_⟩
    intro i hi
    rcases i with _ | _ | _ | i
    · left; rfl
    · right; rfl
    · left; rfl
    · exact absurd hi (by simp [Lineage.allv])
  · intro s hs t ht h
    simp only [List.mem_cons, List.not_mem_nil, or_false] at hs ht
    rcases hs with rfl | rfl | rfl <;> rcases ht with rfl | rfl | rfl | rfl <;> exact h

/-- **C57** (partial).  What an accepted pair guarantees without further
conditions: nothing but the literals, by position.  (Same as one half of
`C42_append_only_exact`; missing is everything in `C57_contract_refuted`.) -/
theorem C57_positions_partial (h : isAppendOnly C old new = .ok ()) {p : Nat}
    {s : SchemaDef V} (hs : old.allsch[p]? = some s) :
    ∃ t : SchemaDef V, new.allsch[p]? = some t ∧ SameValue C s.schema t.schema :=
  ((C42_append_only_exact C old new).1).2 h p s hs

example : ∃ a b t, SetCue.bind (SetCue.lin [SetCue.sch 0 0 [1]]) = .ok a ∧
    SetCue.bind (SetCue.lin [SetCue.sch 0 0 [1], SetCue.sch 0 1 [1, 2]]) = .ok b ∧
    b.allsch[0]? = some t ∧ SameValue SetCue.cue [1] t.schema := by
  obtain ⟨a, b, ha, hb, h, hs⟩ : ∃ a b, SetCue.bind (SetCue.lin [SetCue.sch 0 0 [1]]) = .ok a ∧
      SetCue.bind (SetCue.lin [SetCue.sch 0 0 [1], SetCue.sch 0 1 [1, 2]]) = .ok b ∧
      isAppendOnly SetCue.cue a b = .ok () ∧ a.allsch[0]? = some ⟨⟨0, 0⟩, [1], [1], []⟩ :=
    ⟨_, _, rfl, rfl, rfl, rfl⟩
  obtain ⟨t, h1, h2⟩ := C57_positions_partial h hs
  exact ⟨a, b, t, ha, hb, h1, h2⟩

/-- A schema whose literal is joined with a further constraint. -/
def schJoined (major minor : Nat) (literal join : SetCue.Val) : RawSchema SetCue.Val :=
  { version := some ⟨major, minor⟩, schema := literal, body := SetCue.cue.unify literal join,
    examples := [] }

/-- **C57** (refutation).  `IsAppendOnly` accepts pairs of bound lineages in which
(1) a version disappeared by renumbering 0.1 to 0.2, with all checks in force;
(2) a version disappeared by renumbering 0.1 to 1.0, without compatibility checks
(the lineages are contiguous); (3) changing the joined schema made version 0.0
reject data it used to accept. -/
theorem C57_contract_refuted :
    (∃ old new, SetCue.bind (SetCue.lin [SetCue.sch 0 0 [1], SetCue.sch 0 1 [1, 2]]) = .ok old ∧
      SetCue.bind (SetCue.lin [SetCue.sch 0 0 [1], SetCue.sch 0 2 [1, 2]]) = .ok new ∧
      isAppendOnly SetCue.cue old new = .ok () ∧ (∃ p, old.Schema ⟨0, 1⟩ = .ok p) ∧
      new.Schema ⟨0, 1⟩ = .err ⟨[.versionNotExist]⟩) ∧
    (∃ old new,
      SetCue.bind (SetCue.lin [SetCue.sch 0 0 [1], SetCue.sch 0 1 [1, 2]]) = .ok old ∧
      bindLineage SetCue.cue false (SetCue.lin [SetCue.sch 0 0 [1], SetCue.sch 1 0 [1, 2]])
        [.skipBuggyChecks] = .ok new ∧
      isAppendOnly SetCue.cue old new = .ok () ∧ (∃ p, old.Schema ⟨0, 1⟩ = .ok p) ∧
      new.Schema ⟨0, 1⟩ = .err ⟨[.versionNotExist]⟩) ∧
    (∃ old new, SetCue.bind (SetCue.lin [schJoined 0 0 [1, 2] [1, 2, 3]]) = .ok old ∧
      SetCue.bind (SetCue.lin [schJoined 0 0 [1, 2] [1]]) = .ok new ∧
      isAppendOnly SetCue.cue old new = .ok () ∧
      (∃ i, validate SetCue.cue (fun _ => old) ⟨0, 0⟩ [2] = .ok i) ∧
      (∃ e, validate SetCue.cue (fun _ => new) ⟨0, 0⟩ [2] = .err e)) :=
  ⟨⟨_, _, rfl, rfl, rfl, ⟨_, rfl⟩, rfl⟩, ⟨_, _, rfl, rfl, rfl, ⟨_, rfl⟩, rfl⟩,
   ⟨_, _, rfl, rfl, rfl, ⟨_, rfl⟩, ⟨_, rfl⟩⟩⟩

end Thema.Props
