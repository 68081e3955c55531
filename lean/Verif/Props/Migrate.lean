import Verif.Props.Rewrite
import Verif.Props.TranslateCue
import Verif.Spec.Migrate

/-!
# Using a rewritten legacy lineage (C134)
-/

namespace Thema.Props

open Spec Thema.Rewrite Thema.Migrate

variable {V : Type} {C : Cue V} {K : Ctx V} {result : SV → SV → V → V} {bottom : V} {body : V → V}
  {name : Str} {seqs : List (Seq V Ast)} {force : Bool} {L : Lineage V} {H : Heap V} {i j : Inst V}
  {lacs : List Lac}

/-! ### Bodies of lenses -/

theorem eval_congr {S : Meaning V} {e e' : Str → V} (a : Ast) (h : ∀ n, Uses n a → e n = e' n) :
    eval S e a = eval S e' a := by
  induction a with
  | ident n => exact h n rfl
  | leaf => rfl
  | sel x l ih => simp only [eval]; rw [ih fun n hn => h n hn]
  | pair l r ihl ihr =>
    simp only [eval]
    rw [ihl fun n hn => h n (.inl hn), ihr fun n hn => h n (.inr hn)]

theorem mentions_of_uses {a : Ast} (h : Uses "from".toList a ∨ Uses "to".toList a) :
    Mentions a := by
  induction a with
  | ident n => exact h
  | leaf => rcases h with h | h <;> exact h
  | sel x l ih => exact ih h
  | pair l r ihl ihr =>
    rcases h with (h | h) | (h | h)
    · exact .inl (ihl (.inl h))
    · exact .inr (ihr (.inl h))
    · exact .inl (ihl (.inr h))
    · exact .inr (ihr (.inr h))

/-- **C134** (partial).  A legacy lens that uses `from` only as in `from.x`, and none of the names
`to`, `input`, `result`, computes after rewriting what it computed before, for all data.  Missing:
other lenses (`C134_deep_ignored`, `C134_captured`). -/
theorem C134_lens_partial (tgt : V) (frm tov : SV) (rel : Ast) (h : Plain rel) (x : V) :
    newRun K result bottom ⟨tov, frm, some rel⟩ x = legacyRun K tgt rel x := by
  unfold newRun legacyRun
  simp only
  generalize result frm tov x = y
  obtain ⟨h1, h2, h3, h4⟩ := h
  have same : ∀ a : Ast, ¬ Mentions a → ¬ Uses "input".toList a → ¬ Uses "result".toList a →
      eval K.S (newEnv K frm tov x y) a = eval K.S (legacyEnv K x tgt) a := by
    intro a ha hi hr
    refine eval_congr a ?_
    intro n hn
    have e1 : n ≠ "from".toList := by rintro rfl; exact ha (mentions_of_uses (.inl hn))
    have e2 : n ≠ "to".toList := by rintro rfl; exact ha (mentions_of_uses (.inr hn))
    have e3 : n ≠ "input".toList := by rintro rfl; exact hi hn
    have e4 : n ≠ "result".toList := by rintro rfl; exact hr hn
    unfold newEnv legacyEnv
    rw [if_neg e3, if_neg e4, if_neg e1, if_neg e2, if_neg e1, if_neg e2]
  induction rel with
  | ident n =>
    rw [show rewriteFromTo (.ident n) = .ident n from rfl]
    exact same _ h1 h3 h4
  | leaf => rfl
  | sel a l ih =>
    cases a with
    | ident n =>
      have hto : n ≠ "to".toList := h2
      have hin : n ≠ "input".toList := h3
      have hre : n ≠ "result".toList := h4
      simp only [rewriteFromTo]
      by_cases hf : n = "from".toList
      · rw [if_pos hf]
        simp only [eval]
        unfold newEnv legacyEnv
        rw [if_pos rfl, if_pos hf]
      · rw [if_neg hf, if_neg hto]
        simp only [eval]
        unfold newEnv legacyEnv
        rw [if_neg hin, if_neg hre, if_neg hf, if_neg hto, if_neg hf, if_neg hto]
    | leaf => rfl
    | sel b m => exact same _ h1 h3 h4
    | pair b c => exact same _ h1 h3 h4
  | pair l r ihl ihr =>
    simp only [rewriteFromTo, eval]
    rw [ihl h1.1 (fun h => h2 (.inl h)) (fun h => h3 (.inl h)) (fun h => h4 (.inl h)),
      ihr h1.2 (fun h => h2 (.inr h)) (fun h => h3 (.inr h)) (fun h => h4 (.inr h))]

/-- **C134** (refutation).  A legacy lens that selects deeper than one level, as in `from.a.b`,
does not depend on the data any more after rewriting: it selects from the version number. -/
theorem C134_deep_ignored (tgt : V) (frm tov : SV) (a b : Str) (x : V) :
    newRun K result bottom ⟨tov, frm, some (.sel (.sel (.ident "from".toList) a) b)⟩ x =
      K.S.sel (K.S.sel (K.version frm) a) b ∧
    legacyRun K tgt (.sel (.sel (.ident "from".toList) a) b) x = K.S.sel (K.S.sel x a) b :=
  ⟨rfl, rfl⟩

/-- **C134** (refutation).  A legacy lens that refers to something outside of it with the name
`input` gets the data instead after rewriting. -/
theorem C134_captured (tgt : V) (frm tov : SV) (a : Str) (x : V) :
    newRun K result bottom ⟨tov, frm, some (.sel (.ident "input".toList) a)⟩ x = K.S.sel x a ∧
    legacyRun K tgt (.sel (.ident "input".toList) a) x = K.S.sel (K.outer "input".toList) a :=
  ⟨rfl, rfl⟩

/-! ### The parts of a complete legacy lineage -/

theorem extractLoop_one {s : Seq V Ast} {b : V} (hb : s.schemas = [b]) {m : Nat} (last : Nat)
    (hm : m + 1 < 2 ^ 64) (rest : List (Seq V Ast)) :
    extractLoop m last (s :: rest) =
      (⟨⟨m, 0⟩, b⟩ :: (extractLoop (m + 1) 1 rest).1,
        crossLenses m last s ++ (extractLoop (m + 1) 1 rest).2) := by
  rw [extractLoop, hb]
  simp only [innerLoop]
  rw [uintSucc_lt hm, uintSucc_lt (by omega)]
  simp

theorem extractLoop_schemas (seqs : List (Seq V Ast)) : ∀ (m last : Nat),
    m + seqs.length < 2 ^ 64 → (∀ s ∈ seqs, ∃ b, s.schemas = [b]) →
    (extractLoop m last seqs).1.length = seqs.length ∧
    ∀ (i : Nat) (s : Seq V Ast) (b : V), seqs[i]? = some s → s.schemas = [b] →
      (extractLoop m last seqs).1[i]? = some ⟨⟨m + i, 0⟩, b⟩ := by
  induction seqs with
  | nil => intro m last _ _; simp [extractLoop]
  | cons s seqs ih =>
    intro m last hm hone
    simp only [List.length_cons] at hm
    obtain ⟨b, hb⟩ := hone s (by simp)
    rw [extractLoop_one hb last (by omega)]
    obtain ⟨h1, h2⟩ := ih (m + 1) 1 (by omega) (fun t ht => hone t (by simp [ht]))
    refine ⟨by simp [h1], ?_⟩
    intro i t c ht hc
    cases i with
    | zero =>
      simp only [List.getElem?_cons_zero, Option.some.injEq] at ht ⊢
      subst ht
      rw [hb] at hc
      simp only [List.cons.injEq, and_true] at hc
      subst hc; rfl
    | succ i =>
      simp only [List.getElem?_cons_succ] at ht ⊢
      rw [h2 i t c ht hc]
      congr 3
      omega

theorem mem_extractLoop_lens (seqs : List (Seq V Ast)) : ∀ (m : Nat),
    m + 1 + seqs.length < 2 ^ 64 → (∀ s ∈ seqs, ∃ b, s.schemas = [b]) → ∀ l,
    l ∈ (extractLoop (m + 1) 1 seqs).2 ↔ ∃ i s, seqs[i]? = some s ∧
      (l = ⟨⟨m + i, 0⟩, ⟨m + i + 1, 0⟩, s.reverse⟩ ∨
       l = ⟨⟨m + i + 1, 0⟩, ⟨m + i, 0⟩, s.forward⟩) := by
  induction seqs with
  | nil => intro m _ _ l; simp [extractLoop]
  | cons s seqs ih =>
    intro m hm hone l
    simp only [List.length_cons] at hm
    obtain ⟨b, hb⟩ := hone s (by simp)
    rw [extractLoop_one hb 1 (by omega)]
    have hc : crossLenses (m + 1) 1 s =
        [⟨⟨m, 0⟩, ⟨m + 1, 0⟩, s.reverse⟩, ⟨⟨m + 1, 0⟩, ⟨m, 0⟩, s.forward⟩] := by
      unfold crossLenses
      rw [if_pos (by omega), uintPred_succ (by omega), uintPred_succ (by omega)]
    simp only [List.mem_append, hc]
    rw [ih (m + 1) (by omega) (fun t ht => hone t (by simp [ht]))]
    simp only [List.mem_cons, List.not_mem_nil, or_false]
    constructor
    · rintro (h | ⟨i, t, ht, h⟩)
      · exact ⟨0, s, rfl, h⟩
      · refine ⟨i + 1, t, by simpa using ht, ?_⟩
        rw [show m + (i + 1) = m + 1 + i by omega]
        exact h
    · rintro ⟨i, t, ht, h⟩
      cases i with
      | zero =>
        simp only [List.getElem?_cons_zero, Option.some.injEq] at ht
        subst ht
        exact .inl h
      | succ i =>
        refine .inr ⟨i, t, by simpa using ht, ?_⟩
        rw [show m + 1 + i = m + (i + 1) by omega]
        exact h

theorem parts_schemas (hk : LegacyOk seqs) (hc : Complete seqs) :
    (extractParts seqs).1.length = seqs.length ∧
    ∀ (i : Nat) (s : Seq V Ast) (b : V), seqs[i]? = some s → s.schemas = [b] →
      (extractParts seqs).1[i]? = some ⟨⟨i, 0⟩, b⟩ := by
  have := extractLoop_schemas seqs 0 0 (by simpa using hk.fewSeqs) hc.one
  simpa [extractParts] using this

theorem mem_parts_lens (hk : LegacyOk seqs) (hc : Complete seqs) (l : LLens Ast) :
    l ∈ (extractParts seqs).2 ↔ ∃ i s, seqs[i + 1]? = some s ∧
      (l = ⟨⟨i, 0⟩, ⟨i + 1, 0⟩, s.reverse⟩ ∨ l = ⟨⟨i + 1, 0⟩, ⟨i, 0⟩, s.forward⟩) := by
  cases hs : seqs with
  | nil => simp [extractParts, extractLoop]
  | cons s rest =>
    have hl := hk.fewSeqs
    rw [hs, List.length_cons] at hl
    have hone := hc.one
    rw [hs] at hone
    obtain ⟨b, hb⟩ := hone s (by simp)
    unfold extractParts
    rw [extractLoop_one hb 0 (by omega)]
    simp only [crossLenses, ne_eq, not_true_eq_false, if_false, List.nil_append,
      List.getElem?_cons_succ]
    rw [mem_extractLoop_lens rest 0 (by omega) (fun t ht => hone t (by simp [ht]))]
    simp

/-! ### Binding -/

/-- The lineage that results. -/
def migratedLineage (K : Ctx V) (result : SV → SV → V → V) (bottom : V) (body : V → V) (name : Str)
    (seqs : List (Seq V Ast)) : Lineage V :=
  { name := name
    allsch := (extractParts seqs).1.map fun s =>
      { v := s.synv, schema := s.raw, body := body s.raw, examples := [] }
    lenses := (extractParts seqs).2.map fun l =>
      { frm := l.frm, «to» := l.to, run := newRun K result bottom l,
        lacunas := fun _ => [], bad := fun _ => l.body.isNone }
    lensmap := [] }

theorem migrated_cueLenses : cueLenses (migrated K result bottom body name seqs) =
    (migratedLineage K result bottom body name seqs).lenses := by
  unfold cueLenses migrated migratedLineage
  simp only [Option.getD_some]
  induction (extractParts seqs).2 with
  | nil => rfl
  | cons l ls ih => simp only [List.map_cons, List.filterMap_cons, RawLens.cue?, ih]

theorem migratedLineage_allv : (migratedLineage K result bottom body name seqs).allv =
    (extractParts seqs).1.map (·.synv) := by
  unfold migratedLineage Lineage.allv
  simp [Function.comp_def]

theorem migratedLineage_exact (hk : LegacyOk seqs) :
    ExactLenses (migratedLineage K result bottom body name seqs) := by
  unfold ExactLenses
  rw [migratedLineage_allv]
  have e : (migratedLineage K result bottom body name seqs).lenses.map
      (fun l => (⟨l.frm, l.to⟩ : LensID)) = (extractParts seqs).2.map pairOfLLens := by
    simp [migratedLineage, pairOfLLens, Function.comp_def]
  rw [e]
  exact ⟨(C49_required_lenses hk).2.1, (C49_required_lenses hk).1⟩

theorem parts_major (hk : LegacyOk seqs) {s : LSchema V}
    (hs : s ∈ (extractParts seqs).1) : s.synv.major < seqs.length := by
  obtain ⟨t, h1, _⟩ := (C48_schema_at hk s.synv s.raw).1 hs
  exact (List.getElem?_eq_some_iff.1 h1).1

/-- **C134** (partial).  The result of rewriting a complete legacy lineage of at most three
sequences, whose schemas break with each other and whose lenses have no errors, can be bound; the
lineage has the legacy schemas as versions 0.0, 1.0, 2.0, with exactly the lenses it needs.
Missing: lineages with a sequence of several schemas (`C134_unfinished`) or with more sequences
(`C27`). -/
theorem C134_binds_partial (hk : LegacyOk seqs) (hne : seqs ≠ []) (hc : Complete seqs)
    (hbr : Breaking C body seqs) (h3 : seqs.length ≤ 3)
    (hf : ∀ rel, LensBody seqs rel → K.faulty (rewriteFromTo rel) = false) :
    ∃ L, bindLineage C force (migrated K result bottom body name seqs) [] = .ok L ∧
      L.name = name ∧ L.allsch.length = seqs.length ∧
      (∀ (i : Nat) (s : Seq V Ast) (b : V), seqs[i]? = some s → s.schemas = [b] →
        L.allsch[i]? = some { v := ⟨i, 0⟩, schema := b, body := body b, examples := [] }) ∧
      ExactLenses L := by
  obtain ⟨hlen, hat⟩ := parts_schemas hk hc
  have hcont : Contiguous ((extractParts seqs).1.map (·.synv)) := (C48_schemas_in_order hk hne).2
  refine ⟨migratedLineage K result bottom body name seqs, bindLineage_ok.2 ⟨rfl, ⟨rfl, rfl, rfl, ?_⟩,
    ⟨?_, rfl⟩, ⟨?_, ?_⟩, ?_, rfl, migrated_cueLenses.symm⟩, rfl, ?_, ?_, ?_⟩
  · unfold lineageConstraints
    have e : concreteVersions (migrated K result bottom body name seqs).schemas =
        some ((extractParts seqs).1.map (·.synv)) := by
      unfold concreteVersions migrated
      simp only
      generalize (extractParts seqs).1 = xs
      induction xs with
      | nil => rfl
      | cons x xs ih => simp [ih]
    rw [e, Bool.and_eq_true]
    refine ⟨?_, C27_never_rejected_partial hcont ?_⟩
    · have : (extractParts seqs).1 ≠ [] := by
        intro h0
        rw [h0] at hlen
        exact hne (List.length_eq_zero_iff.1 hlen.symm)
      simp [migrated, this]
    · intro v hv
      obtain ⟨s, hs, rfl⟩ := List.mem_map.1 hv
      have := parts_major hk hs
      omega
  · simp only [migrated, List.any_eq_false]
    intro l hl
    obtain ⟨i, s, hs, hl⟩ := (mem_parts_lens hk hc l).1 hl
    obtain ⟨hfw, hrv⟩ := hc.lenses i s hs
    obtain ⟨f, hfw⟩ := Option.isSome_iff_exists.1 hfw
    obtain ⟨r, hrv⟩ := Option.isSome_iff_exists.1 hrv
    rcases hl with rfl | rfl
    · simp only [hrv]
      rw [hf r ⟨i, s, hs, .inr hrv⟩]; simp
    · simp only [hfw]
      rw [hf f ⟨i, s, hs, .inl hfw⟩]; simp
  · simp only [migrated, migratedLineage]
    rw [List.forall₂_map_left_iff, List.forall₂_map_right_iff]
    exact List.forall₂_same.2 fun x _ => ⟨rfl, rfl, rfl, rfl⟩
  · rw [List.isChain_iff_getElem]
    intro p hp
    have hp' : p + 1 < seqs.length := by
      simpa [migratedLineage, hlen] using hp
    obtain ⟨a, ha⟩ := hc.one seqs[p] (List.getElem_mem _)
    obtain ⟨b, hb⟩ := hc.one seqs[p + 1] (List.getElem_mem _)
    have ea := hat p _ a (List.getElem?_eq_getElem (by omega)) ha
    have eb := hat (p + 1) _ b (List.getElem?_eq_getElem hp') hb
    have ea' := (List.getElem?_eq_some_iff.1 ea).2
    have eb' := (List.getElem?_eq_some_iff.1 eb).2
    simp only [migratedLineage, List.getElem_map, ea', eb']
    refine ⟨?_, .inr ?_⟩
    · rw [Bool.eq_false_iff]
      intro h
      rw [less_iff] at h
      simp at h
      omega
    · simp only [ne_eq, not_true_eq_false, false_iff, Bool.not_eq_true]
      exact hbr p _ _ a b (List.getElem?_eq_getElem (by omega)) (List.getElem?_eq_getElem hp') ha hb
  · have hord : checkCueLensLoop none ((extractParts seqs).2.map fun l =>
        ({ «to» := some l.to, frm := some l.frm, run := newRun K result bottom l,
           lacunas := fun _ => [], bad := fun _ => l.body.isNone } : RawLens V)) = .ok () := by
      rw [checkCueLensLoop_ok]
      refine ⟨(extractParts seqs).2.map fun l => ⟨l.to, l.frm⟩, ?_, ?_⟩
      · rw [List.forall₂_map_left_iff, List.forall₂_map_right_iff]
        exact List.forall₂_same.2 fun x _ => ⟨rfl, rfl⟩
      · simp only [Option.toList, List.nil_append]
        rw [lensRel_chain_iff]
        simpa [Function.comp_def] using (C49_required_lenses hk).2.2
    simp only [checkLensesOrder, bindConfig, List.foldl_nil, List.length_nil, gt_iff_lt,
      Nat.lt_irrefl, if_false, migrated, hord]
    rfl
  · simp [migratedLineage, hlen]
  · intro i s b hs hb
    simp only [migratedLineage, List.getElem?_map, hat i s b hs hb, Option.map_some]
  · exact migratedLineage_exact hk

theorem extractLoop_unfinished (seqs : List (Seq V Ast)) : ∀ (m last : Nat),
    m + seqs.length < 2 ^ 64 → (∀ s ∈ seqs, s.schemas.length < 2 ^ 64) →
    ((∃ s ∈ seqs, 2 ≤ s.schemas.length) ∨
      ∃ i s, seqs[i]? = some s ∧ m + i ≠ 0 ∧ (s.forward = none ∨ s.reverse = none)) →
    ∃ l ∈ (extractLoop m last seqs).2, l.body = none := by
  induction seqs with
  | nil => intro m last _ _ h; simp at h
  | cons s seqs ih =>
    intro m last hm hsz h
    simp only [List.length_cons] at hm
    unfold extractLoop
    rw [uintSucc_lt (by omega)]
    simp only [List.mem_append]
    have here : 2 ≤ s.schemas.length → ∃ l ∈ (innerLoop (β := Ast) m 0 s.schemas).2.1,
        l.body = none := by
      intro h2
      match hx : s.schemas, h2 with
      | a :: b :: rest, _ =>
        refine ⟨⟨⟨m, uintPred 1⟩, ⟨m, 1⟩, none⟩, ?_, rfl⟩
        simp only [innerLoop]
        rw [uintSucc_lt (show 0 + 1 < 2 ^ 64 by omega)]
        simp
    have there : (∃ l ∈ (extractLoop (m + 1) (innerLoop (β := Ast) m 0 s.schemas).2.2 seqs).2,
        l.body = none) → ∃ l, ((l ∈ crossLenses m last s ∨
          l ∈ (innerLoop (β := Ast) m 0 s.schemas).2.1) ∨
          l ∈ (extractLoop (m + 1) (innerLoop (β := Ast) m 0 s.schemas).2.2 seqs).2) ∧
        l.body = none := fun ⟨l, h1, h2⟩ => ⟨l, .inr h1, h2⟩
    have ih := ih (m + 1) (innerLoop (β := Ast) m 0 s.schemas).2.2 (by omega)
      (fun t ht => hsz t (by simp [ht]))
    rcases h with ⟨t, ht, h2⟩ | ⟨k, t, ht, hk, h2⟩
    · rcases List.mem_cons.1 ht with rfl | ht
      · obtain ⟨l, h1, h3⟩ := here h2
        exact ⟨l, .inl (.inr h1), h3⟩
      · exact there (ih (.inl ⟨t, ht, h2⟩))
    · cases k with
      | zero =>
        simp only [List.getElem?_cons_zero, Option.some.injEq] at ht
        subst ht
        have hm0 : m ≠ 0 := by simpa using hk
        rcases h2 with h2 | h2
        · exact ⟨⟨⟨m, 0⟩, ⟨uintPred m, uintPred last⟩, s.forward⟩,
            .inl (.inl (by simp [crossLenses, hm0])), h2⟩
        · exact ⟨⟨⟨uintPred m, uintPred last⟩, ⟨m, 0⟩, s.reverse⟩,
            .inl (.inl (by simp [crossLenses, hm0])), h2⟩
      | succ k =>
        exact there (ih (.inr ⟨k, t, by simpa using ht, by omega, h2⟩))

/-- **C134** (refutation).  If a sequence of the legacy lineage has more than one schema, or lacks
a lens, the result of rewriting it can not be bound, whatever options are given: the lenses to write
by hand are errors. -/
theorem C134_unfinished (hk : LegacyOk seqs)
    (h : (∃ s ∈ seqs, 2 ≤ s.schemas.length) ∨
      ∃ i s, seqs[i + 1]? = some s ∧ (s.forward = none ∨ s.reverse = none))
    (opts : List (BindOption V)) :
    bindLineage C force (migrated K result bottom body name seqs) opts =
      .err ⟨[.invalidLineage]⟩ := by
  have hr : (migrated K result bottom body name seqs).rawErr = true := by
    obtain ⟨l, h1, h2⟩ := extractLoop_unfinished seqs 0 0 (by simpa using hk.fewSeqs) hk.fewSchemas
      (h.imp id fun ⟨i, s, h1, h2⟩ => ⟨i + 1, s, h1, by omega, h2⟩)
    simp only [migrated, List.any_eq_true]
    exact ⟨l, h1, by rw [h2]⟩
  have he : checkExists (migrated K result bottom body name seqs) = .ok () := rfl
  have hv : checkNativeValidity (migrated K result bottom body name seqs) =
      .err ⟨[.invalidLineage]⟩ := by
    unfold checkNativeValidity; rw [hr]; rfl
  have hsh : checkLineageShape (migrated K result bottom body name seqs) = .ok () ∨
      checkLineageShape (migrated K result bottom body name seqs) = .err ⟨[.invalidLineage]⟩ := by
    unfold checkLineageShape
    have e1 : checkField (migrated K result bottom body name seqs).nameField = .ok () := rfl
    have e2 : checkField (migrated K result bottom body name seqs).schemasField = .ok () := rfl
    rw [e1, e2]
    simp only [Res.bind]
    split
    · exact .inr rfl
    · exact .inl rfl
  unfold bindLineage
  simp only [he, hv]
  rcases hsh with h | h <;> rw [h] <;> rfl

/-! ### Translating -/

section

variable (hk : LegacyOk seqs) (hc : Complete seqs)
  (hb : bindLineage C force (migrated K result bottom body name seqs) [] = .ok L)

include hb in
theorem migrated_bound : L = migratedLineage K result bottom body name seqs := by
  obtain ⟨_, _, _, ⟨h4, _⟩, h5, h6, h7⟩ := bindLineage_ok.1 hb
  have h8 := bind_lensmap_nil hb rfl
  have ha : L.allsch = (migratedLineage K result bottom body name seqs).allsch := by
    simp only [migrated, List.forall₂_map_left_iff] at h4
    simp only [migratedLineage]
    generalize (extractParts seqs).1 = xs at h4
    generalize L.allsch = ys at h4
    induction h4 with
    | nil => rfl
    | @cons x y _ _ h _ ih =>
      obtain ⟨g1, g2, g3, g4⟩ := h
      simp only [Option.some.injEq] at g1
      rw [List.map_cons, ← ih]
      cases y
      simp only at g1 g2 g3 g4
      subst g1; subst g2; subst g3; subst g4
      rfl
  rw [migrated_cueLenses] at h7
  cases L
  simp only at ha h6 h7 h8
  subst ha; subst h6; subst h7; subst h8
  rfl

include hk hc hb in
theorem migrated_at {p : Nat} {s : Seq V Ast} {b : V} (hs : seqs[p]? = some s)
    (hsb : s.schemas = [b]) : ∃ h : p < L.allsch.length,
      L.allsch[p] = { v := ⟨p, 0⟩, schema := b, body := body b, examples := [] } ∧
      L.ver p = ⟨p, 0⟩ := by
  have hL := migrated_bound hb
  have : L.allsch[p]? = some { v := ⟨p, 0⟩, schema := b, body := body b, examples := [] } := by
    rw [hL]
    simp only [migratedLineage, List.getElem?_map, (parts_schemas hk hc).2 p s b hs hsb,
      Option.map_some]
  obtain ⟨h1, h2⟩ := List.getElem?_eq_some_iff.1 this
  refine ⟨h1, h2, ?_⟩
  rw [ver_lt h1]
  simp [Lineage.allv, h2]

include hk hc hb in
theorem migrated_length : L.allsch.length = seqs.length := by
  rw [migrated_bound hb]
  simp [migratedLineage, (parts_schemas hk hc).1]

include hk hc hb in
theorem migrated_has (p : Nat) (h : p < L.allsch.length) : ∃ s b, seqs[p]? = some s ∧
    s.schemas = [b] := by
  rw [migrated_length hk hc hb] at h
  obtain ⟨b, hsb⟩ := hc.one seqs[p] (List.getElem_mem _)
  exact ⟨_, b, List.getElem?_eq_getElem h, hsb⟩

include hk hc hb in
theorem migrated_lens (l : CueLens V) : l ∈ L.lenses ↔ ∃ i s, seqs[i + 1]? = some s ∧
    ∃ ll : LLens Ast, (ll = ⟨⟨i, 0⟩, ⟨i + 1, 0⟩, s.reverse⟩ ∨
      ll = ⟨⟨i + 1, 0⟩, ⟨i, 0⟩, s.forward⟩) ∧
    l = { frm := ll.frm, «to» := ll.to, run := newRun K result bottom ll,
          lacunas := fun _ => [], bad := fun _ => ll.body.isNone } := by
  rw [migrated_bound hb]
  simp only [migratedLineage, List.mem_map]
  constructor
  · rintro ⟨ll, h1, rfl⟩
    obtain ⟨i, s, h2, h3⟩ := (mem_parts_lens hk hc ll).1 h1
    exact ⟨i, s, h2, ll, h3, rfl⟩
  · rintro ⟨i, s, h2, ll, h3, rfl⟩
    exact ⟨ll, (mem_parts_lens hk hc ll).2 ⟨i, s, h2, h3⟩, rfl⟩

variable (hpl : ∀ rel, LensBody seqs rel → Plain rel)

include hk hc hb hpl in
theorem stepUp_legacy {p : Nat} {x x' : V} : StepUp C L p x x' ↔ ∃ s rel b,
    seqs[p + 1]? = some s ∧ s.forward = some rel ∧ s.schemas = [b] ∧
    C.isErr (C.embed (legacyRun K b rel x) (body b)) = false ∧
    x' = C.embed (legacyRun K b rel x) (body b) := by
  constructor
  · intro h
    cases h with
    | minor h hm _ =>
      obtain ⟨s, b, hs, hsb⟩ := migrated_has hk hc hb p (by omega)
      obtain ⟨t, c, ht, htc⟩ := migrated_has hk hc hb (p + 1) h
      rw [(migrated_at hk hc hb hs hsb).2.2, (migrated_at hk hc hb ht htc).2.2] at hm
      simp at hm
    | major h hm l hl hfr hto hw =>
      obtain ⟨s, b, hs, hsb⟩ := migrated_has hk hc hb p (by omega)
      obtain ⟨t, c, ht, htc⟩ := migrated_has hk hc hb (p + 1) h
      obtain ⟨h1, h2, h3⟩ := migrated_at hk hc hb ht htc
      rw [(migrated_at hk hc hb hs hsb).2.2] at hfr
      rw [h3] at hto
      obtain ⟨i, u, hu, ll, hll, rfl⟩ := (migrated_lens hk hc hb l).1 hl
      rcases hll with rfl | rfl
      · simp only [SV.mk.injEq, and_true] at hfr hto; omega
      · simp only [SV.mk.injEq, and_true] at hfr hto
        subst hfr
        rw [ht] at hu
        cases hu
        obtain ⟨rel, hrel⟩ := Option.isSome_iff_exists.1 (hc.lenses i t ht).1
        have hp := hpl rel ⟨i, t, ht, .inl hrel⟩
        have e := C134_lens_partial (K := K) (result := result) (bottom := bottom) c ⟨i, 0⟩
          ⟨i + 1, 0⟩ rel hp x
        obtain ⟨_, w2, _⟩ := hw
        simp only [hrel, h2] at w2 ⊢
        rw [e] at w2
        rw [e]
        exact ⟨t, rel, c, ht, hrel, htc, w2, rfl⟩
  · rintro ⟨s, rel, b, hs, hrel, hsb, hok, rfl⟩
    obtain ⟨h1, h2, h3⟩ := migrated_at hk hc hb hs hsb
    obtain ⟨t, c, ht, htc⟩ := migrated_has hk hc hb p (by omega)
    obtain ⟨g1, g2, g3⟩ := migrated_at hk hc hb ht htc
    have hp := hpl rel ⟨p, s, hs, .inl hrel⟩
    have e := C134_lens_partial (K := K) (result := result) (bottom := bottom) b ⟨p, 0⟩
      ⟨p + 1, 0⟩ rel hp x
    have hbody : L.allsch[p + 1].body = body b := by rw [h2]
    rw [← e, ← hbody]
    refine .major h1 (by rw [g3, h3]; simp)
      { frm := ⟨p, 0⟩, «to» := ⟨p + 1, 0⟩, run := newRun K result bottom ⟨⟨p + 1, 0⟩, ⟨p, 0⟩, some rel⟩,
        lacunas := fun _ => [], bad := fun _ => false } ?_ g3.symm h3.symm ?_
    · refine (migrated_lens hk hc hb _).2 ⟨p, s, hs, ⟨⟨p + 1, 0⟩, ⟨p, 0⟩, s.forward⟩, .inr rfl, ?_⟩
      rw [hrel]; rfl
    · refine ⟨rfl, ?_, fun _ lac hlac => absurd hlac (by simp)⟩
      simp only
      rw [e, hbody]; exact hok

include hk hc hb hpl in
theorem stepDown_legacy {p : Nat} {x x' : V} : StepDown C L p x x' ↔ ∃ s t rel b,
    seqs[p + 1]? = some s ∧ seqs[p]? = some t ∧ s.reverse = some rel ∧ t.schemas = [b] ∧
    C.isErr (C.embed (legacyRun K b rel x) (body b)) = false ∧
    x' = C.embed (legacyRun K b rel x) (body b) := by
  constructor
  · intro h
    cases h with
    | lens h l hl hfr hto hw =>
      obtain ⟨s, b, hs, hsb⟩ := migrated_has hk hc hb p (by omega)
      obtain ⟨t, c, ht, htc⟩ := migrated_has hk hc hb (p + 1) h
      obtain ⟨h1, h2, h3⟩ := migrated_at hk hc hb hs hsb
      rw [(migrated_at hk hc hb ht htc).2.2] at hfr
      rw [h3] at hto
      obtain ⟨i, u, hu, ll, hll, rfl⟩ := (migrated_lens hk hc hb l).1 hl
      rcases hll with rfl | rfl
      · simp only [SV.mk.injEq, and_true] at hfr hto
        subst hto
        rw [ht] at hu
        cases hu
        obtain ⟨rel, hrel⟩ := Option.isSome_iff_exists.1 (hc.lenses i t ht).2
        have hp := hpl rel ⟨i, t, ht, .inr hrel⟩
        have e := C134_lens_partial (K := K) (result := result) (bottom := bottom) b ⟨i + 1, 0⟩
          ⟨i, 0⟩ rel hp x
        obtain ⟨_, w2, _⟩ := hw
        simp only [hrel, h2] at w2 ⊢
        rw [e] at w2
        rw [e]
        exact ⟨t, s, rel, b, ht, hs, hrel, hsb, w2, rfl⟩
      · simp only [SV.mk.injEq, and_true] at hfr hto; omega
  · rintro ⟨s, t, rel, b, hs, ht, hrel, hsb, hok, rfl⟩
    obtain ⟨h1, h2, h3⟩ := migrated_at hk hc hb ht hsb
    obtain ⟨c, hsc⟩ := hc.one s (List.mem_of_getElem? hs)
    obtain ⟨g1, g2, g3⟩ := migrated_at hk hc hb hs hsc
    have hp := hpl rel ⟨p, s, hs, .inr hrel⟩
    have e := C134_lens_partial (K := K) (result := result) (bottom := bottom) b ⟨p + 1, 0⟩
      ⟨p, 0⟩ rel hp x
    have hbody : L.allsch[p].body = body b := by rw [h2]
    rw [← e, ← hbody]
    refine .lens g1
      { frm := ⟨p + 1, 0⟩, «to» := ⟨p, 0⟩, run := newRun K result bottom ⟨⟨p, 0⟩, ⟨p + 1, 0⟩, some rel⟩,
        lacunas := fun _ => [], bad := fun _ => false } ?_ g3.symm h3.symm ?_
    · refine (migrated_lens hk hc hb _).2 ⟨p, s, hs, ⟨⟨p, 0⟩, ⟨p + 1, 0⟩, s.reverse⟩, .inl rfl, ?_⟩
      rw [hrel]; rfl
    · refine ⟨rfl, ?_, fun _ lac hlac => absurd hlac (by simp)⟩
      simp only
      rw [e, hbody]; exact hok

include hk hc hb hpl in
theorem ascend_legacy {p q : Nat} {x y : V} : Ascend C L p x q y ↔ LegacyUp C K body seqs p x q y := by
  constructor
  · intro h
    induction h with
    | refl => exact .refl _ _
    | step h _ ih =>
      obtain ⟨s, rel, b, h1, h2, h3, h4, rfl⟩ := (stepUp_legacy hk hc hb hpl).1 h
      exact .step h1 h2 h3 h4 ih
  · intro h
    induction h with
    | refl => exact .refl _ _
    | step h1 h2 h3 h4 _ ih =>
      exact .step ((stepUp_legacy hk hc hb hpl).2 ⟨_, _, _, h1, h2, h3, h4, rfl⟩) ih

include hk hc hb hpl in
theorem descend_legacy {p q : Nat} {x y : V} :
    Descend C L p x q y ↔ LegacyDown C K body seqs p x q y := by
  constructor
  · intro h
    induction h with
    | refl => exact .refl _ _
    | step h _ ih =>
      obtain ⟨s, t, rel, b, h1, h2, h3, h4, h5, rfl⟩ := (stepDown_legacy hk hc hb hpl).1 h
      exact .step h1 h2 h3 h4 h5 ih
  · intro h
    induction h with
    | refl => exact .refl _ _
    | step h1 h2 h3 h4 h5 _ ih =>
      exact .step ((stepDown_legacy hk hc hb hpl).2 ⟨_, _, _, _, h1, h2, h3, h4, h5, rfl⟩) ih

include hk hc hb hpl in
/-- **C134** (partial).  In the lineage bound after rewriting a complete legacy lineage of at most
three sequences with plain lenses, translating an instance from sequence `p` to sequence `q`
succeeds exactly if going from sequence to sequence with the *legacy* lenses does and the result is
acceptable there; and then returns that.  Missing: as for `C134_binds_partial` and
`C134_lens_partial`. -/
theorem C134_translates_partial (h3 : seqs.length ≤ 3) (hH : H i.sch.lin = L)
    (hv : i.valid = true) (hst : C.isStruct i.raw = true) (hp : i.sch.pos < seqs.length) {q : Nat}
    (hq : q < seqs.length) (n : Nat) :
    translate C H (n + 1) i ⟨q, 0⟩ = .ok (j, lacs) ↔
      lacs = [] ∧ ∃ y, ((i.sch.pos ≤ q ∧ LegacyUp C K body seqs i.sch.pos i.raw q y) ∨
        (q ≤ i.sch.pos ∧ LegacyDown C K body seqs i.sch.pos i.raw q y)) ∧
        Delivers C L ⟨i.sch.lin, q⟩ y j := by
  have hlen := migrated_length hk hc hb
  have hne : seqs ≠ [] := by rintro rfl; simp at hq
  have hcont : Contiguous L.allv := by
    rw [migrated_bound hb, migratedLineage_allv]
    exact (C48_schemas_in_order hk hne).2
  have hex : ExactLenses L := by
    rw [migrated_bound hb]
    exact migratedLineage_exact hk
  have hver : ∀ k, k < seqs.length → L.ver k = ⟨k, 0⟩ := by
    intro k hk'
    obtain ⟨s, b, hs, hsb⟩ := migrated_has hk hc hb k (by omega)
    exact (migrated_at hk hc hb hs hsb).2.2
  have key := C25_translate_partial (j := j) (lacs := lacs) hb rfl hcont hex hH hv hst
    (by omega) (by rw [hver _ hp]; simp only; omega) (q := q) (by omega)
    (by rw [hver _ hq]; simp only; omega) n
  rw [hver q hq] at key
  rw [key]
  simp only [Walk, ascend_legacy hk hc hb hpl, descend_legacy hk hc hb hpl]

end

/-! ### Examples -/

/-- Selecting `up` adds one, everything else takes one away. -/
def toyCtx : Ctx SetCue.Val :=
  { S := { leaf := [], sel := fun v l => v.map fun n => if l = "up".toList then n + 1 else n - 1,
           pair := fun a b => a ++ b }
    outer := fun _ => [], version := fun v => [v.major, v.minor], faulty := fun _ => false }

/-- A legacy lineage of two sequences, with lenses `from.up` and `from.down`. -/
def toyLegacy : List (Seq SetCue.Val Ast) :=
  [⟨[[1]], none, none⟩,
   ⟨[[2]], some (.sel (.ident "from".toList) "up".toList),
     some (.sel (.ident "from".toList) "down".toList)⟩]

theorem toyLegacy_ok : LegacyOk toyLegacy := by
  constructor
  · intro s hs
    simp only [toyLegacy, List.mem_cons, List.not_mem_nil, or_false] at hs
    rcases hs with rfl | rfl <;> simp
  · simp [toyLegacy]
  · intro s hs
    simp only [toyLegacy, List.mem_cons, List.not_mem_nil, or_false] at hs
    rcases hs with rfl | rfl <;> simp

theorem toyLegacy_complete : Complete toyLegacy := by
  constructor
  · intro s hs
    simp only [toyLegacy, List.mem_cons, List.not_mem_nil, or_false] at hs
    rcases hs with rfl | rfl
    · exact ⟨_, rfl⟩
    · exact ⟨_, rfl⟩
  · intro i s hs
    match i, hs with
    | 0, hs => cases hs; exact ⟨rfl, rfl⟩
    | i + 1, hs => simp [toyLegacy] at hs

theorem toyLegacy_plain (rel : Ast) (h : LensBody toyLegacy rel) : Plain rel := by
  obtain ⟨i, s, hs, h⟩ := h
  match i, hs with
  | 0, hs =>
    cases hs
    rcases h with h | h <;> cases h <;>
      exact ⟨trivial, by simp [Uses], by simp [Uses], by simp [Uses]⟩
  | i + 1, hs => simp [toyLegacy] at hs

theorem toyLegacy_breaking : Breaking SetCue.cue id toyLegacy := by
  intro i s t a b hs ht ha hb
  match i, hs, ht with
  | 0, hs, ht =>
    cases hs; cases ht; cases ha; cases hb; rfl
  | i + 1, hs, ht => simp [toyLegacy] at ht

/-- The lineage bound after rewriting `toyLegacy`. -/
def toyMigrated : Lineage SetCue.Val := migratedLineage toyCtx (fun _ _ _ => []) [] id [] toyLegacy

/-- `toyLegacy` meets the hypotheses of `C134_binds_partial` and `C134_translates_partial`; after
rewriting it binds, and data goes up and down with the legacy lenses. -/
example : bindLineage SetCue.cue false (migrated toyCtx (fun _ _ _ => []) [] id [] toyLegacy) [] =
      .ok toyMigrated ∧
    translate SetCue.cue (fun _ => toyMigrated) 1 (instAt 0 [1]) ⟨1, 0⟩ = .ok (instAt 1 [2], []) ∧
    translate SetCue.cue (fun _ => toyMigrated) 1 (instAt 1 [2]) ⟨0, 0⟩ = .ok (instAt 0 [1], []) ∧
    ∃ y, LegacyUp SetCue.cue toyCtx id toyLegacy 0 [1] 1 y := by
  obtain ⟨L, hL, _⟩ := C134_binds_partial (C := SetCue.cue) (K := toyCtx) (force := false)
    (result := fun _ _ _ => []) (bottom := []) (body := id) (name := []) toyLegacy_ok
    (by simp [toyLegacy]) toyLegacy_complete toyLegacy_breaking (by simp [toyLegacy])
    (fun _ _ => rfl)
  have e : L = toyMigrated := migrated_bound hL
  subst e
  have h1 : translate SetCue.cue (fun _ => toyMigrated) 1 (instAt 0 [1]) ⟨1, 0⟩ =
      .ok (instAt 1 [2], []) := by rfl
  refine ⟨hL, h1, by rfl, ?_⟩
  obtain ⟨_, y, hw, _⟩ := (C134_translates_partial (H := fun _ => toyMigrated) (i := instAt 0 [1])
    (q := 1) toyLegacy_ok toyLegacy_complete hL toyLegacy_plain (by decide) rfl rfl rfl
    (by decide) (by decide) 0).1 h1
  rcases hw with ⟨_, hw⟩ | ⟨h, _⟩
  · exact ⟨y, hw⟩
  · simp [instAt] at h

/-- A sequence of two schemas: the hypotheses of `C134_unfinished` are met. -/
example : LegacyOk [(⟨[[1], [1, 2]], none, none⟩ : Seq SetCue.Val Ast)] ∧
    bindLineage SetCue.cue false (migrated toyCtx (fun _ _ _ => []) [] id []
      [(⟨[[1], [1, 2]], none, none⟩ : Seq SetCue.Val Ast)]) [] = .err ⟨[.invalidLineage]⟩ := by
  have h : LegacyOk [(⟨[[1], [1, 2]], none, none⟩ : Seq SetCue.Val Ast)] :=
    ⟨by simp, by simp, by simp⟩
  exact ⟨h, C134_unfinished h (.inl ⟨_, List.mem_cons_self, by simp⟩) []⟩

/-- A body that is a pair of `from.up` and something else is plain, and keeps its value. -/
example : Plain (.pair (.sel (.ident "from".toList) "up".toList) .leaf) ∧
    newRun toyCtx (fun _ _ _ => []) [] ⟨⟨1, 0⟩, ⟨0, 0⟩,
      some (.pair (.sel (.ident "from".toList) "up".toList) .leaf)⟩ [4] = [5] :=
  ⟨⟨⟨trivial, trivial⟩, by simp [Uses], by simp [Uses], by simp [Uses]⟩, by rfl⟩

/-- `from.up.up` gives the same for all data after rewriting, but not before. -/
example : newRun toyCtx (fun _ _ _ => []) [] ⟨⟨1, 0⟩, ⟨0, 0⟩,
      some (.sel (.sel (.ident "from".toList) "up".toList) "up".toList)⟩ [4] = [2, 2] ∧
    legacyRun toyCtx [] (.sel (.sel (.ident "from".toList) "up".toList) "up".toList) [4] = [6] :=
  ⟨by rfl, by rfl⟩

end Thema.Props
