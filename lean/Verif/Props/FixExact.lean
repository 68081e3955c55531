import Verif.Spec.FixExact
import Verif.Props.Fix

/-!
# C182, C183: what `lineage fix` does, exactly
-/

namespace Thema.Props

open Thema Spec Rewrite Fix

variable {S L : Syn} {rw' : Syn → Syn} {seqs : List (Seq Source Lens)}

/-! ### Replacing -/

mutual
theorem visit_replace (hS : ¬ HasField seqsName S) :
    ∀ t, ∃ N, ∀ n ≥ N, visit S L n t = some (replaceSeqs S L t)
  | .leaf x => ⟨1, fun n hn => by
      cases n with
      | zero => omega
      | succ n => simp only [visit, replaceSeqs]⟩
  | .struct ds => by
    obtain ⟨N, hN⟩ := visitDecls_replace hS ds
    exact ⟨N + 1, fun n hn => by
      cases n with
      | zero => omega
      | succ n => simp only [visit, replaceSeqs, hN n (by omega), Option.map_some]⟩
  | .list es => by
    obtain ⟨N, hN⟩ := visitAll_replace hS es
    exact ⟨N + 1, fun n hn => by
      cases n with
      | zero => omega
      | succ n => simp only [visit, replaceSeqs, hN n (by omega), Option.map_some]⟩
  | .expr k es => by
    obtain ⟨N, hN⟩ := visitAll_replace hS es
    exact ⟨N + 1, fun n hn => by
      cases n with
      | zero => omega
      | succ n => simp only [visit, replaceSeqs, hN n (by omega), Option.map_some]⟩

theorem visitDecls_replace (hS : ¬ HasField seqsName S) :
    ∀ ds, ∃ N, ∀ n ≥ N, visitDecls (visit S L n) S L ds = some (replaceDecls S L ds)
  | [] => ⟨0, fun n _ => by simp only [visitDecls, replaceDecls]⟩
  | (l, v) :: ds => by
    obtain ⟨N1, h1⟩ := visitDecls_replace hS ds
    obtain ⟨N2, h2⟩ := visit_replace hS v
    obtain ⟨N3, h3⟩ := visit_same (S := S) (L := L) S hS
    refine ⟨N1 + N2 + N3, fun n hn => ?_⟩
    simp only [visitDecls, replaceDecls, h1 n (by omega), h2 n (by omega), h3 n (by omega)]
    by_cases hl : l = some seqsName
    · rw [if_pos hl, if_pos (by exact hl)]; rfl
    · rw [if_neg hl, if_neg (by exact hl)]; rfl

theorem visitAll_replace (hS : ¬ HasField seqsName S) :
    ∀ es, ∃ N, ∀ n ≥ N, visitAll (visit S L n) es = some (replaceEach S L es)
  | [] => ⟨0, fun n _ => by simp only [visitAll, replaceEach]⟩
  | e :: es => by
    obtain ⟨N1, h1⟩ := visitAll_replace hS es
    obtain ⟨N2, h2⟩ := visit_replace hS e
    refine ⟨N1 + N2, fun n hn => ?_⟩
    simp only [visitAll, replaceEach, h1 n (by omega), h2 n (by omega)]
    rfl
end

mutual
/-- Where there is no field `seqs`, nothing is replaced. -/
theorem replaceSeqs_same : ∀ t, ¬ HasField "seqs".toList t → replaceSeqs S L t = t
  | .leaf x, _ => by simp only [replaceSeqs]
  | .struct ds, h => by
    simp only [replaceSeqs]
    rw [replaceDecls_same ds (fun l v hm => ⟨fun he => h (.here (v := v) (he ▸ hm)),
      fun hf => h (.decl hm hf)⟩)]
  | .list es, h => by
    simp only [replaceSeqs]
    rw [replaceEach_same es (fun e he hf => h (.elem he hf))]
  | .expr k es, h => by
    simp only [replaceSeqs]
    rw [replaceEach_same es (fun e he hf => h (.part he hf))]

theorem replaceDecls_same : ∀ ds : List (Option Str × Syn),
    (∀ l v, (l, v) ∈ ds → l ≠ some "seqs".toList ∧ ¬ HasField "seqs".toList v) →
    replaceDecls S L ds = ds
  | [], _ => by simp only [replaceDecls]
  | (l, v) :: ds, h => by
    simp only [replaceDecls]
    rw [if_neg (h l v (List.mem_cons_self ..)).1,
      replaceSeqs_same v (h l v (List.mem_cons_self ..)).2,
      replaceDecls_same ds (fun l v hm => h l v (List.mem_cons_of_mem _ hm))]
    rfl

theorem replaceEach_same : ∀ es : List Syn, (∀ e ∈ es, ¬ HasField "seqs".toList e) →
    replaceEach S L es = es
  | [], _ => by simp only [replaceEach]
  | e :: es, h => by
    simp only [replaceEach]
    rw [replaceSeqs_same e (h e (List.mem_cons_self ..)),
      replaceEach_same es (fun x hx => h x (List.mem_cons_of_mem _ hx))]
end

/-- Visiting ends exactly if the schemas have no field `seqs` or there is none to replace. -/
theorem visit_outcome (t : Syn) :
    (¬ (HasField seqsName S ∧ HasField seqsName t) →
      ∃ N, ∀ n ≥ N, visit S L n t = some (replaceSeqs S L t)) ∧
    (HasField seqsName S ∧ HasField seqsName t → ∀ n, visit S L n t = none) := by
  refine ⟨fun h => ?_, fun h n => visit_endless h.1 n t h.2⟩
  by_cases hS : HasField seqsName S
  · have ht : ¬ HasField seqsName t := fun ht => h ⟨hS, ht⟩
    rw [replaceSeqs_same t ht]
    exact visit_same t ht
  · exact visit_replace hS t

/-! ### The parts -/

theorem innerLoop_zip (m : Nat) : ∀ (xs : List Source) (k : Nat), k + xs.length < 2 ^ 64 →
    (innerLoop (β := Lens) m k xs).1 = (xs.zipIdx k).map (fun x => ⟨⟨m, x.2⟩, x.1⟩) ∧
    (innerLoop (β := Lens) m k xs).2.2 = k + xs.length
  | [], k, _ => by simp [innerLoop]
  | x :: xs, k, h => by
    simp only [List.length_cons] at h
    have hk : Lineage.uintSucc k = k + 1 := by
      unfold Lineage.uintSucc; exact Nat.mod_eq_of_lt (by omega)
    obtain ⟨i1, i2⟩ := innerLoop_zip m xs (k + 1) (by omega)
    simp only [innerLoop, hk, i1, i2, List.zipIdx_cons, List.map_cons, List.length_cons, true_and]
    omega

theorem innerLoop_lenses (m : Nat) : ∀ (xs : List Source) (k : Nat), k + xs.length < 2 ^ 64 →
    0 < k → (innerLoop (β := Lens) m k xs).2.1 =
      (List.range xs.length).map (fun j => ⟨⟨m, k + j - 1⟩, ⟨m, k + j⟩, none⟩)
  | [], k, _, _ => by simp [innerLoop]
  | x :: xs, k, h, h0 => by
    simp only [List.length_cons] at h
    have hk : Lineage.uintSucc k = k + 1 := by
      unfold Lineage.uintSucc; exact Nat.mod_eq_of_lt (by omega)
    have hp : uintPred k = k - 1 := by
      unfold uintPred
      rw [show k + (2 ^ 64 - 1) = (k - 1) + 2 ^ 64 by omega, Nat.add_mod_right]
      exact Nat.mod_eq_of_lt (by omega)
    simp only [innerLoop, hk, innerLoop_lenses m xs (k + 1) (by omega) (by omega)]
    rw [if_pos (by omega), hp, List.length_cons, List.range_succ_eq_map]
    simp only [List.map_cons, List.map_map, Nat.add_zero, List.singleton_append, List.cons.injEq,
      true_and]
    apply List.map_congr_left
    intro j _
    simp only [Function.comp]
    rw [show k + 1 + j = k + j.succ by omega]

theorem innerLoop_lenses0 (m : Nat) {xs : List Source} (h : xs.length < 2 ^ 64) :
    (innerLoop (β := Lens) m 0 xs).2.1 =
      (List.range (xs.length - 1)).map (fun j => ⟨⟨m, j⟩, ⟨m, j + 1⟩, none⟩) := by
  cases xs with
  | nil => simp [innerLoop]
  | cons x xs =>
    simp only [List.length_cons] at h
    have hk : Lineage.uintSucc 0 = 1 := by decide
    simp only [innerLoop, hk, innerLoop_lenses m xs 1 (by omega) (by omega)]
    rw [if_neg (by simp)]
    simp only [List.nil_append, List.length_cons, Nat.add_sub_cancel]
    apply List.map_congr_left
    intro j _
    rw [show 1 + j - 1 = j by omega, show 1 + j = j + 1 by omega]

/-- The legacy lenses of sequence `i`. -/
def llensesOf (i last : Nat) (s : Seq Source Lens) : List (LLens Lens) :=
  (if i = 0 then [] else
    [⟨⟨i - 1, last⟩, ⟨i, 0⟩, s.reverse⟩, ⟨⟨i, 0⟩, ⟨i - 1, last⟩, s.forward⟩]) ++
  (List.range (s.schemas.length - 1)).map fun j => ⟨⟨i, j⟩, ⟨i, j + 1⟩, none⟩

/-- The legacy lenses of all sequences. -/
def llensesFrom : Nat → Nat → List (Seq Source Lens) → List (LLens Lens)
  | _, _, [] => []
  | i, last, s :: rest => llensesOf i last s ++ llensesFrom (i + 1) (s.schemas.length - 1) rest

theorem uintPred_pos {k : Nat} (h0 : 0 < k) (h : k < 2 ^ 64) : uintPred k = k - 1 := by
  unfold uintPred
  rw [show k + (2 ^ 64 - 1) = (k - 1) + 2 ^ 64 by omega, Nat.add_mod_right]
  exact Nat.mod_eq_of_lt (by omega)

theorem extractLoop_eq : ∀ (seqs : List (Seq Source Lens)) (m last : Nat),
    m + seqs.length < 2 ^ 64 → (∀ s ∈ seqs, s.schemas ≠ []) →
    (∀ s ∈ seqs, s.schemas.length < 2 ^ 64) → (m = 0 ∨ 0 < last) → last < 2 ^ 64 →
    extractLoop m last seqs =
      ((seqs.zipIdx m).flatMap (fun s => s.1.schemas.zipIdx.map fun x => ⟨⟨s.2, x.2⟩, x.1⟩),
        llensesFrom m (last - 1) seqs)
  | [], m, last, _, _, _, _, _ => by simp [extractLoop, llensesFrom]
  | s :: rest, m, last, h, hne, hfew, hm, hl => by
    simp only [List.length_cons] at h
    have hs := hfew s (List.mem_cons_self ..)
    have hsne := hne s (List.mem_cons_self ..)
    have hpos : 0 < s.schemas.length := List.length_pos_of_ne_nil hsne
    have hk : Lineage.uintSucc m = m + 1 := by
      unfold Lineage.uintSucc; exact Nat.mod_eq_of_lt (by omega)
    obtain ⟨i1, i2⟩ := innerLoop_zip m s.schemas 0 (by omega)
    simp only [extractLoop, hk, i1, i2, innerLoop_lenses0 m hs, Nat.zero_add]
    rw [extractLoop_eq rest (m + 1) s.schemas.length (by omega)
      (fun s hs => hne s (List.mem_cons_of_mem _ hs))
      (fun s hs => hfew s (List.mem_cons_of_mem _ hs)) (.inr hpos) hs]
    simp only [List.zipIdx_cons, List.flatMap_cons, llensesFrom, llensesOf, Prod.mk.injEq, true_and]
    congr 2
    unfold crossLenses
    by_cases h0 : m = 0
    · simp [h0]
    · rw [if_pos h0, if_neg h0, uintPred_pos (by omega) (by omega),
        uintPred_pos (by omega) hl]

theorem extractParts_eq (h : LegacyOk seqs) :
    extractParts seqs =
      (seqs.zipIdx.flatMap (fun s => s.1.schemas.zipIdx.map fun x => ⟨⟨s.2, x.2⟩, x.1⟩),
        llensesFrom 0 0 seqs) :=
  extractLoop_eq seqs 0 0 (by simpa using h.fewSeqs) h.nonempty h.fewSchemas (.inl rfl)
    (by decide)

/-! ### Which lenses can be carried over -/

theorem lens_trichotomy (x : Lens) : Lens.Good x ∨ Lens.Reported x ∨ Lens.Crashes x := by
  unfold Lens.Good Lens.Reported Lens.Crashes
  by_cases hm : Lens.MapperOk x
  · by_cases hl : Lens.LacunasOk x
    · exact .inl ⟨hm, hl⟩
    · exact .inr (.inr (.inr ⟨hm, hl⟩))
  · right
    have hm' := hm
    unfold Lens.MapperOk at hm
    push Not at hm
    obtain ⟨s, hs, hno⟩ := hm
    cases s with
    | nil => exact .inl (.inl hs)
    | field v => exact .inl (.inr ⟨v, hs, fun ds h => hno ds (by rw [h])⟩)
    | lit ds => exact .inr (.inl ⟨_, hs, by simp, by simp⟩)
    | other => exact .inr (.inl ⟨_, hs, by simp, by simp⟩)

theorem lensToAST_good {l : LLens Lens} (h : ∀ x, l.body = some x → Lens.Good x) :
    lensToAST rw' l =
      .ok (writtenLens (pairOfLLens l) (newBody rw' l.body) (newLacunas rw' l.body)) := by
  obtain ⟨t, f, b⟩ := l
  cases b with
  | none => rfl
  | some x =>
    obtain ⟨hm, hl⟩ := h x rfl
    obtain ⟨m, lac⟩ := x
    unfold Lens.MapperOk at hm
    unfold Lens.LacunasOk at hl
    simp only at hm hl
    cases m with
    | none =>
      cases lac with
      | none => rfl
      | some c =>
        rcases hl c rfl with rfl | ⟨es, rfl⟩
        · rfl
        · rfl
    | some m =>
      obtain ⟨ds, rfl⟩ := hm m rfl
      cases lac with
      | none => rfl
      | some c =>
        rcases hl c rfl with rfl | ⟨es, rfl⟩
        · rfl
        · rfl

theorem lensToAST_reported {l : LLens Lens} {x : Lens} (hx : l.body = some x)
    (h : Lens.Reported x) : ∃ e, lensToAST rw' l = .err e := by
  unfold lensToAST
  rw [hx]
  rcases h with h | ⟨v, h, hv⟩
  · simp only [Option.bind_some, h, mapSrc]; exact ⟨_, rfl⟩
  · simp only [Option.bind_some, h]
    cases v with
    | struct ds => exact absurd rfl (hv ds)
    | leaf t => exact ⟨_, rfl⟩
    | list es => exact ⟨_, rfl⟩
    | expr k es => exact ⟨_, rfl⟩

theorem lensToAST_crashes {l : LLens Lens} {x : Lens} (hx : l.body = some x)
    (h : Lens.Crashes x) : lensToAST rw' l = .panic .typeAssertion := by
  unfold lensToAST
  rw [hx]
  rcases h with ⟨m, h, h1, h2⟩ | ⟨h1, h2⟩
  · simp only [Option.bind_some, h]
    cases m with
    | nil => exact absurd rfl h1
    | field v => exact absurd rfl (h2 v)
    | lit ds => rfl
    | other => rfl
  · obtain ⟨b, hb⟩ := mapSrc_ok (rw' := rw') (l := some x) (fun y hy => by
      simp only [Option.some.injEq] at hy; subst hy; exact h1)
    rw [hb, Res.bind_ok, lacSrc_bad h2]
    rfl

theorem collect_lenses_good : ∀ {xs : List (LLens Lens)},
    (∀ x ∈ xs.filterMap (·.body), Lens.Good x) →
    collect (lensToAST rw') xs =
      .ok (xs.map fun l => writtenLens (pairOfLLens l) (newBody rw' l.body) (newLacunas rw' l.body))
  | [], _ => rfl
  | l :: xs, h => by
    have h1 := lensToAST_good (rw' := rw') (l := l) (fun x hx => h x (by
      rw [List.filterMap_cons, hx]; simp))
    have h2 := collect_lenses_good (xs := xs) (fun x hx => h x (by
      rw [List.filterMap_cons]; split <;> simp [hx]))
    simp only [collect, h1, h2, Res.bind_ok, Res.map_ok, List.map_cons]

theorem collect_lenses_bad : ∀ {xs : List (LLens Lens)} {pre post : List Lens} {x : Lens},
    xs.filterMap (·.body) = pre ++ x :: post → (∀ y ∈ pre, Lens.Good y) →
    (Lens.Reported x → ∃ e, collect (lensToAST rw') xs = .err e) ∧
    (Lens.Crashes x → collect (lensToAST rw') xs = .panic .typeAssertion)
  | [], pre, post, x, h, _ => by simp at h
  | l :: xs, pre, post, x, h, hp => by
    rw [List.filterMap_cons] at h
    cases hb : l.body with
    | none =>
      rw [hb] at h
      have h1 := lensToAST_good (rw' := rw') (l := l) (fun x hx => by rw [hb] at hx; cases hx)
      obtain ⟨i1, i2⟩ := collect_lenses_bad (xs := xs) h hp
      refine ⟨fun hr => ?_, fun hc => ?_⟩
      · obtain ⟨e, he⟩ := i1 hr
        exact ⟨e, by simp only [collect, h1, he, Res.bind_ok]; rfl⟩
      · simp only [collect, h1, i2 hc, Res.bind_ok]; rfl
    | some y =>
      rw [hb] at h
      cases pre with
      | nil =>
        simp only [List.nil_append, List.cons.injEq] at h
        obtain ⟨rfl, _⟩ := h
        refine ⟨fun hr => ?_, fun hc => ?_⟩
        · obtain ⟨e, he⟩ := lensToAST_reported (rw' := rw') hb hr
          exact ⟨e, by simp only [collect, he]; rfl⟩
        · simp only [collect, lensToAST_crashes hb hc]; rfl
      | cons z pre =>
        simp only [List.cons_append, List.cons.injEq] at h
        obtain ⟨rfl, h⟩ := h
        have h1 := lensToAST_good (rw' := rw') (l := l) (fun x hx => by
          rw [hb] at hx
          simp only [Option.some.injEq] at hx
          subst hx
          exact hp _ (List.mem_cons_self ..))
        obtain ⟨i1, i2⟩ := collect_lenses_bad (xs := xs) h
          (fun y hy => hp y (List.mem_cons_of_mem _ hy))
        refine ⟨fun hr => ?_, fun hc => ?_⟩
        · obtain ⟨e, he⟩ := i1 hr
          exact ⟨e, by simp only [collect, h1, he, Res.bind_ok]; rfl⟩
        · simp only [collect, h1, i2 hc, Res.bind_ok]; rfl

theorem llensesOf_bodies {i last : Nat} (hi : i ≠ 0) (s : Seq Source Lens) :
    (llensesOf i last s).filterMap (·.body) = s.reverse.toList ++ s.forward.toList := by
  unfold llensesOf
  rw [if_neg hi, List.filterMap_append]
  have : ((List.range (s.schemas.length - 1)).map fun j =>
      (⟨⟨i, j⟩, ⟨i, j + 1⟩, none⟩ : LLens Lens)).filterMap (·.body) = [] := by
    rw [List.filterMap_eq_nil_iff]
    intro l hl
    obtain ⟨j, _, rfl⟩ := List.mem_map.1 hl
    rfl
  rw [this, List.append_nil]
  cases s.reverse <;> cases s.forward <;> rfl

theorem llensesFrom_bodies : ∀ (seqs : List (Seq Source Lens)) {i last : Nat}, i ≠ 0 →
    (llensesFrom i last seqs).filterMap (·.body) =
      seqs.flatMap fun s => s.reverse.toList ++ s.forward.toList
  | [], _, _, _ => rfl
  | s :: rest, i, last, hi => by
    simp only [llensesFrom, List.filterMap_append, llensesOf_bodies hi, List.flatMap_cons]
    rw [llensesFrom_bodies rest (by omega)]

theorem llenses_used (seqs : List (Seq Source Lens)) :
    (llensesFrom 0 0 seqs).filterMap (·.body) = usedLenses seqs := by
  cases seqs with
  | nil => rfl
  | cons s rest =>
    simp only [llensesFrom, List.filterMap_append, usedLenses, List.tail_cons]
    rw [llensesFrom_bodies rest (by omega)]
    have : (llensesOf 0 0 s).filterMap (·.body) = [] := by
      rw [List.filterMap_eq_nil_iff]
      intro l hl
      simp only [llensesOf, if_pos, List.nil_append, List.mem_map] at hl
      obtain ⟨j, _, rfl⟩ := hl
      rfl
    rw [this, List.nil_append]

theorem llensesFrom_written : ∀ (seqs : List (Seq Source Lens)) (i last : Nat),
    ((llensesFrom i last seqs).map fun l =>
      writtenLens (pairOfLLens l) (newBody rw' l.body) (newLacunas rw' l.body)) =
      newLensesFrom rw' i last seqs
  | [], _, _ => rfl
  | s :: rest, i, last => by
    simp only [llensesFrom, newLensesFrom, List.map_append, llensesFrom_written rest]
    congr 1
    unfold llensesOf newLensesOf
    rw [List.map_append, List.map_map]
    congr 1
    by_cases h : i = 0
    · rw [if_pos h, if_pos h]; rfl
    · rw [if_neg h, if_neg h]; rfl

theorem collect_schemas_eq (hok : LegacyOk seqs) (h : SchemasWritten seqs) :
    (collect schToAST (extractParts seqs).1).map Syn.list = .ok (newSchemas seqs) := by
  obtain ⟨ss, hss⟩ := collect_schemas_ok h
  rw [hss, Res.map_ok]
  unfold newSchemas
  congr 2
  have hmap := collect_map hss
  have h1 : (extractParts seqs).1.map schToAST =
      (seqs.zipIdx.flatMap fun s => s.1.schemas.zipIdx.map fun x =>
        writtenSchema ⟨s.2, x.2⟩ (declsOf x.1)).map Res.ok := by
    rw [extractParts_eq hok]
    simp only [List.map_flatMap, List.map_map]
    apply List.flatMap_congr
    intro s hs
    apply List.map_congr_left
    intro x hx
    simp only [Function.comp]
    have hs' : s.1 ∈ seqs := by
      have := List.mem_zipIdx' (x := s.1) (i := s.2) hs
      rw [this.2]; exact List.getElem_mem _
    have hx' : x.1 ∈ s.1.schemas := by
      have := List.mem_zipIdx' (x := x.1) (i := x.2) hx
      rw [this.2]; exact List.getElem_mem _
    obtain ⟨ds, hd⟩ := h s.1 hs' x.1 hx'
    unfold schToAST
    rw [hd]
    rfl
  rw [hmap] at h1
  exact List.map_injective_iff.2 (fun a b hab => by injection hab) h1

theorem first_bad (ls : List Lens) :
    (∀ x ∈ ls, Lens.Good x) ∨ ∃ pre x post, ls = pre ++ x :: post ∧ (∀ y ∈ pre, Lens.Good y) ∧
      ¬ Lens.Good x := by
  induction ls with
  | nil => left; simp
  | cons a ls ih =>
    by_cases ha : Lens.Good a
    · rcases ih with h | ⟨pre, x, post, rfl, h1, h2⟩
      · left
        intro x hx
        rcases List.mem_cons.1 hx with rfl | hx
        · exact ha
        · exact h x hx
      · right
        refine ⟨a :: pre, x, post, rfl, ?_, h2⟩
        intro y hy
        rcases List.mem_cons.1 hy with rfl | hy
        · exact ha
        · exact h1 y hy
    · exact .inr ⟨[], a, ls, rfl, by simp, ha⟩

theorem inSchemas_iff (h : SchemasWritten seqs) :
    InSchemas "seqs".toList seqs ↔ HasField seqsName (newSchemas seqs) := by
  have he : newSchemas seqs = .list ((seqs.zipIdx.flatMap fun s => s.1.schemas.zipIdx.map fun x =>
      ((⟨s.2, x.2⟩ : SV), declsOf x.1)).map fun e => writtenSchema e.1 e.2) := by
    unfold newSchemas
    simp only [List.map_flatMap, List.map_map]
    rfl
  rw [he, hasField_entries]
  constructor
  · rintro ⟨s, hs, ds, hd, hf⟩
    obtain ⟨i, hi, rfl⟩ := List.getElem_of_mem hs
    obtain ⟨j, hj, hd⟩ := List.getElem_of_mem hd
    refine ⟨(⟨i, j⟩, ds), ?_, hf⟩
    rw [List.mem_flatMap]
    refine ⟨(seqs[i], i), ?_, ?_⟩
    · rw [List.mem_zipIdx_iff_getElem?]; simp
    · rw [List.mem_map]
      refine ⟨(.lit ds, j), ?_, rfl⟩
      rw [List.mem_zipIdx_iff_getElem?]
      exact List.getElem?_eq_some_iff.2 ⟨hj, hd⟩
  · rintro ⟨e, he, hf⟩
    obtain ⟨s, hs, he⟩ := List.mem_flatMap.1 he
    obtain ⟨x, hx, rfl⟩ := List.mem_map.1 he
    have hs' : s.1 ∈ seqs := by
      have := List.mem_zipIdx' (x := s.1) (i := s.2) hs
      rw [this.2]; exact List.getElem_mem _
    have hx' : x.1 ∈ s.1.schemas := by
      have := List.mem_zipIdx' (x := x.1) (i := x.2) hx
      rw [this.2]; exact List.getElem_mem _
    obtain ⟨ds, hd⟩ := h s.1 hs' x.1 hx'
    rw [hd] at hx'
    refine ⟨s.1, hs', ds, hx', ?_⟩
    simp only [hd, declsOf] at hf
    exact hf

/-! ### C182 -/

/-- The lens that decides: the first that is not good, in the order in which they are looked at. -/
def FirstBad (P : Lens → Prop) (seqs : List (Seq Source Lens)) : Prop :=
  ∃ pre x post, usedLenses seqs = pre ++ x :: post ∧ (∀ y ∈ pre, Lens.Good y) ∧ P x

theorem rewrite_good (hok : LegacyOk seqs) (h1 : SchemasWritten seqs)
    (h2 : ∀ x ∈ usedLenses seqs, Lens.Good x) :
    rewrite rw' seqs = .ok (newSchemas seqs, newLenses rw' seqs) := by
  have hs := collect_schemas_eq hok h1
  obtain ⟨ss, hss⟩ := collect_schemas_ok h1
  rw [hss, Res.map_ok, Res.ok.injEq] at hs
  unfold rewrite
  rw [hss, Res.bind_ok, hs]
  have he : (extractParts seqs).2 = llensesFrom 0 0 seqs := by rw [extractParts_eq hok]
  rw [he, collect_lenses_good (by rw [llenses_used]; exact h2), Res.map_ok, llensesFrom_written]
  rfl

theorem rewrite_bad (hok : LegacyOk seqs) (h1 : SchemasWritten seqs) :
    (FirstBad Lens.Reported seqs → ∃ e, rewrite rw' seqs = .err e) ∧
    (FirstBad Lens.Crashes seqs → rewrite rw' seqs = .panic .typeAssertion) := by
  obtain ⟨ss, hss⟩ := collect_schemas_ok h1
  have he : (extractParts seqs).2 = llensesFrom 0 0 seqs := by rw [extractParts_eq hok]
  unfold rewrite
  rw [hss, Res.bind_ok, he]
  refine ⟨fun ⟨pre, x, post, hu, hp, hx⟩ => ?_, fun ⟨pre, x, post, hu, hp, hx⟩ => ?_⟩
  · obtain ⟨e, h⟩ := (collect_lenses_bad (rw' := rw') ((llenses_used seqs).trans hu) hp).1 hx
    exact ⟨e, by rw [h]; rfl⟩
  · rw [(collect_lenses_bad (rw' := rw') ((llenses_used seqs).trans hu) hp).2 hx]; rfl

/-- The four outcomes. -/
theorem fix_cases (hok : LegacyOk seqs) (src : List (Option Str × Syn)) :
    ((¬ SchemasWritten seqs ∨ FirstBad Lens.Reported seqs) ∧ ∀ n, ∃ e, fix rw' seqs src n = .err e) ∨
    ((SchemasWritten seqs ∧ FirstBad Lens.Crashes seqs) ∧
      ∀ n, fix rw' seqs src n = .panic .typeAssertion) ∨
    ((SchemasWritten seqs ∧ (∀ x ∈ usedLenses seqs, Lens.Good x) ∧
      InSchemas "seqs".toList seqs ∧ HasField "seqs".toList (.struct src)) ∧
      ∀ n, fix rw' seqs src n = .fuel) ∨
    ((SchemasWritten seqs ∧ (∀ x ∈ usedLenses seqs, Lens.Good x) ∧
      ¬ (InSchemas "seqs".toList seqs ∧ HasField "seqs".toList (.struct src))) ∧
      ∃ N, ∀ n ≥ N, fix rw' seqs src n =
        .ok (replaceSeqs (newSchemas seqs) (newLenses rw' seqs) (.struct src))) := by
  by_cases h1 : SchemasWritten seqs
  · rcases first_bad (usedLenses seqs) with h2 | ⟨pre, x, post, hu, hp, hx⟩
    · have hr := rewrite_good (rw' := rw') hok h1 h2
      have hv := visit_outcome (S := newSchemas seqs) (L := newLenses rw' seqs) (.struct src)
      have hin := inSchemas_iff h1
      by_cases hb : InSchemas "seqs".toList seqs ∧ HasField "seqs".toList (.struct src)
      · right; right; left
        refine ⟨⟨h1, h2, hb⟩, fun n => ?_⟩
        unfold fix
        rw [hr, Res.bind_ok]
        simp only
        rw [hv.2 ⟨hin.1 hb.1, hb.2⟩ n]
      · right; right; right
        refine ⟨⟨h1, h2, hb⟩, ?_⟩
        obtain ⟨N, hN⟩ := hv.1 (fun h => hb ⟨hin.2 h.1, h.2⟩)
        refine ⟨N, fun n hn => ?_⟩
        unfold fix
        rw [hr, Res.bind_ok]
        simp only
        rw [hN n hn]
    · rcases lens_trichotomy x with h | h | h
      · exact absurd h hx
      · left
        obtain ⟨e, he⟩ := (rewrite_bad (rw' := rw') hok h1).1 ⟨pre, x, post, hu, hp, h⟩
        exact ⟨.inr ⟨pre, x, post, hu, hp, h⟩, fun n => ⟨e, by unfold fix; rw [he]; rfl⟩⟩
      · right; left
        refine ⟨⟨h1, pre, x, post, hu, hp, h⟩, fun n => ?_⟩
        unfold fix
        rw [(rewrite_bad (rw' := rw') hok h1).2 ⟨pre, x, post, hu, hp, h⟩]
        rfl
  · exact .inl ⟨.inl h1, fun n => C116_schema_reported hok h1 src n⟩

/-- **C182**.  `lineage fix` ends with a result exactly if every schema is written as a struct
literal, every lens of a sequence after the first has body and lacunas written as literals (or has
none), and not both some schema and the lineage have a field `seqs`.  Then every field `seqs` of
the lineage, at whatever depth, is replaced by the schemas, with version `i.j` for the `j`-th of the
`i`-th sequence, and the lenses, with the legacy bodies. -/
theorem C182_result_iff (hok : LegacyOk seqs) (src : List (Option Str × Syn)) (t : Syn) :
    (∃ N, ∀ n ≥ N, fix rw' seqs src n = .ok t) ↔
      SchemasWritten seqs ∧ (∀ x ∈ usedLenses seqs, Lens.Good x) ∧
      ¬ (InSchemas "seqs".toList seqs ∧ HasField "seqs".toList (.struct src)) ∧
      t = replaceSeqs (newSchemas seqs) (newLenses rw' seqs) (.struct src) := by
  constructor
  · rintro ⟨N, hN⟩
    rcases fix_cases (rw' := rw') hok src with ⟨_, h⟩ | ⟨_, h⟩ | ⟨_, h⟩ | ⟨⟨h1, h2, h3⟩, M, hM⟩
    · obtain ⟨e, he⟩ := h N
      rw [hN N (Nat.le_refl _)] at he; cases he
    · have := h N
      rw [hN N (Nat.le_refl _)] at this; cases this
    · have := h N
      rw [hN N (Nat.le_refl _)] at this; cases this
    · have h4 := hN (N + M) (by omega)
      rw [hM (N + M) (by omega), Res.ok.injEq] at h4
      exact ⟨h1, h2, h3, h4.symm⟩
  · rintro ⟨h1, h2, h3, rfl⟩
    have hr := rewrite_good (rw' := rw') hok h1 h2
    obtain ⟨N, hN⟩ := (visit_outcome (S := newSchemas seqs) (L := newLenses rw' seqs)
      (.struct src)).1 (fun h => h3 ⟨(inSchemas_iff h1).2 h.1, h.2⟩)
    refine ⟨N, fun n hn => ?_⟩
    unfold fix
    rw [hr, Res.bind_ok]
    simp only
    rw [hN n hn]

/-- **C182**.  It does not end exactly if all is written as needed and both some schema and the
lineage have a field `seqs`. -/
theorem C182_endless_iff (hok : LegacyOk seqs) (src : List (Option Str × Syn)) :
    (∀ n, fix rw' seqs src n = .fuel) ↔
      SchemasWritten seqs ∧ (∀ x ∈ usedLenses seqs, Lens.Good x) ∧
      InSchemas "seqs".toList seqs ∧ HasField "seqs".toList (.struct src) := by
  constructor
  · intro hN
    rcases fix_cases (rw' := rw') hok src with ⟨_, h⟩ | ⟨_, h⟩ | ⟨h, _⟩ | ⟨_, M, hM⟩
    · obtain ⟨e, he⟩ := h 0
      rw [hN] at he; cases he
    · have := h 0
      rw [hN] at this; cases this
    · exact h
    · have := hM M (Nat.le_refl _)
      rw [hN] at this; cases this
  · rintro ⟨h1, h2, h3, h4⟩ n
    unfold fix
    rw [rewrite_good hok h1 h2, Res.bind_ok]
    simp only
    rw [(visit_outcome _).2 ⟨(inSchemas_iff h1).1 h3, h4⟩ n]

/-- **C182**.  It panics exactly if every schema is written as a struct literal and the first lens
that cannot be carried over has a body that is no field, or a good body and lacunas that are no
list literal. -/
theorem C182_panics_iff (hok : LegacyOk seqs) (src : List (Option Str × Syn)) (n : Nat) :
    (fix rw' seqs src n).Panics ↔ SchemasWritten seqs ∧ FirstBad Lens.Crashes seqs := by
  constructor
  · intro hp
    rcases fix_cases (rw' := rw') hok src with ⟨_, h⟩ | ⟨h, _⟩ | ⟨_, h⟩ | ⟨⟨h1, h2, _⟩, _⟩
    · obtain ⟨e, he⟩ := h n
      rw [he] at hp; cases hp
    · exact h
    · rw [h n] at hp; cases hp
    · unfold fix at hp
      rw [rewrite_good hok h1 h2, Res.bind_ok] at hp
      simp only at hp
      split at hp <;> cases hp
  · rintro ⟨h1, h2⟩
    unfold fix
    rw [(rewrite_bad hok h1).2 h2]
    trivial

/-- **C182**.  It reports an error exactly if some schema is not written as a struct literal, or
the first lens that cannot be carried over has a body of which CUE has no source, or that is a
field with something else than a struct literal. -/
theorem C182_reports_iff (hok : LegacyOk seqs) (src : List (Option Str × Syn)) (n : Nat) :
    (∃ e, fix rw' seqs src n = .err e) ↔ ¬ SchemasWritten seqs ∨ FirstBad Lens.Reported seqs := by
  constructor
  · rintro ⟨e, hp⟩
    rcases fix_cases (rw' := rw') hok src with ⟨h, _⟩ | ⟨_, h⟩ | ⟨_, h⟩ | ⟨⟨h1, h2, _⟩, _⟩
    · exact h
    · rw [h n] at hp; cases hp
    · rw [h n] at hp; cases hp
    · unfold fix at hp
      rw [rewrite_good hok h1 h2, Res.bind_ok] at hp
      simp only at hp
      split at hp <;> cases hp
  · intro h
    by_cases h1 : SchemasWritten seqs
    · obtain ⟨e, he⟩ := (rewrite_bad (rw' := rw') hok h1).1 (h.resolve_left (fun h => h h1))
      exact ⟨e, by unfold fix; rw [he]; rfl⟩
    · exact C116_schema_reported hok h1 src n

theorem legacyFix_used (i : Str) (es : List Syn) :
    ∀ x ∈ usedLenses (legacyFix i (.list es)), Lens.Good x := by
  intro x hx
  obtain ⟨s, hs, hx⟩ := List.mem_flatMap.1 hx
  have hs' := List.mem_of_mem_tail hs
  have hx' : s.forward = some x ∨ s.reverse = some x := by
    simp only [List.mem_append, Option.mem_toList] at hx
    exact hx.symm
  exact ⟨legacyFix_mappers _ _ s hs' x hx', legacyFix_lacunas _ _ s hs' x hx'⟩

example (rw' : Syn → Syn) (old : Syn) : ∃ N, ∀ n ≥ N,
    fix rw' (legacyFix "x".toList (.list [])) [(some "seqs".toList, old)] n =
      .ok (.struct [(some "schemas".toList, newSchemas (legacyFix "x".toList (.list []))),
        (some "lenses".toList, newLenses rw' (legacyFix "x".toList (.list [])))]) :=
  (C182_result_iff (legacyFix_ok _ _) _ _).2 ⟨legacyFix_schemas _ _, legacyFix_used _ _,
    fun h => legacyFix_no_seqs _ h.1, by simp [replaceSeqs, replaceDecls]⟩

example : newLenses id (legacyFix "x".toList (.list [])) = .list
    [writtenLens ⟨⟨0, 1⟩, ⟨0, 0⟩⟩ (.struct [(none, .leaf "_|_".toList)]) (.list []),
     writtenLens ⟨⟨1, 0⟩, ⟨0, 1⟩⟩ (.struct []) (.list []),
     writtenLens ⟨⟨0, 1⟩, ⟨1, 0⟩⟩ (.struct [(some "c".toList, .leaf "from.a".toList)]) (.list [])] :=
  rfl

example (rw' : Syn → Syn) (old : Syn) (n : Nat) :
    fix rw' (legacyFix "seqs".toList (.list [])) [(some "seqs".toList, old)] n = .fuel :=
  (C182_endless_iff (legacyFix_ok _ _) _).2 ⟨legacyFix_schemas _ _, legacyFix_used _ _,
    ⟨_, List.mem_cons_of_mem _ (List.mem_cons_self ..), _, List.mem_cons_self ..,
      .decl (List.mem_cons_self ..) (.here (List.mem_cons_self ..))⟩,
    .here (List.mem_cons_self ..)⟩ n

example (rw' : Syn → Syn) (src : List (Option Str × Syn)) (n : Nat) :
    (fix rw' (legacyFix "x".toList (.leaf "ref".toList)) src n).Panics :=
  (C182_panics_iff (legacyFix_ok _ _) _ _).2 ⟨legacyFix_schemas _ _, [], _, _, rfl, by simp,
    .inr ⟨fun s hs => by simp at hs; exact ⟨_, hs.symm⟩, fun h => by
      rcases h _ rfl with h | ⟨es, h⟩
      · cases h
      · injection h with h; cases h⟩⟩

example (rw' : Syn → Syn) (src : List (Option Str × Syn)) (n : Nat) :
    ∃ e, fix rw' [⟨[.other], none, none⟩] src n = .err e :=
  (C182_reports_iff (by constructor <;> simp) _ _).2 (.inl fun h => by
    obtain ⟨ds, hd⟩ := h _ (List.mem_cons_self ..) _ (List.mem_cons_self ..)
    cases hd)

/-! ### C183: references in lens bodies -/

theorem renameRefs_ne {a : Ast} (h : Mentions a) : renameRefs a ≠ a := by
  induction a with
  | ident n =>
    rcases h with rfl | rfl <;> decide
  | leaf => cases h
  | sel x l ih =>
    intro he
    simp only [renameRefs, Ast.sel.injEq, and_true] at he
    exact ih h he
  | pair l r ihl ihr =>
    intro he
    simp only [renameRefs, Ast.pair.injEq] at he
    rcases h with h | h
    · exact ihl h he.1
    · exact ihr h he.2

/-- **C183**.  A lens body is rewritten as it should be exactly if `from` and `to` are only used
as `from.x` and `to.x` from which nothing more is selected. -/
theorem C183_renamed_iff (a : Ast) : rewriteFromTo a = renameRefs a ↔ ShallowRefs a := by
  refine ⟨fun h => ?_, C59_refs_renamed_partial a⟩
  induction a with
  | ident n =>
    intro hm
    exact renameRefs_ne hm h.symm
  | leaf => trivial
  | sel x l _ =>
    cases x with
    | ident n => trivial
    | leaf => intro hm; cases hm
    | sel y k =>
      intro hm
      simp only [rewriteFromTo, renameRefs, Ast.sel.injEq, and_true] at h
      refine renameRefs_ne (a := .sel y k) hm ?_
      simp only [renameRefs, Ast.sel.injEq, and_true]
      exact h.symm
    | pair y z =>
      intro hm
      simp only [rewriteFromTo, renameRefs, Ast.sel.injEq, and_true] at h
      exact renameRefs_ne (a := .pair y z) hm (by simp only [renameRefs]; exact h.symm)
  | pair l r ihl ihr =>
    simp only [rewriteFromTo, renameRefs, Ast.pair.injEq] at h
    exact ⟨ihl h.1, ihr h.2⟩

/-- **C183**.  After rewriting, a reference to `from` or `to`, which the new lens does not have, is
left exactly in all other cases. -/
theorem C183_left_iff (a : Ast) : Mentions (rewriteFromTo a) ↔ ¬ ShallowRefs a := by
  induction a with
  | ident n => simp [rewriteFromTo, ShallowRefs]
  | leaf => simp [rewriteFromTo, ShallowRefs, Mentions]
  | sel x l _ =>
    cases x with
    | ident n =>
      simp only [rewriteFromTo, ShallowRefs, not_true_eq_false, iff_false]
      split
      · simp only [Mentions]; decide
      · split
        · simp only [Mentions]; decide
        · simp only [Mentions]; tauto
    | leaf => simp [rewriteFromTo, ShallowRefs, Mentions]
    | sel y k => simp [rewriteFromTo, ShallowRefs, Mentions]
    | pair y z => simp only [rewriteFromTo, ShallowRefs, Mentions]; tauto
  | pair l r ihl ihr =>
    simp only [rewriteFromTo, Mentions, ShallowRefs, ihl, ihr]
    tauto

/-- **C183**.  Rewriting twice is the same as rewriting once. -/
theorem C183_idempotent (a : Ast) : rewriteFromTo (rewriteFromTo a) = rewriteFromTo a := by
  induction a with
  | ident n => rfl
  | leaf => rfl
  | sel x l _ =>
    cases x with
    | ident n =>
      simp only [rewriteFromTo]
      split
      · rfl
      · split
        · rfl
        · simp only [rewriteFromTo]
          rw [if_neg (by assumption), if_neg (by assumption)]
    | leaf => rfl
    | sel y k => rfl
    | pair y z => rfl
  | pair l r ihl ihr => simp only [rewriteFromTo, ihl, ihr]

/-- `{a: from.x, b: from.y.z}`. -/
example : ¬ ShallowRefs (.pair (.sel (.ident "from".toList) "x".toList)
    (.sel (.sel (.ident "from".toList) "y".toList) "z".toList)) ∧
    ShallowRefs (.sel (.ident "from".toList) "x".toList) :=
  ⟨fun h => h.2 (.inl rfl), trivial⟩

end Thema.Props
