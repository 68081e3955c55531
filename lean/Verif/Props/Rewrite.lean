import Verif.Spec.Rewrite
import Verif.Props.Bind

/-!
# Rewriting legacy lineages (C48, C49, C59)
-/

namespace Thema.Props

open Thema.Rewrite Thema.Spec

variable {α β : Type}

theorem uintSucc_lt {n : Nat} (h : n + 1 < 2 ^ 64) : Lineage.uintSucc n = n + 1 :=
  Nat.mod_eq_of_lt h

theorem uintPred_succ {n : Nat} (h : n < 2 ^ 64) : uintPred (n + 1) = n := by
  unfold uintPred
  rw [show n + 1 + (2 ^ 64 - 1) = n + 2 ^ 64 by omega, Nat.add_mod_right]
  exact Nat.mod_eq_of_lt h

/-- The versions `m.k, …` for `n` schemas. -/
def seqVersions (m : Nat) (k n : Nat) : List SV := (List.range' k n).map fun j => ⟨m, j⟩

theorem seqVersions_zero (m k : Nat) : seqVersions m k 0 = [] := rfl

theorem seqVersions_succ (m k n : Nat) :
    seqVersions m k (n + 1) = ⟨m, k⟩ :: seqVersions m (k + 1) n := by
  simp [seqVersions, List.range'_succ]

theorem innerLoop_spec (m : Nat) (xs : List α) : ∀ (k : Nat), k + xs.length < 2 ^ 64 →
    (innerLoop (β := β) m k xs).1.map (·.synv) = seqVersions m k xs.length ∧
    (innerLoop (β := β) m k xs).1.map (·.raw) = xs ∧
    (innerLoop (β := β) m k xs).2.2 = k + xs.length ∧
    (∀ l ∈ (innerLoop (β := β) m k xs).2.1, l.body = none ∧ l.frm.major = l.to.major) ∧
    (∀ p, k = p + 1 → (innerLoop (β := β) m k xs).2.1.map pairOfLLens =
      reqList ⟨m, p⟩ (seqVersions m k xs.length)) := by
  induction xs with
  | nil => intro k _; simp [innerLoop, seqVersions, reqList]
  | cons x xs ih =>
    intro k hk
    simp only [List.length_cons] at hk
    unfold innerLoop
    rw [uintSucc_lt (by omega)]
    obtain ⟨h1, h2, h3, h4, h5⟩ := ih (k + 1) (by omega)
    refine ⟨?_, ?_, ?_, ?_, ?_⟩
    · simp only [List.map_cons, h1, List.length_cons, seqVersions_succ]
    · simp only [List.map_cons, h2]
    · simp only [h3, List.length_cons]; omega
    · intro l hl
      simp only [List.mem_append] at hl
      rcases hl with hl | hl
      · split at hl
        · simp only [List.mem_cons, List.not_mem_nil, or_false] at hl
          subst hl
          exact ⟨rfl, rfl⟩
        · simp at hl
      · exact h4 l hl
    · rintro p rfl
      simp only [List.map_append, List.length_cons, seqVersions_succ, reqList, h5 (p + 1) rfl]
      rw [uintPred_succ (by omega)]
      simp [pairOfLLens]

theorem innerLoop_first (m : Nat) (x : α) (xs : List α) (h : xs.length + 1 < 2 ^ 64) :
    (innerLoop (β := β) m 0 (x :: xs)).2.1.map pairOfLLens =
      reqList ⟨m, 0⟩ (seqVersions m 1 xs.length) := by
  unfold innerLoop
  rw [uintSucc_lt (by omega)]
  obtain ⟨_, _, _, _, h5⟩ := innerLoop_spec (β := β) m xs (0 + 1) (by omega)
  simpa using h5 0 rfl

theorem reqList_append (xs : List SV) : ∀ (a : SV) (ys : List SV),
    reqList a (xs ++ ys) = reqList a xs ++ reqList ((xs.getLast?).getD a) ys := by
  induction xs with
  | nil => intro a ys; simp [reqList]
  | cons x xs ih =>
    intro a ys
    simp only [List.cons_append, reqList, ih x ys, List.append_assoc]
    congr 3
    cases xs with
    | nil => simp
    | cons y xs => simp [List.getLast?_cons]

/-- The versions of the sequences from the `m`-th on. -/
def allVersions (m : Nat) : List (Seq α β) → List SV
  | [] => []
  | s :: rest => seqVersions m 0 s.schemas.length ++ allVersions (m + 1) rest

theorem seqVersions_getLast (m k n : Nat) :
    (seqVersions m k (n + 1)).getLast? = some ⟨m, k + n⟩ := by
  simp [seqVersions, List.range'_concat]

theorem extractLoop_versions (seqs : List (Seq α β)) : ∀ (m last : Nat),
    m + seqs.length < 2 ^ 64 → (∀ s ∈ seqs, s.schemas.length < 2 ^ 64) →
    (extractLoop m last seqs).1.map (·.synv) = allVersions m seqs ∧
    (extractLoop m last seqs).1.map (·.raw) = seqs.flatMap (·.schemas) := by
  induction seqs with
  | nil => intro m last _ _; simp [extractLoop, allVersions]
  | cons s seqs ih =>
    intro m last hm hs
    simp only [List.length_cons] at hm
    unfold extractLoop
    rw [uintSucc_lt (by omega)]
    obtain ⟨h1, h2, _, _, _⟩ := innerLoop_spec (β := β) m s.schemas 0
      (by simpa using hs s (by simp))
    obtain ⟨h3, h4⟩ := ih (m + 1) (innerLoop (β := β) m 0 s.schemas).2.2 (by omega)
      (fun t ht => hs t (by simp [ht]))
    constructor
    · simp only [List.map_append, h1, h3, allVersions]
    · simp only [List.map_append, h2, h4, List.flatMap_cons]

/-- The lens pairs of the sequences from the `m+1`-st on are those required when
coming from the last version of the `m`-th. -/
theorem extractLoop_lenses (seqs : List (Seq α β)) : ∀ (m n : Nat),
    m + 1 + seqs.length < 2 ^ 64 → n + 1 < 2 ^ 64 → (∀ s ∈ seqs, s.schemas.length < 2 ^ 64) →
    (∀ s ∈ seqs, s.schemas ≠ []) →
    (extractLoop (m + 1) (n + 1) seqs).2.map pairOfLLens =
      reqList ⟨m, n⟩ (allVersions (m + 1) seqs) := by
  induction seqs with
  | nil => intro m n _ _ _ _; simp [extractLoop, allVersions, reqList]
  | cons s seqs ih =>
    intro m n hm hn hs hne
    simp only [List.length_cons] at hm
    unfold extractLoop
    rw [uintSucc_lt (by omega)]
    obtain ⟨x, xs, hx⟩ := List.exists_cons_of_ne_nil (hne s (by simp))
    have hlen := hs s (by simp)
    rw [hx, List.length_cons] at hlen
    obtain ⟨_, _, h3, _, _⟩ := innerLoop_spec (β := β) (m + 1) (x :: xs) 0
      (by simpa using hlen)
    have hlast : (innerLoop (β := β) (m + 1) 0 (x :: xs)).2.2 = xs.length + 1 := by
      rw [h3]; simp
    simp only [hx, hlast, List.map_append]
    rw [ih (m + 1) xs.length (by omega) hlen (fun t ht => hs t (by simp [ht]))
      (fun t ht => hne t (by simp [ht])), innerLoop_first _ _ _ hlen]
    rw [allVersions, hx, List.length_cons, seqVersions_succ, List.cons_append, reqList, reqList_append]
    have hcross : (crossLenses (m + 1) (n + 1) s).map pairOfLLens =
        [⟨⟨m + 1, 0⟩, ⟨m, n⟩⟩, ⟨⟨m, n⟩, ⟨m + 1, 0⟩⟩] := by
      unfold crossLenses
      rw [if_pos (by omega), uintPred_succ (by omega), uintPred_succ (by omega)]
      rfl
    rw [hcross, if_pos (by simp)]
    have hg : ((seqVersions (m + 1) (0 + 1) xs.length).getLast?).getD ⟨m + 1, 0⟩ =
        ⟨m + 1, xs.length⟩ := by
      cases hl : xs.length with
      | zero => rfl
      | succ k => rw [seqVersions_getLast]; simp; omega
    rw [hg]
    simp

theorem allVersions_chain (seqs : List (Seq α β)) : ∀ (m : Nat), (∀ s ∈ seqs, s.schemas ≠ []) →
    (allVersions m seqs).IsChain NextVersion ∧
    (∀ v ∈ (allVersions m seqs).head?, v = ⟨m, 0⟩) := by
  induction seqs with
  | nil => intro m _; simp [allVersions]
  | cons s seqs ih =>
    intro m hne
    obtain ⟨h1, h2⟩ := ih (m + 1) (fun t ht => hne t (by simp [ht]))
    obtain ⟨x, xs, hx⟩ := List.exists_cons_of_ne_nil (hne s (by simp))
    unfold allVersions
    rw [hx, List.length_cons]
    constructor
    · rw [List.isChain_append]
      refine ⟨?_, h1, ?_⟩
      · unfold seqVersions
        rw [List.isChain_map, List.isChain_iff_getElem]
        intro i hi
        left
        simp [List.getElem_range']
      · intro a ha b hb
        rw [seqVersions_getLast, Option.mem_def, Option.some.injEq] at ha
        rw [h2 b hb, ← ha]
        right; rfl
    · rw [seqVersions_succ]
      simp

theorem extractParts_versions {seqs : List (Seq α β)} (h : LegacyOk seqs) :
    (extractParts seqs).1.map (·.synv) = allVersions 0 seqs :=
  (extractLoop_versions seqs 0 0 (by simpa using h.fewSeqs) h.fewSchemas).1

/-- **C48**.  Rewriting keeps all schemas in order and numbers them without gaps
from 0.0 on. -/
theorem C48_schemas_in_order {seqs : List (Seq α β)} (h : LegacyOk seqs) (hne : seqs ≠ []) :
    (extractParts seqs).1.map (·.raw) = seqs.flatMap (·.schemas) ∧
    Contiguous ((extractParts seqs).1.map (·.synv)) := by
  refine ⟨(extractLoop_versions seqs 0 0 (by simpa using h.fewSeqs) h.fewSchemas).2, ?_⟩
  rw [extractParts_versions h]
  obtain ⟨h1, h2⟩ := allVersions_chain seqs 0 h.nonempty
  refine ⟨?_, ?_⟩
  · obtain ⟨s, rest, rfl⟩ := List.exists_cons_of_ne_nil hne
    obtain ⟨x, xs, hx⟩ := List.exists_cons_of_ne_nil (h.nonempty s (by simp))
    simp [allVersions, hx, seqVersions_succ]
  · intro i hi
    exact List.isChain_iff_getElem.1 h1 i hi

theorem mem_innerLoop (m : Nat) (xs : List α) : ∀ (k : Nat), k + xs.length < 2 ^ 64 →
    ∀ (v : SV) (x : α), ⟨v, x⟩ ∈ (innerLoop (β := β) m k xs).1 ↔
      ∃ j, v = ⟨m, k + j⟩ ∧ xs[j]? = some x := by
  induction xs with
  | nil => intro k _ v x; simp [innerLoop]
  | cons y xs ih =>
    intro k hk v x
    simp only [List.length_cons] at hk
    unfold innerLoop
    rw [uintSucc_lt (by omega)]
    simp only [List.mem_cons, ih (k + 1) (by omega), LSchema.mk.injEq]
    constructor
    · rintro (⟨rfl, rfl⟩ | ⟨j, rfl, hj⟩)
      · exact ⟨0, rfl, rfl⟩
      · exact ⟨j + 1, by rw [show k + 1 + j = k + (j + 1) by omega], by simpa using hj⟩
    · rintro ⟨j, rfl, hj⟩
      cases j with
      | zero => left; exact ⟨rfl, by simpa using hj.symm⟩
      | succ j =>
        right
        exact ⟨j, by rw [show k + 1 + j = k + (j + 1) by omega], by simpa using hj⟩

theorem mem_extractLoop (seqs : List (Seq α β)) : ∀ (m last : Nat),
    m + seqs.length < 2 ^ 64 → (∀ s ∈ seqs, s.schemas.length < 2 ^ 64) →
    ∀ (v : SV) (x : α), ⟨v, x⟩ ∈ (extractLoop m last seqs).1 ↔
      ∃ i j s, v = ⟨m + i, j⟩ ∧ seqs[i]? = some s ∧ s.schemas[j]? = some x := by
  induction seqs with
  | nil => intro m last _ _ v x; simp [extractLoop]
  | cons s seqs ih =>
    intro m last hm hs v x
    simp only [List.length_cons] at hm
    unfold extractLoop
    rw [uintSucc_lt (by omega)]
    simp only [List.mem_append]
    rw [ih (m + 1) _ (by omega) (fun t ht => hs t (by simp [ht])),
      mem_innerLoop m s.schemas 0 (by simpa using hs s (by simp))]
    constructor
    · rintro (⟨j, rfl, hj⟩ | ⟨i, j, t, rfl, ht, hj⟩)
      · exact ⟨0, j, s, by simp, rfl, hj⟩
      · exact ⟨i + 1, j, t, by rw [show m + 1 + i = m + (i + 1) by omega], by simpa using ht, hj⟩
    · rintro ⟨i, j, t, rfl, ht, hj⟩
      cases i with
      | zero =>
        left
        simp only [List.getElem?_cons_zero, Option.some.injEq] at ht
        subst ht
        exact ⟨j, by simp, hj⟩
      | succ i =>
        right
        exact ⟨i, j, t, by rw [show m + 1 + i = m + (i + 1) by omega], by simpa using ht, hj⟩

/-- **C48**.  Version `i.j` of the output is the `j`-th schema of the `i`-th
sequence, for all `i`, `j`, and there is nothing else. -/
theorem C48_schema_at {seqs : List (Seq α β)} (h : LegacyOk seqs) (v : SV) (x : α) :
    ⟨v, x⟩ ∈ (extractParts seqs).1 ↔
      ∃ s, seqs[v.major]? = some s ∧ s.schemas[v.minor]? = some x := by
  unfold extractParts
  rw [mem_extractLoop seqs 0 0 (by simpa using h.fewSeqs) h.fewSchemas]
  constructor
  · rintro ⟨i, j, s, rfl, h1, h2⟩
    exact ⟨s, by simpa using h1, h2⟩
  · rintro ⟨s, h1, h2⟩
    exact ⟨v.major, v.minor, s, by simp, h1, h2⟩

theorem extractParts_pairs {seqs : List (Seq α β)} (h : LegacyOk seqs) :
    (extractParts seqs).2.map pairOfLLens =
      requiredList ((extractParts seqs).1.map (·.synv)) := by
  rw [extractParts_versions h]
  cases seqs with
  | nil => rfl
  | cons s seqs =>
    obtain ⟨x, xs, hx⟩ := List.exists_cons_of_ne_nil (h.nonempty s (by simp))
    have hlen := h.fewSchemas s (by simp)
    rw [hx, List.length_cons] at hlen
    have hm := h.fewSeqs
    simp only [List.length_cons] at hm
    unfold extractParts extractLoop
    rw [uintSucc_lt (by omega)]
    obtain ⟨_, _, h3, _, _⟩ := innerLoop_spec (β := β) 0 (x :: xs) 0
      (by simpa using hlen)
    have hlast : (innerLoop (β := β) 0 0 (x :: xs)).2.2 = xs.length + 1 := by
      rw [h3]; simp
    simp only [hx, hlast, List.map_append]
    rw [extractLoop_lenses seqs 0 xs.length (by omega) hlen
      (fun t ht => h.fewSchemas t (by simp [ht])) (fun t ht => h.nonempty t (by simp [ht])),
      innerLoop_first _ _ _ hlen]
    rw [allVersions, hx, List.length_cons, seqVersions_succ, List.cons_append, ← reqList_eq, reqList_append]
    have hg : ((seqVersions 0 (0 + 1) xs.length).getLast?).getD ⟨0, 0⟩ = ⟨0, xs.length⟩ := by
      cases hl : xs.length with
      | zero => rfl
      | succ k => rw [seqVersions_getLast]; simp; omega
    rw [hg]
    simp [crossLenses]

theorem requiredList_sorted (vs : List SV) : ∀ (a : SV), (a :: vs).IsChain NextVersion →
    ((requiredList (a :: vs)).map fun id => (⟨id.to, id.frm⟩ : LensVersionDef)).IsChain LensRel ∧
    (∀ d ∈ ((requiredList (a :: vs)).map fun id => (⟨id.to, id.frm⟩ : LensVersionDef)).head?,
      d.to = a ∧ a.less d.frm = true) := by
  induction vs with
  | nil => intro a _; simp [requiredList]
  | cons b vs ih =>
    intro a h
    rw [List.isChain_cons_cons] at h
    obtain ⟨h1, h2⟩ := ih b h.2
    have hab := nextVersion_less h.1
    unfold requiredList
    constructor
    · rw [List.map_cons, List.isChain_cons]
      have hba : b.less a = false := less_asymm hab
      have habne : a ≠ b := by rintro rfl; rw [less_irrefl] at hab; cases hab
      by_cases hmaj : b.major ≠ a.major
      · rw [if_pos hmaj]
        simp only [List.cons_append, List.nil_append, List.map_cons, List.head?_cons,
          Option.mem_def, Option.some.injEq, forall_eq']
        refine ⟨⟨hba, fun he => absurd he habne⟩, ?_⟩
        rw [List.isChain_cons]
        refine ⟨?_, h1⟩
        intro d hd
        obtain ⟨e1, e2⟩ := h2 d hd
        refine ⟨by rw [e1]; exact less_irrefl _, fun _ => less_asymm (less_trans hab e2)⟩
      · rw [if_neg hmaj]
        simp only [List.nil_append]
        refine ⟨?_, h1⟩
        intro d hd
        obtain ⟨e1, e2⟩ := h2 d hd
        exact ⟨by rw [e1]; exact hba, fun he => absurd (he.trans e1) habne⟩
    · simp [hab]

/-- **C49**.  The rewritten lenses are exactly those the rewritten versions
require, each once, and in an order that `BindLineage` accepts (`C14`). -/
theorem C49_required_lenses {seqs : List (Seq α β)} (h : LegacyOk seqs) :
    (∀ id, id ∈ (extractParts seqs).2.map pairOfLLens ↔
      Required ((extractParts seqs).1.map (·.synv)) id) ∧
    ((extractParts seqs).2.map pairOfLLens).Nodup ∧
    LensSorted ((extractParts seqs).2.map fun l => (l.to, l.frm)) := by
  have hchain : ((extractParts seqs).1.map (·.synv)).IsChain NextVersion := by
    rw [extractParts_versions h]
    exact (allVersions_chain seqs 0 h.nonempty).1
  have hstrict : StrictV ((extractParts seqs).1.map (·.synv)) := by
    rw [strictV_iff_chain]
    exact hchain.imp (fun _ _ hab => nextVersion_less hab)
  refine ⟨?_, ?_, ?_⟩
  · intro id
    rw [extractParts_pairs h, mem_requiredList]
  · rw [extractParts_pairs h]
    exact requiredList_nodup hstrict
  · have : ((extractParts seqs).2.map fun l => (l.to, l.frm)) =
        (((extractParts seqs).2.map pairOfLLens).map
          fun id => (⟨id.to, id.frm⟩ : LensVersionDef)).map (fun d => (d.to, d.frm)) := by
      simp [pairOfLLens, Function.comp_def]
    rw [this, ← lensRel_chain_iff, extractParts_pairs h]
    cases hv : (extractParts seqs).1.map (·.synv) with
    | nil => simp [requiredList]
    | cons a vs => exact (requiredList_sorted vs a (hv ▸ hchain)).1

theorem extractLoop_bodies (seqs : List (Seq α β)) : ∀ (m last : Nat),
    m + seqs.length < 2 ^ 64 → (∀ s ∈ seqs, s.schemas.length < 2 ^ 64) →
    ∀ l ∈ (extractLoop m last seqs).2,
      (l.frm.major = l.to.major ∧ l.body = none) ∨
      ∃ i s, seqs[i]? = some s ∧
        ((l.frm.major = m + i ∧ l.to.major + 1 = m + i ∧ l.body = s.reverse) ∨
         (l.to.major = m + i ∧ l.frm.major + 1 = m + i ∧ l.body = s.forward)) := by
  induction seqs with
  | nil => intro m last _ _ l hl; simp [extractLoop] at hl
  | cons s seqs ih =>
    intro m last hm hs l hl
    simp only [List.length_cons] at hm
    unfold extractLoop at hl
    rw [uintSucc_lt (by omega)] at hl
    simp only [List.mem_append] at hl
    have hk := hs s (by simp)
    obtain ⟨_, _, h3, h4, _⟩ := innerLoop_spec (β := β) m s.schemas 0 (by simpa using hk)
    rcases hl with (hl | hl) | hl
    · right
      refine ⟨0, s, rfl, ?_⟩
      cases m with
      | zero => simp [crossLenses] at hl
      | succ m =>
        unfold crossLenses at hl
        rw [if_pos (by omega), uintPred_succ (by omega)] at hl
        simp only [List.mem_cons, List.not_mem_nil, or_false] at hl
        rcases hl with rfl | rfl
        · left; exact ⟨rfl, rfl, rfl⟩
        · right; exact ⟨rfl, rfl, rfl⟩
    · left
      exact ⟨(h4 l hl).2, (h4 l hl).1⟩
    · rcases ih (m + 1) _ (by omega) (fun t ht => hs t (by simp [ht])) l hl with
        h | ⟨i, t, ht, h⟩
      · exact .inl h
      · refine .inr ⟨i + 1, t, by simpa using ht, ?_⟩
        rw [show m + (i + 1) = m + 1 + i by omega]
        exact h

/-- **C49**.  The lens back from the first version of sequence `i` carries the
legacy `lens.reverse` of that sequence, the lens forward to it its
`lens.forward`, and a lens within a sequence has no body yet. -/
theorem C49_lens_bodies {seqs : List (Seq α β)} (h : LegacyOk seqs) {l : LLens β}
    (hl : l ∈ (extractParts seqs).2) :
    (l.to.major < l.frm.major → ∃ s, seqs[l.frm.major]? = some s ∧ l.body = s.reverse) ∧
    (l.frm.major < l.to.major → ∃ s, seqs[l.to.major]? = some s ∧ l.body = s.forward) ∧
    (l.frm.major = l.to.major → l.body = none) := by
  rcases extractLoop_bodies seqs 0 0 (by simpa using h.fewSeqs) h.fewSchemas l hl with
    ⟨h1, h2⟩ | ⟨i, s, hi, ⟨h1, h2, h3⟩ | ⟨h1, h2, h3⟩⟩
  · exact ⟨fun _ => by omega, fun _ => by omega, fun _ => h2⟩
  · rw [Nat.zero_add] at h1
    exact ⟨fun _ => ⟨s, by rw [h1]; exact hi, h3⟩, fun _ => by omega, fun _ => by omega⟩
  · rw [Nat.zero_add] at h1
    exact ⟨fun _ => by omega, fun _ => ⟨s, by rw [h1]; exact hi, h3⟩, fun _ => by omega⟩

/-- A legacy lineage of three sequences. -/
def legacy3 : List (Seq Nat Nat) :=
  [⟨[10, 11], none, none⟩, ⟨[12], some 1, some 2⟩, ⟨[13, 14, 15], some 3, none⟩]

theorem legacy3_ok : LegacyOk legacy3 := by
  constructor
  · intro s hs
    simp only [legacy3, List.mem_cons, List.not_mem_nil, or_false] at hs
    rcases hs with rfl | rfl | rfl <;> simp
  · simp [legacy3]
  · intro s hs
    simp only [legacy3, List.mem_cons, List.not_mem_nil, or_false] at hs
    rcases hs with rfl | rfl | rfl <;> simp

example : LegacyOk legacy3 ∧ legacy3 ≠ [] ∧
    (extractParts legacy3).1.map (·.synv) =
      [⟨0, 0⟩, ⟨0, 1⟩, ⟨1, 0⟩, ⟨2, 0⟩, ⟨2, 1⟩, ⟨2, 2⟩] ∧
    (extractParts legacy3).2 =
      [⟨⟨0, 0⟩, ⟨0, 1⟩, none⟩, ⟨⟨0, 1⟩, ⟨1, 0⟩, some 2⟩, ⟨⟨1, 0⟩, ⟨0, 1⟩, some 1⟩,
       ⟨⟨1, 0⟩, ⟨2, 0⟩, none⟩, ⟨⟨2, 0⟩, ⟨1, 0⟩, some 3⟩, ⟨⟨2, 0⟩, ⟨2, 1⟩, none⟩,
       ⟨⟨2, 1⟩, ⟨2, 2⟩, none⟩] :=
  ⟨legacy3_ok, by simp [legacy3], by decide, by decide⟩

/-- **C49**.  The condition that no sequence is empty is needed: after an empty
sequence, the lenses refer to a version with minor 2^64-1. -/
theorem C49_empty_sequence (m : Nat) (s : Seq α β) (rest : List (Seq α β)) :
    ∃ l ∈ (extractLoop (m + 1) 0 (s :: rest)).2, l.to.minor = 2 ^ 64 - 1 := by
  refine ⟨⟨⟨uintPred (m + 1), uintPred 0⟩, ⟨m + 1, 0⟩, s.reverse⟩, ?_, rfl⟩
  unfold extractLoop crossLenses
  simp

/-! ### C59: references in lens bodies -/

/-- **C59** (partial).  If `from` and `to` are only ever used as `from.x`, `to.x`
with nothing selected from that, rewriting renames exactly these references.
Missing: all other uses (`C59_deep_refs_kept`, `C59_bare_refs_kept`). -/
theorem C59_refs_renamed_partial (a : Ast) (h : ShallowRefs a) : rewriteFromTo a = renameRefs a := by
  have keep : ∀ x : Ast, ¬ Mentions x → renameRefs x = x := by
    intro x
    induction x with
    | ident n =>
      intro hn
      simp only [Mentions, not_or] at hn
      rw [renameRefs, if_neg hn.1, if_neg hn.2]
    | leaf => intro _; rfl
    | sel x l ih => intro hn; simp only [Mentions] at hn; simp [renameRefs, ih hn]
    | pair l r ihl ihr =>
      intro hn
      simp only [Mentions, not_or] at hn
      simp [renameRefs, ihl hn.1, ihr hn.2]
  induction a with
  | ident n => exact (keep _ h).symm
  | leaf => rfl
  | sel x l _ =>
    cases x with
    | ident n =>
      simp only [rewriteFromTo, renameRefs]
      split
      · rfl
      · split <;> rfl
    | leaf => rfl
    | sel y k =>
      simp only [ShallowRefs] at h
      simp only [rewriteFromTo]
      rw [renameRefs, keep _ h]
    | pair y z =>
      simp only [ShallowRefs] at h
      simp only [rewriteFromTo]
      rw [renameRefs, keep _ h]
  | pair l r ihl ihr =>
    simp only [ShallowRefs] at h
    simp only [rewriteFromTo, renameRefs, ihl h.1, ihr h.2]

/-- `from.x`, and `from.x.y`, … -/
def selChain (root : Str) : List Str → Ast
  | [] => .ident root
  | l :: ls => .sel (selChain root ls) l

/-- **C59** (refutation).  A reference two or more levels deep, such as `from.a.b`,
is left as it is: the rewritten lens refers to a `from.a.b` that is not the
input any more. -/
theorem C59_deep_refs_kept (root l k : Str) (ls : List Str) :
    rewriteFromTo (selChain root (l :: k :: ls)) = selChain root (l :: k :: ls) ∧
    (root = "from".toList ∨ root = "to".toList →
      renameRefs (selChain root (l :: k :: ls)) ≠ selChain root (l :: k :: ls)) := by
  refine ⟨rfl, ?_⟩
  intro hr heq
  have key : ∀ ls, renameRefs (selChain root ls) = selChain root ls → False := by
    intro ls
    induction ls with
    | nil =>
      intro h
      rcases hr with rfl | rfl
      · exact absurd h (by decide)
      · exact absurd h (by decide)
    | cons l ls ih =>
      intro h
      simp only [selChain, renameRefs, Ast.sel.injEq, and_true] at h
      exact ih h
  exact key _ heq

/-- **C59** (refutation).  A reference without selector, as in `{from}`, is left
as it is too. -/
theorem C59_bare_refs_kept (n : Str) : rewriteFromTo (.ident n) = .ident n := rfl

/-- `{a: from.a, b: to.a + "x", c: other.from}`. -/
example : ShallowRefs (.pair (.sel (.ident "from".toList) "a".toList)
      (.pair (.pair (.sel (.ident "to".toList) "a".toList) .leaf)
        (.sel (.ident "other".toList) "from".toList))) ∧
    rewriteFromTo (.pair (.sel (.ident "from".toList) "a".toList)
      (.pair (.pair (.sel (.ident "to".toList) "a".toList) .leaf)
        (.sel (.ident "other".toList) "from".toList))) =
    .pair (.sel (.ident "input".toList) "a".toList)
      (.pair (.pair (.sel (.ident "result".toList) "a".toList) .leaf)
        (.sel (.ident "other".toList) "from".toList)) :=
  ⟨by simp [ShallowRefs], by decide⟩

example : (extractParts legacy3).1.map (·.raw) = [10, 11, 12, 13, 14, 15] :=
  (C48_schemas_in_order legacy3_ok (by simp [legacy3])).1

example := C49_lens_bodies legacy3_ok (l := ⟨⟨2, 0⟩, ⟨1, 0⟩, some 3⟩) (by decide)

example : rewriteFromTo (.pair (.sel (.ident "from".toList) "a".toList) .leaf) =
    renameRefs (.pair (.sel (.ident "from".toList) "a".toList) .leaf) :=
  C59_refs_renamed_partial _ (by simp [ShallowRefs])

end Thema.Props
