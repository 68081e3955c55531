import Verif.Props.Version
import Verif.Spec.Crd

/-!
# Custom resource definitions (`crd/crd.cue`)
-/

namespace Thema.Props

open Thema Thema.Crd Thema.Spec

variable {V : Type} {served : List SV} {storage : SV}

/-- **C213** (refuted, for every lineage).  `#CRD` has no value, whatever it is given: it reads the
field `seqs` of its argument, which `#Lineage` does not have, and refuses any argument that has it. -/
theorem C213_no_lineage (lin : LinVal V) (c : List (Option (CrdVersion V))) :
    crd served storage lin ≠ .ok c := by
  intro h
  obtain ⟨l, hl, h⟩ := Eval.bind_eq_ok.1 h
  obtain ⟨s, hs, -⟩ := Eval.bind_eq_ok.1 h
  unfold asLineage at hl
  split at hl
  · rename_i ha
    cases hl
    unfold selSeqs at hs
    split at hs
    · rename_i hc
      exact absurd (List.all_eq_true.1 ha _ (List.contains_iff_mem.1 hc)) (by decide)
    · cases hs
  · cases hl

private theorem name_inj {a b : SV} (h : 'v' :: a.str = 'v' :: b.str) : a = b :=
  C02_str_injective _ _ (List.cons.inj h).2

private theorem element_ok {xs : List (Str × Eval (CrdVersion V))} {e : Option (CrdVersion V)}
    (h : element xs = .ok e) : ∀ x ∈ xs, ∀ y ∈ xs, x.1 = y.1 := by
  cases xs with
  | nil => simp
  | cons x rest =>
    obtain ⟨n, e'⟩ := x
    rw [element] at h
    split at h
    · rename_i ha
      have : ∀ y ∈ (n, e') :: rest, y.1 = n := by
        intro y hy
        rcases List.mem_cons.1 hy with rfl | hy
        · rfl
        · simpa using List.all_eq_true.1 ha y hy
      intro a h1 b h2
      rw [this a h1, this b h2]
    · cases h

private theorem versions_cons {scopes : List (List Str)} {k : Nat} {seq : List V}
    {rest : List (List V)} {es : List (Option (CrdVersion V))}
    (h : versions scopes served storage k (seq :: rest) = .ok es) :
    ∃ e es', es = e :: es' ∧
      element (seq.zipIdx.map fun x => fieldsFor scopes served storage ⟨k, x.2⟩ x.1) = .ok e ∧
      versions scopes served storage (k + 1) rest = .ok es' := by
  obtain ⟨e, he, h⟩ := Eval.bind_eq_ok.1 h
  obtain ⟨es', hes, h⟩ := Eval.bind_eq_ok.1 h
  cases h
  exact ⟨e, es', rfl, he, hes⟩

/-- **C213** (refuted, for sequences as lineages used to have).  Apart from that, and whatever the
names `served` and `storage` mean, there is no value for a sequence with more than one schema: all
its schemas give fields of one struct, with different names. -/
theorem C213_minor_versions_conflict (scopes : List (List Str)) {seqs : List (List V)} (k : Nat)
    {seq : List V} (hs : seq ∈ seqs) (h2 : 2 ≤ seq.length) (es : List (Option (CrdVersion V))) :
    versions scopes served storage k seqs ≠ .ok es := by
  induction seqs generalizing k es with
  | nil => cases hs
  | cons s rest ih =>
    intro h
    obtain ⟨e, es', -, he, hes⟩ := versions_cons h
    rcases List.mem_cons.1 hs with rfl | hs
    · match seq, h2 with
      | a :: b :: tl, _ =>
        have := element_ok he _ (List.mem_map_of_mem (a := (a, 0)) (by simp [List.zipIdx_cons]))
          _ (List.mem_map_of_mem (a := (b, 1)) (by simp [List.zipIdx_cons]))
        have := name_inj this
        injection this with _ h
        exact absurd h (by simp)
    · exact ih (k + 1) hs es' hes

private theorem fieldsFor_self (v : SV) (x : V) :
    fieldsFor crdScopes served storage v x = ('v' :: v.str, .incomplete) := by
  have hm : (means crdScopes "served".toList && means crdScopes "storage".toList) = false := by
    decide
  rw [fieldsFor, hm]
  rfl

/-- **C213** (refuted, for sequences as lineages used to have).  As `served` and `storage` mean the
fields that they are to give the values of, there is a value only for lineages without any schema. -/
theorem C213_only_without_schemas (k : Nat) (seqs : List (List V))
    (es : List (Option (CrdVersion V))) :
    versions crdScopes served storage k seqs = .ok es ↔
      (∀ seq ∈ seqs, seq = []) ∧ es = List.replicate seqs.length none := by
  induction seqs generalizing k es with
  | nil => simp [versions, eq_comm]
  | cons s rest ih =>
    constructor
    · intro h
      obtain ⟨e, es', rfl, he, hes⟩ := versions_cons h
      obtain ⟨h1, rfl⟩ := (ih (k + 1) es').1 hes
      cases s with
      | nil =>
        cases he
        exact ⟨by simpa using h1, rfl⟩
      | cons a tl =>
        exfalso
        rw [List.zipIdx_cons, List.map_cons, fieldsFor_self, element] at he
        by_cases hc : ((tl.zipIdx (0 + 1)).map fun x =>
            fieldsFor crdScopes served storage ⟨k, x.2⟩ x.1).all
            (fun x => x.1 == 'v' :: SV.str ⟨k, 0⟩) = true
        · rw [if_pos hc] at he; cases he
        · rw [if_neg hc] at he; cases he
    · rintro ⟨h1, rfl⟩
      obtain rfl := h1 s (List.mem_cons_self ..)
      have := (ih (k + 1) _).2 ⟨fun q hq => h1 q (List.mem_cons_of_mem _ hq), rfl⟩
      simp [versions, element, this, List.replicate_succ]

private theorem fieldsFor_ok {scopes : List (List Str)} (h1 : means scopes "served".toList = true)
    (h2 : means scopes "storage".toList = true) (v : SV) (x : V) :
    fieldsFor scopes served storage v x =
      ('v' :: v.str, .ok ⟨'v' :: v.str, decide (v ∈ served), decide (v = storage), x⟩) := by
  have e1 : served.contains v = decide (v ∈ served) := by
    rw [Bool.eq_iff_iff, decide_eq_true_iff]; exact List.contains_iff_mem
  have e2 : (v == storage) = decide (v = storage) := by
    rw [Bool.eq_iff_iff, decide_eq_true_iff]; exact beq_iff_eq
  rw [fieldsFor, h1, h2, e1, e2]
  rfl

/-- **C213** (part).  If both names meant the arguments of `#CRD`, sequences with one schema each
would give the versions that are wanted.  Missing: everything else (see above). -/
theorem C213_single_partial {scopes : List (List Str)} (h1 : means scopes "served".toList = true)
    (h2 : means scopes "storage".toList = true) {seqs : List (List V)}
    (hs : ∀ seq ∈ seqs, seq.length = 1) :
    versions scopes served storage 0 seqs = .ok ((wantedVersions served storage seqs).map some) := by
  have key : ∀ k, versions scopes served storage k seqs =
      .ok ((seqs.zipIdx k).flatMap (fun x => x.1.zipIdx.map fun y =>
        ({ name := 'v' :: SV.str ⟨x.2, y.2⟩, served := decide (⟨x.2, y.2⟩ ∈ served),
           storage := decide (⟨x.2, y.2⟩ = storage), schema := y.1 } : CrdVersion V)) |>.map some) := by
    induction seqs with
    | nil => intro k; rfl
    | cons s rest ih =>
      intro k
      have hl := hs s (List.mem_cons_self ..)
      match s, hl with
      | [a], _ =>
        have := ih (fun q hq => hs q (List.mem_cons_of_mem _ hq)) (k + 1)
        rw [versions, this]
        simp only [List.zipIdx_cons, List.zipIdx_nil, List.map_cons, List.map_nil,
          fieldsFor_ok h1 h2, List.flatMap_cons, List.cons_append, List.nil_append]
        rfl
  exact key 0

/-- The hypotheses are met: with other names for the fields of the elements the names would mean the
arguments; the lineage has the versions 0.0 and 1.0, both served, the second stored. -/
example : versions [["n".toList], [], [], [], [], ["served".toList, "storage".toList]]
    [⟨0, 0⟩, ⟨1, 0⟩] ⟨1, 0⟩ 0 [["a"], ["b"]] =
      .ok [some ⟨"v0.0".toList, true, false, "a"⟩, some ⟨"v1.0".toList, true, true, "b"⟩] := by
  rw [C213_single_partial (by decide) (by decide) (by simp)]
  rfl

/-- A lineage as `#Lineage` wants it, one as it used to be, and a sequence with two schemas. -/
example : crd [⟨0, 0⟩] ⟨0, 0⟩ (⟨["name".toList, "schemas".toList], []⟩ : LinVal Nat) = .error ∧
    crd [⟨0, 0⟩] ⟨0, 0⟩ (⟨["name".toList, "seqs".toList], [[1]]⟩ : LinVal Nat) = .error ∧
    versions crdScopes [⟨0, 0⟩] ⟨0, 0⟩ 0 [[1]] = .incomplete ∧
    versions crdScopes [⟨0, 0⟩] ⟨0, 0⟩ 0 [[1, 2]] = .error := by
  exact ⟨rfl, rfl, rfl, rfl⟩

end Thema.Props
