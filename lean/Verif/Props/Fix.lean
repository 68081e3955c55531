import Verif.Spec.Fix
import Verif.Props.Rewrite

/-!
# C115, C116: `thema lineage fix`
-/

namespace Thema.Props

open Thema.Rewrite Thema.Fix Thema.Spec

/-! ### `collect` -/

theorem collect_ok {α β : Type} {f : α → Res β} : ∀ {as : List α},
    (∀ a ∈ as, ∃ b, f a = .ok b) → ∃ bs, collect f as = .ok bs := by
  intro as
  induction as with
  | nil => intro _; exact ⟨[], rfl⟩
  | cons a as ih =>
    intro h
    obtain ⟨b, hb⟩ := h a (by simp)
    obtain ⟨bs, hbs⟩ := ih fun x hx => h x (by simp [hx])
    exact ⟨b :: bs, by simp [collect, hb, hbs]⟩

theorem collect_map {α β : Type} {f : α → Res β} : ∀ {as : List α} {bs : List β},
    collect f as = .ok bs → as.map f = bs.map .ok := by
  intro as
  induction as with
  | nil => intro bs h; injection h with h; subst h; rfl
  | cons a as ih =>
    intro bs h
    unfold collect at h
    obtain ⟨b, hb, h⟩ := Res.bind_eq_ok'.1 h
    obtain ⟨bs', hbs, h⟩ := Res.bind_eq_ok'.1 h
    injection h with h
    subst h
    simp [hb, ih hbs]

theorem collect_panics {α β : Type} {f : α → Res β} : ∀ {as : List α},
    (∀ a ∈ as, (∃ b, f a = .ok b) ∨ f a = .panic .typeAssertion) →
    (∃ a ∈ as, f a = .panic .typeAssertion) → collect f as = .panic .typeAssertion := by
  intro as
  induction as with
  | nil => intro _ h; simp at h
  | cons a as ih =>
    intro h hp
    unfold collect
    rcases h a (by simp) with ⟨b, hb⟩ | hb
    · rw [hb, Res.bind_ok, ih (fun x hx => h x (by simp [hx]))]
      · rfl
      · obtain ⟨x, hx, hxp⟩ := hp
        rcases List.mem_cons.1 hx with rfl | hx
        · rw [hb] at hxp; cases hxp
        · exact ⟨x, hx, hxp⟩
    · rw [hb]; rfl

theorem collect_returns {α β : Type} {f : α → Res β} : ∀ {as : List α},
    (∀ a ∈ as, (f a).Returns) → (∃ bs, collect f as = .ok bs) ∨ ∃ e, collect f as = .err e := by
  intro as
  induction as with
  | nil => intro _; exact .inl ⟨[], rfl⟩
  | cons a as ih =>
    intro h
    have ha := h a (by simp)
    unfold collect
    cases hf : f a with
    | ok b =>
      rcases ih fun x hx => h x (by simp [hx]) with ⟨bs, hb⟩ | ⟨e, he⟩
      · exact .inl ⟨b :: bs, by simp [hb]⟩
      · exact .inr ⟨e, by simp [he]⟩
    | err e => exact .inr ⟨e, rfl⟩
    | panic k => rw [hf] at ha; exact ha.elim
    | fuel => rw [hf] at ha; exact ha.elim

/-! ### `visit` -/

variable {S L : Syn}

theorem visitAll_same {f : Syn → Option Syn} : ∀ {es : List Syn},
    (∀ e ∈ es, f e = some e) → visitAll f es = some es := by
  intro es
  induction es with
  | nil => intro _; rfl
  | cons e es ih =>
    intro h
    simp [visitAll, h e (by simp), ih fun x hx => h x (by simp [hx])]

theorem visitDecls_same {f : Syn → Option Syn} : ∀ {ds : List (Option Str × Syn)},
    (∀ d ∈ ds, d.1 ≠ some seqsName ∧ f d.2 = some d.2) → visitDecls f S L ds = some ds := by
  intro ds
  induction ds with
  | nil => intro _; rfl
  | cons d ds ih =>
    obtain ⟨l, v⟩ := d
    intro h
    obtain ⟨h1, h2⟩ := h (l, v) (by simp)
    dsimp only at h1 h2
    simp [visitDecls, h1, h2, ih fun x hx => h x (by simp [hx])]

theorem bound_all {α : Type} {P : Nat → α → Prop} : ∀ {as : List α},
    (∀ a ∈ as, ∃ N, ∀ n ≥ N, P n a) → ∃ N, ∀ n ≥ N, ∀ a ∈ as, P n a := by
  intro as
  induction as with
  | nil => intro _; exact ⟨0, fun _ _ a ha => by simp at ha⟩
  | cons a as ih =>
    intro h
    obtain ⟨N, hN⟩ := h a (by simp)
    obtain ⟨M, hM⟩ := ih fun x hx => h x (by simp [hx])
    refine ⟨N + M, fun n hn x hx => ?_⟩
    rcases List.mem_cons.1 hx with rfl | hx
    · exact hN n (by omega)
    · exact hM n (by omega) x hx

/-- Syntax without a field `seqs` is left as it is. -/
theorem visit_same : ∀ t, ¬ HasField seqsName t → ∃ N, ∀ n ≥ N, visit S L n t = some t
  | .leaf x, _ => ⟨1, fun n hn => by cases n with | zero => omega | succ n => rfl⟩
  | .struct ds, h => by
    obtain ⟨N, hN⟩ := bound_all (as := ds)
      (P := fun n d => d.1 ≠ some seqsName ∧ visit S L n d.2 = some d.2) fun d hd => by
        obtain ⟨N, hN⟩ := visit_same d.2 fun hf => h (.decl (l := d.1) hd hf)
        refine ⟨N, fun n hn => ⟨fun he => h (.here (v := d.2) ?_), hN n hn⟩⟩
        rw [← he]; exact hd
    refine ⟨N + 1, fun n hn => ?_⟩
    cases n with
    | zero => omega
    | succ n => simp [visit, visitDecls_same fun d hd => hN n (by omega) d hd]
  | .list es, h => by
    obtain ⟨N, hN⟩ := bound_all (as := es) (P := fun n d => visit S L n d = some d) fun d hd =>
      visit_same d fun hf => h (.elem hd hf)
    refine ⟨N + 1, fun n hn => ?_⟩
    cases n with
    | zero => omega
    | succ n => simp [visit, visitAll_same fun d hd => hN n (by omega) d hd]
  | .expr k es, h => by
    obtain ⟨N, hN⟩ := bound_all (as := es) (P := fun n d => visit S L n d = some d) fun d hd =>
      visit_same d fun hf => h (.part hd hf)
    refine ⟨N + 1, fun n hn => ?_⟩
    cases n with
    | zero => omega
    | succ n => simp [visit, visitAll_same fun d hd => hN n (by omega) d hd]
  termination_by t => sizeOf t
  decreasing_by
    · have := List.sizeOf_lt_of_mem hd
      cases d
      simp only [Prod.mk.sizeOf_spec, Syn.struct.sizeOf_spec] at *
      omega
    · have := List.sizeOf_lt_of_mem hd
      simp only [Syn.list.sizeOf_spec]
      omega
    · have := List.sizeOf_lt_of_mem hd
      simp only [Syn.expr.sizeOf_spec]
      omega

theorem visitAll_none {f : Syn → Option Syn} {e : Syn} (he : f e = none) :
    ∀ {es : List Syn}, e ∈ es → visitAll f es = none := by
  intro es
  induction es with
  | nil => intro h; simp at h
  | cons x es ih =>
    intro h
    unfold visitAll
    rcases List.mem_cons.1 h with rfl | h
    · rw [he]; rfl
    · rw [ih h]; cases f x <;> rfl

theorem visitDecls_none {f : Syn → Option Syn} {l : Option Str} {v : Syn}
    (hS : f S = none) (hv : l = some seqsName ∨ f v = none) :
    ∀ {ds : List (Option Str × Syn)}, (l, v) ∈ ds → visitDecls f S L ds = none := by
  intro ds
  induction ds with
  | nil => intro h; simp at h
  | cons d ds ih =>
    obtain ⟨l', v'⟩ := d
    intro h
    unfold visitDecls
    by_cases hl : l' = some seqsName
    · rw [if_pos hl, hS]; rfl
    · rw [if_neg hl]
      rcases List.mem_cons.1 h with h | h
      · injection h with h1 h2
        subst h1 h2
        rcases hv with hv | hv
        · exact absurd hv hl
        · rw [hv]; rfl
      · rw [ih h]; cases f v' <;> rfl

/-- If the replacement has a field `seqs` itself, replacing does not end. -/
theorem visit_endless (hS : HasField seqsName S) : ∀ n t, HasField seqsName t →
    visit S L n t = none := by
  intro n
  induction n with
  | zero => intro t _; rfl
  | succ n ih =>
    intro t ht
    cases ht with
    | here hd => simp [visit, visitDecls_none (ih S hS) (.inl rfl) hd]
    | decl hd hv => simp [visit, visitDecls_none (ih S hS) (.inr (ih _ hv)) hd]
    | elem he hv => simp [visit, visitAll_none (ih _ hv) he]
    | part he hv => simp [visit, visitAll_none (ih _ hv) he]

/-- More calls do not change the result. -/
theorem visitAll_mono {f g : Syn → Option Syn} (h : ∀ t t', f t = some t' → g t = some t') :
    ∀ {es r}, visitAll f es = some r → visitAll g es = some r := by
  intro es
  induction es with
  | nil => intro r hr; exact hr
  | cons e es ih =>
    intro r hr
    unfold visitAll at hr ⊢
    obtain ⟨e', he, hr⟩ := Option.bind_eq_some_iff.1 hr
    obtain ⟨r', hr', rfl⟩ := Option.map_eq_some_iff.1 hr
    rw [h _ _ he, Option.bind_some, ih hr']
    rfl

theorem visitDecls_mono {f g : Syn → Option Syn} (h : ∀ t t', f t = some t' → g t = some t') :
    ∀ {ds r}, visitDecls f S L ds = some r → visitDecls g S L ds = some r := by
  intro ds
  induction ds with
  | nil => intro r hr; exact hr
  | cons d ds ih =>
    obtain ⟨l, v⟩ := d
    intro r hr
    unfold visitDecls at hr ⊢
    split
    · rename_i hl
      rw [if_pos hl] at hr
      obtain ⟨e', he, hr⟩ := Option.bind_eq_some_iff.1 hr
      obtain ⟨r', hr', rfl⟩ := Option.map_eq_some_iff.1 hr
      rw [h _ _ he, Option.bind_some, ih hr']
      rfl
    · rename_i hl
      rw [if_neg hl] at hr
      obtain ⟨e', he, hr⟩ := Option.bind_eq_some_iff.1 hr
      obtain ⟨r', hr', rfl⟩ := Option.map_eq_some_iff.1 hr
      rw [h _ _ he, Option.bind_some, ih hr']
      rfl

theorem visit_mono : ∀ n m t t', n ≤ m → visit S L n t = some t' → visit S L m t = some t' := by
  intro n
  induction n with
  | zero => intro m t t' _ h; cases h
  | succ n ih =>
    intro m t t' hm h
    cases m with
    | zero => omega
    | succ m =>
      have hi := fun a b => ih m a b (by omega)
      cases t with
      | leaf x => exact h
      | struct ds =>
        obtain ⟨r, hr, rfl⟩ := Option.map_eq_some_iff.1 h
        simp [visit, visitDecls_mono hi hr]
      | list es =>
        obtain ⟨r, hr, rfl⟩ := Option.map_eq_some_iff.1 h
        simp [visit, visitAll_mono hi hr]
      | expr k es =>
        obtain ⟨r, hr, rfl⟩ := Option.map_eq_some_iff.1 h
        simp [visit, visitAll_mono hi hr]

theorem visitDecls_append {f : Syn → Option Syn} : ∀ {ds es r r'},
    visitDecls f S L ds = some r → visitDecls f S L es = some r' →
    visitDecls f S L (ds ++ es) = some (r ++ r') := by
  intro ds
  induction ds with
  | nil => intro es r r' h h'; injection h with h; subst h; exact h'
  | cons d ds ih =>
    obtain ⟨l, v⟩ := d
    intro es r r' h h'
    rw [List.cons_append]
    unfold visitDecls at h ⊢
    split
    · rename_i hl
      rw [if_pos hl] at h
      obtain ⟨e', he, hr⟩ := Option.bind_eq_some_iff.1 h
      obtain ⟨r'', hr', rfl⟩ := Option.map_eq_some_iff.1 hr
      rw [he, Option.bind_some, ih hr' h']
      rfl
    · rename_i hl
      rw [if_neg hl] at h
      obtain ⟨e', he, hr⟩ := Option.bind_eq_some_iff.1 h
      obtain ⟨r'', hr', rfl⟩ := Option.map_eq_some_iff.1 hr
      rw [he, Option.bind_some, ih hr' h']
      rfl

theorem visitAll_some {f : Syn → Option Syn} : ∀ {es : List Syn},
    (∀ e ∈ es, ∃ e', f e = some e') → ∃ r, visitAll f es = some r := by
  intro es
  induction es with
  | nil => intro _; exact ⟨[], rfl⟩
  | cons e es ih =>
    intro h
    obtain ⟨e', he⟩ := h e (by simp)
    obtain ⟨r, hr⟩ := ih fun x hx => h x (by simp [hx])
    exact ⟨e' :: r, by simp [visitAll, he, hr]⟩

theorem visitDecls_some {f : Syn → Option Syn} (hS : ∃ S', f S = some S') :
    ∀ {ds : List (Option Str × Syn)}, (∀ d ∈ ds, ∃ v, f d.2 = some v) →
    ∃ r, visitDecls f S L ds = some r := by
  obtain ⟨S', hS⟩ := hS
  intro ds
  induction ds with
  | nil => intro _; exact ⟨[], rfl⟩
  | cons d ds ih =>
    obtain ⟨l, v⟩ := d
    intro h
    obtain ⟨v', hv⟩ := h (l, v) (by simp)
    obtain ⟨r, hr⟩ := ih fun x hx => h x (by simp [hx])
    dsimp only at hv
    unfold visitDecls
    split
    · exact ⟨_, by rw [hS, Option.bind_some, hr]; rfl⟩
    · exact ⟨_, by rw [hv, Option.bind_some, hr]; rfl⟩

/-- If the replacement has no field `seqs`, replacing ends, whatever is visited. -/
theorem visit_some (hS : ¬ HasField seqsName S) :
    ∀ t, ∃ N, ∀ n ≥ N, ∃ t', visit S L n t = some t'
  | .leaf x => ⟨1, fun n hn => by cases n with | zero => omega | succ n => exact ⟨_, rfl⟩⟩
  | .struct ds => by
    obtain ⟨N, hN⟩ := bound_all (as := ds)
      (P := fun n d => ∃ t', visit S L n d.2 = some t') fun d hd => visit_some hS d.2
    obtain ⟨M, hM⟩ := visit_same (S := S) (L := L) S hS
    refine ⟨N + M + 1, fun n hn => ?_⟩
    cases n with
    | zero => omega
    | succ n =>
      obtain ⟨r, hr⟩ := visitDecls_some (L := L) ⟨S, hM n (by omega)⟩
        fun d hd => hN n (by omega) d hd
      exact ⟨.struct r, by simp [visit, hr]⟩
  | .list es => by
    obtain ⟨N, hN⟩ := bound_all (as := es)
      (P := fun n d => ∃ t', visit S L n d = some t') fun d hd => visit_some hS d
    refine ⟨N + 1, fun n hn => ?_⟩
    cases n with
    | zero => omega
    | succ n =>
      obtain ⟨r, hr⟩ := visitAll_some fun d hd => hN n (by omega) d hd
      exact ⟨.list r, by simp [visit, hr]⟩
  | .expr k es => by
    obtain ⟨N, hN⟩ := bound_all (as := es)
      (P := fun n d => ∃ t', visit S L n d = some t') fun d hd => visit_some hS d
    refine ⟨N + 1, fun n hn => ?_⟩
    cases n with
    | zero => omega
    | succ n =>
      obtain ⟨r, hr⟩ := visitAll_some fun d hd => hN n (by omega) d hd
      exact ⟨.expr k r, by simp [visit, hr]⟩
  termination_by t => sizeOf t
  decreasing_by
    · have := List.sizeOf_lt_of_mem hd
      cases d
      simp only [Prod.mk.sizeOf_spec, Syn.struct.sizeOf_spec] at *
      omega
    · have := List.sizeOf_lt_of_mem hd
      simp only [Syn.list.sizeOf_spec]
      omega
    · have := List.sizeOf_lt_of_mem hd
      simp only [Syn.expr.sizeOf_spec]
      omega

/-- In its simplest form: a struct with one field `seqs` on the top level. -/
theorem visit_top {pre post : List (Option Str × Syn)} {old : Syn} (hS : ¬ HasField seqsName S)
    (h1 : ¬ HasField seqsName (.struct pre)) (h2 : ¬ HasField seqsName (.struct post)) :
    ∃ N, ∀ n ≥ N, visit S L n (.struct (pre ++ (some seqsName, old) :: post)) =
      some (.struct (pre ++ (some schemasName, S) :: (some lensesName, L) :: post)) := by
  obtain ⟨N1, hN1⟩ := visit_same (S := S) (L := L) _ h1
  obtain ⟨N2, hN2⟩ := visit_same (S := S) (L := L) _ h2
  obtain ⟨N3, hN3⟩ := visit_same (S := S) (L := L) _ hS
  refine ⟨N1 + N2 + N3 + 1, fun n hn => ?_⟩
  cases n with
  | zero => omega
  | succ n =>
    have e1 := hN1 (n + 1) (by omega)
    have e2 := hN2 (n + 1) (by omega)
    simp only [visit, Option.map_eq_some_iff] at e1 e2
    obtain ⟨r1, e1, he1⟩ := e1
    obtain ⟨r2, e2, he2⟩ := e2
    injection he1 with he1
    injection he2 with he2
    subst he1 he2
    have e3 : visitDecls (visit S L n) S L ((some seqsName, old) :: r2) =
        some ((some schemasName, S) :: (some lensesName, L) :: r2) := by
      simp [visitDecls, hN3 n (by omega), e2]
    simp [visit, visitDecls_append e1 e3]

/-! ### `rewrite` -/

variable {rw' : Syn → Syn} {seqs : List (Seq Source Lens)}

theorem schToAST_ok {s : LSchema Source} {t : Syn} (h : schToAST s = .ok t) :
    ∃ ds, s.raw = .lit ds ∧ t = writtenSchema s.synv ds := by
  unfold schToAST at h
  cases hr : s.raw <;> rw [hr] at h <;> first | (injection h with h; exact ⟨_, rfl, h.symm⟩) | cases h

theorem schemas_entries : ∀ {xs : List (LSchema Source)} {ss : List Syn},
    collect schToAST xs = .ok ss →
    ∃ es : List (SV × List (Option Str × Syn)),
      ss = es.map (fun e => writtenSchema e.1 e.2) ∧
      xs = es.map (fun e => (⟨e.1, .lit e.2⟩ : LSchema Source)) := by
  intro xs
  induction xs with
  | nil => intro ss h; injection h with h; subst h; exact ⟨[], rfl, rfl⟩
  | cons x xs ih =>
    intro ss h
    unfold collect at h
    obtain ⟨t, ht, h⟩ := Res.bind_eq_ok'.1 h
    obtain ⟨r, hr, h⟩ := Res.bind_eq_ok'.1 h
    injection h with h
    obtain ⟨es, h1, h2⟩ := ih hr
    obtain ⟨ds, h3, h4⟩ := schToAST_ok ht
    refine ⟨(x.synv, ds) :: es, ?_, ?_⟩
    · rw [← h, h1, h4]; rfl
    · rw [h2]
      cases x
      dsimp only at h3
      simp [h3]

/-- A field `seqs` in the new `schemas` is one in a schema. -/
theorem hasField_entries {es : List (SV × List (Option Str × Syn))} :
    HasField seqsName (.list (es.map fun e => writtenSchema e.1 e.2)) ↔
      ∃ e ∈ es, HasField seqsName (.struct e.2) := by
  constructor
  · intro h
    cases h with
    | elem he hf =>
      obtain ⟨e, hm, rfl⟩ := List.mem_map.1 he
      refine ⟨e, hm, ?_⟩
      unfold writtenSchema at hf
      cases hf with
      | here hd => simp [seqsName] at hd
      | decl hd hv =>
        simp only [List.mem_cons, Prod.mk.injEq, List.not_mem_nil, or_false] at hd
        rcases hd with ⟨-, rfl⟩ | ⟨-, rfl⟩
        · unfold writtenVersion at hv
          cases hv with
          | elem he hf =>
            simp only [List.mem_cons, List.not_mem_nil, or_false] at he
            rcases he with rfl | rfl <;> cases hf
        · exact hv
  · rintro ⟨e, hm, hf⟩
    exact .elem (List.mem_map.2 ⟨e, hm, rfl⟩) (.decl (l := some "schema".toList) (by simp) hf)

theorem extractLoop_raw_mem : ∀ {seqs : List (Seq Source Lens)} {m last : Nat} {x : LSchema Source},
    x ∈ (extractLoop m last seqs).1 → ∃ s ∈ seqs, x.raw ∈ s.schemas := by
  have inner : ∀ {xs : List Source} {m k : Nat} {x : LSchema Source},
      x ∈ (innerLoop (β := Lens) m k xs).1 → x.raw ∈ xs := by
    intro xs
    induction xs with
    | nil => intro m k x h; simp [innerLoop] at h
    | cons y xs ih =>
      intro m k x h
      unfold innerLoop at h
      rcases List.mem_cons.1 h with rfl | h
      · simp
      · exact List.mem_cons_of_mem _ (ih h)
  intro seqs
  induction seqs with
  | nil => intro m last x h; simp [extractLoop] at h
  | cons s seqs ih =>
    intro m last x h
    unfold extractLoop at h
    rcases List.mem_append.1 h with h | h
    · exact ⟨s, by simp, inner h⟩
    · obtain ⟨t, ht, hx⟩ := ih h
      exact ⟨t, by simp [ht], hx⟩

theorem extractLoop_body_mem : ∀ {seqs : List (Seq Source Lens)} {m last : Nat} {x : LLens Lens},
    x ∈ (extractLoop m last seqs).2 →
    x.body = none ∨ ∃ s ∈ seqs, x.body = s.forward ∨ x.body = s.reverse := by
  have inner : ∀ {xs : List Source} {m k : Nat} {x : LLens Lens},
      x ∈ (innerLoop (β := Lens) m k xs).2.1 → x.body = none := by
    intro xs
    induction xs with
    | nil => intro m k x h; simp [innerLoop] at h
    | cons y xs ih =>
      intro m k x h
      unfold innerLoop at h
      rcases List.mem_append.1 h with h | h
      · split at h
        · rw [List.mem_singleton.1 h]
        · simp at h
      · exact ih h
  intro seqs
  induction seqs with
  | nil => intro m last x h; simp [extractLoop] at h
  | cons s seqs ih =>
    intro m last x h
    unfold extractLoop at h
    rcases List.mem_append.1 h with h | h
    · rcases List.mem_append.1 h with h | h
      · unfold crossLenses at h
        split at h
        · simp only [List.mem_cons, List.not_mem_nil, or_false] at h
          rcases h with rfl | rfl
          · exact .inr ⟨s, by simp, .inr rfl⟩
          · exact .inr ⟨s, by simp, .inl rfl⟩
        · simp at h
      · exact .inl (inner h)
    · rcases ih h with h | ⟨t, ht, hx⟩
      · exact .inl h
      · exact .inr ⟨t, by simp [ht], hx⟩

/-- The lenses of all sequences but the first are among the new lenses. -/
theorem extractLoop_has_body : ∀ {seqs : List (Seq Source Lens)} {m last i : Nat}
    {s : Seq Source Lens}, m + seqs.length < 2 ^ 64 → seqs[i]? = some s → 0 < m + i →
    (∃ l ∈ (extractLoop m last seqs).2, l.body = s.forward) ∧
    ∃ l ∈ (extractLoop m last seqs).2, l.body = s.reverse := by
  intro seqs
  induction seqs with
  | nil => intro m last i s _ h; simp at h
  | cons t seqs ih =>
    intro m last i s hm h hi
    simp only [List.length_cons] at hm
    cases i with
    | zero =>
      simp only [List.getElem?_cons_zero, Option.some.injEq] at h
      subst h
      unfold extractLoop crossLenses
      rw [if_pos (by omega)]
      exact ⟨⟨_, by simp only [List.mem_append, List.mem_cons]; exact .inl (.inl (.inr (.inl rfl))),
        rfl⟩, _, by simp only [List.mem_append, List.mem_cons]; exact .inl (.inl (.inl rfl)), rfl⟩
    | succ i =>
      simp only [List.getElem?_cons_succ] at h
      have hs : Lineage.uintSucc m = m + 1 := uintSucc_lt (by omega)
      unfold extractLoop
      rw [hs]
      obtain ⟨⟨a, ha, ha'⟩, b, hb, hb'⟩ := ih (m := m + 1)
        (last := (innerLoop (β := Lens) m 0 t.schemas).2.2) (by omega) h (by omega)
      exact ⟨⟨a, List.mem_append_right _ ha, ha'⟩, b, List.mem_append_right _ hb, hb'⟩

theorem mapSrc_ok {l : Option Lens} (h : ∀ x, l = some x → Lens.MapperOk x) :
    ∃ b, mapSrc rw' (l.bind (·.mapper)) = .ok b := by
  cases l with
  | none => exact ⟨_, rfl⟩
  | some x =>
    cases hm : x.mapper with
    | none => exact ⟨todoBody, by simp [hm, mapSrc]⟩
    | some s =>
      obtain ⟨ds, rfl⟩ := h x rfl s hm
      exact ⟨rw' (.struct ds), by simp [hm, mapSrc]⟩

theorem lacSrc_ok {l : Option Lens} (h : ∀ x, l = some x → Lens.LacunasOk x) :
    ∃ b, lacSrc rw' (l.bind (·.lacunas)) = .ok b := by
  cases l with
  | none => exact ⟨_, rfl⟩
  | some x =>
    cases hm : x.lacunas with
    | none => exact ⟨.list [], by simp [hm, lacSrc]⟩
    | some s =>
      rcases h x rfl s hm with rfl | ⟨es, rfl⟩
      · exact ⟨.list [], by simp [hm, lacSrc]⟩
      · exact ⟨rw' (.list es), by simp [hm, lacSrc]⟩

theorem lacSrc_bad {x : Lens} (h : ¬ Lens.LacunasOk x) :
    lacSrc rw' ((some x).bind (·.lacunas)) = .panic .typeAssertion := by
  unfold Lens.LacunasOk at h
  simp only [not_forall, not_or, not_exists] at h
  obtain ⟨s, hs, h1, h2⟩ := h
  simp only [Option.bind_some, hs]
  cases s with
  | nil => exact absurd rfl h1
  | lit ds => rfl
  | other => rfl
  | field v =>
    cases v with
    | list es => exact absurd rfl (h2 es)
    | _ => rfl

theorem bodyOf_mem {l : LLens Lens} (hl : l ∈ (extractParts seqs).2) {P : Lens → Prop}
    (h : ∀ s ∈ seqs, ∀ x, (s.forward = some x ∨ s.reverse = some x) → P x) :
    ∀ x, l.body = some x → P x := by
  intro x hx
  rcases extractLoop_body_mem hl with hn | ⟨s, hs, hb | hb⟩
  · rw [hn] at hx; cases hx
  · exact h s hs x (.inl (by rw [← hb, hx]))
  · exact h s hs x (.inr (by rw [← hb, hx]))

theorem collect_schemas_ok (h : SchemasWritten seqs) :
    ∃ ss, collect schToAST (extractParts seqs).1 = .ok ss := by
  refine collect_ok fun x hx => ?_
  obtain ⟨s, hs, hm⟩ := extractLoop_raw_mem hx
  obtain ⟨ds, hd⟩ := h s hs x.raw hm
  exact ⟨writtenSchema x.synv ds, by unfold schToAST; rw [hd]; rfl⟩

theorem rewrite_ok (h1 : SchemasWritten seqs) (h2 : MappersWritten seqs)
    (h3 : LacunasWritten seqs) : ∃ p, rewrite rw' seqs = .ok p := by
  obtain ⟨ss, hss⟩ := collect_schemas_ok h1
  have : ∃ ls, collect (lensToAST rw') (extractParts seqs).2 = .ok ls := by
    refine collect_ok fun l hl => ?_
    obtain ⟨b, hb⟩ := mapSrc_ok (rw' := rw') (bodyOf_mem hl h2)
    obtain ⟨c, hc⟩ := lacSrc_ok (rw' := rw') (bodyOf_mem hl h3)
    exact ⟨_, by unfold lensToAST; rw [hb, Res.bind_ok, hc]; rfl⟩
  obtain ⟨ls, hls⟩ := this
  exact ⟨(.list ss, .list ls), by simp [rewrite, hss, hls]⟩

theorem rewrite_panics (hlen : seqs.length < 2 ^ 64) (h1 : SchemasWritten seqs)
    (h2 : MappersWritten seqs) {i : Nat} {s : Seq Source Lens} {x : Lens}
    (hi : seqs[i + 1]? = some s) (hx : s.forward = some x ∨ s.reverse = some x)
    (hbad : ¬ Lens.LacunasOk x) : rewrite rw' seqs = .panic .typeAssertion := by
  obtain ⟨ss, hss⟩ := collect_schemas_ok h1
  have : collect (lensToAST rw') (extractParts seqs).2 = .panic .typeAssertion := by
    have hl : ∃ l ∈ (extractParts seqs).2, l.body = some x := by
      obtain ⟨⟨a, ha, ha'⟩, b, hb, hb'⟩ := extractLoop_has_body (m := 0) (last := 0)
        (by simpa using hlen) hi (by omega)
      rcases hx with hx | hx
      · exact ⟨a, ha, ha'.trans hx⟩
      · exact ⟨b, hb, hb'.trans hx⟩
    refine collect_panics (fun l hl => ?_) ?_
    · obtain ⟨b, hb⟩ := mapSrc_ok (rw' := rw') (bodyOf_mem hl h2)
      unfold lensToAST
      rw [hb, Res.bind_ok]
      by_cases hlac : ∀ x, l.body = some x → Lens.LacunasOk x
      · obtain ⟨c, hc⟩ := lacSrc_ok (rw' := rw') hlac
        exact .inl ⟨_, by rw [hc]; rfl⟩
      · simp only [not_forall] at hlac
        obtain ⟨y, hy, hb⟩ := hlac
        right
        rw [hy, lacSrc_bad hb]
        rfl
    · obtain ⟨l, hm, hb⟩ := hl
      refine ⟨l, hm, ?_⟩
      obtain ⟨b, hb'⟩ := mapSrc_ok (rw' := rw') (bodyOf_mem hm h2)
      unfold lensToAST
      rw [hb', Res.bind_ok, hb, lacSrc_bad hbad]
      rfl
  simp [rewrite, hss, this]

theorem rewrite_parts {p : Syn × Syn} (h : rewrite rw' seqs = .ok p) :
    ∃ es : List (SV × List (Option Str × Syn)), ∃ ls,
      p = (.list (es.map fun e => writtenSchema e.1 e.2), .list ls) ∧
      (extractParts seqs).1 = es.map (fun e => ⟨e.1, .lit e.2⟩) ∧
      collect (lensToAST rw') (extractParts seqs).2 = .ok ls := by
  unfold rewrite at h
  obtain ⟨ss, hs, h⟩ := Res.bind_eq_ok'.1 h
  obtain ⟨ls, hl, h⟩ := Res.bind_eq_ok'.1 h
  injection h with h
  obtain ⟨es, h1, h2⟩ := schemas_entries hs
  exact ⟨es, ls, by rw [← h, h1], h2, hl⟩

theorem lens_entries : ∀ {xs : List (LLens Lens)} {ls : List Syn},
    collect (lensToAST rw') xs = .ok ls →
    ∃ es : List (LensID × Syn × Syn),
      ls = es.map (fun e => writtenLens e.1 e.2.1 e.2.2) ∧
      es.map (·.1) = xs.map pairOfLLens ∧
      ∀ e ∈ es, ∃ l ∈ xs, e.1 = pairOfLLens l ∧ SameLens rw' l.body e.2.1 e.2.2 := by
  intro xs
  induction xs with
  | nil => intro ls h; injection h with h; subst h; exact ⟨[], rfl, rfl, by simp⟩
  | cons x xs ih =>
    intro ls h
    unfold collect at h
    obtain ⟨t, ht, h⟩ := Res.bind_eq_ok'.1 h
    obtain ⟨r, hr, h⟩ := Res.bind_eq_ok'.1 h
    injection h with h
    obtain ⟨es, h1, h2, h3⟩ := ih hr
    unfold lensToAST at ht
    obtain ⟨b, hb, ht⟩ := Res.bind_eq_ok'.1 ht
    obtain ⟨c, hc, ht⟩ := Res.bind_eq_ok'.1 ht
    injection ht with ht
    refine ⟨(pairOfLLens x, b, c) :: es, ?_, by simp [h2], ?_⟩
    · rw [← h, h1, ← ht]
      rfl
    · intro e he
      rcases List.mem_cons.1 he with rfl | he
      · refine ⟨x, by simp, rfl, ?_, ?_, ?_, ?_⟩
        · intro y ds hy hm
          rw [hy] at hb
          simp only [Option.bind_some, hm, mapSrc] at hb
          injection hb with hb
          exact hb.symm
        · intro y es hy hm
          rw [hy] at hc
          simp only [Option.bind_some, hm, lacSrc] at hc
          injection hc with hc
          exact hc.symm
        · intro hm
          have : x.body.bind (·.mapper) = none := by
            cases hx : x.body with
            | none => rfl
            | some y => exact hm y hx
          rw [this] at hb
          injection hb with hb
          exact hb.symm
        · intro hm
          have : x.body.bind (·.lacunas) = none := by
            cases hx : x.body with
            | none => rfl
            | some y => exact hm y hx
          rw [this] at hc
          injection hc with hc
          exact hc.symm
      · obtain ⟨l, hl, h⟩ := h3 e he
        exact ⟨l, by simp [hl], h⟩

/-! ### C115: what is written -/

/-- **C115** (partial).  `lineage fix` of a legacy lineage in which no other field is called
`seqs`: the field `seqs` is replaced by `schemas` and `lenses`, and everything around it stays as
it is.  `schemas` has the legacy schemas as they were, version `i.j` being the `j`-th schema of
the `i`-th sequence, in order; `lenses` has the lenses that these versions need, once each, with
the legacy bodies.

Missing: legacy lineages in which another field is called `seqs` (`C115_other_field`,
`C116_endless`). -/
theorem C115_in_place_partial (hok : LegacyOk seqs) (hne : seqs ≠ []) (h1 : SchemasWritten seqs)
    (h2 : MappersWritten seqs) (h3 : LacunasWritten seqs) (h4 : ¬ InSchemas "seqs".toList seqs)
    {pre post : List (Option Str × Syn)} {old : Syn}
    (h5 : ¬ HasField "seqs".toList (.struct pre)) (h6 : ¬ HasField "seqs".toList (.struct post)) :
    ∃ (ss : List (SV × List (Option Str × Syn))) (ls : List (LensID × Syn × Syn)),
      (∃ N, ∀ n ≥ N, fix rw' seqs (pre ++ (some "seqs".toList, old) :: post) n =
        .ok (.struct (pre ++
          (some "schemas".toList, .list (ss.map fun e => writtenSchema e.1 e.2)) ::
          (some "lenses".toList, .list (ls.map fun e => writtenLens e.1 e.2.1 e.2.2)) ::
          post))) ∧
      (ss.map fun e => Source.lit e.2) = seqs.flatMap (·.schemas) ∧
      Contiguous (ss.map (·.1)) ∧
      (∀ v ds, (v, ds) ∈ ss ↔
        ∃ s, seqs[v.major]? = some s ∧ s.schemas[v.minor]? = some (.lit ds)) ∧
      (∀ id, id ∈ ls.map (·.1) ↔ Required (ss.map (·.1)) id) ∧
      (ls.map (·.1)).Nodup ∧
      ∀ id b lac, (id, b, lac) ∈ ls →
        (id.to.major < id.frm.major →
          ∃ s, seqs[id.frm.major]? = some s ∧ SameLens rw' s.reverse b lac) ∧
        (id.frm.major < id.to.major →
          ∃ s, seqs[id.to.major]? = some s ∧ SameLens rw' s.forward b lac) ∧
        (id.frm.major = id.to.major → SameLens rw' none b lac) := by
  obtain ⟨p, hp⟩ := rewrite_ok (rw' := rw') h1 h2 h3
  obtain ⟨ss, lsyn, rfl, hex, hls⟩ := rewrite_parts hp
  obtain ⟨ls, rfl, hl1, hl2⟩ := lens_entries hls
  have hv : (extractParts seqs).1.map (·.synv) = ss.map (·.1) := by
    rw [hex]; simp [Function.comp_def]
  obtain ⟨c1, c2⟩ := C48_schemas_in_order hok hne
  obtain ⟨d1, d2, -⟩ := C49_required_lenses hok
  refine ⟨ss, ls, ?_, ?_, ?_, ?_, ?_, ?_, ?_⟩
  · have hS : ¬ HasField seqsName (.list (ss.map fun e => writtenSchema e.1 e.2)) := by
      rw [hasField_entries]
      rintro ⟨e, he, hf⟩
      have : (⟨e.1, .lit e.2⟩ : LSchema Source) ∈ (extractParts seqs).1 := by
        rw [hex]; exact List.mem_map.2 ⟨e, he, rfl⟩
      obtain ⟨s, hs, hm⟩ := extractLoop_raw_mem this
      exact h4 ⟨s, hs, e.2, hm, hf⟩
    obtain ⟨N, hN⟩ := visit_top
      (L := .list (ls.map fun e => writtenLens e.1 e.2.1 e.2.2)) (old := old) hS h5 h6
    refine ⟨N, fun n hn => ?_⟩
    have := hN n hn
    unfold fix
    rw [hp, Res.bind_ok]
    dsimp only
    rw [show "seqs".toList = seqsName from rfl, this]
    rfl
  · rw [← c1, hex]; simp [Function.comp_def]
  · rw [← hv]; exact c2
  · intro v ds
    rw [← C48_schema_at hok v (.lit ds), hex]
    constructor
    · intro h; exact List.mem_map.2 ⟨_, h, rfl⟩
    · intro h
      obtain ⟨e, he, h⟩ := List.mem_map.1 h
      injection h with ha hb
      injection hb with hb
      rw [← ha, ← hb]
      exact he
  · intro id
    rw [hl1, ← hv]
    exact d1 id
  · rw [hl1]; exact d2
  · intro id b lac hm
    obtain ⟨l, hl, he, hs⟩ := hl2 _ hm
    dsimp only at he hs
    obtain ⟨f1, f2, f3⟩ := C49_lens_bodies hok hl
    subst he
    refine ⟨fun h => ?_, fun h => ?_, fun h => ?_⟩
    · obtain ⟨s, hs1, hs2⟩ := f1 h
      exact ⟨s, hs1, hs2 ▸ hs⟩
    · obtain ⟨s, hs1, hs2⟩ := f2 h
      exact ⟨s, hs1, hs2 ▸ hs⟩
    · rw [f3 h] at hs
      exact hs

/-- **C115** refuted, generally.  In every legacy lineage, a field called `seqs` of any other
struct is taken for the legacy field: its value is lost, and the schemas and lenses are put in
its place a second time. -/
theorem C115_other_field (h1 : SchemasWritten seqs) (h2 : MappersWritten seqs)
    (h3 : LacunasWritten seqs) (h4 : ¬ InSchemas "seqs".toList seqs) (k : Str) (old v : Syn)
    (hk : k ≠ "seqs".toList) :
    ∃ S L, ∃ N, ∀ n ≥ N,
      fix rw' seqs [(some "seqs".toList, old), (some k, .struct [(some "seqs".toList, v)])] n =
        .ok (.struct [(some "schemas".toList, S), (some "lenses".toList, L),
          (some k, .struct [(some "schemas".toList, S), (some "lenses".toList, L)])]) := by
  obtain ⟨p, hp⟩ := rewrite_ok (rw' := rw') h1 h2 h3
  obtain ⟨ss, lsyn, rfl, hex, hls⟩ := rewrite_parts hp
  have hS : ¬ HasField seqsName (.list (ss.map fun e => writtenSchema e.1 e.2)) := by
    rw [hasField_entries]
    rintro ⟨e, he, hf⟩
    have : (⟨e.1, .lit e.2⟩ : LSchema Source) ∈ (extractParts seqs).1 := by
      rw [hex]; exact List.mem_map.2 ⟨e, he, rfl⟩
    obtain ⟨s, hs, hm⟩ := extractLoop_raw_mem this
    exact h4 ⟨s, hs, e.2, hm, hf⟩
  refine ⟨.list (ss.map fun e => writtenSchema e.1 e.2), .list lsyn, ?_⟩
  obtain ⟨N, hN⟩ := visit_same (S := .list (ss.map fun e => writtenSchema e.1 e.2))
    (L := .list lsyn) _ hS
  refine ⟨N + 2, fun n hn => ?_⟩
  obtain ⟨n, rfl⟩ : ∃ m, n = m + 2 := ⟨n - 2, by omega⟩
  have hk' : k ≠ seqsName := hk
  have e1 := hN (n + 1) (by omega)
  have e2 := hN n (by omega)
  unfold fix
  rw [hp, Res.bind_ok]
  dsimp only
  rw [show "seqs".toList = seqsName from rfl]
  have e3 : visit (.list (ss.map fun e => writtenSchema e.1 e.2)) (.list lsyn) (n + 1)
      (.struct [(some seqsName, v)]) =
      some (.struct [(some schemasName, .list (ss.map fun e => writtenSchema e.1 e.2)),
        (some lensesName, .list lsyn)]) := by
    simp [visit, visitDecls, e2]
  have e4 : visit (.list (ss.map fun e => writtenSchema e.1 e.2)) (.list lsyn) (n + 2)
      (.struct [(some seqsName, old), (some k, .struct [(some seqsName, v)])]) =
      some (.struct [(some schemasName, .list (ss.map fun e => writtenSchema e.1 e.2)),
        (some lensesName, .list lsyn),
        (some k, .struct [(some schemasName, .list (ss.map fun e => writtenSchema e.1 e.2)),
          (some lensesName, .list lsyn)])]) := by
    rw [visit]
    simp [visitDecls, e1, e3, hk']
  rw [e4]
  rfl

/-! ### C116: an end -/

theorem rewrite_returns (h2 : MappersFields seqs) (h3 : LacunasWritten seqs) :
    (∃ p, rewrite rw' seqs = .ok p) ∨ ∃ e, rewrite rw' seqs = .err e := by
  unfold rewrite
  have hs : (∃ bs, collect schToAST (extractParts seqs).1 = .ok bs) ∨
      ∃ e, collect schToAST (extractParts seqs).1 = .err e := by
    refine collect_returns fun x _ => ?_
    unfold schToAST
    cases x.raw <;> trivial
  have hl : (∃ bs, collect (lensToAST rw') (extractParts seqs).2 = .ok bs) ∨
      ∃ e, collect (lensToAST rw') (extractParts seqs).2 = .err e := by
    refine collect_returns fun l hl => ?_
    obtain ⟨c, hc⟩ := lacSrc_ok (rw' := rw') (bodyOf_mem hl h3)
    unfold lensToAST
    rw [hc]
    have hm := bodyOf_mem hl h2
    cases hb : l.body with
    | none => exact trivial
    | some x =>
      simp only [Option.bind_some]
      cases hx : x.mapper with
      | none => exact trivial
      | some s =>
        rcases hm x hb s hx with rfl | ⟨v, rfl⟩
        · exact trivial
        · cases v <;> exact trivial
  rcases hs with ⟨ss, hs⟩ | ⟨e, hs⟩
  · rcases hl with ⟨ls, hl⟩ | ⟨e, hl⟩
    · exact .inl ⟨_, by rw [hs, Res.bind_ok, hl]; rfl⟩
    · exact .inr ⟨e, by rw [hs, Res.bind_ok, hl]; rfl⟩
  · exact .inr ⟨e, by rw [hs]; rfl⟩

/-- **C116** (partial).  If lenses are written as fields, lacunas as lists, and no schema has a
field called `seqs`, `lineage fix` ends, with a result or an error.

Missing: `C116_endless`, `C116_lacunas`. -/
theorem C116_ends_partial (h2 : MappersFields seqs) (h3 : LacunasWritten seqs)
    (h4 : ¬ InSchemas "seqs".toList seqs) (src : List (Option Str × Syn)) :
    ∃ N, ∀ n ≥ N, (fix rw' seqs src n).Returns := by
  rcases rewrite_returns (rw' := rw') h2 h3 with ⟨p, hp⟩ | ⟨e, he⟩
  · obtain ⟨ss, lsyn, rfl, hex, hls⟩ := rewrite_parts hp
    have hS : ¬ HasField seqsName (.list (ss.map fun e => writtenSchema e.1 e.2)) := by
      rw [hasField_entries]
      rintro ⟨e, he, hf⟩
      have : (⟨e.1, .lit e.2⟩ : LSchema Source) ∈ (extractParts seqs).1 := by
        rw [hex]; exact List.mem_map.2 ⟨e, he, rfl⟩
      obtain ⟨s, hs, hm⟩ := extractLoop_raw_mem this
      exact h4 ⟨s, hs, e.2, hm, hf⟩
    obtain ⟨N, hN⟩ := visit_some (L := .list lsyn) hS (.struct src)
    refine ⟨N, fun n hn => ?_⟩
    obtain ⟨t, ht⟩ := hN n hn
    unfold fix
    rw [hp, Res.bind_ok]
    dsimp only
    rw [ht]
    trivial
  · exact ⟨0, fun n _ => by unfold fix; rw [he]; trivial⟩

/-- **C116**.  A schema that is not written out as a struct, but as a reference, say, is
reported. -/
theorem C116_schema_reported (hok : LegacyOk seqs) (h : ¬ SchemasWritten seqs)
    (src : List (Option Str × Syn)) (n : Nat) : ∃ e, fix rw' seqs src n = .err e := by
  unfold fix rewrite
  have : ∃ e, collect schToAST (extractParts seqs).1 = .err e := by
    rcases collect_returns (f := schToAST) (as := (extractParts seqs).1) fun x _ => by
      unfold schToAST; cases x.raw <;> trivial with ⟨ss, hs⟩ | he
    · obtain ⟨es, -, hx⟩ := schemas_entries hs
      refine absurd (fun s hs x hxm => ?_) h
      obtain ⟨i, hi⟩ := List.mem_iff_getElem?.1 hs
      obtain ⟨j, hj⟩ := List.mem_iff_getElem?.1 hxm
      have hm : (⟨⟨i, j⟩, x⟩ : LSchema Source) ∈ (extractParts seqs).1 :=
        (C48_schema_at hok ⟨i, j⟩ x).2 ⟨s, hi, hj⟩
      rw [hx] at hm
      obtain ⟨e, -, he⟩ := List.mem_map.1 hm
      injection he with _ hb
      exact ⟨e.2, hb.symm⟩
    · exact he
  obtain ⟨e, he⟩ := this
  exact ⟨e, by rw [he]; rfl⟩

/-- **C116** refuted, generally: if a schema has a field called `seqs`, at whatever depth,
`lineage fix` does not end; it recurses until the stack is exhausted. -/
theorem C116_endless (h1 : SchemasWritten seqs) (h2 : MappersWritten seqs)
    (h3 : LacunasWritten seqs) (hlen : LegacyOk seqs) (h4 : InSchemas "seqs".toList seqs)
    {src : List (Option Str × Syn)} {old : Syn} (hsrc : (some "seqs".toList, old) ∈ src) (n : Nat) :
    fix rw' seqs src n = .fuel := by
  obtain ⟨p, hp⟩ := rewrite_ok (rw' := rw') h1 h2 h3
  obtain ⟨ss, lsyn, rfl, hex, hls⟩ := rewrite_parts hp
  have hS : HasField seqsName (.list (ss.map fun e => writtenSchema e.1 e.2)) := by
    rw [hasField_entries]
    obtain ⟨s, hs, ds, hd, hf⟩ := h4
    obtain ⟨i, hi⟩ := List.mem_iff_getElem?.1 hs
    obtain ⟨j, hj⟩ := List.mem_iff_getElem?.1 hd
    have : (⟨⟨i, j⟩, .lit ds⟩ : LSchema Source) ∈ (extractParts seqs).1 :=
      (C48_schema_at hlen ⟨i, j⟩ (.lit ds)).2 ⟨s, hi, hj⟩
    rw [hex] at this
    obtain ⟨e, he, h⟩ := List.mem_map.1 this
    injection h with _ hb
    injection hb with hb
    exact ⟨e, he, hb ▸ hf⟩
  unfold fix
  rw [hp, Res.bind_ok]
  dsimp only
  rw [visit_endless hS n _ (.here hsrc)]

/-- **C116** refuted, generally: if the lacunas of any sequence but the first are not written
as a list, but as a reference, say, `lineage fix` panics. -/
theorem C116_lacunas (hlen : seqs.length < 2 ^ 64) (h1 : SchemasWritten seqs)
    (h2 : MappersWritten seqs) {i : Nat} {s : Seq Source Lens} {x : Lens} {v : Syn}
    (hi : seqs[i + 1]? = some s) (hx : s.forward = some x ∨ s.reverse = some x)
    (hv : x.lacunas = some (.field v)) (hnot : ∀ es, v ≠ .list es)
    (src : List (Option Str × Syn)) (n : Nat) :
    fix rw' seqs src n = .panic .typeAssertion := by
  unfold fix
  rw [rewrite_panics hlen h1 h2 hi hx]
  · rfl
  · intro hok
    rcases hok _ hv with h | ⟨es, h⟩
    · cases h
    · injection h with h
      exact hnot es h

/-! ### Examples -/

/-- A legacy lineage of two sequences, `{a: string}, {a: string, b?: int}` and
`{c: {x: .., y: ..}}`, with lenses. -/
def legacyFix (inner : Str) (lac : Syn) : List (Seq Source Lens) :=
  [⟨[.lit [(some "a".toList, .leaf "string".toList)],
     .lit [(some "a".toList, .leaf "string".toList), (some "b".toList, .leaf "int".toList)]],
    none, none⟩,
   ⟨[.lit [(some "c".toList, .struct [(some inner, .leaf "string".toList)])]],
    some ⟨some (.field (.struct [(some "c".toList, .leaf "from.a".toList)])), none⟩,
    some ⟨some (.field (.struct [])), some (.field lac)⟩⟩]

theorem legacyFix_ok (i : Str) (l : Syn) : LegacyOk (legacyFix i l) := by
  constructor <;> simp [legacyFix]

theorem legacyFix_schemas (i : Str) (l : Syn) : SchemasWritten (legacyFix i l) := by
  intro s hs x hx
  simp only [legacyFix, List.mem_cons, List.not_mem_nil, or_false] at hs
  rcases hs with rfl | rfl <;>
    simp only [List.mem_cons, List.not_mem_nil, or_false] at hx
  · rcases hx with rfl | rfl <;> exact ⟨_, rfl⟩
  · subst hx; exact ⟨_, rfl⟩

theorem legacyFix_mappers (i : Str) (l : Syn) : MappersWritten (legacyFix i l) := by
  intro s hs x hx m hm
  simp only [legacyFix, List.mem_cons, List.not_mem_nil, or_false] at hs
  rcases hs with rfl | rfl
  · rcases hx with hx | hx <;> cases hx
  · rcases hx with hx | hx <;> injection hx with hx <;> subst hx <;> injection hm with hm <;>
      exact ⟨_, hm.symm⟩

theorem legacyFix_lacunas (i : Str) (es : List Syn) : LacunasWritten (legacyFix i (.list es)) := by
  intro s hs x hx m hm
  simp only [legacyFix, List.mem_cons, List.not_mem_nil, or_false] at hs
  rcases hs with rfl | rfl
  · rcases hx with hx | hx <;> cases hx
  · rcases hx with hx | hx <;> injection hx with hx <;> subst hx
    · cases hm
    · injection hm with hm
      exact .inr ⟨_, hm.symm⟩

theorem legacyFix_no_seqs (l : Syn) : ¬ InSchemas "seqs".toList (legacyFix "x".toList l) := by
  rintro ⟨s, hs, ds, hd, hf⟩
  simp only [legacyFix, List.mem_cons, List.not_mem_nil, or_false] at hs
  rcases hs with rfl | rfl <;>
    simp only [List.mem_cons, List.not_mem_nil, or_false, Source.lit.injEq] at hd
  · have leafs : ∀ {ds : List (Option Str × Syn)}, (∀ d ∈ ds, d.1 ≠ some "seqs".toList ∧
        ∃ x, d.2 = .leaf x) → ¬ HasField "seqs".toList (.struct ds) := by
      intro ds h hf
      cases hf with
      | here hd => exact (h _ hd).1 rfl
      | decl hd hv =>
        obtain ⟨x, hx⟩ := (h _ hd).2
        dsimp only at hx
        subst hx
        cases hv
    rcases hd with rfl | rfl <;> exact leafs (by simp) hf
  · subst hd
    cases hf with
    | here h => simp at h
    | decl h hv =>
      simp only [List.mem_cons, Prod.mk.injEq, List.not_mem_nil, or_false] at h
      obtain ⟨-, rfl⟩ := h
      cases hv with
      | here h => simp at h
      | decl h hv =>
        simp only [List.mem_cons, Prod.mk.injEq, List.not_mem_nil, or_false] at h
        obtain ⟨-, rfl⟩ := h
        cases hv

theorem no_seqs_name (v : Str) :
    ¬ HasField "seqs".toList (.struct [(some "name".toList, .leaf v)]) := by
  intro h
  cases h with
  | here h => simp at h
  | decl h hv =>
    simp only [List.mem_cons, Prod.mk.injEq, List.not_mem_nil, or_false] at h
    obtain ⟨-, rfl⟩ := h
    cases hv

/-- `name: "foo", seqs: [...]` becomes `name: "foo", schemas: [...], lenses: [...]`. -/
example : ∃ ss ls, ∃ N, ∀ n ≥ N,
    fix id (legacyFix "x".toList (.list []))
      [(some "name".toList, .leaf "foo".toList), (some "seqs".toList, .leaf [])] n =
    .ok (.struct [(some "name".toList, .leaf "foo".toList), (some "schemas".toList, ss),
      (some "lenses".toList, ls)]) := by
  obtain ⟨ss, ls, ⟨N, hN⟩, -⟩ := C115_in_place_partial (rw' := id) (legacyFix_ok _ _)
    (by simp [legacyFix]) (legacyFix_schemas _ _) (legacyFix_mappers _ _) (legacyFix_lacunas _ _)
    (legacyFix_no_seqs (.list [])) (old := .leaf []) (no_seqs_name "foo".toList) (post := [])
    (by intro h; cases h with | here h => simp at h | decl h _ => simp at h)
  exact ⟨_, _, N, hN⟩

/-- `meta: seqs: 5` is lost. -/
example : ∃ S L, ∃ N, ∀ n ≥ N, fix id (legacyFix "x".toList (.list []))
    [(some "seqs".toList, .leaf []),
      (some "meta".toList, .struct [(some "seqs".toList, .leaf "5".toList)])] n =
    .ok (.struct [(some "schemas".toList, S), (some "lenses".toList, L),
      (some "meta".toList, .struct [(some "schemas".toList, S), (some "lenses".toList, L)])]) :=
  C115_other_field (legacyFix_schemas _ _) (legacyFix_mappers _ _) (legacyFix_lacunas _ _)
    (legacyFix_no_seqs _) _ _ _ (by decide)

/-- A schema with a field `c: seqs: string`. -/
example (n : Nat) : fix id (legacyFix "seqs".toList (.list []))
    [(some "name".toList, .leaf "foo".toList), (some "seqs".toList, .leaf [])] n = .fuel :=
  C116_endless (legacyFix_schemas _ _) (legacyFix_mappers _ _) (legacyFix_lacunas _ _)
    (legacyFix_ok _ _)
    ⟨_, by simp only [legacyFix]; exact List.mem_cons_of_mem _ (List.mem_cons_self ..), _,
      List.mem_cons_self .., .decl (List.mem_cons_self ..) (.here (List.mem_cons_self ..))⟩
    (old := .leaf []) (by simp) n

/-- `lacunas: _lacunas`. -/
example (n : Nat) : fix id (legacyFix "x".toList (.leaf "_lacunas".toList))
    [(some "seqs".toList, .leaf [])] n = .panic .typeAssertion :=
  C116_lacunas (i := 0) (by simp [legacyFix]) (legacyFix_schemas _ _) (legacyFix_mappers _ _)
    rfl (.inr rfl) rfl (by intro es h; cases h) _ n

example : ∃ e, fix id [⟨[.other], none, none⟩] [] 0 = .err e :=
  C116_schema_reported (rw' := id) (by constructor <;> simp)
    (fun h => by obtain ⟨ds, h⟩ := h _ (List.mem_singleton.2 rfl) .other (List.mem_singleton.2 rfl); cases h) _ 0

end Thema.Props
