import Verif.Props.Assign

/-!
# The verdicts of `AssignableTo`, exactly (C184)
-/

namespace Thema.Props

open Thema.Assign Thema.Spec.Assign

variable {V : Type} {O : Obs V}

theorem checkListBody_shape {rec : V → V → P → Res Errs} {g s : V} {p : P} {es : Errs}
    (h : checkListBody O rec g s p = .ok es) :
    es.length ≤ 1 ∨ ∃ g1 s1, rec g1 s1 (p ++ [none]) = .ok es := by
  unfold checkListBody at h
  split at h
  · split at h <;> · cases h; exact .inl (by simp)
  split at h
  · cases h; exact .inl (by simp)
  split at h
  · cases h; exact .inl (by simp)
  split at h
  · split at h
    · cases h; exact .inl (by simp)
    · exact .inr ⟨_, _, h⟩
  · split at h
    · split at h
      · exact .inr ⟨_, _, h⟩
      · cases h; exact .inl (by simp)
    · exact .inr ⟨_, _, h⟩

/-- One level of the comparison: at most one error, or the errors of the elements, or those of
the fields. -/
theorem check_shape {n : Nat} {g s : V} {p : P} {es : Errs} (h : check O (n + 1) g s p = .ok es) :
    es.length ≤ 1 ∨ (∃ g1 s1, check O n g1 s1 (p ++ [none]) = .ok es) ∨
    ∃ g' ss gs, O.fields s = some ss ∧ O.fields g' = some gs ∧
      structLoop (check O n) p ss gs = .ok es := by
  rw [check] at h
  split at h
  · cases h; exact .inl (by simp)
  split at h
  · cases h; exact .inl (by simp)
  split at h
  · unfold checkList at h
    split at h
    · split at h
      · cases h; exact .inl (by simp)
      · split at h
        · cases h
        · exact (checkListBody_shape h).imp id .inl
    · exact (checkListBody_shape h).imp id .inl
  split at h
  · simp only [checkScalar, Res.ok.injEq] at h
    subst h
    refine .inl ?_
    split <;> split <;> simp
  split at h
  · split at h
    · cases h; exact .inl (by simp)
    · unfold checkStruct at h
      split at h
      · cases h
      · split at h
        · cases h
        · exact .inr (.inr ⟨_, _, _, by assumption, by assumption, h⟩)
  split at h
  · cases h; exact .inl (by simp)
  split at h
  · cases h; exact .inl (by simp)
  · cases h

theorem nodup_keys_inj {α β : Type} : ∀ {l : List (α × β)} {k : α} {a b : β},
    (l.map (·.1)).Nodup → (k, a) ∈ l → (k, b) ∈ l → a = b
  | [], _, _, _, _, h, _ => by cases h
  | (k', c) :: l, k, a, b, hn, ha, hb => by
    simp only [List.map_cons, List.nodup_cons] at hn
    rcases List.mem_cons.1 ha with e | ha' <;> rcases List.mem_cons.1 hb with e' | hb'
    · cases e; cases e'; rfl
    · cases e; exact absurd (List.mem_map.2 ⟨_, hb', rfl⟩) hn.1
    · cases e'; exact absurd (List.mem_map.2 ⟨_, ha', rfl⟩) hn.1
    · exact nodup_keys_inj hn.2 ha' hb'

/-- Errors under the path of the discrepancy do not overwrite each other. -/
theorem check_unique (hc : Coherent O) : ∀ n g s p es, check O n g s p = .ok es →
    ∀ x m m', (x, m) ∈ es → (x, m') ∈ es → m ≠ .absentInSchema → m' ≠ .absentInSchema →
    m = m' := by
  intro n
  induction n with
  | zero => intro g s p es h; cases h
  | succ n ih =>
    intro g s p es h x m m' hx hx' hm hm'
    rcases check_shape h with h1 | ⟨g1, s1, h1⟩ | ⟨g', ss, gs, hf, hfg, h1⟩
    · cases es with
      | nil => cases hx
      | cons e es =>
        cases es with
        | nil =>
          simp only [List.mem_singleton] at hx hx'
          rw [← hx'] at hx
          exact (Prod.mk.inj hx).2
        | cons e' es => simp at h1
    · exact ih _ _ _ _ h1 x m m' hx hx' hm hm'
    · have hn := hc.nodup _ _ hf
      have hn' := hc.nodup _ _ hfg
      have part : ∀ {k sv gv es' q m}, check O n gv sv (p ++ [some k]) = .ok es' →
          (q, m) ∈ es' → m ≠ .absentInSchema → ∃ r, q = p ++ some k :: r := by
        intro k sv gv es' q m h hq hm
        rcases check_reported hc _ _ _ _ _ h _ _ hq with ⟨_, r, rfl, _⟩ | ⟨h0, _⟩
        · exact ⟨r, by simp⟩
        · exact absurd h0 hm
      rcases (structLoop_mem hn hn' h1 x m).1 hx with
        ⟨k, a1, a2, rfl, rfl⟩ | ⟨k, _, _, _, rfl⟩ | ⟨k, sv, gv, es', a1, a2, a3, a4⟩
      · rcases (structLoop_mem hn hn' h1 _ m').1 hx' with
          ⟨l, b1, b2, b3, rfl⟩ | ⟨l, _, _, _, rfl⟩ | ⟨l, sv', gv', es'', b1, b2, b3, b4⟩
        · rfl
        · exact absurd rfl hm'
        · obtain ⟨r, hr⟩ := part b3 b4 hm'
          have := List.append_cancel_left hr
          simp only [List.cons.injEq, Option.some.injEq] at this
          obtain ⟨rfl, _⟩ := this
          exact absurd (List.mem_map.2 ⟨_, b2, rfl⟩) a2
      · exact absurd rfl hm
      · obtain ⟨r, rfl⟩ := part a3 a4 hm
        rcases (structLoop_mem hn hn' h1 _ m').1 hx' with
          ⟨l, b1, b2, b3, rfl⟩ | ⟨l, _, _, _, rfl⟩ | ⟨l, sv', gv', es'', b1, b2, b3, b4⟩
        · have := List.append_cancel_left b3
          simp only [List.cons.injEq, Option.some.injEq] at this
          obtain ⟨rfl, _⟩ := this
          exact absurd (List.mem_map.2 ⟨_, a2, rfl⟩) b2
        · exact absurd rfl hm'
        · obtain ⟨r', hr⟩ := part b3 b4 hm'
          have := List.append_cancel_left hr
          simp only [List.cons.injEq, Option.some.injEq] at this
          obtain ⟨rfl, _⟩ := this
          have e1 := nodup_keys_inj hn a1 b1
          have e2 := nodup_keys_inj hn' a2 b2
          subst e1 e2
          rw [a3, Res.ok.injEq] at b3
          subst b3
          exact ih _ _ _ _ a3 _ m m' a4 b4 hm hm'

/-- What the error map has under a path in the end: the last message written there. -/
def messageAt (es : Errs) (x : P) : Option Msg :=
  (es.reverse.find? (fun e => decide (e.1 = x))).map (·.2)

theorem messageAt_some {es : Errs} {x : P} {m : Msg} (h : messageAt es x = some m) :
    (x, m) ∈ es := by
  unfold messageAt at h
  cases hf : es.reverse.find? (fun e => decide (e.1 = x)) with
  | none => rw [hf] at h; cases h
  | some e =>
    rw [hf] at h
    have h1 := List.find?_some hf
    have h2 := List.mem_of_find?_eq_some hf
    simp only [decide_eq_true_eq] at h1
    simp only [Option.map_some, Option.some.injEq] at h
    subst h1 h
    exact List.mem_reverse.1 h2

theorem messageAt_of_mem {es : Errs} {x : P} {m : Msg} (h : (x, m) ∈ es) :
    ∃ m', messageAt es x = some m' := by
  unfold messageAt
  cases hf : es.reverse.find? (fun e => decide (e.1 = x)) with
  | some e => exact ⟨_, rfl⟩
  | none =>
    rw [List.find?_eq_none] at hf
    have := hf _ (List.mem_reverse.2 h)
    simp at this

/-- A field of the Go type that the schema lacks, at any depth, has the name `k`. -/
def ExcessNamed (O : Obs V) (g s : V) (k : Str) : Prop :=
  ∃ q, Disc O g s (q ++ [some k]) .absentInSchema

section

variable {G : V → Prop} {size : V → Nat}

/-- **C184**.  Accepted exactly if the argument is a struct, or a pointer to one, of which the
rules hold (in which closed lists of one element need an array of `any`). -/
theorem C184_accepted_iff (hc : Coherent O) (s : V) (t : GoVal V) :
    (∃ N, ∀ n ≥ N, assignable O n s t = .ok .nil) ↔
      ∃ g, (t = .struct g ∨ t = .ptr (.struct g)) ∧ Rules O False g s := by
  rw [← C61_accepts_partial hc]
  constructor
  · rintro ⟨N, h⟩; exact ⟨N, h N (Nat.le_refl _)⟩
  · rintro ⟨n, h⟩
    refine ⟨n, fun m hm => ?_⟩
    unfold assignable at h ⊢
    cases hd : t.deref with
    | ptr _ => rw [hd] at h; cases h
    | other => rw [hd] at h; cases h
    | struct g =>
      rw [hd] at h
      simp only [Res.map] at h ⊢
      rw [Res.bind_eq_ok'] at h
      obtain ⟨es, he, h⟩ := h
      rw [check_mono hm he, Res.bind_ok, ← h]

/-- **C184**.  More than one level of pointers is reported exactly for pointers to pointers. -/
theorem C184_depth_iff (s : V) (t : GoVal V) (n : Nat) :
    assignable O n s t = .ok .pointerDepth ↔ ∃ e, t = .ptr (.ptr e) := by
  have key : ∀ r : Res Errs, r.map (fun es => if es.length > 0 then Verdict.errs es else .nil) ≠
      .ok .pointerDepth := by
    intro r hr
    cases r with
    | ok es => simp only [Res.map, Res.bind, Res.ok.injEq] at hr; split at hr <;> cases hr
    | _ => cases hr
  cases t with
  | struct g => simp [assignable, GoVal.deref, key]
  | other => simp [assignable, GoVal.deref]
  | ptr e => cases e <;> simp [assignable, GoVal.deref, key]

/-- **C184**.  That the type is no struct is reported exactly for values that are neither structs
nor pointers, and for pointers to such values. -/
theorem C184_not_struct_iff (s : V) (t : GoVal V) (n : Nat) :
    assignable O n s t = .ok .notAStruct ↔ t = .other ∨ t = .ptr .other := by
  have key : ∀ r : Res Errs, r.map (fun es => if es.length > 0 then Verdict.errs es else .nil) ≠
      .ok .notAStruct := by
    intro r hr
    cases r with
    | ok es => simp only [Res.map, Res.bind, Res.ok.injEq] at hr; split at hr <;> cases hr
    | _ => cases hr
  cases t with
  | struct g => simp [assignable, GoVal.deref, key]
  | other => simp [assignable, GoVal.deref]
  | ptr e => cases e <;> simp [assignable, GoVal.deref, key]

theorem errs_of {n : Nat} {s : V} {t : GoVal V} {es : Errs}
    (h : assignable O n s t = .ok (.errs es)) :
    ∃ g, (t = .struct g ∨ t = .ptr (.struct g)) ∧ check O n g s [] = .ok es := by
  have key : ∀ g, (check O n g s []).map
      (fun es => if es.length > 0 then Verdict.errs es else .nil) = .ok (.errs es) →
      check O n g s [] = .ok es := by
    intro g hr
    cases hk : check O n g s [] with
    | ok es' =>
      rw [hk] at hr
      simp only [Res.map, Res.bind, Res.ok.injEq] at hr
      split at hr <;> cases hr
      rfl
    | err => rw [hk] at hr; cases hr
    | panic => rw [hk] at hr; cases hr
    | fuel => rw [hk] at hr; cases hr
  cases t with
  | struct g => exact ⟨g, .inl rfl, key g h⟩
  | other => cases h
  | ptr e =>
    cases e with
    | struct g => exact ⟨g, .inr rfl, key g h⟩
    | ptr _ => cases h
    | other => cases h

/-- **C184**.  Discrepancies are reported exactly for structs, and pointers to them, that have
some. -/
theorem C184_reported_iff (hc : Coherent O) (hl : Listable O) (hg : GoTypes O G size)
    (s : V) (t : GoVal V) (ht : ∀ g, t.deref = .struct g → G g) :
    (∃ es N, ∀ n ≥ N, assignable O n s t = .ok (.errs es)) ↔
      ∃ g, (t = .struct g ∨ t = .ptr (.struct g)) ∧ ∃ q m, Disc O g s q m := by
  constructor
  · rintro ⟨es, N, h⟩
    have hN := h N (Nat.le_refl _)
    obtain ⟨g, ht', hk⟩ := errs_of hN
    refine ⟨g, ht', ?_⟩
    refine Classical.byContradiction fun hno => ?_
    have : es = [] := (C63_nil_iff_no_discrepancy hc N g s es hk).2
      (fun q m hd => hno ⟨q, m, hd⟩)
    subst this
    rcases ht' with rfl | rfl <;>
      simp [assignable, GoVal.deref, hk, Res.map, Res.bind] at hN
  · rintro ⟨g, ht', q, m, hd⟩
    have hG : G g := ht g (by rcases ht' with rfl | rfl <;> rfl)
    obtain ⟨es, hes⟩ := check_returns hl hg (size g + 1) g s [] hG (Nat.lt_succ_self _)
    have hne : es ≠ [] := fun h0 => (C63_nil_iff_no_discrepancy hc _ g s es hes).1 h0 q m hd
    have hpos : es.length > 0 := by
      cases es with
      | nil => exact absurd rfl hne
      | cons => simp
    refine ⟨es, size g + 1, fun n hn => ?_⟩
    have hk := check_mono hn hes
    rcases ht' with rfl | rfl <;>
      simp [assignable, GoVal.deref, hk, Res.map, Res.bind, hpos]

/-- **C184**.  The errors reported have a message under a path exactly if there is a discrepancy
at that path, fields that the schema lacks aside, which are reported under their bare names. -/
theorem C184_path_iff (hc : Coherent O) (s : V) (t : GoVal V) (n : Nat) (es : Errs)
    (h : assignable O n s t = .ok (.errs es)) (x : P) :
    (∃ m, messageAt es x = some m) ↔
      ∃ g, (t = .struct g ∨ t = .ptr (.struct g)) ∧
        ((∃ m, m ≠ .absentInSchema ∧ Disc O g s x m) ∨ ∃ k, x = [some k] ∧ ExcessNamed O g s k) := by
  obtain ⟨g, ht, hk⟩ := errs_of h
  constructor
  · rintro ⟨m, hm⟩
    refine ⟨g, ht, ?_⟩
    rcases (C63_reports_partial hc n g s es hk x m).1 (messageAt_some hm) with
      ⟨h1, h2⟩ | ⟨rfl, q, k, h1, h2⟩
    · exact .inl ⟨m, h1, h2⟩
    · exact .inr ⟨k, h1, q, h2⟩
  · rintro ⟨g', ht', hx⟩
    have : g' = g := by
      rcases ht with rfl | rfl <;> rcases ht' with e | e <;> cases e <;> rfl
    subst this
    rcases hx with ⟨m, h1, h2⟩ | ⟨k, h1, q, h2⟩
    · exact messageAt_of_mem ((C63_reports_partial hc n g' s es hk x m).2 (.inl ⟨h1, h2⟩))
    · exact messageAt_of_mem ((C63_reports_partial hc n g' s es hk x .absentInSchema).2
        (.inr ⟨rfl, q, k, h1, h2⟩))

/-- **C184**.  Unless the path is the bare name of a field, at any depth, that the schema lacks,
the message under it is that of the discrepancy there. -/
theorem C184_message_iff (hc : Coherent O) (s : V) (t : GoVal V) (n : Nat) (es : Errs)
    (h : assignable O n s t = .ok (.errs es)) (g : V) (ht : t = .struct g ∨ t = .ptr (.struct g))
    (x : P) (m : Msg) (hx : ∀ k, x = [some k] → ¬ ExcessNamed O g s k) :
    messageAt es x = some m ↔ m ≠ .absentInSchema ∧ Disc O g s x m := by
  obtain ⟨g', ht', hk⟩ := errs_of h
  have : g' = g := by
    rcases ht with rfl | rfl <;> rcases ht' with e | e <;> cases e <;> rfl
  subst this
  have hin : ∀ m', (x, m') ∈ es ↔ m' ≠ .absentInSchema ∧ Disc O g' s x m' := by
    intro m'
    rw [C63_reports_partial hc n g' s es hk x m']
    constructor
    · rintro (h | ⟨rfl, q, k, h1, h2⟩)
      · exact h
      · exact absurd ⟨q, h2⟩ (hx k h1)
    · exact .inl
  constructor
  · intro hm
    exact (hin m).1 (messageAt_some hm)
  · intro hd
    have h1 := (hin m).2 hd
    obtain ⟨m', hm'⟩ := messageAt_of_mem h1
    have h2 := messageAt_some hm'
    rw [hm', check_unique hc _ _ _ _ _ hk x m' m h2 h1 ((hin m').1 h2).1 hd.1]

/-- **C184**.  If it is such a name, and there is no other discrepancy at that path, the message is
that the schema lacks the field; otherwise it is this or that of the other discrepancy. -/
theorem C184_message_excess (hc : Coherent O) (s : V) (t : GoVal V) (n : Nat) (es : Errs)
    (h : assignable O n s t = .ok (.errs es)) (g : V) (ht : t = .struct g ∨ t = .ptr (.struct g))
    (k : Str) (hk : ExcessNamed O g s k) :
    ∃ m, messageAt es [some k] = some m ∧ (m = .absentInSchema ∨ Disc O g s [some k] m) := by
  obtain ⟨m, hm⟩ := (C184_path_iff hc s t n es h [some k]).2 ⟨g, ht, .inr ⟨k, rfl, hk⟩⟩
  refine ⟨m, hm, ?_⟩
  obtain ⟨g', ht', hk'⟩ := errs_of h
  have : g' = g := by
    rcases ht with rfl | rfl <;> rcases ht' with e | e <;> cases e <;> rfl
  subst this
  rcases (C63_reports_partial hc n g' s es hk' _ m).1 (messageAt_some hm) with h | h
  · exact .inr h.2
  · exact .inl h.1

end

section Examples

open TyCue

/-- A schema with a missing field, a field of another kind inside a slice and an excess field. -/
example : ∃ es N, ∀ n ≥ N, assignable obs n badSchema (.ptr (.struct badGo)) = .ok (.errs es) :=
  (C184_reported_iff coherent listable goTypes badSchema _ (fun _ _ => trivial)).2
    ⟨badGo, .inr rfl, [some "n".toList], .absentInGo, by
      rcases (C63_reports_partial coherent 5 _ _ _ badErrs [some "n".toList] .absentInGo).1
        (by simp) with h | h
      · exact h.2
      · exact absurd h.1 (by decide)⟩

theorem badVerdict : assignable obs 5 badSchema (.ptr (.struct badGo)) = .ok (.errs
    [([some "n".toList], .absentInGo), ([some "l".toList, none, some "x".toList], .kindMismatch),
     ([some "z".toList], .absentInSchema)]) := rfl

example : Disc obs badGo badSchema [some "l".toList, none, some "x".toList] .kindMismatch :=
  ((C184_message_iff coherent badSchema _ 5 _ badVerdict badGo (.inr rfl) _ .kindMismatch
    (fun k h => by simp at h)).1 (by decide +kernel)).2

example : ∃ N, ∀ n ≥ N, assignable obs n exSchema (.ptr (.struct exGo)) = .ok .nil :=
  (C184_accepted_iff coherent exSchema _).2
    ((C61_accepts_partial coherent exSchema _).1 ⟨5, exAccepted⟩)

example : assignable obs 7 exSchema (.ptr (.ptr (.struct exGo))) = .ok .pointerDepth :=
  (C184_depth_iff _ _ _).2 ⟨_, rfl⟩

example : assignable obs 7 exSchema (.ptr .other) = .ok .notAStruct :=
  (C184_not_struct_iff _ _ _).2 (.inr rfl)

end Examples

end Thema.Props
