import Verif.Lemmas.GoJsonSeen
import Verif.Spec.GoJsonExact

/-!
# What data become: lemmas
-/

namespace Thema.GoJson

open GoTypes OGen

variable {U : Uni} {S : Std} {ds : List Decl} {comps : List (Str × OS)}

/-! ### Objects -/

theorem get_of_mem {k : Str} : ∀ {ms : JMs}, k ∈ ms.keys → ∃ x, ms.get k = some x
  | .nil, h => by cases h
  | .cons k' x ms, h => by
    rw [JMs.get]
    by_cases e : k' = k
    · exact ⟨x, if_pos e⟩
    · rw [if_neg e]
      rw [JMs.keys] at h
      rcases List.mem_cons.1 h with h | h
      · exact absurd h.symm e
      · exact get_of_mem h

theorem jeqMs_iff {b : JMs} : ∀ {a : JMs}, a.keys.Nodup → (jeqMs a b = true ↔
    ∀ k x, a.get k = some x → ∃ y, b.get k = some y ∧ jeq x y = true)
  | .nil, _ => by
    rw [jeqMs]
    exact ⟨fun _ k x h => (by cases h), fun _ => rfl⟩
  | .cons k x a, hn => by
    rw [JMs.keys, List.nodup_cons] at hn
    rw [jeqMs, Bool.and_eq_true, jeqMs_iff hn.2]
    constructor
    · rintro ⟨h1, h2⟩ k' x' h
      rw [JMs.get] at h
      split at h
      · rename_i e
        subst e
        injection h with h
        subst h
        revert h1
        cases b.get k with
        | none => simp
        | some y => exact fun h => ⟨y, rfl, h⟩
      · exact h2 k' x' h
    · intro h
      constructor
      · obtain ⟨y, h1, h2⟩ := h k x (by rw [JMs.get, if_pos rfl])
        rw [h1]
        exact h2
      · intro k' x' hk
        refine h k' x' ?_
        rw [JMs.get, if_neg]
        · exact hk
        · rintro rfl
          exact hn.1 (get_mem a hk)

theorem jeq_obj_iff {a b : JMs} (hn : a.keys.Nodup) : jeq (.obj a) (.obj b) = true ↔
    (∀ k, k ∈ a.keys ↔ k ∈ b.keys) ∧
      ∀ k x y, a.get k = some x → b.get k = some y → jeq x y = true := by
  rw [jeq, Bool.and_eq_true, List.all_eq_true, jeqMs_iff hn]
  constructor
  · rintro ⟨h1, h2⟩
    refine ⟨fun k => ⟨fun h => ?_, fun h => List.contains_iff_mem.1 (h2 k h)⟩, fun k x y hx hy => ?_⟩
    · obtain ⟨x, hx⟩ := get_of_mem h
      obtain ⟨y, hy, _⟩ := h1 k x hx
      exact get_mem b hy
    · obtain ⟨y', hy', h⟩ := h1 k x hx
      rw [hy] at hy'
      injection hy' with e
      subst e
      exact h
  · rintro ⟨h1, h2⟩
    refine ⟨fun k x hx => ?_, fun k hk => List.contains_iff_mem.2 ((h1 k).2 hk)⟩
    obtain ⟨y, hy⟩ := get_of_mem ((h1 k).1 (get_mem a hx))
    exact ⟨y, hy, h2 k x y hx hy⟩

theorem jeq_obj {a : JMs} {j : J} (h : jeq (.obj a) j = true) : ∃ b, j = .obj b := by
  cases j with
  | obj b => exact ⟨b, rfl⟩
  | _ => simp [jeq] at h

/-- Objects written member by member. -/
theorem members_iff {E ms ms' : JMs} {C : J → J → Prop} (hk : E.keys = ms.keys)
    (hn : ms.keys.Nodup)
    (h : ∀ k x, ms.get k = some x → ∃ z, E.get k = some z ∧ ∀ y, C x y ↔ jeq z y = true) :
    jeq (.obj E) (.obj ms') = true ↔ (∀ k, k ∈ ms.keys ↔ k ∈ ms'.keys) ∧
      ∀ k x y, ms.get k = some x → ms'.get k = some y → C x y := by
  rw [jeq_obj_iff (by rw [hk]; exact hn), hk]
  refine and_congr Iff.rfl ⟨fun h2 k x y hx hy => ?_, fun h2 k z y hz hy => ?_⟩
  · obtain ⟨z, hz, hc⟩ := h k x hx
    exact (hc y).2 (h2 k z y hz hy)
  · have : k ∈ ms.keys := hk ▸ get_mem E hz
    obtain ⟨x, hx⟩ := get_of_mem this
    obtain ⟨z', hz', hc⟩ := h k x hx
    rw [hz] at hz'
    injection hz' with e
    subst e
    exact (hc y).1 (h2 k x y hx hy)

mutual
theorem jeq_refl : ∀ (j : J), Distinct j → jeq j j = true
  | .null, _ => rfl
  | .bool _, _ => by simp [jeq]
  | .num _, _ => by simp [jeq]
  | .str _, _ => by simp [jeq]
  | .arr xs, h => by
    rw [jeq]
    exact jeqs_refl xs h
  | .obj ms, h => by
    rw [Distinct] at h
    rw [jeq_obj_iff h.1]
    refine ⟨fun _ => Iff.rfl, fun k x y hx hy => ?_⟩
    rw [hx] at hy
    injection hy with hy
    subst hy
    exact jeqMs_refl ms h.2 hx
theorem jeqs_refl : ∀ (xs : Js), Distincts xs → jeqs xs xs = true
  | .nil, _ => rfl
  | .cons x xs, h => by
    rw [Distincts] at h
    rw [jeqs, jeq_refl x h.1, jeqs_refl xs h.2]
    rfl
theorem jeqMs_refl : ∀ (ms : JMs), DistinctMs ms → ∀ {k x}, ms.get k = some x → jeq x x = true
  | .nil, _, _, _, h => by cases h
  | .cons k' y ms, hd, k, x, h => by
    rw [DistinctMs] at hd
    rw [JMs.get] at h
    split at h
    · injection h with h
      subst h
      exact jeq_refl _ hd.1
    · exact jeqMs_refl ms hd.2 h
end

/-! ### Data of any kind -/

/-- Members that were read, member by member. -/
def Read (U : Uni) (S : Std) (C : J → J → Prop) (vs : GMs) (ms : JMs) : Prop :=
  DistinctMs (encMs U S vs) ∧ (encMs U S vs).keys = ms.keys ∧
    ∀ k x, ms.get k = some x → ∃ z, (encMs U S vs).get k = some z ∧ ∀ y, C x y ↔ jeq z y = true

theorem read_cons {C : J → J → Prop} {k : Str} {v : GV} {x : J} {vs : GMs} {ms : JMs}
    (hd : Distinct (enc U S v)) (h1 : ∀ y, C x y ↔ jeq (enc U S v) y = true)
    (h2 : Read U S C vs ms) : Read U S C (.cons k v vs) (.cons k x ms) := by
  refine ⟨by rw [encMs, DistinctMs]; exact ⟨hd, h2.1⟩, by rw [encMs, JMs.keys, JMs.keys, h2.2.1],
    fun k' x' h => ?_⟩
  rw [JMs.get] at h
  rw [encMs, JMs.get]
  split at h
  · rename_i e
    injection h with h
    subst h
    exact ⟨_, if_pos e, h1⟩
  · rename_i e
    rw [if_neg e]
    exact h2.2.2 k' x' h

theorem get_later {k k' : Str} {x x' : J} {ms : JMs} (hn : k ∉ ms.keys)
    (h : ms.get k' = some x') : (JMs.cons k x ms).get k' = some x' := by
  rw [JMs.get, if_neg]
  · exact h
  · rintro rfl
    exact hn (get_mem ms h)

mutual
theorem any_settles : ∀ (j : J), Distinct j →
    (∃ v, decAny S j = some v ∧ Distinct (enc U S v) ∧ ∀ j', Rounded S j j' ↔ jeq (enc U S v) j' = true) ∨
    (decAny S j = none ∧ ∀ j', ¬ Rounded S j j')
  | .null, _ => .inl ⟨.nil, rfl, trivial, fun j' => ⟨fun h => by cases h; rfl, fun h => by
      cases j' <;> simp [enc, jeq] at h; exact .null⟩⟩
  | .bool b, _ => .inl ⟨_, rfl, trivial, fun j' => ⟨fun h => by cases h; simp [enc, jeq], fun h => by
      cases j' <;> simp [enc, jeq] at h; subst h; exact .bool⟩⟩
  | .str b, _ => .inl ⟨_, rfl, trivial, fun j' => ⟨fun h => by cases h; simp [enc, jeq], fun h => by
      cases j' <;> simp [enc, jeq] at h; subst h; exact .str⟩⟩
  | .num q, _ => by
    rw [decAny]
    cases hq : S.r64 q with
    | none =>
      refine .inr ⟨rfl, fun j' h => ?_⟩
      cases h with
      | num h => rw [hq] at h; cases h
    | some q' =>
      refine .inl ⟨_, rfl, trivial, fun j' => ⟨fun h => ?_, fun h => ?_⟩⟩
      · cases h with
        | num h =>
          rw [hq] at h
          injection h with h
          subst h
          simp [enc, jeq]
      · cases j' <;> simp [enc, jeq] at h
        subst h
        exact .num hq
  | .arr xs, hd => by
    rw [Distinct] at hd
    rw [decAny]
    rcases anys_settles xs hd with ⟨vs, h1, hv, h2⟩ | ⟨h1, h2⟩
    · rw [h1]
      refine .inl ⟨_, rfl, hv, fun j' => ⟨fun h => ?_, fun h => ?_⟩⟩
      · cases h with
        | arr h => rw [enc, enc, jeq]; exact (h2 _).1 h
      · cases j' <;> simp only [enc, jeq] at h
        · cases h
        · cases h
        · cases h
        · cases h
        · exact .arr ((h2 _).2 h)
        · cases h
    · rw [h1]
      refine .inr ⟨rfl, fun j' h => ?_⟩
      cases h with
      | arr h => exact h2 _ h
  | .obj ms, hd => by
    rw [Distinct] at hd
    rw [decAny]
    rcases anyMs_settles ms hd.1 hd.2 with ⟨vs, h1, h2⟩ | ⟨h1, k, x, h2, h3⟩
    · rw [h1]
      refine .inl ⟨_, rfl, ?_, fun j' => ⟨fun h => ?_, fun h => ?_⟩⟩
      · rw [enc, enc, Distinct, h2.2.1]
        exact ⟨hd.1, h2.1⟩
      · cases h with
        | obj h3 h4 =>
          rw [enc, enc]
          exact (members_iff h2.2.1 hd.1 h2.2.2).2 ⟨h3, h4⟩
      · rw [enc, enc] at h
        obtain ⟨ms', rfl⟩ := jeq_obj h
        obtain ⟨h3, h4⟩ := (members_iff h2.2.1 hd.1 h2.2.2).1 h
        exact .obj h3 h4
    · rw [h1]
      refine .inr ⟨rfl, fun j' h => ?_⟩
      cases h with
      | obj h4 h5 =>
        obtain ⟨y, hy⟩ := get_of_mem ((h4 k).1 (get_mem ms h2))
        exact h3 y (h5 k x y h2 hy)
theorem anys_settles : ∀ (xs : Js), Distincts xs →
    (∃ vs, decAnys S xs = some vs ∧ Distincts (encs U S vs) ∧ ∀ ys, Roundeds S xs ys ↔ jeqs (encs U S vs) ys = true) ∨
    (decAnys S xs = none ∧ ∀ ys, ¬ Roundeds S xs ys)
  | .nil, _ => .inl ⟨.nil, rfl, trivial, fun ys => ⟨fun h => by cases h; rfl, fun h => by
      cases ys <;> simp [encs, jeqs] at h; exact .nil⟩⟩
  | .cons x xs, hd => by
    rw [Distincts] at hd
    rw [decAnys]
    rcases any_settles x hd.1 with ⟨v, h1, hv, h2⟩ | ⟨h1, h2⟩
    · rcases anys_settles xs hd.2 with ⟨vs, h3, hvs, h4⟩ | ⟨h3, h4⟩
      · rw [h1, h3]
        refine .inl ⟨_, rfl, ⟨hv, hvs⟩, fun ys => ?_⟩
        rw [encs]
        cases ys with
        | nil => exact ⟨fun h => (by cases h), fun h => by simp [jeqs] at h⟩
        | cons y ys =>
          rw [jeqs, Bool.and_eq_true, ← h2, ← h4]
          exact ⟨fun h => by cases h with | cons a b => exact ⟨a, b⟩, fun h => .cons h.1 h.2⟩
      · rw [h1, h3]
        refine .inr ⟨rfl, fun ys h => ?_⟩
        cases h with
        | cons a b => exact h4 _ b
    · rw [h1]
      refine .inr ⟨rfl, fun ys h => ?_⟩
      cases h with
      | cons a b => exact h2 _ a
theorem anyMs_settles : ∀ (ms : JMs), ms.keys.Nodup → DistinctMs ms →
    (∃ vs, decAnyMs S ms = some vs ∧ Read U S (Rounded S) vs ms) ∨
    (decAnyMs S ms = none ∧ ∃ k x, ms.get k = some x ∧ ∀ y, ¬ Rounded S x y)
  | .nil, _, _ => .inl ⟨.nil, rfl, trivial, rfl, fun k x h => by cases h⟩
  | .cons k x ms, hn, hd => by
    rw [DistinctMs] at hd
    rw [JMs.keys, List.nodup_cons] at hn
    rw [decAnyMs]
    rcases any_settles x hd.1 with ⟨v, h1, hv, h2⟩ | ⟨h1, h2⟩
    · rcases anyMs_settles ms hn.2 hd.2 with ⟨vs, h3, h4⟩ | ⟨h3, k', x', h4, h5⟩
      · rw [h1, h3]
        exact .inl ⟨_, rfl, read_cons hv h2 h4⟩
      · rw [h1, h3]
        exact .inr ⟨rfl, k', x', get_later hn.1 h4, h5⟩
    · rw [h1]
      exact .inr ⟨rfl, k, x, by rw [JMs.get, if_pos rfl], h2⟩
end

/-! ### Settling -/

/-- From some depth on, reading `j` into the type `t` gives a value that is written as `P` says,
or it gives none, and there is nothing that `P` is true of. -/
def Settles (U : Uni) (S : Std) (ds : List Decl) (t : GT) (j : J) (P : J → Prop) : Prop :=
  (∃ v K, (∀ m, K ≤ m → dec U S ds m t j = some v) ∧ Distinct (enc U S v) ∧
    ∀ j', P j' ↔ jeq (enc U S v) j' = true) ∨
  ((∃ K, ∀ m, K ≤ m → dec U S ds m t j = none) ∧ ∀ j', ¬ P j')

theorem Settles.iff {t : GT} {j : J} {P Q : J → Prop} (h : Settles U S ds t j P)
    (hpq : ∀ j', P j' ↔ Q j') : Settles U S ds t j Q := by
  rcases h with ⟨v, K, h1, hv, h2⟩ | ⟨h1, h2⟩
  · exact .inl ⟨v, K, h1, hv, fun j' => (hpq j').symm.trans (h2 j')⟩
  · exact .inr ⟨h1, fun j' h => h2 j' ((hpq j').2 h)⟩

theorem dec_no_head {m : Nat} {t : GT} {j : J} (hj : j ≠ .null ∨ NoStar t)
    (h : head ds m t = none) : dec U S ds m t j = none := by
  cases e : dec U S ds m t j with
  | none => rfl
  | some v =>
    obtain ⟨p, hp⟩ := dec_some_head hj e
    rw [h] at hp
    cases hp

theorem settles_ident {x : Str} {t : GT} {j : J} {P : J → Prop} (ht : NoStar t)
    (hx : declType ds x = some t) (h : Settles U S ds t j P) : Settles U S ds (.ident x) j P := by
  have hi : ∀ m, head ds (m + 1) (.ident x) = head ds m t := fun m => by rw [head, hx]
  rcases h with ⟨v, K, h1, h2⟩ | ⟨⟨K, h1⟩, h2⟩
  · obtain ⟨p, hp⟩ := dec_some_head (.inr ht) (h1 K (Nat.le_refl K))
    refine .inl ⟨v, K + 1, fun m hm => ?_, h2⟩
    cases m with
    | zero => omega
    | succ m =>
      rw [dec_head (u := t) ((hi m).trans (head_mono hp m (by omega))) (head_mono hp (m + 1) (by omega))]
      exact h1 (m + 1) (by omega)
  · refine .inr ⟨⟨K + 1, fun m hm => ?_⟩, h2⟩
    cases m with
    | zero => omega
    | succ m =>
      cases hh : head ds m t with
      | none => exact dec_no_head (.inr fun u e => by cases e) ((hi m).trans hh)
      | some p =>
        rw [dec_head (u := t) ((hi m).trans hh) (head_mono hh (m + 1) (by omega))]
        exact h1 (m + 1) (by omega)

/-- Reading into a pointer. -/
theorem star_reads {t : GT} {j : J} (hj : j ≠ .null) :
    (∀ v K, (∀ m, K ≤ m → dec U S ds m t j = some v) →
      ∀ m, K + 1 ≤ m → dec U S ds m (.star t) j = some (.ptr v)) ∧
    (∀ K, (∀ m, K ≤ m → dec U S ds m t j = none) →
      ∀ m, K + 1 ≤ m → dec U S ds m (.star t) j = none) := by
  have hi : ∀ m, head ds (m + 1) (.star t) = (head ds m t).map fun p => (p.1 + 1, p.2) :=
    fun m => by rw [head]
  constructor
  · intro v K h m hm
    obtain ⟨p, hp⟩ := dec_some_head (.inl hj) (h K (Nat.le_refl K))
    cases m with
    | zero => omega
    | succ m =>
      rw [dec_star hj (head_mono hp (m + 1) (by omega))
        ((hi m).trans (by rw [head_mono hp m (by omega)]; rfl)), h (m + 1) (by omega)]
      rfl
  · intro K h m hm
    cases m with
    | zero => omega
    | succ m =>
      cases hh : head ds m t with
      | none => exact dec_no_head (.inl hj) ((hi m).trans (by rw [hh]; rfl))
      | some p =>
        rw [dec_star hj (head_mono hh (m + 1) (by omega)) ((hi m).trans (by rw [hh]; rfl)),
          h (m + 1) (by omega)]
        rfl

theorem settles_any (E : Env U ds comps) {j : J} (hd : Distinct j) :
    Settles U S ds (.ident "any".toList) j (Rounded S j) := by
  have hh : ∀ m, 1 ≤ m → head ds m (.ident "any".toList) = some (0, .ident "any".toList) :=
    fun m hm => head_basicType E (by decide) hm
  have key : ∀ m, 1 ≤ m → dec U S ds m (.ident "any".toList) j = decAny S j := by
    intro m hm
    have hid : ∀ o : Option GV, o.map (ptrs 0) = o := by intro o; cases o <;> rfl
    cases j with
    | null =>
      rw [dec_null (hh m hm)]
      cases m with
      | zero => omega
      | succ m =>
        show some (zero U S ds (m + 1) (.ident "any".toList)) = _
        rw [zero, E.basic _ (by decide)]
        rfl
    | bool b => rw [dec, hh m hm]; rfl
    | num q =>
      rw [dec, hh m hm]
      simp only [Option.bind_some, hid]
      rfl
    | str s => rw [dec, hh m hm]; rfl
    | arr xs =>
      rw [dec, hh m hm]
      simp only [Option.bind_some, hid, if_true]
    | obj ms =>
      rw [dec, hh m hm]
      simp only [Option.bind_some, hid, if_true]
  rcases any_settles (U := U) j hd with ⟨v, h1, hv, h2⟩ | ⟨h1, h2⟩
  · exact .inl ⟨v, 1, fun m hm => (key m hm).trans h1, hv, h2⟩
  · exact .inr ⟨⟨1, fun m hm => (key m hm).trans h1⟩, h2⟩

/-! ### Simple types -/

theorem int_range_iff {f x : Str} (hx : PrimT .integer f x) :
    ∃ lo hi, intRange x = some (lo, hi) ∧ ∀ i, InGo f i ↔ lo ≤ i ∧ i ≤ hi := by
  cases hx with
  | integer hm =>
    simp only [List.map_cons, List.map_nil, List.mem_cons, List.not_mem_nil, or_false] at hm
    rcases hm with rfl | rfl | rfl | rfl | rfl | rfl | rfl | rfl | rfl
    all_goals
      apply Exists.intro
      apply Exists.intro
      apply And.intro
      · unfold intRange
        repeat (first | rw [if_neg (by decide)] | rw [if_pos (by decide)])
      · intro i
        unfold InGo
        repeat (first | rw [if_neg (by decide)] | rw [if_pos (by decide)])
  | int hm =>
    simp only [List.map_cons, List.map_nil, List.mem_cons, List.not_mem_nil, or_false,
      not_or] at hm
    apply Exists.intro
    apply Exists.intro
    apply And.intro
    · unfold intRange
      rw [if_pos (by decide)]
    · intro i
      unfold InGo
      rw [if_neg (by simp only [hm, not_false_eq_true]), if_neg (by simp only [hm, not_false_eq_true]),
        if_neg (by simp only [hm, not_false_eq_true]),
        if_neg (by simp only [hm, or_self, not_false_eq_true]),
        if_neg (by simp only [hm, not_false_eq_true]), if_neg (by simp only [hm, not_false_eq_true]),
        if_neg (by simp only [hm, not_false_eq_true])]

/-- A scalar that is read to what is written as it is. -/
theorem settles_scalar {x : Str} {j : J} {P : J → Prop} (o : Option GV)
    (h1 : ∀ m, 1 ≤ m → dec U S ds m (.ident x) j = o)
    (h2 : ∀ v, o = some v → Distinct (enc U S v) ∧ ∀ j', P j' ↔ jeq (enc U S v) j' = true)
    (h3 : o = none → ∀ j', ¬ P j') : Settles U S ds (.ident x) j P := by
  cases o with
  | none => exact .inr ⟨⟨1, h1⟩, h3 rfl⟩
  | some v => exact .inl ⟨v, 1, h1, h2 v rfl⟩

theorem jeq_num {q : Rat} {j : J} : jeq (.num q) j = true ↔ j = .num q := by
  cases j <;> simp [jeq, eq_comm (a := q)]

theorem jeq_str {q : Str} {j : J} : jeq (.str q) j = true ↔ j = .str q := by
  cases j <;> simp [jeq, eq_comm (a := q)]

theorem jeq_bool {q : Bool} {j : J} : jeq (.bool q) j = true ↔ j = .bool q := by
  cases j <;> simp [jeq, eq_comm (a := q)]

theorem settles_prim (E : Env U ds comps) {k : Kind} {f x : Str} {e : List Str} {j : J}
    (hx : PrimT k f x) (hv : Valid S false comps (.prim k f e) j) :
    Settles U S ds (.ident x) j (Comes S comps (.prim k f e) j) := by
  have hd : ∀ m, 1 ≤ m → head ds m (.ident x) = some (0, .ident x) :=
    fun m hm => head_basicType E hx.basic hm
  cases hv with
  | str _ =>
    cases hx
    rename_i s _ _
    refine settles_scalar (some (.str s)) (fun m hm => by rw [dec, hd m hm]; rfl) ?_ nofun
    rintro v ⟨⟩
    refine ⟨trivial, fun j' => ?_⟩
    rw [enc, jeq_str]
    exact ⟨fun h => by cases h; rfl, fun h => by subst h; exact .str⟩
  | bool =>
    cases hx
    rename_i b
    refine settles_scalar (some (.bool b)) (fun m hm => by rw [dec, hd m hm]; rfl) ?_ nofun
    rintro v ⟨⟩
    refine ⟨trivial, fun j' => ?_⟩
    rw [enc, jeq_bool]
    exact ⟨fun h => by cases h; rfl, fun h => by subst h; exact .bool⟩
  | int h1 h2 h3 =>
    rename_i q
    obtain ⟨lo, hi, hr, hq⟩ := int_range_iff hx
    have hxb : x ≠ "float64".toList ∧ x ≠ "float32".toList ∧ x ≠ "any".toList := by
      refine ⟨?_, ?_, ?_⟩ <;> (rintro rfl; exact absurd hr (by rw [intRange_none (by decide)]; simp))
    have hdec : ∀ m, 1 ≤ m → dec U S ds m (.ident x) (.num q) =
        if lo ≤ q.num ∧ q.num ≤ hi then some (.num q) else none := by
      intro m hm
      rw [dec, hd m hm]
      simp only [Option.bind_some]
      rw [decNum, if_neg hxb.1, if_neg hxb.2.1, if_neg hxb.2.2, hr]
      simp only [h1, true_and]
      split <;> rfl
    refine settles_scalar _ hdec ?_ ?_
    · intro v hv
      split at hv
      · rename_i hc
        injection hv with hv
        subst hv
        refine ⟨trivial, fun j' => ?_⟩
        rw [enc, jeq_num]
        exact ⟨fun h => by cases h; rfl, fun h => by subst h; exact .int ((hq _).2 hc)⟩
      · cases hv
    · intro hv j' h
      cases h with
      | int h => rw [if_pos ((hq _).1 h)] at hv; cases hv
  | num h =>
    rename_i q
    have hdec : ∀ m, 1 ≤ m → dec U S ds m (.ident x) (.num q) =
        (if f = "double".toList then S.r64 q else S.r32 q).map .num := by
      intro m hm
      rw [dec, hd m hm]
      cases hx with
      | double =>
        rw [if_pos rfl]
        show ((S.r64 q).map GV.num).map (ptrs 0) = _
        cases S.r64 q <;> rfl
      | float hf =>
        rw [if_neg (by rcases hf with rfl | rfl <;> decide)]
        show ((S.r32 q).map GV.num).map (ptrs 0) = _
        cases S.r32 q <;> rfl
    refine settles_scalar _ hdec ?_ ?_
    · intro v hv
      obtain ⟨q', hq', rfl⟩ := Option.map_eq_some_iff.1 hv
      refine ⟨trivial, fun j' => ?_⟩
      rw [enc, jeq_num]
      refine ⟨fun h => ?_, fun h => h ▸ .num hq'⟩
      cases h with
      | num h => rw [hq'] at h; injection h with h; rw [h]
    · intro hv j' h
      cases h with
      | num h => rw [h] at hv; cases hv

/-! ### Arrays and maps -/

/-- What is shown of a schema and its data. -/
def STS (U : Uni) (S : Std) (ds : List Decl) (comps : List (Str × OS)) (s : OS) (j : J) : Prop :=
  ∀ c path g, Tame U comps s → Apart S comps s → gen U (c :: path) s = .ok g → Decls ds g →
    Distinct j → Settles U S ds (dep false g.typeDecl) j (Comes S comps s j)

theorem sts_ref (E : Env U ds comps) (A : ∀ n s, (n, s) ∈ comps → Apart S comps s) {n : Str}
    {s : OS} {j : J} (hl : comps.lookup n = some s)
    (h : STS U S ds comps s j) : STS U S ds comps (.ref n) j := by
  intro c path g ht _ hg hd hj
  rw [gen] at hg
  injection hg with hg
  subst hg
  have hm := lookup_mem hl
  obtain ⟨g, h1, h2, h3⟩ := E.comp n s hm
  refine (settles_ident (dep_noStar (gen_noStar h1)) h2
    (h n [] g (E.tame.tame n s hm) (A n s hm) h1 h3 hj)).iff fun j' => ?_
  refine ⟨fun h => .ref hl h, fun h => ?_⟩
  cases h with
  | ref h1 h2 => rw [hl] at h1; injection h1 with h1; subst h1; exact h2

theorem sts_prim (E : Env U ds comps) {k : Kind} {f : Str} {e : List Str} {j : J}
    (hv : Valid S false comps (.prim k f e) j) : STS U S ds comps (.prim k f e) j := by
  intro c path g ht _ hg hd _
  obtain ⟨x, hx, hp⟩ := primType_tame ht
  rw [gen, genPrim, hp] at hg
  simp only [Res.bind] at hg
  have base := settles_prim E hx hv (U := U)
  split at hg
  · injection hg with hg
    subst hg
    refine settles_ident (t := .ident x) (fun u e => by cases e) ?_ base
    have := hd _ (List.mem_append_right _ (List.mem_append_right _ (List.mem_singleton_self _)))
    exact this
  · injection hg with hg
    subst hg
    exact base

theorem sts_arr (E : Env U ds comps) {s : OS} {xs : Js}
    (h : ∀ c path g, Tame U comps s → Apart S comps s → gen U (c :: path) s = .ok g → Decls ds g →
      Distincts xs →
      (∃ vs K, (∀ m, K ≤ m → decs U S ds m (dep false g.typeDecl) xs = some vs) ∧
        Distincts (encs U S vs) ∧ ∀ ys, ComesAll S comps s xs ys ↔ jeqs (encs U S vs) ys = true) ∨
      ((∃ K, ∀ m, K ≤ m → decs U S ds m (dep false g.typeDecl) xs = none) ∧
        ∀ ys, ¬ ComesAll S comps s xs ys)) : STS U S ds comps (.arr s) (.arr xs) := by
  intro c path g ht ha hg hd hj
  rw [gen] at hg
  obtain ⟨a, hga, hg⟩ := bind_ok hg
  rw [Tame] at ht
  rw [Apart] at ha
  rw [Distinct] at hj
  have ih := gen_good s ht hga
  rw [genArr_eq ih.addl ih.union] at hg
  injection hg with hg
  subst hg
  have hb : ∀ m, isByte ds m (dep false a.typeDecl) = false := fun m =>
    isByte_false E (refs_ok E ih hd)
  have hdec : ∀ m, 1 ≤ m → dec U S ds m (.arr (dep false a.typeDecl)) (.arr xs) =
      (decs U S ds m (dep false a.typeDecl) xs).map .slice := by
    intro m hm
    cases m with
    | zero => omega
    | succ m =>
      rw [dec, head]
      simp only [Option.bind_some]
      cases decs U S ds (m + 1) (dep false a.typeDecl) xs with
      | none => rfl
      | some vs => simp only [Option.map_some, hb]; rfl
  show Settles U S ds (.arr (dep false a.typeDecl)) _ _
  rcases h c path a ht ha hga hd hj with ⟨vs, K, h1, hv, h2⟩ | ⟨⟨K, h1⟩, h2⟩
  · refine .inl ⟨.slice vs, K + 1, fun m hm => ?_, hv, fun j' => ?_⟩
    · rw [hdec m (by omega), h1 m (by omega)]
      rfl
    · rw [enc]
      cases j' with
      | arr ys =>
        rw [jeq, ← h2]
        exact ⟨fun h => by cases h with | arr h => exact h, fun h => .arr h⟩
      | _ => exact ⟨fun h => (by cases h), fun h => by simp [jeq] at h⟩
  · refine .inr ⟨⟨K + 1, fun m hm => ?_⟩, fun j' h => ?_⟩
    · rw [hdec m (by omega), h1 m (by omega)]
      rfl
    · cases h with
      | arr h => exact h2 _ h

/-- The members of a map. -/
theorem decMs_settles {t : GT} {C : J → J → Prop} : ∀ (ms : JMs), ms.keys.Nodup →
    AllMs (fun _ x => Settles U S ds t x (C x)) ms →
    (∃ vs K, (∀ m, K ≤ m → decMs U S ds m t ms = some vs) ∧ Read U S C vs ms) ∨
    ((∃ K, ∀ m, K ≤ m → decMs U S ds m t ms = none) ∧ ∃ k x, ms.get k = some x ∧ ∀ y, ¬ C x y)
  | .nil, _, _ => .inl ⟨.nil, 0, fun _ _ => rfl, trivial, rfl, fun k x h => by cases h⟩
  | .cons k x ms, hn, h => by
    rw [JMs.keys, List.nodup_cons] at hn
    rcases h.1 with ⟨v, a, h1, hv, h2⟩ | ⟨⟨a, h1⟩, h2⟩
    · rcases decMs_settles ms hn.2 h.2 with ⟨vs, b, h3, h4⟩ | ⟨⟨b, h3⟩, k', x', h4, h5⟩
      · refine .inl ⟨.cons k v vs, a + b, fun m hm => ?_, read_cons hv h2 h4⟩
        rw [decMs, h1 m (by omega), h3 m (by omega)]
        rfl
      · refine .inr ⟨⟨a + b, fun m hm => ?_⟩, k', x', get_later hn.1 h4, h5⟩
        rw [decMs, h1 m (by omega), h3 m (by omega)]
        rfl
    · refine .inr ⟨⟨a, fun m hm => ?_⟩, k, x, by rw [JMs.get, if_pos rfl], h2⟩
      rw [decMs, h1 m hm]
      rfl

theorem settles_map {k t : GT} {ms : JMs} {C : J → J → Prop} (hn : ms.keys.Nodup)
    (h : AllMs (fun _ x => Settles U S ds t x (C x)) ms) :
    Settles U S ds (.map k t) (.obj ms) fun j' => ∃ ms', j' = .obj ms' ∧
      (∀ k, k ∈ ms.keys ↔ k ∈ ms'.keys) ∧
      ∀ k x y, ms.get k = some x → ms'.get k = some y → C x y := by
  have hdec : ∀ m, 1 ≤ m → dec U S ds m (.map k t) (.obj ms) =
      (decMs U S ds m t ms).map .map := by
    intro m hm
    cases m with
    | zero => omega
    | succ m =>
      rw [dec, head]
      simp only [Option.bind_some]
      cases decMs U S ds (m + 1) t ms <;> rfl
  rcases decMs_settles ms hn h with ⟨vs, K, h1, h2⟩ | ⟨⟨K, h1⟩, k', x, h2, h3⟩
  · refine .inl ⟨.map vs, K + 1, fun m hm => ?_, ?_, fun j' => ?_⟩
    rotate_left
    · rw [enc, Distinct, h2.2.1]
      exact ⟨hn, h2.1⟩
    rotate_left
    · rw [hdec m (by omega), h1 m (by omega)]
      rfl
    · rw [enc]
      constructor
      · rintro ⟨ms', rfl, h3⟩
        exact (members_iff h2.2.1 hn h2.2.2).2 h3
      · intro hj
        obtain ⟨ms', rfl⟩ := jeq_obj hj
        exact ⟨ms', rfl, (members_iff h2.2.1 hn h2.2.2).1 hj⟩
  · refine .inr ⟨⟨K + 1, fun m hm => ?_⟩, ?_⟩
    · rw [hdec m (by omega), h1 m (by omega)]
      rfl
    · rintro j' ⟨ms', rfl, h4, h5⟩
      obtain ⟨y, hy⟩ := get_of_mem ((h4 k').1 (get_mem ms h2))
      exact h3 y (h5 k' x y h2 hy)

/-! ### Fields -/

/-- What is written of a field with the value `v`, which is left out if it is empty and `om`. -/
def Out (U : Uni) (S : Std) (om : Bool) (v : GV) : Option J → Prop
  | none => (om && v.isEmpty) = true
  | some y => (om && v.isEmpty) = false ∧ jeq (enc U S v) y = true

/-- `j` is read into the type `t` as `v`. -/
def Reads (U : Uni) (S : Std) (ds : List Decl) (t : GT) (j : J) (v : GV) : Prop :=
  ∃ K, ∀ m, K ≤ m → dec U S ds m t j = some v

theorem reads_unique {t : GT} {j : J} {v w : GV} (h1 : Reads U S ds t j v)
    (h2 : Reads U S ds t j w) : v = w := by
  obtain ⟨a, h1⟩ := h1
  obtain ⟨b, h2⟩ := h2
  have := h1 (a + b) (by omega)
  rw [h2 (a + b) (by omega)] at this
  injection this with this
  exact this.symm

theorem reads_readable {t : GT} {j : J} {v : GV} (h1 : Reads U S ds t j v)
    (h2 : Unreadable U S ds t j) : False := by
  obtain ⟨a, h1⟩ := h1
  obtain ⟨b, h2⟩ := h2
  have := h1 (a + b) (by omega)
  rw [h2 (a + b) (by omega)] at this
  cases this

/-- From some depth on, a member is read into a field of the type `t` and written as `M` says, or
it is not read, and there is nothing that `M` is true of. -/
def FieldOut (U : Uni) (S : Std) (ds : List Decl) (t : GT) (x : J) (om : Bool)
    (M : Option J → Prop) : Prop :=
  (∃ v, Reads U S ds t x v ∧ Distinct (enc U S v) ∧ ∀ o, M o ↔ Out U S om v o) ∨
    (Unreadable U S ds t x ∧ ∀ o, ¬ M o)

theorem not_visible_null {s : OS} : ¬ Visible s .null := by
  cases s <;> exact fun h => h.elim

theorem out_nil {om : Bool} {o : Option J} : Out U S om .nil o ↔
    o = if om then none else some .null := by
  cases o with
  | none => cases om <;> simp [Out, GV.isEmpty]
  | some y =>
    cases om
    · rw [Out, enc]
      cases y <;> simp [jeq]
    · simp [Out, GV.isEmpty]

theorem member_none {r nl : Bool} {s : OS} {o : Option J} (h : (!r || nl) = true) :
    Member S comps r nl s none o ↔ Out U S (!(r || nl)) .nil o := by
  rw [out_nil]
  cases nl with
  | true =>
    rw [if_neg (by simp)]
    exact ⟨fun h => by cases h; rfl, fun h => by subst h; exact .made⟩
  | false =>
    have : r = false := by simpa using h
    subst this
    rw [if_pos (by simp)]
    exact ⟨fun h => by cases h; rfl, fun h => by subst h; exact .absent⟩

theorem field_null {r nl : Bool} {s : OS} {t : GT} (h : NoStar t) (hr : (!r || nl) = true) :
    FieldOut U S ds (fieldT r nl t) .null (!(r || nl)) (Member S comps r nl s (some .null)) := by
  refine .inl ⟨.nil, ⟨1, fun m hm => ?_⟩, trivial, fun o => ?_⟩
  · cases m with
    | zero => omega
    | succ m =>
      rcases fieldT_opt h hr with h | ⟨h, ⟨e, rfl⟩ | ⟨k, v, rfl⟩⟩
      all_goals (rw [h]; rfl)
  · rw [out_nil]
    cases nl with
    | true =>
      rw [if_neg (by simp)]
      refine ⟨fun h => ?_, fun h => by subst h; exact .null⟩
      cases h with
      | null => rfl
      | kept _ h _ => exact absurd rfl (h rfl)
    | false =>
      have : r = false := by simpa using hr
      subst this
      rw [if_pos (by simp)]
      refine ⟨fun h => ?_, fun h => by subst h; exact .lost not_visible_null⟩
      cases h with
      | lost _ => rfl
      | kept h _ _ => exact absurd (h rfl rfl) not_visible_null

/-- Arrays and maps, and the others. -/
theorem shape {s : OS} {x : J} {path : List Str} {g : GSch} (ht : Tame U comps s)
    (hg : gen U path s = .ok g) (hv : Valid S false comps s x) (hx : x ≠ .null) :
    (∃ e xs, g.typeDecl = .arr e ∧ x = .arr xs ∧ (Visible s x ↔ xs ≠ .nil)) ∨
    (∃ k v ms, g.typeDecl = .map k v ∧ x = .obj ms ∧ (Visible s x ↔ ms ≠ .nil)) ∨
    ((∀ e, g.typeDecl ≠ .arr e) ∧ (∀ k v, g.typeDecl ≠ .map k v) ∧ Visible s x) := by
  have struct : ∀ {typed allOf ps ms}, s = .obj typed allOf ps .no .nil → HasFields allOf ps →
      x = .obj ms → (∀ e, g.typeDecl ≠ .arr e) ∧ (∀ k v, g.typeDecl ≠ .map k v) ∧ Visible s x := by
    rintro typed allOf ps ms rfl hps rfl
    rw [gen] at hg
    dsimp only at hg
    rw [if_neg (fun e => hasFields_iff.1 hps e.1)] at hg
    obtain ⟨ga, hga, hg⟩ := bind_ok hg
    rw [if_neg (fun e => hasFields_iff.1 hps e.1)] at hg
    obtain ⟨gps, hgps, hg⟩ := bind_ok hg
    obtain ⟨ges, hges, hg⟩ := bind_ok hg
    injection hg with hg; subst hg
    refine ⟨(fun e h => by cases h), (fun k v h => by cases h), ?_⟩
    cases typed <;> cases allOf <;> cases ps <;> cases ms <;> first | trivial | skip
    all_goals
      rcases hps with h | ⟨m, hm, _⟩
      · exact absurd rfl h
      · cases hm
  cases hv with
  | ref _ _ =>
    rw [gen] at hg; injection hg with hg; subst hg
    refine .inr (.inr ⟨(fun e h => by cases h), (fun k v h => by cases h), ?_⟩)
    cases x with
    | null => exact absurd rfl hx
    | arr xs => cases xs <;> trivial
    | obj ms => cases ms <;> trivial
    | _ => trivial
  | arr h =>
    rename_i xs
    rw [gen] at hg
    obtain ⟨a, hga, hg⟩ := bind_ok hg
    injection hg with hg; subst hg
    refine .inl ⟨_, xs, rfl, rfl, ?_⟩
    cases xs <;> simp [Visible]
  | any h =>
    rw [gen] at hg
    dsimp only at hg
    rw [if_pos (by simp)] at hg
    injection hg with hg; subst hg
    refine .inr (.inr ⟨(fun e h => by cases h), (fun k v h => by cases h), ?_⟩)
    cases x with
    | null => exact absurd rfl hx
    | arr xs => cases xs <;> trivial
    | obj ms => cases ms <;> trivial
    | _ => trivial
  | free h =>
    rename_i ms
    rw [gen] at hg
    dsimp only at hg
    rw [if_pos (by simp)] at hg
    injection hg with hg; subst hg
    refine .inr (.inl ⟨_, _, ms, rfl, rfl, ?_⟩)
    cases ms <;> simp [Visible]
  | union _ => rw [Tame] at ht; cases ht.2.1
  | all h1 h2 h3 h4 h5 h6 h7 =>
    rw [Tame] at ht
    exact .inr (.inr (struct rfl (ht.2.2.2.2.1.resolve_left fun e => h1 e.2).1 rfl))
  | obj h1 h2 h3 h4 h5 =>
    rename_i typed props addl alts ms
    rw [Tame] at ht
    obtain ⟨_, rfl, _, _, hor, _⟩ := ht
    rcases hor with ⟨rfl, _⟩ | ⟨hf, rfl⟩
    · have ha : addl ≠ .no := h1.resolve_left fun h => h rfl
      rw [gen] at hg
      dsimp only at hg
      rw [if_neg (fun e => ha e.2.1)] at hg
      obtain ⟨ga, hga, hg⟩ := bind_ok hg
      rw [if_pos (by simp)] at hg
      injection hg with hg; subst hg
      refine .inr (.inl ⟨_, _, ms, rfl, rfl, ?_⟩)
      cases typed <;> cases addl <;> cases ms <;> first | exact absurd rfl ha | simp [Visible]
    · exact .inr (.inr (struct rfl hf rfl))
  | _ =>
    obtain ⟨y, _, hp⟩ := primType_tame ht
    rw [gen, genPrim, hp] at hg
    simp only [Res.bind] at hg
    refine .inr (.inr ⟨?_, ?_, by trivial⟩)
    all_goals
      split at hg
      all_goals
        injection hg with hg
        subst hg
        intros
        nofun

theorem out_full {om : Bool} {v : GV} {o : Option J} (h : (om && v.isEmpty) = false) :
    Out U S om v o ↔ ∃ y, o = some y ∧ jeq (enc U S v) y = true := by
  cases o with
  | none => simp [Out, h]
  | some y => simp [Out, h]

theorem member_kept {r nl : Bool} {s : OS} {x : J} {o : Option J}
    (h1 : r = false → nl = false → Visible s x) (h2 : nl = true → x ≠ .null) :
    Member S comps r nl s (some x) o ↔ ∃ y, o = some y ∧ Comes S comps s x y := by
  constructor
  · intro h
    cases h with
    | null => exact absurd rfl (h2 rfl)
    | lost h => exact absurd (h1 rfl rfl) h
    | kept _ _ h => exact ⟨_, rfl, h⟩
  · rintro ⟨y, rfl, h⟩
    exact .kept h1 h2 h

/-- A member of a property. -/
theorem field_settles {r nl : Bool} {s : OS} {x : J} {path : List Str} {g : GSch}
    (ht : Tame U comps s) (hg : gen U path s = .ok g) (hv : Valid S false comps s x)
    (h : Settles U S ds (dep false g.typeDecl) x (Comes S comps s x)) :
    FieldOut U S ds (fieldT r nl g.typeDecl) x (!(r || nl)) (Member S comps r nl s (some x)) := by
  have hn := gen_noStar hg
  -- a member that is always kept
  have keep : ∀ t, Settles U S ds t x (Comes S comps s x) →
      (∀ v, Reads U S ds t x v → (!(r || nl) && v.isEmpty) = false) →
      (r = false → nl = false → Visible s x) → (nl = true → x ≠ .null) →
      FieldOut U S ds t x (!(r || nl)) (Member S comps r nl s (some x)) := by
    intro t h he h1 h2
    rcases h with ⟨v, K, h3, hv, h4⟩ | ⟨h3, h4⟩
    · refine .inl ⟨v, ⟨K, h3⟩, hv, fun o => ?_⟩
      rw [out_full (he v ⟨K, h3⟩), member_kept h1 h2]
      simp only [h4]
    · refine .inr ⟨h3, fun o => ?_⟩
      rw [member_kept h1 h2]
      rintro ⟨y, _, hy⟩
      exact h4 y hy
  by_cases hr : (!r || nl) = true
  · by_cases hx : x = .null
    · subst hx
      exact field_null hn hr
    · rcases fieldT_opt hn hr with e | ⟨e, hd⟩
      · rw [e]
        have hvis : Visible s x := by
          rcases shape ht hg hv hx with ⟨e', _, h, _⟩ | ⟨k, v, _, h, _⟩ | ⟨_, _, h⟩
          · rw [h] at e
            unfold fieldT at e
            rw [if_pos hr] at e
            cases e
          · rw [h] at e
            unfold fieldT at e
            rw [if_pos hr] at e
            cases e
          · exact h
        obtain ⟨s1, s2⟩ := star_reads (U := U) (S := S) (ds := ds) (t := dep false g.typeDecl) hx
        have hs : Settles U S ds (.star (dep false g.typeDecl)) x (Comes S comps s x) := by
          rcases h with ⟨v, K, h3, hv, h4⟩ | ⟨⟨K, h3⟩, h4⟩
          · exact .inl ⟨.ptr v, K + 1, s1 v K h3, hv, h4⟩
          · exact .inr ⟨⟨K + 1, s2 K h3⟩, h4⟩
        refine keep _ hs (fun v hv => ?_) (fun _ _ => hvis) fun _ => hx
        rcases h with ⟨w, K, h3, h4⟩ | ⟨⟨K, h3⟩, h4⟩
        · rw [reads_unique hv ⟨K + 1, s1 w K h3⟩, GV.isEmpty, Bool.and_false]
          all_goals nofun
        · exact (reads_readable hv ⟨K + 1, s2 K h3⟩).elim
      · rw [e]
        have empty : ∀ v, Reads U S ds (dep false g.typeDecl) x v →
            (v.isEmpty = true ↔ ¬ Visible s x) := by
          rintro v ⟨K, hK⟩
          have hK := hK (K + 1) (by omega)
          rcases shape ht hg hv hx with ⟨e', xs, hgt, rfl, hvis⟩ | ⟨k, w, ms, hgt, rfl, hvis⟩ | ⟨h1, h2, _⟩
          · rw [hvis, Decidable.not_not]
            rw [hgt] at hK
            have hK : ((decs U S ds (K + 1) (dep false e') xs).map fun vs =>
                if isByte ds (K + 1) (dep false e') then GV.bytes vs else GV.slice vs).map (ptrs 0) =
                some v := hK
            cases xs with
            | nil =>
              rw [decs] at hK
              injection hK with hK
              subst hK
              cases isByte ds (K + 1) (dep false e') <;> simp [ptrs, GV.isEmpty]
            | cons y ys =>
              rw [decs, Option.map_map] at hK
              obtain ⟨vs, hvs, rfl⟩ := Option.map_eq_some_iff.1 hK
              obtain ⟨a, _, hvs⟩ := Option.bind_eq_some_iff.1 hvs
              obtain ⟨as, _, rfl⟩ := Option.map_eq_some_iff.1 hvs
              simp only [Function.comp]
              cases isByte ds (K + 1) (dep false e') <;> simp [ptrs, GV.isEmpty]
          · rw [hvis, Decidable.not_not]
            rw [hgt] at hK
            have hK : ((decMs U S ds (K + 1) (dep false w) ms).map GV.map).map (ptrs 0) = some v := hK
            cases ms with
            | nil =>
              rw [decMs] at hK
              injection hK with hK
              subst hK
              simp [ptrs, GV.isEmpty]
            | cons k' y ys =>
              rw [decMs, Option.map_map] at hK
              obtain ⟨vs, hvs, rfl⟩ := Option.map_eq_some_iff.1 hK
              obtain ⟨a, _, hvs⟩ := Option.bind_eq_some_iff.1 hvs
              obtain ⟨as, _, rfl⟩ := Option.map_eq_some_iff.1 hvs
              simp [ptrs, GV.isEmpty]
          · rcases hd with ⟨e', hd⟩ | ⟨k, w, hd⟩
            · exact absurd hd (h1 e')
            · exact absurd hd (h2 k w)
        by_cases hc : (r = false → nl = false → Visible s x)
        · refine keep _ h (fun v hv => ?_) hc fun _ => hx
          cases hrn : (r || nl) with
          | true => rfl
          | false =>
            rw [Bool.or_eq_false_iff] at hrn
            have := empty v hv
            cases hve : v.isEmpty with
            | false => rfl
            | true => exact absurd (hc hrn.1 hrn.2) (this.1 hve)
        · have hr1 : r = false := by
            cases r with
            | false => rfl
            | true => exact absurd (fun h => by cases h) hc
          have hr2 : nl = false := by
            cases nl with
            | false => rfl
            | true => exact absurd (fun _ h => by cases h) hc
          subst hr1 hr2
          have hnv : ¬ Visible s x := fun h => hc fun _ _ => h
          rcases h with ⟨v, K, h3, hvd, h4⟩ | ⟨h3, h4⟩
          · refine .inl ⟨v, ⟨K, h3⟩, hvd, fun o => ?_⟩
            have hve := (empty v ⟨K, h3⟩).2 hnv
            cases o with
            | none =>
              refine ⟨fun _ => ?_, fun _ => .lost hnv⟩
              show (true && v.isEmpty) = true
              rw [hve]
              rfl
            | some y =>
              refine ⟨fun h => ?_, fun h => ?_⟩
              · cases h with
                | kept h _ _ => exact absurd (h rfl rfl) hnv
              · have h : (true && v.isEmpty) = false := h.1
                rw [hve] at h
                cases h
          · exfalso
            obtain ⟨K, h3⟩ := h3
            have h3 := h3 (K + 1) (by omega)
            rcases shape ht hg hv hx with ⟨e', xs, h, rfl, hvis⟩ | ⟨k, w, ms, h, rfl, hvis⟩ | ⟨_, _, h⟩
            · have hxs : xs = .nil := Decidable.byContradiction fun hh => hnv (hvis.2 hh)
              subst hxs
              rw [h] at h3
              cases h3
            · have hms : ms = .nil := Decidable.byContradiction fun hh => hnv (hvis.2 hh)
              subst hms
              rw [h] at h3
              cases h3
            · exact hnv h
  · have h1 : r = true := by cases r <;> simp_all
    have h2 : nl = false := by cases nl <;> simp_all
    subst h1 h2
    rw [fieldT_req hn]
    exact keep _ h (fun v _ => rfl) nofun nofun

end Thema.GoJson
