import Verif.Lemmas.OGenPipe

/-!
# Reading and writing generated Go types
-/

namespace Thema.GoJson

open GoTypes OGen

variable {U : Uni} {S : Std} {ds : List Decl}

/-! ### Heads of types -/

theorem head_mono : ∀ {n : Nat} {t : GT} {r : Nat × GT}, head ds n t = some r →
    ∀ m, n ≤ m → head ds m t = some r
  | 0, t, r, h, _, _ => by cases h
  | n + 1, t, r, h, 0, hm => absurd hm (by omega)
  | n + 1, .star t, r, h, m + 1, hm => by
    rw [head] at h ⊢
    obtain ⟨p, hp, rfl⟩ := Option.map_eq_some_iff.1 h
    rw [head_mono hp m (by omega)]
    rfl
  | n + 1, .ident x, r, h, m + 1, hm => by
    rw [head] at h ⊢
    split at h
    · rename_i u hu
      rw [head_mono h m (by omega)]
    · exact h
  | n + 1, .sel p x, r, h, m + 1, hm => h
  | n + 1, .arr e, r, h, m + 1, hm => h
  | n + 1, .map k v, r, h, m + 1, hm => h
  | n + 1, .struct fs, r, h, m + 1, hm => h

theorem head_star {n : Nat} {t : GT} {p : Nat × GT} (h : head ds n (.star t) = some p) :
    p.1 ≠ 0 := by
  cases n with
  | zero => cases h
  | succ n =>
    rw [head] at h
    obtain ⟨q, _, rfl⟩ := Option.map_eq_some_iff.1 h
    simp

theorem dec_null {m : Nat} {t : GT} {p : Nat × GT} (h : head ds m t = some p) :
    dec U S ds m t .null = if p.1 = 0 then decNull U S ds m p.2 else some .nil := by
  cases t with
  | star t => rw [if_neg (head_star h)]; rfl
  | _ => simp [dec, h]

/-- Reading depends only on the head of a type. -/
theorem dec_head {m : Nat} {t u : GT} {p : Nat × GT} (h1 : head ds m t = some p)
    (h2 : head ds m u = some p) (j : J) : dec U S ds m t j = dec U S ds m u j := by
  cases j with
  | null => rw [dec_null h1, dec_null h2]
  | _ => simp only [dec, h1, h2]

/-- A type that is not a pointer. -/
def NoStar (t : GT) : Prop := ∀ u, t ≠ .star u

theorem dec_some_head {m : Nat} {t : GT} {j : J} {v : GV} (hj : j ≠ .null ∨ NoStar t)
    (h : dec U S ds m t j = some v) : ∃ p, head ds m t = some p := by
  cases hh : head ds m t with
  | some p => exact ⟨p, rfl⟩
  | none =>
    cases j with
    | null =>
      rcases hj with hj | hj
      · exact absurd rfl hj
      · cases t with
        | star t => exact absurd rfl (hj t)
        | _ => simp [dec, hh] at h
    | _ => simp [dec, hh] at h

theorem rt_ident {x : Str} {t : GT} {j : J} (ht : NoStar t) (hx : declType ds x = some t)
    (h : RoundTrip U S ds t j) : RoundTrip U S ds (.ident x) j := by
  obtain ⟨v, k, h⟩ := h
  refine ⟨v, k + 1, fun m hm => ?_⟩
  have h1 := h m (by omega)
  obtain ⟨p, hp⟩ := dec_some_head (.inr ht) (h k (Nat.le_refl k)).1
  have e : head ds m (.ident x) = some p := by
    cases m with
    | zero => omega
    | succ m =>
      rw [head, hx]
      show head ds m t = _
      rw [head_mono hp m (by omega)]
  rw [dec_head e (head_mono hp m (by omega))]
  exact h1

theorem dec_star {m : Nat} {t : GT} {j : J} {p : Nat × GT} (hj : j ≠ .null)
    (h1 : head ds m t = some p) (h2 : head ds m (.star t) = some (p.1 + 1, p.2)) :
    dec U S ds m (.star t) j = (dec U S ds m t j).map .ptr := by
  cases j with
  | null => exact absurd rfl hj
  | bool b => simp only [dec, h1, h2, Option.bind_some, Option.map_map]; rfl
  | num b => simp only [dec, h1, h2, Option.bind_some, Option.map_map]; rfl
  | str b => simp only [dec, h1, h2, Option.bind_some, Option.map_map]; rfl
  | arr b => simp only [dec, h1, h2, Option.bind_some, Option.map_map]; rfl
  | obj b => simp only [dec, h1, h2, Option.bind_some, Option.map_map]; rfl

/-- Reading and writing with a value in between that satisfies `P`. -/
def RTP (U : Uni) (S : Std) (ds : List Decl) (P : GV → Prop) (t : GT) (j : J) : Prop :=
  ∃ v k, P v ∧ ∀ m, k ≤ m → dec U S ds m t j = some v ∧ jeq (enc U S v) j = true

theorem rt_star {t : GT} {j : J} (hj : j ≠ .null) (h : RoundTrip U S ds t j) :
    RTP U S ds (fun v => v.isEmpty = false) (.star t) j := by
  obtain ⟨v, k, h⟩ := h
  obtain ⟨p, hp⟩ := dec_some_head (.inl hj) (h k (Nat.le_refl k)).1
  refine ⟨.ptr v, k + 1, rfl, fun m hm => ?_⟩
  have h1 := h m (by omega)
  have e1 := head_mono hp m (by omega)
  have e2 : head ds m (.star t) = some (p.1 + 1, p.2) := by
    cases m with
    | zero => omega
    | succ m => rw [head, head_mono hp m (by omega)]; rfl
  rw [dec_star hj e1 e2, h1.1]
  exact ⟨rfl, h1.2⟩

/-! ### Data of any kind -/

mutual
theorem decAny_exact : ∀ (j : J), Exact S j → ∃ v, decAny S j = some v ∧ jeq (enc U S v) j = true
  | .null, _ => ⟨.nil, rfl, rfl⟩
  | .bool b, _ => ⟨_, rfl, by simp [enc, jeq]⟩
  | .str s, _ => ⟨_, rfl, by simp [enc, jeq]⟩
  | .num q, h => ⟨.iface (.num q), by rw [Exact] at h; simp [decAny, h], by simp [enc, jeq]⟩
  | .arr xs, h => by
    rw [Exact] at h
    obtain ⟨vs, h1, h2⟩ := decAnys_exact xs h
    exact ⟨.iface (.slice vs), by rw [decAny, h1]; rfl, by rw [enc, enc, jeq]; exact h2⟩
  | .obj ms, h => by
    rw [Exact] at h
    obtain ⟨vs, h1, h2, h3⟩ := decAnyMs_exact ms ms h.2 h.1 (fun k x hk => hk)
    refine ⟨.iface (.map vs), by rw [decAny, h1]; rfl, ?_⟩
    rw [enc, enc, jeq, h2, h3]
    simp
theorem decAnys_exact : ∀ (xs : Js), Exacts S xs →
    ∃ vs, decAnys S xs = some vs ∧ jeqs (encs U S vs) xs = true
  | .nil, _ => ⟨.nil, rfl, rfl⟩
  | .cons x xs, h => by
    rw [Exacts] at h
    obtain ⟨v, h1, h2⟩ := decAny_exact x h.1
    obtain ⟨vs, h3, h4⟩ := decAnys_exact xs h.2
    exact ⟨.cons v vs, by rw [decAnys, h1, h3]; rfl, by rw [encs, jeqs, h2, h4]; rfl⟩
theorem decAnyMs_exact : ∀ (ms all : JMs), ExactMs S ms → ms.keys.Nodup →
    (∀ k x, ms.get k = some x → all.get k = some x) →
    ∃ vs, decAnyMs S ms = some vs ∧ jeqMs (encMs U S vs) all = true ∧ (encMs U S vs).keys = ms.keys
  | .nil, _, _, _, _ => ⟨.nil, rfl, rfl, rfl⟩
  | .cons k x ms, all, h, hn, hg => by
    rw [ExactMs] at h
    rw [JMs.keys, List.nodup_cons] at hn
    obtain ⟨v, h1, h2⟩ := decAny_exact x h.1
    have hg' : ∀ k' x', ms.get k' = some x' → all.get k' = some x' := by
      intro k' x' hk'
      refine hg k' x' ?_
      rw [JMs.get, if_neg]
      · exact hk'
      · rintro rfl
        exact hn.1 (get_mem ms hk')
    obtain ⟨vs, h3, h4, h5⟩ := decAnyMs_exact ms all h.2 hn.2 hg'
    refine ⟨.cons k v vs, by rw [decAnyMs, h1, h3]; rfl, ?_, by rw [encMs, JMs.keys, JMs.keys, h5]⟩
    rw [encMs, jeqMs, hg k x (by rw [JMs.get, if_pos rfl]), h4]
    simp only
    rw [h2]
    rfl
where
  get_mem : ∀ (ms : JMs) {k : Str} {x : J}, ms.get k = some x → k ∈ ms.keys
    | .nil, _, _, h => by cases h
    | .cons k' y ms, k, x, h => by
      rw [JMs.get] at h
      rw [JMs.keys]
      split at h
      · rename_i e; subst e; exact List.mem_cons_self ..
      · exact List.mem_cons_of_mem _ (get_mem ms h)
end

/-! ### The declarations -/

/-- What is known about the declarations of a file. -/
structure Env (U : Uni) (ds : List Decl) (comps : List (Str × OS)) : Prop where
  laws : UniLaws U
  tame : TameAll U comps
  basic : ∀ n ∈ basicTypes, declType ds n = none
  closed : ∀ n t, declType ds n = some t → ∀ m ∈ refs t,
    m ∈ basicTypes ∨ ∃ u, declType ds m = some u
  comp : ∀ n s, (n, s) ∈ comps → ∃ g, gen U [n] s = .ok g ∧
    declType ds (typeName U n) = some (dep false g.typeDecl) ∧
    ∀ td ∈ g.defs, declType ds td.name = some (dep false td.decl)

theorem env_of (L : UniLaws U) {replace : Str → Str} {comps : List (Str × OS)}
    (ht : TameAll U comps) (h : goTypes U replace false comps = .ok ds) : Env U ds comps := by
  obtain ⟨h1, h2, h3⟩ := declType_tame L ht h
  exact ⟨L, ht, h1, h2, h3⟩

/-- The definitions of a schema are declared. -/
def Decls (ds : List Decl) (g : GSch) : Prop :=
  ∀ td ∈ g.defs, declType ds td.name = some (dep false td.decl)

theorem gen_noStar {path : List Str} : ∀ {s : OS} {g : GSch}, gen U path s = .ok g →
    NoStar g.typeDecl
  | .ref n, g, h, u => by rw [gen] at h; injection h with h; subst h; intro e; cases e
  | .prim k f e, g, h, u => by
    rw [gen, genPrim] at h
    obtain ⟨⟨t, sk⟩, ht, h⟩ := bind_ok h
    dsimp only at h
    split at h
    · injection h with h; subst h; intro e; cases e
    · injection h with h; subst h
      rintro rfl
      unfold primType at ht
      cases k <;> dsimp only at ht
      all_goals (repeat' split at ht)
      all_goals cases ht
  | .arr s, g, h, u => by
    rw [gen] at h
    obtain ⟨a, ha, h⟩ := bind_ok h
    injection h with h; subst h; intro e; cases e
  | .inner, g, h, u => by rw [gen] at h; injection h with h; subst h; intro e; cases e
  | .obj typed allOf ps a es, g, h, u => by
    rw [gen] at h
    dsimp only at h
    split at h
    · injection h with h; subst h
      cases typed <;> (intro e; cases e)
    · obtain ⟨ga, hga, h⟩ := bind_ok h
      split at h
      · injection h with h; subst h; intro e; cases e
      · obtain ⟨gps, hgps, h⟩ := bind_ok h
        obtain ⟨ges, hges, h⟩ := bind_ok h
        injection h with h; subst h; intro e; cases e

theorem dep_noStar {t : GT} (h : NoStar t) : NoStar (dep false t) := by
  cases t with
  | star t => exact absurd rfl (h t)
  | _ => intro u e; cases e

variable {comps : List (Str × OS)}

theorem head_basic (E : Env U ds comps) : ∀ (m : Nat) (t : GT) (p : Nat) (x : Str),
    (∀ n ∈ refs t, n ∈ basicTypes ∨ ∃ u, declType ds n = some u) →
    head ds m t = some (p, .ident x) → x ∈ basicTypes
  | 0, t, p, x, _, h => by cases h
  | m + 1, .star t, p, x, hr, h => by
    rw [head] at h
    obtain ⟨q, hq, he⟩ := Option.map_eq_some_iff.1 h
    injection he with _ he
    refine head_basic E m t q.1 x hr ?_
    rw [hq, ← he]
  | m + 1, .ident y, p, x, hr, h => by
    rw [head] at h
    split at h
    · rename_i t ht
      exact head_basic E m t p x (E.closed y t ht) h
    · rename_i hn
      injection h with h
      injection h with _ h
      injection h with h
      subst h
      rcases hr y (by simp [refs]) with h | ⟨u, hu⟩
      · exact h
      · rw [hn] at hu; cases hu
  | m + 1, .sel _ _, p, x, _, h => by cases h
  | m + 1, .arr _, p, x, _, h => by cases h
  | m + 1, .map _ _, p, x, _, h => by cases h
  | m + 1, .struct _, p, x, _, h => by cases h

theorem isByte_false (E : Env U ds comps) {m : Nat} {t : GT}
    (hr : ∀ n ∈ refs t, n ∈ basicTypes ∨ ∃ u, declType ds n = some u) : isByte ds m t = false := by
  unfold isByte
  split
  · rename_i x hx
    have := head_basic E m t 0 x hr hx
    have k : ∀ x ∈ basicTypes, (x == "uint8".toList || x == "byte".toList) = false := by decide
    exact k x this
  · rfl

theorem refs_ok (E : Env U ds comps) {c : Str} {g : GSch} (hg : Good U comps c g)
    (hd : Decls ds g) :
    ∀ n ∈ refs (dep false g.typeDecl), n ∈ basicTypes ∨ ∃ u, declType ds n = some u := by
  intro n hn
  rw [refs_dep] at hn
  rcases hg.refs n hn with h | ⟨m, hm, rfl⟩ | ⟨td, htd, rfl⟩
  · exact .inl h
  · obtain ⟨s, hs⟩ := lookup_isSome_mem hm
    obtain ⟨g', _, h, _⟩ := E.comp m s hs
    exact .inr ⟨_, h⟩
  · exact .inr ⟨_, hd td htd⟩

/-! ### Simple types -/

theorem head_basicType (E : Env U ds comps) {x : Str} (hx : x ∈ basicTypes) {m : Nat} (hm : 1 ≤ m) :
    head ds m (.ident x) = some (0, .ident x) := by
  cases m with
  | zero => omega
  | succ m => rw [head, E.basic x hx]

theorem intRange_none {x : Str} (h : x ∈ ["float64", "float32", "any"].map String.toList) :
    intRange x = none := by
  simp only [List.map_cons, List.map_nil, List.mem_cons, List.not_mem_nil, or_false] at h
  rcases h with rfl | rfl | rfl
  all_goals
    unfold intRange
    repeat rw [if_neg (by decide)]

theorem int_range {f x : Str} {i : Int} (hx : PrimT .integer f x) (h : InGo f i) :
    ∃ lo hi, intRange x = some (lo, hi) ∧ lo ≤ i ∧ i ≤ hi := by
  cases hx with
  | integer hm =>
    simp only [List.map_cons, List.map_nil, List.mem_cons, List.not_mem_nil, or_false] at hm
    rcases hm with rfl | rfl | rfl | rfl | rfl | rfl | rfl | rfl | rfl
    all_goals
      unfold InGo at h
      repeat (first | rw [if_neg (by decide)] at h | rw [if_pos (by decide)] at h)
      refine ⟨_, _, ?_, h⟩
      unfold intRange
      repeat (first | rw [if_neg (by decide)] | rw [if_pos (by decide)])
  | int hm =>
    simp only [List.map_cons, List.map_nil, List.mem_cons, List.not_mem_nil, or_false,
      not_or] at hm
    unfold InGo at h
    rw [if_neg (by simp only [hm, not_false_eq_true]), if_neg (by simp only [hm, not_false_eq_true]),
      if_neg (by simp only [hm, not_false_eq_true]),
      if_neg (by simp only [hm, or_self, not_false_eq_true]),
      if_neg (by simp only [hm, not_false_eq_true]), if_neg (by simp only [hm, not_false_eq_true]),
      if_neg (by simp only [hm, not_false_eq_true])] at h
    refine ⟨_, _, ?_, h⟩
    unfold intRange
    rw [if_pos (by decide)]

theorem rt_prim (E : Env U ds comps) {k : Kind} {f x : Str} {e : List Str} {j : J}
    (hx : PrimT k f x) (hv : Valid S true comps (.prim k f e) j) :
    RoundTrip U S ds (.ident x) j := by
  have hd : ∀ m, 1 ≤ m → head ds m (.ident x) = some (0, .ident x) :=
    fun m hm => head_basicType E hx.basic hm
  cases hv with
  | str _ =>
    cases hx
    rename_i s _ _
    refine ⟨.str s, 1, fun m hm => ⟨?_, by simp [enc, jeq]⟩⟩
    rw [dec, hd m hm]
    rfl
  | bool =>
    cases hx
    rename_i b
    refine ⟨.bool b, 1, fun m hm => ⟨?_, by simp [enc, jeq]⟩⟩
    rw [dec, hd m hm]
    rfl
  | int h1 h2 h3 =>
    rename_i q
    have h3 := h3 rfl
    refine ⟨.num q, 1, fun m hm => ⟨?_, by simp [enc, jeq]⟩⟩
    rw [dec, hd m hm]
    simp only [Option.bind_some]
    have key := int_range hx h3
    obtain ⟨lo, hi, hr, hq⟩ := key
    have hxb : x ≠ "float64".toList ∧ x ≠ "float32".toList ∧ x ≠ "any".toList := by
      refine ⟨?_, ?_, ?_⟩ <;> (rintro rfl; exact absurd hr (by rw [intRange_none (by decide)]; simp))
    rw [decNum, if_neg hxb.1, if_neg hxb.2.1, if_neg hxb.2.2, hr]
    simp [h1, hq, ptrs]
  | num h =>
    rename_i q
    have h := h rfl
    refine ⟨.num q, 1, fun m hm => ⟨?_, by simp [enc, jeq]⟩⟩
    rw [dec, hd m hm]
    cases hx with
    | double =>
      have h : S.r64 q = some q := h
      show ((S.r64 q).map GV.num).map (ptrs 0) = _
      rw [h]
      rfl
    | float hf =>
      have h : S.r32 q = some q := by
        rcases hf with rfl | rfl <;> exact h
      show ((S.r32 q).map GV.num).map (ptrs 0) = _
      rw [h]
      rfl

/-! ### Members -/

/-- All members. -/
def AllMs (P : Str → J → Prop) : JMs → Prop
  | .nil => True
  | .cons k x ms => P k x ∧ AllMs P ms

/-- What was read, member by member. -/
def Pair (U : Uni) (S : Std) (P : Str → GV → Prop) : GMs → JMs → Prop
  | .nil, .nil => True
  | .cons k v vs, .cons k' x ms => k = k' ∧ jeq (enc U S v) x = true ∧ P k v ∧ Pair U S P vs ms
  | _, _ => False

theorem decMs_rt {t : GT} : ∀ (ms : JMs), AllMs (fun _ x => RoundTrip U S ds t x) ms →
    ∃ vs k, Pair U S (fun _ _ => True) vs ms ∧ ∀ m, k ≤ m → decMs U S ds m t ms = some vs
  | .nil, _ => ⟨.nil, 0, trivial, fun _ _ => rfl⟩
  | .cons k x ms, h => by
    obtain ⟨⟨v, a, hv⟩, h2⟩ := h
    obtain ⟨vs, b, hp, hvs⟩ := decMs_rt ms h2
    refine ⟨.cons k v vs, a + b, ⟨rfl, (hv a (Nat.le_refl a)).2, trivial, hp⟩, fun m hm => ?_⟩
    rw [decMs, (hv m (by omega)).1, hvs m (by omega)]
    rfl

theorem decFs_rt {fs : GFs} {P : Str → GV → Prop} : ∀ (ms : JMs),
    AllMs (fun k x => ∃ t, fieldFor U S fs k = some (k, t) ∧ RTP U S ds (P k) t x) ms →
    ∃ vs k, Pair U S P vs ms ∧ ∀ m, k ≤ m → decFs U S ds m fs ms = some vs
  | .nil, _ => ⟨.nil, 0, trivial, fun _ _ => rfl⟩
  | .cons k x ms, h => by
    obtain ⟨⟨t, hf, v, a, hP, hv⟩, h2⟩ := h
    obtain ⟨vs, b, hp, hvs⟩ := decFs_rt ms h2
    refine ⟨.cons k v vs, a + b, ⟨rfl, (hv a (Nat.le_refl a)).2, hP, hp⟩, fun m hm => ?_⟩
    rw [decFs, hf]
    simp only
    rw [(hv m (by omega)).1, hvs m (by omega)]
    rfl

theorem get_mem : ∀ (ms : JMs) {k : Str} {x : J}, ms.get k = some x → k ∈ ms.keys
  | .nil, _, _, h => by cases h
  | .cons k' y ms, k, x, h => by
    rw [JMs.get] at h
    rw [JMs.keys]
    split at h
    · rename_i e; subst e; exact List.mem_cons_self ..
    · exact List.mem_cons_of_mem _ (get_mem ms h)

theorem pair_enc {P : Str → GV → Prop} : ∀ (vs : GMs) (ms all : JMs), Pair U S P vs ms →
    ms.keys.Nodup → (∀ k x, ms.get k = some x → all.get k = some x) →
    jeqMs (encMs U S vs) all = true ∧ (encMs U S vs).keys = ms.keys
  | .nil, .nil, all, _, _, _ => ⟨rfl, rfl⟩
  | .nil, .cons _ _ _, all, h, _, _ => h.elim
  | .cons _ _ _, .nil, all, h, _, _ => h.elim
  | .cons k v vs, .cons k' x ms, all, h, hn, hg => by
    obtain ⟨rfl, h1, _, h2⟩ := h
    rw [JMs.keys, List.nodup_cons] at hn
    have hg' : ∀ k' x', ms.get k' = some x' → all.get k' = some x' := by
      intro k' x' hk'
      refine hg k' x' ?_
      rw [JMs.get, if_neg]
      · exact hk'
      · rintro rfl
        exact hn.1 (get_mem ms hk')
    obtain ⟨h4, h5⟩ := pair_enc vs ms all h2 hn.2 hg'
    refine ⟨?_, by rw [encMs, JMs.keys, JMs.keys, h5]⟩
    rw [encMs, jeqMs, hg k x (by rw [JMs.get, if_pos rfl]), h4]
    simp only
    rw [h1]
    rfl

theorem pair_last {P : Str → GV → Prop} (k : Str) : ∀ (vs : GMs) (ms : JMs), Pair U S P vs ms →
    ms.keys.Nodup → (lastFor k vs = none ∧ k ∉ ms.keys) ∨
    ∃ v x, lastFor k vs = some v ∧ ms.get k = some x ∧ jeq (enc U S v) x = true ∧ P k v
  | .nil, .nil, _, _ => .inl ⟨rfl, by simp [JMs.keys]⟩
  | .nil, .cons _ _ _, h, _ => h.elim
  | .cons _ _ _, .nil, h, _ => h.elim
  | .cons k' v vs, .cons k'' x ms, h, hn => by
    obtain ⟨rfl, h1, h3, h2⟩ := h
    rw [JMs.keys, List.nodup_cons] at hn
    rw [lastFor]
    rcases pair_last k vs ms h2 hn.2 with ⟨h4, h5⟩ | ⟨w, y, h4, h5, h6⟩
    · rw [h4]
      by_cases he : k' = k
      · subst he
        right
        exact ⟨v, x, by simp, by simp [JMs.get], h1, h3⟩
      · left
        refine ⟨by simp [he], ?_⟩
        rw [JMs.keys, List.mem_cons, not_or]
        exact ⟨fun e => he e.symm, h5⟩
    · right
      rw [h4]
      refine ⟨w, y, rfl, ?_, h6⟩
      rw [JMs.get, if_neg]
      · exact h5
      · rintro rfl
        exact hn.1 (get_mem ms h5)

/-! ### Fields -/

theorem tag_name (L : UniLaws U) {k : Str} (hk : TagName U k) :
    k.takeWhile (· != ',') = k ∧ k.all (validTag U) = true := by
  obtain ⟨h1, h2, h3⟩ := hk
  have hcomma : ∀ c ∈ k, (c != ',') = true := by
    intro c hc
    rw [bne_iff_ne]
    rintro rfl
    rcases h3 _ hc with h | h | h
    · exact absurd h (by decide)
    · exact absurd (L.letter_alpha ',' (by decide) h) (by decide)
    · have := L.other ',' (by decide) (by decide)
      simp only [kept, Bool.or_eq_false_iff] at this
      rw [this.2] at h
      cases h
  constructor
  · have := List.takeWhile_append_of_pos (p := (· != ',')) (l₁ := k) (l₂ := []) hcomma
    simpa using this
  · rw [List.all_eq_true]
    intro c hc
    unfold validTag
    rcases h3 c hc with h | h | h
    · rw [List.contains_iff_mem.2 h]; rfl
    · rw [h]; simp
    · rw [h]; simp

theorem key_ok (L : UniLaws U) {go k : Str} {om : Bool} (hk : TagName U k) (hg : Exported U go) :
    keyOf U ⟨go, .key k om⟩ = some k := by
  obtain ⟨c, r, rfl, hu⟩ := hg
  obtain ⟨htw, hall⟩ := tag_name L hk
  rw [keyOf]
  simp only
  rw [if_neg (by simp [hu]), htw, if_neg (fun h => hk.2.1 h.1), if_pos ⟨hk.1, hall⟩]

theorem tagged_ok (L : UniLaws U) {go k : Str} {om : Bool} (hk : TagName U k) :
    tagged U ⟨go, .key k om⟩ = true := by
  obtain ⟨htw, hall⟩ := tag_name L hk
  unfold tagged
  simp only [htw, hall, Bool.and_true, bne_iff_ne]
  exact hk.1

/-- The type of a field. -/
def fieldT (r nl : Bool) (t : GT) : GT := depField false (if !r || nl then .star t else t)

theorem fieldT_req {t : GT} (h : NoStar t) : fieldT true false t = dep false t := by
  cases t with
  | star t => exact absurd rfl (h t)
  | _ => rfl

theorem fieldT_opt {r nl : Bool} {t : GT} (h : NoStar t) (hr : (!r || nl) = true) :
    fieldT r nl t = .star (dep false t) ∨
    fieldT r nl t = dep false t ∧ ((∃ e, t = .arr e) ∨ ∃ k v, t = .map k v) := by
  unfold fieldT
  rw [if_pos hr]
  cases t with
  | star t => exact absurd rfl (h t)
  | arr e => exact .inr ⟨rfl, .inl ⟨e, rfl⟩⟩
  | map k v => exact .inr ⟨rfl, .inr ⟨k, v, rfl⟩⟩
  | ident _ => exact .inl rfl
  | sel _ _ => exact .inl rfl
  | struct _ => exact .inl rfl

theorem zero_opt {r nl : Bool} {t : GT} (h : NoStar t) (hr : (!r || nl) = true) (m : Nat) :
    zero U S ds m (fieldT r nl t) = .nil := by
  cases m with
  | zero => rfl
  | succ m =>
    rcases fieldT_opt h hr with h | ⟨h, ⟨e, rfl⟩ | ⟨k, v, rfl⟩⟩
    all_goals (rw [h]; rfl)

/-- Data that no empty value is written as. -/
theorem not_empty {v : GV} {x : J} (hx : (∃ y ys, x = .arr (.cons y ys)) ∨
    ∃ k y ys, x = .obj (.cons k y ys)) (h : jeq (enc U S v) x = true) : v.isEmpty = false := by
  cases hv : v.isEmpty with
  | false => rfl
  | true =>
    exfalso
    rcases hx with ⟨y, ys, rfl⟩ | ⟨k, y, ys, rfl⟩
    all_goals
      unfold GV.isEmpty at hv
      split at hv
      all_goals first
        | (cases hv; done)
        | simp [enc, encs, encMs, jeq, jeqs, jeqMs, JMs.keys] at h

theorem visible_cons {s : OS} {x : J} {path : List Str} {g : GSch} (ht : Tame U comps s)
    (hg : gen U path s = .ok g) (hv : Valid S true comps s x) (hvis : Visible s x)
    (hd : (∃ e, g.typeDecl = .arr e) ∨ ∃ k v, g.typeDecl = .map k v) :
    (∃ y ys, x = .arr (.cons y ys)) ∨ ∃ k y ys, x = .obj (.cons k y ys) := by
  cases hv with
  | ref _ _ =>
    rw [gen] at hg; injection hg with hg; subst hg
    rcases hd with ⟨_, h⟩ | ⟨_, _, h⟩ <;> cases h
  | arr h =>
    cases h with
    | nil => exact hvis.elim
    | cons _ _ => exact .inl ⟨_, _, rfl⟩
  | any h =>
    rw [gen] at hg
    dsimp only at hg
    rw [if_pos (by simp)] at hg
    injection hg with hg; subst hg
    rcases hd with ⟨_, h⟩ | ⟨_, _, h⟩ <;> cases h
  | free h =>
    rename_i ms
    cases ms with
    | nil => exact hvis.elim
    | cons _ _ _ => exact .inr ⟨_, _, _, rfl⟩
  | union _ => rw [Tame] at ht; cases ht.2.1
  | all h1 h2 h3 h4 h5 h6 h7 =>
    rw [Tame] at ht
    have hps := (ht.2.2.2.2.1.resolve_left fun e => h1 e.2).1
    rw [gen] at hg
    dsimp only at hg
    rw [if_neg (fun e => hasFields_iff.1 hps e.1)] at hg
    obtain ⟨ga, hga, hg⟩ := bind_ok hg
    rw [if_neg (fun e => hasFields_iff.1 hps e.1)] at hg
    obtain ⟨gps, hgps, hg⟩ := bind_ok hg
    obtain ⟨ges, hges, hg⟩ := bind_ok hg
    injection hg with hg; subst hg
    rcases hd with ⟨_, h⟩ | ⟨_, _, h⟩ <;> cases h
  | obj h1 h2 h3 h4 h5 =>
    rename_i typed props addl alts ms
    cases ms with
    | cons _ _ _ => exact .inr ⟨_, _, _, rfl⟩
    | nil =>
      rw [Tame] at ht
      obtain ⟨_, rfl, _⟩ := ht
      cases props with
      | nil =>
        cases addl with
        | no => rcases h1 with h | h <;> exact absurd rfl h
        | free => cases typed <;> exact hvis.elim
        | of s => cases typed <;> exact hvis.elim
      | cons _ _ _ _ _ =>
        rw [gen] at hg
        dsimp only at hg
        rw [if_neg (by simp)] at hg
        obtain ⟨ga, hga, hg⟩ := bind_ok hg
        rw [if_neg (by simp)] at hg
        obtain ⟨gps, hgps, hg⟩ := bind_ok hg
        obtain ⟨ges, hges, hg⟩ := bind_ok hg
        injection hg with hg; subst hg
        rcases hd with ⟨_, h⟩ | ⟨_, _, h⟩ <;> cases h
  | _ =>
    obtain ⟨y, _, hp⟩ := primType_tame ht
    rw [gen, genPrim, hp] at hg
    simp only [Res.bind] at hg
    split at hg
    all_goals (injection hg with hg; subst hg; rcases hd with ⟨_, h⟩ | ⟨_, _, h⟩ <;> cases h)

end Thema.GoJson
