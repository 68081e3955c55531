import Verif.Spec.OMerge
import Verif.Lemmas.GoJsonRT

/-!
# What merging keeps
-/

namespace Thema.OMerge

open OGen GoJson

theorem lookup_setProp {k : Str} {v : Bool × Res OS} {k' : Str} :
    ∀ (m : List (Str × Bool × Res OS)),
    (setProp k v m).lookup k' = if k' = k then some v else m.lookup k'
  | [] => by
    by_cases h : k' = k
    · subst h; simp [setProp]
    · simp [setProp, List.lookup, h, beq_eq_false_iff_ne.2 h]
  | (a, b) :: m => by
    have ih := lookup_setProp (k := k) (v := v) (k' := k') m
    unfold setProp
    by_cases h : k' = k
    · subst h
      rw [if_pos rfl] at ih ⊢
      split
      · rename_i e; simp [List.lookup]
      · split
        · simp [List.lookup]
        · rename_i e _
          simp only at e
          simp only [List.lookup_cons, beq_eq_false_iff_ne.2 e]
          exact ih
    · rw [if_neg h] at ih ⊢
      split
      · rename_i e
        simp only at e; subst e
        simp only [List.lookup_cons, beq_eq_false_iff_ne.2 h]
      · split
        · simp only [List.lookup_cons, beq_eq_false_iff_ne.2 h]
        · simp only [List.lookup_cons, ih]

theorem mem_setProp {k : Str} {v : Bool × Res OS} {x : Str × Bool × Res OS} :
    ∀ {m : List (Str × Bool × Res OS)}, x ∈ setProp k v m → x = (k, v) ∨ x ∈ m
  | [], h => by simpa [setProp] using h
  | e :: m, h => by
    unfold setProp at h
    split at h
    · rcases List.mem_cons.1 h with h | h
      · exact .inl h
      · exact .inr (List.mem_cons_of_mem _ h)
    · split at h
      · rcases List.mem_cons.1 h with h | h
        · exact .inl h
        · exact .inr h
      · rcases List.mem_cons.1 h with h | h
        · exact .inr (h ▸ List.mem_cons_self)
        · rcases mem_setProp h with h | h
          · exact .inl h
          · exact .inr (List.mem_cons_of_mem _ h)

theorem mem_fold {x : Str × Bool × Res OS} : ∀ {b a : List (Str × Bool × Res OS)},
    x ∈ b.foldl (fun m e => setProp e.1 e.2 m) a → x ∈ b ∨ x ∈ a
  | [], _, h => .inr h
  | e :: b, a, h => by
    rcases mem_fold (b := b) (a := setProp e.1 e.2 a) h with h | h
    · exact .inl (List.mem_cons_of_mem _ h)
    · rcases mem_setProp h with h | h
      · exact .inl (h ▸ List.mem_cons_self)
      · exact .inr h

theorem lookup_fold {k : Str} : ∀ (b a : List (Str × Bool × Res OS)),
    ((a.lookup k).isSome = true ∨ (∃ v, (k, v) ∈ b) →
      ((b.foldl (fun m e => setProp e.1 e.2 m) a).lookup k).isSome = true)
  | [], a => by simp
  | (n, w) :: b, a => by
    have h2 := lookup_fold (k := k) b (setProp n w a)
    simp only [List.foldl_cons]
    rw [lookup_setProp] at h2
    refine fun hv => h2 ?_
    by_cases e : k = n
    · simp [e]
    · rw [if_neg e]
      rcases hv with hv | ⟨v, hv⟩
      · exact .inl hv
      · rcases List.mem_cons.1 hv with hv | hv
        · injection hv with h _; exact absurd h e
        · exact .inr ⟨v, hv⟩

theorem lookup_mem {α : Type} {k : Str} {v : α} : ∀ {l : List (Str × α)}, l.lookup k = some v →
    (k, v) ∈ l
  | (a, b) :: l, h => by
    rw [List.lookup_cons] at h
    by_cases e : k = a
    · subst e
      simp at h; subst h; exact List.mem_cons_self
    · rw [beq_eq_false_iff_ne.2 e] at h
      exact List.mem_cons_of_mem _ (lookup_mem h)

theorem mem_lookup_isSome {α : Type} {k : Str} {v : α} : ∀ {l : List (Str × α)}, (k, v) ∈ l →
    (l.lookup k).isSome = true
  | (a, b) :: l, h => by
    rw [List.lookup_cons]
    by_cases e : k = a
    · subst e; simp
    · rw [beq_eq_false_iff_ne.2 e]
      rcases List.mem_cons.1 h with h | h
      · injection h with h _; exact absurd h e
      · exact mem_lookup_isSome h

theorem mem_convPs {k : Str} {nl : Bool} {o : Res OS} : ∀ {ps : MPs},
    (k, nl, o) ∈ convPs ps ↔ ∃ c, (k, nl, c) ∈ ps.toList ∧ o = conv c
  | .nil => by simp [convPs, MPs.toList]
  | .cons n nl' s ps => by
    simp only [convPs, MPs.toList, List.mem_cons, mem_convPs (ps := ps), Prod.mk.injEq]
    constructor
    · rintro (⟨rfl, rfl, rfl⟩ | ⟨c, h, rfl⟩)
      · exact ⟨s, .inl ⟨rfl, rfl, rfl⟩, rfl⟩
      · exact ⟨c, .inr h, rfl⟩
    · rintro ⟨c, ⟨rfl, rfl, rfl⟩ | h, rfl⟩
      · exact .inl ⟨rfl, rfl, rfl⟩
      · exact .inr ⟨c, h, rfl⟩

/-- The properties, the required ones, the allowed values and the embedded references that are
merged to `r`. -/
structure From (D : Str → Bool → MS → Prop) (R E I : Str → Prop) (r : RH) : Prop where
  prop : ∀ k nl o, (k, nl, o) ∈ r.props →
    (∃ c, D k nl c ∧ o = conv c) ∨ (I k ∧ nl = false ∧ o = .ok .inner)
  all : ∀ k nl c, D k nl c → (r.props.lookup k).isSome = true
  req : ∀ k, k ∈ r.required ↔ R k
  enm : ∀ s, s ∈ r.enum ↔ E s

/-- When two schemas are merged, and what to. -/
theorem merge2_ok {a b r : RH} (h : merge2 a b = .ok r) :
    (a.typ = .none ∨ b.typ = .none ∨ a.typ = b.typ) ∧ a.format = b.format ∧ a.dflt = false ∧
    b.dflt = false ∧ a.flags = b.flags ∧ (a.hasAddl = false ∨ b.hasAddl = false) ∧ r =
    { typ := a.typ, format := a.format, enum := a.enum ++ b.enum, flags := a.flags,
      required := a.required ++ b.required,
      props := b.props.foldl (fun m e => setProp e.1 e.2 m) a.props,
      addl := b.addl.or a.addl, one := a.one ++ b.one } := by
  unfold merge2 at h
  split at h
  · cases h
  · split at h
    · cases h
    · split at h
      · cases h
      · split at h
        · cases h
        · split at h
          · cases h
          · injection h with h
            rename_i h1 h2 h3 h4 h5
            refine ⟨?_, by simpa using h2, by simpa using fun e => h3 (.inl e),
              by simpa using fun e => h3 (.inr e), by simpa using h4, ?_, h.symm⟩
            · by_cases ha : a.typ = .none
              · exact .inl ha
              · by_cases hb : b.typ = .none
                · exact .inr (.inl hb)
                · exact .inr (.inr (Classical.byContradiction fun e => h1 ⟨ha, hb, e⟩))
            · cases hx : a.hasAddl
              · exact .inl rfl
              · cases hy : b.hasAddl
                · exact .inr rfl
                · exact absurd ⟨hx, hy⟩ h5

theorem merge2_from {D1 D2 : Str → Bool → MS → Prop} {R1 R2 E1 E2 I1 I2 : Str → Prop} {a b r : RH}
    (ha : From D1 R1 E1 I1 a) (hb : From D2 R2 E2 I2 b) (h : merge2 a b = .ok r) :
    From (fun k nl c => D1 k nl c ∨ D2 k nl c) (fun k => R1 k ∨ R2 k) (fun k => E1 k ∨ E2 k)
      (fun k => I1 k ∨ I2 k) r := by
  obtain ⟨_, _, _, _, _, _, rfl⟩ := merge2_ok h
  refine ⟨fun k nl o hk => ?_, fun k nl c hd => ?_, fun k => ?_, fun s => ?_⟩
  · rcases mem_fold hk with h | h
    · rcases hb.prop k nl o h with ⟨c, h, e⟩ | ⟨h, e⟩
      · exact .inl ⟨c, .inr h, e⟩
      · exact .inr ⟨.inr h, e⟩
    · rcases ha.prop k nl o h with ⟨c, h, e⟩ | ⟨h, e⟩
      · exact .inl ⟨c, .inl h, e⟩
      · exact .inr ⟨.inl h, e⟩
  · refine lookup_fold b.props a.props ?_
    rcases hd with h | h
    · exact .inl (ha.all k nl c h)
    · obtain ⟨v, hv⟩ := Option.isSome_iff_exists.1 (hb.all k nl c h)
      exact .inr ⟨v, lookup_mem hv⟩
  · simp [ha.req, hb.req]
  · simp [ha.enm, hb.enm]

/-- A schema without its `allOf`. -/
def own (h : MH) : RH :=
  ⟨h.typ, h.format, h.enum, h.dflt, h.flags, h.required, convPs h.props,
    h.addl.isFree, convA h.addl, convI h.items, convEs h.one,
    convEs h.any⟩

theorem own_from (h : MH) : From (fun k nl c => (k, nl, c) ∈ h.props.toList) (· ∈ h.required)
    (· ∈ h.enum) (fun _ => False) (own h) := by
  refine ⟨fun k nl o hk => .inl ?_, fun k nl c hk => ?_, fun _ => .rfl, fun _ => .rfl⟩
  · exact mem_convPs.1 hk
  · exact mem_lookup_isSome (mem_convPs.2 ⟨c, hk, rfl⟩)

theorem convH_eq (h : MH) : convH h = if h.parts.inline then
      (mergeParts { own h with props := embedRefs h.parts.before (own h).props } h.parts).bind
        (·.toOS [])
    else (own h).toOS h.parts.refs := by
  cases h
  rw [convH]; rfl

theorem flat_nil {h : MH} (hp : h.parts = .nil) : flat h = .ok (own h) := by
  cases h
  simp only [MH.parts] at hp
  subst hp
  rw [flat]; rfl

theorem flat_parts {h : MH} (hp : h.parts ≠ .nil) :
    flat h = (mergeParts {} h.parts).bind fun m => .ok { m with one := convEs h.one } := by
  cases h with
  | mk _ _ _ _ _ _ _ _ _ _ _ parts =>
    cases parts with
    | nil => exact absurd rfl hp
    | cons => rw [flat]; rfl

theorem From.congr {D D' : Str → Bool → MS → Prop} {R R' E E' I I' : Str → Prop} {r : RH}
    (h : From D R E I r) (hD : ∀ k nl c, D' k nl c ↔ D k nl c) (hR : ∀ k, R' k ↔ R k)
    (hE : ∀ k, E' k ↔ E k) (hI : ∀ k, I' k ↔ I k) : From D' R' E' I' r := by
  obtain rfl : D' = D := by funext k nl c; exact propext (hD k nl c)
  obtain rfl : R' = R := by funext k; exact propext (hR k)
  obtain rfl : E' = E := by funext k; exact propext (hE k)
  obtain rfl : I' = I := by funext k; exact propext (hI k)
  exact h

/-- Properties, required ones and allowed values of some schemas. -/
def DefIn (K : MH → Prop) (k : Str) (nl : Bool) (c : MS) : Prop :=
  ∃ m, K m ∧ (k, nl, c) ∈ m.props.toList
def ReqIn (K : MH → Prop) (k : Str) : Prop := ∃ m, K m ∧ k ∈ m.required
def EnmIn (K : MH → Prop) (s : Str) : Prop := ∃ m, K m ∧ s ∈ m.enum

/-- What the schemas in `K` have is merged to `r`. -/
def FromK (K : MH → Prop) (I : Str → Prop) (r : RH) : Prop :=
  From (DefIn K) (ReqIn K) (EnmIn K) I r

theorem FromK.congr {K K' : MH → Prop} {I : Str → Prop} {r : RH} (h : FromK K I r)
    (hK : ∀ m, K' m ↔ K m) : FromK K' I r := by
  obtain rfl : K' = K := by funext m; exact propext (hK m)
  exact h

theorem fromK_own (h : MH) : FromK (· = h) (fun _ => False) (own h) := by
  refine (own_from h).congr ?_ ?_ ?_ (fun _ => .rfl) <;>
  · intros; simp [DefIn, ReqIn, EnmIn]

theorem fromK_merge {K1 K2 : MH → Prop} {I1 I2 : Str → Prop} {a b r : RH} (ha : FromK K1 I1 a)
    (hb : FromK K2 I2 b) (h : merge2 a b = .ok r) :
    FromK (fun m => K1 m ∨ K2 m) (fun k => I1 k ∨ I2 k) r := by
  refine (merge2_from ha hb h).congr ?_ ?_ ?_ (fun _ => .rfl)
  all_goals
    intros
    constructor
    · rintro ⟨m, h | h, h'⟩
      · exact .inl ⟨m, h, h'⟩
      · exact .inr ⟨m, h, h'⟩
    · rintro (⟨m, h, h'⟩ | ⟨m, h, h'⟩)
      · exact ⟨m, .inl h, h'⟩
      · exact ⟨m, .inr h, h'⟩

theorem member_iff {h m : MH} : Member h m ↔ m = h ∨ ∃ p ∈ h.parts.toList, Member p m := by
  constructor
  · rintro (_ | ⟨h1, h2⟩)
    · exact .inl rfl
    · exact .inr ⟨_, h1, h2⟩
  · rintro (rfl | ⟨p, h1, h2⟩)
    · exact .self
    · exact .part h1 h2

theorem leaf_iff {h m : MH} : Leaf h m ↔ (h.parts = .nil ∧ m = h) ∨
    ∃ p ∈ h.parts.toList, Leaf p m := by
  constructor
  · rintro (h1 | ⟨h1, h2⟩)
    · exact .inl ⟨h1, rfl⟩
    · exact .inr ⟨_, h1, h2⟩
  · rintro (⟨h1, rfl⟩ | ⟨p, h1, h2⟩)
    · exact .self h1
    · exact .part h1 h2

theorem leaf_nil {h m : MH} (hn : h.parts = .nil) : Leaf h m ↔ m = h := by
  rw [leaf_iff, hn]
  simp [MParts.toList]

theorem leaf_no_parts {h m : MH} (hl : Leaf h m) : m.parts = .nil := by
  induction hl with
  | self h => exact h
  | part _ _ ih => exact ih

theorem leaf_member {h m : MH} (hl : Leaf h m) : Member h m := by
  induction hl with
  | self _ => exact .self
  | part hp _ ih => exact .part hp ih

theorem kept_member {h m : MH} (hk : Kept h m) : Member h m := by
  rcases hk with rfl | hk
  · exact .self
  · exact leaf_member hk

theorem kept_iff {h m : MH} : Kept h m ↔ m = h ∨ ∃ p ∈ h.parts.toList, Leaf p m := by
  unfold Kept
  rw [leaf_iff]
  constructor
  · rintro (h | ⟨_, h⟩ | h)
    · exact .inl h
    · exact .inl h
    · exact .inr h
  · rintro (h | h)
    · exact .inl h
    · exact .inr (.inr h)

/-- Members with `allOf` have nothing of their own. -/
theorem plain_member {h m : MH} (hm : Member h m) : Plain h → Kept h m ∨
    m.props = .nil ∧ m.required = [] ∧ m.enum = [] := by
  induction hm with
  | self => exact fun _ => .inl (.inl rfl)
  | @part h p m hp hm ih =>
    rintro ⟨h1, h2⟩
    rcases ih (h2 p hp) with (rfl | h3) | h3
    · rcases h1 m hp with h4 | h4
      · exact .inl (.inr (.part hp (.self h4)))
      · exact .inr h4
    · exact .inl (.inr (.part hp h3))
    · exact .inr h3

mutual
theorem flat_from : ∀ {h : MH} {f : RH}, flat h = .ok f → FromK (Leaf h) (fun _ => False) f
  | .mk t f e d fl r ps a i o an parts, g, h => by
    by_cases hn : parts = .nil
    · rw [flat_nil (by exact hn)] at h
      injection h with h; subst h
      exact (fromK_own _).congr fun m => leaf_nil hn
    · rw [flat_parts (by exact hn)] at h
      cases hm : mergeParts {} parts with
      | ok m =>
        simp only [MH.parts, hm, Res.bind] at h
        injection h with h; subst h
        have h0 : FromK (fun _ => False) (fun _ => False) ({} : RH) :=
          ⟨fun _ _ _ h => (by cases h), fun _ _ _ h => (by obtain ⟨_, h, _⟩ := h; exact h.elim),
            fun _ => by simp [ReqIn], fun _ => by simp [EnmIn]⟩
        have := (mergeParts_from h0 hm).congr (K' := Leaf (.mk t f e d fl r ps a i o an parts))
          (fun m => by rw [leaf_iff]; simp [MH.parts, hn])
        exact ⟨this.prop, this.all, this.req, this.enm⟩
      | err e => simp [MH.parts, hm, Res.bind] at h
      | panic e => simp [MH.parts, hm, Res.bind] at h
      | fuel => simp [MH.parts, hm, Res.bind] at h
theorem mergeParts_from : ∀ {ps : MParts} {K : MH → Prop} {I : Str → Prop} {acc r : RH},
    FromK K I acc → mergeParts acc ps = .ok r →
    FromK (fun m => K m ∨ ∃ p ∈ ps.toList, Leaf p m) I r
  | .nil, K, I, acc, r, ha, h => by
    rw [mergeParts] at h
    injection h with h; subst h
    simpa [MParts.toList] using ha
  | .cons n p ps, K, I, acc, r, ha, h => by
    rw [mergeParts] at h
    cases hf : flat p with
    | ok f =>
      simp only [hf, Res.bind] at h
      cases h2 : merge2 acc f with
      | ok m =>
        simp only [h2] at h
        have := mergeParts_from (fromK_merge ha (flat_from hf) h2) h
        refine From.congr (this.congr ?_) (fun _ _ _ => .rfl) (fun _ => .rfl) (fun _ => .rfl) ?_
        · intros
          simp only [MParts.toList, List.mem_cons, exists_eq_or_imp, or_assoc]
        · intros
          simp only [or_false]
      | err e => simp [h2] at h
      | panic e => simp [h2] at h
      | fuel => simp [h2] at h
    | err e => simp [hf, Res.bind] at h
    | panic e => simp [hf, Res.bind] at h
    | fuel => simp [hf, Res.bind] at h
end

theorem bind_ok {α β : Type} {x : Res α} {f : α → Res β} {b : β} (h : x.bind f = .ok b) :
    ∃ a, x = .ok a ∧ f a = .ok b := by
  cases x with
  | ok a => exact ⟨a, rfl, h⟩
  | err e => simp [Res.bind] at h
  | panic e => simp [Res.bind] at h
  | fuel => simp [Res.bind] at h

/-- What merging does not change. -/
theorem mergeParts_keeps : ∀ {ps : MParts} {acc r : RH}, mergeParts acc ps = .ok r →
    r.typ = acc.typ ∧ r.format = acc.format ∧ r.flags = acc.flags
  | .nil, acc, r, h => by
    rw [mergeParts] at h; injection h with h; subst h; exact ⟨rfl, rfl, rfl⟩
  | .cons n p ps, acc, r, h => by
    rw [mergeParts] at h
    obtain ⟨f, _, h⟩ := bind_ok h
    obtain ⟨m, h2, h⟩ := bind_ok h
    obtain ⟨h1, h3, h4⟩ := mergeParts_keeps h
    obtain ⟨_, _, _, _, _, _, rfl⟩ := merge2_ok h2
    exact ⟨h1, h3, h4⟩

/-- What merging drops. -/
theorem mergeParts_drops : ∀ {ps : MParts} {acc r : RH}, ps ≠ .nil → mergeParts acc ps = .ok r →
    r.has = false ∧ r.items = none ∧ r.any = [] ∧ acc.dflt = false
  | .nil, _, _, hn, _ => absurd rfl hn
  | .cons n p ps, acc, r, _, h => by
    rw [mergeParts] at h
    obtain ⟨f, _, h⟩ := bind_ok h
    obtain ⟨m, h2, h⟩ := bind_ok h
    have hd := (merge2_ok h2).2.2.1
    by_cases hn : ps = .nil
    · subst hn
      rw [mergeParts] at h
      injection h with h; subst h
      obtain ⟨_, _, hd, _, _, _, rfl⟩ := merge2_ok h2
      exact ⟨rfl, rfl, rfl, hd⟩
    · obtain ⟨h1, h3, h4, _⟩ := mergeParts_drops hn h
      exact ⟨h1, h3, h4, hd⟩

mutual
theorem flat_bare : ∀ {h : MH} {f : RH}, (∀ m, Member h m → m.addl = .no ∧ m.one = .nil) →
    flat h = .ok f → f.addl = none ∧ f.one = []
  | .mk t f e d fl r ps a i o an parts, g, hm, h => by
    obtain ⟨ha, ho⟩ := hm _ .self
    by_cases hn : parts = .nil
    · rw [flat_nil (by exact hn)] at h
      injection h with h; subst h
      simp only [own]
      rw [ha, ho]
      exact ⟨rfl, rfl⟩
    · rw [flat_parts (by exact hn)] at h
      obtain ⟨m, h1, h⟩ := bind_ok h
      injection h with h; subst h
      obtain ⟨h2, h3⟩ := mergeParts_bare (ps := parts) (fun p hp m hm' => hm m (.part hp hm'))
        rfl rfl h1
      refine ⟨h2, ?_⟩
      rw [ho]; rfl
theorem mergeParts_bare : ∀ {ps : MParts} {acc r : RH},
    (∀ p ∈ ps.toList, ∀ m, Member p m → m.addl = .no ∧ m.one = .nil) →
    acc.addl = none → acc.one = [] → mergeParts acc ps = .ok r → r.addl = none ∧ r.one = []
  | .nil, acc, r, _, h1, h2, h => by
    rw [mergeParts] at h; injection h with h; subst h; exact ⟨h1, h2⟩
  | .cons n p ps, acc, r, hm, h1, h2, h => by
    rw [mergeParts] at h
    obtain ⟨f, hf, h⟩ := bind_ok h
    obtain ⟨m, h3, h⟩ := bind_ok h
    obtain ⟨h4, h5⟩ := flat_bare (hm p List.mem_cons_self) hf
    refine mergeParts_bare (fun p hp => hm p (List.mem_cons_of_mem _ hp)) ?_ ?_ h
    · obtain ⟨_, _, _, _, _, _, rfl⟩ := merge2_ok h3
      simp [h1, h4]
    · obtain ⟨_, _, _, _, _, _, rfl⟩ := merge2_ok h3
      simp [h2, h5]
end

mutual
theorem flat_addl : ∀ {h : MH} {f : RH}, (∀ m, Member h m → convA m.addl = none) →
    flat h = .ok f → f.addl = none
  | .mk t f e d fl r ps a i o an parts, g, hm, h => by
    have ha := hm _ .self
    by_cases hn : parts = .nil
    · rw [flat_nil (by exact hn)] at h
      injection h with h; subst h
      exact ha
    · rw [flat_parts (by exact hn)] at h
      obtain ⟨m, h1, h⟩ := bind_ok h
      injection h with h; subst h
      have h2 := mergeParts_addl (ps := parts) (fun p hp m hm' => hm m (.part hp hm')) rfl h1
      exact h2
theorem mergeParts_addl : ∀ {ps : MParts} {acc r : RH},
    (∀ p ∈ ps.toList, ∀ m, Member p m → convA m.addl = none) →
    acc.addl = none → mergeParts acc ps = .ok r → r.addl = none
  | .nil, acc, r, _, h1, h => by
    rw [mergeParts] at h; injection h with h; subst h; exact h1
  | .cons n p ps, acc, r, hm, h1, h => by
    rw [mergeParts] at h
    obtain ⟨f, hf, h⟩ := bind_ok h
    obtain ⟨m, h3, h⟩ := bind_ok h
    have h4 := flat_addl (hm p List.mem_cons_self) hf
    refine mergeParts_addl (fun p hp => hm p (List.mem_cons_of_mem _ hp)) ?_ h
    obtain ⟨_, _, _, _, _, _, rfl⟩ := merge2_ok h3
    simp [h1, h4]
end

mutual
theorem flat_one : ∀ {h : MH} {f : RH}, (∀ m, Member h m → m.one = .nil) →
    flat h = .ok f → f.one = []
  | .mk t f e d fl r ps a i o an parts, g, hm, h => by
    have ho := hm _ .self
    by_cases hn : parts = .nil
    · rw [flat_nil (by exact hn)] at h
      injection h with h; subst h
      simp only [own]
      rw [ho]; rfl
    · rw [flat_parts (by exact hn)] at h
      obtain ⟨m, h1, h⟩ := bind_ok h
      injection h with h; subst h
      simp only
      rw [ho]; rfl
theorem mergeParts_one : ∀ {ps : MParts} {acc r : RH},
    (∀ p ∈ ps.toList, ∀ m, Member p m → m.one = .nil) →
    acc.one = [] → mergeParts acc ps = .ok r → r.one = []
  | .nil, acc, r, _, h1, h => by
    rw [mergeParts] at h; injection h with h; subst h; exact h1
  | .cons n p ps, acc, r, hm, h1, h => by
    rw [mergeParts] at h
    obtain ⟨f, hf, h⟩ := bind_ok h
    obtain ⟨m, h3, h⟩ := bind_ok h
    have h4 := flat_one (hm p List.mem_cons_self) hf
    refine mergeParts_one (fun p hp => hm p (List.mem_cons_of_mem _ hp)) ?_ h
    obtain ⟨_, _, _, _, _, _, rfl⟩ := merge2_ok h3
    simp [h1, h4]
end

/-- What members without `allOf` have to be like. -/
theorem mergeParts_same : ∀ {ps : MParts} {acc r : RH}, mergeParts acc ps = .ok r →
    ∀ p ∈ ps.toList, p.parts = .nil → p.dflt = false ∧ p.format = acc.format ∧
      p.flags = acc.flags ∧ (acc.typ = .none ∨ p.typ = .none ∨ p.typ = acc.typ)
  | .nil, _, _, _, _, hp, _ => by cases hp
  | .cons n p ps, acc, r, h, q, hq, hn => by
    rw [mergeParts] at h
    obtain ⟨f, hf, h⟩ := bind_ok h
    obtain ⟨m, h2, h⟩ := bind_ok h
    obtain ⟨h3, h4, h5, h6, h7, _, rfl⟩ := merge2_ok h2
    rcases List.mem_cons.1 hq with rfl | hq
    · rw [flat_nil hn] at hf
      injection hf with hf; subst hf
      refine ⟨h6, h4.symm, h7.symm, ?_⟩
      rcases h3 with h | h | h
      · exact .inl h
      · exact .inr (.inl h)
      · exact .inr (.inr h.symm)
    · exact mergeParts_same h q hq hn

/-- At most one of the schemas that are merged has a schema of additional properties. -/
theorem mergeParts_once : ∀ {ps : MParts} {acc r : RH}, mergeParts acc ps = .ok r →
    acc.addl.isSome = true → ∀ p ∈ ps.toList, p.parts = .nil → p.addl = .no
  | .nil, _, _, _, _, _, hp, _ => by cases hp
  | .cons n p ps, acc, r, h, ha, q, hq, hn => by
    rw [mergeParts] at h
    obtain ⟨f, hf, h⟩ := bind_ok h
    obtain ⟨m, h2, h⟩ := bind_ok h
    obtain ⟨_, _, _, _, _, h3, rfl⟩ := merge2_ok h2
    rcases List.mem_cons.1 hq with rfl | hq
    · rw [flat_nil hn] at hf
      injection hf with hf; subst hf
      rcases h3 with h3 | h3
      · simp [RH.hasAddl, ha] at h3
      · cases he : q.addl with
        | no => rfl
        | free => simp [RH.hasAddl, own, he, MAs.isFree] at h3
        | of s => simp [RH.hasAddl, own, he, convA] at h3
    · refine mergeParts_once h ?_ q hq hn
      cases hfa : f.addl <;> simp [ha]

theorem embedRefs_mem {x : Str × Bool × Res OS} : ∀ {ns : List Str}
    {m : List (Str × Bool × Res OS)}, x ∈ embedRefs ns m →
    x ∈ m ∨ x.1 ∈ ns ∧ '_' ∉ x.1 ∧ x.2 = (false, .ok .inner)
  | [], _, h => .inl h
  | n :: ns, m, h => by
    rcases embedRefs_mem (ns := ns) h with h | ⟨h1, h2, h3⟩
    · dsimp only at h
      split at h
      · exact .inl h
      · rename_i hu
        rcases mem_setProp h with rfl | h
        · exact .inr ⟨List.mem_cons_self, by simpa using hu, rfl⟩
        · exact .inl h
    · exact .inr ⟨List.mem_cons_of_mem _ h1, h2, h3⟩

theorem embedRefs_lookup {k : Str} : ∀ {ns : List Str} {m : List (Str × Bool × Res OS)},
    (m.lookup k).isSome = true ∨ k ∈ ns ∧ '_' ∉ k → ((embedRefs ns m).lookup k).isSome = true
  | [], m, h => by
    rcases h with h | h
    · exact h
    · simp at h
  | n :: ns, m, h => by
    refine embedRefs_lookup (ns := ns) ?_
    by_cases hk : k = n
    · subst hk
      left
      dsimp only
      split
      · rename_i hu
        rcases h with h | h
        · exact h
        · exact absurd (by simpa using hu) h.2
      · rw [lookup_setProp, if_pos rfl]; rfl
    · rcases h with h | ⟨h1, h2⟩
      · left
        dsimp only
        split
        · exact h
        · rw [lookup_setProp, if_neg hk]; exact h
      · rcases List.mem_cons.1 h1 with h1 | h1
        · exact absurd h1 hk
        · exact .inr ⟨h1, h2⟩

theorem embed_from {D : Str → Bool → MS → Prop} {R E : Str → Prop} {r : RH} {ns : List Str}
    (h : From D R E (fun _ => False) r) :
    From D R E (fun k => k ∈ ns ∧ '_' ∉ k) { r with props := embedRefs ns r.props } := by
  refine ⟨fun k nl o hk => ?_, fun k nl c hd => ?_, h.req, h.enm⟩
  · rcases embedRefs_mem hk with hk | ⟨h1, h2, h3⟩
    · rcases h.prop k nl o hk with h | h
      · exact .inl h
      · exact h.1.elim
    · injection h3 with h3 h4
      exact .inr ⟨⟨h1, h2⟩, h3, h4⟩
  · exact embedRefs_lookup (.inl (h.all k nl c hd))

theorem toPs_find {req : List Str} {k : Str} : ∀ {l : List (Str × Bool × Res OS)} {ps : OPs},
    toPs req l = .ok ps → ∀ r nl s, findProp k ps = some (r, nl, s) ↔
      l.lookup k = some (nl, .ok s) ∧ r = req.contains k
  | [], ps, h => by
    rw [toPs] at h; injection h with h; subst h
    simp [findProp]
  | (n, nl', o) :: l, ps, h => by
    rw [toPs] at h
    obtain ⟨s', ho, h⟩ := bind_ok h
    obtain ⟨ps', hl, h⟩ := bind_ok h
    injection h with h; subst h
    intro r nl s
    by_cases e : n = k
    · subst e
      simp only [findProp, if_true, List.lookup_cons, beq_self_eq_true, Option.some.injEq,
        Prod.mk.injEq, ho]
      constructor
      · rintro ⟨rfl, rfl, rfl⟩; exact ⟨⟨rfl, rfl⟩, rfl⟩
      · rintro ⟨⟨rfl, h⟩, rfl⟩
        injection h with h; subst h; exact ⟨rfl, rfl, rfl⟩
    · simp only [findProp, if_neg e, List.lookup_cons, beq_eq_false_iff_ne.2 (Ne.symm e)]
      exact toPs_find hl r nl s

theorem toPs_names {req : List Str} : ∀ {l : List (Str × Bool × Res OS)} {ps : OPs},
    toPs req l = .ok ps → propNames ps = l.map (·.1)
  | [], ps, h => by
    rw [toPs] at h; injection h with h; subst h; rfl
  | (n, nl', o) :: l, ps, h => by
    rw [toPs] at h
    obtain ⟨s', ho, h⟩ := bind_ok h
    obtain ⟨ps', hl, h⟩ := bind_ok h
    injection h with h; subst h
    simp [propNames, toPs_names hl]

/-- Schemas without members, or with one that is not a reference. -/
theorem convH_merge {h : MH} (hi : h.parts = .nil ∨ h.parts.inline = true) :
    convH h = (mergeParts { own h with props := embedRefs h.parts.before (own h).props }
      h.parts).bind (·.toOS []) := by
  rw [convH_eq]
  rcases hi with hi | hi
  · rw [hi]
    simp [MParts.inline, MParts.before, MParts.refs, embedRefs, mergeParts, Res.bind]
  · rw [if_pos hi]

/-- What the members of a schema are merged to. -/
theorem merge_from {h : MH} {r : RH}
    (hr : mergeParts { own h with props := embedRefs h.parts.before (own h).props } h.parts =
      .ok r) : FromK (Kept h) (fun k => k ∈ h.parts.before ∧ '_' ∉ k) r :=
  (mergeParts_from (embed_from (fromK_own h)) hr).congr fun _ => kept_iff

theorem plain_def {h : MH} (hp : Plain h) {k : Str} {nl : Bool} {c : MS} :
    Def h k nl c ↔ DefIn (Kept h) k nl c := by
  constructor
  · rintro ⟨m, hm, h1⟩
    rcases plain_member hm hp with h2 | ⟨h2, _⟩
    · exact ⟨m, h2, h1⟩
    · rw [h2] at h1; cases h1
  · rintro ⟨m, hm, h1⟩
    exact ⟨m, kept_member hm, h1⟩

theorem plain_req {h : MH} (hp : Plain h) {k : Str} : Requires h k ↔ ReqIn (Kept h) k := by
  constructor
  · rintro ⟨m, hm, h1⟩
    rcases plain_member hm hp with h2 | ⟨_, h2, _⟩
    · exact ⟨m, h2, h1⟩
    · rw [h2] at h1; cases h1
  · rintro ⟨m, hm, h1⟩
    exact ⟨m, kept_member hm, h1⟩

theorem toPs_some {req : List Str} {k : Str} {l : List (Str × Bool × Res OS)} {ps : OPs}
    (h : toPs req l = .ok ps) (hk : (l.lookup k).isSome = true) :
    ∃ r nl s, findProp k ps = some (r, nl, s) := by
  induction l generalizing ps with
  | nil => cases hk
  | cons e l ih =>
    obtain ⟨n, nl', o⟩ := e
    rw [toPs] at h
    obtain ⟨s', ho, h⟩ := bind_ok h
    obtain ⟨ps', hl, h⟩ := bind_ok h
    injection h with h; subst h
    by_cases e : n = k
    · subst e
      exact ⟨_, _, _, by rw [findProp, if_pos rfl]⟩
    · rw [List.lookup_cons, beq_eq_false_iff_ne.2 (Ne.symm e)] at hk
      obtain ⟨r, nl, s, h⟩ := ih hl hk
      exact ⟨r, nl, s, by rw [findProp, if_neg e]; exact h⟩

/-- Properties as a list. -/
def opsList : OPs → List (Str × Bool × Bool × OS)
  | .nil => []
  | .cons n r nl s ps => (n, r, nl, s) :: opsList ps

theorem toPs_mem {req : List Str} : ∀ {l : List (Str × Bool × Res OS)} {ps : OPs},
    toPs req l = .ok ps → ∀ k r nl s, (k, r, nl, s) ∈ opsList ps ↔
      (k, nl, Res.ok s) ∈ l ∧ r = req.contains k
  | [], ps, h => by
    rw [toPs] at h; injection h with h; subst h
    simp [opsList]
  | (n, nl', o) :: l, ps, h => by
    rw [toPs] at h
    obtain ⟨s', ho, h⟩ := bind_ok h
    obtain ⟨ps', hl, h⟩ := bind_ok h
    injection h with h; subst h
    intro k r nl s
    subst ho
    rw [opsList, List.mem_cons, List.mem_cons, toPs_mem hl]
    simp only [Prod.mk.injEq, Res.ok.injEq]
    constructor
    · rintro (⟨rfl, rfl, rfl, rfl⟩ | ⟨h1, h2⟩)
      · exact ⟨.inl ⟨rfl, rfl, rfl⟩, rfl⟩
      · exact ⟨.inr h1, h2⟩
    · rintro ⟨⟨rfl, rfl, rfl⟩ | h1, h2⟩
      · exact .inl ⟨rfl, h2, rfl, rfl⟩
      · exact .inr ⟨h1, h2⟩

theorem toPs_all {req : List Str} : ∀ {l : List (Str × Bool × Res OS)} {ps : OPs},
    toPs req l = .ok ps → ∀ k nl o, (k, nl, o) ∈ l → ∃ s, o = .ok s
  | (n, nl', o') :: l, ps, h, k, nl, o, hm => by
    rw [toPs] at h
    obtain ⟨s', ho, h⟩ := bind_ok h
    obtain ⟨ps', hl, h⟩ := bind_ok h
    rcases List.mem_cons.1 hm with e | hm
    · injection e with _ e; injection e with _ e
      exact ⟨s', e.trans ho⟩
    · exact toPs_all hl k nl o hm

theorem findProp_mem {k : Str} {r nl : Bool} {s : OS} : ∀ {ps : OPs},
    findProp k ps = some (r, nl, s) → (k, r, nl, s) ∈ opsList ps
  | .nil, h => by cases h
  | .cons n r' nl' s' ps, h => by
    rw [findProp] at h
    rw [opsList]
    split at h
    · rename_i e; subst e
      simp only [Option.some.injEq, Prod.mk.injEq] at h
      obtain ⟨rfl, rfl, rfl⟩ := h
      exact List.mem_cons_self
    · exact List.mem_cons_of_mem _ (findProp_mem h)

theorem toOS_not_inner (r : RH) (refs : List Str) : r.toOS refs ≠ .ok .inner := by
  intro h
  unfold RH.toOS at h
  split at h
  · cases h
  · split at h
    · cases h
    · obtain ⟨s, _, h⟩ := bind_ok h
      cases h
  · obtain ⟨ps, _, h⟩ := bind_ok h
    obtain ⟨es, _, h⟩ := bind_ok h
    split at h
    · obtain ⟨s, _, h⟩ := bind_ok h
      cases h
    · cases h

theorem conv_not_inner (c : MS) : conv c ≠ .ok .inner := by
  cases c with
  | ref n => rw [conv]; intro h; cases h
  | val m =>
    rw [conv, convH_eq]
    split
    · intro h
      obtain ⟨r, _, h⟩ := bind_ok h
      exact toOS_not_inner _ _ h
    · exact toOS_not_inner _ _

/-- The properties of an object: those of the schema and of members that
have no `allOf` themselves. -/
theorem convH_fields {h : MH} {s : OS} (ht : h.typ = .none ∨ h.typ = .object)
    (hi : h.parts = .nil ∨ h.parts.inline = true) (hc : convH h = .ok s) :
    ∃ ps addl alts, s = .obj (h.typ = .object) [] ps addl alts ∧
      (∀ k r nl c', (k, r, nl, c') ∈ opsList ps → (r = true ↔ ReqIn (Kept h) k) ∧
        ((∃ c, DefIn (Kept h) k nl c ∧ conv c = .ok c') ∨
          ((k ∈ h.parts.before ∧ '_' ∉ k) ∧ nl = false ∧ c' = .inner))) ∧
      (∀ k r nl c', findProp k ps = some (r, nl, c') → (r = true ↔ ReqIn (Kept h) k) ∧
        ((∃ c, DefIn (Kept h) k nl c ∧ conv c = .ok c') ∨
          ((k ∈ h.parts.before ∧ '_' ∉ k) ∧ nl = false ∧ c' = .inner))) ∧
      (∀ k nl c, DefIn (Kept h) k nl c → ∃ r nl' c', findProp k ps = some (r, nl', c')) ∧
      ((∀ m, Member h m → m.addl = .no ∧ m.one = .nil ∧ m.any = .nil) → addl = .no ∧ alts = .nil)
      := by
  rw [convH_merge hi] at hc
  obtain ⟨r, hr, hc⟩ := bind_ok hc
  have hf := merge_from hr
  obtain ⟨hk, _, _⟩ := mergeParts_keeps hr
  have hk : r.typ = h.typ := hk
  have hbare : (∀ m, Member h m → m.addl = .no ∧ m.one = .nil ∧ m.any = .nil) →
      r.has = false ∧ r.addl = none ∧ r.one = [] ∧ r.any = [] := by
    intro hm
    obtain ⟨ha, ho, hn⟩ := hm h .self
    obtain ⟨h1, h2⟩ := mergeParts_bare
      (fun p hp m hm' => ⟨(hm m (.part hp hm')).1, (hm m (.part hp hm')).2.1⟩)
      (by simp [own, ha, convA]) (by simp [own, ho, convEs]) hr
    by_cases hpn : h.parts = .nil
    · rw [hpn, mergeParts] at hr
      injection hr with hr; subst hr
      simp [own, ha, ho, hn, convA, convEs, MAs.isFree]
    · obtain ⟨h3, _, h4, _⟩ := mergeParts_drops hpn hr
      exact ⟨h3, h1, h2, h4⟩
  have hto : ∃ ps es, toPs r.required r.props = .ok ps ∧ toEs (r.any ++ r.one) = .ok es ∧
      ∃ a, s = .obj (h.typ = .object) [] ps a es ∧ (r.addl = none → r.has = false → a = .no) := by
    unfold RH.toOS at hc
    rw [hk] at hc
    rcases ht with ht | ht
    all_goals
      rw [ht] at hc ⊢
      dsimp only at hc
      obtain ⟨ps, h1, hc⟩ := bind_ok hc
      obtain ⟨es, h2, hc⟩ := bind_ok hc
      refine ⟨ps, es, h1, h2, ?_⟩
      split at hc
      · obtain ⟨a, _, hc⟩ := bind_ok hc
        injection hc with hc
        exact ⟨_, hc.symm, fun h => by simp_all⟩
      · injection hc with hc
        exact ⟨_, hc.symm, fun _ h => by simp [h]⟩
  obtain ⟨ps, es, h1, h2, a, hs, ha⟩ := hto
  refine ⟨ps, a, es, hs, ?_, ?_, ?_, ?_⟩
  · intro k r' nl c' hfp
    obtain ⟨h3, h4⟩ := (toPs_mem h1 k r' nl c').1 hfp
    refine ⟨?_, ?_⟩
    · rw [h4, ← hf.req k]; simp
    · rcases hf.prop k nl _ h3 with ⟨c, hd, e⟩ | ⟨hd, e1, e2⟩
      · exact .inl ⟨c, hd, e.symm⟩
      · injection e2 with e2
        exact .inr ⟨hd, e1, e2⟩
  · intro k r' nl c' hfp
    obtain ⟨h3, h4⟩ := (toPs_find h1 r' nl c').1 hfp
    refine ⟨?_, ?_⟩
    · rw [h4, ← hf.req k]; simp
    · rcases hf.prop k nl _ (lookup_mem h3) with ⟨c, hd, e⟩ | ⟨hd, e1, e2⟩
      · exact .inl ⟨c, hd, e.symm⟩
      · injection e2 with e2
        exact .inr ⟨hd, e1, e2⟩
  · intro k nl c hd
    exact toPs_some h1 (hf.all k nl c hd)
  · intro hm
    obtain ⟨h3, h4, h5, h6⟩ := hbare hm
    refine ⟨ha h4 h3, ?_⟩
    rw [h5, h6] at h2
    simp only [List.append_nil, toEs] at h2
    injection h2 with h2
    exact h2.symm

theorem convH_prim {h : MH} {s : OS} {kd : Kind} (ht : h.typ = .prim kd)
    (hc : convH h = .ok s) : ∃ e, s = .prim kd h.format e ∧
      (∀ v, (∀ m, Member h m → m.enum = [] ∨ v ∈ m.enum) → e = [] ∨ v ∈ e) := by
  by_cases hi : h.parts.inline = true
  · rw [convH_merge (.inr hi)] at hc
    obtain ⟨r, hr, hc⟩ := bind_ok hc
    obtain ⟨hk, hfm, _⟩ := mergeParts_keeps hr
    have hk : r.typ = .prim kd := hk.trans ht
    have hfm : r.format = h.format := hfm
    unfold RH.toOS at hc
    rw [hk, hfm] at hc
    injection hc with hc
    refine ⟨_, hc.symm, fun v hv => ?_⟩
    have hf := merge_from hr
    cases he : r.enum with
    | nil => exact .inl rfl
    | cons a l =>
      right
      obtain ⟨m, hm, ha⟩ := (hf.enm a).1 (by rw [he]; exact List.mem_cons_self)
      rw [← he]
      rcases hv m (kept_member hm) with h0 | h0
      · rw [h0] at ha; cases ha
      · exact (hf.enm v).2 ⟨m, hm, h0⟩
  · rw [convH_eq, if_neg hi] at hc
    unfold RH.toOS at hc
    simp only [own, ht] at hc
    injection hc with hc
    exact ⟨_, hc.symm, fun v hv => hv h .self⟩

theorem convAll_lookup {n : Str} {h : MH} : ∀ {raw : List (Str × MH)} {comps : List (Str × OS)},
    convAll raw = .ok comps → raw.lookup n = some h →
    ∃ s, comps.lookup n = some s ∧ convH h = .ok s
  | [], _, _, h => by cases h
  | (m, h') :: raw, comps, hc, hl => by
    rw [convAll] at hc
    obtain ⟨s, h1, hc⟩ := bind_ok hc
    obtain ⟨cs, h2, hc⟩ := bind_ok hc
    injection hc with hc; subst hc
    rw [List.lookup_cons] at hl ⊢
    by_cases e : n = m
    · subst e
      simp only [beq_self_eq_true, Option.some.injEq] at hl ⊢
      subst hl
      exact ⟨s, rfl, h1⟩
    · rw [beq_eq_false_iff_ne.2 e] at hl ⊢
      exact convAll_lookup h2 hl

variable {U : Uni} {S : Std} {comps : List (Str × OS)}

theorem tamePs_find {k : Str} {r nl : Bool} {s : OS} : ∀ {ps : OPs}, TamePs U comps ps →
    findProp k ps = some (r, nl, s) → Tame U comps s
  | .nil, _, h => by cases h
  | .cons n r' nl' s' ps, ht, h => by
    rw [TamePs] at ht
    rw [findProp] at h
    split at h
    · injection h with h
      injection h with _ h
      injection h with _ h
      subst h
      exact ht.2.2.1
    · exact tamePs_find ht.2.2.2 h

theorem visible_of {s : OS} {x : J} (h : x ≠ .null ∧ x ≠ .arr .nil ∧ x ≠ .obj .nil) :
    Visible s x := by
  unfold Visible
  split
  · exact h.1 rfl
  · exact h.2.1 rfl
  · exact h.2.2 rfl
  · exact h.2.2 rfl
  · exact h.2.2 rfl
  · trivial

theorem get_mem {k : Str} {x : J} : ∀ {ms : JMs}, ms.get k = some x → k ∈ ms.keys
  | .cons k0 x0 ms, hk => by
    rw [JMs.get] at hk
    rw [JMs.keys]
    split at hk
    · rename_i e; rw [e]; exact List.mem_cons_self
    · exact List.mem_cons_of_mem _ (get_mem hk)

theorem validMs_of {strict : Bool} {ps : OPs} {a : OAs} : ∀ {ms : JMs}, ms.keys.Nodup →
    (∀ k x, ms.get k = some x → ∃ r nl s, findProp k ps = some (r, nl, s) ∧
      ((nl = true ∧ x = .null) ∨ (strict = true → r = false → nl = false → Visible s x) ∧
        Valid S strict comps s x)) → ValidMs S strict comps ps a ms
  | .nil, _, _ => .nil
  | .cons k x ms, hn, h => by
    rw [JMs.keys, List.nodup_cons] at hn
    have hrest : ValidMs S strict comps ps a ms := validMs_of hn.2 fun k' x' hk => by
      refine h k' x' ?_
      rw [JMs.get, if_neg]
      · exact hk
      · rintro rfl
        exact hn.1 (get_mem hk)
    obtain ⟨r, nl, s, hf, h | h⟩ := h k x (by rw [JMs.get, if_pos rfl])
    · obtain ⟨rfl, rfl⟩ := h
      exact .null hf hrest
    · exact .prop hf h.1 h.2 hrest

theorem validMs_addl {strict : Bool} {s : OS} : ∀ {ms : JMs}, ms.keys.Nodup →
    (∀ k x, ms.get k = some x → Valid S strict comps s x) →
    ValidMs S strict comps .nil (.of s) ms
  | .nil, _, _ => .nil
  | .cons k x ms, hn, h => by
    rw [JMs.keys, List.nodup_cons] at hn
    refine .addl rfl (h k x (by rw [JMs.get, if_pos rfl])) (validMs_addl hn.2 fun k' x' hk => ?_)
    refine h k' x' ?_
    rw [JMs.get, if_neg]
    · exact hk
    · rintro rfl
      exact hn.1 (get_mem hk)

theorem valids_of {strict : Bool} {s : OS} : ∀ {xs : Js},
    (∀ x ∈ Js.toList xs, Valid S strict comps s x) → Valids S strict comps s xs
  | .nil, _ => .nil
  | .cons _ _, h => .cons (h _ List.mem_cons_self)
      (valids_of fun x hx => h x (List.mem_cons_of_mem _ hx))

/-- Data that is valid for a schema and its members is valid for what they are merged to. -/
theorem conv_valid {raw : List (Str × MH)} (hraw : convAll raw = .ok comps)
    (hT : ∀ n s, (n, s) ∈ comps → Tame U comps s) {m : MS} {j : J}
    (hv : MValid S true raw m j) :
    ∀ s, conv m = .ok s → Tame U comps s → Valid S true comps s j := by
  induction hv with
  | ref hl _ ih =>
    intro s hc _
    rw [conv] at hc; injection hc with hc; subst hc
    obtain ⟨s, h1, h2⟩ := convAll_lookup hraw hl
    exact .ref h1 (ih s (by rw [conv]; exact h2) (hT _ _ (lookup_mem h1)))
  | str ht hm =>
    intro s hc _
    rw [conv] at hc
    obtain ⟨e, rfl, he⟩ := convH_prim ht hc
    exact .str (he _ hm)
  | bool ht =>
    intro s hc _
    rw [conv] at hc
    obtain ⟨e, rfl, _⟩ := convH_prim ht hc
    exact .bool
  | int ht h1 h2 h3 =>
    intro s hc _
    rw [conv] at hc
    obtain ⟨e, rfl, _⟩ := convH_prim ht hc
    exact .int h1 (h2 _ .self) h3
  | num ht h1 =>
    intro s hc _
    rw [conv] at hc
    obtain ⟨e, rfl, _⟩ := convH_prim ht hc
    exact .num h1
  | arr ht hi hp _ ih =>
    intro s hc hT'
    rw [conv, convH_eq, hp] at hc
    simp only [MParts.inline, Bool.false_eq_true, if_false, RH.toOS, own, ht, hi, convI] at hc
    obtain ⟨s', h1, hc⟩ := bind_ok hc
    injection hc with hc; subst hc
    rw [Tame] at hT'
    exact .arr (valids_of fun x hx => ih x hx s' h1 hT')
  | any ht he hx =>
    intro s hc _
    obtain ⟨h1, h2, h3, h4, h5⟩ := he
    rw [conv, convH_eq, h5] at hc
    simp only [MParts.inline, Bool.false_eq_true, if_false, RH.toOS, own, ht, h1, h2, h3, h4,
      convPs, convEs, convA, toPs, toEs, List.append_nil, Res.bind, MAs.isFree, MParts.refs] at hc
    injection hc with hc; subst hc
    exact .any hx
  | free ht he hx =>
    intro s hc _
    obtain ⟨h1, h2, h3, h4, h5⟩ := he
    rw [conv, convH_eq, h5] at hc
    simp only [MParts.inline, Bool.false_eq_true, if_false, RH.toOS, own, ht, h1, h2, h3, h4,
      convPs, convEs, convA, toPs, toEs, List.append_nil, Res.bind, MAs.isFree, MParts.refs] at hc
    injection hc with hc; subst hc
    exact .free hx
  | @map _ s0 _ ht h1 h2 h3 h4 h5 hn _ ih =>
    intro s hc hT'
    rw [conv, convH_eq, h5] at hc
    have : ∃ t a, conv s0 = .ok a ∧ s = .obj t [] .nil (.of a) .nil := by
      rcases ht with ht | ht
      all_goals
        simp only [MParts.inline, Bool.false_eq_true, if_false, RH.toOS, own, ht, h1, h2, h3, h4,
          convPs, convEs, convA, toPs, toEs, List.append_nil, MParts.refs] at hc
        obtain ⟨ps, e1, hc⟩ := bind_ok hc
        injection e1 with e1; subst e1
        obtain ⟨es, e2, hc⟩ := bind_ok hc
        injection e2 with e2; subst e2
        obtain ⟨a, h6, hc⟩ := bind_ok hc
        injection hc with hc
        exact ⟨_, a, h6, hc.symm⟩
    obtain ⟨t, a, h6, rfl⟩ := this
    rw [Tame, TameA] at hT'
    exact .obj (.inr (by simp)) hn (fun n r nl s h => by cases h)
      (validMs_addl hn fun k x hx => ih k x hx a h6 hT'.2.2.1.1) .none
  | obj ht hi hp hm hd hn hreq hnl hk hvis _ ih =>
    intro s hc hT'
    rw [conv] at hc
    obtain ⟨ps, a, es, rfl, _, hf, hall, hbare⟩ := convH_fields ht hi hc
    have hp := hp rfl
    have hf : ∀ k r nl c', findProp k ps = some (r, nl, c') → (r = true ↔ Requires _ k) ∧
        ((∃ c, Def _ k nl c ∧ conv c = .ok c') ∨ (_ ∧ nl = false ∧ c' = .inner)) :=
      fun k r nl c' h => ⟨(hf k r nl c' h).1.trans (plain_req hp).symm, (hf k r nl c' h).2.imp
        (fun ⟨c, h1, h2⟩ => ⟨c, (plain_def hp).2 h1, h2⟩) id⟩
    have hall : ∀ k nl c, Def _ k nl c → ∃ r nl' c', findProp k ps = some (r, nl', c') :=
      fun k nl c h => hall k nl c ((plain_def hp).1 h)
    obtain ⟨rfl, rfl⟩ := hbare hm
    rw [Tame] at hT'
    have hTp := hT'.2.2.2.1
    refine .obj (.inl ?_) hn ?_ (validMs_of hn fun k x hx => ?_) .none
    · obtain ⟨k, nl, c, hd⟩ := hd
      obtain ⟨r, nl', c', h⟩ := hall k nl c hd
      rintro rfl
      cases h
    · intro k r nl c' hfp hr
      obtain ⟨h1, h2⟩ := hf k r nl c' hfp
      rcases hr with hr | ⟨_, hr⟩
      · exact hreq k (h1.1 hr)
      · subst hr
        rcases h2 with ⟨c, h2, _⟩ | ⟨_, h2, _⟩
        · exact hnl rfl k c h2
        · cases h2
    · obtain ⟨nl, c, hd⟩ := hk k (get_mem hx)
      obtain ⟨r, nl', c', hfp⟩ := hall k nl c hd
      refine ⟨r, nl', c', hfp, ?_⟩
      obtain ⟨h1, h2⟩ := hf k r nl' c' hfp
      rcases h2 with ⟨c0, hd0, hc0⟩ | ⟨_, _, rfl⟩
      · by_cases hnull : nl' = true ∧ x = .null
        · exact .inl hnull
        · refine .inr ⟨fun _ hr hnl' => visible_of (hvis rfl k x nl' c0 hx hd0 hnl' fun hrq => ?_),
            ih k x nl' c0 hx hd0 hnull c' hc0 (tamePs_find hTp hfp)⟩
          rw [h1.2 hrq] at hr; cases hr
      · exact absurd (tamePs_find hTp hfp) (by simp [Tame])

end Thema.OMerge
