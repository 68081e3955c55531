import Verif.Lemmas.OGenPipe

/-!
# The definitions that are generated are closed (C110), also with alternatives and with additional
properties beside properties
-/

namespace Thema.Props

open GoTypes OGen GoJson

variable {U : Uni}

/-- The names of types that Go has and the generator uses. -/
def predeclared : List Str := "uint8".toList :: "byte".toList :: basicTypes

mutual
/-- Schemas for which no type is declared but their own: no enumerations, no alternatives, and no
additional properties beside properties. -/
def Bare : OS → Prop
  | .ref _ => True
  | .prim _ _ e => e = []
  | .arr s => Bare s
  | .inner => False
  | .obj _ allOf ps a es => es = .nil ∧ ((ps = .nil ∧ allOf = []) ∨ a = .no) ∧ BarePs ps ∧ BareA a
def BarePs : OPs → Prop
  | .nil => True
  | .cons _ _ _ s ps => Bare s ∧ BarePs ps
def BareA : OAs → Prop
  | .of s => Bare s
  | _ => True
end

/-- No types are declared for the properties. -/
def BareInside : OS → Prop
  | .arr s => BareInside s
  | .obj _ _ ps _ _ => BarePs ps
  | _ => True

mutual
/-- Schemas of which no type is lost: nothing is declared for the properties of additional
properties, and for alternatives. -/
def Kept : OS → Prop
  | .ref _ => True
  | .prim _ _ _ => True
  | .arr s => Kept s
  | .inner => False
  | .obj _ _ ps a es => KeptPs ps ∧ KeptA a ∧ KeptEs es
def KeptPs : OPs → Prop
  | .nil => True
  | .cons _ _ _ s ps => Kept s ∧ KeptPs ps
def KeptA : OAs → Prop
  | .of s => Kept s ∧ BareInside s
  | _ => True
def KeptEs : OEs → Prop
  | .nil => True
  | .cons _ s es => Bare s ∧ KeptEs es
end

mutual
/-- The names a schema refers to. -/
def uses : OS → List Str
  | .ref n => [n]
  | .prim _ _ _ => []
  | .arr s => uses s
  | .inner => []
  | .obj _ allOf ps a es => allOf ++ usesPs ps ++ usesA a ++ usesEs es
def usesPs : OPs → List Str
  | .nil => []
  | .cons _ _ _ s ps => uses s ++ usesPs ps
def usesA : OAs → List Str
  | .of s => uses s
  | _ => []
def usesEs : OEs → List Str
  | .nil => []
  | .cons _ s es => uses s ++ usesEs es
end

/-- Names that are predeclared, or Go names for `l`, or in `ds`. -/
private def Known (U : Uni) (l : List Str) (ds : List TD) (n : Str) : Prop :=
  n ∈ predeclared ∨ n ∈ l.map (typeName U) ∨ n ∈ ds.map (·.name)

private theorem Known.mono {l l' : List Str} {ds ds' : List TD} {n : Str} (h : Known U l ds n)
    (hl : l ⊆ l') (hd : ds ⊆ ds') : Known U l' ds' n := by
  rcases h with h | h | h
  · exact .inl h
  · exact .inr (.inl (List.map_subset _ hl h))
  · exact .inr (.inr (List.map_subset _ hd h))

/-- What is used is known. -/
private def Ok (U : Uni) (l : List Str) (g : GSch) : Prop :=
  g.inner = false ∧ (∀ n ∈ refs g.typeDecl, Known U l g.defs n) ∧
  ∀ t ∈ g.defs, ∀ n ∈ refs t.decl, Known U l g.defs n

private theorem Ok.mono {l l' : List Str} {g : GSch} (h : Ok U l g) (hl : l ⊆ l') : Ok U l' g :=
  ⟨h.1, fun n hn => (h.2.1 n hn).mono hl (fun _ h => h),
    fun t ht n hn => (h.2.2 t ht n hn).mono hl (fun _ h => h)⟩

private theorem ok_named {l : List Str} {g : GSch} {name json : Str} (h : Ok U l g) :
    Ok U l (g.named name json) := by
  have hsub : g.defs ⊆ (g.named name json).defs := by
    intro t ht
    simp only [GSch.defs, GSch.named, List.mem_append] at ht ⊢
    rcases ht with ht | ht
    · exact .inl ht
    · exact .inr (.inl ht)
  refine ⟨h.1, fun n hn => ?_, ?_⟩
  · have : n = name := by simpa [GSch.typeDecl, GSch.named, refs] using hn
    subst this
    exact .inr (.inr (by simp [GSch.defs, GSch.named, GSch.td]))
  · intro t ht n hn
    simp only [GSch.defs, GSch.named, List.mem_append, List.mem_singleton] at ht
    rcases ht with ht | ht | rfl
    · exact (h.2.2 t (by simp [GSch.defs, ht]) n hn).mono (fun _ h => h) hsub
    · exact (h.2.2 t (by simp [GSch.defs, ht]) n hn).mono (fun _ h => h) hsub
    · exact (h.2.1 n hn).mono (fun _ h => h) hsub

private theorem primType_known {k : Kind} {f : Str} {t : GT} {skip : Bool}
    (h : primType k f = .ok (t, skip)) : ∀ n ∈ refs t, n ∈ predeclared := by
  unfold primType at h
  cases k <;> dsimp only at h
  all_goals
    repeat' split at h
    all_goals first
      | (cases h; done)
      | (cases h
         intro n hn
         first
           | (have hn : n ∈ ([] : List Str) := hn; cases hn; done)
           | (rename_i hc
              have hn : n = f := by simpa [refs] using hn
              subst hn
              have hc := List.contains_iff_mem.1 hc
              revert hc
              simp only [List.map, List.mem_cons, List.not_mem_nil, or_false]
              rintro (rfl | rfl | rfl | rfl | rfl | rfl | rfl | rfl | rfl | rfl) <;> decide)
           | (simp only [id', refs, List.mem_singleton] at hn; subst hn; decide))

private theorem mem_setInner {n : Str} {p : Prop'} : ∀ {l : List Prop'}, p ∈ setInner n l →
    p ∈ l ∨ (p.s = innerSch ∧ p.name = n)
  | [], h => by
    simp only [setInner, List.mem_singleton] at h
    subst h
    exact .inr ⟨rfl, rfl⟩
  | q :: l, h => by
    rw [setInner] at h
    split at h
    · rcases List.mem_cons.1 h with rfl | h
      · exact .inr ⟨rfl, rfl⟩
      · exact .inl (by simp [h])
    · split at h
      · rcases List.mem_cons.1 h with rfl | h
        · exact .inr ⟨rfl, rfl⟩
        · exact .inl h
      · rcases List.mem_cons.1 h with rfl | h
        · exact .inl (by simp)
        · rcases mem_setInner h with h | h
          · exact .inl (by simp [h])
          · exact .inr h

private theorem mem_embed {p : Prop'} : ∀ {ms : List Str} {l : List Prop'}, p ∈ embed ms l →
    p ∈ l ∨ (p.s = innerSch ∧ p.name ∈ ms)
  | [], _, h => .inl h
  | m :: ms, l, h => by
    rw [embed] at h
    rcases mem_embed h with h | ⟨h1, h2⟩
    · split at h
      · exact .inl h
      · rcases mem_setInner h with h | ⟨h1, h2⟩
        · exact .inl h
        · exact .inr ⟨h1, by simp [h2]⟩
    · exact .inr ⟨h1, by simp [h2]⟩

/-- Nothing but the type itself. -/
private def Alone (g : GSch) : Prop :=
  g.nested = [] ∧ g.own = [] ∧ g.addl = false ∧ g.union = false ∧ g.refType = none

private theorem alone_map {t : GT} {o : Option OS} : Alone { goType := t, src := o } :=
  ⟨rfl, rfl, rfl, rfl, rfl⟩

private theorem alone_addl {path : List Str} {g : GSch} (h : Alone g) : genAddl U path g = g := by
  simp [genAddl, h.2.2.1, h.2.2.2.1]

private theorem alone_prop {path : List Str} {g : GSch} (h : Alone g) : genProp U path g = g := by
  simp [genProp, h.2.2.1, h.2.2.2.1]

mutual
private theorem gen_bare : ∀ (s : OS) {path : List Str} {g : GSch}, Bare s →
    gen U path s = .ok g → Alone g
  | .ref _, _, _, _, h => by rw [gen] at h; cases h; exact alone_map
  | .prim k f e, path, g, hb, h => by
    rw [gen, genPrim] at h
    obtain ⟨⟨t, skip⟩, _, h⟩ := bind_ok h
    have hb : e = [] := hb
    subst hb
    simp at h
    cases h
    exact ⟨rfl, rfl, rfl, rfl, rfl⟩
  | .arr s, path, g, hb, h => by
    rw [gen] at h
    obtain ⟨a, ha, h⟩ := bind_ok h
    have := gen_bare s hb ha
    cases h
    refine ⟨?_, ?_, rfl, rfl, rfl⟩ <;>
      simp [genArr, this.1, this.2.1, this.2.2.1, this.2.2.2.1]
  | .inner, _, _, hb, _ => by cases hb
  | .obj typed allOf ps a es, path, g, hb, h => by
    obtain ⟨rfl, hb1, hb2, hb3⟩ := hb
    rw [gen] at h
    split at h
    · cases h; exact alone_map
    · obtain ⟨ga, hga, h⟩ := bind_ok h
      have aa := gen_bareA a hb3 hga
      split at h
      · cases h
        exact ⟨rfl, aa.2.1, rfl, rfl, rfl⟩
      · rename_i hnp
        have ha : a = .no := by
          rcases hb1 with ⟨rfl, rfl⟩ | hb1
          · exact absurd ⟨⟨rfl, by simp⟩, rfl⟩ hnp
          · exact hb1
        subst ha
        obtain ⟨l, hl, h⟩ := bind_ok h
        obtain ⟨el, hel, h⟩ := bind_ok h
        rw [genEs] at hel
        cases hel
        cases h
        refine ⟨?_, by simp [aa.2.1], by simp, by simp, rfl⟩
        rw [List.flatMap_eq_nil_iff]
        intro p hp
        rcases mem_embed hp with hp | ⟨hp, _⟩
        · have := gen_barePs ps hb2 hl p hp
          simp [GSch.defs, this.1, this.2.1]
        · rw [hp]; rfl
private theorem gen_bareA : ∀ (a : OAs) {path : List Str} {g : GSch}, BareA a →
    genA U path a = .ok g → Alone g
  | .no, _, _, _, h => by rw [genA] at h; cases h; exact alone_map
  | .free, _, _, _, h => by rw [genA] at h; cases h; exact alone_map
  | .of s, path, g, hb, h => by
    rw [genA] at h
    obtain ⟨a, ha, h⟩ := bind_ok h
    have := gen_bare s hb ha
    cases h
    rw [alone_addl this]
    exact this
private theorem gen_barePs : ∀ (ps : OPs) {path : List Str} {l : List Prop'}, BarePs ps →
    genPs U path ps = .ok l → ∀ p ∈ l, Alone p.s
  | .nil, _, _, _, h => by rw [genPs] at h; cases h; simp
  | .cons n r nl s ps, path, l, hb, h => by
    rw [genPs] at h
    obtain ⟨g, hg, h⟩ := bind_ok h
    obtain ⟨l', hl', h⟩ := bind_ok h
    cases h
    have h1 := gen_bare s hb.1 hg
    have h2 := gen_barePs ps hb.2 hl'
    intro p hp
    rcases List.mem_cons.1 hp with rfl | hp
    · show Alone (genProp U _ g)
      rw [alone_prop h1]; exact h1
    · exact h2 p hp
end

private theorem gen_inside : ∀ (s : OS) {path : List Str} {g : GSch}, BareInside s →
    gen U path s = .ok g → g.nested = []
  | .ref _, _, _, _, h => by rw [gen] at h; cases h; rfl
  | .prim k f e, path, g, hb, h => by
    rw [gen, genPrim] at h
    obtain ⟨⟨t, skip⟩, _, h⟩ := bind_ok h
    dsimp only at h
    split at h <;> cases h <;> rfl
  | .arr s, path, g, hb, h => by
    rw [gen] at h
    obtain ⟨a, ha, h⟩ := bind_ok h
    have := gen_inside s hb ha
    cases h
    simp only [genArr]
    split <;> exact this
  | .inner, _, _, _, h => by rw [gen] at h; cases h; rfl
  | .obj typed allOf ps a es, path, g, hb, h => by
    rw [gen] at h
    split at h
    · cases h; rfl
    · obtain ⟨ga, hga, h⟩ := bind_ok h
      split at h
      · cases h; rfl
      · obtain ⟨l, hl, h⟩ := bind_ok h
        obtain ⟨el, hel, h⟩ := bind_ok h
        cases h
        rw [List.flatMap_eq_nil_iff]
        intro p hp
        rcases mem_embed hp with hp | ⟨hp, _⟩
        · have := gen_barePs ps hb hl p hp
          simp [GSch.defs, this.1, this.2.1]
        · rw [hp]; rfl

private theorem bare_inside : ∀ s : OS, Bare s → BareInside s
  | .ref _, _ => trivial
  | .prim _ _ _, _ => trivial
  | .arr s, h => bare_inside s h
  | .inner, h => h.elim
  | .obj _ _ _ _ _, h => h.2.2.1

mutual
private theorem bare_kept : ∀ s : OS, Bare s → Kept s
  | .ref _, _ => trivial
  | .prim _ _ _, _ => trivial
  | .arr s, h => bare_kept s h
  | .inner, h => h
  | .obj _ _ ps a es, h => ⟨bare_keptPs ps h.2.2.1, bare_keptA a h.2.2.2, by
    rw [h.1]; exact trivial⟩
private theorem bare_keptPs : ∀ ps : OPs, BarePs ps → KeptPs ps
  | .nil, _ => trivial
  | .cons _ _ _ s ps, h => ⟨bare_kept s h.1, bare_keptPs ps h.2⟩
private theorem bare_keptA : ∀ a : OAs, BareA a → KeptA a
  | .no, _ => trivial
  | .free, _ => trivial
  | .of s, h => ⟨bare_kept s h, bare_inside s h⟩
end

private theorem ok_defs {l : List Str} {g : GSch} {t : GT} {o : Option OS} (h : Ok U l g)
    (hn : g.nested = []) (ht : ∀ n ∈ refs t, n ∈ refs g.typeDecl ∨ n ∈ predeclared) :
    Ok U l { goType := t, own := g.own, src := o } := by
  have hd : g.defs = g.own := by simp [GSch.defs, hn]
  refine ⟨rfl, fun n hn => ?_, fun t ht n hn => ?_⟩
  · rcases ht n hn with h1 | h1
    · have := h.2.1 n h1
      rwa [hd] at this
    · exact .inl h1
  · have := h.2.2 t (by rw [hd]; exact ht) n hn
    rwa [hd] at this

private theorem refs_fields {last : GFs} : ∀ (ps : List Prop'), ∀ n ∈ refsFs (fieldsOf U last ps),
    n ∈ refsFs last ∨ ∃ p ∈ ps, (p.s.inner = true ∧ n = typeName U p.name) ∨
      (p.s.inner = false ∧ n ∈ refs p.s.typeDecl)
  | [], n, h => .inl h
  | p :: ps, n, h => by
    rw [fieldsOf, refsFs, List.mem_append] at h
    rcases h with h | h
    · refine .inr ⟨p, by simp, ?_⟩
      rw [Prop'.field] at h
      split at h
      · rename_i hi
        exact .inl ⟨hi, by simpa [refs] using h⟩
      · rename_i hi
        refine .inr ⟨by simpa using hi, ?_⟩
        dsimp only at h
        split at h <;> simpa [refs] using h
    · rcases refs_fields ps n h with h | ⟨q, hq, h⟩
      · exact .inl h
      · exact .inr ⟨q, by simp [hq], h⟩

mutual
private theorem gen_ok : ∀ (s : OS) {path : List Str} {g : GSch}, Kept s →
    gen U path s = .ok g → Ok U (uses s) g
  | .ref m, _, _, _, h => by
    rw [gen] at h; cases h
    refine ⟨rfl, fun n hn => ?_, fun t ht => by cases ht⟩
    have : n = typeName U m := by simpa [GSch.typeDecl, refs] using hn
    subst this
    exact .inr (.inl (by simp [uses]))
  | .prim k f e, path, g, hb, h => by
    rw [gen, genPrim] at h
    obtain ⟨⟨t, skip⟩, ht, h⟩ := bind_ok h
    dsimp only at h
    have base : Ok U (uses (.prim k f e))
        { goType := t, skipPtr := skip, enum := e, src := some (.prim k f e) } :=
      ⟨rfl, fun n hn => .inl (primType_known ht n hn), fun t ht => by cases ht⟩
    split at h <;> cases h
    · exact ok_named base
    · exact base
  | .arr s, path, g, hb, h => by
    rw [gen] at h
    obtain ⟨a, ha, h⟩ := bind_ok h
    have ih := gen_ok s hb ha
    cases h
    have key : ∀ a : GSch, Ok U (uses s) a → Ok U (uses (.arr s))
        { goType := .arr a.typeDecl, nested := a.nested, own := a.own, src := some (.arr s) } :=
      fun a h => ⟨rfl, h.2.1, h.2.2⟩
    simp only [genArr]
    split
    · exact key _ (ok_named ih)
    · exact key _ ih
  | .inner, _, _, hb, _ => by cases hb
  | .obj typed allOf ps a es, path, g, hb, h => by
    obtain ⟨hb1, hb2, hb3⟩ := hb
    have pre : ∀ (x : String), x.toList ∈ predeclared → ∀ n ∈ refs (id' x), n ∈ predeclared := by
      intro x hx n hn
      simp only [id', refs, List.mem_singleton] at hn
      subst hn; exact hx
    have pstr := pre "string" (by decide)
    have pany := pre "any" (by decide)
    rw [gen] at h
    split at h
    · cases h
      refine ⟨rfl, fun n hn => .inl ?_, fun t ht => by cases ht⟩
      cases typed
      · exact pany n hn
      · rcases List.mem_append.1 hn with hn | hn
        · exact pstr n hn
        · exact pany n hn
    · obtain ⟨ga, hga, h⟩ := bind_ok h
      obtain ⟨aok, anest⟩ := gen_okA a hb2 hga
      split at h
      · cases h
        refine (ok_defs aok anest fun n hn => ?_).mono ?_
        · rcases List.mem_append.1 hn with hn | hn
          · exact .inr (pstr n hn)
          · exact .inl hn
        · intro x hx
          simp [uses, hx]
      · obtain ⟨l, hl, h⟩ := bind_ok h
        obtain ⟨el, hel, h⟩ := bind_ok h
        have pok := gen_okPs ps hb1 hl
        have eok := gen_okEs es hb3 hel
        have had : ga.defs = ga.own := by simp [GSch.defs, anest]
        cases h
        refine ⟨rfl, ?_, ?_⟩
        · intro n hn
          have hn : n ∈ refsFs (fieldsOf U _ (embed allOf l)) := hn
          rcases refs_fields _ n hn with hn | ⟨p, hp, hn⟩
          · -- additional properties and alternatives
            have hu : ∀ (b : Bool) (n : Str), n ∈ refsFs (if b then
                (.cons ⟨"union".toList, .none⟩ rawMessage .nil : GFs) else .nil) → False := by
              intro b n hn
              cases b <;> simp [refsFs, rawMessage, refs] at hn
            split at hn
            · rename_i t ht
              rw [refsFs, List.mem_append] at hn
              rcases hn with hn | hn
              · rw [refs, List.mem_append] at hn
                rcases hn with hn | hn
                · exact .inl (pstr n hn)
                · split at ht
                  · cases ht
                  · cases ht
                    refine (aok.2.1 n hn).mono (fun x hx => by simp [uses, hx]) ?_
                    rw [had]
                    intro x hx
                    simp [GSch.defs, hx]
              · exact (hu _ _ hn).elim
            · exact (hu _ _ hn).elim
          · rcases mem_embed hp with hp' | ⟨hs, hm⟩
            · have hok := pok p hp'
              rcases hn with ⟨hi, _⟩ | ⟨_, hn⟩
              · rw [hok.1] at hi; cases hi
              · refine (hok.2.1 n hn).mono (fun x hx => by simp [uses, hx]) ?_
                intro x hx
                simp only [GSch.defs, List.mem_append, List.mem_flatMap]
                exact .inl ⟨p, hp, by simpa [GSch.defs] using hx⟩
            · rcases hn with ⟨_, rfl⟩ | ⟨hi, _⟩
              · exact .inr (.inl (List.mem_map_of_mem (by simp [uses, hm])))
              · rw [hs] at hi; cases hi
        · intro t ht n hn
          simp only [GSch.defs, List.mem_append, List.mem_flatMap] at ht
          rcases ht with ⟨p, hp, ht⟩ | ht | ht
          · rcases mem_embed hp with hp' | ⟨hs, hm⟩
            · have hok := pok p hp'
              refine (hok.2.2 t (by simpa [GSch.defs] using ht) n hn).mono
                (fun x hx => by simp [uses, hx]) ?_
              intro x hx
              simp only [GSch.defs, List.mem_append, List.mem_flatMap]
              exact .inl ⟨p, hp, by simpa [GSch.defs] using hx⟩
            · rw [hs] at ht; simp [innerSch] at ht
          · refine (aok.2.2 t (by rw [had]; exact ht) n hn).mono (fun x hx => by simp [uses, hx]) ?_
            rw [had]
            intro x hx
            simp [GSch.defs, hx]
          · exact (eok t ht n hn).mono (fun x hx => by simp [uses, hx]) (by simp)
private theorem gen_okA : ∀ (a : OAs) {path : List Str} {g : GSch}, KeptA a →
    genA U path a = .ok g → Ok U (usesA a) g ∧ g.nested = []
  | .no, _, _, _, h => by
    rw [genA] at h; cases h
    exact ⟨⟨rfl, fun n hn => .inl (by
      simp only [GSch.typeDecl, id', refs, List.mem_singleton] at hn
      subst hn; decide), fun t ht => by cases ht⟩, rfl⟩
  | .free, _, _, _, h => by
    rw [genA] at h; cases h
    exact ⟨⟨rfl, fun n hn => .inl (by
      simp only [GSch.typeDecl, id', refs, List.mem_singleton] at hn
      subst hn; decide), fun t ht => by cases ht⟩, rfl⟩
  | .of s, path, g, hb, h => by
    rw [genA] at h
    obtain ⟨a, ha, h⟩ := bind_ok h
    have h1 := gen_ok s hb.1 ha
    have h2 := gen_inside s hb.2 ha
    cases h
    simp only [genAddl]
    split
    · exact ⟨ok_named h1, h2⟩
    · exact ⟨h1, h2⟩
private theorem gen_okPs : ∀ (ps : OPs) {path : List Str} {l : List Prop'}, KeptPs ps →
    genPs U path ps = .ok l → ∀ p ∈ l, Ok U (usesPs ps) p.s
  | .nil, _, _, _, h => by rw [genPs] at h; cases h; simp
  | .cons n r nl s ps, path, l, hb, h => by
    rw [genPs] at h
    obtain ⟨g, hg, h⟩ := bind_ok h
    obtain ⟨l', hl', h⟩ := bind_ok h
    cases h
    have h1 := gen_ok s hb.1 hg
    have h2 := gen_okPs ps hb.2 hl'
    intro p hp
    rcases List.mem_cons.1 hp with rfl | hp
    · show Ok U _ (genProp U _ g)
      refine Ok.mono ?_ (fun x hx => by simp [usesPs, hx] : uses s ⊆ _)
      unfold genProp
      split
      · exact ok_named h1
      · exact h1
    · exact (h2 p hp).mono fun x hx => by simp [usesPs, hx]
private theorem gen_okEs : ∀ (es : OEs) {path : List Str} {i : Nat} {l : List TD}, KeptEs es →
    genEs U path i es = .ok l → ∀ t ∈ l, ∀ n ∈ refs t.decl, Known U (usesEs es) [] n
  | .nil, _, _, _, _, h => by rw [genEs] at h; cases h; simp
  | .cons d s es, path, i, l, hb, h => by
    rw [genEs] at h
    obtain ⟨e, he, h⟩ := bind_ok h
    obtain ⟨l', hl', h⟩ := bind_ok h
    have h1 := gen_bare s hb.1 he
    have h2 := gen_ok s (bare_kept s hb.1) he
    have h3 := gen_okEs es hb.2 hl'
    have hd : e.defs = [] := by simp [GSch.defs, h1.1, h1.2.1]
    have hrest : ∀ t ∈ l', ∀ n ∈ refs t.decl, Known U (usesEs (.cons d s es)) [] n :=
      fun t ht n hn => (h3 t ht n hn).mono (fun x hx => by simp [usesEs, hx]) (by simp)
    split at h
    · cases h; exact hrest
    · cases h
      intro t ht n hn
      rcases List.mem_cons.1 ht with rfl | ht
      · have := h2.2.1 n hn
        rw [hd] at this
        exact this.mono (fun x hx => by simp [usesEs, hx]) (by simp)
      · exact hrest t ht n hn
end

private theorem typesFor_known {comps : List (Str × OS)} {ts : List TD}
    (hk : ∀ n s, (n, s) ∈ comps → Kept s)
    (hr : ∀ n s, (n, s) ∈ comps → ∀ m ∈ uses s, m ∈ comps.map (·.1))
    (h : typesFor U comps = .ok ts) :
    ∀ t ∈ ts, ∀ n ∈ refs t.decl, n ∈ predeclared ∨ n ∈ ts.map (·.name) := by
  obtain ⟨h1, h2⟩ := typesFor_spec h
  intro t ht n hn
  obtain ⟨c, s, g, hc, hg, htd⟩ := h1 t ht
  have hok := gen_ok s (hk c s hc) hg
  have hkn : Known U (uses s) g.defs n := by
    rcases htd with rfl | htd
    · exact hok.2.1 n hn
    · exact hok.2.2 t htd n hn
  rcases hkn with hkn | hkn | hkn
  · exact .inl hkn
  · obtain ⟨m, hm, rfl⟩ := List.mem_map.1 hkn
    obtain ⟨⟨m', s'⟩, hc', rfl⟩ := List.mem_map.1 (hr c s hc m hm)
    obtain ⟨g', _, hg', _⟩ := h2 m' s' hc'
    exact .inr (List.mem_map.2 ⟨_, hg', rfl⟩)
  · obtain ⟨g', hg', _, hg''⟩ := h2 c s hc
    rw [hg] at hg'
    cases hg'
    obtain ⟨u, hu, rfl⟩ := List.mem_map.1 hkn
    exact .inr (List.mem_map_of_mem (hg'' u hu))

private theorem firstTDs_sub : ∀ (l : List TD) (seen : List Str), ∀ t ∈ firstTDs seen l, t ∈ l
  | [], _, _, h => by cases h
  | a :: l, seen, t, h => by
    rw [firstTDs] at h
    split at h
    · exact List.mem_cons_of_mem _ (firstTDs_sub l _ t h)
    · rcases List.mem_cons.1 h with rfl | h
      · exact List.mem_cons_self ..
      · exact List.mem_cons_of_mem _ (firstTDs_sub l _ t h)

/-- **C110** (where it holds, before the rewritings).  The file that is generated for schemas
declares one type for every schema, every type that it uses, and none twice, whatever their names
are, if the schemas are such that nothing has to be declared for alternatives or for the
properties of additional properties.  The schemas may have enumerations, alternatives, and
additional properties beside properties, in properties and arrays of any depth. -/
theorem C110_definitions_partial {comps : List (Str × OS)} {ds : List Decl}
    (hk : ∀ n s, (n, s) ∈ comps → Kept s)
    (hr : ∀ n s, (n, s) ∈ comps → ∀ m ∈ uses s, m ∈ comps.map (·.1))
    (h : file U comps = .ok ds) :
    (∀ n, ¬ UndefinedType predeclared ds n) ∧ (declared ds).Nodup ∧
      ∀ n s, (n, s) ∈ comps → typeName U n ∈ declared ds := by
  rw [file] at h
  obtain ⟨ts, hts, h⟩ := bind_ok h
  obtain ⟨ts', hts', h⟩ := bind_ok h
  have dd := dedupe_spec hts'
  have known := typesFor_known hk hr hts
  have hdecl : declared ds = ts'.map (·.name) := by
    cases h
    have h1 : ∀ l : List TD, declared (l.map (fun t => Decl.consts [t.name])) = [] := by
      intro l
      induction l with
      | nil => rfl
      | cons a l ih => exact ih
    have h2 : ∀ l : List TD, declared (l.map (fun t => Decl.typ t.doc t.name t.decl)) =
        l.map (·.name) := by
      intro l
      induction l with
      | nil => rfl
      | cons a l ih => exact congrArg (a.name :: ·) ih
    have h3 : ∀ l : List TD, declared (l.flatMap (fun t =>
        [Decl.func (some t.name) "Get".toList, Decl.func (some t.name) "Set".toList])) = [] := by
      intro l
      induction l with
      | nil => rfl
      | cons a l ih => exact ih
    have h4 : ∀ l : List TD, declared (l.map (fun t =>
        Decl.func (some t.name) "MarshalJSON".toList)) = [] := by
      intro l
      induction l with
      | nil => rfl
      | cons a l ih => exact ih
    have h0 : ∀ a b : List Decl, declared (a ++ b) = declared a ++ declared b :=
      fun a b => List.filterMap_append
    show declared (_ ++ _ ++ _ ++ _) = _
    rw [h0, h0, h0, h1, h2, h3, h4]
    simp
  have key : ∀ t ∈ ts, t.name ∈ declared ds := by
    intro t ht
    obtain ⟨p, hp, hpn, _⟩ := dd.2.1 t ht
    rw [List.nil_append] at hp
    rw [hdecl, ← hpn]
    exact List.mem_map_of_mem hp
  refine ⟨?_, ?_, ?_⟩
  rotate_left
  · rw [hdecl]; exact dd.2.2.1
  · intro n s hm
    obtain ⟨g, _, hg, _⟩ := (typesFor_spec hts).2 n s hm
    exact key _ hg
  rintro n ⟨⟨d, hd, hn⟩, hu, hb⟩
  cases h
  rcases List.mem_cons.1 hd with rfl | hd
  · cases hn
  simp only [List.mem_append, List.mem_map, List.mem_flatMap] at hd
  rcases hd with ((⟨t, ht, rfl⟩ | ⟨t, ht, rfl⟩) | ⟨t, ht, hd⟩) | ⟨t, ht, rfl⟩
  · rcases List.mem_cons.1 hn with rfl | hn
    · exact hu (key t (firstTDs_sub _ _ t (List.mem_filter.1 ht).1))
    · cases hn
  · rcases known t (dd.1.subset ht) n hn with h | h
    · exact hb h
    · obtain ⟨u, hu', rfl⟩ := List.mem_map.1 h
      exact hu (key u hu')
  · simp only [List.mem_cons, List.not_mem_nil, or_false] at hd
    rcases hd with rfl | rfl <;> cases hn
  · cases hn

/-- An enumeration and additional properties with alternatives beside properties. -/
def definedComps : List (Str × OS) :=
  [("foo".toList, .obj true []
     (.cons "bar".toList true false (.prim .string [] ["a".toList, "b".toList])
     (.cons "baz".toList true false (.arr (.obj true []
        (.cons "x".toList true false (.ref "foo".toList) .nil)
        (.of (.obj false [] .nil .no (.cons false (.prim .string [] []) (.cons false (.ref "foo".toList) .nil))))
        .nil)) .nil)) .no .nil)]

example : (∀ n s, (n, s) ∈ definedComps → Kept s) ∧
    (∀ n s, (n, s) ∈ definedComps → ∀ m ∈ uses s, m ∈ definedComps.map (·.1)) ∧
    ∃ ds, file ascii definedComps = .ok ds ∧ "Foo_Baz_AdditionalProperties".toList ∈ declared ds := by
  refine ⟨?_, ?_, _, rfl, by decide +kernel⟩
  · intro n s h
    rcases List.mem_cons.1 h with h | h
    · injection h with _ h
      subst h
      simp [Kept, KeptPs, KeptA, KeptEs, BareInside, BarePs, Bare]
    · cases h
  · intro n s h
    rcases List.mem_cons.1 h with h | h
    · injection h with _ h
      subst h
      decide
    · cases h

end Thema.Props
