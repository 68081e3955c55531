import Verif.Spec.InstPtr
import Verif.Props.TranslateGo

/-! # C149: instances never change -/

namespace Thema.Props

open Thema.Spec Thema.Ptr Thema.Spec.Ptr

variable {V σ α β : Type} {C : Cue V} {D : Hydrate.HCue V} {H : Heap V} {G : Lenses V σ}

/-- The instances `b` are in memory. -/
def Has (b : List (Inst V)) (m : Mem V σ) : Prop := ∀ i c, b[i]? = some c → m.load i = some c

/-- A call that keeps a property of the memory. -/
def Keeps (P : Mem V σ → Prop) (x : PM V σ α) : Prop := ∀ m, P m → P (x m).2

theorem gentle_iff {x : PM V σ α} : Gentle x ↔ ∀ b, Keeps (Has b) x :=
  ⟨fun h _ m hb i c hi => h m i c (hb i c hi), fun h m i c hi => h m.cells m (fun _ _ => id) i c hi⟩

variable {P : Mem V σ → Prop}

theorem keeps_bind {x : PM V σ α} {f : α → PM V σ β} (hx : Keeps P x)
    (hf : ∀ a, Keeps P (f a)) : Keeps P (PM.bind x f) := by
  intro m hm
  have := hx m hm
  simp only [PM.bind]
  split <;> rename_i e <;> rw [e] at this <;> first | exact this | exact hf _ _ this

theorem keeps_ret (x : Res α) : Keeps P (PM.ret x : PM V σ α) := fun _ h => h

theorem keeps_read (i : IPtr) : Keeps P (Ptr.read i : PM V σ (Inst V)) := by
  intro m h
  simp only [Ptr.read]
  split <;> exact h

theorem has_append {b : List (Inst V)} {m : Mem V σ} (h : Has b m) (l : List (Inst V)) :
    Has b { m with cells := m.cells ++ l } := by
  intro i c hi
  have := h i c hi
  simp only [Mem.load] at this ⊢
  obtain ⟨hl, _⟩ := List.getElem?_eq_some_iff.1 this
  rw [List.getElem?_append_left hl, this]

theorem keeps_new {b : List (Inst V)} (x : Inst V) : Keeps (Has b) (new x : PM V σ IPtr) :=
  fun _ h => has_append h _

theorem keeps_write {b : List (Inst V)} {i : IPtr} (hi : b.length ≤ i) (x : Inst V) :
    Keeps (Has b) (write i x : PM V σ Unit) := by
  intro m h j c hj
  have := h j c hj
  obtain ⟨hl, _⟩ := List.getElem?_eq_some_iff.1 hj
  simp only [write, Mem.load] at this ⊢
  rw [List.getElem?_set_ne (by omega), this]

theorem keeps_asSuccessor {tr : IPtr → SV → PM V σ (IPtr × List Lac)}
    (hn : ∀ x, Keeps P (new x)) (ht : ∀ i v, Keeps P (tr i v)) (i : IPtr) :
    Keeps P (Ptr.asSuccessor H tr i) := by
  refine keeps_bind (keeps_read i) fun x => keeps_bind (keeps_ret _) fun _ =>
    keeps_bind (keeps_ret _) fun q => ?_
  split
  · exact keeps_bind (hn _) fun _ => keeps_ret _
  · exact ht _ _

theorem keeps_asPredecessor {tr : IPtr → SV → PM V σ (IPtr × List Lac)}
    (ht : ∀ i v, Keeps P (tr i v)) (i : IPtr) : Keeps P (Ptr.asPredecessor H tr i) :=
  keeps_bind (keeps_read i) fun _ => keeps_bind (keeps_ret _) fun _ =>
    keeps_bind (keeps_ret _) fun _ => ht _ _

theorem keeps_goLensStep (hG : ∀ lin id f, (id, f) ∈ G lin → ∀ i s, Keeps P (f i s))
    (lin p q : Nat) (ti : IPtr) : Keeps P (Ptr.goLensStep H G lin p q ti) := by
  unfold Ptr.goLensStep
  split
  · exact keeps_ret _
  · rename_i f hf
    refine keeps_bind (hG _ _ _ (lookup_mem hf) _ _) fun r => ?_
    cases r with
    | none => exact keeps_ret _
    | some j =>
      refine keeps_bind (keeps_read _) fun x => keeps_bind (keeps_ret _) fun _ => ?_
      split <;> exact keeps_ret _

theorem keeps_goMinorStep {tr : IPtr → SV → PM V σ (IPtr × List Lac)}
    (hn : ∀ x, Keeps P (new x)) (ht : ∀ i v, Keeps P (tr i v)) (i : IPtr) :
    Keeps P (Ptr.goMinorStep H tr i) := by
  intro m hm
  have := keeps_asSuccessor (H := H) hn ht i m hm
  simp only [Ptr.goMinorStep]
  split <;> rename_i e <;> rw [e] at this <;> exact this

theorem keeps_goLoop (hG : ∀ lin id f, (id, f) ∈ G lin → ∀ i s, Keeps P (f i s))
    {tr : IPtr → SV → PM V σ (IPtr × List Lac)} (hn : ∀ x, Keeps P (new x))
    (ht : ∀ i v, Keeps P (tr i v)) (lin : Nat) (frm dst : SV) {ti : IPtr}
    (hw : ∀ x, Keeps P (write ti x)) : ∀ n p, Keeps P (Ptr.goLoop H G tr lin frm dst ti n p)
  | 0, _ => keeps_ret _
  | n + 1, p => by
    unfold Ptr.goLoop
    split
    · exact keeps_ret _
    · refine keeps_bind (keeps_ret _) fun q => keeps_bind ?_ fun rti =>
        keeps_bind (keeps_read _) fun x => keeps_bind (hw _) fun _ =>
          keeps_goLoop hG hn ht lin frm dst hw n q
      split
      · exact keeps_goLensStep hG _ _ _ _
      · exact keeps_goMinorStep hn ht _

/-- No instance that exists when `Translate` is called is changed by it, however the call ends. -/
theorem C149_translate_keeps (hG : GentleLenses G) (n : Nat) (i : IPtr) (dst : SV) :
    Gentle (Ptr.translate C H G n i dst) := by
  rw [gentle_iff]
  induction n generalizing i dst with
  | zero => exact fun b => keeps_ret _
  | succ n ih =>
    intro b
    refine keeps_bind (keeps_read _) fun x => keeps_bind (keeps_ret _) fun _ => ?_
    split
    · refine keeps_bind (keeps_read _) fun y => ?_
      split
      · exact keeps_ret _
      · intro m hm
        have h1 : Has b (new y m).2 := keeps_new y m hm
        have hlen : b.length ≤ m.cells.length := by
          by_contra hc
          have hlt : m.cells.length < b.length := by omega
          have := hm m.cells.length _ (List.getElem?_eq_getElem hlt)
          simp [Mem.load] at this
        exact keeps_bind (keeps_goLoop (fun lin id f h i s => gentle_iff.1 (hG lin id f h i s) b)
          keeps_new (fun i v => ih i v b) _ _ _ (keeps_write hlen) _ _) (fun _ => keeps_ret _) _ h1
    · exact keeps_bind (keeps_ret _) fun _ => keeps_bind (keeps_new _) fun _ => keeps_ret _

/-- A gentle call keeps the number of objects from falling. -/
theorem gentle_lt {x : PM V σ α} (h : Gentle x) (k : Nat) :
    Keeps (fun m => k < m.cells.length) x := by
  intro m hk
  have := h m k _ (List.getElem?_eq_getElem hk)
  exact (List.getElem?_eq_some_iff.1 this).1

theorem call_keeps (hG : GentleLenses G) {m m' : Mem V σ} (h : Call C D H G m m') {i : IPtr}
    {c : Inst V} (hi : m.load i = some c) : m'.load i = some c := by
  have go : ∀ {α : Type} (x : PM V σ α), (∀ b, Keeps (Has b) x) → (x m).2.load i = some c :=
    fun x hx => gentle_iff.2 hx m i c hi
  have ht : ∀ n b i v, Keeps (Has b) (Ptr.translate C H G n i v) := fun n b i v =>
    gentle_iff.1 (C149_translate_keeps hG n i v) b
  cases h with
  | own => exact hi
  | validate s d => exact go _ fun b => keeps_bind (keeps_ret _) fun _ => keeps_new _
  | validateAny lin d n =>
    refine go _ fun b => keeps_bind (keeps_ret _) fun r => ?_
    cases r with
    | none => exact keeps_ret _
    | some x => exact keeps_bind (keeps_new _) fun _ => keeps_ret _
  | examples s =>
    refine go (Ptr.examples H s) fun b m hm => ?_
    simp only [Ptr.examples]
    split
    · exact hm
    · exact has_append hm _
  | hydrate n ref i =>
    refine go (Ptr.hydrate D n ref i) fun b => keeps_bind (keeps_read _) fun x =>
      keeps_bind (keeps_ret _) fun _ m hm => ?_
    split
    · exact keeps_new _ _ hm
    all_goals exact hm
  | dehydrate n ref i =>
    refine go (Ptr.dehydrate D n ref i) fun b => keeps_bind (keeps_read _) fun x =>
      keeps_bind (keeps_ret _) fun _ m hm => ?_
    split
    · exact keeps_new _ _ hm
    all_goals exact hm
  | asSuccessor n i => exact go _ fun b => keeps_asSuccessor keeps_new (fun i v => ht n b i v) i
  | asPredecessor n i => exact go _ fun b => keeps_asPredecessor (fun i v => ht n b i v) i
  | translate n i v => exact go _ fun b => ht n b i v

/-- An instance that a program has keeps its data, its name and its schema through any sequence of
calls. -/
theorem C149_unchanged_partial (hG : GentleLenses G) {m m' : Mem V σ} (h : Later C D H G m m')
    {i : IPtr} {c : Inst V} (hi : m.load i = some c) : m'.load i = some c := by
  induction h with
  | refl => exact hi
  | tail _ hc ih => exact call_keeps hG hc ih

/-! ## What a lens is given -/

theorem bind_inv {x : PM V σ α} {f : α → PM V σ β} {m m' : Mem V σ} {b : β}
    (h : PM.bind x f m = (.ok b, m')) : ∃ a m1, x m = (.ok a, m1) ∧ f a m1 = (.ok b, m') := by
  simp only [PM.bind] at h
  split at h
  · exact ⟨_, _, ‹_›, h⟩
  all_goals simp at h

theorem ret_inv {x : Res α} {m m' : Mem V σ} {a : α} (h : PM.ret x m = (.ok a, m')) :
    x = .ok a ∧ m' = m := by
  simp only [PM.ret, Prod.mk.injEq] at h
  exact ⟨h.1, h.2.symm⟩

theorem read_inv {i : IPtr} {m m' : Mem V σ} {c : Inst V} (h : Ptr.read i m = (.ok c, m')) :
    m.load i = some c ∧ m' = m := by
  simp only [Ptr.read] at h
  split at h
  · simp only [Prod.mk.injEq, Res.ok.injEq] at h
    exact ⟨by rw [‹m.load i = _›, h.1], h.2.symm⟩
  · simp at h

theorem load_lt {m : Mem V σ} {i : IPtr} {c : Inst V} (h : m.load i = some c) :
    i < m.cells.length := (List.getElem?_eq_some_iff.1 h).1

theorem load_write {m : Mem V σ} {i : IPtr} {c : Inst V} (h : m.load i = some c) (x : Inst V) :
    (write i x m).2.load i = some x := by
  simp only [write, Mem.load]
  rw [List.getElem?_set_self (load_lt h)]

theorem load_new {m : Mem V σ} (x : Inst V) : (new x m).2.load m.cells.length = some x := by
  simp [new, Mem.load]

/-- The instance handed to the lenses during the loop. -/
theorem loop_record {log : σ → List (IPtr × Inst V)} (hG : GentleLenses G) (hR : Record log G)
    (hA : AsAsked G) {tr : IPtr → SV → PM V σ (IPtr × List Lac)} {lin : Nat} {frm dst : SV}
    {ti : IPtr} : ∀ {n p : Nat} {m m' : Mem V σ} {c : Inst V}, m.load ti = some c →
      c.sch = ⟨lin, p⟩ → Ptr.goLoop H G tr lin frm dst ti n p m = (.ok (), m') →
      ∃ new, log m'.prog = log m.prog ++ new ∧
        (∀ e ∈ new, e.1 = ti ∧ versionOf H e.2 ≠ dst) ∧
        (∃ y, m'.load ti = some y ∧ versionOf H y = dst) ∧
        (new = [] → ((H lin).ver p).major = dst.major ∧ (dst.less frm → (H lin).ver p = dst))
  | 0, _, _, _, _, _, _, h => by simp [Ptr.goLoop, PM.ret] at h
  | n + 1, p, m, m', c, hc, hs, h => by
    have hver : versionOf H c = (H lin).ver p := by simp [versionOf, hs]
    unfold Ptr.goLoop at h
    split at h
    · rename_i hp
      obtain ⟨_, rfl⟩ := ret_inv h
      exact ⟨[], by simp, by simp, ⟨c, hc, by rw [hver, hp]⟩, fun _ => ⟨by rw [hp], fun _ => hp⟩⟩
    rename_i hp
    replace h := bind_inv h
    obtain ⟨q, m1, h1, h⟩ := h
    obtain ⟨hq, rfl⟩ := ret_inv h1
    replace h := bind_inv h
    obtain ⟨rti, m2, h2, h⟩ := h
    replace h := bind_inv h
    obtain ⟨x, m3, h3, h⟩ := h
    obtain ⟨hx, rfl⟩ := read_inv h3
    replace h := bind_inv h
    obtain ⟨_, m4, h4, h⟩ := h
    simp only [write, Prod.mk.injEq, true_and] at h4
    have hm4 : m4 = (write ti x m3).2 := h4.symm
    split at h2
    · -- a lens
      rcases hf : (G lin).lookup ⟨(H lin).ver p, (H lin).ver q⟩ with _ | f
      · simp [Ptr.goLensStep, hf, PM.ret] at h2
      simp only [Ptr.goLensStep, hf] at h2
      have hmem := lookup_mem hf
      replace h2 := bind_inv h2
      obtain ⟨r, m5, h5, h2⟩ := h2
      cases r with
      | none => simp [PM.ret] at h2
      | some j =>
        replace h2 := bind_inv h2
        obtain ⟨y, m6, h6, h2⟩ := h2
        obtain ⟨hy, rfl⟩ := read_inv h6
        replace h2 := bind_inv h2
        obtain ⟨_, m7, h7, h2⟩ := h2
        obtain ⟨_, rfl⟩ := ret_inv h7
        split at h2
        · simp [PM.ret] at h2
        obtain ⟨hj, rfl⟩ := ret_inv h2
        simp only [Res.ok.injEq] at hj
        subst hj
        have hxs : x.sch = ⟨lin, q⟩ := hA _ _ _ hmem _ _ _ _ _ _ h5 hx
        have hti : m3.load ti = some c := by
          have := hG _ _ _ hmem ti ⟨lin, q⟩ m1 ti c hc
          rwa [h5] at this
        have hlog : log m3.prog = log m1.prog ++ [(ti, c)] := by
          have := hR _ _ _ hmem ti ⟨lin, q⟩ m1 c hc
          rwa [h5] at this
        have hload : m4.load ti = some x := by rw [hm4]; exact load_write hti x
        have hprog : m4.prog = m3.prog := by rw [hm4]; rfl
        obtain ⟨new, n1, n2, n3, _⟩ := loop_record hG hR hA hload hxs h
        refine ⟨(ti, c) :: new, by rw [n1, hprog, hlog]; simp, ?_, n3, by simp⟩
        intro e he
        rcases List.mem_cons.1 he with rfl | he
        · exact ⟨rfl, by rw [hver]; exact hp⟩
        · exact n2 e he
    · -- a minor step up
      rename_i hnl
      simp only [Bool.or_eq_true, decide_eq_true_eq, not_or, ne_eq, not_not] at hnl
      obtain ⟨hnless, hmaj⟩ := hnl
      rw [if_neg hnless] at hq
      simp only [Ptr.goMinorStep] at h2
      split at h2
      rotate_left
      · simp at h2
      · simp at h2
      · simp at h2
      rename_i rti' lacs m5 h5
      simp only [Prod.mk.injEq, Res.ok.injEq] at h2
      obtain ⟨rfl, rfl⟩ := h2
      unfold Ptr.asSuccessor at h5
      replace h5 := bind_inv h5
      obtain ⟨c', m6, h6, h5⟩ := h5
      obtain ⟨hc', rfl⟩ := read_inv h6
      obtain rfl : c = c' := by rw [hc] at hc'; exact Option.some.inj hc'
      replace h5 := bind_inv h5
      obtain ⟨_, m7, h7, h5⟩ := h5
      obtain ⟨_, rfl⟩ := ret_inv h7
      replace h5 := bind_inv h5
      obtain ⟨q', m8, h8, h5⟩ := h5
      obtain ⟨hq', rfl⟩ := ret_inv h8
      rw [hs] at hq' h5
      simp only at hq' h5
      obtain rfl : q = q' := by rw [hq] at hq'; exact Res.ok.inj hq'
      rw [if_pos hmaj.symm] at h5
      replace h5 := bind_inv h5
      obtain ⟨ni, m9, h9, h5⟩ := h5
      obtain ⟨he, rfl⟩ := ret_inv h5
      simp only [Res.ok.injEq, Prod.mk.injEq] at he
      obtain ⟨rfl, _⟩ := he
      have hni : ni = m8.cells.length ∧
          m5 = (Ptr.new { c with sch := ⟨lin, q⟩ } m8).2 := by
        simp only [Ptr.new, Prod.mk.injEq, Res.ok.injEq] at h9
        exact ⟨h9.1.symm, h9.2.symm⟩
      obtain ⟨rfl, rfl⟩ := hni
      have hx' := load_new (m := m8) ({ c with sch := ⟨lin, q⟩ } : Inst V)
      have hxeq : x = { c with sch := ⟨lin, q⟩ } := by
        rw [hx] at hx'; exact Option.some.inj hx'
      have hxs : x.sch = ⟨lin, q⟩ := by rw [hxeq]
      have hti : (Ptr.new { c with sch := ⟨lin, q⟩ } m8).2.load ti = some c :=
        keeps_new (b := m8.cells) _ m8 (fun _ _ => id) ti c hc
      have hload : m4.load ti = some x := by rw [hm4]; exact load_write hti x
      have hprog : m4.prog = m8.prog := by rw [hm4]; rfl
      obtain ⟨new, n1, n2, n3, n4⟩ := loop_record hG hR hA hload hxs h
      refine ⟨new, by rw [n1, hprog], n2, n3, fun he => ?_⟩
      obtain ⟨e1, _⟩ := n4 he
      exact ⟨by rw [hmaj, e1], fun hl => absurd hl hnless⟩

/-- But the instance that a lens is given does change: all the lenses of a call are given one and the
same object, the one that `Translate` returns in the end.  At the time of the call it has another
version than `dst`; in the end it has version `dst`. -/
theorem C149_given_changes {log : σ → List (IPtr × Inst V)} (hG : GentleLenses G)
    (hR : Record log G) (hA : AsAsked G) {n : Nat} {i t : IPtr} {dst : SV} {m m' : Mem V σ}
    {x : Inst V} {lacs : List Lac} (hx : m.load i = some x) (hne : G x.sch.lin ≠ [])
    (hd : dst ≠ versionOf H x) (h : Ptr.translate C H G n i dst m = (.ok (t, lacs), m')) :
    ∃ given, log m'.prog = log m.prog ++ given ∧
      (∀ e ∈ given, e.1 = t ∧ versionOf H e.2 ≠ dst ∧ ∃ y, m'.load t = some y ∧ versionOf H y = dst) ∧
      (dst.less (versionOf H x) ∨ dst.major ≠ (versionOf H x).major → given ≠ []) := by
  cases n with
  | zero => simp [Ptr.translate, PM.ret] at h
  | succ n =>
    unfold Ptr.translate at h
    replace h := bind_inv h
    obtain ⟨x', m1, h1, h⟩ := h
    obtain ⟨hx', rfl⟩ := read_inv h1
    obtain rfl : x = x' := by rw [hx] at hx'; exact Option.some.inj hx'
    replace h := bind_inv h
    obtain ⟨_, m2, h2, h⟩ := h
    obtain ⟨_, rfl⟩ := ret_inv h2
    rw [if_pos (List.length_pos_iff.2 hne)] at h
    unfold Ptr.translateGo at h
    replace h := bind_inv h
    obtain ⟨x', m3, h3, h⟩ := h
    obtain ⟨hx', rfl⟩ := read_inv h3
    obtain rfl : x = x' := by rw [hx] at hx'; exact Option.some.inj hx'
    rw [if_neg (show ¬dst = (H x.sch.lin).ver x.sch.pos from hd)] at h
    replace h := bind_inv h
    obtain ⟨ti, m4, h4, h⟩ := h
    simp only [Ptr.new, Prod.mk.injEq, Res.ok.injEq] at h4
    obtain ⟨rfl, hm4⟩ := h4
    replace h := bind_inv h
    obtain ⟨_, m5, h5, h⟩ := h
    obtain ⟨ht, rfl⟩ := ret_inv h
    simp only [Res.ok.injEq, Prod.mk.injEq] at ht
    obtain ⟨rfl, _⟩ := ht
    have hl : m4.load m3.cells.length = some x := by rw [← hm4]; exact load_new x
    obtain ⟨new, n1, n2, n3, n4⟩ := loop_record hG hR hA hl rfl h5
    refine ⟨new, by rw [n1, ← hm4], fun e he => ⟨(n2 e he).1, (n2 e he).2, n3⟩, ?_⟩
    rintro hor rfl
    obtain ⟨e1, e2⟩ := n4 rfl
    rcases hor with hl | hmj
    · exact hd (e2 hl).symm
    · exact hmj e1.symm

/-! ## Which object is returned -/

/-- `Translate` returns an object that did not exist before, except that a lineage with Go lenses
returns the receiver itself for the version that the receiver has. -/
theorem C149_result {n : Nat} {i t : IPtr} {dst : SV} {m m' : Mem V σ} {x : Inst V}
    {lacs : List Lac} (hG : GentleLenses G) (hx : m.load i = some x)
    (h : Ptr.translate C H G n i dst m = (.ok (t, lacs), m')) :
    (m.load t = none ∧ ∃ y, m'.load t = some y) ∨
      (t = i ∧ dst = versionOf H x ∧ G x.sch.lin ≠ [] ∧ m' = m) := by
  cases n with
  | zero => simp [Ptr.translate, PM.ret] at h
  | succ n =>
    unfold Ptr.translate at h
    replace h := bind_inv h
    obtain ⟨x', m1, h1, h⟩ := h
    obtain ⟨hx', rfl⟩ := read_inv h1
    obtain rfl : x = x' := by rw [hx] at hx'; exact Option.some.inj hx'
    replace h := bind_inv h
    obtain ⟨_, m2, h2, h⟩ := h
    obtain ⟨_, rfl⟩ := ret_inv h2
    split at h
    · rename_i hne
      unfold Ptr.translateGo at h
      replace h := bind_inv h
      obtain ⟨x', m3, h3, h⟩ := h
      obtain ⟨hx', rfl⟩ := read_inv h3
      obtain rfl : x = x' := by rw [hx] at hx'; exact Option.some.inj hx'
      split at h
      · rename_i hd
        obtain ⟨ht, rfl⟩ := ret_inv h
        simp only [Res.ok.injEq, Prod.mk.injEq] at ht
        exact .inr ⟨ht.1.symm, hd, List.length_pos_iff.1 hne, rfl⟩
      replace h := bind_inv h
      obtain ⟨ti, m4, h4, h⟩ := h
      simp only [Ptr.new, Prod.mk.injEq, Res.ok.injEq] at h4
      obtain ⟨rfl, hm4⟩ := h4
      replace h := bind_inv h
      obtain ⟨_, m5, h5, h⟩ := h
      obtain ⟨ht, rfl⟩ := ret_inv h
      simp only [Res.ok.injEq, Prod.mk.injEq] at ht
      obtain ⟨rfl, _⟩ := ht
      refine .inl ⟨by simp [Mem.load], ?_⟩
      have : m3.cells.length < m'.cells.length := by
        have := keeps_goLoop (H := H) (tr := Ptr.translate C H G n) (ti := m3.cells.length)
          (P := fun m => m3.cells.length < m.cells.length)
          (fun lin id f h i s => gentle_lt (hG lin id f h i s) _)
          (fun x m hk => by simp only [Ptr.new, List.length_append]; omega)
          (fun i v => gentle_lt (C149_translate_keeps hG n i v) _) x.sch.lin
          ((H x.sch.lin).ver x.sch.pos) dst
          (fun x m hk => by simp only [write, List.length_set]; exact hk) n x.sch.pos m4
          (by rw [← hm4]; simp)
        rwa [h5] at this
      exact ⟨_, List.getElem?_eq_getElem this⟩
    · unfold alloc at h
      replace h := bind_inv h
      obtain ⟨r, m3, h3, h⟩ := h
      obtain ⟨_, rfl⟩ := ret_inv h3
      replace h := bind_inv h
      obtain ⟨j, m4, h4, h⟩ := h
      simp only [Ptr.new, Prod.mk.injEq, Res.ok.injEq] at h4
      obtain ⟨rfl, hm4⟩ := h4
      obtain ⟨ht, rfl⟩ := ret_inv h
      simp only [Res.ok.injEq, Prod.mk.injEq] at ht
      obtain ⟨rfl, _⟩ := ht
      exact .inl ⟨by simp [Mem.load], _, by rw [← hm4]; exact load_new r.1⟩

/-! ## The functions over values -/

theorem returns_bind {γ δ : Type} {fol : Mem V σ → α → Option β} {fol' : Mem V σ → γ → Option δ}
    {x : PM V σ α} {f : α → PM V σ γ} {m : Mem V σ} {v : Res β} {g : β → Res δ}
    (hx : Returns fol (x m) v)
    (hf : ∀ a m1 b, x m = (.ok a, m1) → v = .ok b → fol m1 a = some b →
      Returns fol' (f a m1) (g b)) : Returns fol' (PM.bind x f m) (v.bind g) := by
  rcases h : x m with ⟨r, m1⟩
  rw [h] at hx
  simp only [PM.bind, h]
  cases r <;> cases v <;> simp only [Returns] at hx ⊢ <;>
    first | exact hf _ _ _ h rfl hx | exact hx

theorem returns_ret (x : Res α) (m : Mem V σ) : Returns (fun _ a => some a) (PM.ret x m) x := by
  cases x <;> simp [Returns, PM.ret]

theorem returns_read {i : IPtr} {m : Mem V σ} {c : Inst V} (h : m.load i = some c) :
    Ptr.read i m = (.ok c, m) := by simp [Ptr.read, h]

theorem bind_read {i : IPtr} {m : Mem V σ} {c : Inst V} (h : m.load i = some c)
    (f : Inst V → PM V σ α) : PM.bind (Ptr.read i) f m = f c m := by
  simp [PM.bind, returns_read h]

theorem bind_new (x : Inst V) (f : IPtr → PM V σ α) (m : Mem V σ) :
    PM.bind (new x) f m = f m.cells.length (new x m).2 := rfl

theorem bind_write (i : IPtr) (x : Inst V) (f : Unit → PM V σ α) (m : Mem V σ) :
    PM.bind (write i x) f m = f () (write i x m).2 := rfl

theorem returns_asSuccessor {tr : IPtr → SV → PM V σ (IPtr × List Lac)}
    {tr' : Inst V → SV → Res (Inst V × List Lac)}
    (ht : ∀ i v m c, m.load i = some c → Returns followPair (tr i v m) (tr' c v)) {i : IPtr}
    {m : Mem V σ} {c : Inst V} (h : m.load i = some c) :
    Returns followPair (Ptr.asSuccessor H tr i m) (Thema.asSuccessor H tr' c) := by
  unfold Ptr.asSuccessor Thema.asSuccessor
  rw [bind_read h]
  refine returns_bind (returns_ret _ _) fun _ m1 _ h1 _ _ => ?_
  obtain ⟨_, rfl⟩ := ret_inv h1
  refine returns_bind (returns_ret _ _) fun q m2 q' h2 _ hq => ?_
  obtain ⟨_, rfl⟩ := ret_inv h2
  cases hq
  split
  · rw [bind_new]
    show followPair _ (_, _) = _
    simp only [followPair, PM.ret, load_new, Option.map_some]
  · exact ht _ _ _ _ h

theorem returns_asPredecessor {tr : IPtr → SV → PM V σ (IPtr × List Lac)}
    {tr' : Inst V → SV → Res (Inst V × List Lac)}
    (ht : ∀ i v m c, m.load i = some c → Returns followPair (tr i v m) (tr' c v)) {i : IPtr}
    {m : Mem V σ} {c : Inst V} (h : m.load i = some c) :
    Returns followPair (Ptr.asPredecessor H tr i m) (Thema.asPredecessor H tr' c) := by
  unfold Ptr.asPredecessor Thema.asPredecessor
  rw [bind_read h]
  refine returns_bind (returns_ret _ _) fun _ m1 _ h1 _ _ => ?_
  obtain ⟨_, rfl⟩ := ret_inv h1
  refine returns_bind (returns_ret _ _) fun q m2 q' h2 _ hq => ?_
  obtain ⟨_, rfl⟩ := ret_inv h2
  cases hq
  exact ht _ _ _ _ h

theorem returns_goLensStep (hS : SameLenses H G) (lin p q : Nat) {ti : IPtr} {m : Mem V σ}
    {c : Inst V} (h : m.load ti = some c) :
    Returns Mem.load (Ptr.goLensStep H G lin p q ti m) (Thema.goLensStep H lin p q c) := by
  unfold Ptr.goLensStep Thema.goLensStep
  rcases (hS lin).2 ⟨(H lin).ver p, (H lin).ver q⟩ with ⟨h1, h2⟩ | ⟨f, g, h1, h2, hfg⟩
  · simp only [h1, h2]
    simp [PM.ret, Returns]
  · simp only [h1, h2]
    refine returns_bind (hfg ti ⟨lin, q⟩ m c h) fun r m1 r' _ _ hr => ?_
    cases r with
    | none =>
      cases hr
      simp [PM.ret, Returns]
    | some j =>
      simp only [followOpt, Option.map_eq_some_iff] at hr
      obtain ⟨y, hy, rfl⟩ := hr
      simp only
      rw [bind_read hy]
      refine returns_bind (returns_ret _ _) fun _ m2 _ h2 _ _ => ?_
      obtain ⟨_, rfl⟩ := ret_inv h2
      split
      · simp [PM.ret, Returns]
      · simpa [PM.ret, Returns] using hy

theorem returns_goMinorStep {tr : IPtr → SV → PM V σ (IPtr × List Lac)}
    {tr' : Inst V → SV → Res (Inst V × List Lac)}
    (ht : ∀ i v m c, m.load i = some c → Returns followPair (tr i v m) (tr' c v)) {ti : IPtr}
    {m : Mem V σ} {c : Inst V} (h : m.load ti = some c) :
    Returns Mem.load (Ptr.goMinorStep H tr ti m) (Thema.goMinorStep H tr' c) := by
  have := returns_asSuccessor (H := H) ht h
  unfold Ptr.goMinorStep Thema.goMinorStep
  rcases hx : Ptr.asSuccessor H tr ti m with ⟨r, m1⟩
  rw [hx] at this
  cases r <;> rcases hv : Thema.asSuccessor H tr' c with _ | _ | _ | _ <;> rw [hv] at this <;>
    simp only [Returns] at this ⊢ <;> try exact this
  rename_i a b
  obtain ⟨a1, a2⟩ := a
  obtain ⟨b1, b2⟩ := b
  simp only [followPair, Option.map_eq_some_iff, Prod.mk.injEq] at this
  obtain ⟨y, hy, rfl, _⟩ := this
  exact hy

theorem returns_goLoop (hG : GentleLenses G) (hS : SameLenses H G)
    {tr : IPtr → SV → PM V σ (IPtr × List Lac)} {tr' : Inst V → SV → Res (Inst V × List Lac)}
    (hg : ∀ i v, Gentle (tr i v))
    (ht : ∀ i v m c, m.load i = some c → Returns followPair (tr i v m) (tr' c v)) {lin : Nat}
    {frm dst : SV} {ti : IPtr} : ∀ {n p : Nat} {m : Mem V σ} {c : Inst V}, m.load ti = some c →
      Returns (fun m _ => m.load ti) (Ptr.goLoop H G tr lin frm dst ti n p m)
        (Thema.goLoop H tr' lin frm dst n p c)
  | 0, _, _, _, _ => by simp [Ptr.goLoop, Thema.goLoop, PM.ret, Returns]
  | n + 1, p, m, c, h => by
    unfold Ptr.goLoop Thema.goLoop
    split
    · simpa [PM.ret, Returns] using h
    refine returns_bind (returns_ret _ _) fun q m1 q' h1 _ hq => ?_
    obtain ⟨_, rfl⟩ := ret_inv h1
    cases hq
    have hk : ∀ y, (if dst.less frm || decide (((H lin).ver p).major ≠ ((H lin).ver q).major) then
          Ptr.goLensStep H G lin p q ti else Ptr.goMinorStep H tr ti) m1 = y →
        ti < y.2.cells.length := by
      rintro _ rfl
      have hlt := load_lt h
      split
      · exact keeps_goLensStep (P := fun m => ti < m.cells.length)
          (fun lin id f h i s => gentle_lt (hG lin id f h i s) _) lin p q ti m1 hlt
      · exact keeps_goMinorStep (P := fun m => ti < m.cells.length)
          (fun x m hk => by
            simp only [Ptr.new, List.length_append]; exact Nat.lt_of_lt_of_le hk (Nat.le_add_right _ _))
          (fun i v => gentle_lt (hg i v) _) ti m1 hlt
    refine returns_bind (fol := Mem.load) ?_ fun rti m2 x h2 _ hx => ?_
    · split
      · exact returns_goLensStep hS _ _ _ h
      · exact returns_goMinorStep ht h
    · rw [bind_read hx, bind_write]
      exact returns_goLoop hG hS hg ht
        (load_write (List.getElem?_eq_getElem (hk _ h2)) x)

theorem returns_alloc (v : Res (Inst V × List Lac)) (m : Mem V σ) :
    Returns followPair (alloc v m) v := by
  cases v <;> simp [alloc, PM.bind, PM.ret, Returns, followPair, new, Mem.load]

/-- With lenses that do the same, `Translate` over memory returns what `Translate` over values does:
the same error or panic, or a pointer to the same instance. -/
theorem C149_values (hG : GentleLenses G) (hS : SameLenses H G) {n : Nat} {i : IPtr} {dst : SV}
    {m : Mem V σ} {c : Inst V} (h : m.load i = some c) :
    Returns followPair (Ptr.translate C H G n i dst m) (Thema.translate C H n c dst) := by
  induction n generalizing i dst m c with
  | zero => simp [Ptr.translate, Thema.translate, PM.ret, Returns]
  | succ n ih =>
    unfold Ptr.translate Thema.translate
    rw [bind_read h]
    refine returns_bind (returns_ret _ _) fun _ m1 _ h1 _ _ => ?_
    obtain ⟨_, rfl⟩ := ret_inv h1
    rw [(hS c.sch.lin).1]
    split
    · unfold Ptr.translateGo Thema.translateGo
      rw [bind_read h]
      simp only
      split
      · simp [PM.ret, Returns, followPair, h]
      · rw [bind_new]
        refine returns_bind (returns_goLoop hG hS (fun i v => C149_translate_keeps hG n i v)
          (fun i v m c hc => ih hc) (load_new c)) fun _ m2 x _ _ hx => ?_
        simp [PM.ret, Returns, followPair, hx]
    · exact returns_alloc _ _

/-- Likewise `AsSuccessor` and `AsPredecessor`. -/
theorem C149_values_steps (hG : GentleLenses G) (hS : SameLenses H G) {n : Nat} {i : IPtr}
    {m : Mem V σ} {c : Inst V} (h : m.load i = some c) :
    Returns followPair (Ptr.asSuccessor H (Ptr.translate C H G n) i m)
        (Thema.asSuccessor H (Thema.translate C H n) c) ∧
      Returns followPair (Ptr.asPredecessor H (Ptr.translate C H G n) i m)
        (Thema.asPredecessor H (Thema.translate C H n) c) :=
  have ht : ∀ i v m c, m.load i = some c →
      Returns followPair (Ptr.translate C H G n i v m) (Thema.translate C H n c v) :=
    fun _ _ _ _ h => C149_values hG hS h
  ⟨returns_asSuccessor ht h, returns_asPredecessor ht h⟩

/-- `Hydrate` and `Dehydrate` return a pointer to the instance that they return over values; it is
a new object or, where hydration fails, the receiver itself. -/
theorem C149_hydrate {n : Nat} {ref : V} {i : IPtr} {m : Mem V σ} {c : Inst V}
    (h : m.load i = some c) :
    (Returns Mem.load (Ptr.hydrate D n ref i m) (Hydrate.hydrate D n ref c) ∧
      ∀ j m', Ptr.hydrate D n ref i m = (.ok j, m') → m.load j = none ∨ j = i ∧ m' = m) ∧
    (Returns Mem.load (Ptr.dehydrate D n ref i m) (Hydrate.dehydrate D n ref c) ∧
      ∀ j m', Ptr.dehydrate D n ref i m = (.ok j, m') → m.load j = none ∨ j = i ∧ m' = m) := by
  have hnew : m.load m.cells.length = none := by simp [Mem.load]
  constructor
  · unfold Ptr.hydrate Hydrate.hydrate
    rw [bind_read h]
    cases hv : c.valid
    · simp [Inst.check, hv, PM.bind, PM.ret, Returns]
    simp only [Inst.check, hv, if_true, PM.bind, PM.ret, Bool.not_true, Bool.false_eq_true, if_false]
    rcases Hydrate.doHydrate D n ref c.raw with ni | e | k | _
    · refine ⟨load_new _, fun j m' hj => .inl ?_⟩
      simp only [new, Prod.mk.injEq, Res.ok.injEq] at hj
      rw [← hj.1]; exact hnew
    · refine ⟨h, fun j m' hj => .inr ?_⟩
      simp only [Prod.mk.injEq, Res.ok.injEq] at hj
      exact ⟨hj.1.symm, hj.2.symm⟩
    · exact ⟨rfl, by simp⟩
    · exact ⟨trivial, by simp⟩
  · unfold Ptr.dehydrate Hydrate.dehydrate
    rw [bind_read h]
    cases hv : c.valid
    · simp [Inst.check, hv, PM.bind, PM.ret, Returns]
    simp only [Inst.check, hv, if_true, PM.bind, PM.ret, Bool.not_true, Bool.false_eq_true, if_false]
    rcases Hydrate.doDehydrate D n ref c.raw with ⟨ni, ok⟩ | e | k | _
    · refine ⟨load_new _, fun j m' hj => .inl ?_⟩
      simp only [new, Prod.mk.injEq, Res.ok.injEq] at hj
      rw [← hj.1]; exact hnew
    · refine ⟨h, fun j m' hj => .inr ?_⟩
      simp only [Prod.mk.injEq, Res.ok.injEq] at hj
      exact ⟨hj.1.symm, hj.2.symm⟩
    · exact ⟨rfl, by simp⟩
    · exact ⟨trivial, by simp⟩

/-! ## Examples -/

/-- A lens that keeps what it is given and validates `d` against the schema it is asked for. -/
def keepingLens (d : SetCue.Val) : PMapper SetCue.Val (List (IPtr × Inst SetCue.Val)) :=
  fun i s m =>
    let m1 := { m with prog := m.prog ++ (m.load i).toList.map fun c => (i, c) }
    match validate SetCue.cue threeHeap s d with
    | .ok x => (.ok (some m.cells.length), { m1 with cells := m.cells ++ [x] })
    | .err e => (.err e, m1)
    | .panic k => (.panic k, m1)
    | .fuel => (.fuel, m1)

/-- Such lenses for the lineage `threeGo`. -/
def keepingLenses : Lenses SetCue.Val (List (IPtr × Inst SetCue.Val)) := fun _ =>
  [(⟨⟨0, 1⟩, ⟨0, 0⟩⟩, keepingLens [1]), (⟨⟨1, 0⟩, ⟨0, 1⟩⟩, keepingLens [2]),
   (⟨⟨0, 1⟩, ⟨1, 0⟩⟩, keepingLens [3])]

theorem keepingLenses_mem {lin : Nat} {id : LensID}
    {f : PMapper SetCue.Val (List (IPtr × Inst SetCue.Val))} (h : (id, f) ∈ keepingLenses lin) :
    ∃ d, f = keepingLens d := by
  simp only [keepingLenses, List.mem_cons, List.not_mem_nil, or_false, Prod.mk.injEq] at h
  rcases h with ⟨_, h⟩ | ⟨_, h⟩ | ⟨_, h⟩ <;> exact ⟨_, h⟩

theorem keepingLenses_gentle : GentleLenses keepingLenses := by
  intro lin id f hf i s
  obtain ⟨d, rfl⟩ := keepingLenses_mem hf
  rw [gentle_iff]
  intro b m hm
  simp only [keepingLens]
  split
  · exact has_append (m := { m with prog := _ }) hm _
  all_goals exact hm

theorem keepingLenses_record : Record id keepingLenses := by
  intro lin id' f hf i s m c hc
  obtain ⟨d, rfl⟩ := keepingLenses_mem hf
  simp only [keepingLens, hc]
  split <;> simp

theorem keepingLenses_asAsked : AsAsked keepingLenses := by
  intro lin id' f hf i s m j m' c h hj
  obtain ⟨d, rfl⟩ := keepingLenses_mem hf
  simp only [keepingLens] at h
  split at h
  · rename_i x hx
    simp only [Prod.mk.injEq, Res.ok.injEq, Option.some.injEq] at h
    obtain ⟨rfl, rfl⟩ := h
    simp only [Mem.load, List.getElem?_append_right (Nat.le_refl _), Nat.sub_self,
      List.getElem?_cons_zero, Option.some.injEq] at hj
    subst hj
    obtain ⟨_, _, rfl⟩ := validate_ok_any hx
    rfl
  all_goals simp at h

theorem keepingLenses_same : SameLenses (fun _ => threeGo) keepingLenses := by
  have key : ∀ (d : SetCue.Val) (i : IPtr) s m (c : Inst SetCue.Val), m.load i = some c →
      Returns followOpt (keepingLens d i s m) ((validate SetCue.cue threeHeap s d).map some) := by
    intro d i s m c _
    simp only [keepingLens]
    cases validate SetCue.cue threeHeap s d <;> simp [Returns, followOpt, Mem.load, Res.map]
  intro lin
  refine ⟨rfl, fun id => ?_⟩
  have hl : threeGo.lensmap =
      [(⟨⟨0, 1⟩, ⟨0, 0⟩⟩, fun _ s => (validate SetCue.cue threeHeap s [1]).map some),
       (⟨⟨1, 0⟩, ⟨0, 1⟩⟩, fun _ s => (validate SetCue.cue threeHeap s [2]).map some),
       (⟨⟨0, 1⟩, ⟨1, 0⟩⟩, fun _ s => (validate SetCue.cue threeHeap s [3]).map some)] := rfl
  simp only [keepingLenses, hl, List.lookup_cons, List.lookup_nil]
  split
  · exact .inr ⟨_, _, rfl, rfl, key _⟩
  split
  · exact .inr ⟨_, _, rfl, rfl, key _⟩
  split
  · exact .inr ⟨_, _, rfl, rfl, key _⟩
  · exact .inl ⟨rfl, rfl⟩

/-- The memory of a program that has one instance, of version 1.0. -/
def oneInstance : Mem SetCue.Val (List (IPtr × Inst SetCue.Val)) := ⟨[instAt 2 [3]], []⟩

/-- From 1.0 down to 0.0: both lenses are given object 1, which is what is returned.  What the lenses
kept was an instance of 1.0 and one of 0.1; both are now the instance of 0.0. -/
theorem C149_given_changes_witness : ∃ m',
    Ptr.translate SetCue.cue (fun _ => threeGo) keepingLenses 5 0 ⟨0, 0⟩ oneInstance =
      (.ok (1, []), m') ∧ m'.prog = [(1, instAt 2 [3]), (1, instAt 1 [2])] ∧
      m'.load 1 = some (instAt 0 [1]) ∧ m'.load 0 = some (instAt 2 [3]) :=
  ⟨_, rfl, rfl, rfl, rfl⟩

/-- The hypotheses of the theorems above hold of these lenses. -/
example : GentleLenses keepingLenses ∧ Record id keepingLenses ∧ AsAsked keepingLenses ∧
    SameLenses (fun _ => threeGo) keepingLenses ∧ oneInstance.load 0 = some (instAt 2 [3]) ∧
    keepingLenses (instAt 2 [3]).sch.lin ≠ [] ∧
    (⟨0, 0⟩ : SV) ≠ versionOf (fun _ => threeGo) (instAt 2 [3]) ∧
    (⟨0, 0⟩ : SV).less (versionOf (fun _ => threeGo) (instAt 2 [3])) :=
  ⟨keepingLenses_gentle, keepingLenses_record, keepingLenses_asAsked, keepingLenses_same, rfl,
    by simp [keepingLenses], by decide, by decide⟩

/-- The receiver itself is returned for its own version. -/
example : Ptr.translate SetCue.cue (fun _ => threeGo) keepingLenses 5 0 ⟨1, 0⟩ oneInstance =
    (.ok (0, []), oneInstance) := rfl

/-! ### The theorems on concrete memories -/

example := C149_values (C := SetCue.cue) keepingLenses_gentle keepingLenses_same (n := 5) (i := 0)
  (dst := ⟨0, 0⟩) (m := oneInstance) (c := instAt 2 [3]) rfl

example := C149_values_steps (C := SetCue.cue) keepingLenses_gentle keepingLenses_same (n := 5)
  (i := 0) (m := oneInstance) (c := instAt 2 [3]) rfl

example (D : Hydrate.HCue SetCue.Val) (ref : SetCue.Val) :=
  C149_hydrate (D := D) (n := 5) (ref := ref) (i := 0) (m := oneInstance) (c := instAt 2 [3]) rfl

/-- Translating 1.0 data down to 0.0: two supplied functions run, both were given the pointer that
is returned, and the instance given to `Translate` is as it was, also after a further call. -/
example (D : Hydrate.HCue SetCue.Val) : ∃ t lacs m' given,
    Ptr.translate SetCue.cue (fun _ => threeGo) keepingLenses 5 0 ⟨0, 0⟩ oneInstance =
      (.ok (t, lacs), m') ∧ oneInstance.load t = none ∧ m'.prog = given ∧ given ≠ [] ∧
    (∀ e ∈ given, e.1 = t) ∧
    (Ptr.translate SetCue.cue (fun _ => threeGo) keepingLenses 5 t ⟨1, 0⟩ m').2.load 0 =
      some (instAt 2 [3]) := by
  have hG := keepingLenses_gentle
  obtain ⟨⟨t, lacs⟩, m', h⟩ : ∃ r m',
      Ptr.translate SetCue.cue (fun _ => threeGo) keepingLenses 5 0 ⟨0, 0⟩ oneInstance =
        (.ok r, m') := ⟨_, _, rfl⟩
  obtain ⟨given, hg, h1, h2⟩ := C149_given_changes (C := SetCue.cue) (x := instAt 2 [3]) hG
    keepingLenses_record keepingLenses_asAsked rfl (by simp [keepingLenses]) (by decide) h
  refine ⟨t, lacs, m', given, h, ?_, by simpa [oneInstance] using hg, h2 (.inl (by decide)),
    fun e he => (h1 e he).1, ?_⟩
  · rcases C149_result (C := SetCue.cue) (x := instAt 2 [3]) hG rfl h with h | h
    · exact h.1
    · exact absurd h.2.1 (by decide)
  · have s1 := Call.translate (C := SetCue.cue) (D := D) (H := fun _ => threeGo)
      (G := keepingLenses) oneInstance 5 0 ⟨0, 0⟩
    rw [h] at s1
    exact C149_unchanged_partial hG
      ((Relation.ReflTransGen.single s1).tail (Call.translate m' 5 t ⟨1, 0⟩)) rfl

end Thema.Props
