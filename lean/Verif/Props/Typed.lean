import Verif.Lemmas.Typed

/-!
# Go types bound to schemas (C121-C124)
-/

namespace Thema.Props

open Thema.Typed Thema.Spec.Typed Thema.Lemmas.Typed Thema.Assign

/-! ## Examples -/

/-- `astring?: string, anint: int64 | *42, abool: bool, sub: {p: int64 | *7, q: int64},
tags: [...string] | *["x"]` (the first three are of `schema_test.go:14-31`). -/
def tvSchema : S := .st
  (.cons "astring".toList true (.typ .str 9 none)
  (.cons "anint".toList false (.typ .int 99 (some 42))
  (.cons "abool".toList false (.typ .bool 1 none)
  (.cons "sub".toList false (.st
    (.cons "p".toList false (.typ .int 99 (some 7))
    (.cons "q".toList false (.typ .int 99 none) .nil)))
  (.cons "tags".toList false (.olist (.typ .str 9 none) [.con .str 3]) .nil)))))

/-- A Go struct type for it. -/
def tvFields : GF :=
  .cons "astring".toList (.ptr (.scal .str 9))
  (.cons "anint".toList (.scal .int 99)
  (.cons "abool".toList (.scal .bool 1)
  (.cons "sub".toList (.st
    (.cons "p".toList (.scal .int 99)
    (.cons "q".toList (.ptr (.scal .int 99)) .nil)))
  (.cons "tags".toList (.slice (.scal .str 9)) .nil))))

/-- A value of the type, as an argument. -/
def tvArg : GV := .ptr (some (.st [("astring".toList, .ptr (some (.scal 5))),
  ("anint".toList, .scal 10), ("abool".toList, .scal 1),
  ("sub".toList, .st [("p".toList, .scal 1), ("q".toList, .ptr (some (.scal 2)))]),
  ("tags".toList, .slice (some [.scal 8, .scal 9]))]))

theorem tvSchema_wf : WF tvSchema := by
  simp [tvSchema, WF, WFF, names, Valid]

theorem tvFields_wf : WFG (.ptr (.st tvFields)) := by
  simp [tvFields, WFG, WFGF, gnames]

theorem tvSchema_assignable :
    assignable obs 9 (.sch tvSchema) (goVal (.ptr (.st tvFields)) tvArg) = .ok .nil := by rfl

/-! ## C121: BindType accepts assignable types -/

/-- **C121** (partial).  For pointer types BindType returns a typed schema exactly if
AssignableTo accepts. -/
theorem C121_pointer_partial {r : Bool} {n : Nat} {s : S} {t : GT} {x : GV} (hs : WF s)
    (ht : WFG (.ptr t)) :
    (bindType r n s (.ptr t) x).1 = .ok ⟨s, .ptr t⟩ ↔
      assignable obs n (.sch s) (goVal (.ptr t) x) = .ok .nil := by
  unfold bindType
  cases ha : assignable obs n (.sch s) (goVal (.ptr t) x) with
  | ok v =>
    cases v with
    | nil =>
      obtain ⟨hf, hT⟩ := fits_of_assignable ht ha
      rcases hT with ⟨gs, h⟩ | ⟨gs, y, h, rfl⟩
      · cases h
      · cases h
        have hd := decodeS_ok r (.st gs) s y (by rw [Fits] at hf; exact hf) hs
        dsimp only [decodeTop]
        rw [if_neg]
        · simp
        · rw [List.filter_eq_nil_iff.2]
          · simp
          · intro e he
            simpa using hd e he
    | _ => simp
  | _ => simp

/-- C121 for the schema of the example. -/
example : (bindType true 9 tvSchema (.ptr (.st tvFields)) tvArg).1 =
    .ok ⟨tvSchema, .ptr (.st tvFields)⟩ :=
  (C121_pointer_partial tvSchema_wf tvFields_wf).2 tvSchema_assignable

/-- C121: what BindType accepts is assignable, and the type is a pointer to a struct. -/
theorem C121_accepted_assignable {r : Bool} {n : Nat} {s : S} {T : GT} {x : GV} {ts : TypedSch}
    (hT : WFG T) (h : (bindType r n s T x).1 = .ok ts) :
    ts = ⟨s, T⟩ ∧ assignable obs n (.sch s) (goVal T x) = .ok .nil ∧
      ∃ gs y, T = .ptr (.st gs) ∧ x = .ptr (some y) := by
  unfold bindType at h
  cases ha : assignable obs n (.sch s) (goVal T x) with
  | ok v =>
    rw [ha] at h
    cases v with
    | nil =>
      obtain ⟨hf, hc⟩ := fits_of_assignable hT ha
      rcases hc with ⟨gs, rfl⟩ | hc
      · simp [decodeTop] at h
      · refine ⟨?_, rfl, hc⟩
        dsimp only at h
        split at h
        · cases h
        · cases h; rfl
    | _ => cases h
  | _ => rw [ha] at h; cases h

/-- C121 fails: with a struct type that is not a pointer, BindType always returns an error or
panics like AssignableTo, though its documentation says "at most one level of pointer
indirection is allowed"; if AssignableTo accepts, it returns an error. -/
theorem C121_struct_rejected (r : Bool) (n : Nat) (s : S) (gs : GF) (x : GV) :
    (∀ ts, (bindType r n s (.st gs) x).1 ≠ .ok ts) ∧
    (assignable obs n (.sch s) (goVal (.st gs) x) = .ok .nil →
      (bindType r n s (.st gs) x).1 = .err ⟨[]⟩) := by
  have h2 : assignable obs n (.sch s) (goVal (.st gs) x) = .ok .nil →
      (bindType r n s (.st gs) x).1 = .err ⟨[]⟩ := by
    intro h
    simp [bindType, h, decodeTop]
  refine ⟨fun ts => ?_, h2⟩
  cases ha : assignable obs n (.sch s) (goVal (.st gs) x) with
  | ok v =>
    cases v with
    | nil => rw [h2 ha]; simp
    | _ => simp [bindType, ha]
  | _ => simp [bindType, ha]

/-- C121 fails for the type of the example, not as a pointer: assignable, but rejected. -/
theorem C121_refuted : ∃ (s : S) (gs : GF) (x : GV), WF s ∧ WFG (.st gs) ∧
    assignable obs 9 (.sch s) (goVal (.st gs) x) = .ok .nil ∧
    ∀ r, (bindType r 9 s (.st gs) x).1 = .err ⟨[]⟩ :=
  ⟨tvSchema, tvFields, zero (.st tvFields), tvSchema_wf, tvFields_wf, by rfl,
    fun r => (C121_struct_rejected r 9 tvSchema tvFields _).2 (by rfl)⟩

/-! ## C122: the argument of BindType -/

/-- **C122** (partial).  If AssignableTo does not accept then the argument is unchanged. -/
theorem C122_refused_partial {r : Bool} {n : Nat} {s : S} {T : GT} {x : GV}
    (h : assignable obs n (.sch s) (goVal T x) ≠ .ok .nil) : (bindType r n s T x).2 = x := by
  unfold bindType
  cases ha : assignable obs n (.sch s) (goVal T x) with
  | ok v =>
    cases v with
    | nil => exact absurd ha h
    | _ => rfl
  | _ => rfl

example : (bindType true 9 (.con .int 3) (.ptr (.st tvFields)) tvArg).2 = tvArg :=
  C122_refused_partial (by
    have : assignable obs 9 (.sch (.con .int 3)) (goVal (.ptr (.st tvFields)) tvArg) =
      .ok (.errs [([], .kindMismatch)]) := by rfl
    rw [this]; simp)

theorem decodeSF_lookup {r : Bool} {fs : SF} {x : GV} : ∀ {gs : GF} {n : Str} {t : GT},
    goField gs n = some t → (decodeSF r gs fs x).1.lookup n = some
      (match fs.regular n with
        | some s => (decodeS r t s ((x.field n).getD (zero t))).1
        | none => (x.field n).getD (zero t))
  | .nil, _, _, h => by cases h
  | .cons m t' rest, n, t, h => by
    rw [goField] at h
    rw [decodeSF]
    dsimp only
    rw [List.lookup_cons]
    by_cases hm : m = n
    · subst hm
      rw [if_pos rfl] at h
      cases h
      rw [beq_self_eq_true]
      cases fs.regular m <;> rfl
    · rw [if_neg hm] at h
      rw [beq_false_of_ne (Ne.symm hm)]
      exact decodeSF_lookup h

/-- The argument after BindType has accepted. -/
theorem arg_after {r : Bool} {n : Nat} {fs : SF} {T : GT} {x : GV} (hT : WFG T)
    (h : assignable obs n (.sch (.st fs)) (goVal T x) = .ok .nil) :
    (∃ gs, T = .st gs) ∨ ∃ gs y, T = .ptr (.st gs) ∧ x = .ptr (some y) ∧
      (bindType r n (.st fs) T x).2 = .ptr (some (.st (decodeSF r gs fs y).1)) := by
  obtain ⟨hf, hc⟩ := fits_of_assignable hT h
  rcases hc with hc | ⟨gs, y, rfl, rfl⟩
  · exact .inl hc
  · refine .inr ⟨gs, y, rfl, rfl, ?_⟩
    unfold bindType
    rw [h]
    dsimp only [decodeTop]
    rw [decodeS]
    split <;> rfl

/-- **C122** (partial).  A field of the argument keeps its value if the schema has it as
optional, or as a basic type without a default for a Go field that is not a pointer. -/
theorem C122_kept_partial {r : Bool} {k : Nat} {fs : SF} {gs : GF} {xs : List (Str × GV)} {n : Str}
    {t : GT} {o : Bool} {s : S} {v : GV} (hT : WFG (.ptr (.st gs)))
    (ha : assignable obs k (.sch (.st fs)) (goVal (.ptr (.st gs)) (.ptr (some (.st xs)))) = .ok .nil)
    (hg : goField gs n = some t) (hs : decl fs n = some (o, s)) (hv : xs.lookup n = some v)
    (hc : o = true ∨ (∃ b m, s = .typ b m none) ∧ ∃ b m, t = .scal b m) :
    ∃ ys, (bindType r k (.st fs) (.ptr (.st gs)) (.ptr (some (.st xs)))).2 = .ptr (some (.st ys)) ∧
      ys.lookup n = some v := by
  rcases arg_after (r := r) hT ha with ⟨gs', h⟩ | ⟨gs', y, h, hy, hb⟩
  · cases h
  · cases h
    cases hy
    refine ⟨_, hb, ?_⟩
    rw [decodeSF_lookup hg, decl_regular, hs, GV.field, hv]
    rcases hc with rfl | ⟨⟨b, m, rfl⟩, b', m', rfl⟩
    · rfl
    · cases o
      · dsimp only
        rw [decodeS]
        rfl
      · rfl

/-- C122 fails: if the schema has a default for a required field without structs then BindType
stores it in the argument, whatever the caller had put there. -/
theorem C122_overwritten {r : Bool} {k : Nat} {fs : SF} {gs : GF} {xs : List (Str × GV)} {n : Str}
    {t : GT} {s : S} {d : D} (hT : WFG (.ptr (.st gs))) (hw : WF (.st fs))
    (ha : assignable obs k (.sch (.st fs)) (goVal (.ptr (.st gs)) (.ptr (some (.st xs)))) = .ok .nil)
    (hg : goField gs n = some t) (hs : decl fs n = some (false, s)) (hl : Structless s)
    (hd : dflt s = some d) :
    ∃ ys, (bindType r k (.st fs) (.ptr (.st gs)) (.ptr (some (.st xs)))).2 = .ptr (some (.st ys)) ∧
      ys.lookup n = some (rep t d) := by
  have hf0 := (fits_of_assignable hT ha).1
  rcases arg_after (r := r) hT ha with ⟨gs', h⟩ | ⟨gs', y, h, hy, hb⟩
  · cases h
  · cases h
    cases hy
    refine ⟨_, hb, ?_⟩
    rw [decodeSF_lookup hg, decl_regular, hs]
    dsimp only
    rw [Fits, Fits] at hf0
    rw [WF] at hw
    have hws := wff_decl hw.2 hs
    have hft := fitsF_field hf0 hg hs
    cases s with
    | con b c =>
      rw [dflt] at hd
      cases hd
      rw [decodeS, decodeD_structless r t _ _ _ hft (by rw [Valid]) hl]
    | typ b m o =>
      rw [dflt] at hd
      cases o with
      | none => cases hd
      | some c =>
        cases hd
        rw [decodeS, decodeD_structless r t _ _ _ hft
          (by rw [Valid]; rw [WF] at hws; exact ⟨c, rfl, hws c rfl⟩) hl]
    | olist e l =>
      rw [dflt] at hd
      cases hd
      rw [decodeS, decodeD_structless r t _ _ _ hft
        (by rw [Valid]; rw [WF] at hws; exact ⟨l, rfl, hws.2⟩) hl]
    | st _ => rw [Structless] at hl; exact hl.elim

/-- C122 fails: a pointer in a field that the schema requires without a default becomes nil. -/
theorem C122_cleared {r : Bool} {k : Nat} {fs : SF} {gs : GF} {xs : List (Str × GV)} {n : Str}
    {t : GT} {b : BK} {m : Nat} (hT : WFG (.ptr (.st gs)))
    (ha : assignable obs k (.sch (.st fs)) (goVal (.ptr (.st gs)) (.ptr (some (.st xs)))) = .ok .nil)
    (hg : goField gs n = some (.ptr t)) (hs : decl fs n = some (false, .typ b m none)) :
    ∃ ys, (bindType r k (.st fs) (.ptr (.st gs)) (.ptr (some (.st xs)))).2 = .ptr (some (.st ys)) ∧
      ys.lookup n = some (.ptr none) := by
  rcases arg_after (r := r) hT ha with ⟨gs', h⟩ | ⟨gs', y, h, hy, hb⟩
  · cases h
  · cases h
    cases hy
    refine ⟨_, hb, ?_⟩
    rw [decodeSF_lookup hg, decl_regular, hs]
    dsimp only
    rw [decodeS]

/-- C122 for the example: the string is kept, the number is replaced by the default, and the
pointer is cleared. -/
example : (bindType true 9 tvSchema (.ptr (.st tvFields)) tvArg).2 =
    .ptr (some (.st [("astring".toList, .ptr (some (.scal 5))),
      ("anint".toList, .scal 42), ("abool".toList, .scal 1),
      ("sub".toList, .st [("p".toList, .scal 7), ("q".toList, .ptr none)]),
      ("tags".toList, .slice (some [.scal 3]))])) := by rfl

/-- The hypotheses of C122, met by fields of the example. -/
example :
    (∃ ys, (bindType true 9 tvSchema (.ptr (.st tvFields)) tvArg).2 = .ptr (some (.st ys)) ∧
      ys.lookup "astring".toList = some (.ptr (some (.scal 5)))) ∧
    (∃ ys, (bindType true 9 tvSchema (.ptr (.st tvFields)) tvArg).2 = .ptr (some (.st ys)) ∧
      ys.lookup "abool".toList = some (.scal 1)) ∧
    (∃ ys, (bindType true 9 tvSchema (.ptr (.st tvFields)) tvArg).2 = .ptr (some (.st ys)) ∧
      ys.lookup "anint".toList = some (.scal 42)) :=
  ⟨C122_kept_partial tvFields_wf tvSchema_assignable (n := "astring".toList) rfl rfl rfl (.inl rfl),
    C122_kept_partial tvFields_wf tvSchema_assignable (n := "abool".toList) rfl rfl rfl
      (.inr ⟨⟨_, _, rfl⟩, _, _, rfl⟩),
    C122_overwritten (n := "anint".toList) (d := .con .int 42) tvFields_wf tvSchema_wf
      tvSchema_assignable rfl rfl trivial rfl⟩

/-- `{a: int64}` for `*struct{A *int64}`. -/
example : ∃ ys, (bindType true 9 (.st (.cons "a".toList false (.typ .int 9 none) .nil))
      (.ptr (.st (.cons "a".toList (.ptr (.scal .int 9)) .nil)))
      (.ptr (some (.st [("a".toList, .ptr (some (.scal 3)))])))).2 = .ptr (some (.st ys)) ∧
    ys.lookup "a".toList = some (.ptr none) :=
  C122_cleared (by simp [WFG, WFGF, gnames]) (by rfl) rfl rfl

/-! ## C123: NewT -/

/-- **C123**.  NewT has the defaults of the schema, and zero values in all other fields; what
the argument of BindType holds does not matter. -/
theorem C123_newT {r : Bool} {n : Nat} {s : S} {T : GT} {x : GV} {ts : TypedSch} (hs : WF s)
    (hT : WFG T) (h : (bindType r n s T x).1 = .ok ts) :
    ∃ d, dflt s = some d ∧ ts.newT r = rep T d := by
  obtain ⟨rfl, ha, gs, y, rfl, rfl⟩ := C121_accepted_assignable hT h
  have hf := (fits_of_assignable hT ha).1
  have hz := decodeS_zero r _ s hT hf hs
  rw [Fits] at hf
  obtain ⟨fs, rfl, _⟩ := fits_st hf
  refine ⟨_, by rw [dflt], ?_⟩
  rw [TypedSch.newT, hz, dflt]; rfl

/-- C123 for the example. -/
example : (⟨tvSchema, .ptr (.st tvFields)⟩ : TypedSch).newT true =
    .ptr (some (.st [("astring".toList, .ptr none),
      ("anint".toList, .scal 42), ("abool".toList, .scal 0),
      ("sub".toList, .st [("p".toList, .scal 7), ("q".toList, .ptr none)]),
      ("tags".toList, .slice (some [.scal 3]))])) := by
  obtain ⟨d, hd, h⟩ := C123_newT tvSchema_wf tvFields_wf
    ((C121_pointer_partial (r := true) tvSchema_wf tvFields_wf).2 tvSchema_assignable)
  rw [h]
  rw [show dflt tvSchema = some (.st [("anint".toList, .con .int 42),
    ("sub".toList, .st [("p".toList, .con .int 7)]), ("tags".toList, .list [.con .str 3])]) from rfl]
    at hd
  cases hd
  rfl

/-! ## C124: Value -/

/-- C124: Value never fails on a valid instance. -/
theorem C124_no_error {r : Bool} {n : Nat} {s : S} {T : GT} {x : GV} {ts : TypedSch} {d : D}
    (hT : WFG T) (h : (bindType r n s T x).1 = .ok ts) (hv : Valid s d) :
    (ts.value r d).2 = true := by
  obtain ⟨rfl, ha, _⟩ := C121_accepted_assignable hT h
  have hf := (fits_of_assignable hT ha).1
  rw [TypedSch.value]
  dsimp only
  rw [decodeD_ok r T s d _ hf hv]; rfl

/-- **C124** (partial).  Value has the data with the defaults of the schema, if defaults occur
neither below optional fields nor in elements of lists, and only lists without structs have
default elements. -/
theorem C124_value_partial {r : Bool} {n : Nat} {s : S} {T : GT} {x : GV} {ts : TypedSch} {d : D}
    (hs : WF s) (hT : WFG T) (h : (bindType r n s T x).1 = .ok ts) (hv : Valid s d)
    (hr : Reached s) : ts.value r d = (rep T (fill s d), true) := by
  have he := C124_no_error hT h hv
  obtain ⟨d0, hd0, hn⟩ := C123_newT hs hT h
  obtain ⟨rfl, ha, _⟩ := C121_accepted_assignable hT h
  have hf := (fits_of_assignable hT ha).1
  refine Prod.ext ?_ he
  rw [TypedSch.value]
  dsimp only
  rw [hn, ← decodeD_over r T s d hT hf hs hv hr, hd0]
  rfl

/-- Data for the example. -/
def tvData : D := .st [("abool".toList, .con .bool 1), ("sub".toList, .st [("q".toList, .con .int 5)]),
  ("tags".toList, .list [.con .str 1, .con .str 2])]

example : (⟨tvSchema, .ptr (.st tvFields)⟩ : TypedSch).value true tvData =
    (.ptr (some (.st [("astring".toList, .ptr none),
      ("anint".toList, .scal 42), ("abool".toList, .scal 1),
      ("sub".toList, .st [("p".toList, .scal 7), ("q".toList, .ptr (some (.scal 5)))]),
      ("tags".toList, .slice (some [.scal 1, .scal 2]))])), true) := by
  rw [C124_value_partial (d := tvData) tvSchema_wf tvFields_wf
    ((C121_pointer_partial (r := true) tvSchema_wf tvFields_wf).2 tvSchema_assignable)
    (by
      simp only [tvSchema, tvData, Valid, ValidF]
      refine ⟨_, rfl, ?_, ?_⟩
      · intro f hf
        simp only [List.mem_cons, List.not_mem_nil, or_false] at hf
        rcases hf with rfl | rfl | rfl <;> simp [names]
      · simp [List.lookup, mayOmit, names])
    (by simp [tvSchema, Reached, ReachedF, Spelled, Structless])]
  rfl

theorem decodeDF_lookup {r : Bool} {ds : List (Str × D)} {x : GV} : ∀ {gs : GF} {n : Str} {t : GT},
    goField gs n = some t → (decodeDF r gs ds x).1.lookup n = some
      (match ds.lookup n with
        | some d => (decodeD r t d ((x.field n).getD (zero t))).1
        | none => (x.field n).getD (zero t))
  | .nil, _, _, h => by cases h
  | .cons m t' rest, n, t, h => by
    rw [goField] at h
    rw [decodeDF]
    dsimp only
    rw [List.lookup_cons]
    by_cases hm : m = n
    · subst hm
      rw [if_pos rfl] at h
      cases h
      rw [beq_self_eq_true]
      cases ds.lookup m <;> rfl
    · rw [if_neg hm] at h
      rw [beq_false_of_ne (Ne.symm hm)]
      exact decodeDF_lookup h

/-- What Value has in one field that the data has. -/
theorem value_field {r : Bool} {k : Nat} {fs : SF} {gs : GF} {x : GV} {ts : TypedSch}
    {ds : List (Str × D)} {n : Str} {t : GT} {o : Bool} {s : S} {d : D} (hs : WF (.st fs))
    (hT : WFG (.ptr (.st gs))) (h : (bindType r k (.st fs) (.ptr (.st gs)) x).1 = .ok ts)
    (hg : goField gs n = some t) (hd : decl fs n = some (o, s)) (hn : ds.lookup n = some d) :
    ∃ ys, (ts.value r (.st ds)).1 = .ptr (some (.st ys)) ∧
      ys.lookup n = some (decodeD r t d (repO t (if o then none else dflt s))).1 := by
  obtain ⟨d0, hd0, hnew⟩ := C123_newT hs hT h
  obtain ⟨rfl, ha, _⟩ := C121_accepted_assignable hT h
  rw [dflt] at hd0
  cases hd0
  rw [TypedSch.value]
  dsimp only
  rw [hnew, rep, rep, decodeD]
  dsimp only [GV.deref, Option.getD]
  rw [decodeD]
  refine ⟨_, rfl, ?_⟩
  rw [WF] at hs
  rw [decodeDF_lookup hg, hn, GV.field, repF_lookup hg, dfltF_eq, fillF_lookup hs.1, hd]
  rfl

theorem goField_wf : ∀ {gs : GF} {n : Str} {t : GT}, WFGF gs → goField gs n = some t → WFG t
  | .nil, _, _, _, h => by cases h
  | .cons m t' rest, n, t, hw, h => by
    rw [WFGF] at hw
    rw [goField] at h
    by_cases hm : m = n
    · rw [if_pos hm] at h
      cases h
      exact hw.1
    · rw [if_neg hm] at h
      exact goField_wf hw.2 h

/-- C124 fails below optional fields: Value has the data of an optional field just as it is,
without the defaults of the schema. -/
theorem C124_optional_raw {r : Bool} {k : Nat} {fs : SF} {gs : GF} {x : GV} {ts : TypedSch}
    {ds : List (Str × D)} {n : Str} {t : GT} {s : S} {d : D} (hs : WF (.st fs))
    (hT : WFG (.ptr (.st gs))) (h : (bindType r k (.st fs) (.ptr (.st gs)) x).1 = .ok ts)
    (hv : Valid (.st fs) (.st ds)) (hg : goField gs n = some t) (hd : decl fs n = some (true, s))
    (hn : ds.lookup n = some d) :
    ∃ ys, (ts.value r (.st ds)).1 = .ptr (some (.st ys)) ∧ ys.lookup n = some (rep t d) := by
  obtain ⟨ys, h1, h2⟩ := value_field hs hT h hg hd hn
  refine ⟨ys, h1, ?_⟩
  obtain ⟨rfl, ha, _⟩ := C121_accepted_assignable hT h
  have hf := (fits_of_assignable hT ha).1
  rw [Fits, Fits] at hf
  rw [Valid] at hv
  obtain ⟨ds', he, _, hv⟩ := hv
  cases he
  rw [WFG, WFG] at hT
  rw [h2, if_pos rfl, repO, decodeD_zero r t s d (goField_wf hT.2 hg) (fitsF_field hf hg hd)
    (valid_decl hv hd hn)]

theorem decodeD_empty (r : Bool) : ∀ (t : GT) (e : S) (l0 l : List D), WFG t → Fits t (.olist e l0) →
    Valid (.olist e l0) (.list l) → (decodeD r t (.list l) (rep t (.list []))).1 = rep t (.list l)
  | .ptr t, e, l0, l, hg, hf, hv => by
    rw [Fits] at hf
    rw [WFG] at hg
    rw [decodeD, rep, rep]
    dsimp only [GV.deref, Option.getD]
    rw [decodeD_empty r t e l0 l hg hf hv]
  | .slice t, e, l0, l, hg, hf, hv => by
    rw [Fits] at hf
    rw [WFG] at hg
    rw [Valid] at hv
    obtain ⟨l', h, hl⟩ := hv
    cases h
    rw [decodeD, rep, rep]
    dsimp only [GV.elems]
    rw [slots, if_neg (by simp), zipWith_replicate l fun d hd => decodeD_zero r t e d hg hf (hl d hd)]
  | .scal _ _, _, _, _, _, hf, _ => by simp [Fits] at hf
  | .st _, _, _, _, _, hf, _ => by simp [Fits] at hf

/-- C124 fails in lists: Value has the elements of the data just as they are, without the
defaults of the schema. -/
theorem C124_list_raw {r : Bool} {k : Nat} {fs : SF} {gs : GF} {x : GV} {ts : TypedSch}
    {ds : List (Str × D)} {n : Str} {t : GT} {e : S} {l : List D} (hs : WF (.st fs))
    (hT : WFG (.ptr (.st gs))) (h : (bindType r k (.st fs) (.ptr (.st gs)) x).1 = .ok ts)
    (hv : Valid (.st fs) (.st ds)) (hg : goField gs n = some t)
    (hd : decl fs n = some (false, .olist e [])) (hn : ds.lookup n = some (.list l)) :
    ∃ ys, (ts.value r (.st ds)).1 = .ptr (some (.st ys)) ∧
      ys.lookup n = some (rep t (.list l)) := by
  obtain ⟨ys, h1, h2⟩ := value_field hs hT h hg hd hn
  refine ⟨ys, h1, ?_⟩
  obtain ⟨rfl, ha, _⟩ := C121_accepted_assignable hT h
  have hf := (fits_of_assignable hT ha).1
  rw [Fits, Fits] at hf
  rw [Valid] at hv
  obtain ⟨ds', he, _, hv⟩ := hv
  cases he
  rw [WFG, WFG] at hT
  rw [h2, if_neg (by simp), dflt, repO, decodeD_empty r t e [] l (goField_wf hT.2 hg)
    (fitsF_field hf hg hd) (valid_decl hv hd hn)]

/-- The type `{a: int64 | *c}`, and a Go type for it. -/
def tvElem (c : Nat) : S := .st (.cons "a".toList false (.typ .int 99 (some c)) .nil)
def tvGoElem : GT := .st (.cons "a".toList (.scal .int 99) .nil)

/-- C124 is refuted: in `{l: [...{a: int64 | *c}]}` the instance `{l: [{}]}` has the default
`c` in it, but Value has 0. -/
theorem C124_refuted_list (r : Bool) (c : Nat) (hc : c ≠ 0) (hm : c ≤ 99) :
    let s := S.st (.cons "l".toList false (.olist (tvElem c) []) .nil)
    let T := GT.ptr (.st (.cons "l".toList (.slice tvGoElem) .nil))
    let d := D.st [("l".toList, .list [.st []])]
    (bindType r 9 s T (.ptr (some (.st [("l".toList, .slice none)])))).1 = .ok ⟨s, T⟩ ∧
      WF s ∧ Valid s d ∧
      fill s d = .st [("l".toList, .list [.st [("a".toList, .con .int c)]])] ∧
      (⟨s, T⟩ : TypedSch).value r d =
        (.ptr (some (.st [("l".toList, .slice (some [.st [("a".toList, .scal 0)]]))])), true) ∧
      ((⟨s, T⟩ : TypedSch).value r d).1 ≠ rep T (fill s d) := by
  intro s T d
  have hs : WF s := by simp [s, tvElem, WF, WFF, names]; omega
  have hT : WFG T := by simp [T, tvGoElem, WFG, WFGF, gnames]
  have hval : (⟨s, T⟩ : TypedSch).value r d =
      (.ptr (some (.st [("l".toList, .slice (some [.st [("a".toList, .scal 0)]]))])), true) := by
    cases r <;> rfl
  have hrep : rep T (fill s d) =
      .ptr (some (.st [("l".toList, .slice (some [.st [("a".toList, .scal c)]]))])) := rfl
  refine ⟨(C121_pointer_partial hs hT).2 (by rfl), hs, ?_, rfl, hval, ?_⟩
  · simp [s, d, tvElem, Valid, ValidF, names, List.lookup, mayOmit]
  · rw [hval, hrep]
    simpa using Ne.symm hc

/-- The hypotheses of the general theorem, met by the list. -/
example (r : Bool) : ∃ ys, ((⟨S.st (.cons "l".toList false (.olist (tvElem 5) []) .nil),
      GT.ptr (.st (.cons "l".toList (.slice tvGoElem) .nil))⟩ : TypedSch).value r
        (D.st [("l".toList, .list [.st []])])).1 = .ptr (some (.st ys)) ∧
    ys.lookup "l".toList = some (.slice (some [.st [("a".toList, .scal 0)]])) :=
  have h := C124_refuted_list r 5 (by omega) (by omega)
  C124_list_raw (n := "l".toList) (t := .slice tvGoElem) (l := [.st []]) h.2.1 (by simp [tvGoElem, WFG, WFGF, gnames]) h.1 h.2.2.1 rfl rfl rfl

/-- C124 is refuted: in `{o?: {a: int64 | *c}}` the instance `{o: {}}` has the default `c` in
it, but Value has 0. -/
theorem C124_refuted_optional (r : Bool) (c : Nat) (hc : c ≠ 0) (hm : c ≤ 99) :
    let s := S.st (.cons "o".toList true (tvElem c) .nil)
    let T := GT.ptr (.st (.cons "o".toList (.ptr tvGoElem) .nil))
    let d := D.st [("o".toList, .st [])]
    (bindType r 9 s T (.ptr (some (.st [("o".toList, .ptr none)])))).1 = .ok ⟨s, T⟩ ∧
      WF s ∧ Valid s d ∧
      fill s d = .st [("o".toList, .st [("a".toList, .con .int c)])] ∧
      (⟨s, T⟩ : TypedSch).value r d =
        (.ptr (some (.st [("o".toList, .ptr (some (.st [("a".toList, .scal 0)])))])), true) ∧
      ((⟨s, T⟩ : TypedSch).value r d).1 ≠ rep T (fill s d) := by
  intro s T d
  have hs : WF s := by simp [s, tvElem, WF, WFF, names]; omega
  have hT : WFG T := by simp [T, tvGoElem, WFG, WFGF, gnames]
  have hval : (⟨s, T⟩ : TypedSch).value r d =
      (.ptr (some (.st [("o".toList, .ptr (some (.st [("a".toList, .scal 0)])))])), true) := by
    cases r <;> rfl
  have hrep : rep T (fill s d) =
      .ptr (some (.st [("o".toList, .ptr (some (.st [("a".toList, .scal c)])))])) := rfl
  refine ⟨(C121_pointer_partial hs hT).2 (by rfl), hs, ?_, rfl, hval, ?_⟩
  · simp [s, d, tvElem, Valid, ValidF, names, List.lookup, mayOmit]
  · rw [hval, hrep]
    simpa using Ne.symm hc

/-- The hypotheses of the general theorem, met by the optional field. -/
example (r : Bool) : ∃ ys, ((⟨S.st (.cons "o".toList true (tvElem 5) .nil),
      GT.ptr (.st (.cons "o".toList (.ptr tvGoElem) .nil))⟩ : TypedSch).value r
        (D.st [("o".toList, .st [])])).1 = .ptr (some (.st ys)) ∧
    ys.lookup "o".toList = some (.ptr (some (.st [("a".toList, .scal 0)]))) :=
  have h := C124_refuted_optional r 5 (by omega) (by omega)
  C124_optional_raw (n := "o".toList) (t := .ptr tvGoElem) (d := .st []) h.2.1 (by simp [tvGoElem, WFG, WFGF, gnames]) h.1 h.2.2.1 rfl rfl rfl

/-- C124 is refuted if the decoder reuses slices: in `{l: [...{a?: int64}] | *[{a: c}]}` the
instance `{l: [{}]}` says nothing about `a`, but Value has the `c` of the default list that
the data replaces. -/
theorem C124_refuted_stale (c : Nat) (hm : c ≤ 99) :
    let e := S.st (.cons "a".toList true (.typ .int 99 none) .nil)
    let s := S.st (.cons "l".toList false (.olist e [.st [("a".toList, .con .int c)]]) .nil)
    let T := GT.ptr (.st (.cons "l".toList
      (.slice (.st (.cons "a".toList (.ptr (.scal .int 99)) .nil))) .nil))
    let d := D.st [("l".toList, .list [.st []])]
    (bindType true 9 s T (.ptr (some (.st [("l".toList, .slice none)])))).1 = .ok ⟨s, T⟩ ∧
      WF s ∧ Valid s d ∧ fill s d = d ∧
      (⟨s, T⟩ : TypedSch).value true d =
        (.ptr (some (.st [("l".toList,
          .slice (some [.st [("a".toList, .ptr (some (.scal c)))]]))])), true) ∧
      rep T d = .ptr (some (.st [("l".toList, .slice (some [.st [("a".toList, .ptr none)]]))])) := by
  intro e s T d
  have hs : WF s := by simp [s, e, WF, WFF, names, Valid, ValidF, List.lookup]; omega
  have hT : WFG T := by simp [T, WFG, WFGF, gnames]
  refine ⟨(C121_pointer_partial hs hT).2 (by rfl), hs, ?_, rfl, ?_, rfl⟩
  · simp [s, e, d, Valid, ValidF, names, List.lookup, mayOmit]
  · simp [TypedSch.value, TypedSch.newT, s, T, d, decodeS, decodeSF, decodeD, decodeDF, zero, zeroF,
      SF.regular, GV.deref, GV.field, GV.elems, slots, List.lookup, hm]

end Thema.Props
