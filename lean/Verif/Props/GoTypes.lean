import Verif.Spec.GoTypes

/-!
# Rewriting generated Go types (C104 - C106)
-/

namespace Thema.Props

open GoTypes

/-! ### Pointers -/

mutual
theorem strip_dep (all : Bool) : ∀ t : GT, strip (dep all t) = strip t
  | .ident _ => rfl
  | .sel _ _ => rfl
  | .star t => by rw [dep, strip, strip, strip_dep all t]
  | .arr e => by rw [dep, strip, strip, strip_dep all e]
  | .map k v => by rw [dep, strip, strip, strip_dep all k, strip_dep all v]
  | .struct fs => by rw [dep, strip, strip, strip_depFs all fs]
theorem strip_depField (all : Bool) : ∀ t : GT, strip (depField all t) = strip t
  | .ident _ => rfl
  | .sel _ _ => rfl
  | .arr e => by rw [depField, strip, strip, strip_dep all e]
  | .map k v => by rw [depField, strip, strip, strip_dep all k, strip_dep all v]
  | .struct fs => by rw [depField, strip, strip, strip_depFs all fs]
  | .star (.arr e) => by rw [depField, strip, strip, strip, strip_dep all e]
  | .star (.map k v) => by rw [depField, strip, strip, strip, strip_dep all k, strip_dep all v]
  | .star (.ident n) => by cases all <;> rfl
  | .star (.sel p n) => by cases all <;> rfl
  | .star (.star t) => by
    rw [depField]; cases all
    · simp only [Bool.false_eq_true, if_false, strip]; rw [strip_dep false t]
    · simp only [if_true, strip]; rw [strip_dep true t]
  | .star (.struct fs) => by
    rw [depField]; cases all
    · simp only [Bool.false_eq_true, if_false, strip]; rw [strip_depFs false fs]
    · simp only [if_true, strip]; rw [strip_depFs true fs]
theorem strip_depFs (all : Bool) : ∀ fs : GFs, stripFs (depFs all fs) = stripFs fs
  | .nil => rfl
  | .cons n t r => by rw [depFs, stripFs, stripFs, strip_depField all t, strip_depFs all r]
end

/-- Not a redundant pointer. -/
def notRedundant : GT → Bool
  | .star (.arr _) => false
  | .star (.map _ _) => false
  | _ => true

theorem notRedundant_iff (t : GT) : notRedundant t = true ↔ ¬ Redundant t := by
  unfold Redundant
  cases t with
  | star t => cases t <;> simp [notRedundant]
  | _ => simp [notRedundant]

/-- What is left in a field, and below. -/
def FieldsOK (f : GT → Bool) (l : List (Field × GT)) : Prop := ∀ x ∈ l, f x.2 = true

theorem fieldsOK_append {f : GT → Bool} {a b : List (Field × GT)} (ha : FieldsOK f a)
    (hb : FieldsOK f b) : FieldsOK f (a ++ b) := by
  intro x hx
  rcases List.mem_append.1 hx with hx | hx
  · exact ha x hx
  · exact hb x hx

theorem fieldsOK_cons {f : GT → Bool} {n : Field} {t : GT} {b : List (Field × GT)} (ha : f t = true)
    (hb : FieldsOK f b) : FieldsOK f ((n, t) :: b) := by
  intro x hx
  rcases List.mem_cons.1 hx with hx | hx
  · rw [hx]; exact ha
  · exact hb x hx

theorem fieldsOK_nil {f : GT → Bool} : FieldsOK f [] := fun _ h => nomatch h

theorem dep_not_star {all : Bool} {t : GT} (h : ∀ u, t ≠ .star u) : ∀ u, dep all t ≠ .star u := by
  intro u
  cases t <;> simp_all [dep]

theorem depField_notRedundant (all : Bool) (t : GT) (h2 : ∀ u, t ≠ .star (.star u)) :
    notRedundant (depField all t) = true := by
  cases t with
  | star t => cases t <;> cases all <;> simp_all [depField, notRedundant]
  | _ => simp [depField, notRedundant]

mutual
/-- No type has a pointer to a pointer.  (`oapi-codegen` generates none.) -/
def NoDouble : GT → Prop
  | .ident _ => True
  | .sel _ _ => True
  | .star (.star _) => False
  | .star (.arr e) => NoDouble e
  | .star (.map k v) => NoDouble k ∧ NoDouble v
  | .star (.struct fs) => NoDoubleFs fs
  | .star (.ident _) => True
  | .star (.sel _ _) => True
  | .arr e => NoDouble e
  | .map k v => NoDouble k ∧ NoDouble v
  | .struct fs => NoDoubleFs fs
def NoDoubleFs : GFs → Prop
  | .nil => True
  | .cons _ t r => NoDouble t ∧ NoDoubleFs r
end

theorem noDouble_star {t : GT} (h : NoDouble (.star t)) : NoDouble t := by
  cases t <;> simp_all [NoDouble]

theorem noDouble_ne {t : GT} (h : NoDouble t) : ∀ u, t ≠ .star (.star u) := by
  intro u he
  subst he
  simp [NoDouble] at h

/-- What `depField` guarantees about a field. -/
def left (all : Bool) (t : GT) : Bool :=
  notRedundant t && (!all || !isOptional t)

theorem depField_left (all : Bool) (t : GT) (h2 : ∀ u, t ≠ .star (.star u)) :
    left all (depField all t) = true := by
  cases t with
  | star t => cases t <;> cases all <;> simp_all [depField, notRedundant, left, isOptional]
  | _ => simp [depField, notRedundant, left, isOptional]

mutual
theorem left_dep (all : Bool) : ∀ t : GT, NoDouble t → FieldsOK (left all) (allFields (dep all t))
  | .ident _, _ => fieldsOK_nil
  | .sel _ _, _ => fieldsOK_nil
  | .star t, h => by rw [dep, allFields]; exact left_dep all t (noDouble_star h)
  | .arr e, h => by rw [dep, allFields]; exact left_dep all e h
  | .map k v, h => by
    rw [dep, allFields]; exact fieldsOK_append (left_dep all k h.1) (left_dep all v h.2)
  | .struct fs, h => by rw [dep, allFields]; exact left_depFs all fs h
theorem left_depField (all : Bool) : ∀ t : GT, NoDouble t →
    FieldsOK (left all) (allFields (depField all t))
  | .ident _, _ => fieldsOK_nil
  | .sel _ _, _ => fieldsOK_nil
  | .arr e, h => by rw [depField, allFields]; exact left_dep all e h
  | .map k v, h => by
    rw [depField, allFields]; exact fieldsOK_append (left_dep all k h.1) (left_dep all v h.2)
  | .struct fs, h => by rw [depField, allFields]; exact left_depFs all fs h
  | .star (.arr e), h => by rw [depField, allFields]; exact left_dep all e h
  | .star (.map k v), h => by
    rw [depField, allFields]
    exact fieldsOK_append (left_dep all k h.1) (left_dep all v h.2)
  | .star (.ident n), _ => by cases all <;> exact fieldsOK_nil
  | .star (.sel p n), _ => by cases all <;> exact fieldsOK_nil
  | .star (.star t), h => by simp [NoDouble] at h
  | .star (.struct fs), h => by
    rw [depField]; cases all
    · simp only [Bool.false_eq_true, if_false, allFields]; exact left_depFs false fs h
    · simp only [if_true, allFields]; exact left_depFs true fs h
theorem left_depFs (all : Bool) : ∀ fs : GFs, NoDoubleFs fs →
    FieldsOK (left all) (allFieldsFs (depFs all fs))
  | .nil, _ => fieldsOK_nil
  | .cons n t r, h => by
    rw [depFs, allFieldsFs]
    exact fieldsOK_cons (depField_left all t (noDouble_ne h.1))
      (fieldsOK_append (left_depField all t h.1) (left_depFs all r h.2))
end

/-- The names of the optional fields in a list of fields. -/
def optNames (l : List (Field × GT)) : List Field := (l.filter fun f => isOptional f.2).map (·.1)

theorem optNames_append (a b : List (Field × GT)) : optNames (a ++ b) = optNames a ++ optNames b := by
  simp [optNames]

theorem optNames_cons (n : Field) (t : GT) (l : List (Field × GT)) :
    optNames ((n, t) :: l) = (if isOptional t then [n] else []) ++ optNames l := by
  unfold optNames
  rw [List.filter_cons]
  cases isOptional t <;> simp

theorem isOptional_depField (t : GT) : isOptional (depField false t) = isOptional t := by
  cases t with
  | star t => cases t <;> simp [depField, isOptional]
  | _ => simp [depField, isOptional]

mutual
theorem opt_dep : ∀ t : GT, optNames (allFields (dep false t)) = optNames (allFields t)
  | .ident _ => rfl
  | .sel _ _ => rfl
  | .star t => by rw [dep, allFields, allFields, opt_dep t]
  | .arr e => by rw [dep, allFields, allFields, opt_dep e]
  | .map k v => by rw [dep, allFields, allFields, optNames_append, optNames_append, opt_dep k, opt_dep v]
  | .struct fs => by rw [dep, allFields, allFields, opt_depFs fs]
theorem opt_depField : ∀ t : GT, optNames (allFields (depField false t)) = optNames (allFields t)
  | .ident _ => rfl
  | .sel _ _ => rfl
  | .arr e => by rw [depField, allFields, allFields, opt_dep e]
  | .map k v => by
    rw [depField, allFields, allFields, optNames_append, optNames_append, opt_dep k, opt_dep v]
  | .struct fs => by rw [depField, allFields, allFields, opt_depFs fs]
  | .star (.arr e) => by rw [depField, allFields, allFields, allFields, opt_dep e]
  | .star (.map k v) => by
    rw [depField, allFields, allFields, allFields, optNames_append, optNames_append, opt_dep k,
      opt_dep v]
  | .star (.ident n) => rfl
  | .star (.sel p n) => rfl
  | .star (.star t) => by
    rw [depField]; simp only [Bool.false_eq_true, if_false, allFields]; exact opt_dep t
  | .star (.struct fs) => by
    rw [depField]; simp only [Bool.false_eq_true, if_false, allFields]; exact opt_depFs fs
theorem opt_depFs : ∀ fs : GFs, optNames (allFieldsFs (depFs false fs)) = optNames (allFieldsFs fs)
  | .nil => rfl
  | .cons n t r => by
    rw [depFs, allFieldsFs, allFieldsFs, optNames_cons, optNames_cons, optNames_append,
      optNames_append, isOptional_depField, opt_depField t, opt_depFs r]
end

mutual
theorem contained_dep : ∀ t : GT, contained (dep false t) = contained t
  | .ident _ => rfl
  | .sel _ _ => rfl
  | .star t => rfl
  | .arr e => rfl
  | .map k v => rfl
  | .struct fs => by rw [dep, contained, contained, contained_depFs fs]
theorem contained_depField : ∀ t : GT, contained (depField false t) = contained t
  | .ident _ => rfl
  | .sel _ _ => rfl
  | .arr e => rfl
  | .map k v => rfl
  | .struct fs => by rw [depField, contained, contained, contained_depFs fs]
  | .star (.arr e) => rfl
  | .star (.map k v) => rfl
  | .star (.ident n) => rfl
  | .star (.sel p n) => rfl
  | .star (.star t) => rfl
  | .star (.struct fs) => rfl
theorem contained_depFs : ∀ fs : GFs, containedFs (depFs false fs) = containedFs fs
  | .nil => rfl
  | .cons n t r => by
    rw [depFs, containedFs, containedFs, contained_depField t, contained_depFs r]
end

/-- **C104** (only pointers).  Whatever the mode, only pointers change. -/
theorem C104_only_pointers (all : Bool) (t : GT) : strip (dep all t) = strip t := strip_dep all t

/-- **C104** (redundant pointers).  No field, at any depth, keeps a pointer to a slice or map;
with `NoOptionalPointers` no field keeps any pointer. -/
theorem C104_removed (all : Bool) {t : GT} (h : NoDouble t) :
    ∀ f ∈ allFields (dep all t), ¬ Redundant f.2 ∧ (all = true → isOptional f.2 = false) := by
  intro f hf
  have := left_dep all t h f hf
  simp only [left, Bool.and_eq_true, Bool.or_eq_true, Bool.not_eq_true'] at this
  refine ⟨(notRedundant_iff _).1 this.1, fun ha => ?_⟩
  rcases this.2 with h2 | h2
  · rw [ha] at h2; cases h2
  · exact h2

/-- **C104** (default).  By default the optional fields keep their pointers, and which types
contain which others does not change. -/
theorem C104_default (t : GT) :
    optionals (dep false t) = optionals t ∧ contained (dep false t) = contained t :=
  ⟨opt_dep t, contained_dep t⟩

/-- The fields of a struct itself. -/
def ownFields : GFs → List (Field × GT)
  | .nil => []
  | .cons n t r => (n, t) :: ownFields r

/-- **C104** (refutation).  With `NoOptionalPointers`, a struct with an optional field of its
own type, which is valid, contains itself, which is not. -/
theorem C104_recursive {n : Str} {f : Field} : ∀ {fs : GFs}, (f, GT.star (.ident n)) ∈ ownFields fs →
    n ∈ contained (dep true (.struct fs))
  | .nil, h => nomatch h
  | .cons m t r, h => by
    rw [dep, contained, depFs, containedFs, List.mem_append]
    rcases List.mem_cons.1 h with h | h
    · injection h with _ h
      subst h
      exact .inl (by simp [depField, contained])
    · right
      have := C104_recursive h
      rwa [dep, contained] at this

/-- `type Node struct { Next *Node; Tags *[]string }`. -/
def nodeT : GFs :=
  .cons ⟨"Next".toList, .none⟩ (.star (.ident "Node".toList))
    (.cons ⟨"Tags".toList, .none⟩ (.star (.arr (.ident "string".toList))) .nil)

example : contained (.struct nodeT) = [] ∧
    ((⟨"Next".toList, .none⟩ : Field), GT.star (.ident "Node".toList)) ∈ ownFields nodeT ∧
    NoDouble (.struct nodeT) :=
  ⟨rfl, List.mem_cons_self .., by simp [nodeT, NoDouble, NoDoubleFs]⟩

/-! ### Underscores -/

theorem ren_idem (n : Str) : ren (ren n) = ren n := by simp [ren]

theorem ren_no (n : Str) : '_' ∉ ren n := by simp [ren]

theorem ren_eq {n : Str} (h : '_' ∉ n) : ren n = n := by
  unfold ren
  rw [List.filter_eq_self]
  intro c hc
  simp only [bne_iff_ne, ne_eq]
  intro he; subst he; exact h hc

section
variable {f : Str → Str}

mutual
theorem iterField_map (hf : ∀ n, f (f n) = f n) : ∀ t : GT,
    iterField f (mapNames f t) = mapNames f t
  | .ident n => by simp [mapNames, iterField, hf]
  | .sel _ _ => rfl
  | .arr e => by rw [mapNames, iterField, iterArr_map hf e]
  | .map k v => by rw [mapNames, iterField, iterMap_map hf v]
  | .struct fs => by rw [mapNames, iterField, iterFs_map hf fs]
  | .star (.ident n) => by simp [mapNames, iterField, hf]
  | .star (.sel _ _) => rfl
  | .star (.arr e) => by rw [mapNames, mapNames, iterField, iterArr_map hf e]
  | .star (.map k v) => by rw [mapNames, mapNames, iterField, iterMap_map hf v]
  | .star (.struct fs) => by rw [mapNames, mapNames, iterField, iterFs_map hf fs]
  | .star (.star t) => by rw [mapNames, mapNames, iterField]
theorem iterFs_map (hf : ∀ n, f (f n) = f n) : ∀ fs : GFs,
    iterFs f (mapNamesFs f fs) = mapNamesFs f fs
  | .nil => rfl
  | .cons n t r => by rw [mapNamesFs, iterFs, iterField_map hf t, iterFs_map hf r]
theorem iterMap_map (hf : ∀ n, f (f n) = f n) : ∀ t : GT,
    iterMap f (mapNames f t) = mapNames f t
  | .ident n => by simp [mapNames, iterMap, hf]
  | .sel _ _ => rfl
  | .arr e => by rw [mapNames, iterMap, iterArr_map hf e]
  | .map k v => by rw [mapNames, iterMap, iterMap_map hf v]
  | .struct fs => by rw [mapNames, iterMap]
  | .star t => by rw [mapNames, iterMap]
theorem iterArr_map (hf : ∀ n, f (f n) = f n) : ∀ t : GT,
    iterArr f (mapNames f t) = mapNames f t
  | .ident n => by simp [mapNames, iterArr, hf]
  | .sel _ _ => rfl
  | .arr e => by rw [mapNames, iterArr, iterArr_map hf e]
  | .map k v => by rw [mapNames, iterArr]
  | .struct fs => by rw [mapNames, iterArr, iterFs_map hf fs]
  | .star t => by rw [mapNames, iterArr]
end

theorem key_map {P : Str → Prop} (hP : ∀ n, P n → f n = n) {k : GT} (hk : KeyOK P k) :
    mapNames f k = k := by
  cases k with
  | ident n => rw [mapNames, hP n hk]
  | sel p n => rfl
  | _ => exact absurd hk id

mutual
/-- The iteration alone finds every name, without structs in maps. -/
theorem iterField_ok {P : Str → Prop} (hP : ∀ n, P n → f n = n) : ∀ t : GT,
    FieldOK false P t → iterField f t = mapNames f t
  | .ident _, _ => rfl
  | .sel _ _, _ => rfl
  | .arr e, h => by rw [mapNames, iterField, iterArr_ok hP e h]
  | .map k v, h => by rw [mapNames, iterField, iterMap_ok hP v h.2, key_map hP h.1]
  | .struct fs, h => by rw [mapNames, iterField, iterFs_ok hP fs h]
  | .star (.ident _), _ => rfl
  | .star (.sel _ _), _ => rfl
  | .star (.arr e), h => by simp [FieldOK] at h
  | .star (.map k v), h => by simp [FieldOK] at h
  | .star (.struct fs), h => by rw [mapNames, mapNames, iterField, iterFs_ok hP fs h]
  | .star (.star t), h => by simp [FieldOK] at h
theorem iterFs_ok {P : Str → Prop} (hP : ∀ n, P n → f n = n) : ∀ fs : GFs,
    FieldsIn false P fs → iterFs f fs = mapNamesFs f fs
  | .nil, _ => rfl
  | .cons n t r, h => by rw [mapNamesFs, iterFs, iterField_ok hP t h.1, iterFs_ok hP r h.2]
theorem iterMap_ok {P : Str → Prop} (hP : ∀ n, P n → f n = n) : ∀ t : GT,
    ValOK false P t → iterMap f t = mapNames f t
  | .ident _, _ => rfl
  | .sel _ _, _ => rfl
  | .arr e, h => by rw [mapNames, iterMap, iterArr_ok hP e h]
  | .map k v, h => by rw [mapNames, iterMap, iterMap_ok hP v h.2, key_map hP h.1]
  | .struct fs, h => by simp [ValOK] at h
  | .star t, h => by simp [ValOK] at h
theorem iterArr_ok {P : Str → Prop} (hP : ∀ n, P n → f n = n) : ∀ t : GT,
    EltOK false P t → iterArr f t = mapNames f t
  | .ident _, _ => rfl
  | .sel _ _, _ => rfl
  | .arr e, h => by rw [mapNames, iterArr, iterArr_ok hP e h]
  | .map k v, h => by simp [EltOK] at h
  | .struct fs, h => by rw [mapNames, iterArr, iterFs_ok hP fs h]
  | .star t, h => by simp [EltOK] at h
end

theorem iterTop_ok {P : Str → Prop} (hP : ∀ n, P n → f n = n) (t : GT) (h : TopOK false P t) :
    iterTop f t = mapNames f t := by
  cases t with
  | ident n => rw [iterTop, mapNames, hP n h]
  | sel p n => rfl
  | star t => exact absurd h id
  | arr e => rw [iterTop, mapNames, iterArr_ok hP e h]
  | map k v => rw [iterTop, mapNames, iterMap_ok hP v h.2, key_map hP h.1]
  | struct fs => rw [iterTop, mapNames, iterFs_ok hP fs h]

end

theorem key_visit {P : Str → Prop} {k : GT} (hk : KeyOK P k) : visit k = k := by
  cases k with
  | ident n => rfl
  | sel p n => rfl
  | _ => exact absurd hk id

mutual
/-- The visit finds every name. -/
theorem visitField_ok {P : Str → Prop} (hP : ∀ n, P n → ren n = n) : ∀ t : GT,
    FieldOK true P t → visitField (visit t) = mapNames ren t
  | .ident _, _ => rfl
  | .sel _ _, _ => rfl
  | .arr e, h => by rw [mapNames, visit, visitField, iterArr_visit hP e h]
  | .map k v, h => by
    rw [mapNames, visit, visitField, iterMap_visit hP v h.2, key_map hP h.1, key_visit h.1]
  | .struct fs, h => by rw [mapNames, visit, visitField, visitFs_ok hP fs h] <;> simp
  | .star (.ident _), _ => rfl
  | .star (.sel _ _), _ => rfl
  | .star (.arr e), h => by simp [FieldOK] at h
  | .star (.map k v), h => by simp [FieldOK] at h
  | .star (.struct fs), h => by
    rw [mapNames, mapNames, visit, visit, visitField, visitFs_ok hP fs h] <;> simp
  | .star (.star t), h => by simp [FieldOK] at h
theorem visitFs_ok {P : Str → Prop} (hP : ∀ n, P n → ren n = n) : ∀ fs : GFs,
    FieldsIn true P fs → visitFs fs = mapNamesFs ren fs
  | .nil, _ => rfl
  | .cons n t r, h => by rw [mapNamesFs, visitFs, visitField_ok hP t h.1, visitFs_ok hP r h.2]
theorem iterMap_visit {P : Str → Prop} (hP : ∀ n, P n → ren n = n) : ∀ t : GT,
    ValOK true P t → iterMap ren (visit t) = mapNames ren t
  | .ident _, _ => rfl
  | .sel _ _, _ => rfl
  | .arr e, h => by rw [mapNames, visit, iterMap, iterArr_visit hP e h]
  | .map k v, h => by
    rw [mapNames, visit, iterMap, iterMap_visit hP v h.2, key_map hP h.1, key_visit h.1]
  | .struct fs, h => by rw [mapNames, visit, iterMap, visitFs_ok hP fs h.2]
  | .star t, h => by simp [ValOK] at h
theorem iterArr_visit {P : Str → Prop} (hP : ∀ n, P n → ren n = n) : ∀ t : GT,
    EltOK true P t → iterArr ren (visit t) = mapNames ren t
  | .ident _, _ => rfl
  | .sel _ _, _ => rfl
  | .arr e, h => by rw [mapNames, visit, iterArr, iterArr_visit hP e h]
  | .map k v, h => by simp [EltOK] at h
  | .struct fs, h => by
    rw [mapNames, visit, iterArr, visitFs_ok hP fs h, iterFs_map ren_idem fs]
  | .star t, h => by simp [EltOK] at h
end

/-! The visit and the iteration commute. -/

mutual
theorem iterArr_idem : ∀ t : GT, iterArr ren (iterArr ren t) = iterArr ren t
  | .ident n => by simp [iterArr, ren_idem]
  | .sel _ _ => rfl
  | .arr e => by rw [iterArr, iterArr, iterArr_idem e]
  | .map _ _ => rfl
  | .struct fs => by rw [iterArr, iterArr, iterFs_idem fs]
  | .star _ => rfl
theorem iterMap_idem : ∀ t : GT, iterMap ren (iterMap ren t) = iterMap ren t
  | .ident n => by simp [iterMap, ren_idem]
  | .sel _ _ => rfl
  | .arr e => by rw [iterMap, iterMap, iterArr_idem e]
  | .map k v => by rw [iterMap, iterMap, iterMap_idem v]
  | .struct fs => rfl
  | .star _ => rfl
theorem iterField_idem : ∀ t : GT, iterField ren (iterField ren t) = iterField ren t
  | .ident n => by simp [iterField, ren_idem]
  | .sel _ _ => rfl
  | .arr e => by rw [iterField, iterField, iterArr_idem e]
  | .map k v => by rw [iterField, iterField, iterMap_idem v]
  | .struct fs => by rw [iterField, iterField, iterFs_idem fs]
  | .star (.ident n) => by simp [iterField, ren_idem]
  | .star (.sel _ _) => rfl
  | .star (.arr e) => by rw [iterField, iterField, iterArr_idem e]
  | .star (.map k v) => by rw [iterField, iterField, iterMap_idem v]
  | .star (.struct fs) => by rw [iterField, iterField, iterFs_idem fs]
  | .star (.star _) => rfl
theorem iterFs_idem : ∀ fs : GFs, iterFs ren (iterFs ren fs) = iterFs ren fs
  | .nil => rfl
  | .cons n t r => by rw [iterFs, iterFs, iterField_idem t, iterFs_idem r]
end

theorem visitField_iterField (t : GT) :
    visitField (iterField ren t) = iterField ren (visitField t) := by
  cases t with
  | star t => cases t <;> simp [iterField, visitField]
  | _ => simp [iterField, visitField]

mutual
theorem visit_iterArr : ∀ t : GT, visit (iterArr ren t) = iterArr ren (visit t)
  | .ident n => rfl
  | .sel _ _ => rfl
  | .arr e => by rw [iterArr, visit, visit, iterArr, visit_iterArr e]
  | .map _ _ => rfl
  | .struct fs => by rw [iterArr, visit, visit, iterArr, visitFs_iterFs fs]
  | .star _ => rfl
theorem visit_iterMap : ∀ t : GT, visit (iterMap ren t) = iterMap ren (visit t)
  | .ident n => rfl
  | .sel _ _ => rfl
  | .arr e => by rw [iterMap, visit, visit, iterMap, visit_iterArr e]
  | .map k v => by rw [iterMap, visit, visit, iterMap, visit_iterMap v]
  | .struct fs => rfl
  | .star _ => rfl
theorem visit_iterField : ∀ t : GT, visit (iterField ren t) = iterField ren (visit t)
  | .ident n => rfl
  | .sel _ _ => rfl
  | .arr e => by rw [iterField, visit, visit, iterField, visit_iterArr e]
  | .map k v => by rw [iterField, visit, visit, iterField, visit_iterMap v]
  | .struct fs => by rw [iterField, visit, visit, iterField, visitFs_iterFs fs]
  | .star (.ident n) => rfl
  | .star (.sel _ _) => rfl
  | .star (.arr e) => by rw [iterField, visit, visit, visit, visit, iterField, visit_iterArr e]
  | .star (.map k v) => by rw [iterField, visit, visit, visit, visit, iterField, visit_iterMap v]
  | .star (.struct fs) => by
    rw [iterField, visit, visit, visit, visit, iterField, visitFs_iterFs fs]
  | .star (.star _) => rfl
theorem visitFs_iterFs : ∀ fs : GFs, visitFs (iterFs ren fs) = iterFs ren (visitFs fs)
  | .nil => rfl
  | .cons n t r => by
    rw [iterFs, visitFs, visitFs, iterFs, visit_iterField t, visitField_iterField,
      visitFs_iterFs r]
end

theorem visitTop_ok {P : Str → Prop} (hP : ∀ n, P n → ren n = n) (t : GT) (h : TopOK true P t) :
    visit (iterTop ren t) = mapNames ren t := by
  cases t with
  | ident n => rw [iterTop, visit, mapNames, hP n h]
  | sel p n => rfl
  | star t => exact absurd h id
  | arr e => rw [iterTop, visit, mapNames, visit_iterArr, iterArr_visit hP e h]
  | map k v =>
    rw [iterTop, visit, mapNames, visit_iterMap, iterMap_visit hP v h.2, key_map hP h.1,
      key_visit h.1]
  | struct fs =>
    rw [iterTop, visit, mapNames, visitFs_iterFs, visitFs_ok hP fs h, iterFs_map ren_idem]

mutual
theorem refs_map (f : Str → Str) : ∀ t : GT, refs (mapNames f t) = (refs t).map f
  | .ident n => rfl
  | .sel _ _ => rfl
  | .star t => by rw [mapNames, refs, refs, refs_map f t]
  | .arr e => by rw [mapNames, refs, refs, refs_map f e]
  | .map k v => by rw [mapNames, refs, refs, refs_map f k, refs_map f v, List.map_append]
  | .struct fs => by rw [mapNames, refs, refs, refsFs_map f fs]
theorem refsFs_map (f : Str → Str) : ∀ fs : GFs, refsFs (mapNamesFs f fs) = (refsFs fs).map f
  | .nil => rfl
  | .cons n t r => by rw [mapNamesFs, refsFs, refsFs, refs_map f t, refsFs_map f r, List.map_append]
end

theorem fixUnderscores_cons {replace : Str → Str} {d : Decl} {ds r : List Decl}
    (h : fixUnderscores replace (d :: ds) = .ok r) :
    ∃ d' ds', usDecl replace d = .ok d' ∧ fixUnderscores replace ds = .ok ds' ∧ r = d' :: ds' := by
  rw [fixUnderscores] at h
  cases hd : usDecl replace d with
  | ok d' =>
    rw [hd] at h
    simp only [Res.bind] at h
    cases hds : fixUnderscores replace ds with
    | ok ds' =>
      rw [hds] at h
      simp only [Res.ok.injEq] at h
      exact ⟨d', ds', rfl, rfl, h.symm⟩
    | _ => rw [hds] at h; cases h
  | _ => rw [hd] at h; cases h

theorem usDecl_typ {replace : Str → Str} {d : List Str} {n : Str} {t : GT} {x : Decl}
    (h : usDecl replace (.typ d n t) = .ok x) :
    ∃ d', x = .typ d' (ren n) (visit (iterTop ren t)) := by
  rw [usDecl] at h
  cases hd : renDoc replace n d with
  | ok d' => rw [hd] at h; cases h; exact ⟨d', rfl⟩
  | _ => rw [hd] at h; cases h

theorem declared_cons_typ (d : List Str) (n : Str) (t : GT) (ds : List Decl) :
    declared (.typ d n t :: ds) = n :: declared ds := rfl
theorem declared_cons_func (o : Option Str) (n : Str) (ds : List Decl) :
    declared (.func o n :: ds) = declared ds := rfl
theorem declared_cons_consts (ts : List Str) (ds : List Decl) :
    declared (.consts ts :: ds) = declared ds := rfl

/-- **C105** (declared names).  Every type is declared afterwards, under its name without
underscores. -/
theorem C105_declared {replace : Str → Str} : ∀ {ds ds' : List Decl},
    fixUnderscores replace ds = .ok ds' → declared ds' = (declared ds).map ren
  | [], _, h => by cases h; rfl
  | d :: ds, r, h => by
    obtain ⟨d', ds', h1, h2, rfl⟩ := fixUnderscores_cons h
    have ih := C105_declared h2
    cases d with
    | typ doc n t =>
      obtain ⟨doc', rfl⟩ := usDecl_typ h1
      rw [declared_cons_typ, declared_cons_typ, ih]; rfl
    | func o n => cases h1; rw [declared_cons_func, declared_cons_func, ih]
    | consts ts => cases h1; rw [declared_cons_consts, declared_cons_consts, ih]

/-- Everything that is used afterwards was used before, under the old name. -/
theorem us_uses {replace : Str → Str} {P : Str → Prop} (hP : ∀ n, P n → ren n = n) :
    ∀ {ds ds' : List Decl}, fixUnderscores replace ds = .ok ds' → (∀ d ∈ ds, DeclOK true P d) →
      ∀ d' ∈ ds', ∀ n ∈ d'.uses, ∃ d ∈ ds, ∃ m ∈ d.uses, n = ren m
  | [], _, h, _ => by cases h; intro d' hd'; cases hd'
  | d :: ds, r, h, hc => by
    obtain ⟨d', ds', h1, h2, rfl⟩ := fixUnderscores_cons h
    have ih := us_uses hP h2 fun x hx => hc x (List.mem_cons_of_mem _ hx)
    intro x hx n hn
    rcases List.mem_cons.1 hx with hx | hx
    · subst hx
      refine ⟨d, List.mem_cons_self .., ?_⟩
      have hd := hc d (List.mem_cons_self ..)
      cases d with
      | typ doc m t =>
        obtain ⟨doc', rfl⟩ := usDecl_typ h1
        rw [Decl.uses, visitTop_ok hP t hd, refs_map] at hn
        obtain ⟨k, hk, rfl⟩ := List.mem_map.1 hn
        exact ⟨k, hk, rfl⟩
      | func o m => cases h1; cases hn
      | consts ts => cases h1; exact ⟨n, hn, (hP n (hd n hn)).symm⟩
    · obtain ⟨y, hy, m, hm, he⟩ := ih x hx n hn
      exact ⟨y, List.mem_cons_of_mem _ hy, m, hm, he⟩

/-- **C105** (partial: names with underscores only in the positions of `DeclOK`).  Afterwards no
name of a type has an underscore, and a file without undefined types has none afterwards. -/
theorem C105_underscores_partial {replace : Str → Str} {pre : List Str} {ds ds' : List Decl}
    (hpre : ∀ n ∈ pre, '_' ∉ n) (hds : ∀ d ∈ ds, DeclOK true (fun n => '_' ∉ n) d)
    (h : fixUnderscores replace ds = .ok ds') :
    (∀ n ∈ declared ds', '_' ∉ n) ∧ (∀ d ∈ ds', ∀ n ∈ d.uses, '_' ∉ n) ∧
      ((∀ n, ¬ UndefinedType pre ds n) → ∀ n, ¬ UndefinedType pre ds' n) := by
  have hP : ∀ n : Str, '_' ∉ n → ren n = n := fun n => ren_eq
  have hu := us_uses hP h hds
  refine ⟨?_, ?_, ?_⟩
  · intro n hn
    rw [C105_declared h] at hn
    obtain ⟨m, _, rfl⟩ := List.mem_map.1 hn
    exact ren_no m
  · intro d hd n hn
    obtain ⟨_, _, m, _, rfl⟩ := hu d hd n hn
    exact ren_no m
  · rintro hcl n ⟨⟨d, hd, hn⟩, hnd, hnp⟩
    obtain ⟨d0, hd0, m, hm, rfl⟩ := hu d hd n hn
    refine hcl m ⟨⟨d0, hd0, hm⟩, ?_, ?_⟩
    · intro hmd
      exact hnd (by rw [C105_declared h]; exact List.mem_map_of_mem hmd)
    · intro hmp
      rw [hP m (hpre m hmp)] at hnp
      exact hnp hmp

/-- **C105** (success).  It succeeds if every declaration with an underscore has a comment. -/
theorem C105_succeeds {replace : Str → Str} : ∀ {ds : List Decl},
    (∀ n t, Decl.typ [] n t ∈ ds → '_' ∉ n) → ∃ ds', fixUnderscores replace ds = .ok ds'
  | [], _ => ⟨_, rfl⟩
  | d :: ds, h => by
    obtain ⟨ds', h2⟩ := C105_succeeds (replace := replace) (ds := ds)
      fun n t hm => h n t (List.mem_cons_of_mem _ hm)
    have h1 : ∃ d', usDecl replace d = .ok d' := by
      cases d with
      | typ doc n t =>
        cases doc with
        | nil =>
          have := h n t (List.mem_cons_self ..)
          exact ⟨.typ [] (ren n) (visit (iterTop ren t)), by
            rw [usDecl, renDoc, if_neg this]; rfl⟩
        | cons a b => exact ⟨_, rfl⟩
      | func o n => exact ⟨_, rfl⟩
      | consts ts => exact ⟨_, rfl⟩
    obtain ⟨d', h1⟩ := h1
    exact ⟨d' :: ds', by rw [fixUnderscores, h1]; simp only [Res.bind]; rw [h2]⟩

/-- **C105** (refutation).  It panics if a declaration with an underscore has no comment. -/
theorem C105_no_comment_panics {replace : Str → Str} {n : Str} {t : GT} (hn : '_' ∈ n) :
    ∀ {ds : List Decl}, Decl.typ [] n t ∈ ds →
      fixUnderscores replace ds = .panic .indexOutOfRange
  | [], h => nomatch h
  | d :: ds, h => by
    rw [fixUnderscores]
    rcases List.mem_cons.1 h with h | h
    · subst h
      rw [usDecl, renDoc, if_pos hn]; rfl
    · have ih := C105_no_comment_panics (replace := replace) hn h
      cases d with
      | typ doc m u =>
        cases doc with
        | nil =>
          by_cases hm : '_' ∈ m
          · rw [usDecl, renDoc, if_pos hm]; rfl
          · rw [usDecl, renDoc, if_neg hm]
            simp only [Res.bind]
            rw [ih]
        | cons a b =>
          rw [usDecl, renDoc]
          simp only [Res.bind]
          rw [ih]
      | func o m => show Res.bind (fixUnderscores replace ds) _ = _; rw [ih]; rfl
      | consts ts => show Res.bind (fixUnderscores replace ds) _ = _; rw [ih]; rfl

/-- **C105** (refutation).  Two types whose names differ only in underscores are declared with
the same name. -/
theorem C105_clash {replace : Str → Str} {ds ds' : List Decl} {n m : Str}
    (h : fixUnderscores replace ds = .ok ds') (hn : n ∈ declared ds) (hm : m ∈ declared ds)
    (hne : n ≠ m) (he : n.filter (· != '_') = m.filter (· != '_')) : ¬ (declared ds').Nodup := by
  rw [C105_declared h]
  intro hnd
  exact hne (inj hnd hn hm he)
where
  inj {n m : Str} : ∀ {l : List Str}, (l.map ren).Nodup → n ∈ l → m ∈ l → ren n = ren m → n = m
    | [], _, h, _, _ => nomatch h
    | x :: l, hnd, hn, hm, he => by
      rw [List.map_cons, List.nodup_cons] at hnd
      rcases List.mem_cons.1 hn with hn' | hn' <;> rcases List.mem_cons.1 hm with hm' | hm'
      · rw [hn', hm']
      · subst hn'
        exact absurd (he ▸ List.mem_map_of_mem hm') hnd.1
      · subst hm'
        exact absurd (he ▸ List.mem_map_of_mem hn') hnd.1
      · exact inj hnd.2 hn' hm' he

/-- Where a name is not renamed: the type of constants, the target of a declaration of a
type with another's, the values of maps in slices, in slices of pointers, and in maps of
pointers. -/
inductive Forgotten (n : Str) : Decl → Prop
  | const {ts : List Str} : n ∈ ts → Forgotten n (.consts ts)
  | alias (d : List Str) (m : Str) : Forgotten n (.typ d m (.ident n))
  | sliceOfMaps (d : List Str) (m : Str) (k : GT) : Forgotten n (.typ d m (.arr (.map k (.ident n))))
  | fieldSliceOfMaps (d : List Str) (m : Str) (f : Field) (k : GT) (r : GFs) :
      Forgotten n (.typ d m (.struct (.cons f (.arr (.map k (.ident n))) r)))
  | fieldSliceOfPtrs (d : List Str) (m : Str) (f : Field) (r : GFs) :
      Forgotten n (.typ d m (.struct (.cons f (.arr (.star (.ident n))) r)))
  | fieldMapOfPtrs (d : List Str) (m : Str) (f : Field) (k : GT) (r : GFs) :
      Forgotten n (.typ d m (.struct (.cons f (.map k (.star (.ident n))) r)))

theorem us_keeps {replace : Str → Str} {x : Decl} : ∀ {ds ds' : List Decl},
    fixUnderscores replace ds = .ok ds' → x ∈ ds → ∃ x' ∈ ds', usDecl replace x = .ok x'
  | [], _, _, h => nomatch h
  | d :: ds, r, h, hx => by
    obtain ⟨d', ds', h1, h2, rfl⟩ := fixUnderscores_cons h
    rcases List.mem_cons.1 hx with hx | hx
    · subst hx; exact ⟨d', List.mem_cons_self .., h1⟩
    · obtain ⟨x', hx', he⟩ := us_keeps h2 hx
      exact ⟨x', List.mem_cons_of_mem _ hx', he⟩

/-- **C105** (refutation).  A name with an underscore in such a position is left, and nothing
is declared with it any more. -/
theorem C105_forgotten {replace : Str → Str} {pre : List Str} {ds ds' : List Decl} {n : Str}
    {x : Decl} (h : fixUnderscores replace ds = .ok ds') (hx : x ∈ ds) (hf : Forgotten n x)
    (hn : '_' ∈ n) (hp : n ∉ pre) : UndefinedType pre ds' n := by
  obtain ⟨x', hx', he⟩ := us_keeps h hx
  refine ⟨⟨x', hx', ?_⟩, ?_, hp⟩
  · cases hf with
    | const hm => cases he; exact hm
    | alias d m =>
      obtain ⟨_, rfl⟩ := usDecl_typ he
      simp [Decl.uses, iterTop, visit, refs]
    | sliceOfMaps d m k =>
      obtain ⟨_, rfl⟩ := usDecl_typ he
      simp [Decl.uses, iterTop, iterArr, visit, refs]
    | fieldSliceOfMaps d m f k r =>
      obtain ⟨_, rfl⟩ := usDecl_typ he
      simp [Decl.uses, iterTop, iterFs, iterField, iterArr, visit, visitFs, visitField, refs,
        refsFs]
    | fieldSliceOfPtrs d m f r =>
      obtain ⟨_, rfl⟩ := usDecl_typ he
      simp [Decl.uses, iterTop, iterFs, iterField, iterArr, visit, visitFs, visitField, refs,
        refsFs]
    | fieldMapOfPtrs d m f k r =>
      obtain ⟨_, rfl⟩ := usDecl_typ he
      simp [Decl.uses, iterTop, iterFs, iterField, iterMap, visit, visitFs, visitField, refs,
        refsFs]
  · intro hd
    rw [C105_declared h] at hd
    obtain ⟨m, _, rfl⟩ := List.mem_map.1 hd
    exact ren_no m hn

/-- `type A_b string`, `const x A_b = …`, `type C struct { F A_b; G map[string]struct { H *A_b } }`. -/
def usFile (cs : List Str) : List Decl :=
  [.typ ["// A_b".toList] "A_b".toList (.ident "string".toList), .consts cs,
   .typ [] "C".toList (.struct (.cons ⟨"F".toList, .none⟩ (.ident "A_b".toList)
     (.cons ⟨"G".toList, .none⟩ (.map (.ident "string".toList)
       (.struct (.cons ⟨"H".toList, .none⟩ (.star (.ident "A_b".toList)) .nil))) .nil)))]

example : (∀ d ∈ usFile [], DeclOK true (fun n => '_' ∉ n) d) ∧
    (∀ n, ¬ UndefinedType ["string".toList] (usFile []) n) ∧
    (∀ n t, Decl.typ [] n t ∈ usFile [] → '_' ∉ n) := by
  refine ⟨?_, ?_, ?_⟩
  · simp [usFile, DeclOK, TopOK, FieldsIn, FieldOK, KeyOK, ValOK]
  · rintro n ⟨⟨d, hd, hn⟩, h2, h3⟩
    simp only [usFile, declared, List.filterMap, List.mem_cons, List.not_mem_nil, or_false,
      not_or] at h2 h3 hd
    rcases hd with rfl | rfl | rfl
    · exact h3 (by simpa [Decl.uses, refs] using hn)
    · cases hn
    · simp [Decl.uses, refs, refsFs] at hn
      rcases hn with rfl | rfl | rfl
      · exact h2.1 rfl
      · exact h3 rfl
      · exact h2.1 rfl
  · intro n t h
    simp only [usFile, List.mem_cons, List.not_mem_nil, or_false, Decl.typ.injEq, reduceCtorEq,
      false_and, false_or, true_and] at h
    rw [h.1]; decide

example : ∃ ds', fixUnderscores id (usFile ["A_b".toList]) = .ok ds' ∧
    Forgotten "A_b".toList (.consts ["A_b".toList]) :=
  ⟨_, rfl, .const (List.mem_cons_self ..)⟩

example : "Foo_Bar".toList ≠ "FooBar".toList ∧
    "Foo_Bar".toList.filter (· != '_') = "FooBar".toList.filter (· != '_') := by decide

/-! ### Raw data -/

theorem isRaw_iff (t : GT) : isRaw t = true ↔
    ∃ fld, t = .struct (.cons fld (.sel "json".toList "RawMessage".toList) .nil) := by
  constructor
  · intro h
    cases t with
    | struct fs =>
      cases fs with
      | nil => cases h
      | cons fld u r =>
        cases u with
        | sel p n =>
          cases r with
          | nil =>
            rw [isRaw, Bool.and_eq_true, beq_iff_eq, beq_iff_eq] at h
            exact ⟨fld, by rw [h.1, h.2]⟩
          | cons _ _ _ => cases h
        | _ => cases h
    | _ => cases h
  · rintro ⟨fld, rfl⟩; rfl

theorem unnamed_iff (d : List Str) : unnamed d = true ↔ Unnamed d := by
  cases d with
  | nil =>
    constructor
    · intro h; cases h
    · rintro ⟨x, r, h⟩; cases h
  | cons l ds =>
    rw [unnamed, List.isPrefixOf_iff_prefix, List.reverse_prefix]
    constructor
    · rintro ⟨x, rfl⟩; exact ⟨x, ds, rfl⟩
    · rintro ⟨x, r, h⟩
      injection h with h _
      exact ⟨x, h.symm⟩

/-- What the scan finds. -/
theorem scan_spec : ∀ {ds : List Decl} {raw ex r : List Str}, scan ds raw ex = .ok r → ∀ n,
    n ∈ r ↔ n ∈ ex ∨ (n ∈ raw ∧ ∃ f, Decl.func (some n) f ∈ ds) ∨ RawType ds n
  | [], raw, ex, r, h, n => by
    cases h
    constructor
    · exact .inl
    · rintro (h | ⟨_, _, h⟩ | ⟨a, _, _, _, _, _, h⟩)
      · exact h
      · cases h
      · cases a <;> cases h
  | .consts ts :: ds, raw, ex, r, h, n => by
    rw [scan] at h
    rw [scan_spec h n]
    refine or_congr_right (or_congr ?_ ?_)
    · simp
    · constructor
      · rintro ⟨a, d, fld, b, f, c, rfl⟩; exact ⟨.consts ts :: a, d, fld, b, f, c, rfl⟩
      · rintro ⟨a, d, fld, b, f, c, h⟩
        cases a with
        | nil => cases h
        | cons x a => injection h with _ h; exact ⟨a, d, fld, b, f, c, h⟩
  | .func none m :: ds, raw, ex, r, h, n => by cases h
  | .func (some m) g :: ds, raw, ex, r, h, n => by
    rw [scan] at h
    rw [scan_spec h n]
    have hraw : RawType (.func (some m) g :: ds) n ↔ RawType ds n := by
      constructor
      · rintro ⟨a, d, fld, b, f, c, h⟩
        cases a with
        | nil => cases h
        | cons x a => injection h with _ h; exact ⟨a, d, fld, b, f, c, h⟩
      · rintro ⟨a, d, fld, b, f, c, rfl⟩; exact ⟨.func (some m) g :: a, d, fld, b, f, c, rfl⟩
    rw [hraw]
    by_cases hm : m ∈ raw
    · rw [if_pos (List.contains_iff_mem.2 hm), List.mem_cons]
      constructor
      · rintro ((rfl | h) | ⟨h1, f, h2⟩ | h)
        · exact .inr (.inl ⟨hm, g, List.mem_cons_self ..⟩)
        · exact .inl h
        · exact .inr (.inl ⟨h1, f, List.mem_cons_of_mem _ h2⟩)
        · exact .inr (.inr h)
      · rintro (h | ⟨h1, f, h2⟩ | h)
        · exact .inl (.inr h)
        · rcases List.mem_cons.1 h2 with h2 | h2
          · injection h2 with h2 _; injection h2 with h2
            exact .inl (.inl h2)
          · exact .inr (.inl ⟨h1, f, h2⟩)
        · exact .inr (.inr h)
    · rw [if_neg fun hc => hm (List.contains_iff_mem.1 hc)]
      constructor
      · rintro (h | ⟨h1, f, h2⟩ | h)
        · exact .inl h
        · exact .inr (.inl ⟨h1, f, List.mem_cons_of_mem _ h2⟩)
        · exact .inr (.inr h)
      · rintro (h | ⟨h1, f, h2⟩ | h)
        · exact .inl h
        · rcases List.mem_cons.1 h2 with h2 | h2
          · injection h2 with h2 _; injection h2 with h2
            exact absurd (h2 ▸ h1) hm
          · exact .inr (.inl ⟨h1, f, h2⟩)
        · exact .inr (.inr h)
  | .typ d m t :: ds, raw, ex, r, h, n => by
    rw [scan] at h
    rw [scan_spec h n]
    have hin : (∃ f, Decl.func (some n) f ∈ Decl.typ d m t :: ds) ↔
        ∃ f, Decl.func (some n) f ∈ ds := by simp
    have hraw : RawType (.typ d m t :: ds) n ↔
        (n = m ∧ isRaw t = true ∧ ∃ f, Decl.func (some n) f ∈ ds) ∨ RawType ds n := by
      constructor
      · rintro ⟨a, d', fld, b, f, c, h⟩
        cases a with
        | nil =>
          injection h with h1 h2
          injection h1 with _ h1 h3
          exact .inl ⟨h1.symm, (isRaw_iff t).2 ⟨fld, h3⟩, f, by rw [h2]; simp⟩
        | cons x a => injection h with _ h; exact .inr ⟨a, d', fld, b, f, c, h⟩
      · rintro (⟨rfl, h1, f, h2⟩ | ⟨a, d', fld, b, f, c, rfl⟩)
        · obtain ⟨fld, rfl⟩ := (isRaw_iff t).1 h1
          obtain ⟨b, c, rfl⟩ := List.append_of_mem h2
          exact ⟨[], d, fld, b, f, c, rfl⟩
        · exact ⟨.typ d m t :: a, d', fld, b, f, c, rfl⟩
    rw [hraw, hin]
    cases ht : isRaw t with
    | false => simp
    | true =>
      simp only [if_true, List.mem_cons]
      constructor
      · rintro (h | ⟨rfl | h1, h2⟩ | h)
        · exact .inl h
        · exact .inr (.inr (.inl ⟨rfl, trivial, h2⟩))
        · exact .inr (.inl ⟨h1, h2⟩)
        · exact .inr (.inr (.inr h))
      · rintro (h | h | ⟨rfl, _, h2⟩ | h)
        · exact .inl h
        · exact .inr (.inl ⟨.inr h.1, h.2⟩)
        · exact .inr (.inl ⟨.inl rfl, h2⟩)
        · exact .inr (.inr h)

theorem scan_ok : ∀ {ds : List Decl} (raw ex : List Str), (∀ f, Decl.func none f ∉ ds) →
    ∃ r, scan ds raw ex = .ok r
  | [], _, ex, _ => ⟨ex, rfl⟩
  | .typ _ _ _ :: ds, _, _, h =>
    scan_ok (ds := ds) _ _ fun f hf => h f (List.mem_cons_of_mem _ hf)
  | .consts _ :: ds, _, _, h => scan_ok (ds := ds) _ _ fun f hf => h f (List.mem_cons_of_mem _ hf)
  | .func (some _) _ :: ds, _, _, h =>
    scan_ok (ds := ds) _ _ fun f hf => h f (List.mem_cons_of_mem _ hf)
  | .func none f :: _, _, _, h => absurd (List.mem_cons_self ..) (h f)

theorem scan_panics {f : Str} : ∀ {ds : List Decl} (raw ex : List Str), Decl.func none f ∈ ds →
    scan ds raw ex = .panic .nilDeref
  | [], _, _, h => nomatch h
  | .typ _ _ _ :: ds, _, _, h => scan_panics (ds := ds) _ _ (by simpa using h)
  | .consts _ :: ds, _, _, h => scan_panics (ds := ds) _ _ (by simpa using h)
  | .func (some _) _ :: ds, _, _, h => scan_panics (ds := ds) _ _ (by simpa using h)
  | .func none _ :: _, _, _, _ => rfl

/-- What is left of a declaration. -/
def keep (ex : List Str) : Decl → Option Decl
  | .typ d n t => if unnamed d || ex.contains n then none else some (.typ d n (iterTop (rawName ex) t))
  | .func _ _ => none
  | .consts ts => some (.consts ts)

theorem sweep_ok {ex : List Str} : ∀ {ds : List Decl} (first : Bool),
    (∀ d n t, Decl.typ d n t ∈ ds → ¬ (unnamed d = true ∧ n ∈ ex)) →
    sweep ex first ds = .ok (ds.filterMap (keep ex))
  | [], first, _ => by cases first <;> rfl
  | .func o n :: ds, first, h => by
    rw [sweep, sweep_ok first fun d n t hm => h d n t (List.mem_cons_of_mem _ hm)]
    rfl
  | .consts ts :: ds, first, h => by
    rw [sweep, sweep_ok false fun d n t hm => h d n t (List.mem_cons_of_mem _ hm)]
    rfl
  | .typ d n t :: ds, first, h => by
    have h0 : (unnamed d && ex.contains n) = false := by
      have := h d n t (List.mem_cons_self ..)
      cases hu : unnamed d
      · rfl
      · rw [Bool.true_and, Bool.eq_false_iff]
        exact fun hc => this ⟨hu, List.contains_iff_mem.1 hc⟩
    have ih := fun b => sweep_ok (ex := ex) (ds := ds) b
      fun d n t hm => h d n t (List.mem_cons_of_mem _ hm)
    rw [sweep.eq_def]
    dsimp only
    rw [h0, if_neg (by decide)]
    rw [List.filterMap_cons, keep]
    cases hk : (unnamed d || ex.contains n) with
    | true => simp only [if_true]; exact ih first
    | false => simp only [Bool.false_eq_true, if_false]; rw [ih false]; rfl

/-- **C106** (partial: no declaration to delete for two reasons; functions are methods; the
names of deleted types only in the positions of `DeclOK`).  Exactly the functions, the raw
types and the unnamed types are deleted, the others keep their order, and no declaration uses
a deleted raw type. -/
theorem C106_raw_partial {ds : List Decl} (hm : ∀ f, Decl.func none f ∉ ds)
    (h2 : ∀ d n t, Decl.typ d n t ∈ ds → ¬ (Unnamed d ∧ RawType ds n))
    (hany : ¬ RawType ds "any".toList)
    (hpos : ∀ d ∈ ds, DeclOK false (fun n => ¬ RawType ds n) d) :
    ∃ ds', fixRawData ds = .ok ds' ∧
      (∀ o f, Decl.func o f ∉ ds') ∧
      (∀ ts, Decl.consts ts ∈ ds' ↔ Decl.consts ts ∈ ds) ∧
      (∀ d n, (∃ t, Decl.typ d n t ∈ ds') ↔
        (∃ t, Decl.typ d n t ∈ ds) ∧ ¬ RawType ds n ∧ ¬ Unnamed d) ∧
      (declared ds').Sublist (declared ds) ∧
      (∀ x ∈ ds', ∀ n ∈ x.uses, ¬ RawType ds n) := by
  obtain ⟨ex, hex⟩ := scan_ok [] [] hm
  have hspec : ∀ n, n ∈ ex ↔ RawType ds n := by
    intro n
    rw [scan_spec hex n]
    simp
  have hsw : fixRawData ds = .ok (ds.filterMap (keep ex)) := by
    unfold fixRawData
    rw [hex]
    exact sweep_ok false fun d n t hd h => h2 d n t hd ⟨(unnamed_iff d).1 h.1, (hspec n).1 h.2⟩
  have hcond : ∀ d n, (unnamed d || ex.contains n) = true ↔ (Unnamed d ∨ RawType ds n) := by
    intro d n
    rw [Bool.or_eq_true, unnamed_iff, List.contains_iff_mem, hspec]
  refine ⟨_, hsw, ?_, ?_, ?_, ?_, ?_⟩
  · intro o f hf
    obtain ⟨x, _, hx⟩ := List.mem_filterMap.1 hf
    cases x with
    | typ d n t => rw [keep] at hx; split at hx <;> cases hx
    | func o n => cases hx
    | consts ts => cases hx
  · intro ts
    constructor
    · intro hf
      obtain ⟨x, hx1, hx⟩ := List.mem_filterMap.1 hf
      cases x with
      | typ d n t => rw [keep] at hx; split at hx <;> cases hx
      | func o n => cases hx
      | consts ts' => cases hx; exact hx1
    · intro h; exact List.mem_filterMap.2 ⟨_, h, rfl⟩
  · intro d n
    constructor
    · rintro ⟨t, ht⟩
      obtain ⟨x, hx1, hx⟩ := List.mem_filterMap.1 ht
      cases x with
      | typ d' n' t' =>
        rw [keep] at hx
        split at hx
        · cases hx
        · next hc =>
          cases hx
          rw [hcond] at hc
          exact ⟨⟨t', hx1⟩, fun h => hc (.inr h), fun h => hc (.inl h)⟩
      | func o n => cases hx
      | consts ts' => cases hx
    · rintro ⟨⟨t, ht⟩, hr, hu⟩
      refine ⟨iterTop (rawName ex) t, List.mem_filterMap.2 ⟨_, ht, ?_⟩⟩
      rw [keep, if_neg]
      rw [hcond]
      exact fun h => h.elim hu hr
  · exact sub ds
  · intro x hx n hn
    obtain ⟨y, hy1, hy⟩ := List.mem_filterMap.1 hx
    have hok := hpos y hy1
    cases y with
    | typ d m t =>
      rw [keep] at hy
      split at hy
      · cases hy
      · cases hy
        have hP : ∀ n, ¬ RawType ds n → rawName ex n = n := by
          intro n hn
          exact if_neg fun hc => hn ((hspec n).1 (List.contains_iff_mem.1 hc))
        rw [Decl.uses, iterTop_ok hP t hok, refs_map] at hn
        obtain ⟨k, _, rfl⟩ := List.mem_map.1 hn
        unfold rawName
        split
        · exact hany
        · next hc => exact fun hr => hc (List.contains_iff_mem.2 ((hspec k).2 hr))
    | func o m => cases hy
    | consts ts => cases hy; exact hok n hn
where
  sub {ex : List Str} : ∀ ds : List Decl, (declared (ds.filterMap (keep ex))).Sublist (declared ds)
    | [] => .slnil
    | .func o n :: ds => sub ds
    | .consts ts :: ds => sub ds
    | .typ d n t :: ds => by
      rw [List.filterMap_cons, keep]
      split
      · next h => exact (sub ds).cons n
      · next h =>
        split at h
        · cases h
        · cases h; exact (sub ds).cons_cons n

/-- **C106** (refutation).  A function that is not a method makes it panic. -/
theorem C106_function_panics {ds : List Decl} {f : Str} (h : Decl.func none f ∈ ds) :
    fixRawData ds = .panic .nilDeref := by
  unfold fixRawData
  rw [scan_panics [] [] h]
  rfl

theorem sweep_mem {ex : List Str} : ∀ {ds ds' : List Decl} {first : Bool},
    sweep ex first ds = .ok ds' → ∀ x ∈ ds', ∃ y ∈ ds, keep ex y = some x
  | [], _, first, h => by cases first <;> cases h <;> (intro x hx; cases hx)
  | .func o n :: ds, _, first, h => by
    rw [sweep] at h
    intro x hx
    obtain ⟨y, hy, he⟩ := sweep_mem h x hx
    exact ⟨y, List.mem_cons_of_mem _ hy, he⟩
  | .consts ts :: ds, _, first, h => by
    rw [sweep] at h
    cases hs : sweep ex false ds with
    | ok r =>
      rw [hs] at h
      cases h
      intro x hx
      rcases List.mem_cons.1 hx with hx | hx
      · exact ⟨_, List.mem_cons_self .., by rw [hx]; rfl⟩
      · obtain ⟨y, hy, he⟩ := sweep_mem hs x hx
        exact ⟨y, List.mem_cons_of_mem _ hy, he⟩
    | _ => rw [hs] at h; cases h
  | .typ d n t :: ds, ds', first, h => by
    rw [sweep.eq_def] at h
    dsimp only at h
    split at h
    · cases ds with
      | nil => cases h
      | cons y ds =>
        simp only at h
        split at h
        · cases h
        · intro x hx
          obtain ⟨z, hz, he⟩ := sweep_mem h x hx
          exact ⟨z, List.mem_cons_of_mem _ (List.mem_cons_of_mem _ hz), he⟩
    · split at h
      · intro x hx
        obtain ⟨y, hy, he⟩ := sweep_mem h x hx
        exact ⟨y, List.mem_cons_of_mem _ hy, he⟩
      · next hk =>
        cases hs : sweep ex false ds with
        | ok r =>
          rw [hs] at h
          cases h
          intro x hx
          rcases List.mem_cons.1 hx with hx | hx
          · exact ⟨_, List.mem_cons_self .., by rw [hx, keep, if_neg hk]⟩
          · obtain ⟨y, hy, he⟩ := sweep_mem hs x hx
            exact ⟨y, List.mem_cons_of_mem _ hy, he⟩
        | _ => rw [hs] at h; cases h

theorem fixRawData_ok {ds ds' : List Decl} (h : fixRawData ds = .ok ds') :
    ∃ ex, sweep ex false ds = .ok ds' ∧ ∀ n, n ∈ ex ↔ RawType ds n := by
  unfold fixRawData at h
  cases hs : scan ds [] [] with
  | ok ex =>
    rw [hs] at h
    exact ⟨ex, h, fun n => by rw [scan_spec hs n]; simp⟩
  | _ => rw [hs] at h; cases h

/-- **C106** (refutation).  All methods are deleted, also those of types that stay: a struct
with a union and other fields loses the methods that encode and decode the union. -/
theorem C106_methods_lost {ds ds' : List Decl} (h : fixRawData ds = .ok ds') :
    ∀ r f, Decl.func r f ∉ ds' := by
  intro r f hf
  obtain ⟨ex, hs, _⟩ := fixRawData_ok h
  obtain ⟨y, _, hk⟩ := sweep_mem hs _ hf
  cases y with
  | typ d n t => rw [keep] at hk; split at hk <;> cases hk
  | func o n => cases hk
  | consts ts => cases hk

/-- No raw type is declared afterwards. -/
theorem raw_not_declared {ds ds' : List Decl} (h : fixRawData ds = .ok ds') {n : Str}
    (hr : RawType ds n) : n ∉ declared ds' := by
  intro hd
  obtain ⟨ex, hs, hex⟩ := fixRawData_ok h
  obtain ⟨x, hx, hn⟩ := List.mem_filterMap.1 hd
  cases x with
  | typ d m t =>
    cases hn
    obtain ⟨y, _, hk⟩ := sweep_mem hs _ hx
    cases y with
    | typ d' m' t' =>
      rw [keep] at hk
      split at hk
      · cases hk
      · next hc =>
        cases hk
        apply hc
        rw [Bool.or_eq_true]
        exact .inr (List.contains_iff_mem.2 ((hex n).2 hr))
    | func o n => cases hk
    | consts ts => cases hk
  | func o n => cases hn
  | consts ts => cases hn

/-- A declaration that comes after no declaration to delete for two reasons stays. -/
theorem sweep_stays {ex : List Str} {x x' : Decl} (hk : keep ex x = some x') :
    ∀ {a b ds' : List Decl} {first : Bool},
    (∀ d n t, Decl.typ d n t ∈ a → ¬ (unnamed d = true ∧ n ∈ ex)) →
    sweep ex first (a ++ x :: b) = .ok ds' → x' ∈ ds'
  | [], b, ds', first, _, h => by
    rw [List.nil_append] at h
    cases x with
    | typ d n t =>
      rw [keep] at hk
      split at hk
      · cases hk
      · next hc =>
        cases hk
        have h0 : ¬ (unnamed d && ex.contains n) = true := by
          intro h1
          rw [Bool.and_eq_true] at h1
          exact hc (by rw [h1.1]; rfl)
        rw [sweep.eq_def] at h
        dsimp only at h
        rw [if_neg h0, if_neg hc] at h
        cases hs : sweep ex false b with
        | ok r => rw [hs] at h; cases h; exact List.mem_cons_self ..
        | _ => rw [hs] at h; cases h
    | func o n => cases hk
    | consts ts =>
      cases hk
      rw [sweep] at h
      cases hs : sweep ex false b with
      | ok r => rw [hs] at h; cases h; exact List.mem_cons_self ..
      | _ => rw [hs] at h; cases h
  | .func o n :: a, b, ds', first, ha, h => by
    rw [List.cons_append, sweep] at h
    exact sweep_stays hk (fun d n t hm => ha d n t (List.mem_cons_of_mem _ hm)) h
  | .consts ts :: a, b, ds', first, ha, h => by
    rw [List.cons_append, sweep] at h
    cases hs : sweep ex false (a ++ x :: b) with
    | ok r =>
      rw [hs] at h; cases h
      exact List.mem_cons_of_mem _
        (sweep_stays hk (fun d n t hm => ha d n t (List.mem_cons_of_mem _ hm)) hs)
    | _ => rw [hs] at h; cases h
  | .typ d n t :: a, b, ds', first, ha, h => by
    have h0 : ¬ (unnamed d && ex.contains n) = true := by
      intro h1
      rw [Bool.and_eq_true] at h1
      exact ha d n t (List.mem_cons_self ..) ⟨h1.1, List.contains_iff_mem.1 h1.2⟩
    have ha' := fun d n t (hm : Decl.typ d n t ∈ a) => ha d n t (List.mem_cons_of_mem _ hm)
    rw [List.cons_append, sweep.eq_def] at h
    dsimp only at h
    rw [if_neg h0] at h
    split at h
    · exact sweep_stays hk ha' h
    · cases hs : sweep ex false (a ++ x :: b) with
      | ok r => rw [hs] at h; cases h; exact List.mem_cons_of_mem _ (sweep_stays hk ha' hs)
      | _ => rw [hs] at h; cases h

/-- Where the name of a raw type is not replaced. -/
inductive RawForgotten (n : Str) : GT → Prop
  | alias : RawForgotten n (.ident n)
  | sliceOfMaps (k : GT) : RawForgotten n (.arr (.map k (.ident n)))
  | fieldSliceOfMaps (f : Field) (k : GT) (r : GFs) :
      RawForgotten n (.struct (.cons f (.arr (.map k (.ident n))) r))
  | fieldMapOfStructs (f g : Field) (k : GT) (r r' : GFs) :
      RawForgotten n (.struct (.cons f (.map k (.struct (.cons g (.ident n) r'))) r))

/-- **C106** (refutation).  In these positions the name of a deleted raw type stays, and is
undefined. -/
theorem C106_dangling {pre : List Str} {a b ds' : List Decl} {d : List Str} {m n : Str} {t : GT}
    (h : fixRawData (a ++ .typ d m t :: b) = .ok ds')
    (ha : ∀ d' n' t', Decl.typ d' n' t' ∈ a → ¬ (Unnamed d' ∧ RawType (a ++ .typ d m t :: b) n'))
    (hd : ¬ Unnamed d) (hm : ¬ RawType (a ++ .typ d m t :: b) m)
    (hn : RawType (a ++ .typ d m t :: b) n) (hf : RawForgotten n t) (hp : n ∉ pre) :
    UndefinedType pre ds' n := by
  obtain ⟨ex, hs, hex⟩ := fixRawData_ok h
  have hk : keep ex (.typ d m t) = some (.typ d m (iterTop (rawName ex) t)) := by
    rw [keep, if_neg]
    rw [Bool.or_eq_true, unnamed_iff, List.contains_iff_mem, hex]
    exact fun h => h.elim hd hm
  refine ⟨⟨_, sweep_stays hk ?_ hs, ?_⟩, raw_not_declared h hn, hp⟩
  · intro d' n' t' hmem hc
    exact ha d' n' t' hmem ⟨(unnamed_iff d').1 hc.1, (hex n').1 hc.2⟩
  · cases hf <;> simp [Decl.uses, iterTop, iterFs, iterField, iterArr, iterMap, refs, refsFs]

theorem sweep_double {ex : List Str} {d : List Str} {n : Str} {t : GT} {x : Decl}
    {b : List Decl} (hd : unnamed d = true) (hn : n ∈ ex) : ∀ {a : List Decl},
    (∀ d n t, Decl.typ d n t ∈ a → ¬ (unnamed d = true ∧ n ∈ ex)) → ∀ {r : List Decl},
    sweep ex false (a ++ .typ d n t :: x :: b) = .ok r → ∀ y ∈ r, ∃ z ∈ a ++ b, keep ex z = some y := by
  have key : ∀ {a : List Decl}, (∀ d n t, Decl.typ d n t ∈ a → ¬ (unnamed d = true ∧ n ∈ ex)) →
      sweep ex false (a ++ .typ d n t :: x :: b) = sweep ex false (a ++ b) := by
    intro a
    induction a with
    | nil =>
      intro _
      rw [List.nil_append, List.nil_append, sweep.eq_def]
      dsimp only
      rw [if_pos (by rw [hd, List.contains_iff_mem.2 hn]; rfl), if_neg (by decide)]
    | cons y a ih =>
      intro ha
      have ih := ih fun d n t hm => ha d n t (List.mem_cons_of_mem _ hm)
      rw [List.cons_append, List.cons_append]
      cases y with
      | func o m => rw [sweep, sweep, ih]
      | consts ts => rw [sweep, sweep, ih]
      | typ d' m u =>
        have h0 : ¬ (unnamed d' && ex.contains m) = true := by
          intro h1
          rw [Bool.and_eq_true] at h1
          exact ha d' m u (List.mem_cons_self ..) ⟨h1.1, List.contains_iff_mem.1 h1.2⟩
        rw [sweep.eq_def, sweep.eq_def ex false (Decl.typ d' m u :: (a ++ b))]
        dsimp only
        rw [if_neg h0, if_neg h0, ih]
  intro a ha r hr
  rw [key ha] at hr
  exact sweep_mem hr

/-- **C106** (refutation).  A declaration to delete for two reasons takes the next one with it,
whatever it is. -/
theorem C106_double_deletion {a b ds' : List Decl} {d dx : List Str} {n nx : Str} {t tx : GT}
    (h : fixRawData (a ++ .typ d n t :: .typ dx nx tx :: b) = .ok ds') (hd : Unnamed d)
    (hn : RawType (a ++ .typ d n t :: .typ dx nx tx :: b) n)
    (ha : ∀ d' n' t', Decl.typ d' n' t' ∈ a →
      ¬ (Unnamed d' ∧ RawType (a ++ .typ d n t :: .typ dx nx tx :: b) n'))
    (hx : nx ∉ declared (a ++ b)) : nx ∉ declared ds' := by
  obtain ⟨ex, hs, hex⟩ := fixRawData_ok h
  have hm := sweep_double ((unnamed_iff d).2 hd) ((hex n).2 hn)
    (fun d' n' t' hmem hc => ha d' n' t' hmem ⟨(unnamed_iff d').1 hc.1, (hex n').1 hc.2⟩) hs
  intro hd
  obtain ⟨y, hy, he⟩ := List.mem_filterMap.1 hd
  obtain ⟨z, hz, hk⟩ := hm y hy
  cases z with
  | typ d' m u =>
    rw [keep] at hk
    split at hk
    · cases hk
    · cases hk
      cases he
      exact hx (List.mem_filterMap.2 ⟨_, hz, rfl⟩)
  | func o m => cases hk
  | consts ts => cases hk; cases he

/-- A file: `type Raw struct { union json.RawMessage }` with a method, and a struct that uses it. -/
def rawFile (doc : List Str) : List Decl :=
  [.consts [], .typ doc "Raw".toList
      (.struct (.cons ⟨"union".toList, .none⟩ (.sel "json".toList "RawMessage".toList) .nil)),
   .typ [] "Use".toList (.struct (.cons ⟨"F".toList, .none⟩ (.star (.ident "Raw".toList)) .nil)),
   .func (some "Raw".toList) "MarshalJSON".toList]

theorem rawFile_raw (doc : List Str) : RawType (rawFile doc) "Raw".toList :=
  ⟨[.consts []], doc, _, [_], _, [], rfl⟩

theorem rawFile_only {doc : List Str} {n : Str} (h : RawType (rawFile doc) n) :
    n = "Raw".toList := by
  obtain ⟨a, d, fld, b, f, c, h⟩ := h
  have : Decl.func (some n) f ∈ rawFile doc := by rw [h]; simp
  simp only [rawFile, List.mem_cons, reduceCtorEq, Decl.func.injEq, Option.some.injEq,
    List.not_mem_nil, or_false, false_or] at this
  exact this.1

example : (∀ f, Decl.func none f ∉ rawFile []) ∧
    (∀ d n t, Decl.typ d n t ∈ rawFile [] → ¬ (Unnamed d ∧ RawType (rawFile []) n)) ∧
    ¬ RawType (rawFile []) "any".toList ∧
    (∀ d ∈ rawFile [], DeclOK false (fun n => ¬ RawType (rawFile []) n) d) := by
  refine ⟨by simp [rawFile], ?_, fun h => absurd (rawFile_only h) (by decide), ?_⟩
  · rintro d n t hd ⟨⟨x, r, hu⟩, _⟩
    subst hu
    simp [rawFile] at hd
  · simp [rawFile, DeclOK, TopOK, FieldsIn, FieldOK]

/-- **C106** (witness).  Here the type that uses the raw type is lost with it. -/
theorem C106_use_lost : ∃ ds', fixRawData (rawFile ["// defines model for .".toList]) = .ok ds' ∧
    declared ds' = [] := ⟨_, rfl, rfl⟩

/-- **C106** (witness).  `type Use = Raw` stays as it is, without `Raw`. -/
theorem C106_alias_dangles : UndefinedType ["any".toList, "string".toList]
    [.consts [], .typ [] "Use".toList (.ident "Raw".toList)] "Raw".toList ∧
    fixRawData [.consts [], .typ [] "Raw".toList
      (.struct (.cons ⟨"union".toList, .none⟩ (.sel "json".toList "RawMessage".toList) .nil)),
      .typ [] "Use".toList (.ident "Raw".toList),
      .func (some "Raw".toList) "MarshalJSON".toList] =
    .ok [.consts [], .typ [] "Use".toList (.ident "Raw".toList)] :=
  ⟨⟨⟨_, List.mem_cons_of_mem _ (List.mem_cons_self ..), List.mem_cons_self ..⟩, by decide, by decide⟩,
    rfl⟩

/-! ### The theorems on the files above -/

example := C104_removed true (t := .struct nodeT) (by simp [nodeT, NoDouble, NoDoubleFs])

example := C104_recursive (n := "Node".toList) (f := ⟨"Next".toList, .none⟩) (fs := nodeT)
  (List.mem_cons_self ..)

example : ∃ ds', fixUnderscores id (usFile []) = .ok ds' ∧ declared ds' = ["Ab".toList, "C".toList] ∧
    ∀ d ∈ ds', ∀ n ∈ d.uses, '_' ∉ n := by
  obtain ⟨ds', h⟩ : ∃ ds', fixUnderscores id (usFile []) = .ok ds' := ⟨_, rfl⟩
  exact ⟨ds', h, (C105_declared h).trans (by decide),
    (C105_underscores_partial (pre := ["string".toList]) (by decide)
      (by simp [usFile, DeclOK, TopOK, FieldsIn, FieldOK, KeyOK, ValOK]) h).2.1⟩

example := C105_succeeds (replace := id) (ds := usFile []) (by
  intro n t h
  simp only [usFile, List.mem_cons, List.not_mem_nil, or_false, Decl.typ.injEq, reduceCtorEq,
    false_and, false_or, true_and] at h
  rw [h.1]; decide)

example : fixUnderscores id [.typ [] "A_b".toList (.ident "string".toList)] =
    .panic .indexOutOfRange :=
  C105_no_comment_panics (by decide) (List.mem_cons_self ..)

def clashFile : List Decl :=
  [.typ ["// Foo_Bar".toList] "Foo_Bar".toList (.ident "string".toList),
   .typ [] "FooBar".toList (.ident "string".toList)]

example : ∃ ds', fixUnderscores id clashFile = .ok ds' ∧ ¬ (declared ds').Nodup :=
  ⟨_, rfl, C105_clash (replace := id) (ds := clashFile) (n := "Foo_Bar".toList)
    (m := "FooBar".toList) rfl (by decide) (by decide) (by decide) (by decide)⟩

example : ∃ ds', fixUnderscores id (usFile ["A_b".toList]) = .ok ds' ∧
    UndefinedType ["string".toList] ds' "A_b".toList :=
  ⟨_, rfl, C105_forgotten (replace := id) (ds := usFile ["A_b".toList])
    (x := .consts ["A_b".toList]) rfl (by simp [usFile]) (.const (List.mem_cons_self ..))
    (by decide) (by decide)⟩

theorem rawFile_hyps : (∀ f, Decl.func none f ∉ rawFile []) ∧
    (∀ d n t, Decl.typ d n t ∈ rawFile [] → ¬ (Unnamed d ∧ RawType (rawFile []) n)) ∧
    ¬ RawType (rawFile []) "any".toList ∧
    (∀ d ∈ rawFile [], DeclOK false (fun n => ¬ RawType (rawFile []) n) d) := by
  refine ⟨by simp [rawFile], ?_, fun h => absurd (rawFile_only h) (by decide), ?_⟩
  · rintro d n t hd ⟨⟨x, r, hu⟩, _⟩
    subst hu
    simp [rawFile] at hd
  · simp [rawFile, DeclOK, TopOK, FieldsIn, FieldOK]

example := C106_raw_partial rawFile_hyps.1 rawFile_hyps.2.1 rawFile_hyps.2.2.1 rawFile_hyps.2.2.2

example : fixRawData [.func none "init".toList] = .panic .nilDeref :=
  C106_function_panics (List.mem_cons_self ..)

example : ∃ ds', fixRawData (rawFile []) = .ok ds' ∧ ∀ r f, Decl.func r f ∉ ds' :=
  ⟨_, rfl, C106_methods_lost (ds := rawFile []) rfl⟩

example : ∃ ds', fixRawData (rawFile ["// defines model for .".toList]) = .ok ds' ∧
    "Use".toList ∉ declared ds' :=
  ⟨_, rfl, C106_double_deletion (a := [.consts []])
    (b := [.func (some "Raw".toList) "MarshalJSON".toList]) rfl ⟨"// ".toList, [], rfl⟩
    (rawFile_raw _) (by simp) (by decide)⟩

end Thema.Props
