import Verif.Spec.InitExact
import Verif.Props.Init

/-!
# `thema lineage init`, exactly (C175)
-/

namespace Thema.Props

open Init

variable {F : Type} {X : Ext F} {stdin : Cli.Stdin} {fs : Str → Cli.FileState} {f : Flags}
  {args : List Str}

theorem given_iff {b : Bytes} : args.length ≤ 1 ∧ Cli.pathOrStdin stdin fs args = .ok b ↔
    Given stdin fs args b := by
  unfold Given Cli.pathOrStdin
  match args with
  | [] =>
    by_cases h : stdin.kind = .namedPipe <;> simp [h]
  | [p] =>
    cases h : fs p <;> simp [h]
  | _ :: _ :: _ => simp

theorem lineageText_eq (name pkg sch : Str) : lineageText name pkg sch = written pkg name sch := by
  have h1 : "import \"github.com/grafana/thema\"\n\nthema.#Lineage\nname: \"".toList =
      "import \"github.com/grafana/thema\"\n\nthema.#Lineage\nname: ".toList ++ ['"'] := by
    decide +kernel
  have h2 : "\"\nschemas: [\n    {\n        version: [0, 0]\n        schema: {\n            ".toList =
      ['"'] ++ "\nschemas: [\n    {\n        version: [0, 0]\n        schema: {\n            ".toList := by
    decide +kernel
  have h3 : "\n".toList = ['\n'] := by decide +kernel
  unfold lineageText written beforeName afterName afterSchema Lit.inQuotes
  rw [h1, h2, h3]
  cases pkg with
  | nil => simp only [ne_eq, not_true_eq_false, if_false, List.append_assoc, List.cons_append,
      List.nil_append]
  | cons c cs => simp only [ne_eq, reduceCtorEq, not_false_eq_true, if_true, List.append_assoc,
      List.cons_append, List.nil_append]

theorem given_unique {b b' : Bytes} (h : Given stdin fs args b) (h' : Given stdin fs args b') :
    b = b' := by
  have h1 := (given_iff.2 h).2
  rw [(given_iff.2 h').2] at h1
  injection h1 with h1
  exact h1.symm

theorem loadArgs_eq : (if args = [] then [['-']] else args) = loadArgs args := by
  cases args <;> simp [loadArgs]

/-- **C175**.  `lineage init` prints a text exactly if it is what CUE makes of the text written
with the package and the schema that the flags and the document say (`Writes`). -/
theorem C175_prints_iff {sub : Sub} {t : Str} : run X stdin fs sub f args = .printed t ↔
    ∃ pkg sch, Writes X stdin fs f args sub pkg sch ∧
      X.print (written pkg f.name sch) = some t := by
  cases hsub : sub with
  | empty =>
    constructor
    · intro h
      obtain ⟨h1, h2, p, h3, h4, h5⟩ := C113_empty_partial h
      rw [lineageText_eq] at h5
      exact ⟨_, _, .empty h1 h2 h3 h4, h5⟩
    · rintro ⟨pkg, sch, hw, hp⟩
      cases hw with
      | empty h1 h2 h3 h4 =>
        subst h1
        rw [← lineageText_eq] at hp
        exact C113_empty_succeeds h2 h3 h4 hp
  | openapi =>
    rw [C113_document_partial (by simp)]
    constructor
    · rintro ⟨h1, b, sch, h2, h3, h4⟩
      have hg := given_iff.1 ⟨h1, h2⟩
      rw [lineageText_eq] at h4
      cases h3 with
      | openapi h5 h6 h7 =>
        rw [loadArgs_eq] at h5
        rcases h6 with ⟨rfl, h6⟩ | ⟨rfl, h6⟩
        · exact ⟨_, _, .yaml hg h5 h6 h7, h4⟩
        · exact ⟨_, _, .json hg h5 h6 h7, h4⟩
    · rintro ⟨pkg, sch, hw, hp⟩
      rw [← lineageText_eq] at hp
      cases hw with
      | yaml hg h1 h2 h3 =>
        obtain ⟨h4, h5⟩ := given_iff.2 hg
        exact ⟨h4, _, _, h5, .openapi (by rw [loadArgs_eq]; exact h1) (.inl ⟨rfl, h2⟩) h3, hp⟩
      | json hg h1 h2 h3 =>
        obtain ⟨h4, h5⟩ := given_iff.2 hg
        exact ⟨h4, _, _, h5, .openapi (by rw [loadArgs_eq]; exact h1) (.inr ⟨rfl, h2⟩) h3, hp⟩
  | jsonschema =>
    rw [C113_document_partial (by simp)]
    constructor
    · rintro ⟨h1, b, sch, h2, h3, h4⟩
      have hg := given_iff.1 ⟨h1, h2⟩
      rw [lineageText_eq] at h4
      cases h3 with
      | jsonschema h5 => exact ⟨_, _, .jsonschema hg h5, h4⟩
    · rintro ⟨pkg, sch, hw, hp⟩
      rw [← lineageText_eq] at hp
      cases hw with
      | jsonschema hg h1 =>
        obtain ⟨h4, h5⟩ := given_iff.2 hg
        exact ⟨h4, _, _, h5, .jsonschema h1, hp⟩

/-- **C175**.  It panics exactly for `openapi`, if the loader finds no file or finds JSON that
cannot be read; in all remaining cases it fails with an error. -/
theorem C175_panics_iff {sub : Sub} {k : PanicKind} : run X stdin fs sub f args = .panicked k ↔
    sub = .openapi ∧ Crashes X stdin fs args k := by
  constructor
  · intro h
    obtain ⟨rfl, b, hb, hk⟩ := C114_no_panic_partial h
    refine ⟨rfl, ?_⟩
    have hl : args.length ≤ 1 := Nat.le_of_not_lt fun hl => by
      simp only [run] at h
      rw [if_pos hl] at h
      cases h
    have hg := given_iff.1 ⟨hl, hb⟩
    rw [loadArgs_eq] at hk
    rcases hk with ⟨h1, rfl⟩ | ⟨h1, h2, rfl⟩
    · exact .nothing hg h1
    · cases ho : X.orphaned (loadArgs args) b with
      | nil => rw [ho] at h1; cases h1
      | cons x xs =>
        rw [ho] at h1
        injection h1 with h1
        subst h1
        exact .badJSON hg ho h2
  · rintro ⟨rfl, hc⟩
    cases hc with
    | nothing hg h1 =>
      obtain ⟨h2, h3⟩ := given_iff.2 hg
      simp only [run, if_neg (Nat.not_lt.2 h2), h3, runOpenAPI, inputToFile, loadArgs_eq, h1]
    | badJSON hg h1 h4 =>
      obtain ⟨h2, h3⟩ := given_iff.2 hg
      simp only [run, if_neg (Nat.not_lt.2 h2), h3, runOpenAPI, inputToFile, loadArgs_eq, h1, h4]

/-- **C175**.  What is written is determined by the flags and the input, and a command that
writes a lineage does not crash. -/
theorem C175_deterministic {sub : Sub} {pkg sch pkg' sch' : Str}
    (h : Writes X stdin fs f args sub pkg sch) :
    (Writes X stdin fs f args sub pkg' sch' → pkg' = pkg ∧ sch' = sch) ∧
    (sub = .openapi → ∀ k, ¬ Crashes X stdin fs args k) := by
  have inj : ∀ {a b : Option Enc} {as bs : List (Option Enc)} {l : List (Option Enc)},
      l = a :: as → l = b :: bs → a = b := by
    intro a b as bs l h1 h2
    rw [h1] at h2
    injection h2
  refine ⟨fun h' => ?_, fun hsub k hc => ?_⟩
  · cases h with
    | empty h1 h2 h3 h4 =>
      cases h' with
      | empty h5 h6 h7 h8 =>
        refine ⟨?_, rfl⟩
        cases h3 <;> cases h7 <;> simp_all
    | yaml hg h1 h2 h3 =>
      cases h' with
      | yaml hg' h1' h2' h3' =>
        cases given_unique hg hg'
        rw [h2] at h2'; injection h2' with h2'; subst h2'
        rw [h3] at h3'; injection h3' with h3'
        exact ⟨rfl, h3'.symm⟩
      | json hg' h1' h2' h3' =>
        cases given_unique hg hg'
        cases inj h1 h1'
    | json hg h1 h2 h3 =>
      cases h' with
      | json hg' h1' h2' h3' =>
        cases given_unique hg hg'
        rw [h2] at h2'; injection h2' with h2'; subst h2'
        rw [h3] at h3'; injection h3' with h3'
        exact ⟨rfl, h3'.symm⟩
      | yaml hg' h1' h2' h3' =>
        cases given_unique hg hg'
        cases inj h1 h1'
    | jsonschema hg h1 =>
      cases h' with
      | jsonschema hg' h1' =>
        cases given_unique hg hg'
        rw [h1] at h1'; injection h1' with h1'
        exact ⟨rfl, h1'.symm⟩
  · subst hsub
    cases h with
    | yaml hg h1 h2 h3 =>
      cases hc with
      | nothing hg' h4 => cases given_unique hg hg'; rw [h1] at h4; cases h4
      | badJSON hg' h4 h5 => cases given_unique hg hg'; cases inj h1 h4
    | json hg h1 h2 h3 =>
      cases hc with
      | nothing hg' h4 => cases given_unique hg hg'; rw [h1] at h4; cases h4
      | badJSON hg' h4 h5 => cases given_unique hg hg'; rw [h2] at h5; cases h5

/-- **C175**.  The command fails with an error exactly if it neither crashes nor has
something to write that CUE accepts. -/
theorem C175_fails_iff {sub : Sub} : run X stdin fs sub f args = .failed ↔
    (∀ pkg sch, Writes X stdin fs f args sub pkg sch → X.print (written pkg f.name sch) = none) ∧
    (sub = .openapi → ∀ k, ¬ Crashes X stdin fs args k) := by
  cases hr : run X stdin fs sub f args with
  | printed t =>
    obtain ⟨pkg, sch, h1, h2⟩ := C175_prints_iff.1 hr
    constructor
    · intro h; cases h
    · rintro ⟨h, -⟩
      rw [h pkg sch h1] at h2
      cases h2
  | panicked k =>
    obtain ⟨h1, h2⟩ := C175_panics_iff.1 hr
    exact ⟨fun h => (by cases h), fun h => absurd h2 (h.2 h1 k)⟩
  | failed =>
    refine ⟨fun _ => ⟨fun pkg sch hw => ?_, fun hsub k hc => ?_⟩, fun _ => rfl⟩
    · cases hp : X.print (written pkg f.name sch) with
      | none => rfl
      | some t =>
        have := C175_prints_iff.2 ⟨pkg, sch, hw, hp⟩
        rw [hr] at this
        cases this
    · have := (C175_panics_iff (f := f)).2 ⟨hsub, hc⟩
      rw [hr] at this
      cases this

example : Writes anyCue ⟨.charDevice, []⟩ (fun _ => .unreadable) { name := "foo".toList } [] .empty
    "foo".toList "{}".toList := .empty (p := some "foo".toList) rfl (by decide) (.dflt rfl rfl)
      (by intro q hq; injection hq with hq; subst hq; decide)
example : Crashes anyCue ⟨.namedPipe, [0]⟩ (fun _ => .unreadable) [] .indexOutOfRange :=
  .nothing (.inl ⟨rfl, rfl, rfl⟩) rfl
example : run anyCue ⟨.charDevice, []⟩ (fun _ => .unreadable) .jsonschema {} [] = .failed := by
  refine C175_fails_iff.2 ⟨fun pkg sch h => ?_, fun h => by cases h⟩
  cases h with
  | jsonschema hg _ => rcases hg with ⟨_, h, _⟩ | ⟨p, h, _⟩ <;> cases h

end Thema.Props
