import Verif.Lemmas.Version

/-! # C01, C02, C03: versions -/

namespace Thema.Props

open Spec

/-- **C01** (order).  `Less` is the numeric lexicographic order, and that order
is irreflexive, transitive and total. -/
theorem C01_less_strict_total_order :
    (∀ a b : SV, a.less b = true ↔ Before a b) ∧
    (∀ a : SV, a.less a = false) ∧
    (∀ a b c : SV, a.less b = true → b.less c = true → a.less c = true) ∧
    (∀ a b : SV, a.less b = true ∨ a = b ∨ b.less a = true) :=
  ⟨fun _ _ => less_iff_before, less_irrefl, fun _ _ _ => less_trans, less_total⟩

/-- **C01** (agreement).  The CUE comparison is defined on every pair and agrees
with the numeric order and hence with Go's `Less`. -/
theorem C01_cmpSV_agrees (l r : SV) :
    (Before l r ∧ cmpSV l r = some (-1)) ∨
    (l = r ∧ cmpSV l r = some 0) ∨
    (Before r l ∧ cmpSV l r = some 1) := by
  rcases less_total l r with h | h | h
  · left
    refine ⟨less_iff_before.1 h, ?_⟩
    rw [less_iff] at h
    rcases h with h | ⟨h1, h2⟩
    · have h1 : ¬ l.major > r.major := by omega
      have h2 : ¬ l.major = r.major := by omega
      have h3 : ¬ l = r := by intro e; subst e; omega
      simp [cmpSV, cmpSVBodies, h, h1, h2, h3]
    · have h3 : ¬ l.minor > r.minor := by omega
      have h4 : ¬ l = r := by intro e; subst e; omega
      simp [cmpSV, cmpSVBodies, h1, h2, h3, h4]
  · right; left
    refine ⟨h, ?_⟩
    subst h
    simp [cmpSV, cmpSVBodies]
  · right; right
    refine ⟨less_iff_before.1 h, ?_⟩
    rw [less_iff] at h
    rcases h with h | ⟨h1, h2⟩
    · have h1 : ¬ l.major < r.major := by omega
      have h2 : ¬ l.major = r.major := by omega
      have h3 : ¬ l = r := by intro e; subst e; omega
      simp [cmpSV, cmpSVBodies, h, h1, h2, h3]
    · have h3 : ¬ l.minor < r.minor := by omega
      have h4 : ¬ l = r := by intro e; subst e; omega
      simp [cmpSV, cmpSVBodies, h1, h2, h3, h4]

example : cmpSV ⟨1, 7⟩ ⟨2, 0⟩ = some (-1) ∧ cmpSV ⟨2, 0⟩ ⟨1, 7⟩ = some 1 := by decide

/-- **C02** (what holds).  The full property is "parse inverts String for every
version".  It holds when both components are below 2^32.  Missing: components
from 2^32 on, for which `C02_roundtrip_fails_above_2_32` shows that it is
false. -/
theorem C02_roundtrip_partial (v : SV) (h1 : v.major < 2 ^ 32) (h2 : v.minor < 2 ^ 32) :
    parseSV v.str = .ok v :=
  parseSV_ok_iff.2 ⟨versionString_str v, h1, h2⟩

example : parseSV (SV.str ⟨12, 340⟩) = .ok ⟨12, 340⟩ :=
  C02_roundtrip_partial ⟨12, 340⟩ (by decide) (by decide)

/-- **C02** (where it fails).  Every version with a component of at least 2^32
(`uint` is 64 bits wide) prints to a string that the parser rejects. -/
theorem C02_roundtrip_fails_above_2_32 (v : SV)
    (h : 2 ^ 32 ≤ v.major ∨ 2 ^ 32 ≤ v.minor) :
    parseSV v.str = .err malformed := by
  rcases parseSV_cases v.str with ⟨w, hw⟩ | h'
  · obtain ⟨h1, h2, h3⟩ := parseSV_ok_iff.1 hw
    have := versionString_unique h1 (versionString_str v)
    subst this
    omega
  · exact h'

example : ∃ v : SV, v.major < 2 ^ 64 ∧ v.minor < 2 ^ 64 ∧ parseSV v.str = .err malformed :=
  ⟨⟨2 ^ 32, 0⟩, by decide, by decide, C02_roundtrip_fails_above_2_32 _ (Or.inl (by decide))⟩

/-- **C02** (injectivity).  Different versions print differently, without any
bound on the components. -/
theorem C02_str_injective (v w : SV) (h : v.str = w.str) : v = w :=
  versionString_unique (versionString_str v) (h ▸ versionString_str w)

example : SV.str ⟨1, 23⟩ ≠ SV.str ⟨12, 3⟩ := fun h => by
  have := C02_str_injective _ _ h
  simp at this

/-- **C02** (canonical form).  The printed string is the canonical numeral of the
major version, a dot, and the canonical numeral of the minor version. -/
theorem C02_str_denotes (v : SV) : ∃ a b, v.str = a ++ '.' :: b ∧
    CanonicalNumeral a v.major ∧ CanonicalNumeral b v.minor :=
  ⟨decimal v.major, decimal v.minor, rfl,
    ⟨numeral_decimal _, decimal_head _, fun h => by rw [h]; decide⟩,
    ⟨numeral_decimal _, decimal_head _, fun h => by rw [h]; decide⟩⟩

/-- **C03**.  `ParseSyntacticVersion` succeeds with `v` exactly on the strings
that denote `v` as `digits.digits`, both numbers below 2^32. -/
theorem C03_parse_exact (s : List Char) (v : SV) :
    parseSV s = .ok v ↔ VersionString s v ∧ v.major < 2 ^ 32 ∧ v.minor < 2 ^ 32 :=
  parseSV_ok_iff

/-- **C03**.  On every other string the result is an error that is
`ErrMalformedSyntacticVersion`; in particular it never panics. -/
theorem C03_parse_rejects (s : List Char)
    (h : ¬ ∃ v : SV, VersionString s v ∧ v.major < 2 ^ 32 ∧ v.minor < 2 ^ 32) :
    ∃ e, parseSV s = .err e ∧ e.is .malformedSyntacticVersion := by
  rcases parseSV_cases s with ⟨v, hv⟩ | h'
  · exact absurd ⟨v, parseSV_ok_iff.1 hv⟩ h
  · exact ⟨malformed, h', by simp [GoErr.is, malformed]⟩

/-- "1.2.3" meets the hypothesis of `C03_parse_rejects`. -/
theorem three_parts_no_version :
    ¬ ∃ v : SV, VersionString "1.2.3".toList v ∧ v.major < 2 ^ 32 ∧ v.minor < 2 ^ 32 := by
  rintro ⟨v, h⟩
  have := parseSV_ok_iff.2 h
  have e : parseSV "1.2.3".toList = .err malformed := by rfl
  rw [e] at this; cases this

example : ∃ e, parseSV "1.2.3".toList = .err e ∧ e.is .malformedSyntacticVersion :=
  C03_parse_rejects _ three_parts_no_version

example : VersionString "007.12".toList ⟨7, 12⟩ :=
  ⟨"007".toList, "12".toList, by decide, ⟨by decide, by decide, by decide⟩,
    ⟨by decide, by decide, by decide⟩⟩

end Thema.Props
