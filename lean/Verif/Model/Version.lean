import Verif.Model.Basic

/-!
# Syntactic versions

`surface.go:326-385`, `impl.go:24-39`, `lineage.cue:278-295`.
-/

namespace Thema

/-- `surface.go:333`, `type SyntacticVersion [2]uint`.  The components are Go
`uint`s; they are modelled by unbounded naturals, wrap-around is made explicit
where the code does arithmetic on them. -/
structure SV where
  major : Nat
  minor : Nat
  deriving DecidableEq, Repr, Inhabited

/-- `impl.go:28-39`, `synv()` called without arguments. -/
def synv0 : SV := ⟨0, 0⟩

/-- `surface.go:347-349`, `SyntacticVersion.Less`. -/
def SV.less (a b : SV) : Bool :=
  decide (a.major < b.major) || (decide (a.major = b.major) && decide (a.minor < b.minor))

/-- `lineage.cue:284-295`, `_cmpSV`.  The field `out` is the unification of the
bodies of all conditionals whose guard holds; here the list of those bodies, in
source order.  `out` is well defined iff all the listed numbers agree and there
is at least one. -/
def cmpSVBodies (l r : SV) : List Int :=
  (if l.major < r.major then [-1] else []) ++
  (if l.major > r.major then [1] else []) ++
  (if l.major = r.major ∧ l.minor < r.minor then [-1] else []) ++
  (if l.major = r.major ∧ l.minor > r.minor then [1] else []) ++
  (if l = r then [0] else [])

/-- `(_cmpSV & {l: .., r: ..}).out`: the common value of the bodies that apply;
`none` when there is none or they conflict (bottom). -/
def cmpSV (l r : SV) : Option Int :=
  match cmpSVBodies l r with
  | [] => none
  | x :: xs => if xs.all (· == x) then some x else none

/-- Decimal digit character of `d < 10`. -/
def digitChar (d : Nat) : Char := Char.ofNat (48 + d)

/-- The decimal digits of `n`, least significant first, at most `fuel` of them. -/
def digitsRev : Nat → Nat → List Char
  | 0, _ => []
  | fuel + 1, n => if n < 10 then [digitChar n] else digitChar (n % 10) :: digitsRev fuel (n / 10)

/-- `fmt.Sprintf("%v", n)` for an unsigned integer: decimal, no leading zeros. -/
def decimal (n : Nat) : List Char := (digitsRev (n + 1) n).reverse

/-- `surface.go:351-353`, `SyntacticVersion.String`.  Strings are character
lists. -/
def SV.str (v : SV) : List Char := decimal v.major ++ '.' :: decimal v.minor

/-- `strings.Split(s, sep)` for a one-character separator (Go standard library):
the parts between separators; never empty. -/
def splitOn (sep : Char) : List Char → List (List Char)
  | [] => [[]]
  | c :: cs =>
    if c = sep then [] :: splitOn sep cs
    else
      match splitOn sep cs with
      | [] => [[c]]
      | p :: ps => (c :: p) :: ps

/-- Value of an ASCII decimal digit. -/
def digitVal (c : Char) : Option Nat :=
  if '0' ≤ c ∧ c ≤ '9' then some (c.toNat - 48) else none

/-- The loop of `strconv.ParseUint(s, 10, 32)` (Go standard library) with the
value accumulated so far; `none` is a syntax or range error.  ParseUint also
tests for overflow of the 64-bit accumulator, which cannot happen while the
accumulator stays below 2^32. -/
def parseUintLoop : Nat → List Char → Option Nat
  | n, [] => some n
  | n, c :: cs =>
    match digitVal c with
    | none => none
    | some d => if n * 10 + d > 2 ^ 32 - 1 then none else parseUintLoop (n * 10 + d) cs

/-- `strconv.ParseUint(s, 10, 32)`: the empty string is a syntax error. -/
def parseUint (s : List Char) : Option Nat :=
  match s with
  | [] => none
  | _ => parseUintLoop 0 s

/-- The error returned by the failing branches of `ParseSyntacticVersion`. -/
def malformed : GoErr := ⟨[.malformedSyntacticVersion]⟩

/-- `surface.go:357-375`, `ParseSyntacticVersion`.  `uint(seqv)` is the identity
because the parsed numbers are below 2^32. -/
def parseSV (s : List Char) : Res SV :=
  match splitOn '.' s with
  | [p0, p1] =>
    match parseUint p0 with
    | none => .err malformed
    | some seqv =>
      match parseUint p1 with
      | none => .err malformed
      | some schv => .ok ⟨seqv, schv⟩
  | _ => .err malformed

/-- `strings.Join(parts, sep)`. -/
def joinWith (sep : List Char) : List (List Char) → List Char
  | [] => []
  | [p] => p
  | p :: ps => p ++ sep ++ joinWith sep ps

/-- `surface.go:379-385`, `versionList.String`. -/
def versionListStr (vs : List SV) : List Char := joinWith [',', ' '] (vs.map SV.str)

end Thema
