import Verif.Model.Validate

/-!
# String literals

Generated Go and CUE code contains names between quotation marks: as they are
(`encoding/gocode/binding.tmpl:106,112`, `load/load.go:43`,
`encoding/cue/tmpl`), or quoted by `%q` (`encoding/gocode/gen.go:290`).  This is how
the two languages read a literal, and how `%q` writes one.
-/

namespace Thema.Lit

/-- The value of a hexadecimal digit. -/
def hexVal (c : Char) : Option Nat :=
  if '0' ≤ c ∧ c ≤ '9' then some (c.toNat - 48)
  else if 'a' ≤ c ∧ c ≤ 'f' then some (c.toNat - 87)
  else if 'A' ≤ c ∧ c ≤ 'F' then some (c.toNat - 55)
  else none

/-- Read a number of exactly `n` hexadecimal digits. -/
def hexRead : Nat → Nat → Str → Option (Nat × Str)
  | 0, acc, s => some (acc, s)
  | _ + 1, _, [] => none
  | n + 1, acc, c :: s =>
    match hexVal c with
    | none => none
    | some d => hexRead n (acc * 16 + d) s

/-- The character with the given code; `none` for surrogates and numbers that are too
large. -/
def charOf (n : Nat) : Option Char := if n.isValidChar then some (Char.ofNat n) else none

/-- `\x`, `\u`, `\U` with their number of digits. -/
def hexEsc (n : Nat) (s : Str) : Option (Char × Str) :=
  (hexRead n 0 s).bind fun p => (charOf p.1).map fun c => (c, p.2)

/-- The escapes common to Go and CUE that stand for one character. -/
def simpleEsc (c : Char) : Option Char :=
  if c = 'a' then some (Char.ofNat 7)
  else if c = 'b' then some (Char.ofNat 8)
  else if c = 'f' then some (Char.ofNat 12)
  else if c = 'n' then some '\n'
  else if c = 'r' then some '\r'
  else if c = 't' then some '\t'
  else if c = 'v' then some (Char.ofNat 11)
  else if c = '\\' then some '\\'
  else if c = '"' then some '"'
  else none

/-- Escapes of Go (specification, "Rune literals"), given what follows the backslash: the
character and what remains.  Octal escapes are left out, and a byte above 127 is taken for
the character with that number. -/
def goEsc (s : Str) : Option (Char × Str) :=
  match s with
  | [] => none
  | c :: cs =>
    if c = 'x' then hexEsc 2 cs
    else if c = 'u' then hexEsc 4 cs
    else if c = 'U' then hexEsc 8 cs
    else (simpleEsc c).map fun d => (d, cs)

/-- Escapes of CUE (specification, "String and byte sequence literals").  An interpolation
`\(` does not give a literal. -/
def cueEsc (s : Str) : Option (Char × Str) :=
  match s with
  | [] => none
  | c :: cs =>
    if c = 'u' then hexEsc 4 cs
    else if c = 'U' then hexEsc 8 cs
    else if c = '/' then some ('/', cs)
    else (simpleEsc c).map fun d => (d, cs)

/-- Characters that the scanners of both languages refuse in a literal: line feed, NUL, and
the byte order mark. -/
def illegal (c : Char) : Bool := c == '\n' || c == Char.ofNat 0 || c == Char.ofNat 0xFEFF

/-- Read a literal up to its closing quotation mark, which must be the end.  The budget
bounds the number of characters read. -/
def unquoteLoop (esc : Str → Option (Char × Str)) : Nat → Str → Option Str
  | 0, _ => none
  | _ + 1, [] => none
  | n + 1, c :: cs =>
    if c = '"' then (if cs = [] then some [] else none)
    else if c = '\\' then
      match esc cs with
      | none => none
      | some (d, r) => (unquoteLoop esc n r).map (d :: ·)
    else if illegal c then none
    else (unquoteLoop esc n cs).map (c :: ·)

/-- The string that a text denotes as a literal; `none` if it is not exactly one literal. -/
def unquote (esc : Str → Option (Char × Str)) (lit : Str) : Option Str :=
  match lit with
  | [] => none
  | c :: cs => if c = '"' then unquoteLoop esc (cs.length + 1) cs else none

/-- A name between quotation marks: `"{{ .Name }}"`, `"%s"`. -/
def inQuotes (s : Str) : Str := '"' :: (s ++ ['"'])

/-- A hexadecimal digit. -/
def hexChar (n : Nat) : Char := if n < 10 then Char.ofNat (48 + n) else Char.ofNat (87 + n)

/-- `n` hexadecimal digits. -/
def hexDigits : Nat → Nat → Str
  | 0, _ => []
  | n + 1, k => hexChar (k / 16 ^ n % 16) :: hexDigits n k

/-- `strconv.appendEscapedRune` for `%q`; `isPrint` is `strconv.IsPrint`. -/
def quoteRune (isPrint : Char → Bool) (c : Char) : Str :=
  if c = '"' ∨ c = '\\' then ['\\', c]
  else if isPrint c then [c]
  else if c = Char.ofNat 7 then ['\\', 'a']
  else if c = Char.ofNat 8 then ['\\', 'b']
  else if c = Char.ofNat 12 then ['\\', 'f']
  else if c = '\n' then ['\\', 'n']
  else if c = '\r' then ['\\', 'r']
  else if c = '\t' then ['\\', 't']
  else if c = Char.ofNat 11 then ['\\', 'v']
  else if c.toNat < 32 ∨ c.toNat = 127 then '\\' :: 'x' :: hexDigits 2 c.toNat
  else if c.toNat < 0x10000 then '\\' :: 'u' :: hexDigits 4 c.toNat
  else '\\' :: 'U' :: hexDigits 8 c.toNat

/-- `fmt.Sprintf("%q", s)`. -/
def goQuote (isPrint : Char → Bool) (s : Str) : Str :=
  '"' :: (s.flatMap (quoteRune isPrint) ++ ['"'])

end Thema.Lit
