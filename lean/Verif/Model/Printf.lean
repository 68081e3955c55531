import Verif.Model.Validate

/-!
# `fmt.Fprintf` without operands

`cmd/thema/lineage_subgen.go:190` and `228` write a generated document with
`fmt.Fprintf(cmd.OutOrStdout(), str)`: the document is the format string and there
are no operands.  This is `doPrintf` of the Go standard library (`fmt/print.go`)
for that case, on characters rather than bytes.
-/

namespace Thema.Printf

/-- The flags of a verb (`doPrintf`, label `simpleFormat`). -/
def isFlag (c : Char) : Bool :=
  c == '#' || c == '0' || c == '+' || c == '-' || c == ' '

/-- A decimal digit. -/
def isDigit (c : Char) : Bool := '0' ≤ c && c ≤ '9'

/-- `parsenum` of `fmt/print.go`: the digits at the start, and what follows.  A number
that is too large (over 10^6) makes it skip to the end of the format. -/
def parsenumLoop : Nat → Bool → Str → Option Nat × Str
  | n, seen, [] => (if seen then some n else none, [])
  | n, seen, c :: cs =>
    if isDigit c then
      if n > 1000000 then (none, []) else parsenumLoop (n * 10 + (c.toNat - 48)) true cs
    else (if seen then some n else none, c :: cs)

/-- `parsenum`. -/
def parsenum (s : Str) : Option Nat × Str := parsenumLoop 0 false s

/-- The part of `s` up to the first `]` and what follows it. -/
def toBracket : Str → Option (Str × Str)
  | [] => none
  | c :: cs => if c = ']' then some ([], cs) else (toBracket cs).map fun p => (c :: p.1, p.2)

/-- `argNumber` with no operands, on the remaining format: whether an explicit
argument index is well-formed (`afterIndex`), whether the argument number is still
good, and what remains.  Without operands every index is out of range, so that any
index makes the argument number bad. -/
def argNumber (s : Str) : Bool × Bool × Str :=
  match s with
  | '[' :: cs =>
    if cs.length < 2 then (false, false, cs)
    else
      match toBracket cs with
      | none => (false, false, cs)
      | some (inside, rest) =>
        match parsenum inside with
        | (some _, []) => (true, false, rest)
        | _ => (false, false, rest)
  | _ => (false, true, s)

/-- `"%!(BADWIDTH)"`. -/
def badWidth : Str := "%!(BADWIDTH)".toList
/-- `"%!(BADPREC)"`. -/
def badPrec : Str := "%!(BADPREC)".toList
/-- `"%!(NOVERB)"`. -/
def noVerb : Str := "%!(NOVERB)".toList

/-- What has been read of one verb: text already written, whether the argument number
is good, whether the last item was an index, what remains. -/
structure St where
  out : Str
  good : Bool
  after : Bool
  rest : Str
  deriving DecidableEq, Repr

/-- "Do we have an explicit argument index?" -/
def index (s : St) : St :=
  let r := argNumber s.rest
  { s with after := r.1, good := s.good && r.2.1, rest := r.2.2 }

/-- "Do we have width?"  `*` has no operand to read. -/
def width (s : St) : St :=
  match s.rest with
  | '*' :: cs => { s with out := s.out ++ badWidth, after := false, rest := cs }
  | _ =>
    let r := parsenum s.rest
    { s with good := s.good && !(s.after && r.1.isSome), rest := r.2 }

/-- "Do we have precision?" -/
def prec (s : St) : St :=
  match s.rest with
  | '.' :: cs =>
    let s := index { s with good := s.good && !s.after, rest := cs }
    match s.rest with
    | '*' :: cs => { s with out := s.out ++ badPrec, after := false, rest := cs }
    | _ => { s with rest := (parsenum s.rest).2 }
  | _ => s

/-- "if !afterIndex" -/
def index2 (s : St) : St := if s.after then s else index s

/-- The verb itself. -/
def verb (s : St) : Str × Str :=
  match s.rest with
  | [] => (s.out ++ noVerb, [])
  | v :: cs =>
    (s.out ++
      (if v = '%' then ['%']
       else if !s.good then '%' :: '!' :: v :: "(BADINDEX)".toList
       else '%' :: '!' :: v :: "(MISSING)".toList), cs)

/-- One verb: what is written for it and what remains of the format, given the
format after the percent sign. -/
def directive (s : Str) : Str × Str :=
  verb (index2 (prec (width (index ⟨[], true, false, s.dropWhile isFlag⟩))))

/-- The loop of `doPrintf`, with a budget of steps. -/
def printfLoop : Nat → Str → Str
  | 0, _ => []
  | _, [] => []
  | n + 1, c :: cs =>
    if c = '%' then (directive cs).1 ++ printfLoop n (directive cs).2
    else c :: printfLoop n cs

/-- `fmt.Fprintf(w, s)`: what is written.  Every step consumes a character of the
format, so that the budget suffices. -/
def fprintf (s : Str) : Str := printfLoop s.length s

end Thema.Printf
