import Verif.Markers.Registry
/-!
# Model of Go's `text/scanner` as configured by `parserScanner` (/repo/pkg/markers/parse.go:811-819)

The scanner reads a text that is fixed up front.  Its mode is identifiers, integers, floats, strings and raw strings (no comments:
`SkipComments` without `ScanComments` has no effect; no character literals), its white space is blank, tab, newline and carriage
return.  A call of the error handler aborts: the parser only ever appends to its error list (parse.go:848-850), so the verdict "no errors"
is the same.  Offsets count characters instead of bytes; they are only used to cut pieces out of the text.
-/
namespace Verif.Markers

/-- Errors reported to the scanner's error handler, by cause. -/
inductive PErr
  /-- an unterminated or malformed literal (text/scanner) -/
  | lexical
  /-- `expect` failed (parse.go:33-40) -/
  | expected
  /-- `strconv.Unquote` failed (parse.go:392-395) -/
  | unquote
  /-- `strconv.Atoi`/`ParseFloat` failed (parse.go:541, 567) -/
  | number
  /-- neither `true` nor `false` (parse.go:585) -/
  | bool
  /-- parse.go:498-500, 210, 250 -/
  | invalidType
  /-- unknown argument (parse.go:884, 889) -/
  | unknownArgument
  /-- extra arguments (parse.go:917) -/
  | extra
  /-- missing argument (parse.go:923) -/
  | missing
  /-- the model's recursion bound was reached -/
  | fuel
deriving DecidableEq, Repr

/-- The Unicode classes used by `text/scanner` for identifiers; arbitrary outside ASCII. -/
structure Unicode where
  letter : Char → Bool
  digit : Char → Bool
  letter_ascii : ∀ c : Char, c.toNat < 128 → letter c = c.isAlpha
  digit_ascii : ∀ c : Char, c.toNat < 128 → digit c = c.isDigit

/-- ASCII only. -/
def Unicode.ascii : Unicode where
  letter c := c.isAlpha
  digit c := c.isDigit
  letter_ascii _ _ := rfl
  digit_ascii _ _ := rfl

/-- `scanner.GoWhitespace`. -/
def isWs (c : Char) : Bool := c = ' ' || c = '\t' || c = '\n' || c = '\r'

def isIdentStart (U : Unicode) (c : Char) : Bool := c = '_' || U.letter c
def isIdentPart (U : Unicode) (c : Char) : Bool := c = '_' || U.letter c || U.digit c

def isHexDigit (c : Char) : Bool := c.isDigit || ('a' ≤ c && c ≤ 'f') || ('A' ≤ c && c ≤ 'F')
def isOctDigit (c : Char) : Bool := '0' ≤ c && c ≤ '7'

/-- Tokens. -/
inductive Tok
  | eof | ident | int | float | string | rawString
  | ch (c : Char)
deriving DecidableEq, Repr

/-- The state of a scanner: unread text, number of characters read, offset (`Position.Offset`) and text (`TokenText()`) of the last
token.  `Next` (used to skip white space) makes the token text empty but leaves the offset. -/
structure Sc where
  rest : Str
  pos : Nat
  off : Nat
  text : Str
deriving DecidableEq, Repr

def Sc.init (raw : Str) : Sc := ⟨raw, 0, 0, []⟩

/-- Where the scanner is inside a string literal: plain text, after a backslash, or before `left + 1` more digits of an escape. -/
inductive Esc
  | plain
  | backslash
  | digits (hex : Bool) (left : Nat)
deriving DecidableEq, Repr

/-- The escapes of one character after the backslash. -/
def simpleEscape (c : Char) : Option Char :=
  if c = 'a' then some '\x07' else if c = 'b' then some '\x08' else if c = 'f' then some '\x0c' else if c = 'n' then some '\n'
  else if c = 'r' then some '\r' else if c = 't' then some '\t' else if c = 'v' then some '\x0b' else if c = '\\' then some '\\'
  else if c = '"' then some '"' else none

def isEscDigit (hex : Bool) (c : Char) : Bool := if hex then isHexDigit c else isOctDigit c

/-- Skip the rest of a string literal after its opening quote (`scanString`, `scanEscape` of text/scanner): what follows the closing quote, if
the literal is well formed. -/
def skipStringAt : Esc → Str → Option Str
  | _, [] => none
  | .plain, c :: r =>
    if c = '"' then some r else if c = '\n' then none else if c = '\\' then skipStringAt .backslash r else skipStringAt .plain r
  | .backslash, c :: r =>
    if (simpleEscape c).isSome then skipStringAt .plain r
    else if isOctDigit c then skipStringAt (.digits false 1) r
    else if c = 'x' then skipStringAt (.digits true 1) r
    else if c = 'u' then skipStringAt (.digits true 3) r
    else if c = 'U' then skipStringAt (.digits true 7) r
    else none
  | .digits hex 0, c :: r => if isEscDigit hex c then skipStringAt .plain r else none
  | .digits hex (n + 1), c :: r => if isEscDigit hex c then skipStringAt (.digits hex n) r else none

def skipString (l : Str) : Option Str := skipStringAt .plain l

/-- The digits of a number with the given base: they and underscores are read; for bases up to 10 every decimal digit is read. -/
def numSpan (base : Nat) (l : Str) : Str × Str :=
  let p := fun (c : Char) => c.isDigit || c = '_' || (base = 16 && isHexDigit c)
  (l.takeWhile p, l.dropWhile p)

/-- A digit that is too large for the base. -/
def badDigit (base : Nat) (c : Char) : Bool := base ≤ 10 && c.isDigit && c.toNat ≥ '0'.toNat + base

/-- The base of a number, its prefix (`' '` if there is none) and what follows the prefix. -/
def numPrefix (l : Str) : Nat × Char × Str :=
  if l.head? = some '0' then
    let c := l.tail.head?
    if c = some 'x' ∨ c = some 'X' then (16, 'x', l.tail.tail)
    else if c = some 'o' ∨ c = some 'O' then (8, 'o', l.tail.tail)
    else if c = some 'b' ∨ c = some 'B' then (2, 'b', l.tail.tail)
    else (8, '0', l.tail)
  else (10, ' ', l)

/-- The exponent and the final checks of `scanNumber`; `l` is what follows the mantissa. -/
def numEnd (tok : Tok) (pre : Char) (bad : Bool) (l : Str) : Except PErr (Tok × Str) :=
  let c := l.head?
  if c = some 'e' ∨ c = some 'E' ∨ c = some 'p' ∨ c = some 'P' then
    if (c = some 'e' ∨ c = some 'E') ∧ pre ≠ ' ' ∧ pre ≠ '0' then .error .lexical
    else if (c = some 'p' ∨ c = some 'P') ∧ pre ≠ 'x' then .error .lexical
    else
      let r := l.tail
      let r := if r.head? = some '+' ∨ r.head? = some '-' then r.tail else r
      let ex := numSpan 10 r
      if ex.1.any (fun c => c ≠ '_') = false then .error .lexical
      else if ex.1.any (· = '_') then .error .lexical
      else .ok (.float, ex.2)
  else if pre = 'x' ∧ tok = .float then .error .lexical
  else if tok = .int ∧ bad then .error .lexical
  else .ok (tok, l)

/-- The checks of `scanNumber` on the digits; `l` is what follows the mantissa. -/
def numCheck (tok : Tok) (base : Nat) (pre : Char) (digits : Str) (l : Str) : Except PErr (Tok × Str) :=
  if tok = .float ∧ (pre = 'o' ∨ pre = 'b') then .error .lexical
  else if pre ≠ '0' ∧ digits.any (fun c => c ≠ '_') = false then .error .lexical
  else if digits.any (fun c => c = '_') then .error .lexical
  else numEnd tok pre (digits.any (badDigit base)) l

/-- `scanNumber` of text/scanner.  Input: the text from the first digit on (or after the dot, with `seenDot`).  Output: token and what
follows.  Number literals containing `_` are treated as malformed: their placement is checked by the scanner, and every number that
contains one is rejected by `strconv.Atoi` and `ParseFloat` afterwards, except hexadecimal floats, which are not modelled. -/
def scanNumber (l : Str) (seenDot : Bool) : Except PErr (Tok × Str) :=
  if seenDot then
    let f := numSpan 10 l
    numCheck .float 10 ' ' f.1 f.2
  else
    let p := numPrefix l
    let i := numSpan p.1 p.2.2
    if i.2.head? = some '.' then
      let f := numSpan p.1 i.2.tail
      numCheck .float p.1 p.2.1 (i.1 ++ f.1) f.2
    else numCheck .int p.1 p.2.1 i.1 i.2

/-- One token at the beginning of a text that does not start with white space (`Scan` of text/scanner), and what follows it; `num` says
whether integers and floats are recognised (`ScanInts | ScanFloats`). -/
def lex (U : Unicode) (num : Bool) (r : Str) : Except PErr (Tok × Str) :=
  match r with
  | [] => .ok (.eof, [])
  | c :: cs =>
    if isIdentStart U c then .ok (.ident, cs.dropWhile (isIdentPart U))
    else if c.isDigit then
      if num then scanNumber (c :: cs) false else .ok (.ch c, cs)
    else if c = '"' then
      match skipString cs with
      | none => .error .lexical
      | some rest => .ok (.string, rest)
    else if c = '`' then
      match Text.cut '`' cs with
      | none => .error .lexical
      | some (_, rest) => .ok (.rawString, rest)
    else if c = '.' then
      match cs with
      | d :: _ => if d.isDigit && num then scanNumber cs true else .ok (.ch c, cs)
      | [] => .ok (.ch c, cs)
    else .ok (.ch c, cs)

/-- `scanner.Scan()`: skip white space, read a token, remember its text and offset. -/
def scan (U : Unicode) (num : Bool) (s : Sc) : Except PErr (Tok × Sc) :=
  let r := s.rest.dropWhile isWs
  let off := s.pos + (s.rest.length - r.length)
  match lex U num r with
  | .error e => .error e
  | .ok (t, rest) => .ok (t, ⟨rest, off + (r.length - rest.length), off, r.take (r.length - rest.length)⟩)

/-- `scanner.Peek()`. -/
def peek (s : Sc) : Option Char := s.rest.head?

/-- The state after `peekNoSpace` (parse.go:43-49): skipping white space with `Next` forgets the token text. -/
def skipWs (s : Sc) : Sc :=
  let r := s.rest.dropWhile isWs
  if r.length = s.rest.length then s else ⟨r, s.pos + (s.rest.length - r.length), s.off, []⟩

/-- The character returned by `peekNoSpace` (parse.go:43-49); `none` is end of text. -/
def peekNoSpace (s : Sc) : Option Char := (s.rest.dropWhile isWs).head?

/-- `expect` (parse.go:33-40). -/
def expect (U : Unicode) (t : Tok) (s : Sc) : Except PErr Sc :=
  match scan U true s with
  | .error e => .error e
  | .ok (t', s') => if t' = t then .ok s' else .error .expected

end Verif.Markers
