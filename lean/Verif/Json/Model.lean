import Verif.Json.Spec
/-!
# Model of `json.Unmarshal` into an `interface{}` and `json.Marshal` of the result (Go's `encoding/json`)

Go's decoder first checks the text and then builds the value; here it is one pass.  Text is a list of characters, so that the text is valid UTF-8.  The limit on the depth of nested values (10000) is not modelled.
Numbers are read exactly; their conversion to `float64` is a separate step (`round`).
-/
namespace Verif.Json
open Spec (short hex4 pairVal natVal numVal)

/-- White space is skipped (scanner.go: `isSpace`). -/
def ws (s : Str) : Str := s.dropWhile fun c => c = ' ' || c = '\t' || c = '\n' || c = '\r'

/-- States `state0` and `state1` of the scanner: the integer part. -/
def intPart : Str → Option (Str × Str)
  | '0' :: r => some (['0'], r)
  | s => if s.takeWhile Char.isDigit = [] then none else some (s.takeWhile Char.isDigit, s.dropWhile Char.isDigit)

/-- States `stateDot` and `stateDot0`. -/
def fracPart : Str → Option (Str × Str)
  | '.' :: r => if r.takeWhile Char.isDigit = [] then none else some (r.takeWhile Char.isDigit, r.dropWhile Char.isDigit)
  | s => some ([], s)

/-- States `stateESign` and `stateE0`: the digits of an exponent. -/
def expDigits (sign : Int) (s : Str) : Option (Int × Str) :=
  if s.takeWhile Char.isDigit = [] then none else some (sign * (natVal (s.takeWhile Char.isDigit) : Int), s.dropWhile Char.isDigit)

/-- State `stateE`. -/
def expPart : Str → Option (Int × Str)
  | c :: r =>
    if c = 'e' ∨ c = 'E' then
      match r with
      | '+' :: r => expDigits 1 r
      | '-' :: r => expDigits (-1) r
      | r => expDigits 1 r
    else some (0, c :: r)
  | [] => some (0, [])

/-- A number without its sign. -/
def unsigned (neg : Bool) (s : Str) : Option (Rat × Str) :=
  match intPart s with
  | none => none
  | some (ip, s) =>
    match fracPart s with
    | none => none
    | some (fp, s) =>
      match expPart s with
      | none => none
      | some (e, s) => some (numVal neg ip fp e, s)

/-- A number (scanner.go: `stateBeginValue`, `stateNeg`). -/
def number : Str → Option (Rat × Str)
  | '-' :: r => unsigned true r
  | s => unsigned false s

/-- `getu4` (decode.go): an escape with four hexadecimal digits, and what follows. -/
def getu4 : Str → Option (Nat × Str)
  | '\\' :: 'u' :: a :: b :: c :: d :: r => (hex4 a b c d).map fun x => (x, r)
  | _ => none

/-- The result of reading the rest of a string, with a character before. -/
def withChar (c : Char) : Option (Str × Str) → Option (Str × Str)
  | none => none
  | some (t, r) => some (c :: t, r)

/-- `unquoteBytes` (decode.go), up to the closing quote.  The number bounds the steps. -/
def chars : Nat → Str → Option (Str × Str)
  | 0, _ => none
  | _ + 1, [] => none
  | n + 1, c :: r =>
    if c = '"' then some ([], r)
    else if c = '\\' then
      match getu4 (c :: r) with
      | some (x, r) =>
        if 0xD800 ≤ x ∧ x < 0xE000 then
          match getu4 r with
          | some (y, r') =>
            if x < 0xDC00 ∧ 0xDC00 ≤ y ∧ y < 0xE000 then withChar (Char.ofNat (pairVal x y)) (chars n r')
            else withChar (Char.ofNat 0xFFFD) (chars n r)
          | none => withChar (Char.ofNat 0xFFFD) (chars n r)
        else withChar (Char.ofNat x) (chars n r)
      | none =>
        match r with
        | [] => none
        | e :: r =>
          match short e with
          | none => none
          | some c => withChar c (chars n r)
    else if c.toNat < 32 then none
    else withChar c (chars n r)

mutual
/-- A value (`stateBeginValue`; `valueInterface`). -/
def value : Nat → Str → Option (J × Str)
  | 0, _ => none
  | n + 1, s =>
    match s with
    | 'n' :: 'u' :: 'l' :: 'l' :: r => some (.null, r)
    | 't' :: 'r' :: 'u' :: 'e' :: r => some (.bool true, r)
    | 'f' :: 'a' :: 'l' :: 's' :: 'e' :: r => some (.bool false, r)
    | '"' :: r => (chars (r.length + 1) r).map fun p => (.str p.1, p.2)
    | '[' :: r =>
      if (ws r).head? = some ']' then some (.arr [], (ws r).tail)
      else (items n r).map fun p => (.arr p.1, p.2)
    | '{' :: r =>
      if (ws r).head? = some '}' then some (.obj [], (ws r).tail)
      else (members n r).map fun p => (.obj (mapOf p.1), p.2)
    | s => (number s).map fun p => (.num p.1, p.2)
/-- The items of an array with the closing bracket (`arrayInterface`). -/
def items : Nat → Str → Option (List J × Str)
  | 0, _ => none
  | n + 1, s =>
    match value n (ws s) with
    | none => none
    | some (j, r) =>
      match ws r with
      | ']' :: r => some ([j], r)
      | ',' :: r => (items n r).map fun p => (j :: p.1, p.2)
      | _ => none
/-- The members of an object with the closing brace (`objectInterface`). -/
def members : Nat → Str → Option (List (Str × J) × Str)
  | 0, _ => none
  | n + 1, s =>
    match ws s with
    | '"' :: r =>
      match chars (r.length + 1) r with
      | none => none
      | some (k, r) =>
        match ws r with
        | ':' :: r =>
          match value n (ws r) with
          | none => none
          | some (j, r) =>
            match ws r with
            | '}' :: r => some ([(k, j)], r)
            | ',' :: r => (members n r).map fun p => ((k, j) :: p.1, p.2)
            | _ => none
        | _ => none
    | _ => none
end

/-- `checkValid` and `valueInterface` on a whole text: the value, with exact numbers. -/
def decode (s : Str) : Option J :=
  match value (s.length + 1) (ws s) with
  | none => none
  | some (j, r) => if ws r = [] then some j else none

/-- What is used of `float64`: `round` is `strconv.ParseFloat` (`none` if out of range), `fmt` is how `json.Marshal` writes a `float64`. -/
structure Floats where
  round : Rat → Option Rat
  fmt : Rat → Str

/-- The Go values that are written: `interface{}` holding nil, booleans, integers, `float64`, strings, slices and maps with string keys. -/
inductive G
  | null
  | bool (b : Bool)
  | int (z : Int)
  | float (q : Rat)
  | str (s : Str)
  | arr (l : List G)
  | obj (m : List (Str × G))

mutual
/-- All numbers become `float64` (`convertNumber`, decode.go). -/
def J.toGo (F : Floats) : J → Option G
  | .null => some .null
  | .bool b => some (.bool b)
  | .num q => (F.round q).map .float
  | .str s => some (.str s)
  | .arr l => (itemsToGo F l).map .arr
  | .obj m => (membersToGo F m).map .obj
def itemsToGo (F : Floats) : List J → Option (List G)
  | [] => some []
  | j :: l =>
    match j.toGo F, itemsToGo F l with
    | some v, some vs => some (v :: vs)
    | _, _ => none
def membersToGo (F : Floats) : List (Str × J) → Option (List (Str × G))
  | [] => some []
  | (k, j) :: m =>
    match j.toGo F, membersToGo F m with
    | some v, some vs => some ((k, v) :: vs)
    | _, _ => none
end

/-- `json.Unmarshal` into an `interface{}`. -/
def unmarshal (F : Floats) (s : Str) : Option G := (decode s).bind (J.toGo F)

/-- `strconv.AppendInt` (library). -/
def showInt (z : Int) : Str := if z < 0 then '-' :: Nat.toDigits 10 z.natAbs else Nat.toDigits 10 z.natAbs

/-- The hexadecimal digits that the encoder writes. -/
def hexChar (n : Nat) : Char := if n < 10 then Char.ofNat (48 + n) else Char.ofNat (87 + n)

/-- An escape with four digits. -/
def uEscape (n : Nat) : Str := ['\\', 'u', hexChar (n / 4096 % 16), hexChar (n / 256 % 16), hexChar (n / 16 % 16), hexChar (n % 16)]

/-- One character of `appendString` (encode.go), with `escapeHTML`. -/
def escape (c : Char) : Str :=
  if c = '"' ∨ c = '\\' then ['\\', c]
  else if c = Char.ofNat 8 then ['\\', 'b']
  else if c = Char.ofNat 12 then ['\\', 'f']
  else if c = '\n' then ['\\', 'n']
  else if c = '\r' then ['\\', 'r']
  else if c = '\t' then ['\\', 't']
  else if c.toNat < 32 ∨ c = '<' ∨ c = '>' ∨ c = '&' ∨ c.toNat = 0x2028 ∨ c.toNat = 0x2029 then uEscape c.toNat
  else [c]

/-- `appendString` (encode.go). -/
def quote (s : Str) : Str := '"' :: s.flatMap escape ++ ['"']

/-- Insertion by key: `mapEncoder` (encode.go) sorts the entries of maps by their keys. -/
def insertKey {α : Type} (e : Str × α) : List (Str × α) → List (Str × α)
  | [] => [e]
  | e' :: m => if ltStr e'.1 e.1 then e' :: insertKey e m else e :: e' :: m

def sortKeys {α : Type} (m : List (Str × α)) : List (Str × α) := m.foldr insertKey []

/-- Texts joined by commas. -/
def commas : List Str → Str
  | [] => []
  | [x] => x
  | x :: l => x ++ ',' :: commas l

mutual
/-- `json.Marshal` (encode.go). -/
def encode (F : Floats) : G → Str
  | .null => "null".toList
  | .bool true => "true".toList
  | .bool false => "false".toList
  | .int z => showInt z
  | .float q => F.fmt q
  | .str s => quote s
  | .arr l => '[' :: commas (encodeItems F l) ++ [']']
  | .obj m => '{' :: commas ((sortKeys (encodeMembers F m)).map fun e => quote e.1 ++ ':' :: e.2) ++ ['}']
def encodeItems (F : Floats) : List G → List Str
  | [] => []
  | v :: l => encode F v :: encodeItems F l
def encodeMembers (F : Floats) : List (Str × G) → List (Str × Str)
  | [] => []
  | (k, v) :: m => (k, encode F v) :: encodeMembers F m
end

end Verif.Json
