import Verif.Markers.Scanner
/-!
# Model of marker argument parsing: `/repo/pkg/markers/parse.go`
-/
namespace Verif.Markers

/-- What the parser needs from its environment: Unicode classes and `strconv.ParseFloat(_, 64)`; a number is the rational the
float stands for. -/
structure Env extends Unicode where
  parseFloat : Str → Option Rat
  /-- `strconv.ParseFloat` of a number in JSON; only used for the marker `default` -/
  round : Rat → Option Rat := some

/-- `Argument` (parse.go:106-120) without `Optional` and `Pointer` (a pointer argument is parsed like its target, parse.go:502-505).
`int true` is an argument whose Go type is `int32` (parse.go:651): the parsed number is converted to it by `castAndSet` (parse.go:171-178). -/
inductive Arg
  | invalid
  | int (bits32 : Bool)
  | num
  | str
  | bool
  | any
  | slice (item : Arg)
  | map (item : Arg)
  | raw
deriving DecidableEq, Repr

/-- A parsed value. -/
inductive Value
  | int (z : Int)
  | num (q : Rat)
  | str (s : Str)
  | bool (b : Bool)
  | slice (l : List Value)
  | map (m : List (Str × Value))
  | raw (s : Str)
deriving Repr

mutual
def Value.decEq : (a b : Value) → Decidable (a = b)
  | .int a, .int b => if h : a = b then isTrue (by rw [h]) else isFalse (by simpa using h)
  | .num a, .num b => if h : a = b then isTrue (by rw [h]) else isFalse (by simpa using h)
  | .str a, .str b => if h : a = b then isTrue (by rw [h]) else isFalse (by simpa using h)
  | .bool a, .bool b => if h : a = b then isTrue (by rw [h]) else isFalse (by simpa using h)
  | .raw a, .raw b => if h : a = b then isTrue (by rw [h]) else isFalse (by simpa using h)
  | .slice a, .slice b => match Value.decEqList a b with
    | isTrue h => isTrue (by rw [h])
    | isFalse h => isFalse (by simpa using h)
  | .map a, .map b => match Value.decEqEntries a b with
    | isTrue h => isTrue (by rw [h])
    | isFalse h => isFalse (by simpa using h)
  | .int _, .num _ | .int _, .str _ | .int _, .bool _ | .int _, .raw _ | .int _, .slice _ | .int _, .map _
  | .num _, .int _ | .num _, .str _ | .num _, .bool _ | .num _, .raw _ | .num _, .slice _ | .num _, .map _
  | .str _, .int _ | .str _, .num _ | .str _, .bool _ | .str _, .raw _ | .str _, .slice _ | .str _, .map _
  | .bool _, .int _ | .bool _, .num _ | .bool _, .str _ | .bool _, .raw _ | .bool _, .slice _ | .bool _, .map _
  | .raw _, .int _ | .raw _, .num _ | .raw _, .str _ | .raw _, .bool _ | .raw _, .slice _ | .raw _, .map _
  | .slice _, .int _ | .slice _, .num _ | .slice _, .str _ | .slice _, .bool _ | .slice _, .raw _ | .slice _, .map _
  | .map _, .int _ | .map _, .num _ | .map _, .str _ | .map _, .bool _ | .map _, .raw _ | .map _, .slice _ => isFalse nofun
def Value.decEqList : (a b : List Value) → Decidable (a = b)
  | [], [] => isTrue rfl
  | [], _ :: _ => isFalse nofun
  | _ :: _, [] => isFalse nofun
  | x :: xs, y :: ys => match Value.decEq x y, Value.decEqList xs ys with
    | isTrue h, isTrue h' => isTrue (by rw [h, h'])
    | isFalse h, _ => isFalse (by simp [h])
    | _, isFalse h => isFalse (by simp [h])
def Value.decEqEntries : (a b : List (Str × Value)) → Decidable (a = b)
  | [], [] => isTrue rfl
  | [], _ :: _ => isFalse nofun
  | _ :: _, [] => isFalse nofun
  | (k, x) :: xs, (k', y) :: ys =>
    if hk : k = k' then
      match Value.decEq x y, Value.decEqEntries xs ys with
      | isTrue h, isTrue h' => isTrue (by rw [h, h', hk])
      | isFalse h, _ => isFalse (by simp [h])
      | _, isFalse h => isFalse (by simp [h])
    else isFalse (by simp [hk])
end

instance : DecidableEq Value := Value.decEq

deriving instance DecidableEq for Except

/-! ## `strconv` -/

def digitVal (c : Char) : Nat := c.toNat - '0'.toNat

/-- The number denoted by decimal digits. -/
def natOfDigits (l : Str) : Nat := l.foldl (fun n c => n * 10 + digitVal c) 0

/-- `strconv.Atoi` on the digits of an integer token with an optional minus sign put before them (parse.go:562-570); 64 bits. -/
def atoi (neg : Bool) (text : Str) : Option Int :=
  if text ≠ [] ∧ text.all Char.isDigit then
    let z : Int := if neg then -(natOfDigits text : Int) else natOfDigits text
    if -(2 ^ 63) ≤ z ∧ z < 2 ^ 63 then some z else none
  else none

def hexVal (c : Char) : Nat :=
  if c.isDigit then digitVal c else if 'a' ≤ c ∧ c ≤ 'f' then c.toNat - 'a'.toNat + 10 else c.toNat - 'A'.toNat + 10

/-- A code point escape.  `\x` and octal escapes (`byte`) denote single bytes; those of 128 or more may build characters out of several
escapes, which is not modelled (they are treated as errors). -/
def escapedChar (byte : Bool) (n : Nat) : Option Char :=
  if byte ∧ 128 ≤ n then none else if h : n.isValidChar then some (Char.ofNatAux n h) else none

/-- Where unquoting is: like `Esc`, with the number read so far. -/
inductive Unq
  | plain
  | backslash
  | digits (byte hex : Bool) (left acc : Nat)
deriving DecidableEq, Repr

def addDigit (hex : Bool) (acc : Nat) (c : Char) : Nat := if hex then acc * 16 + hexVal c else acc * 8 + digitVal c

/-- `strconv.Unquote` on the inside of a double-quoted literal that the scanner has accepted. -/
def unquoteAt : Unq → Str → Option Str
  | .plain, [] => some []
  | _, [] => none
  | .plain, c :: r =>
    if c = '"' ∨ c = '\n' then none else if c = '\\' then unquoteAt .backslash r else (unquoteAt .plain r).map (c :: ·)
  | .backslash, c :: r =>
    match simpleEscape c with
    | some e => (unquoteAt .plain r).map (e :: ·)
    | none =>
      if isOctDigit c then unquoteAt (.digits true false 1 (digitVal c)) r
      else if c = 'x' then unquoteAt (.digits true true 1 0) r
      else if c = 'u' then unquoteAt (.digits false true 3 0) r
      else if c = 'U' then unquoteAt (.digits false true 7 0) r
      else none
  | .digits byte hex 0 acc, c :: r => (escapedChar byte (addDigit hex acc c)).bind fun x => (unquoteAt .plain r).map (x :: ·)
  | .digits byte hex (n + 1) acc, c :: r => unquoteAt (.digits byte hex n (addDigit hex acc c)) r

def unquoteBody (l : Str) : Option Str := unquoteAt .plain l

/-- `strconv.Unquote` on a string or raw string token. -/
def unquote (text : Str) : Option Str :=
  match text with
  | '"' :: r => unquoteBody r.dropLast
  | '`' :: r => some (r.dropLast.filter (· ≠ '\r'))
  | _ => none

/-! ## Arguments -/

/-- The loop over bare tokens (parse.go:404-407). -/
def bareLoop (U : Unicode) : Nat → Sc → Except PErr Sc
  | 0, _ => .error .fuel
  | n + 1, s =>
    match peekNoSpace s with
    | none => .ok (skipWs s)
    | some c =>
      if c = ',' ∨ c = ';' ∨ c = ':' ∨ c = '}' then .ok (skipWs s)
      else match scan U false (skipWs s) with
        | .error e => .error e
        | .ok (_, s') => bareLoop U n s'

/-- `parseString` (parse.go:377-411). -/
def parseString (U : Unicode) (raw : Str) (s : Sc) : Except PErr (Str × Sc) :=
  match scan U false s with
  | .error e => .error e
  | .ok (tok, s') =>
    if tok = .string ∨ tok = .rawString then
      match unquote s'.text with
      | none => .error .unquote
      | some v => .ok (v, s')
    else
      let startPos := s'.off
      match bareLoop U (s'.rest.length + 1) s' with
      | .error e => .error e
      | .ok s'' =>
        let endPos := s''.off + s''.text.length
        .ok ((raw.drop startPos).take (endPos - startPos), s'')

/-- `guessType(scanner, raw, false)` (parse.go:291-374) on the unread text. -/
def guess (U : Unicode) : Nat → Str → Except PErr Arg
  | 0, _ => .error .fuel
  | n + 1, sub =>
    let s := skipWs (Sc.init sub)
    let hint := peek s
    if hint = some '"' ∨ hint = some '\'' ∨ hint = some '`' then .ok .str
    else if hint = some '{' then
      match scan U true s with
      | .error e => .error e
      | .ok (_, s1) =>
        let s2 := skipWs s1
        let hint := peek s2
        match guess U n s2.rest with
        | .error e => .error e
        | .ok first =>
          if first = .str then
            match parseString U sub s2 with
            | .error e => .error e
            | .ok (_, s3) =>
              match scan U true s3 with
              | .error e => .error e
              | .ok (tok, _) => if tok = .ch ':' ∨ hint = some '}' then .ok (.map .any) else .ok (.slice first)
          else .ok (.slice first)
    else
      match scan U true s with
      | .error e => .error e
      | .ok (tok, s1) =>
        if (hint = some 't' ∨ hint = some 'f') then
          -- the token is an identifier, as it starts with a letter
          if s1.text = "true".toList ∨ s1.text = "false".toList then .ok .bool else .ok .str
        else if tok = .ch '-' then
          match scan U true s1 with
          | .error e => .error e
          | .ok (tok, _) => if tok = .int then .ok (.int false) else if tok = .float then .ok .num else .ok .str
        else if tok = .int then .ok (.int false) else if tok = .float then .ok .num else .ok .str

/-- The look-ahead for a semicolon (parse.go:267-286): whether `;` comes before `,` and the end of the text. -/
def semicolonAhead (U : Unicode) : Nat → Sc → Except PErr Bool
  | 0, _ => .error .fuel
  | n + 1, s =>
    match scan U true s with
    | .error e => .error e
    | .ok (tok, s') =>
      if tok = .ch ';' then .ok true
      else if tok = .ch ',' ∨ tok = .eof then .ok false
      else semicolonAhead U n s'

/-- `guessType` (parse.go:263-374) on the unread text. -/
def guessType (U : Unicode) (sub : Str) (allowSlice : Bool) : Except PErr Arg :=
  match guess U (sub.length + 1) sub with
  | .error e => .error e
  | .ok item =>
    if allowSlice then
      match semicolonAhead U (sub.length + 1) (Sc.init sub) with
      | .error e => .error e
      | .ok true => .ok (.slice item)
      | .ok false => .ok item
    else .ok item

/-- `makeSliceType`/`makeMapType` (parse.go:182-255) succeed on this item type. -/
def constructible : Arg → Bool
  | .int _ | .num | .str | .bool => true
  | .slice a => constructible a
  | .map a => a = .any || constructible a
  | _ => false

/-- Go's `int32(x)`. -/
def toInt32 (x : Int) : Int := Int.bmod x (2 ^ 32)

/-- Scan to the end of the text (parse.go:511-516). -/
def drain (U : Unicode) : Nat → Sc → Except PErr Sc
  | 0, _ => .error .fuel
  | n + 1, s =>
    match scan U true s with
    | .error e => .error e
    | .ok (tok, s') => if tok = .eof then .ok s' else drain U n s'

/-- The optional minus sign (parse.go:519-524, 553-558): whether there is one, and the state after it. -/
def minus (U : Unicode) (s : Sc) : Except PErr (Bool × Sc) :=
  if peek s = some '-' then
    match scan U true s with
    | .error e => .error e
    | .ok (_, s') => .ok (true, s')
  else .ok (false, s)

mutual
/-- `parse` (parse.go:497-619).  The first argument bounds the depth of recursion. -/
def parse (E : Env) : Nat → Arg → Str → Bool → Sc → Except PErr (Value × Sc)
  | 0, _, _, _, _ => .error .fuel
  | n + 1, a, raw, inSlice, s =>
    match a with
    | .invalid => .error .invalidType
    | .raw =>
      match drain E.toUnicode (s.rest.length + 1) s with
      | .error e => .error e
      | .ok s' => .ok (.raw s.rest, s')
    | .num =>
      match minus E.toUnicode s with
      | .error e => .error e
      | .ok (neg, s) =>
        match scan E.toUnicode true s with
        | .error e => .error e
        | .ok (tok, s') =>
          if tok = .float ∨ tok = .int then
            match E.parseFloat (if neg then '-' :: s'.text else s'.text) with
            | none => .error .number
            | some q => .ok (.num q, s')
          else .error .expected
    | .int bits32 =>
      match minus E.toUnicode s with
      | .error e => .error e
      | .ok (neg, s) =>
        match expect E.toUnicode .int s with
        | .error e => .error e
        | .ok s' =>
          match atoi neg s'.text with
          | none => .error .number
          | some z => .ok (.int (if bits32 then toInt32 z else z), s')
    | .str =>
      match parseString E.toUnicode raw s with
      | .error e => .error e
      | .ok (v, s') => .ok (.str v, s')
    | .bool =>
      match expect E.toUnicode .ident s with
      | .error e => .error e
      | .ok s' =>
        if s'.text = "true".toList then .ok (.bool true, s')
        else if s'.text = "false".toList then .ok (.bool false, s')
        else .error .bool
    | .any =>
      match guessType E.toUnicode s.rest (! inSlice) with
      | .error e => .error e
      | .ok g =>
        match g with
        | .slice i => if constructible i then parse E n g raw false s else .error .invalidType
        | .map i => if i = .any ∨ constructible i then parse E n g raw false s else .error .invalidType
        | _ => parse E n g raw false s
    | .slice item =>
      if peekNoSpace s = some '{' then
        match scan E.toUnicode true (skipWs s) with
        | .error e => .error e
        | .ok (_, s') =>
          match bracedItems E n item raw s' with
          | .error e => .error e
          | .ok (l, s'') => .ok (.slice l, s'')
      else
        match legacyItems E n item raw (skipWs s) with
        | .error e => .error e
        | .ok (l, s'') => .ok (.slice l, s'')
    | .map item =>
      match expect E.toUnicode (.ch '{') s with
      | .error e => .error e
      | .ok s' =>
        match mapItems E n item raw s' [] with
        | .error e => .error e
        | .ok (m, s'') => .ok (.map m, s'')
/-- The loop of `parseSlice` for `{a, b, c}` (parse.go:427-442). -/
def bracedItems (E : Env) : Nat → Arg → Str → Sc → Except PErr (List Value × Sc)
  | 0, _, _, _ => .error .fuel
  | n + 1, item, raw, s =>
    if peekNoSpace s = some '}' ∨ peekNoSpace s = none then
      match expect E.toUnicode (.ch '}') (skipWs s) with
      | .error e => .error e
      | .ok s' => .ok ([], s')
    else
      match parse E n item raw true (skipWs s) with
      | .error e => .error e
      | .ok (v, s1) =>
        if peekNoSpace s1 = some '}' then
          match expect E.toUnicode (.ch '}') (skipWs s1) with
          | .error e => .error e
          | .ok s' => .ok ([v], s')
        else
          match expect E.toUnicode (.ch ',') (skipWs s1) with
          | .error e => .error e
          | .ok s2 =>
            match bracedItems E n item raw s2 with
            | .error e => .error e
            | .ok (l, s') => .ok (v :: l, s')
/-- The loop of `parseSlice` for `a;b;c` (parse.go:446-458). -/
def legacyItems (E : Env) : Nat → Arg → Str → Sc → Except PErr (List Value × Sc)
  | 0, _, _, _ => .error .fuel
  | n + 1, item, raw, s =>
    if peekNoSpace s = some ',' ∨ peekNoSpace s = some '}' ∨ peekNoSpace s = none then .ok ([], skipWs s)
    else
      match parse E n item raw true (skipWs s) with
      | .error e => .error e
      | .ok (v, s1) =>
        if peekNoSpace s1 = some ',' ∨ peekNoSpace s1 = some '}' ∨ peekNoSpace s1 = none then .ok ([v], skipWs s1)
        else
          match scan E.toUnicode true (skipWs s1) with
          | .error e => .error e
          | .ok (_, s2) =>
            if peekNoSpace s1 = some ';' then
              match legacyItems E n item raw s2 with
              | .error e => .error e
              | .ok (l, s') => .ok (v :: l, s')
            else .error .expected
/-- The loop of `parseMap` (parse.go:472-487); `acc` is the map so far. -/
def mapItems (E : Env) : Nat → Arg → Str → Sc → List (Str × Value) → Except PErr (List (Str × Value) × Sc)
  | 0, _, _, _, _ => .error .fuel
  | n + 1, item, raw, s, acc =>
    if peekNoSpace s = some '}' ∨ peekNoSpace s = none then
      match expect E.toUnicode (.ch '}') (skipWs s) with
      | .error e => .error e
      | .ok s' => .ok (acc, s')
    else
      match parseString E.toUnicode raw (skipWs s) with
      | .error e => .error e
      | .ok (k, s1) =>
        match expect E.toUnicode (.ch ':') s1 with
        | .error e => .error e
        | .ok s2 =>
          match parse E n item raw false s2 with
          | .error e => .error e
          | .ok (v, s3) =>
            let acc := GoMap.put acc k v
            if peekNoSpace s3 = some '}' then
              match expect E.toUnicode (.ch '}') (skipWs s3) with
              | .error e => .error e
              | .ok s' => .ok (acc, s')
            else
              match expect E.toUnicode (.ch ',') (skipWs s3) with
              | .error e => .error e
              | .ok s4 => mapItems E n item raw s4 acc
end

/-! ## Definitions -/

/-- An argument of a definition (parse.go:714-723): its name in the marker, its type, whether it is optional. -/
structure Field where
  name : Str
  arg : Arg
  optional : Bool
deriving DecidableEq, Repr

/-- `Definition` (parse.go:705-727) as far as `Parse` looks at it.  Its two maps are keyed by the same argument names. -/
structure Definition where
  fields : List Field
  strict : Bool
deriving DecidableEq, Repr

/-- `AnonymousField` (parse.go:733-739). -/
def Definition.anonymousField (d : Definition) : Bool :=
  d.fields.length = 1 && d.fields.any (fun f => f.name = [])

def Definition.field? (d : Definition) (name : Str) : Option Field := d.fields.find? (fun f => f.name = name)

def Arg.depth : Arg → Nat
  | .slice a => a.depth + 1
  | .map a => a.depth + 1
  | _ => 1

/-- A recursion bound for parsing an argument of this type out of this text. -/
def fuelFor (raw : Str) (a : Arg) : Nat := 4 * (raw.length + a.depth + 1)

/-- The loop over `name=value` arguments (parse.go:867-912).  The result maps argument names to the values assigned to their fields. -/
def argLoop (E : Env) (d : Definition) (raw : Str) : Nat → Sc → List (Str × Value) → Except PErr (List (Str × Value) × Sc)
  | 0, _, _ => .error .fuel
  | n + 1, s, acc =>
    match expect E.toUnicode .ident s with
    | .error e => .error e
    | .ok s1 =>
      let argName := s1.text
      match expect E.toUnicode (.ch '=') s1 with
      | .error e => .error e
      | .ok s2 =>
        match d.field? argName with
        | none => .error .unknownArgument
        | some f =>
          match parse E (fuelFor raw f.arg) f.arg raw false s2 with
          | .error e => .error e
          | .ok (v, s3) =>
            let acc := GoMap.put acc argName v
            if peek s3 = none then .ok (acc, s3)
            else
              match expect E.toUnicode (.ch ',') s3 with
              | .error e => .error e
              | .ok s4 => argLoop E d raw n s4 acc

/-- The text parsed as arguments (parse.go:829, 841-843): for a definition with named arguments, `c` of `+a:b:c=x` is the first name. -/
def fieldsText (d : Definition) (rawMarker : Str) : Str :=
  let (name, anonName, fields) := splitMarker rawMarker
  if ¬ d.anonymousField ∧ d.fields ≠ [] ∧ anonName.length ≥ name.length + 1 then
    anonName.drop (name.length + 1) ++ '=' :: fields
  else fields

/-- The arguments, before the final checks (parse.go:851-913). -/
def parseArgs (E : Env) (d : Definition) (fields : Str) : Except PErr (List (Str × Value) × Sc) :=
  let s := Sc.init fields
  if d.anonymousField ∧ peek s ≠ none then
    match d.field? [] with
    | none => .error .unknownArgument
    | some f =>
      match parse E (fuelFor fields f.arg) f.arg fields false s with
      | .error e => .error e
      | .ok (v, s') => .ok ([([], v)], s')
  else if d.fields ≠ [] ∧ peek s ≠ none then argLoop E d fields (fields.length + 1) s []
  else .ok ([], s)

/-- `Definition.Parse` (parse.go:828-928): the assigned arguments, or an error.  Not modelled here: outputs with their own `ParseMarker`
(parse.go:834-837, see `Marker.parse`), and the reflection that stores the values in a Go struct. -/
def Definition.parse (E : Env) (d : Definition) (rawMarker : Str) : Except PErr (List (Str × Value)) :=
  match parseArgs E d (fieldsText d rawMarker) with
  | .error e => .error e
  | .ok (vals, s) =>
    match scan E.toUnicode true s with
    | .error e => .error e
    | .ok (tok, _) =>
      if tok ≠ .eof then .error .extra
      else if d.strict ∧ d.fields.any (fun f => ! f.optional && ! (vals.map (·.1)).contains f.name) then .error .missing
      else .ok vals

end Verif.Markers
