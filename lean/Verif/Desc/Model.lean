import Verif.Crd.Schema
/-!
# Model of `/repo/pkg/crd/desc_visitor.go` and of `EditSchema` (`schema_visitor.go`) for a stateless visitor

Text is a list of bytes, since the code slices by byte offset.
-/
namespace Verif.Desc
open Crd

/-- Go's `unicode.ReplacementChar`, the result of decoding invalid UTF-8. -/
def runeError : Nat := 0xFFFD

def inRange (lo hi : Nat) (b : UInt8) : Bool := lo ≤ b.toNat && b.toNat ≤ hi

/-- Go's `utf8.DecodeRuneInString` on a non-empty string: code point and width; invalid encodings give `(runeError, 1)`. -/
def decodeRune : Bytes → Nat × Nat
  | [] => (runeError, 0)
  | b0 :: rest =>
    let n0 := b0.toNat
    if n0 < 0x80 then (n0, 1)
    else if inRange 0xC2 0xDF b0 then
      match rest with
      | b1 :: _ => if inRange 0x80 0xBF b1 then ((n0 % 32) * 64 + b1.toNat % 64, 2) else (runeError, 1)
      | _ => (runeError, 1)
    else if inRange 0xE0 0xEF b0 then
      match rest with
      | b1 :: b2 :: _ =>
        let lo := if n0 = 0xE0 then 0xA0 else 0x80
        let hi := if n0 = 0xED then 0x9F else 0xBF
        if inRange lo hi b1 && inRange 0x80 0xBF b2 then
          ((n0 % 16) * 4096 + (b1.toNat % 64) * 64 + b2.toNat % 64, 3)
        else (runeError, 1)
      | _ => (runeError, 1)
    else if inRange 0xF0 0xF4 b0 then
      match rest with
      | b1 :: b2 :: b3 :: _ =>
        let lo := if n0 = 0xF0 then 0x90 else 0x80
        let hi := if n0 = 0xF4 then 0x8F else 0xBF
        if inRange lo hi b1 && inRange 0x80 0xBF b2 && inRange 0x80 0xBF b3 then
          ((n0 % 8) * 262144 + (b1.toNat % 64) * 4096 + (b2.toNat % 64) * 64 + b3.toNat % 64, 4)
        else (runeError, 1)
      | _ => (runeError, 1)
    else (runeError, 1)

/-- Go's `utf8.RuneStart`. -/
def runeStart (b : UInt8) : Bool := ! inRange 0x80 0xBF b

/-- How many bytes `utf8.DecodeLastRuneInString` goes back from the last byte to find a start byte, given the bytes before the
last one in reverse order; it looks at no more than three. -/
def backToStart : Nat → Bytes → Nat
  | 0, _ => 0
  | _, [] => 0
  | k + 1, b :: bs => if runeStart b then 1 else 1 + backToStart k bs

/-- Go's `utf8.DecodeLastRuneInString`: code point and width of the last rune. -/
def decodeLastRune (s : Bytes) : Nat × Nat :=
  match s.reverse with
  | [] => (runeError, 0)
  | last :: before =>
    if last.toNat < 0x80 then (last.toNat, 1)
    else
      let back := backToStart 3 before
      let tail := s.drop (s.length - (back + 1))
      let (r, size) := decodeRune tail
      if size = tail.length then (r, size) else (runeError, 1)

/-- Go's `strings.LastIndexFunc(s[:i], f)`; the first argument bounds the number of runes (a string has no more runes than bytes). -/
def lastIndexFuncAux (f : Nat → Bool) : Nat → Bytes → Option Nat
  | 0, _ => none
  | fuel + 1, s =>
    if s = [] then none
    else
      let (r, size) := decodeLastRune s
      let i := s.length - size
      if f r then some i else lastIndexFuncAux f fuel (s.take i)

def lastIndexFunc (f : Nat → Bool) (s : Bytes) : Option Nat := lastIndexFuncAux f s.length s

/-- The Unicode tables `STerm` and `White_Space` of the Go standard library (desc_visitor.go:82-90), left arbitrary. -/
structure Tables where
  sentenceTerminal : Nat → Bool
  whiteSpace : Nat → Bool

/-- `"..."` -/
def ellipsis : Bytes := [46, 46, 46]

/-- `truncateString` (desc_visitor.go:62-80). -/
def truncateString (T : Tables) (desc : Bytes) (maxLen : Nat) : Bytes :=
  if desc.length ≤ maxLen then desc
  else
    let desc := desc.take maxLen
    let bySpace :=
      match lastIndexFunc T.whiteSpace desc with
      | some n => if n > 0 then desc.take n ++ ellipsis else desc.take maxLen ++ ellipsis
      | none => desc.take maxLen ++ ellipsis
    match lastIndexFunc T.sentenceTerminal desc with
    | some n => if n > 0 then desc.take (n + 1) else bySpace
    | none => bySpace

/-- What `descVisitor.Visit` does to one node (desc_visitor.go:40-56), for `maxLen ≥ 0`; negative lengths stop the walk before it
changes anything. -/
def visitBase (T : Tables) (maxLen : Nat) (b : Base) : Base :=
  if maxLen = 0 then { b with description := [] }
  else if b.description.length > maxLen then { b with description := truncateString T b.description maxLen }
  else b

mutual
/-- `walkSchema` (schema_visitor.go:58-104) for a visitor that edits plain fields and always continues.  Such a visitor never
changes `Ref`, so the reference loop at 62-78 runs once (a reference is in `seenRefs` from the start).  The iteration order of maps
is not observable: entries are edited independently and written back under their key. -/
def walkSchema (visit : Base → Base) : Schema → Schema
  | .mk b items allOf oneOf anyOf not props addl pat deps addlItems defs =>
    .mk (visit b) (walkItems visit items) (walkSlice visit allOf) (walkSlice visit oneOf) (walkSlice visit anyOf)
      (walkPtr visit not) (walkMap visit props) (walkOrBool visit addl) (walkMap visit pat) (walkDeps visit deps)
      (walkOrBool visit addlItems) (walkMap visit defs)
/-- schema_visitor.go:82-85 -/
def walkItems (visit : Base → Base) : Option Items → Option Items
  | none => none
  | some (.mk s arr) => some (.mk (walkPtr visit s) (walkSlice visit arr))
/-- `walkPtr` (schema_visitor.go:126-131) -/
def walkPtr (visit : Base → Base) : Option Schema → Option Schema
  | none => none
  | some s => some (walkSchema visit s)
/-- `walkSlice` (schema_visitor.go:119-123) -/
def walkSlice (visit : Base → Base) : List Schema → List Schema
  | [] => []
  | s :: l => walkSchema visit s :: walkSlice visit l
/-- `walkMap` (schema_visitor.go:107-116) -/
def walkMap (visit : Base → Base) : List (String × Schema) → List (String × Schema)
  | [] => []
  | (k, s) :: l => (k, walkSchema visit s) :: walkMap visit l
/-- schema_visitor.go:91-93, 100-102 -/
def walkOrBool (visit : Base → Base) : Option OrBool → Option OrBool
  | none => none
  | some (.mk a s) => some (.mk a (walkPtr visit s))
/-- schema_visitor.go:96-99 -/
def walkDeps (visit : Base → Base) : List (String × OrArray) → List (String × OrArray)
  | [] => []
  | (k, .mk s p) :: l => (k, .mk (walkPtr visit s) p) :: walkDeps visit l
end

/-- `TruncateDescription` (desc_visitor.go:29-31). -/
def truncateDescription (T : Tables) (maxLen : Int) (s : Schema) : Schema :=
  if maxLen < 0 then s else walkSchema (visitBase T maxLen.toNat) s

end Verif.Desc
