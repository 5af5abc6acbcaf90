/-!
# Pieces of Go's `strings` package

Library facts, not code of /repo.  Strings are sequences of Unicode code points: Go strings that are not valid UTF-8
are outside the model.  Go compares strings bytewise; on valid UTF-8 this is the code point order of Lean's `String`.
-/
namespace Verif.GoStr

/-- `unicode.ToLower`, exact on all characters whose lower case is ASCII: the ASCII capitals, U+0130 (dotted capital I) and
U+212A (Kelvin sign).  Other characters are left alone; the model only ever compares the result with ASCII constants. -/
def lowerChar (c : Char) : Char :=
  if 'A' ≤ c ∧ c ≤ 'Z' then Char.ofNat (c.toNat + 32)
  else if c = '\u0130' then 'i'
  else if c = '\u212a' then 'k'
  else c

/-- `strings.ToLower`. -/
def toLower (s : String) : String := String.ofList (s.toList.map lowerChar)

end Verif.GoStr
