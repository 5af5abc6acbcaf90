/-!
# JSON: values and texts (RFC 8259)

What a text denotes, by the grammar.  Nothing here is taken from the code.
-/
namespace Verif.Json

abbrev Str := List Char

/-- The order of texts by code points (which for UTF-8 is the order of bytes). -/
def ltStr : Str → Str → Bool
  | _, [] => false
  | [], _ :: _ => true
  | a :: x, b :: y => if a.toNat < b.toNat then true else if b.toNat < a.toNat then false else ltStr x y

/-- JSON values.  The members of an object are a map: a list with increasing names. -/
inductive J
  | null
  | bool (b : Bool)
  | num (q : Rat)
  | str (s : Str)
  | arr (l : List J)
  | obj (m : List (Str × J))

/-- A map with a member set. -/
def set (k : Str) (v : J) : List (Str × J) → List (Str × J)
  | [] => [(k, v)]
  | e :: m => if ltStr k e.1 then (k, v) :: e :: m else if k = e.1 then (k, v) :: m else e :: set k v m

/-- The map with the members of a list: of members with the same name the last one counts. -/
def mapOf (l : List (Str × J)) : List (Str × J) := l.foldl (fun m e => set e.1 e.2 m) []

namespace Spec

/-- White space. -/
def Ws (w : Str) : Prop := ∀ c ∈ w, c = ' ' ∨ c = '\t' ∨ c = '\n' ∨ c = '\r'

def Digits (ds : Str) : Prop := ds ≠ [] ∧ ∀ c ∈ ds, c.isDigit = true

/-- The number that digits denote. -/
def natVal (ds : Str) : Nat := ds.foldl (fun n c => n * 10 + (c.toNat - '0'.toNat)) 0

def pow10 : Int → Rat
  | .ofNat n => ((10 ^ n : Nat) : Rat)
  | .negSucc n => 1 / ((10 ^ (n + 1) : Nat) : Rat)

/-- The integer part of a number: no zero in front. -/
def IntPart (ip : Str) : Prop := Digits ip ∧ (ip.head? = some '0' → ip = ['0'])

/-- The fraction: its text and digits. -/
inductive FracPart : Str → Str → Prop
  | none : FracPart [] []
  | some {ds} : Digits ds → FracPart ('.' :: ds) ds

/-- The exponent: its text and value. -/
inductive ExpPart : Str → Int → Prop
  | none : ExpPart [] 0
  | unsigned {c ds} : c = 'e' ∨ c = 'E' → Digits ds → ExpPart (c :: ds) (natVal ds)
  | plus {c ds} : c = 'e' ∨ c = 'E' → Digits ds → ExpPart (c :: '+' :: ds) (natVal ds)
  | minus {c ds} : c = 'e' ∨ c = 'E' → Digits ds → ExpPart (c :: '-' :: ds) (-(natVal ds : Int))

/-- The value of a number. -/
def numVal (neg : Bool) (ip fp : Str) (e : Int) : Rat := (if neg then -1 else 1) * (natVal (ip ++ fp) : Rat) * pow10 (e - fp.length)

/-- The text denotes the number. -/
inductive Num : Str → Rat → Prop
  | mk {neg ip ft fp et e} : IntPart ip → FracPart ft fp → ExpPart et e → Num ((if neg then ['-'] else []) ++ ip ++ ft ++ et) (numVal neg ip fp e)

/-- The characters that have a short escape. -/
def short : Char → Option Char
  | '"' => some '"'
  | '\\' => some '\\'
  | '/' => some '/'
  | 'b' => some (Char.ofNat 8)
  | 'f' => some (Char.ofNat 12)
  | 'n' => some '\n'
  | 'r' => some '\r'
  | 't' => some '\t'
  | _ => none

def hexDigit (c : Char) : Option Nat :=
  if c.isDigit then some (c.toNat - '0'.toNat)
  else if 'a'.toNat ≤ c.toNat ∧ c.toNat ≤ 'f'.toNat then some (c.toNat - 'a'.toNat + 10)
  else if 'A'.toNat ≤ c.toNat ∧ c.toNat ≤ 'F'.toNat then some (c.toNat - 'A'.toNat + 10)
  else none

/-- The value of four hexadecimal digits. -/
def hex4 (a b c d : Char) : Option Nat :=
  match hexDigit a, hexDigit b, hexDigit c, hexDigit d with
  | some a, some b, some c, some d => some (((a * 16 + b) * 16 + c) * 16 + d)
  | _, _, _, _ => none

/-- The first and the second half of a pair of code units (UTF-16). -/
def High (n : Nat) : Prop := 0xD800 ≤ n ∧ n < 0xDC00
def Low (n : Nat) : Prop := 0xDC00 ≤ n ∧ n < 0xE000
def pairVal (n m : Nat) : Nat := 0x10000 + (n - 0xD800) * 0x400 + (m - 0xDC00)

/-- What follows is the second half of a pair. -/
def LowNext (s : Str) : Prop := ∃ a b c d r n, s = '\\' :: 'u' :: a :: b :: c :: d :: r ∧ hex4 a b c d = some n ∧ Low n

/-- The text between the quotes denotes the string.  Half of a pair, where the other half is missing, stands for the replacement character (on which the RFC is silent). -/
inductive Chars : Str → Str → Prop
  | nil : Chars [] []
  | plain {c s t} : 32 ≤ c.toNat → c ≠ '"' → c ≠ '\\' → Chars s t → Chars (c :: s) (c :: t)
  | short {e c s t} : short e = some c → Chars s t → Chars ('\\' :: e :: s) (c :: t)
  | unicode {a b c d n s t} : hex4 a b c d = some n → ¬ High n → ¬ Low n → Chars s t → Chars ('\\' :: 'u' :: a :: b :: c :: d :: s) (Char.ofNat n :: t)
  | pair {a b c d n a' b' c' d' n' s t} : hex4 a b c d = some n → High n → hex4 a' b' c' d' = some n' → Low n' → Chars s t →
      Chars ('\\' :: 'u' :: a :: b :: c :: d :: '\\' :: 'u' :: a' :: b' :: c' :: d' :: s) (Char.ofNat (pairVal n n') :: t)
  | half {a b c d n s t} : hex4 a b c d = some n → (High n ∧ ¬ LowNext s) ∨ Low n → Chars s t → Chars ('\\' :: 'u' :: a :: b :: c :: d :: s) (Char.ofNat 0xFFFD :: t)

/-- What a piece of text can denote: a value, the items of an array, the members of an object. -/
inductive Meaning
  | value (j : J)
  | items (l : List J)
  | members (m : List (Str × J))

/-- The text denotes a value, or one or more items or members separated by commas. -/
inductive Den : Str → Meaning → Prop
  | null : Den "null".toList (.value .null)
  | true_ : Den "true".toList (.value (.bool true))
  | false_ : Den "false".toList (.value (.bool false))
  | num {s q} : Num s q → Den s (.value (.num q))
  | str {s t} : Chars s t → Den ('"' :: s ++ ['"']) (.value (.str t))
  | noItems {w} : Ws w → Den ('[' :: w ++ [']']) (.value (.arr []))
  | arr {s l} : Den s (.items l) → Den ('[' :: s ++ [']']) (.value (.arr l))
  | noMembers {w} : Ws w → Den ('{' :: w ++ ['}']) (.value (.obj []))
  | obj {s m} : Den s (.members m) → Den ('{' :: s ++ ['}']) (.value (.obj (mapOf m)))
  | item {w s w' j} : Ws w → Den s (.value j) → Ws w' → Den (w ++ s ++ w') (.items [j])
  | itemsMore {w s w' j r l} : Ws w → Den s (.value j) → Ws w' → Den r (.items l) → Den (w ++ s ++ w' ++ ',' :: r) (.items (j :: l))
  | member {w k kt w1 w2 s w3 j} : Ws w → Chars kt k → Ws w1 → Ws w2 → Den s (.value j) → Ws w3 →
      Den (w ++ ('"' :: kt ++ ['"']) ++ w1 ++ ':' :: (w2 ++ s ++ w3)) (.members [(k, j)])
  | membersMore {w k kt w1 w2 s w3 j r m} : Ws w → Chars kt k → Ws w1 → Ws w2 → Den s (.value j) → Ws w3 → Den r (.members m) →
      Den (w ++ ('"' :: kt ++ ['"']) ++ w1 ++ ':' :: (w2 ++ s ++ w3 ++ ',' :: r)) (.members ((k, j) :: m))

/-- The text is a JSON text for the value. -/
def Denotes (s : Str) (j : J) : Prop := ∃ w x w', s = w ++ x ++ w' ∧ Ws w ∧ Den x (.value j) ∧ Ws w'

end Spec
end Verif.Json
