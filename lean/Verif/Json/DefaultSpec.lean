import Verif.Json.Spec
import Verif.Json.Model
import Verif.Markers.Parse
import Verif.Crd.Marks
/-! # Specification for C77: numbers, and what the values of markers stand for -/
namespace Verif.Json

mutual
/-- The numbers in a value. -/
def J.nums : J → List Rat
  | .num q => [q]
  | .arr l => itemsNums l
  | .obj m => membersNums m
  | _ => []
def itemsNums : List J → List Rat
  | [] => []
  | j :: l => j.nums ++ itemsNums l
def membersNums : List (Str × J) → List Rat
  | [] => []
  | (_, j) :: m => j.nums ++ membersNums m
end

mutual
/-- The same value with other numbers. -/
def J.mapNum (h : Rat → Rat) : J → J
  | .null => .null
  | .bool b => .bool b
  | .num q => .num (h q)
  | .str s => .str s
  | .arr l => .arr (itemsMap h l)
  | .obj m => .obj (membersMap h m)
def itemsMap (h : Rat → Rat) : List J → List J
  | [] => []
  | j :: l => j.mapNum h :: itemsMap h l
def membersMap (h : Rat → Rat) : List (Str × J) → List (Str × J)
  | [] => []
  | (k, j) :: m => (k, j.mapNum h) :: membersMap h m
end

namespace Spec

/-- What is known of `float64`: a number that it can represent is kept; what is written for it is read as the same number; integers up to 2^53 are represented and written exactly. -/
structure Lawful (F : Floats) : Prop where
  kept : ∀ q r, F.round q = some r → F.round r = some r
  shown : ∀ r, F.round r = some r → ∃ q, Num (F.fmt r) q ∧ F.round q = some r
  ints : ∀ z : Int, z.natAbs ≤ 2 ^ 53 → F.round z = some (z : Rat) ∧ Num (F.fmt z) z

/-- An integer that `float64` represents, with all integers below it. -/
def SmallInt (q : Rat) : Prop := ∃ z : Int, q = z ∧ z.natAbs ≤ 2 ^ 53

mutual
/-- What a marker argument stands for; `g` says what the fractions in it stand for. -/
def json (g : Rat → Rat) : Markers.Value → J
  | .int z => .num (z : Rat)
  | .num q => .num (g q)
  | .str s => .str s
  | .bool b => .bool b
  | .slice l => .arr (jsonItems g l)
  | .map m => .obj (mapOf (jsonEntries g m))
  | .raw s => .str s
def jsonItems (g : Rat → Rat) : List Markers.Value → List J
  | [] => []
  | v :: l => json g v :: jsonItems g l
def jsonEntries (g : Rat → Rat) : List (Str × Markers.Value) → List (Str × J)
  | [] => []
  | (k, v) :: m => (k, json g v) :: jsonEntries g m
end

/-- Values of markers without raw text, with each key once, whose fractions satisfy `P`. -/
inductive Plain (P : Rat → Prop) : Markers.Value → Prop
  | int {z} : Plain P (.int z)
  | num {q} : P q → Plain P (.num q)
  | str {s} : Plain P (.str s)
  | bool {b} : Plain P (.bool b)
  | slice {l} : (∀ v ∈ l, Plain P v) → Plain P (.slice l)
  | map {m} : (m.map (·.1)).Nodup → (∀ e ∈ m, Plain P e.2) → Plain P (.map m)

/-- The marker argument `a` of the schema generator is the Go value `v`, and `marshal` is `json.Marshal`. -/
structure Stands (F : Floats) (marshal : Crd.AnyVal → Option Crd.Raw) (a : Crd.AnyVal) (v : G) : Prop where
  nil : a = .nil ↔ v = .null
  text : marshal a = some (String.ofList (encode F v))

end Spec
end Verif.Json
