import Verif.Crd.Schema
/-!
# Specification for C28 and C29: what a schema accepts

JSON values and the validation semantics of the schema keywords (JSON schema draft 4 as used by OpenAPI v3 and by the API server for custom
resources).  Not validation keywords here: id, $schema, $ref, title, description, default, example, externalDocs, definitions,
x-kubernetes-preserve-unknown-fields, x-kubernetes-embedded-resource and the list and map topology keywords, which steer pruning,
defaulting and merging.
-/
namespace Verif.Crd.Spec
open Verif.Crd

/-- JSON values. -/
inductive Json
  | null
  | bool (b : Bool)
  | num (q : Rat)
  | str (s : String)
  | arr (l : List Json)
  | obj (m : List (String × Json))

/-- The value of a member of an object. -/
def Json.get : Json → String → Option Json
  | .obj m, k => m.lookup k
  | _, _ => none

/-- What the semantics leaves open: formats, regular expressions, CEL rules, and the values denoted by raw JSON text. -/
structure Meaning where
  format : String → Json → Prop
  matches_ : String → String → Prop
  rule : ValidationRule → Json → Prop
  value : Raw → Json

/-- The value is of the type, `""` standing for all types. -/
def HasType (t : String) (j : Json) : Prop :=
  (t = "string" → ∃ s, j = .str s) ∧ (t = "boolean" → ∃ b, j = .bool b) ∧ (t = "number" → ∃ q, j = .num q) ∧
  (t = "integer" → ∃ z : Int, j = .num z) ∧ (t = "array" → ∃ l, j = .arr l) ∧ (t = "object" → ∃ m, j = .obj m)

/-- The type keyword together with `nullable`. -/
def TypeOk (b : Base) (j : Json) : Prop := HasType b.type j ∨ (b.nullable = true ∧ j = .null)

def MaxOk (b : Base) (j : Json) : Prop :=
  ∀ q m, j = .num q → b.maximum = some m → if b.exclusiveMaximum then q < m else q ≤ m
def MinOk (b : Base) (j : Json) : Prop :=
  ∀ q m, j = .num q → b.minimum = some m → if b.exclusiveMinimum then m < q else m ≤ q

/-- The keywords that do not contain schemas, one by one. -/
structure BaseOk (M : Meaning) (b : Base) (j : Json) : Prop where
  type : TypeOk b j
  format : b.format ≠ "" → M.format b.format j
  maximum : MaxOk b j
  minimum : MinOk b j
  multipleOf : ∀ q m, j = .num q → b.multipleOf = some m → ∃ z : Int, q = z * m
  maxLength : ∀ s n, j = .str s → b.maxLength = some n → (s.length : Int) ≤ n
  minLength : ∀ s n, j = .str s → b.minLength = some n → n ≤ (s.length : Int)
  pattern : ∀ s, j = .str s → b.pattern ≠ "" → M.matches_ b.pattern s
  maxItems : ∀ l n, j = .arr l → b.maxItems = some n → (l.length : Int) ≤ n
  minItems : ∀ l n, j = .arr l → b.minItems = some n → n ≤ (l.length : Int)
  uniqueItems : ∀ l, j = .arr l → b.uniqueItems = true → l.Nodup
  maxProperties : ∀ m n, j = .obj m → b.maxProperties = some n → (m.length : Int) ≤ n
  minProperties : ∀ m n, j = .obj m → b.minProperties = some n → n ≤ (m.length : Int)
  required : ∀ m k, j = .obj m → k ∈ b.required → k ∈ m.map (·.1)
  enum : b.enum ≠ [] → ∃ r ∈ b.enum, M.value r = j
  intOrString : b.xIntOrString = true → (∃ z : Int, j = .num z) ∨ ∃ s, j = .str s
  rules : ∀ r ∈ b.xValidations, M.rule r j

mutual
/-- The value `j` is valid against the schema. -/
def Valid (M : Meaning) : Schema → Json → Prop
  | .mk b it al oo an nt pr ad pa de ai _, j =>
    BaseOk M b j ∧ ValidItems M it j ∧ ValidAll M al j ∧ (oo ≠ [] → ValidOne M oo j) ∧ (an ≠ [] → ValidAny M an j) ∧ ¬ ValidOpt M nt j ∧
    ValidProps M pr j ∧
    ValidAddl M ad (fun v => ∃ k m, j = .obj m ∧ (k, v) ∈ m ∧ k ∉ pr.map (·.1) ∧ ∀ e ∈ pa, ¬ M.matches_ e.1 k) ∧
    ValidPats M pa j ∧ ValidDeps M de j ∧
    ValidAddl M ai (fun v => ∃ l i, j = .arr l ∧ l[i]? = some v ∧ ∃ its, it = some its ∧ its.schema = none ∧ its.arr.length ≤ i)
/-- `items`: a schema for all items, or a list of schemas for the items in order. -/
def ValidItems (M : Meaning) : Option Items → Json → Prop
  | none, _ => True
  | some (.mk s l), j => ∀ xs, j = .arr xs → (∀ x ∈ xs, ValidPtr M s x) ∧ ValidTuple M l xs
/-- The schema is valid, if there is one. -/
def ValidPtr (M : Meaning) : Option Schema → Json → Prop
  | none, _ => True
  | some s, j => Valid M s j
/-- There is a schema, and the value is valid against it. -/
def ValidOpt (M : Meaning) : Option Schema → Json → Prop
  | none, _ => False
  | some s, j => Valid M s j
def ValidTuple (M : Meaning) : List Schema → List Json → Prop
  | [], _ => True
  | _ :: _, [] => True
  | s :: l, x :: xs => Valid M s x ∧ ValidTuple M l xs
/-- `allOf` -/
def ValidAll (M : Meaning) : List Schema → Json → Prop
  | [], _ => True
  | s :: l, j => Valid M s j ∧ ValidAll M l j
/-- `anyOf` -/
def ValidAny (M : Meaning) : List Schema → Json → Prop
  | [], _ => False
  | s :: l, j => Valid M s j ∨ ValidAny M l j
/-- `oneOf` -/
def ValidOne (M : Meaning) : List Schema → Json → Prop
  | [], _ => False
  | s :: l, j => (Valid M s j ∧ ¬ ValidAny M l j) ∨ (¬ Valid M s j ∧ ValidOne M l j)
/-- `properties` -/
def ValidProps (M : Meaning) : List (String × Schema) → Json → Prop
  | [], _ => True
  | (k, s) :: l, j => (∀ v, j.get k = some v → Valid M s v) ∧ ValidProps M l j
/-- `patternProperties` -/
def ValidPats (M : Meaning) : List (String × Schema) → Json → Prop
  | [], _ => True
  | (p, s) :: l, j => (∀ m k v, j = .obj m → (k, v) ∈ m → M.matches_ p k → Valid M s v) ∧ ValidPats M l j
/-- `additionalProperties`, `additionalItems`: applies to the values in the set. -/
def ValidAddl (M : Meaning) : Option OrBool → (Json → Prop) → Prop
  | none, _ => True
  | some (.mk allows none), vs => allows = true ∨ ∀ v, ¬ vs v
  | some (.mk _ (some s)), vs => ∀ v, vs v → Valid M s v
/-- `dependencies` -/
def ValidDeps (M : Meaning) : List (String × OrArray) → Json → Prop
  | [], _ => True
  | (k, .mk s ps) :: l, j => (∀ m, j = .obj m → k ∈ m.map (·.1) → ValidPtr M s j ∧ ∀ p ∈ ps, p ∈ m.map (·.1)) ∧ ValidDeps M l j
end

/-- One schema directly below another. -/
inductive Child : Schema → Schema → Prop
  | items {s i c} : s.items = some i → i.schema = some c → Child s c
  | itemsArr {s i c} : s.items = some i → c ∈ i.arr → Child s c
  | allOf {s c} : c ∈ s.allOf → Child s c
  | oneOf {s c} : c ∈ s.oneOf → Child s c
  | anyOf {s c} : c ∈ s.anyOf → Child s c
  | not {s c} : s.not = some c → Child s c
  | property {s k c} : (k, c) ∈ s.properties → Child s c
  | additionalProperties {s o c} : s.additionalProperties = some o → o.schema = some c → Child s c
  | patternProperty {s k c} : (k, c) ∈ s.patternProperties → Child s c
  | dependency {s k o c} : (k, o) ∈ s.dependencies → o.schema = some c → Child s c
  | additionalItems {s o c} : s.additionalItems = some o → o.schema = some c → Child s c
  | definition {s k c} : (k, c) ∈ s.definitions → Child s c

/-- A schema somewhere in another one. -/
inductive Sub : Schema → Schema → Prop
  | refl {s} : Sub s s
  | step {s c t} : Child s c → Sub c t → Sub s t

/-- `At s p t`: the schema `t` constrains the values at the path `p` below the values described by `s`, where a path leads through
object members (`some name`, or `none` for additional members), and the allOf members of a schema constrain the same values. -/
inductive At : Schema → List (Option String) → Schema → Prop
  | here {s} : At s [] s
  | allOf {s c p t} : c ∈ s.allOf → At c p t → At s p t
  | prop {s k c p t} : (k, c) ∈ s.properties → At c p t → At s (some k :: p) t
  | addl {s b c p t} : s.additionalProperties = some (.mk b (some c)) → At c p t → At s (none :: p) t

/-- The schema, or one of its allOf members, is about the values at the path. -/
inductive Occ : Schema → List (Option String) → Prop
  | here {s} : Occ s []
  | allOf {s c p} : c ∈ s.allOf → Occ c p → Occ s p
  | prop {s k c p} : (k, c) ∈ s.properties → Occ c p → Occ s (some k :: p)
  | addl {s b c p} : s.additionalProperties = some (.mk b (some c)) → Occ c p → Occ s (none :: p)
  | flag {s b} : s.additionalProperties = some (.mk b none) → Occ s [none]

/-- The schema is about the values at the path by itself, not only with its allOf members. -/
inductive Own (s : Schema) : List (Option String) → Prop
  | here : Own s []
  | prop {k c p} : (k, c) ∈ s.properties → Occ c p → Own s (some k :: p)
  | addl {b c p} : s.additionalProperties = some (.mk b (some c)) → Occ c p → Own s (none :: p)
  | flag {b} : s.additionalProperties = some (.mk b none) → Own s [none]

/-- `Twice s p`: at least two schemas of `s` are about the values at the path, so that they have to be merged. -/
inductive Twice : Schema → List (Option String) → Prop
  | own {s c p} : c ∈ s.allOf → Occ c p → Own s p → Twice s p
  | two {s l c l' c' p} : s.allOf = l ++ c :: l' → c' ∈ l' → Occ c p → Occ c' p → Twice s p
  | member {s c p} : c ∈ s.allOf → Twice c p → Twice s p
  | prop {s k c p} : (k, c) ∈ s.properties → Twice c p → Twice s (some k :: p)
  | addl {s b c p} : s.additionalProperties = some (.mk b (some c)) → Twice c p → Twice s (none :: p)

/-- The restrictions on a schema that takes part in merging.  Structural schemas (which the API server demands) have no patternProperties,
no additionalItems and no `additionalProperties: false`.  The keywords `nullable`, `exclusiveMaximum` and `exclusiveMinimum` modify
other keywords, so that they are not independent constraints. -/
structure NodeOk (s : Schema) : Prop where
  nullable : s.base.nullable = false
  exclusiveMaximum : s.base.exclusiveMaximum = false
  exclusiveMinimum : s.base.exclusiveMinimum = false
  patterns : s.patternProperties = []
  additionalItems : s.additionalItems = none
  open_ : s.additionalProperties ≠ some (.mk false none)
  keys : (s.properties.map (·.1)).Nodup

/-- The schema can be merged with its allOf members: where two schemas are merged, both satisfy the restrictions, and `properties` and `additionalProperties` are not used for the same values
(structural schemas have them mutually exclusive). -/
structure Mergeable (s : Schema) : Prop where
  nodes : ∀ p t, Twice s p → At s p t → NodeOk t
  clash : ∀ p t u, Twice s p → At s p t → At s p u → t.properties ≠ [] → u.additionalProperties = none

/-- Every schema with allOf members somewhere in `s` can be merged with them. -/
def Guard (s : Schema) : Prop := ∀ u, Sub s u → u.allOf ≠ [] → Mergeable u

/-- `Node s p t`: the schema `t` itself (not an allOf member) is found at the path `p` below `s`. -/
inductive Node : Schema → List (Option String) → Schema → Prop
  | here {s} : Node s [] s
  | prop {s k c p t} : (k, c) ∈ s.properties → Node c p t → Node s (some k :: p) t
  | addl {s b c p t} : s.additionalProperties = some (.mk b (some c)) → Node c p t → Node s (none :: p) t

end Verif.Crd.Spec
