import Verif.Crd.Flat
import Verif.Crd.SchemaSpec

/-! # Specification for C27, C50 and C51: types that refer to each other -/
namespace Verif.Crd.Spec
open Verif.Crd

/-- The type a link leads to, from a schema of a package, and its schema. -/
def Leads (env : Env) (pkg ref : String) (id : TypeIdent) (u : Schema) : Prop := env.find ref pkg = .ok id ∧ env.raw id = some u

/-- There is no reference in the schema, at any depth. -/
def NoRef (s : Schema) : Prop := ∀ p t, s.at p = some t → t.base.ref = none

/-- `Reach env pkg s q t`: the schema `t`, to be read in the package `q`, is part of the schema `s` (read in the package `pkg`) or of a type it leads to. -/
inductive Reach (env : Env) (pkg : String) (s : Schema) : String → Schema → Prop
  | refl : Reach env pkg s pkg s
  | child {q t u} : Reach env pkg s q t → Child t u → Reach env pkg s q u
  | ref {q t r id u} : Reach env pkg s q t → t.base.ref = some r → Leads env q r id u → Reach env pkg s id.pkg u

/-- The texts of the links on a chain of references: the schema is a link to a type whose schema is itself a link, and so on. -/
inductive Chain (env : Env) : String → Schema → List String → Prop
  | one {q t r} : t.base.ref = some r → Chain env q t [r]
  | cons {q t r id u rs} : t.base.ref = some r → Leads env q r id u → Chain env id.pkg u rs → Chain env q t (r :: rs)

/-- All types that are referred to are known, directly or indirectly. -/
def Closed (env : Env) (pkg : String) (s : Schema) : Prop :=
  ∀ q t r, Reach env pkg s q t → t.base.ref = some r → r ≠ "" ∧ ∃ id u, Leads env q r id u

/-- A schema with a reference has no further references below it. -/
def Bare (env : Env) (pkg : String) (s : Schema) : Prop :=
  ∀ q t r c, Reach env pkg s q t → t.base.ref = some r → Child t c → NoRef c

/-- The link texts of a chain of references are distinct (they are relative to packages, so the same text may stand for several types). -/
def Distinct (env : Env) (pkg : String) (s : Schema) : Prop :=
  ∀ q t rs, Reach env pkg s q t → Chain env q t rs → rs.Nodup

/-- The conditions under which references can be resolved. -/
structure Good (env : Env) (pkg : String) (s : Schema) : Prop where
  closed : Closed env pkg s
  bare : Bare env pkg s
  distinct : Distinct env pkg s

/-- No type refers to itself, directly or indirectly. -/
def Acyclic (env : Env) : Prop :=
  ∀ id s q t r, env.raw id = some s → Reach env id.pkg s q t → t.base.ref = some r → env.find r q ≠ .ok id

/-- No type that is referred to, directly or indirectly, refers to itself. -/
def AcyclicFrom (env : Env) (pkg : String) (s : Schema) : Prop :=
  ∀ q t r id u, Reach env pkg s q t → t.base.ref = some r → Leads env q r id u →
    ∀ q' t' r', Reach env id.pkg u q' t' → t'.base.ref = some r' → env.find r' q' ≠ .ok id

/-- Map keys are distinct, as in all Go maps. -/
structure Keys (s : Schema) : Prop where
  properties : (s.properties.map (·.1)).Nodup
  patternProperties : (s.patternProperties.map (·.1)).Nodup
  dependencies : (s.dependencies.map (·.1)).Nodup
  definitions : (s.definitions.map (·.1)).Nodup

def AllKeys (env : Env) (pkg : String) (s : Schema) : Prop := ∀ q t, Reach env pkg s q t → Keys t

/-- The keywords of a schema, where `W` says what the schemas directly below it accept. -/
structure ValidBy (M : Meaning) (W : Schema → Json → Prop) (s : Schema) (j : Json) : Prop where
  plain : BaseOk M s.base j
  items : ∀ i xs c x, s.items = some i → j = .arr xs → i.schema = some c → x ∈ xs → W c x
  tuple : ∀ i xs (n : Nat) c x, s.items = some i → j = .arr xs → i.arr[n]? = some c → xs[n]? = some x → W c x
  allOf : ∀ c ∈ s.allOf, W c j
  oneOf : s.oneOf ≠ [] → ∃ (n : Nat) (c : Schema), s.oneOf[n]? = some c ∧ W c j ∧ ∀ (n' : Nat) (c' : Schema), s.oneOf[n']? = some c' → W c' j → n' = n
  anyOf : s.anyOf ≠ [] → ∃ c ∈ s.anyOf, W c j
  not : ∀ c, s.not = some c → ¬ W c j
  properties : ∀ k c v, (k, c) ∈ s.properties → j.get k = some v → W c v
  additional : ∀ m k v, j = .obj m → (k, v) ∈ m → k ∉ s.properties.map (·.1) → (∀ e ∈ s.patternProperties, ¬ M.matches_ e.1 k) →
    s.additionalProperties ≠ some (.mk false none) ∧ ∀ a c, s.additionalProperties = some (.mk a (some c)) → W c v
  patterns : ∀ p c m k v, (p, c) ∈ s.patternProperties → j = .obj m → (k, v) ∈ m → M.matches_ p k → W c v
  dependencies : ∀ k o m, (k, o) ∈ s.dependencies → j = .obj m → k ∈ m.map (·.1) → (∀ c, o.schema = some c → W c j) ∧ ∀ p ∈ o.property, p ∈ m.map (·.1)
  additionalItems : ∀ its l (n : Nat) v, s.items = some its → its.schema = none → its.arr.length ≤ n → j = .arr l → l[n]? = some v →
    s.additionalItems ≠ some (.mk false none) ∧ ∀ a c, s.additionalItems = some (.mk a (some c)) → W c v

/-- `V` is a meaning of schemas with references: a value is accepted by a schema iff it satisfies its own keywords and, if it has a reference, is accepted by the
type it refers to. -/
def RefMeaning (M : Meaning) (env : Env) (V : String → Schema → Json → Prop) : Prop :=
  ∀ pkg s j, V pkg s j ↔ ValidBy M (V pkg) s j ∧ ∀ r id u, s.base.ref = some r → Leads env pkg r id u → V id.pkg u j

/-- The documentation (of some kind `f`) that applies to a schema: its own if it has some, otherwise that of the type it refers to. -/
inductive Doc (env : Env) {α : Type} (f : Base → α) (zero : α) : String → Schema → α → Prop
  | own {q s} : f s.base ≠ zero ∨ s.base.ref = none → Doc env f zero q s (f s.base)
  | type {q s r id u d} : f s.base = zero → s.base.ref = some r → Leads env q r id u → Doc env f zero id.pkg u d → Doc env f zero q s d

end Verif.Crd.Spec
