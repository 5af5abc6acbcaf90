import Verif.Crd.RegexSpec
import Verif.Crd.SchemaSpec
/-!
# Specification for C80: the values of the well-known types

What may be written for the types of the Kubernetes libraries whose schemas are built in.
-/
namespace Verif.Crd.Spec
open Verif.Crd

/-- Regular expressions have their usual meaning. -/
def RegularExpressions (M : Meaning) : Prop := ∀ p r s, readPattern p = some r → (M.matches_ p s ↔ Finds r s.toList)

/-! ## Quantities

The grammar is the one in the documentation of `resource.Quantity` (apimachinery), where the suffixes `n` and `u` (nano and micro) are known to the code only. -/

/-- `<digits>` -/
def IsDigits (s : List Char) : Prop := s ≠ [] ∧ ∀ c ∈ s, '0' ≤ c ∧ c ≤ '9'

/-- `<number>` -/
inductive IsNumber : List Char → Prop
  | whole {a} : IsDigits a → IsNumber a
  | point {a} : IsDigits a → IsNumber (a ++ ['.'])
  | fraction {a b} : IsDigits a → IsDigits b → IsNumber (a ++ '.' :: b)
  | small {b} : IsDigits b → IsNumber ('.' :: b)

/-- `<signedNumber>` -/
inductive IsSigned : List Char → Prop
  | bare {a} : IsNumber a → IsSigned a
  | plus {a} : IsNumber a → IsSigned ('+' :: a)
  | minus {a} : IsNumber a → IsSigned ('-' :: a)

/-- `<suffix>` -/
inductive IsSuffix : List Char → Prop
  | none : IsSuffix []
  | binary {c} : c ∈ ['K', 'M', 'G', 'T', 'P', 'E'] → IsSuffix [c, 'i']
  | decimal {c} : c ∈ ['n', 'u', 'm', 'k', 'M', 'G', 'T', 'P', 'E'] → IsSuffix [c]
  | exponent {c a} : c = 'e' ∨ c = 'E' → IsSigned a → IsSuffix (c :: a)

/-- `<quantity>` -/
def IsQuantity (s : String) : Prop := ∃ a b, s.toList = a ++ b ∧ IsSigned a ∧ IsSuffix b

/-! ## Values -/

/-- Every member that is there satisfies the condition. -/
def Member (j : Json) (k : String) (P : Json → Prop) : Prop := ∀ v, j.get k = some v → P v

def IsText (j : Json) : Prop := ∃ s, j = .str s
def IsTexts (j : Json) : Prop := ∃ l, j = .arr l ∧ ∀ x ∈ l, IsText x
def IsTextMap (j : Json) : Prop := ∃ m, j = .obj m ∧ ∀ x ∈ m, IsText x.2
def IsObject (j : Json) : Prop := ∃ m, j = .obj m
def IsInteger (j : Json) : Prop := ∃ z : Int, j = .num z

/-- The values of the types by package and name.  `embedded` is the option for the metadata of embedded objects: their members are checked if it is set. -/
inductive KnownVal (M : Meaning) (embedded : Bool) : String → String → Json → Prop
  | metadata {j} : IsObject j →
      (embedded = true → Member j "name" IsText ∧ Member j "namespace" IsText ∧ Member j "labels" IsTextMap ∧ Member j "annotations" IsTextMap ∧ Member j "finalizers" IsTexts) →
      KnownVal M embedded "k8s.io/apimachinery/pkg/apis/meta/v1" "ObjectMeta" j
  | time {j} : IsText j → M.format "date-time" j → KnownVal M embedded "k8s.io/apimachinery/pkg/apis/meta/v1" "Time" j
  | microTime {j} : IsText j → M.format "date-time" j → KnownVal M embedded "k8s.io/apimachinery/pkg/apis/meta/v1" "MicroTime" j
  | duration {j} : IsText j → KnownVal M embedded "k8s.io/apimachinery/pkg/apis/meta/v1" "Duration" j
  | fields {j} : IsObject j → KnownVal M embedded "k8s.io/apimachinery/pkg/apis/meta/v1" "Fields" j
  | quantityNumber {j} : IsInteger j → KnownVal M embedded "k8s.io/apimachinery/pkg/api/resource" "Quantity" j
  | quantity {s} : IsQuantity s → KnownVal M embedded "k8s.io/apimachinery/pkg/api/resource" "Quantity" (.str s)
  | rawExtension {j} : IsObject j → KnownVal M embedded "k8s.io/apimachinery/pkg/runtime" "RawExtension" j
  | unstructured {j} : IsObject j → KnownVal M embedded "k8s.io/apimachinery/pkg/apis/meta/v1/unstructured" "Unstructured" j
  | int {j} : IsInteger j → KnownVal M embedded "k8s.io/apimachinery/pkg/util/intstr" "IntOrString" j
  | string {j} : IsText j → KnownVal M embedded "k8s.io/apimachinery/pkg/util/intstr" "IntOrString" j
  | json {v j} : v ∈ ["k8s.io/apiextensions-apiserver/pkg/apis/apiextensions/v1beta1", "k8s.io/apiextensions-apiserver/pkg/apis/apiextensions/v1"] → KnownVal M embedded v "JSON" j

/-- The types above. -/
def knownNames : List (String × String) :=
  [("k8s.io/apimachinery/pkg/apis/meta/v1", "ObjectMeta"), ("k8s.io/apimachinery/pkg/apis/meta/v1", "Time"), ("k8s.io/apimachinery/pkg/apis/meta/v1", "MicroTime"),
   ("k8s.io/apimachinery/pkg/apis/meta/v1", "Duration"), ("k8s.io/apimachinery/pkg/apis/meta/v1", "Fields"), ("k8s.io/apimachinery/pkg/api/resource", "Quantity"),
   ("k8s.io/apimachinery/pkg/runtime", "RawExtension"), ("k8s.io/apimachinery/pkg/apis/meta/v1/unstructured", "Unstructured"), ("k8s.io/apimachinery/pkg/util/intstr", "IntOrString"),
   ("k8s.io/apiextensions-apiserver/pkg/apis/apiextensions/v1beta1", "JSON"), ("k8s.io/apiextensions-apiserver/pkg/apis/apiextensions/v1", "JSON")]

end Verif.Crd.Spec
