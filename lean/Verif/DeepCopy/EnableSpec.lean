import Verif.DeepCopy.Enable
/-!
# Which types should get methods
-/
namespace Verif.DeepCopy

/-- The package is enabled: the first `kubebuilder:object:generate` says so; if there is none, the first `k8s:deepcopy-gen` is `package`, or begins with `package,`. -/
inductive PkgEnabled (m : PkgMarkers) : Prop
  | generate (rest : List Bool) : m.generate = true :: rest → PkgEnabled m
  | legacy (rest : List String) : m.generate = [] → m.legacy = "package" :: rest → PkgEnabled m
  | legacyArgs (args : String) (rest : List String) : m.generate = [] → m.legacy = ("package," ++ args) :: rest → PkgEnabled m

/-- The type is a root object: the first `kubebuilder:object:root` says so; if there is none, one of the interfaces of `k8s:deepcopy-gen:interfaces` is `runtime.Object`. -/
inductive IsObject (m : TypeMarkers) : Prop
  | root (rest : List Bool) : m.root = true :: rest → IsObject m
  | legacy : m.root = [] → "k8s.io/apimachinery/pkg/runtime.Object" ∈ m.interfaces → IsObject m

/-- The type is enabled: its own marker says so; if there is none, its legacy marker does; if there is neither, its package is enabled or it is a root object. -/
inductive TypeEnabled (pkg : PkgMarkers) (m : TypeMarkers) : Prop
  | generate (rest : List Bool) : m.generate = true :: rest → TypeEnabled pkg m
  | legacy (rest : List String) : m.generate = [] → m.legacy = "true" :: rest → TypeEnabled pkg m
  | package : m.generate = [] → m.legacy = [] → PkgEnabled pkg → TypeEnabled pkg m
  | object : m.generate = [] → m.legacy = [] → IsObject m → TypeEnabled pkg m

/-- The source has one of the methods `DeepCopy`, `DeepCopyInto` for the type. -/
def OwnMethod (P : Prog) (n : String) : Prop := (P.manual n).copy ≠ none ∨ (P.manual n).into = true

/-- A defined type that is copied: it has a method of its own, or its underlying type is neither a basic type nor a pointer. -/
inductive Copyable (P : Prog) (d : Decl) : Prop
  | own : d.kind = .defined → OwnMethod P d.name → Copyable P d
  | type : d.kind = .defined → (∀ ok, P.under d.name ≠ .basic ok) → (∀ t, P.under d.name ≠ .ptr t) → Copyable P d

/-- A method that is missing: `DeepCopyInto` and `DeepCopy` unless they are in the source; `DeepCopyObject` for root objects without a `DeepCopy` in the source. -/
inductive Missing (P : Prog) (d : Decl) : Method → Prop
  | deepCopyInto : (P.manual d.name).into = false → Missing P d .deepCopyInto
  | deepCopy : (P.manual d.name).copy = none → Missing P d .deepCopy
  | deepCopyObject : (P.manual d.name).copy = none → IsObject d.markers → Missing P d .deepCopyObject

end Verif.DeepCopy
