import Verif.Patch.Yaml
/-!
# What edits of YAML trees may do

Written without the functions of the model, other than the type of nodes.
-/
namespace Verif.Patch.Spec
open Verif.Patch

/-- The keys of a mapping, in their order: every other node of its content. -/
def keys : List Node → List String
  | k :: _ :: rest => k.value :: keys rest
  | _ => []

/-- A node is somewhere in a tree. -/
inductive Within : Node → Node → Prop
  | root (n) : Within n n
  | inside {n m c} : c ∈ n.content → Within m c → Within m n

/-- Mappings are made of pairs, as the YAML parser makes them. -/
def Pairs (root : Node) : Prop := ∀ m, Within m root → m.kind = .mapping → m.content.length % 2 = 0

/-- No mapping has a key twice, as YAML demands (and the parser of nodes does not check). -/
def Unique (root : Node) : Prop := ∀ m, Within m root → m.kind = .mapping → (keys m.content).Nodup

/-- Neither path leads through the other. -/
def Unrelated (p q : List String) : Prop := ¬ p <+: q ∧ ¬ q <+: p

/-- A mapping is another one with the value of the first pair of a key replaced. -/
def Replaced (k : String) (n n' : Node) : Prop :=
  n'.kind = n.kind ∧ n'.attr = n.attr ∧
  ∃ pre key old new post, pre.length % 2 = 0 ∧ k ∉ keys pre ∧ key.value = k ∧ n.content = pre ++ key :: old :: post ∧ n'.content = pre ++ key :: new :: post

/-- A node that is a string, whatever it reads like (`null` and `1` are none without the tag). -/
def IsString (k : String) (n : Node) : Prop := n.kind = .scalar ∧ n.value = k ∧ n.attr.tag = "!!str" ∧ n.content = []

/-- A mapping is another one with a pair for a new key at the end. -/
def Added (k : String) (n n' : Node) : Prop :=
  n'.kind = n.kind ∧ n'.attr = n.attr ∧ k ∉ keys n.content ∧
  ∃ key new, IsString k key ∧ n'.content = n.content ++ [key, new]

/-- A mapping is another one without the first pair of a key. -/
def Dropped (k : String) (n n' : Node) : Prop :=
  n'.kind = n.kind ∧ n'.attr = n.attr ∧
  ∃ pre key old post, pre.length % 2 = 0 ∧ k ∉ keys pre ∧ key.value = k ∧ n.content = pre ++ key :: old :: post ∧ n'.content = pre ++ post

end Verif.Patch.Spec
