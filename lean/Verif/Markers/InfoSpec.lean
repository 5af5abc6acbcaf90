import Verif.Markers.Info
import Verif.Markers.SourceSpec
import Verif.Markers.Raw
/-!
# Markers of types and fields in the files of a package: specification
-/
namespace Verif.Markers.Source
open Verif Verif.Markers.Collect Verif.Markers.Doc Verif.Markers.Spec

/-- The nodes of a file. -/
def File.nodes (f : File) : List Node := f.events.filterMap Event.node

/-- A parsed package: each file is parsed, its nodes are those of Go syntax, and nodes are different. -/
structure Parsed (files : List File) : Prop where
  wf : ∀ f ∈ files, f.WF
  typed : ∀ f ∈ files, Each.Typed (.node f.node f.children)
  nodup : (files.flatMap File.nodes).Nodup

/-- The fields of a struct are fields, and in the same file. -/
def Syntax.OK (syn : Syntax) (files : List File) : Prop :=
  ∀ f ∈ files, ∀ n ∈ f.nodes, ∀ l, syn.structFields n = some l → ∀ x ∈ l, x ∈ f.nodes ∧ x.kind = .field

/-- The comment is in the documentation of the type or field `n`, or of the declaration of that single type. -/
def InDoc (f : File) (n : Node) (c : Comment) : Prop := ∃ a k, Carries f.events a n k ∧ ∃ g ∈ f.groups, c ∈ g.comments ∧ k.doc = some g.pos

/-- The comment is in the closest group above the type or field `n` (or the declaration of that single type) that is not documentation; and this group comes after all that is before the node, and is not at the
end of a line of it. -/
def Above (f : File) (n : Node) (c : Comment) : Prop := ∃ a k, Carries f.events a n k ∧ ∃ g ∈ f.groups, c ∈ g.comments ∧ Closest f.groups k g ∧ ¬ Passed a g.pos

/-- The comment stands by itself: not at the end of a line, inside of a declaration, or in the documentation of a function or of a group of declarations; and not on a type or a field. -/
def FreeStanding (f : File) (c : Comment) : Prop := (∀ g ∈ f.groups, c ∈ g.comments → ¬ NoPlace f.events g.pos) ∧ ∀ n, ¬ InDoc f n c ∧ ¬ Above f n c

/-- The comment is a marker of this name, with these arguments: `+name`, if no argument is required; `+name=value`, if it has one argument without a name (the text itself if the argument is raw); `+name:arg1=value1,…`.  The marker `default` has
JSON text as its value instead, or a reference to a constant. -/
inductive Written (E : Env) (name : List Char) (d : Definition) (c : Comment) : List (List Char × Value) → Prop
  | json {x} : name = "default".toList → textOf c = '+' :: (name ++ '=' :: x) → (∃ v, Json.unmarshal ⟨E.round, fun _ => []⟩ x = some v) ∨ "ref(".toList <+: trimSpace x →
      Written E name d c [("value".toList, .raw x)]
  | plain : name ≠ "default".toList → textOf c = '+' :: name → (∀ f ∈ d.fields, f.optional = true) → Written E name d c []
  | value {f v x} : name ≠ "default".toList → textOf c = '+' :: (name ++ '=' :: x) → d.fields = [f] → f.name = [] → ShowsArg E f.arg v x → Written E name d c [([], v)]
  | raw {f x} : name ≠ "default".toList → textOf c = '+' :: (name ++ '=' :: x) → d.fields = [f] → f.name = [] → f.arg = .raw → RawText x → Written E name d c [([], .raw x)]
  | arguments {vals} : name ≠ "default".toList → Reads E name d c vals → Written E name d c vals

/-- `m` is a marker of one of the chosen generators, for this target, and `d` its arguments. -/
def Chosen (gs : List String) (t : Markers.Target) (m : Marker) (d : Definition) : Prop :=
  ∃ g ∈ gs, ∃ ms, (g, ms) ∈ Shipped.registers ∧ m ∈ ms ∧ m.target = t ∧ ∃ df, m.define = some df ∧ m.parser df = d

/-- The values of a type or field are those of its markers. -/
structure Faithful (gs : List String) (E : Env) (f : File) (n : Node) (markers : List (String × List (List (List Char × Value)))) : Prop where
  /-- each comes from a comment in its documentation or above it, and is what the comment says -/
  sound : ∀ k vals, vals ∈ (GoMap.get markers k).getD [] → ∃ m d, Chosen gs (toTarget n.target) m d ∧ m.name = k.toList ∧
    ∃ c, f.Marks c ∧ (InDoc f n c ∨ Above f n c) ∧ ('+' :: m.name) <+: textOf c ∧ ∀ vals', Written E m.name d c vals' → vals' = vals
  /-- comments with a marker, in the order of the file, have their values in this order -/
  complete : ∀ m d, Chosen gs (toTarget n.target) m d → ∀ l : List (Comment × List (List Char × Value)), (l.map (·.1)).Sublist (f.groups.flatMap (·.comments)) →
    (∀ e ∈ l, f.Marks e.1 ∧ (InDoc f n e.1 ∨ Above f n e.1) ∧ Written E m.name d e.1 e.2) → (l.map (·.2)).Sublist ((GoMap.get markers (String.ofList m.name)).getD [])
  /-- the values of a marker are those of a list of comments, each of them once and in the order of the file -/
  listed : ∀ m d, Chosen gs (toTarget n.target) m d → ∃ l : List (Comment × List (List Char × Value)), (GoMap.get markers (String.ofList m.name)).getD [] = l.map (·.2) ∧
    (l.map (·.1)).Sublist (f.groups.flatMap (·.comments)) ∧
    (∀ e ∈ l, f.Marks e.1 ∧ (InDoc f n e.1 ∨ Above f n e.1) ∧ ('+' :: m.name) <+: textOf e.1 ∧ ∀ vals, Written E m.name d e.1 vals → vals = e.2) ∧
    ∀ c vals, f.Marks c → InDoc f n c ∨ Above f n c → Written E m.name d c vals → (c, vals) ∈ l

end Verif.Markers.Source
