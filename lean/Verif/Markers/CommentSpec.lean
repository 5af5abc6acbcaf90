import Verif.Markers.InfoSpec
/-!
# What comments say about types and packages: specification
-/
namespace Verif.Markers.Source
open Verif Verif.Markers.Collect Verif.Markers.Spec

/-- The comment is on the type. -/
def OnType (f : File) (n : Node) (c : Comment) : Prop := f.Marks c ∧ (InDoc f n c ∨ Above f n c)

/-- The comment begins with the name of the marker. -/
def Begins (k : String) (c : Comment) : Prop := ('+' :: k.toList) <+: textOf c

/-- `+k=true`, `+k=false`. -/
def SetsTo (E : Env) (k : String) (c : Comment) (b : Bool) : Prop := ∃ x, textOf c = '+' :: (k.toList ++ '=' :: x) ∧ ShowsArg E .bool (.bool b) x

/-- `+k=s`, where `s` is any text. -/
def IsRaw (k : String) (c : Comment) (s : String) : Prop := textOf c = '+' :: (k.toList ++ '=' :: s.toList) ∧ RawText s.toList

/-- `+k=s`, where `s` is a string, with quotes or without. -/
def IsString (E : Env) (k : String) (c : Comment) (s : String) : Prop := ∃ x, textOf c = '+' :: (k.toList ++ '=' :: x) ∧ ShowsArg E .str (.str s.toList) x

/-- `vs` are the values of the marker `k` on a type: those of a list of comments on the type that begin with this name, each of them once and in the order of the file.  All comments on the type with a value are among
them. -/
def TypeValues {α : Type} (f : File) (n : Node) (k : String) (Says : Comment → α → Prop) (vs : List α) : Prop :=
  ∃ cs : List (Comment × α), vs = cs.map (·.2) ∧ (cs.map (·.1)).Sublist (f.groups.flatMap (·.comments)) ∧
    (∀ e ∈ cs, OnType f n e.1 ∧ Begins k e.1 ∧ ∀ v, Says e.1 v → v = e.2) ∧ ∀ c v, OnType f n c → Says c v → (c, v) ∈ cs

/-- `vs` are the values of the marker `k` of the package: each is that of a comment that begins with this name, and that is not on a type or a field; all comments that stand by themselves have their value there. -/
def PkgValues {α : Type} (files : List File) (k : String) (Says : Comment → α → Prop) (vs : List α) : Prop :=
  (∀ v ∈ vs, ∃ f ∈ files, ∃ c, f.Marks c ∧ Begins k c ∧ (∀ v', Says c v' → v' = v) ∧ ∀ n, ¬ InDoc f n c ∧ ¬ Above f n c) ∧
    ∀ f ∈ files, ∀ c v, f.Marks c → FreeStanding f c → Says c v → v ∈ vs

/-- The same for a marker that only packages have: a comment above a type is one of them. -/
def PkgOnlyValues {α : Type} (files : List File) (k : String) (Says : Comment → α → Prop) (vs : List α) : Prop :=
  (∀ v ∈ vs, ∃ f ∈ files, ∃ c, f.Marks c ∧ Begins k c ∧ (∀ v', Says c v' → v' = v) ∧ ∀ n, ¬ InDoc f n c) ∧
    ∀ f ∈ files, ∀ c v, f.Marks c → Placed f c → Says c v → v ∈ vs

/-- The type `n` is declared at the top level of the file `f`. -/
def Declared (f : File) (n : Node) : Prop := ∃ d, (d, n) ∈ Each.declared (.node f.node f.children)

/-- No comment on the type begins with the name of the marker. -/
def Silent (f : File) (n : Node) (k : String) : Prop := ∀ c, OnType f n c → ¬ Begins k c

/-- Some comment on the type sets the marker to `b`, and no comment on the type says anything else with it. -/
def TypeSet (E : Env) (f : File) (n : Node) (k : String) (b : Bool) : Prop := (∃ c, OnType f n c ∧ SetsTo E k c b) ∧ ∀ c, OnType f n c → Begins k c → SetsTo E k c b

/-- No comment in the files that is not on a type or a field begins with the name of the marker. -/
def PkgSilent (files : List File) (k : String) : Prop := ∀ f ∈ files, ∀ c, f.Marks c → Begins k c → ∃ n, InDoc f n c ∨ Above f n c

/-- Some comment that stands by itself sets the marker to `b` for the package, and no comment that is not on a type or a field says anything else with it. -/
def PkgSet (E : Env) (files : List File) (k : String) (b : Bool) : Prop :=
  (∃ f ∈ files, ∃ c, f.Marks c ∧ FreeStanding f c ∧ SetsTo E k c b) ∧
    ∀ f ∈ files, ∀ c, f.Marks c → Begins k c → (∃ n, InDoc f n c ∨ Above f n c) ∨ SetsTo E k c b

end Verif.Markers.Source
