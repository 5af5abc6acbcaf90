import Verif.Patch.Yaml
/-!
# schemapatcher: new schemas for CRD manifests

What is not modelled: reading the directory, the text of YAML documents (the trees are what `yaml.Unmarshal` returns and what `Encode` is given), and the conversion of a schema to a tree by JSON (`ToYAML`, convert.go:28-43), whose result is part of the input here and whose errors are left out.
-/
namespace Verif.Patch

/-- What a Go function that may fail or panic does. -/
inductive Outcome (α : Type)
  | ok (a : α)
  | err
  | panic
deriving DecidableEq

/-- `NewSchemata` (gen.go:218-219), as the trees that gen.go:319-324 makes of the schemas. -/
abbrev Schemas := String → Option Node

/-- The body of the loop of `setVersionedSchemata` for one version (gen.go:304-329).  The error and the flag of `GetNode` are ignored there, so that for an item that is not a mapping or has no name `nameNode` is nil and is dereferenced. -/
def patchVersion (s : Schemas) (ver : Node) : Outcome Node :=
  match getNode ver ["name"] with
  | some (some name) =>
    if name.kind ≠ .scalar ∨ name.attr.tag ≠ "!!str" then .err
    else if name.value = "" then .err
    else match s name.value with
      | none =>
        match deleteNode ver ["schema"] with
        | none => .err
        | some ver => .ok ver
      | some schema =>
        match setNode ver schema ["schema", "openAPIV3Schema"] with
        | none => .err
        | some ver => .ok ver
  | _ => .panic

/-- The loop of `setVersionedSchemata` (gen.go:303-329). -/
def patchVersions (s : Schemas) : List Node → Outcome (List Node)
  | [] => .ok []
  | ver :: rest =>
    match patchVersion s ver with
    | .ok ver =>
      match patchVersions s rest with
      | .ok rest => .ok (ver :: rest)
      | .err => .err
      | .panic => .panic
    | .err => .err
    | .panic => .panic

/-- `partialCRD.setVersionedSchemata` (gen.go:288-331) with `getVersionsNode` (gen.go:261-273).  The tree is changed in place; what is left of it after an error is not of interest, since nothing is written then. -/
def patch (s : Schemas) (root : Node) : Outcome Node :=
  match deleteNode root ["spec", "validation"] with
  | none => .err
  | some root =>
    match closest root ["spec", "versions"] with
    | none => .err
    | some (pos, rest) =>
      if rest ≠ [] then .err
      else match root.at pos with
        | none => .panic
        | some versions =>
          if versions.kind ≠ .sequence then .err
          else match patchVersions s versions.content with
            | .ok content => .ok (root.modify (fun n => n.withContent content) pos)
            | .err => .err
            | .panic => .panic

end Verif.Patch
