import Verif.Genall.OutputTheorems
import Verif.Genall.Run
import Verif.CrdGen.Generate
import Verif.Rbac.Model
import Verif.Webhook.Model
import Verif.DeepCopy.Source
/-!
# Model of the files of a run: what the generators pass to `Open` and `Write` of `/repo/pkg/genall/output.go`, and what is on the disk after `Runtime.Run`

The disk knows places (lists of names from the root, `Spec.locate`), so that two paths to one file are the same file.  Not modelled here: errors of the file system (for those see C37), symbolic links.  The generators
`applyconfiguration`, which writes with a library of Kubernetes, and `schemapatch`, which overwrites its input (C75), are left out.
-/
namespace Verif.Genall
open Markers (Str)
open Spec

/-- What is written between one `Open` and its `Close`: the `CompiledGoFiles` of the package that is passed to `Open` (`none` is nil), the path that is passed, and all the text. -/
structure Artifact where
  pkg : Option (List Str)
  item : Str
  text : Str
deriving DecidableEq, Repr

/-- The files on the disk, by place, and what has been printed. -/
structure World where
  disk : List (List Str × Str) := []
  stdout : Str := []
deriving DecidableEq, Repr

/-- `Open`, `Write`, `Close` (output.go:93-95, 103-110, 124-126, 144-165): `os.Create` empties a file that there is.  `none` is an error. -/
def Artifact.write (cwd : List Str) (rule : Rule) (a : Artifact) (w : World) : Option World :=
  match openRule rule a.pkg a.item with
  | none => none
  | some (.discard, _) => some w
  | some (.stdout, _) => some { w with stdout := w.stdout ++ a.text }
  | some (.file path, _) => some { w with disk := GoMap.put w.disk (locate cwd path) a.text }

/-- A generator writes its artifacts.  At an error `deepcopy` goes on with the next package (deepcopy/gen.go:154-163, 288-293); the others stop (crd/gen.go:205-207, webhook/parser.go:610-612, rbac/parser.go:394). -/
def writeAll (cwd : List Str) (rule : Rule) (goOn : Bool) : List Artifact → World → World × Option String
  | [], w => (w, none)
  | a :: as, w =>
    match a.write cwd rule w with
    | some w' => writeAll cwd rule goOn as w'
    | none => if goOn then writeAll cwd rule goOn as w else (w, some "cannot open")

/-- The generators that are modelled here. -/
inductive Tool
  | crd | rbac | webhook | object
deriving DecidableEq, Repr

/-- One generator of a run: which one, what it writes, and the error that it may return afterwards. -/
structure Step where
  tool : Tool
  artifacts : List Artifact
  err : Option String := none
deriving DecidableEq

/-- As a generator for `run`.  The rule is never nil (options.go:93-108). -/
def Step.gen (cwd : List Str) (s : Step) : Gen World where
  needsChecking := match s.tool with | .webhook | .rbac => false | _ => true
  generate := fun c w =>
    match c.rule with
    | none => (w, some "no rule")
    | some rule =>
      match writeAll cwd rule (s.tool == .object) s.artifacts w with
      | (w', none) => (w', s.err)
      | (w', some e) => (w', some e)

/-- crd/gen.go:197-208: `text` is the header and the CRD as YAML. -/
def crdArtifacts (text : CrdGen.Crd → Str) (out : CrdGen.Out) : List Artifact := out.files.map fun f => ⟨none, f.1.toList, text f.2⟩

/-- rbac/parser.go:375-394. -/
def rbacArtifacts (text : List Rbac.RoleObj → Str) (out : Option (String × List Rbac.RoleObj)) : List Artifact := out.toList.map fun f => ⟨none, f.1.toList, text f.2⟩

/-- webhook/parser.go:603-613. -/
def webhookArtifacts (text : List Webhook.Obj → Str) (out : List (String × List Webhook.Obj)) : List Artifact := out.map fun f => ⟨none, f.1.toList, text f.2⟩

/-- deepcopy/gen.go:154-163, 288-289; `files` are the `CompiledGoFiles` of a package. -/
def objectArtifacts {μ : Type} (files : String → List Str) (text : String → μ → Str) (out : List (String × μ)) : List Artifact :=
  out.map fun f => ⟨some (files f.1), "zz_generated.deepcopy.go".toList, text f.1 f.2⟩

end Verif.Genall
