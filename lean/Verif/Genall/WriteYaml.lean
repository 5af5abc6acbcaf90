import Verif.Genall.Output
/-!
# Model of `WriteYAML` and its transformations: `/repo/pkg/genall/genall.go`, `/repo/pkg/crd/gen.go`
-/
namespace Verif.Genall
open Markers (Str)

/-! ## Values and transformations -/

/-- A value of `jsonObj` (genall.go:189): a map, or anything else (a list or a scalar, of which only the text matters). -/
inductive Val
  | map (m : List (Str × Val))
  | other (text : Str)

/-- `delete(m, key)` (language). -/
def del {ν : Type} (m : List (Str × ν)) (key : Str) : List (Str × ν) := m.filter fun e => e.1 ≠ key

/-- An object: `map[string]interface{}`. -/
abbrev Obj := List (Str × Val)

/-- `TransformRemoveCreationTimestamp` (genall.go:135-139); `none`: the type assertion panics.  (The map of the metadata is changed in place; here it is put back.) -/
def removeCreationTimestamp (obj : Obj) : Option Obj :=
  match GoMap.get obj "metadata".toList with
  | some (.map m) => some (GoMap.put obj "metadata".toList (.map (del m "creationTimestamp".toList)))
  | _ => none

/-- `transformRemoveCRDStatus` (crd/gen.go:111-114). -/
def removeCRDStatus (obj : Obj) : Option Obj := some (del obj "status".toList)

/-- `transformPreserveUnknownFields` (crd/gen.go:117-124). -/
def preserveUnknownFields (value : Bool) (obj : Obj) : Option Obj :=
  match GoMap.get obj "spec".toList with
  | some (.map m) => some (GoMap.put obj "spec".toList (.map (GoMap.put m "preserveUnknownFields".toList (.other (if value then "true" else "false").toList))))
  | _ => some obj

/-- The loop over the transformations (genall.go:196-202). -/
def transform : List (Obj → Option Obj) → Obj → Option Obj
  | [], obj => some obj
  | t :: ts, obj =>
    match t obj with
    | none => none
    | some obj' => transform ts obj'

/-- The transformations with which CRDs are written (crd/gen.go:172-178). -/
def crdTransforms (preserve : Option Bool) : List (Obj → Option Obj) :=
  [removeCRDStatus, removeCreationTimestamp] ++ (match preserve with | none => [] | some v => [preserveUnknownFields v])

/-! ## Writing -/

/-- Files with their contents, and standard output. -/
structure Fs where
  files : List (Str × Str) := []
  stdout : Str := []
deriving DecidableEq, Repr

/-- What the system does: whether the file can be created, and whether a write succeeds (`none`), or fails after some characters have been written. -/
structure Sys where
  creatable : Str → Bool
  write : Nat → Option Nat

/-- `os.Create` (library): the file is empty then.  Nothing happens for standard output and for `io.Discard`. -/
def create (sys : Sys) (fs : Fs) : Dest → Option Fs
  | .discard => some fs
  | .stdout => some fs
  | .file p => if sys.creatable p then some { fs with files := GoMap.put fs.files p [] } else none

/-- What is appended to a destination. -/
def emit (fs : Fs) (dest : Dest) (text : Str) : Fs :=
  match dest with
  | .discard => fs
  | .stdout => { fs with stdout := fs.stdout ++ text }
  | .file p => { fs with files := GoMap.put fs.files p ((GoMap.get fs.files p).getD [] ++ text) }

/-- Write number `k` (library): the files afterwards, and whether it succeeded.  Writing to `io.Discard` always succeeds; a write that is short returns an error (the contract of `io.Writer`), so that the test for short writes
(genall.go:165-167) is never what ends the loop. -/
def write (sys : Sys) (fs : Fs) (dest : Dest) (k : Nat) (text : Str) : Fs × Bool :=
  match dest with
  | .discard => (fs, true)
  | dest =>
    match sys.write k with
    | none => (emit fs dest text, true)
    | some n => (emit fs dest (text.take n), false)

/-- `"---\n"` (genall.go:161). -/
def docStart : Str := ['-', '-', '-', '\n']

/-- The loop of `WriteYAML` (genall.go:156-168); `marshal` is `yamlMarshal` with the transformations, and `none` its error. -/
def writeDocs {ι : Type} (sys : Sys) (marshal : ι → Option Str) (dest : Dest) : Nat → List ι → Fs → Fs × Bool
  | _, [], fs => (fs, true)
  | k, obj :: objs, fs =>
    match marshal obj with
    | none => (fs, false)
    | some content =>
      match write sys fs dest k (docStart ++ content) with
      | (fs', false) => (fs', false)
      | (fs', true) => writeDocs sys marshal dest (k + 1) objs fs'

/-- `WriteYAML` (genall.go:144-171): the files afterwards, and whether it succeeded. -/
def writeYAML {ι : Type} (sys : Sys) (marshal : ι → Option Str) (rule : Rule) (itemPath header : Str) (objs : List ι) (fs : Fs) : Fs × Bool :=
  match openRule rule none itemPath with
  | none => (fs, false)
  | some (dest, _) =>
    match create sys fs dest with
    | none => (fs, false)
    | some fs0 =>
      match write sys fs0 dest 0 header with
      | (fs1, false) => (fs1, false)
      | (fs1, true) => writeDocs sys marshal dest 1 objs fs1

end Verif.Genall
