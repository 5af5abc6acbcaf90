import Verif.Common.GoMap
/-!
# schemapatcher/internal/yaml: paths in YAML trees

A YAML tree is a value: no node is in it twice.  (`Alias` of an alias node is a pointer to a node of the tree, but the code does not follow it.)  A pointer into the tree is the list of indices of children on the way to it.
-/
namespace Verif.Patch

/-- `yaml.Kind` (library); `zero` is that of an empty document. -/
inductive Kind
  | zero
  | document
  | sequence
  | mapping
  | scalar
  | alias
deriving DecidableEq

/-- What else a node has. -/
structure Attr where
  value : String := ""
  /-- `ShortTag()` -/
  tag : String := ""
  anchor : String := ""
  /-- style, comments and position -/
  rest : Nat := 0
deriving DecidableEq

/-- `yaml.Node` (library). -/
inductive Node
  | mk (kind : Kind) (attr : Attr) (content : List Node)

def Node.kind : Node → Kind
  | .mk k _ _ => k

def Node.attr : Node → Attr
  | .mk _ a _ => a

def Node.content : Node → List Node
  | .mk _ _ c => c

def Node.value (n : Node) : String := n.attr.value

def Node.withContent (n : Node) (c : List Node) : Node := .mk n.kind n.attr c

/-- The loop of `ValueInMapping` (nested.go:33-38) over keys and values: the index of the key. -/
def findKey (key : String) : List Node → Option Nat
  | k :: _ :: rest => if k.value = key then some 0 else (findKey key rest).map (· + 2)
  | _ => none

/-- The loop of `asCloseAsPossible` (nested.go:53-71): the indices of the children on the way, and the rest of the path; none is an error. -/
def closestFrom (n : Node) : List String → Option (List Nat × List String)
  | [] => some ([], [])
  | k :: path =>
    if n.kind ≠ .mapping then none
    else match findKey k n.content with
      | none => some ([], k :: path)
      | some i =>
        match n.content[i + 1]? with
        | none => some ([], k :: path)
        | some v => (closestFrom v path).map fun (pos, rest) => ((i + 1) :: pos, rest)

/-- `asCloseAsPossible` (nested.go:45-73), for a root that is not nil. -/
def closest (root : Node) (path : List String) : Option (List Nat × List String) :=
  match root with
  | .mk .document _ (c :: _) => (closestFrom c path).map fun (pos, rest) => (0 :: pos, rest)
  | root => closestFrom root path

/-- The node that a pointer is to. -/
def Node.at (n : Node) : List Nat → Option Node
  | [] => some n
  | i :: pos => (n.content[i]?).bind fun c => c.at pos

/-- Changing the node that a pointer is to. -/
def Node.modify (f : Node → Node) : List Nat → Node → Node
  | [], n => f n
  | i :: pos, n =>
    match n.content[i]? with
    | none => n
    | some c => n.withContent (n.content.set i (c.modify f pos))

/-- `GetNode` (nested.go:77-87).  The outer option is that of errors, the inner one that of absent nodes. -/
def getNode (root : Node) (path : List String) : Option (Option Node) :=
  (closest root path).map fun (pos, rest) => if rest ≠ [] then none else root.at pos

/-- The key of a new node (set.go:38). -/
def keyNode (k : String) : Node := .mk .scalar { value := k, tag := "!!str", rest := 1 } []

/-- A new mapping (set.go:39). -/
def emptyMapping : Node := .mk .mapping {} []

/-- The nodes that are made for the rest of a path, and the value (set.go:37-46). -/
def extend (val : Node) : List String → Node → Node
  | [], _ => val
  | k :: path, n => n.withContent (n.content ++ [keyNode k, extend val path emptyMapping])

/-- `SetNode` (set.go:26-48). -/
def setNode (root val : Node) (path : List String) : Option Node :=
  (closest root path).bind fun (pos, rest) =>
    if rest ≠ [] ∧ (root.at pos).map (·.kind) ≠ some .mapping then none
    else some (root.modify (extend val rest) pos)

/-- Removing the first pair with a key (set.go:69-75). -/
def removeKey (key : String) (n : Node) : Node :=
  match findKey key n.content with
  | none => n
  | some i => n.withContent (n.content.take i ++ n.content.drop (i + 2))

/-- `DeleteNode` (set.go:52-80). -/
def deleteNode (root : Node) (path : List String) : Option Node :=
  match path.getLast? with
  | none => none
  | some key =>
    (closest root path.dropLast).bind fun (pos, rest) =>
      if rest ≠ [] then some root
      else if (root.at pos).map (·.kind) ≠ some .mapping then none
      else some (root.modify (removeKey key) pos)

end Verif.Patch
