import Verif.Common.GoMap
import Verif.Common.Sched
import Verif.Markers.Doc
/-!
# markers/collect.go: which node a marker belongs to

Positions in a file are numbers (`token.Pos`).  A syntax tree is given by what the collector looks at.
-/
namespace Verif.Markers.Collect
open Verif Verif.Markers.Doc

/-- `ast.Comment` (library). -/
structure Comment where
  pos : Nat
  text : Str
deriving DecidableEq

/-- `ast.CommentGroup` (library); `pos` is that of the first comment. -/
structure Group where
  pos : Nat
  comments : List Comment

/-- The types of nodes that the collector tells apart (collect.go:344-382). -/
inductive Kind
  | file
  /-- with whether it declares types, and whether it has parentheses -/
  | genDecl (types paren : Bool)
  | typeSpec
  | field
  /-- any other node, among them comment groups and comments: `ast.Walk` visits those that are documentation, too -/
  | other
deriving DecidableEq

/-- `ast.Node`. -/
structure Node where
  /-- tells nodes apart (the pointer) -/
  id : Nat
  kind : Kind
  /-- `Pos()`: of a declaration with documentation, the position after it -/
  pos : Nat
  /-- `End()` -/
  «end» : Nat
  /-- the position of the documentation (collect.go:395-420) -/
  doc : Option Nat := none
  /-- the position of the comment at the end of the line (collect.go:395-420) -/
  line : Option Nat := none
deriving DecidableEq

/-- A syntax tree, with the children in the order of `ast.Walk`. -/
inductive Tree
  | node (n : Node) (children : List Tree)

/-- A call of `Visit`: with a node, on the visitor that its parent returned (none for the file), or with `nil`, at the end of a node. -/
inductive Event
  | enter (n : Node) (parent : Option Node)
  | leave (n : Node)
deriving DecidableEq

mutual
/-- `ast.Walk` (library): the calls of `Visit`. -/
def Tree.events (parent : Option Node) : Tree → List Event
  | .node n cs => .enter n parent :: (Tree.eventsList n cs ++ [.leave n])

def Tree.eventsList (parent : Node) : List Tree → List Event
  | [] => []
  | c :: cs => c.events (some parent) ++ Tree.eventsList parent cs
end

/-- `markerComment` (collect.go:203-206). -/
structure MarkerComment where
  comment : Comment
  fromGodoc : Bool
deriving DecidableEq

/-- `markerVisitor` (collect.go:216-225). -/
structure Visitor where
  /-- `commentInd` -/
  ind : Nat := 0
  /-- `lastLineCommentGroup` -/
  line : Option Nat := none
  /-- `declComments` -/
  decl : List MarkerComment := []
  /-- `pkgMarkers` -/
  pkg : List MarkerComment := []
  /-- `nodeMarkers` -/
  nodes : List (Node × List MarkerComment) := []

/-- The markers of a group (collect.go:247-254). -/
def Group.markers (fromGodoc : Bool) (g : Group) : List MarkerComment :=
  (g.comments.filter fun c => isMarkerComment c.text).map fun c => ⟨c, fromGodoc⟩

/-- `markersBetween` (collect.go:241-256), for indices that are not negative. -/
def between (groups : List Group) (fromGodoc : Bool) (start stop : Nat) : List MarkerComment :=
  ((groups.take stop).drop start).flatMap (Group.markers fromGodoc)

/-- The first comment group from `i` on that is not before `bound`, or the number of groups (collect.go:277-286, 313-321). -/
def advance (groups : List Group) (bound i : Nat) : Nat := i + ((groups.drop i).takeWhile fun g => g.pos < bound).length

/-- `collectPackageLevel` of the visitor that visits a node: it is set for the file and for the nodes in it (collect.go:150, 335, 375). -/
def collects : Option Node → Bool
  | none => true
  | some p => p.kind = .file

/-- `v.nodeMarkers[node] = append(v.nodeMarkers[node], …)`. -/
def addTo (m : List (Node × List MarkerComment)) (n : Node) (l : List MarkerComment) : List (Node × List MarkerComment) :=
  GoMap.put m n ((GoMap.get m n).getD [] ++ l)

/-- The `switch` over the types of nodes (collect.go:343-383), for the markers in the closest comment that is not documentation, and those in the documentation. -/
def Visitor.assign (v : Visitor) (n : Node) (collect : Bool) (block docs : List MarkerComment) : Visitor :=
  match n.kind with
  | .genDecl types paren =>
    if paren || !types then { v with pkg := v.pkg ++ block }
    else { v with decl := v.decl ++ block ++ docs }
  | .typeSpec => { v with nodes := addTo v.nodes n (v.decl ++ block ++ docs), decl := [] }
  | .field => { v with nodes := addTo v.nodes n (block ++ docs) }
  | .file => { v with pkg := v.pkg ++ block ++ docs }
  | .other => if collect then { v with pkg := v.pkg ++ block } else v

/-- `Visit` with a node (collect.go:294-389).  `none`: the index of a comment group is negative, and the program panics (collect.go:325). -/
def Visitor.enter (groups : List Group) (v : Visitor) (n : Node) (collect : Bool) : Option Visitor :=
  -- a comment at the end of the line of the node before is skipped (collect.go:297-299)
  let i := if v.line ≠ none ∧ (groups[v.ind]?.map (·.pos)) = v.line then v.ind + 1 else v.ind
  if i < groups.length then
    let next := advance groups n.pos i
    if n.doc ≠ none ∧ next = 0 then none
    else
      let isDoc := n.doc ≠ none ∧ (groups[next - 1]?.map (·.pos)) = n.doc
      -- one more than `markerCommentInd`
      let stop := if isDoc then next - 1 else next
      let free := if stop > i ∧ collect then between groups false i (stop - 1) else []
      let block := if stop > i then between groups false (stop - 1) stop else []
      let docs := between groups true stop next
      some (({ v with ind := next, line := n.line, pkg := v.pkg ++ free } : Visitor).assign n collect block docs)
  else some (({ v with ind := i + 1 } : Visitor).assign n collect [] [])

/-- `Visit` with `nil` (collect.go:267-292), on the visitor of node `n`. -/
def Visitor.leave (groups : List Group) (v : Visitor) (n : Node) : Visitor :=
  if n.kind ≠ .file ∧ v.ind < groups.length then { v with ind := advance groups n.end v.ind } else v

/-- A call of `Visit`. -/
def Visitor.event (groups : List Group) (v : Visitor) : Event → Option Visitor
  | .enter n p => v.enter groups n (collects p)
  | .leave n => some (v.leave groups n)

/-- The calls of `Visit`, one after the other. -/
def Visitor.run (groups : List Group) (v : Visitor) : List Event → Option Visitor
  | [] => some v
  | e :: es => (v.event groups e).bind fun v' => v'.run groups es

/-- `ast.Walk(visitor, file)`, and the comments at the end of the file (collect.go:146-160). -/
def walk (groups : List Group) (file : Tree) : Option Visitor :=
  (({} : Visitor).run groups (file.events none)).map fun v =>
    { v with pkg := v.pkg ++ between groups false v.ind groups.length }

/-- `TargetType`. -/
inductive Target
  | package
  | type
  | field
deriving DecidableEq

/-- `markerComment.Text` (collect.go:211-213). -/
def MarkerComment.text (m : MarkerComment) : Str := trimSpace (m.comment.text.drop 2)

variable {Def : Type} (lookup : Str → Target → Option Def)

/-- A marker of a type is in truth one of the package (collect.go:171-191). -/
def isPackageLevel (m : MarkerComment) : Bool :=
  !m.fromGodoc && (lookup m.text .type).isNone && (lookup m.text .package).isSome

/-- The loop over the nodes (collect.go:163-194), for the nodes in an order. -/
def reassociate : List (Node × List MarkerComment) → List MarkerComment → List (Node × List MarkerComment) → List MarkerComment × List (Node × List MarkerComment)
  | [], pkg, nodes => (pkg, nodes)
  | (n, ms) :: rest, pkg, nodes =>
    if n.kind = .typeSpec then
      reassociate rest (pkg ++ ms.filter (isPackageLevel lookup)) (GoMap.put nodes n (ms.filter fun m => !isPackageLevel lookup m))
    else reassociate rest pkg nodes

/-- `associateFileMarkers` (collect.go:146-198): the markers of the nodes of a file; those of the package are markers of the file. -/
def associateFile (σ : Sched) (groups : List Group) (file : Node) (children : List Tree) : Option (List (Node × List MarkerComment)) :=
  (walk groups (.node file children)).map fun v =>
    let (pkg, nodes) := reassociate lookup (σ.order 0 v.nodes) v.pkg v.nodes
    GoMap.put nodes file pkg

/-- The target of a node (collect.go:104-112). -/
def Node.target (n : Node) : Target :=
  match n.kind with
  | .file => .package
  | .field => .field
  | _ => .type

/-- What is made of a marker: the name of the definition and the value, an error, or nothing, if there is no definition (collect.go:114-125). -/
def parseOne {Val Err : Type} (name : Def → String) (parse : Def → Str → Except Err Val) (t : Target) (m : MarkerComment) : Option (String × Except Err Val) :=
  (lookup m.text t).map fun d => (name d, parse d m.text)

/-- The loop over the markers of a node (collect.go:113-125): the values by name, and the errors. -/
def parseNode {Val Err : Type} (name : Def → String) (parse : Def → Str → Except Err Val) (t : Target) : List MarkerComment → List (String × List Val) → List (MarkerComment × Err) → List (String × List Val) × List (MarkerComment × Err)
  | [], vals, errs => (vals, errs)
  | m :: ms, vals, errs =>
    match parseOne lookup name parse t m with
    | none => parseNode name parse t ms vals errs
    | some (_, .error e) => parseNode name parse t ms vals (errs ++ [(m, e)])
    | some (n, .ok v) => parseNode name parse t ms (GoMap.appendAt vals n v) errs

end Verif.Markers.Collect
