import Verif.Markers.Collect
/-!
# Where markers belong: specification
-/
namespace Verif.Markers.Collect
open Verif Verif.Markers.Doc

/-- The comments of a group that are markers. -/
def Group.marks (g : Group) : List Comment := g.comments.filter fun c => isMarkerComment c.text

/-- The position that a call of `Visit` looks at comments up to: the beginning of a node that is entered, the end of one that is left. -/
def Event.bound : Event → Nat
  | .enter n _ => n.pos
  | .leave n => if n.kind = .file then 0 else n.end

/-- The comment at the end of the line of the node that is entered. -/
def Event.line : Event → Option Nat
  | .enter n _ => n.line
  | .leave _ => none

/-- The node that is entered. -/
def Event.node : Event → Option Node
  | .enter n _ => some n
  | .leave _ => none

/-- Documentation of a node comes after all that was visited before, and is not at the end of the line of an earlier node. -/
def Fresh (e f : Event) : Prop :=
  ∀ n, f.node = some n → ∀ d, n.doc = some d → e.bound ≤ d ∧ e.line ≠ some d

/-- What holds of a file that was parsed (`go/parser`). -/
structure FileWF (groups : List Group) (file : Tree) : Prop where
  /-- comment groups are in order -/
  sorted : groups.Pairwise fun g g' => g.pos < g'.pos
  /-- comments are different -/
  distinct : (groups.flatMap (·.comments)).Nodup
  /-- the documentation of a node is a comment group in front of it, and no group is in between -/
  docs : ∀ e ∈ file.events none, ∀ n, e.node = some n → ∀ d, n.doc = some d → d < n.pos ∧ (∃ g ∈ groups, g.pos = d) ∧ ∀ g ∈ groups, d < g.pos → n.pos ≤ g.pos
  fresh : (file.events none).Pairwise Fresh
  /-- nodes are different -/
  nodup : ((file.events none).filterMap Event.node).Nodup
  /-- a node begins before the end of the one that it is in; but the comment at the end of the line of a node is one of its children, too, and begins behind its end, with no marker in between -/
  inside : ∀ n p, Event.enter n (some p) ∈ file.events none → p.kind ≠ .file →
    n.pos ≤ p.end ∨ (p.line = some n.pos ∧ ∀ g ∈ groups, p.end ≤ g.pos → g.pos < n.pos → ∀ c ∈ g.comments, isMarkerComment c.text = false)
  /-- the root is a file -/
  root : ∀ n cs, file = .node n cs → n.kind = .file
  /-- the comment at the end of the line of a node is visited, too, before anything behind it -/
  lines : ∀ a n q b p, file.events none = a ++ .enter n q :: b → n.line = some p → ∃ b1 m b2, b = b1 ++ .leave m :: b2 ∧ m.kind ≠ .file ∧ p < m.end ∧ ∀ e ∈ b1, ∀ k, e.node = some k → k.pos ≤ p
  /-- a declaration of a single type has that type in it -/
  types : ∀ a c q b, file.events none = a ++ .enter c q :: b → c.kind = .genDecl true false → ∃ e ∈ b, ∃ m, e.node = some m ∧ m.kind = .typeSpec

/-- A declaration of a single type without parentheses. -/
def Node.singleType (c : Node) : Prop := c.kind = .genDecl true false

/-- In the walk `evs`, node `n` is a type or a field, and its comments are those of `c`: `c` is `n`, or `n` is the first type that is entered after the declaration `c`.  `a` is the part of the walk before `c`. -/
def Carries (evs a : List Event) (n c : Node) : Prop :=
  ∃ q b, evs = a ++ .enter c q :: b ∧
    ((c = n ∧ (n.kind = .field ∨ n.kind = .typeSpec)) ∨
     (c.singleType ∧ n.kind = .typeSpec ∧ ∃ b1 q' b2, b = b1 ++ .enter n q' :: b2 ∧ ∀ e ∈ b1, ∀ m, e.node = some m → m.kind ≠ .typeSpec))

/-- Group `g` is the closest one above node `c` that is not its documentation. -/
def Closest (groups : List Group) (c : Node) (g : Group) : Prop :=
  g.pos < c.pos ∧ c.doc ≠ some g.pos ∧ ∀ g' ∈ groups, g.pos < g'.pos → g'.pos < c.pos → c.doc = some g'.pos

/-- A position that the walk has passed. -/
def Passed (evs : List Event) (pos : Nat) : Prop := ∃ e ∈ evs, pos < e.bound ∨ e.line = some pos

/-- A group has no place: it is at the end of a line; it is the documentation of something that is not a type, a field or a file; or it is inside of a node (which is not the file). -/
def NoPlace (evs : List Event) (pos : Nat) : Prop :=
  ∃ e ∈ evs, ∃ n, e.node = some n ∧
    (n.line = some pos ∨
     (n.doc = some pos ∧ (n.kind = .other ∨ ∃ types paren, n.kind = .genDecl types paren ∧ (paren = true ∨ types = false))) ∨
     (n.kind ≠ .file ∧ n.pos ≤ pos ∧ pos < n.end))

/-- In the walk `evs`, group `g` is between what was visited before and a node of the file itself; or it is the closest one above a declaration of imports, constants, variables or several types, wherever that is. -/
def FreeBefore (groups : List Group) (evs : List Event) (g : Group) : Prop :=
  ∃ a n q b, evs = a ++ .enter n q :: b ∧ (∀ e ∈ a, e.bound ≤ g.pos) ∧ g.pos < n.pos ∧ n.doc ≠ some g.pos ∧
    ((q = none ∨ n.kind = .file ∨ ∃ f, q = some f ∧ f.kind = .file) ∨
     (Closest groups n g ∧ ∃ types paren, n.kind = .genDecl types paren ∧ (paren = true ∨ types = false)))

/-- Marker `m` is one of group `g`, and is documentation or not. -/
def MarkerComment.Of (m : MarkerComment) (g : Group) : Prop := m.comment ∈ g.marks

end Verif.Markers.Collect
