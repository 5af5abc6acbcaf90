import Verif.Markers.CollectExamples
/-!
# loader/visit.go, markers/zip.go: the types of a package (`EachType`)
-/
namespace Verif.Markers.Each
open Verif Verif.Markers.Collect

mutual
/-- `ast.Walk` (library) with the visitor of visit.go:44-68, which has the declaration as its state: it is set when a declaration is entered, and unset when a node is left that was entered (not a type, and none of the nodes whose children are skipped).  The declarations and types that the callback is called with. -/
def visit (decl : Option Node) : Tree → Option Node × List (Option Node × Node)
  | .node n cs =>
    match n.kind with
    | .file => (none, (visitList decl cs).2)
    | .genDecl _ _ => (none, (visitList (some n) cs).2)
    | .typeSpec => (decl, [(decl, n)])
    | _ => (decl, [])

def visitList (decl : Option Node) : List Tree → Option Node × List (Option Node × Node)
  | [] => (decl, [])
  | c :: cs =>
    let (d, out) := visit decl c
    let (d', out') := visitList d cs
    (d', out ++ out')
end

/-- `loader.EachType` (visit.go:33-42), for the files of a package. -/
def eachType (files : List Tree) : List (Option Node × Node) := (visitList none files).2

def root : Tree → Node
  | .node n _ => n

def sub : Tree → List Tree
  | .node _ cs => cs

/-- What a syntax tree can be (library, go/ast): in a file there are declarations, and other nodes; in a declaration there are types, and other nodes. -/
structure Typed (f : Tree) : Prop where
  file : (root f).kind = .file
  decls : ∀ d ∈ sub f, (∃ types paren, (root d).kind = .genDecl types paren) ∨ (root d).kind = .other
  specs : ∀ d ∈ sub f, (∃ types paren, (root d).kind = .genDecl types paren) → ∀ s ∈ sub d, (root s).kind = .typeSpec ∨ (root s).kind = .other

/-- The types in a declaration at the top level of a file, each with its declaration. -/
def declared (f : Tree) : List (Node × Node) :=
  (sub f).flatMap fun d =>
    match (root d).kind with
    | .genDecl _ _ => ((sub d).filter fun s => (root s).kind = .typeSpec).map fun s => (root d, root s)
    | _ => []

theorem visitList_specs (d : Node) : ∀ (ss : List Tree), (∀ s ∈ ss, (root s).kind = .typeSpec ∨ (root s).kind = .other) →
    (visitList (some d) ss).2 = ((ss.filter fun s => (root s).kind = .typeSpec).map fun s => (some d, root s))
  | [], _ => by simp [visitList]
  | .node n cs :: ss, h => by
    have ih := visitList_specs d ss (fun s hs => h s (List.mem_cons_of_mem _ hs))
    rw [visitList]
    obtain hk | hk := h (.node n cs) (by simp)
    · have hk : n.kind = .typeSpec := hk
      simp [visit, hk, root, ih]
    · have hk : n.kind = .other := hk
      simp [visit, hk, root, ih]

theorem visitList_decls : ∀ (ds : List Tree), (∀ d ∈ ds, (∃ types paren, (root d).kind = .genDecl types paren) ∨ (root d).kind = .other) →
    (∀ d ∈ ds, (∃ types paren, (root d).kind = .genDecl types paren) → ∀ s ∈ sub d, (root s).kind = .typeSpec ∨ (root s).kind = .other) →
    visitList none ds = (none, (ds.flatMap fun d =>
      match (root d).kind with
      | .genDecl _ _ => ((sub d).filter fun s => (root s).kind = .typeSpec).map fun s => (some (root d), root s)
      | _ => []))
  | [], _, _ => by simp [visitList]
  | .node n cs :: ds, h1, h2 => by
    have ih := visitList_decls ds (fun s hs => h1 s (List.mem_cons_of_mem _ hs)) (fun s hs => h2 s (List.mem_cons_of_mem _ hs))
    rw [visitList, List.flatMap_cons]
    obtain ⟨types, paren, hk⟩ | hk := h1 (.node n cs) (by simp)
    · have hk : n.kind = .genDecl types paren := hk
      have := visitList_specs n cs (h2 (.node n cs) (by simp) ⟨types, paren, hk⟩)
      simp only [visit, hk, this, ih, root, sub]
    · have hk : n.kind = .other := hk
      simp only [visit, hk, ih, root, List.nil_append]

/-- **C61**: the types that are reported are those in declarations at the top level, each once, in the order of the files, and with the declaration that it is in. -/
theorem C61_types : ∀ (files : List Tree), (∀ f ∈ files, Typed f) → eachType files = (files.flatMap declared).map fun e => (some e.1, e.2)
  | [], _ => by simp [eachType, visitList]
  | .node n cs :: fs, h => by
    have ih := C61_types fs (fun s hs => h s (List.mem_cons_of_mem _ hs))
    have ht := h (.node n cs) (by simp)
    have hk : n.kind = .file := ht.file
    unfold eachType at ih ⊢
    rw [visitList, List.flatMap_cons, List.map_append, ← ih]
    simp only [visit, hk]
    rw [visitList_decls cs ht.decls ht.specs]
    congr 1
    unfold declared
    rw [List.map_flatMap]
    show List.flatMap _ cs = List.flatMap _ cs
    congr 1
    funext d
    split <;> simp

/-- The file in `CollectExamples` has one type. -/
example : Typed (.node Examples.file Examples.children) ∧ eachType [.node Examples.file Examples.children] = [(some Examples.decl, Examples.foo)] := by
  refine ⟨⟨rfl, ?_, ?_⟩, by decide +kernel⟩
  · intro d hd
    simp only [Examples.children, sub, List.mem_cons, List.not_mem_nil, or_false] at hd
    obtain rfl | rfl | rfl := hd
    · exact .inr rfl
    · exact .inl ⟨_, _, rfl⟩
    · exact .inr rfl
  · intro d hd hk s hs
    simp only [Examples.children, sub, List.mem_cons, List.not_mem_nil, or_false] at hd
    obtain rfl | rfl | rfl := hd
    · cases hs
    · simp only [sub, List.mem_cons, List.not_mem_nil, or_false] at hs
      obtain rfl | rfl := hs
      · exact .inr rfl
      · exact .inl rfl
    · obtain ⟨_, _, hk⟩ := hk
      cases hk

end Verif.Markers.Each
