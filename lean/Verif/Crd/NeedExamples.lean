import Verif.Crd.NeedTheorems
import Verif.Crd.EncExamples

/-! # C56, the whole way from the source: a program that meets the hypotheses -/
namespace Verif.Crd
open Spec

/-- What can be reached in a number of steps. -/
def Env.reachList (env : Env) : Nat → List (String × Schema) → List (String × Schema)
  | 0, l => l
  | n + 1, l => env.reachList n (l ++ (l.flatMap env.next).filter fun x => x ∉ l)

private def none' : AnyVal → Option Raw := fun _ => none
private def field (name tag : String) (type : TExpr) : Field := { name, tag := some tag.toList, type }

private def boxDecl : Decl := { name := "Box", type := .struct, fields := [field "Leafs" "leafs" (.array false (.ident "Leaf")), field "Since" "since" (.selector "metav1" "Time"),
  field "Boxes" "boxes" (.array false (.ident "Box"))] }
private def leafDecl : Decl := { name := "Leaf", type := .ident "string" }

private def ctx (self : String) : PkgCtx where
  self := self
  ident := fun n => if self ≠ "v1" then .invalid else if n = "string" then .basic ⟨.string, "string"⟩ else
    if n = "Leaf" then .named (some "v1") "Leaf" (.basic ⟨.string, "string"⟩) else if n = "Box" then .named (some "v1") "Box" .other else .invalid
  sel := fun x n => if self = "v1" ∧ x = "metav1" ∧ n = "Time" then .named (some metaPath) "Time" .other else .invalid
  exported := fun _ => true

private def prog : Src where
  ctx := ctx
  imports := fun p path => if p = "v1" ∧ path = metaPath then some metaPath else none
  decls := fun p => if p = "v1" then [boxDecl, leafDecl] else []
  path := id
  overrides := addKnownTypes false

private def G : Prog where
  ctx := ctx
  decl := fun p n => if p = "v1" ∧ n = "Box" then some boxDecl else if p = "v1" ∧ n = "Leaf" then some leafDecl else none
  foreign := fun p n j => p = metaPath ∧ n = "Time" ∧ j = .str "2006-01-02T15:04:05Z"

private def run : Except Stop PState := prog.need none' (fun _ => .fifo) 5 ⟨"v1", "Box"⟩ {}
private def fin : PState := match run with | .ok st => st | .error _ => {}
private theorem run_ok : run = .ok fin := by
  have h : (match run with | .ok _ => true | .error _ => false) = true := by decide +kernel
  unfold fin
  split
  · assumption
  · rename_i e; rw [e] at h; cases h

private theorem ident_cases {p n : String} {t : GoType} (h : (ctx p).ident n = t) : t = .invalid ∨ (p = "v1" ∧ n = "string" ∧ t = .basic ⟨.string, "string"⟩) ∨
    (p = "v1" ∧ n = "Leaf" ∧ t = .named (some "v1") "Leaf" (.basic ⟨.string, "string"⟩)) ∨ (p = "v1" ∧ n = "Box" ∧ t = .named (some "v1") "Box" .other) := by
  simp only [ctx] at h
  split at h
  · exact .inl h.symm
  · rename_i hp
    have hp := Decidable.not_not.1 hp
    split at h
    · exact .inr (.inl ⟨hp, ‹_›, h.symm⟩)
    · split at h
      · exact .inr (.inr (.inl ⟨hp, ‹_›, h.symm⟩))
      · split at h
        · exact .inr (.inr (.inr ⟨hp, ‹_›, h.symm⟩))
        · exact .inl h.symm

private theorem sel_cases {p x n : String} {t : GoType} (h : (ctx p).sel x n = t) : t = .invalid ∨ (p = "v1" ∧ t = .named (some metaPath) "Time" .other) := by
  simp only [ctx] at h
  split at h
  · rename_i hp; exact .inr ⟨hp.1, h.symm⟩
  · exact .inl h.symm

private theorem tidy (p : String) : Tidy (prog.ctx p) := by
  refine ⟨?_, ?_, ?_, ?_, ?_⟩
  · intro n pkg m u h
    rcases ident_cases h with h | ⟨-, -, h⟩ | ⟨-, -, h⟩ | ⟨-, -, h⟩
    · cases h
    · cases h
    · cases h; decide +kernel
    · cases h; decide +kernel
  · intro n q a pkg m u h
    rcases ident_cases h with h | ⟨-, -, h⟩ | ⟨-, -, h⟩ | ⟨-, -, h⟩ <;> cases h
  · intro n q a pkg m u h
    rcases ident_cases h with h | ⟨-, -, h⟩ | ⟨-, -, h⟩ | ⟨-, -, h⟩ <;> cases h
  · intro x n pkg m u h
    rcases h with h | h
    · rcases sel_cases h with h | ⟨-, h⟩
      · cases h
      · cases h; decide +kernel
    · rcases sel_cases h with h | ⟨-, h⟩ <;> cases h
  · intro n hn
    rcases ident_cases (p := p) (n := n) rfl with h | ⟨-, rfl, -⟩ | ⟨-, rfl, -⟩ | ⟨-, rfl, -⟩
    · exact absurd h hn
    · decide +kernel
    · decide +kernel
    · decide +kernel

private theorem noOverride (n : String) (s : Schema) : ¬ Fixed prog ⟨"v1", n⟩ s := by
  rintro ⟨o, a, b, h, -⟩
  unfold OverrideOf at h
  have : GoMap.get prog.overrides (String.ofList (Loader.nonVendorPath (prog.path "v1").toList)) = none := by
    have h2 : (GoMap.get prog.overrides (String.ofList (Loader.nonVendorPath (prog.path "v1").toList))).isNone = true := by decide +kernel
    exact Option.isNone_iff_eq_none.1 h2
  rw [this] at h; cases h

private theorem noOverride' (o : Override) : ¬ OverrideOf prog "v1" o := by
  intro h
  unfold OverrideOf at h
  have h2 : (GoMap.get prog.overrides (String.ofList (Loader.nonVendorPath (prog.path "v1").toList))).isNone = true := by decide +kernel
  rw [h] at h2; cases h2

private theorem notSkipped : ¬ Marked (prog.ctx "v1").markers "kubebuilder:skip" := by
  rintro ⟨v, vs, h⟩; cases h

/-- The values of the foreign type are accepted if the format of time stamps is understood. -/
private theorem progOf (M : Meaning) (hM : ∀ j, M.format "date-time" j) : ProgOf M prog G := by
  refine ⟨rfl, ?_, ?_⟩
  · intro p n d h
    simp only [G] at h
    split at h
    · rename_i e; obtain ⟨rfl, rfl⟩ := e
      cases h
      exact ⟨⟨notSkipped, fun o h => absurd h (noOverride' o), [], [leafDecl], rfl, rfl, by decide +kernel⟩, noOverride _⟩
    · split at h
      · rename_i e; obtain ⟨rfl, rfl⟩ := e
        cases h
        exact ⟨⟨notSkipped, fun o h => absurd h (noOverride' o), [boxDecl], [], rfl, rfl, by decide +kernel⟩, noOverride _⟩
      · cases h
  · rintro p n j ⟨rfl, rfl, rfl⟩
    refine ⟨.leaf { type := "string", format := "date-time" }, ⟨metaOverride (typed "object"), [("ObjectMeta", typed "object")], _, ?_, rfl, by decide +kernel⟩, ?_⟩
    · unfold OverrideOf
      have : String.ofList (Loader.nonVendorPath (prog.path metaPath).toList) = metaPath := by decide +kernel
      rw [this]; rfl
    · have hb : BaseOk M { type := "string", format := "date-time" } (.str "2006-01-02T15:04:05Z") :=
        plain_ok (doc := []) (r := none) (req := []) ⟨fun _ => ⟨_, rfl⟩, fun h => absurd h (by decide), fun h => absurd h (by decide), fun h => absurd h (by decide), fun h => absurd h (by decide), fun h => absurd h (by decide)⟩ (fun _ => hM _) nofun
      unfold Schema.leaf Valid
      simp [hb, ValidItems, ValidAll, ValidOpt, ValidProps, ValidAddl, ValidPats, ValidDeps]

private theorem plainDecls : ∀ p n d, G.decl p n = some d → PlainDecl (G.ctx p) d := by
  intro p n d h
  simp only [G] at h
  split at h
  · rename_i e; obtain ⟨rfl, rfl⟩ := e
    cases h; exact plainDecl_of (by decide +kernel)
  · split at h
    · rename_i e; obtain ⟨rfl, rfl⟩ := e
      cases h; exact plainDecl_of (by decide +kernel)
    · cases h

private theorem linked : Linked G (envOf prog fin) := by
  refine linked_plain (fun _ => rfl) ?_ ?_ (fun pkg n p a r h => by rcases ident_cases h with h | ⟨-, -, h⟩ | ⟨-, -, h⟩ | ⟨-, -, h⟩ <;> cases h)
    (fun pkg x n p a r h => by rcases sel_cases h with h | ⟨-, h⟩ <;> cases h)
  · intro pkg n p m u h
    rcases ident_cases h with h | ⟨-, -, h⟩ | ⟨e, -, h⟩ | ⟨e, -, h⟩
    · cases h
    · cases h
    · cases h
      exact ⟨by decide +kernel, fun hne => absurd e.symm hne⟩
    · cases h
      exact ⟨by decide +kernel, fun hne => absurd e.symm hne⟩
  · intro pkg x n p m u h
    rcases sel_cases h with h | ⟨e, h⟩
    · cases h
    · cases h; subst e
      refine ⟨by decide +kernel, by decide +kernel, by decide +kernel, fun q hq => ?_⟩
      have : (envOf prog fin).imports "v1" (String.ofList (Loader.nonVendorPath metaPath.toList)) = some metaPath := by
        show prog.imports "v1" (String.ofList (Loader.nonVendorPath metaPath.toList)) = some metaPath
        decide +kernel
      rw [this] at hq
      exact (Option.some.inj hq).symm

private theorem box_enc (l : List Json) (hl : ∀ x ∈ l, Enc G (.decl "v1" "Box") x) :
    Enc G (.decl "v1" "Box") (.obj [("leafs", .arr []), ("since", .str "2006-01-02T15:04:05Z"), ("boxes", .arr l)]) := by
  have i1 : included (ctx "v1") (field "Leafs" "leafs" (.array false (.ident "Leaf"))) = some ⟨"leafs", false, false⟩ := by decide +kernel
  have i2 : included (ctx "v1") (field "Since" "since" (.selector "metav1" "Time")) = some ⟨"since", false, false⟩ := by decide +kernel
  have i3 : included (ctx "v1") (field "Boxes" "boxes" (.array false (.ident "Box"))) = some ⟨"boxes", false, false⟩ := by decide +kernel
  have fields : ∀ f ∈ boxDecl.fields, ∀ k i om, FieldIn (ctx "v1") f k i om →
      (f = field "Leafs" "leafs" (.array false (.ident "Leaf")) ∧ k = "leafs" ∧ i = false) ∨ (f = field "Since" "since" (.selector "metav1" "Time") ∧ k = "since" ∧ i = false) ∨
      (f = field "Boxes" "boxes" (.array false (.ident "Box")) ∧ k = "boxes" ∧ i = false) := by
    intro f hf k i om h
    have h : included (ctx "v1") f = some ⟨k, i, om⟩ := included_iff.2 h
    simp only [boxDecl, List.mem_cons, List.not_mem_nil, or_false] at hf
    rcases hf with rfl | rfl | rfl
    · rw [i1] at h; cases h; exact .inl ⟨rfl, rfl, rfl⟩
    · rw [i2] at h; cases h; exact .inr (.inl ⟨rfl, rfl, rfl⟩)
    · rw [i3] at h; cases h; exact .inr (.inr ⟨rfl, rfl, rfl⟩)
  have noString : ∀ f ∈ boxDecl.fields, ¬ HasOption f "string" := (plainDecls "v1" "Box" boxDecl rfl).noString
  refine .struct (d := boxDecl) _ rfl rfl rfl rfl ?_ ?_ ?_ ?_
  · intro f hf k om v h _ hv
    rcases fields f hf k false om h with ⟨rfl, rfl, -⟩ | ⟨rfl, rfl, -⟩ | ⟨rfl, rfl, -⟩
    · cases hv
      exact .array [] (fun _ h => by revert h; rw [← byteLike_iff]; decide +kernel) nofun
    · cases hv
      refine .selector ?_
      rw [show (G.ctx "v1").sel "metav1" "Time" = .named (some metaPath) "Time" .other by decide +kernel]
      exact .named (.foreign ⟨rfl, rfl, rfl⟩)
    · cases hv
      refine .array l (fun _ h => by revert h; rw [← byteLike_iff]; decide +kernel) fun x hx => .ident ?_
      rw [show (G.ctx "v1").ident "Box" = .named (some "v1") "Box" .other by decide +kernel]
      exact .named (hl x hx)
  · intro f hf k om v _ h; exact absurd h (noString f hf)
  · intro f hf k om h _ _
    rcases fields f hf k false om h with ⟨-, rfl, -⟩ | ⟨-, rfl, -⟩ | ⟨-, rfl, -⟩ <;> simp
  · intro f hf k om h
    rcases fields f hf k true om h with ⟨-, -, h⟩ | ⟨-, -, h⟩ | ⟨-, -, h⟩ <;> cases h

/-- The type has values: a box in a box. -/
example : Enc G (.decl "v1" "Box") (.obj [("leafs", .arr []), ("since", .str "2006-01-02T15:04:05Z"),
    ("boxes", .arr [.obj [("leafs", .arr []), ("since", .str "2006-01-02T15:04:05Z"), ("boxes", .arr [])]])]) :=
  box_enc _ fun x hx => by rw [List.mem_singleton.1 hx]; exact box_enc [] nofun

/-- C56: all hypotheses of `C56_end_to_end_partial` are met by one program, whose type `Box` is recursive. -/
example (M : Meaning) (hM : Formats M) (hT : ∀ j, M.format "date-time" j) : ∃ t fst, flattenType (envOf prog fin) .fifo ⟨"v1", "Box"⟩ {} = .ok (some t, fst) ∧ NoRef t ∧
    ∀ j, Enc G (.decl "v1" "Box") j → Valid M t j := by
  have hd : ∀ u, (envOf prog fin).raw ⟨"v1", "Box"⟩ = some u → Distinct (envOf prog fin) "v1" u := by
    intro u hu
    have hu' : u = ((envOf prog fin).raw ⟨"v1", "Box"⟩).getD .empty := by rw [hu]; rfl
    subst hu'
    exact distinct_of 3 (L := (envOf prog fin).reachList 4 [("v1", ((envOf prog fin).raw ⟨"v1", "Box"⟩).getD .empty)]) (by decide +kernel) (by decide +kernel) (by decide +kernel)
  obtain ⟨t, fst, h1, h2, h3, -⟩ := C56_end_to_end_partial M hM prog false rfl tidy G (progOf M hT) none' rfl plainDecls (fun _ => .fifo) 5 "v1" "Box" {} fin .start run_ok (by decide +kernel) linked hd .fifo
  exact ⟨t, fst, h1, h2, h3⟩

end Verif.Crd
