import Verif.Scaffold.Spec

namespace Verif.Scaffold

open Spec

/-! ### Lines of a text -/

theorem split_append_any (c : Char) (a b : Str) : Text.split c (a ++ c :: b) = Text.split c a ++ Text.split c b := by
  induction a with
  | nil => simp [Text.split]
  | cons x a ih =>
    by_cases hx : x = c
    · subst hx; simp [Text.split, ih]
    · simp only [List.cons_append, Text.split_cons, hx, if_false, ih]
      cases h : Text.split c a with
      | nil => exact absurd h Text.split_ne_nil
      | cons p ps => simp

theorem split_join_any (c : Char) (l : List Str) (hl : l ≠ []) :
    Text.split c (Text.join c l) = l.flatMap (Text.split c) := by
  induction l with
  | nil => exact absurd rfl hl
  | cons x l ih =>
    cases l with
    | nil => simp [Text.join, List.intercalate]
    | cons y l =>
      have : Text.join c (x :: y :: l) = x ++ c :: Text.join c (y :: l) := by
        simp [Text.join, List.intercalate]
      rw [this, split_append_any, ih (by simp)]
      simp

theorem lines_scaffold (o : Options) : lines (scaffold o) = (rows o).flatMap (Text.split '\n') := by
  unfold lines scaffold
  apply split_join_any
  exact List.cons_ne_nil _ _

theorem flatMap_split_id {l : List Str} (h : ∀ r ∈ l, '\n' ∉ r) : l.flatMap (Text.split '\n') = l := by
  induction l with
  | nil => rfl
  | cons x l ih =>
    rw [List.flatMap_cons, Text.split_not_mem (h x (by simp)), ih (fun r hr => h r (by simp [hr]))]
    rfl

theorem helpRows_oneLine (help : Str) : ∀ r ∈ helpRows help, '\n' ∉ r := by
  intro r hr
  unfold helpRows at hr
  split at hr
  · simp at hr
  · obtain ⟨l, hl, rfl⟩ := List.mem_map.1 hr
    have := Text.mem_split l hl
    simp [this]

theorem helpRows_inert (help : Str) : ∀ r ∈ helpRows help, inert r = true := by
  intro r hr
  unfold helpRows at hr
  split at hr
  · simp at hr
  · obtain ⟨l, hl, rfl⟩ := List.mem_map.1 hr
    simp [inert, List.dropWhile]

theorem not_mem_app {c : Char} {a b : Str} (ha : c ∉ a) (hb : c ∉ b) : c ∉ a ++ b := by
  simp [ha, hb]

theorem all_cons {P : Str → Prop} {a : Str} {l : List Str} (ha : P a) (hl : ∀ r ∈ l, P r) : ∀ r ∈ a :: l, P r := by
  intro r hr
  rcases List.mem_cons.1 hr with rfl | hr
  · exact ha
  · exact hl r hr

theorem all_append {P : Str → Prop} {a l : List Str} (ha : ∀ r ∈ a, P r) (hl : ∀ r ∈ l, P r) : ∀ r ∈ a ++ l, P r := by
  intro r hr
  rcases List.mem_append.1 hr with hr | hr
  · exact ha r hr
  · exact hl r hr

theorem all_nil {P : Str → Prop} : ∀ r ∈ ([] : List Str), P r := by simp

theorem all_ite {P : Str → Prop} {b : Bool} {a l : List Str} (ha : ∀ r ∈ a, P r) (hl : ∀ r ∈ l, P r) :
    ∀ r ∈ (if b = true then a else l), P r := by
  split
  · exact ha
  · exact hl

theorem rows_oneLine {o : Options} (hk : OneLine o.resource.kind) (hr : OneLine o.resource.resource) :
    ∀ r ∈ rows o, '\n' ∉ r := by
  have hh := helpRows_oneLine o.additionalHelp
  unfold OneLine at hk hr
  unfold rows
  repeat' first
    | exact hk
    | exact hr
    | exact hh
    | exact all_nil
    | apply all_append
    | apply all_ite
    | apply all_cons
    | apply not_mem_app
    | decide +kernel

theorem lines_eq {o : Options} (hk : OneLine o.resource.kind) (hr : OneLine o.resource.resource) :
    lines (scaffold o) = rows o := by
  rw [lines_scaffold, flatMap_split_id (rows_oneLine hk hr)]

set_option simprocs false in
/-- **C74 (what is declared).** For every kind and resource of one line, whatever the help, the scope and the flag for
clients: the lines of the printed text that are not comments are the declarations of the four types, and no others. -/
theorem C74_code (o : Options) (hk : OneLine o.resource.kind) (hr : OneLine o.resource.resource) :
    code (scaffold o) = declarations o.resource.kind := by
  have h0 : ([] : Str).dropWhile (fun c => c = ' ' || c = '\t') = [] := rfl
  have hh : (helpRows o.additionalHelp).filter (fun l => !inert l) = [] := by
    rw [List.filter_eq_nil_iff]
    intro r hr
    rw [helpRows_inert _ r hr]; decide
  have i1 : ∀ x, inert ("// ".toList ++ x) = true := fun _ => rfl
  have i2 : ∀ x, inert ("type ".toList ++ x) = false := fun _ => rfl
  have i3 : ∀ x, inert ("\tSpec   ".toList ++ x) = false := fun _ => rfl
  have i4 : ∀ x, inert ("\tStatus ".toList ++ x) = false := fun _ => rfl
  have i5 : ∀ x, inert ("\tItems           []".toList ++ x) = false := fun _ => rfl
  have j1 : inert "\t// INSERT ADDITIONAL SPEC FIELDS -- desired state of cluster".toList = true := rfl
  have j2 : inert "\t// INSERT ADDITIONAL STATUS FIELDS -- observed state of cluster".toList = true := rfl
  have j3 : inert "}".toList = false := rfl
  have j4 : inert ([] : Str) = true := rfl
  have j5 : inert "// It should always be reconstructable from the state of the cluster and/or outside world.".toList =
    true := rfl
  have j6 : inert "// +k8s:deepcopy-gen:interfaces=k8s.io/apimachinery/pkg/runtime.Object".toList = true := rfl
  have j7 : inert "// +genclient".toList = true := rfl
  have j8 : inert "// +genclient:nonNamespaced".toList = true := rfl
  have j9 : inert "// +k8s:openapi-gen=true".toList = true := rfl
  have k1 : inert "\tmetav1.TypeMeta   `json:\",inline\"`".toList = false := rfl
  have k2 : inert "\tmetav1.ObjectMeta `json:\"metadata,omitempty\"`".toList = false := rfl
  have k3 : inert "\tmetav1.TypeMeta `json:\",inline\"`".toList = false := rfl
  have k4 : inert "\tmetav1.ListMeta `json:\"metadata,omitempty\"`".toList = false := rfl
  unfold code
  rw [lines_eq hk hr]
  unfold rows declarations
  cases o.generateClients <;> cases o.resource.namespaced <;>
  simp only [List.filter_append, hh, List.filter_cons, List.filter_nil, List.append_assoc, i1, i2, i3, i4, i5, j1, j2,
    j3, j4, j5, j6, j7, j8, j9, k1, k2, k3, k4, Bool.not_true, Bool.not_false, if_true, Bool.false_eq_true, if_false,
    List.nil_append, List.append_nil, List.cons_append, Bool.and_true, Bool.and_false]

set_option simprocs false in
/-- **C74 (help).** Whatever the options, even if the kind or the resource break lines: the additional help adds no
line of code, and takes none away. -/
theorem C74_help_inert (o : Options) (h : Str) :
    code (scaffold { o with additionalHelp := h }) = code (scaffold { o with additionalHelp := [] }) := by
  have hh : ∀ h, ((helpRows h).flatMap (Text.split '\n')).filter (fun l => !inert l) = [] := by
    intro h
    rw [flatMap_split_id (helpRows_oneLine h), List.filter_eq_nil_iff]
    intro r hr
    rw [helpRows_inert _ r hr]; decide
  unfold code
  rw [lines_scaffold, lines_scaffold]
  unfold rows
  simp only [List.flatMap_append, List.filter_append, hh]

/-- `Between`, of a list of lines. -/
def Has (l : List Str) (a : Str) (m : List Str) (b : Str) : Prop := ∃ pre post, l = pre ++ a :: (m ++ b :: post)

theorem has_here {a b : Str} {m post : List Str} : Has (a :: (m ++ b :: post)) a m b := ⟨[], post, rfl⟩

theorem has_eq {l : List Str} {a b : Str} {m post : List Str} (h : l = a :: (m ++ b :: post)) : Has l a m b :=
  ⟨[], post, h⟩

theorem has_cons {l : List Str} {x a b : Str} {m : List Str} (h : Has l a m b) : Has (x :: l) a m b := by
  obtain ⟨p, q, rfl⟩ := h
  exact ⟨x :: p, q, rfl⟩

theorem has_append {l x : List Str} {a b : Str} {m : List Str} (h : Has l a m b) : Has (x ++ l) a m b := by
  obtain ⟨p, q, rfl⟩ := h
  exact ⟨x ++ p, q, by simp⟩

/-- **C74 (help is shown).** Every line of the help, in order, is a comment in the spec and again in the status:
between the line that asks for fields and the end of the type there is nothing else. -/
theorem C74_help_shown (o : Options) (hk : OneLine o.resource.kind) (hr : OneLine o.resource.resource)
    (hh : o.additionalHelp ≠ []) :
    Between (scaffold o) "\t// INSERT ADDITIONAL SPEC FIELDS -- desired state of cluster".toList
      ((lines o.additionalHelp).map ("\t// ".toList ++ ·)) "}".toList ∧
    Between (scaffold o) "\t// INSERT ADDITIONAL STATUS FIELDS -- observed state of cluster".toList
      ((lines o.additionalHelp).map ("\t// ".toList ++ ·)) "}".toList := by
  have hrows : helpRows o.additionalHelp = (lines o.additionalHelp).map ("\t// ".toList ++ ·) := by
    unfold helpRows lines
    rw [if_neg hh]
  unfold Between
  rw [lines_eq hk hr, ← hrows]
  constructor
  · show Has _ _ _ _
    unfold rows
    simp only [List.append_assoc, List.cons_append, List.nil_append]
    iterate 2 apply has_cons
    exact has_here
  · show Has _ _ _ _
    unfold rows
    simp only [List.append_assoc, List.cons_append, List.nil_append]
    iterate 3 apply has_cons
    apply has_append
    iterate 5 apply has_cons
    exact has_here

/-- The markers that ask for a client, as they are written above the root type. -/
def clientMarkers (o : Options) : List Str :=
  match o.generateClients, o.resource.namespaced with
  | true, true => ["// +genclient".toList]
  | true, false => ["// +genclient".toList, "// +genclient:nonNamespaced".toList]
  | false, _ => []

/-- **C74 (comments of the root type).** Above the root type come, in this order: the marker that makes it a
`runtime.Object`, the markers that ask for a client, a free line, its documentation and the marker for OpenAPI. -/
theorem C74_root (o : Options) (hk : OneLine o.resource.kind) (hr : OneLine o.resource.resource) :
    Between (scaffold o) "// +k8s:deepcopy-gen:interfaces=k8s.io/apimachinery/pkg/runtime.Object".toList
      (clientMarkers o ++
        [[], "// ".toList ++ o.resource.kind ++ " is the Schema for the ".toList ++ o.resource.resource ++ " API".toList,
         "// +k8s:openapi-gen=true".toList])
      ("type ".toList ++ o.resource.kind ++ " struct {".toList) := by
  unfold Between
  rw [lines_eq hk hr]
  show Has _ _ _ _
  unfold rows clientMarkers
  simp only [List.append_assoc, List.cons_append, List.nil_append]
  iterate 3 apply has_cons
  apply has_append
  iterate 6 apply has_cons
  apply has_append
  iterate 2 apply has_cons
  cases hg : o.generateClients <;> cases hn : o.resource.namespaced <;> exact has_eq rfl

/-- **C74 (comments of the list type).** The list too is made a `runtime.Object`, and has no client of its own. -/
theorem C74_list (o : Options) (hk : OneLine o.resource.kind) (hr : OneLine o.resource.resource) :
    Between (scaffold o) "// +k8s:deepcopy-gen:interfaces=k8s.io/apimachinery/pkg/runtime.Object".toList
      ((clientMarkers o).filter (· = "// +genclient:nonNamespaced".toList) ++
        [[], "// ".toList ++ o.resource.kind ++ "List contains a list of ".toList ++ o.resource.kind])
      ("type ".toList ++ o.resource.kind ++ "List struct {".toList) := by
  have hc : (clientMarkers o).filter (· = "// +genclient:nonNamespaced".toList) =
      (if o.generateClients && !o.resource.namespaced then ["// +genclient:nonNamespaced".toList] else []) := by
    unfold clientMarkers
    cases o.generateClients <;> cases o.resource.namespaced <;> rfl
  unfold Between
  rw [lines_eq hk hr, hc]
  show Has _ _ _ _
  unfold rows
  simp only [List.append_assoc, List.cons_append, List.nil_append]
  iterate 3 apply has_cons
  apply has_append
  iterate 6 apply has_cons
  apply has_append
  iterate 3 apply has_cons
  apply has_append
  iterate 11 apply has_cons
  cases hg : o.generateClients <;> cases hn : o.resource.namespaced <;> exact has_eq rfl

/-! ### The check and the program -/

/-- **C74 (check).** A kind is accepted exactly if it is not empty and the inflection library leaves it as it is. -/
theorem C74_valid (f : Inflector) (r : Resource) :
    (validate f r).2 = none ↔ r.kind ≠ [] ∧ f.pascalize r.kind = r.kind := by
  unfold validate
  cases hk : r.kind with
  | nil => simp
  | cons x xs =>
    by_cases hr : r.resource.length = 0 <;> by_cases hp : f.pascalize (x :: xs) = x :: xs
    · simp [hr, hp]
    · simp [hr, hp, Ne.symm hp]
    · simp [hr, hp, hk]
    · simp [hr, hp, hk, Ne.symm hp]

/-- **C74 (default).** The check sets a missing resource to the plural of the kind in lower case, and changes nothing
else: not the kind, not the scope, not a resource that was given. -/
theorem C74_default (f : Inflector) (r : Resource) (h : (validate f r).2 = none) :
    (validate f r).1.kind = r.kind ∧ (validate f r).1.namespaced = r.namespaced ∧
    (validate f r).1.resource = if r.resource = [] then f.pluralize (f.lower r.kind) else r.resource := by
  have hv := (C74_valid f r).1 h
  unfold validate
  rw [if_neg (by simpa using hv.1)]
  cases hr : r.resource with
  | nil => simp [hv.2]
  | cons x xs => simp [hv.2, hr]

/-- **C74 (program).** What the program prints, for the flags it has: nothing but the four types of the kind given, with
the resource given, or by default the plural of the kind. It prints exactly if the kind is given and accepted. -/
theorem C74_main (f : Inflector) (fl : Flags) (s : Str) :
    main f fl = .printed s ↔ ∃ k, fl.kind = some k ∧ k ≠ [] ∧ f.pascalize k = k ∧
      s = scaffold { resource := { namespaced := fl.namespaced.getD true, kind := k, resource :=
                       if fl.resource.getD [] = [] then f.pluralize (f.lower k) else fl.resource.getD [] },
                     additionalHelp := [], generateClients := false } := by
  unfold main
  cases hk : fl.kind with
  | none => simp
  | some k =>
    simp only [Option.some.injEq]
    have hv := C74_valid f { namespaced := fl.namespaced.getD true, kind := k, resource := fl.resource.getD [] }
    have hd := C74_default f { namespaced := fl.namespaced.getD true, kind := k, resource := fl.resource.getD [] }
    revert hv hd
    generalize validate f { namespaced := fl.namespaced.getD true, kind := k, resource := fl.resource.getD [] } = v
    obtain ⟨r, e⟩ := v
    intro hv hd
    cases e with
    | some e =>
      simp only [reduceCtorEq, false_iff, false_iff] at hv ⊢
      rintro ⟨k', rfl, h1, h2, -⟩
      exact hv ⟨h1, h2⟩
    | none =>
      have h1 := hv.1 rfl
      obtain ⟨d1, d2, d3⟩ := hd rfl
      obtain ⟨rn, rk, rr⟩ := r
      simp only at d1 d2 d3 h1
      subst d1 d2 d3
      simp only [Result.printed.injEq]
      constructor
      · rintro rfl
        exact ⟨_, rfl, h1.1, h1.2, rfl⟩
      · rintro ⟨k', rfl, -, -, rfl⟩
        rfl

/-- **C74 (code printed by the program).** If the plural the library makes is one line, then whatever is printed for
flags of one line declares the four types and nothing else. -/
theorem C74_main_code_partial (f : Inflector) (fl : Flags) (s : Str) (h : main f fl = .printed s)
    (hf : ∀ k, OneLine k → OneLine (f.pluralize (f.lower k))) (hk : ∀ k, fl.kind = some k → OneLine k)
    (hr : OneLine (fl.resource.getD [])) : ∃ k, fl.kind = some k ∧ code s = declarations k := by
  obtain ⟨k, h1, -, -, rfl⟩ := (C74_main f fl s).1 h
  refine ⟨k, h1, C74_code _ (hk k h1) ?_⟩
  simp only
  split
  · exact hf k (hk k h1)
  · exact hr

theorem rows_namespaced (r : Resource) (b : Bool) :
    rows { resource := { r with namespaced := b }, additionalHelp := [], generateClients := false } =
      rows { resource := { r with namespaced := true }, additionalHelp := [], generateClients := false } := by
  cases b <;> rfl

/-- **C74 violated (scope).** The flag `--namespaced` has no effect: for every kind and resource the program prints the
same text for a type of the cluster as for a type of a namespace. -/
theorem C74_violated_namespaced (f : Inflector) (k r : Option Str) :
    main f { kind := k, resource := r, namespaced := some false } =
      main f { kind := k, resource := r, namespaced := some true } := by
  cases k with
  | none => rfl
  | some k =>
    have key : ∀ b, main f { kind := some k, resource := r, namespaced := some b } =
        if k.length = 0 then .refused .emptyKind else
        if k ≠ f.pascalize k then .refused (.notCamelCase (f.pascalize k) k) else
        .printed (scaffold { resource := { namespaced := true, kind := k, resource :=
                               if (r.getD []).length = 0 then f.pluralize (f.lower k) else r.getD [] },
                             additionalHelp := [], generateClients := false }) := by
      intro b
      unfold main validate
      simp only [Option.getD_some]
      by_cases h1 : k.length = 0
      · rw [if_pos h1, if_pos h1]
      · rw [if_neg h1, if_neg h1]
        by_cases h2 : (r.getD []).length = 0
        · rw [if_pos h2, if_pos h2]
          by_cases h3 : k ≠ f.pascalize k
          · rw [if_pos h3, if_pos h3]
          · rw [if_neg h3, if_neg h3]
            exact congrArg (fun l => Result.printed (Text.join '\n' l)) (rows_namespaced ⟨true, _, _⟩ b)
        · rw [if_neg h2, if_neg h2]
          by_cases h3 : k ≠ f.pascalize k
          · rw [if_pos h3, if_pos h3]
          · rw [if_neg h3, if_neg h3]
            exact congrArg (fun l => Result.printed (Text.join '\n' l)) (rows_namespaced ⟨true, _, _⟩ b)
    rw [key false, key true]

namespace Example

/-- An inflection library good enough for the examples. -/
def simple : Inflector where
  pluralize := fun s => s ++ "s".toList
  pascalize := id
  lower := fun s => s.map Char.toLower

/-- `type-scaffold --kind Foo`. -/
def foo : Flags := { kind := some "Foo".toList, resource := none, namespaced := none }

/-- What `type-scaffold --kind Foo` prints, as scaffold.go would. -/
example : main simple foo = .printed (Text.join '\n' [
    "// FooSpec defines the desired state of Foo".toList,
    "type FooSpec struct {".toList,
    "\t// INSERT ADDITIONAL SPEC FIELDS -- desired state of cluster".toList,
    "}".toList,
    [],
    "// FooStatus defines the observed state of Foo.".toList,
    "// It should always be reconstructable from the state of the cluster and/or outside world.".toList,
    "type FooStatus struct {".toList,
    "\t// INSERT ADDITIONAL STATUS FIELDS -- observed state of cluster".toList,
    "}".toList,
    [],
    "// +k8s:deepcopy-gen:interfaces=k8s.io/apimachinery/pkg/runtime.Object".toList,
    [],
    "// Foo is the Schema for the foos API".toList,
    "// +k8s:openapi-gen=true".toList,
    "type Foo struct {".toList,
    "\tmetav1.TypeMeta   `json:\",inline\"`".toList,
    "\tmetav1.ObjectMeta `json:\"metadata,omitempty\"`".toList,
    [],
    "\tSpec   FooSpec   `json:\"spec,omitempty\"`".toList,
    "\tStatus FooStatus `json:\"status,omitempty\"`".toList,
    "}".toList,
    [],
    "// +k8s:deepcopy-gen:interfaces=k8s.io/apimachinery/pkg/runtime.Object".toList,
    [],
    "// FooList contains a list of Foo".toList,
    "type FooList struct {".toList,
    "\tmetav1.TypeMeta `json:\",inline\"`".toList,
    "\tmetav1.ListMeta `json:\"metadata,omitempty\"`".toList,
    "\tItems           []Foo `json:\"items\"`".toList,
    "}".toList,
    []]) := by
  decide +kernel

/-- **C74 violated (resource).** The check says nothing about the resource. One with a line break is accepted, and what
follows the break becomes code. -/
theorem C74_violated_resource :
    ∃ s, main simple { foo with resource := some "foos API\nvar Evil = 1 //".toList } = .printed s ∧
      "var Evil = 1 // API".toList ∈ code s := by
  refine ⟨scaffold { resource := { namespaced := true, kind := "Foo".toList,
                                   resource := "foos API\nvar Evil = 1 //".toList },
                     additionalHelp := [], generateClients := false }, ?_, ?_⟩
  · decide +kernel
  · decide +kernel

/-- The hypotheses of the theorems above hold of options with help of two lines and a client for the cluster. -/
def clustered : Options where
  resource := { namespaced := false, kind := "Foo".toList, resource := "foos".toList }
  additionalHelp := "first\nsecond".toList
  generateClients := true

example : OneLine clustered.resource.kind ∧ OneLine clustered.resource.resource ∧ clustered.additionalHelp ≠ [] ∧
    clientMarkers clustered = ["// +genclient".toList, "// +genclient:nonNamespaced".toList] := by
  refine ⟨by unfold OneLine; decide +kernel, by unfold OneLine; decide +kernel, by decide +kernel, by decide +kernel⟩

example : "\t// second".toList ∈ lines (scaffold clustered) := by decide +kernel

end Example

end Verif.Scaffold
