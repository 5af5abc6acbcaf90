import Verif.Crd.FlatSem

/-! # C27, C50, C51: references are resolved -/
namespace Verif.Crd
open Spec

/-- C27.  Flattening terminates, for all type graphs, recursive ones included: there is a depth of recursion that is never exceeded (a greater limit makes no difference), and
`flattenSchema` has that depth at its disposal. -/
theorem C27_terminates (env : Env) (σ : Sched) (s : Schema) (pkg : String) (st : FState) :
    flattenSchema env σ s pkg st ≠ .error .deep ∧ ∀ n ≥ env.bound s, walkRefs env σ n pkg s.base.ref.toList s st = flattenSchema env σ s pkg st :=
  ⟨bound_enough env σ pkg _ s st, fun _ hn => walkRefs_mono env σ hn (bound_enough env σ pkg _ s st)⟩

/-- C27 (partial).  If all types that are referred to are known, then each of a sequence of types flattened one after the other gets a schema without references at any depth, and no error is
reported; the graph of types may be recursive.  Missing: chains of types that are references to each other with the same link text twice, where it is false (`C27_violated`), and references
with further references below them, which the generator never emits. -/
theorem C27_no_references_partial (env : Env) (σ : Sched) (ids : List TypeIdent) (h : ∀ id ∈ ids, ∃ s, env.raw id = some s ∧ Good env id.pkg s) :
    ∃ ts st, flattenTypes env σ ids {} = .ok (ts, st) ∧ (∀ o ∈ ts, ∃ t, o = some t ∧ NoRef t) ∧ ts.length = ids.length ∧ st.errs = 0 := by
  obtain ⟨ts, st, h1, h2, h3, -, h4⟩ := flattenTypes_noRef env σ ids {} h nofun
  exact ⟨ts, st, h1, h2, h3, h4⟩

/-- C27.  Only the references themselves are a reason for a panic: if the imports of all packages are known, there is none. -/
theorem C27_no_panic (env : Env) (σ : Sched) (hi : ∀ r q, env.find r q ≠ .nilPkg) (s : Schema) (pkg : String) (st : FState) :
    ∃ s' st', flattenSchema env σ s pkg st = .ok (s', st') := by
  have key : ∀ n pkg seen s st, Res (fun _ _ => True) (· = .deep) (walkRefs env σ n pkg seen s st) := by
    intro n
    induction n with
    | zero => intro pkg seen s st; exact rfl
    | succ n ih =>
      intro pkg seen s st
      have kids : ∀ q t st, Res (fun _ _ => True) (· = .deep) (walkKids σ (fun c => walkRefs env σ n q c.base.ref.toList c) t st) := fun q t st =>
        (walkKids_ok (P := fun _ => True) (Q := fun _ _ => True) t st trivial (fun p c st' _ _ => (ih q _ c st').imp (fun _ _ _ => ⟨trivial, trivial⟩) (fun _ h => h))).imp
          (fun _ _ _ => trivial) (fun _ h => h)
      have fin : ∀ (res : FRes) (id : TypeIdent), Res (fun _ _ => True) (· = .deep) res →
          Res (fun _ _ => True) (· = .deep) (match res with
            | .error e => (.error e : FRes)
            | .ok (t, st2) => .ok (preserveFields t s, { st2 with cache := GoMap.put st2.cache id t })) := by
        intro res id h
        cases res with
        | error e => exact h
        | ok x => exact trivial
      rw [walkRefs]
      cases s.refOf with
      | none => exact kids pkg s st
      | some r =>
        simp only
        cases hfd : env.find r pkg with
        | bad => trivial
        | nilPkg => exact absurd hfd (hi r pkg)
        | ok id =>
          simp only
          cases GoMap.get st.cache id with
          | some c => trivial
          | none =>
            simp only
            cases env.raw id with
            | none => trivial
            | some rs =>
              apply fin
              cases rs.refOf with
              | none => exact kids ..
              | some r' =>
                simp only
                split
                · exact kids ..
                · exact ih ..
  have h := key (env.bound s) pkg s.base.ref.toList s st
  have hb := bound_enough env σ pkg s.base.ref.toList s st
  unfold flattenSchema
  cases hx : walkRefs env σ (env.bound s) pkg s.base.ref.toList s st with
  | error e =>
    rw [hx] at h hb
    obtain rfl : e = .deep := h
    exact absurd rfl hb
  | ok r => exact ⟨r.1, r.2, rfl⟩

/-- C50 (partial).  The flattened schema of a type that does not lead to a recursive type depends neither on the order in which maps are iterated nor on the types that have been flattened before.
Missing: recursive types, where it is false (`C50_violated`), and what is missing in `C27_no_references_partial`. -/
theorem C50_deterministic_partial (env : Env) (σ σ' : Sched) (ids ids' : List TypeIdent) (h : ∀ id ∈ ids ++ ids', ∃ s, env.raw id = some s ∧ Good env id.pkg s)
    (id : TypeIdent) (s : Schema) (hr : env.raw id = some s) (hg : Good env id.pkg s) (hac : AcyclicFrom env id.pkg s) (hk : AllKeys env id.pkg s) :
    ∃ ts st u ts' st' u' t, flattenTypes env σ ids {} = .ok (ts, st) ∧ flattenType env σ id st = .ok (some t, u) ∧
      flattenTypes env σ' ids' {} = .ok (ts', st') ∧ flattenType env σ' id st' = .ok (some t, u') := by
  obtain ⟨ts, st, h1, -, -, h2, -⟩ := flattenTypes_noRef env σ ids {} (fun i hi => h i (List.mem_append_left _ hi)) nofun
  obtain ⟨ts', st', h1', -, -, h2', -⟩ := flattenTypes_noRef env σ' ids' {} (fun i hi => h i (List.mem_append_right _ hi)) nofun
  have hx := (flattenTypes_expand env σ ids {} st ts (fun i hi => h i (List.mem_append_left _ hi)) nofun nofun h1).1
  have hx' := (flattenTypes_expand env σ' ids' {} st' ts' (fun i hi => h i (List.mem_append_right _ hi)) nofun nofun h1').1
  obtain ⟨t, u, e, -⟩ := flattenType_noRef env σ hr hg h2
  obtain ⟨t', u', e', -⟩ := flattenType_noRef env σ' hr hg h2'
  have y := (flattenType_expand env σ hr hg hx e).2 hac
  have y' := (flattenType_expand env σ' hr hg hx' e').2 hac
  obtain rfl := expand_unique y t' hk y'
  exact ⟨ts, st, u, ts', st', u', t', h1, e, h1', e'⟩

/-- C51 (partial).  The flattened schema of a type accepts exactly the values that satisfy the schema of the type, where a reference means that the type referred to must accept the value and the
keywords beside the reference apply as well.  Missing: recursive types, for which only one direction holds (`C51_recursive_partial`, `C51_violated`). -/
theorem C51_meaning_partial (M : Meaning) (env : Env) (V : String → Schema → Json → Prop) (hV : RefMeaning M env V) (σ : Sched) (ids : List TypeIdent)
    (h : ∀ id ∈ ids, ∃ s, env.raw id = some s ∧ Good env id.pkg s)
    (id : TypeIdent) (s : Schema) (hr : env.raw id = some s) (hg : Good env id.pkg s) (hac : AcyclicFrom env id.pkg s) (hk : AllKeys env id.pkg s) :
    ∃ ts st t u, flattenTypes env σ ids {} = .ok (ts, st) ∧ flattenType env σ id st = .ok (some t, u) ∧ ∀ j, Valid M t j ↔ V id.pkg s j := by
  obtain ⟨ts, st, h1, -, -, h2, -⟩ := flattenTypes_noRef env σ ids {} h nofun
  have hx := (flattenTypes_expand env σ ids {} st ts h nofun nofun h1).1
  obtain ⟨t, u, e, -⟩ := flattenType_noRef env σ hr hg h2
  exact ⟨ts, st, t, u, h1, e, expand_meaning hV ((flattenType_expand env σ hr hg hx e).2 hac) hk⟩

/-- C51.  The hypothesis on `V` can be met: when no type refers to itself, schemas with references have a meaning. -/
theorem C51_meaning_exists (M : Meaning) (env : Env) (hac : Acyclic env) : ∃ V, RefMeaning M env V := refMeaning_exists M hac

/-- C51.  The links of the generator are read as intended: a link without a package means a type of the package that contains it, a link with a package path means a type of the package that is
imported under this path. -/
theorem C51_links (env : Env) (pkg path q name : String) (hn : '~' ∉ name.toList) (hp : '~' ∉ path.toList) (hne : path ≠ "") (hi : env.imports pkg path = some q) :
    env.find (String.ofList (typeRefLink [] name.toList)) pkg = .ok ⟨pkg, name⟩ ∧ env.find (String.ofList (typeRefLink path.toList name.toList)) pkg = .ok ⟨q, name⟩ := by
  constructor
  · unfold Env.find
    rw [String.toList_ofList, refParts_link hn (by simp)]
    simp
  · unfold Env.find
    rw [String.toList_ofList, refParts_link hn hp]
    cases hpl : path.toList with
    | nil => exact absurd (String.toList_eq_nil_iff.1 hpl) hne
    | cons c l =>
      simp only [← hpl, String.ofList_toList, hi]

theorem expand_doc {env : Env} {α : Type} [DecidableEq α] (f : Base → α) (zero : α) (hf : ∀ a b : Schema, f (preserveFields a b).base = orDoc zero (f b.base) (f a.base))
    {q : String} {s t : Schema} (h : Expand env q s t) : Doc env f zero q s (f t.base) := by
  induction h with
  | plain g hr hfr _ _ _ => rw [hfr.base]; exact .own (.inr hr)
  | @ref q s r id u t hr hl _ _ ih =>
    rw [hf]
    unfold orDoc
    by_cases h0 : f s.base = zero
    · rw [if_neg (by simpa using h0)]; exact .type h0 hr hl ih
    · rw [if_pos h0]; exact .own (.inl h0)

theorem expand_at {env : Env} : ∀ (p : List Step) {q : String} {s t c : Schema}, Expand env q s t → s.at p = some c → (∀ p' x, p' <+: p → p' ≠ p → s.at p' = some x → x.base.ref = none) →
    ∃ c', t.at p = some c' ∧ Expand env q c c' := by
  intro p
  induction p with
  | nil => intro q s t c h hc _; cases hc; exact ⟨t, rfl, h⟩
  | cons x p ih =>
    intro q s t c h hc hp
    have hr : s.base.ref = none := hp [] s (by simp) (by simp) rfl
    cases h with
    | ref hr' => rw [hr] at hr'; cases hr'
    | plain g _ hfr hch he =>
      rw [Schema.at] at hc
      cases hx : s.child x with
      | none => rw [hx] at hc; cases hc
      | some d =>
        rw [hx] at hc
        obtain ⟨c', h1, h2⟩ := ih (he x d hx) hc (fun p' y h1 h2 h3 => hp (x :: p') y (by simpa using h1) (by simpa using h2) (by rw [Schema.at, hx]; exact h3))
        refine ⟨c', ?_, h2⟩
        rw [Schema.at, hch, hx]; exact h1

/-- C52 (partial).  In the flattened schema of a type, each field has its own description, title, external documentation and example or, where it has none, those of its type.  Missing: recursive types, where it holds for the field's own documentation only (`C52_own_partial`, `C52_violated`). -/
theorem C52_documentation_partial (env : Env) (σ : Sched) (ids : List TypeIdent) (h : ∀ id ∈ ids, ∃ s, env.raw id = some s ∧ Good env id.pkg s)
    (id : TypeIdent) (s : Schema) (hr : env.raw id = some s) (hg : Good env id.pkg s) (hac : AcyclicFrom env id.pkg s) :
    ∃ ts st t u, flattenTypes env σ ids {} = .ok (ts, st) ∧ flattenType env σ id st = .ok (some t, u) ∧
      ∀ p c, s.at p = some c → (∀ p' x, p' <+: p → p' ≠ p → s.at p' = some x → x.base.ref = none) →
        ∃ c', t.at p = some c' ∧ Doc env (·.description) [] id.pkg c c'.base.description ∧ Doc env (·.title) "" id.pkg c c'.base.title ∧
          Doc env (·.externalDocs) none id.pkg c c'.base.externalDocs ∧ Doc env (·.example_) none id.pkg c c'.base.example_ := by
  obtain ⟨ts, st, h1, -, -, h2, -⟩ := flattenTypes_noRef env σ ids {} h nofun
  have hx := (flattenTypes_expand env σ ids {} st ts h nofun nofun h1).1
  obtain ⟨t, u, e, -⟩ := flattenType_noRef env σ hr hg h2
  refine ⟨ts, st, t, u, h1, e, fun p c hc hp => ?_⟩
  obtain ⟨c', ha, hE⟩ := expand_at p ((flattenType_expand env σ hr hg hx e).2 hac) hc hp
  exact ⟨c', ha, expand_doc _ _ (fun _ _ => rfl) hE, expand_doc _ _ (fun _ _ => rfl) hE, expand_doc _ _ (fun _ _ => rfl) hE, expand_doc _ _ (fun _ _ => rfl) hE⟩

/-! ## Deciding the hypotheses for a concrete environment -/

/-- The schemas directly below. -/
def Schema.kids (s : Schema) : List Schema :=
  s.items.elim [] (fun i => i.schema.toList ++ i.arr) ++ s.allOf ++ s.oneOf ++ s.anyOf ++ s.not.toList ++ s.properties.map (·.2) ++
  s.additionalProperties.elim [] (·.schema.toList) ++ s.patternProperties.map (·.2) ++ s.dependencies.flatMap (·.2.schema.toList) ++
  s.additionalItems.elim [] (·.schema.toList) ++ s.definitions.map (·.2)

theorem mem_kids {s c : Schema} (h : Child s c) : c ∈ s.kids := by
  unfold Schema.kids
  simp only [List.mem_append, List.mem_map, List.mem_flatMap]
  cases h with
  | items h1 h2 => simp [h1, h2]
  | itemsArr h1 h2 => simp [h1, h2]
  | allOf h => simp [h]
  | oneOf h => simp [h]
  | anyOf h => simp [h]
  | not h => simp [h]
  | property h => simp only [or_assoc]; iterate 5 right
                  left; exact ⟨_, h, rfl⟩
  | additionalProperties h1 h2 => simp [h1, h2]
  | patternProperty h => simp only [or_assoc]; iterate 7 right
                         left; exact ⟨_, h, rfl⟩
  | dependency h1 h2 => simp only [or_assoc]; iterate 8 right
                        left; exact ⟨_, h1, by simp [h2]⟩
  | additionalItems h1 h2 => simp [h1, h2]
  | definition h => right; exact ⟨_, h, rfl⟩

/-- The nodes one step further. -/
def Env.next (env : Env) (n : String × Schema) : List (String × Schema) :=
  n.2.kids.map (fun c => (n.1, c)) ++
    match n.2.base.ref with
    | none => []
    | some r =>
      match env.find r n.1 with
      | .ok id => (env.raw id).toList.map fun u => (id.pkg, u)
      | _ => []

theorem reach_in {env : Env} {pkg : String} {s : Schema} {L : List (String × Schema)} (h0 : (pkg, s) ∈ L) (hL : ∀ n ∈ L, ∀ n' ∈ env.next n, n' ∈ L) {q : String} {t : Schema}
    (h : Reach env pkg s q t) : (q, t) ∈ L := by
  induction h with
  | refl => exact h0
  | child _ hc ih => exact hL _ ih _ (List.mem_append_left _ (List.mem_map.2 ⟨_, mem_kids hc, rfl⟩))
  | @ref q t r id u _ hr hl ih =>
    apply hL _ ih
    apply List.mem_append_right
    simp only [hr, hl.1, hl.2]
    simp

theorem closed_of {env : Env} {pkg : String} {s : Schema} {L : List (String × Schema)} (h0 : (pkg, s) ∈ L) (hL : ∀ n ∈ L, ∀ n' ∈ env.next n, n' ∈ L)
    (hc : ∀ n ∈ L, ∀ r ∈ n.2.base.ref.toList, r ≠ "" ∧ (match env.find r n.1 with | .ok id => (env.raw id).isSome | _ => false) = true) : Closed env pkg s := by
  intro q t r h hr
  have := hc _ (reach_in h0 hL h) r (by simp [hr])
  refine ⟨this.1, ?_⟩
  have h2 := this.2
  simp only at h2
  cases hf : env.find r q with
  | bad => rw [hf] at h2; simp at h2
  | nilPkg => rw [hf] at h2; simp at h2
  | ok id =>
    rw [hf] at h2
    simp only at h2
    cases hu : env.raw id with
    | none => rw [hu] at h2; simp at h2
    | some u => exact ⟨id, u, hf, hu⟩

theorem keys_of {env : Env} {pkg : String} {s : Schema} {L : List (String × Schema)} (h0 : (pkg, s) ∈ L) (hL : ∀ n ∈ L, ∀ n' ∈ env.next n, n' ∈ L)
    (hc : ∀ n ∈ L, (n.2.properties.map (·.1)).Nodup ∧ (n.2.patternProperties.map (·.1)).Nodup ∧ (n.2.dependencies.map (·.1)).Nodup ∧ (n.2.definitions.map (·.1)).Nodup) :
    AllKeys env pkg s := fun q t h => have := hc _ (reach_in h0 hL h); ⟨this.1, this.2.1, this.2.2.1, this.2.2.2⟩

theorem bare_of {env : Env} {pkg : String} {s : Schema} {L : List (String × Schema)} (h0 : (pkg, s) ∈ L) (hL : ∀ n ∈ L, ∀ n' ∈ env.next n, n' ∈ L)
    (hc : ∀ n ∈ L, n.2.base.ref.isSome → n.2.kids = []) : Bare env pkg s := by
  intro q t r c h hr hch
  have := hc _ (reach_in h0 hL h) (by simp [hr])
  have hm := mem_kids hch
  rw [this] at hm; cases hm

/-- The links of the chain of references, as far as it is no longer than the given length. -/
def Env.links (env : Env) : Nat → String × Schema → List String
  | 0, _ => []
  | n + 1, x =>
    match x.2.base.ref with
    | none => []
    | some r =>
      r :: match env.find r x.1 with
        | .ok id =>
          match env.raw id with
          | some u => env.links n (id.pkg, u)
          | none => []
        | _ => []

theorem links_chain {env : Env} {q : String} {t : Schema} {rs : List String} (h : Chain env q t rs) : ∀ n, (rs.take n) <+: env.links n (q, t) := by
  induction h with
  | @one q t r hr =>
    intro n
    cases n with
    | zero => simp
    | succ n => rw [Env.links]; simp only [hr]; simp
  | @cons q t r id u rs hr hl _ ih =>
    intro n
    cases n with
    | zero => simp
    | succ n => rw [Env.links]; simp only [hr, hl.1, hl.2]; simpa using ih n

theorem distinct_of {env : Env} {pkg : String} {s : Schema} {L : List (String × Schema)} (n : Nat) (h0 : (pkg, s) ∈ L) (hL : ∀ n ∈ L, ∀ n' ∈ env.next n, n' ∈ L)
    (hc : ∀ x ∈ L, (env.links (n + 1) x).length ≤ n ∧ (env.links (n + 1) x).Nodup) : Distinct env pkg s := by
  intro q t rs h hch
  have hx := hc _ (reach_in h0 hL h)
  have hp := links_chain hch (n + 1)
  have hlen := hp.length_le
  have : rs.length ≤ n := by
    rw [List.length_take] at hlen; omega
  rw [List.take_of_length_le (by omega)] at hp
  exact hx.2.sublist hp.sublist

/-! ## Concrete environments -/

private def str (ref : String) : Schema := .leaf { ref := some ref }
private def obj (ps : List (String × Schema)) : Schema := .mk { type := "object" } none [] [] [] none ps none [] [] none []

/-- Package `v1` has `type A v2.B` and a struct with a field of type `A`; package `v2` has `type A string` and `type B A`. -/
private def clash : Env where
  imports := fun p i => if p = "v1" ∧ i = "v2" then some "v2" else none
  schemata := [(⟨"v1", "R"⟩, obj [("a", str "#/definitions/A")]), (⟨"v1", "A"⟩, str "#/definitions/v2~0B"), (⟨"v2", "B"⟩, str "#/definitions/A"),
    (⟨"v2", "A"⟩, .leaf { type := "string" })]

private def clashNodes : List (String × Schema) :=
  [("v1", obj [("a", str "#/definitions/A")]), ("v1", str "#/definitions/A"), ("v1", str "#/definitions/v2~0B"), ("v2", str "#/definitions/A"), ("v2", .leaf { type := "string" })]

/-- The schema at a path of the flattened type. -/
private def got (env : Env) (σ : Sched) (id : TypeIdent) (p : List Step) : Option Schema :=
  match flattenType env σ id {} with
  | .ok (some t, _) => t.at p
  | _ => none

/-- C27 is violated: all types are known, but a reference is left, which moreover means another type (`v1.A`) in the place where it is found. -/
theorem C27_violated : (∃ s, clash.raw ⟨"v1", "R"⟩ = some s ∧ Closed clash "v1" s ∧ Bare clash "v1" s) ∧
    (got clash .fifo ⟨"v1", "R"⟩ [.property "a", .allOf 0, .allOf 0]).bind (·.base.ref) = some "#/definitions/A" := by
  refine ⟨⟨_, rfl, closed_of (L := clashNodes) (by decide +kernel) (by decide +kernel) (by decide +kernel), bare_of (L := clashNodes) (by decide +kernel) (by decide +kernel) (by decide +kernel)⟩, ?_⟩
  decide +kernel

/-- Two types that refer to each other, and a third one that refers to both. -/
private def mutualEnv : Env where
  imports := fun _ _ => none
  schemata := [(⟨"v1", "R"⟩, obj [("a", str "#/definitions/A"), ("b", str "#/definitions/B")]), (⟨"v1", "A"⟩, obj [("b", str "#/definitions/B")]),
    (⟨"v1", "B"⟩, obj [("a", str "#/definitions/A")])]

private def mutualNodes : List (String × Schema) :=
  [("v1", obj [("a", str "#/definitions/A"), ("b", str "#/definitions/B")]), ("v1", str "#/definitions/A"), ("v1", str "#/definitions/B"), ("v1", obj [("b", str "#/definitions/B")]),
   ("v1", obj [("a", str "#/definitions/A")])]

private theorem mutualGood : Good mutualEnv "v1" (obj [("a", str "#/definitions/A"), ("b", str "#/definitions/B")]) :=
  ⟨closed_of (L := mutualNodes) (by decide +kernel) (by decide +kernel) (by decide +kernel), bare_of (L := mutualNodes) (by decide +kernel) (by decide +kernel) (by decide +kernel),
   distinct_of 1 (L := mutualNodes) (by decide +kernel) (by decide +kernel) (by decide +kernel)⟩

/-- C50 is violated: for recursive types the result depends on the order of map iteration. -/
theorem C50_violated : Good mutualEnv "v1" (obj [("a", str "#/definitions/A"), ("b", str "#/definitions/B")]) ∧
    got mutualEnv .fifo ⟨"v1", "R"⟩ [] ≠ none ∧ got mutualEnv .lifo ⟨"v1", "R"⟩ [] ≠ none ∧
    got mutualEnv .fifo ⟨"v1", "R"⟩ [] ≠ got mutualEnv .lifo ⟨"v1", "R"⟩ [] := by
  refine ⟨mutualGood, ?_, ?_, ?_⟩ <;> decide +kernel

/-- C27, nontrivial case: mutually recursive types meet the hypotheses. -/
example : ∀ id ∈ [(⟨"v1", "R"⟩ : TypeIdent)], ∃ s, mutualEnv.raw id = some s ∧ Good mutualEnv id.pkg s := by
  intro id hid
  rw [List.mem_singleton] at hid; subst hid
  exact ⟨_, rfl, mutualGood⟩

/-- Two packages, a chain of references (`type Alias v2.Name`) and a field with a keyword of its own. -/
private def plainEnv : Env where
  imports := fun p i => if p = "v1" ∧ i = "v2" then some "v2" else none
  schemata := [(⟨"v1", "R"⟩, obj [("x", .leaf { ref := some "#/definitions/Alias", maxLength := some 10 })]), (⟨"v1", "Alias"⟩, str "#/definitions/v2~0Name"), (⟨"v2", "Name"⟩, .leaf { type := "string" })]

private def plainNodes : List (String × Schema) :=
  [("v1", obj [("x", .leaf { ref := some "#/definitions/Alias", maxLength := some 10 })]), ("v1", .leaf { ref := some "#/definitions/Alias", maxLength := some 10 }),
   ("v1", str "#/definitions/v2~0Name"), ("v2", .leaf { type := "string" })]

/-- A position in an order of the nodes that references follow downwards. -/
private def plainRank : String × Schema → Nat
  | x => if x = ("v2", .leaf { type := "string" }) then 0 else if x = ("v1", str "#/definitions/v2~0Name") then 1 else
    if x = ("v1", .leaf { ref := some "#/definitions/Alias", maxLength := some 10 }) then 2 else 3

private theorem plainReach {q q' : String} {t t' : Schema} (h0 : (q, t) ∈ plainNodes) (h : Reach plainEnv q t q' t') : (q', t') ∈ plainNodes ∧ plainRank (q', t') ≤ plainRank (q, t) := by
  have step : ∀ n ∈ plainNodes, ∀ n' ∈ plainEnv.next n, n' ∈ plainNodes ∧ plainRank n' < plainRank n := by decide +kernel
  have h2 : ∀ {q' t'}, Reach plainEnv q t q' t' → (q', t') ∈ plainNodes ∧ plainRank (q', t') ≤ plainRank (q, t) := by
    intro q' t' h
    induction h with
    | refl => exact ⟨h0, Nat.le_refl _⟩
    | child _ hc ih =>
      have := step _ ih.1 _ (List.mem_append_left _ (List.mem_map.2 ⟨_, mem_kids hc, rfl⟩))
      exact ⟨this.1, Nat.le_trans (Nat.le_of_lt this.2) ih.2⟩
    | @ref q t r id u _ hr hl ih =>
      have := step _ ih.1 (id.pkg, u) (by
        apply List.mem_append_right
        simp only [hr, hl.1, hl.2]
        simp)
      exact ⟨this.1, Nat.le_trans (Nat.le_of_lt this.2) ih.2⟩
  exact h2 h

/-- C50, C51, nontrivial case: all hypotheses are met. -/
example : ∃ s, plainEnv.raw ⟨"v1", "R"⟩ = some s ∧ Good plainEnv "v1" s ∧ AcyclicFrom plainEnv "v1" s ∧ AllKeys plainEnv "v1" s := by
  refine ⟨_, rfl, ⟨closed_of (L := plainNodes) (by decide +kernel) (by decide +kernel) (by decide +kernel), bare_of (L := plainNodes) (by decide +kernel) (by decide +kernel) (by decide +kernel),
    distinct_of 2 (L := plainNodes) (by decide +kernel) (by decide +kernel) (by decide +kernel)⟩, ?_, keys_of (L := plainNodes) (by decide +kernel) (by decide +kernel) (by decide +kernel)⟩
  intro q t r id u h hr hl q' t' r' h' hr' hf
  have hn := (plainReach (q := "v1") (by decide +kernel) h).1
  have step : ∀ n ∈ plainNodes, ∀ n' ∈ plainEnv.next n, n' ∈ plainNodes ∧ plainRank n' < plainRank n := by decide +kernel
  have h1 := step _ hn (id.pkg, u) (by
        apply List.mem_append_right
        simp only [hr, hl.1, hl.2]
        simp)
  have h2 := plainReach h1.1 h'
  have h3 := step _ h2.1 (id.pkg, u) (by
        apply List.mem_append_right
        simp only [hr', hf, hl.2]
        simp)
  omega

example : got plainEnv .fifo ⟨"v1", "R"⟩ [.property "x"] = some (.mk {} none [.mk {} none [.leaf { type := "string" }, .empty] [] [] none [] none [] [] none [], .leaf { maxLength := some 10 }]
    [] [] none [] none [] [] none []) := by decide +kernel

end Verif.Crd
