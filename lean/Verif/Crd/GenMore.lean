import Verif.Crd.GenTheorems

/-!
# C54, C57: crashes, and markers of declarations; violations of C30, C31, C54 and C57
-/
namespace Verif.Crd
open Spec

theorem inner_error (P : PkgCtx) (e : TExpr) (st : GState) : (∃ p, innerType P e st = .error p) ↔ Troublesome P e := by
  induction e generalizing st with
  | ident n =>
    rw [innerType, localNamed_eq]
    have hobj : ∀ pkg name, (∃ p, objToSchema P pkg name st = .error p) ↔ pkg = none := by
      intro pkg name
      unfold objToSchema
      cases pkg <;> simp
    have hbas : ∀ b, ¬ ∃ p, basicSchema P n st b = .error p := by
      rintro b ⟨p, h⟩
      unfold basicSchema at h
      simp only at h
      split at h <;> cases h
    cases hn : P.ident n with
    | invalid => exact ⟨fun ⟨p, h⟩ => (by cases h), fun h => (by cases h <;> simp_all)⟩
    | basic b => exact ⟨fun h => absurd h (hbas b), fun h => (by cases h <;> simp_all)⟩
    | other => exact ⟨fun _ => .here (.inl hn), fun _ => ⟨_, rfl⟩⟩
    | named pkg name u =>
      simp only
      rw [hobj]
      constructor
      · rintro rfl; exact .here (.inr ⟨_, _, hn⟩)
      · intro h
        cases h with
        | here h =>
          rw [hn] at h
          rcases h with h | ⟨m, u, h⟩
          · cases h
          · cases h; rfl
        | alias h => rw [hn] at h; cases h
    | alias p a r =>
      have back : Troublesome P (.ident n) → Nameless r := by
        intro h
        cases h with
        | here h =>
          rw [hn] at h
          rcases h with h | ⟨m, u, h⟩ <;> cases h
        | alias h h' => rw [hn] at h; cases h; exact h'
      cases r with
      | invalid => exact ⟨fun ⟨p, h⟩ => (by cases h), fun h => (back h).elim⟩
      | basic b => exact ⟨fun h => absurd h (hbas b), fun h => (back h).elim⟩
      | other => exact ⟨fun _ => .alias hn trivial, fun _ => ⟨_, rfl⟩⟩
      | named pkg name u =>
        simp only
        rw [hobj]
        constructor
        · rintro rfl; exact .alias hn trivial
        · intro h
          have := back h
          cases pkg with
          | none => rfl
          | some _ => exact this.elim
      | alias pkg name u =>
        simp only
        rw [hobj]
        constructor
        · rintro rfl; exact .alias hn trivial
        · intro h
          have := back h
          cases pkg with
          | none => rfl
          | some _ => exact this.elim
  | selector x n =>
    rw [innerType]
    unfold namedToSchema
    simp only
    have back : Troublesome P (.selector x n) → Nameless (P.sel x n) ∨ ∃ b, P.sel x n = .basic b := by
      intro h; cases h; assumption
    cases hn : P.sel x n with
    | invalid => exact ⟨fun ⟨p, h⟩ => (by cases h), fun h => (by have := back h; rw [hn] at this; rcases this with h | ⟨b, h⟩; exact h.elim; cases h)⟩
    | basic b => exact ⟨fun _ => .there (.inr ⟨b, hn⟩), fun _ => ⟨_, rfl⟩⟩
    | other => exact ⟨fun _ => .there (.inl (by rw [hn]; trivial)), fun _ => ⟨_, rfl⟩⟩
    | named pkg name u =>
      cases pkg with
      | none => exact ⟨fun _ => .there (.inl (by rw [hn]; trivial)), fun _ => ⟨_, rfl⟩⟩
      | some q => exact ⟨fun ⟨p, h⟩ => (by cases h), fun h => (by have := back h; rw [hn] at this; rcases this with h | ⟨b, h⟩; exact h.elim; cases h)⟩
    | alias pkg name u =>
      cases pkg with
      | none => exact ⟨fun _ => .there (.inl (by rw [hn]; trivial)), fun _ => ⟨_, rfl⟩⟩
      | some q => exact ⟨fun ⟨p, h⟩ => (by cases h), fun h => (by have := back h; rw [hn] at this; rcases this with h | ⟨b, h⟩; exact h.elim; cases h)⟩
  | array len e ih =>
    rw [innerType]
    by_cases hb : typeOf P e = .basic byteType ∧ len = false
    · rw [if_pos hb]
      exact ⟨fun ⟨p, h⟩ => (by cases h), fun h => (by cases h with | array h1 h2 => exact absurd hb.1 (h2 hb.2))⟩
    · rw [if_neg hb]
      have hb' : len = false → typeOf P e ≠ .basic ⟨.uint8, "byte"⟩ := fun hl ht => hb ⟨ht, hl⟩
      constructor
      · rintro ⟨p, h⟩
        split at h
        · rename_i heq; exact .array ((ih st).1 ⟨_, heq⟩) hb'
        · cases h
      · intro h
        cases h with
        | array h1 h2 =>
          obtain ⟨p, hp⟩ := (ih st).2 h1
          rw [hp]; exact ⟨p, rfl⟩
  | map k v _ ih =>
    rw [innerType]
    by_cases hk : keyOk (typeOf P k) = false
    · rw [if_pos hk]
      exact ⟨fun ⟨p, h⟩ => (by cases h), fun h => (by cases h with | map h1 h2 h3 => rw [keyOk_iff.2 h1] at hk; cases hk)⟩
    · rw [if_neg hk]
      rw [Bool.not_eq_false] at hk
      by_cases hv : mapValueOk v = false
      · rw [if_pos hv]
        refine ⟨fun ⟨p, h⟩ => (by cases h), fun h => ?_⟩
        cases h with
        | map h1 h2 h3 => cases h3 <;> first | exact absurd rfl h2 | cases hv
      · rw [if_neg hv]
        constructor
        · rintro ⟨p, h⟩
          split at h
          · rename_i heq
            exact .map (keyOk_iff.1 hk) (by rintro rfl; exact hv rfl) ((ih st).1 ⟨_, heq⟩)
          · cases h
        · intro h
          cases h with
          | map h1 h2 h3 =>
            obtain ⟨p, hp⟩ := (ih st).2 h3
            rw [hp]; exact ⟨p, rfl⟩
  | star e ih => rw [innerType, ih]; exact ⟨.pointer, fun h => by cases h; assumption⟩
  | struct => exact ⟨fun _ => .struct, fun _ => ⟨_, rfl⟩⟩
  | other => exact ⟨fun ⟨p, h⟩ => (by cases h), nofun⟩

theorem field_error {marshal : AnyVal → Option Raw} {σ : Nat → Sched} {P : PkgCtx} {f : Field} {st : GState} :
    (∃ p, fieldSchema marshal σ P f st = .error p) ↔ ¬ Marked f.markers "kubebuilder:validation:Schemaless" ∧ Troublesome P f.type := by
  unfold fieldSchema
  simp only
  by_cases hm : f.markers.has "kubebuilder:validation:Schemaless" = true
  · rw [if_pos hm]
    exact ⟨fun ⟨p, h⟩ => (by cases h), fun h => absurd (has_iff.1 hm) h.1⟩
  · rw [if_neg hm, ← inner_error P f.type st]
    have hm' : ¬ Marked f.markers "kubebuilder:validation:Schemaless" := fun h => hm (has_iff.2 h)
    constructor
    · rintro ⟨p, h⟩
      split at h
      · rename_i heq; exact ⟨hm', _, heq⟩
      · cases h
    · rintro ⟨-, p, h⟩
      rw [h]; exact ⟨p, rfl⟩

theorem structFields_error (marshal : AnyVal → Option Raw) (σ : Nat → Sched) (P : PkgCtx) : ∀ (fs : List Field) (req : List String) (props : List (String × Schema)) (all : List Schema) (st : GState),
    (∃ p, structFields marshal σ P fs req props all st = .error p) ↔
      ∃ f ∈ fs, (included P f).isSome ∧ ¬ Marked f.markers "kubebuilder:validation:Schemaless" ∧ Troublesome P f.type := by
  intro fs
  induction fs with
  | nil => intro req props all st; simp [structFields]
  | cons f fs ih =>
    intro req props all st
    rw [structFields_cons]
    cases hi : included P f with
    | none => simp only; rw [ih]; simp [hi]
    | some o =>
      simp only
      cases hf : fieldSchema marshal σ P f st with
      | error p =>
        have := field_error.1 ⟨p, hf⟩
        exact ⟨fun _ => ⟨f, List.mem_cons_self .., by simp [hi], this⟩, fun _ => ⟨p, rfl⟩⟩
      | ok x =>
        obtain ⟨s, st1⟩ := x
        simp only
        rw [ih]
        have hno : ¬ (¬ Marked f.markers "kubebuilder:validation:Schemaless" ∧ Troublesome P f.type) := by
          rw [← field_error (marshal := marshal) (σ := σ) (st := st), hf]
          rintro ⟨p, h⟩; cases h
        constructor
        · rintro ⟨g, hg, h⟩; exact ⟨g, List.mem_cons_of_mem _ hg, h⟩
        · rintro ⟨g, hg, h⟩
          rcases List.mem_cons.1 hg with rfl | hg
          · exact absurd h.2 hno
          · exact ⟨g, hg, h⟩

theorem included_some {P : PkgCtx} {f : Field} : (included P f).isSome ↔ ∃ k i o, FieldIn P f k i o := by
  constructor
  · intro h
    obtain ⟨o, ho⟩ := Option.isSome_iff_exists.1 h
    exact ⟨_, _, _, included_iff.1 ho⟩
  · rintro ⟨k, i, o, h⟩
    have : included P f = some ⟨k, i, o⟩ := included_iff.2 h
    rw [this]; rfl

theorem finish_error {marshal : AnyVal → Option Raw} {σ : Nat → Sched} {d : Decl} {r : GRes} : (∃ p, GRes.finish marshal σ d r = .error p) ↔ ∃ p, r = .error p := by
  unfold GRes.finish
  cases r with
  | error p => exact ⟨fun _ => ⟨p, rfl⟩, fun _ => ⟨p, rfl⟩⟩
  | ok x => exact ⟨fun ⟨p, h⟩ => (by cases h), fun ⟨p, h⟩ => (by cases h)⟩

theorem decl_error (marshal : AnyVal → Option Raw) (σ : Nat → Sched) (P : PkgCtx) (d : Decl) (e : TExpr) (top : Bool) (st : GState) :
    (∃ p, declType marshal σ P d top e st = .error p) ↔ TroublesomeDecl P d top e := by
  have plain : ∀ e top, e ≠ .struct → (∀ x, e ≠ .star x) → (Troublesome P e ↔ TroublesomeDecl P d top e) := by
    intro e top h1 h2
    refine ⟨.type h1 h2, fun h => ?_⟩
    cases h with
    | field => exact absurd rfl h1
    | pointer => exact absurd rfl (h2 _)
    | type _ _ h => exact h
  induction e generalizing top st with
  | other =>
    rw [← plain .other top nofun nofun]
    cases top <;> exact ⟨fun ⟨p, h⟩ => (by cases h), nofun⟩
  | star e ih =>
    have hd : declType marshal σ P d top (.star e) st = GRes.finish marshal σ d (declType marshal σ P d false e st) := by cases top <;> rfl
    rw [hd, finish_error]
    refine (ih false st).trans ⟨.pointer, fun h => ?_⟩
    cases h with
    | pointer h => exact h
    | type _ h2 _ => exact absurd rfl (h2 _)
  | struct =>
    cases top with
    | false =>
      refine ⟨fun ⟨p, h⟩ => (by cases h), fun h => ?_⟩
      cases h with
      | type h1 => exact absurd rfl h1
    | true =>
      rw [declType, finish_error]
      have : (∃ p, structToSchema marshal σ P d st = .error p) ↔ ∃ p, structFields marshal σ P d.fields [] [] [] st = .error p := by
        unfold structToSchema
        cases structFields marshal σ P d.fields [] [] [] st with
        | error p => exact ⟨fun _ => ⟨p, rfl⟩, fun _ => ⟨p, rfl⟩⟩
        | ok x => exact ⟨fun ⟨p, h⟩ => (by cases h), fun ⟨p, h⟩ => (by cases h)⟩
      rw [this, structFields_error]
      constructor
      · rintro ⟨f, hf, hi, hm, ht⟩; exact .field ⟨hf, included_some.1 hi, hm⟩ ht
      · intro h
        cases h with
        | field h ht => exact ⟨_, h.1, included_some.2 h.2.1, h.2.2, ht⟩
        | type h1 => exact absurd rfl h1
  | ident n =>
    rw [← plain (.ident n) top nofun nofun, ← inner_error P _ st]
    cases top <;> rw [declType, finish_error]
  | selector x n =>
    rw [← plain (.selector x n) top nofun nofun, ← inner_error P _ st]
    cases top <;> rw [declType, finish_error]
  | array len e _ =>
    rw [← plain (.array len e) top nofun nofun, ← inner_error P _ st]
    cases top <;> rw [declType, finish_error]
  | map k v _ _ =>
    rw [← plain (.map k v) top nofun nofun, ← inner_error P _ st]
    cases top <;> rw [declType, finish_error]

/-- C54.  The generator crashes on a declaration exactly if its type, or that of a field, contains an anonymous struct or a name that stands for a type without a name or without a package.
(Declarations with methods for marshalling, whose own type need not be looked at, are in `C54_marshalers`.) -/
theorem C54_exact (marshal : AnyVal → Option Raw) (σ : Nat → Sched) (P : PkgCtx) (d : Decl) (hj : d.jsonMarshaler = false) (ht : d.textMarshaler = false) (st : GState) :
    (∃ p, infoToSchema marshal σ P d st = .error p) ↔ TroublesomeDecl P d true d.type := by
  unfold infoToSchema
  rw [hj, ht]
  exact decl_error ..

/-- C54 (partial).  Schemas of all other declarations are generated without a crash.  Missing: the types in `TroublesomeDecl`, see `C54_violated_struct`, `C54_violated_any` and
`C54_violated_error`. -/
theorem C54_no_crash_partial (marshal : AnyVal → Option Raw) (σ : Nat → Sched) (P : PkgCtx) (d : Decl) (hn : ¬ TroublesomeDecl P d true d.type) (st : GState) :
    ∃ s st', infoToSchema marshal σ P d st = .ok (s, st') := by
  have : ¬ ∃ p, infoToSchema marshal σ P d st = .error p := by
    rintro ⟨p, h⟩
    unfold infoToSchema at h
    split at h
    · split at h
      rename_i s1 st1 heq
      split at h
      · cases h
      · exact hn ((decl_error marshal σ P d d.type true st1).1 ⟨p, h⟩)
    · split at h
      · split at h
        cases h
      · exact hn ((decl_error marshal σ P d d.type true st).1 ⟨p, h⟩)
  cases h : infoToSchema marshal σ P d st with
  | error p => exact absurd ⟨p, h⟩ this
  | ok x => exact ⟨x.1, x.2, rfl⟩

/-- C54.  A type that is marshalled as text is never looked at. -/
theorem C54_marshalers (marshal : AnyVal → Option Raw) (σ : Nat → Sched) (P : PkgCtx) (d : Decl) (hj : d.jsonMarshaler = false) (ht : d.textMarshaler = true) (st : GState) :
    ∃ s st', infoToSchema marshal σ P d st = .ok (s, st') := by
  unfold infoToSchema
  rw [hj, ht]
  exact ⟨_, _, rfl⟩

/-- C57 (partial).  The markers and the documentation of a declaration are applied once, to the schema of its type.  Missing: declared pointer types, where they are applied twice
(`C57_violated_pointer`), and types with methods for marshalling, where they are first tried on an empty schema (`C57_violated_marshaler`). -/
theorem C57_markers_once_partial {marshal : AnyVal → Option Raw} {σ : Nat → Sched} {P : PkgCtx} {d : Decl} {st st' : GState} {s : Schema} (hj : d.jsonMarshaler = false) (ht : d.textMarshaler = false)
    (hp : ∀ x, d.type ≠ .star x) (ho : d.type ≠ .other) (h : infoToSchema marshal σ P d st = .ok (s, st')) :
    ∃ raw st1, (d.type ≠ .struct → innerType P d.type st = .ok (raw, st1)) ∧ (d.type = .struct → structToSchema marshal σ P d st = .ok (raw, st1)) ∧
      s = (applyMarkers marshal (σ st1.tick) d.markers (raw.withBase { raw.base with description := d.doc })).1 ∧
      st'.errs = st1.errs + (applyMarkers marshal (σ st1.tick) d.markers (raw.withBase { raw.base with description := d.doc })).2 := by
  unfold infoToSchema at h
  rw [hj, ht] at h
  simp only [Bool.false_eq_true, if_false] at h
  have fin : ∀ r : GRes, GRes.finish marshal σ d r = .ok (s, st') → ∃ raw st1, r = .ok (raw, st1) ∧
      s = (applyMarkers marshal (σ st1.tick) d.markers (raw.withBase { raw.base with description := d.doc })).1 ∧
      st'.errs = st1.errs + (applyMarkers marshal (σ st1.tick) d.markers (raw.withBase { raw.base with description := d.doc })).2 := by
    intro r hr
    cases r with
    | error p => cases hr
    | ok x =>
      obtain ⟨raw, st1⟩ := x
      simp only [GRes.finish, Except.ok.injEq] at hr
      refine ⟨raw, st1, rfl, ?_, ?_⟩
      · exact (congrArg Prod.fst hr).symm
      · exact (congrArg (fun z => z.2.errs) hr).symm
  cases he : d.type with
  | star x => exact absurd he (hp x)
  | other => exact absurd he ho
  | struct =>
    rw [he, declType] at h
    obtain ⟨raw, st1, h1, h2⟩ := fin _ h
    exact ⟨raw, st1, fun hn => absurd rfl hn, fun _ => h1, h2⟩
  | ident n =>
    rw [he, declType] at h
    obtain ⟨raw, st1, h1, h2⟩ := fin _ h
    exact ⟨raw, st1, fun _ => h1, nofun, h2⟩
  | selector x n =>
    rw [he, declType] at h
    obtain ⟨raw, st1, h1, h2⟩ := fin _ h
    exact ⟨raw, st1, fun _ => h1, nofun, h2⟩
  | array l x =>
    rw [he, declType] at h
    obtain ⟨raw, st1, h1, h2⟩ := fin _ h
    exact ⟨raw, st1, fun _ => h1, nofun, h2⟩
  | map k v =>
    rw [he, declType] at h
    obtain ⟨raw, st1, h1, h2⟩ := fin _ h
    exact ⟨raw, st1, fun _ => h1, nofun, h2⟩

/-! ## Violations and examples -/

private def noJson : AnyVal → Option Raw := fun _ => none
private def run (P : PkgCtx) (d : Decl) : GRes := infoToSchema noJson (fun _ => .fifo) P d {}
private def got (P : PkgCtx) (d : Decl) : Option (Schema × GState) :=
  match run P d with
  | .ok x => some x
  | .error _ => none
private def crash (P : PkgCtx) (d : Decl) : Option Panic :=
  match run P d with
  | .ok _ => none
  | .error p => some p

/-- A package `v1`, with a struct `Inner`, a string type `Name` and an alias `List` of a slice type. -/
private def P : PkgCtx where
  self := "v1"
  exported n := n = "Name" || n = "Size" || n = "Extra"
  sel _ _ := .invalid
  ident n :=
    if n = "string" then .basic ⟨.string, "string"⟩
    else if n = "int32" then .basic ⟨.int32, "int32"⟩
    else if n = "uint8" then .basic ⟨.uint8, "uint8"⟩
    else if n = "byte" then .basic byteType
    else if n = "float64" then .basic ⟨.float64, "float64"⟩
    else if n = "Inner" then .named (some "v1") "Inner" .other
    else if n = "Name" then .named (some "v1") "Name" (.basic ⟨.string, "string"⟩)
    else if n = "List" then .alias (some "v1") "List" .other
    else if n = "Str" then .alias (some "v1") "Str" (.basic ⟨.string, "string"⟩)
    else if n = "any" then .alias none "any" .other
    else if n = "error" then .named none "error" .other
    else .invalid

private def field (name : String) (tag : String) (type : TExpr) (markers : MarkerSet := []) : Field := { name, tag := some tag.toList, type, markers }

/-- `C30`, nontrivial case: a struct with optional, required, inline, excluded and untagged fields. -/
private def foo : Decl where
  name := "Foo"
  type := .struct
  fields := [field "Name" "name" (.ident "Name"), field "Size" "size,omitempty" (.star (.ident "int32")), field "" ",inline" (.ident "Inner"), field "Skip" "-" (.ident "string"),
    field "Must" "must,omitempty" (.array false (.ident "string")) [("kubebuilder:validation:Required", [none]), ("kubebuilder:validation:MaxItems", [some (.maxItems 3)])],
    field "May" "may" (.map (.ident "Name") (.ident "byte")) [("optional", [none])], { name := "Bare", tag := none, type := .ident "string" }]

example : got P foo = some (.mk { type := "object", required := ["name", "must"] } none [.leaf { ref := some "#/definitions/Inner" }] [] [] none
    [("name", .leaf { ref := some "#/definitions/Name" }), ("size", .leaf { type := "integer", format := "int32" }),
     ("must", .mk { type := "array", maxItems := some 3 } (some (.mk (some (.leaf { type := "string" })) [])) [] [] [] none [] none [] [] none []),
     ("may", .mk { type := "object" } none [] [] [] none [] (some (.mk true (some (.leaf { type := "integer" })))) [] [] none [])] none [] [] none [],
    { reqs := [("", "Name"), ("", "Inner")], errs := 1, tick := 6 }) := by decide +kernel

/-- C30: the names and options of tags. -/
example : TagMeans "size,omitempty".toList "size".toList false true ∧ TagMeans ",inline".toList [] true false ∧ (∀ n i o, ¬ TagMeans "-".toList n i o) := by
  refine ⟨jsonOpts_iff.1 (by decide +kernel), jsonOpts_iff.1 (by decide +kernel), fun n i o h => ?_⟩
  have := jsonOpts_iff.2 h
  have h0 : jsonOpts "-".toList = none := by decide +kernel
  rw [h0] at this; cases this

/-- C30 is violated: an inline field that is marked as required makes the empty name a required property, which no object of this type has. -/
theorem C30_violated_inline : ∃ s st', run P { name := "Foo", type := .struct, fields := [field "" ",inline" (.ident "Inner") [("required", [none])]] } = .ok (s, st') ∧ st'.errs = 0 ∧
    s.base.required = [""] ∧ s.properties = [] := ⟨_, _, rfl, by decide +kernel, by decide +kernel, by decide +kernel⟩

/-- C30 is violated: encoding/json names a field after the Go field if the tag gives no name; the schema has no such property, and takes the field as embedded. -/
theorem C30_violated_unnamed : ∃ s st', run P { name := "Foo", type := .struct, fields := [field "Name" ",omitempty" (.ident "string")] } = .ok (s, st') ∧ st'.errs = 0 ∧
    s.properties = [] ∧ s.allOf = [.leaf { type := "string" }] := ⟨_, _, rfl, by decide +kernel, by decide +kernel, by decide +kernel⟩

/-- C31, nontrivial case: `map[Name][]*string`. -/
example : TypeSchema P (.map (.ident "Name") (.array false (.star (.ident "string"))))
    (.mk { type := "object" } none [] [] [] none [] (some (.mk true (some (.mk { type := "array" } (some (.mk (some (.leaf { type := "string" })) [])) [] [] [] none [] none [] [] none [])))) [] [] none []) :=
  .map (.named (.string _)) (.array (fun _ => by decide +kernel) (.pointer (.builtin (b := ⟨.string, "string"⟩) (by decide +kernel) rfl ⟨rfl, rfl, by decide +kernel⟩)))

example : ¬ StringLike (typeOf P (.ident "int32")) ∧ jsonType .float64 = some "number" ∧ P.allowDangerousTypes = false := by
  refine ⟨?_, rfl, rfl⟩
  rw [← keyOk_iff]; decide +kernel

/-- C31 is violated: encoding/json encodes byte slices as strings, whatever name is used for the type of the bytes, but `[]uint8` becomes a list of integers. -/
theorem C31_violated_uint8 : innerType P (.array false (.ident "uint8")) {} = .ok (.mk { type := "array" } (some (.mk (some (.leaf { type := "integer" })) [])) [] [] [] none [] none [] [] none [], {}) ∧
    innerType P (.array false (.ident "byte")) {} = .ok (.leaf { type := "string", format := "byte" }, {}) := ⟨rfl, rfl⟩

/-- C31 is violated: a map whose keys are of an alias of `string` is refused, although it is the same type as a map with keys of type `string`. -/
theorem C31_violated_aliasKey : P.ident "Str" = .alias (some "v1") "Str" (P.ident "string") ∧ (∃ s, innerType P (.map (.ident "Str") (.ident "string")) {} = .ok (s, { errs := 1 })) ∧
    ∃ s, innerType P (.map (.ident "string") (.ident "string")) {} = .ok (s, {}) := ⟨by decide +kernel, ⟨_, rfl⟩, ⟨_, rfl⟩⟩

/-- C54 is violated: a list of anonymous structs. -/
theorem C54_violated_struct : crash P { name := "Foo", type := .struct, fields := [field "Items" "items" (.array false .struct)] } = some .nilSpec := by decide +kernel

/-- C54 is violated: a field of type `any`, or of an alias of a slice type. -/
theorem C54_violated_any : crash P { name := "Foo", type := .struct, fields := [field "Value" "value" (.ident "any")] } = some .noObj ∧
    crash P { name := "Foo", type := .struct, fields := [field "Value" "value" (.ident "List")] } = some .noObj := by decide +kernel

/-- C54 is violated: a field of type `error`. -/
theorem C54_violated_error : crash P { name := "Foo", type := .struct, fields := [field "Err" "err" (.ident "error")] } = some .nilPkg := by decide +kernel

/-- C54, nontrivial case. -/
example : ¬ TroublesomeDecl P foo true foo.type := by
  rw [← decl_error noJson (fun _ => .fifo) P foo foo.type true {}]
  rintro ⟨p, hp⟩
  have : (got P foo).isSome = true := by decide +kernel
  have h2 : run P foo = .error p := hp
  unfold got at this
  rw [h2] at this
  cases this

/-- C57 is violated: the markers of a declared pointer type are applied twice, so that its rules are listed twice. -/
theorem C57_violated_pointer : (got P { name := "Foo", type := .star (.ident "string"), markers := [("kubebuilder:validation:XValidation", [some (.validation "a" "" "" "" "" none)])] }).map
    (fun x => x.1.base.xValidations) = some [{ rule := "a" }, { rule := "a" }] := by decide +kernel

/-- C57 is violated: a valid marker on a type with a method `MarshalJSON` is reported as an error, since it is first tried on an empty schema. -/
theorem C57_violated_marshaler : (got P { name := "Foo", type := .ident "string", jsonMarshaler := true, markers := [("kubebuilder:validation:MaxLength", [some (.maxLength 3)])] }).map
    (fun x => (x.1.base.type, x.1.base.maxLength, x.2.errs)) = some ("string", some 3, 1) := by decide +kernel

end Verif.Crd
