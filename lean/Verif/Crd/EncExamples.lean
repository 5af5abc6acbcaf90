import Verif.Crd.EncTheorems

/-!
# C56: a program that meets the hypotheses, and programs for which the claim is false
-/
namespace Verif.Crd
open Spec

theorem hasOption_iff {f : Field} {t : List Char} (h : f.tag = some t) (o : String) : HasOption f o ↔ o.toList ∈ (Text.split ',' t).tail := by
  constructor
  · rintro ⟨t', n, opts, h1, h2, h3, h4, h5⟩
    rw [h] at h1
    cases h1
    have : Text.split ',' t = n :: opts := by
      rw [h2, intercalate_eq_join, Text.split_join (by simp)]
      intro x hx
      rcases List.mem_cons.1 hx with rfl | hx
      · exact h3
      · exact h4 x hx
    rw [this]; exact h5
  · intro ho
    have hj := Text.join_split (c := ',') (s := t)
    cases hs : Text.split ',' t with
    | nil => rw [hs] at ho; cases ho
    | cons n opts =>
      rw [hs] at ho hj
      have hm : ∀ x ∈ n :: opts, ',' ∉ x := by rw [← hs]; exact fun x hx => Text.mem_split x hx
      exact ⟨t, n, opts, h, by rw [intercalate_eq_join]; exact hj.symm, hm n (List.mem_cons_self ..), fun x hx => hm x (List.mem_cons_of_mem _ hx), ho⟩

/-- Deciding `ByteLike`. -/
def byteLikeB : GoType → Bool
  | .basic b => b.kind = .uint8
  | .named _ _ u => byteLikeB u
  | .alias _ _ r => byteLikeB r
  | _ => false

theorem byteLike_iff {t : GoType} : byteLikeB t = true ↔ ByteLike t := by
  induction t with
  | basic b => simp [byteLikeB, ByteLike]
  | named p n u ih => exact ih
  | alias p n u ih => exact ih
  | _ => simp [byteLikeB, ByteLike]

/-- Deciding `PlainType`. -/
def plainB (P : PkgCtx) : TExpr → Bool
  | .ident n => match P.ident n with
    | .basic b => b.name = n ∧ b.kind ≠ .uint32 ∧ b.kind ≠ .uint64
    | _ => true
  | .selector _ _ => true
  | .array len e => (len || !byteLikeB (typeOf P e) || typeOf P e = .basic ⟨.uint8, "byte"⟩) && plainB P e
  | .map _ v => plainB P v
  | .star e => plainB P e
  | _ => false

theorem plain_of {P : PkgCtx} : ∀ {e : TExpr}, plainB P e = true → PlainType P e := by
  intro e
  induction e with
  | ident n =>
    intro h
    refine .ident fun b hb => ?_
    rw [plainB, hb] at h
    simpa using h
  | selector => intro _; exact .selector
  | array len e ih =>
    intro h
    rw [plainB, Bool.and_eq_true] at h
    refine .array (fun hl hb => ?_) (ih h.2)
    have h1 := h.1
    rw [hl, byteLike_iff.2 hb] at h1
    simpa using h1
  | map k v _ ih => intro h; exact .map (ih h)
  | star e ih => intro h; exact .pointer (ih h)
  | _ => intro h; cases h

/-- Deciding `PlainDecl`. -/
def plainDeclB (P : PkgCtx) (d : Decl) : Bool :=
  d.markers = [] && (d.type = .struct || plainB P d.type) && d.fields.all fun f =>
    f.markers = [] && plainB P f.type &&
    match f.tag with
    | none => true
    | some t => !(Text.split ',' t).tail.contains "string".toList &&
      match included P f with
      | none => true
      | some o => !isRequired P f o || (!o.inline && !(Text.split ',' t).tail.contains "omitempty".toList && !(Text.split ',' t).tail.contains "omitzero".toList)

theorem plainDecl_of {P : PkgCtx} {d : Decl} (h : plainDeclB P d = true) : PlainDecl P d := by
  unfold plainDeclB at h
  simp only [Bool.and_eq_true, decide_eq_true_eq, Bool.or_eq_true, List.all_eq_true] at h
  obtain ⟨⟨h1, h2⟩, h3⟩ := h
  refine ⟨by rw [h1]; nofun, fun f hf => by rw [(h3 f hf).1.1]; nofun, fun hs => plain_of (h2.resolve_left hs), fun f hf => plain_of (h3 f hf).1.2, ?_, ?_⟩
  · intro f hf ho
    have h4 := (h3 f hf).2
    obtain ⟨t, _, _, ht, _⟩ := id ho
    rw [ht] at h4
    simp only [Bool.and_eq_true, Bool.not_eq_true'] at h4
    have := (hasOption_iff ht "string").1 ho
    rw [← List.contains_iff_mem] at this
    rw [this] at h4
    exact absurd h4.1 (by simp)
  · intro f hf k i om hfi hm
    have h4 := (h3 f hf).2
    obtain ⟨t, ht, _⟩ := hfi.2
    rw [ht] at h4
    have hinc : included P f = some ⟨k, i, om⟩ := included_iff.2 hfi
    rw [hinc] at h4
    have hr : isRequired P f ⟨k, i, om⟩ = true := isRequired_iff.2 hm
    simp only [hr, Bool.not_true, Bool.false_or, Bool.and_eq_true, Bool.not_eq_true'] at h4
    obtain ⟨_, ⟨e1, e2⟩, e3⟩ := h4
    refine ⟨e1, fun ho => ?_, fun ho => ?_⟩
    · have := (hasOption_iff ht "omitempty").1 ho
      rw [← List.contains_iff_mem, e2] at this; cases this
    · have := (hasOption_iff ht "omitzero").1 ho
      rw [← List.contains_iff_mem, e3] at this; cases this

private def noJson : AnyVal → Option Raw := fun _ => none
private def field (name tag : String) (type : TExpr) : Field := { name, tag := some tag.toList, type }
private def run (P : PkgCtx) (d : Decl) : Option (Schema × GState) :=
  match infoToSchema noJson (fun _ => .fifo) P d {} with
  | .ok x => some x
  | .error _ => none

private theorem run_ok {P : PkgCtx} {d : Decl} {s : Schema} {st : GState} (h : run P d = some (s, st)) : infoToSchema noJson (fun _ => .fifo) P d {} = .ok (s, st) := by
  unfold run at h
  split at h
  · rename_i heq; cases h; exact heq
  · cases h

/-! ## A program with two packages -/

private def v1 : PkgCtx where
  self := "v1"
  exported _ := true
  sel x n := if x = "v2" ∧ n = "Base" then .named (some "example.com/v2") "Base" .other else .invalid
  ident n := if n = "string" then .basic ⟨.string, "string"⟩ else if n = "int32" then .basic ⟨.int32, "int32"⟩ else if n = "byte" then .basic byteType
    else if n = "Item" then .named (some "v1") "Item" .other else .invalid

private def v2 : PkgCtx where
  self := "example.com/v2"
  exported _ := true
  sel _ _ := .invalid
  ident n := if n = "string" then .basic ⟨.string, "string"⟩ else .invalid

private def empty (p : String) : PkgCtx := { self := p, exported := fun _ => true, sel := fun _ _ => .invalid, ident := fun _ => .invalid }

private def foo : Decl where
  name := "Foo"
  type := .struct
  fields := [field "" ",inline" (.selector "v2" "Base"), field "Items" "items" (.map (.ident "string") (.array false (.star (.ident "Item")))), field "Data" "data,omitempty" (.array false (.ident "byte"))]
private def item : Decl := { name := "Item", type := .ident "int32" }
private def base : Decl := { name := "Base", type := .struct, fields := [field "Kind" "kind" (.ident "string")] }

private def fooSchema : Schema := ((run v1 foo).getD (.empty, {})).1
private def itemSchema : Schema := ((run v1 item).getD (.empty, {})).1
private def baseSchema : Schema := ((run v2 base).getD (.empty, {})).1

private def G : Prog where
  ctx p := if p = "v1" then v1 else if p = "example.com/v2" then v2 else empty p
  decl p n := if p = "v1" ∧ n = "Foo" then some foo else if p = "v1" ∧ n = "Item" then some item else if p = "example.com/v2" ∧ n = "Base" then some base else none
  foreign _ _ _ := False

private def env : Env where
  imports p i := if p = "v1" ∧ i = "example.com/v2" then some "example.com/v2" else none
  schemata := [(⟨"v1", "Foo"⟩, fooSchema), (⟨"v1", "Item"⟩, itemSchema), (⟨"example.com/v2", "Base"⟩, baseSchema)]

private theorem G_decl {p n : String} {d : Decl} (h : G.decl p n = some d) : (p = "v1" ∧ n = "Foo" ∧ d = foo) ∨ (p = "v1" ∧ n = "Item" ∧ d = item) ∨ (p = "example.com/v2" ∧ n = "Base" ∧ d = base) := by
  unfold G at h
  simp only at h
  split at h
  · rename_i hh; cases h; exact .inl ⟨hh.1, hh.2, rfl⟩
  · split at h
    · rename_i hh; cases h; exact .inr (.inl ⟨hh.1, hh.2, rfl⟩)
    · split at h
      · rename_i hh; cases h; exact .inr (.inr ⟨hh.1, hh.2, rfl⟩)
      · cases h

/-- C56, nontrivial case: the hypotheses on the program are met. -/
example : Generated noJson G env := by
  intro id s d hs hd
  obtain ⟨p, n⟩ := id
  rcases G_decl hd with ⟨h1, h2, rfl⟩ | ⟨h1, h2, rfl⟩ | ⟨h1, h2, rfl⟩ <;> simp only at h1 h2 <;> subst h1 h2
  · have : s = fooSchema := Option.some.inj (hs.symm.trans (by decide +kernel))
    subst this
    exact ⟨fun _ => .fifo, {}, ((run v1 foo).getD (.empty, {})).2, run_ok (by decide +kernel), by decide +kernel⟩
  · have : s = itemSchema := Option.some.inj (hs.symm.trans (by decide +kernel))
    subst this
    exact ⟨fun _ => .fifo, {}, ((run v1 item).getD (.empty, {})).2, run_ok (by decide +kernel), by decide +kernel⟩
  · have : s = baseSchema := Option.some.inj (hs.symm.trans (by decide +kernel))
    subst this
    exact ⟨fun _ => .fifo, {}, ((run v2 base).getD (.empty, {})).2, run_ok (by decide +kernel), by decide +kernel⟩

example : ∀ p n d, G.decl p n = some d → PlainDecl (G.ctx p) d := by
  intro p n d hd
  rcases G_decl hd with ⟨rfl, rfl, rfl⟩ | ⟨rfl, rfl, rfl⟩ | ⟨rfl, rfl, rfl⟩ <;> exact plainDecl_of (by decide +kernel)

example : Linked G env := by
  refine linked_plain ?_ ?_ ?_ ?_ ?_
  · intro p
    unfold G
    simp only
    split
    · rename_i h; exact h.symm
    · split
      · rename_i h; exact h.symm
      · rfl
  · intro pkg n p m u h
    have : p = "v1" ∧ m = "Item" ∧ pkg = "v1" := by
      unfold G v1 v2 empty at h
      simp only at h
      split at h
      · rename_i hp
        simp only at h
        repeat' split at h
        all_goals first | cases h; done | skip
        cases h; exact ⟨rfl, rfl, hp⟩
      · split at h
        · simp only at h
          split at h <;> cases h
        · cases h
    obtain ⟨rfl, rfl, rfl⟩ := this
    exact ⟨by decide +kernel, fun h => absurd rfl h⟩
  · intro pkg x n p m u h
    have : p = "example.com/v2" ∧ m = "Base" ∧ pkg = "v1" := by
      unfold G v1 v2 empty at h
      simp only at h
      split at h
      · rename_i hp
        simp only at h
        split at h
        · cases h; exact ⟨rfl, rfl, hp⟩
        · cases h
      · split at h <;> cases h
    obtain ⟨rfl, rfl, rfl⟩ := this
    refine ⟨by decide +kernel, by decide +kernel, by decide +kernel, ?_⟩
    intro q hq
    have : env.imports "v1" (String.ofList (Loader.nonVendorPath "example.com/v2".toList)) = some "example.com/v2" := by decide +kernel
    rw [this] at hq; exact (Option.some.inj hq).symm
  · intro pkg n p a r h
    unfold G v1 v2 empty at h
    simp only at h
    repeat' split at h
    all_goals (simp only at h; repeat' split at h)
    all_goals cases h
  · intro pkg x n p a r h
    unfold G v1 v2 empty at h
    simp only at h
    repeat' split at h
    all_goals (simp only at h; repeat' split at h)
    all_goals cases h

private theorem tag_of {P : PkgCtx} {f : Field} {k : String} {i om : Bool} (h : FieldIn P f k i om) : included P f = some ⟨k, i, om⟩ := included_iff.2 h

/-- C56, nontrivial case: an encoded value of `Foo`. -/
example : Enc G (.decl "v1" "Foo") (.obj [("kind", .str "x"), ("items", .obj [("a", .arr [.num (1 : Int), .num (2 : Int)])])]) := by
  have hint : ∀ z : Int, -2^31 ≤ z → z ≤ 2^31 - 1 → Enc G (.expr "v1" (.star (.ident "Item"))) (.num z) := by
    intro z h1 h2
    refine .pointer (.ident ?_)
    rw [show (G.ctx "v1").ident "Item" = .named (some "v1") "Item" .other by decide +kernel]
    refine .named (.type (d := item) (by rfl) rfl rfl (by decide +kernel) (.ident ?_))
    rw [show (G.ctx "v1").ident "int32" = .basic ⟨.int32, "int32"⟩ by decide +kernel]
    exact .basic (.int z rfl h1 h2)
  have hkind : Enc G (.expr "v1" (.selector "v2" "Base")) (.obj [("kind", .str "x"), ("items", .obj [("a", .arr [.num (1 : Int), .num (2 : Int)])])]) := by
    refine .selector ?_
    rw [show (G.ctx "v1").sel "v2" "Base" = .named (some "example.com/v2") "Base" .other by decide +kernel]
    refine .named (.struct (d := base) _ (by rfl) rfl rfl rfl ?_ ?_ ?_ ?_)
    · intro f hf k om v hfi _ hv
      obtain rfl := List.mem_singleton.1 hf
      have h := tag_of hfi
      rw [show included (G.ctx "example.com/v2") (field "Kind" "kind" (.ident "string")) = some ⟨"kind", false, false⟩ by decide +kernel] at h
      cases h
      cases hv
      refine .ident ?_
      rw [show (G.ctx "example.com/v2").ident "string" = .basic ⟨.string, "string"⟩ by decide +kernel]
      exact .basic (.string "x")
    · intro f hf k om v hfi ho
      obtain rfl := List.mem_singleton.1 hf
      rw [hasOption_iff rfl] at ho
      exact absurd ho (by decide +kernel)
    · intro f hf k om hfi _ _
      obtain rfl := List.mem_singleton.1 hf
      have h := tag_of hfi
      rw [show included (G.ctx "example.com/v2") (field "Kind" "kind" (.ident "string")) = some ⟨"kind", false, false⟩ by decide +kernel] at h
      cases h
      exact List.mem_cons_self ..
    · intro f hf k om hfi
      obtain rfl := List.mem_singleton.1 hf
      have h := tag_of hfi
      rw [show included (G.ctx "example.com/v2") (field "Kind" "kind" (.ident "string")) = some ⟨"kind", false, false⟩ by decide +kernel] at h
      cases h
  have hfs : foo.fields = [field "" ",inline" (.selector "v2" "Base"), field "Items" "items" (.map (.ident "string") (.array false (.star (.ident "Item")))),
    field "Data" "data,omitempty" (.array false (.ident "byte"))] := rfl
  have i1 : included (G.ctx "v1") (field "" ",inline" (.selector "v2" "Base")) = some ⟨"", true, false⟩ := by decide +kernel
  have i2 : included (G.ctx "v1") (field "Items" "items" (.map (.ident "string") (.array false (.star (.ident "Item"))))) = some ⟨"items", false, false⟩ := by decide +kernel
  have i3 : included (G.ctx "v1") (field "Data" "data,omitempty" (.array false (.ident "byte"))) = some ⟨"data", false, true⟩ := by decide +kernel
  refine .struct (d := foo) _ (by rfl) rfl rfl rfl ?_ ?_ ?_ ?_
  · intro f hf k om v hfi _ hv
    have h := tag_of hfi
    rw [hfs] at hf
    simp only [List.mem_cons, List.not_mem_nil, or_false] at hf
    rcases hf with rfl | rfl | rfl
    · rw [i1] at h; cases h
    · rw [i2] at h; cases h
      cases hv
      refine .map _ ?_
      intro x hx
      obtain rfl := List.mem_singleton.1 hx
      refine .array _ (fun _ => by rw [← byteLike_iff]; decide +kernel) ?_
      intro y hy
      simp only [List.mem_cons, List.not_mem_nil, or_false] at hy
      rcases hy with rfl | rfl
      · exact hint 1 (by decide) (by decide)
      · exact hint 2 (by decide) (by decide)
    · rw [i3] at h; cases h
      cases hv
  · intro f hf k om v hfi ho
    rw [hfs] at hf
    simp only [List.mem_cons, List.not_mem_nil, or_false] at hf
    rcases hf with rfl | rfl | rfl <;> (rw [hasOption_iff rfl] at ho; exact absurd ho (by decide +kernel))
  · intro f hf k om hfi ho _
    have h := tag_of hfi
    rw [hfs] at hf
    simp only [List.mem_cons, List.not_mem_nil, or_false] at hf
    rcases hf with rfl | rfl | rfl
    · rw [i1] at h; cases h
    · rw [i2] at h; cases h
      exact List.mem_cons_of_mem _ (List.mem_cons_self ..)
    · exact absurd ((hasOption_iff rfl "omitempty").2 (by decide +kernel)) ho
  · intro f hf k om hfi
    have h := tag_of hfi
    rw [hfs] at hf
    simp only [List.mem_cons, List.not_mem_nil, or_false] at hf
    rcases hf with rfl | rfl | rfl
    · exact hkind
    · rw [i2] at h; cases h
    · rw [i3] at h; cases h

/-! ## Violations: a struct with one field -/

private def one : PkgCtx where
  self := "v1"
  exported _ := true
  sel _ _ := .invalid
  ident n := if n = "int32" then .basic ⟨.int32, "int32"⟩ else if n = "uint8" then .basic ⟨.uint8, "uint8"⟩ else .invalid

private def oneProg (f : Field) : Prog where
  nils := true
  ctx p := { one with self := p }
  decl p n := if p = "v1" ∧ n = "Foo" then some { name := "Foo", type := .struct, fields := [f] } else none
  foreign _ _ _ := False

private def oneEnv (s : Schema) : Env where
  imports _ _ := none
  schemata := [(⟨"v1", "Foo"⟩, s)]

/-- The schema of the program with one field has been generated, without an error, and the links are right. -/
private def Made (f : Field) (s : Schema) : Prop := Generated noJson (oneProg f) (oneEnv s) ∧ Linked (oneProg f) (oneEnv s)

private theorem made {f : Field} {s : Schema} {st : GState} (h : run one { name := "Foo", type := .struct, fields := [f] } = some (s, st)) (he : st.errs = 0) : Made f s := by
  refine ⟨?_, ?_⟩
  · intro id s' d hs hd
    obtain ⟨p, n⟩ := id
    unfold oneProg at hd
    simp only at hd
    split at hd
    · rename_i hpn
      cases hd
      obtain ⟨rfl, rfl⟩ := hpn
      have : s' = s := Option.some.inj (hs.symm.trans (by simp [oneEnv, Env.raw, GoMap.get]))
      subst this
      exact ⟨fun _ => .fifo, {}, st, run_ok h, he⟩
    · cases hd
  · refine linked_plain (fun _ => rfl) ?_ ?_ ?_ (fun _ _ _ _ _ _ h => by cases h)
    · intro pkg n p m u h
      unfold oneProg one at h
      simp only at h
      split at h
      · cases h
      · split at h <;> cases h
    rotate_left
    · intro pkg n p a r h
      unfold oneProg one at h
      simp only at h
      split at h
      · cases h
      · split at h <;> cases h
    · intro pkg x n p m u h; cases h

private theorem one_enc {name tag : String} {type : TExpr} {k : String} {om : Bool} (hi : included one (field name tag type) = some ⟨k, false, om⟩) (m : List (String × Json))
    (h1 : ∀ v, m.lookup k = some v → ¬ HasOption (field name tag type) "string" → Enc (oneProg (field name tag type)) (.expr "v1" type) v)
    (h2 : ∀ v, m.lookup k = some v → HasOption (field name tag type) "string" → ∃ s, v = .str s)
    (h3 : ¬ HasOption (field name tag type) "omitempty" → ¬ HasOption (field name tag type) "omitzero" → k ∈ m.map (·.1)) : Enc (oneProg (field name tag type)) (.decl "v1" "Foo") (.obj m) := by
  have hinc : ∀ k' i o, FieldIn ((oneProg (field name tag type)).ctx "v1") (field name tag type) k' i o → k' = k ∧ i = false := by
    intro k' i o h
    have h' := tag_of h
    have : included ((oneProg (field name tag type)).ctx "v1") (field name tag type) = included one (field name tag type) := rfl
    rw [this, hi] at h'
    cases h'; exact ⟨rfl, rfl⟩
  refine .struct m (d := { name := "Foo", type := .struct, fields := [field name tag type] }) rfl rfl rfl rfl ?_ ?_ ?_ ?_
  · intro f hf k' o v hfi hs hv
    obtain rfl := List.mem_singleton.1 hf
    obtain ⟨rfl, -⟩ := hinc _ _ _ hfi
    exact h1 v hv hs
  · intro f hf k' o v hfi hs hv
    obtain rfl := List.mem_singleton.1 hf
    obtain ⟨rfl, -⟩ := hinc _ _ _ hfi
    exact h2 v hv hs
  · intro f hf k' o hfi ha hb
    obtain rfl := List.mem_singleton.1 hf
    obtain ⟨rfl, -⟩ := hinc _ _ _ hfi
    exact h3 ha hb
  · intro f hf k' o hfi
    obtain rfl := List.mem_singleton.1 hf
    exact absurd (hinc _ _ _ hfi).2 (by simp)

private theorem not_prop {M : Meaning} {env : Env} {V : String → Schema → Json → Prop} (hV : RefMeaning M env V) {s : Schema} {m : List (String × Json)} {k : String} {c : Schema} {v : Json}
    (h1 : (k, c) ∈ s.properties) (h2 : m.lookup k = some v) (hn : c.base.nullable = false) (ht : ¬ HasType c.base.type v) : ¬ V "v1" s (.obj m) := by
  intro h
  have h3 := ((hV _ _ _).1 h).1.properties k c v h1 h2
  rcases ((hV _ _ _).1 h3).1.plain.type with h4 | h4
  · exact ht h4
  · rw [hn] at h4; cases h4.1

/-- C56 is violated: a field `Data []uint8`, which is encoded as a string, must be a list according to the schema. -/
theorem C56_violated_uint8 (M : Meaning) : ∃ G env u j, Generated noJson G env ∧ Linked G env ∧ env.raw ⟨"v1", "Foo"⟩ = some u ∧ Enc G (.decl "v1" "Foo") j ∧
    ∀ V, RefMeaning M env V → ¬ V "v1" u j := by
  have hm := made (f := field "Data" "data" (.array false (.ident "uint8"))) (s := .mk { type := "object", required := ["data"] } none [] [] [] none
    [("data", .mk { type := "array" } (some (.mk (some (.leaf { type := "integer" })) [])) [] [] [] none [] none [] [] none [])] none [] [] none []) (st := { tick := 2 }) (by decide +kernel) rfl
  refine ⟨_, _, _, .obj [("data", .str "AQI=")], hm.1, hm.2, by rfl, one_enc (k := "data") (om := false) (by decide +kernel) _ ?_ ?_ ?_, ?_⟩
  · intro v hv _
    cases hv
    exact .bytes _ (by rw [← byteLike_iff]; decide +kernel)
  · intro v hv ho
    rw [hasOption_iff rfl] at ho
    exact absurd ho (by decide +kernel)
  · intro _ _; exact List.mem_cons_self ..
  · intro V hV
    exact not_prop hV (k := "data") (v := .str "AQI=") (List.mem_cons_self ..) rfl rfl (by simp [HasType, Schema.base])

/-- C56 is violated: a field `Items []string` that is nil is encoded as `null`, which the schema does not allow. -/
theorem C56_violated_nil (M : Meaning) : ∃ G env u j, Generated noJson G env ∧ Linked G env ∧ env.raw ⟨"v1", "Foo"⟩ = some u ∧ Enc G (.decl "v1" "Foo") j ∧
    ∀ V, RefMeaning M env V → ¬ V "v1" u j := by
  have hm := made (f := field "Sizes" "sizes" (.array false (.ident "int32"))) (s := .mk { type := "object", required := ["sizes"] } none [] [] [] none
    [("sizes", .mk { type := "array" } (some (.mk (some (.leaf { type := "integer", format := "int32" })) [])) [] [] [] none [] none [] [] none [])] none [] [] none []) (st := { tick := 2 })
    (by decide +kernel) rfl
  refine ⟨_, _, _, .obj [("sizes", .null)], hm.1, hm.2, by rfl, one_enc (k := "sizes") (om := false) (by decide +kernel) _ ?_ ?_ ?_, ?_⟩
  · intro v hv _
    cases hv
    exact .nilSlice rfl
  · intro v hv ho
    rw [hasOption_iff rfl] at ho
    exact absurd ho (by decide +kernel)
  · intro _ _; exact List.mem_cons_self ..
  · intro V hV
    exact not_prop hV (k := "sizes") (v := .null) (List.mem_cons_self ..) rfl rfl (by simp [HasType, Schema.base])

/-- C56 is violated: a number with the option `string`, which is encoded as a string, must be a number according to the schema. -/
theorem C56_violated_string (M : Meaning) : ∃ G env u j, Generated noJson G env ∧ Linked G env ∧ env.raw ⟨"v1", "Foo"⟩ = some u ∧ Enc G (.decl "v1" "Foo") j ∧
    ∀ V, RefMeaning M env V → ¬ V "v1" u j := by
  have hm := made (f := field "Size" "size,string" (.ident "int32")) (s := .mk { type := "object", required := ["size"] } none [] [] [] none
    [("size", .leaf { type := "integer", format := "int32" })] none [] [] none []) (st := { tick := 2 }) (by decide +kernel) rfl
  refine ⟨_, _, _, .obj [("size", .str "3")], hm.1, hm.2, by rfl, one_enc (k := "size") (om := false) (by decide +kernel) _ ?_ ?_ ?_, ?_⟩
  · intro v hv ho
    exact absurd ((hasOption_iff rfl "string").2 (by decide +kernel)) ho
  · intro v hv ho
    cases hv; exact ⟨_, rfl⟩
  · intro _ _; exact List.mem_cons_self ..
  · intro V hV
    exact not_prop hV (k := "size") (v := .str "3") (List.mem_cons_self ..) rfl rfl (by simp [HasType, Schema.base, Schema.leaf])

/-- C56 is violated: a field with the option `omitzero` (Go 1.24), which is left out when it is zero, is required by the schema. -/
theorem C56_violated_omitzero (M : Meaning) : ∃ G env u j, Generated noJson G env ∧ Linked G env ∧ env.raw ⟨"v1", "Foo"⟩ = some u ∧ Enc G (.decl "v1" "Foo") j ∧
    ∀ V, RefMeaning M env V → ¬ V "v1" u j := by
  have hm := made (f := field "Size" "size,omitzero" (.ident "int32")) (s := .mk { type := "object", required := ["size"] } none [] [] [] none
    [("size", .leaf { type := "integer", format := "int32" })] none [] [] none []) (st := { tick := 2 }) (by decide +kernel) rfl
  refine ⟨_, _, _, .obj [], hm.1, hm.2, by rfl, one_enc (k := "size") (om := false) (by decide +kernel) _ ?_ ?_ ?_, ?_⟩
  · intro v hv; cases hv
  · intro v hv; cases hv
  · intro _ ho; exact absurd ((hasOption_iff rfl "omitzero").2 (by decide +kernel)) ho
  · intro V hV h
    have := ((hV _ _ _).1 h).1.plain.required [] "size" rfl (List.mem_cons_self ..)
    cases this

end Verif.Crd
