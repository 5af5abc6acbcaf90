import Verif.Json.DefaultLemmas
/-!
# C77: defaults, examples and enums in the schema are the values that were written
-/
namespace Verif.Json
open Spec
open Verif.Crd (AnyVal Raw Base Mark)

variable {F : Floats} {marshal : AnyVal → Option Raw}

/-- What is written for values that were read: a function that picks what each `float64` is written as. -/
theorem written (hF : Lawful F) : ∃ g : Rat → Rat, ∀ r, F.round r = some r → Num (F.fmt r) (g r) ∧ F.round (g r) = some r := by
  refine ⟨fun r => if h : F.round r = some r then (hF.shown r h).choose else 0, fun r h => ?_⟩
  dsimp only
  rw [dif_pos h]
  exact (hF.shown r h).choose_spec

theorem parseDefault_json {s : Str} {j : J} (h : Denotes s j) : parseDefault F s = j.toGo F := by
  rw [parseDefault, json_not_ref h, if_neg Bool.false_ne_true, unmarshal, decode_iff.2 h]
  rfl

theorem kubernetesDefault_fields {name s : Str} (h : '=' ∉ name) : kubernetesDefault F ('+' :: (name ++ '=' :: s)) = parseDefault F s := by
  rw [kubernetesDefault, Markers.splitMarker_fields h]

theorem apply_kubernetes {a : AnyVal} {v : G} (h : Stands F marshal a v) (hv : v ≠ .null) (b : Base) :
    (Mark.kubernetesDefault a).apply marshal b = some { b with default := some (String.ofList (encode F v)) } := by
  have ha : a ≠ .nil := fun e => hv (h.nil.1 e)
  simp only [Mark.apply, if_neg ha, h.text]

/-- **C77 (`+default=`, whole numbers).** If the text after `+default=` is JSON, other than `null`, and its numbers are integers up to 2^53, then the default in the schema is a JSON text for the same value. -/
theorem C77_default_partial (hF : Lawful F) {name s : Str} {j : J} (hname : '=' ∉ name) (hj : Denotes s j) (hnull : j ≠ .null) (hn : ∀ q ∈ j.nums, SmallInt q) :
    ∃ v, kubernetesDefault F ('+' :: (name ++ '=' :: s)) = some v ∧
      ∀ a, Stands F marshal a v → ∀ b, ∃ raw, (Mark.kubernetesDefault a).apply marshal b = some { b with default := some raw } ∧ Denotes raw.toList j := by
  have hround : ∀ q, SmallInt q → F.round q = some q ∧ Num (F.fmt q) q := by
    rintro q ⟨z, rfl, hz⟩
    exact hF.ints z hz
  obtain ⟨v, hv⟩ := toGo_some (F := F) j fun q hq => by rw [(hround q (hn q hq)).1]; simp
  obtain ⟨h1, h2, -, h4⟩ := toGo_spec (P := SmallInt) id j v hv (denotes_ok hj) fun q hq r hr => by
    rw [(hround q (hn q hq)).1] at hr
    cases hr
    exact hn q hq
  refine ⟨v, by rw [kubernetesDefault_fields hname, parseDefault_json hj, hv], fun a ha b => ⟨_, apply_kubernetes ha (fun e => hnull (h4 e)) b, ?_⟩⟩
  rw [String.toList_ofList]
  have := encode_den (F := F) (g := id) (P := SmallInt) (fun q hq => (hround q hq).2) v h1
  rw [h2, mapNum_id j fun q hq => by rw [(hround q (hn q hq)).1]; rfl] at this
  exact denotes_of_den this

/-- **C77 (`+default=`, all numbers).** If the text is JSON, other than `null`, and all its numbers are in the range of `float64`, then the default in the schema is a JSON text for the same value, except that
a number may be replaced by another one with the same `float64`. -/
theorem C77_default_rounded (hF : Lawful F) {name s : Str} {j : J} (hname : '=' ∉ name) (hj : Denotes s j) (hnull : j ≠ .null) (hn : ∀ q ∈ j.nums, F.round q ≠ none) :
    ∃ v h, kubernetesDefault F ('+' :: (name ++ '=' :: s)) = some v ∧ (∀ q ∈ j.nums, F.round (h q) = F.round q) ∧
      ∀ a, Stands F marshal a v → ∀ b, ∃ raw, (Mark.kubernetesDefault a).apply marshal b = some { b with default := some raw } ∧ Denotes raw.toList (j.mapNum h) := by
  obtain ⟨g, hg⟩ := written hF
  obtain ⟨v, hv⟩ := toGo_some (F := F) j hn
  obtain ⟨h1, h2, -, h4⟩ := toGo_spec (P := fun r => F.round r = some r) g j v hv (denotes_ok hj) fun q _ r hr => hF.kept q r hr
  refine ⟨v, fun q => g ((F.round q).getD 0), by rw [kubernetesDefault_fields hname, parseDefault_json hj, hv], fun q hq => ?_,
    fun a ha b => ⟨_, apply_kubernetes ha (fun e => hnull (h4 e)) b, ?_⟩⟩
  · obtain ⟨r, hr⟩ := Option.ne_none_iff_exists'.1 (hn q hq)
    dsimp only
    rw [hr]
    exact (hg r (hF.kept q r hr)).2
  · rw [String.toList_ofList, ← h2]
    exact denotes_of_den (encode_den (fun q hq => (hg q hq).1) v h1)

/-- **C77 (`+default=`, errors).** Other texts are errors: those that are not JSON (and not a reference), and those with a number out of range. -/
theorem C77_default_error {name s : Str} (hname : '=' ∉ name) :
    kubernetesDefault F ('+' :: (name ++ '=' :: s)) = none ↔
      ¬ "ref(".toList <+: Markers.Doc.trimSpace s ∧ ((¬ ∃ j, Denotes s j) ∨ ∃ j, Denotes s j ∧ ∃ q ∈ j.nums, F.round q = none) := by
  rw [kubernetesDefault_fields hname]
  cases hd : decode s with
  | none =>
    have hno : ¬ ∃ j, Denotes s j := by
      rintro ⟨j, hj⟩
      rw [decode_iff.2 hj] at hd
      cases hd
    rw [parseDefault, unmarshal, hd]
    cases hr : "ref(".toList.isPrefixOf (Markers.Doc.trimSpace s) with
    | true => exact ⟨fun h => (nomatch h), fun h => absurd (List.isPrefixOf_iff_prefix.1 hr) h.1⟩
    | false =>
      refine ⟨fun _ => ⟨fun h => ?_, Or.inl hno⟩, fun _ => rfl⟩
      rw [List.isPrefixOf_iff_prefix.2 h] at hr
      cases hr
  | some j =>
    have hj := decode_iff.1 hd
    rw [parseDefault_json hj]
    constructor
    · intro h
      refine ⟨fun hp => ?_, Or.inr ⟨j, hj, ?_⟩⟩
      · rw [← List.isPrefixOf_iff_prefix, json_not_ref hj] at hp
        cases hp
      · apply Classical.byContradiction
        intro hno
        obtain ⟨v, hv⟩ := toGo_some (F := F) j fun q hq hr => hno ⟨q, hq, hr⟩
        rw [hv] at h
        cases h
    · rintro ⟨-, h | ⟨j', hj', q, hq, hr⟩⟩
      · exact absurd ⟨j, hj⟩ h
      · rw [denotes_unique hj' hj] at hq
        cases hv : j.toGo F with
        | none => rfl
        | some v => exact absurd hr ((toGo_spec (P := fun _ => True) id j v hv (denotes_ok hj) fun _ _ _ _ => trivial).2.2.1 q hq)

/-- **C77 (`+default=`, nothing).** `null` and references leave the schema as it is. -/
theorem C77_default_nothing {name s : Str} (hname : '=' ∉ name) (h : Denotes s .null ∨ "ref(".toList <+: Markers.Doc.trimSpace s) :
    kubernetesDefault F ('+' :: (name ++ '=' :: s)) = some .null ∧ ∀ a, Stands F marshal a .null → ∀ b, (Mark.kubernetesDefault a).apply marshal b = some b := by
  refine ⟨?_, fun a ha b => ?_⟩
  · rw [kubernetesDefault_fields hname]
    rcases h with h | h
    · exact parseDefault_json h
    · rw [parseDefault, if_pos (List.isPrefixOf_iff_prefix.2 h)]
  · simp only [Mark.apply, if_pos (ha.nil.2 rfl)]

/-- **C77 is violated:** a whole number in `+default=` is changed: 9007199254740993 becomes 9007199254740992, since it is read as `float64`. -/
theorem C77_violated_number (hF : Lawful F) (hr : F.round ((2 ^ 53 + 1 : Int) : Rat) = some ((2 ^ 53 : Int) : Rat)) :
    Denotes "9007199254740993".toList (.num ((2 ^ 53 + 1 : Int) : Rat)) ∧
    ∃ v, kubernetesDefault F "+default=9007199254740993".toList = some v ∧
      ∀ a, Stands F marshal a v → ∀ b, ∃ raw, (Mark.kubernetesDefault a).apply marshal b = some { b with default := some raw } ∧ Denotes raw.toList (.num ((2 ^ 53 : Int) : Rat)) := by
  have hj : Denotes "9007199254740993".toList (.num ((2 ^ 53 + 1 : Int) : Rat)) := by
    have := denotes_of_den (Den.num (showInt_num (2 ^ 53 + 1)))
    have e : showInt (2 ^ 53 + 1) = "9007199254740993".toList := by decide +kernel
    rwa [e] at this
  refine ⟨hj, .float ((2 ^ 53 : Int) : Rat), ?_, fun a ha b => ⟨_, apply_kubernetes ha (fun h => nomatch h) b, ?_⟩⟩
  · have := kubernetesDefault_fields (F := F) (name := "default".toList) (s := "9007199254740993".toList) (by decide +kernel)
    rw [parseDefault_json hj, J.toGo, hr] at this
    exact this
  · rw [String.toList_ofList]
    exact denotes_of_den (.num (hF.ints (2 ^ 53) (by decide)).2)

/-! ## `+kubebuilder:default=`, `+kubebuilder:example=`, `+kubebuilder:validation:Enum=` -/

/-- What `json.Marshal` writes for an argument stands for the argument. -/
theorem marshal_argument (hF : Lawful F) {v : Markers.Value} (hv : Plain (fun q => F.round q = some q) v) :
    ∃ u g, valueGo v = some u ∧ (∀ q, F.round q = some q → F.round (g q) = some q) ∧ u ≠ .null ∧ Denotes (encode F u) (json g v) := by
  obtain ⟨g, hg⟩ := written hF
  obtain ⟨u, h1, h2, h3⟩ := valueGo_spec g hv
  refine ⟨u, g, h1, fun q hq => (hg q hq).2, ?_, by rw [← h3]; exact denotes_of_den (encode_den (fun q hq => (hg q hq).1) u h2)⟩
  rintro rfl
  cases hv with
  | slice _ | map _ _ => simp [valueGo] at h1
  | _ => cases h1

/-- **C77 (`+kubebuilder:default=`).** The default in the schema is a JSON text for the value that was written: integers (of 64 bits) exactly, fractions up to their `float64`.  Only `{}` becomes
the empty list if the type of the schema is `array`. -/
theorem C77_kubebuilder (hF : Lawful F) {E : Markers.Env} (hE : ∀ x q, E.parseFloat x = some q → F.round q = some q) {d : Markers.Definition} {f : Markers.Field} {name x : Str} {v : Markers.Value}
    (hd : d.fields = [f]) (hf : f.name = []) (ha : f.arg = .any) (hname : '=' ∉ name) (hx : Markers.Spec.Shows E false .any v x) :
    d.parse E ('+' :: (name ++ '=' :: x)) = .ok [([], v)] ∧
    ∃ u g, valueGo v = some u ∧ (∀ q, F.round q = some q → F.round (g q) = some q) ∧
      ∀ a, Stands F marshal a u → ∀ b, ∃ raw, (Mark.default a).apply marshal b = some { b with default := some raw } ∧
        (¬ (b.type = "array" ∧ json g v = .obj []) → Denotes raw.toList (json g v)) ∧
        (b.type = "array" → json g v = .obj [] → Denotes raw.toList (.arr [])) := by
  refine ⟨Markers.C14_anonymous hd hf hname (by rw [ha]; exact .value hx), ?_⟩
  obtain ⟨u, g, h1, h2, -, h3⟩ := marshal_argument hF (shows_plain hE hx)
  refine ⟨u, g, h1, h2, fun a ha b => ?_⟩
  have e0 : "{}".toList = '{' :: ([] : Str) ++ ['}'] := by decide +kernel
  have e1 : "[]".toList = '[' :: ([] : Str) ++ [']'] := by decide +kernel
  have hempty : Denotes "{}".toList (.obj []) := by rw [e0]; exact denotes_of_den (.noMembers Ws.nil)
  have hlist : Denotes "[]".toList (.arr []) := by rw [e1]; exact denotes_of_den (.noItems Ws.nil)
  refine ⟨if b.type = "array" ∧ String.ofList (encode F u) = "{}" then "[]" else String.ofList (encode F u), by simp only [Mark.apply, ha.text], fun hne => ?_, fun ht hv => ?_⟩
  · rw [if_neg, String.toList_ofList]
    · exact h3
    · rintro ⟨h4, h5⟩
      have h6 := congrArg String.toList h5
      rw [String.toList_ofList] at h6
      rw [h6] at h3
      exact hne ⟨h4, denotes_unique h3 hempty⟩
  · by_cases he : String.ofList (encode F u) = "{}"
    · rw [if_pos ⟨ht, he⟩]
      exact hlist
    · exfalso
      refine he ?_
      have h7 : encode F u = "{}".toList := by
        cases v with
        | map m =>
          have : m = [] := by
            cases m with
            | nil => rfl
            | cons e m =>
              simp only [json, J.obj.injEq] at hv
              have hp := shows_plain (P := fun _ => True) (fun _ _ _ => trivial) hx
              cases hp with
              | map hn _ =>
                have hn' : ((jsonEntries g (e :: m)).map (·.1)).Nodup := by
                  have : ∀ m : List (Str × Markers.Value), (jsonEntries g m).map (·.1) = m.map (·.1) := by
                    intro m
                    induction m with
                    | nil => rfl
                    | cons e m ih => rw [jsonEntries, List.map_cons, ih]; rfl
                  rw [this]; exact hn
                rw [mapOf_nodup hn'] at hv
                have hm : (e.1, json g e.2) ∈ sortKeys (jsonEntries g (e :: m)) := mem_sortKeys.2 (by rw [jsonEntries]; exact List.mem_cons_self ..)
                rw [hv] at hm
                cases hm
          subst this
          cases h1
          rw [e0]
          rfl
        | _ => simp [json] at hv
      rw [h7]
      exact String.ofList_toList

/-- **C77 (`+kubebuilder:example=`).** The same for examples, where `{}` is always the empty object. -/
theorem C77_example (hF : Lawful F) {E : Markers.Env} (hE : ∀ x q, E.parseFloat x = some q → F.round q = some q) {d : Markers.Definition} {f : Markers.Field} {name x : Str} {v : Markers.Value}
    (hd : d.fields = [f]) (hf : f.name = []) (ha : f.arg = .any) (hname : '=' ∉ name) (hx : Markers.Spec.Shows E false .any v x) :
    d.parse E ('+' :: (name ++ '=' :: x)) = .ok [([], v)] ∧
    ∃ u g, valueGo v = some u ∧ (∀ q, F.round q = some q → F.round (g q) = some q) ∧
      ∀ a, Stands F marshal a u → ∀ b, ∃ raw, (Mark.example_ a).apply marshal b = some { b with example_ := some raw } ∧ Denotes raw.toList (json g v) := by
  refine ⟨Markers.C14_anonymous hd hf hname (by rw [ha]; exact .value hx), ?_⟩
  obtain ⟨u, g, h1, h2, -, h3⟩ := marshal_argument hF (shows_plain hE hx)
  refine ⟨u, g, h1, h2, fun a ha b => ⟨String.ofList (encode F u), by simp only [Mark.apply, ha.text], ?_⟩⟩
  rw [String.toList_ofList]
  exact h3

theorem enum_values (hF : Lawful F) {vs : List Markers.Value} (hv : ∀ v ∈ vs, Plain (fun q => F.round q = some q) v) :
    ∃ us g, valuesGo vs = some us ∧ (∀ q, F.round q = some q → F.round (g q) = some q) ∧
      ∀ as, as.length = us.length → (∀ (i : Nat) a u, as[i]? = some a → us[i]? = some u → Stands F marshal a u) → ∀ b, ∃ raws : List Raw, (Mark.enum as).apply marshal b = some { b with enum := raws } ∧
        raws.length = vs.length ∧ ∀ (i : Nat) (raw : Raw) v, raws[i]? = some raw → vs[i]? = some v → Denotes raw.toList (json g v) := by
  obtain ⟨g, hg⟩ := written hF
  have key : ∀ (vs : List Markers.Value), (∀ v ∈ vs, Plain (fun q => F.round q = some q) v) → ∃ us, valuesGo vs = some us ∧
      ∀ as, as.length = us.length → (∀ (i : Nat) a u, as[i]? = some a → us[i]? = some u → Stands F marshal a u) → ∃ raws : List Raw, Crd.marshalAll marshal as = some raws ∧
        raws.length = vs.length ∧ ∀ (i : Nat) (raw : Raw) v, raws[i]? = some raw → vs[i]? = some v → Denotes raw.toList (json g v) := by
    intro vs
    induction vs with
    | nil =>
      intro _
      refine ⟨[], rfl, fun as hl _ => ?_⟩
      have : as = [] := List.length_eq_zero_iff.1 hl
      subst this
      exact ⟨[], rfl, rfl, fun _ _ _ h => by simp at h⟩
    | cons v vs ih =>
      intro hv
      obtain ⟨us, h1, h2⟩ := ih fun v h => hv v (List.mem_cons_of_mem _ h)
      obtain ⟨u, h3, h4, h5⟩ := valueGo_spec g (hv v (List.mem_cons_self ..))
      refine ⟨u :: us, by rw [valuesGo, h3, h1], fun as hl hs => ?_⟩
      cases as with
      | nil => simp at hl
      | cons a as =>
        obtain ⟨raws, r1, r2, r3⟩ := h2 as (by simpa using hl) fun i a' u' ha hu => hs (i + 1) a' u' ha hu
        have ha := (hs 0 a u rfl rfl).text
        refine ⟨String.ofList (encode F u) :: raws, by simp only [Crd.marshalAll, ha, r1], by simp [r2], fun i raw w hraw hw => ?_⟩
        cases i with
        | zero =>
          simp only [List.getElem?_cons_zero, Option.some.injEq] at hraw hw
          subst hraw hw
          rw [String.toList_ofList, ← h5]
          exact denotes_of_den (encode_den (fun q hq => (hg q hq).1) u h4)
        | succ i => exact r3 i raw w hraw hw
  obtain ⟨us, h1, h2⟩ := key vs hv
  refine ⟨us, g, h1, fun q hq => (hg q hq).2, fun as hl hs b => ?_⟩
  obtain ⟨raws, r1, r2, r3⟩ := h2 as hl hs
  exact ⟨raws, by simp only [Mark.apply, r1], r2, r3⟩

/-- The values of a list that is written as an argument are plain. -/
theorem showsArg_plain {E : Markers.Env} {P : Rat → Prop} (hE : ∀ x q, E.parseFloat x = some q → P q) {a : Markers.Arg} {vs : List Markers.Value} {x : Str} (h : Markers.Spec.ShowsArg E a (.slice vs) x) :
    ∀ v ∈ vs, Plain P v := by
  cases h with
  | value h =>
    cases shows_plain hE h with
    | slice h => exact h
  | list h _ =>
    have one : ∀ {a v x}, Markers.Spec.ShowsScalar E a v x → Plain P v := by
      intro a v x h
      cases h with
      | typed _ h => exact shows_plain hE h
      | any _ h => exact shows_plain hE h
    have all : ∀ {a l x}, Markers.Spec.ShowsLegacy E a l x → ∀ v ∈ l, Plain P v := by
      intro a l x h
      induction h with
      | one h => intro v hv; rw [List.mem_singleton.1 hv]; exact one h
      | cons h _ ih =>
        intro v hv
        rcases List.mem_cons.1 hv with rfl | hv
        · exact one h
        · exact ih v hv
    exact all h

/-- **C77 (`+kubebuilder:validation:Enum=`).** The enum in the schema has a JSON text for each of the values that were written (`a;b;c` or `{a, b, c}`), in the same order. -/
theorem C77_enum (hF : Lawful F) {E : Markers.Env} (hE : ∀ x q, E.parseFloat x = some q → F.round q = some q) {d : Markers.Definition} {f : Markers.Field} {name x : Str} {vs : List Markers.Value}
    (hd : d.fields = [f]) (hf : f.name = []) (ha : f.arg = .slice .any) (hname : '=' ∉ name) (hx : Markers.Spec.ShowsArg E (.slice .any) (.slice vs) x) :
    d.parse E ('+' :: (name ++ '=' :: x)) = .ok [([], .slice vs)] ∧
    ∃ us g, valuesGo vs = some us ∧ (∀ q, F.round q = some q → F.round (g q) = some q) ∧
      ∀ as, as.length = us.length → (∀ (i : Nat) a u, as[i]? = some a → us[i]? = some u → Stands F marshal a u) → ∀ b, ∃ raws : List Raw, (Mark.enum as).apply marshal b = some { b with enum := raws } ∧
        raws.length = vs.length ∧ ∀ (i : Nat) (raw : Raw) v, raws[i]? = some raw → vs[i]? = some v → Denotes raw.toList (json g v) :=
  ⟨Markers.C14_anonymous hd hf hname (by rw [ha]; exact hx), enum_values hF (showsArg_plain hE hx)⟩


end Verif.Json
