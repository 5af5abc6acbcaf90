import Verif.CrdGen.SourceSpec
import Verif.CrdGen.GenerateTheorems
import Verif.CrdGen.Theorems
import Verif.Crd.FromSourceTheorems
import Verif.Markers.SourceWritten
import Verif.Markers.ArgLemmas
/-!
# C85: from the comments in the source to CRDs
-/
namespace Verif.CrdGen
open Spec
open Verif.Markers (Value Definition Env Def Loaded Values)
open Verif.Markers.Args
open Verif.Markers.Collect (Comment Node)
open Verif.Markers.Source
open Verif.Crd (AnyVal TypeIdent Package declOf setOf)
open Verif.Crd.Spec (Declares Marked)

/-! ## The markers -/

set_option maxRecDepth 100000 in
theorem argument_rows : (Spec.arguments.all fun r => (Markers.Shipped.allDefinitions.any fun m => decide (m.name = r.1.toList) && decide (m.target = Markers.Target.type) && decide (m.define.map m.parser = some r.2)) &&
    decide (r.1.toList ≠ "default".toList)) = true := by decide +kernel

variable {gs : List String} {hist : List (Def Loaded)} {E : Env} {code : Value → AnyVal}

theorem argument_chosen (hg : "crd" ∈ gs) {n : String} {d : Definition} (h : (n, d) ∈ Spec.arguments) : ∃ m, Chosen gs .type m d ∧ m.name = n.toList := by
  have h1 := List.all_eq_true.1 argument_rows _ h
  simp only [Bool.and_eq_true, decide_eq_true_eq, List.any_eq_true] at h1
  obtain ⟨⟨m, hm, ⟨h2, h3⟩, h4⟩, h5⟩ := h1
  obtain ⟨df, hd, e⟩ := Option.map_eq_some_iff.1 h4
  exact ⟨m, ⟨"crd", hg, _, by simp [Markers.Shipped.registers], hm, h3, df, hd, e⟩, h2⟩

theorem arguments_names : Spec.arguments.map (·.1) = Spec.crdMarkers := rfl

theorem arguments_nodup : (Spec.arguments.map (·.1)).Nodup := by decide +kernel

theorem name_fits (n : String) (vals : List (List Char × Value)) : nameOf (crdMarkerOf n vals) = some n ∨ (crdMarkerOf n vals = .other ∧ n ∉ Spec.crdMarkers) := by
  unfold crdMarkerOf
  repeat' split
  all_goals first
    | (left; subst_vars; rfl)
    | skip
  right
  refine ⟨rfl, ?_⟩
  simp only [Spec.crdMarkers, List.mem_cons, List.not_mem_nil, or_false]
  rintro (h | h | h | h | h | h | h | h | h | h) <;> contradiction

theorem nodup_written {name : List Char} {d : Definition} {c : Comment} {vals : List (List Char × Value)} (h : Written E name d c vals) : (vals.map (·.1)).Nodup := by
  cases h with
  | json => simp
  | plain => simp
  | value => simp
  | raw => simp
  | arguments _ h => obtain ⟨_, _, _, h, _⟩ := h; exact h

theorem fits_eq {vals : List (List Char × Value)} (hn : (vals.map (·.1)).Nodup) {m : Marker} {n : String} (h : nameOf m = some n) (hf : Fits vals m) : crdMarkerOf n vals = m := by
  cases m with
  | status => cases h; rfl
  | storageVersion => cases h; rfl
  | skipVersion => cases h; rfl
  | unservedVersion => cases h; rfl
  | other => cases h
  | scale s =>
    cases h
    obtain ⟨h1, h2, h3⟩ := hf
    show Marker.scale _ = _
    rw [stringArg_eq hn h1, stringArg_eq hn h2, pointerArg_eq hn h3]
  | printColumn c =>
    cases h
    obtain ⟨h1, h2, h3, h4, h5, o, h6, h7⟩ := hf
    show Marker.printColumn _ = _
    rw [stringArg_eq hn h1, stringArg_eq hn h2, stringArg_eq hn h3, stringArg_eq hn h4, stringArg_eq hn h5, intArg_eq hn h6, ← h7]
  | resource r =>
    cases h
    obtain ⟨h1, h2, h3, h4, h5⟩ := hf
    show Marker.resource _ = _
    rw [stringArg_eq hn h1, stringsArg_eq hn h2, stringsArg_eq hn h3, stringArg_eq hn h4, stringArg_eq hn h5]
  | deprecatedVersion w =>
    cases h
    show Marker.deprecatedVersion _ = _
    rw [pointerArg_eq hn hf]
  | metadata a l =>
    cases h
    show Marker.metadata _ _ = _
    rw [stringsArg_eq hn hf.1, stringsArg_eq hn hf.2]
  | selectableField p =>
    cases h
    show Marker.selectableField _ = _
    rw [stringArg_eq hn hf]

theorem get_crdSetOf {markers : List (String × List (List (List Char × Value)))} {k : String} : GoMap.get (crdSetOf markers) k = (GoMap.get markers k).map (·.map (crdMarkerOf k)) := by
  induction markers with
  | nil => rfl
  | cons e l ih =>
    simp only [crdSetOf, List.map_cons, GoMap.get] at ih ⊢
    by_cases h : e.1 = k
    · subst h; simp
    · simp [h, ih]

theorem listed_of (hg : "crd" ∈ gs) {f : File} {n : Node} {markers : List (String × List (List (List Char × Value)))} (hF : Faithful gs E f n markers) (ht : toTarget n.target = .type) {k : String}
    (hk : k ∈ Spec.crdMarkers) : Listed E f n k ((GoMap.get (crdSetOf markers) k).getD []) := by
  rw [← arguments_names] at hk
  obtain ⟨⟨k', d⟩, hkd, rfl⟩ := List.mem_map.1 hk
  obtain ⟨m, hc, hm⟩ := argument_chosen hg hkd
  rw [← ht] at hc
  obtain ⟨l, h1, h2, h3, h4⟩ := hF.listed m d hc
  rw [hm, String.ofList_toList] at h1
  have hsays : ∀ {c : Comment} {mk : Marker}, nameOf mk = some k' → Says E c mk → ∃ vals, Written E m.name d c vals ∧ crdMarkerOf k' vals = mk := by
    rintro c mk hn ⟨n', d', vals, hn', hd', hw, hf⟩
    rw [hn] at hn'; cases hn'
    have hde : d' = d := by
      have := (GoMap.get_eq_some (m := Spec.arguments) arguments_nodup (k := k') (v := d)).2 hkd
      rw [(GoMap.get_eq_some (m := Spec.arguments) arguments_nodup).2 hd'] at this
      exact Option.some.inj this
    subst hde
    exact ⟨vals, hm ▸ hw, fits_eq (nodup_written hw) hn hf⟩
  refine ⟨l.map fun e => (e.1, crdMarkerOf k' e.2), ?_, ?_, ?_, ?_⟩
  · rw [get_crdSetOf]
    cases hget : GoMap.get markers k' with
    | none =>
      rw [hget] at h1
      have : l = [] := by simpa using h1.symm
      subst this; rfl
    | some vs =>
      rw [hget] at h1
      simp only [Option.getD_some] at h1
      subst h1
      simp [Function.comp_def]
  · simpa [Function.comp_def] using h2
  · intro e he
    obtain ⟨x, hx, rfl⟩ := List.mem_map.1 he
    obtain ⟨h5, h6, h7, h8⟩ := h3 x hx
    refine ⟨h5, h6, hm ▸ h7, fun mk hn hs => ?_⟩
    obtain ⟨vals, hw, rfl⟩ := hsays hn hs
    rw [h8 vals hw]
  · intro c mk hmk hp hn hs
    obtain ⟨vals, hw, rfl⟩ := hsays hn hs
    exact List.mem_map.2 ⟨_, h4 c vals hmk hp hw, rfl⟩

/-! ## Types -/

theorem wf_crdSetOf {markers : List (String × List (List (List Char × Value)))} (h : GoMap.WF markers) : GoMap.WF (crdSetOf markers) := by
  unfold GoMap.WF GoMap.keys crdSetOf at *
  simpa [Function.comp_def] using h

theorem wf_info {pk : Package} {t : TypeInfo (List (List Char × Value))} (ht : t ∈ pk.infos hist E) : GoMap.WF t.markers := by
  unfold Package.infos at ht
  split at ht
  · rename_i l hl
    unfold typesOf eachInfo at hl
    split at hl
    · cases hl
    · split at hl
      · cases hl
      · cases hl
        obtain ⟨e, _, rfl⟩ := List.mem_map.1 ht
        exact parseNode_wf _ _ _ _ (by simp [GoMap.WF, GoMap.keys])
  · cases ht

theorem last_iff {α : Type} {p : α → Bool} {l : List α} {x : α} : (l.filter p).getLast? = some x ↔ ∃ a b, l = a ++ x :: b ∧ p x = true ∧ ∀ y ∈ b, p y = false := by
  constructor
  · intro h
    obtain ⟨ys, h⟩ := List.getLast?_eq_some_iff.1 h
    obtain ⟨a, b, rfl, _, h2⟩ := List.filter_eq_append_iff.1 h
    obtain ⟨b1, b2, rfl, h3, h4, h5⟩ := List.filter_eq_cons_iff.1 h2
    refine ⟨a ++ b1, b2, by simp, h4, fun y hy => ?_⟩
    have := List.filter_eq_nil_iff.1 h5 y hy
    simpa using this
  · rintro ⟨a, b, rfl, h1, h2⟩
    have : b.filter p = [] := List.filter_eq_nil_iff.2 fun y hy => by simp [h2 y hy]
    simp [List.filter_append, List.filter_cons, h1, this]

variable {W : World}

theorem infos_of (hr : Readable hist E W) (p : String) : ∃ l, typesOf hist E (W.pk p).syn (W.pk p).σ (W.pk p).files = some (some l) ∧ (W.pk p).infos hist E = l := by
  obtain ⟨h1, h2, h3⟩ := hr p
  obtain ⟨res, h4, -⟩ := Markers.Source.C82_fails (hist := hist) (E := E) (W.pk p).syn (W.pk p).σ h1
  cases res with
  | none => exact absurd h4 h3
  | some l => exact ⟨l, h4, by unfold Package.infos; rw [h4]⟩

/-- The types of a package are those declared in its files. -/
theorem declared_types (hr : Readable hist E W) (p : String) : ((W.pk p).infos hist E).map (fun t => (t.spec, t.name)) =
    ((W.pk p).files.flatMap fun f => Markers.Each.declared (.node f.node f.children)).map (fun e => (e.2, (W.pk p).syn.typeName e.2)) := by
  obtain ⟨l, h1, h2⟩ := infos_of hr p
  obtain ⟨h3, -⟩ := Markers.Source.C82_types (hr p).1 h1
  rw [h2]
  have := congrArg (List.map fun x : Option Node × Node × String => x.2) h3
  simpa [Function.comp_def] using this

theorem map_split {α β : Type} {g : α → β} {l : List α} {a : List β} {x : β} {b : List β} (h : l.map g = a ++ x :: b) : ∃ a' x' b', l = a' ++ x' :: b' ∧ a'.map g = a ∧ g x' = x ∧ b'.map g = b := by
  obtain ⟨a', r, rfl, h1, h2⟩ := List.map_eq_append_iff.1 h
  obtain ⟨x', b', rfl, h3, h4⟩ := List.map_eq_cons_iff.1 h2
  exact ⟨a', x', b', rfl, h1, h3, h4⟩

theorem typeNamed_iff (hr : Readable hist E W) {p name : String} {n : Node} :
    TypeNamed (W.pk p) name n ↔ ∃ a t b, (W.pk p).infos hist E = a ++ t :: b ∧ t.spec = n ∧ t.name = name ∧ ∀ t' ∈ b, t'.name ≠ name := by
  have hd := declared_types hr p
  constructor
  · rintro ⟨a, b, h1, h2, h3⟩
    obtain ⟨a', e, b', h4, rfl, rfl, rfl⟩ := map_split h1
    rw [h4, List.map_append, List.map_cons] at hd
    obtain ⟨a2, t, b2, h5, -, h6, h7⟩ := map_split hd
    obtain ⟨h8, h9⟩ := Prod.mk.inj h6
    refine ⟨a2, t, b2, h5, h8, h9.trans h2, fun t' ht' => ?_⟩
    have hm : (t'.spec, t'.name) ∈ b2.map fun t => (t.spec, t.name) := List.mem_map_of_mem ht'
    rw [h7] at hm
    obtain ⟨e', he', h10⟩ := List.mem_map.1 hm
    rw [← (Prod.mk.inj h10).2]
    exact h3 _ (List.mem_map_of_mem he')
  · rintro ⟨a, t, b, h1, rfl, rfl, h3⟩
    rw [h1, List.map_append, List.map_cons] at hd
    obtain ⟨a2, e, b2, h5, -, h6, h7⟩ := map_split hd.symm
    obtain ⟨h8, h9⟩ := Prod.mk.inj h6
    refine ⟨a2.map (·.2), b2.map (·.2), by rw [h5, List.map_append, List.map_cons, h8], by rw [← h8, h9], fun x hx => ?_⟩
    obtain ⟨e', he', rfl⟩ := List.mem_map.1 hx
    have hm : (e'.2, (W.pk p).syn.typeName e'.2) ∈ b2.map fun e => (e.2, (W.pk p).syn.typeName e.2) := List.mem_map_of_mem he'
    rw [h7] at hm
    obtain ⟨t', ht', h10⟩ := List.mem_map.1 hm
    rw [← (Prod.mk.inj h10).2]
    exact h3 t' ht'

theorem info_iff (hr : Readable hist E W) {id : TypeIdent} {n : Node} : TypeNamed (W.pk id.pkg) id.name n ↔ ∃ t, W.info hist E id = some t ∧ t.spec = n := by
  rw [typeNamed_iff hr]
  unfold World.info
  constructor
  · rintro ⟨a, t, b, h1, h2, h3, h4⟩
    exact ⟨t, last_iff.2 ⟨a, b, h1, by simpa using h3, fun y hy => by simpa using h4 y hy⟩, h2⟩
  · rintro ⟨t, h1, h2⟩
    obtain ⟨a, b, h3, h4, h5⟩ := last_iff.1 h1
    exact ⟨a, t, b, h3, h2, by simpa using h4, fun y hy => by simpa using h5 y hy⟩

theorem declares_iff (hr : Readable hist E W) {id : TypeIdent} :
    (∃ d, Declares (W.gsrc hist E code).src id d) ↔ ¬ Marked ((W.gsrc hist E code).src.ctx id.pkg).markers "kubebuilder:skip" ∧ Indexable W id.pkg ∧ ∃ n, TypeNamed (W.pk id.pkg) id.name n := by
  have key : (∃ d a b, (W.pk id.pkg).decls hist E code = a ++ d :: b ∧ d.name = id.name ∧ ∀ e ∈ b, e.name ≠ id.name) ↔ ∃ n, TypeNamed (W.pk id.pkg) id.name n := by
    constructor
    · rintro ⟨d, a, b, h1, h2, h3⟩
      obtain ⟨a', t, b', h4, -, rfl, rfl⟩ := map_split h1
      exact ⟨t.spec, (typeNamed_iff hr).2 ⟨a', t, b', h4, rfl, h2, fun t' ht' => h3 _ (List.mem_map_of_mem ht')⟩⟩
    · rintro ⟨n, h⟩
      obtain ⟨a, t, b, h1, -, h2, h3⟩ := (typeNamed_iff hr).1 h
      refine ⟨declOf code (W.pk id.pkg).shape t, a.map (declOf code (W.pk id.pkg).shape), b.map (declOf code (W.pk id.pkg).shape), by unfold Package.decls; rw [h1]; simp, h2, ?_⟩
      intro e he
      obtain ⟨t', ht', rfl⟩ := List.mem_map.1 he
      exact h3 t' ht'
  constructor
  · rintro ⟨d, h1, h2, h3⟩
    exact ⟨h1, h2, key.1 ⟨d, h3⟩⟩
  · rintro ⟨h1, h2, h3⟩
    obtain ⟨d, h4⟩ := key.2 h3
    exact ⟨d, h1, h2, h4⟩

/-- The markers of a type are those in the comments on it. -/
theorem fromComments (hg : "crd" ∈ gs) (hh : Markers.Shipped.history gs = some hist) (hr : Readable hist E W) {id : TypeIdent} (hd : ∃ n, TypeNamed (W.pk id.pkg) id.name n) {e : Entry}
    (he : e.markers = (W.gsrc hist E code).crdMarkers id) : ∃ f n, f ∈ (W.pk id.pkg).files ∧ n ∈ f.nodes ∧ TypeNamed (W.pk id.pkg) id.name n ∧ FromComments E f n e := by
  obtain ⟨n, hn⟩ := hd
  obtain ⟨t, h1, rfl⟩ := (info_iff hr).1 hn
  have ht : t ∈ (W.pk id.pkg).infos hist E := by
    obtain ⟨a, b, h, -⟩ := last_iff.1 h1
    rw [h]; simp
  obtain ⟨l, h2, h3⟩ := infos_of hr id.pkg
  obtain ⟨f, hf, h4, h5, h6, -⟩ := Markers.Source.C82_values hh (hr id.pkg).1 (hr id.pkg).2.1 h2 (h3 ▸ ht)
  have hm : e.markers = crdSetOf t.markers := by rw [he]; simp [World.gsrc, h1]
  refine ⟨f, t.spec, hf, h4, hn, ⟨by rw [hm]; exact wf_crdSetOf (wf_info ht), ?_⟩, ?_⟩
  · intro name vals hv m hmv
    rw [hm] at hv
    obtain ⟨x, hx, e⟩ := List.mem_map.1 hv
    cases e
    obtain ⟨v, hv, rfl⟩ := List.mem_map.1 hmv
    exact name_fits _ _
  · intro k hk
    unfold written
    rw [hm]
    exact listed_of hg h6 (by rw [h5]; rfl) hk

/-! ## Packages -/

set_option maxRecDepth 100000 in
theorem label_rows : ([("groupName", true), ("versionName", false)].all fun r => (Markers.Shipped.allDefinitions.any fun m => decide (m.name = r.1.toList) && decide (m.target = Markers.Target.package) &&
    decide (m.define.map m.parser = some ⟨[⟨[], .str, r.2⟩], true⟩)) && decide (r.1.toList ≠ "default".toList) &&
    Markers.Shipped.table.all fun x => decide (x.target ≠ .type) || (!x.name.isPrefixOf r.1.toList && !r.1.toList.isPrefixOf x.name)) = true := by decide +kernel

theorem label_chosen (hg : "crd" ∈ gs) {n : String} {b : Bool} (h : (n, b) ∈ [("groupName", true), ("versionName", false)]) :
    (∃ m, Chosen gs .package m ⟨[⟨[], .str, b⟩], true⟩ ∧ m.name = n.toList) ∧ n.toList ≠ "default".toList ∧ Apart n.toList := by
  have h1 := List.all_eq_true.1 label_rows _ h
  simp only [Bool.and_eq_true, decide_eq_true_eq, List.any_eq_true] at h1
  obtain ⟨⟨⟨m, hm, ⟨h2, h3⟩, h4⟩, h5⟩, h6⟩ := h1
  obtain ⟨df, hd, e⟩ := Option.map_eq_some_iff.1 h4
  refine ⟨⟨m, ⟨"crd", hg, _, by simp [Markers.Shipped.registers], hm, h3, df, hd, e⟩, h2⟩, h5, fun x hx ht => ?_⟩
  have := List.all_eq_true.1 h6 x hx
  simpa [ht, List.isPrefixOf_iff_prefix, ← Bool.not_eq_true] using this

theorem gives_written {n : String} {b : Bool} (hk : n.toList ≠ "default".toList) {c : Comment} {v : String} (h : Gives E n b c v) :
    ∃ vals, Written E n.toList ⟨[⟨[], .str, b⟩], true⟩ c vals ∧ stringArg vals "" = v := by
  rcases h with ⟨rfl, h1, rfl⟩ | ⟨x, h1, h2⟩
  · exact ⟨[], .plain hk h1 (by simp), rfl⟩
  · refine ⟨[([], .str v.toList)], .value hk h1 rfl rfl h2, ?_⟩
    show String.ofList v.toList = v
    simp

theorem labelled (hg : "crd" ∈ gs) (hh : Markers.Shipped.history gs = some hist) (hr : Readable hist E W) {n : String} {b : Bool} (h : (n, b) ∈ [("groupName", true), ("versionName", false)]) (p : String) :
    Labelled E n b (W.pk p).files (W.label hist E n p) := by
  obtain ⟨⟨m, hc, hm⟩, hk, ha⟩ := label_chosen hg h
  obtain ⟨l, h1, h2⟩ := infos_of hr p
  obtain ⟨res, h3⟩ := markersOf_some h1 (W.τ p)
  have hv : W.values hist E p = res := by unfold World.values; rw [h3]
  have hwf := (hr p).1.wf
  have hfirst : res.first n.toList = ((GoMap.get res m.name).getD []).head? := by
    unfold Values.first
    rw [hm]
    cases GoMap.get res n.toList <;> rfl
  unfold World.label
  rw [hv, hfirst]
  cases hl : (GoMap.get res m.name).getD [] with
  | cons vals rest =>
    obtain ⟨f, hf, c, h4, h5, h6⟩ := package_sound hh hc hwf h3 (vals := vals) (by rw [hl]; simp)
    refine ⟨f, hf, c, h4, hm ▸ h5, fun v' hv' => ?_⟩
    obtain ⟨vals', h7, rfl⟩ := gives_written hk hv'
    rw [h6 vals' (hm ▸ h7)]
  | nil =>
    intro f hf c h4 h5 v hv'
    obtain ⟨vals', h7, rfl⟩ := gives_written hk hv'
    obtain ⟨raw, hraw⟩ : ∃ raw, textOf c = '+' :: raw ∧ n.toList <+: raw := by
      rcases hv' with ⟨-, h, -⟩ | ⟨x, h, -⟩
      · exact ⟨_, h, List.prefix_rfl⟩
      · exact ⟨_, h, List.prefix_append _ _⟩
    have hno : lookupIn hist (textOf c) .type = none := by
      rw [hraw.1]
      refine no_type hh fun x hx ht hp => ?_
      rcases prefix_comparable hp hraw.2 with h | h
      · exact (ha x hx ht).1 h
      · exact (ha x hx ht).2 h
    have := package_complete hh hc hwf h3 hf h4 h5 hno (hm ▸ h7)
    rw [hl] at this
    cases this

set_option maxRecDepth 100000 in
theorem skip_rows : ((Markers.Shipped.allDefinitions.any fun m => decide (m.name = "kubebuilder:skip".toList) && decide (m.target = Markers.Target.package) && decide (m.define.map m.parser = some ⟨[], true⟩)) &&
    decide ("kubebuilder:skip".toList ≠ "default".toList) && Markers.Shipped.table.all fun x => decide (x.target ≠ .type) || !x.name.isPrefixOf "kubebuilder:skip".toList) = true := by decide +kernel

theorem skip_chosen (hg : "crd" ∈ gs) : (∃ m, Chosen gs .package m ⟨[], true⟩ ∧ m.name = "kubebuilder:skip".toList) ∧ "kubebuilder:skip".toList ≠ "default".toList ∧
    ∀ x ∈ Markers.Shipped.table, x.target = .type → ¬ x.name <+: "kubebuilder:skip".toList := by
  have h1 := skip_rows
  rw [Bool.and_eq_true, Bool.and_eq_true, List.any_eq_true] at h1
  obtain ⟨⟨⟨m, hm, h2⟩, h5⟩, h6⟩ := h1
  rw [Bool.and_eq_true, Bool.and_eq_true] at h2
  obtain ⟨⟨h2, h3⟩, h4⟩ := h2
  obtain ⟨df, hd, e⟩ := Option.map_eq_some_iff.1 (of_decide_eq_true h4)
  refine ⟨⟨m, ⟨"crd", hg, _, by simp [Markers.Shipped.registers], hm, of_decide_eq_true h3, df, hd, e⟩, of_decide_eq_true h2⟩, of_decide_eq_true h5, fun x hx ht hp => ?_⟩
  have := List.all_eq_true.1 h6 x hx
  rw [ht, List.isPrefixOf_iff_prefix.2 hp] at this
  cases this

theorem get_ofList {α : Type} {res : List (List Char × α)} {k : String} : GoMap.get (res.map fun e => (String.ofList e.1, e.2)) k = GoMap.get res k.toList := by
  induction res with
  | nil => rfl
  | cons e l ih =>
    simp only [List.map_cons, GoMap.get, ih]
    by_cases h : e.1 = k.toList
    · rw [if_pos h, if_pos (by rw [h]; simp)]
    · rw [if_neg h, if_neg fun h' => h (by rw [← h']; simp)]

/-- What is known of a package. -/
def World.labels (hist : List (Def Loaded)) (E : Env) (code : Value → AnyVal) (W : World) (p : String) : Labels where
  group := W.label hist E "groupName" p
  version := W.label hist E "versionName" p
  skip := Marked ((W.gsrc hist E code).src.ctx p).markers "kubebuilder:skip"

/-- It is what its comments say. -/
theorem labels_of (hg : "crd" ∈ gs) (hh : Markers.Shipped.history gs = some hist) (hr : Readable hist E W) (p : String) : (W.labels hist E code p).Of E (W.pk p).files := by
  obtain ⟨⟨m, hc, hm⟩, hk, ha⟩ := skip_chosen hg
  obtain ⟨l, h1, h2⟩ := infos_of hr p
  obtain ⟨res, h3⟩ := markersOf_some h1 (W.τ p)
  have hv : W.values hist E p = res := by unfold World.values; rw [h3]
  have hwf := (hr p).1.wf
  have hget : GoMap.get ((W.gsrc hist E code).src.ctx p).markers "kubebuilder:skip" = (GoMap.get res m.name).map (·.map (Crd.markOf code "kubebuilder:skip")) := by
    show GoMap.get (setOf code _) _ = _
    rw [Crd.get_setOf, get_ofList, hv, hm]
  refine ⟨labelled hg hh hr (by simp) p, labelled hg hh hr (by simp) p, ?_, ?_⟩
  · rintro ⟨v, vs, h⟩
    rw [hget] at h
    obtain ⟨vals, h4, h5⟩ := Option.map_eq_some_iff.1 h
    cases vals with
    | nil => cases h5
    | cons a vals =>
      obtain ⟨f, hf, c, h6, h7, -⟩ := package_sound hh hc hwf h3 (vals := a) (by rw [h4]; simp)
      refine ⟨f, hf, c, h6, ?_⟩
      rw [hm] at h7
      have e : ('+' :: "kubebuilder:skip".toList) = "+kubebuilder:skip".toList := by decide +kernel
      rw [← e]
      exact h7
  · intro f hf c h4 h5 h6
    have e : "+kubebuilder:skip".toList = '+' :: "kubebuilder:skip".toList := by decide +kernel
    rw [e] at h6
    have h7 := package_complete hh hc hwf h3 hf h4 h5 (by rw [h6]; exact no_type hh ha) (vals := []) (by rw [hm]; exact .plain hk h6 (by simp))
    cases hl : GoMap.get res m.name with
    | none => rw [hl] at h7; cases h7
    | some vals =>
      rw [hl] at h7 hget
      cases vals with
      | nil => cases h7
      | cons a vals => exact ⟨_, _, hget⟩

/-! ## CRDs -/

/-- **C85** (what a marker is): the markers of a name on a type, if all comments at the type that begin with this name are such markers. -/
theorem C85_says {f : File} {n : Node} {k : String} {ms : List Marker} (h : Listed E f n k ms)
    (hw : ∀ c, f.Marks c → InDoc f n c ∨ Above f n c → ('+' :: k.toList) <+: textOf c → ∃ m, nameOf m = some k ∧ Says E c m) :
    (∀ m ∈ ms, ∃ c, f.Marks c ∧ (InDoc f n c ∨ Above f n c) ∧ Says E c m) ∧ ∀ c m, f.Marks c → InDoc f n c ∨ Above f n c → nameOf m = some k → Says E c m → m ∈ ms := by
  obtain ⟨cs, rfl, -, h2, h3⟩ := h
  refine ⟨fun m hm => ?_, fun c m h4 h5 h6 h7 => List.mem_map.2 ⟨_, h3 c m h4 h5 h6 h7, rfl⟩⟩
  obtain ⟨e, he, rfl⟩ := List.mem_map.1 hm
  obtain ⟨h4, h5, h6, h7⟩ := h2 e he
  obtain ⟨m, h8, h9⟩ := hw e.1 h4 h5 h6
  exact ⟨e.1, h4, h5, h7 m h8 h9 ▸ h9⟩

theorem nameOf_mem {m : Marker} {k : String} (h : nameOf m = some k) : k ∈ Spec.crdMarkers := by
  cases m <;> cases h <;> simp [Spec.crdMarkers]

theorem mem_written {e : Entry} {k : String} {m : Marker} (h : m ∈ written e k) : On e m := by
  unfold written at h
  cases hg : GoMap.get e.markers k with
  | none => rw [hg] at h; cases h
  | some vs => rw [hg] at h; exact ⟨k, vs, Crd.mem_of_get hg, h⟩

/-- A comment on a type is a marker of it. -/
theorem says_on {f : File} {n : Node} {e : Entry} (he : FromComments E f n e) {c : Comment} (hc : f.Marks c) (hp : InDoc f n c ∨ Above f n c) {m : Marker} (hs : Says E c m) :
    ∃ k, nameOf m = some k ∧ m ∈ written e k := by
  obtain ⟨k, -, -, hn, -⟩ := id hs
  obtain ⟨cs, h1, -, -, h2⟩ := he.2 k (nameOf_mem hn)
  exact ⟨k, hn, by rw [h1]; exact List.mem_map.2 ⟨_, h2 c m hc hp hn hs, rfl⟩⟩

theorem mem_columns {ms : List Marker} {c : Column} (h : Marker.printColumn c ∈ ms) : c ∈ Spec.columns ms := by
  induction ms with
  | nil => cases h
  | cons m ms ih =>
    rcases List.mem_cons.1 h with h | h
    · subst h; simp [Spec.columns]
    · have := ih h
      cases m <;> simp [Spec.columns, this]

theorem mem_fields {ms : List Marker} {c : String} (h : Marker.selectableField c ∈ ms) : c ∈ Spec.fields ms := by
  induction ms with
  | nil => cases h
  | cons m ms ih =>
    rcases List.mem_cons.1 h with h | h
    · subst h; simp [Spec.fields]
    · have := ih h
      cases m <;> simp [Spec.fields, this]

/-- **C85** (every comment counts): a CRD marker in the documentation of a type or directly above it shows in the version of the CRD, if the version has a name. -/
theorem C85_shown {f : File} {n : Node} {e : Entry} (he : FromComments E f n e) {entries : List Entry} {w : Version} (hw : VersionOf e w) (hst : w.storage = true ↔ Storage entries e) (hv : e.version ≠ "")
    {c : Comment} (hc : f.Marks c) (hp : InDoc f n c ∨ Above f n c) {m : Marker} (hs : Says E c m) : Shown w m ∧ (m = .skipVersion → Skipped e) ∧ On e m := by
  obtain ⟨k, hn, hm⟩ := says_on he hc hp hs
  have ho := mem_written hm
  refine ⟨?_, fun h => ⟨hv, h ▸ ho⟩, ho⟩
  cases m with
  | status => exact hw.status.2 ho
  | scale s =>
    cases hn
    show (w.sub.getD {}).scale.isSome = true
    rw [hw.scale]
    obtain ⟨x, hx⟩ : ∃ x, (written e "kubebuilder:subresource:scale").getLast? = some x := by
      cases hl : (written e "kubebuilder:subresource:scale").getLast? with
      | none => rw [List.getLast?_eq_none_iff] at hl; rw [hl] at hm; cases hm
      | some x => exact ⟨x, rfl⟩
    have hxm : x ∈ written e "kubebuilder:subresource:scale" := List.mem_of_getLast? hx
    rw [hx]
    cases hg : GoMap.get e.markers "kubebuilder:subresource:scale" with
    | none => unfold written at hxm; rw [hg] at hxm; cases hxm
    | some vs =>
      have hxv : x ∈ vs := by unfold written at hxm; rw [hg] at hxm; exact hxm
      rcases he.1.2 _ vs (Crd.mem_of_get hg) x hxv with h | ⟨-, h⟩
      · cases x <;> simp [nameOf] at h ⊢
      · exact absurd (by simp [Spec.crdMarkers]) h
  | printColumn col =>
    cases hn
    show col ∈ w.columns
    rw [hw.columns]
    exact mem_columns hm
  | selectableField p =>
    cases hn
    show p ∈ w.selectable
    rw [hw.selectable]
    exact mem_fields hm
  | storageVersion => exact hst.2 (.inl ⟨hv, ho⟩)
  | unservedVersion =>
    show w.served = false
    cases h : w.served with
    | false => rfl
    | true => exact absurd ho (hw.served.1 h)
  | deprecatedVersion x => exact hw.deprecated.2 ⟨hv, x, ho⟩
  | resource => trivial
  | skipVersion => trivial
  | metadata => trivial
  | other => trivial

/-- **C85** (partial), from the text of comments to CRDs: if all packages are parsed and the collector reports no error, then for each kind of an API object the CRD is made of one version for each loaded package that
has a comment `+groupName=…` with the group and declares the kind (unless a comment says to skip it); its version is that of a comment `+versionName=…`, or the name of the package; and the markers on it are
those of the comments in the documentation of the type and above it, with their arguments, in their order, each of them once.  Whichever generators are chosen beside `crd`, in whichever order maps are
iterated over.  Missing: as in C20, C22 and C23 (packages of one group with the same version, resource markers that differ, disagreeing metadata), comments whose text is not in the grammar of C14, and
packages with several different comments `+groupName` (see C60). -/
theorem C85_crd_partial (hg : "crd" ∈ gs) (hh : Markers.Shipped.history gs = some hist) (hr : Readable hist E W) (O : Opts) (σ : Scheds) (roots : List String) (st : State) (out : Out)
    (h : generate (W.gsrc hist E code) O σ roots = .ok (st, out)) (hf : out.failed = false) (gk : GroupKind) :
    ∃ labels : String → Labels, (∀ p, (labels p).Of E (W.pk p).files) ∧
      (KindIn (W.gsrc hist E code) roots gk → ∃ loaded entries, (∀ q ∈ roots, q ∈ loaded) ∧ EntriesFrom E W labels (SchemaFor (W.gsrc hist E code) O σ st) loaded gk entries ∧
        (DistinctVersions entries → (GoMap.get st.crds gk ≠ none ↔ ∃ e ∈ entries, ¬ Skipped e)) ∧ ∀ crd, GoMap.get st.crds gk = some crd → MadeOf O.lib gk entries crd) := by
  refine ⟨W.labels hist E code, labels_of hg hh hr, fun hk => ?_⟩
  obtain ⟨loaded, entries, errs, h1, ⟨pkgs, h2, h3, h4⟩, h5, h6⟩ := (C33_crds _ O σ roots st out h hf gk).2 hk
  have h3' : ∀ pkg, pkg ∈ pkgs ↔ pkg ∈ loaded ∧ (W.labels hist E code pkg).group = some gk.group ∧ ¬ (W.labels hist E code pkg).skip ∧ Indexable W pkg ∧ ∃ n, TypeNamed (W.pk pkg) gk.kind n := by
    intro pkg
    rw [h3, declares_iff hr (code := code) (id := ⟨pkg, gk.kind⟩)]
    rfl
  have h4' := h4.imp (S := fun pkg e => ((W.labels hist E code pkg).version = some e.version ∨ (W.labels hist E code pkg).version = none ∧ e.version = W.pkgName pkg) ∧
      (∃ f n, f ∈ (W.pk pkg).files ∧ n ∈ f.nodes ∧ TypeNamed (W.pk pkg) gk.kind n ∧ FromComments E f n e) ∧ SchemaFor (W.gsrc hist E code) O σ st ⟨pkg, gk.kind⟩ e.schema)
    fun pkg hp e _ ⟨h7, h8, h9⟩ => ⟨(by unfold VersionOfPkg at h7; exact h7), fromComments hg hh hr (id := ⟨pkg, gk.kind⟩) ((h3' pkg).1 hp).2.2.2.2 h8, h9⟩
  refine ⟨loaded, entries, h1, ⟨pkgs, h2, h3', h4'⟩, h6, fun crd hcrd => ?_⟩
  rw [hcrd] at h5
  have hc : ∀ e ∈ entries, Collected e := by
    intro e he
    obtain ⟨pkg, -, -, ⟨f, n, -, -, -, h7⟩, -⟩ := h4'.exists_left he
    exact h7.1
  obtain ⟨m1, m2, m3⟩ := C23_present h5
  exact ⟨fun hd => (C22_versions_partial hd hc h5).1, fun hd => (C22_versions_partial hd hc h5).2, (C20_sorted h5).2, fun r hr => C20_names_partial hr h5, m1, m2, m3⟩

end Verif.CrdGen
