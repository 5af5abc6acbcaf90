import Verif.Markers.InfoTheorems
/-!
# The values of a package-level marker, however it is written
-/
namespace Verif.Markers.Source
open Verif Verif.Markers.Collect Verif.Markers.Doc Verif.Markers.Spec Verif.GoMap

variable {gs : List String} {hist : List (Def Loaded)} {E : Env} {m : Marker} {d : Definition} {files : List File} {σ : Nat → Sched} {τ : Sched} {res : Values (List (Str × Value))}

/-- A comment that is attached to the package is not in the documentation of a type or a field, and directly above one only if its marker is for packages only. -/
theorem attached_off {Def : Type} {lookup : Str → Collect.Target → Option Def} {f : File} (hf : f.WF) {ρ : Sched} {r : List (Node × List MarkerComment)} (hr : associateFile lookup ρ f.groups f.node f.children = some r)
    {c : Comment} {b : Bool} (hat : Attached r f.node c b) (n : Node) : ¬ InDoc f n c ∧ (Above f n c → PackageOnly lookup c) := by
  obtain ⟨_, _, _, hm⟩ := C16_only lookup ρ hf hr _ _ _ hat
  have hne : ∀ a k, Carries f.events a n k → n ≠ f.node := by
    rintro a k ⟨q, b', -, h⟩ rfl
    rw [hf.root f.node f.children rfl] at h
    rcases h with ⟨-, h | h⟩ | ⟨-, h, -⟩ <;> cases h
  constructor
  · rintro ⟨a, k, hc, g, hg, hx, hd⟩
    exact hne a k hc ((C16_once lookup ρ hf hr).1 _ _ _ _ _ ((C16_claimed lookup ρ hf hr hc hg hx hm).1 hd) hat).1
  · rintro ⟨a, k, hc, g, hg, hx, hcl, hp⟩
    by_cases ho : n.kind = .typeSpec ∧ PackageOnly lookup c
    · exact ho.2
    · exact absurd ((C16_once lookup ρ hf hr).1 _ _ _ _ _ (((C16_claimed lookup ρ hf hr hc hg hx hm).2 hcl hp).1 ho) hat).1 (hne a k hc)

theorem registers_unique {g : String} {a b : List Marker} (ha : (g, a) ∈ Shipped.registers) (hb : (g, b) ∈ Shipped.registers) : a = b := by
  have hw : GoMap.WF Shipped.registers := by
    show (Shipped.registers.map (·.1)).Nodup
    simp [Shipped.registers]
  have := (GoMap.get_eq_some hw).2 ha
  rw [(GoMap.get_eq_some hw).2 hb] at this
  exact (Option.some.inj this).symm

/-- A text that is found for packages is found for types, if the name of its definition is one for types. -/
theorem lookup_type {h : List (Def Loaded)} {text : Str} {d : Def Loaded} (hl : (Registry.after h).lookup text .package = some d) {e : Def Loaded} (he : e ∈ h) (hn : e.name = d.name) (ht : e.target = .type) :
    ∃ d', (Registry.after h).lookup text .type = some d' := by
  have key : ∀ n, GoMap.get (tableOf (Registry.after h) .package) n = some d → ∃ d', GoMap.get (tableOf (Registry.after h) .type) n = some d' := by
    intro n hg
    rcases after_get h n .package (.inl rfl) with ⟨d1, h1, -, h2, -⟩ | ⟨h1, -⟩
    · rw [hg] at h1; cases h1
      rcases after_get h n .type (.inr (.inl rfl)) with ⟨d2, h3, -⟩ | ⟨-, h3 | h3⟩
      · exact ⟨d2, h3⟩
      · exact absurd (.inr (.inl rfl)) h3
      · exact absurd ⟨hn.trans h2, ht⟩ (h3 e he)
    · rw [hg] at h1; cases h1
  rw [lookup_eq _ _ _ (.inl rfl)] at hl
  rw [lookup_eq _ _ _ (.inr (.inl rfl))]
  unfold tryAnonLookup at *
  simp only at hl ⊢
  split at hl
  · rename_i d1 h1
    cases hl
    obtain ⟨d', h2⟩ := key _ h1
    exact ⟨d', by rw [h2]⟩
  · obtain ⟨d', h2⟩ := key _ hl
    split
    · exact ⟨_, rfl⟩
    · exact ⟨d', h2⟩

/-- Each value is that of a comment with the marker, which is not on a type or a field if there is a marker of that name for types. -/
theorem package_source (hh : Shipped.history gs = some hist) (hc : Chosen gs .package m d) (hf : ∀ f ∈ files, f.WF) (hres : markersOf hist E σ τ files = some (some res)) {vals : List (Str × Value)}
    (hv : vals ∈ (GoMap.get res m.name).getD []) : ∃ f ∈ files, ∃ c, f.Marks c ∧ ('+' :: m.name) <+: textOf c ∧ (∀ vals', Written E m.name d c vals' → vals' = vals) ∧
      ∀ n, ¬ InDoc f n c ∧ ((∃ m' d', Chosen gs .type m' d' ∧ m'.name = m.name) → ¬ Above f n c) := by
  have hk : m.name = (String.ofList m.name).toList := by simp
  rw [hk] at hv
  obtain ⟨f, hff, ρ, r, c, b, d', hr, hat, hl, hn, hp⟩ := (mem_packageValues hf hres _ _).1 hv
  have hn : d'.name = m.name := by simpa using congrArg String.toList hn
  obtain ⟨g', hg', h1, h2⟩ := C16_only (lookupIn hist) ρ (hf f hff) hr _ _ _ hat
  have hmk : f.Marks c := ⟨g', hg', h1, h2⟩
  obtain ⟨raw, hraw⟩ := text_plus h2
  have hl' := hl
  rw [hraw] at hl'
  obtain ⟨_, _, ms', hms', m', hm', hdef, ht', hpre⟩ := C68_only hh (show (Registry.after hist).lookup ('+' :: raw) .package = some d' from hl')
  refine ⟨f, hff, c, hmk, ?_, fun vals' hw => ?_, fun n => ⟨(attached_off (hf f hff) hr hat n).1, ?_⟩⟩
  · rw [hraw, ← hn, (define_name hdef).1]
    exact List.cons_prefix_cons.2 ⟨rfl, hpre⟩
  · obtain ⟨df, _, _, h3, h4⟩ := written_parsed hh hc hw
    have : some df = some d' := h3.symm.trans hl
    cases this
    rw [hp] at h4
    cases h4
    rfl
  · rintro ⟨m1, d1, ⟨g1, hg1, ms1, hms1, hm1, ht1, df1, hdf1, -⟩, hn1⟩ hab
    obtain ⟨ms2, hms2, hall⟩ := (history_mem hh).2 g1 hg1
    have : ms2 = ms1 := registers_unique hms2 hms1
    subst this
    obtain ⟨e, he, hed⟩ := hall m1 hm1
    obtain ⟨k1, k2⟩ := define_name hed
    obtain ⟨d2, h5⟩ := lookup_type (show (Registry.after hist).lookup (textOf c) .package = some d' from hl) he (k1.trans (hn1.trans hn.symm)) (k2.trans ht1)
    have h6 : lookupIn hist (textOf c) .type = none := ((attached_off (hf f hff) hr hat n).2 hab).1
    have h7 : lookupIn hist (textOf c) .type = some d2 := h5
    rw [h6] at h7
    cases h7

/-- Each value is that of a comment with the marker. -/
theorem package_sound (hh : Shipped.history gs = some hist) (hc : Chosen gs .package m d) (hf : ∀ f ∈ files, f.WF) (hres : markersOf hist E σ τ files = some (some res)) {vals : List (Str × Value)}
    (hv : vals ∈ (GoMap.get res m.name).getD []) : ∃ f ∈ files, ∃ c, f.Marks c ∧ ('+' :: m.name) <+: textOf c ∧ ∀ vals', Written E m.name d c vals' → vals' = vals := by
  obtain ⟨f, h1, c, h2, h3, h4, -⟩ := package_source hh hc hf hres hv
  exact ⟨f, h1, c, h2, h3, h4⟩

theorem attached_free {Def : Type} {lookup : Str → Collect.Target → Option Def} {f : File} (hf : f.WF) {c : Comment} (hc : f.Marks c) (hp : FreeStanding f c)
    {σ : Sched} {r : List (Node × List MarkerComment)} (hr : associateFile lookup σ f.groups f.node f.children = some r) : ∃ b, Attached r f.node c b := by
  obtain ⟨g, hg, hcg, hm⟩ := hc
  obtain ⟨n, b, ha⟩ := C16_all_partial lookup σ hf hr hg hcg hm hp.1
  by_cases hn : n = f.node
  · subst hn; exact ⟨b, ha⟩
  · obtain ⟨a, k, hk, g', hg', hc', ⟨-, h⟩ | ⟨-, h⟩⟩ := C16_sound lookup σ hf hr hn ha
    · exact absurd ⟨a, k, hk, g', hg', hc', h⟩ (hp.2 n).1
    · exact absurd ⟨a, k, hk, g', hg', hc', h⟩ (hp.2 n).2

/-- All comments with the marker that stand by themselves have their values. -/
theorem package_free (hh : Shipped.history gs = some hist) (hc : Chosen gs .package m d) (hf : ∀ f ∈ files, f.WF) (hres : markersOf hist E σ τ files = some (some res)) {f : File} (hff : f ∈ files)
    {c : Comment} (hmk : f.Marks c) (hpl : FreeStanding f c) {vals : List (Str × Value)} (hw : Written E m.name d c vals) : vals ∈ (GoMap.get res m.name).getD [] := by
  have hk : m.name = (String.ofList m.name).toList := by simp
  obtain ⟨df, h0, _, h3, h4⟩ := written_parsed hh hc hw
  obtain ⟨r, hass⟩ := C16_no_panic (lookupIn hist) Sched.fifo (hf f hff)
  obtain ⟨b, hat⟩ := attached_free (hf f hff) hmk hpl hass
  rw [hk]
  refine (mem_packageValues hf hres _ _).2 ⟨f, hff, _, r, c, b, df, hass, hat, h3, ?_, h4⟩
  rw [(define_name h0).1]

/-- All comments with the marker have their values, if they are placed and no marker of a type begins like that. -/
theorem package_complete (hh : Shipped.history gs = some hist) (hc : Chosen gs .package m d) (hf : ∀ f ∈ files, f.WF) (hres : markersOf hist E σ τ files = some (some res)) {f : File} (hff : f ∈ files)
    {c : Comment} (hmk : f.Marks c) (hpl : Placed f c) (hno : lookupIn hist (textOf c) .type = none) {vals : List (Str × Value)} (hw : Written E m.name d c vals) :
    vals ∈ (GoMap.get res m.name).getD [] := by
  have hk : m.name = (String.ofList m.name).toList := by simp
  obtain ⟨df, h0, _, h3, h4⟩ := written_parsed hh hc hw
  obtain ⟨r, hass⟩ := C16_no_panic (lookupIn hist) Sched.fifo (hf f hff)
  obtain ⟨b, hat⟩ := attached_placed (hf f hff) hmk hpl ⟨hno, df, h3⟩ hass
  rw [hk]
  refine (mem_packageValues hf hres _ _).2 ⟨f, hff, _, r, c, b, df, hass, hat, h3, ?_, h4⟩
  rw [(define_name h0).1]

/-- A text that no marker of a type is a prefix of. -/
theorem no_type (hh : Shipped.history gs = some hist) {raw : Str} (h : ∀ m ∈ Shipped.table, m.target = .type → ¬ m.name <+: raw) : lookupIn hist ('+' :: raw) .type = none := by
  cases hl : lookupIn hist ('+' :: raw) .type with
  | none => rfl
  | some d' =>
    obtain ⟨g', _, ms', hms', m', hm', _, ht', hp⟩ := C68_only hh (show (Registry.after hist).lookup ('+' :: raw) .type = some d' from hl)
    exact absurd hp (h m' (Shipped.mem_table hms' hm') ht')

/-- The package has markers if its types can be listed. -/
theorem markersOf_some {syn : Syntax} {infos : List (TypeInfo (List (List Char × Value)))} (h : typesOf hist E syn σ files = some (some infos)) (τ : Sched) :
    ∃ res, markersOf hist E σ τ files = some (some res) := by
  unfold typesOf eachInfo at h
  unfold markersOf packageValues
  split at h
  · cases h
  · rename_i rs hrs
    rw [hrs]
    split at h
    · cases h
    · rename_i hb
      simp only [if_neg hb]
      exact ⟨_, rfl⟩

end Verif.Markers.Source
