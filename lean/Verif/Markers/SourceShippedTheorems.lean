import Verif.Markers.SourceShipped
import Verif.Markers.SourceSpec
import Verif.Markers.ShippedTheorems
/-!
# The values of the package-level markers of controller-gen
-/
namespace Verif.Markers.Source
open Verif Verif.Markers.Collect Verif.Markers.Doc Verif.Markers.Spec Verif.GoMap

theorem text_plus {c : Comment} (h : isMarkerComment c.text = true) : ∃ raw, textOf c = '+' :: raw := by
  unfold isMarkerComment at h
  split at h
  · cases h
  · unfold textOf
    split at h
    · rename_i d raw e
      rw [e]
      have : d = '+' := by simpa using h
      exact ⟨raw, by rw [this]⟩
    · cases h

theorem prefix_comparable {α : Type} {a b s : List α} (h1 : a <+: s) (h2 : b <+: s) : a <+: b ∨ b <+: a := by
  rcases Nat.le_total a.length b.length with h | h
  · exact .inl (List.prefix_of_prefix_length_le h1 h2 h)
  · exact .inr (List.prefix_of_prefix_length_le h2 h1 h)

/-- A marker comment that is placed, and whose definition exists for packages only, is attached to the package. -/
theorem attached_placed {Def : Type} {lookup : Str → Collect.Target → Option Def} {f : File} (hf : f.WF) {c : Comment} (hc : f.Marks c) (hp : Placed f c) (ho : PackageOnly lookup c)
    {σ : Sched} {r : List (Node × List MarkerComment)} (hr : associateFile lookup σ f.groups f.node f.children = some r) : ∃ b, Attached r f.node c b := by
  obtain ⟨g, hg, hcg, hm⟩ := hc
  obtain ⟨n, b, ha⟩ := C16_all_partial lookup σ hf hr hg hcg hm fun g' hg' hc' => (hp g' hg' hc').1
  by_cases hn : n = f.node
  · subst hn; exact ⟨b, ha⟩
  · obtain ⟨a, k, hk, g', hg', hc', h⟩ := C16_sound lookup σ hf hr hn ha
    obtain ⟨h1, h2⟩ := (hp g' hg' hc').2 a n k hk
    rcases h with ⟨_, h⟩ | ⟨rfl, h⟩
    · exact absurd h h1
    · have hkind : n.kind = .field ∨ n.kind = .typeSpec := by
        obtain ⟨q, b', _, h3 | h3⟩ := hk
        · exact h3.2
        · exact .inr h3.2.1
      rcases hkind with h3 | h3
      · exact absurd h (h2 h3)
      · exact absurd ho (C16_package_only lookup σ hf hr h3 ha)

set_option maxRecDepth 100000 in
theorem default_table : (Shipped.table.all fun m => decide (m.name = "default".toList → m.target = .field)) = true := by decide +kernel

theorem parseWith_eq {E : Env} {m : Marker} {g : String} {ms : List Marker} (hms : (g, ms) ∈ Shipped.registers) (hm : m ∈ ms) {d : Def Loaded} (hd : m.define = some d) (text : Str) :
    parseWith E d text = m.parse E d text := by
  obtain ⟨e1, e2⟩ := define_name hd
  have hall : m ∈ Shipped.all := List.mem_flatMap.2 ⟨_, hms, hm⟩
  unfold parseWith
  cases hfind : Shipped.all.find? fun m => m.name = d.name ∧ m.target = d.target with
  | none => exact absurd (List.find?_eq_none.1 hfind m hall) (by simp [e1, e2])
  | some m' =>
    have h1 := List.find?_some hfind
    simp only [decide_eq_true_eq] at h1
    obtain ⟨⟨g', ms'⟩, hreg, hm'⟩ := List.mem_flatMap.1 (List.mem_of_find?_eq_some hfind)
    have : m' = m := table_unique (Shipped.mem_table hreg hm') (Shipped.mem_table hms hm) (h1.1.trans e1) (h1.2.trans e2)
    rw [this]

/-- No marker of a type begins like the name of this one. -/
def Apart (n : Str) : Prop := ∀ m ∈ Shipped.table, m.target = .type → ¬ m.name <+: n ∧ ¬ n <+: m.name

variable {gs : List String} {h : List (Def Loaded)} {E : Env} {g : String} {ms : List Marker} {m : Marker} {d : Def Loaded}

theorem reads_parsed (hh : Shipped.history gs = some h) (hg : g ∈ gs) (hms : (g, ms) ∈ Shipped.registers) (hm : m ∈ ms) (hd : m.define = some d) (ht : m.target = .package)
    {c : Comment} {vals : List (Str × Value)} (hr : Reads E m.name (m.parser d) c vals) : lookupIn h (textOf c) .package = some d ∧ parseWith E d (textOf c) = .ok vals := by
  obtain ⟨y, hy, h1, h2, h3⟩ := hr
  have hk : m.name ≠ "default".toList := fun hk => by
    have := of_decide_eq_true (List.all_eq_true.1 default_table m (Shipped.mem_table hms hm)) hk
    rw [ht] at this; cases this
  obtain ⟨h4, h5⟩ := C68_values hh hg hms hm hd hk h2 h1 h3
  rw [hy, parseWith_eq hms hm hd]
  rw [ht] at h4
  exact ⟨h4, h5⟩

theorem packageOnly_of_apart (hh : Shipped.history gs = some h) (hg : g ∈ gs) (hms : (g, ms) ∈ Shipped.registers) (hm : m ∈ ms) (hd : m.define = some d) (ht : m.target = .package) (ha : Apart m.name)
    {c : Comment} {vals : List (Str × Value)} (hr : Reads E m.name (m.parser d) c vals) : PackageOnly (lookupIn h) c := by
  refine ⟨?_, d, (reads_parsed hh hg hms hm hd ht hr).1⟩
  obtain ⟨y, hy, _⟩ := hr
  show lookupIn h (textOf c) .type = none
  cases hl : lookupIn h (textOf c) .type with
  | none => rfl
  | some d' =>
    rw [hy] at hl
    obtain ⟨g', _, ms', hms', m', hm', _, ht', hp⟩ := C68_only hh (show (Registry.after h).lookup ('+' :: (m.name ++ ':' :: y)) .type = some d' from hl)
    have := ha m' (Shipped.mem_table hms' hm') ht'
    rcases prefix_comparable hp (⟨_, rfl⟩ : m.name <+: m.name ++ ':' :: y) with h1 | h1
    · exact absurd h1 this.1
    · exact absurd h1 this.2

/-- The values of a marker of a chosen generator, for packages only, in a package all of whose comments with this marker are written as they should be: those of comments of its files; and of all such comments that are placed. -/
theorem values_of (hh : Shipped.history gs = some h) (hg : g ∈ gs) (hms : (g, ms) ∈ Shipped.registers) (hm : m ∈ ms) (hd : m.define = some d) (ht : m.target = .package) (ha : Apart m.name)
    {files : List File} (hf : ∀ f ∈ files, f.WF) (hw : ∀ f ∈ files, ∀ c, f.Marks c → ('+' :: m.name) <+: textOf c → ∃ vals, Reads E m.name (m.parser d) c vals)
    {σ : Nat → Sched} {τ : Sched} {res : Values (List (Str × Value))} (hres : markersOf h E σ τ files = some (some res)) :
    (∀ vals ∈ (GoMap.get res m.name).getD [], ∃ f ∈ files, ∃ c, f.Marks c ∧ Reads E m.name (m.parser d) c vals) ∧
    ∀ f ∈ files, ∀ c, f.Marks c → Placed f c → ∀ vals, Reads E m.name (m.parser d) c vals → vals ∈ (GoMap.get res m.name).getD [] := by
  have hk : m.name = (String.ofList m.name).toList := by simp
  constructor
  · intro vals hv
    rw [hk] at hv
    obtain ⟨f, hff, ρ, r, c, b, d', hr, hat, hl, hn, hp⟩ := (mem_packageValues hf hres _ _).1 hv
    have hn : d'.name = m.name := by simpa using congrArg String.toList hn
    obtain ⟨g', hg', h1, h2⟩ := C16_only (lookupIn h) ρ (hf f hff) hr _ _ _ hat
    have hmk : f.Marks c := ⟨g', hg', h1, h2⟩
    obtain ⟨raw, hraw⟩ := text_plus h2
    rw [hraw] at hl
    obtain ⟨_, _, ms', hms', m', hm', hdef, ht', hpre⟩ := C68_only hh (show (Registry.after h).lookup ('+' :: raw) .package = some d' from hl)
    have : m' = m := table_unique (Shipped.mem_table hms' hm') (Shipped.mem_table hms hm) ((define_name hdef).1.symm.trans hn) (ht'.trans ht.symm)
    subst this
    rw [hd] at hdef; cases hdef
    obtain ⟨vals', hr'⟩ := hw f hff c hmk (by rw [hraw]; exact List.cons_prefix_cons.2 ⟨rfl, hpre⟩)
    have := (reads_parsed hh hg hms hm hd ht hr').2
    rw [this] at hp
    cases hp
    exact ⟨f, hff, c, hmk, hr'⟩
  · intro f hff c hc hp vals hr
    obtain ⟨h1, h2⟩ := reads_parsed hh hg hms hm hd ht hr
    obtain ⟨r, hass⟩ := C16_no_panic (lookupIn h) Sched.fifo (hf f hff)
    obtain ⟨b, hat⟩ := attached_placed (hf f hff) hc hp (packageOnly_of_apart hh hg hms hm hd ht ha hr) hass
    rw [hk]
    refine (mem_packageValues hf hres _ _).2 ⟨f, hff, _, r, c, b, d, hass, hat, h1, ?_, h2⟩
    rw [(define_name hd).1]

end Verif.Markers.Source
