import Verif.Markers.SourceShippedTheorems
import Verif.Common.All2
/-!
# The values of a package-level marker, one for each comment
-/
namespace Verif.Markers.Source
open Verif Verif.Markers.Collect Verif.Markers.Doc Verif.Markers.Spec Verif.GoMap

/-- `l` lists comments of a file and the values of a marker in them: each comment once, with what it reads; and all comments that are placed. -/
structure Lists (E : Env) (name : List Char) (d : Definition) (f : File) (l : List (Comment × List (List Char × Value))) : Prop where
  once : (l.map (·.1)).Nodup
  sound : ∀ e ∈ l, f.Marks e.1 ∧ Reads E name d e.1 e.2
  complete : ∀ c, f.Marks c → Placed f c → ∀ vals, Reads E name d c vals → (c, vals) ∈ l

section
variable {Def Val Err : Type} {lookup : Str → Collect.Target → Option Def} {name : Def → String} {parse : Def → Str → Except Err Val}

theorem mem_of_get {α β : Type} [DecidableEq α] {l : List (α × β)} {k : α} {v : β} (h : GoMap.get l k = some v) : (k, v) ∈ l := by
  induction l with
  | nil => cases h
  | cons e l ih =>
    unfold GoMap.get at h
    split at h
    · rename_i hk; cases h; rw [← hk]; exact List.mem_cons_self
    · exact List.mem_cons_of_mem _ (ih h)

/-- The comments of a list that have a value, with it. -/
def valued (g : MarkerComment → Option Val) (ms : List MarkerComment) : List (Comment × Val) := ms.filterMap fun m => (g m).map fun v => (m.comment, v)

theorem valued_snd (g : MarkerComment → Option Val) (ms : List MarkerComment) : (valued g ms).map (·.2) = ms.filterMap g := by
  unfold valued
  rw [List.map_filterMap]
  congr 1
  funext m
  cases g m <;> rfl

theorem valued_fst (g : MarkerComment → Option Val) (ms : List MarkerComment) : ((valued g ms).map (·.1)).Sublist (ms.map (·.comment)) := by
  unfold valued
  induction ms with
  | nil => simp
  | cons m ms ih =>
    cases h : g m with
    | none => rw [List.filterMap_cons_none (by rw [h]; rfl)]; exact ih.cons _
    | some v => rw [List.filterMap_cons_some (by rw [h]; rfl)]; exact ih.cons₂ _

theorem flatMap_zipWith {α β γ δ : Type} (g : α → β → γ) (k : γ → List δ) : ∀ (l : List α) (m : List β), (List.zipWith g l m).flatMap k = ((l.zip m).map fun p => k (g p.1 p.2)).flatten
  | [], _ => by simp
  | _ :: _, [] => by simp
  | a :: l, b :: m => by simp [flatMap_zipWith g k l m]

theorem all2_zip {α β γ : Type} {R : α → γ → Prop} (k : α × β → γ) : ∀ {l : List α} {m : List β}, l.length = m.length → (∀ p ∈ l.zip m, R p.1 (k p)) → All2 R l ((l.zip m).map k)
  | [], [], _, _ => .nil
  | [], _ :: _, h, _ => by simp at h
  | _ :: _, [], h, _ => by simp at h
  | a :: l, b :: m, h, hR => .cons (hR (a, b) (by simp)) (all2_zip k (by simpa using h) fun p hp => hR p (by simp [hp]))

/-- The values of a package-level marker are those of the comments that are attached to the package and have its definition, each once, file by file. -/
theorem packageValues_list {σ : Nat → Sched} {τ : Sched} {files : List File} (h : ∀ f ∈ files, f.WF) {vals : Values Val} (hv : packageValues lookup name parse σ τ files = some (some vals)) (k : String) :
    ∃ L : List (List (Comment × Val)), (GoMap.get vals k.toList).getD [] = L.flatten.map (·.2) ∧ All2 (fun f l => (l.map (·.1)).Nodup ∧
      ∀ c v, (c, v) ∈ l ↔ ∃ ρ r b d, associateFile lookup ρ f.groups f.node f.children = some r ∧ Attached r f.node c b ∧ lookup (textOf c) .package = some d ∧ name d = k ∧ parse d (textOf c) = .ok v) files L := by
  unfold packageValues at hv
  split at hv
  · cases hv
  rename_i rs hrs
  split at hv
  · cases hv
  obtain ⟨hlen, hz⟩ := associate_zip hrs
  have hwf : ∀ w ∈ List.zipWith (fileValues lookup name parse) files rs, GoMap.WF w := by
    intro w hw
    rw [mem_zipWith] at hw
    obtain ⟨⟨f, r⟩, _, rfl⟩ := hw
    have := parseNode_wf (lookup := lookup) (name := name) (parse := parse) f.node.target ((GoMap.get r f.node).getD []) [] [] (by simp [GoMap.WF, keys])
    simp only [fileValues, GoMap.WF, keys, List.map_map, Function.comp_def] at this ⊢
    rw [show (fun e : String × List Val => e.1.toList) = String.toList ∘ Prod.fst from rfl, ← List.map_map]
    exact List.pairwise_map.2 (List.Pairwise.imp (fun h1 h2 => h1 (String.toList_injective h2)) this)
  obtain ⟨res, hres, hval, _⟩ := C69_values τ hwf k.toList
  rw [hres] at hv
  cases hv
  let g := valueFor lookup name parse .package k
  refine ⟨(files.zip rs).map fun p => valued g ((GoMap.get p.2 p.1.node).getD []), ?_, all2_zip _ hlen fun p hp => ?_⟩
  · rw [hval, flatMap_zipWith, List.map_flatten, List.map_map]
    congr 1
    refine List.map_congr_left fun p hp => ?_
    have hf := h p.1 (List.of_mem_zip hp).1
    rw [Function.comp_apply, valued_snd, fileValues, valuesIn_toList (parseNode_wf _ _ _ _ (by simp [GoMap.WF, keys])), (C16_values lookup name parse p.1.node _).1 k, target_file hf]
  · obtain ⟨f, r⟩ := p
    have hf := h f (List.of_mem_zip hp).1
    obtain ⟨j, hj⟩ := hz f r hp
    obtain ⟨ms, h1, h2⟩ := get_of_file hf hj
    simp only [h1, Option.getD_some]
    refine ⟨(valued_fst _ _).nodup ((C16_once lookup (σ j) hf hj).2 _ _ (mem_of_get h1)), fun c v => ?_⟩
    simp only [valued, List.mem_filterMap, Option.map_eq_some_iff, Prod.mk.injEq]
    constructor
    · rintro ⟨⟨c', b⟩, h3, w, h4, rfl, rfl⟩
      simp only [g, valueFor] at h4
      split at h4
      · cases h4
      · rename_i d hd
        split at h4
        · rename_i hn
          refine ⟨σ j, r, b, d, hj, (h2 c' b).2 h3, hd, hn, ?_⟩
          cases hp : parse d (trimSpace (c'.text.drop 2)) with
          | error e => rw [hp] at h4; cases h4
          | ok w => rw [hp] at h4; cases h4; exact hp
        · cases h4
    · rintro ⟨ρ, r', b, d, hr, ha, h4, h5, h6⟩
      refine ⟨⟨c, b⟩, (h2 c b).1 (attached_sched hf hr hj ha), v, ?_, rfl, rfl⟩
      simp only [g, valueFor]
      rw [show lookup (trimSpace (c.text.drop 2)) .package = some d from h4]
      simp only [if_pos h5, show parse d (trimSpace (c.text.drop 2)) = .ok v from h6]
      rfl
end

variable {gs : List String} {h : List (Def Loaded)} {E : Env} {g : String} {ms : List Marker} {m : Marker} {d : Def Loaded}

/-- The values of a marker of a chosen generator, for packages only, in a package all of whose comments with this marker are written as they should be. -/
theorem values_list (hh : Shipped.history gs = some h) (hg : g ∈ gs) (hms : (g, ms) ∈ Shipped.registers) (hm : m ∈ ms) (hd : m.define = some d) (ht : m.target = .package) (ha : Apart m.name)
    {files : List File} (hf : ∀ f ∈ files, f.WF)
    (hw : ∀ f ∈ files, ∀ c, f.Marks c → ('+' :: m.name) <+: textOf c → lookupIn h (textOf c) .package = some d → ∃ vals, Reads E m.name (m.parser d) c vals)
    {σ : Nat → Sched} {τ : Sched} {res : Values (List (Str × Value))} (hres : markersOf h E σ τ files = some (some res)) :
    ∃ L, (GoMap.get res m.name).getD [] = L.flatten.map (·.2) ∧ All2 (Lists E m.name (m.parser d)) files L := by
  have hk : m.name = (String.ofList m.name).toList := by simp
  obtain ⟨L, h1, h2⟩ := packageValues_list hf hres (String.ofList m.name)
  refine ⟨L, by rw [← h1, ← hk], h2.imp fun f hff l hl ⟨h3, h4⟩ => ⟨h3, ?_, ?_⟩⟩
  · rintro ⟨c, vals⟩ he
    obtain ⟨ρ, r, b, d', hr, hat, hlk, hn, hp⟩ := (h4 c vals).1 he
    have hn : d'.name = m.name := by simpa using congrArg String.toList hn
    obtain ⟨g', hg', h5, h6⟩ := C16_only (lookupIn h) ρ (hf f hff) hr _ _ _ hat
    have hmk : f.Marks c := ⟨g', hg', h5, h6⟩
    obtain ⟨raw, hraw⟩ := text_plus h6
    have hlk' := hlk
    rw [hraw] at hlk'
    obtain ⟨_, _, ms', hms', m', hm', hdef, ht', hpre⟩ := C68_only hh (show (Registry.after h).lookup ('+' :: raw) .package = some d' from hlk')
    have : m' = m := table_unique (Shipped.mem_table hms' hm') (Shipped.mem_table hms hm) ((define_name hdef).1.symm.trans hn) (ht'.trans ht.symm)
    subst this
    rw [hd] at hdef; cases hdef
    obtain ⟨vals', hr'⟩ := hw f hff c hmk (by rw [hraw]; exact List.cons_prefix_cons.2 ⟨rfl, hpre⟩) hlk
    have := (reads_parsed hh hg hms hm hd ht hr').2
    rw [this] at hp
    cases hp
    exact ⟨hmk, hr'⟩
  · intro c hc hp vals hr
    obtain ⟨h5, h6⟩ := reads_parsed hh hg hms hm hd ht hr
    obtain ⟨r, hass⟩ := C16_no_panic (lookupIn h) Sched.fifo (hf f hff)
    obtain ⟨b, hat⟩ := attached_placed (hf f hff) hc hp (packageOnly_of_apart hh hg hms hm hd ht ha hr) hass
    refine (h4 c vals).2 ⟨_, r, b, d, hass, hat, h5, ?_, h6⟩
    rw [(define_name hd).1]

end Verif.Markers.Source
