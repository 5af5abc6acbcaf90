import Verif.Help.ShippedTheorems
/-!
# C90: what the help says about deprecated markers
-/
namespace Verif.Help
open Spec Shipped
open Markers (Str Def Target Marker)

/-- The markers of deepcopy-gen, which controller-gen accepts but does not recommend. -/
def Spec.ofDeepcopyGen (n : Str) : Prop := n = "k8s:deepcopy-gen".toList ∨ n = "k8s:deepcopy-gen:interfaces".toList

instance (n : Str) : Decidable (ofDeepcopyGen n) := inferInstanceAs (Decidable (_ ∨ _))

def checkDeprecated (es : List Shipped.Entry) (e : Shipped.Entry) : Bool :=
  match e.help.deprecated with
  | none => !decide (ofDeepcopyGen e.marker.name)
  | some n => decide (ofDeepcopyGen e.marker.name) && !decide (ofDeepcopyGen n) && es.any fun e' => e'.marker.name == n && decide (e'.marker.target = e.marker.target)

set_option maxRecDepth 100000 in
theorem checkDeprecated_sections : sections.all (fun s => s.2.all (checkDeprecated s.2)) = true := by decide +kernel

variable {gs : List String} {ops : List Op}

/-- **C90** (deprecated markers).  The markers of deepcopy-gen, and no others, are shown as deprecated, each in favour of a marker that is listed too, is for the same target, and is not deprecated itself. -/
theorem C90_deprecated (σ : Sched) (h : calls gs = some ops) : ∃ cats, helpForLevels σ 4 (HelpRegistry.after ops) .byCategory = some (.json cats) ∧
    ∀ c ∈ cats, ∀ doc ∈ c.markers, (doc.deprecated ≠ none ↔ ofDeepcopyGen doc.name) ∧
      ∀ n, doc.deprecated = some n → ∃ c' ∈ cats, ∃ doc' ∈ c'.markers, doc'.name = n ∧ doc'.target = doc.target ∧ doc'.deprecated = none := by
  refine ⟨_, C46_json _ _ _, ?_⟩
  have one : ∀ c ∈ byCategory σ (HelpRegistry.after ops) .byCategory, ∀ doc ∈ c.markers, (doc.deprecated ≠ none ↔ ofDeepcopyGen doc.name) ∧
      ∀ n, doc.deprecated = some n → ¬ ofDeepcopyGen n ∧ ∃ c' ∈ byCategory σ (HelpRegistry.after ops) .byCategory, ∃ doc' ∈ c'.markers, doc'.name = n ∧ doc'.target = doc.target := by
    intro c hc doc hdoc
    obtain ⟨g, hg, es, hes, e, he, d, -, hof, -, hd⟩ := shown_entry σ h hc hdoc
    have hE := entryFor (sections_table hes e he) hof hd
    have hk := List.all_eq_true.1 (List.all_eq_true.1 checkDeprecated_sections _ hes) e he
    rw [(hd.given _ rfl).2.2, hE.name, hE.target]
    unfold checkDeprecated at hk
    cases hdep : e.help.deprecated with
    | none =>
      rw [hdep] at hk
      exact ⟨⟨fun x => (x rfl).elim, fun x => by simp [x] at hk⟩, nofun⟩
    | some n =>
      rw [hdep] at hk
      simp only [Bool.and_eq_true, decide_eq_true_eq, Bool.not_eq_true', decide_eq_false_iff_not, List.any_eq_true, beq_iff_eq] at hk
      obtain ⟨⟨k1, k2⟩, e', he', k3, k4⟩ := hk
      refine ⟨⟨fun _ => k1, fun _ => nofun⟩, fun n' hn => ?_⟩
      cases hn
      have hs : (g, es.map (·.marker)) ∈ Markers.Shipped.registers := by
        rw [← sections_markers]
        exact List.mem_map.2 ⟨_, hes, rfl⟩
      obtain ⟨c', hc', doc', hdoc', -, hE', -⟩ := documented σ h hg hs (List.mem_map.2 ⟨e', he', rfl⟩)
      exact ⟨k2, c', hc', doc', hdoc', hE'.name.trans k3, by rw [hE'.target, k4]⟩
  intro c hc doc hdoc
  refine ⟨(one c hc doc hdoc).1, fun n hn => ?_⟩
  obtain ⟨k, c', hc', doc', hdoc', h1, h2⟩ := (one c hc doc hdoc).2 n hn
  refine ⟨c', hc', doc', hdoc', h1, h2, ?_⟩
  have h3 := (one c' hc' doc' hdoc').1
  rw [h1] at h3
  cases hx : doc'.deprecated with
  | none => rfl
  | some _ => exact (k (h3.1 (by rw [hx]; nofun))).elim

/-- With `object`, such a marker is listed, so that this is about something. -/
example (σ : Sched) (h : calls ["object"] = some ops) : ∃ cats, helpForLevels σ 4 (HelpRegistry.after ops) .byCategory = some (.json cats) ∧ ∃ c ∈ cats, ∃ doc ∈ c.markers, ∃ n, doc.deprecated = some n := by
  obtain ⟨cats, h1, h2⟩ := C90_deprecated σ h
  refine ⟨cats, h1, ?_⟩
  have h1' := (C46_json σ (HelpRegistry.after ops) .byCategory).symm.trans h1
  cases h1'
  obtain ⟨c, hc, doc, hdoc, -, he, -⟩ := documented σ h (g := "object") (by simp) (ms := Markers.Shipped.objectMarkers) (by simp [Markers.Shipped.registers]) (m := Markers.Shipped.objectMarkers[1]) (List.getElem_mem _)
  exact ⟨c, hc, doc, hdoc, Option.ne_none_iff_exists'.1 ((h2 c hc doc hdoc).1.2 (.inl he.name))⟩

end Verif.Help
