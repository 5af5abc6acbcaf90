import Verif.Markers.RegistrySpec
/-!
# Property C13: marker names and lookup
-/
namespace Verif.Markers
open Spec

variable {π : Type}

theorem splitMarker_plain {body : Str} (h : '=' ∉ body) : splitMarker ('+' :: body) = (body, body, []) := by
  simp [splitMarker, splitMarkerBody, Text.cut_none.2 h]

theorem splitMarker_nocolon {anon rest : Str} (h : '=' ∉ anon) (hc : ':' ∉ anon) :
    splitMarker ('+' :: (anon ++ '=' :: rest)) = (anon, anon, rest) := by
  simp [splitMarker, splitMarkerBody, Text.cut_append h, Text.split_not_mem hc]

theorem splitMarker_colon {pre last rest : Str} (h : '=' ∉ pre ++ ':' :: last) (hc : ':' ∉ last) :
    splitMarker ('+' :: (pre ++ ':' :: last ++ '=' :: rest)) = (pre, pre ++ ':' :: last, rest) := by
  have hl : 0 < (Text.split ':' pre).length := List.length_pos_iff.2 Text.split_ne_nil
  simp only [splitMarker, splitMarkerBody, List.tail_cons, Text.cut_append h, Text.split_concat hc, List.length_append,
    List.length_singleton, List.dropLast_concat, Text.join_split]
  rw [if_pos (by omega)]

/-! ## The registry as a last-write-wins map -/

def tableOf (r : Registry π) : Target → List (Str × Def π)
  | .package => r.forPkg
  | .type => r.forType
  | .field => r.forField
  | .other _ => []

theorem lookup_eq (r : Registry π) (raw : Str) (t : Target) (ht : Valid t) : r.lookup raw t = tryAnonLookup raw (tableOf r t) := by
  rcases ht with rfl | rfl | rfl <;> rfl

theorem get_register (r : Registry π) (d : Def π) (n : Str) (t : Target) :
    GoMap.get (tableOf (r.register d).1 t) n =
      if d.name = n ∧ d.target = t ∧ Valid t then some d else GoMap.get (tableOf r t) n := by
  unfold Registry.register Valid
  cases hd : d.target <;> cases t <;> simp [tableOf, GoMap.get_put, eq_comm] <;>
    (intro h1 h2; exact absurd h1.symm h2)

theorem after_get (h : List (Def π)) (n : Str) (t : Target) (ht : Valid t) :
    Found h n t (GoMap.get (tableOf (Registry.after h) t) n) := by
  have key : ∀ (l : List (Def π)) (done : List (Def π)) (r : Registry π), Found done n t (GoMap.get (tableOf r t) n) →
      Found (done ++ l) n t (GoMap.get (tableOf (l.foldl (fun r d => (r.register d).1) r) t) n) := by
    intro l
    induction l with
    | nil => intro done r h; simpa using h
    | cons d l ih =>
      intro done r hr
      rw [List.foldl_cons]
      have := ih (done ++ [d]) (r.register d).1 ?_
      · simpa using this
      · rw [get_register]
        by_cases hm : d.name = n ∧ d.target = t ∧ Valid t
        · rw [if_pos hm]
          exact .inl ⟨d, rfl, ht, hm.1, hm.2.1, done, [], rfl, by simp⟩
        · rw [if_neg hm]
          have hm' : ¬ (d.name = n ∧ d.target = t) := fun h => hm ⟨h.1, h.2, ht⟩
          rcases hr with ⟨d', h1, h2, h3, h4, b, a, h5, h6⟩ | ⟨h1, h2⟩
          · refine .inl ⟨d', h1, h2, h3, h4, b, a ++ [d], by rw [h5]; simp, ?_⟩
            intro x hx
            rcases List.mem_append.1 hx with hx | hx
            · exact h6 x hx
            · rw [List.mem_singleton.1 hx]; exact hm'
          · refine .inr ⟨h1, .inr ?_⟩
            rcases h2 with h2 | h2
            · exact absurd ht h2
            · intro x hx
              rcases List.mem_append.1 hx with hx | hx
              · exact h2 x hx
              · rw [List.mem_singleton.1 hx]; exact hm'
  have := key h [] {} (.inr ⟨by rcases ht with rfl | rfl | rfl <;> rfl, .inr (by intro d hd; cases hd)⟩)
  simpa [Registry.after] using this

/-- **C13** for `+name`: after any history of registrations, the lookup returns the last definition registered for exactly that
name and target, and nothing if there is none. -/
theorem C13_lookup_plain (h : List (Def π)) (name : Str) (t : Target) (hn : '=' ∉ name) :
    Found h name t ((Registry.after h).lookup ('+' :: name) t) := by
  by_cases ht : Valid t
  · rw [lookup_eq _ _ _ ht, tryAnonLookup, splitMarker_plain hn]
    have := after_get h name t ht
    cases hg : GoMap.get (tableOf (Registry.after h) t) name with
    | none => simp only [hg] at this ⊢; exact this
    | some d => simp only [hg] at this ⊢; exact this
  · refine .inr ⟨?_, .inl ht⟩
    cases t <;> simp [Valid] at ht
    rfl

/-- **C13** for `+name=value` without a colon in the name. -/
theorem C13_lookup_value (h : List (Def π)) (name value : Str) (t : Target) (hn : '=' ∉ name) (hc : ':' ∉ name) :
    Found h name t ((Registry.after h).lookup ('+' :: (name ++ '=' :: value)) t) := by
  by_cases ht : Valid t
  · rw [lookup_eq _ _ _ ht, tryAnonLookup, splitMarker_nocolon hn hc]
    have := after_get h name t ht
    cases hg : GoMap.get (tableOf (Registry.after h) t) name with
    | none => simp only [hg] at this ⊢; exact this
    | some d => simp only [hg] at this ⊢; exact this
  · refine .inr ⟨?_, .inl ht⟩
    cases t <;> simp [Valid] at ht
    rfl

/-- **C13** for `+a:b:c=value`: the definition of the full name `a:b:c` if there is one, otherwise that of `a:b`. -/
theorem C13_lookup_field (h : List (Def π)) (pre last value : Str) (t : Target) (hn : '=' ∉ pre ++ ':' :: last) (hc : ':' ∉ last) :
    let r := (Registry.after h).lookup ('+' :: (pre ++ ':' :: last ++ '=' :: value)) t
    (NeverRegistered h (pre ++ ':' :: last) t → Found h pre t r) ∧
    (¬ NeverRegistered h (pre ++ ':' :: last) t → Found h (pre ++ ':' :: last) t r) := by
  intro r
  by_cases ht : Valid t
  · have e : r = _ := lookup_eq _ _ _ ht
    rw [tryAnonLookup, splitMarker_colon hn hc] at e
    have h1 := after_get h (pre ++ ':' :: last) t ht
    have h2 := after_get h pre t ht
    simp only at e
    cases hg : GoMap.get (tableOf (Registry.after h) t) (pre ++ ':' :: last) with
    | none =>
      rw [hg] at e h1
      simp only at e
      rw [e]
      refine ⟨fun _ => h2, fun hne => ?_⟩
      rcases h1 with ⟨d, h1, _⟩ | ⟨_, h1 | h1⟩
      · cases h1
      · exact absurd ht h1
      · exact absurd h1 hne
    | some d =>
      rw [hg] at e h1
      simp only at e
      rw [e]
      refine ⟨fun hne => ?_, fun _ => h1⟩
      rcases h1 with ⟨d', _, _, h3, h4, b, a, h5, _⟩ | ⟨h1, _⟩
      · exact absurd ⟨h3, h4⟩ (hne d' (by rw [h5]; simp))
      · cases h1
  · have : r = none := by
      cases t <;> simp [Valid] at ht
      rfl
    rw [this]
    exact ⟨fun _ => .inr ⟨rfl, .inl ht⟩, fun _ => .inr ⟨rfl, .inl ht⟩⟩

/-- **C13**, splitting: the three marker forms. -/
theorem C13_split :
    (∀ body : Str, '=' ∉ body → splitMarker ('+' :: body) = (body, body, [])) ∧
    (∀ name value : Str, '=' ∉ name → ':' ∉ name → splitMarker ('+' :: (name ++ '=' :: value)) = (name, name, value)) ∧
    (∀ pre last value : Str, '=' ∉ pre ++ ':' :: last → ':' ∉ last →
      splitMarker ('+' :: (pre ++ ':' :: last ++ '=' :: value)) = (pre, pre ++ ':' :: last, value)) :=
  ⟨fun _ => splitMarker_plain, fun _ _ => splitMarker_nocolon, fun _ _ _ => splitMarker_colon⟩

/-- Every marker has one of the three forms, so that the theorems above cover all markers. -/
theorem C13_forms (body : Str) :
    '=' ∉ body ∨ (∃ name value, body = name ++ '=' :: value ∧ '=' ∉ name ∧ ':' ∉ name) ∨
    (∃ pre last value, body = pre ++ ':' :: last ++ '=' :: value ∧ '=' ∉ pre ++ ':' :: last ∧ ':' ∉ last) := by
  by_cases h : '=' ∈ body
  · right
    cases hc : Text.cut '=' body with
    | none => exact absurd h (Text.cut_none.1 hc)
    | some p =>
      obtain ⟨anon, value⟩ := p
      obtain ⟨rfl, hn⟩ := Text.cut_some.1 hc
      rcases Text.last_sep ':' anon with hl | ⟨pre, last, rfl, hl⟩
      · exact .inl ⟨anon, value, rfl, hn, hl⟩
      · exact .inr ⟨pre, last, value, rfl, hn, hl⟩
  · exact .inl h

/-- A history with a re-registration and both `a` and `a:b`: the hypotheses are met, and the full name wins. -/
example : ((Registry.after [⟨"a".toList, .type, 1⟩, ⟨"a:b".toList, .type, 2⟩, ⟨"a:b".toList, .type, 3⟩, ⟨"a:b".toList, .field, 4⟩]).lookup
    "+a:b=x".toList .type).map (·.payload) = some 3 := by decide +kernel
example : ((Registry.after [⟨"a".toList, .type, 1⟩]).lookup "+a:b=x".toList .type).map (·.payload) = some 1 := by decide +kernel

end Verif.Markers
