import Verif.Markers.ParseTheorems
/-!
# C14: raw arguments
-/
namespace Verif.Markers
open Verif.Markers.Spec

variable {U : Unicode}

/-- What can be written as a raw argument without further thought: some text without quotes and digits. -/
def Spec.RawText (x : Str) : Prop := x ≠ [] ∧ ∀ c ∈ x, c ≠ '"' ∧ c ≠ '`' ∧ c.isDigit = false

theorem lex_plain {r : Str} (h : ∀ c ∈ r, c ≠ '"' ∧ c ≠ '`' ∧ c.isDigit = false) : ∃ t rest, lex U true r = .ok (t, rest) ∧ rest <:+ r ∧ (r ≠ [] → rest.length < r.length) ∧ (t = .eof ↔ r = []) := by
  cases r with
  | nil => exact ⟨_, _, rfl, List.suffix_rfl, by simp, by simp⟩
  | cons c cs =>
    obtain ⟨h1, h2, h3⟩ := h c (by simp)
    unfold lex
    simp only
    by_cases hi : isIdentStart U c = true
    · rw [if_pos hi]
      refine ⟨_, _, rfl, (List.dropWhile_suffix _).trans (List.suffix_cons _ _), fun _ => ?_, by simp⟩
      have := (List.dropWhile_suffix (l := cs) (isIdentPart U)).length_le
      simp only [List.length_cons]
      omega
    · rw [if_neg hi, if_neg (by simp [h3]), if_neg h1, if_neg h2]
      by_cases hd : c = '.'
      · rw [if_pos hd]
        cases cs with
        | nil => exact ⟨_, _, rfl, List.suffix_cons _ _, by simp, by simp⟩
        | cons d ds =>
          have := (h d (by simp)).2.2
          simp only [this, Bool.false_and, Bool.false_eq_true, if_false]
          exact ⟨_, _, rfl, List.suffix_cons _ _, by simp, by simp⟩
      · rw [if_neg hd]
        exact ⟨_, _, rfl, List.suffix_cons _ _, by simp, by simp⟩

theorem drain_plain : ∀ {n : Nat} {s : Sc}, s.rest.length < n → (∀ c ∈ s.rest, c ≠ '"' ∧ c ≠ '`' ∧ c.isDigit = false) → ∃ s', drain U n s = .ok s' ∧ s'.rest = []
  | 0, _, h, _ => by omega
  | n + 1, s, h, hc => by
    have hsuf : s.rest.dropWhile isWs <:+ s.rest := List.dropWhile_suffix _
    obtain ⟨t, rest, h1, h2, h3, h4⟩ := lex_plain (U := U) (r := s.rest.dropWhile isWs) fun c hm => hc c (hsuf.mem hm)
    unfold drain scan
    simp only [h1]
    by_cases ht : t = .eof
    · rw [if_pos ht]
      refine ⟨_, rfl, ?_⟩
      rw [h4.1 ht] at h2
      exact List.suffix_nil.1 h2
    · rw [if_neg ht]
      have hl := h3 fun e => ht (h4.2 e)
      have := hsuf.length_le
      exact drain_plain (by simp only; omega) fun c hm => hc c (hsuf.mem (h2.mem hm))

/-- **C14** (raw arguments). `+name=x` yields the text `x` itself. -/
theorem C14_raw {E : Env} {d : Definition} {f : Field} {name x : Str} (hd : d.fields = [f]) (hf : f.name = []) (hr : f.arg = .raw) (hname : '=' ∉ name) (h : RawText x) :
    d.parse E ('+' :: (name ++ '=' :: x)) = .ok [([], .raw x)] := by
  have hanon : d.anonymousField = true := by simp [Definition.anonymousField, hd, hf]
  have hft : fieldsText d ('+' :: (name ++ '=' :: x)) = x := by
    have h := splitMarker_fields (rest := x) hname
    simp only [fieldsText, hanon]
    simpa using h
  obtain ⟨hne, hx⟩ := h
  obtain ⟨c, r, rfl⟩ := List.exists_cons_of_ne_nil hne
  obtain ⟨s, h1, h2⟩ := drain_plain (U := E.toUnicode) (n := (c :: r).length + 1) (s := Sc.init (c :: r)) (by simp [Sc.init]) hx
  have hpk : peek (Sc.init (c :: r)) = some c := rfl
  have hfield : d.field? [] = some f := by simp [Definition.field?, hd, hf]
  obtain ⟨s', h3⟩ := scan_eof (U := E.toUnicode) h2
  obtain ⟨m, hm⟩ : ∃ m, fuelFor (c :: r) .raw = m + 1 := ⟨fuelFor (c :: r) .raw - 1, by simp only [fuelFor]; omega⟩
  have hp : parse E (fuelFor (c :: r) .raw) .raw (c :: r) false (Sc.init (c :: r)) = .ok (.raw (c :: r), s) := by
    rw [hm]
    simp only [parse]
    rw [show (Sc.init (c :: r)).rest = c :: r from rfl, h1]
  simp only [Definition.parse, hft, parseArgs, hanon, hpk, hfield, hr, hp]
  simp [hd, hf, h3]

/-- `+k8s:deepcopy-gen=package,register`: the hypotheses hold. -/
example (E : Env) : (⟨[⟨[], .raw, false⟩], true⟩ : Definition).parse E ('+' :: ("k8s:deepcopy-gen".toList ++ '=' :: "package,register".toList)) = .ok [([], .raw "package,register".toList)] :=
  C14_raw rfl rfl rfl (by decide +kernel) ⟨by decide +kernel, by decide +kernel⟩

end Verif.Markers
