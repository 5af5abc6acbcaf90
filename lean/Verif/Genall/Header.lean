import Verif.Markers.Registry
/-!
# Model of the header of generated files: `crd/gen.go` 161-170, `rbac/parser.go` 379-387, `webhook/parser.go` 593-601, `deepcopy/gen.go` 137-146, `cmd/helpgen/main.go` 116-124
-/
namespace Verif.Genall
open Markers (Str)

/-- `strings.ReplaceAll` (library function) for a non-empty `old`, from left to right; the next `skip` characters are part of an occurrence that has been replaced. -/
def replaceFrom (old new : Str) : (skip : Nat) → Str → Str
  | _, [] => []
  | skip + 1, _ :: s => replaceFrom old new skip s
  | 0, c :: s => if old.isPrefixOf (c :: s) then new ++ replaceFrom old new (old.length - 1) s else c :: replaceFrom old new 0 s

def replaceAll (old new s : Str) : Str := replaceFrom old new 0 s

/-- The header (crd/gen.go:161-170, rbac/parser.go:379-387, webhook/parser.go:593-601, deepcopy/gen.go:137-146): `read` is `ReadFile`, `none` is its error. -/
def headerText (read : Str → Option Str) (headerFile year : Str) : Option Str :=
  match (if headerFile ≠ [] then read headerFile else some []) with
  | none => none
  | some text => some (replaceAll " YEAR".toList (' ' :: year) text)

/-- The header of cmd/helpgen (main.go:116-124). -/
def helpgenHeader (read : Str → Option Str) (headerFile year : Str) : Option Str :=
  match (if headerFile ≠ [] then read headerFile else some []) with
  | none => none
  | some text => some (replaceAll " YEAR".toList year text)

/-- Text with something between its pieces. -/
def interpose (sep : Str) : List Str → Str
  | [] => []
  | [p] => p
  | p :: ps => p ++ sep ++ interpose sep ps

theorem interpose_cons (sep p : Str) {ps : List Str} (h : ps ≠ []) : interpose sep (p :: ps) = p ++ sep ++ interpose sep ps := by
  cases ps with
  | nil => exact absurd rfl h
  | cons q qs => rfl

theorem replaceFrom_skip (old new : Str) : ∀ (k : Nat) (s : Str), replaceFrom old new k s = replaceFrom old new 0 (s.drop k)
  | 0, s => by simp
  | k + 1, [] => by simp [replaceFrom]
  | k + 1, c :: s => by rw [replaceFrom, replaceFrom_skip old new k s, List.drop_succ_cons]

/-- The pieces between the occurrences. -/
theorem replaceAll_pieces {old : Str} (hold : old ≠ []) (new : Str) : ∀ (n : Nat) (s : Str), s.length ≤ n →
    ∃ pieces, pieces ≠ [] ∧ (∀ p ∈ pieces, ¬ old <:+: p) ∧ s = interpose old pieces ∧ replaceAll old new s = interpose new pieces := by
  have hnil : ¬ old <:+: [] := fun h => hold (List.infix_nil.1 h)
  intro n
  induction n with
  | zero =>
    intro s hs
    have : s = [] := List.length_eq_zero_iff.1 (by omega)
    subst this
    exact ⟨[[]], by simp, by simpa using hnil, rfl, by simp [replaceAll, replaceFrom, interpose]⟩
  | succ n ih =>
    intro s hs
    cases s with
    | nil => exact ⟨[[]], by simp, by simpa using hnil, rfl, by simp [replaceAll, replaceFrom, interpose]⟩
    | cons c s =>
      by_cases hp : old.isPrefixOf (c :: s) = true
      · obtain ⟨t, ht⟩ := List.isPrefixOf_iff_prefix.1 hp
        have hlen : t.length ≤ n := by
          have := congrArg List.length ht
          have h0 : old.length ≠ 0 := fun h => hold (List.length_eq_zero_iff.1 h)
          simp only [List.length_append, List.length_cons] at this hs
          omega
        obtain ⟨ps, h1, h2, h3, h4⟩ := ih t hlen
        refine ⟨[] :: ps, by simp, ?_, ?_, ?_⟩
        · intro p hpp
          rcases List.mem_cons.1 hpp with rfl | hpp
          · exact hnil
          · exact h2 p hpp
        · rw [interpose_cons _ _ h1, ← h3, ← ht]; rfl
        · have hdrop : s.drop (old.length - 1) = t := by
            cases old with
            | nil => exact absurd rfl hold
            | cons o old =>
              simp only [List.cons_append, List.cons.injEq] at ht
              rw [← ht.2]; simp
          rw [replaceAll, replaceFrom, if_pos hp, replaceFrom_skip, hdrop, interpose_cons _ _ h1, ← h4]
          rfl
      · obtain ⟨ps, h1, h2, h3, h4⟩ := ih s (by simp only [List.length_cons] at hs; omega)
        cases ps with
        | nil => exact absurd rfl h1
        | cons p ps =>
          have hpre : ∀ sep, interpose sep ((c :: p) :: ps) = c :: interpose sep (p :: ps) := by
            intro sep
            cases ps <;> rfl
          refine ⟨(c :: p) :: ps, by simp, ?_, by rw [hpre, ← h3], ?_⟩
          · intro q hq
            rcases List.mem_cons.1 hq with rfl | hq
            · intro hin
              rcases List.infix_cons_iff.1 hin with hin | hin
              · refine hp (List.isPrefixOf_iff_prefix.2 (hin.trans ?_))
                rw [h3, ← hpre]
                cases ps with
                | nil => exact List.prefix_refl _
                | cons q ps => exact ⟨old ++ interpose old (q :: ps), by simp [interpose]⟩
              · exact h2 p List.mem_cons_self hin
            · exact h2 q (List.mem_cons_of_mem _ hq)
          · rw [replaceAll, replaceFrom, if_neg hp, hpre, ← h4]
            rfl

/-- **C71**: the header is the text of the file with ` YEAR` replaced, wherever it occurs, by a space and the year, and with nothing else changed; without a header file it is empty, and it fails exactly
if the file cannot be read. -/
theorem C71_header (read : Str → Option Str) (headerFile year : Str) :
    (headerFile = [] → headerText read headerFile year = some []) ∧
    (headerFile ≠ [] → read headerFile = none → headerText read headerFile year = none) ∧
    ∀ text, headerFile ≠ [] → read headerFile = some text → ∃ pieces, pieces ≠ [] ∧ (∀ p ∈ pieces, ¬ " YEAR".toList <:+: p) ∧ text = interpose " YEAR".toList pieces ∧
      headerText read headerFile year = some (interpose (' ' :: year) pieces) := by
  refine ⟨?_, ?_, ?_⟩
  · rintro rfl; rfl
  · intro h h'
    simp only [headerText, if_pos h, h']
  · intro text h h'
    obtain ⟨ps, h1, h2, h3, h4⟩ := replaceAll_pieces (old := " YEAR".toList) (by decide) (' ' :: year) text.length text (Nat.le_refl _)
    exact ⟨ps, h1, h2, h3, by simp only [headerText, if_pos h, h', h4]⟩

/-- The pieces are determined by the text, since two occurrences of ` YEAR` cannot overlap: so `C71_header` says what the header is. -/
theorem pieces_unique : ∀ {ps qs : List Str}, ps ≠ [] → qs ≠ [] → (∀ p ∈ ps, ¬ " YEAR".toList <:+: p) → (∀ q ∈ qs, ¬ " YEAR".toList <:+: q) →
    interpose " YEAR".toList ps = interpose " YEAR".toList qs → ps = qs := by
  -- the first piece ends where the first occurrence begins
  have key : ∀ (p q x y : Str), ¬ " YEAR".toList <:+: p → ¬ " YEAR".toList <:+: q → p ++ (" YEAR".toList ++ x) = q ++ (" YEAR".toList ++ y) → p = q ∧ x = y := by
    have aux : ∀ (p r x y : Str), ¬ " YEAR".toList <:+: (p ++ r) → " YEAR".toList ++ x = r ++ (" YEAR".toList ++ y) → r = [] := by
      intro p r x y hr he
      match r, hr, he with
      | [], _, _ => rfl
      | [a], _, he => simp at he
      | [a, b], _, he => simp at he
      | [a, b, c], _, he => simp at he
      | [a, b, c, d], _, he => simp at he
      | a :: b :: c :: d :: e :: r, hr, he =>
        simp at he
        obtain ⟨rfl, rfl, rfl, rfl, rfl, _⟩ := he
        exact absurd ⟨p, r, by simp⟩ hr
    intro p q x y hp hq he
    rcases List.append_eq_append_iff.1 he with ⟨r, rfl, h⟩ | ⟨r, rfl, h⟩
    · have := aux p r x y hq h
      subst this
      simp only [List.append_nil, List.nil_append] at h ⊢
      exact ⟨trivial, List.append_cancel_left h⟩
    · have := aux q r y x hp h
      subst this
      simp only [List.append_nil, List.nil_append] at h ⊢
      exact ⟨trivial, (List.append_cancel_left h).symm⟩
  intro ps
  induction ps with
  | nil => intro qs h; exact absurd rfl h
  | cons p ps ih =>
    intro qs _ hq hp1 hq1 he
    cases qs with
    | nil => exact absurd rfl hq
    | cons q qs =>
      have hp0 := hp1 p List.mem_cons_self
      have hq0 := hq1 q List.mem_cons_self
      cases ps with
      | nil =>
        cases qs with
        | nil => simp only [interpose] at he; rw [he]
        | cons q' qs =>
          simp only [interpose] at he
          exact absurd ⟨q, _, he.symm⟩ hp0
      | cons p' ps =>
        cases qs with
        | nil =>
          simp only [interpose] at he
          exact absurd ⟨p, _, he⟩ hq0
        | cons q' qs =>
          simp only [interpose, List.append_assoc] at he
          obtain ⟨rfl, h⟩ := key _ _ _ _ hp0 hq0 he
          rw [ih (by simp) (by simp) (fun r hr => hp1 r (List.mem_cons_of_mem _ hr)) (fun r hr => hq1 r (List.mem_cons_of_mem _ hr)) h]

namespace HeaderExample

def read (f : Str) : Option Str := if f = "h".toList then some "// Copyright YEAR The Authors. YEARLY YE YEAR".toList else none

example : headerText read "h".toList "2019".toList = some "// Copyright 2019 The Authors. 2019LY YE 2019".toList := by decide +kernel
example : headerText read "x".toList "2019".toList = none := by decide +kernel

/-- **C71** is violated by helpgen: it drops the space before the year, so that headers read `Copyright2019 The Kubernetes Authors.` -/
theorem C71_violated_helpgen : helpgenHeader read "h".toList "2019".toList = some "// Copyright2019 The Authors.2019LY YE2019".toList := by decide +kernel

end HeaderExample
end Verif.Genall
