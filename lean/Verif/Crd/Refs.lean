import Verif.Common.Text

/-!
# Reference links (schema.go:243-258, flatten.go:288-330)

Links are sequences of Unicode code points.
-/
namespace Verif.Crd
open Verif.Text

/-- `defPrefix` (schema.go:37-40). -/
def defPrefix : List Char := "#/definitions/".toList

/-- `strings.ReplaceAll(s, "~x", "r")` for one character `x` and one character `r`: the occurrences are replaced from left to right
(library function). -/
def unescape (x r : Char) : List Char → List Char
  | [] => []
  | [c] => [c]
  | c :: d :: s => if c = '~' ∧ d = x then r :: unescape x r s else c :: unescape x r (d :: s)

/-- `strings.ReplaceAll(pkgName, "/", "~1")` (library function). -/
def escapeSlash (s : List Char) : List Char := s.flatMap fun c => if c = '/' then ['~', '1'] else [c]

/-- `qualifiedName` (schema.go:247-252). -/
def qualifiedName (pkg name : List Char) : List Char :=
  if pkg ≠ [] then escapeSlash pkg ++ '~' :: '0' :: name else name

/-- `TypeRefLink` (schema.go:255-257). -/
def typeRefLink (pkg name : List Char) : List Char := defPrefix ++ qualifiedName pkg name

/-- `RefParts` (flatten.go:291-307): the type name and the package (empty for a local reference); `none` is the error for a
non-standard link. -/
def refParts (ref : List Char) : Option (List Char × List Char) :=
  if defPrefix <+: ref then
    match cut '~' (unescape '0' '~' (unescape '1' '/' (ref.drop defPrefix.length))) with
    | none => some (unescape '0' '~' (unescape '1' '/' (ref.drop defPrefix.length)), [])
    | some (pkg, name) => some (name, pkg)
  else none

theorem unescape_plain {x r : Char} {s : List Char} (h : '~' ∉ s) : unescape x r s = s := by
  induction s with
  | nil => rfl
  | cons c s ih =>
    cases s with
    | nil => rfl
    | cons d s =>
      simp only [List.mem_cons, not_or] at h
      rw [unescape, if_neg (fun hh => h.1 hh.1.symm), ih (by simp [h.2])]

theorem unescape_append {x r : Char} {a b : List Char} (h : ∀ y, a.getLast? = some y → y ≠ '~') : unescape x r (a ++ b) = unescape x r a ++ unescape x r b := by
  fun_induction unescape x r a with
  | case1 => rfl
  | case2 c =>
    have hc : c ≠ '~' := h c rfl
    cases b with
    | nil => rfl
    | cons d b => rw [List.singleton_append, unescape, if_neg (fun hh => hc hh.1)]; rfl
  | case3 c d s hcd ih =>
    rw [List.cons_append, List.cons_append, unescape, if_pos hcd, ih]
    · simp
    · intro y hy; apply h
      cases s with
      | nil => simp at hy
      | cons e s => simpa using hy
  | case4 c d s hcd ih =>
    rw [List.cons_append, List.cons_append, unescape, if_neg hcd, ← List.cons_append, ih]
    · simp
    · intro y hy; exact h y (by simpa using hy)

theorem escapeSlash_last {s : List Char} (h : '~' ∉ s) : ∀ y, (escapeSlash s).getLast? = some y → y ≠ '~' := by
  intro y hy he
  rcases s.eq_nil_or_concat with rfl | ⟨t, c, rfl⟩
  · simp [escapeSlash] at hy
  · rw [escapeSlash, List.concat_eq_append, List.flatMap_append] at hy
    by_cases hc : c = '/'
    · simp [hc] at hy; rw [← hy] at he; exact absurd he (by decide)
    · simp [hc] at hy; exact h (by rw [hy, he]; simp)

theorem unescape_escape {s : List Char} (h : '~' ∉ s) : unescape '1' '/' (escapeSlash s) = s := by
  induction s with
  | nil => rfl
  | cons c s ih =>
    simp only [List.mem_cons, not_or] at h
    have : escapeSlash (c :: s) = (if c = '/' then ['~', '1'] else [c]) ++ escapeSlash s := rfl
    rw [this, unescape_append, ih h.2]
    · by_cases hc : c = '/'
      · simp [hc, unescape]
      · simp [hc, unescape]
    · intro y hy
      by_cases hc : c = '/'
      · simp [hc] at hy; rw [← hy]; decide
      · simp [hc] at hy; rw [← hy]; exact fun e => h.1 e.symm

theorem decode_link {pkg name : List Char} (hn : '~' ∉ name) (hp : '~' ∉ pkg) :
    unescape '0' '~' (unescape '1' '/' (qualifiedName pkg name)) = if pkg ≠ [] then pkg ++ '~' :: name else name := by
  unfold qualifiedName
  by_cases h : pkg = []
  · rw [if_neg (by simpa using h), if_neg (by simpa using h), unescape_plain hn, unescape_plain hn]
  · rw [if_pos h, if_pos h, unescape_append (escapeSlash_last hp), unescape_escape hp]
    have h1 : unescape '1' '/' ('~' :: '0' :: name) = '~' :: '0' :: name := by
      rw [unescape, if_neg (by decide)]
      cases name with
      | nil => rfl
      | cons c s => rw [unescape, if_neg (fun hh => absurd hh.1 (by decide)), unescape_plain hn]
    rw [h1, unescape_append, unescape_plain hp, unescape, if_pos (by decide), unescape_plain hn]
    intro y hy he
    exact hp (he ▸ List.mem_of_mem_getLast? hy)

theorem refParts_link {pkg name : List Char} (hn : '~' ∉ name) (hp : '~' ∉ pkg) : refParts (typeRefLink pkg name) = some (name, pkg) := by
  unfold refParts typeRefLink
  rw [if_pos (List.prefix_append ..), List.drop_left, decode_link hn hp]
  by_cases h : pkg = []
  · rw [if_neg (by simpa using h), cut_none.2 hn, h]
  · rw [if_pos h, cut_append hp]

/-- The package part of a resolved link never contains a tilde. -/
theorem refParts_pkg {ref name pkg : List Char} (h : refParts ref = some (name, pkg)) : '~' ∉ pkg := by
  unfold refParts at h
  split at h
  · split at h
    · simp only [Option.some.injEq, Prod.mk.injEq] at h; simp [← h.2]
    · rename_i hc
      simp only [Option.some.injEq, Prod.mk.injEq] at h
      rw [← h.2]; exact (cut_some.1 hc).2
  · cases h

/-- C26 (partial).  A Go type name contains no tilde.  The link to a type in a package whose path contains no tilde is resolved to exactly this
package and type, where the empty package stands for the package of the reference.  Missing: package paths with a tilde, where it is false (`C26_violated`, `C26_exact`). -/
theorem C26_round_trip_partial (pkg name : List Char) (hn : '~' ∉ name) (hp : '~' ∉ pkg) : refParts (typeRefLink pkg name) = some (name, pkg) :=
  refParts_link hn hp

/-- C26.  The link round-trips exactly for package paths without a tilde. -/
theorem C26_exact (pkg name : List Char) (hn : '~' ∉ name) : refParts (typeRefLink pkg name) = some (name, pkg) ↔ '~' ∉ pkg :=
  ⟨refParts_pkg, refParts_link hn⟩

/-- C26 (partial).  Distinct types (in packages whose paths contain no tilde) get distinct links. -/
theorem C26_injective_partial (pkg name pkg' name' : List Char) (hn : '~' ∉ name) (hp : '~' ∉ pkg) (hn' : '~' ∉ name') (hp' : '~' ∉ pkg')
    (h : typeRefLink pkg name = typeRefLink pkg' name') : pkg = pkg' ∧ name = name' := by
  have h1 := refParts_link hn hp
  rw [h, refParts_link hn' hp'] at h1
  simp only [Option.some.injEq, Prod.mk.injEq] at h1
  exact ⟨h1.2.symm, h1.1.symm⟩

/-- C26.  Only the links of the generator's own form are accepted. -/
theorem C26_rejects (ref : List Char) : refParts ref = none ↔ ¬ "#/definitions/".toList <+: ref := by
  unfold refParts
  by_cases h : defPrefix <+: ref
  · rw [if_pos h]
    refine ⟨?_, fun hh => absurd h hh⟩
    split <;> nofun
  · rw [if_neg h]; exact ⟨fun _ => h, fun _ => rfl⟩

/-- C26 is violated: `~` is allowed in Go import paths, and is used by a public code host. -/
theorem C26_violated : refParts (typeRefLink "git.sr.ht/~user/api".toList "Spec".toList) = some ("user/api~Spec".toList, "git.sr.ht/".toList) := by
  decide +kernel

/-- C26 is violated: two distinct (pathological) packages with the same link. -/
theorem C26_violated_collision : typeRefLink "a/b".toList "T".toList = typeRefLink "a~1b".toList "T".toList := by decide +kernel

example : '~' ∉ "k8s.io/api/core/v1".toList ∧ '~' ∉ "PodSpec".toList := by decide +kernel
example : typeRefLink "k8s.io/api/core/v1".toList "PodSpec".toList = "#/definitions/k8s.io~1api~1core~1v1~0PodSpec".toList := by decide +kernel

end Verif.Crd
