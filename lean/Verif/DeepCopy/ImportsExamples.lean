import Verif.DeepCopy.ImportsTheorems
/-!
# C44: examples, and aliases that are wrong
-/
namespace Verif.DeepCopy

/-- Letters and digits of ASCII. -/
def ascii : Unicode := ⟨Char.isAlpha, Char.isDigit⟩

/-- Some requests, with a bound on the loops: the aliases. -/
def aliasesOf (U : Unicode) (n : Nat) : Imports → List Str → Option (List Str)
  | _, [] => some []
  | l, p :: ps => (l.need U n p).bind fun r => (aliasesOf U n r.1 ps).map (r.2 :: ·)

theorem requests_of {U : Unicode} {n : Nat} : ∀ {l : Imports} {ps as : List Str}, aliasesOf U n l ps = some as → ∃ l', Requests U l (ps.zip as) l'
  | l, [], as, h => by cases h; exact ⟨l, .nil l⟩
  | l, p :: ps, as, h => by
    obtain ⟨⟨l', a⟩, h1, h2⟩ := Option.bind_eq_some_iff.1 h
    obtain ⟨as', h3, rfl⟩ := Option.map_eq_some_iff.1 h2
    obtain ⟨l'', h4⟩ := requests_of h3
    exact ⟨l'', .cons n h1 h4⟩

/-- The hypotheses of `C44_distinct` are met: a run with two packages whose last elements agree, one of them vendored and asked for twice, one with the name of the package itself, and one without a directory. -/
example : ∃ l, Requests ascii (Imports.start "v1".toList)
    [("k8s.io/api/core/v1".toList, "corev1".toList), ("k8s.io/api/apps/v1".toList, "appsv1".toList), ("x.io/vendor/k8s.io/api/core/v1".toList, "corev1".toList), ("y.io/3core-v/2v1".toList, "core_vv1".toList),
      ("fmt".toList, "fmtx".toList), ("core/v1".toList, "corev1x".toList)] l :=
  requests_of (n := 9) (ps := ["k8s.io/api/core/v1".toList, "k8s.io/api/apps/v1".toList, "x.io/vendor/k8s.io/api/core/v1".toList, "y.io/3core-v/2v1".toList, "fmt".toList, "core/v1".toList])
    (as := ["corev1".toList, "appsv1".toList, "corev1".toList, "core_vv1".toList, "fmtx".toList, "corev1x".toList]) (by decide +kernel)

example : ¬ Imported "x.io/vendor/k8s.io/api/core/v1".toList [] := by rw [imported_iff]; decide +kernel

/-- **C44**, violated: the alias of a package whose last element has digits only is empty, so types of the package are written as `.T`. -/
theorem C44_violated_empty : ∃ l, Requests ascii (Imports.start "v1".toList) [("example.com/api/2024".toList, [])] l :=
  requests_of (n := 9) (ps := ["example.com/api/2024".toList]) (as := [[]]) (by decide +kernel)

/-- **C44**, violated: an alias may be a keyword of Go, `type`. -/
theorem C44_violated_keyword : ∃ l, Requests ascii (Imports.start "v1".toList) [("example.com/api/type".toList, "type".toList)] l :=
  requests_of (n := 9) (ps := ["example.com/api/type".toList]) (as := ["type".toList]) (by decide +kernel)

/-- **C44**, violated: an alias may be the name of a parameter of the generated methods, `in` or `out` (traverse.go:238-243), which hides the package. -/
theorem C44_violated_shadow : ∃ l, Requests ascii (Imports.start "v1".toList) [("example.com/api/in".toList, "in".toList), ("example.com/api/out".toList, "out".toList)] l :=
  requests_of (n := 9) (ps := ["example.com/api/in".toList, "example.com/api/out".toList]) (as := ["in".toList, "out".toList]) (by decide +kernel)

end Verif.DeepCopy
