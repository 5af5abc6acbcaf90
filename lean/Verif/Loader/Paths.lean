/-!
# Vendor paths (loader/paths.go)
-/
namespace Verif.Loader

/-- The loop of `strings.Split` (library function): cut at the leftmost occurrences of the separator that do not overlap.  `skip` characters of a separator are still to be passed over; `cur` is
the current part. -/
def splitGo (sep : List Char) : Nat → List Char → List Char → List (List Char)
  | _, cur, [] => [cur]
  | 0, cur, c :: s => if sep <+: c :: s then cur :: splitGo sep (sep.length - 1) [] s else splitGo sep 0 (cur ++ [c]) s
  | skip + 1, cur, _ :: s => splitGo sep skip cur s

/-- `strings.Split(s, sep)` for a separator that is not empty (library function). -/
def splitStr (sep s : List Char) : List (List Char) := splitGo sep 0 [] s

def vendorSep : List Char := "/vendor/".toList

/-- `NonVendorPath` (paths.go:29-32). -/
def nonVendorPath (raw : List Char) : List Char := (splitStr vendorSep raw).getLastD []

theorem splitGo_ne_nil (sep : List Char) : ∀ (s : List Char) (k : Nat) (cur : List Char), splitGo sep k cur s ≠ [] := by
  intro s
  induction s with
  | nil => intro k cur; simp [splitGo]
  | cons c s ih =>
    intro k cur
    cases k with
    | zero => rw [splitGo]; split
              · simp
              · exact ih _ _
    | succ k => rw [splitGo]; exact ih _ _

theorem last_cons (a : List Char) (l : List (List Char)) (h : l ≠ []) : (a :: l).getLastD [] = l.getLastD [] := by
  cases l with
  | nil => exact absurd rfl h
  | cons b l => rfl

theorem splitGo_skip (sep : List Char) : ∀ (s t : List Char) (cur : List Char), splitGo sep s.length cur (s ++ t) = splitGo sep 0 cur t := by
  intro s
  induction s with
  | nil => intro t cur; rfl
  | cons c s ih => intro t cur; rw [List.length_cons, List.cons_append, splitGo, ih]

/-- The separator does not begin in `cur` when `cur` is followed by `s`. -/
def NoStart (sep cur s : List Char) : Prop := ∀ a b, cur = a ++ b → b ≠ [] → ¬ sep <+: b ++ s

theorem splitGo_last (sep : List Char) (hsep : sep ≠ []) : ∀ (n : Nat) (s : List Char) (cur : List Char), s.length ≤ n → NoStart sep cur s →
    (∃ p, cur ++ s = p ++ (splitGo sep 0 cur s).getLastD [] ∧ (p = [] ∨ sep <:+ p)) ∧ ¬ sep <:+: (splitGo sep 0 cur s).getLastD [] := by
  intro n
  induction n with
  | zero =>
    intro s cur hs h
    obtain rfl : s = [] := List.length_eq_zero_iff.1 (Nat.le_zero.1 hs)
    rw [splitGo]
    refine ⟨⟨[], by simp, .inl rfl⟩, ?_⟩
    rintro ⟨a, b, hab⟩
    refine h a (sep ++ b) (by simpa using hab.symm) (by simp [hsep]) ?_
    rw [List.append_nil]; exact List.prefix_append ..
  | succ n ih =>
    intro s cur hs h
    cases s with
    | nil => exact (by
        rw [splitGo]
        refine ⟨⟨[], by simp, .inl rfl⟩, ?_⟩
        rintro ⟨a, b, hab⟩
        refine h a (sep ++ b) (by simpa using hab.symm) (by simp [hsep]) ?_
        rw [List.append_nil]; exact List.prefix_append ..)
    | cons c s =>
      rw [splitGo]
      by_cases hp : sep <+: c :: s
      · rw [if_pos hp]
        obtain ⟨t, ht⟩ := hp
        cases sep with
        | nil => exact absurd rfl hsep
        | cons d sep =>
          rw [List.cons_append, List.cons.injEq] at ht
          obtain ⟨rfl, ht⟩ := ht
          have hlen : (d :: sep).length - 1 = sep.length := rfl
          rw [hlen, ← ht, splitGo_skip, last_cons _ _ (splitGo_ne_nil _ _ _ _)]
          have := ih t [] (by rw [← ht] at hs; simp at hs ⊢; omega) (fun a b hab hb => absurd (List.append_eq_nil_iff.1 hab.symm).2 hb)
          refine ⟨?_, this.2⟩
          obtain ⟨p, h1, h2⟩ := this.1
          refine ⟨cur ++ (d :: sep) ++ p, ?_, .inr ?_⟩
          · rw [List.nil_append] at h1
            generalize (splitGo (d :: sep) 0 [] t).getLastD [] = x at h1
            simp [h1]
          · rcases h2 with rfl | ⟨q, rfl⟩
            · exact ⟨cur, by simp⟩
            · exact ⟨cur ++ (d :: sep) ++ q, by simp⟩
      · rw [if_neg hp]
        have := ih s (cur ++ [c]) (by simpa using hs) (by
          intro a b hab hb hpre
          rcases List.eq_nil_or_concat b with rfl | ⟨b', x, rfl⟩
          · exact hb rfl
          · rw [List.concat_eq_append, ← List.append_assoc] at hab
            have := List.append_inj' hab rfl
            obtain rfl : c = x := by simpa using this.2
            rw [List.concat_eq_append, List.append_assoc, List.singleton_append] at hpre
            by_cases hb' : b' = []
            · subst hb'; exact hp hpre
            · exact h a b' this.1 hb' hpre)
        refine ⟨?_, this.2⟩
        obtain ⟨p, h1, h2⟩ := this.1
        exact ⟨p, by simpa using h1, h2⟩

theorem nonVendor_spec (path : List Char) :
    (∃ p, path = p ++ nonVendorPath path ∧ (p = [] ∨ "/vendor/".toList <:+ p)) ∧ ¬ "/vendor/".toList <:+: nonVendorPath path :=
  splitGo_last vendorSep (by decide) path.length path [] (Nat.le_refl _) (fun a b hab hb => absurd (List.append_eq_nil_iff.1 hab.symm).2 hb)

/-- C40.  The result is the path itself or what follows an occurrence of `/vendor/`. -/
theorem C40_suffix (path : List Char) : ∃ p, path = p ++ nonVendorPath path ∧ (p = [] ∨ "/vendor/".toList <:+ p) := (nonVendor_spec path).1

/-- C40.  The result contains no `/vendor/`. -/
theorem C40_clean (path : List Char) : ¬ "/vendor/".toList <:+: nonVendorPath path := (nonVendor_spec path).2

/-- C40.  A path without `/vendor/` is not changed. -/
theorem C40_fixed (path : List Char) (h : ¬ "/vendor/".toList <:+: path) : nonVendorPath path = path := by
  obtain ⟨p, h1, rfl | ⟨q, h2⟩⟩ := C40_suffix path
  · exact h1.symm
  · exact absurd ⟨q, nonVendorPath path, by rw [h2]; exact h1.symm⟩ h

/-- C40.  Stripping twice is stripping once. -/
theorem C40_idempotent (path : List Char) : nonVendorPath (nonVendorPath path) = nonVendorPath path := C40_fixed _ (C40_clean path)

/-- Two occurrences of `/vendor/`, one not inside what follows the other, are the same or share a slash. -/
theorem overlap {q x p r : List Char} (h : q ++ ("/vendor/".toList ++ x) = p ++ ("/vendor/".toList ++ r)) (hx : ¬ "/vendor/".toList <:+: x) (hlt : q.length < p.length) :
    "vendor/".toList <+: x ∧ "/vendor".toList <:+ p := by
  have hv : "/vendor/".toList = ['/', 'v', 'e', 'n', 'd', 'o', 'r', '/'] := by decide +kernel
  obtain ⟨d, hd⟩ : ∃ d, p = q ++ d := by
    have := List.prefix_of_prefix_length_le (List.prefix_append q _) (h ▸ List.prefix_append p _) (Nat.le_of_lt hlt)
    exact ⟨_, this.choose_spec.symm⟩
  subst hd
  rw [List.append_assoc, List.append_cancel_left_eq] at h
  have hd : d ≠ [] := by rintro rfl; simp at hlt
  rw [hv] at h hx
  have hcase : d.length < 8 ∨ 8 ≤ d.length := by omega
  rcases hcase with h8 | h8
  · match d, hd, h8 with
    | [a], _, _ => simp at h
    | [a, b], _, _ => simp at h
    | [a, b, c], _, _ => simp at h
    | [a, b, c, e], _, _ => simp at h
    | [a, b, c, e, f], _, _ => simp at h
    | [a, b, c, e, f, g], _, _ => simp at h
    | [a, b, c, e, f, g, i], _, _ =>
      simp only [List.cons_append, List.nil_append, List.cons.injEq] at h
      obtain ⟨rfl, rfl, rfl, rfl, rfl, rfl, rfl, -, h⟩ := h
      constructor
      · rw [h]; exact ⟨r, by rw [show "vendor/".toList = ['v', 'e', 'n', 'd', 'o', 'r', '/'] by decide +kernel]; rfl⟩
      · rw [show "/vendor".toList = ['/', 'v', 'e', 'n', 'd', 'o', 'r'] by decide +kernel]; exact ⟨q, rfl⟩
  · exfalso
    obtain ⟨e, he⟩ : ∃ e, d = ['/', 'v', 'e', 'n', 'd', 'o', 'r', '/'] ++ e := by
      have := List.prefix_of_prefix_length_le (List.prefix_append ['/', 'v', 'e', 'n', 'd', 'o', 'r', '/'] x) (h ▸ List.prefix_append d _) (by simpa using h8)
      exact ⟨_, this.choose_spec.symm⟩
    subst he
    rw [List.append_assoc, List.append_cancel_left_eq] at h
    exact hx ⟨e, r, by rw [h]; simp⟩

/-- C40.  The result is what follows the last `/vendor/` (unless that shares a slash with another one). -/
theorem C40_last (p r : List Char) (hr : ¬ "/vendor/".toList <:+: r) (h1 : ¬ "/vendor".toList <:+ p) (h2 : ¬ "vendor/".toList <+: r) :
    nonVendorPath (p ++ "/vendor/".toList ++ r) = r := by
  generalize hpath : p ++ "/vendor/".toList ++ r = path
  obtain ⟨q', hq, hor⟩ := C40_suffix path
  have hclean := C40_clean path
  rcases hor with rfl | ⟨q, rfl⟩
  · exfalso; apply hclean; rw [List.nil_append] at hq; rw [← hq, ← hpath]; exact ⟨p, r, rfl⟩
  · generalize nonVendorPath path = x at hq hclean
    rw [hq, List.append_assoc, List.append_assoc] at hpath
    rcases Nat.lt_trichotomy q.length p.length with hlt | heq | hgt
    · exact absurd (overlap hpath.symm hclean hlt).2 h1
    · have := List.append_inj hpath.symm heq
      exact List.append_cancel_left this.2
    · exact absurd (overlap hpath hr hgt).1 h2

/-- A directory `vendor` directly inside a vendor directory hides the second one. -/
theorem C40_shared_slash : nonVendorPath "a/vendor/vendor/b".toList = "vendor/b".toList := by decide +kernel

example : nonVendorPath "example.com/a/vendor/example.com/b/vendor/k8s.io/api".toList = "k8s.io/api".toList := by decide +kernel
example : ¬ "/vendor/".toList <:+: "k8s.io/api".toList ∧ ¬ "/vendor".toList <:+ "example.com/a/vendor/example.com/b".toList ∧ ¬ "vendor/".toList <+: "k8s.io/api".toList := by decide +kernel

end Verif.Loader
