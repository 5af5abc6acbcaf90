import Verif.Loader.Load
import Verif.Genall.OutputTheorems
/-!
# Which packages are loaded (C66)

The specification is at the top.  Places of the file system are lists of names, from the root (`Genall.Spec.locate`).
-/
namespace Verif.Loader
open Markers (Str)
open Genall (clean joinPath dirOf cleanStep cleanFold_ok)
open Genall.Spec (enter locate locateIn)

namespace Spec

/-- A name of a file or directory. -/
def IsName (n : Str) : Prop := n ≠ [] ∧ n ≠ ['.'] ∧ n ≠ ['.', '.'] ∧ '/' ∉ n

instance (n : Str) : Decidable (IsName n) := inferInstanceAs (Decidable (_ ∧ _ ∧ _ ∧ _))

/-- The world outside: what the Go tool finds for some patterns when it runs in a place, and what is below a place. -/
structure World where
  load : List Str → List Str → Option (List RawPkg)
  below : List Str → Option (List Entry)

/-- Entries have names, and a walk begins at a directory. -/
def World.Sane (w : World) : Prop := ∀ d es, w.below d = some es → ∀ e ∈ es, (∀ n ∈ e.names, IsName n) ∧ (e.names = [] → e.isDir = true)

/-- The absolute path of a place. -/
def pathOf (place : List Str) : Str := '/' :: Text.join '/' place

/-- The same world, seen through paths from the working directory `cwd`. -/
def World.system (w : World) (cwd : List Str) : System where
  cwd := pathOf cwd
  load d patterns := w.load (locate cwd d) patterns
  walk d := w.below (locate cwd d)

/-- A root is a path if it begins with a slash or a dot. -/
def IsPath (r : Str) : Prop := r.head? = some '/' ∨ r.head? = some '.'

instance (r : Str) : Decidable (IsPath r) := inferInstanceAs (Decidable (_ ∨ _))

/-- What has to be loaded for some roots: the place where the Go tool runs, and the patterns that it is given. -/
inductive Asked (w : World) (base : List Str) (roots : List Str) : List Str → List Str → Prop
  /-- without roots, the package in the base directory -/
  | default : roots = [] → Asked w base roots base []
  /-- all patterns that are not paths, as they are -/
  | packages : (∃ r ∈ roots, ¬ IsPath r) → Asked w base roots base (roots.filter fun r => ¬ IsPath r)
  /-- the package of a directory -/
  | directory {r} : r ∈ roots → IsPath r → (∀ d, locate base r ≠ d ++ ["...".toList]) → Asked w base roots (locate base r) ["./.".toList]
  /-- the packages of a directory and those below -/
  | tree {r d} : r ∈ roots → IsPath r → locate base r = d ++ ["...".toList] → Asked w base roots d ["./...".toList]
  /-- the packages of every module below -/
  | nested {r d es e xs} : r ∈ roots → IsPath r → locate base r = d ++ ["...".toList] → w.below d = some es → e ∈ es → e.isDir = false →
      e.names = xs ++ ["go.mod".toList] → Asked w base roots (d ++ xs) ["./...".toList]

end Spec
open Spec

/-! ## Absolute paths -/

theorem pathOf_abs (ns : List Str) : (pathOf ns).head? = some '/' := rfl

theorem split_pathOf {ns : List Str} (hne : ns ≠ []) (h : ∀ n ∈ ns, IsName n) : Text.split '/' (pathOf ns) = [] :: ns := by
  unfold pathOf
  rw [Text.split_cons, if_pos rfl, Text.split_join hne (fun p hp => (h p hp).2.2.2)]

theorem enter_name {at_ : List Str} {n : Str} (h : IsName n) : enter at_ n = at_ ++ [n] := by
  unfold enter
  rw [if_neg h.2.2.1, if_neg (by rintro (h' | h'); exact h.1 h'; exact h.2.1 h')]

theorem enter_nil (at_ : List Str) : enter at_ [] = at_ := by simp [enter]

theorem foldl_enter {ns : List Str} (h : ∀ n ∈ ns, IsName n) : ∀ at_, ns.foldl enter at_ = at_ ++ ns := by
  induction ns with
  | nil => simp
  | cons n ns ih =>
    intro at_
    rw [List.foldl_cons, enter_name (h n (by simp)), ih (fun m hm => h m (by simp [hm]))]
    simp

theorem locate_pathOf (cwd : List Str) {ns : List Str} (h : ∀ n ∈ ns, IsName n) : locate cwd (pathOf ns) = ns := by
  unfold locate
  rw [if_pos (pathOf_abs ns)]
  by_cases hne : ns = []
  · subst hne; rfl
  · rw [split_pathOf hne h, List.foldl_cons, enter_nil, foldl_enter h, List.nil_append]

/-- `Clean` of an absolute path is the path of its place. -/
theorem clean_abs (cwd : List Str) {p : Str} (h : p.head? = some '/') : clean p = pathOf (locate cwd p) ∧ ∀ n ∈ locate cwd p, IsName n := by
  have hb : (p.head? == some '/') = true := by simp [h]
  obtain ⟨h1, h2⟩ := cleanFold_ok (rooted := true) (Text.split '/' p) [] ⟨by simp, by simp⟩ Text.mem_split
  have h2 := h2 [] (fun _ => rfl)
  have hnames : ∀ n ∈ ((Text.split '/' p).foldl (cleanStep true) []).reverse, IsName n := by
    intro n hn
    have hn := List.mem_reverse.1 hn
    obtain ⟨a, b, c⟩ := h1.plain n hn
    exact ⟨a, b, h1.noUp rfl n hn, c⟩
  have hl : locate cwd p = ((Text.split '/' p).foldl (cleanStep true) []).reverse := by
    have hl' := foldl_enter hnames []
    rw [locate, if_pos h]
    rw [List.nil_append] at hl'
    rw [← hl']
    exact h2.symm
  refine ⟨?_, by rw [hl]; exact hnames⟩
  rw [clean, hb, hl]
  rfl

theorem dropWhile_names {ns : List Str} (h : ∀ n ∈ ns, IsName n) : ns.dropWhile (· = []) = ns := by
  cases ns with
  | nil => rfl
  | cons n ns =>
    rw [List.dropWhile_cons, if_neg]
    simpa using (h n (by simp)).1

theorem baseName_pathOf {ns : List Str} {n : Str} (h : ∀ m ∈ ns ++ [n], IsName m) : baseName (pathOf (ns ++ [n])) = n := by
  unfold baseName
  rw [if_neg (by simp [pathOf]), split_pathOf (by simp) h]
  have hn := (h n (by simp)).1
  simp [hn]

theorem baseName_root : baseName (pathOf []) = ['/'] := by decide

theorem dirOf_pathOf (cwd : List Str) {ns : List Str} {n : Str} (h : ∀ m ∈ ns ++ [n], IsName m) : dirOf (pathOf (ns ++ [n])) = pathOf ns := by
  have hd : (Genall.uptoSlash (pathOf (ns ++ [n]))) = Text.join '/' ([] :: ns) ++ ['/'] := by
    unfold Genall.uptoSlash
    rw [split_pathOf (by simp) h]
    rw [show ([] :: (ns ++ [n])).dropLast = ([] :: ns : List Str) by rw [← List.cons_append, List.dropLast_concat]]
  have habs : (Text.join '/' (([] : Str) :: ns) ++ ['/']).head? = some '/' := by
    cases ns with
    | nil => rfl
    | cons m ns => simp [Text.join, List.intercalate]
  obtain ⟨h1, _⟩ := clean_abs cwd habs
  unfold dirOf
  rw [hd, h1]
  congr 1
  have hs : Text.split '/' (Text.join '/' (([] : Str) :: ns) ++ ['/']) = [] :: ns ++ [[]] := by
    rw [Text.split_concat (by simp), Text.split_join (by simp)]
    intro p hp
    rcases List.mem_cons.1 hp with rfl | hp
    · simp
    · exact (h p (by simp [hp])).2.2.2
  rw [locate, if_pos habs, hs]
  rw [List.cons_append, List.foldl_cons, enter_nil, List.foldl_append, foldl_enter (ns := ns) (fun m hm => h m (by simp [hm]))]
  simp [enter]

theorem joinPath_pathOf (cwd : List Str) {ns : List Str} {n : Str} (h : ∀ m ∈ ns ++ [n], IsName m) : joinPath (pathOf ns) n = pathOf (ns ++ [n]) := by
  unfold joinPath
  rw [if_pos (by simp [pathOf])]
  have habs : (pathOf ns ++ '/' :: n).head? = some '/' := rfl
  obtain ⟨h1, _⟩ := clean_abs cwd habs
  rw [h1]
  congr 1
  rw [locate, if_pos habs, Genall.split_sep, List.foldl_append]
  have := locate_pathOf cwd (ns := ns) (fun m hm => h m (by simp [hm]))
  rw [locate, if_pos (pathOf_abs ns)] at this
  rw [this, Text.split_not_mem (h n (by simp)).2.2.2, List.foldl_cons, List.foldl_nil, enter_name (h n (by simp))]

/-! ## Roots that are paths -/

/-- The place of `cfg.Dir`. -/
def baseOf (cwd : List Str) (cfgDir : Str) : List Str := locate cwd cfgDir

theorem resolve_eq (w : World) {cwd : List Str} (hcwd : ∀ n ∈ cwd, IsName n) {cfgDir : Str} (hc : cfgDir = [] ∨ cfgDir.head? = some '/') (r : Str) :
    resolve (w.system cwd) cfgDir r = pathOf (locate (locate cwd cfgDir) r) ∧ ∀ n ∈ locate (locate cwd cfgDir) r, IsName n := by
  unfold resolve
  by_cases hr : r.head? = some '/'
  · obtain ⟨h1, h2⟩ := clean_abs (locate cwd cfgDir) hr
    have : isAbs (clean r) = true := by rw [h1]; rfl
    simp only [this, if_true]
    exact ⟨h1, h2⟩
  · have hnot : isAbs (clean r) = false := by
      have hb : (r.head? == some '/') = false := by simp [hr]
      obtain ⟨h1, _⟩ := cleanFold_ok (rooted := false) (Text.split '/' r) [] ⟨by simp, by simp⟩ Text.mem_split
      unfold isAbs clean
      rw [hb]
      simp only [Bool.false_eq_true, if_false, decide_eq_false_iff_not]
      split
      · simp
      · exact Genall.join_head (fun s hs => h1.plain s (List.mem_reverse.1 hs))
    simp only [hnot, Bool.false_eq_true, if_false]
    have key : ∀ (a : List Str) (p : Str), p.head? = some '/' → locate a p = locate cwd cfgDir →
        joinPath p (clean r) = pathOf (locate (locate cwd cfgDir) r) ∧ ∀ n ∈ locate (locate cwd cfgDir) r, IsName n := by
      intro a p hp hpl
      have hne : p ≠ [] := by intro e; rw [e] at hp; cases hp
      have hj := Genall.locate_join a hne (clean r)
      have hrel : locateIn (locate a p) (clean r) = locate (locate cwd cfgDir) r := by
        rw [← Genall.locate_clean (locate cwd cfgDir) r, hpl, locateIn]
        generalize locate cwd cfgDir = b
        rw [locate, if_neg (by simpa [isAbs] using hnot)]
      rw [hrel] at hj
      have habs : (p ++ '/' :: clean r).head? = some '/' := by
        cases p with
        | nil => cases hp
        | cons c p => exact hp
      have hj' : joinPath p (clean r) = clean (p ++ '/' :: clean r) := by rw [joinPath, if_pos hne]
      obtain ⟨h1, h2⟩ := clean_abs a habs
      rw [hj'] at hj ⊢
      rw [h1] at hj ⊢
      rw [locate_pathOf a h2] at hj
      rw [hj] at h2 ⊢
      exact ⟨rfl, h2⟩
    rcases hc with rfl | hc
    · rw [if_neg (by simp)]
      refine key cwd (pathOf cwd) rfl ?_
      rw [locate_pathOf cwd hcwd]
      simp [locate, Text.split, enter]
    · rw [if_pos (by intro e; rw [e] at hc; cases hc)]
      exact key cwd cfgDir hc rfl

theorem names_snoc (ns : List Str) : ns = [] ∨ ∃ a b, ns = a ++ [b] := by
  rcases List.eq_nil_or_concat ns with h | ⟨a, b, h⟩
  · exact .inl h
  · exact .inr ⟨a, b, by simpa using h⟩

/-- The target of an absolute root. -/
theorem target_dots (cwd : List Str) {d : List Str} (h : ∀ n ∈ d ++ ["...".toList], IsName n) :
    baseName (pathOf (d ++ ["...".toList])) = "...".toList ∧ target (pathOf (d ++ ["...".toList])) = (pathOf d, "./...".toList) ∧ dirOf (pathOf (d ++ ["...".toList])) = pathOf d := by
  have h1 := baseName_pathOf h
  have h2 := dirOf_pathOf cwd h
  refine ⟨h1, ?_, h2⟩
  rw [target, if_pos h1, h2]

theorem target_plain {ns : List Str} (h : ∀ n ∈ ns, IsName n) (hd : ∀ d, ns ≠ d ++ ["...".toList]) :
    baseName (pathOf ns) ≠ "...".toList ∧ target (pathOf ns) = (pathOf ns, "./.".toList) := by
  have hb : baseName (pathOf ns) ≠ "...".toList := by
    rcases names_snoc ns with rfl | ⟨a, b, rfl⟩
    · rw [baseName_root]; decide
    · rw [baseName_pathOf h]
      intro e
      exact hd a (by rw [e])
  exact ⟨hb, by rw [target, if_neg hb]⟩

theorem entryPath_eq (cwd : List Str) : ∀ (ns d : List Str), (∀ n ∈ d ++ ns, IsName n) → ns.foldl joinPath (pathOf d) = pathOf (d ++ ns) := by
  intro ns
  induction ns with
  | nil => intro d _; simp
  | cons n ns ih =>
    intro d h
    rw [List.foldl_cons, joinPath_pathOf cwd (fun m hm => h m (by simp at hm ⊢; rcases hm with hm | hm; exact .inl hm; exact .inr (.inl hm)))]
    rw [ih (d ++ [n]) (by simpa using h)]
    simp

/-- The roots that a walk adds: those of the modules. -/
theorem mem_nested (cwd : List Str) {d : List Str} (hd : ∀ n ∈ d, IsName n) {es : List Entry}
    (hes : ∀ e ∈ es, (∀ n ∈ e.names, IsName n) ∧ (e.names = [] → e.isDir = true)) (r : Str) :
    r ∈ nestedModules (pathOf d) es ↔ ∃ e ∈ es, e.isDir = false ∧ ∃ xs, e.names = xs ++ ["go.mod".toList] ∧ r = pathOf ((d ++ xs) ++ ["...".toList]) := by
  have hall : ∀ e ∈ es, ∀ n ∈ d ++ e.names, IsName n := by
    intro e he n hn
    rcases List.mem_append.1 hn with hn | hn
    · exact hd n hn
    · exact (hes e he).1 n hn
  have hdots : IsName "...".toList := by decide
  have hmod : IsName "go.mod".toList := by decide
  have hjoin : ∀ e ∈ es, ∀ xs, e.names = xs ++ ["go.mod".toList] →
      baseName (entryPath (pathOf d) e) = "go.mod".toList ∧ joinPath (dirOf (entryPath (pathOf d) e)) "...".toList = pathOf ((d ++ xs) ++ ["...".toList]) := by
    intro e he xs hx
    have h := hall e he
    unfold entryPath
    rw [entryPath_eq cwd _ _ h, hx, ← List.append_assoc]
    rw [hx, ← List.append_assoc] at h
    refine ⟨baseName_pathOf h, ?_⟩
    rw [dirOf_pathOf cwd h, joinPath_pathOf cwd]
    intro m hm
    rcases List.mem_append.1 hm with hm | hm
    · exact h m (List.mem_append_left _ hm)
    · rw [List.mem_singleton.1 hm]; exact hdots
  unfold nestedModules
  simp only [List.mem_map, List.mem_filter, Bool.and_eq_true, Bool.not_eq_true', decide_eq_true_eq]
  constructor
  · rintro ⟨e, ⟨he, hdir, hb⟩, rfl⟩
    refine ⟨e, he, hdir, ?_⟩
    have h := hall e he
    rcases names_snoc e.names with h0 | ⟨xs, b, hx⟩
    · rw [(hes e he).2 h0] at hdir; cases hdir
    · have hbn : b = "go.mod".toList := by
        unfold entryPath at hb
        rw [entryPath_eq cwd _ _ h, hx, ← List.append_assoc] at hb
        rw [hx, ← List.append_assoc] at h
        rw [baseName_pathOf h] at hb
        exact hb
      subst hbn
      exact ⟨xs, hx, (hjoin e he xs hx).2⟩
  · rintro ⟨e, he, hdir, xs, hx, rfl⟩
    exact ⟨e, ⟨he, hdir, (hjoin e he xs hx).1⟩, (hjoin e he xs hx).2⟩

theorem isPathRoot_iff (r : Str) : isPathRoot r = true ↔ IsPath r := by
  simp [isPathRoot, isAbs, IsPath]

/-! ## Packages -/

/-- The IDs are those of the packages, and each is there once. -/
def Found.Ok (f : Found) : Prop := (f.roots.map (·.id)).Nodup ∧ ∀ x, x ∈ f.ids ↔ x ∈ f.roots.map (·.id)

theorem addPkgs_spec : ∀ (ps : List RawPkg) (f : Found), f.Ok → (addPkgs f ps).Ok ∧ (∀ p ∈ f.roots, p ∈ (addPkgs f ps).roots) ∧
    (∀ p ∈ (addPkgs f ps).roots, p ∈ f.roots ∨ p ∈ ps) ∧ ∀ q ∈ ps, ∃ p ∈ (addPkgs f ps).roots, p.id = q.id := by
  intro ps
  induction ps with
  | nil => intro f h; exact ⟨h, fun p hp => hp, fun p hp => .inl hp, by simp⟩
  | cons p ps ih =>
    intro f h
    rw [addPkgs]
    split
    · rename_i hin
      obtain ⟨h1, h2, h3, h4⟩ := ih f h
      refine ⟨h1, h2, fun q hq => ?_, fun q hq => ?_⟩
      · rcases h3 q hq with h' | h'
        · exact .inl h'
        · exact .inr (List.mem_cons_of_mem _ h')
      · rcases List.mem_cons.1 hq with rfl | hq
        · obtain ⟨x, hx, e⟩ := List.mem_map.1 ((h.2 _).1 hin)
          exact ⟨x, h2 x hx, e⟩
        · exact h4 q hq
    · rename_i hnot
      have hok : Found.Ok { ids := p.id :: f.ids, roots := f.roots ++ [p] } := by
        refine ⟨?_, fun x => ?_⟩
        · rw [List.map_append, List.nodup_append]
          refine ⟨h.1, by simp, ?_⟩
          intro a ha b hb e
          simp at hb
          exact hnot ((h.2 _).2 (by rw [← hb, ← e]; exact ha))
        · simp only [List.mem_cons, List.map_append, List.mem_append, List.map_cons, List.map_nil, List.not_mem_nil, or_false, h.2 x]
          exact Or.comm
      obtain ⟨h1, h2, h3, h4⟩ := ih _ hok
      refine ⟨h1, fun q hq => h2 q (by simp [hq]), fun q hq => ?_, fun q hq => ?_⟩
      · rcases h3 q hq with h' | h'
        · rcases List.mem_append.1 h' with h' | h'
          · exact .inl h'
          · exact .inr (by rw [List.mem_singleton.1 h']; simp)
        · exact .inr (List.mem_cons_of_mem _ h')
      · rcases List.mem_cons.1 hq with rfl | hq
        · exact ⟨q, h2 q (by simp), rfl⟩
        · exact h4 q hq

/-- What a series of loads does: `reqs` are the directories and patterns. -/
def Loads (sys : System) (reqs : Str → List Str → Prop) (f f' : Found) : Prop :=
  f'.Ok ∧ (∀ p ∈ f.roots, p ∈ f'.roots) ∧ (∀ p ∈ f'.roots, p ∈ f.roots ∨ ∃ d ps qs, reqs d ps ∧ sys.load d ps = some qs ∧ p ∈ qs) ∧
    ∀ d ps, reqs d ps → ∃ qs, sys.load d ps = some qs ∧ ∀ q ∈ qs, ∃ p ∈ f'.roots, p.id = q.id

theorem loadPackages_spec {sys : System} {d : Str} {ps : List Str} {f : Found} (h : f.Ok) :
    (loadPackages sys d ps f = none ↔ sys.load d ps = none) ∧ ∀ f', loadPackages sys d ps f = some f' → Loads sys (fun d' ps' => d' = d ∧ ps' = ps) f f' := by
  unfold loadPackages
  cases hl : sys.load d ps with
  | none => simp
  | some qs =>
    refine ⟨by simp, fun f' hf => ?_⟩
    cases hf
    obtain ⟨h1, h2, h3, h4⟩ := addPkgs_spec qs f h
    refine ⟨h1, h2, fun p hp => ?_, ?_⟩
    · rcases h3 p hp with h' | h'
      · exact .inl h'
      · exact .inr ⟨d, ps, qs, ⟨rfl, rfl⟩, hl, h'⟩
    · rintro d' ps' ⟨rfl, rfl⟩
      exact ⟨qs, hl, h4⟩

theorem secondPass_spec (sys : System) : ∀ (L : List Str) (f : Found), f.Ok →
    (secondPass sys L f = none ↔ ∃ r ∈ L, sys.load (target r).1 [(target r).2] = none) ∧
    ∀ f', secondPass sys L f = some f' → Loads sys (fun d ps => ∃ r ∈ L, d = (target r).1 ∧ ps = [(target r).2]) f f' := by
  intro L
  induction L with
  | nil =>
    intro f h
    refine ⟨by simp [secondPass], fun f' hf => ?_⟩
    cases hf
    exact ⟨h, fun p hp => hp, fun p hp => .inl hp, by simp⟩
  | cons r L ih =>
    intro f h
    obtain ⟨h1, h2⟩ := loadPackages_spec (sys := sys) (d := (target r).1) (ps := [(target r).2]) h
    rw [secondPass]
    cases hl : loadPackages sys (target r).1 [(target r).2] f with
    | none =>
      refine ⟨?_, by simp⟩
      simp only [true_iff]
      exact ⟨r, by simp, h1.1 hl⟩
    | some g =>
      obtain ⟨a1, a2, a3, a4⟩ := h2 g hl
      obtain ⟨i1, i2⟩ := ih g a1
      have hsome : sys.load (target r).1 [(target r).2] ≠ none := fun e => by rw [h1.2 e] at hl; cases hl
      refine ⟨?_, fun f' hf => ?_⟩
      · simp only
        rw [i1]
        constructor
        · rintro ⟨x, hx, e⟩; exact ⟨x, by simp [hx], e⟩
        · rintro ⟨x, hx, e⟩
          rcases List.mem_cons.1 hx with rfl | hx
          · exact absurd e hsome
          · exact ⟨x, hx, e⟩
      · obtain ⟨b1, b2, b3, b4⟩ := i2 f' hf
        refine ⟨b1, fun p hp => b2 p (a2 p hp), fun p hp => ?_, ?_⟩
        · rcases b3 p hp with hp | ⟨d, ps, qs, ⟨x, hx, e⟩, h'⟩
          · rcases a3 p hp with hp | ⟨d, ps, qs, ⟨rfl, rfl⟩, h'⟩
            · exact .inl hp
            · exact .inr ⟨_, _, qs, ⟨r, by simp, rfl, rfl⟩, h'⟩
          · exact .inr ⟨d, ps, qs, ⟨x, by simp [hx], e⟩, h'⟩
        · rintro d ps ⟨x, hx, rfl, rfl⟩
          rcases List.mem_cons.1 hx with rfl | hx
          · obtain ⟨qs, e, h'⟩ := a4 _ _ ⟨rfl, rfl⟩
            refine ⟨qs, e, fun q hq => ?_⟩
            obtain ⟨p, hp, e'⟩ := h' q hq
            exact ⟨p, b2 p hp, e'⟩
          · exact b4 _ _ ⟨x, hx, rfl, rfl⟩

/-! ## The first pass -/

theorem firstPass_spec {w : World} (hw : w.Sane) {cwd : List Str} (hcwd : ∀ n ∈ cwd, IsName n) {cfgDir : Str} (hc : cfgDir = [] ∨ cfgDir.head? = some '/') :
    ∀ rs : List Str,
    (firstPass (w.system cwd) cfgDir rs = none ↔ ∃ r ∈ rs, ∃ d, locate (locate cwd cfgDir) r = d ++ ["...".toList] ∧ w.below d = none) ∧
    ∀ abs nested, firstPass (w.system cwd) cfgDir rs = some (abs, nested) →
      abs = rs.map (fun r => pathOf (locate (locate cwd cfgDir) r)) ∧
      ∀ x, x ∈ nested ↔ ∃ r ∈ rs, ∃ d es, locate (locate cwd cfgDir) r = d ++ ["...".toList] ∧ w.below d = some es ∧
        ∃ e ∈ es, e.isDir = false ∧ ∃ xs, e.names = xs ++ ["go.mod".toList] ∧ x = pathOf ((d ++ xs) ++ ["...".toList]) := by
  intro rs
  induction rs with
  | nil =>
    refine ⟨by simp [firstPass], ?_⟩
    intro abs nested h
    cases h
    simp
  | cons r rs ih =>
    obtain ⟨i1, i2⟩ := ih
    obtain ⟨hr, hn⟩ := resolve_eq w hcwd hc r
    rw [firstPass]
    simp only [hr]
    by_cases hd : ∃ d, locate (locate cwd cfgDir) r = d ++ ["...".toList]
    · obtain ⟨d, hd⟩ := hd
      rw [hd] at hn ⊢
      obtain ⟨t1, t2, t3⟩ := target_dots cwd hn
      have hnd : ∀ n ∈ d, IsName n := fun n h => hn n (List.mem_append_left _ h)
      rw [if_pos t1, t3, show (w.system cwd).walk (pathOf d) = w.below d by simp [World.system, locate_pathOf cwd hnd]]
      have huniq : ∀ d', d ++ ["...".toList] = d' ++ ["...".toList] → d' = d := fun d' e => (List.append_cancel_right e).symm
      cases hb : w.below d with
      | none =>
        refine ⟨?_, by simp⟩
        simp only [Option.map_none, true_iff]
        exact ⟨r, by simp, d, hd, hb⟩
      | some es =>
        simp only [Option.map_some]
        cases hf : firstPass (w.system cwd) cfgDir rs with
        | none =>
          refine ⟨?_, by simp⟩
          simp only [true_iff]
          obtain ⟨x, hx, h⟩ := i1.1 hf
          exact ⟨x, by simp [hx], h⟩
        | some am =>
          obtain ⟨abs', more⟩ := am
          obtain ⟨j1, j2⟩ := i2 _ _ hf
          refine ⟨?_, ?_⟩
          · simp only [reduceCtorEq, false_iff]
            rintro ⟨x, hx, d', h1, h2⟩
            rcases List.mem_cons.1 hx with rfl | hx
            · rw [hd] at h1
              rw [huniq d' h1, hb] at h2
              cases h2
            · rw [i1.2 ⟨x, hx, d', h1, h2⟩] at hf
              cases hf
          · intro abs nested h
            cases h
            refine ⟨by rw [List.map_cons, ← j1, hd], ?_⟩
            intro x
            rw [List.mem_append, mem_nested cwd hnd (fun e he => hw d es hb e he), j2]
            constructor
            · rintro (⟨e, he, h⟩ | ⟨r', hr', h⟩)
              · exact ⟨r, by simp, d, es, hd, hb, e, he, h⟩
              · exact ⟨r', by simp [hr'], h⟩
            · rintro ⟨r', hr', d', es', h1, h2, h3⟩
              rcases List.mem_cons.1 hr' with rfl | hr'
              · rw [hd] at h1
                obtain rfl := huniq d' h1
                rw [hb] at h2
                cases h2
                exact .inl h3
              · exact .inr ⟨r', hr', d', es', h1, h2, h3⟩
    · have hd' : ∀ d, locate (locate cwd cfgDir) r ≠ d ++ ["...".toList] := fun d e => hd ⟨d, e⟩
      rw [if_neg (target_plain hn hd').1]
      cases hf : firstPass (w.system cwd) cfgDir rs with
      | none =>
        refine ⟨?_, by simp⟩
        simp only [true_iff]
        obtain ⟨x, hx, h⟩ := i1.1 hf
        exact ⟨x, by simp [hx], h⟩
      | some am =>
        obtain ⟨abs', more⟩ := am
        obtain ⟨j1, j2⟩ := i2 _ _ hf
        refine ⟨?_, ?_⟩
        · simp only [reduceCtorEq, false_iff]
          rintro ⟨x, hx, d', h1, h2⟩
          rcases List.mem_cons.1 hx with rfl | hx
          · exact hd' d' h1
          · rw [i1.2 ⟨x, hx, d', h1, h2⟩] at hf
            cases hf
        · intro abs nested h
          cases h
          refine ⟨by rw [List.map_cons, ← j1], ?_⟩
          intro x
          rw [List.nil_append, j2]
          constructor
          · rintro ⟨r', hr', h⟩; exact ⟨r', by simp [hr'], h⟩
          · rintro ⟨r', hr', d', es', h1, h2⟩
            rcases List.mem_cons.1 hr' with rfl | hr'
            · exact absurd h1 (hd' d')
            · exact ⟨r', hr', d', es', h1, h2⟩

/-- What the second pass loads is what the paths among the roots ask for. -/
theorem path_asked {w : World} (hw : w.Sane) {cwd : List Str} (hcwd : ∀ n ∈ cwd, IsName n) {cfgDir : Str} (hc : cfgDir = [] ∨ cfgDir.head? = some '/')
    {roots abs nested : List Str} (h : firstPass (w.system cwd) cfgDir (roots.filter isPathRoot) = some (abs, nested)) :
    (∀ x ∈ abs ++ nested, Asked w (locate cwd cfgDir) roots (locate cwd (target x).1) [(target x).2]) ∧
    ∀ place ps, Asked w (locate cwd cfgDir) roots place ps → roots ≠ [] → (place = locate cwd cfgDir ∧ ps = roots.filter fun r => ¬ IsPath r) ∨
      ∃ x ∈ abs ++ nested, place = locate cwd (target x).1 ∧ ps = [(target x).2] := by
  obtain ⟨h1, h2⟩ := (firstPass_spec hw hcwd hc _).2 _ _ h
  have hdots : IsName "...".toList := by decide
  have hmem : ∀ r, r ∈ roots.filter isPathRoot ↔ r ∈ roots ∧ IsPath r := by intro r; rw [List.mem_filter, isPathRoot_iff]
  have hnames : ∀ r, ∀ n ∈ locate (locate cwd cfgDir) r, IsName n := fun r => (resolve_eq w hcwd hc r).2
  have hnested : ∀ {r d es e xs}, r ∈ roots → IsPath r → locate (locate cwd cfgDir) r = d ++ ["...".toList] → w.below d = some es → e ∈ es →
      e.names = xs ++ ["go.mod".toList] → ∀ n ∈ (d ++ xs) ++ ["...".toList], IsName n := by
    intro r d es e xs _ _ hd hb he hx n hn
    rcases List.mem_append.1 hn with hn | hn
    · rcases List.mem_append.1 hn with hn | hn
      · exact hnames r n (by rw [hd]; exact List.mem_append_left _ hn)
      · exact (hw d es hb e he).1 n (by rw [hx]; exact List.mem_append_left _ hn)
    · rw [List.mem_singleton.1 hn]; exact hdots
  constructor
  · intro x hx
    rcases List.mem_append.1 hx with hx | hx
    · rw [h1] at hx
      obtain ⟨r, hr, rfl⟩ := List.mem_map.1 hx
      obtain ⟨hr1, hr2⟩ := (hmem r).1 hr
      by_cases hd : ∃ d, locate (locate cwd cfgDir) r = d ++ ["...".toList]
      · obtain ⟨d, hd⟩ := hd
        have hn := hnames r
        rw [hd] at hn ⊢
        rw [(target_dots cwd hn).2.1]
        simp only
        rw [locate_pathOf cwd (fun n h => hn n (List.mem_append_left _ h))]
        exact .tree hr1 hr2 hd
      · have hd' : ∀ d, locate (locate cwd cfgDir) r ≠ d ++ ["...".toList] := fun d e => hd ⟨d, e⟩
        rw [(target_plain (hnames r) hd').2]
        simp only
        rw [locate_pathOf cwd (hnames r)]
        exact .directory hr1 hr2 hd'
    · obtain ⟨r, hr, d, es, hd, hb, e, he, hdir, xs, hxs, rfl⟩ := (h2 x).1 hx
      obtain ⟨hr1, hr2⟩ := (hmem r).1 hr
      have hn := hnested hr1 hr2 hd hb he hxs
      rw [(target_dots cwd hn).2.1]
      simp only
      rw [locate_pathOf cwd (fun n h => hn n (List.mem_append_left _ h))]
      exact .nested hr1 hr2 hd hb he hdir hxs
  · intro place ps ha hne
    cases ha with
    | default h0 => exact absurd h0 hne
    | packages _ => exact .inl ⟨rfl, rfl⟩
    | @directory r hr1 hr2 hd =>
      refine .inr ⟨pathOf (locate (locate cwd cfgDir) r), ?_, ?_⟩
      · rw [h1]; exact List.mem_append_left _ (List.mem_map.2 ⟨r, (hmem r).2 ⟨hr1, hr2⟩, rfl⟩)
      · rw [(target_plain (hnames r) hd).2]
        exact ⟨(locate_pathOf cwd (hnames r)).symm, rfl⟩
    | @tree r _ hr1 hr2 hd =>
      have hn := hnames r
      rw [hd] at hn
      refine .inr ⟨pathOf (place ++ ["...".toList]), ?_, ?_⟩
      · rw [h1]; exact List.mem_append_left _ (List.mem_map.2 ⟨r, (hmem r).2 ⟨hr1, hr2⟩, by rw [hd]⟩)
      · rw [(target_dots cwd hn).2.1]
        exact ⟨(locate_pathOf cwd (fun n h => hn n (List.mem_append_left _ h))).symm, rfl⟩
    | @nested r d es e xs hr1 hr2 hd hb he hdir hxs =>
      have hn := hnested hr1 hr2 hd hb he hxs
      refine .inr ⟨pathOf ((d ++ xs) ++ ["...".toList]), ?_, ?_⟩
      · exact List.mem_append_right _ ((h2 _).2 ⟨r, (hmem r).2 ⟨hr1, hr2⟩, d, es, hd, hb, e, he, hdir, xs, hxs, rfl⟩)
      · rw [(target_dots cwd hn).2.1]
        exact ⟨(locate_pathOf cwd (fun n h => hn n (List.mem_append_left _ h))).symm, rfl⟩

theorem found_empty : Found.Ok {} := ⟨List.nodup_nil, by simp⟩

/-- What the result of loading is to be. -/
def Spec.Loaded (w : World) (base : List Str) (roots : List Str) (ps : List RawPkg) : Prop :=
  (ps.map (·.id)).Nodup ∧
  (∀ p ∈ ps, ∃ place pats qs, Asked w base roots place pats ∧ w.load place pats = some qs ∧ p ∈ qs) ∧
  ∀ place pats, Asked w base roots place pats → ∃ qs, w.load place pats = some qs ∧ ∀ q ∈ qs, ∃ p ∈ ps, p.id = q.id

/-- What makes loading fail. -/
def Spec.Fails (w : World) (base : List Str) (roots : List Str) : Prop :=
  (∃ place pats, Asked w base roots place pats ∧ w.load place pats = none) ∨
  ∃ r ∈ roots, IsPath r ∧ ∃ d, locate base r = d ++ ["...".toList] ∧ w.below d = none

theorem loadRoots_spec {w : World} (hw : w.Sane) {cwd : List Str} (hcwd : ∀ n ∈ cwd, IsName n) {cfgDir : Str} (hc : cfgDir = [] ∨ cfgDir.head? = some '/')
    (roots : List Str) :
    (loadRoots (w.system cwd) cfgDir roots = none ↔ Fails w (locate cwd cfgDir) roots) ∧
    ∀ ps, loadRoots (w.system cwd) cfgDir roots = some ps → Loaded w (locate cwd cfgDir) roots ps := by
  have hmem : ∀ r, r ∈ roots.filter isPathRoot ↔ r ∈ roots ∧ IsPath r := by intro r; rw [List.mem_filter, isPathRoot_iff]
  have hfilter : (roots.filter fun r => !isPathRoot r) = roots.filter fun r => ¬ IsPath r := by
    congr 1; funext r
    have := isPathRoot_iff r
    by_cases h : IsPath r
    · simp [h, this.2 h]
    · have h' : isPathRoot r = false := by simpa using mt this.1 h
      simp [h, h']
  have hsys : ∀ d ps, (w.system cwd).load d ps = w.load (locate cwd d) ps := fun _ _ => rfl
  unfold loadRoots
  by_cases h0 : roots = []
  · rw [if_pos h0]
    subst h0
    obtain ⟨l1, l2⟩ := loadPackages_spec (sys := w.system cwd) (d := cfgDir) (ps := []) found_empty
    have hask : ∀ place pats, Asked w (locate cwd cfgDir) [] place pats → place = locate cwd cfgDir ∧ pats = [] := by
      intro place pats h
      cases h with
      | default _ => exact ⟨rfl, rfl⟩
      | packages h => obtain ⟨r, hr, _⟩ := h; cases hr
      | directory h _ _ => cases h
      | tree h _ _ => cases h
      | nested h => cases h
    refine ⟨?_, fun ps h => ?_⟩
    · rw [Option.map_eq_none_iff, l1]
      constructor
      · intro h; exact .inl ⟨_, _, .default rfl, h⟩
      · rintro (⟨place, pats, ha, hl⟩ | ⟨r, hr, _⟩)
        · obtain ⟨rfl, rfl⟩ := hask _ _ ha; exact hl
        · cases hr
    · obtain ⟨f, hf, rfl⟩ := Option.map_eq_some_iff.1 h
      obtain ⟨a1, a2, a3, a4⟩ := l2 f hf
      refine ⟨a1.1, fun p hp => ?_, fun place pats ha => ?_⟩
      · rcases a3 p hp with hp | ⟨d, ps, qs, ⟨rfl, rfl⟩, hl, hq⟩
        · cases hp
        · exact ⟨_, _, qs, .default rfl, hl, hq⟩
      · obtain ⟨rfl, rfl⟩ := hask _ _ ha
        exact a4 _ _ ⟨rfl, rfl⟩
  · rw [if_neg h0]
    simp only
    rw [hfilter]
    -- the patterns
    have hfirst : ∀ f, (if (roots.filter fun r => ¬ IsPath r) ≠ [] then loadPackages (w.system cwd) cfgDir (roots.filter fun r => ¬ IsPath r) {} else some {}) = some f →
        f.Ok ∧ (∀ p ∈ f.roots, ∃ qs, (∃ r ∈ roots, ¬ IsPath r) ∧ w.load (locate cwd cfgDir) (roots.filter fun r => ¬ IsPath r) = some qs ∧ p ∈ qs) ∧
        ((∃ r ∈ roots, ¬ IsPath r) → ∃ qs, w.load (locate cwd cfgDir) (roots.filter fun r => ¬ IsPath r) = some qs ∧ ∀ q ∈ qs, ∃ p ∈ f.roots, p.id = q.id) := by
      intro f hf
      by_cases hp : (roots.filter fun r => ¬ IsPath r) = []
      · rw [if_neg (by simpa using hp)] at hf
        cases hf
        refine ⟨found_empty, by simp, ?_⟩
        rintro ⟨r, hr, hr'⟩
        have : r ∈ roots.filter fun r => ¬ IsPath r := List.mem_filter.2 ⟨hr, by simpa using hr'⟩
        rw [hp] at this
        cases this
      · rw [if_pos hp] at hf
        have hex : ∃ r ∈ roots, ¬ IsPath r := by
          obtain ⟨r, hr⟩ := List.exists_mem_of_ne_nil _ hp
          obtain ⟨h1, h2⟩ := List.mem_filter.1 hr
          exact ⟨r, h1, by simpa using h2⟩
        obtain ⟨a1, a2, a3, a4⟩ := (loadPackages_spec found_empty).2 f hf
        refine ⟨a1, fun p hp => ?_, fun _ => a4 _ _ ⟨rfl, rfl⟩⟩
        rcases a3 p hp with hp | ⟨d, ps, qs, ⟨rfl, rfl⟩, hl, hq⟩
        · cases hp
        · exact ⟨qs, hex, hl, hq⟩
    cases hfst : (if (roots.filter fun r => ¬ IsPath r) ≠ [] then loadPackages (w.system cwd) cfgDir (roots.filter fun r => ¬ IsPath r) {} else some {}) with
    | none =>
      refine ⟨?_, by simp⟩
      simp only [true_iff]
      by_cases hp : (roots.filter fun r => ¬ IsPath r) = []
      · rw [if_neg (by simpa using hp)] at hfst; cases hfst
      · rw [if_pos hp] at hfst
        have hex : ∃ r ∈ roots, ¬ IsPath r := by
          obtain ⟨r, hr⟩ := List.exists_mem_of_ne_nil _ hp
          obtain ⟨h1, h2⟩ := List.mem_filter.1 hr
          exact ⟨r, h1, by simpa using h2⟩
        exact .inl ⟨_, _, .packages hex, (loadPackages_spec found_empty).1.1 hfst⟩
    | some f =>
      obtain ⟨f1, f2, f3⟩ := hfirst f hfst
      simp only
      have hpk : ∀ {place pats}, Asked w (locate cwd cfgDir) roots place pats → place = locate cwd cfgDir ∧ pats = (roots.filter fun r => ¬ IsPath r) →
          (∃ r ∈ roots, ¬ IsPath r) ∨ ∃ r ∈ roots, IsPath r := by
        intro place pats _ _
        obtain ⟨r, hr⟩ := List.exists_mem_of_ne_nil _ h0
        by_cases hp : IsPath r
        · exact .inr ⟨r, hr, hp⟩
        · exact .inl ⟨r, hr, hp⟩
      by_cases hfs : roots.filter isPathRoot = []
      · rw [if_pos hfs]
        have hno : ∀ r ∈ roots, ¬ IsPath r := by
          intro r hr hp
          have := (hmem r).2 ⟨hr, hp⟩
          rw [hfs] at this
          cases this
        have hask : ∀ place pats, Asked w (locate cwd cfgDir) roots place pats → place = locate cwd cfgDir ∧ pats = roots.filter fun r => ¬ IsPath r := by
          intro place pats h
          cases h with
          | default h => exact absurd h h0
          | packages h => exact ⟨rfl, rfl⟩
          | directory h h' _ => exact absurd h' (hno _ h)
          | tree h h' _ => exact absurd h' (hno _ h)
          | nested h h' => exact absurd h' (hno _ h)
        have hex : ∃ r ∈ roots, ¬ IsPath r := by
          obtain ⟨r, hr⟩ := List.exists_mem_of_ne_nil _ h0
          exact ⟨r, hr, hno r hr⟩
        refine ⟨?_, fun ps h => ?_⟩
        · simp only [reduceCtorEq, false_iff]
          rintro (⟨place, pats, ha, hl⟩ | ⟨r, hr, hp, _⟩)
          · obtain ⟨rfl, rfl⟩ := hask _ _ ha
            obtain ⟨qs, hq, _⟩ := f3 hex
            rw [hq] at hl; cases hl
          · exact hno r hr hp
        · cases h
          refine ⟨f1.1, fun p hp => ?_, fun place pats ha => ?_⟩
          · obtain ⟨qs, he, hl, hq⟩ := f2 p hp
            exact ⟨_, _, qs, .packages he, hl, hq⟩
          · obtain ⟨rfl, rfl⟩ := hask _ _ ha
            exact f3 hex
      · rw [if_neg hfs]
        cases hfp : firstPass (w.system cwd) cfgDir (roots.filter isPathRoot) with
        | none =>
          refine ⟨?_, by simp⟩
          simp only [true_iff]
          obtain ⟨r, hr, h⟩ := (firstPass_spec hw hcwd hc _).1.1 hfp
          obtain ⟨h1, h2⟩ := (hmem r).1 hr
          exact .inr ⟨r, h1, h2, h⟩
        | some am =>
          obtain ⟨abs, nested⟩ := am
          simp only
          obtain ⟨p1, p2⟩ := path_asked hw hcwd hc hfp
          obtain ⟨s1, s2⟩ := secondPass_spec (w.system cwd) (abs ++ nested) f f1
          -- patterns that are asked for are those of `packages`
          have hpkg : ∀ {place pats}, Asked w (locate cwd cfgDir) roots place pats →
              ((∃ r ∈ roots, ¬ IsPath r) ∧ place = locate cwd cfgDir ∧ pats = roots.filter fun r => ¬ IsPath r) ∨
              ∃ x ∈ abs ++ nested, place = locate cwd (target x).1 ∧ pats = [(target x).2] := by
            intro place pats ha
            by_cases hex : ∃ r ∈ roots, ¬ IsPath r
            · rcases p2 _ _ ha h0 with h | h
              · exact .inl ⟨hex, h⟩
              · exact .inr h
            · rcases p2 _ _ ha h0 with ⟨_, h⟩ | h
              · exfalso
                have hnil : (roots.filter fun r => ¬ IsPath r) = [] := by
                  rw [List.filter_eq_nil_iff]
                  intro r hr hp
                  exact hex ⟨r, hr, by simpa using hp⟩
                rw [hnil] at h
                cases ha with
                | default h' => exact h0 h'
                | packages h' => exact hex h'
                | directory _ _ _ => cases h
                | tree _ _ _ => cases h
                | nested _ => cases h
              · exact .inr h
          refine ⟨?_, fun ps h => ?_⟩
          · rw [Option.map_eq_none_iff, s1]
            constructor
            · rintro ⟨x, hx, hl⟩
              exact .inl ⟨_, _, p1 x hx, hl⟩
            · rintro (⟨place, pats, ha, hl⟩ | ⟨r, hr, hp, h⟩)
              · rcases hpkg ha with ⟨hex, rfl, rfl⟩ | ⟨x, hx, rfl, rfl⟩
                · obtain ⟨qs, hq, _⟩ := f3 hex
                  rw [hq] at hl; cases hl
                · exact ⟨x, hx, hl⟩
              · rw [(firstPass_spec hw hcwd hc _).1.2 ⟨r, (hmem r).2 ⟨hr, hp⟩, h⟩] at hfp
                cases hfp
          · obtain ⟨g, hg, rfl⟩ := Option.map_eq_some_iff.1 h
            obtain ⟨a1, a2, a3, a4⟩ := s2 g hg
            refine ⟨a1.1, fun p hp => ?_, fun place pats ha => ?_⟩
            · rcases a3 p hp with hp | ⟨d, ps, qs, ⟨x, hx, rfl, rfl⟩, hl, hq⟩
              · obtain ⟨qs, he, hl, hq⟩ := f2 p hp
                exact ⟨_, _, qs, .packages he, hl, hq⟩
              · exact ⟨_, _, qs, p1 x hx, hl, hq⟩
            · rcases hpkg ha with ⟨hex, rfl, rfl⟩ | ⟨x, hx, rfl, rfl⟩
              · obtain ⟨qs, hq, h⟩ := f3 hex
                refine ⟨qs, hq, fun q hm => ?_⟩
                obtain ⟨p, hp, e⟩ := h q hm
                exact ⟨p, a2 p hp, e⟩
              · exact a4 _ _ ⟨x, hx, rfl, rfl⟩

/-- **C66, what is loaded.**  The packages are those that the roots ask for, with one package for each ID: the patterns as they are, the package of every directory, and for a path that ends
with `...` the packages below the directory, also those of nested modules. -/
theorem C66_loaded {w : World} (hw : w.Sane) {cwd : List Str} (hcwd : ∀ n ∈ cwd, IsName n) {cfgDir : Str} (hc : cfgDir = [] ∨ cfgDir.head? = some '/')
    {roots : List Str} {ps : List RawPkg} (h : loadRoots (w.system cwd) cfgDir roots = some ps) : Loaded w (locate cwd cfgDir) roots ps :=
  (loadRoots_spec hw hcwd hc roots).2 ps h

/-- **C66, when loading fails**: exactly if the Go tool fails for something that was asked for, or a directory cannot be searched for nested modules. -/
theorem C66_fails {w : World} (hw : w.Sane) {cwd : List Str} (hcwd : ∀ n ∈ cwd, IsName n) {cfgDir : Str} (hc : cfgDir = [] ∨ cfgDir.head? = some '/')
    (roots : List Str) : loadRoots (w.system cwd) cfgDir roots = none ↔ Fails w (locate cwd cfgDir) roots :=
  (loadRoots_spec hw hcwd hc roots).1

/-! ## What the code gets wrong -/

namespace Spec

/-- The rule of Go (`go help packages`): an import path is a path of the file system if it is rooted, or begins with an element `.` or `..`. -/
def IsGoPath (r : Str) : Prop :=
  r.head? = some '/' ∨ (Text.split '/' r).head? = some ['.'] ∨ (Text.split '/' r).head? = some ['.', '.']

end Spec

/-- A module with two packages, `a` and `a/b`: the Go tool finds both for `./...` in the directory of the module, or for the pattern `...`, and `a/b` for `./a...`. -/
def Example.world : World where
  load place pats :=
    if place = ["m".toList] ∧ pats = ["./.".toList] then some [⟨"a".toList, 0⟩]
    else if place = ["m".toList] ∧ pats = ["./...".toList] then some [⟨"a".toList, 0⟩, ⟨"a/b".toList, 1⟩]
    else if place = ["m".toList, "b".toList] ∧ pats = ["./...".toList] then some [⟨"a/b".toList, 2⟩, ⟨"a/b/c".toList, 3⟩]
    else if place = ["m".toList, "b".toList] ∧ pats = ["./.".toList] then some [⟨"a/b".toList, 2⟩]
    else if place = ["m".toList] ∧ pats = ["k8s".toList] then some [⟨"k8s".toList, 4⟩]
    else none
  below place :=
    if place = ["m".toList] then
      some [⟨[], true⟩, ⟨["b".toList], true⟩, ⟨["b".toList, "go.mod".toList], false⟩, ⟨["b".toList, "x.go".toList], false⟩, ⟨["go.mod".toList], false⟩]
    else if place = [] then some []
    else none

theorem Example.sane : Example.world.Sane := by
  intro d es h
  unfold Example.world at h
  simp only at h
  split at h
  · cases h; decide +kernel
  · split at h
    · cases h; simp
    · cases h

/-- The hypotheses of `C66_loaded` hold here: patterns, a tree with a nested module and a directory that was loaded before. -/
example : loadRoots (Example.world.system ["m".toList]) [] ["k8s".toList, "./...".toList, "./b".toList]
    = some [⟨"k8s".toList, 4⟩, ⟨"a".toList, 0⟩, ⟨"a/b".toList, 1⟩, ⟨"a/b/c".toList, 3⟩] := by decide +kernel

/-- … and with another directory of the configuration. -/
example : loadRoots (Example.world.system ["elsewhere".toList]) "/m".toList ["../m/./b".toList] = some [⟨"a/b".toList, 2⟩] := by decide +kernel

/-- **C66 is violated**: a pattern that Go does not read as a path is one for the loader if it begins with a dot. `...`, all packages of the build list, is searched in the current directory only. -/
theorem C66_violated_dots : ¬ ∀ r, isPathRoot r = true ↔ IsGoPath r := by
  intro h
  have := (h "...".toList).1 (by decide +kernel)
  revert this
  unfold IsGoPath
  decide +kernel

/-- Otherwise the two rules agree: for every pattern whose first element is `.`, `..` or does not begin with a dot. -/
theorem C66_paths_partial {r : Str} (h : ∀ e, (Text.split '/' r).head? = some e → e = ['.'] ∨ e = ['.', '.'] ∨ e.head? ≠ some '.') :
    isPathRoot r = true ↔ IsGoPath r := by
  rw [isPathRoot_iff]
  unfold IsPath IsGoPath
  cases r with
  | nil => simp [Text.split]
  | cons c cs =>
    rw [Text.split_cons] at h ⊢
    by_cases hc : c = '/'
    · simp [hc]
    · rw [if_neg hc] at h ⊢
      simp only [List.head?_cons, Option.some.injEq, hc, false_or]
      cases hs : Text.split '/' cs with
      | nil => exact absurd hs Text.split_ne_nil
      | cons x xs =>
        rw [hs] at h
        simp only at h ⊢
        have := h (c :: x) rfl
        constructor
        · intro e
          rcases this with t | t | t
          · exact .inl (congrArg some t)
          · exact .inr (congrArg some t)
          · exact absurd (by rw [e]; rfl) t
        · rintro (t | t)
          · simp at t; exact t.1
          · simp at t; exact t.1

/-- **C66 is violated**: three dots at the end of a longer name are not a pattern for the loader: `./b...`, in Go every package below this directory whose path begins with `./b`, is a
directory of this name. -/
theorem C66_violated_wildcard : loadRoots (Example.world.system ["m".toList]) [] ["./b...".toList] = none ∧
    Asked Example.world ["m".toList] ["./b...".toList] ["m".toList, "b...".toList] ["./.".toList] := by
  refine ⟨by decide +kernel, ?_⟩
  have h := Asked.directory (w := Example.world) (base := ["m".toList]) (roots := ["./b...".toList]) (r := "./b...".toList) (List.mem_singleton.2 rfl) (by decide)
    (by
      have : locate ["m".toList] "./b...".toList = ["m".toList, "b...".toList] := by decide +kernel
      rw [this]
      intro d e
      have := congrArg List.getLast? e
      rw [List.getLast?_append, List.getLast?_singleton, Option.some_or] at this
      exact absurd this (by decide +kernel))
  have e : locate ["m".toList] "./b...".toList = ["m".toList, "b...".toList] := by decide +kernel
  rw [e] at h
  exact h

/-- **C66 is violated**: the help of `controller-gen` has the example `paths=./apis/v1beta1/some_types.go`.  For the path of a file, whatever the Go tool finds in directories and for the
file itself, it is run *in* the file, as if this were a directory. -/
theorem C66_violated_file {w : World} (hw : w.Sane) {cwd : List Str} (hcwd : ∀ n ∈ cwd, IsName n) {file : Str} (hp : IsPath file)
    (hd : ∀ d, locate cwd file ≠ d ++ ["...".toList]) (hfile : ∀ pats, w.load (locate cwd file) pats = none) : loadRoots (w.system cwd) [] [file] = none := by
  have hb : locate cwd [] = cwd := by simp [locate, Text.split, enter_nil]
  refine (C66_fails hw hcwd (.inl rfl) [file]).2 (.inl ⟨locate cwd file, ["./.".toList], ?_, hfile _⟩)
  rw [hb]
  exact .directory (List.mem_singleton.2 rfl) hp hd

/-- The hypotheses of `C66_violated_file` hold for a file of the example. -/
example : loadRoots (Example.world.system ["m".toList]) [] ["./b/x.go".toList] = none := by
  refine C66_violated_file Example.sane (by decide) (by decide) ?_ ?_
  · have : locate ["m".toList] "./b/x.go".toList = ["m".toList, "b".toList, "x.go".toList] := by decide +kernel
    rw [this]
    intro d e
    have := congrArg List.getLast? e
    rw [List.getLast?_append, List.getLast?_singleton, Option.some_or] at this
    exact absurd this (by decide +kernel)
  · have : locate ["m".toList] "./b/x.go".toList = ["m".toList, "b".toList, "x.go".toList] := by decide +kernel
    rw [this]
    intro pats
    unfold Example.world
    simp only
    rw [if_neg (by rintro ⟨h, _⟩; revert h; decide +kernel), if_neg (by rintro ⟨h, _⟩; revert h; decide +kernel), if_neg (by rintro ⟨h, _⟩; revert h; decide +kernel),
      if_neg (by rintro ⟨h, _⟩; revert h; decide +kernel), if_neg (by rintro ⟨h, _⟩; revert h; decide +kernel)]

end Verif.Loader
