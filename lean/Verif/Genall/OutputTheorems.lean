import Verif.Genall.Output
/-!
# Where artifacts go (C36)
-/
namespace Verif.Genall
open Markers (Str)

namespace Spec

/-- One step from a directory (a list of names, from the root): `..` is the directory above (that of the root is the root), `.` and nothing are the directory itself. -/
def enter (at_ : List Str) (name : Str) : List Str :=
  if name = ['.', '.'] then at_.dropLast else if name = [] ∨ name = ['.'] then at_ else at_ ++ [name]

/-- The place that a path means, seen from the directory `cwd`.  There are no symbolic links. -/
def locate (cwd : List Str) (path : Str) : List Str :=
  (Text.split '/' path).foldl enter (if path.head? = some '/' then [] else cwd)

/-- The place that a path means if it is taken as relative to the directory `at_`, even if it begins with a slash. -/
def locateIn (at_ : List Str) (path : Str) : List Str := (Text.split '/' path).foldl enter at_

end Spec
open Spec

theorem split_sep {α : Type} [DecidableEq α] (c : α) : ∀ (a b : List α), Text.split c (a ++ c :: b) = Text.split c a ++ Text.split c b := by
  intro a
  induction a with
  | nil => intro b; simp [Text.split]
  | cons x xs ih =>
    intro b
    rw [List.cons_append, Text.split_cons, Text.split_cons, ih]
    by_cases h : x = c
    · simp [h]
    · simp only [h, if_false]
      cases hs : Text.split c xs with
      | nil => exact absurd hs Text.split_ne_nil
      | cons y ys => simp

theorem split_join {α : Type} [DecidableEq α] (c : α) : ∀ (l : List (List α)), l ≠ [] → (∀ s ∈ l, c ∉ s) → Text.split c (Text.join c l) = l := by
  intro l
  induction l with
  | nil => intro h; exact absurd rfl h
  | cons s l ih =>
    intro _ hs
    cases l with
    | nil => simp [Text.join, List.intercalate]; exact Text.split_not_mem (hs s (by simp))
    | cons t l =>
      have : Text.join c (s :: t :: l) = s ++ c :: Text.join c (t :: l) := by simp [Text.join, List.intercalate]
      rw [this, Text.split_append (hs s (by simp)), ih (by simp) (fun x hx => hs x (by simp [hx]))]

/-- The names that `Clean` keeps. -/
structure Clean (rooted : Bool) (st : List Str) : Prop where
  plain : ∀ s ∈ st, s ≠ [] ∧ s ≠ ['.'] ∧ '/' ∉ s
  noUp : rooted = true → ∀ s ∈ st, s ≠ ['.', '.']

theorem cleanStep_ok {rooted : Bool} {st : List Str} (h : Clean rooted st) {seg : Str} (hs : '/' ∉ seg) :
    Clean rooted (cleanStep rooted st seg) ∧ ∀ base : List Str, (rooted = true → base = []) →
      (cleanStep rooted st seg).reverse.foldl enter base = enter (st.reverse.foldl enter base) seg := by
  unfold cleanStep
  by_cases h1 : seg = [] ∨ seg = ['.']
  · rw [if_pos h1]
    refine ⟨h, fun base _ => ?_⟩
    have : seg ≠ ['.', '.'] := by rcases h1 with rfl | rfl <;> simp
    rw [enter, if_neg this, if_pos h1]
  · rw [if_neg h1]
    simp only [not_or] at h1
    by_cases h2 : seg = ['.', '.']
    · subst h2
      rw [if_pos rfl]
      cases st with
      | nil =>
        cases rooted with
        | true =>
          exact ⟨h, fun base hb => by rw [hb rfl]; simp [enter]⟩
        | false =>
          simp only [Bool.false_eq_true, if_false]
          exact ⟨⟨by simp, by simp⟩, fun base _ => by simp⟩
      | cons t rest =>
        simp only
        by_cases ht : t = ['.', '.']
        · rw [if_pos ht]
          refine ⟨⟨?_, ?_⟩, fun base _ => by simp⟩
          · intro s hs
            rcases List.mem_cons.1 hs with rfl | hs
            · simp
            · exact h.plain s hs
          · intro hr; exact absurd ht (h.noUp hr t (by simp))
        · rw [if_neg ht]
          refine ⟨⟨fun s hs => h.plain s (by simp [hs]), fun hr s hs => h.noUp hr s (by simp [hs])⟩, ?_⟩
          intro base _
          have hp := h.plain t (by simp)
          simp [enter, ht, hp.1, hp.2.1]
    · rw [if_neg h2]
      refine ⟨⟨?_, ?_⟩, ?_⟩
      · intro s hm
        rcases List.mem_cons.1 hm with rfl | hm
        · exact ⟨h1.1, h1.2, hs⟩
        · exact h.plain s hm
      · intro hr s hm
        rcases List.mem_cons.1 hm with rfl | hm
        · exact h2
        · exact h.noUp hr s hm
      · intro base _
        simp

theorem cleanFold_ok {rooted : Bool} : ∀ (segs st : List Str), Clean rooted st → (∀ s ∈ segs, '/' ∉ s) →
    Clean rooted (segs.foldl (cleanStep rooted) st) ∧ ∀ base : List Str, (rooted = true → base = []) →
      (segs.foldl (cleanStep rooted) st).reverse.foldl enter base = segs.foldl enter (st.reverse.foldl enter base) := by
  intro segs
  induction segs with
  | nil => intro st h _; exact ⟨h, fun _ _ => rfl⟩
  | cons s segs ih =>
    intro st h hs
    obtain ⟨h1, h2⟩ := cleanStep_ok h (hs s (by simp))
    obtain ⟨h3, h4⟩ := ih _ h1 (fun x hx => hs x (by simp [hx]))
    refine ⟨h3, fun base hb => ?_⟩
    rw [List.foldl_cons, List.foldl_cons, h4 base hb, h2 base hb]

theorem join_head {l : List Str} (h : ∀ s ∈ l, s ≠ [] ∧ s ≠ ['.'] ∧ '/' ∉ s) : (Text.join '/' l).head? ≠ some '/' := by
  cases l with
  | nil => simp [Text.join, List.intercalate]
  | cons s l =>
    obtain ⟨h1, _, h2⟩ := h s (by simp)
    cases s with
    | nil => exact absurd rfl h1
    | cons c s =>
      have : c ≠ '/' := fun e => h2 (by simp [e])
      cases l <;> simpa [Text.join, List.intercalate] using this

/-- `Clean` does not change the place that a path means. -/
theorem locate_clean (cwd : List Str) (p : Str) : locate cwd (clean p) = locate cwd p := by
  have hseg : ∀ s ∈ Text.split '/' p, '/' ∉ s := Text.mem_split
  by_cases hr : p.head? = some '/'
  · have hb : (p.head? == some '/') = true := by simp [hr]
    obtain ⟨h1, h2⟩ := cleanFold_ok (rooted := true) (Text.split '/' p) [] ⟨by simp, by simp⟩ hseg
    have h2 := h2 [] (fun _ => rfl)
    rw [clean, hb]
    simp only [if_true]
    generalize hst : ((Text.split '/' p).foldl (cleanStep true) []).reverse = names at h2
    have hplain : ∀ s ∈ names, s ≠ [] ∧ s ≠ ['.'] ∧ '/' ∉ s := fun s hs => h1.plain s (by rw [← hst, List.mem_reverse] at hs; exact hs)
    rw [locate, locate, if_pos hr, if_pos (by simp)]
    rw [show Text.split '/' ('/' :: Text.join '/' names) = [] :: Text.split '/' (Text.join '/' names) by simp [Text.split]]
    rw [List.foldl_cons]
    have he : enter [] [] = ([] : List Str) := by simp [enter]
    rw [he]
    rw [show (Text.split '/' p).foldl enter [] = names.foldl enter [] from h2.symm]
    by_cases hn : names = []
    · subst hn; simp [Text.join, List.intercalate, Text.split, enter]
    · rw [split_join _ _ hn (fun s hs => (hplain s hs).2.2)]
  · have hb : (p.head? == some '/') = false := by simp [hr]
    obtain ⟨h1, h2⟩ := cleanFold_ok (rooted := false) (Text.split '/' p) [] ⟨by simp, by simp⟩ hseg
    have h2 := h2 cwd (fun h => by cases h)
    rw [clean, hb]
    simp only [Bool.false_eq_true, if_false]
    generalize hst : ((Text.split '/' p).foldl (cleanStep false) []).reverse = names at h2
    have hplain : ∀ s ∈ names, s ≠ [] ∧ s ≠ ['.'] ∧ '/' ∉ s := fun s hs => h1.plain s (by rw [← hst, List.mem_reverse] at hs; exact hs)
    rw [show locate cwd p = names.foldl enter cwd by rw [locate, if_neg hr]; exact h2.symm]
    by_cases hn : names = []
    · rw [if_pos hn, hn]
      simp [locate, Text.split, enter]
    · rw [if_neg hn, locate, if_neg (join_head hplain), split_join _ _ hn (fun s hs => (hplain s hs).2.2)]

/-- `Join` means the place of the second path, relative to that of the first. -/
theorem locate_join (cwd : List Str) {a : Str} (ha : a ≠ []) (b : Str) : locate cwd (joinPath a b) = locateIn (locate cwd a) b := by
  rw [joinPath, if_pos ha, locate_clean, locate, split_sep, List.foldl_append, locateIn, locate]
  cases a with
  | nil => exact absurd rfl ha
  | cons c a => rfl

/-- The place of the directory of a file: the one that its path names without its last name. -/
theorem locate_dirOf (cwd : List Str) {f name : Str} {dir : Str} (hf : f = dir ++ '/' :: name) (hn : '/' ∉ name) : locate cwd (dirOf f) = locate cwd (dir ++ ['/']) := by
  subst hf
  rw [dirOf, locate_clean, uptoSlash, Text.split_concat hn, List.dropLast_concat]
  cases hs : Text.split '/' dir with
  | nil => exact absurd hs Text.split_ne_nil
  | cons x xs =>
    simp only
    rw [← hs, Text.join_split]

theorem enter_prefix {at_ : List Str} {name : Str} (h : name ≠ ['.', '.']) : at_ <+: enter at_ name := by
  rw [enter, if_neg h]
  split
  · exact List.prefix_refl _
  · exact List.prefix_append ..

theorem foldl_prefix : ∀ (segs : List Str) (at_ : List Str), ['.', '.'] ∉ segs → at_ <+: segs.foldl enter at_ := by
  intro segs
  induction segs with
  | nil => intro at_ _; exact List.prefix_refl _
  | cons s segs ih =>
    intro at_ h
    simp only [List.mem_cons, not_or] at h
    exact (enter_prefix (fun e => h.1 e.symm)).trans (ih _ h.2)

/-! ## C36 -/

/-- **C36** (config).  An artifact that belongs to no package goes to the place that its path means in the directory of the rule; so does every artifact with the rule for a directory. -/
theorem C36_config (cwd : List Str) {d : Str} (hd : d ≠ []) (code : Str) (pkg : Option (List Str)) (item : Str) :
    (∃ p mk, openRule (.artifacts d code) none item = some (.file p, mk) ∧ locate cwd p = locateIn (locate cwd d) item) ∧
    (∃ p mk, openRule (.dir d) pkg item = some (.file p, mk) ∧ locate cwd p = locateIn (locate cwd d) item) :=
  ⟨⟨_, _, rfl, locate_join cwd hd item⟩, ⟨_, _, rfl, locate_join cwd hd item⟩⟩

/-- **C36** (code).  Code goes to the directory for code, if there is one; if there is none, to the directory of the package (of its first file); and a package without files is an error. -/
theorem C36_code (cwd : List Str) (config : Str) (item : Str) :
    (∀ code files, code ≠ [] → ∃ p mk, openRule (.artifacts config code) (some files) item = some (.file p, mk) ∧ locate cwd p = locateIn (locate cwd code) item) ∧
    (∀ dir name rest, '/' ∉ name → ∃ p mk, openRule (.artifacts config []) (some ((dir ++ '/' :: name) :: rest)) item = some (.file p, mk) ∧
      locate cwd p = locateIn (locate cwd (dir ++ ['/'])) item) ∧
    openRule (.artifacts config []) (some []) item = none := by
  refine ⟨?_, ?_, rfl⟩
  · intro code files hc
    exact ⟨joinPath code item, some (dirOf (joinPath code item)), by simp [openRule, hc], locate_join cwd hc item⟩
  · intro dir name rest hn
    refine ⟨joinPath (dirOf (dir ++ '/' :: name)) item, some (dirOf (dir ++ '/' :: name)), by simp [openRule], ?_⟩
    have hne : dirOf (dir ++ '/' :: name) ≠ [] := by
      rw [dirOf, clean]
      split
      · simp
      · split
        · simp
        · rename_i hr hnames
          have hseg : ∀ s ∈ Text.split '/' (uptoSlash (dir ++ '/' :: name)), '/' ∉ s := Text.mem_split
          obtain ⟨h1, _⟩ := cleanFold_ok (rooted := (uptoSlash (dir ++ '/' :: name)).head? == some '/') _ [] ⟨by simp, by simp⟩ hseg
          generalize ((Text.split '/' (uptoSlash (dir ++ '/' :: name))).foldl (cleanStep ((uptoSlash (dir ++ '/' :: name)).head? == some '/')) []) = st at h1 hnames
          cases hs : st.reverse with
          | nil => exact absurd hs hnames
          | cons s l =>
            have := (h1.plain s (by rw [← List.mem_reverse, hs]; simp)).1
            cases l <;> simp [Text.join, List.intercalate, this]
    rw [locate_join cwd hne, locate_dirOf cwd rfl hn]

/-- **C36** (other rules).  Nothing is written to a file with the rules `none` and `stdout`. -/
theorem C36_no_file (pkg : Option (List Str)) (item : Str) : openRule .nothing pkg item = some (.discard, none) ∧ openRule .stdout pkg item = some (.stdout, none) := ⟨rfl, rfl⟩

/-- **C36** (inside), for a path of the artifact without `..`: the file is inside the directory. -/
theorem C36_inside_partial (cwd : List Str) {d : Str} (hd : d ≠ []) {item : Str} (hi : ['.', '.'] ∉ Text.split '/' item) : locate cwd d <+: locate cwd (joinPath d item) := by
  rw [locate_join cwd hd, locateIn]
  exact foldl_prefix _ _ hi

/-- **C36** (inside).  A name without a slash (other than `.` and `..`) is a file directly in the directory. -/
theorem C36_direct (cwd : List Str) {d : Str} (hd : d ≠ []) {name : Str} (h1 : '/' ∉ name) (h2 : name ≠ []) (h3 : name ≠ ['.']) (h4 : name ≠ ['.', '.']) :
    locate cwd (joinPath d name) = locate cwd d ++ [name] := by
  rw [locate_join cwd hd, locateIn, Text.split_not_mem h1]
  simp [enter, h2, h3, h4]

/-- **C36** (default directory).  Without output rules, the generator called `name` writes to `config/name`. -/
theorem C36_default (cwd : List Str) {name : Str} (h1 : '/' ∉ name) (h2 : name ≠ []) (h3 : name ≠ ['.']) (h4 : name ≠ ['.', '.']) :
    locate cwd (joinPath "config".toList name) = cwd ++ ["config".toList, name] := by
  rw [C36_direct cwd (by simp) h1 h2 h3 h4]
  have : locate cwd "config".toList = cwd ++ ["config".toList] := by
    rw [locate, Text.split_not_mem (by decide +kernel), if_neg (by decide +kernel)]
    simp [enter]
  rw [this, List.append_assoc]; rfl

/-- A path is its last name in its directory. -/
theorem locate_last (cwd : List Str) (p : Str) : ∃ name, '/' ∉ name ∧ (name = p ∨ ['/'] ++ name <:+ p) ∧ locate cwd p = enter (locate cwd (dirOf p)) name := by
  rcases Text.last_sep '/' p with hn | ⟨dir, name, rfl, hn⟩
  · refine ⟨p, hn, .inl rfl, ?_⟩
    rw [dirOf, locate_clean, uptoSlash, Text.split_not_mem hn]
    have : p.head? ≠ some '/' := by
      cases p with
      | nil => simp
      | cons c p => intro h; cases h; simp at hn
    rw [locate, if_neg this, Text.split_not_mem hn]
    simp [locate, Text.split, enter]
  · refine ⟨name, hn, .inr ⟨dir, by simp⟩, ?_⟩
    rw [locate_dirOf cwd rfl hn, locate, locate, split_sep, Text.split_not_mem hn, List.foldl_append, List.foldl_cons, List.foldl_nil]
    congr 1
    rw [split_sep]
    have h0 : Text.split '/' ([] : Str) = [[]] := rfl
    rw [h0, List.foldl_append, List.foldl_cons, List.foldl_nil]
    have hb : (if (dir ++ '/' :: name).head? = some '/' then [] else cwd) = (if (dir ++ ['/']).head? = some '/' then [] else cwd) := by
      cases dir <;> rfl
    rw [hb]
    simp [enter]

/-- **C36** (made).  The directory that is made before a file is written is the directory of the file, except for code that goes to the directory of its package: there it is this directory. -/
theorem C36_made (cwd : List Str) {rule : Rule} {pkg : Option (List Str)} {item p m : Str} (h : openRule rule pkg item = some (.file p, some m)) :
    (∃ name, '/' ∉ name ∧ (name = p ∨ ['/'] ++ name <:+ p) ∧ locate cwd p = enter (locate cwd m) name) ∨
    (∃ config f fs, rule = .artifacts config [] ∧ pkg = some (f :: fs) ∧ m = dirOf f ∧ p = joinPath (dirOf f) item) := by
  unfold openRule at h
  split at h
  · cases h
  · cases h
  · cases h; exact .inl (locate_last cwd _)
  · rename_i config code
    split at h
    · cases h; exact .inl (locate_last cwd _)
    · split at h
      · cases h; exact .inl (locate_last cwd _)
      · rename_i hc
        rw [Decidable.not_not] at hc
        subst hc
        split at h
        · cases h
        · cases h; exact .inr ⟨_, _, _, rfl, rfl, rfl, rfl⟩

/-- **C36**, violated: a path of an artifact with `..` leads out of the directory.  (The path of a CRD is made from the name of its group, which is what the marker `+groupName` says.) -/
theorem C36_violated : ∃ item, openRule (.artifacts "config/crd".toList []) none item = some (.file "../etc/x_foos.yaml".toList, some "../etc".toList) ∧
    ¬ locate ["home".toList] "config/crd".toList <+: locate ["home".toList] "../etc/x_foos.yaml".toList :=
  ⟨"../../../etc/x_foos.yaml".toList, by decide +kernel, by decide +kernel⟩

example : joinPath "a//b/./c/../d".toList "/e/".toList = "a/b/d/e".toList := by decide +kernel
example : dirOf "/home/me/proj/api/v1/types.go".toList = "/home/me/proj/api/v1".toList := by decide +kernel
example : openRule (.artifacts "config/object".toList []) (some ["/home/me/proj/api/v1/types.go".toList]) "zz_generated.deepcopy.go".toList =
    some (.file "/home/me/proj/api/v1/zz_generated.deepcopy.go".toList, some "/home/me/proj/api/v1".toList) := by decide +kernel

end Verif.Genall
