import Verif.Genall.AgainSpec
import Verif.Genall.ArtifactsTheorems
/-!
# Running controller-gen again (C92)
-/
namespace Verif.Genall
open Markers (Str)
open Markers.Doc (trimSpace trimRight isSpace)
open Spec

/-! ## The constraint of generated code -/

theorem split_app {c : Char} : ∀ (a : Str) {b : Str}, Text.split c (a ++ c :: b) = Text.split c a ++ Text.split c b
  | [], b => by rw [List.nil_append, Text.split_cons, if_pos rfl]; rfl
  | x :: a, b => by
    rw [List.cons_append, Text.split_cons, Text.split_cons, split_app a]
    split
    · rfl
    · cases h : Text.split c a with
      | nil => exact (Text.split_ne_nil h).elim
      | cons y ys => rfl

theorem noConstraint_app {a b : Str} (ha : NoConstraint a) (hb : NoConstraint b) : NoConstraint (a ++ '\n' :: b) := by
  intro l hl
  rw [split_app, List.mem_append] at hl
  exact hl.elim (ha l) (hb l)

theorem noConstraint_nil : NoConstraint [] := by
  intro l hl
  have : l = [] := by simpa [Text.split] using hl
  subst this
  decide +kernel

theorem noConstraint_join : ∀ {l : List Str}, (∀ i ∈ l, NoConstraint i) → NoConstraint (Text.join '\n' l)
  | [], _ => by simpa [Text.join] using noConstraint_nil
  | [i], h => by simpa [Text.join] using h i (by simp)
  | i :: j :: l, h => by
    have h1 := noConstraint_app (h i (by simp)) (noConstraint_join (l := j :: l) fun x hx => h x (by simp [hx]))
    have h2 : Text.join '\n' (i :: j :: l) = i ++ '\n' :: Text.join '\n' (j :: l) := by simp [Text.join, List.intercalate]
    rw [h2]
    exact h1

theorem trimSpace_head {c : Char} {s : Str} (h : isSpace c = false) : (trimSpace (c :: s)).head? = some c := by
  rw [trimSpace, List.dropWhile_cons, h]
  simp only [Bool.false_eq_true, if_false, trimRight]
  split
  · simp [h]
  · rfl

theorem noConstraint_package {pkg : Str} (h : '\n' ∉ pkg) : NoConstraint ("package ".toList ++ pkg) := by
  intro l hl hp
  have hn : '\n' ∉ "package ".toList ++ pkg := by
    rw [List.mem_append]
    rintro (h' | h')
    · exact absurd h' (by decide +kernel)
    · exact h h'
  rw [Text.split_not_mem hn, List.mem_singleton] at hl
  subst hl
  have e : ("package ".toList : Str) = 'p' :: "ackage ".toList := by decide +kernel
  rw [e, List.cons_append] at hp
  obtain ⟨t, ht⟩ := hp
  have h1 := trimSpace_head (c := 'p') (s := "ackage ".toList ++ pkg) (by decide +kernel)
  rw [← ht, show ("//go:build".toList : Str) = '/' :: "/go:build".toList by decide +kernel] at h1
  simp at h1

theorem scan_found {x : Str} : ∀ {ls : List Str} {star : Bool}, (∀ l ∈ ls, ¬ "//go:build".toList <+: trimSpace l) → scanHeader ls star (some x) = .one x
  | [], _, _ => rfl
  | l :: ls, star, h => by
    have h1 : isGoBuild (trimSpace l) = false := by
      unfold isGoBuild
      rw [Bool.and_eq_false_iff]
      left
      have := h l (by simp)
      rw [← List.isPrefixOf_iff_prefix] at this
      exact Bool.eq_false_iff.2 this
    have ih := fun star => scan_found (x := x) (ls := ls) (star := star) fun l hl => h l (by simp [hl])
    rw [scanHeader]
    simp only [h1, Bool.and_false, Bool.false_eq_true, if_false]
    split
    · exact ih _
    · rfl

def theLine : Str := "//go:build !ignore_autogenerated".toList

theorem constraint_raw {header pkg : Str} {imports bodies : List Str} (h1 : NoConstraint header) (h2 : '\n' ∉ pkg) (h3 : ∀ i ∈ imports, NoConstraint i) (h4 : NoConstraint bodies.flatten) :
    constraint (rawCode header pkg imports bodies) = .one theLine := by
  have e : rawCode header pkg imports bodies = theLine ++ '\n' :: ([] ++ '\n' :: (header ++ '\n' :: ([] ++ '\n' :: ("// Code generated by controller-gen. DO NOT EDIT.".toList ++ '\n' :: ([] ++ '\n' :: (("package ".toList ++ pkg) ++ '\n' ::
      ([] ++ '\n' :: ("import (".toList ++ '\n' :: (Text.join '\n' imports ++ '\n' :: (")".toList ++ '\n' :: ([] ++ '\n' :: bodies.flatten))))))))))) := by
    unfold rawCode
    rw [show "//go:build !ignore_autogenerated\n\n".toList = theLine ++ ['\n', '\n'] by decide +kernel,
      show "\n\n// Code generated by controller-gen. DO NOT EDIT.\n\npackage ".toList = '\n' :: '\n' :: ("// Code generated by controller-gen. DO NOT EDIT.".toList ++ '\n' :: '\n' :: "package ".toList) by decide +kernel,
      show "\n\nimport (\n".toList = '\n' :: '\n' :: ("import (".toList ++ ['\n']) by decide +kernel, show "\n)\n\n".toList = '\n' :: (")".toList ++ ['\n', '\n']) by decide +kernel]
    simp only [List.append_assoc, List.cons_append, List.nil_append]
  have hrest : NoConstraint ([] ++ '\n' :: (header ++ '\n' :: ([] ++ '\n' :: ("// Code generated by controller-gen. DO NOT EDIT.".toList ++ '\n' :: ([] ++ '\n' :: (("package ".toList ++ pkg) ++ '\n' ::
      ([] ++ '\n' :: ("import (".toList ++ '\n' :: (Text.join '\n' imports ++ '\n' :: (")".toList ++ '\n' :: ([] ++ '\n' :: bodies.flatten))))))))))) := by
    have k1 : NoConstraint "// Code generated by controller-gen. DO NOT EDIT.".toList := by unfold NoConstraint; decide +kernel
    have k2 : NoConstraint "import (".toList := by unfold NoConstraint; decide +kernel
    have k3 : NoConstraint ")".toList := by unfold NoConstraint; decide +kernel
    exact noConstraint_app noConstraint_nil (noConstraint_app h1 (noConstraint_app noConstraint_nil (noConstraint_app k1 (noConstraint_app noConstraint_nil (noConstraint_app (noConstraint_package h2)
      (noConstraint_app noConstraint_nil (noConstraint_app k2 (noConstraint_app (noConstraint_join h3) (noConstraint_app k3 (noConstraint_app noConstraint_nil h4))))))))))
  rw [constraint, e, Text.split_append (by decide +kernel), scanHeader]
  have g1 : (!false && isGoBuild (trimSpace theLine)) = true := by decide +kernel
  have g2 : trimSpace theLine = theLine := by decide +kernel
  simp only [g1, if_true, g2]
  exact scan_found hrest

theorem constraint_code {format : Str → Option Str} (hf : KeepsConstraint format) {header pkg : Str} {imports bodies : List Str} (h1 : NoConstraint header) (h2 : '\n' ∉ pkg) (h3 : ∀ i ∈ imports, NoConstraint i)
    (h4 : NoConstraint bodies.flatten) : constraint (code format header pkg imports bodies) = .one theLine := by
  have h := constraint_raw h1 h2 h3 h4
  unfold code
  cases hx : format (rawCode header pkg imports bodies) with
  | none => exact h
  | some s => exact hf _ _ _ hx h

/-! ## The tags -/

theorem mem_split_join {t : Str} (ht : ',' ∉ t) : ∀ {l : List Str}, t ∈ l → t ∈ Text.split ',' (Text.join ',' l)
  | [i], h => by
    rw [List.mem_singleton] at h
    subst h
    simp [Text.join, Text.split_not_mem ht]
  | i :: j :: l, h => by
    have h2 : Text.join ',' (i :: j :: l) = i ++ ',' :: Text.join ',' (j :: l) := by simp [Text.join, List.intercalate]
    rw [h2, split_app, List.mem_append]
    rcases List.mem_cons.1 h with rfl | h
    · left; rw [Text.split_not_mem ht]; simp
    · exact .inr (mem_split_join ht h)

theorem effectiveTags_build (tags : List Str) : effectiveTags (buildFlags tags) = Text.split ',' (Text.join ',' tags) := by
  have h1 : "-tags=".toList.isPrefixOf (tagsFlag tags) = true := by
    rw [List.isPrefixOf_iff_prefix]; exact List.prefix_append _ _
  have h2 : (tagsFlag tags).drop 6 = Text.join ',' tags := by
    unfold tagsFlag
    rw [List.drop_append_of_le_length (by decide +kernel)]
    rw [show "-tags=".toList.drop 6 = [] by decide +kernel, List.nil_append]
  simp only [effectiveTags, buildFlags, List.any_cons, h1, List.any_nil, Bool.or_false, if_true, Bool.false_eq_true, if_false, h2]

theorem ignored {tags : List Str} (h : "ignore_autogenerated".toList ∈ tags) : "ignore_autogenerated".toList ∈ effectiveTags (buildFlags tags) := by
  rw [effectiveTags_build]
  exact mem_split_join (by decide +kernel) h

/-! ## A run -/

variable {G : GoCmd}

/-- A file that is not loaded with the tag. -/
def Hidden (G : GoCmd) (place : List Str) (text : Str) : Prop := ∀ tags, "ignore_autogenerated".toList ∈ tags → G.chooses tags place text = false

theorem hidden_code (hG : GoCmd.Documented G) {place : List Str} {text : Str} (h : constraint text = .one theLine) : Hidden G place text := by
  intro tags ht
  unfold GoCmd.chooses
  rw [h, Bool.and_eq_false_iff]
  right
  simp only
  rw [show trimSpace (theLine.drop 10) = "!ignore_autogenerated".toList by decide +kernel]
  have := mt (hG.ignore tags).1
  simpa using this (fun hn => hn ht)

theorem hidden_other (hG : GoCmd.Documented G) {dir : List Str} {n text : Str} (h : ¬ ".go".toList <:+ n) : Hidden G (dir ++ [n]) text := by
  intro tags _
  unfold GoCmd.chooses
  rw [Bool.and_eq_false_iff]
  left
  rw [List.getLastD_eq_getLast?, List.getLast?_append]
  simp only [List.getLast?_singleton, Option.some_or, Option.getD_some]
  cases hn : G.named n with
  | false => rfl
  | true => exact (h (hG.go n hn)).elim

theorem yaml_not_go {n : Str} (h : ".yaml".toList <:+ n) : ¬ ".go".toList <:+ n := by
  intro h'
  rcases List.suffix_or_suffix_of_suffix h h' with h1 | h1
  · exact absurd h1 (by decide +kernel)
  · exact absurd h1 (by decide +kernel)

theorem hidden_written (hG : GoCmd.Documented G) {c : Command} {disk : Disk} (hc : Command.Good G c disk) {place : List Str} {text : Str} (h : Written c.cwd c.rules (c.steps G disk) place text) : Hidden G place text := by
  obtain ⟨i, s, r, a, dir, h1, -, h3, -, rfl, rfl⟩ := h
  have hs : s ∈ c.steps G disk := List.mem_of_getElem? h1
  have hn := (facts (hc.made s hs)).named a h3
  cases ht : s.tool with
  | crd => rw [ht] at hn; exact hidden_other hG (yaml_not_go hn.2)
  | rbac => exact hidden_other hG (hc.roles s hs ht a h3)
  | webhook =>
    rw [ht] at hn
    refine hidden_other hG ?_
    rw [show a.item = "manifests.yaml".toList from hn]
    decide +kernel
  | object =>
    obtain ⟨format, hf, hcode⟩ := hc.code
    obtain ⟨header, pkg, imports, bodies, e, k1, k2, k3, k4⟩ := hcode s hs ht a h3
    rw [e]
    exact hidden_code hG (constraint_code hf k1 k2 k3 k4)

def Command.effects (G : GoCmd) (c : Command) (disk : Disk) : List (List Str × Str) := Genall.effects c.cwd c.rules 0 (c.steps G disk)

theorem Spec.Command.Good.same {c : Command} {disk disk' : Disk} (hc : Command.Good G c disk) (h : c.steps G disk' = c.steps G disk) : Command.Good G c disk' :=
  ⟨hc.tags, hc.rules, by rw [h]; exact hc.made, by rw [h]; exact hc.roles, by rw [h]; exact hc.code⟩

theorem run_eq {c : Command} {disk : Disk} (hc : Command.Good G c disk) : c.run G disk = puts disk (c.effects G disk) :=
  run_effects hc.rules (fun s hs => hc.made s hs) c.errors c.visited { disk := disk }

theorem puts_agree {k : List Str} : ∀ {es m m' : List (List Str × Str)}, (∃ e ∈ es, e.1 = k) → GoMap.get (puts m es) k = GoMap.get (puts m' es) k
  | [], _, _, h => by obtain ⟨e, he, -⟩ := h; cases he
  | e :: es, m, m', h => by
    by_cases hk : ∃ e ∈ es, e.1 = k
    · exact puts_agree (es := es) hk
    · have h1 : ∀ x ∈ es, x.1 ≠ k := fun x hx hx' => hk ⟨x, hx, hx'⟩
      have h2 : e.1 = k := by
        obtain ⟨x, hx, hxk⟩ := h
        rcases List.mem_cons.1 hx with rfl | hx
        · exact hxk
        · exact (h1 x hx hxk).elim
      have h3 : ∀ m : List (List Str × Str), GoMap.get (puts m (e :: es)) k = some e.2 := by
        intro m
        rw [puts, List.foldl_cons]
        exact (puts_other (es := es) h1).trans (by rw [GoMap.get_put, if_pos h2.symm])
      rw [h3, h3]

theorem puts_wf : ∀ {es m : List (List Str × Str)}, GoMap.WF m → GoMap.WF (puts m es)
  | [], _, h => h
  | e :: es, _, h => puts_wf (es := es) (GoMap.put_wf h e.1 e.2)

theorem filter_put {p : List Str × Str → Bool} {k : List Str} {v : Str} (hv : p (k, v) = false) : ∀ {m : List (List Str × Str)}, (∀ v', GoMap.get m k = some v' → p (k, v') = false) →
    (GoMap.put m k v).filter p = m.filter p
  | [], _ => by simp [GoMap.put, hv]
  | e :: m, h => by
    rw [GoMap.put]
    rw [GoMap.get] at h
    split
    · rename_i he
      have he : e.1 = k := he
      rw [if_pos he] at h
      have h1 : p e = false := by rw [← h e.2 rfl, ← he]
      simp [List.filter_cons, hv, h1]
    · rename_i he
      rw [if_neg he] at h
      rw [List.filter_cons, List.filter_cons, filter_put hv h]

theorem filter_puts {p : List Str × Str → Bool} : ∀ {es m : List (List Str × Str)}, (∀ e ∈ es, p e = false) → (∀ e ∈ es, ∀ v', GoMap.get m e.1 = some v' → p (e.1, v') = false) → (puts m es).filter p = m.filter p
  | [], _, _, _ => rfl
  | e :: es, m, h1, h2 => by
    rw [puts, List.foldl_cons]
    refine (filter_puts (es := es) (fun x hx => h1 x (by simp [hx])) fun x hx v' hv => ?_).trans (filter_put (h1 e (by simp)) (h2 e (by simp)))
    rw [GoMap.get_put] at hv
    split at hv
    · rename_i he
      cases hv
      rw [he]
      exact h1 e (by simp)
    · exact h2 x (by simp [hx]) v' hv

theorem mem_effects_written {c : Command} {disk : Disk} {e : List Str × Str} (h : e ∈ c.effects G disk) : Written c.cwd c.rules (c.steps G disk) e.1 e.2 := written_iff.2 h

/-- The Go files that are loaded are those that were loaded. -/
theorem loaded_run (hG : GoCmd.Documented G) {c : Command} {disk : Disk} (hc : Command.Good G c disk) (hwf : GoMap.WF disk) (hk : Command.Keeps G c disk) : c.loaded G (c.run G disk) = c.loaded G disk := by
  rw [run_eq hc]
  refine filter_puts (fun e he => hidden_written hG hc (mem_effects_written he) _ (ignored hc.tags)) fun e he v' hv => ?_
  have h1 := (hk _ _ (mem_effects_written he)).2 v' hv
  cases hp : G.chooses (effectiveTags (buildFlags c.tags)) e.1 v' with
  | false => rfl
  | true => exact (h1 (List.mem_filter.2 ⟨(GoMap.get_eq_some hwf).1 hv, hp⟩)).elim

theorem headers_run {c : Command} {disk : Disk} (hc : Command.Good G c disk) (hk : Command.Keeps G c disk) : c.headers.map (GoMap.get (c.run G disk)) = c.headers.map (GoMap.get disk) := by
  refine List.map_congr_left fun p hp => ?_
  rw [run_eq hc]
  exact puts_other fun e he h => (hk _ _ (mem_effects_written he)).1 (h ▸ hp)

/-- **C92** (again): a second run of the command changes nothing. -/
theorem C92_again_partial (hG : GoCmd.Documented G) {c : Command} {disk : Disk} (hc : Command.Good G c disk) (hwf : GoMap.WF disk) (hk : Command.Keeps G c disk) (place : List Str) :
    GoMap.get (c.run G (c.run G disk)) place = GoMap.get (c.run G disk) place := by
  have h0 : c.steps G (c.run G disk) = c.steps G disk := by
    unfold Command.steps
    rw [loaded_run hG hc hwf hk, headers_run hc hk]
  have h1 : c.effects G (c.run G disk) = c.effects G disk := by
    unfold Command.effects
    rw [h0]
  rw [run_eq (hc.same h0), h1, run_eq hc]
  by_cases h : ∃ e ∈ c.effects G disk, e.1 = place
  · exact puts_agree h
  · exact puts_other fun e he hp => h ⟨e, he, hp⟩

/-! ## Histories -/

theorem ops_wf : ∀ {l : List Op} {disk : Disk}, GoMap.WF disk → GoMap.WF (l.foldl Op.apply disk)
  | [], _, h => h
  | .create p :: l, _, h => ops_wf (l := l) (GoMap.put_wf h p _)
  | .append p _ :: l, _, h => ops_wf (l := l) (GoMap.put_wf h p _)

theorem hidden_place (hG : GoCmd.Documented G) {place : List Str} {text : Str} (h : ".go".toList <:+ place.getLastD [] → constraint text = .one theLine) : Hidden G place text := by
  by_cases hg : ".go".toList <:+ place.getLastD []
  · exact hidden_code hG (h hg)
  · intro tags _
    unfold GoCmd.chooses
    rw [Bool.and_eq_false_iff]
    left
    cases hn : G.named (place.getLastD []) with
    | false => rfl
    | true => exact (hg (hG.go _ hn)).elim

theorem history_inv (hG : GoCmd.Documented G) {past : List (List Str)} {disk : Disk} (h : History G past disk) :
    GoMap.WF disk ∧ ∀ place ∈ past, ∀ text, GoMap.get disk place = some text → Hidden G place text := by
  induction h with
  | start hwf => exact ⟨hwf, nofun⟩
  | edit _ hwf he ih =>
    refine ⟨hwf, fun p hp t ht => ?_⟩
    rcases he p hp with h | h
    · exact ih.2 p hp t (h ▸ ht)
    · rw [h] at ht; cases ht
  | run c _ hc _ hp ih =>
    rw [run_eq hc]
    refine ⟨puts_wf ih.1, fun p hpp t ht => ?_⟩
    rcases puts_some ht with h | h
    · exact hidden_written hG hc (mem_effects_written h)
    · rcases (hp p).1 hpp with h1 | ⟨t', h1⟩
      · exact ih.2 p h1 t h
      · rename_i disk' _ _
        have : ∃ e ∈ c.effects G disk', e.1 = p := ⟨(p, t'), written_iff.1 h1, rfl⟩
        rcases puts_some ((puts_agree (m' := []) this).symm.trans ht) with h | h
        · exact hidden_written hG hc (mem_effects_written h)
        · cases h
  | crash c pieces n _ _ _ _ hg hp ih =>
    refine ⟨ops_wf ih.1, fun p hpp t ht => ?_⟩
    rename_i disk' _ _ _ _
    by_cases he : GoMap.get disk' p = some t
    · rcases (hp p).1 hpp with h1 | h1
      · exact ih.2 p h1 t he
      · exact (h1 (ht.trans he.symm)).elim
    · exact hidden_place hG (hg p t ht he)

theorem get_checkout {past : List (List Str)} {disk : Disk} (place : List Str) : GoMap.get (checkout past disk) place = if place ∈ past then none else GoMap.get disk place := by
  induction disk with
  | nil => simp [checkout, GoMap.get]
  | cons e disk ih =>
    unfold checkout at ih ⊢
    rw [List.filter_cons]
    by_cases he : e.1 ∈ past
    · simp only [he, not_true_eq_false, decide_false, Bool.false_eq_true, if_false]
      rw [ih]
      split
      · rfl
      · rename_i hn
        rw [GoMap.get, if_neg (fun h : e.1 = place => hn (h ▸ he))]
    · simp only [he, not_false_eq_true, decide_true, if_true]
      rw [GoMap.get, GoMap.get, ih]
      split
      · rename_i h
        rw [if_neg (h ▸ he)]
      · rfl

/-- **C92.**  After any history of edits, runs and interrupted runs, the run of a command leaves what it leaves in a clean checkout, and apart from that only files of earlier runs, as they were.  What is missing: files of earlier runs that would
not be written any more are not removed (`C92_violated_stale`), and with other build tags earlier runs do matter (`C92_violated_tags`). -/
theorem C92_clean_partial (hG : GoCmd.Documented G) {past : List (List Str)} {disk : Disk} (h : History G past disk) {c : Command} (hc : Command.Good G c disk) (hh : ∀ place ∈ c.headers, place ∉ past) (place : List Str) (text : Str) :
    (GoMap.get (c.run G (checkout past disk)) place = some text → GoMap.get (c.run G disk) place = some text) ∧
    (GoMap.get (c.run G disk) place = some text → GoMap.get (c.run G (checkout past disk)) place = some text ∨ (place ∈ past ∧ GoMap.get disk place = some text)) := by
  obtain ⟨hwf, hin⟩ := history_inv hG h
  have h1 : c.loaded G (checkout past disk) = c.loaded G disk := by
    unfold Command.loaded checkout
    rw [List.filter_filter]
    refine List.filter_congr fun e he => ?_
    by_cases hp : e.1 ∈ past
    · rw [hin e.1 hp e.2 ((GoMap.get_eq_some hwf).2 he) _ (ignored hc.tags), Bool.false_and]
    · simp [hp]
  have h2 : c.headers.map (GoMap.get (checkout past disk)) = c.headers.map (GoMap.get disk) :=
    List.map_congr_left fun p hp => by rw [get_checkout, if_neg (hh p hp)]
  have h0 : c.steps G (checkout past disk) = c.steps G disk := by
    unfold Command.steps
    rw [h1, h2]
  have h3 : c.effects G (checkout past disk) = c.effects G disk := by
    unfold Command.effects
    rw [h0]
  rw [run_eq (hc.same h0), run_eq hc, h3]
  by_cases hw : ∃ e ∈ c.effects G disk, e.1 = place
  · rw [puts_agree (m := checkout past disk) (m' := disk) hw]
    exact ⟨id, .inl⟩
  · have hw : ∀ e ∈ c.effects G disk, e.1 ≠ place := fun e he hp => hw ⟨e, he, hp⟩
    rw [puts_other hw, puts_other hw, get_checkout]
    split
    · rename_i hp
      exact ⟨nofun, fun h => .inr ⟨hp, h⟩⟩
    · exact ⟨id, .inl⟩

end Verif.Genall
