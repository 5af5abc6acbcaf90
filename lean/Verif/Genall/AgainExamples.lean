import Verif.Genall.AgainTheorems
import Verif.DeepCopy.SourceExamples
/-!
# Running controller-gen again: a history that does not matter, and histories that do (C92)
-/
namespace Verif.Genall.AgainCase
open Markers (Str)
open Spec
open DeepCopy (Method Root Prog)
open DeepCopy.SourceExamples (root file)

/-- A go command that evaluates tags and their negation. -/
def go : GoCmd where
  named n := ".go".toList.isSuffixOf n
  satisfied e tags := match e with | '!' :: t => decide (t ∉ tags) | t => decide (t ∈ tags)
  legacy _ _ := true

theorem documented : GoCmd.Documented go := by
  refine ⟨fun n h => List.isSuffixOf_iff_suffix.1 h, fun tags => ?_⟩
  have e : ("!ignore_autogenerated".toList : Str) = '!' :: "ignore_autogenerated".toList := by decide +kernel
  show (match "!ignore_autogenerated".toList with | '!' :: t => decide (t ∉ tags) | t => decide (t ∈ tags)) = true ↔ _
  rw [e]
  simp

/-! ## The sources

The file of `DeepCopy/SourceExamples.lean`: first with a method `DeepCopy` of `Baz`, then without it, and last without markers. -/

def types : List Str := ["p".toList, "v1".toList, "types.go".toList]
def zz : List Str := ["p".toList, "v1".toList, "zz_generated.deepcopy.go".toList]
def boilerplate : List Str := ["p".toList, "hack".toList, "boilerplate.go.txt".toList]

def src1 : Str := "// +kubebuilder:object:generate=true\npackage v1\n\n// and so on\n\nfunc (b Baz) DeepCopy() Baz { return nil }\n".toList
def src2 : Str := "// +kubebuilder:object:generate=true\npackage v1\n\n// and so on\n".toList
def src3 : Str := "package v1\n\n// and so on\n".toList

def root2 : Root := { root with prog := { root.prog with manual := fun _ => {} } }
def root3 : Root := { root2 with files := [{ file with groups := [] }] }

/-- The types of a program, if the methods in a generated file belong to it. -/
def withMethods (P : Prog) (file : List (String × List Method)) : Prog :=
  { P with manual := fun n => match file.lookup n with
    | none => P.manual n
    | some ms => { copy := if Method.deepCopy ∈ ms then some (P.usePtrReceiver (.named n)) else (P.manual n).copy, into := decide (Method.deepCopyInto ∈ ms) || (P.manual n).into } }

/-- What is generated from the first. -/
def file1 : List (String × List Method) := [("Baz", [.deepCopyInto]), ("Foo", [.deepCopyInto, .deepCopy, .deepCopyObject])]
/-- What is generated from the second. -/
def file2 : List (String × List Method) := [("Baz", [.deepCopyInto, .deepCopy]), ("Foo", [.deepCopyInto, .deepCopy, .deepCopyObject])]

/-- What parsing and type checking make of the Go files that are loaded. -/
def check (files : List (List Str × Str)) : List Root :=
  match GoMap.get files types with
  | none => []
  | some s =>
    if s = src1 then [root]
    else if s = src2 then
      match GoMap.get files zz with
      | none => [root2]
      | some _ => [{ root2 with prog := withMethods root2.prog file1 }]
    else [root3]

/-! ## The command -/

def methodName : Method → Str
  | .deepCopyInto => "DeepCopyInto".toList
  | .deepCopy => "DeepCopy".toList
  | .deepCopyObject => "DeepCopyObject".toList

/-- The methods of a type, without what is in them. -/
def body (e : String × List Method) : Str := e.2.flatMap fun m => "func (in *".toList ++ e.1.toList ++ ") ".toList ++ methodName m ++ "() {}\n".toList

def text (header : Str) (file : List (String × List Method)) : Str := code some header "v1".toList [] (file.map body)

def hist : List (Markers.Def Markers.Loaded) := (Markers.Shipped.history ["object"]).getD []

def plan (files : List (List Str × Str)) (headers : List (Option Str)) : List Step :=
  match DeepCopy.generateAll hist Markers.exEnv DeepCopy.capital (check files) with
  | none => []
  | some out => [⟨.object, objectArtifacts (fun _ => ["/p/v1/types.go".toList]) (fun _ => text ((headers.head?.getD none).getD [])) out, none⟩]

/-- `controller-gen object:headerFile=hack/boilerplate.go.txt paths=./...` -/
def command (tags : List Str) : Command where
  cwd := ["p".toList]
  tags := tags
  rules := { default := some (.artifacts [] []), byGenerator := [] }
  headers := [boilerplate]
  plan := plan
  errors := fun _ _ => []
  visited := fun _ => []

def usual : List Str := ["ignore_autogenerated".toList]
def other : List Str := ["integration".toList]

def header : Str := "/*\nCopyright 2024\n*/".toList

def disk (src : Str) : Disk := [(types, src), (boilerplate, header)]
def diskWith (src : Str) (file : List (String × List Method)) : Disk := [(types, src), (boilerplate, header), (zz, text header file)]

theorem out1 : DeepCopy.generateAll hist Markers.exEnv DeepCopy.capital [root] = some [("example.com/v1", file1)] := by decide +kernel
theorem out2 : DeepCopy.generateAll hist Markers.exEnv DeepCopy.capital [root2] = some [("example.com/v1", file2)] := by decide +kernel
theorem out2' : DeepCopy.generateAll hist Markers.exEnv DeepCopy.capital [{ root2 with prog := withMethods root2.prog file1 }] = some [("example.com/v1", [("Baz", [.deepCopy])])] := by decide +kernel
theorem out3 : DeepCopy.generateAll hist Markers.exEnv DeepCopy.capital [root3] = some [] := by decide +kernel

theorem steps_of {tags : List Str} {d : Disk} {roots : List Root} {out : List (String × List (String × List Method))} (h1 : check ((command tags).loaded go d) = roots)
    (h2 : DeepCopy.generateAll hist Markers.exEnv DeepCopy.capital roots = some out) (h3 : GoMap.get d boilerplate = some header) :
    (command tags).steps go d = [⟨.object, objectArtifacts (fun _ => ["/p/v1/types.go".toList]) (fun _ => text header) out, none⟩] := by
  show plan ((command tags).loaded go d) ([boilerplate].map (GoMap.get d)) = _
  unfold plan
  rw [h1, h2]
  simp only [List.map_cons, List.map_nil, h3, List.head?_cons, Option.getD_some]

theorem run_of {tags : List Str} {d : Disk} {roots : List Root} {f : List (String × List Method)} (h1 : check ((command tags).loaded go d) = roots)
    (h2 : DeepCopy.generateAll hist Markers.exEnv DeepCopy.capital roots = some [("example.com/v1", f)]) (h3 : GoMap.get d boilerplate = some header) :
    (command tags).run go d = GoMap.put d zz (text header f) := by
  unfold Command.run
  rw [steps_of h1 h2 h3]
  have hz : locate ["p".toList] (joinPath (dirOf "/p/v1/types.go".toList) "zz_generated.deepcopy.go".toList) = zz := by decide +kernel
  rw [← hz]
  rfl

theorem run_none {tags : List Str} {d : Disk} {roots : List Root} (h1 : check ((command tags).loaded go d) = roots) (h2 : DeepCopy.generateAll hist Markers.exEnv DeepCopy.capital roots = some [])
    (h3 : GoMap.get d boilerplate = some header) : (command tags).run go d = d := by
  unfold Command.run
  rw [steps_of h1 h2 h3]
  rfl

/-! ## A history that does not matter -/

theorem good {d : Disk} {roots : List Root} {out : List (String × List (String × List Method))} (h1 : check ((command usual).loaded go d) = roots)
    (h2 : DeepCopy.generateAll hist Markers.exEnv DeepCopy.capital roots = some out) (h3 : GoMap.get d boilerplate = some header) (h4 : ∀ e ∈ out, NoConstraint (e.2.map body).flatten) :
    Command.Good go (command usual) d := by
  refine ⟨by simp [command, usual], fun i => by simp [command, OutputRules.forGenerator, GoMap.get], ?_, ?_, ?_⟩
  · rw [steps_of h1 h2 h3]
    simp only [List.mem_singleton, forall_eq]
    refine .object _ (fun _ => text header) h2 fun p f hf => ?_
    rw [List.mem_singleton] at hf
    subst hf
    decide +kernel
  · rw [steps_of h1 h2 h3]
    simp
  · refine ⟨some, fun s s' l e h => by cases e; exact h, ?_⟩
    rw [steps_of h1 h2 h3]
    simp only [List.mem_singleton, forall_eq, forall_const]
    intro a ha
    obtain ⟨e, he, rfl⟩ := List.mem_map.1 ha
    exact ⟨header, "v1".toList, [], e.2.map body, rfl, by unfold NoConstraint; decide +kernel, by decide +kernel, nofun, h4 e he⟩

theorem keeps {d : Disk} {roots : List Root} {out : List (String × List (String × List Method))} (h1 : check ((command usual).loaded go d) = roots)
    (h2 : DeepCopy.generateAll hist Markers.exEnv DeepCopy.capital roots = some out) (h3 : GoMap.get d boilerplate = some header) (h4 : GoMap.get ((command usual).loaded go d) zz = none) :
    Command.Keeps go (command usual) d := by
  rintro p t ⟨i, s, r, a, dir, k1, k2, k3, k4, rfl, rfl⟩
  rw [steps_of h1 h2 h3] at k1
  have hs := List.mem_of_getElem? k1
  rw [List.mem_singleton] at hs
  subst hs
  obtain ⟨e, -, rfl⟩ := List.mem_map.1 k3
  have hr : r = .artifacts [] [] := by
    have : (command usual).rules.forGenerator i = some (.artifacts [] []) := by simp [command, OutputRules.forGenerator, GoMap.get]
    rw [this] at k2
    exact (Option.some.inj k2).symm
  subst hr
  have hd : dir ++ ["zz_generated.deepcopy.go".toList] = zz := by
    have : folder ["p".toList] (.artifacts [] []) (some ["/p/v1/types.go".toList]) = some ["p".toList, "v1".toList] := by decide +kernel
    rw [show folder (command usual).cwd (.artifacts [] []) _ = _ from this] at k4
    cases k4
    rfl
  show dir ++ ["zz_generated.deepcopy.go".toList] ∉ [boilerplate] ∧ _
  rw [hd]
  refine ⟨by decide +kernel, fun t' _ hm => ?_⟩
  exact (GoMap.get_eq_none.1 h4) (GoMap.mem_keys.2 ⟨t', hm⟩)

theorem check1 : (command usual).loaded go (disk src1) = [(types, src1)] := by decide +kernel
theorem check2 : (command usual).loaded go (diskWith src2 file1) = [(types, src2)] := by decide +kernel
theorem check3 : (command usual).loaded go (diskWith src3 file1) = [(types, src3)] := by decide +kernel

theorem wf1 (s : Str) : GoMap.WF (disk s) := by
  show [types, boilerplate].Nodup
  decide +kernel

theorem wf2 (s : Str) (f : List (String × List Method)) : GoMap.WF (diskWith s f) := by
  show [types, boilerplate, zz].Nodup
  decide +kernel

theorem put1 (s : Str) (f : List (String × List Method)) : GoMap.put (disk s) zz (text header f) = diskWith s f := by
  have h1 : types ≠ zz := by decide +kernel
  have h2 : boilerplate ≠ zz := by decide +kernel
  simp [disk, diskWith, GoMap.put, h1, h2]

theorem get_header (s : Str) : GoMap.get (disk s) boilerplate = some header ∧ ∀ f, GoMap.get (diskWith s f) boilerplate = some header := by
  have h1 : types ≠ boilerplate := by decide +kernel
  simp [disk, diskWith, GoMap.get, h1]

theorem root_of1 : check ((command usual).loaded go (disk src1)) = [root] := by
  rw [check1]
  unfold check
  rw [show GoMap.get [(types, src1)] types = some src1 by decide +kernel]
  rfl

theorem ne12 : src2 ≠ src1 := by decide +kernel
theorem ne13 : src3 ≠ src1 := by decide +kernel
theorem ne23 : src3 ≠ src2 := by decide +kernel

theorem root_of2 : check [(types, src2)] = [root2] := by
  unfold check
  rw [show GoMap.get [(types, src2)] types = some src2 by decide +kernel, show GoMap.get [(types, src2)] zz = none by decide +kernel]
  simp only [if_neg ne12, if_pos]

theorem root_of3 : check [(types, src3)] = [root3] := by
  unfold check
  rw [show GoMap.get [(types, src3)] types = some src3 by decide +kernel]
  simp only [if_neg ne13, if_neg ne23]

theorem noC1 : ∀ e ∈ [("example.com/v1", file1)], NoConstraint (e.2.map body).flatten := by unfold NoConstraint; decide +kernel
theorem noC2 : ∀ e ∈ [("example.com/v1", file2)], NoConstraint (e.2.map body).flatten := by unfold NoConstraint; decide +kernel

/-- A run, and then an edit of the source. -/
theorem history (src : Str) : History go [zz] (diskWith src file1) := by
  have h := History.run (past' := [zz]) (command usual) (.start (wf1 src1)) (good root_of1 out1 (get_header _).1 noC1) (keeps root_of1 out1 (get_header _).1 (by rw [check1]; decide +kernel)) (fun p => by
    rw [steps_of root_of1 out1 (get_header _).1]
    have hf : folder ["p".toList] (.artifacts [] []) (some ["/p/v1/types.go".toList]) = some ["p".toList, "v1".toList] := by decide +kernel
    constructor
    · intro hp
      rw [List.mem_singleton] at hp
      subst hp
      exact .inr ⟨_, 0, _, .artifacts [] [], _, _, rfl, rfl, List.mem_cons_self, hf, rfl, rfl⟩
    · rintro (hp | ⟨t, i, s, r, a, dir, k1, k2, k3, k4, rfl, -⟩)
      · cases hp
      · have hs := List.mem_of_getElem? k1
        rw [List.mem_singleton] at hs
        subst hs
        obtain ⟨e, -, rfl⟩ := List.mem_map.1 k3
        have : (command usual).rules.forGenerator i = some (.artifacts [] []) := by simp [command, OutputRules.forGenerator, GoMap.get]
        rw [this] at k2
        cases k2
        rw [show folder (command usual).cwd (.artifacts [] []) _ = _ from hf] at k4
        cases k4
        rw [List.mem_singleton]
        rfl)
  rw [run_of root_of1 out1 (get_header _).1, put1] at h
  refine .edit h (wf2 _ _) fun p hp => ?_
  rw [List.mem_singleton] at hp
  subst hp
  left
  have h1 : types ≠ zz := by decide +kernel
  have h2 : boilerplate ≠ zz := by decide +kernel
  simp [diskWith, GoMap.get, h1, h2]

theorem checkout_eq (s : Str) : checkout [zz] (diskWith s file1) = disk s := by
  have h1 : types ≠ zz := by decide +kernel
  have h2 : boilerplate ≠ zz := by decide +kernel
  simp [checkout, disk, diskWith, h1, h2]

theorem get_zz (s : Str) : GoMap.get (disk s) zz = none := by
  have h1 : types ≠ zz := by decide +kernel
  have h2 : boilerplate ≠ zz := by decide +kernel
  simp [disk, GoMap.get, h1, h2]

theorem get_zz' (s : Str) (f : List (String × List Method)) : GoMap.get (diskWith s f) zz = some (text header f) := by
  have h1 : types ≠ zz := by decide +kernel
  have h2 : boilerplate ≠ zz := by decide +kernel
  simp [diskWith, GoMap.get, h1, h2]

/-- The hypotheses of `C92_clean_partial` are met after this history: the second run writes what a run in a clean checkout writes. -/
example : GoMap.get ((command usual).run go (diskWith src2 file1)) zz = some (text header file2) := by
  have hl : check ((command usual).loaded go (disk src2)) = [root2] := by
    rw [show (command usual).loaded go (disk src2) = [(types, src2)] by decide +kernel]
    exact root_of2
  refine (C92_clean_partial documented (history src2) (good (by rw [check2]; exact root_of2) out2 ((get_header _).2 _) noC2) (fun p hp => ?_) zz _).1 ?_
  · rw [show p = boilerplate from List.mem_singleton.1 hp]
    decide +kernel
  · rw [checkout_eq, run_of hl out2 (get_header _).1, GoMap.get_put, if_pos rfl]

/-- So are those of `C92_again_partial`. -/
example (place : List Str) : GoMap.get ((command usual).run go ((command usual).run go (diskWith src2 file1))) place = GoMap.get ((command usual).run go (diskWith src2 file1)) place := by
  have hl : check ((command usual).loaded go (diskWith src2 file1)) = [root2] := by rw [check2]; exact root_of2
  exact C92_again_partial documented (good hl out2 ((get_header _).2 _) noC2) (wf2 _ _) (keeps hl out2 ((get_header _).2 _) (by rw [check2]; decide +kernel)) place

/-! ## Histories that do -/

/-- **C92**, violated: files of earlier runs stay although nothing would be written to them any more.  Here the markers are removed; the file with the methods remains, which in a clean checkout is not there. -/
theorem C92_violated_stale : ∃ (G : GoCmd) (past : List (List Str)) (disk : Disk) (c : Command) (place : List Str), GoCmd.Documented G ∧ History G past disk ∧ Command.Good G c disk ∧ (∀ p ∈ c.headers, p ∉ past) ∧
    GoMap.get (c.run G (checkout past disk)) place = none ∧ (GoMap.get (c.run G disk) place).isSome := by
  have hl : check ((command usual).loaded go (disk src3)) = [root3] := by
    rw [show (command usual).loaded go (disk src3) = [(types, src3)] by decide +kernel]
    exact root_of3
  have hl' : check ((command usual).loaded go (diskWith src3 file1)) = [root3] := by rw [check3]; exact root_of3
  refine ⟨go, [zz], diskWith src3 file1, command usual, zz, documented, history src3, good hl' out3 ((get_header _).2 _) nofun, fun p hp => ?_, ?_, ?_⟩
  · rw [show p = boilerplate from List.mem_singleton.1 hp]
    decide +kernel
  · rw [checkout_eq, run_none hl out3 (get_header _).1, get_zz]
  · rw [run_none hl' out3 ((get_header _).2 _), get_zz']
    rfl

theorem loaded_other1 : (command other).loaded go (disk src1) = [(types, src1)] := by decide +kernel
theorem loaded_other2 : (command other).loaded go (disk src2) = [(types, src2)] := by decide +kernel
theorem loaded_other2' : (command other).loaded go (diskWith src2 file1) = [(types, src2), (zz, text header file1)] := by decide +kernel

/-- **C92**, violated: with other tags, `--load-build-tags=integration`, the methods of the first run are taken for methods in the source.  The first run writes all methods that are missing.  Then the method that was in the
source is deleted, and the second run writes that method and nothing else: the methods of `Foo` are lost.  In a clean checkout all are written. -/
theorem C92_violated_tags : ∃ (G : GoCmd) (c : Command) (before after : Disk) (place : List Str) (text : List (String × List Method) → Str), GoCmd.Documented G ∧ c.tags = ["integration".toList] ∧
    GoMap.get (c.run G before) place = some (text [("Baz", [.deepCopyInto]), ("Foo", [.deepCopyInto, .deepCopy, .deepCopyObject])]) ∧
    (∀ p, GoMap.get after p = if p = types then some src2 else GoMap.get (c.run G before) p) ∧
    GoMap.get (c.run G after) place = some (text [("Baz", [.deepCopy])]) ∧
    GoMap.get (c.run G (checkout [place] after)) place = some (text [("Baz", [.deepCopyInto, .deepCopy]), ("Foo", [.deepCopyInto, .deepCopy, .deepCopyObject])]) := by
  have e1 : (command other).run go (disk src1) = diskWith src1 file1 := by
    rw [run_of (roots := [root]) ?_ out1 (get_header _).1, put1]
    rw [loaded_other1, ← check1]
    exact root_of1
  have hl : check ((command other).loaded go (diskWith src2 file1)) = [{ root2 with prog := withMethods root2.prog file1 }] := by
    rw [loaded_other2']
    unfold check
    rw [show GoMap.get [(types, src2), (zz, text header file1)] types = some src2 by decide +kernel, show GoMap.get [(types, src2), (zz, text header file1)] zz = some (text header file1) by decide +kernel]
    simp only [if_neg ne12, if_pos]
  refine ⟨go, command other, disk src1, diskWith src2 file1, zz, text header, documented, rfl, ?_, fun p => ?_, ?_, ?_⟩
  · rw [e1, get_zz']
    rfl
  · rw [e1]
    unfold diskWith
    by_cases hp : p = types
    · subst hp
      simp [GoMap.get]
    · simp [GoMap.get, hp, Ne.symm hp]
  · rw [run_of hl out2' ((get_header _).2 _), GoMap.get_put, if_pos rfl]
  · rw [checkout_eq, run_of (roots := [root2]) ?_ out2 (get_header _).1, GoMap.get_put, if_pos rfl]
    · rfl
    · rw [loaded_other2]; exact root_of2

end Verif.Genall.AgainCase
