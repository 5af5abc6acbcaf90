import Verif.Genall.ArtifactsSpec
import Verif.CrdGen.GenerateTheorems
import Verif.Genall.OptionsTheorems
import Verif.Webhook.Theorems
/-!
# The files of a run do not overwrite each other (C91)
-/
namespace Verif.Genall
open Markers (Str)
open Loader (PkgErr)
open Spec

/-! ## Where an artifact goes -/

/-- A name that means a file directly in a directory. -/
structure Direct (n : Str) : Prop where
  slash : '/' ∉ n
  nonempty : n ≠ []
  dot : n ≠ ['.']
  dots : n ≠ ['.', '.']

theorem enter_direct {n : Str} (h : Direct n) (at_ : List Str) : enter at_ n = at_ ++ [n] := by
  simp [enter, h.nonempty, h.dot, h.dots]

theorem locate_in (cwd : List Str) (d : Str) {n : Str} (h : Direct n) : locate cwd (joinPath d n) = locate cwd d ++ [n] := by
  by_cases hd : d = []
  · subst hd
    have h1 : joinPath [] n = clean n := by simp [joinPath, h.nonempty]
    have h2 : n.head? ≠ some '/' := by
      cases n with
      | nil => simp
      | cons c n => intro e; cases e; exact h.slash (by simp)
    rw [h1, locate_clean, locate, if_neg h2, Text.split_not_mem h.slash, List.foldl_cons, List.foldl_nil, enter_direct h]
    simp [locate, Text.split, enter]
  · exact C36_direct cwd hd h.slash h.nonempty h.dot h.dots

theorem locate_go (cwd : List Str) {f : Str} (h : ".go".toList <:+ f) : locate cwd (dirOf f) = (locate cwd f).dropLast := by
  obtain ⟨n, h1, h2, h3⟩ := locate_last cwd f
  have hgo : (".go".toList : Str) = ['.', 'g', 'o'] := by decide +kernel
  rw [hgo] at h
  have hsuf : ['.', 'g', 'o'] <:+ n := by
    rcases h2 with rfl | h2
    · exact h
    · rcases List.suffix_or_suffix_of_suffix h h2 with h4 | h4
      · obtain ⟨t, ht⟩ := h4
        cases t with
        | nil => simp at ht
        | cons c t => simp only [List.cons_append, List.nil_append, List.cons.injEq] at ht; exact ⟨t, ht.2⟩
      · obtain ⟨t, ht⟩ := h4
        have : '/' ∈ ['.', 'g', 'o'] := by rw [← ht]; simp
        simp at this
  have hd : Direct n := by
    obtain ⟨t, rfl⟩ := hsuf
    refine ⟨h1, by simp, fun e => ?_, fun e => ?_⟩
    · have := congrArg List.length e; simp at this
    · have := congrArg List.length e; simp at this
  rw [h3, enter_direct hd]
  simp

/-- What an artifact does to the disk. -/
def effect (cwd : List Str) (rule : Rule) (a : Artifact) : List (List Str × Str) :=
  match folder cwd rule a.pkg with
  | none => []
  | some dir => [(dir ++ [a.item], a.text)]

/-- An artifact with a plain name, of Go files. -/
structure Fine (a : Artifact) : Prop where
  item : Direct a.item
  go : ∀ files, a.pkg = some files → ∀ f ∈ files, ".go".toList <:+ f

def puts (m : List (List Str × Str)) (es : List (List Str × Str)) : List (List Str × Str) := es.foldl (fun m e => GoMap.put m e.1 e.2) m

theorem write_effect {cwd : List Str} {rule : Rule} {a : Artifact} (h : Fine a) (w : World) :
    (∃ w', a.write cwd rule w = some w' ∧ w'.disk = puts w.disk (effect cwd rule a)) ∨ (a.write cwd rule w = none ∧ effect cwd rule a = [] ∧ a.pkg ≠ none) := by
  unfold Artifact.write effect
  cases rule with
  | nothing => exact .inl ⟨w, rfl, rfl⟩
  | stdout => exact .inl ⟨_, rfl, rfl⟩
  | dir d => refine .inl ⟨_, rfl, ?_⟩; simp only [folder, puts, List.foldl_cons, List.foldl_nil, locate_in cwd d h.item]
  | artifacts config code =>
    cases hp : a.pkg with
    | none => refine .inl ⟨_, rfl, ?_⟩; simp only [folder, puts, List.foldl_cons, List.foldl_nil, locate_in cwd config h.item]
    | some files =>
      by_cases hc : code = []
      · subst hc
        cases files with
        | nil => exact .inr ⟨rfl, rfl, nofun⟩
        | cons f fs =>
          refine .inl ⟨_, rfl, ?_⟩
          simp only [folder, puts, List.foldl_cons, List.foldl_nil, locate_in cwd _ h.item, if_pos, List.head?_cons, Option.map_some]
          rw [locate_go cwd (h.go _ hp f (by simp))]
      · simp only [openRule, folder, if_pos hc, if_neg hc]
        refine .inl ⟨_, rfl, ?_⟩
        simp only [puts, List.foldl_cons, List.foldl_nil, locate_in cwd _ h.item]

theorem puts_append (m a b : List (List Str × Str)) : puts m (a ++ b) = puts (puts m a) b := by simp [puts]

theorem writeAll_effect {cwd : List Str} {rule : Rule} {goOn : Bool} : ∀ {l : List Artifact} {w : World}, (∀ a ∈ l, Fine a) → (goOn = false → ∀ a ∈ l, a.pkg = none) →
    ∃ w', writeAll cwd rule goOn l w = (w', none) ∧ w'.disk = puts w.disk (l.flatMap (effect cwd rule))
  | [], w, _, _ => ⟨w, rfl, rfl⟩
  | a :: l, w, hf, hp => by
    rw [writeAll]
    rcases write_effect (hf a (by simp)) w with ⟨w1, h1, h2⟩ | ⟨h1, h2, h3⟩
    · obtain ⟨w', h4, h5⟩ := writeAll_effect (cwd := cwd) (rule := rule) (goOn := goOn) (l := l) (w := w1) (fun x hx => hf x (by simp [hx])) (fun e x hx => hp e x (by simp [hx]))
      exact ⟨w', by rw [h1]; exact h4, by rw [h5, h2, List.flatMap_cons, puts_append]⟩
    · obtain ⟨w', h4, h5⟩ := writeAll_effect (cwd := cwd) (rule := rule) (goOn := goOn) (l := l) (w := w) (fun x hx => hf x (by simp [hx])) (fun e x hx => hp e x (by simp [hx]))
      have hg : goOn = true := by
        cases goOn with
        | true => rfl
        | false => exact (h3 (hp rfl a (by simp))).elim
      refine ⟨w', by rw [h1]; simp only [hg, if_true]; rw [← hg]; exact h4, by rw [h5, List.flatMap_cons, h2, List.nil_append]⟩

/-! ## What the generators write -/

/-- The names of the files of a generator. -/
def NamedFor : Tool → Str → Prop
  | .crd, n => '_' ∈ n ∧ ".yaml".toList <:+ n
  | .rbac, n => '_' ∉ n ∧ n ≠ "manifests.yaml".toList
  | .webhook, n => n = "manifests.yaml".toList
  | .object, n => n = "zz_generated.deepcopy.go".toList

theorem named_once {t t' : Tool} {n : Str} (h : NamedFor t n) (h' : NamedFor t' n) : t = t' := by
  have h1 : '_' ∉ "manifests.yaml".toList := by decide +kernel
  have h2 : '_' ∈ "zz_generated.deepcopy.go".toList := by decide +kernel
  have h3 : "zz_generated.deepcopy.go".toList ≠ "manifests.yaml".toList := by decide +kernel
  have h4 : ¬ ".yaml".toList <:+ "zz_generated.deepcopy.go".toList := by decide +kernel
  have hsym : ∀ {t t' : Tool} {n : Str}, NamedFor t n → NamedFor t' n → t = t' ∨ (t = .webhook ∨ t = .object) ∨ (t' = .webhook ∨ t' = .object) := by
    intro t t' n h h'
    cases t <;> cases t' <;> simp <;> first | exact h'.1 h.1 | exact h.1 h'.1
  have hw : ∀ {t : Tool}, NamedFor t "manifests.yaml".toList → t = .webhook := by
    intro t h
    cases t with
    | crd => exact (h1 h.1).elim
    | rbac => exact (h.2 rfl).elim
    | webhook => rfl
    | object => exact (h3 (show "manifests.yaml".toList = _ from h).symm).elim
  have ho : ∀ {t : Tool}, NamedFor t "zz_generated.deepcopy.go".toList → t = .object := by
    intro t h
    cases t with
    | crd => exact (h4 h.2).elim
    | rbac => exact (h.1 h2).elim
    | webhook => exact (h3 h).elim
    | object => rfl
  rcases hsym h h' with e | (rfl | rfl) | (rfl | rfl)
  · exact e
  · rw [show n = _ from h] at h'; exact (hw h').symm
  · rw [show n = _ from h] at h'; exact (ho h').symm
  · rw [show n = _ from h'] at h; exact hw h
  · rw [show n = _ from h'] at h; exact ho h

theorem direct_role : Direct "role.yaml".toList := ⟨by decide +kernel, by decide +kernel, by decide +kernel, by decide +kernel⟩
theorem direct_manifests : Direct "manifests.yaml".toList := ⟨by decide +kernel, by decide +kernel, by decide +kernel, by decide +kernel⟩
theorem direct_deepcopy : Direct "zz_generated.deepcopy.go".toList := ⟨by decide +kernel, by decide +kernel, by decide +kernel, by decide +kernel⟩
theorem named_role : NamedFor .rbac "role.yaml".toList := ⟨by decide +kernel, by decide +kernel⟩

structure Facts (t : Tool) (l : List Artifact) : Prop where
  fine : ∀ a ∈ l, Fine a
  named : ∀ a ∈ l, NamedFor t a.item
  yaml : t ≠ .object → (∀ a ∈ l, a.pkg = none) ∧ (l.map (·.item)).Nodup

theorem facts {t : Tool} {l : List Artifact} (h : Made t l) : Facts t l := by
  cases h with
  | crd text hg hf hk hv hu hd =>
    rename_i S O σ roots st out
    obtain ⟨h1, kinds, -, -, h4⟩ := CrdGen.C33_once_partial S O σ roots st out hg hf hk hv (fun gk crd h => (hu gk crd h).1) hd
    have hn : ∀ f ∈ out.files, Direct f.1.toList ∧ NamedFor .crd f.1.toList := by
      intro f hf
      obtain ⟨gk, -, crd, c1, c2, -⟩ := h4.exists_left hf
      obtain ⟨u1, u2, u3⟩ := hu gk crd c1
      have he : f.1.toList = crd.group.toList ++ '_' :: (crd.names.plural.toList ++ ".yaml".toList) := by rw [c2]; simp
      have hy : '/' ∉ ".yaml".toList := by decide +kernel
      have hu : '_' ∈ f.1.toList := by rw [he]; simp
      refine ⟨⟨?_, ?_, ?_, ?_⟩, hu, ?_⟩
      · rw [he]
        simp only [List.mem_append, List.mem_cons, not_or]
        exact ⟨u2, by decide, u3, hy⟩
      · intro e; rw [e] at hu; simp at hu
      · intro e; rw [e] at hu; simp at hu
      · intro e; rw [e] at hu; simp at hu
      · rw [he]; exact ⟨crd.group.toList ++ '_' :: crd.names.plural.toList, by simp⟩
    refine ⟨fun a ha => ?_, fun a ha => ?_, fun _ => ⟨fun a ha => ?_, ?_⟩⟩
    · obtain ⟨f, hf, rfl⟩ := List.mem_map.1 ha
      exact ⟨(hn f hf).1, nofun⟩
    · obtain ⟨f, hf, rfl⟩ := List.mem_map.1 ha
      exact (hn f hf).2
    · obtain ⟨f, hf, rfl⟩ := List.mem_map.1 ha
      rfl
    · rw [crdArtifacts, List.map_map]
      have : ((fun a : Artifact => a.item) ∘ fun f : String × CrdGen.Crd => (⟨none, f.1.toList, text f.2⟩ : Artifact)) = String.toList ∘ (·.1) := rfl
      rw [this, ← List.map_map]
      exact List.pairwise_map.2 (h1.imp fun hne e => hne (String.toList_inj.1 e))
  | rbac σ τ roleName fileName markers text hp =>
    have hn : ∀ f ∈ (Rbac.generate σ τ roleName fileName markers).toList, Direct f.1.toList ∧ NamedFor .rbac f.1.toList := by
      intro f hf
      unfold Rbac.generate at hf
      simp only at hf
      split at hf
      · cases hf
      · simp only [Option.toList_some, List.mem_singleton] at hf
        subst hf
        rcases hp with rfl | hp
        · rw [if_pos rfl]
          exact ⟨direct_role, named_role⟩
        · simp only
          have hne : fileName ≠ "" := fun e => hp.nonempty (by rw [e]; rfl)
          rw [if_neg hne]
          exact ⟨⟨hp.slash, hp.nonempty, hp.dot, hp.dots⟩, hp.underscore, hp.webhooks⟩
    refine ⟨fun a ha => ?_, fun a ha => ?_, fun _ => ⟨fun a ha => ?_, ?_⟩⟩
    · obtain ⟨f, hf, rfl⟩ := List.mem_map.1 ha
      exact ⟨(hn f hf).1, nofun⟩
    · obtain ⟨f, hf, rfl⟩ := List.mem_map.1 ha
      exact (hn f hf).2
    · obtain ⟨f, hf, rfl⟩ := List.mem_map.1 ha
      rfl
    · rw [rbacArtifacts]
      cases Rbac.generate σ τ roleName fileName markers <;> simp
  | webhook text hg =>
    rename_i σ roots out
    obtain ⟨mws, vws, -, -, he⟩ := Webhook.C08_every_marker_once σ roots out hg
    have hn : out = [] ∨ ∃ objs, out = [("manifests.yaml", objs)] := by
      rw [he, Webhook.Spec.files]
      split
      · exact .inl rfl
      · exact .inr ⟨_, rfl⟩
    rcases hn with rfl | ⟨objs, rfl⟩
    · exact ⟨nofun, nofun, fun _ => ⟨nofun, List.nodup_nil⟩⟩
    · refine ⟨?_, ?_, fun _ => ⟨?_, by simp [webhookArtifacts]⟩⟩ <;> (intro a ha; simp only [webhookArtifacts, List.map_cons, List.map_nil, List.mem_singleton] at ha; subst ha)
      · exact ⟨direct_manifests, nofun⟩
      · rfl
      · rfl
  | object files text hg hf =>
    rename_i hist E exported roots out
    refine ⟨fun a ha => ?_, fun a ha => ?_, fun h => (h rfl).elim⟩
    · obtain ⟨f, -, rfl⟩ := List.mem_map.1 ha
      exact ⟨direct_deepcopy, fun fs e => by cases e; exact hf _⟩
    · obtain ⟨f, -, rfl⟩ := List.mem_map.1 ha
      rfl

/-! ## The run -/

def effects (cwd : List Str) (rules : OutputRules) : Nat → List Step → List (List Str × Str)
  | _, [] => []
  | i, s :: ss => (match rules.forGenerator i with | some r => s.artifacts.flatMap (effect cwd r) | none => []) ++ effects cwd rules (i + 1) ss

theorem step_effect {cwd : List Str} {s : Step} (h : Made s.tool s.artifacts) {c : Ctx} {r : Rule} (hr : c.rule = some r) (w : World) :
    ((s.gen cwd).generate c w).1.disk = puts w.disk (s.artifacts.flatMap (effect cwd r)) := by
  have hf := facts h
  obtain ⟨w', h1, h2⟩ := writeAll_effect (cwd := cwd) (rule := r) (goOn := s.tool == .object) (l := s.artifacts) (w := w) hf.fine (fun e => (hf.yaml (by simpa using e)).1)
  simp only [Step.gen, hr, h1]
  exact h2

theorem runLoop_effects {cwd : List Str} {rules : OutputRules} (hr : ∀ i, rules.forGenerator i ≠ none) : ∀ {steps : List Step}, (∀ s ∈ steps, Made s.tool s.artifacts) → ∀ (i : Nat) (w : World) (out : List String) (had : Bool),
    (runLoop rules i (steps.map (Step.gen cwd)) w out had).1.disk = puts w.disk (effects cwd rules i steps)
  | [], _, _, _, _, _ => rfl
  | s :: ss, hm, i, w, out, had => by
    obtain ⟨r, hi⟩ := Option.ne_none_iff_exists'.1 (hr i)
    have h1 := step_effect (cwd := cwd) (hm s (by simp)) (c := ctxFor rules i (s.gen cwd)) (r := r) hi w
    rw [List.map_cons, runLoop, effects, hi, puts_append, ← h1]
    cases hg : (s.gen cwd).generate (ctxFor rules i (s.gen cwd)) w with
    | mk w' e =>
      cases e <;> exact runLoop_effects hr (fun s hs => hm s (by simp [hs])) (i + 1) w' _ _

theorem run_effects {cwd : List Str} {rules : OutputRules} (hr : ∀ i, rules.forGenerator i ≠ none) {steps : List Step} (hm : ∀ s ∈ steps, Made s.tool s.artifacts) (errors : World → Nat → List PkgErr)
    (visited : World → List Nat) (w : World) : (run rules errors visited (steps.map (Step.gen cwd)) w).1.disk = puts w.disk (effects cwd rules 0 steps) := by
  unfold run
  split
  · rename_i h
    rw [List.map_eq_nil_iff] at h
    subst h
    rfl
  · exact runLoop_effects hr hm 0 w [] false

theorem mem_effect {cwd : List Str} {r : Rule} {a : Artifact} {e : List Str × Str} : e ∈ effect cwd r a ↔ ∃ dir, folder cwd r a.pkg = some dir ∧ e = (dir ++ [a.item], a.text) := by
  unfold effect
  cases folder cwd r a.pkg <;> simp

theorem mem_effects {cwd : List Str} {rules : OutputRules} {e : List Str × Str} : ∀ {steps : List Step} {i : Nat}, e ∈ effects cwd rules i steps ↔
    ∃ k s r a, steps[k]? = some s ∧ rules.forGenerator (i + k) = some r ∧ a ∈ s.artifacts ∧ e ∈ effect cwd r a
  | [], i => by simp [effects]
  | s :: ss, i => by
    rw [effects, List.mem_append, mem_effects]
    constructor
    · rintro (h | ⟨k, s', r, a, h1, h2, h3, h4⟩)
      · cases hr : rules.forGenerator i with
        | none => rw [hr] at h; cases h
        | some r =>
          rw [hr] at h
          obtain ⟨a, ha, he⟩ := List.mem_flatMap.1 h
          exact ⟨0, s, r, a, rfl, hr, ha, he⟩
      · exact ⟨k + 1, s', r, a, h1, by rw [← h2]; congr 1; omega, h3, h4⟩
    · rintro ⟨k, s', r, a, h1, h2, h3, h4⟩
      cases k with
      | zero =>
        cases h1
        left
        rw [show rules.forGenerator i = some r from h2]
        exact List.mem_flatMap.2 ⟨a, h3, h4⟩
      | succ k => exact .inr ⟨k, s', r, a, h1, by rw [← h2]; congr 1; omega, h3, h4⟩

theorem written_iff {cwd : List Str} {rules : OutputRules} {steps : List Step} {place : List Str} {text : Str} : Written cwd rules steps place text ↔ (place, text) ∈ effects cwd rules 0 steps := by
  rw [mem_effects]
  simp only [mem_effect, Nat.zero_add, Prod.mk.injEq]
  exact ⟨fun ⟨i, s, r, a, d, h1, h2, h3, h4, h5, h6⟩ => ⟨i, s, r, a, h1, h2, h3, d, h4, h5, h6⟩, fun ⟨i, s, r, a, h1, h2, h3, d, h4, h5, h6⟩ => ⟨i, s, r, a, d, h1, h2, h3, h4, h5, h6⟩⟩

theorem puts_other {k : List Str} : ∀ {es m : List (List Str × Str)}, (∀ e ∈ es, e.1 ≠ k) → GoMap.get (puts m es) k = GoMap.get m k
  | [], _, _ => rfl
  | e :: es, m, h => by
    rw [puts, List.foldl_cons]
    exact (puts_other (es := es) (m := GoMap.put m e.1 e.2) fun x hx => h x (by simp [hx])).trans (by rw [GoMap.get_put, if_neg (fun he => h e (by simp) he.symm)])

theorem puts_mem {k : List Str} {v : Str} : ∀ {es m : List (List Str × Str)}, es.Pairwise (fun a b => a.1 ≠ b.1) → (k, v) ∈ es → GoMap.get (puts m es) k = some v
  | [], _, _, h => by cases h
  | e :: es, m, hp, h => by
    obtain ⟨h1, h2⟩ := List.pairwise_cons.1 hp
    rcases List.mem_cons.1 h with rfl | h
    · rw [puts, List.foldl_cons]
      exact (puts_other (es := es) fun x hx => (h1 x hx).symm).trans (by rw [GoMap.get_put, if_pos rfl])
    · exact puts_mem (es := es) h2 h

theorem puts_some {k : List Str} {v : Str} : ∀ {es m : List (List Str × Str)}, GoMap.get (puts m es) k = some v → (k, v) ∈ es ∨ GoMap.get m k = some v
  | [], _, h => .inr h
  | e :: es, m, h => by
    rw [puts, List.foldl_cons] at h
    rcases puts_some (es := es) h with h | h
    · exact .inl (by simp [h])
    · rw [GoMap.get_put] at h
      split at h
      · rename_i he; cases h; subst he; exact .inl (by simp)
      · exact .inr h

theorem step_apart {cwd : List Str} {s : Step} {r : Rule} (hf : Facts s.tool s.artifacts)
    (hp : s.tool = .object → s.artifacts.Pairwise fun a b => ∀ dir, folder cwd r a.pkg = some dir → folder cwd r b.pkg ≠ some dir) :
    (s.artifacts.flatMap (effect cwd r)).Pairwise fun a b => a.1 ≠ b.1 := by
  rw [List.pairwise_flatMap]
  refine ⟨fun a _ => ?_, ?_⟩
  · unfold effect
    split
    · exact .nil
    · simp
  · by_cases ht : s.tool = .object
    · refine (hp ht).imp fun {a b} h x hx y hy e => ?_
      obtain ⟨d, h1, rfl⟩ := mem_effect.1 hx
      obtain ⟨d', h2, rfl⟩ := mem_effect.1 hy
      exact h d h1 (by rw [h2, (List.append_inj' e rfl).1])
    · refine (List.pairwise_map.1 (hf.yaml ht).2).imp fun {a b} h x hx y hy e => ?_
      obtain ⟨d, h1, rfl⟩ := mem_effect.1 hx
      obtain ⟨d', h2, rfl⟩ := mem_effect.1 hy
      exact h (by simpa using (List.append_inj' e rfl).2)

theorem effects_apart {cwd : List Str} {rules : OutputRules} : ∀ {steps : List Step} {i : Nat}, (∀ s ∈ steps, Facts s.tool s.artifacts) →
    (∀ k l s t r r', steps[k]? = some s → steps[l]? = some t → k ≠ l → s.tool = t.tool → rules.forGenerator (i + k) = some r → rules.forGenerator (i + l) = some r' →
      ∀ a ∈ s.artifacts, ∀ b ∈ t.artifacts, ∀ dir, folder cwd r a.pkg = some dir → folder cwd r' b.pkg ≠ some dir) →
    (∀ k s r, steps[k]? = some s → s.tool = .object → rules.forGenerator (i + k) = some r → s.artifacts.Pairwise fun a b => ∀ dir, folder cwd r a.pkg = some dir → folder cwd r b.pkg ≠ some dir) →
    (effects cwd rules i steps).Pairwise fun a b => a.1 ≠ b.1
  | [], _, _, _, _ => .nil
  | s :: ss, i, hf, hg, hp => by
    rw [effects, List.pairwise_append]
    refine ⟨?_, effects_apart (fun s hs => hf s (by simp [hs])) (fun k l s t r r' h1 h2 h3 h4 h5 h6 => hg (k + 1) (l + 1) s t r r' h1 h2 (by omega) h4 (by rw [← h5]; congr 1; omega) (by rw [← h6]; congr 1; omega))
      (fun k s r h1 h2 h3 => hp (k + 1) s r h1 h2 (by rw [← h3]; congr 1; omega)), ?_⟩
    · cases hr : rules.forGenerator i with
      | none => exact .nil
      | some r => exact step_apart (hf s (by simp)) (fun ht => hp 0 s r rfl ht hr)
    · intro x hx y hy e
      cases hr : rules.forGenerator i with
      | none => rw [hr] at hx; cases hx
      | some r =>
        rw [hr] at hx
        obtain ⟨a, ha, hx⟩ := List.mem_flatMap.1 hx
        obtain ⟨d, h1, rfl⟩ := mem_effect.1 hx
        obtain ⟨k, t, r', b, h2, h3, h4, h5⟩ := mem_effects.1 hy
        obtain ⟨d', h6, rfl⟩ := mem_effect.1 h5
        obtain ⟨e1, e2⟩ := List.append_inj' e rfl
        have e2 : a.item = b.item := by simpa using e2
        have ht : s.tool = t.tool := named_once ((hf s (by simp)).named a ha) (by rw [e2]; exact (hf t (List.mem_cons_of_mem _ (List.mem_of_getElem? h2))).named b h4)
        exact hg 0 (k + 1) s t r r' rfl h2 (by omega) ht hr (by rw [← h3]; congr 1; omega) a ha b h4 d h1 (by rw [h6, e1])

/-- The rules of a run are never nil. -/
theorem runtimeRules_some {γ : Type} (join : Str → Str → Str) (σ : Sched) (rt : ProtoRuntime γ) (i : Nat) : (runtimeRules join σ rt).forGenerator i ≠ none := by
  have h : (runtimeRules join σ rt).default ≠ none := by
    unfold runtimeRules
    split
    · assumption
    · simp [directoryPerGenerator]
  unfold OutputRules.forGenerator
  split
  · simp
  · exact h

/-- **C91.**  When a run ends, each file that a generator has written holds what this generator wrote, if generators of the same kind, and the packages that code is written for, have directories of their own (`Apart`), and
under the conditions of `Made`.  Generators may fail. -/
theorem C91_kept_partial (cwd : List Str) (rules : OutputRules) (hr : ∀ i, rules.forGenerator i ≠ none) (steps : List Step) (hm : ∀ s ∈ steps, Made s.tool s.artifacts) (ha : Apart cwd rules steps)
    (errors : World → Nat → List PkgErr) (visited : World → List Nat) (w : World) {place : List Str} {text : Str} (h : Written cwd rules steps place text) :
    GoMap.get (run rules errors visited (steps.map (Step.gen cwd)) w).1.disk place = some text := by
  rw [run_effects hr hm]
  refine puts_mem (effects_apart (fun s hs => facts (hm s hs)) (fun k l s t r r' => ?_) (fun k s r => ?_)) (written_iff.1 h)
  · rw [Nat.zero_add, Nat.zero_add]; exact ha.generators k l s t r r'
  · rw [Nat.zero_add]; exact ha.packages k s r

/-- **C91** (nothing else).  A file that is not among those to be written is as it was; and no file has a text that was not to be written to it, or was there before. -/
theorem C91_only (cwd : List Str) (rules : OutputRules) (hr : ∀ i, rules.forGenerator i ≠ none) (steps : List Step) (hm : ∀ s ∈ steps, Made s.tool s.artifacts)
    (errors : World → Nat → List PkgErr) (visited : World → List Nat) (w : World) (place : List Str) :
    ((∀ text, ¬ Written cwd rules steps place text) → GoMap.get (run rules errors visited (steps.map (Step.gen cwd)) w).1.disk place = GoMap.get w.disk place) ∧
    ∀ text, GoMap.get (run rules errors visited (steps.map (Step.gen cwd)) w).1.disk place = some text → Written cwd rules steps place text ∨ GoMap.get w.disk place = some text := by
  rw [run_effects hr hm]
  refine ⟨fun h => puts_other fun e he hk => h e.2 (written_iff.2 (by subst hk; exact he)), fun text h => ?_⟩
  rcases puts_some h with h | h
  · exact .inl (written_iff.2 h)
  · exact .inr h

/-- **C91** (each generator once).  Whatever the output rules are, if no generator is given twice, code is not directed to a directory, and the packages that get code are in different directories, then nothing is
overwritten. -/
theorem C91_once_partial (cwd : List Str) (rules : OutputRules) (hr : ∀ i, rules.forGenerator i ≠ none) (steps : List Step) (hm : ∀ s ∈ steps, Made s.tool s.artifacts) (ho : (steps.map (·.tool)).Nodup)
    (hc : ∀ i s, steps[i]? = some s → s.tool = .object → (∀ d, rules.forGenerator i ≠ some (.dir d)) ∧ (∀ config code, rules.forGenerator i = some (.artifacts config code) → code = []) ∧
      s.artifacts.Pairwise fun a b => ∀ files f files' f', a.pkg = some files → files.head? = some f → b.pkg = some files' → files'.head? = some f' → (locate cwd f).dropLast ≠ (locate cwd f').dropLast)
    (errors : World → Nat → List PkgErr) (visited : World → List Nat) (w : World) {place : List Str} {text : Str} (h : Written cwd rules steps place text) :
    GoMap.get (run rules errors visited (steps.map (Step.gen cwd)) w).1.disk place = some text := by
  refine C91_kept_partial cwd rules hr steps hm ⟨fun i j s t r r' h1 h2 hij he => ?_, fun i s r h1 ht hri => ?_⟩ errors visited w h
  · exfalso
    refine hij ((List.getElem?_inj (l := steps.map (·.tool)) ?_ ho).1 ?_)
    · rw [List.length_map]; exact (List.getElem?_eq_some_iff.1 h1).1
    · simp [h1, h2, he]
  · obtain ⟨c1, c2, c3⟩ := hc i s h1 ht
    have hmade := hm s (List.mem_of_getElem? h1)
    have hp : ∀ a ∈ s.artifacts, ∃ files, a.pkg = some files := by
      rw [ht] at hmade
      generalize s.artifacts = l at hmade
      cases hmade
      intro a ha
      obtain ⟨f, -, rfl⟩ := List.mem_map.1 ha
      exact ⟨_, rfl⟩
    refine List.Pairwise.imp_of_mem (fun {a b} ha hb hab dir h2 h3 => ?_) c3
    obtain ⟨fa, ea⟩ := hp a ha
    obtain ⟨fb, eb⟩ := hp b hb
    cases r with
    | nothing => cases h2
    | stdout => cases h2
    | dir d => exact c1 d hri
    | artifacts config code =>
      obtain rfl := c2 config code hri
      rw [ea, folder, if_pos rfl] at h2
      rw [eb, folder, if_pos rfl] at h3
      cases ha : fa.head? with
      | none => rw [ha] at h2; cases h2
      | some f =>
        cases hb : fb.head? with
        | none => rw [hb] at h3; cases h3
        | some f' =>
          rw [ha] at h2; rw [hb] at h3
          simp only [Option.map_some, Option.some.injEq] at h2 h3
          exact hab fa f fb f' ea ha eb hb (h2.trans h3.symm)

theorem toolName_inj {a b : Tool} (h : toolName a = toolName b) : a = b := by
  revert h
  cases a <;> cases b <;> decide +kernel

/-- **C91** (the command).  On the command line no generator can be given twice.  So, whatever the output rules are, nothing is overwritten, if code is not directed to a directory, and the packages that get code are in
different directories. -/
theorem C91_command_partial {reg : Markers.Registry (Parser Step)} {σ τ : Sched} {opts : List Str} {rt : ProtoRuntime Step} (h : protoFromOptions reg σ opts = .ok rt)
    (hn : ∀ opt ∈ opts, ∀ n s, Means reg opt (n, .generator s) → n = toolName s.tool) (cwd : List Str) (hm : ∀ s ∈ rt.generators, Made s.tool s.artifacts)
    (hc : ∀ i s, rt.generators[i]? = some s → s.tool = .object → (∀ d, (runtimeRules joinPath τ rt).forGenerator i ≠ some (.dir d)) ∧
      (∀ config code, (runtimeRules joinPath τ rt).forGenerator i = some (.artifacts config code) → code = []) ∧
      s.artifacts.Pairwise fun a b => ∀ files f files' f', a.pkg = some files → files.head? = some f → b.pkg = some files' → files'.head? = some f' → (locate cwd f).dropLast ≠ (locate cwd f').dropLast)
    (errors : World → Nat → List PkgErr) (visited : World → List Nat) (w : World) {place : List Str} {text : Str} (hw : Written cwd (runtimeRules joinPath τ rt) rt.generators place text) :
    GoMap.get (run (runtimeRules joinPath τ rt) errors visited (rt.generators.map (Step.gen cwd)) w).1.disk place = some text := by
  obtain ⟨ms, h1, h2⟩ := (C34_accepted reg σ opts).1 ⟨rt, h⟩
  obtain ⟨-, h3, -⟩ := C34_result h h1
  refine C91_once_partial cwd _ (runtimeRules_some joinPath τ rt) _ hm ?_ hc errors visited w hw
  have h4 : (generators ms).map (·.1) = ((generators ms).map (·.2)).map (fun s => toolName s.tool) := by
    rw [List.map_map]
    refine List.map_congr_left fun e he => ?_
    obtain ⟨m, hm, hg⟩ := List.mem_filterMap.1 he
    obtain ⟨o, ho, hmeans⟩ := h1.exists_left hm
    obtain ⟨n, v⟩ := m
    cases v with
    | generator g => cases hg; exact hn o ho _ _ hmeans
    | rule r => cases hg
    | paths ps => cases hg
    | other => cases hg
  have h5 := h2.once
  rw [h4, ← h3] at h5
  refine List.pairwise_map.2 ((List.pairwise_map.1 h5).imp fun hne e => hne (by rw [e]))

end Verif.Genall
