import Verif.Patch.AgainSpec
import Verif.Patch.AgreeTheorems
/-!
# C97: running schemapatch in place again changes nothing
-/
namespace Verif.Patch
open Spec
open Verif.Crd (Schema addKnownTypes)
open Verif.Crd.Spec (Tidy)
open Verif.CrdGen (GSrc Opts State Scheds schema_same findMetav1)
open Verif.CrdGen.Spec (OrderlyTypes Plain)

variable {S : GSrc} {O : Opts} {σ σ' : Scheds} {χ χ' : Type} {τ τ' : Sched} {toYaml : Schema → Node}

/-! ## Every manifest is written -/

theorem runs_all {L : Library χ} {entries : List Entry} {roots : List String} {st : State} {run : Run} (h : Runs S O σ τ toYaml L (some entries) roots (.ok (st, run))) (hok : run.status = .ok ()) {m : String}
    (hm : findMetav1 S roots = some m) {c : CrdIsh} {f : CrdFile} (hc : (c, f) ∈ manifests L entries) : f.file ∈ run.writes.map (·.file) := by
  cases h with
  | nothing hm' => rw [hm] at hm'; cases hm'
  | unreadable => cases hok
  | @patched m sets _ news hm hs hk =>
    obtain rfl := runs_sets hs
    have hin : (c, f) ∈ ofKind (manifests L entries) (c.group, c.kind) := mem_ofKind.2 ⟨hc, rfl⟩
    have hset : setFor (manifests L entries) (c.group, c.kind) ∈ (collectSets (manifests L entries) []).map (·.2) := by
      obtain ⟨hw, hg⟩ := collectSets_spec (manifests L entries)
      have hg := hg (c.group, c.kind)
      rw [if_neg (fun e => by rw [e] at hin; cases hin)] at hg
      exact List.mem_map.2 ⟨_, (GoMap.get_eq_some hw).1 hg, rfl⟩
    have hcrd : f ∈ (setFor (manifests L entries) (c.group, c.kind)).crds := List.mem_map.2 ⟨(c, f), hin, rfl⟩
    unfold patchAndWrite at hok ⊢
    cases hp : patchEach (patchNew toYaml news) (τ.order 1 ((collectSets (manifests L entries) []).map (·.2))) with
    | err => rw [hp] at hok; cases hok
    | panic => rw [hp] at hok; cases hok
    | ok files =>
      obtain ⟨h1, rfl⟩ := patchEach_ok.1 hp
      have hset := (τ.mem_order 1 _ _).2 hset
      obtain ⟨out, ho⟩ := Option.isSome_iff_exists.1 (h1 _ hset)
      simp only [List.mem_map]
      have hfile : f.file ∈ out.map (·.file) := by
        cases hpn : patchNew toYaml news (setFor (manifests L entries) (c.group, c.kind)) with
        | err => rw [hpn] at ho; cases ho
        | panic => rw [hpn] at ho; cases ho
        | ok out' =>
          rw [hpn] at ho
          cases ho
          unfold patchNew at hpn
          simp only at hpn
          split at hpn
          · cases hpn; exact List.mem_map_of_mem hcrd
          · rw [(patchFiles_ok hpn).1]; exact List.mem_map_of_mem hcrd
      obtain ⟨w, hw, hf⟩ := List.mem_map.1 hfile
      exact ⟨w, List.mem_flatten.2 ⟨out, (τ.mem_order 2 _ _).2 (List.mem_filterMap.2 ⟨_, hset, ho⟩), hw⟩, hf⟩

/-! ## The schemas of both runs are the same -/

theorem new_same {b : Bool} (ho : S.src.overrides = addKnownTypes b) (ht : ∀ p, Tidy (S.src.ctx p)) (hd : OrderlyTypes S) {L : Library χ} {L' : Library χ'} {entries : List Entry} {roots : List String} {st st' : State}
    (hs : CrdGen.Steps S O σ st.parser st.flattener) (hs' : CrdGen.Steps S O σ' st'.parser st'.flattener) (hp : Plain S st) (hp' : Plain S st') {group kind : String} (h1 : PackagePerVersion S group)
    (hr : GroupNamed S roots group) {new new' : New} (h : NewFor S O σ L entries roots st group kind new) (h' : NewFor S O σ' L' entries roots st' group kind new')
    (hv : ∀ ver, ver ∈ (setFor (manifests L entries) (group, kind)).versions → ver ∈ (setFor (manifests L' entries) (group, kind)).versions) {ver : String} {s : Schema} (hg : GoMap.get new ver = some s) :
    GoMap.get new' ver = some s := by
  obtain ⟨hk, pkg, s1, a1, a2, a3, rfl⟩ := h.sound ver s hg
  obtain ⟨v1, v2⟩ := version_of a1
  obtain ⟨s', hs1⟩ := Option.isSome_iff_exists.1 (h'.complete hk pkg (hr pkg v1) ver a1 (hv ver a2)).1
  obtain ⟨-, pkg', s2, b1, -, b3, rfl⟩ := h'.sound ver s' hs1
  obtain ⟨w1, w2⟩ := version_of b1
  obtain rfl : pkg = pkg' := h1 pkg pkg' ver v1 w1 v2 w2
  rw [hs1, schema_same ho ht hd hs hs' hp hp' a3 b3]

theorem versions_sub {L : Library χ} {L' : Library χ'} {entries : List Entry} (h : ∀ c f, (c, f) ∈ manifests L entries → ∃ f', (c, f') ∈ manifests L' entries) {k : String × String} {ver : String}
    (hv : ver ∈ (setFor (manifests L entries) k).versions) : ver ∈ (setFor (manifests L' entries) k).versions := by
  obtain ⟨⟨c, f⟩, hx, hw⟩ := List.mem_flatMap.1 hv
  obtain ⟨hx', rfl⟩ := mem_ofKind.1 hx
  obtain ⟨f', hf'⟩ := h c f hx'
  exact mem_setVersions hf' hw

/-! ## The files -/

theorem afterWrites_some : ∀ (ws : List CrdFile) (files : String → Option (List Node)) (n : String), n ∈ ws.map (·.file) → ∃ w ∈ ws, w.file = n ∧ afterWrites files ws n = some [w.doc]
  | [], _, _, h => by cases h
  | w :: ws, files, n, h => by
    rw [afterWrites]
    by_cases hn : n ∈ ws.map (·.file)
    · obtain ⟨w', h1, h2, h3⟩ := afterWrites_some ws (fun n => if n = w.file then some [w.doc] else files n) n hn
      exact ⟨w', List.mem_cons_of_mem _ h1, h2, h3⟩
    · rcases List.mem_cons.1 h with rfl | h
      · exact ⟨w, List.mem_cons_self, rfl, by rw [afterWrites_other _ _ _ hn]; simp⟩
      · exact absurd h hn

theorem afterWrites_idem : ∀ (ws : List CrdFile) (files : String → Option (List Node)), (∀ w ∈ ws, files w.file = some [w.doc]) → ∀ n, afterWrites files ws n = files n
  | [], _, _, _ => rfl
  | w :: ws, files, h, n => by
    have : (fun n => if n = w.file then some [w.doc] else files n) = files := by
      funext n
      split
      · rename_i e; rw [e, h w List.mem_cons_self]
      · rfl
    rw [afterWrites, this]
    exact afterWrites_idem ws files (fun w hw => h w (List.mem_cons_of_mem _ hw)) n

/-- **C97** (partial).  Two runs of schemapatch, one after the other, that write into the directory of the manifests: after the second, every file is as it was after the first, whatever the orders of maps. -/
theorem C97_again_partial {b : Bool} (ho : S.src.overrides = addKnownTypes b) (ht : ∀ p, Tidy (S.src.ctx p)) (hd : OrderlyTypes S) (hy : ∀ s, (toYaml s).kind ≠ .document) {files : String → Option (List Node)}
    {typeMeta : Node → Option (String × String)} {crdIsh : Node → Option CrdIsh} (hb : SchemaBlind typeMeta crdIsh) {entries : List Entry} {roots : List String} {st st' : State} {run run' : Run}
    (h : Runs S O σ τ toYaml (firstDocument files typeMeta crdIsh) (some entries) roots (.ok (st, run))) (hok : run.status = .ok ())
    (h' : Runs S O σ' τ' toYaml (firstDocument (afterWrites files run.writes) typeMeta crdIsh) (some entries) roots (.ok (st', run'))) (hok' : run'.status = .ok ()) (hp : Plain S st) (hp' : Plain S st')
    (hdocs : ∀ e ∈ entries, ∀ c doc, Manifest (firstDocument files typeMeta crdIsh) e c doc → Parsed doc ∧ Unique doc ∧ PackagePerVersion S c.group ∧ GroupNamed S roots c.group) (n : String) :
    afterWrites (afterWrites files run.writes) run'.writes n = afterWrites files run.writes n := by
  obtain ⟨hi, hs⟩ := runs_spec h hok
  obtain ⟨hi', hs'⟩ := runs_spec h' hok'
  refine afterWrites_idem _ _ (fun w' hw' => ?_) n
  cases hmeta : findMetav1 S roots with
  | none =>
    cases h' with
    | nothing => cases hw'
    | unreadable => cases hok'
    | patched hm => rw [hmeta] at hm; cases hm
  | some m =>
  -- what a written file was, and is for the second run
  have first : ∀ w ∈ run.writes, ∃ e ∈ entries, ∃ c doc new, e.name = w.file ∧ Manifest (firstDocument files typeMeta crdIsh) e c doc ∧ NewFor S O σ (firstDocument files typeMeta crdIsh) entries roots st c.group c.kind new ∧
      (new = [] ∧ w.doc = doc ∨ new ≠ [] ∧ patch (fun ver => (GoMap.get new ver).map toYaml) doc = .ok w.doc) ∧ typeMeta w.doc = typeMeta doc ∧ crdIsh w.doc = crdIsh doc := by
    intro w hw
    obtain ⟨c, f, hm, hf, new, hnew, hdoc⟩ := hs w hw
    obtain ⟨e, he, hn, hman⟩ := mem_manifests.1 hm
    refine ⟨e, he, c, f.doc, new, hn.trans hf.symm, hman, hnew, hdoc, ?_⟩
    rcases hdoc with ⟨-, e'⟩ | ⟨-, hpatch⟩
    · rw [e']; exact ⟨rfl, rfl⟩
    · exact hb _ _ _ (hdocs e he c _ hman).1 (C39_frame _ _ _ (hdocs e he c _ hman).1 hpatch)
  have crd_of : ∀ {fs : String → Option (List Node)} {e : Entry} {c : CrdIsh} {doc : Node}, Manifest (firstDocument fs typeMeta crdIsh) e c doc ↔
      Candidate e ∧ ∃ rest, fs e.name = some (doc :: rest) ∧ typeMeta doc = some ("apiextensions.k8s.io/v1", "CustomResourceDefinition") ∧ crdIsh doc = some c := by
    intro fs e c doc
    constructor
    · rintro ⟨a, raw, r1, r2, r3, r4⟩
      cases raw with
      | nil => cases r4
      | cons d rest =>
        obtain rfl : d = doc := Option.some.inj r4
        exact ⟨a, rest, r1, r2, r3⟩
    · rintro ⟨a, rest, r1, r2, r3⟩
      exact ⟨a, doc :: rest, r1, r2, r3, rfl⟩
  -- both runs see the same manifests, up to their trees
  have kept : ∀ c f, (c, f) ∈ manifests (firstDocument files typeMeta crdIsh) entries → ∃ f', (c, f') ∈ manifests (firstDocument (afterWrites files run.writes) typeMeta crdIsh) entries := by
    intro c f hm
    obtain ⟨w, hw, hwf, ha⟩ := afterWrites_some run.writes files f.file (runs_all h hok hmeta hm)
    obtain ⟨e, he, hn, hman⟩ := mem_manifests.1 hm
    obtain ⟨e2, he2, c2, doc2, -, hn2, hman2, -, -, t1, t2⟩ := first w hw
    obtain ⟨a1, r, a2, a3, a4⟩ := crd_of.1 hman
    obtain ⟨b1, r', b2, b3, b4⟩ := crd_of.1 hman2
    rw [hn2, hwf, ← hn, a2] at b2
    obtain ⟨rfl, -⟩ := List.cons.inj (Option.some.inj b2)
    exact ⟨⟨f.file, w.doc⟩, mem_manifests.2 ⟨e, he, hn, crd_of.2 ⟨a1, [], hn ▸ ha, by rw [t1, a3], by rw [t2, a4]⟩⟩⟩
  have known : ∀ c f', (c, f') ∈ manifests (firstDocument (afterWrites files run.writes) typeMeta crdIsh) entries → ∃ f, (c, f) ∈ manifests (firstDocument files typeMeta crdIsh) entries ∧ f.file = f'.file := by
    intro c f' hm
    obtain ⟨e, he, hn, hman⟩ := mem_manifests.1 hm
    obtain ⟨a1, r, a2, a3, a4⟩ := crd_of.1 hman
    by_cases hin : f'.file ∈ run.writes.map (·.file)
    · obtain ⟨w, hw, hwf, ha⟩ := afterWrites_some run.writes files f'.file hin
      obtain ⟨e2, he2, c2, doc2, -, hn2, hman2, -, -, t1, t2⟩ := first w hw
      obtain ⟨b1, r', b2, b3, b4⟩ := crd_of.1 hman2
      rw [hn, ha] at a2
      obtain ⟨e3, -⟩ := List.cons.inj (Option.some.inj a2)
      rw [← e3, t2, b4] at a4
      cases a4
      exact ⟨⟨f'.file, doc2⟩, mem_manifests.2 ⟨e2, he2, hn2.trans hwf, hman2⟩, rfl⟩
    · rw [hn, afterWrites_other _ _ _ hin] at a2
      exact ⟨f', mem_manifests.2 ⟨e, he, hn, crd_of.2 ⟨a1, r, hn ▸ a2, a3, a4⟩⟩, rfl⟩
  obtain ⟨c', f', hm', hf', new', hnew', hdoc'⟩ := hs' w' hw'
  obtain ⟨f, hm, hff⟩ := known c' f' hm'
  obtain ⟨w, hw, hwf, ha⟩ := afterWrites_some run.writes files f.file (runs_all h hok hmeta hm)
  obtain ⟨e2, he2, c2, doc2, new, hn2, hman2, hnew, hdoc, t1, t2⟩ := first w hw
  obtain ⟨e', he', hn', hman'⟩ := mem_manifests.1 hm'
  obtain ⟨a1, r, a2, a3, a4⟩ := crd_of.1 hman'
  obtain ⟨b1, r', b2, b3, b4⟩ := crd_of.1 hman2
  rw [hf', ← hff, ha]
  rw [hn', ← hff, ha] at a2
  obtain ⟨e3, -⟩ := List.cons.inj (Option.some.inj a2)
  rw [← e3, t2, b4] at a4
  cases a4
  obtain ⟨d1, d2, d3, d4⟩ := hdocs e2 he2 _ _ hman2
  have heq : ∀ ver, GoMap.get new' ver = GoMap.get new ver := by
    intro ver
    cases hx : GoMap.get new ver with
    | some s => exact new_same ho ht hd hi.steps hi'.steps hp hp' d3 d4 hnew hnew' (fun v hv => versions_sub kept hv) hx
    | none =>
      cases hx' : GoMap.get new' ver with
      | none => rfl
      | some s =>
        rw [new_same ho ht hd hi'.steps hi.steps hp' hp d3 d4 hnew' hnew (fun v hv => versions_sub (fun c f h => (known c f h).imp fun _ h => h.1) hv) hx'] at hx
        cases hx
  rcases hdoc' with ⟨-, hdoc'⟩ | ⟨hne, hpatch'⟩
  · rw [hdoc', ← e3]
  · have hfun : (fun ver => (GoMap.get new' ver).map toYaml) = fun ver => (GoMap.get new ver).map toYaml := by funext ver; rw [heq]
    rw [hfun, ← e3] at hpatch'
    rcases hdoc with ⟨rfl, hdoc⟩ | ⟨-, hpatch⟩
    · cases new' with
      | nil => exact absurd rfl hne
      | cons x _ =>
        have := heq x.1
        simp [GoMap.get] at this
    · have := C39_twice_partial _ _ _ d1 d2 (fun n sch hs => by
        obtain ⟨s, -, rfl⟩ := Option.map_eq_some_iff.1 hs
        exact hy s) hpatch
      rw [this] at hpatch'
      injection hpatch' with e4
      rw [e4]

end Verif.Patch
