import Verif.Patch.SourceSpec
import Verif.Patch.DirectoryTheorems
import Verif.CrdGen.Enforced
import Verif.CrdGen.EnforcedSource
/-!
# C89: the manifests that schemapatch writes reject what breaks a marker, and accept the rest
-/
namespace Verif.Patch
open Spec
open Verif.Crd (Schema Stop PState FState TypeIdent Decl flattenType flattenEmbedded declares_iff AnyVal)
open Verif.Crd.Spec (envOf Declares Fixed Valid Meaning Json Prog Breaks Enc Formats TypedDecl AcyclicFrom Reachable Offends)
open Verif.CrdGen (GSrc Opts State Scheds GroupKind needFlat versionSchema fixMetadata findMetav1 findKinds printed FlatOf SchemaFor GInv Steps needFlat_inv World)
open Verif.CrdGen.Spec (KindIn MetaOf VersionOfPkg NoErrors Sound CanMerge MetadataFits MetadataObject Readable)

variable {S : GSrc} {O : Opts} {σ : Scheds}

/-! ## Schemas -/

theorem put_twice {m : List (String × Schema)} {k : String} {v : Schema} : GoMap.put (GoMap.put m k v) k v = GoMap.put m k v := by
  induction m with
  | nil => simp [GoMap.put]
  | cons e m ih =>
    obtain ⟨a, b⟩ := e
    by_cases h : a = k
    · simp [GoMap.put, h]
    · simp [GoMap.put, h, ih]

/-- Leaving out the description of `metadata` changes nothing once `metadata` is simple. -/
theorem fixMetadata_printed (s : Schema) : fixMetadata s = printed s := by
  obtain ⟨b, it, al, oo, an, nt, pr, ad, pa, de, ai, df⟩ := s
  unfold printed
  cases hm : GoMap.get pr "metadata" with
  | none => unfold fixMetadata; simp only [hm]; unfold CrdGen.dropMetadataDescription; simp only [hm]
  | some t =>
    unfold fixMetadata; simp only [hm]; unfold CrdGen.dropMetadataDescription; simp only [GoMap.get_put, if_true, Schema.leaf]
    congr 1
    exact put_twice.symm

theorem steps_known {p : PState} {f : FState} (h : Steps S O σ p f) : Crd.CacheK (envOf S.src p) f.cache := by
  induction h with
  | start => exact nofun
  | @package p f pkg hs ih =>
    intro id c hc
    obtain ⟨u, hu⟩ := ih id c hc
    exact ⟨u, (Crd.needPackage_le (Crd.reachable_inv (CrdGen.steps_reachable hs)) pkg).schemata id u hu⟩
  | @flat p p' f f' t id hs hn hf ih =>
    have hl := (Crd.need_fine O.fuel [] id p p' (Crd.reachable_inv (CrdGen.steps_reachable hs)) hn).2.1
    refine (Crd.flattenType_known _ _ ?_ hf).1
    intro id c hc
    obtain ⟨u, hu⟩ := ih id c hc
    exact ⟨u, hl.schemata id u hu⟩

/-- A type with a flattened schema is declared, or its schema is built in. -/
theorem flatOf_declared {st : State} {id : TypeIdent} {s : Schema} (h : FlatOf S O σ st id s) : (∃ d, Declares S.src id d) ∨ ∃ s, Fixed S.src id s := by
  obtain ⟨p, p', f, f', t, hs, hn, hf, -⟩ := h
  have hfine := Crd.need_fine O.fuel [] id p p' (Crd.reachable_inv (CrdGen.steps_reachable hs)) hn
  have hk := (Crd.flattenType_known (o := some t) _ _ (fun id c hc => by
    obtain ⟨u, hu⟩ := steps_known hs id c hc
    exact ⟨u, hfine.2.1.schemata id u hu⟩) hf).2 rfl
  obtain ⟨u, hu⟩ := hk
  rcases hfine.1.own id u hu (by simp) with hx | ⟨-, d, -, -, hd, -⟩
  · exact .inr ⟨u, Crd.fixed_iff.1 hx⟩
  · exact .inl ⟨d, declares_iff.1 hd⟩

/-! ## The loop over packages -/

/-- The schema of a version in `NewSchemata` is that of a package. -/
def From (S : GSrc) (O : Opts) (σ : Scheds) (st : State) (set : CrdSet) (ver : String) (s : Schema) : Prop :=
  ∃ pkg s', S.groupVersion pkg = some (set.group, ver) ∧ ver ∈ set.versions ∧ SchemaFor S O σ st ⟨pkg, set.kind⟩ s' ∧ s = fixMetadata s'

/-- The package has been looked at. -/
def Covered (S : GSrc) (O : Opts) (σ : Scheds) (st : State) (set : CrdSet) (new : New) (pkg : String) : Prop :=
  ∀ ver, S.groupVersion pkg = some (set.group, ver) → ver ∈ set.versions → (GoMap.get new ver).isSome ∧ ∃ s, FlatOf S O σ st ⟨pkg, set.kind⟩ s

theorem SchemaFor.le {st st' : State} {id : TypeIdent} {s : Schema} (h : SchemaFor S O σ st id s) (hl : State.Le st st') : SchemaFor S O σ st' id s := by
  obtain ⟨s', h1, h2⟩ := h
  exact ⟨s', h1.le hl, h2⟩

theorem From.le {st st' : State} {set : CrdSet} {ver : String} {s : Schema} (h : From S O σ st set ver s) (hl : State.Le st st') : From S O σ st' set ver s := by
  obtain ⟨pkg, s', h1, h2, h3, h4⟩ := h
  exact ⟨pkg, s', h1, h2, SchemaFor.le h3 hl, h4⟩

theorem Covered.le {st st' : State} {set : CrdSet} {new new' : New} {pkg : String} (h : Covered S O σ st set new pkg) (hl : State.Le st st') (hn : ∀ ver, (GoMap.get new ver).isSome → (GoMap.get new' ver).isSome) :
    Covered S O σ st' set new' pkg := by
  intro ver h1 h2
  obtain ⟨h3, s, h4⟩ := h ver h1 h2
  exact ⟨hn _ h3, s, h4.le hl⟩

theorem round_spec {roots : List String} {set : CrdSet} {e : String × String × String} {st st' : State} {new new' : New} (hi : GInv S O σ roots st) (hf : ∀ ver s, GoMap.get new ver = some s → From S O σ st set ver s)
    (he : e ∈ S.groupVersions st.parser) (h : round S O σ set e st new = .ok (st', new')) :
    GInv S O σ roots st' ∧ State.Le st st' ∧ (∀ ver s, GoMap.get new' ver = some s → From S O σ st' set ver s) ∧ Covered S O σ st' set new' e.1 ∧
      ∀ ver, (GoMap.get new ver).isSome → (GoMap.get new' ver).isSome := by
  obtain ⟨pkg, g, v⟩ := e
  obtain ⟨-, hgv⟩ := CrdGen.mem_groupVersions.1 he
  unfold round at h
  split at h
  · rename_i hg
    cases h
    refine ⟨hi, .refl _, hf, ?_, fun _ h => h⟩
    intro ver h1
    rw [hgv] at h1
    cases h1
    exact absurd rfl hg
  · rename_i hg
    split at h
    · rename_i hv
      cases h
      refine ⟨hi, .refl _, hf, ?_, fun _ h => h⟩
      intro ver h1 h2
      rw [hgv] at h1
      cases h1
      exact absurd h2 hv
    · rename_i hv
      split at h
      · cases h
      · rename_i st1 hn
        obtain ⟨rfl, rfl⟩ : st1 = st' ∧ GoMap.put new v (fixMetadata (versionSchema O ((GoMap.get st1.flat ⟨pkg, set.kind⟩).getD .empty))) = new' := by simpa using h
        obtain ⟨i1, l1, -, s1⟩ := needFlat_inv hi hn
        obtain ⟨s, hs⟩ := Option.isSome_iff_exists.1 s1
        have hg : g = set.group := by simpa using hg
        have hvm : v ∈ set.versions := Classical.not_not.1 hv
        subst hg
        have hfl := i1.flat _ _ hs
        have hmono : ∀ ver, (GoMap.get new ver).isSome → (GoMap.get (GoMap.put new v (fixMetadata (versionSchema O ((GoMap.get st1.flat ⟨pkg, set.kind⟩).getD .empty)))) ver).isSome := by
          intro ver h
          rw [GoMap.get_put]
          split
          · rfl
          · exact h
        refine ⟨i1, l1, ?_, ?_, hmono⟩
        · intro ver x hx
          rw [GoMap.get_put] at hx
          split at hx
          · rename_i e
            cases hx
            subst e
            refine ⟨pkg, _, hgv, hvm, ⟨s, hfl, fun hn => ?_, fun n hn => ?_⟩, rfl⟩
            · rw [hs]; simp [versionSchema, hn]
            · rw [hs]; simp [versionSchema, hn]
          · exact (hf ver x hx).le l1
        · intro ver h1 _
          rw [hgv] at h1
          cases h1
          exact ⟨by rw [GoMap.get_put, if_pos rfl]; rfl, s, hfl⟩

theorem loop_spec {roots : List String} {set : CrdSet} {first : List (String × String × String)} {seen : List String} {st : State} {new : New} {r : Except Stop (State × New)} (h : Loop S O σ set first seen st new r) :
    ∀ {st' new'}, r = .ok (st', new') → GInv S O σ roots st → (∀ ver s, GoMap.get new ver = some s → From S O σ st set ver s) → (∀ pkg ∈ seen, Covered S O σ st set new pkg) →
      GInv S O σ roots st' ∧ State.Le st st' ∧ (∀ ver s, GoMap.get new' ver = some s → From S O σ st' set ver s) ∧ ∀ e ∈ first, Covered S O σ st' set new' e.1 := by
  induction h with
  | done hd =>
    intro st' new' hr hi hf hc
    cases hr
    exact ⟨hi, .refl _, hf, fun e he => hc _ (hd e he)⟩
  | stop => intro st' new' hr; cases hr
  | next he hne hro _ ih =>
    intro st' new' hr hi hf hc
    obtain ⟨i1, l1, f1, c1, m1⟩ := round_spec hi hf he hro
    obtain ⟨i2, l2, f2, c2⟩ := ih hr i1 f1 (fun pkg hp => by
      rcases List.mem_cons.1 hp with rfl | hp
      · exact c1
      · exact (hc pkg hp).le l1 m1)
    exact ⟨i2, l1.trans l2, f2, c2⟩

/-- What `NewSchemata` of a set has, once the packages have been looked at. -/
def Done (S : GSrc) (O : Opts) (σ : Scheds) (roots : List String) (st : State) (set : CrdSet) (new : New) : Prop :=
  (∀ ver s, GoMap.get new ver = some s → From S O σ st set ver s) ∧ ∀ pkg ∈ roots, Covered S O σ st set new pkg

theorem Done.le {roots : List String} {st st' : State} {set : CrdSet} {new : New} (h : Done S O σ roots st set new) (hl : State.Le st st') : Done S O σ roots st' set new :=
  ⟨fun ver s hs => (h.1 ver s hs).le hl, fun pkg hp => (h.2 pkg hp).le hl fun _ h => h⟩

theorem kinds_spec {roots : List String} {sets : Sets} {gks : List GroupKind} {st : State} {news : List ((String × String) × New)} {r : Except Stop (State × List ((String × String) × New))}
    (h : Kinds S O σ sets gks st news r) : ∀ {st' news'} (done : List GroupKind), r = .ok (st', news') → GInv S O σ roots st →
      (∀ k new, GoMap.get news k = some new → ∃ gk ∈ done, k = (gk.group, gk.kind) ∧ ∃ set, GoMap.get sets k = some set ∧ Done S O σ roots st set new) →
      (∀ gk ∈ done, ∀ set, GoMap.get sets (gk.group, gk.kind) = some set → (GoMap.get news (gk.group, gk.kind)).isSome) →
      GInv S O σ roots st' ∧ State.Le st st' ∧
      (∀ k new, GoMap.get news' k = some new → ∃ gk ∈ done ++ gks, k = (gk.group, gk.kind) ∧ ∃ set, GoMap.get sets k = some set ∧ Done S O σ roots st' set new) ∧
      ∀ gk ∈ done ++ gks, ∀ set, GoMap.get sets (gk.group, gk.kind) = some set → (GoMap.get news' (gk.group, gk.kind)).isSome := by
  induction h with
  | nil =>
    intro st' news' done hr hi h1 h2
    cases hr
    exact ⟨hi, .refl _, by simpa using h1, by simpa using h2⟩
  | @other gk gks st news r hn _ ih =>
    intro st' news' done hr hi h1 h2
    obtain ⟨a, b, c, d⟩ := ih (done ++ [gk]) hr hi (fun k new hk => by
      obtain ⟨g, hg, x⟩ := h1 k new hk
      exact ⟨g, List.mem_append_left _ hg, x⟩) (fun g hg set hset => by
      rcases List.mem_append.1 hg with hg | hg
      · exact h2 g hg set hset
      · rw [List.mem_singleton.1 hg, hn] at hset; cases hset)
    simp only [List.append_assoc, List.singleton_append] at c d
    exact ⟨a, b, c, d⟩
  | stop => intro st' news' done hr; cases hr
  | @wanted gk gks st news set st1 new r hset hl _ ih =>
    intro st' news' done hr hi h1 h2
    obtain ⟨i1, l1, f1, c1⟩ := loop_spec hl rfl hi (fun ver s hs => by
      cases hk : GoMap.get news (gk.group, gk.kind) with
      | none => rw [hk] at hs; cases hs
      | some new0 =>
        rw [hk] at hs
        obtain ⟨-, -, -, set', hs', hd⟩ := h1 _ _ hk
        rw [hset] at hs'
        cases hs'
        exact hd.1 ver s hs) nofun
    have hdone : Done S O σ roots st1 set new := by
      refine ⟨f1, fun pkg hp ver hv hw => ?_⟩
      exact c1 (pkg, set.group, ver) (CrdGen.mem_groupVersions.2 ⟨hi.roots pkg hp, hv⟩) ver hv hw
    obtain ⟨a, b, c, d⟩ := ih (done ++ [gk]) hr i1 (fun k n hk => by
      rw [GoMap.get_put] at hk
      split at hk
      · rename_i e
        cases hk
        exact ⟨gk, by simp, e, set, e ▸ hset, hdone⟩
      · obtain ⟨g, hg, e, set', hs', hd⟩ := h1 k n hk
        exact ⟨g, List.mem_append_left _ hg, e, set', hs', hd.le l1⟩) (fun g hg set' hs' => by
      rw [GoMap.get_put]
      split
      · rfl
      · rename_i hne
        rcases List.mem_append.1 hg with hg | hg
        · exact h2 g hg set' hs'
        · rw [List.mem_singleton.1 hg] at hne; exact absurd rfl hne)
    simp only [List.append_assoc, List.singleton_append] at c d
    exact ⟨a, l1.trans b, c, d⟩

/-! ## Runs -/

theorem start_inv (S : GSrc) (O : Opts) (σ : Scheds) (roots : List String) : GInv S O σ roots (start S roots) :=
  ⟨(CrdGen.rooted_inv S O.marshal σ.gen roots).1, CrdGen.rooted_steps S O σ roots, fun q hq => ((CrdGen.rooted_inv S O.marshal σ.gen roots).2.2 q).2 hq, nofun, nofun⟩

variable {χ : Type} {τ : Sched} {toYaml : Schema → Node} {L : Library χ}

/-- The schemas for the kind of a manifest that a run has. -/
structure NewFor (S : GSrc) (O : Opts) (σ : Scheds) (L : Library χ) (entries : List Entry) (roots : List String) (st : State) (group kind : String) (new : New) : Prop where
  sound : ∀ ver s, GoMap.get new ver = some s → KindIn S roots ⟨group, kind⟩ ∧ From S O σ st (setFor (manifests L entries) (group, kind)) ver s
  complete : KindIn S roots ⟨group, kind⟩ → ∀ pkg ∈ roots, Covered S O σ st (setFor (manifests L entries) (group, kind)) new pkg

theorem kinds_new {m : String} {entries : List Entry} {roots : List String} {st : State} {news : List ((String × String) × New)} (hm : findMetav1 S roots = some m)
    (h : Kinds S O σ (collectSets (manifests L entries) []) (findKinds S σ.kinds m (start S roots).parser) (start S roots) [] (.ok (st, news))) :
    GInv S O σ roots st ∧ ∀ c f, (c, f) ∈ manifests L entries → NewFor S O σ L entries roots st c.group c.kind ((GoMap.get news (c.group, c.kind)).getD []) := by
  obtain ⟨i1, -, c1, d1⟩ := kinds_spec (roots := roots) h [] rfl (start_inv S O σ roots) nofun nofun
  obtain ⟨k1, -, -⟩ := CrdGen.C32_kinds S σ.kinds roots m (CrdGen.findMetav1_some.1 hm)
  have hset : ∀ c f, (c, f) ∈ manifests L entries → GoMap.get (collectSets (manifests L entries) []) (c.group, c.kind) = some (setFor (manifests L entries) (c.group, c.kind)) := by
    intro c f hc
    rw [(collectSets_spec _).2, if_neg]
    intro e
    have : (c, f) ∈ ofKind (manifests L entries) (c.group, c.kind) := mem_ofKind.2 ⟨hc, rfl⟩
    rw [e] at this
    cases this
  refine ⟨i1, fun c f hc => ⟨fun ver s hs => ?_, fun hk pkg hp => ?_⟩⟩
  · cases hg : GoMap.get news (c.group, c.kind) with
    | none => rw [hg] at hs; cases hs
    | some new =>
      rw [hg] at hs
      obtain ⟨gk, hgk, e, set, hs', hd⟩ := c1 _ _ hg
      rw [hset c f hc] at hs'
      cases hs'
      have e : gk = ⟨c.group, c.kind⟩ := by
        obtain ⟨a, b⟩ := gk
        simp only [Prod.mk.injEq] at e
        rw [e.1, e.2]
      subst e
      exact ⟨(k1 _).1 (by rw [List.nil_append] at hgk; exact hgk), hd.1 ver s hs⟩
  · have := d1 ⟨c.group, c.kind⟩ (by rw [List.nil_append]; exact (k1 _).2 hk) _ (hset c f hc)
    obtain ⟨new, hg⟩ := Option.isSome_iff_exists.1 this
    obtain ⟨-, -, -, set, hs', hd⟩ := c1 _ _ hg
    rw [hset c f hc] at hs'
    cases hs'
    rw [hg]
    exact hd.2 pkg hp

theorem runs_sets {entries : List Entry} (h : crdsFromDirectory L (some entries) = some sets) : sets = collectSets (manifests L entries) [] := by
  have hno : ∀ e ∈ entries, look L e ≠ .failed := by
    intro e he hf
    have : crdsFromDirectory L (some entries) = none := (C75_reported L _).2 (Or.inr ⟨entries, rfl, e, he, look_failed.1 hf⟩)
    rw [h] at this
    cases this
  have : crdsFromDirectory L (some entries) = _ := (readLoop_eq L entries []).2 hno
  rw [h] at this
  exact Option.some.inj this

/-- What a run that succeeds has written. -/
theorem runs_spec {entries : List Entry} {roots : List String} {st : State} {run : Run} (h : Runs S O σ τ toYaml L (some entries) roots (.ok (st, run))) (hok : run.status = .ok ()) :
    GInv S O σ roots st ∧ ∀ w ∈ run.writes, ∃ c f, (c, f) ∈ manifests L entries ∧ w.file = f.file ∧ ∃ new, NewFor S O σ L entries roots st c.group c.kind new ∧
      (new = [] ∧ w.doc = f.doc ∨ new ≠ [] ∧ patch (fun ver => (GoMap.get new ver).map toYaml) f.doc = .ok w.doc) := by
  cases h with
  | nothing hm => exact ⟨start_inv S O σ roots, nofun⟩
  | unreadable => cases hok
  | @patched m sets _ news hm hs hk =>
    obtain rfl := runs_sets hs
    obtain ⟨i1, hnew⟩ := kinds_new hm hk
    refine ⟨i1, fun w hw => ?_⟩
    unfold patchAndWrite at hw hok
    split at hw
    · rename_i files hp
      obtain ⟨h1, rfl⟩ := patchEach_ok.1 hp
      obtain ⟨l, hl, hw⟩ := List.mem_flatten.1 hw
      obtain ⟨set, hset, hl⟩ := List.mem_filterMap.1 ((τ.mem_order _ _ _).1 hl)
      obtain ⟨k, rfl, -⟩ := mem_sets ((τ.mem_order _ _ _).1 hset)
      cases hpn : patchNew toYaml news (setFor (manifests L entries) k) with
      | err => rw [hpn] at hl; cases hl
      | panic => rw [hpn] at hl; cases hl
      | ok out =>
        rw [hpn] at hl
        cases hl
        unfold patchNew at hpn
        simp only at hpn
        split at hpn
        · rename_i he
          cases hpn
          obtain ⟨⟨c, f⟩, hx, rfl⟩ := List.mem_map.1 hw
          obtain ⟨hx', rfl⟩ := mem_ofKind.1 hx
          exact ⟨c, f, hx', rfl, _, hnew c f hx', .inl ⟨he, rfl⟩⟩
        · rename_i he
          obtain ⟨s3, s4⟩ := patchFiles_ok hpn
          obtain ⟨i, hi⟩ := List.getElem?_of_mem hw
          have hf := congrArg (·[i]?) s3
          have hd := congrArg (·[i]?) s4
          simp only [List.getElem?_map, hi, Option.map_some] at hf hd
          cases hc : (setFor (manifests L entries) k).crds[i]? with
          | none => rw [hc] at hf; cases hf
          | some f =>
            rw [hc] at hf hd
            simp only [Option.map_some, Option.some.injEq] at hf hd
            obtain ⟨⟨c, f'⟩, hx, rfl⟩ := List.mem_map.1 (List.mem_of_getElem? hc)
            obtain ⟨hx', rfl⟩ := mem_ofKind.1 hx
            exact ⟨c, f', hx', hf, _, hnew c f' hx', .inr ⟨he, hd⟩⟩
    · cases hw
    · cases hw

/-! ## C89 -/

theorem version_of {pkg g v : String} (h : S.groupVersion pkg = some (g, v)) : S.groupName pkg = some g ∧ VersionOfPkg S pkg v := by
  unfold GSrc.groupVersion at h
  split at h
  · obtain ⟨g', hg, he⟩ := Option.map_eq_some_iff.1 h
    cases he
    refine ⟨hg, ?_⟩
    unfold VersionOfPkg
    cases S.versionName pkg <;> simp
  · cases h

theorem groupVersion_of {pkg g v : String} (hi : S.src.indexed pkg = true) (hg : S.groupName pkg = some g) (hv : VersionOfPkg S pkg v) : S.groupVersion pkg = some (g, v) := by
  unfold GSrc.groupVersion
  rw [if_pos hi, hg]
  rcases hv with h | ⟨h, rfl⟩ <;> rw [h] <;> rfl

theorem except_fix (s : Schema) : CrdGen.Spec.ExceptMetadata s (fixMetadata s) := by
  obtain ⟨b, it, al, oo, an, nt, pr, ad, pa, de, ai, df⟩ := s
  cases hm : GoMap.get pr "metadata" with
  | none =>
    have : fixMetadata (.mk b it al oo an nt pr ad pa de ai df) = .mk b it al oo an nt pr ad pa de ai df := by unfold fixMetadata; simp only [hm]
    rw [this]
    simp [CrdGen.Spec.ExceptMetadata, hm]
  | some t =>
    have : fixMetadata (.mk b it al oo an nt pr ad pa de ai df) = .mk b it al oo an nt (GoMap.put pr "metadata" (.leaf { type := "object" })) ad pa de ai df := by unfold fixMetadata; simp only [hm]
    rw [this]
    simp only [CrdGen.Spec.ExceptMetadata, hm, GoMap.get_put, true_and, if_true]
    refine ⟨fun k hk => if_neg hk, nofun, fun _ => trivial⟩

theorem mem_setVersions {entries : List Entry} {c : CrdIsh} {f : CrdFile} (h : (c, f) ∈ manifests L entries) {ver : String} (hv : ver ∈ c.versions) : ver ∈ (setFor (manifests L entries) (c.group, c.kind)).versions :=
  List.mem_flatMap.2 ⟨(c, f), mem_ofKind.2 ⟨h, rfl⟩, hv⟩

/-- **C89** (partial).  A run of schemapatch that succeeds: each file that it writes is a manifest of the directory, changed only in the schemas of versions; each schema that it puts there is the one of the kind in a
package of the group and the version, but for `metadata`; each version of a root package that declares the kind has one.  If no error has been reported, such a schema rejects every object that breaks a validation
marker or lacks a required field, at any depth; and it accepts every object that encoding/json writes for a value of the type, that breaks no marker and lacks no required field.  Missing: as in C86. -/
theorem C89_enforced_partial (M : Meaning) (hM : Formats M) (S : GSrc) (O : Opts) (σ : Scheds) (τ : Sched) (toYaml : Schema → Node) (L : Library χ) (entries : List Entry) (roots : List String) (st : State) (run : Run)
    (h : Runs S O σ τ toYaml L (some entries) roots (.ok (st, run))) (hok : run.status = .ok ()) (hp : ∀ e ∈ entries, ∀ c doc, Manifest L e c doc → Parsed doc) (w : CrdFile) (hw : w ∈ run.writes) :
    ∃ e ∈ entries, ∃ c doc, e.name = w.file ∧ Manifest L e c doc ∧ ∃ s : String → Option Schema,
      ((∀ ver, s ver = none) ∧ w.doc = doc ∨ PatchedDocument (fun ver => (s ver).map toYaml) doc w.doc) ∧
      (∀ ver p, s ver = some p → ∃ pkg full, SchemaOf S roots c.group c.kind ver pkg ∧ SchemaFor S O σ st ⟨pkg, c.kind⟩ full ∧ CrdGen.Spec.ExceptMetadata full p ∧
        (NoErrors st → ∀ G, Sound M S G st → Enforces M S O σ G st ⟨pkg, c.kind⟩ full p)) ∧
      ∀ pkg ∈ roots, ∀ ver ∈ c.versions, SchemaOf S roots c.group c.kind ver pkg → (∃ d, Declares S.src ⟨pkg, c.kind⟩ d) → s ver ≠ none := by
  obtain ⟨hi, hs⟩ := runs_spec h hok
  obtain ⟨c, f, hm, hf, new, hnew, hdoc⟩ := hs w hw
  obtain ⟨e, he, hn, hman⟩ := mem_manifests.1 hm
  refine ⟨e, he, c, f.doc, hn.trans hf.symm, hman, fun ver => GoMap.get new ver, ?_, ?_, ?_⟩
  · rcases hdoc with ⟨h1, h2⟩ | ⟨-, h2⟩
    · exact .inl ⟨fun ver => by rw [h1]; rfl, h2⟩
    · exact .inr (C39_frame _ _ _ (hp e he c _ hman) h2)
  · intro ver p hs
    obtain ⟨hk, pkg, s', hg, -, hsf, rfl⟩ := hnew.sound ver p hs
    obtain ⟨h1, h2⟩ := version_of hg
    refine ⟨pkg, s', ⟨hk, h1, h2⟩, hsf, except_fix _, fun hne G hG => ?_⟩
    obtain ⟨u, hu, hc⟩ := CrdGen.schema_enforced hM hi.steps hne hG hsf
    rw [fixMetadata_printed]
    exact ⟨u, hu, hc⟩
  · rintro pkg hpk ver hv ⟨hk, hg, hver⟩ ⟨d, hd⟩ hnone
    simp only at hnone
    have := (hnew.complete hk pkg hpk ver (groupVersion_of (CrdGen.indexed_of (id := ⟨pkg, c.kind⟩) (declares_iff.2 hd)) hg hver) (mem_setVersions hm hv)).1
    rw [hnone] at this
    cases this

/-- **C89** (partial), from comments to files: the same for what comments in the source say. -/
theorem C89_comments_partial {gs : List String} {hist : List (Markers.Def Markers.Loaded)} {E : Markers.Env} {code : Markers.Value → AnyVal} {W : World} (hg : "crd" ∈ gs ∨ "schemapatch" ∈ gs)
    (hh : Markers.Shipped.history gs = some hist) (hr : Readable hist E W) (M : Meaning) (hM : Formats M) (O : Opts) (σ : Scheds) (τ : Sched) (toYaml : Schema → Node) (L : Library χ) (entries : List Entry)
    (roots : List String) (st : State) (run : Run) (h : Runs (W.gsrc hist E code) O σ τ toYaml L (some entries) roots (.ok (st, run))) (hok : run.status = .ok ())
    (hp : ∀ e ∈ entries, ∀ c doc, Manifest L e c doc → Parsed doc) (hn : NoErrors st) (G : Prog) (hs : Sound M (W.gsrc hist E code) G st) (w : CrdFile) (hw : w ∈ run.writes) :
    ∃ e ∈ entries, ∃ c doc, e.name = w.file ∧ Manifest L e c doc ∧ ∃ s : String → Option Schema,
      ((∀ ver, s ver = none) ∧ w.doc = doc ∨ PatchedDocument (fun ver => (s ver).map toYaml) doc w.doc) ∧
      ∀ ver p, s ver = some p → ∃ pkg u full, SchemaOf (W.gsrc hist E code) roots c.group c.kind ver pkg ∧ (envOf (W.gsrc hist E code).src st.parser).raw ⟨pkg, c.kind⟩ = some u ∧
        SchemaFor (W.gsrc hist E code) O σ st ⟨pkg, c.kind⟩ full ∧ (CanMerge (W.gsrc hist E code) O σ st ⟨pkg, c.kind⟩ → AcyclicFrom (envOf (W.gsrc hist E code).src st.parser) pkg u →
          ∀ j, Offends M O.marshal E code hist W.pk G (.decl pkg c.kind) j → MetadataFits M full j → ¬ Valid M p j) := by
  obtain ⟨e, he, c, doc, h1, h2, s, h3, h4, -⟩ := C89_enforced_partial M hM _ O σ τ toYaml L entries roots st run h hok hp w hw
  refine ⟨e, he, c, doc, h1, h2, s, h3, fun ver p hv => ?_⟩
  obtain ⟨pkg, full, k1, k2, -, k3⟩ := h4 ver p hv
  obtain ⟨u, hu, k4⟩ := k3 hn G hs
  exact ⟨pkg, u, full, k1, hu, k2, fun hc ha j hj => (k4 hc).1 ha j (Verif.Crd.offends_breaks hg hh (fun p => ⟨(hr p).1, (hr p).2.1⟩) hj)⟩

/-- **C89** (crash).  If a manifest has a version of the group that a root package is, the package has types but not the kind, and another root package has the kind, then no run ends well: nothing is written. -/
theorem C89_crashes (S : GSrc) (O : Opts) (σ : Scheds) (τ : Sched) (toYaml : Schema → Node) (L : Library χ) (entries : List Entry) (roots : List String) (e : Entry) (c : CrdIsh) (doc : Node) (he : e ∈ entries)
    (hm : Manifest L e c doc) (hread : ∀ e ∈ entries, ¬ Unsupported L e ∧ ¬ Unreadable L e) (pkg ver : String) (hpk : pkg ∈ roots) (hv : ver ∈ c.versions) (ho : SchemaOf S roots c.group c.kind ver pkg)
    (hsome : ∃ n d, Declares S.src ⟨pkg, n⟩ d) (hno : ∀ d, ¬ Declares S.src ⟨pkg, c.kind⟩ d) (hfix : ∀ s, ¬ Fixed S.src ⟨pkg, c.kind⟩ s) (r : Except Stop (State × Run))
    (h : Runs S O σ τ toYaml L (some entries) roots r) : ∃ x, r = .error x := by
  obtain ⟨hk, hg, hver⟩ := ho
  cases h with
  | nothing hm' =>
    obtain ⟨m, -, -, hmeta, -⟩ := hk
    rw [CrdGen.findMetav1_some.2 hmeta] at hm'
    cases hm'
  | unreadable _ hd =>
    rcases (C75_reported L _).1 hd with h | ⟨es, h, e', he', h'⟩
    · cases h
    · cases h
      rcases h' with h' | h'
      · exact absurd h' (hread e' he').1
      · exact absurd h' (hread e' he').2
  | @stop m sets x => exact ⟨x, rfl⟩
  | @patched m sets st news hm' hs hkk =>
    obtain rfl := runs_sets hs
    obtain ⟨-, hnew⟩ := kinds_new hm' hkk
    have hmf : (c, (⟨e.name, doc⟩ : CrdFile)) ∈ manifests L entries := mem_manifests.2 ⟨e, he, rfl, hm⟩
    obtain ⟨n, d, hd⟩ := hsome
    obtain ⟨-, s, hfl⟩ := (hnew c _ hmf).complete hk pkg hpk ver (groupVersion_of (CrdGen.indexed_of (id := ⟨pkg, n⟩) (declares_iff.2 hd)) hg hver) (mem_setVersions hmf hv)
    rcases flatOf_declared hfl with ⟨d, hd⟩ | ⟨s, hs⟩
    · exact absurd hd (hno d)
    · exact absurd hs (hfix s)

end Verif.Patch
