import Verif.CrdGen.GenerateLemmas

/-! # C32, C33: which kinds become CRDs, and which files are written -/
namespace Verif.CrdGen
open Spec
open Verif.Crd (Schema Src PState FState TypeIdent Decl Stop AnyVal Raw GoType flattenType flattenEmbedded typeOf PInv declares_iff need_fine needPackage_inv needPackage_rest inv_init PState.Le)
open Verif.Crd.Spec (envOf Declares)

/-! ## C32 -/

/-- The parser once the root packages have been added (gen.go:138-140). -/
def rooted (S : GSrc) (roots : List String) : PState := roots.foldl (fun p r => S.src.needPackage r p) {}

theorem rooted_inv (S : GSrc) (marshal : AnyVal → Option Raw) (σ : Nat → Sched) (roots : List String) :
    PInv S.src marshal σ [] (rooted S roots) ∧ GoMap.WF (rooted S roots).types ∧ ∀ q, q ∈ (rooted S roots).packages ↔ q ∈ roots := by
  obtain ⟨h1, h2, h3⟩ := roots_state S.src marshal σ roots {} inv_init List.nodup_nil
  exact ⟨h1, h2, fun q => (h3 q).trans (by simp)⟩

/-- The types that are known then: those of the root packages. -/
theorem mem_rooted_types {S : GSrc} {roots : List String} {id : TypeIdent} {d : Decl} : (id, d) ∈ (rooted S roots).types ↔ id.pkg ∈ roots ∧ Declares S.src id d := by
  obtain ⟨h1, h2, h3⟩ := rooted_inv S (fun _ => none) (fun _ => Sched.fifo) roots
  rw [← GoMap.get_eq_some h2]
  by_cases hp : id.pkg ∈ roots
  · rw [h1.types id ((h3 _).2 hp), declares_iff]
    exact ⟨fun h => ⟨hp, h⟩, fun h => h.2⟩
  · rw [(h1.outside id (fun h => hp ((h3 _).1 h))).2]
    exact ⟨nofun, fun h => (hp h.1).elim⟩

theorem group_iff {S : GSrc} {roots : List String} {pkg name : String} {d : Decl} (hp : pkg ∈ roots) (hd : Declares S.src ⟨pkg, name⟩ d) (g : String) :
    g = ((GoMap.get (S.groupVersions (rooted S roots)) pkg).map (·.1)).getD "" ↔ GroupOf S pkg g := by
  obtain ⟨-, -, h3⟩ := rooted_inv S (fun _ => none) (fun _ => Sched.fifo) roots
  rw [get_groupVersions ((h3 _).2 hp)]
  have hi : S.src.indexed pkg = true := indexed_of (declares_iff.2 hd)
  unfold GSrc.groupVersion GroupOf
  rw [if_pos hi]
  cases S.groupName pkg <;> simp [eq_comm]

/-- **C32.** The kinds are those of the API objects of the root packages; the list has no duplicates and is sorted. -/
theorem C32_kinds (S : GSrc) (σ : Sched) (roots : List String) (m : String) (hm : MetaOf S roots m) :
    (∀ gk, gk ∈ findKinds S σ m (rooted S roots) ↔ KindIn S roots gk) ∧ (findKinds S σ m (rooted S roots)).Nodup ∧
    (findKinds S σ m (rooted S roots)).Pairwise (fun a b => a.string ≤ b.string) := by
  refine ⟨fun gk => ?_, nodup_findKinds, sorted_findKinds.imp fun h => by simpa [strLe] using h⟩
  rw [mem_findKinds]
  constructor
  · rintro ⟨⟨⟨pkg, n⟩, d⟩, h1, h2, rfl⟩
    obtain ⟨hp, hd⟩ := mem_rooted_types.1 h1
    exact ⟨m, pkg, d, hm, hp, hd, h2, (group_iff hp hd _).1 rfl⟩
  · rintro ⟨m', pkg, d, hm', hp, hd, h2, hg⟩
    have : m' = m := by
      have := findMetav1_some.2 hm'
      rw [findMetav1_some.2 hm] at this
      exact (Option.some.inj this).symm
    subst this
    exact ⟨(⟨pkg, gk.kind⟩, d), mem_rooted_types.2 ⟨hp, hd⟩, h2, by rw [← (group_iff hp hd _).2 hg]⟩

/-- **C32.** The list does not depend on the order of iteration over maps, nor on the sorting algorithm. -/
theorem C32_order (S : GSrc) (hn : GoNames S) (σ σ' : Sched) (roots : List String) (m : String) (hm : MetaOf S roots m) :
    findKinds S σ m (rooted S roots) = findKinds S σ' m (rooted S roots) := by
  obtain ⟨h1, h2, -⟩ := C32_kinds S σ roots m hm
  obtain ⟨h1', h2', -⟩ := C32_kinds S σ' roots m hm
  have hdot : ∀ gk, KindIn S roots gk → '.' ∉ gk.kind.toList := by
    rintro gk ⟨-, pkg, d, -, -, ⟨-, -, a, b, he, hk, -⟩, -⟩
    have := hn pkg d (by rw [he]; simp)
    rwa [hk] at this
  refine (List.Perm.eq_of_pairwise (le := fun a b : GroupKind => strLe a.string b.string = true) ?_ sorted_findKinds sorted_findKinds ((List.perm_ext_iff_of_nodup h2 h2').2 fun gk => (h1 gk).trans (h1' gk).symm))
  intro a b ha hb hab hba
  exact string_inj (hdot a ((h1 a).1 ha)) (hdot b ((h1' b).1 hb)) (strLe_antisymm hab hba)

/-! ## The CRDs that are asked for -/

/-- The states of the parser and the flattener in a run: packages are loaded, and schemas are asked for and flattened. -/
inductive Steps (S : GSrc) (O : Opts) (σ : Scheds) : PState → FState → Prop
  | start : Steps S O σ {} {}
  | package {p f} (pkg : String) : Steps S O σ p f → Steps S O σ (S.src.needPackage pkg p) f
  | flat {p p' f f' t} (id : TypeIdent) : Steps S O σ p f → S.src.need O.marshal σ.gen O.fuel id p = .ok p' → flattenType (envOf S.src p') σ.flat id f = .ok (some t, f') → Steps S O σ p' f'

/-- A flattened schema of the type, made in the run that leads to the state `st`. -/
def FlatOf (S : GSrc) (O : Opts) (σ : Scheds) (st : State) (id : TypeIdent) (s : Schema) : Prop :=
  ∃ p p' f f' t, Steps S O σ p f ∧ S.src.need O.marshal σ.gen O.fuel id p = .ok p' ∧ flattenType (envOf S.src p') σ.flat id f = .ok (some t, f') ∧ s = (flattenEmbedded t).1 ∧
    PState.Le p' st.parser ∧ (flattenEmbedded t).2.length ≤ st.embedErrs

/-- The state comes after another one. -/
structure State.Le (st st' : State) : Prop where
  parser : PState.Le st.parser st'.parser
  embedErrs : st.embedErrs ≤ st'.embedErrs

theorem State.Le.refl (st : State) : State.Le st st := ⟨.refl, Nat.le_refl _⟩

theorem State.Le.trans {a b c : State} (h : State.Le a b) (h' : State.Le b c) : State.Le a c := ⟨h.parser.trans h'.parser, Nat.le_trans h.embedErrs h'.embedErrs⟩

theorem FlatOf.le {S : GSrc} {O : Opts} {σ : Scheds} {st st' : State} {id : TypeIdent} {s : Schema} (h : FlatOf S O σ st id s) (hl : State.Le st st') : FlatOf S O σ st' id s := by
  obtain ⟨p, p', f, f', t, h1, h2, h3, h4, h5, h6⟩ := h
  exact ⟨p, p', f, f', t, h1, h2, h3, h4, h5.trans hl.parser, Nat.le_trans h6 hl.embedErrs⟩

/-- The schema of a version: a flattened schema, with descriptions shortened as asked for (C11, C12), if that is asked for. -/
def SchemaFor (S : GSrc) (O : Opts) (σ : Scheds) (st : State) (id : TypeIdent) (s : Schema) : Prop :=
  ∃ s', FlatOf S O σ st id s' ∧ (O.maxDescLen = none → s = s') ∧ ∀ n, O.maxDescLen = some n → s = Desc.truncateDescription O.tables n s'

/-- The outcome for a kind. -/
def Decided (S : GSrc) (O : Opts) (σ : Scheds) (st : State) (roots : List String) (gk : GroupKind) (r : Option Crd) : Prop :=
  ∃ loaded entries errs, (∀ q ∈ roots, q ∈ loaded) ∧ EntriesOf S (SchemaFor S O σ st) loaded gk entries ∧ build (σ.crd gk) O.lib gk.group gk.kind entries = some (r, errs)

theorem Decided.le {S : GSrc} {O : Opts} {σ : Scheds} {st st' : State} {roots : List String} {gk : GroupKind} {r : Option Crd} (h : Decided S O σ st roots gk r) (hl : State.Le st st') :
    Decided S O σ st' roots gk r := by
  obtain ⟨loaded, entries, errs, h1, ⟨pkgs, h2, h3, h4⟩, h5⟩ := h
  exact ⟨loaded, entries, errs, h1, ⟨pkgs, h2, h3, h4.imp fun _ _ _ _ ⟨a, b, s', c, d⟩ => ⟨a, b, s', c.le hl, d⟩⟩, h5⟩

structure GInv (S : GSrc) (O : Opts) (σ : Scheds) (rs : List String) (st : State) : Prop where
  parser : PInv S.src O.marshal σ.gen [] st.parser
  steps : Steps S O σ st.parser st.flattener
  roots : ∀ q ∈ rs, q ∈ st.parser.packages
  flat : ∀ id s, GoMap.get st.flat id = some s → FlatOf S O σ st id s
  crds : ∀ gk crd, GoMap.get st.crds gk = some crd → Decided S O σ st rs gk (some crd)

theorem rooted_steps (S : GSrc) (O : Opts) (σ : Scheds) (roots : List String) : Steps S O σ (rooted S roots) {} := by
  have : ∀ (l : List String) (p : PState), Steps S O σ p {} → Steps S O σ (l.foldl (fun p r => S.src.needPackage r p) p) {} := by
    intro l
    induction l with
    | nil => exact fun _ h => h
    | cons a l ih => exact fun p h => ih _ (.package a h)
  exact this roots {} .start

theorem needFlat_inv {S : GSrc} {O : Opts} {σ : Scheds} {roots : List String} {id : TypeIdent} {st st' : State} (hi : GInv S O σ roots st) (h : needFlat S O σ id st = .ok st') :
    GInv S O σ roots st' ∧ State.Le st st' ∧ st'.crds = st.crds ∧ (GoMap.get st'.flat id).isSome = true := by
  unfold needFlat at h
  split at h
  · rename_i s hs
    cases h
    exact ⟨hi, .refl _, rfl, by rw [hs]; rfl⟩
  · split at h
    · cases h
    · rename_i p hp
      obtain ⟨h1, h2, -⟩ := need_fine O.fuel [] id st.parser p hi.parser hp
      split at h
      · cases h
      · cases h
      · rename_i s f hf
        cases h
        have hl : State.Le st { st with parser := p, flattener := f, flat := GoMap.put st.flat id (flattenEmbedded s).1, embedErrs := st.embedErrs + (flattenEmbedded s).2.length } :=
          ⟨h2, Nat.le_add_right ..⟩
        refine ⟨⟨h1, .flat id hi.steps hp hf, fun q hq => h2.packages q (hi.roots q hq), ?_, fun gk crd hc => (hi.crds gk crd hc).le hl⟩, hl, rfl, ?_⟩
        · intro id' s' hs'
          rw [GoMap.get_put] at hs'
          split at hs'
          · rename_i e
            subst e
            cases hs'
            exact ⟨_, p, _, f, s, hi.steps, hp, hf, rfl, .refl, Nat.le_add_left ..⟩
          · exact (hi.flat id' s' hs').le hl
        · rw [GoMap.get_put, if_pos rfl]; rfl

theorem gather_spec {S : GSrc} {O : Opts} {σ : Scheds} {roots : List String} {kind : String} : ∀ {ps : List (String × String × String)} {st st' : State} {es : List Entry},
    GInv S O σ roots st → (∀ x ∈ ps, x.1 ∈ st.parser.packages) → gather S O σ kind ps st = .ok (es, st') →
    GInv S O σ roots st' ∧ State.Le st st' ∧ st'.crds = st.crds ∧
    All2 (fun (x : String × String × String) e => e.version = x.2.2 ∧ e.markers = S.crdMarkers ⟨x.1, kind⟩ ∧ SchemaFor S O σ st' ⟨x.1, kind⟩ e.schema)
      (ps.filter fun x => (S.src.declOf ⟨x.1, kind⟩).isSome) es
  | [], st, st', es, hi, _, h => by
    cases h
    exact ⟨hi, .refl _, rfl, .nil⟩
  | (pkg, g, ver) :: ps, st, st', es, hi, hp, h => by
    rw [gather] at h
    have ht := hi.parser.types ⟨pkg, kind⟩ (hp _ (List.mem_cons_self ..))
    rw [ht] at h
    split at h
    · rename_i hn
      obtain ⟨h1, h2, h3, h4⟩ := gather_spec hi (fun x hx => hp x (List.mem_cons_of_mem _ hx)) h
      refine ⟨h1, h2, h3, ?_⟩
      rw [List.filter_cons, if_neg (by rw [hn]; simp)]
      exact h4
    · rename_i d hd
      split at h
      · cases h
      · rename_i st1 hf
        obtain ⟨i1, k1, c1, s1⟩ := needFlat_inv hi hf
        split at h
        · cases h
        · rename_i es' st2 hg
          cases h
          obtain ⟨h1, h2, h3, h4⟩ := gather_spec i1 (fun x hx => k1.parser.packages _ (hp x (List.mem_cons_of_mem _ hx))) hg
          refine ⟨h1, k1.trans h2, h3.trans c1, ?_⟩
          rw [List.filter_cons, if_pos (by rw [hd]; rfl)]
          refine .cons ⟨rfl, rfl, ?_⟩ h4
          obtain ⟨s, hs⟩ := Option.isSome_iff_exists.1 s1
          exact ⟨s, (i1.flat _ _ hs).le h2, fun hn => by rw [hs]; simp [versionSchema, hn], fun n hn => by rw [hs]; simp [versionSchema, hn]⟩

/-- The entries of a CRD, from the packages that have been loaded so far. -/
theorem gather_entries {S : GSrc} {O : Opts} {σ : Scheds} {roots : List String} {gk : GroupKind} {st st1 : State} {es : List Entry} (hi : GInv S O σ roots st)
    (hg : gather S O σ gk.kind (((σ.groups gk).order 0 (S.groupVersions st.parser)).filter fun x => x.2.1 = gk.group) st = .ok (es, st1)) :
    GInv S O σ roots st1 ∧ State.Le st st1 ∧ st1.crds = st.crds ∧ EntriesOf S (SchemaFor S O σ st1) st.parser.packages gk es := by
  obtain ⟨h1, h2, h3, h4⟩ := gather_spec hi (by
    rintro ⟨pkg, g, v⟩ hx
    obtain ⟨hx, -⟩ := List.mem_filter.1 hx
    exact (mem_groupVersions.1 (((σ.groups gk).mem_order _ _ _).1 hx)).1) hg
  refine ⟨h1, h2, h3, ⟨((((σ.groups gk).order 0 (S.groupVersions st.parser)).filter fun x => x.2.1 = gk.group).filter fun x => (S.src.declOf ⟨x.1, gk.kind⟩).isSome).map (·.1), ?_, ?_, ?_⟩⟩
  · refine List.Nodup.sublist ((List.filter_sublist.trans List.filter_sublist).map _) ?_
    exact ((σ.groups gk).perm 0 _).map _ |>.nodup_iff.2 (groupVersions_wf S st.parser)
  · intro pkg
    rw [List.mem_map]
    constructor
    · rintro ⟨⟨q, g, v⟩, hx, rfl⟩
      obtain ⟨hx, hd⟩ := List.mem_filter.1 hx
      obtain ⟨hx, hgr⟩ := List.mem_filter.1 hx
      obtain ⟨hp, hv⟩ := mem_groupVersions.1 (((σ.groups gk).mem_order _ _ _).1 hx)
      obtain ⟨d, hd⟩ := Option.isSome_iff_exists.1 hd
      refine ⟨hp, ?_, d, declares_iff.1 hd⟩
      simp only [decide_eq_true_eq] at hgr
      unfold GSrc.groupVersion at hv
      split at hv
      · obtain ⟨g', hg', he⟩ := Option.map_eq_some_iff.1 hv
        cases he
        rw [hg', hgr]
      · cases hv
    · rintro ⟨hp, hgr, d, hd⟩
      have hd := declares_iff.2 hd
      refine ⟨(pkg, gk.group, (S.versionName pkg).getD (S.pkgName pkg)), List.mem_filter.2 ⟨List.mem_filter.2 ⟨((σ.groups gk).mem_order _ _ _).2 (mem_groupVersions.2 ⟨hp, ?_⟩), by simp⟩, by rw [hd]; rfl⟩, rfl⟩
      unfold GSrc.groupVersion
      rw [if_pos (indexed_of hd), hgr]; rfl
  · have key : ∀ {l : List (String × String × String)} {es : List Entry}, (∀ x ∈ l, x ∈ S.groupVersions st.parser) →
        All2 (fun (x : String × String × String) e => e.version = x.2.2 ∧ e.markers = S.crdMarkers ⟨x.1, gk.kind⟩ ∧ SchemaFor S O σ st1 ⟨x.1, gk.kind⟩ e.schema) l es →
        All2 (fun pkg e => VersionOfPkg S pkg e.version ∧ e.markers = S.crdMarkers ⟨pkg, gk.kind⟩ ∧ SchemaFor S O σ st1 ⟨pkg, gk.kind⟩ e.schema) (l.map (·.1)) es := by
      intro l es hl ha
      induction ha with
      | nil => exact .nil
      | @cons x e l m hxe _ ih =>
        refine .cons ⟨?_, hxe.2.1, hxe.2.2⟩ (ih fun y hy => hl y (List.mem_cons_of_mem _ hy))
        obtain ⟨q, g, v⟩ := x
        have hv := (mem_groupVersions.1 (hl _ (List.mem_cons_self ..))).2
        rw [hxe.1]
        unfold GSrc.groupVersion at hv
        split at hv
        · obtain ⟨g', -, he⟩ := Option.map_eq_some_iff.1 hv
          cases he
          unfold VersionOfPkg
          cases S.versionName q <;> simp
        · cases hv
    refine key (fun x hx => ?_) h4
    exact ((σ.groups gk).mem_order _ _ _).1 (List.mem_filter.1 (List.mem_filter.1 hx).1).1

theorem needCrd_inv {S : GSrc} {O : Opts} {σ : Scheds} {roots : List String} {gk : GroupKind} {st st' : State} (hi : GInv S O σ roots st) (h : needCrd S O σ gk st = .ok st') :
    GInv S O σ roots st' ∧ State.Le st st' ∧ Decided S O σ st' roots gk (GoMap.get st'.crds gk) ∧ ∀ gk', gk' ≠ gk → GoMap.get st'.crds gk' = GoMap.get st.crds gk' := by
  unfold needCrd at h
  split at h
  · rename_i crd hc
    cases h
    exact ⟨hi, .refl _, by rw [hc]; exact hi.crds _ _ hc, fun _ _ => rfl⟩
  · rename_i hnone
    split at h
    · cases h
    · rename_i es st1 hg
      obtain ⟨h1, h2, h3, hent⟩ := gather_entries hi hg
      split at h
      · cases h
      · rename_i errs hb
        cases h
        have hl : State.Le st1 { st1 with errs := st1.errs ++ errs } := ⟨.refl, Nat.le_refl _⟩
        refine ⟨⟨h1.parser, h1.steps, h1.roots, fun id s hs => (h1.flat id s hs).le hl, fun gk crd hc => (h1.crds gk crd hc).le hl⟩, h2.trans hl, ?_, fun _ _ => by rw [h3]⟩
        refine Decided.le ?_ hl
        show Decided S O σ st1 roots gk (GoMap.get st1.crds gk)
        rw [h3, hnone]
        exact ⟨_, es, errs, hi.roots, hent, hb⟩
      · rename_i crd errs hb
        cases h
        have hdec : Decided S O σ st1 roots gk (some crd) := ⟨_, es, errs, hi.roots, hent, hb⟩
        have hl : State.Le st1 { st1 with crds := GoMap.put st1.crds gk crd, errs := st1.errs ++ errs } := ⟨.refl, Nat.le_refl _⟩
        refine ⟨⟨h1.parser, h1.steps, h1.roots, fun id s hs => (h1.flat id s hs).le hl, ?_⟩, h2.trans hl, ?_, ?_⟩
        · intro gk' crd' hc'
          simp only [GoMap.get_put] at hc'
          split at hc'
          · rename_i e
            subst e
            cases hc'
            exact hdec.le hl
          · exact (h1.crds _ _ hc').le hl
        · simp only [GoMap.get_put, if_true]
          exact hdec.le hl
        · intro gk' hne
          simp only [GoMap.get_put]
          rw [if_neg hne, h3]

/-! ## C33 -/

/-- What `writeFiles` adds. -/
theorem writeFiles_spec {O : Opts} {crd : Crd} : ∀ {vs : List String} {i : Nat} {out out' : Out}, writeFiles O crd i vs out = .ok out' → out'.failed = false →
    ∃ fs, out'.files = out.files ++ fs ∧ (∀ v ∈ vs, v = "v1") ∧ fs.length = vs.length ∧ out.failed = false ∧
      (∀ (j : Nat) v f, vs[j]? = some v → fs[j]? = some f → f.1 = fileName crd (i + j) v) ∧ ∀ f ∈ fs, f.2 = mapSchemas dropMetadataDescription crd
  | [], i, out, out', h, hf => by
    cases h
    exact ⟨[], by simp, nofun, rfl, hf, nofun, nofun⟩
  | v :: vs, i, out, out', h, hf => by
    rw [writeFiles] at h
    split at h
    · cases h
    · rename_i hv
      split at h
      · obtain ⟨fs, h1, h2, h3, h4, h5, h6⟩ := writeFiles_spec h hf
        refine ⟨(fileName crd i v, mapSchemas dropMetadataDescription crd) :: fs, by rw [h1]; simp, ?_, by simp [h3], h4, ?_, ?_⟩
        · intro w hw
          rcases List.mem_cons.1 hw with rfl | hw
          · simpa using hv
          · exact h2 w hw
        · intro j w f hw hf'
          cases j with
          | zero => cases hw; cases hf'; rfl
          | succ j =>
            have := h5 j w f hw hf'
            rw [this]; congr 1; omega
        · intro f hf'
          rcases List.mem_cons.1 hf' with rfl | hf'
          · rfl
          · exact h6 f hf'
      · cases h; cases hf

theorem fixed_printed (O : Opts) (crd : Crd) : Printed O.toolVersion crd (mapSchemas dropMetadataDescription (mapSchemas fixMetadata (addAttribution O crd))) := by
  refine ⟨rfl, rfl, rfl, rfl, rfl, ?_, ?_, ?_⟩
  · simp [mapSchemas, addAttribution, GoMap.get_put]
  · intro k hk
    simp only [mapSchemas, addAttribution, GoMap.get_put]
    rw [if_neg hk]
  · simp only [mapSchemas, addAttribution, List.map_map]
    refine All2.map_right fun w _ => ⟨rfl, ?_⟩
    show ExceptMetadata w.schema (dropMetadataDescription (fixMetadata w.schema))
    obtain ⟨b, it, al, oo, an, nt, pr, ad, pa, de, ai, df⟩ := w.schema
    cases hm : GoMap.get pr "metadata" with
    | none =>
      have : dropMetadataDescription (fixMetadata (.mk b it al oo an nt pr ad pa de ai df)) = .mk b it al oo an nt pr ad pa de ai df := by
        unfold fixMetadata; simp only [hm]; unfold dropMetadataDescription; simp only [hm]
      rw [this]
      simp [ExceptMetadata, hm]
    | some t =>
      have : dropMetadataDescription (fixMetadata (.mk b it al oo an nt pr ad pa de ai df)) =
          .mk b it al oo an nt (GoMap.put (GoMap.put pr "metadata" (.leaf { type := "object" })) "metadata" (.leaf { type := "object" })) ad pa de ai df := by
        unfold fixMetadata; simp only [hm]; unfold dropMetadataDescription; simp only [GoMap.get_put, if_true, Schema.leaf]
      rw [this]
      simp only [ExceptMetadata, hm, GoMap.get_put, true_and, if_true]
      refine ⟨fun k hk => ?_, nofun, fun _ => trivial⟩
      rw [if_neg hk, if_neg hk]

theorem writeKinds_spec {S : GSrc} {O : Opts} {σ : Scheds} {roots versions : List String} : ∀ {kinds : List GroupKind} {st st' : State} {out out' : Out}, GInv S O σ roots st → kinds.Nodup →
    writeKinds S O σ versions kinds st out = .ok (st', out') → out'.failed = false →
    GInv S O σ roots st' ∧ State.Le st st' ∧ (∀ gk, gk ∉ kinds → GoMap.get st'.crds gk = GoMap.get st.crds gk) ∧ (∀ gk ∈ kinds, Decided S O σ st' roots gk (GoMap.get st'.crds gk)) ∧
    ∃ fs, out'.files = out.files ++ fs ∧ (∀ f ∈ fs, ∃ gk ∈ kinds, f.2 = mapSchemas dropMetadataDescription (mapSchemas fixMetadata (addAttribution O ((GoMap.get st'.crds gk).getD {})))) ∧
      FilesOf O.toolVersion (fun gk => some ((GoMap.get st'.crds gk).getD {})) versions kinds fs
  | [], st, st', out, out', hi, _, h, _ => by
    cases h
    exact ⟨hi, .refl _, fun _ _ => rfl, nofun, [], by simp, nofun, [], rfl, .nil⟩
  | gk :: gks, st, st', out, out', hi, hn, h, hf => by
    obtain ⟨hn1, hn2⟩ := List.nodup_cons.1 hn
    rw [writeKinds] at h
    split at h
    · cases h
    · rename_i st1 hc
      obtain ⟨i1, l1', d1, o1⟩ := needCrd_inv hi hc
      simp only at h
      split at h
      · cases h; cases hf
      · split at h
        · cases h
        · rename_i out1 hw
          split at h
          · rename_i hfail; cases h; rw [hfail] at hf; cases hf
          · rename_i hfail
            obtain ⟨i2, l2, o2, d2, fs, e2, q2, parts, e3, a2⟩ := writeKinds_spec i1 hn2 h hf
            obtain ⟨fs1, e1, -, l1, -, n1, p1⟩ := writeFiles_spec hw (by simpa using hfail)
            refine ⟨i2, l1'.trans l2, ?_, ?_, fs1 ++ fs, by rw [e2, e1, List.append_assoc], ?_, fs1 :: parts, by rw [e3]; rfl, .cons ⟨_, rfl, ⟨l1, ?_⟩, ?_⟩ a2⟩
            · intro gk' hgk'
              rw [o2 gk' fun h => hgk' (List.mem_cons_of_mem _ h), o1 gk' fun h => hgk' (h ▸ List.mem_cons_self ..)]
            · intro gk' hgk'
              rcases List.mem_cons.1 hgk' with rfl | hgk'
              · rw [o2 _ hn1]; exact d1.le l2
              · exact d2 gk' hgk'
            · intro f hf'
              rcases List.mem_append.1 hf' with hf' | hf'
              · exact ⟨gk, List.mem_cons_self .., by rw [p1 f hf', o2 _ hn1]⟩
              · obtain ⟨gk', h1, h2⟩ := q2 f hf'
                exact ⟨gk', List.mem_cons_of_mem _ h1, h2⟩
            · intro i v f hv hf'
              rw [n1 i v f hv hf', Nat.zero_add, o2 _ hn1]
              rfl
            · intro f hf'
              rw [p1 f hf', o2 _ hn1]
              exact fixed_printed O _

/-- The API versions of CRDs that are asked for. -/
def Opts.versions (O : Opts) : List String := if O.crdVersions = [] then ["v1"] else O.crdVersions

theorem generate_spec {S : GSrc} {O : Opts} {σ : Scheds} {roots : List String} {st : State} {out : Out} (h : generate S O σ roots = .ok (st, out)) (hf : out.failed = false) :
    ∃ kinds : List GroupKind, kinds.Nodup ∧ (∀ gk, gk ∈ kinds ↔ KindIn S roots gk) ∧ kinds.Pairwise (fun a b => a.string ≤ b.string) ∧
      (∀ gk ∈ kinds, Decided S O σ st roots gk (GoMap.get st.crds gk)) ∧ (∀ gk, gk ∉ kinds → GoMap.get st.crds gk = none) ∧ Steps S O σ st.parser st.flattener ∧
      (∀ f ∈ out.files, ∃ gk ∈ kinds, f.2 = mapSchemas dropMetadataDescription (mapSchemas fixMetadata (addAttribution O ((GoMap.get st.crds gk).getD {})))) ∧
      FilesOf O.toolVersion (fun gk => some ((GoMap.get st.crds gk).getD {})) O.versions kinds out.files := by
  unfold generate at h
  simp only at h
  split at h
  · rename_i hm
    cases h
    refine ⟨[], List.nodup_nil, fun gk => ⟨nofun, ?_⟩, .nil, nofun, fun _ _ => rfl, rooted_steps .., nofun, [], rfl, .nil⟩
    rintro ⟨m, -, -, hm', -⟩
    rw [findMetav1_some.2 hm'] at hm
    cases hm
  · rename_i m hm
    obtain ⟨h1, h2, h3⟩ := C32_kinds S σ.kinds roots m (findMetav1_some.1 hm)
    change (if findKinds S σ.kinds m (rooted S roots) = [] then _ else _) = _ at h
    split at h
    · rename_i he
      cases h
      exact ⟨_, h2, h1, h3, by rw [he]; nofun, fun _ _ => rfl, rooted_steps .., nofun, by rw [he]; exact ⟨[], rfl, .nil⟩⟩
    · split at h
      · cases h; cases hf
      · obtain ⟨r1, -, r3⟩ := rooted_inv S O.marshal σ.gen roots
        obtain ⟨i, -, o, d, fs, e, q, hfs⟩ := writeKinds_spec (roots := roots) (st := { parser := rooted S roots }) ⟨r1, rooted_steps .., fun q hq => (r3 q).2 hq, nofun, nofun⟩ h2 h hf
        refine ⟨_, h2, h1, h3, d, fun gk hgk => o gk hgk, i.steps, by rw [e]; exact q, ?_⟩
        rw [e]
        exact hfs

/-- **C33.** If the generator returns without an error and each kind has a version that is not to be skipped (more exactly, a CRD), then the files are those of the CRDs, one for each kind and each version of the
API, with the right names, sorted by kind; and the CRD of each kind is the one that C19-C23 are about. -/
theorem C33_files_partial (S : GSrc) (O : Opts) (σ : Scheds) (roots : List String) (st : State) (out : Out) (h : generate S O σ roots = .ok (st, out)) (hf : out.failed = false)
    (hc : ∀ gk, KindIn S roots gk → GoMap.get st.crds gk ≠ none) :
    ∃ kinds : List GroupKind, kinds.Nodup ∧ (∀ gk, gk ∈ kinds ↔ KindIn S roots gk) ∧ kinds.Pairwise (fun a b => a.string ≤ b.string) ∧
      FilesOf O.toolVersion (GoMap.get st.crds) O.versions kinds out.files := by
  obtain ⟨kinds, h1, h2, h3, -, -, -, -, parts, h5, h6⟩ := generate_spec h hf
  refine ⟨kinds, h1, h2, h3, parts, h5, h6.imp fun gk hgk fs _ => ?_⟩
  rintro ⟨crd, hcrd, hr⟩
  refine ⟨crd, ?_, hr⟩
  cases hg : GoMap.get st.crds gk with
  | none => exact (hc gk ((h2 gk).1 hgk) hg).elim
  | some c => simp only [hg] at hcrd; exact hcrd

/-- **C33.** Which kinds have a CRD: those with a version that is not to be skipped, among the packages of their group that have been loaded (at least the root packages). -/
theorem C33_crds (S : GSrc) (O : Opts) (σ : Scheds) (roots : List String) (st : State) (out : Out) (h : generate S O σ roots = .ok (st, out)) (hf : out.failed = false) (gk : GroupKind) :
    (¬ KindIn S roots gk → GoMap.get st.crds gk = none) ∧
    (KindIn S roots gk → ∃ loaded entries errs, (∀ q ∈ roots, q ∈ loaded) ∧ EntriesOf S (SchemaFor S O σ st) loaded gk entries ∧
      build (σ.crd gk) O.lib gk.group gk.kind entries = some (GoMap.get st.crds gk, errs) ∧
      (DistinctVersions entries → (GoMap.get st.crds gk ≠ none ↔ ∃ e ∈ entries, ¬ Skipped e))) := by
  obtain ⟨kinds, h1, h2, h3, h4, h5, h6⟩ := generate_spec h hf
  refine ⟨fun hk => h5 gk fun hm => hk ((h2 gk).1 hm), fun hk => ?_⟩
  obtain ⟨loaded, entries, errs, ha, hb, hc⟩ := h4 gk ((h2 gk).2 hk)
  refine ⟨loaded, entries, errs, ha, hb, hc, fun hd => ?_⟩
  rw [← C20_exists_partial hd hc]
  cases GoMap.get st.crds gk <;> simp

theorem file_inj {g p g' p' : String} (hg : '_' ∉ g.toList) (hg' : '_' ∉ g'.toList) (h : g ++ "_" ++ p ++ ".yaml" = g' ++ "_" ++ p' ++ ".yaml") : g = g' ∧ p = p' := by
  have hl := congrArg String.toList h
  simp only [String.toList_append] at hl
  have hl := List.append_cancel_right hl
  rw [show ("_" : String).toList = ['_'] from rfl, List.append_assoc, List.append_assoc] at hl
  have h1 : Text.cut '_' (g.toList ++ '_' :: p.toList) = some (g.toList, p.toList) := Text.cut_append hg
  have h2 : Text.cut '_' (g'.toList ++ '_' :: p'.toList) = some (g'.toList, p'.toList) := Text.cut_append hg'
  rw [show g.toList ++ '_' :: p.toList = g'.toList ++ '_' :: p'.toList from hl, h2] at h1
  simp only [Option.some.injEq, Prod.mk.injEq] at h1
  exact ⟨(String.toList_inj.1 h1.1).symm, (String.toList_inj.1 h1.2).symm⟩

/-- **C33.** One file for each kind: no file is written twice, if no two kinds of a group have the same plural (and groups are free of `_`, as DNS names are). -/
theorem C33_once_partial (S : GSrc) (O : Opts) (σ : Scheds) (roots : List String) (st : State) (out : Out) (h : generate S O σ roots = .ok (st, out)) (hf : out.failed = false)
    (hc : ∀ gk, KindIn S roots gk → GoMap.get st.crds gk ≠ none) (hv : O.crdVersions = [])
    (hu : ∀ gk crd, GoMap.get st.crds gk = some crd → '_' ∉ crd.group.toList)
    (hd : ∀ gk gk' crd crd', GoMap.get st.crds gk = some crd → GoMap.get st.crds gk' = some crd' → crd.group = crd'.group → crd.names.plural = crd'.names.plural → gk = gk') :
    (out.files.map (·.1)).Nodup ∧ ∃ kinds : List GroupKind, kinds.Nodup ∧ (∀ gk, gk ∈ kinds ↔ KindIn S roots gk) ∧
      All2 (fun gk f => ∃ crd, GoMap.get st.crds gk = some crd ∧ f.1 = crd.group ++ "_" ++ crd.names.plural ++ ".yaml" ∧ Printed O.toolVersion crd f.2) kinds out.files := by
  obtain ⟨kinds, h1, h2, -, parts, h5, h6⟩ := C33_files_partial S O σ roots st out h hf hc
  have hvs : O.versions = ["v1"] := by unfold Opts.versions; rw [if_pos hv]
  rw [hvs] at h6
  have hall : All2 (fun gk f => ∃ crd, GoMap.get st.crds gk = some crd ∧ f.1 = crd.group ++ "_" ++ crd.names.plural ++ ".yaml" ∧ Printed O.toolVersion crd f.2) kinds out.files := by
    rw [h5]
    clear h1 h2 h5
    induction h6 with
    | nil => exact .nil
    | @cons gk fs kinds parts hr _ ih =>
      obtain ⟨crd, c1, ⟨c2, c3⟩, c4⟩ := hr
      obtain ⟨f, rfl⟩ := List.length_eq_one_iff.1 c2
      exact .cons ⟨crd, c1, c3 0 "v1" f rfl rfl, c4 f (List.mem_singleton_self f)⟩ ih
  refine ⟨?_, kinds, h1, h2, hall⟩
  clear h2 h6 h5
  generalize out.files = files at hall
  induction hall with
  | nil => exact List.nodup_nil
  | @cons gk f kinds files hr hrest ih =>
    obtain ⟨n1, n2⟩ := List.nodup_cons.1 h1
    refine List.nodup_cons.2 ⟨fun hin => ?_, ih n2⟩
    obtain ⟨f', hf', he⟩ := List.mem_map.1 hin
    obtain ⟨gk', hgk', crd', c1', c2', -⟩ := hrest.exists_left hf'
    obtain ⟨crd, c1, c2, -⟩ := hr
    simp only at he
    rw [c2, c2'] at he
    obtain ⟨e1, e2⟩ := file_inj (hu _ _ c1') (hu _ _ c1) he
    exact n1 (hd _ _ _ _ c1' c1 e1 e2 ▸ hgk')

/-! The API versions of CRDs -/

theorem writeFiles_v1 {O : Opts} {crd : Crd} : ∀ {vs : List String} {i : Nat} {out out' : Out}, writeFiles O crd i vs out = .ok out' → out'.failed = false → ∀ v ∈ vs, v = "v1"
  | [], _, _, _, _, _ => nofun
  | v :: vs, i, out, out', h, hf => by
    rw [writeFiles] at h
    split at h
    · cases h
    · rename_i hv
      split at h
      · exact List.forall_mem_cons.2 ⟨by simpa using hv, writeFiles_v1 h hf⟩
      · cases h; cases hf

theorem writeFiles_internal {O : Opts} {crd : Crd} (hw : ∀ f, O.writable f = true) : ∀ {vs : List String} {i : Nat} {out : Out}, "__internal" ∈ vs → writeFiles O crd i vs out = .error .panic
  | [], _, _, h => by cases h
  | v :: vs, i, out, h => by
    rw [writeFiles]
    split
    · rfl
    · rename_i hv
      rw [if_pos (hw _)]
      refine writeFiles_internal hw ?_
      rcases List.mem_cons.1 h with rfl | h
      · exact (hv (by decide)).elim
      · exact h

theorem generate_unfold {S : GSrc} {O : Opts} {σ : Scheds} {roots : List String} {gk : GroupKind} (hk : KindIn S roots gk) :
    ∃ gk' kinds, generate S O σ roots = if O.headerOk = false then .ok ({ parser := rooted S roots }, { failed := true }) else writeKinds S O σ O.versions (gk' :: kinds) { parser := rooted S roots } {} := by
  obtain ⟨m, pkg, d, hm, -⟩ := id hk
  obtain ⟨h1, -, -⟩ := C32_kinds S σ.kinds roots m hm
  cases hl : findKinds S σ.kinds m (rooted S roots) with
  | nil => have := (h1 gk).2 hk; rw [hl] at this; cases this
  | cons gk' kinds =>
    refine ⟨gk', kinds, ?_⟩
    unfold generate
    rw [findMetav1_some.2 hm]
    simp only
    rw [show (roots.foldl (fun p r => S.src.needPackage r p) {}) = rooted S roots from rfl, hl, if_neg (by simp)]
    rfl

/-- **C33.** Only the API version `v1` of CRDs can be asked for.  Where there is a kind: success means that nothing else has been asked for; a version that the library does not know is an error, and no file is
written; and `__internal`, which the library does know, is no error: the generator panics (if nothing else goes wrong before). -/
theorem C33_versions (S : GSrc) (O : Opts) (σ : Scheds) (roots : List String) (gk : GroupKind) (hk : KindIn S roots gk) :
    (∀ st out, generate S O σ roots = .ok (st, out) → out.failed = false → ∀ v ∈ O.versions, v = "v1") ∧
    (∀ v ∈ O.versions, v ≠ "v1" → v ≠ "__internal" → ∀ st out, generate S O σ roots = .ok (st, out) → out.failed = true ∧ out.files = []) ∧
    ((∀ v ∈ O.versions, v = "v1" ∨ v = "__internal") → "__internal" ∈ O.versions → O.headerOk = true → (∀ f, O.writable f = true) → ∃ e, generate S O σ roots = .error e) := by
  obtain ⟨gk', kinds, hg⟩ := generate_unfold (O := O) (σ := σ) hk
  rw [hg]
  refine ⟨fun st out h hf => ?_, fun v hv h1 h2 st out h => ?_, fun hv hi hh hw => ?_⟩
  · split at h
    · cases h; cases hf
    · rw [writeKinds] at h
      split at h
      · cases h
      · simp only at h
        split at h
        · cases h; cases hf
        · split at h
          · cases h
          · rename_i out1 hw1
            split at h
            · rename_i hfail; cases h; rw [hfail] at hf; cases hf
            · rename_i hfail; exact writeFiles_v1 hw1 (by simpa using hfail)
  · split at h
    · cases h; exact ⟨rfl, rfl⟩
    · rw [writeKinds] at h
      split at h
      · cases h
      · have hx : O.versions.all knownVersion = false := by
          rw [List.all_eq_false]
          exact ⟨v, hv, by simp [knownVersion, h1, h2]⟩
        simp only at h
        rw [if_pos hx] at h
        cases h; exact ⟨rfl, rfl⟩
  · rw [if_neg (by simp [hh]), writeKinds]
    split
    · exact ⟨_, rfl⟩
    · have hx : ¬ O.versions.all knownVersion = false := by
        rw [Bool.not_eq_false, List.all_eq_true]
        intro v h
        rcases hv v h with rfl | rfl <;> rfl
      simp only
      rw [if_neg hx, writeFiles_internal hw hi]
      exact ⟨_, rfl⟩

end Verif.CrdGen
