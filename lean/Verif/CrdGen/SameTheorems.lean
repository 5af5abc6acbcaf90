import Verif.CrdGen.SameSpec
import Verif.CrdGen.Enforced

/-! # The CRD of a kind depends on the packages of the kind and on nothing else (C95) -/
namespace Verif.CrdGen
open Spec
open Verif.Crd (Schema PState FState TypeIdent Env flattenType flattenEmbedded addKnownTypes reachable_inv C55_closed agree_of expand_agree need_fine PInv Within need_within)
open Verif.Crd.Spec (envOf Tidy Declares)

variable {S : GSrc} {O : Opts} {σ σ' : Scheds} {st st' : State}

/-! ## Schemas -/

section
variable {b : Bool} (ho : S.src.overrides = addKnownTypes b) (ht : ∀ p, Tidy (S.src.ctx p)) (hd : OrderlyTypes S)
include ho ht hd

theorem flattened_same (hs : Steps S O σ st.parser st.flattener) (hs' : Steps S O σ' st'.parser st'.flattener) (hp : Plain S st) (hp' : Plain S st') {id : TypeIdent} {t t' : Schema} (h : Flattened S O σ st id t)
    (h' : Flattened S O σ' st' id t') : t' = t := by
  obtain ⟨u, hu, -, hx⟩ := flattened_fine ho ht hp.errs hp.distinct h
  obtain ⟨u', hu', -, hx'⟩ := flattened_fine ho ht hp'.errs hp'.distinct h'
  have ha := agree_of (reachable_inv (steps_reachable hs)) (reachable_inv (steps_reachable hs')) (fun id d h => hd id d (Verif.Crd.declares_iff.1 h))
  obtain rfl := ha.raw id u u' hu hu'
  obtain ⟨-, -, c3⟩ := C55_closed S.src b ho ht O.marshal σ.gen st.parser (steps_reachable hs) hp.errs id _ hu
  exact expand_agree ha (hx (hp.acyclic id _ hu)) t' c3 (hx' (hp'.acyclic id _ hu'))

theorem schema_same (hs : Steps S O σ st.parser st.flattener) (hs' : Steps S O σ' st'.parser st'.flattener) (hp : Plain S st) (hp' : Plain S st') {id : TypeIdent} {s s' : Schema} (h : SchemaFor S O σ st id s)
    (h' : SchemaFor S O σ' st' id s') : s' = s := by
  obtain ⟨x, ⟨p, p1, f, f1, t, a1, a2, a3, rfl, a5, -⟩, hn, hm⟩ := h
  obtain ⟨x', ⟨q, q1, g, g1, t', b1, b2, b3, rfl, b5, -⟩, hn', hm'⟩ := h'
  obtain rfl := flattened_same ho ht hd hs hs' hp hp' ⟨p, p1, f, f1, a1, a2, a3, a5⟩ ⟨q, q1, g, g1, b1, b2, b3, b5⟩
  cases h : O.maxDescLen with
  | none => rw [hn h, hn' h]
  | some n => rw [hm n h, hm' n h]
end

/-! ## Entries -/

theorem all2_perm {α β : Type} {R : α → β → Prop} {l l' : List α} (hp : l.Perm l') : ∀ {m : List β}, All2 R l m → ∃ m', All2 R l' m' ∧ m.Perm m' := by
  induction hp with
  | nil => exact fun h => by cases h; exact ⟨[], .nil, .nil⟩
  | cons x _ ih =>
    intro m h
    cases h with
    | cons h1 h2 =>
      obtain ⟨m', h3, h4⟩ := ih h2
      exact ⟨_ :: m', .cons h1 h3, h4.cons _⟩
  | swap x y l =>
    intro m h
    cases h with
    | cons h1 h2 => cases h2 with
      | cons h2 h3 => exact ⟨_, .cons h2 (.cons h1 h3), List.Perm.swap ..⟩
  | trans _ _ ih1 ih2 =>
    intro m h
    obtain ⟨m1, h1, h2⟩ := ih1 h
    obtain ⟨m2, h3, h4⟩ := ih2 h1
    exact ⟨m2, h3, h2.trans h4⟩

theorem all2_unique {α β : Type} {R R' : α → β → Prop} (hu : ∀ a b b', R a b → R' a b' → b' = b) : ∀ {l : List α} {m m' : List β}, All2 R l m → All2 R' l m' → m' = m
  | [], _, _, .nil, .nil => rfl
  | _ :: _, _, _, .cons h1 h2, .cons h3 h4 => by rw [hu _ _ _ h1 h3, all2_unique hu h2 h4]

theorem version_unique {pkg v v' : String} (h : VersionOfPkg S pkg v) (h' : VersionOfPkg S pkg v') : v' = v := by
  rcases h with h | ⟨h, rfl⟩ <;> rcases h' with h' | ⟨h', rfl⟩
  · rw [h] at h'; cases h'; rfl
  · rw [h] at h'; cases h'
  · rw [h] at h'; cases h'
  · rfl

theorem entries_same {R R' : TypeIdent → Schema → Prop} (hu : ∀ id s s', R id s → R' id s' → s' = s) {gk : GroupKind} {loaded loaded' : List String} {es es' : List Entry}
    (hl : ∀ pkg d, S.groupName pkg = some gk.group → Declares S.src ⟨pkg, gk.kind⟩ d → (pkg ∈ loaded ↔ pkg ∈ loaded'))
    (h : EntriesOf S R loaded gk es) (h' : EntriesOf S R' loaded' gk es') : es.Perm es' := by
  obtain ⟨pkgs, n, m, a⟩ := h
  obtain ⟨pkgs', n', m', a'⟩ := h'
  have hp : pkgs.Perm pkgs' := (List.perm_ext_iff_of_nodup n n').2 fun pkg => by
    rw [m, m']
    exact ⟨fun ⟨h1, h2, d, h3⟩ => ⟨(hl pkg d h2 h3).1 h1, h2, d, h3⟩, fun ⟨h1, h2, d, h3⟩ => ⟨(hl pkg d h2 h3).2 h1, h2, d, h3⟩⟩
  obtain ⟨es1, a1, hp1⟩ := all2_perm hp a
  have : es' = es1 := all2_unique (fun pkg e e' h1 h2 => by
    obtain ⟨v, mk, s⟩ := e
    obtain ⟨v', mk', s'⟩ := e'
    obtain ⟨x1, x2, x3⟩ := h1
    obtain ⟨y1, y2, y3⟩ := h2
    simp only at x1 x2 x3 y1 y2 y3
    rw [version_unique x1 y1, hu _ _ _ x3 y3, x2, y2]) a1 a'
  rw [this]
  exact hp1

theorem entries_any {R : TypeIdent → Schema → Prop} {gk : GroupKind} {loaded roots : List String} {es : List Entry} (h : EntriesOf S R loaded gk es) (hr : ∀ q ∈ roots, q ∈ loaded) (hn : Named S roots gk) :
    EntriesOf S (fun _ _ => True) roots gk es := by
  obtain ⟨pkgs, n, m, a⟩ := h
  refine ⟨pkgs, n, fun pkg => ?_, a.imp fun _ _ _ _ ⟨h1, h2, _⟩ => ⟨h1, h2, trivial⟩⟩
  rw [m]
  exact ⟨fun ⟨_, h2, d, h3⟩ => ⟨hn pkg d h2 h3, h2, d, h3⟩, fun ⟨h1, h2, d, h3⟩ => ⟨hr pkg h1, h2, d, h3⟩⟩

/-! ## CRDs -/

theorem decided_same {b : Bool} (ho : S.src.overrides = addKnownTypes b) (ht : ∀ p, Tidy (S.src.ctx p)) (hd : OrderlyTypes S) (hs : Steps S O σ st.parser st.flattener) (hs' : Steps S O σ' st'.parser st'.flattener)
    (hp : Plain S st) (hp' : Plain S st') {gk : GroupKind} {roots roots' : List String} (hn : Named S roots gk) (hn' : Named S roots' gk) (hc : Consistent S roots gk) {r r' : Option Crd}
    (h : Decided S O σ st roots gk r) (h' : Decided S O σ' st' roots' gk r') : SameResult r r' := by
  obtain ⟨loaded, es, errs, h1, h2, h3⟩ := h
  obtain ⟨loaded', es', errs', h1', h2', h3'⟩ := h'
  have hperm : es.Perm es' := entries_same (R := SchemaFor S O σ st) (R' := SchemaFor S O σ' st') (fun id s s' x y => schema_same ho ht hd hs hs' hp hp' x y)
    (fun pkg d g x => ⟨fun _ => h1' pkg (hn' pkg d g x), fun _ => h1 pkg (hn pkg d g x)⟩) h2 h2'
  obtain ⟨c1, c2, ⟨r0, c3⟩, c4, c5⟩ := hc es (entries_any h2 h1 hn)
  have := C21_order_partial (σ := σ.crd gk) (σ' := σ'.crd gk) (L := O.lib) (g := gk.group) (k := gk.kind) hperm c1 c2 c3 c4 c5
  rw [h3, h3'] at this
  cases this with
  | nothing => exact .none
  | crd _ _ _ _ hc => exact .some hc

/-- **C95** (one kind; partial).  In two runs of the generator on the same program, the CRD of a kind is the same, whatever other packages the command lines name, whatever other kinds there are, and in whichever order maps are iterated over.
What is missing: packages of the kind that are not named by the command line (`C95_violated_other`), contradictory markers (C21, C25), recursive types (C50). -/
theorem C95_kind_partial {b : Bool} (ho : S.src.overrides = addKnownTypes b) (ht : ∀ p, Tidy (S.src.ctx p)) (hd : OrderlyTypes S) {roots roots' : List String} {out out' : Out}
    (h : generate S O σ roots = .ok (st, out)) (hf : out.failed = false) (h' : generate S O σ' roots' = .ok (st', out')) (hf' : out'.failed = false) (hp : Plain S st) (hp' : Plain S st')
    {gk : GroupKind} (hk : KindIn S roots gk) (hk' : KindIn S roots' gk) (hn : Named S roots gk) (hn' : Named S roots' gk) (hc : Consistent S roots gk) :
    SameResult (GoMap.get st.crds gk) (GoMap.get st'.crds gk) := by
  obtain ⟨kinds, -, m, -, d, -, s, -⟩ := generate_spec h hf
  obtain ⟨kinds', -, m', -, d', -, s', -⟩ := generate_spec h' hf'
  exact decided_same ho ht hd s s' hp hp' hn hn' hc (d gk ((m gk).2 hk)) (d' gk ((m' gk).2 hk'))

/-! ## Files -/

theorem sameMap_put {m m' : List (String × String)} (h : SameMap m m') (k v : String) : SameMap (GoMap.put m k v) (GoMap.put m' k v) := by
  intro k'
  rw [GoMap.get_put, GoMap.get_put, h k']

theorem printed_same {c c' : Crd} (h : SameCrd c c') : SameCrd (mapSchemas dropMetadataDescription (mapSchemas fixMetadata (addAttribution O c))) (mapSchemas dropMetadataDescription (mapSchemas fixMetadata (addAttribution O c'))) where
  name := h.name
  group := h.group
  names := h.names
  scope := h.scope
  versions := by simp only [mapSchemas, addAttribution, h.versions]
  annotations := sameMap_put h.annotations _ _
  labels := h.labels

theorem writeFiles_same {c c' : Crd} (hg : c.group = c'.group) (hn : c.names = c'.names) (hs : SameCrd (mapSchemas dropMetadataDescription c) (mapSchemas dropMetadataDescription c')) :
    ∀ {vs : List String} {i : Nat} {o o' o1 o1' : Out}, writeFiles O c i vs o = .ok o1 → o1.failed = false → writeFiles O c' i vs o' = .ok o1' → o1'.failed = false → All2 SameFile o.files o'.files →
      All2 SameFile o1.files o1'.files
  | [], i, o, o', o1, o1', h, _, h', _, ha => by cases h; cases h'; exact ha
  | v :: vs, i, o, o', o1, o1', h, hf, h', hf', ha => by
    have hfn : fileName c i v = fileName c' i v := by unfold fileName; rw [hg, hn]
    rw [writeFiles] at h h'
    split at h
    · cases h
    · rename_i hv
      rw [if_neg hv] at h'
      split at h
      · rename_i hw
        rw [hfn] at hw
        rw [if_pos hw] at h'
        exact writeFiles_same hg hn hs h hf h' hf' (ha.append (.cons ⟨hfn, hs⟩ .nil))
      · cases h; cases hf

theorem getD_same {r r' : Option Crd} (h : SameResult r r') : SameCrd (r.getD {}) (r'.getD {}) := by
  cases h with
  | none => exact ⟨rfl, rfl, rfl, rfl, rfl, fun _ => rfl, fun _ => rfl⟩
  | some h => exact h

theorem writeKinds_same {roots roots' versions : List String} : ∀ {kinds : List GroupKind} {s s' : State} {o o' out out' : Out}, GInv S O σ roots s → GInv S O σ' roots' s' → kinds.Nodup →
    writeKinds S O σ versions kinds s o = .ok (st, out) → out.failed = false → writeKinds S O σ' versions kinds s' o' = .ok (st', out') → out'.failed = false →
    (∀ gk ∈ kinds, SameResult (GoMap.get st.crds gk) (GoMap.get st'.crds gk)) → All2 SameFile o.files o'.files → All2 SameFile out.files out'.files
  | [], s, s', o, o', out, out', _, _, _, h, _, h', _, _, ha => by cases h; cases h'; exact ha
  | gk :: gks, s, s', o, o', out, out', hi, hi', hn, h, hf, h', hf', hr, ha => by
    obtain ⟨hn1, hn2⟩ := List.nodup_cons.1 hn
    rw [writeKinds] at h h'
    split at h
    · cases h
    · rename_i s1 hc
      split at h'
      · cases h'
      · rename_i s1' hc'
        have i1 := (needCrd_inv hi hc).1
        have i1' := (needCrd_inv hi' hc').1
        simp only at h h'
        split at h
        · cases h; cases hf
        · rename_i hk
          rw [if_neg hk] at h'
          split at h
          · cases h
          · rename_i o1 hw
            split at h'
            · cases h'
            · rename_i o1' hw'
              split at h
              · rename_i hfail; cases h; rw [hfail] at hf; cases hf
              · rename_i hfail
                split at h'
                · rename_i hfail'; cases h'; rw [hfail'] at hf'; cases hf'
                · rename_i hfail'
                  have e := (writeKinds_spec i1 hn2 h hf).2.2.1 gk hn1
                  have e' := (writeKinds_spec i1' hn2 h' hf').2.2.1 gk hn1
                  have hsame := hr gk List.mem_cons_self
                  rw [e, e'] at hsame
                  have hcrd := getD_same hsame
                  refine writeKinds_same i1 i1' hn2 h hf h' hf' (fun g hg => hr g (List.mem_cons_of_mem _ hg)) ?_
                  exact writeFiles_same (c := mapSchemas fixMetadata (addAttribution O ((GoMap.get s1.crds gk).getD {}))) (c' := mapSchemas fixMetadata (addAttribution O ((GoMap.get s1'.crds gk).getD {})))
                    hcrd.group hcrd.names (printed_same hcrd) hw (by simpa using hfail) hw' (by simpa using hfail') ha

/-! ## What is loaded -/

theorem key_of_flat {id : TypeIdent} {s : Schema} (he : st.parser.errs = 0) (h : FlatOf S O σ st id s) : (GoMap.get st.parser.schemata id).isSome := by
  obtain ⟨p, p', f, f', t, h1, h2, -, -, h5, -⟩ := h
  obtain ⟨-, -, h⟩ := need_fine O.fuel [] id p p' (reachable_inv (steps_reachable h1)) h2
  exact h5.some (h (Nat.le_zero.1 (he ▸ h5.errs)))

section
variable {t : PState} (ht : PInv S.src O.marshal σ'.gen [] t) (he : t.errs = 0) (hd : OrderlyTypes S)
include ht he hd

theorem gather_within {roots : List String} {kind : String} : ∀ {ps : List (String × String × String)} {st st' : State} {es : List Entry}, GInv S O σ roots st → (∀ x ∈ ps, x.1 ∈ st.parser.packages) →
    Within st.parser t → (∀ x ∈ ps, (S.src.declOf ⟨x.1, kind⟩).isSome → (GoMap.get t.schemata ⟨x.1, kind⟩).isSome) → gather S O σ kind ps st = .ok (es, st') → Within st'.parser t
  | [], st, st', es, _, _, hw, _, h => by cases h; exact hw
  | (pkg, g, ver) :: ps, st, st', es, hi, hp, hw, hk, h => by
    rw [gather, hi.parser.types ⟨pkg, kind⟩ (hp _ List.mem_cons_self)] at h
    split at h
    · exact gather_within hi (fun x hx => hp x (List.mem_cons_of_mem _ hx)) hw (fun x hx => hk x (List.mem_cons_of_mem _ hx)) h
    · rename_i d hdec
      split at h
      · cases h
      · rename_i st1 hf
        obtain ⟨i1, k1, -, -⟩ := needFlat_inv hi hf
        have w1 : Within st1.parser t := by
          unfold needFlat at hf
          split at hf
          · cases hf; exact hw
          · split at hf
            · cases hf
            · rename_i p hn
              have := need_within ht he (fun id d h => hd id d (Verif.Crd.declares_iff.1 h)) O.fuel hi.parser hw (hk _ List.mem_cons_self (by rw [hdec]; rfl)) hn
              split at hf
              · cases hf
              · cases hf
              · cases hf; exact this
        split at h
        · cases h
        · rename_i es' st2 hg
          cases h
          exact gather_within i1 (fun x hx => k1.parser.packages _ (hp x (List.mem_cons_of_mem _ hx))) w1 (fun x hx => hk x (List.mem_cons_of_mem _ hx)) hg

theorem needCrd_within {roots : List String} {gk : GroupKind} {st st' : State} (hi : GInv S O σ roots st) (hw : Within st.parser t)
    (hk : ∀ pkg d, pkg ∈ st.parser.packages → S.groupName pkg = some gk.group → Declares S.src ⟨pkg, gk.kind⟩ d → (GoMap.get t.schemata ⟨pkg, gk.kind⟩).isSome) (h : needCrd S O σ gk st = .ok st') : Within st'.parser t := by
  unfold needCrd at h
  split at h
  · cases h; exact hw
  · split at h
    · cases h
    · rename_i es st1 hg
      have hl : ∀ x ∈ ((σ.groups gk).order 0 (S.groupVersions st.parser)).filter (fun x => x.2.1 = gk.group), x.1 ∈ st.parser.packages ∧ S.groupVersion x.1 = some (gk.group, x.2.2) := by
        rintro ⟨pkg, g, v⟩ hx
        obtain ⟨hx, e⟩ := List.mem_filter.1 hx
        obtain ⟨h1, h2⟩ := mem_groupVersions.1 (((σ.groups gk).mem_order _ _ _).1 hx)
        have e : g = gk.group := by simpa using e
        exact ⟨h1, e ▸ h2⟩
      have w1 := gather_within ht he hd hi (fun x hx => (hl x hx).1) hw (fun x hx hdec => by
        obtain ⟨d, hdec⟩ := Option.isSome_iff_exists.1 hdec
        obtain ⟨h1, h2⟩ := hl x hx
        refine hk x.1 d h1 ?_ (Verif.Crd.declares_iff.1 hdec)
        unfold GSrc.groupVersion at h2
        split at h2
        · obtain ⟨g', hg', e⟩ := Option.map_eq_some_iff.1 h2
          rw [hg', (Prod.mk.inj e).1]
        · cases h2) hg
      split at h
      · cases h
      · cases h; exact w1
      · cases h; exact w1
end

theorem needCrd_exact {roots : List String} {gk : GroupKind} {st st' : State} (hi : GInv S O σ roots st) (hn : GoMap.get st.crds gk = none) (h : needCrd S O σ gk st = .ok st') :
    ∃ es errs, EntriesOf S (SchemaFor S O σ st') st.parser.packages gk es ∧ build (σ.crd gk) O.lib gk.group gk.kind es = some (GoMap.get st'.crds gk, errs) := by
  unfold needCrd at h
  rw [hn] at h
  simp only at h
  split at h
  · cases h
  · rename_i es st1 hg
    obtain ⟨h1, h2, h3, pkgs, e1, e2, e3⟩ := gather_entries hi hg
    have lift : ∀ {st2 : State}, State.Le st1 st2 → EntriesOf S (SchemaFor S O σ st2) st.parser.packages gk es := fun hl =>
      ⟨pkgs, e1, e2, e3.imp fun _ _ _ _ ⟨a, b, s', c, d⟩ => ⟨a, b, s', c.le hl, d⟩⟩
    split at h
    · cases h
    · rename_i errs hb
      cases h
      refine ⟨es, errs, lift ⟨.refl, Nat.le_refl _⟩, ?_⟩
      show build _ _ _ _ _ = some (GoMap.get st1.crds gk, errs)
      rw [hb, h3, hn]
    · rename_i crd errs hb
      cases h
      refine ⟨es, errs, lift ⟨.refl, Nat.le_refl _⟩, ?_⟩
      simp only [GoMap.get_put, if_true]
      exact hb

theorem entries_keys {roots : List String} {gk : GroupKind} {st : State} (he : st.parser.errs = 0) {loaded : List String} {es : List Entry} (h : EntriesOf S (SchemaFor S O σ st) loaded gk es) (pkg : String) (d : Verif.Crd.Decl)
    (hp : pkg ∈ loaded) (hg : S.groupName pkg = some gk.group) (hd : Declares S.src ⟨pkg, gk.kind⟩ d) : (GoMap.get st.parser.schemata ⟨pkg, gk.kind⟩).isSome := by
  obtain ⟨pkgs, -, h2, h3⟩ := h
  obtain ⟨e, -, -, -, s', h4, -⟩ := h3.exists_right ((h2 pkg).2 ⟨hp, hg, d, hd⟩)
  exact key_of_flat he h4

/-- Two runs over the same kinds, from states in which the same packages are loaded. -/
theorem writeKinds_lock {b : Bool} (ho : S.src.overrides = addKnownTypes b) (ht : ∀ p, Tidy (S.src.ctx p)) (hd : OrderlyTypes S) {roots roots' versions : List String} :
    ∀ {kinds : List GroupKind} {s s' : State} {o o' out out' : Out}, GInv S O σ roots s → GInv S O σ' roots' s' → kinds.Nodup → (∀ gk ∈ kinds, GoMap.get s.crds gk = none ∧ GoMap.get s'.crds gk = none) →
    writeKinds S O σ versions kinds s o = .ok (st, out) → out.failed = false → writeKinds S O σ' versions kinds s' o' = .ok (st', out') → out'.failed = false → Plain S st → Plain S st' →
    (∀ gk ∈ kinds, ∀ loaded, Consistent S loaded gk) → Within s.parser s'.parser → Within s'.parser s.parser → ∀ gk ∈ kinds, SameResult (GoMap.get st.crds gk) (GoMap.get st'.crds gk)
  | [], _, _, _, _, _, _, _, _, _, _, _, _, _, _, _, _, _, _, _ => nofun
  | gk :: gks, s, s', o, o', out, out', hi, hi', hn, hno, h, hf, h', hf', hp, hp', hc, hw, hw' => by
    obtain ⟨hn1, hn2⟩ := List.nodup_cons.1 hn
    rw [writeKinds] at h h'
    split at h
    · cases h
    · rename_i s1 hs
      split at h'
      · cases h'
      · rename_i s1' hs'
        obtain ⟨i1, -, -, k1⟩ := needCrd_inv hi hs
        obtain ⟨i1', -, -, k1'⟩ := needCrd_inv hi' hs'
        simp only at h h'
        split at h
        · cases h; cases hf
        · rename_i hk
          rw [if_neg hk] at h'
          split at h
          · cases h
          · rename_i o1 hw1
            split at h'
            · cases h'
            · rename_i o1' hw1'
              split at h
              · rename_i hfail; cases h; rw [hfail] at hf; cases hf
              · split at h'
                · rename_i hfail'; cases h'; rw [hfail'] at hf'; cases hf'
                · obtain ⟨j, l, e, -⟩ := writeKinds_spec i1 hn2 h hf
                  obtain ⟨j', l', e', -⟩ := writeKinds_spec i1' hn2 h' hf'
                  have z : s1.parser.errs = 0 := Nat.le_zero.1 (hp.errs ▸ l.parser.errs)
                  have z' : s1'.parser.errs = 0 := Nat.le_zero.1 (hp'.errs ▸ l'.parser.errs)
                  obtain ⟨es, errs, x1, x2⟩ := needCrd_exact hi (hno gk List.mem_cons_self).1 hs
                  obtain ⟨es', errs', x1', x2'⟩ := needCrd_exact hi' (hno gk List.mem_cons_self).2 hs'
                  have w : Within s1.parser s1'.parser := needCrd_within i1'.parser z' hd hi (hw.trans (needCrd_inv hi' hs').2.1.parser)
                    (fun pkg d a1 a2 a3 => entries_keys (roots := roots) z' x1' pkg d (hw.packages pkg a1) a2 a3) hs
                  have w' : Within s1'.parser s1.parser := needCrd_within i1.parser z hd hi' (hw'.trans (needCrd_inv hi hs).2.1.parser)
                    (fun pkg d a1 a2 a3 => entries_keys (roots := roots) z x1 pkg d (hw'.packages pkg a1) a2 a3) hs'
                  intro g hg
                  rcases List.mem_cons.1 hg with rfl | hg
                  · rw [e g hn1, e' g hn1]
                    have hperm : es.Perm es' := entries_same (R := SchemaFor S O σ s1) (R' := SchemaFor S O σ' s1') (fun id y y' ⟨q, c, d⟩ ⟨q', c', d'⟩ =>
                        schema_same ho ht hd j.steps j'.steps hp hp' ⟨q, c.le l, d⟩ ⟨q', c'.le l', d'⟩)
                      (fun pkg d _ _ => ⟨hw.packages pkg, hw'.packages pkg⟩) x1 x1'
                    obtain ⟨c1, c2, ⟨r0, c3⟩, c4, c5⟩ := hc g List.mem_cons_self s.parser.packages es (by
                      obtain ⟨pkgs, y1, y2, y3⟩ := x1
                      exact ⟨pkgs, y1, y2, y3.imp fun _ _ _ _ ⟨a, b, _⟩ => ⟨a, b, trivial⟩⟩)
                    have := C21_order_partial (σ := σ.crd g) (σ' := σ'.crd g) (L := O.lib) (g := g.group) (k := g.kind) hperm c1 c2 c3 c4 c5
                    rw [x2, x2'] at this
                    generalize GoMap.get s1.crds g = r at this
                    generalize GoMap.get s1'.crds g = r' at this
                    cases this with
                    | nothing => exact .none
                    | crd _ _ _ _ hc => exact .some hc
                  · exact writeKinds_lock ho ht hd i1 i1' hn2 (fun g hg => by
                      have hne : g ≠ gk := fun e => hn1 (e ▸ hg)
                      rw [k1 g hne, k1' g hne]
                      exact hno g (List.mem_cons_of_mem _ hg)) h hf h' hf' hp hp' (fun g hg => hc g (List.mem_cons_of_mem _ hg)) w w' g hg

theorem meta_same (h1 : OneMeta S) {roots roots' : List String} (hr : ∀ q, q ∈ roots ↔ q ∈ roots') {m : String} (h : MetaOf S roots m) : MetaOf S roots' m := by
  obtain ⟨a, r, b, rfl, h, -⟩ := h
  cases hf : findMetav1 S roots' with
  | none =>
    exfalso
    have : ∀ l : List String, findMetav1 S l = none → ∀ q ∈ l, S.src.imports q Verif.Crd.metaPath = none := by
      intro l
      induction l with
      | nil => intro _ q hq; cases hq
      | cons x l ih =>
        intro hl q hq
        rw [findMetav1] at hl
        split at hl
        · cases hl
        · rename_i hx
          rcases List.mem_cons.1 hq with rfl | hq
          · exact hx
          · exact ih hl q hq
    rw [this roots' hf r ((hr r).1 (by simp))] at h
    cases h
  | some m' =>
    have hm := findMetav1_some.1 hf
    obtain ⟨a', r', b', -, h', -⟩ := hm
    rw [← h1 _ _ _ _ h h']
    exact findMetav1_some.1 hf

theorem kindIn_same (h1 : OneMeta S) {roots roots' : List String} (hr : ∀ q, q ∈ roots ↔ q ∈ roots') {gk : GroupKind} (h : KindIn S roots gk) : KindIn S roots' gk := by
  obtain ⟨m, pkg, d, hm, hp, h⟩ := h
  exact ⟨m, pkg, d, meta_same h1 hr hm, (hr pkg).1 hp, h⟩

/-- The list of kinds does not depend on the order of the packages, either. -/
theorem kinds_same (h1 : OneMeta S) (hn : GoNames S) (τ τ' : Sched) {roots roots' : List String} (hr : ∀ q, q ∈ roots ↔ q ∈ roots') {m : String} (hm : MetaOf S roots m) :
    findKinds S τ m (rooted S roots) = findKinds S τ' m (rooted S roots') := by
  obtain ⟨a1, a2, -⟩ := C32_kinds S τ roots m hm
  obtain ⟨b1, b2, -⟩ := C32_kinds S τ' roots' m (meta_same h1 hr hm)
  have hdot : ∀ {roots : List String} (gk : GroupKind), KindIn S roots gk → '.' ∉ gk.kind.toList := by
    rintro roots gk ⟨-, pkg, d, -, -, ⟨-, -, a, b, he, hk, -⟩, -⟩
    have := hn pkg d (by rw [he]; simp)
    rwa [hk] at this
  refine (List.Perm.eq_of_pairwise (le := fun a b : GroupKind => strLe a.string b.string = true) ?_ sorted_findKinds sorted_findKinds ((List.perm_ext_iff_of_nodup a2 b2).2 fun gk =>
    ((a1 gk).trans ⟨kindIn_same h1 hr, kindIn_same h1 fun q => (hr q).symm⟩).trans (b1 gk).symm))
  intro a b ha hb hab hba
  exact string_inj (hdot a ((a1 a).1 ha)) (hdot b ((b1 b).1 hb)) (strLe_antisymm hab hba)

theorem rooted_within (marshal : Verif.Crd.AnyVal → Option Verif.Crd.Raw) {roots roots' : List String} (hr : ∀ q, q ∈ roots → q ∈ roots') : Within (rooted S roots) (rooted S roots') := by
  obtain ⟨i, -, r⟩ := rooted_inv S marshal (fun _ => .fifo) roots
  obtain ⟨i', -, r'⟩ := rooted_inv S marshal (fun _ => .fifo) roots'
  have hm : ∀ (l : List String) (p : PState), p.made = [] → (l.foldl (fun p r => S.src.needPackage r p) p).made = [] := by
    intro l
    induction l with
    | nil => exact fun _ h => h
    | cons x l ih => exact fun p h => ih _ ((Verif.Crd.needPackage_rest (S := S.src) x p).2.2.1.trans h)
  refine ⟨fun p hp => (r' p).2 (hr p ((r p).1 hp)), fun id hk => ?_⟩
  have hp := Verif.Crd.key_package i hk
  obtain ⟨s, hs⟩ := Option.isSome_iff_exists.1 hk
  rcases i.own id s hs (by simp) with hf | ho
  · rw [i'.fixed id s ((r' _).2 (hr _ ((r _).1 hp))) hf]; rfl
  · have := ho.made
    rw [show (rooted S roots).made = [] from hm roots {} rfl] at this
    cases this

/-- **C95** (all files; partial).  Two runs of the generator over the same packages write the same files, in the same order, in whichever order the command line names the packages, and in whichever order maps are iterated over.
What is missing: contradictory markers (C21, C25), recursive types (C50). -/
theorem C95_files_partial {b : Bool} (ho : S.src.overrides = addKnownTypes b) (ht : ∀ p, Tidy (S.src.ctx p)) (hd : OrderlyTypes S) (hg : GoNames S) (h1 : OneMeta S) {roots roots' : List String} {out out' : Out}
    (hr : ∀ q, q ∈ roots ↔ q ∈ roots') (h : generate S O σ roots = .ok (st, out)) (hf : out.failed = false) (h' : generate S O σ' roots' = .ok (st', out')) (hf' : out'.failed = false) (hp : Plain S st) (hp' : Plain S st')
    (hc : ∀ gk, KindIn S roots gk → ∀ loaded, Consistent S loaded gk) : All2 SameFile out.files out'.files := by
  have hmeta : findMetav1 S roots' = findMetav1 S roots := by
    cases hm : findMetav1 S roots with
    | some m => exact findMetav1_some.2 (meta_same h1 hr (findMetav1_some.1 hm))
    | none =>
      cases hm' : findMetav1 S roots' with
      | none => rfl
      | some m => rw [findMetav1_some.2 (meta_same h1 (fun q => (hr q).symm) (findMetav1_some.1 hm'))] at hm; cases hm
  unfold generate at h h'
  simp only at h h'
  rw [hmeta] at h'
  split at h
  · rename_i hm
    rw [hm] at h'
    cases h; cases h'; exact .nil
  · rename_i m hm
    rw [hm] at h'
    simp only at h'
    have hm := findMetav1_some.1 hm
    have he : findKinds S σ.kinds m (rooted S roots) = findKinds S σ'.kinds m (rooted S roots') := kinds_same h1 hg _ _ hr hm
    change (if findKinds S σ.kinds m (rooted S roots) = [] then _ else _) = _ at h
    change (if findKinds S σ'.kinds m (rooted S roots') = [] then _ else if _ then _ else writeKinds S O σ' _ (findKinds S σ'.kinds m (rooted S roots')) _ _) = _ at h'
    rw [← he] at h'
    obtain ⟨k1, k2, -⟩ := C32_kinds S σ.kinds roots m hm
    split at h
    · rename_i hk'
      rw [if_pos hk'] at h'
      cases h; cases h'; exact .nil
    · rename_i hk'
      rw [if_neg hk'] at h'
      split at h
      · cases h; cases hf
      · rename_i hh
        rw [if_neg hh] at h'
        obtain ⟨r1, -, r3⟩ := rooted_inv S O.marshal σ.gen roots
        obtain ⟨r1', -, r3'⟩ := rooted_inv S O.marshal σ'.gen roots'
        have g : GInv S O σ roots { parser := rooted S roots } := ⟨r1, rooted_steps .., fun q hq => (r3 q).2 hq, nofun, nofun⟩
        have g' : GInv S O σ' roots' { parser := rooted S roots' } := ⟨r1', rooted_steps .., fun q hq => (r3' q).2 hq, nofun, nofun⟩
        exact writeKinds_same g g' k2 h hf h' hf' (writeKinds_lock ho ht hd g g' k2 (fun _ _ => ⟨rfl, rfl⟩) h hf h' hf' hp hp' (fun gk hg => hc gk ((k1 gk).1 hg))
          (rooted_within O.marshal fun q => (hr q).1) (rooted_within O.marshal fun q => (hr q).2)) .nil

end Verif.CrdGen
