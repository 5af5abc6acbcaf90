import Verif.Crd.NeedTerm
import Verif.Crd.EncTheorems

/-! # C55: the schemas that are needed -/
namespace Verif.Crd
open Spec

variable {S : Src} {marshal : AnyVal → Option Raw} {σ : Nat → Sched}

theorem reachable_inv {st : PState} (h : Reachable S marshal σ st) : PInv S marshal σ [] st := by
  induction h with
  | start => exact inv_init
  | package pkg _ ih => exact needPackage_inv ih pkg
  | schema n id _ h ih => exact (need_fine n _ _ _ _ ih h).1

/-! ## Links -/

theorem tidy_suffix {p : String} (h : '~' ∉ p.toList) : '~' ∉ (String.ofList (Loader.nonVendorPath p.toList)).toList := by
  rw [String.toList_ofList]
  obtain ⟨a, e, -⟩ := Loader.C40_suffix p.toList
  intro hm
  exact h (by rw [e]; exact List.mem_append_right _ hm)

theorem tidy_asks {P : PkgCtx} (h : Tidy P) : Asks P fun r => '~' ∉ r.1.toList ∧ '~' ∉ r.2.toList := by
  have hp : ∀ p m : String, '~' ∉ p.toList ∧ '~' ∉ m.toList →
      '~' ∉ (if p = P.self then "" else String.ofList (Loader.nonVendorPath p.toList)).toList ∧ '~' ∉ m.toList := by
    intro p m ⟨h1, h2⟩
    refine ⟨?_, h2⟩
    split
    · simp
    · exact tidy_suffix h1
  refine asks_of ?_ ?_ ?_ ?_
  · intro n p m u e; exact hp _ _ (h.ident n p m u e)
  · intro n q a p m u e
    rcases e with e | e
    · exact hp _ _ (h.aliasNamed n q a p m u e)
    · exact hp _ _ (h.aliasAlias n q a p m u e)
  · intro x n p m u e
    exact ⟨tidy_suffix (h.sel x n p m u e).1, (h.sel x n p m u e).2⟩
  · intro n e; exact ⟨by simp, h.name n e⟩

theorem link_nonempty (p n : String) : refLink p n ≠ "" := by
  intro h
  have := congrArg (fun s : String => s.toList.length) h
  simp only [refLink, String.toList_ofList, typeRefLink, List.length_append] at this
  rw [show defPrefix.length = 14 by decide +kernel, show ("" : String).toList.length = 0 from rfl] at this
  omega

theorem find_link {env : Env} {pkg path q name : String} (hp : '~' ∉ path.toList) (hn : '~' ∉ name.toList) (h : (if path = "" then some pkg else env.imports pkg path) = some q) :
    env.find (refLink path name) pkg = .ok ⟨q, name⟩ := by
  unfold refLink
  split at h
  · rename_i e; subst e; cases h
    unfold Env.find
    rw [String.toList_ofList, show ("" : String).toList = [] from rfl, refParts_link hn (by simp)]
    simp
  · exact (C51_links env pkg path q name hn hp ‹_› h).2

/-! ## Built-in schemas -/

theorem nice_typed {t : String} : Nice [] (typed t) := nice_leaf nofun

theorem nice_fixed {b : Base} {it : Option Items} {an : List Schema} {pr : List (String × Schema)} {ad : Option OrBool} (hb : b.ref = none) (hk : (pr.map (·.1)).Nodup)
    (h1 : ∀ i c, it = some i → i.schema = some c ∨ c ∈ i.arr → Nice [] c) (h2 : ∀ c ∈ an, Nice [] c) (h3 : ∀ e ∈ pr, Nice [] e.2) (h4 : ∀ o c, ad = some o → o.schema = some c → Nice [] c) :
    Nice [] (.mk b it [] [] an none pr ad [] [] none []) := by
  refine nice_of (fun r hr => ?_) ⟨⟨hk, List.nodup_nil, List.nodup_nil, List.nodup_nil⟩, rfl, rfl⟩ fun c hc => ?_
  · rw [show (Schema.mk b it [] [] an none pr ad [] [] none []).base = b from rfl, hb] at hr; cases hr
  · cases hc with
    | items e e' => exact h1 _ _ e (.inl e')
    | itemsArr e e' => exact h1 _ _ e (.inr e')
    | allOf e => cases e
    | oneOf e => cases e
    | anyOf e => exact h2 _ e
    | not e => cases e
    | property e => exact h3 _ e
    | additionalProperties e e' => exact h4 _ _ e e'
    | patternProperty e => cases e
    | dependency e => cases e
    | additionalItems e => cases e
    | definition e => cases e

theorem nice_intOrString {p : String} : Nice [] (intOrString p) :=
  nice_fixed rfl List.nodup_nil nofun (by intro c hc; simp only [List.mem_cons, List.not_mem_nil, or_false] at hc; rcases hc with rfl | rfl <;> exact nice_typed) nofun nofun

theorem nice_stringMap : Nice [] stringMap :=
  nice_fixed rfl List.nodup_nil nofun nofun nofun (by intro o c h1 h2; cases h1; cases h2; exact nice_typed)

theorem nice_embedded : Nice [] embeddedObjectMeta := by
  refine nice_fixed rfl (by decide) nofun nofun ?_ nofun
  intro e he
  simp only [List.mem_cons, List.not_mem_nil, or_false] at he
  rcases he with rfl | rfl | rfl | rfl | rfl
  · exact nice_typed
  · exact nice_typed
  · exact nice_stringMap
  · exact nice_stringMap
  · refine nice_fixed rfl List.nodup_nil ?_ nofun nofun nofun
    intro i c h1 h2
    cases h1
    rcases h2 with h2 | h2
    · cases h2; exact nice_typed
    · cases h2

theorem nice_meta {s : Schema} (h : Nice [] s) : ∀ e ∈ (metaOverride s).schemata, Nice [] e.2 := by
  intro e he
  simp only [metaOverride, List.mem_cons, List.not_mem_nil, or_false] at he
  rcases he with rfl | rfl | rfl | rfl | rfl
  · exact h
  · exact nice_leaf nofun
  · exact nice_leaf nofun
  · exact nice_typed
  · exact nice_fixed rfl List.nodup_nil nofun nofun nofun (by intro o c h1 h2; cases h1; cases h2)

theorem nice_known : ∀ o ∈ knownPackages, ∀ e ∈ o.2.schemata, Nice [] e.2 := by
  intro o ho
  simp only [knownPackages, List.mem_cons, List.not_mem_nil, or_false] at ho
  rcases ho with rfl | rfl | rfl | rfl | rfl | rfl | rfl
  · exact nice_meta nice_typed
  all_goals
    intro e he
    obtain rfl := List.mem_singleton.1 he
  · exact nice_intOrString
  · exact nice_leaf nofun
  · exact nice_typed
  · exact nice_intOrString
  · exact nice_leaf nofun
  · exact nice_leaf nofun

/-- The built-in schemas have no references. -/
theorem fixed_nice {b : Bool} (ho : S.overrides = addKnownTypes b) {id : TypeIdent} {s : Schema} (h : Fixed S id s) : Nice [] s := by
  obtain ⟨o, a, l, h1, h2, -⟩ := h
  unfold OverrideOf at h1
  rw [ho] at h1
  have hs : (id.name, s) ∈ o.schemata := by rw [h2]; simp
  unfold addKnownTypes at h1
  split at h1
  · rw [GoMap.get_put] at h1
    split at h1
    · cases h1; exact nice_meta nice_embedded _ hs
    · exact nice_known _ (get_mem h1) _ hs
  · exact nice_known _ (get_mem h1) _ hs

/-! ## Schemas -/

theorem right_schema {st : PState} (h : Reachable S marshal σ st) (he : st.errs = 0) {id : TypeIdent} {s : Schema} (hs : (envOf S st).raw id = some s) : RightSchema marshal S id s := by
  have hi := reachable_inv h
  rcases hi.own id s hs (by simp) with hf | ⟨hm, d, t, g, hd, hg, hge, -⟩
  · exact .inl (fixed_iff.1 hf)
  · refine .inr ⟨fun s' hs' => ?_, d, declares_iff.1 hd, σ, _, _, hg, ?_⟩
    · have := fixed_iff.2 hs'
      rw [(hi.made id hm).2] at this; cases this
    · rw [hge he]

/-- What is known of the links in a schema. -/
theorem schema_links {b : Bool} (ho : S.overrides = addKnownTypes b) (ht : ∀ p, Tidy (S.ctx p)) {st : PState} (h : Reachable S marshal σ st) (he : st.errs = 0) {id : TypeIdent} {s : Schema}
    (hs : (envOf S st).raw id = some s) {t : Schema} (hsub : Sub s t) :
    Tame t ∧ ∀ r, t.base.ref = some r → r ≠ "" ∧ (∀ c, ¬ Child t c) ∧ ∃ id' u, Leads (envOf S st) id.pkg r id' u := by
  have hi := reachable_inv h
  rcases hi.own id s hs (by simp) with hf | ⟨-, d, k, g, hd, hg, -, hreq⟩
  · have hn := fixed_nice ho (fixed_iff.1 hf) t hsub
    refine ⟨hn.2, fun r hr => ?_⟩
    obtain ⟨⟨x, hx, -⟩, -⟩ := hn.1 r hr
    cases hx
  · have hn := info_nice hg t hsub
    refine ⟨hn.2, fun r hr => ?_⟩
    obtain ⟨⟨x, hx, e⟩, hc⟩ := hn.1 r hr
    obtain ⟨q, hq, hsome⟩ := hreq x hx
    obtain ⟨t1, t2⟩ := info_asks (tidy_asks (ht id.pkg)) hg nofun x hx
    obtain ⟨u, hu⟩ := Option.isSome_iff_exists.1 (hsome he)
    exact ⟨by rw [e]; exact link_nonempty _ _, hc, ⟨q, x.2⟩, u, by rw [e]; exact find_link t1 t2 hq, hu⟩

theorem sub_of_at : ∀ {p : List Step} {s t : Schema}, s.at p = some t → Sub s t := by
  intro p
  induction p with
  | nil => intro s t h; cases h; exact .refl
  | cons x p ih =>
    intro s t h
    rw [Schema.at] at h
    cases hx : s.child x with
    | none => rw [hx] at h; cases h
    | some c => rw [hx] at h; exact .step (child_of_step hx) (ih h)

/-! ## The theorems -/

/-- C55.  Asking for a schema ends, in every state of the parser, whatever the types refer to. -/
theorem C55_terminates (S : Src) (marshal : AnyVal → Option Raw) (σ : Nat → Sched) (pkgs : List String) (hw : Whole S pkgs) (st : PState) (h : Reachable S marshal σ st) (id : TypeIdent)
    (hp : id.pkg ∈ pkgs) : ∃ n, S.need marshal σ n id st ≠ .error .deep ∧ ∀ m ≥ n, S.need marshal σ m id st = S.need marshal σ n id st :=
  ⟨_, need_enough hw _ [] id st (reachable_inv h) hp (Nat.le_refl _), fun _ hm => need_mono hm id st (need_enough hw _ [] id st (reachable_inv h) hp (Nat.le_refl _))⟩

/-- C55.  If no error has been reported, then the type that was asked for, and every type that can be reached from it by references, at any depth, has the schema it should have. -/
theorem C55_complete (S : Src) (b : Bool) (ho : S.overrides = addKnownTypes b) (ht : ∀ p, Tidy (S.ctx p)) (marshal : AnyVal → Option Raw) (σ : Nat → Sched) (n : Nat) (id : TypeIdent)
    (st st' : PState) (h : Reachable S marshal σ st) (hn : S.need marshal σ n id st = .ok st') (he : st'.errs = 0) (id' : TypeIdent) (hr : RefersTo.Star (envOf S st') id id') :
    ∃ s, (envOf S st').raw id' = some s ∧ RightSchema marshal S id' s := by
  have h' : Reachable S marshal σ st' := .schema n id h hn
  suffices ∃ s, (envOf S st').raw id' = some s from this.imp fun s hs => ⟨hs, right_schema h' he hs⟩
  induction hr with
  | refl => exact Option.isSome_iff_exists.1 ((need_fine n _ _ _ _ (reachable_inv h) hn).2.2 he)
  | step _ hab _ =>
    obtain ⟨s, t, r, h1, h2, h3, h4⟩ := hab
    obtain ⟨-, -, i, u, h5, h6⟩ := (schema_links ho ht h' he h1 h2).2 r h3
    rw [h4] at h5
    cases h5
    exact ⟨u, h6⟩

/-- C55.  The schemas are closed, and as the flattener needs them: every link in a schema, at any depth, leads to a type that has a schema, there is nothing below a link, and map keys are
distinct. -/
theorem C55_closed (S : Src) (b : Bool) (ho : S.overrides = addKnownTypes b) (ht : ∀ p, Tidy (S.ctx p)) (marshal : AnyVal → Option Raw) (σ : Nat → Sched) (st : PState)
    (h : Reachable S marshal σ st) (he : st.errs = 0) (id : TypeIdent) (s : Schema) (hs : (envOf S st).raw id = some s) :
    Closed (envOf S st) id.pkg s ∧ Bare (envOf S st) id.pkg s ∧ AllKeys (envOf S st) id.pkg s := by
  refine ⟨?_, ?_, ?_⟩
  · intro q t r hr href
    obtain ⟨i, s', h1, rfl, h3⟩ := reach_sub hs hr
    exact ⟨((schema_links ho ht h he h1 h3).2 r href).1, ((schema_links ho ht h he h1 h3).2 r href).2.2⟩
  · intro q t r c hr href hc
    obtain ⟨i, s', h1, rfl, h3⟩ := reach_sub hs hr
    exact absurd hc (((schema_links ho ht h he h1 h3).2 r href).2.1 c)
  · intro q t hr
    obtain ⟨i, s', h1, rfl, h3⟩ := reach_sub hs hr
    exact (schema_links ho ht h he h1 h3).1.toKeys

/-- C55.  Schemas that are there stay as they are, and no error is forgotten. -/
theorem C55_stable (S : Src) (marshal : AnyVal → Option Raw) (σ : Nat → Sched) (n : Nat) (id : TypeIdent) (st st' : PState) (h : Reachable S marshal σ st)
    (hn : S.need marshal σ n id st = .ok st') :
    (∀ i s, (envOf S st).raw i = some s → (envOf S st').raw i = some s) ∧ st.errs ≤ st'.errs :=
  let hl := (need_fine n _ _ _ _ (reachable_inv h) hn).2.1
  ⟨hl.schemata, hl.errs⟩

/-- C55.  No schema is generated twice, and none is generated for a type with a fixed one. -/
theorem C55_once (S : Src) (marshal : AnyVal → Option Raw) (σ : Nat → Sched) (st : PState) (h : Reachable S marshal σ st) : st.made.Nodup ∧ ∀ id ∈ st.made, ∀ s, ¬ Fixed S id s := by
  have hi := reachable_inv h
  refine ⟨hi.nodup, fun id hid s hs => ?_⟩
  have := fixed_iff.2 hs
  rw [(hi.made id hid).2] at this; cases this

/-! ## Crashes -/

theorem resolve_asks (hr : Resolves S) (p : String) : Asks (S.ctx p) fun r => (S.target p r.1).isSome := by
  have h : ∀ q, (q ≠ (S.ctx p).self → Names (S.ctx p) q) → (S.target p (if q = (S.ctx p).self then "" else String.ofList (Loader.nonVendorPath q.toList))).isSome := by
    intro q hq
    unfold Src.target
    by_cases he : q = (S.ctx p).self
    · rw [if_pos he]; rfl
    · rw [if_neg he]
      split
      · rfl
      · exact hr p q (hq he)
  refine asks_of ?_ ?_ ?_ ?_
  · intro n q m u e; exact h q fun hne => .ident hne e
  · intro n x a q m u e
    refine h q fun hne => ?_
    rcases e with e | e
    · exact .alias hne e (.inl rfl)
    · exact .alias hne e (.inr rfl)
  · intro x n q m u e
    unfold Src.target
    split
    · rfl
    · exact hr p q (.sel e)
  · intro n _; rfl

/-- C55 (partial).  No package is missing when the schemas of other types are asked for, and so there is no crash.  Missing: the declarations for which generating the schema crashes (C54). -/
theorem C55_no_crash_partial (S : Src) (hr : Resolves S) (ht : ∀ p, ∀ d ∈ S.decls p, ¬ TroublesomeDecl (S.ctx p) d true d.type) (marshal : AnyVal → Option Raw) (σ : Nat → Sched) (n : Nat)
    (id : TypeIdent) (st : PState) (h : Reachable S marshal σ st) : S.need marshal σ n id st ≠ .error .panic := by
  have key : ∀ n W id st, PInv S marshal σ W st → S.need marshal σ n id st ≠ .error .panic := by
    intro n
    induction n with
    | zero => intro W id st _ h; cases h
    | succ n ih =>
      intro W id st hi h
      rw [Src.need] at h
      unfold Src.needStep at h
      simp only at h
      have hi1 := needPackage_inv hi id.pkg
      have hpk : id.pkg ∈ (S.needPackage id.pkg st).packages := ((needPackage_rest (S := S) id.pkg st).2.2.2 _).2 (.inl rfl)
      generalize S.needPackage id.pkg st = st1 at h hi1 hpk
      split at h
      · cases h
      · rename_i hnone
        split at h
        · cases h
        · rename_i d hd
          have hdecl : S.declOf id = some d := by rw [← hi1.types id hpk]; exact hd
          have hfix : S.fixedOf id = none := by
            cases hf : S.fixedOf id with
            | none => rfl
            | some s0 => rw [hi1.fixed id s0 hpk hf] at hnone; cases hnone
          obtain ⟨-, -, a, b, e, -, -⟩ := declares_iff.1 hdecl
          split at h
          · rename_i p hp
            obtain ⟨s, g, hok⟩ := C54_no_crash_partial marshal σ (S.ctx id.pkg) d (ht id.pkg d (by rw [e]; simp)) { tick := st1.tick }
            rw [hok] at hp; cases hp
          · rename_i s g hg
            have hq := info_asks (resolve_asks hr id.pkg) hg nofun
            have reqs : ∀ (rs : List (String × String)) (W : List TypeIdent) (st : PState), (∀ r ∈ rs, (S.target id.pkg r.1).isSome) → PInv S marshal σ W st →
                S.requests (S.need marshal σ n) id.pkg rs st ≠ .error .panic := by
              intro rs
              induction rs with
              | nil => intro W st _ _ h; cases h
              | cons r rs ihr =>
                intro W st hm hi h
                rw [Src.requests] at h
                unfold Src.request at h
                obtain ⟨q, hq⟩ := Option.isSome_iff_exists.1 (hm r (List.mem_cons_self ..))
                rw [hq] at h
                simp only at h
                split at h
                · rename_i e he
                  cases h
                  exact ih W _ _ hi he
                · rename_i st1 he
                  exact ihr W st1 (fun r hr => hm r (List.mem_cons_of_mem _ hr)) (need_fine n _ _ _ _ hi he).1 h
            split at h
            · rename_i e he
              cases h
              exact reqs g.reqs _ _ hq (start_inv hi1 hnone hpk hfix) he
            · cases h
  exact key n [] id st (reachable_inv h)

/-! ## C56 for the schemas of the parser -/

theorem generated_of {st : PState} (h : Reachable S marshal σ st) (he : st.errs = 0) {M : Meaning} {G : Prog} (hG : ProgOf M S G) : Generated marshal G (envOf S st) := by
  intro id s d hs hd
  obtain ⟨h1, h2⟩ := hG.decl _ _ _ hd
  rcases right_schema h he hs with hf | ⟨-, d', hd', hgen⟩
  · exact absurd hf (h2 s)
  · have : d' = d := Option.some.inj ((declares_iff.2 hd').symm.trans (declares_iff.2 h1))
    subst this
    rw [hG.ctx]; exact hgen

theorem foreign_of {b : Bool} (ho : S.overrides = addKnownTypes b) (ht : ∀ p, Tidy (S.ctx p)) {st : PState} (h : Reachable S marshal σ st) (he : st.errs = 0) {M : Meaning} {G : Prog} (hG : ProgOf M S G) :
    ∀ V, RefMeaning M (envOf S st) V → ∀ p n u j, G.foreign p n j → (envOf S st).raw ⟨p, n⟩ = some u → V p u j := by
  intro V hV p n u j hj hu
  obtain ⟨s, hs, hv⟩ := hG.foreign p n j hj
  have hi := reachable_inv h
  have hpk : p ∈ st.packages := Decidable.byContradiction fun hnp => by
    have := (hi.outside ⟨p, n⟩ hnp).1
    rw [show GoMap.get st.schemata ⟨p, n⟩ = some u from hu] at this; cases this
  have : s = u := Option.some.inj ((hi.fixed ⟨p, n⟩ s hpk (fixed_iff.2 hs)).symm.trans hu)
  subst this
  have hk := (C55_closed S b ho ht marshal σ st h he ⟨p, n⟩ s hu).2.2
  refine (noRef_meaning hV p s.height s (Nat.le_refl _) ?_ hk j).1 hv
  intro pth t hat
  cases hr : t.base.ref with
  | none => rfl
  | some r =>
    obtain ⟨⟨x, hx, -⟩, -⟩ := (fixed_nice ho hs t (sub_of_at hat)).1 r hr
    cases hx

/-- C56 (partial), for the whole way from the source: if the parser reports no error, then every value that encoding/json writes for a value of a type is accepted by the schema that results from
asking for its schema and flattening it, for recursive types as well.  Missing: see `C56_sound_partial`; chains of references with the same link text (C27). -/
theorem C56_end_to_end_partial (M : Meaning) (hM : Formats M) (S : Src) (b : Bool) (ho : S.overrides = addKnownTypes b) (ht : ∀ p, Tidy (S.ctx p)) (G : Prog) (hG : ProgOf M S G)
    (marshal : AnyVal → Option Raw) (hN : G.nils = false) (hP : ∀ p n d, G.decl p n = some d → PlainDecl (G.ctx p) d) (σ : Nat → Sched) (k : Nat) (p n : String) (st st' : PState)
    (h : Reachable S marshal σ st) (hn : S.need marshal σ k ⟨p, n⟩ st = .ok st') (he : st'.errs = 0) (hL : Linked G (envOf S st'))
    (hd : ∀ u, (envOf S st').raw ⟨p, n⟩ = some u → Distinct (envOf S st') p u) (τ : Sched) :
    ∃ t fst, flattenType (envOf S st') τ ⟨p, n⟩ {} = .ok (some t, fst) ∧ NoRef t ∧ (∀ j, Enc G (.decl p n) j → Valid M t j) ∧
      (Guard t → ∀ t', flattenEmbedded t = (t', []) → ∀ j, Enc G (.decl p n) j → Valid M t' j) := by
  have h' : Reachable S marshal σ st' := .schema k _ h hn
  obtain ⟨u, hu, -⟩ := C55_complete S b ho ht marshal σ k ⟨p, n⟩ st st' h hn he _ .refl
  obtain ⟨hc, hb, hk⟩ := C55_closed S b ho ht marshal σ st' h' he ⟨p, n⟩ u hu
  have hg : Good (envOf S st') p u := ⟨hc, hb, hd u hu⟩
  obtain ⟨t, fst, h1, h2⟩ := C56_flattened_partial M hM marshal G (envOf S st') (generated_of h' he hG) hL hN hP
    (fun id' s hs c hc => have h0 := (schema_links ho ht h' he hs hc).1; ⟨h0.oneOf, h0.not⟩) (foreign_of ho ht h' he hG) τ p n u hu hg hk
  refine ⟨t, fst, h1, ?_, h2, fun hgd t' ht' j hj => (C28_flatten_preserves_partial M t t' hgd ht' j).2 (h2 j hj)⟩
  obtain ⟨t2, fst2, e, hnr, -⟩ := flattenType_noRef (envOf S st') τ hu hg (st := {}) nofun
  rw [h1] at e
  cases e
  exact hnr

/-! ## A program that meets the hypotheses -/

/-- The package `v1` declares `Tree` (a recursive struct with a time stamp) and `Leaf`; it imports meta/v1. -/
private def pkgs : List String := ["v1", metaPath]

private def tree : Decl where
  name := "Tree"
  type := .struct
  fields := [{ name := "Kids", tag := some "kids,omitempty".toList, type := .array false (.star (.ident "Tree")) },
    { name := "Leaf", tag := some "leaf".toList, type := .ident "Leaf" }, { name := "Since", tag := some "since".toList, type := .selector "metav1" "Time" }]

private def leafDecl : Decl where
  name := "Leaf"
  type := .ident "string"

private def ctx (self : String) : PkgCtx where
  self := self
  ident := fun n => if self ≠ "v1" then .invalid else if n = "string" then .basic ⟨.string, "string"⟩ else if n = "Tree" then .named (some "v1") "Tree" .other else
    if n = "Leaf" then .named (some "v1") "Leaf" (.basic ⟨.string, "string"⟩) else .invalid
  sel := fun x n => if self = "v1" ∧ x = "metav1" ∧ n = "Time" then .named (some metaPath) "Time" .other else .invalid
  exported := fun _ => true

private def prog : Src where
  ctx := ctx
  imports := fun p path => if p = "v1" ∧ path = metaPath then some metaPath else none
  decls := fun p => if p = "v1" then [tree, leafDecl] else []
  path := id
  overrides := addKnownTypes false

private def none' : AnyVal → Option Raw := fun _ => none

private def after : Option PState :=
  match prog.need none' (fun _ => .fifo) 5 ⟨"v1", "Tree"⟩ {} with
  | .ok st => some st
  | .error _ => none

/-- C55: the schemas of both types are generated, once, and there is no error, although `Tree` refers to itself. -/
example : (after.map fun st => (st.errs, st.made, (st.schemata.map (·.1)).filter fun i => i.pkg = "v1")) =
    some (0, [⟨"v1", "Tree"⟩, ⟨"v1", "Leaf"⟩], [⟨"v1", "Tree"⟩, ⟨"v1", "Leaf"⟩]) := by decide +kernel

/-- C55: the program is whole, and the depth is sufficient. -/
example : Whole prog pkgs := by
  intro p _ path q h
  simp only [prog] at h
  split at h
  · cases h; simp [pkgs]
  · cases h

/-- C55: the names are tidy. -/
private theorem tidy (p : String) : Tidy (prog.ctx p) := by
  have hi : ∀ n, n ∉ ["string", "Tree", "Leaf"] → (prog.ctx p).ident n = .invalid := by
    intro n hn
    simp only [List.mem_cons, List.not_mem_nil, or_false, not_or] at hn
    simp only [prog, ctx, hn.1, hn.2.1, hn.2.2, if_false, ite_self]
  have hs : ∀ n, (prog.ctx p).ident n = .invalid ∨ n = "string" ∨ n = "Tree" ∨ n = "Leaf" := by
    intro n
    by_cases h : n ∈ ["string", "Tree", "Leaf"]
    · right; simpa using h
    · left; exact hi n h
  have hid : ∀ n pkg m u, (prog.ctx p).ident n = .named (some pkg) m u → '~' ∉ pkg.toList ∧ '~' ∉ m.toList := by
    intro n pkg m u h
    simp only [prog, ctx] at h
    split at h
    · cases h
    · split at h
      · cases h
      · split at h
        · cases h; decide +kernel
        · split at h
          · cases h; decide +kernel
          · cases h
  have hal : ∀ n q a t, (prog.ctx p).ident n ≠ .alias q a t := by
    intro n q a t h
    simp only [prog, ctx] at h
    split at h
    · cases h
    · split at h
      · cases h
      · split at h
        · cases h
        · split at h <;> cases h
  refine ⟨hid, fun n q a pkg m u h => (hal _ _ _ _ h).elim, fun n q a pkg m u h => (hal _ _ _ _ h).elim, ?_, ?_⟩
  · intro x n pkg m u h
    simp only [prog, ctx] at h
    split at h
    · rcases h with h | h
      · cases h; decide +kernel
      · cases h
    · rcases h with h | h <;> cases h
  · intro n hn
    rcases hs n with h | rfl | rfl | rfl
    · exact absurd h hn
    all_goals decide +kernel

/-- C55: the imports of the program are there. -/
private theorem resolves : Resolves prog := by
  intro p q h
  cases h with
  | ident hne h =>
    simp only [prog, ctx] at h hne
    split at h
    · cases h
    · rename_i hp
      split at h
      · cases h
      · split at h
        · cases h; exact absurd (Decidable.not_not.1 hp).symm hne
        · split at h
          · cases h; exact absurd (Decidable.not_not.1 hp).symm hne
          · cases h
  | alias _ h =>
    simp only [prog, ctx] at h
    split at h
    · cases h
    · split at h
      · cases h
      · split at h
        · cases h
        · split at h <;> cases h
  | sel h =>
    simp only [prog, ctx] at h
    split at h
    · rename_i hp
      rcases h with h | h
      · cases h
        rw [hp.1]
        decide +kernel
      · cases h
    · rcases h with h | h <;> cases h

/-- C55: all hypotheses are met by one program. -/
example : ∃ st, prog.need none' (fun _ => .fifo) 5 ⟨"v1", "Tree"⟩ {} = .ok st ∧ st.errs = 0 ∧ Closed (envOf prog st) "v1" ((envOf prog st).raw ⟨"v1", "Tree"⟩ |>.getD .empty) ∧
    RefersTo.Star (envOf prog st) ⟨"v1", "Tree"⟩ ⟨metaPath, "Time"⟩ := by
  have ha : (after.map fun st => (st.errs, (GoMap.get st.schemata ⟨"v1", "Tree"⟩).map fun s => (GoMap.get s.properties "since").map fun c => c.base.ref)) =
      some (0, some (some (some (refLink metaPath "Time")))) := by decide +kernel
  unfold after at ha
  split at ha
  · rename_i st hst
    simp only [Option.map_some, Option.some.injEq, Prod.mk.injEq] at ha
    obtain ⟨he, hs⟩ := ha
    cases hg : GoMap.get st.schemata ⟨"v1", "Tree"⟩ with
    | none => rw [hg] at hs; cases hs
    | some s =>
      rw [hg] at hs
      simp only [Option.map_some, Option.some.injEq] at hs
      have hr : (envOf prog st).raw ⟨"v1", "Tree"⟩ = some s := hg
      refine ⟨st, hst, he, ?_, .step .refl ?_⟩
      · rw [hr]
        exact (C55_closed prog false rfl tidy none' (fun _ => .fifo) st (.schema 5 _ .start hst) he ⟨"v1", "Tree"⟩ s hr).1
      · cases hc : GoMap.get s.properties "since" with
        | none => rw [hc] at hs; cases hs
        | some c =>
          rw [hc] at hs
          exact ⟨s, c, _, hr, .step (.property (get_mem hc)) .refl, Option.some.inj hs, find_link (by decide +kernel) (by decide +kernel) (show (if metaPath = "" then some "v1" else prog.imports "v1" metaPath) = some metaPath by decide +kernel)⟩
  · cases ha

/-- C55: there is no crash, at any depth. -/
example (n : Nat) : prog.need none' (fun _ => .lifo) n ⟨"v1", "Tree"⟩ {} ≠ .error .panic := by
  refine C55_no_crash_partial prog resolves ?_ none' _ n _ _ .start
  intro p d hd ht
  have : ∃ p, infoToSchema none' (fun _ => .fifo) (prog.ctx "v1") d {} = .error p := by
    simp only [prog] at hd
    split at hd
    · rename_i hp
      subst hp
      refine (C54_exact none' (fun _ => .fifo) _ d ?_ ?_ {}).2 ht
      all_goals
        simp only [List.mem_cons, List.not_mem_nil, or_false] at hd
        rcases hd with rfl | rfl <;> rfl
    · cases hd
  have hok : ∀ d ∈ [tree, leafDecl], (match infoToSchema none' (fun _ => .fifo) (prog.ctx "v1") d {} with | .ok _ => true | .error _ => false) = true := by decide +kernel
  simp only [prog] at hd
  split at hd
  · have := hok d hd
    obtain ⟨e, he⟩ := ‹∃ _, _›
    rw [he] at this; cases this
  · cases hd

end Verif.Crd
