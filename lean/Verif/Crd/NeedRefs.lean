import Verif.Crd.Need
import Verif.Crd.GenLemmas
import Verif.Crd.FlatSpec

/-! # The references in generated schemas -/
namespace Verif.Crd
open Spec

/-- Maps have distinct keys, and neither oneOf nor not is used. -/
structure Tame (s : Schema) : Prop extends Keys s where
  oneOf : s.oneOf = []
  not : s.not = none

/-- A schema whose references are requests of the list, which has nothing below its references, whose maps have distinct keys, and which uses neither oneOf nor not. -/
def Nice (L : List (String × String)) (s : Schema) : Prop :=
  ∀ t, Sub s t → (∀ r, t.base.ref = some r → (∃ x ∈ L, r = refLink x.1 x.2) ∧ ∀ c, ¬ Child t c) ∧ Tame t

theorem nice_of {L : List (String × String)} {s : Schema} (h : ∀ r, s.base.ref = some r → (∃ x ∈ L, r = refLink x.1 x.2) ∧ ∀ c, ¬ Child s c) (hk : Tame s)
    (hc : ∀ c, Child s c → Nice L c) : Nice L s := by
  intro t ht
  cases ht with
  | refl => exact ⟨h, hk⟩
  | step h1 h2 => exact hc _ h1 _ h2

theorem Nice.child {L : List (String × String)} {s c : Schema} (h : Nice L s) (hc : Child s c) : Nice L c := fun t ht => h t (.step hc ht)

theorem Nice.mono {L L' : List (String × String)} {s : Schema} (h : Nice L s) (hl : ∀ x ∈ L, x ∈ L') : Nice L' s := by
  intro t ht
  refine ⟨fun r hr => ?_, (h t ht).2⟩
  obtain ⟨⟨x, hx, e⟩, h2⟩ := (h t ht).1 r hr
  exact ⟨⟨x, hl x hx, e⟩, h2⟩

theorem Nice.le {st st' : GState} {s : Schema} (h : Nice st.reqs s) (hl : GState.Le st st') : Nice st'.reqs s := h.mono fun _ hx => hl.2.subset hx

theorem child_leaf {b : Base} {c : Schema} : ¬ Child (.leaf b) c := by
  intro h
  cases h with
  | items h => cases h
  | itemsArr h => cases h
  | allOf h => cases h
  | oneOf h => cases h
  | anyOf h => cases h
  | not h => cases h
  | property h => cases h
  | additionalProperties h => cases h
  | patternProperty h => cases h
  | dependency h => cases h
  | additionalItems h => cases h
  | definition h => cases h

theorem tame_leaf {b : Base} : Tame (.leaf b) := ⟨⟨List.nodup_nil, List.nodup_nil, List.nodup_nil, List.nodup_nil⟩, rfl, rfl⟩

theorem nice_leaf {L : List (String × String)} {b : Base} (h : ∀ r, b.ref = some r → ∃ x ∈ L, r = refLink x.1 x.2) : Nice L (.leaf b) :=
  nice_of (fun r hr => ⟨h r hr, fun _ => child_leaf⟩) tame_leaf fun _ hc => absurd hc child_leaf

theorem nice_empty {L : List (String × String)} : Nice L .empty := nice_leaf nofun

theorem child_congr {s s' c : Schema} (h : SameParts s s') (hc : Child s' c) : Child s c := by
  obtain ⟨h1, h2, h3, h4, h5, h6, h7, h8, h9, h10, h11⟩ := h
  cases hc with
  | items a b => exact .items (h1.trans a) b
  | itemsArr a b => exact .itemsArr (h1.trans a) b
  | allOf a => exact .allOf (h2 ▸ a)
  | oneOf a => exact .oneOf (h3 ▸ a)
  | anyOf a => exact .anyOf (h4 ▸ a)
  | not a => exact .not (h5.trans a)
  | property a => exact .property (h6 ▸ a)
  | additionalProperties a b => exact .additionalProperties (h7.trans a) b
  | patternProperty a => exact .patternProperty (h8 ▸ a)
  | dependency a b => exact .dependency (h9 ▸ a) b
  | additionalItems a b => exact .additionalItems (h10.trans a) b
  | definition a => exact .definition (h11 ▸ a)

theorem tame_congr {s s' : Schema} (h : SameParts s s') (hk : Tame s) : Tame s' := by
  obtain ⟨h1, h2, h3, h4, h5, h6, h7, h8, h9, h10, h11⟩ := h
  exact ⟨⟨h6 ▸ hk.properties, h8 ▸ hk.patternProperties, h9 ▸ hk.dependencies, h11 ▸ hk.definitions⟩, h3 ▸ hk.oneOf, h5 ▸ hk.not⟩

theorem Nice.congr {L : List (String × String)} {s s' : Schema} (h : Nice L s) (hp : SameParts s s') (hr : s'.base.ref = s.base.ref) : Nice L s' := by
  have h0 := h s .refl
  refine nice_of (fun r hr' => ?_) (tame_congr hp h0.2) fun c hc => h.child (child_congr hp hc)
  obtain ⟨h1, h2⟩ := h0.1 r (hr ▸ hr')
  exact ⟨h1, fun c hc => h2 c (child_congr hp hc)⟩

theorem Nice.describe {L : List (String × String)} {s : Schema} (h : Nice L s) (doc : Bytes) : Nice L (s.describe doc) :=
  h.congr (same_withBase ..) (by rw [Schema.describe, base_withBase])

theorem Nice.applyOne {L : List (String × String)} {s : Schema} (h : Nice L s) (marshal : AnyVal → Option Raw) (n : Nat) (m : Named) : Nice L (applyOne marshal (s, n) m).1 := by
  refine h.congr ?_ (kept_applyOne marshal (s, n) m).ref
  unfold Verif.Crd.applyOne
  split
  · exact ⟨rfl, rfl, rfl, rfl, rfl, rfl, rfl, rfl, rfl, rfl, rfl⟩
  · exact same_withBase ..

theorem Nice.applyItem {L : List (String × String)} {s : Schema} (h : Nice L s) (marshal : AnyVal → Option Raw) (n : Nat) (m : Named) : Nice L (applyItem marshal (s, n) m).1 := by
  unfold Verif.Crd.applyItem
  split
  · rename_i b c l al oo an nt pr ad pa de ai df heq
    simp only at heq
    subst heq
    split
    · exact h
    · have h0 := h _ .refl
      have hcc : Child (.mk b (some (.mk (some c) l)) al oo an nt pr ad pa de ai df) c := .items rfl rfl
      have hc' := (h.child hcc).applyOne marshal n m
      simp only
      refine nice_of (fun r hr => absurd hcc ((h0.1 r hr).2 c)) ⟨⟨h0.2.properties, h0.2.patternProperties, h0.2.dependencies, h0.2.definitions⟩, h0.2.oneOf, h0.2.not⟩ ?_
      intro x hx
      cases hx with
      | items a b => cases a; cases b; exact hc'
      | itemsArr a b => cases a; exact h.child (.itemsArr rfl b)
      | allOf a => exact h.child (.allOf a)
      | oneOf a => exact h.child (.oneOf a)
      | anyOf a => exact h.child (.anyOf a)
      | not a => exact h.child (.not a)
      | property a => exact h.child (.property a)
      | additionalProperties a b => exact h.child (.additionalProperties a b)
      | patternProperty a => exact h.child (.patternProperty a)
      | dependency a b => exact h.child (.dependency a b)
      | additionalItems a b => exact h.child (.additionalItems a b)
      | definition a => exact h.child (.definition a)
  · exact h

theorem nice_foldl {L : List (String × String)} {f : Schema × Nat → Named → Schema × Nat} (hf : ∀ s n m, Nice L s → Nice L (f (s, n) m).1) :
    ∀ (l : List Named) (x : Schema × Nat), Nice L x.1 → Nice L (l.foldl f x).1 := by
  intro l
  induction l with
  | nil => intro x h; exact h
  | cons a l ih => intro x h; exact ih _ (hf x.1 x.2 a h)

theorem Nice.applyMarkers {L : List (String × String)} {s : Schema} (h : Nice L s) (marshal : AnyVal → Option Raw) (σ : Sched) (set : MarkerSet) : Nice L (applyMarkers marshal σ set s).1 :=
  nice_foldl (fun _ n m hs => hs.applyItem marshal n m) _ _ (nice_foldl (fun _ n m hs => hs.applyOne marshal n m) _ _ h)

theorem Nice.apply {st : GState} {s : Schema} (h : Nice st.reqs s) (marshal : AnyVal → Option Raw) (σ : Nat → Sched) (set : MarkerSet) :
    Nice (st.apply marshal σ set s).2.reqs (st.apply marshal σ set s).1 := h.applyMarkers marshal (σ st.tick) set

/-! ## Generation -/

theorem objToSchema_nice {P : PkgCtx} {pkg : Option String} {name : String} {st st' : GState} {s : Schema} (h : objToSchema P pkg name st = .ok (s, st')) : Nice st'.reqs s := by
  unfold objToSchema at h
  split at h
  · cases h
  · cases h
    exact nice_leaf fun r hr => by cases hr; exact ⟨_, List.mem_append_right _ (List.mem_singleton_self _), rfl⟩

theorem basicSchema_nice {P : PkgCtx} {id : String} {b : Basic} {st st' : GState} {s : Schema} (h : basicSchema P id st b = .ok (s, st')) : Nice st'.reqs s := by
  unfold basicSchema at h
  simp only at h
  split at h
  · cases h
    exact nice_leaf fun r hr => by cases hr; exact ⟨_, List.mem_append_right _ (List.mem_singleton_self _), rfl⟩
  · cases h
    exact nice_leaf nofun

theorem localNamed_nice {P : PkgCtx} {id : String} {st st' : GState} {s : Schema} (h : localNamedToSchema P id st = .ok (s, st')) : Nice st'.reqs s := by
  rw [localNamed_eq] at h
  split at h
  · cases h; exact nice_empty
  · exact basicSchema_nice h
  · exact objToSchema_nice h
  · cases h
  · exact basicSchema_nice h
  · exact objToSchema_nice h
  · exact objToSchema_nice h
  · cases h
    exact nice_leaf fun r hr => by cases hr; exact ⟨_, List.mem_append_right _ (List.mem_singleton_self _), rfl⟩
  · cases h

theorem named_nice {P : PkgCtx} {x sel : String} {st st' : GState} {s : Schema} (h : namedToSchema P x sel st = .ok (s, st')) : Nice st'.reqs s := by
  unfold namedToSchema at h
  have ho : ∀ (pkg : Option String) (name : String), (match pkg with
      | none => (.error .nilPkg : GRes)
      | some p => .ok (.leaf { ref := some (refLink (String.ofList (Loader.nonVendorPath p.toList)) name) }, st.request (String.ofList (Loader.nonVendorPath p.toList)) name)) = .ok (s, st') →
      Nice st'.reqs s := by
    intro pkg name h
    split at h
    · cases h
    · cases h
      exact nice_leaf fun r hr => by cases hr; exact ⟨_, List.mem_append_right _ (List.mem_singleton_self _), rfl⟩
  simp only at h
  split at h
  · cases h; exact nice_empty
  · exact ho _ _ h
  · exact ho _ _ h
  · cases h
  · cases h

theorem inner_nice {P : PkgCtx} : ∀ {e : TExpr} {st st' : GState} {s : Schema}, innerType P e st = .ok (s, st') → Nice st'.reqs s := by
  intro e
  induction e with
  | ident n => intro st st' s h; rw [innerType] at h; exact localNamed_nice h
  | selector x n => intro st st' s h; rw [innerType] at h; exact named_nice h
  | array len e ih =>
    intro st st' s h
    rw [innerType] at h
    split at h
    · cases h; exact nice_leaf nofun
    · split at h
      · cases h
      · rename_i c st1 heq
        cases h
        refine nice_of nofun ⟨⟨List.nodup_nil, List.nodup_nil, List.nodup_nil, List.nodup_nil⟩, rfl, rfl⟩ ?_
        intro x hx
        cases hx with
        | items a b => cases a; cases b; exact ih heq
        | itemsArr a b => cases a; cases b
        | allOf h => cases h
        | oneOf h => cases h
        | anyOf h => cases h
        | not h => cases h
        | property h => cases h
        | additionalProperties h => cases h
        | patternProperty h => cases h
        | dependency h => cases h
        | additionalItems h => cases h
        | definition h => cases h
  | map k v _ ih =>
    intro st st' s h
    rw [innerType] at h
    split at h
    · cases h; exact nice_empty
    · split at h
      · cases h; exact nice_empty
      · split at h
        · cases h
        · rename_i c st1 heq
          cases h
          refine nice_of nofun ⟨⟨List.nodup_nil, List.nodup_nil, List.nodup_nil, List.nodup_nil⟩, rfl, rfl⟩ ?_
          intro x hx
          cases hx with
          | items a => cases a
          | itemsArr a => cases a
          | allOf h => cases h
          | oneOf h => cases h
          | anyOf h => cases h
          | not h => cases h
          | property h => cases h
          | additionalProperties a b => cases a; cases b; exact ih heq
          | patternProperty h => cases h
          | dependency h => cases h
          | additionalItems h => cases h
          | definition h => cases h
  | star e ih => intro st st' s h; rw [innerType] at h; exact ih h
  | struct => intro st st' s h; rw [innerType] at h; cases h
  | other => intro st st' s h; rw [innerType] at h; cases h; exact nice_empty

theorem field_nice {marshal : AnyVal → Option Raw} {σ : Nat → Sched} {P : PkgCtx} {f : Field} {st st' : GState} {s : Schema} (h : fieldSchema marshal σ P f st = .ok (s, st')) :
    Nice st'.reqs s ∧ GState.Le st st' := by
  unfold fieldSchema at h
  simp only at h
  split at h
  · cases h
  · rename_i c st1 heq
    have hp := Except.ok.inj h
    have hc : Nice st1.reqs c ∧ GState.Le st st1 := by
      split at heq
      · cases heq; exact ⟨nice_empty, .refl⟩
      · exact ⟨inner_nice heq, inner_le heq⟩
    have := (hc.1.describe f.doc).apply marshal σ f.markers
    have hle : GState.Le st1 (st1.apply marshal σ f.markers (c.describe f.doc)).2 := apply_le
    rw [hp] at this hle
    exact ⟨this, hc.2.trans hle⟩

theorem structFields_nice {marshal : AnyVal → Option Raw} {σ : Nat → Sched} {P : PkgCtx} : ∀ (fs : List Field) {req req' : List String} {props props' : List (String × Schema)} {all all' : List Schema}
    {st st' : GState}, structFields marshal σ P fs req props all st = .ok ((req', props', all'), st') → GoMap.WF props → (∀ e ∈ props, Nice st.reqs e.2) → (∀ c ∈ all, Nice st.reqs c) →
    GoMap.WF props' ∧ (∀ e ∈ props', Nice st'.reqs e.2) ∧ (∀ c ∈ all', Nice st'.reqs c) := by
  intro fs
  induction fs with
  | nil => intro req req' props props' all all' st st' h h1 h2 h3; rw [structFields] at h; cases h; exact ⟨h1, h2, h3⟩
  | cons f fs ih =>
    intro req req' props props' all all' st st' h h1 h2 h3
    rw [structFields] at h
    split at h
    · exact ih h h1 h2 h3
    · split at h
      · exact ih h h1 h2 h3
      · split at h
        · exact ih h h1 h2 h3
        · simp only at h
          split at h
          · cases h
          · rename_i c st1 heq
            obtain ⟨hc, hle⟩ := field_nice heq
            split at h
            · refine ih h h1 (fun e he => (h2 e he).le hle) ?_
              intro x hx
              rcases List.mem_append.1 hx with hx | hx
              · exact (h3 x hx).le hle
              · rw [List.mem_singleton.1 hx]; exact hc
            · refine ih h (GoMap.put_wf h1 _ _) ?_ (fun x hx => (h3 x hx).le hle)
              intro e he
              rcases GoMap.mem_of_mem_put he with rfl | he
              · exact hc
              · exact (h2 e he).le hle

theorem finish_nice {marshal : AnyVal → Option Raw} {σ : Nat → Sched} {d : Decl} {r : GRes} {s : Schema} {st' : GState} (h : GRes.finish marshal σ d r = .ok (s, st'))
    (hr : ∀ c st, r = .ok (c, st) → Nice st.reqs c) : Nice st'.reqs s := by
  match r, hr, h with
  | .error _, _, h => cases h
  | .ok (c, st), hr, h =>
    have hp := Except.ok.inj h
    have := ((hr c st rfl).describe d.doc).apply marshal σ d.markers
    rw [hp] at this
    exact this

theorem decl_nice {marshal : AnyVal → Option Raw} {σ : Nat → Sched} {P : PkgCtx} {d : Decl} : ∀ {e : TExpr} {top : Bool} {st st' : GState} {s : Schema},
    declType marshal σ P d top e st = .ok (s, st') → Nice st'.reqs s := by
  intro e
  induction e with
  | star e ih => intro top st st' s h; rw [declType] at h; exact finish_nice h fun c st1 h1 => ih h1
  | struct =>
    intro top st st' s h
    cases top with
    | false => rw [declType] at h; exact finish_nice h fun c st1 h1 => by cases h1; exact nice_leaf nofun
    | true =>
      rw [declType] at h
      refine finish_nice h fun c st1 h1 => ?_
      unfold structToSchema at h1
      split at h1
      · cases h1
      · rename_i req props all st2 heq
        cases h1
        obtain ⟨a, b, c⟩ := structFields_nice d.fields heq (by simp [GoMap.WF, GoMap.keys]) nofun nofun
        refine nice_of nofun ⟨⟨a, List.nodup_nil, List.nodup_nil, List.nodup_nil⟩, rfl, rfl⟩ ?_
        intro x hx
        cases hx with
        | items a => cases a
        | itemsArr a => cases a
        | allOf h => exact c _ h
        | oneOf h => cases h
        | anyOf h => cases h
        | not h => cases h
        | property h => exact b _ h
        | additionalProperties a b => cases a
        | patternProperty h => cases h
        | dependency h => cases h
        | additionalItems h => cases h
        | definition h => cases h
  | ident n => intro top st st' s h; cases top <;> (rw [declType] at h; exact finish_nice h fun c st1 h1 => inner_nice h1)
  | selector x n => intro top st st' s h; cases top <;> (rw [declType] at h; exact finish_nice h fun c st1 h1 => inner_nice h1)
  | array len e => intro top st st' s h; cases top <;> (rw [declType] at h; exact finish_nice h fun c st1 h1 => inner_nice h1)
  | map k v => intro top st st' s h; cases top <;> (rw [declType] at h; exact finish_nice h fun c st1 h1 => inner_nice h1)
  | other => intro top st st' s h; cases top <;> (rw [declType] at h; cases h; exact nice_empty)

theorem info_nice {marshal : AnyVal → Option Raw} {σ : Nat → Sched} {P : PkgCtx} {d : Decl} {st st' : GState} {s : Schema} (h : infoToSchema marshal σ P d st = .ok (s, st')) : Nice st'.reqs s := by
  unfold infoToSchema at h
  split at h
  · split at h
    rename_i s1 st1 heq
    split at h
    · cases h
      have := (nice_empty (L := st.reqs)).apply marshal σ d.markers (st := st)
      rw [heq] at this
      exact this
    · exact decl_nice h
  · split at h
    · split at h
      rename_i s1 st1 heq
      cases h
      have := (nice_leaf (L := st.reqs) (b := { type := "string" }) nofun).apply marshal σ d.markers (st := st)
      rw [heq] at this
      split
      · exact this
      · exact this
    · exact decl_nice h

end Verif.Crd
