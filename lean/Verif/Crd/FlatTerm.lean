import Verif.Crd.FlatSteps
import Verif.Crd.FlatSpec
import Verif.Crd.AllOfSem

/-! # Flattening terminates -/
namespace Verif.Crd
open Spec

theorem heightList_le {l : List Schema} {n : Nat} : heightList l ≤ n ↔ ∀ c ∈ l, c.height ≤ n := by
  induction l with
  | nil => simp [heightList]
  | cons s l ih => simp only [heightList, List.mem_cons, forall_eq_or_imp]; rw [← ih]; omega

theorem heightMap_le {l : List (String × Schema)} {n : Nat} : heightMap l ≤ n ↔ ∀ e ∈ l, e.2.height ≤ n := by
  induction l with
  | nil => simp [heightMap]
  | cons s l ih => simp only [heightMap, List.mem_cons, forall_eq_or_imp]; rw [← ih]; omega

theorem heightOpt_le {o : Option Schema} {n : Nat} : heightOpt o ≤ n ↔ ∀ c, o = some c → c.height ≤ n := by
  cases o <;> simp [heightOpt]

theorem heightDeps_le {l : List (String × OrArray)} {n : Nat} : heightDeps l ≤ n ↔ ∀ e ∈ l, ∀ c, e.2.schema = some c → c.height ≤ n := by
  induction l with
  | nil => simp [heightDeps]
  | cons s l ih =>
    obtain ⟨k, s, p⟩ := s
    have : (∀ c, (OrArray.mk s p).schema = some c → c.height ≤ n) ↔ heightOpt s ≤ n := heightOpt_le.symm
    simp only [heightDeps, List.mem_cons, forall_eq_or_imp, this]; rw [← ih]; omega

theorem lookup_some_mem {α : Type} {m : List (String × α)} {k : String} {v : α} (h : m.lookup k = some v) : (k, v) ∈ m := by
  induction m with
  | nil => simp at h
  | cons e m ih =>
    obtain ⟨k', v'⟩ := e
    rw [List.lookup_cons] at h
    by_cases hk : k = k'
    · simp [hk] at h; simp [hk, h]
    · have : (k == k') = false := by simpa using hk
      rw [this] at h
      exact List.mem_cons_of_mem _ (ih h)

/-- A place leads to a schema directly below. -/
theorem child_of_step {s c : Schema} {p : Step} (h : s.child p = some c) : Child s c := by
  cases p with
  | items =>
    obtain ⟨i, hi, hc⟩ := Option.bind_eq_some_iff.1 h
    exact .items hi hc
  | itemsAt n =>
    obtain ⟨i, hi, hc⟩ := Option.bind_eq_some_iff.1 h
    obtain ⟨x, hx, rfl⟩ := Option.map_eq_some_iff.1 hi
    exact .itemsArr hx (List.mem_of_getElem? hc)
  | allOf n => exact .allOf (List.mem_of_getElem? h)
  | oneOf n => exact .oneOf (List.mem_of_getElem? h)
  | anyOf n => exact .anyOf (List.mem_of_getElem? h)
  | not => exact .not h
  | property k => exact .property (lookup_some_mem h)
  | additionalProperties =>
    obtain ⟨i, hi, hc⟩ := Option.bind_eq_some_iff.1 h
    exact .additionalProperties hi hc
  | patternProperty k => exact .patternProperty (lookup_some_mem h)
  | dependency k =>
    obtain ⟨i, hi, hc⟩ := Option.bind_eq_some_iff.1 h
    exact .dependency (lookup_some_mem hi) hc
  | additionalItems =>
    obtain ⟨i, hi, hc⟩ := Option.bind_eq_some_iff.1 h
    exact .additionalItems hi hc
  | definition k => exact .definition (lookup_some_mem h)

theorem le_max {a b n : Nat} : n ≤ max a b ↔ n ≤ a ∨ n ≤ b := by omega

theorem height_child {s c : Schema} (h : Child s c) : c.height + 1 ≤ s.height := by
  obtain ⟨b, it, al, oo, an, nt, pr, ad, pa, de, ai, df⟩ := s
  have key : ∀ n, n ≤ (max (heightItems it) (max (heightList al) (max (heightList oo) (max (heightList an) (max (heightOpt nt) (max (heightMap pr) (max (heightOrBool ad)
      (max (heightMap pa) (max (heightDeps de) (max (heightOrBool ai) (heightMap df)))))))))))
      → n + 1 ≤ (Schema.mk b it al oo an nt pr ad pa de ai df).height := by
    intro n hn; rw [Schema.height]; omega
  apply key
  simp only [le_max]
  cases h with
  | @items i _ h1 h2 =>
    obtain ⟨x, y⟩ := i
    rw [Schema.items_mk] at h1; subst h1
    left; rw [heightItems, le_max]; left; exact heightOpt_le.1 (Nat.le_refl _) _ h2
  | @itemsArr i _ h1 h2 =>
    obtain ⟨x, y⟩ := i
    rw [Schema.items_mk] at h1; subst h1
    left; rw [heightItems, le_max]; right; exact heightList_le.1 (Nat.le_refl _) _ h2
  | allOf h => right; left; exact heightList_le.1 (Nat.le_refl _) _ h
  | oneOf h => iterate 2 right
               left; exact heightList_le.1 (Nat.le_refl _) _ h
  | anyOf h => iterate 3 right
               left; exact heightList_le.1 (Nat.le_refl _) _ h
  | not h => iterate 4 right
             left; exact heightOpt_le.1 (Nat.le_refl _) _ h
  | property h => iterate 5 right
                  left; exact heightMap_le.1 (Nat.le_refl _) _ h
  | @additionalProperties o _ h1 h2 =>
    obtain ⟨x, y⟩ := o
    rw [Schema.additionalProperties_mk] at h1; subst h1
    iterate 6 right
    left; exact heightOpt_le.1 (Nat.le_refl _) _ h2
  | patternProperty h => iterate 7 right
                         left; exact heightMap_le.1 (Nat.le_refl _) _ h
  | dependency h1 h2 => iterate 8 right
                        left; exact heightDeps_le.1 (Nat.le_refl _) _ h1 _ h2
  | @additionalItems o _ h1 h2 =>
    obtain ⟨x, y⟩ := o
    rw [Schema.additionalItems_mk] at h1; subst h1
    iterate 9 right
    left; exact heightOpt_le.1 (Nat.le_refl _) _ h2
  | definition h => iterate 10 right
                    exact heightMap_le.1 (Nat.le_refl _) _ h

theorem height_step {s c : Schema} {p : Step} (h : s.child p = some c) : c.height + 1 ≤ s.height := height_child (child_of_step h)

/-- What holds of a result. -/
def Res (good : Schema → FState → Prop) (bad : Stop → Prop) : FRes → Prop
  | .ok (s, st) => good s st
  | .error e => bad e

/-- The walk over places, when the function satisfies `Q` on all schemas there and keeps the invariant `P` of the states. -/
theorem walkSteps_ok {f : Schema → FState → FRes} {P : FState → Prop} {Q : Schema → Schema → Prop} {bad : Stop → Prop} :
    ∀ (ps : List Step) (s : Schema) (st : FState), ps.Nodup → P st →
      (∀ p c st, p ∈ ps → s.child p = some c → P st → Res (fun c' st' => Q c c' ∧ P st') bad (f c st)) →
      Res (fun s' st' => P st' ∧ s'.base = s.base ∧ ∀ p, (p ∉ ps → s'.child p = s.child p) ∧ (s.child p = none → s'.child p = none) ∧
          ∀ c, p ∈ ps → s.child p = some c → ∃ c', s'.child p = some c' ∧ Q c c') bad (walkSteps f ps s st) := by
  intro ps
  induction ps with
  | nil =>
    intro s st _ hP _
    exact ⟨hP, rfl, fun p => ⟨fun _ => rfl, id, fun c h => absurd h (List.not_mem_nil)⟩⟩
  | cons p ps ih =>
    intro s st hn hP hf
    obtain ⟨hp, hn⟩ := List.nodup_cons.1 hn
    rw [walkSteps]
    cases hc : s.child p with
    | none =>
      simp only
      have := ih s st hn hP (fun q c st hq => hf q c st (List.mem_cons_of_mem _ hq))
      cases he : walkSteps f ps s st with
      | error e => rw [he] at this; exact this
      | ok r =>
        obtain ⟨s', st'⟩ := r
        rw [he] at this
        refine ⟨this.1, this.2.1, fun q => ⟨fun hq => (this.2.2 q).1 (fun h => hq (List.mem_cons_of_mem _ h)), (this.2.2 q).2.1, ?_⟩⟩
        intro c hq hqc
        rcases List.mem_cons.1 hq with rfl | hq
        · rw [hc] at hqc; cases hqc
        · exact (this.2.2 q).2.2 c hq hqc
    | some c =>
      simp only
      have h1 := hf p c st (List.mem_cons_self ..) hc hP
      cases he : f c st with
      | error e => rw [he] at h1; exact h1
      | ok r =>
        obtain ⟨c', st'⟩ := r
        rw [he] at h1
        simp only at h1 ⊢
        have hcs : ∀ q, (s.set p c').child q = if q = p then some c' else s.child q := fun q => child_set (by rw [hc]; rfl)
        have := ih (s.set p c') st' hn h1.2 (fun q d st hq hd => by
          rw [hcs, if_neg (fun h : q = p => hp (h ▸ hq))] at hd
          exact hf q d st (List.mem_cons_of_mem _ hq) hd)
        cases he' : walkSteps f ps (s.set p c') st' with
        | error e => rw [he'] at this; exact this
        | ok r =>
          obtain ⟨s', st''⟩ := r
          rw [he'] at this
          refine ⟨this.1, this.2.1.trans (base_set ..), fun q => ⟨fun hq => ?_, fun hq => ?_, fun d hq hd => ?_⟩⟩
          · rw [(this.2.2 q).1 (fun h => hq (List.mem_cons_of_mem _ h)), hcs, if_neg (fun h : q = p => hq (h ▸ List.mem_cons_self ..))]
          · apply (this.2.2 q).2.1
            rw [hcs, if_neg (fun h : q = p => by rw [h, hc] at hq; cases hq)]; exact hq
          · by_cases hqp : q = p
            · subst hqp
              refine ⟨c', ?_, ?_⟩
              · rw [(this.2.2 q).1 hp, hcs, if_pos rfl]
              · rw [hc] at hd; cases hd; exact h1.1
            · apply (this.2.2 q).2.2 d
              · exact (List.mem_cons.1 hq).resolve_left hqp
              · rw [hcs, if_neg hqp]; exact hd

/-- The walk over everything directly below a schema. -/
theorem walkKids_ok {σ : Sched} {f : Schema → FState → FRes} {P : FState → Prop} {Q : Schema → Schema → Prop} {bad : Stop → Prop} (s : Schema) (st : FState)
    (hP : P { st with tick := st.tick + 4 })
    (hf : ∀ p c st, s.child p = some c → P st → Res (fun c' st' => Q c c' ∧ P st') bad (f c st)) :
    Res (fun s' st' => P st' ∧ s'.base = s.base ∧ (∀ p, s.child p = none → s'.child p = none) ∧ ∀ p c, s.child p = some c → ∃ c', s'.child p = some c' ∧ Q c c') bad
      (walkKids σ f s st) := by
  have := walkSteps_ok (P := P) (Q := Q) (bad := bad) (f := f) (visitOrder σ st.tick s) s { st with tick := st.tick + 4 } (nodup_visitOrder ..) hP (fun p c st _ => hf p c st)
  rw [walkKids]
  cases he : walkSteps f (visitOrder σ st.tick s) s { st with tick := st.tick + 4 } with
  | error e => rw [he] at this; exact this
  | ok r =>
    rw [he] at this
    exact ⟨this.1, this.2.1, fun p => (this.2.2 p).2.1, fun p c hc => (this.2.2 p).2.2 c (mem_visitOrder σ _ (by rw [hc]; rfl)) hc⟩

theorem Res.imp {good good' : Schema → FState → Prop} {bad bad' : Stop → Prop} {r : FRes} (h : Res good bad r) (hg : ∀ s st, good s st → good' s st) (hb : ∀ e, bad e → bad' e) :
    Res good' bad' r := by
  cases r with
  | error e => exact hb e h
  | ok r => exact hg _ _ h

/-- A function that agrees with another one wherever that one does not run too deep. -/
def Extends (f g : Schema → FState → FRes) : Prop := ∀ c st, f c st ≠ .error .deep → g c st = f c st

theorem walkSteps_mono {f g : Schema → FState → FRes} (h : Extends f g) : ∀ ps s st, walkSteps f ps s st ≠ .error .deep → walkSteps g ps s st = walkSteps f ps s st := by
  intro ps
  induction ps with
  | nil => intro s st _; rfl
  | cons p ps ih =>
    intro s st hne
    rw [walkSteps] at hne ⊢
    rw [walkSteps]
    cases hc : s.child p with
    | none => simp only [hc] at hne ⊢; exact ih s st hne
    | some c =>
      simp only [hc] at hne ⊢
      have h1 := h c st (fun he => by rw [he] at hne; exact hne rfl)
      rw [h1]
      cases he : f c st with
      | error e => rfl
      | ok r => simp only [he] at hne ⊢; exact ih _ _ hne

theorem walkKids_mono {σ : Sched} {f g : Schema → FState → FRes} (h : Extends f g) (s : Schema) (st : FState) (hne : walkKids σ f s st ≠ .error .deep) :
    walkKids σ g s st = walkKids σ f s st := walkSteps_mono h _ _ _ hne

theorem walkRefs_succ (env : Env) (σ : Sched) : ∀ n pkg seen s st, walkRefs env σ n pkg seen s st ≠ .error .deep →
    walkRefs env σ (n + 1) pkg seen s st = walkRefs env σ n pkg seen s st := by
  intro n
  induction n with
  | zero => intro pkg seen s st h; exact absurd rfl h
  | succ n ih =>
    intro pkg seen s st h
    have hext : ∀ q, Extends (fun c => walkRefs env σ n q c.base.ref.toList c) (fun c => walkRefs env σ (n + 1) q c.base.ref.toList c) :=
      fun q c st hc => ih q _ c st hc
    rw [walkRefs] at h
    rw [walkRefs.eq_2 (n := n), walkRefs.eq_2 (n := n + 1)]
    cases hr : s.refOf with
    | none => simp only [hr] at h ⊢; exact walkKids_mono (hext pkg) s st h
    | some r =>
      simp only [hr] at h ⊢
      cases hfd : env.find r pkg with
      | bad => rfl
      | nilPkg => rfl
      | ok id =>
        simp only [hfd] at h ⊢
        cases hca : GoMap.get st.cache id with
        | some c => rfl
        | none =>
          simp only [hca] at h ⊢
          cases hraw : env.raw id with
          | none => rfl
          | some rs =>
            simp only [hraw] at h ⊢
            cases hrr : rs.refOf with
            | none =>
              simp only [hrr] at h ⊢
              rw [walkKids_mono (hext id.pkg) rs _ (fun he => by rw [he] at h; exact h rfl)]
            | some r' =>
              simp only [hrr] at h ⊢
              by_cases hse : r' ∈ seen
              · simp only [hse, if_true] at h ⊢
                rw [walkKids_mono (hext id.pkg) rs _ (fun he => by rw [he] at h; exact h rfl)]
              · simp only [hse, if_false] at h ⊢
                rw [ih _ _ _ _ (fun he => by rw [he] at h; exact h rfl)]

theorem walkRefs_mono (env : Env) (σ : Sched) {n m : Nat} (hnm : n ≤ m) {pkg : String} {seen : List String} {s : Schema} {st : FState}
    (h : walkRefs env σ n pkg seen s st ≠ .error .deep) : walkRefs env σ m pkg seen s st = walkRefs env σ n pkg seen s st := by
  induction m with
  | zero => obtain rfl := Nat.le_zero.1 hnm; rfl
  | succ m ih =>
    by_cases hle : n ≤ m
    · have := ih hle
      rw [walkRefs_succ _ _ _ _ _ _ _ (by rw [this]; exact h), this]
    · obtain rfl : n = m + 1 := by omega
      rfl

/-- The number of types that are not in the cache. -/
def uncached (env : Env) (cache : List (TypeIdent × Schema)) : Nat := env.schemata.countP fun e => (GoMap.get cache e.1).isNone

theorem ident_mem {m : List (TypeIdent × Schema)} {id : TypeIdent} {s : Schema} (h : GoMap.get m id = some s) : (id, s) ∈ m := by
  induction m with
  | nil => simp [GoMap.get] at h
  | cons e m ih =>
    obtain ⟨k, v⟩ := e
    rw [GoMap.get] at h
    split at h
    · rename_i hk; cases h; rw [hk]; exact List.mem_cons_self ..
    · exact List.mem_cons_of_mem _ (ih h)

theorem height_raw {env : Env} {id : TypeIdent} {s : Schema} (h : env.raw id = some s) : s.height ≤ env.height := by
  have := ident_mem h
  unfold Env.height
  generalize env.schemata = l at this
  induction l with
  | nil => cases this
  | cons e l ih =>
    rw [List.map_cons, List.foldr_cons]
    rcases List.mem_cons.1 this with rfl | h
    · exact Nat.le_max_left ..
    · have := ih h; omega

theorem countP_mono {α : Type} {p q : α → Bool} {l : List α} (h : ∀ a ∈ l, p a = true → q a = true) : l.countP p ≤ l.countP q := by
  induction l with
  | nil => simp
  | cons a l ih =>
    have := ih (fun b hb => h b (List.mem_cons_of_mem _ hb))
    have h1 := h a (List.mem_cons_self ..)
    rw [List.countP_cons, List.countP_cons]
    by_cases hp : p a = true
    · rw [if_pos hp, if_pos (h1 hp)]; omega
    · rw [if_neg hp]; split <;> omega

theorem countP_lt {α : Type} {p q : α → Bool} {l : List α} (h : ∀ a ∈ l, p a = true → q a = true) (a : α) (ha : a ∈ l) (hp : p a = false) (hq : q a = true) :
    l.countP p < l.countP q := by
  induction l with
  | nil => cases ha
  | cons b l ih =>
    have h' := fun b hb => h b (List.mem_cons_of_mem _ hb)
    have h1 := h b (List.mem_cons_self ..)
    rw [List.countP_cons, List.countP_cons]
    rcases List.mem_cons.1 ha with rfl | ha
    · have := countP_mono h'
      rw [hp, hq]; simp; omega
    · have := ih h' ha
      by_cases hp : p b = true
      · rw [if_pos hp, if_pos (h1 hp)]; omega
      · rw [if_neg hp]; split <;> omega

theorem uncached_put {env : Env} {cache : List (TypeIdent × Schema)} {id : TypeIdent} {s : Schema} : uncached env (GoMap.put cache id s) ≤ uncached env cache := by
  apply countP_mono
  intro e _ h
  rw [GoMap.get_put] at h
  split at h
  · simp at h
  · exact h

theorem uncached_put_lt {env : Env} {cache : List (TypeIdent × Schema)} {id : TypeIdent} {s rs : Schema} (hc : GoMap.get cache id = none) (hr : env.raw id = some rs) :
    uncached env (GoMap.put cache id s) < uncached env cache := by
  apply countP_lt (a := (id, rs)) _ (ident_mem hr)
  · simp [GoMap.get_put]
  · simp [hc]
  · intro e _ h
    rw [GoMap.get_put] at h
    split at h
    · simp at h
    · exact h

/-- Enough depth: a level for each step down, and for each type that is not in the cache the height of a schema. -/
theorem walkRefs_enough (env : Env) (σ : Sched) : ∀ n pkg seen s st u, uncached env st.cache ≤ u → s.height + u * (env.height + 1) ≤ n →
    Res (fun _ st' => uncached env st'.cache ≤ u) (· ≠ .deep) (walkRefs env σ n pkg seen s st) := by
  intro n
  induction n with
  | zero =>
    intro pkg seen s st u _ hn
    exfalso
    have : 1 ≤ s.height := by cases s; rw [Schema.height]; omega
    omega
  | succ n ih =>
    intro pkg seen s st u hu hn
    have kids : ∀ q (t : Schema) (st : FState) u, uncached env st.cache ≤ u → t.height + u * (env.height + 1) ≤ n + 1 →
        Res (fun _ st' => uncached env st'.cache ≤ u) (· ≠ .deep) (walkKids σ (fun c => walkRefs env σ n q c.base.ref.toList c) t st) := by
      intro q t st u hu hn
      refine (walkKids_ok (P := fun st => uncached env st.cache ≤ u) (Q := fun _ _ => True) t st hu (fun p c st' hc hu' => ?_)).imp (fun _ _ h => h.1) (fun _ h => h)
      have hh := height_step hc
      exact (ih q c.base.ref.toList c st' u hu' (by omega)).imp (fun _ _ h => ⟨trivial, h⟩) (fun _ h => h)
    rw [walkRefs]
    cases hr : s.refOf with
    | none => simp only; exact kids pkg s st u hu hn
    | some r =>
      simp only
      cases hfd : env.find r pkg with
      | bad => exact hu
      | nilPkg => simp [Res]
      | ok id =>
        simp only
        cases hca : GoMap.get st.cache id with
        | some c => exact hu
        | none =>
          simp only
          cases hraw : env.raw id with
          | none => exact hu
          | some rs =>
            simp only
            have hlt := uncached_put_lt (s := Schema.empty) hca hraw
            have hh := height_raw hraw
            have hs : 1 ≤ s.height := by cases s; rw [Schema.height]; omega
            obtain ⟨v, rfl⟩ : ∃ v, u = v + 1 := ⟨u - 1, by omega⟩
            have hn' : rs.height + v * (env.height + 1) ≤ n := by
              rw [Nat.add_mul] at hn; omega
            have fin : ∀ res : FRes, Res (fun _ st' => uncached env st'.cache ≤ v) (· ≠ .deep) res →
                Res (fun _ st' => uncached env st'.cache ≤ v + 1) (· ≠ .deep) (match res with
                  | .error e => (.error e : FRes)
                  | .ok (t, st2) => .ok (preserveFields t s, { st2 with cache := GoMap.put st2.cache id t })) := by
              intro res h
              cases res with
              | error e => exact h
              | ok r =>
                obtain ⟨t, st2⟩ := r
                exact Nat.le_trans uncached_put (Nat.le_succ_of_le h)
            apply fin
            cases hrr : rs.refOf with
            | none => exact kids id.pkg rs _ v (by simp only; omega) (by omega)
            | some r' =>
              simp only
              by_cases hse : r' ∈ seen
              · rw [if_pos hse]; exact kids id.pkg rs _ v (by simp only; omega) (by omega)
              · rw [if_neg hse]; exact ih id.pkg _ rs _ v (by simp only; omega) hn'

theorem uncached_le (env : Env) (cache : List (TypeIdent × Schema)) : uncached env cache ≤ env.schemata.length := List.countP_le_length

theorem bound_enough (env : Env) (σ : Sched) (pkg : String) (seen : List String) (s : Schema) (st : FState) : walkRefs env σ (env.bound s) pkg seen s st ≠ .error .deep := by
  have := walkRefs_enough env σ (env.bound s) pkg seen s st env.schemata.length (uncached_le env _) (by unfold Env.bound; omega)
  intro he
  rw [he] at this
  exact this rfl

end Verif.Crd
