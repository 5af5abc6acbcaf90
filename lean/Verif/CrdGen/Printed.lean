import Verif.CrdGen.GenerateTheorems
import Verif.Crd.FlatGrow
import Verif.Crd.BreakTheorems

/-! # What the schemas in the files accept, lemmas -/
namespace Verif.CrdGen
open Spec
open Verif.Crd (Schema Base Items OrBool OrArray Src PState FState TypeIdent Env flattenType flattenEmbedded AnyVal Raw)
open Verif.Crd.Spec (envOf Valid ValidItems ValidPtr ValidOpt ValidTuple ValidAll ValidAny ValidOne ValidProps ValidPats ValidAddl ValidDeps BaseOk Meaning Json Reachable)

/-! ## Shorter descriptions -/

section
variable {M : Meaning} {g : Base → Base} (hg : ∀ b j, BaseOk M (g b) j ↔ BaseOk M b j)
include hg

mutual
theorem valid_walk : ∀ (s : Schema) (j : Json), Valid M (Desc.walkSchema g s) j ↔ Valid M s j
  | .mk b i a o n t p d q ds f df, j => by
    have keys : ∀ l : List (String × Schema), (Desc.walkMap g l).map (·.1) = l.map (·.1) := by
      intro l
      induction l with
      | nil => rfl
      | cons e l ih => obtain ⟨k, s⟩ := e; simp [Desc.walkMap, ih]
    have pats : ∀ k, (∀ e ∈ Desc.walkMap g q, ¬ M.matches_ e.1 k) ↔ ∀ e ∈ q, ¬ M.matches_ e.1 k := by
      intro k
      have h1 : (∀ x ∈ (Desc.walkMap g q).map (·.1), ¬ M.matches_ x k) ↔ ∀ x ∈ q.map (·.1), ¬ M.matches_ x k := by rw [keys]
      simpa [List.forall_mem_map] using h1
    have nil : ∀ l : List Schema, Desc.walkSlice g l = [] ↔ l = [] := by
      intro l; cases l <;> simp [Desc.walkSlice]
    have its : ∀ i : Option Items, ∀ k, (∃ its, Desc.walkItems g i = some its ∧ its.schema = none ∧ its.arr.length ≤ k) ↔ ∃ its, i = some its ∧ its.schema = none ∧ its.arr.length ≤ k := by
      intro i k
      match i with
      | none => simp [Desc.walkItems]
      | some (.mk s l) =>
        have hl : (Desc.walkSlice g l).length = l.length := by
          induction l with
          | nil => rfl
          | cons s l ih => simp [Desc.walkSlice, ih]
        cases s <;> simp [Desc.walkItems, Desc.walkPtr, Items.schema, Items.arr, hl]
    simp only [Desc.walkSchema, Valid, hg, valid_walkItems i, valid_walkAll a, valid_walkOne o, valid_walkAny n, valid_walkOpt t, valid_walkProps p, valid_walkAddl d, valid_walkPats q, valid_walkDeps ds,
      valid_walkAddl f, ne_eq, nil, keys, its, pats]
theorem valid_walkItems : ∀ (i : Option Items) (j : Json), ValidItems M (Desc.walkItems g i) j ↔ ValidItems M i j
  | none, _ => Iff.rfl
  | some (.mk s l), j => by simp only [Desc.walkItems, ValidItems, valid_walkPtr s, valid_walkTuple l]
theorem valid_walkPtr : ∀ (i : Option Schema) (j : Json), ValidPtr M (Desc.walkPtr g i) j ↔ ValidPtr M i j
  | none, _ => Iff.rfl
  | some s, j => by simp only [Desc.walkPtr, ValidPtr, valid_walk s]
theorem valid_walkOpt : ∀ (i : Option Schema) (j : Json), ValidOpt M (Desc.walkPtr g i) j ↔ ValidOpt M i j
  | none, _ => Iff.rfl
  | some s, j => by simp only [Desc.walkPtr, ValidOpt, valid_walk s]
theorem valid_walkTuple : ∀ (l : List Schema) (xs : List Json), ValidTuple M (Desc.walkSlice g l) xs ↔ ValidTuple M l xs
  | [], _ => by simp only [Desc.walkSlice, ValidTuple]
  | _ :: _, [] => by simp only [Desc.walkSlice, ValidTuple]
  | s :: l, x :: xs => by simp only [Desc.walkSlice, ValidTuple, valid_walk s, valid_walkTuple l]
theorem valid_walkAll : ∀ (l : List Schema) (j : Json), ValidAll M (Desc.walkSlice g l) j ↔ ValidAll M l j
  | [], _ => by simp only [Desc.walkSlice]
  | s :: l, j => by simp only [Desc.walkSlice, ValidAll, valid_walk s, valid_walkAll l]
theorem valid_walkAny : ∀ (l : List Schema) (j : Json), ValidAny M (Desc.walkSlice g l) j ↔ ValidAny M l j
  | [], _ => by simp only [Desc.walkSlice]
  | s :: l, j => by simp only [Desc.walkSlice, ValidAny, valid_walk s, valid_walkAny l]
theorem valid_walkOne : ∀ (l : List Schema) (j : Json), ValidOne M (Desc.walkSlice g l) j ↔ ValidOne M l j
  | [], _ => by simp only [Desc.walkSlice]
  | s :: l, j => by simp only [Desc.walkSlice, ValidOne, valid_walk s, valid_walkOne l, valid_walkAny l]
theorem valid_walkProps : ∀ (l : List (String × Schema)) (j : Json), ValidProps M (Desc.walkMap g l) j ↔ ValidProps M l j
  | [], _ => by simp only [Desc.walkMap]
  | (k, s) :: l, j => by simp only [Desc.walkMap, ValidProps, valid_walk s, valid_walkProps l]
theorem valid_walkPats : ∀ (l : List (String × Schema)) (j : Json), ValidPats M (Desc.walkMap g l) j ↔ ValidPats M l j
  | [], _ => by simp only [Desc.walkMap]
  | (k, s) :: l, j => by simp only [Desc.walkMap, ValidPats, valid_walk s, valid_walkPats l]
theorem valid_walkAddl : ∀ (o : Option OrBool) (vs : Json → Prop), ValidAddl M (Desc.walkOrBool g o) vs ↔ ValidAddl M o vs
  | none, _ => by simp only [Desc.walkOrBool]
  | some (.mk a none), vs => by simp only [Desc.walkOrBool, Desc.walkPtr]
  | some (.mk a (some s)), vs => by simp only [Desc.walkOrBool, Desc.walkPtr, ValidAddl, valid_walk s]
theorem valid_walkDeps : ∀ (l : List (String × OrArray)) (j : Json), ValidDeps M (Desc.walkDeps g l) j ↔ ValidDeps M l j
  | [], _ => by simp only [Desc.walkDeps]
  | (k, .mk s ps) :: l, j => by simp only [Desc.walkDeps, ValidDeps, valid_walkPtr s, valid_walkDeps l]
end
end

theorem baseOk_description {M : Meaning} {b : Base} {d : List UInt8} {j : Json} : BaseOk M { b with description := d } j ↔ BaseOk M b j :=
  ⟨fun h => ⟨h.1, h.2, h.3, h.4, h.5, h.6, h.7, h.8, h.9, h.10, h.11, h.12, h.13, h.14, h.15, h.16, h.17⟩,
   fun h => ⟨h.1, h.2, h.3, h.4, h.5, h.6, h.7, h.8, h.9, h.10, h.11, h.12, h.13, h.14, h.15, h.16, h.17⟩⟩

/-- Shorter descriptions change nothing about what is accepted. -/
theorem valid_truncate {M : Meaning} (T : Desc.Tables) (n : Int) (s : Schema) (j : Json) : Valid M (Desc.truncateDescription T n s) j ↔ Valid M s j := by
  unfold Desc.truncateDescription
  split
  · rfl
  · refine valid_walk (fun b j => ?_) s j
    unfold Desc.visitBase
    split
    · exact baseOk_description
    · split
      · exact baseOk_description
      · rfl

/-! ## Metadata -/

theorem mem_put_of {m : List (String × Schema)} {k k' : String} {v c : Schema} (h : (k', c) ∈ GoMap.put m k v) : (k' = k ∧ c = v) ∨ (k', c) ∈ m := by
  induction m with
  | nil => simp [GoMap.put] at h; exact .inl h
  | cons e m ih =>
    obtain ⟨a, b⟩ := e
    rw [GoMap.put] at h
    split at h
    · rcases List.mem_cons.1 h with h | h
      · cases h; exact .inl ⟨rfl, rfl⟩
      · exact .inr (List.mem_cons_of_mem _ h)
    · rcases List.mem_cons.1 h with h | h
      · exact .inr (h ▸ List.mem_cons_self ..)
      · exact (ih h).imp id (List.mem_cons_of_mem _)

theorem mem_put_ne {m : List (String × Schema)} {k k' : String} {v c : Schema} (hk : k' ≠ k) (h : (k', c) ∈ m) : (k', c) ∈ GoMap.put m k v := by
  induction m with
  | nil => cases h
  | cons e m ih =>
    obtain ⟨a, b⟩ := e
    rw [GoMap.put]
    split
    · rename_i e
      rcases List.mem_cons.1 h with h | h
      · cases h; exact absurd e hk
      · exact List.mem_cons_of_mem _ h
    · rcases List.mem_cons.1 h with h | h
      · exact h ▸ List.mem_cons_self ..
      · exact List.mem_cons_of_mem _ (ih h)

theorem get_mem {K : Type} [DecidableEq K] {m : List (K × Schema)} {k : K} {v : Schema} (h : GoMap.get m k = some v) : (k, v) ∈ m := by
  induction m with
  | nil => cases h
  | cons e m ih =>
    obtain ⟨a, b⟩ := e
    rw [GoMap.get] at h
    split at h
    · rename_i e; cases h; subst e; exact List.mem_cons_self ..
    · exact List.mem_cons_of_mem _ (ih h)

/-- The schema as it is printed. -/
def printed (s : Schema) : Schema := dropMetadataDescription (fixMetadata s)

theorem printed_eq (s : Schema) : printed s = s ∨ (∃ c, ("metadata", c) ∈ s.properties) ∧
    printed s = .mk s.base s.items s.allOf s.oneOf s.anyOf s.not (GoMap.put (GoMap.put s.properties "metadata" (.leaf { type := "object" })) "metadata" (.leaf { type := "object" }))
      s.additionalProperties s.patternProperties s.dependencies s.additionalItems s.definitions := by
  obtain ⟨b, it, al, oo, an, nt, pr, ad, pa, de, ai, df⟩ := s
  unfold printed
  cases hm : GoMap.get pr "metadata" with
  | none => left; unfold fixMetadata; simp only [hm]; unfold dropMetadataDescription; simp only [hm]
  | some t =>
    right
    refine ⟨⟨t, get_mem hm⟩, ?_⟩
    unfold fixMetadata; simp only [hm]; unfold dropMetadataDescription; simp only [GoMap.get_put, if_true, Schema.leaf]
    rfl

theorem valid_simple {M : Meaning} {x : Json} : Valid M (.leaf { type := "object" }) x ↔ ∃ m, x = .obj m := by
  constructor
  · intro h
    rcases (show BaseOk M { type := "object" } x from h.1).type with h | ⟨h, -⟩
    · exact h.2.2.2.2.2 rfl
    · cases h
  · rintro ⟨m, rfl⟩
    refine Crd.valid_by.2 (Crd.valid_leafBy ?_)
    constructor
    case type => left; exact ⟨by simp, by simp, by simp, by simp, by simp, fun _ => ⟨m, rfl⟩⟩
    all_goals simp [Crd.Spec.MaxOk, Crd.Spec.MinOk]

/-- The printed schema accepts what the schema accepts, as long as `metadata` is an object. -/
theorem printed_accepts {M : Meaning} {s : Schema} {j : Json} (h : Valid M s j) (hm : ∀ x, j.get "metadata" = some x → ∃ m, x = .obj m) : Valid M (printed s) j := by
  rcases printed_eq s with e | ⟨⟨c, hc⟩, e⟩
  · rw [e]; exact h
  · rw [e]
    obtain ⟨b, it, al, oo, an, nt, pr, ad, pa, de, ai, df⟩ := s
    have hk : (GoMap.put (GoMap.put pr "metadata" (.leaf { type := "object" })) "metadata" (.leaf { type := "object" })).map (·.1) = pr.map (·.1) := by
      have h1 : (pr.lookup "metadata").isSome := by
        rw [List.lookup_isSome_iff]
        exact ⟨_, hc, by simp⟩
      have h2 := Crd.keys_put (v := (.leaf { type := "object" } : Schema)) h1
      rw [Crd.keys_put, h2]
      rw [List.lookup_isSome_iff]
      have : "metadata" ∈ (GoMap.put pr "metadata" (.leaf { type := "object" } : Schema)).map (·.1) := by rw [h2]; exact List.mem_map.2 ⟨_, hc, rfl⟩
      obtain ⟨e, he, hk⟩ := List.mem_map.1 this
      exact ⟨e, he, by simp [hk]⟩
    obtain ⟨h1, h2, h3, h4, h5, h6, h7, h8, h9, h10, h11⟩ := h
    refine ⟨h1, h2, h3, h4, h5, h6, ?_, ?_, h9, h10, h11⟩
    · rw [Crd.validProps_iff] at h7 ⊢
      rintro ⟨k, c'⟩ he v hv
      rcases mem_put_of he with ⟨rfl, rfl⟩ | he
      · exact valid_simple.2 (hm v hv)
      · rcases mem_put_of he with ⟨rfl, rfl⟩ | he
        · exact valid_simple.2 (hm v hv)
        · exact h7 _ he v hv
    · simp only [Schema.properties, hk]; exact h8

/-- What the printed schema accepts is accepted by the schema, unless it is what the schema says of `metadata` that is not met. -/
theorem printed_rejects {M : Meaning} {s : Schema} {j : Json} (h : Valid M (printed s) j) (hm : ∀ c x, ("metadata", c) ∈ s.properties → j.get "metadata" = some x → Valid M c x) : Valid M s j := by
  rcases printed_eq s with e | ⟨⟨c, hc⟩, e⟩
  · rw [e] at h; exact h
  · rw [e] at h
    obtain ⟨b, it, al, oo, an, nt, pr, ad, pa, de, ai, df⟩ := s
    have hk : (GoMap.put (GoMap.put pr "metadata" (.leaf { type := "object" })) "metadata" (.leaf { type := "object" })).map (·.1) = pr.map (·.1) := by
      have h1 : (pr.lookup "metadata").isSome := by
        rw [List.lookup_isSome_iff]
        exact ⟨_, hc, by simp⟩
      have h2 := Crd.keys_put (v := (.leaf { type := "object" } : Schema)) h1
      rw [Crd.keys_put, h2]
      rw [List.lookup_isSome_iff]
      have : "metadata" ∈ (GoMap.put pr "metadata" (.leaf { type := "object" } : Schema)).map (·.1) := by rw [h2]; exact List.mem_map.2 ⟨_, hc, rfl⟩
      obtain ⟨e, he, hk⟩ := List.mem_map.1 this
      exact ⟨e, he, by simp [hk]⟩
    obtain ⟨h1, h2, h3, h4, h5, h6, h7, h8, h9, h10, h11⟩ := h
    refine ⟨h1, h2, h3, h4, h5, h6, ?_, ?_, h9, h10, h11⟩
    · rw [Crd.validProps_iff] at h7 ⊢
      rintro ⟨k, c'⟩ he v hv
      by_cases hkm : k = "metadata"
      · subst hkm; exact hm c' v he hv
      · exact h7 (k, c') (mem_put_ne hkm (mem_put_ne hkm he)) v hv
    · simp only [Schema.properties, hk] at h8; exact h8

end Verif.CrdGen
