import Verif.Rbac.Spec
import Verif.Common.Strings
/-! # Helper lemmas for the RBAC theorems -/
namespace Verif.Rbac
open Spec

/-! ## `removeDupAndSort` -/

/-- The map iteration order inside `removeDupAndSort` is irrelevant. -/
theorem removeDupAndSortWith_eq (ord : List String → List String) (h : ∀ l, (ord l).Perm l)
    (l : List String) : removeDupAndSortWith ord l = removeDupAndSort l :=
  sortStrings_perm_eq (h _)

@[simp] theorem mem_rds {l : List String} {s : String} : s ∈ removeDupAndSort l ↔ s ∈ l := by
  simp [removeDupAndSort, removeDupAndSortWith, sortStrings, mem_sortBy, List.mem_eraseDups]

theorem rds_nodup (l : List String) : (removeDupAndSort l).Nodup := by
  simp only [removeDupAndSort, removeDupAndSortWith, sortStrings, nodup_sortBy]
  exact nodup_eraseDups l

theorem rds_sorted (l : List String) :
    (removeDupAndSort l).Pairwise (fun x y => strLe x y = true) :=
  sortBy_pairwise strLe_trans strLe_total _

theorem rds_congr {a b : List String} (h : ∀ s, s ∈ a ↔ s ∈ b) :
    removeDupAndSort a = removeDupAndSort b :=
  sorted_nodup_ext (rds_sorted a) (rds_sorted b) (rds_nodup a) (rds_nodup b) (by simpa using h)

@[simp] theorem rds_rds (l : List String) :
    removeDupAndSort (removeDupAndSort l) = removeDupAndSort l := rds_congr (by simp)

@[simp] theorem rds_nil : removeDupAndSort [] = [] := rfl

theorem rds_eq_nil {l : List String} : removeDupAndSort l = [] ↔ l = [] := by
  constructor
  · intro h
    cases l with
    | nil => rfl
    | cons a l =>
      have : a ∈ removeDupAndSort (a :: l) := by simp
      rw [h] at this; exact absurd this (by simp)
  · rintro rfl; rfl

/-- Strictly increasing, which is what a duplicate-free sorted list is. -/
theorem rds_strict (l : List String) : (removeDupAndSort l).Pairwise (· < ·) := by
  have h := List.pairwise_and_iff.2 ⟨rds_sorted l, rds_nodup l⟩
  exact h.imp (fun h => strLt_iff.2 h)

/-! ## Normalised rules -/

/-- A rule in normal form. -/
def Norm (r : Rule) : Prop := r.normalize = r

@[simp] theorem normalize_norm (r : Rule) : Norm r.normalize := by
  simp [Norm, Rule.normalize]

theorem norm_fields {r : Rule} (h : Norm r) :
    removeDupAndSort r.groups = r.groups ∧ removeDupAndSort r.resources = r.resources ∧
    removeDupAndSort r.resourceNames = r.resourceNames ∧ removeDupAndSort r.verbs = r.verbs ∧
    removeDupAndSort r.urls = r.urls := by
  have h' : r.normalize = r := h
  refine ⟨congrArg Rule.groups h', congrArg Rule.resources h', congrArg Rule.resourceNames h',
    congrArg Rule.verbs h', congrArg Rule.urls h'⟩

theorem norm_eq_of_mem {a b : List String} (ha : removeDupAndSort a = a)
    (hb : removeDupAndSort b = b) (h : ∀ s, s ∈ a ↔ s ∈ b) : a = b := by
  rw [← ha, ← hb]; exact rds_congr h

/-! ## Fields -/

/-- The list stored in field `f`. -/
def Fld.get (f : Fld) (r : Rule) : List String :=
  match f with
  | .resources => r.resources
  | .groups => r.groups
  | .urls => r.urls

/-- Replace field `f`. -/
def Fld.set (f : Fld) (l : List String) (r : Rule) : Rule :=
  match f with
  | .resources => { r with resources := l }
  | .groups => { r with groups := l }
  | .urls => { r with urls := l }

/-- `r` and `s` agree on everything in the rule key except field `f` (and on the namespace). -/
def AgreeKey (f : Fld) (r s : Rule) : Prop :=
  (f ≠ .groups → r.groups = s.groups) ∧ (f ≠ .resources → r.resources = s.resources) ∧
  r.resourceNames = s.resourceNames ∧ (f ≠ .urls → r.urls = s.urls)

/-- `r` and `s` agree on everything except field `f`. -/
def Agree (f : Fld) (r s : Rule) : Prop :=
  AgreeKey f r s ∧ r.verbs = s.verbs

theorem AgreeKey.symm {f r s} (h : AgreeKey f r s) : AgreeKey f s r :=
  ⟨fun x => (h.1 x).symm, fun x => (h.2.1 x).symm, h.2.2.1.symm, fun x => (h.2.2.2 x).symm⟩

theorem AgreeKey.trans {f r s t} (h : AgreeKey f r s) (h' : AgreeKey f s t) : AgreeKey f r t :=
  ⟨fun x => (h.1 x).trans (h'.1 x), fun x => (h.2.1 x).trans (h'.2.1 x), h.2.2.1.trans h'.2.2.1,
    fun x => (h.2.2.2 x).trans (h'.2.2.2 x)⟩

theorem Agree.symm {f r s} (h : Agree f r s) : Agree f s r := ⟨h.1.symm, h.2.symm⟩

theorem Agree.trans {f r s t} (h : Agree f r s) (h' : Agree f s t) : Agree f r t :=
  ⟨h.1.trans h'.1, h.2.trans h'.2⟩

theorem Agree.refl (f r) : Agree f r r := ⟨⟨fun _ => rfl, fun _ => rfl, rfl, fun _ => rfl⟩, rfl⟩

theorem agree_set (f : Fld) (l : List String) (r : Rule) : Agree f (f.set l r) r := by
  cases f <;> refine ⟨⟨?_, ?_, ?_, ?_⟩, ?_⟩ <;> intros <;> first | rfl | (rename_i h; exact absurd rfl h)

@[simp] theorem get_set (f : Fld) (l : List String) (r : Rule) : f.get (f.set l r) = l := by
  cases f <;> rfl

/-- Agreement on everything, the merged field included, is equality (up to the namespace). -/
theorem Agree.eq {f r s} (h : Agree f r s) (hf : f.get r = f.get s) (hns : r.ns = s.ns) : r = s := by
  obtain ⟨⟨h1, h2, h3, h4⟩, h5⟩ := h
  cases r; cases s
  cases f <;> simp_all [Fld.get]

/-! ## Well-shaped rules -/

/-- The invariant on the rules in the intermediate maps. -/
structure Good (r : Rule) : Prop where
  norm : Norm r
  clean : CleanMarker r
  shape : ValidShape r

theorem toList_join (l : List String) : (join l).toList = ['&'].intercalate (l.map String.toList) := by
  simp [join]

theorem join_inj_of_ne {a b : List String} (ha : a ≠ []) (hb : b ≠ [])
    (sa : ∀ s ∈ a, CleanGroup s) (sb : ∀ s ∈ b, CleanGroup s) (h : join a = join b) : a = b := by
  have h' := congrArg String.toList h
  rw [toList_join, toList_join] at h'
  have := intercalate_inj (by simpa using ha) (by simpa using hb)
    (by
      intro s hs
      obtain ⟨t, ht, rfl⟩ := List.mem_map.1 hs
      exact fun hc => (sa t ht _ hc).1 rfl)
    (by
      intro s hs
      obtain ⟨t, ht, rfl⟩ := List.mem_map.1 hs
      exact fun hc => (sb t ht _ hc).1 rfl) h'
  exact (List.map_inj_right (fun x y hxy => String.toList_inj.1 hxy)).1 this

theorem join_eq_nil {a : List String} (sa : ∀ s ∈ a, CleanStr s) (h : join a = "") : a = [] := by
  cases a with
  | nil => rfl
  | cons x a =>
    have h' := congrArg String.toList h
    rw [toList_join] at h'
    have hx : x.toList ≠ [] := fun hx => (sa x (by simp)).1 (String.toList_inj.1 (by simpa using hx))
    cases a with
    | nil => simp [List.intercalate] at h'; exact absurd (by simpa using h') hx
    | cons y a =>
      simp only [List.map_cons, List.intercalate_cons_cons] at h'
      simp at h'

theorem join_inj {a b : List String} (sa : ∀ s ∈ a, CleanStr s) (sb : ∀ s ∈ b, CleanStr s)
    (h : join a = join b) : a = b := by
  by_cases ha : a = []
  · subst ha
    exact (join_eq_nil sb (by rw [← h]; rfl)).symm
  · by_cases hb : b = []
    · subst hb; exact join_eq_nil sa (by rw [h]; rfl)
    · exact join_inj_of_ne ha hb (fun s hs => (sa s hs).2) (fun s hs => (sb s hs).2) h

theorem join_nospace {a : List String} (sa : ∀ s ∈ a, CleanGroup s) : ' ' ∉ (join a).toList := by
  rw [toList_join]
  intro h
  rcases intercalate_mem h with h | ⟨s, hs, h⟩
  · exact absurd h (by decide)
  · obtain ⟨t, ht, rfl⟩ := List.mem_map.1 hs
    exact (sa t ht _ h).2 rfl

theorem plus_inj {a b s t : String} (ha : ' ' ∉ a.toList) (hb : ' ' ∉ b.toList)
    (h : a ++ " + " ++ s = b ++ " + " ++ t) : a = b ∧ s = t := by
  have h' := congrArg String.toList h
  have e : " + ".toList = [' ', '+', ' '] := rfl
  simp only [String.toList_append, e, List.append_assoc, List.cons_append, List.nil_append] at h'
  have := sep_inj ha hb h'
  refine ⟨String.toList_inj.1 this.1, String.toList_inj.1 ?_⟩
  simpa using this.2

theorem plus4_inj {a b c d a' b' c' d' : String} (ha : ' ' ∉ a.toList) (ha' : ' ' ∉ a'.toList)
    (hb : ' ' ∉ b.toList) (hb' : ' ' ∉ b'.toList) (hc : ' ' ∉ c.toList) (hc' : ' ' ∉ c'.toList)
    (h : a ++ " + " ++ b ++ " + " ++ c ++ " + " ++ d = a' ++ " + " ++ b' ++ " + " ++ c' ++ " + " ++ d') :
    a = a' ∧ b = b' ∧ c = c' ∧ d = d' := by
  simp only [String.append_assoc] at h
  have h1 := plus_inj (s := b ++ (" + " ++ (c ++ (" + " ++ d)))) (t := b' ++ (" + " ++ (c' ++ (" + " ++ d'))))
    ha ha' (by simpa only [String.append_assoc] using h)
  have h2 := plus_inj (s := c ++ (" + " ++ d)) (t := c' ++ (" + " ++ d')) hb hb'
    (by simpa only [String.append_assoc] using h1.2)
  have h3 := plus_inj (s := d) (t := d') hc hc' (by simpa only [String.append_assoc] using h2.2)
  exact ⟨h1.1, h2.1, h3.1, h3.2⟩

theorem clean_group {l : List String} (h : ∀ s ∈ l, CleanStr s) : ∀ s ∈ l, CleanGroup s :=
  fun s hs => (h s hs).2

/-- For well-shaped rules with the same resources and URLs, group lists are determined by their join. -/
theorem groups_inj {r s : Rule} (hr : Good r) (hs : Good s)
    (he : r.urls = s.urls ∨ r.resources = s.resources) (h : join r.groups = join s.groups) :
    r.groups = s.groups := by
  rcases hr.shape with ⟨h1, h2, h3⟩ | ⟨h1, h2, h3, h4⟩ <;>
    rcases hs.shape with ⟨h1', h2', h3'⟩ | ⟨h1', h2', h3', h4'⟩
  · exact join_inj_of_ne h1 h1' hr.clean.groups hs.clean.groups h
  · rcases he with he | he
    · rw [h3] at he; exact absurd he.symm h4'
    · rw [h2'] at he; exact absurd he h2
  · rcases he with he | he
    · rw [h3'] at he; exact absurd he h4
    · rw [h2] at he; exact absurd he.symm h2'
  · rw [h1, h1']

theorem key_inj {r s : Rule} (hr : Good r) (hs : Good s) (h : r.key = s.key) :
    r.groups = s.groups ∧ r.resources = s.resources ∧ r.resourceNames = s.resourceNames ∧
      r.urls = s.urls := by
  simp only [Rule.key, RuleKey.mk.injEq] at h
  obtain ⟨h1, h2, h3, h4⟩ := h
  have e2 := join_inj hr.clean.resources hs.clean.resources h2
  exact ⟨groups_inj hr hs (.inr e2) h1, e2, join_inj hr.clean.names hs.clean.names h3,
    join_inj hr.clean.urls hs.clean.urls h4⟩

theorem keyWithout_inj {f : Fld} {r s : Rule} (hr : Good r) (hs : Good s)
    (h : r.keyWithout f = s.keyWithout f) : Agree f r s := by
  have gr := join_nospace hr.clean.groups
  have gs := join_nospace hs.clean.groups
  have rr := join_nospace (clean_group hr.clean.resources)
  have rs := join_nospace (clean_group hs.clean.resources)
  have nr := join_nospace (clean_group hr.clean.names)
  have ns := join_nospace (clean_group hs.clean.names)
  have ur := join_nospace (clean_group hr.clean.urls)
  have us := join_nospace (clean_group hs.clean.urls)
  cases f with
  | resources =>
    obtain ⟨a, b, c, d⟩ := plus4_inj gr gs nr ns ur us h
    have eu := join_inj hr.clean.urls hs.clean.urls c
    exact ⟨⟨fun _ => groups_inj hr hs (.inl eu) a, fun x => absurd rfl x,
      join_inj hr.clean.names hs.clean.names b, fun _ => eu⟩, join_inj hr.clean.verbs hs.clean.verbs d⟩
  | groups =>
    obtain ⟨a, b, c, d⟩ := plus4_inj rr rs nr ns ur us h
    exact ⟨⟨fun x => absurd rfl x, fun _ => join_inj hr.clean.resources hs.clean.resources a,
      join_inj hr.clean.names hs.clean.names b, fun _ => join_inj hr.clean.urls hs.clean.urls c⟩,
      join_inj hr.clean.verbs hs.clean.verbs d⟩
  | urls =>
    obtain ⟨a, b, c, d⟩ := plus4_inj gr gs rr rs nr ns h
    have er := join_inj hr.clean.resources hs.clean.resources b
    exact ⟨⟨fun _ => groups_inj hr hs (.inr er) a, fun _ => er,
      join_inj hr.clean.names hs.clean.names c, fun x => absurd rfl x⟩,
      join_inj hr.clean.verbs hs.clean.verbs d⟩

theorem keyWithout_congr {f : Fld} {r s : Rule} (h : Agree f r s) :
    r.keyWithout f = s.keyWithout f := by
  obtain ⟨⟨h1, h2, h3, h4⟩, h5⟩ := h
  cases f <;> simp_all [Rule.keyWithout]

theorem key_congr {r s : Rule} (h1 : r.groups = s.groups) (h2 : r.resources = s.resources)
    (h3 : r.resourceNames = s.resourceNames) (h4 : r.urls = s.urls) : r.key = s.key := by
  simp [Rule.key, *]

theorem print_inj {r s : Rule} (hr : Good r) (hs : Good s) (h : r.key.print = s.key.print) :
    r.key = s.key := by
  obtain ⟨a, b, c, d⟩ := plus4_inj (join_nospace hr.clean.groups) (join_nospace hs.clean.groups)
    (join_nospace (clean_group hr.clean.resources)) (join_nospace (clean_group hs.clean.resources))
    (join_nospace (clean_group hr.clean.names)) (join_nospace (clean_group hs.clean.names)) h
  simp only [Rule.key, RuleKey.mk.injEq]
  exact ⟨a, b, c, d⟩

end Verif.Rbac
