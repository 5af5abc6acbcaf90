import Verif.Crd.FlatExpand

/-! # Flattening keeps the meaning -/
namespace Verif.Crd
open Spec

theorem validTuple_iff {M : Meaning} : ∀ {l : List Schema} {xs : List Json}, ValidTuple M l xs ↔ ∀ (n : Nat) c x, l[n]? = some c → xs[n]? = some x → Valid M c x
  | [], _ => by simp [ValidTuple]
  | _ :: _, [] => by simp [ValidTuple]
  | s :: l, x :: xs => by
    rw [ValidTuple, validTuple_iff]
    constructor
    · rintro ⟨h1, h2⟩ n c y hc hy
      cases n with
      | zero => simp at hc hy; subst hc; subst hy; exact h1
      | succ n => exact h2 n c y (by simpa using hc) (by simpa using hy)
    · intro h
      exact ⟨h 0 s x rfl rfl, fun n c y hc hy => h (n + 1) c y (by simpa using hc) (by simpa using hy)⟩

theorem validItems_iff {M : Meaning} {o : Option Items} {j : Json} : ValidItems M o j ↔
    (∀ i xs c x, o = some i → j = .arr xs → i.schema = some c → x ∈ xs → Valid M c x) ∧
    ∀ i xs (n : Nat) c x, o = some i → j = .arr xs → i.arr[n]? = some c → xs[n]? = some x → Valid M c x := by
  cases o with
  | none => simp [ValidItems]
  | some i =>
    obtain ⟨s, l⟩ := i
    rw [ValidItems]
    constructor
    · intro h
      refine ⟨?_, ?_⟩
      · rintro i xs c x hi rfl hc hx
        cases hi
        have := (h xs rfl).1 x hx
        obtain rfl : s = some c := hc
        exact this
      · rintro i xs n c x hi rfl hc hx
        cases hi
        exact validTuple_iff.1 (h xs rfl).2 n c x hc hx
    · rintro ⟨h1, h2⟩ xs rfl
      refine ⟨fun x hx => ?_, validTuple_iff.2 fun n c x => h2 _ xs n c x rfl rfl⟩
      cases s with
      | none => trivial
      | some c => exact h1 _ xs c x rfl rfl rfl hx

theorem validOne_iff {M : Meaning} {j : Json} : ∀ {l : List Schema}, ValidOne M l j ↔
    ∃ (n : Nat) (c : Schema), l[n]? = some c ∧ Valid M c j ∧ ∀ (n' : Nat) (c' : Schema), l[n']? = some c' → Valid M c' j → n' = n
  | [] => by simp [ValidOne]
  | s :: l => by
    rw [ValidOne, validOne_iff, validAny_iff]
    constructor
    · rintro (⟨h1, h2⟩ | ⟨h1, n, c, hc, hv, hu⟩)
      · refine ⟨0, s, rfl, h1, fun n c hc hv => ?_⟩
        cases n with
        | zero => rfl
        | succ n => exact absurd ⟨c, List.mem_of_getElem? (by simpa using hc), hv⟩ h2
      · refine ⟨n + 1, c, by simpa using hc, hv, fun n' c' hc' hv' => ?_⟩
        cases n' with
        | zero => simp at hc'; subst hc'; exact absurd hv' h1
        | succ n' => rw [hu n' c' (by simpa using hc') hv']
    · rintro ⟨n, c, hc, hv, hu⟩
      cases n with
      | zero =>
        simp at hc; subst hc
        refine .inl ⟨hv, ?_⟩
        rintro ⟨d, hd, hvd⟩
        obtain ⟨i, hi⟩ := List.mem_iff_getElem?.1 hd
        have := hu (i + 1) d (by simpa using hi) hvd
        omega
      | succ n =>
        refine .inr ⟨fun hs => ?_, n, c, by simpa using hc, hv, fun n' c' hc' hv' => ?_⟩
        · have := hu 0 s rfl hs; omega
        · have := hu (n' + 1) c' (by simpa using hc') hv'; omega

theorem validAddl_iff {M : Meaning} {o : Option OrBool} {vs : Json → Prop} : ValidAddl M o vs ↔
    ∀ v, vs v → o ≠ some (.mk false none) ∧ ∀ a c, o = some (.mk a (some c)) → Valid M c v := by
  cases o with
  | none => simp [ValidAddl]
  | some o =>
    obtain ⟨a, s⟩ := o
    cases s with
    | none =>
      rw [ValidAddl]
      constructor
      · rintro h v hv
        refine ⟨fun e => ?_, nofun⟩
        cases e
        rcases h with h | h
        · cases h
        · exact h v hv
      · intro h
        cases a with
        | true => exact .inl rfl
        | false => exact .inr fun v hv => (h v hv).1 rfl
    | some c =>
      rw [ValidAddl]
      constructor
      · intro h v hv
        exact ⟨nofun, fun a' c' e => by cases e; exact h v hv⟩
      · intro h v hv
        exact (h v hv).2 a c rfl

theorem validPats_iff {M : Meaning} {j : Json} : ∀ {l : List (String × Schema)}, ValidPats M l j ↔
    ∀ p c m k v, (p, c) ∈ l → j = .obj m → (k, v) ∈ m → M.matches_ p k → Valid M c v
  | [] => by simp [ValidPats]
  | (p, s) :: l => by
    rw [ValidPats, validPats_iff]
    constructor
    · rintro ⟨h1, h2⟩ p' c m k v hm hj hk hp
      rcases List.mem_cons.1 hm with h | h
      · cases h; exact h1 m k v hj hk hp
      · exact h2 p' c m k v h hj hk hp
    · intro h
      exact ⟨fun m k v => h p s m k v (List.mem_cons_self ..), fun p' c m k v hm => h p' c m k v (List.mem_cons_of_mem _ hm)⟩

theorem validDeps_iff {M : Meaning} {j : Json} : ∀ {l : List (String × OrArray)}, ValidDeps M l j ↔
    ∀ k o m, (k, o) ∈ l → j = .obj m → k ∈ m.map (·.1) → (∀ c, o.schema = some c → Valid M c j) ∧ ∀ p ∈ o.property, p ∈ m.map (·.1)
  | [] => by simp [ValidDeps]
  | (k, .mk s ps) :: l => by
    have hs : ValidPtr M s j ↔ ∀ c, (OrArray.mk s ps).schema = some c → Valid M c j := by
      cases s with
      | none => simp [ValidPtr, OrArray.schema]
      | some c => simp [ValidPtr, OrArray.schema]
    rw [ValidDeps, validDeps_iff, hs]
    constructor
    · rintro ⟨h1, h2⟩ k' o m hm hj hk
      rcases List.mem_cons.1 hm with h | h
      · cases h; exact h1 m hj hk
      · exact h2 k' o m h hj hk
    · intro h
      exact ⟨fun m => h k _ m (List.mem_cons_self ..), fun k' o m hm => h k' o m (List.mem_cons_of_mem _ hm)⟩

/-- The two descriptions of validity agree. -/
theorem valid_by {M : Meaning} {s : Schema} {j : Json} : Valid M s j ↔ ValidBy M (Valid M) s j := by
  rw [valid_iff, validItems_iff, validAll_iff, validOne_iff, validAny_iff, validProps_iff, validAddl_iff, validPats_iff, validDeps_iff, validAddl_iff]
  have hnot : ¬ ValidOpt M s.not j ↔ ∀ c, s.not = some c → ¬ Valid M c j := by
    cases s.not with
    | none => simp [ValidOpt]
    | some c => simp [ValidOpt]
  rw [hnot]
  constructor
  · rintro ⟨h1, ⟨h2, h3⟩, h4, h5, h6, h7, h8, h9, h10, h11, h12⟩
    exact ⟨h1, h2, h3, h4, h5, h6, h7, fun k c v hk => h8 (k, c) hk v, fun m k v hj hm hk hp => h9 v ⟨k, m, hj, hm, hk, hp⟩, h10, h11,
      fun its l n v hi hs hn hj hv => h12 v ⟨l, n, hj, hv, its, hi, hs, hn⟩⟩
  · intro h
    refine ⟨h.plain, ⟨h.items, h.tuple⟩, h.allOf, h.oneOf, h.anyOf, h.not, fun e he v => h.properties e.1 e.2 v he, ?_, h.patterns, h.dependencies, ?_⟩
    · rintro v ⟨k, m, hj, hm, hk, hp⟩; exact h.additional m k v hj hm hk hp
    · rintro v ⟨l, n, hj, hv, its, hi, hs, hn⟩; exact h.additionalItems its l n v hi hs hn hj hv

theorem validBy_congr' {M : Meaning} {W W' : Schema → Json → Prop} {s : Schema} (h : ∀ c, Child s c → ∀ j, W c j ↔ W' c j) {j : Json} (hv : ValidBy M W s j) :
    ValidBy M W' s j where
  plain := hv.plain
  items i xs c x hi hj hc hx := (h c (.items hi hc) x).1 (hv.items i xs c x hi hj hc hx)
  tuple i xs n c x hi hj hc hx := (h c (.itemsArr hi (List.mem_of_getElem? hc)) x).1 (hv.tuple i xs n c x hi hj hc hx)
  allOf c hc := (h c (.allOf hc) j).1 (hv.allOf c hc)
  oneOf hne := by
    obtain ⟨n, c, hc, hw, hu⟩ := hv.oneOf hne
    exact ⟨n, c, hc, (h c (.oneOf (List.mem_of_getElem? hc)) j).1 hw, fun n' c' hc' hw' => hu n' c' hc' ((h c' (.oneOf (List.mem_of_getElem? hc')) j).2 hw')⟩
  anyOf hne := by
    obtain ⟨c, hc, hw⟩ := hv.anyOf hne
    exact ⟨c, hc, (h c (.anyOf hc) j).1 hw⟩
  not c hc hw := hv.not c hc ((h c (.not hc) j).2 hw)
  properties k c v hk hg := (h c (.property hk) v).1 (hv.properties k c v hk hg)
  additional m k v hj hm hk hp :=
    ⟨(hv.additional m k v hj hm hk hp).1, fun a c ha => (h c (.additionalProperties ha rfl) v).1 ((hv.additional m k v hj hm hk hp).2 a c ha)⟩
  patterns p c m k v hp hj hm hM := (h c (.patternProperty hp) v).1 (hv.patterns p c m k v hp hj hm hM)
  dependencies k o m hk hj hm := ⟨fun c hc => (h c (.dependency hk hc) j).1 ((hv.dependencies k o m hk hj hm).1 c hc), (hv.dependencies k o m hk hj hm).2⟩
  additionalItems its l n v hi hs hn hj hl :=
    ⟨(hv.additionalItems its l n v hi hs hn hj hl).1, fun a c ha => (h c (.additionalItems ha rfl) v).1 ((hv.additionalItems its l n v hi hs hn hj hl).2 a c ha)⟩

/-- Validity by what the schemas directly below accept. -/
theorem validBy_congr {M : Meaning} {W W' : Schema → Json → Prop} {s : Schema} (h : ∀ c, Child s c → ∀ j, W c j ↔ W' c j) {j : Json} :
    ValidBy M W s j ↔ ValidBy M W' s j :=
  ⟨validBy_congr' h, validBy_congr' fun c hc j => (h c hc j).symm⟩

theorem mem_lookup {α : Type} {m : List (String × α)} {k : String} {v : α} (hn : (m.map (·.1)).Nodup) (h : (k, v) ∈ m) : m.lookup k = some v := by
  rw [lookup_eq_get]; exact (GoMap.get_eq_some hn).2 h

theorem _root_.Verif.Crd.Spec.Keys.frame {s t : Schema} (hk : Keys s) (h : Frame s t) : Keys t := by
  refine ⟨h.properties ▸ hk.1, h.patternProperties ▸ hk.2, ?_, h.definitions ▸ hk.4⟩
  have := congrArg (List.map (·.1)) h.dependencies
  simp only [List.map_map] at this
  have h2 : t.dependencies.map (·.1) = s.dependencies.map (·.1) := this
  rw [h2]; exact hk.3

/-- With distinct keys, the schemas directly below are those at the places. -/
theorem step_of_child {s c : Schema} (hk : Keys s) (h : Child s c) : ∃ p, s.child p = some c := by
  cases h with
  | items h1 h2 => exact ⟨.items, by rw [Schema.child, h1]; exact h2⟩
  | itemsArr h1 h2 =>
    obtain ⟨n, hn⟩ := List.mem_iff_getElem?.1 h2
    exact ⟨.itemsAt n, by rw [Schema.child, h1]; exact hn⟩
  | allOf h => obtain ⟨n, hn⟩ := List.mem_iff_getElem?.1 h; exact ⟨.allOf n, hn⟩
  | oneOf h => obtain ⟨n, hn⟩ := List.mem_iff_getElem?.1 h; exact ⟨.oneOf n, hn⟩
  | anyOf h => obtain ⟨n, hn⟩ := List.mem_iff_getElem?.1 h; exact ⟨.anyOf n, hn⟩
  | not h => exact ⟨.not, h⟩
  | @property k _ h => exact ⟨.property k, mem_lookup hk.1 h⟩
  | additionalProperties h1 h2 => exact ⟨.additionalProperties, by rw [Schema.child, h1]; exact h2⟩
  | @patternProperty k _ h => exact ⟨.patternProperty k, mem_lookup hk.2 h⟩
  | @dependency k _ _ h1 h2 => exact ⟨.dependency k, by rw [Schema.child, mem_lookup hk.3 h1]; exact h2⟩
  | additionalItems h1 h2 => exact ⟨.additionalItems, by rw [Schema.child, h1]; exact h2⟩
  | @definition k _ h => exact ⟨.definition k, mem_lookup hk.4 h⟩

/-- The schemas at the same places accept the same values. -/
def Same (W' W : Schema → Json → Prop) (s t : Schema) : Prop :=
  (∀ p, s.child p = none → t.child p = none) ∧ ∀ p c, s.child p = some c → ∃ c', t.child p = some c' ∧ ∀ j, W' c' j ↔ W c j

theorem Same.symm {W' W : Schema → Json → Prop} {s t : Schema} (h : Same W' W s t) : Same W W' t s := by
  refine ⟨fun p hp => ?_, fun p c hp => ?_⟩
  · cases hs : s.child p with
    | none => rfl
    | some c => obtain ⟨c', hc', -⟩ := h.2 p c hs; rw [hp] at hc'; cases hc'
  · cases hs : s.child p with
    | none => rw [h.1 p hs] at hp; cases hp
    | some d =>
      obtain ⟨c', hc', hi⟩ := h.2 p d hs
      rw [hp] at hc'; cases hc'
      exact ⟨d, rfl, fun j => (hi j).symm⟩

theorem mem_keys_of {α : Type} {m : List (String × α)} {k : String} (h : k ∈ m.map (·.1)) : ∃ v, (k, v) ∈ m := by
  obtain ⟨e, he, rfl⟩ := List.mem_map.1 h; exact ⟨e.2, he⟩

theorem validBy_frame' {M : Meaning} {W W' : Schema → Json → Prop} {s t : Schema} (hk : Keys s) (hf : Frame s t) (h : Same W' W s t) {j : Json} (hv : ValidBy M W' t j) :
    ValidBy M W s j := by
  have hkt := hk.frame hf
  have get : ∀ {p c}, s.child p = some c → ∃ c', t.child p = some c' ∧ ∀ j, W' c' j ↔ W c j := fun {p c} => h.2 p c
  have itm : ∀ i, s.items = some i → ∃ i', t.items = some i' := by
    intro i hi
    have := hf.items
    rw [hi] at this
    cases ht : t.items with
    | none => rw [ht] at this; cases this
    | some i' => exact ⟨i', rfl⟩
  have orb : ∀ {o o' : Option OrBool}, o'.map OrBool.allows = o.map OrBool.allows → (o.bind OrBool.schema = none → o'.bind OrBool.schema = none) →
      o = some (.mk false none) → o' = some (.mk false none) := by
    intro o o' h1 h2 h3
    subst h3
    cases o' with
    | none => cases h1
    | some x =>
      obtain ⟨a, y⟩ := x
      have ha : a = false := by simpa [OrBool.allows] using h1
      have hy : y = none := h2 rfl
      rw [ha, hy]
  have orc : ∀ {o : Option OrBool} {c : Schema}, o.bind OrBool.schema = some c → ∃ a, o = some (.mk a (some c)) := by
    intro o c h
    obtain ⟨x, hx, hc⟩ := Option.bind_eq_some_iff.1 h
    obtain ⟨a, y⟩ := x
    obtain rfl : y = some c := hc
    exact ⟨a, hx⟩
  refine ⟨hf.base ▸ hv.plain, ?_, ?_, ?_, ?_, ?_, ?_, ?_, ?_, ?_, ?_, ?_⟩
  · intro i xs c x hi hj hc hx
    obtain ⟨c', hc', hw⟩ := get (p := .items) (c := c) (by rw [Schema.child, hi]; exact hc)
    obtain ⟨i', hi', hs'⟩ := Option.bind_eq_some_iff.1 hc'
    exact (hw x).1 (hv.items i' xs c' x hi' hj hs' hx)
  · intro i xs n c x hi hj hc hx
    obtain ⟨c', hc', hw⟩ := get (p := .itemsAt n) (c := c) (by rw [Schema.child, hi]; exact hc)
    obtain ⟨l, hl, hs'⟩ := Option.bind_eq_some_iff.1 hc'
    obtain ⟨i', hi', rfl⟩ := Option.map_eq_some_iff.1 hl
    exact (hw x).1 (hv.tuple i' xs n c' x hi' hj hs' hx)
  · intro c hc
    obtain ⟨n, hn⟩ := List.mem_iff_getElem?.1 hc
    obtain ⟨c', hc', hw⟩ := get (p := .allOf n) (c := c) hn
    exact (hw j).1 (hv.allOf c' (List.mem_of_getElem? hc'))
  · intro hne
    obtain ⟨c, hc⟩ := List.exists_mem_of_ne_nil _ hne
    obtain ⟨n, hn⟩ := List.mem_iff_getElem?.1 hc
    obtain ⟨c', hc', -⟩ := get (p := .oneOf n) (c := c) hn
    obtain ⟨n, d, hd, hw, hu⟩ := hv.oneOf (List.ne_nil_of_mem (List.mem_of_getElem? hc'))
    obtain ⟨d', hd', hw'⟩ := h.symm.2 (.oneOf n) d hd
    refine ⟨n, d', hd', (hw' j).2 hw, fun n' e he hwe => ?_⟩
    obtain ⟨e', he', hwe'⟩ := get (p := .oneOf n') (c := e) he
    exact hu n' e' he' ((hwe' j).2 hwe)
  · intro hne
    obtain ⟨c, hc⟩ := List.exists_mem_of_ne_nil _ hne
    obtain ⟨n, hn⟩ := List.mem_iff_getElem?.1 hc
    obtain ⟨c', hc', -⟩ := get (p := .anyOf n) (c := c) hn
    obtain ⟨d, hd, hw⟩ := hv.anyOf (List.ne_nil_of_mem (List.mem_of_getElem? hc'))
    obtain ⟨n, hn⟩ := List.mem_iff_getElem?.1 hd
    obtain ⟨d', hd', hw'⟩ := h.symm.2 (.anyOf n) d hn
    exact ⟨d', List.mem_of_getElem? hd', (hw' j).2 hw⟩
  · intro c hc hw
    obtain ⟨c', hc', hw'⟩ := get (p := .not) (c := c) hc
    exact hv.not c' hc' ((hw' j).2 hw)
  · intro k c v hm hg
    obtain ⟨c', hc', hw'⟩ := get (p := .property k) (c := c) (mem_lookup hk.1 hm)
    exact (hw' v).1 (hv.properties k c' v (lookup_some_mem hc') hg)
  · intro m k v hj hm hnk hp
    have := hv.additional m k v hj hm (hf.properties ▸ hnk) (by
      intro e he hM
      have : e.1 ∈ s.patternProperties.map (·.1) := hf.patternProperties ▸ List.mem_map.2 ⟨e, he, rfl⟩
      obtain ⟨x, hx⟩ := mem_keys_of this
      exact hp _ hx hM)
    refine ⟨fun e => this.1 (orb hf.additionalProperties (fun hh => h.1 .additionalProperties hh) e), fun a c ha => ?_⟩
    obtain ⟨c', hc', hw'⟩ := get (p := .additionalProperties) (c := c) (by rw [Schema.child, ha]; rfl)
    obtain ⟨a', ha'⟩ := orc hc'
    exact (hw' v).1 (this.2 a' c' ha')
  · intro p c m k v hp hj hm hM
    obtain ⟨c', hc', hw'⟩ := get (p := .patternProperty p) (c := c) (mem_lookup hk.2 hp)
    exact (hw' v).1 (hv.patterns p c' m k v (lookup_some_mem hc') hj hm hM)
  · intro k o m ho hj hkm
    have : (k, o.property) ∈ t.dependencies.map (fun e => (e.1, e.2.property)) := by
      rw [hf.dependencies]; exact List.mem_map.2 ⟨(k, o), ho, rfl⟩
    obtain ⟨⟨k', o'⟩, ho', he⟩ := List.mem_map.1 this
    simp only [Prod.mk.injEq] at he
    obtain ⟨rfl, he⟩ := he
    have hd := hv.dependencies k' o' m ho' hj hkm
    refine ⟨fun c hc => ?_, he ▸ hd.2⟩
    obtain ⟨c', hc', hw'⟩ := get (p := .dependency k') (c := c) (by rw [Schema.child, mem_lookup hk.3 ho]; exact hc)
    rw [Schema.child, mem_lookup hkt.3 ho'] at hc'
    exact (hw' j).1 (hd.1 c' hc')
  · intro its l n v hi hs hn hj hl
    obtain ⟨i', hi'⟩ := itm its hi
    have hs' : i'.schema = none := by
      have := h.1 .items (by rw [Schema.child, hi]; exact hs)
      rw [Schema.child, hi'] at this; exact this
    have hlen : i'.arr.length ≤ n := by
      rcases Nat.lt_or_ge n i'.arr.length with hlt | hge
      · exfalso
        have h1 := h.1 (.itemsAt n) (by rw [Schema.child, hi]; simpa using hn)
        rw [Schema.child, hi'] at h1
        have : i'.arr[n]? = none := h1
        rw [List.getElem?_eq_none_iff] at this
        omega
      · exact hge
    have := hv.additionalItems i' l n v hi' hs' hlen hj hl
    refine ⟨fun e => this.1 (orb hf.additionalItems (fun hh => h.1 .additionalItems hh) e), fun a c ha => ?_⟩
    obtain ⟨c', hc', hw'⟩ := get (p := .additionalItems) (c := c) (by rw [Schema.child, ha]; rfl)
    obtain ⟨a', ha'⟩ := orc hc'
    exact (hw' v).1 (this.2 a' c' ha')

theorem validBy_frame {M : Meaning} {W W' : Schema → Json → Prop} {s t : Schema} (hk : Keys s) (hf : Frame s t) (h : Same W' W s t) {j : Json} :
    ValidBy M W' t j ↔ ValidBy M W s j :=
  ⟨validBy_frame' hk hf h, validBy_frame' (hk.frame hf) hf.symm h.symm⟩

theorem baseOk_docs {M : Meaning} {b : Base} {j : Json} (h : b = { description := b.description, title := b.title, externalDocs := b.externalDocs, example_ := b.example_ }) :
    BaseOk M b j := by
  rw [h]
  exact ⟨.inl (by simp [HasType]), fun h => absurd rfl h, nofun, nofun, nofun, nofun, nofun, fun _ _ h => absurd rfl h, nofun, nofun, nofun, nofun, nofun, nofun,
    fun h => absurd rfl h, nofun, nofun⟩

theorem valid_preserve {M : Meaning} {t s : Schema} {j : Json} : Valid M (preserveFields t s) j ↔ Valid M t j ∧ Valid M (stripField s) j := by
  rw [valid_iff]
  simp [preserveFields, Schema.base_mk, Schema.items_mk, Schema.allOf_mk, Schema.oneOf_mk, Schema.anyOf_mk, Schema.not_mk, Schema.properties_mk,
    Schema.additionalProperties_mk, Schema.patternProperties_mk, Schema.dependencies_mk, Schema.additionalItems_mk, ValidItems, ValidAll, ValidOpt,
    ValidProps, ValidAddl, ValidPats, ValidDeps]
  exact fun _ _ => baseOk_docs rfl

theorem validBy_strip {M : Meaning} {W : Schema → Json → Prop} {s : Schema} {j : Json} : ValidBy M W (stripField s) j ↔ ValidBy M W s j := by
  obtain ⟨b, it, al, oo, an, nt, pr, ad, pa, de, ai, df⟩ := s
  constructor
  · rintro ⟨h1, h2, h3, h4, h5, h6, h7, h8, h9, h10, h11, h12⟩
    refine ⟨?_, h2, h3, h4, h5, h6, h7, h8, h9, h10, h11, h12⟩
    obtain ⟨a1, a2, a3, a4, a5, a6, a7, a8, a9, a10, a11, a12, a13, a14, a15, a16, a17⟩ := h1
    exact ⟨a1, a2, a3, a4, a5, a6, a7, a8, a9, a10, a11, a12, a13, a14, a15, a16, a17⟩
  · rintro ⟨h1, h2, h3, h4, h5, h6, h7, h8, h9, h10, h11, h12⟩
    refine ⟨?_, h2, h3, h4, h5, h6, h7, h8, h9, h10, h11, h12⟩
    obtain ⟨a1, a2, a3, a4, a5, a6, a7, a8, a9, a10, a11, a12, a13, a14, a15, a16, a17⟩ := h1
    exact ⟨a1, a2, a3, a4, a5, a6, a7, a8, a9, a10, a11, a12, a13, a14, a15, a16, a17⟩

/-- Without references, any meaning is validity. -/
theorem noRef_meaning {M : Meaning} {env : Env} {V : String → Schema → Json → Prop} (hV : RefMeaning M env V) (q : String) :
    ∀ n s, s.height ≤ n → NoRef s → AllKeys env q s → ∀ j, Valid M s j ↔ V q s j := by
  intro n
  induction n with
  | zero => intro s h; cases s; rw [Schema.height] at h; omega
  | succ n ih =>
    intro s h hn hk j
    have hkk := hk _ _ .refl
    rw [valid_by, hV q s j, validBy_congr (W' := V q)]
    · refine ⟨fun h => ⟨h, ?_⟩, fun h => h.1⟩
      intro r id u hr
      rw [(noRef_iff.1 hn).1] at hr; cases hr
    · intro c hc j
      obtain ⟨p, hp⟩ := step_of_child hkk hc
      have := height_child hc
      exact ih c (by omega) ((noRef_iff.1 hn).2 p c hp) (keysReach hk (.child .refl hc)) j

theorem expand_meaning {M : Meaning} {env : Env} {V : String → Schema → Json → Prop} (hV : RefMeaning M env V) {q : String} {s t : Schema} (h : Expand env q s t) :
    AllKeys env q s → ∀ j, Valid M t j ↔ V q s j := by
  induction h with
  | @plain q s t g hr hf hc _ ih =>
    intro hk j
    rw [valid_by, hV q s j, validBy_frame (W := V q) (hk _ _ .refl) hf]
    · refine ⟨fun h => ⟨h, ?_⟩, fun h => h.1⟩
      intro r id u hr'
      rw [hr] at hr'; cases hr'
    · refine ⟨fun p hp => by rw [hc, hp]; rfl, fun p c hp => ⟨g p, by rw [hc, hp]; rfl, ?_⟩⟩
      exact ih p c hp (keysReach hk (.child .refl (child_of_step hp)))
  | @ref q s r id u t hr hl hb _ ih =>
    intro hk j
    have h1 := ih (keysReach hk (.ref .refl hr hl)) j
    rw [valid_preserve, h1, valid_by, validBy_strip, hV q s j, validBy_congr (W' := V q)]
    · constructor
      · rintro ⟨h2, h3⟩
        refine ⟨h3, fun r' id' u' hr' hl' => ?_⟩
        rw [hr] at hr'; cases hr'
        have e1 := hl.1.symm.trans hl'.1
        simp only [Found.ok.injEq] at e1; subst e1
        have e2 := hl.2.symm.trans hl'.2
        simp only [Option.some.injEq] at e2; subst e2
        exact h2
      · rintro ⟨h2, h3⟩
        exact ⟨h3 r id u hr hl, h2⟩
    · intro c hc j
      exact noRef_meaning hV q c.height c (Nat.le_refl _) (hb c hc) (keysReach hk (.child .refl hc)) j

/-! ## Meanings exist -/

/-- One step down: to a schema directly below, or to the type a reference leads to. -/
def Down (env : Env) (a b : String × Schema) : Prop :=
  (a.1 = b.1 ∧ Child b.2 a.2) ∨ ∃ r id, b.2.base.ref = some r ∧ Leads env b.1 r id a.2 ∧ a.1 = id.pkg

theorem down_acc {env : Env} (hac : Acyclic env) : ∀ n (stack : List TypeIdent), (env.schemata.countP fun e => decide (e.1 ∉ stack)) ≤ n → ∀ h pkg s, s.height ≤ h →
    (∀ id ∈ stack, ∃ u, env.raw id = some u ∧ Reach env id.pkg u pkg s) → Acc (Down env) (pkg, s) := by
  intro n
  induction n with
  | zero =>
    intro stack hcnt h
    induction h with
    | zero => intro pkg s hs; cases s; rw [Schema.height] at hs; omega
    | succ h ih =>
      intro pkg s hs hst
      constructor
      rintro ⟨q, t⟩ (⟨rfl, hc⟩ | ⟨r, id, hr, hl, rfl⟩)
      · have := height_child hc
        refine ih q t (by simp only at this; omega) (fun id hid => ?_)
        obtain ⟨u, hu, hre⟩ := hst id hid
        exact ⟨u, hu, .child hre hc⟩
      · exfalso
        have hmem := ident_mem hl.2
        have : id ∈ stack := by
          have h0 := List.countP_eq_zero.1 (Nat.le_zero.1 hcnt) _ hmem
          simpa using h0
        obtain ⟨u, hu, hre⟩ := hst id this
        exact hac id u pkg s r hu hre hr hl.1
  | succ n ihn =>
    intro stack hcnt h
    induction h with
    | zero => intro pkg s hs; cases s; rw [Schema.height] at hs; omega
    | succ h ih =>
      intro pkg s hs hst
      constructor
      rintro ⟨q, t⟩ (⟨rfl, hc⟩ | ⟨r, id, hr, hl, rfl⟩)
      · have := height_child hc
        refine ih q t (by simp only at this; omega) (fun id hid => ?_)
        obtain ⟨u, hu, hre⟩ := hst id hid
        exact ⟨u, hu, .child hre hc⟩
      · have hmem := ident_mem hl.2
        have hni : id ∉ stack := by
          intro hin
          obtain ⟨u, hu, hre⟩ := hst id hin
          exact hac id u pkg s r hu hre hr hl.1
        have hlt : (env.schemata.countP fun e => decide (e.1 ∉ id :: stack)) < env.schemata.countP fun e => decide (e.1 ∉ stack) := by
          apply countP_lt (a := (id, t)) _ hmem
          · simp
          · simpa using hni
          · intro e _ he
            simp only [List.mem_cons, not_or, decide_eq_true_eq] at he ⊢
            exact he.2
        refine ihn (id :: stack) (by omega) t.height id.pkg t (Nat.le_refl _) ?_
        intro id' hid'
        rcases List.mem_cons.1 hid' with rfl | hid'
        · exact ⟨t, hl.2, .refl⟩
        · obtain ⟨u', hu', hre⟩ := hst id' hid'
          exact ⟨u', hu', .ref hre hr hl⟩

theorem down_wf {env : Env} (hac : Acyclic env) : WellFounded (Down env) :=
  ⟨fun a => down_acc hac _ [] (Nat.le_refl _) a.2.height a.1 a.2 (Nat.le_refl _) nofun⟩

/-- When no type refers to itself, schemas with references have a meaning. -/
theorem refMeaning_exists (M : Meaning) {env : Env} (hac : Acyclic env) : ∃ V, RefMeaning M env V := by
  let F : (x : String × Schema) → ((y : String × Schema) → Down env y x → Json → Prop) → Json → Prop := fun x rec j =>
    ValidBy M (fun c j => ∃ h : Child x.2 c, rec (x.1, c) (.inl ⟨rfl, h⟩) j) x.2 j ∧
      ∀ r id u, (hr : x.2.base.ref = some r) → (hl : Leads env x.1 r id u) → rec (id.pkg, u) (.inr ⟨r, id, hr, hl, rfl⟩) j
  refine ⟨fun pkg s j => (down_wf hac).fix F (pkg, s) j, fun pkg s j => ?_⟩
  show (down_wf hac).fix F (pkg, s) j ↔ _
  rw [WellFounded.fix_eq]
  show (ValidBy M _ s j ∧ _) ↔ _
  rw [validBy_congr (W' := fun c j => (down_wf hac).fix F (pkg, c) j)]
  intro c hc j
  exact ⟨fun ⟨_, h⟩ => h, fun h => ⟨hc, h⟩⟩

end Verif.Crd
