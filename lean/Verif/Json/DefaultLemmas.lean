import Verif.Json.Encode
import Verif.Json.Default
import Verif.Json.DefaultSpec
import Verif.Markers.ParseTheorems
/-! # Lemmas for C77 -/
namespace Verif.Json
open Spec

theorem J.ind {P : J → Prop} (null : P .null) (bool : ∀ b, P (.bool b)) (num : ∀ q, P (.num q)) (str : ∀ s, P (.str s))
    (arr : ∀ l, (∀ v ∈ l, P v) → P (.arr l)) (obj : ∀ m, (∀ e ∈ m, P e.2) → P (.obj m)) : ∀ v, P v
  | .null => null
  | .bool b => bool b
  | .num q => num q
  | .str s => str s
  | .arr l => arr l fun v _ => J.ind null bool num str arr obj v
  | .obj m => obj m fun e _ => J.ind null bool num str arr obj e.2
termination_by v => sizeOf v
decreasing_by
  · rename_i h
    have := List.sizeOf_lt_of_mem h
    simp only [J.arr.sizeOf_spec]
    omega
  · rename_i h
    have := List.sizeOf_lt_of_mem h
    have h2 : sizeOf e = 1 + sizeOf e.1 + sizeOf e.2 := by cases e; rfl
    simp only [J.obj.sizeOf_spec]
    omega

theorem itemsNums_eq (l : List J) : itemsNums l = l.flatMap J.nums := by
  induction l with
  | nil => rfl
  | cons j l ih => rw [itemsNums, ih]; rfl

theorem membersNums_eq (m : List (Str × J)) : membersNums m = m.flatMap fun e => e.2.nums := by
  induction m with
  | nil => rfl
  | cons j l ih => rw [membersNums, ih]; rfl

theorem itemsMap_eq (h : Rat → Rat) (l : List J) : itemsMap h l = l.map (J.mapNum h) := by
  induction l with
  | nil => rfl
  | cons j l ih => rw [itemsMap, ih]; rfl

theorem membersMap_eq (h : Rat → Rat) (m : List (Str × J)) : membersMap h m = m.map fun e => (e.1, e.2.mapNum h) := by
  induction m with
  | nil => rfl
  | cons j l ih => rw [membersMap, ih]; rfl

/-- All maps in a value are sorted. -/
inductive J.Ok : J → Prop
  | null : J.Ok .null
  | bool {b} : J.Ok (.bool b)
  | num {q} : J.Ok (.num q)
  | str {s} : J.Ok (.str s)
  | arr {l} : (∀ v ∈ l, J.Ok v) → J.Ok (.arr l)
  | obj {m} : Sorted m → (∀ e ∈ m, J.Ok e.2) → J.Ok (.obj m)

def MeaningOk : Meaning → Prop
  | .value j => j.Ok
  | .items l => ∀ j ∈ l, j.Ok
  | .members m => ∀ e ∈ m, e.2.Ok

theorem den_ok {x : Str} {m : Meaning} (h : Den x m) : MeaningOk m := by
  induction h with
  | null => exact .null
  | true_ => exact .bool
  | false_ => exact .bool
  | num _ => exact .num
  | str _ => exact .str
  | noItems _ => exact .arr fun _ h => nomatch h
  | arr _ ih => exact .arr ih
  | noMembers _ => exact .obj List.Pairwise.nil fun _ h => nomatch h
  | obj _ ih => exact .obj (sorted_mapOf _) fun e he => ih e (mem_mapOf he)
  | item _ _ _ ih => exact fun j hj => by rw [List.mem_singleton.1 hj]; exact ih
  | itemsMore _ _ _ _ ih1 ih2 =>
    intro j hj
    rcases List.mem_cons.1 hj with rfl | hj
    · exact ih1
    · exact ih2 j hj
  | member _ _ _ _ _ _ ih => exact fun j hj => by rw [List.mem_singleton.1 hj]; exact ih
  | membersMore _ _ _ _ _ _ _ ih1 ih2 =>
    intro j hj
    rcases List.mem_cons.1 hj with rfl | hj
    · exact ih1
    · exact ih2 j hj

theorem denotes_ok {s : Str} {j : J} (h : Denotes s j) : j.Ok := by
  obtain ⟨_, _, _, _, _, h, _⟩ := h
  exact den_ok h

theorem denotes_of_den {s : Str} {j : J} (h : Den s (.value j)) : Denotes s j :=
  ⟨[], s, [], by rw [List.nil_append, List.append_nil], Ws.nil, h, Ws.nil⟩

/-- What is read of a list, if each item can be read. -/
theorem itemsToGo_some {F : Floats} : ∀ {l : List J} {vs : List G}, itemsToGo F l = some vs ↔ l.map (J.toGo F) = vs.map some
  | [], vs => by cases vs <;> simp [itemsToGo]
  | j :: l, vs => by
    rw [itemsToGo]
    have ih := fun vs => itemsToGo_some (F := F) (l := l) (vs := vs)
    cases h1 : j.toGo F with
    | none => cases vs <;> simp [h1]
    | some v =>
      cases h2 : itemsToGo F l with
      | none =>
        cases vs with
        | nil => simp
        | cons u us =>
          have := mt (ih us).2 (by rw [h2]; simp)
          simp [h1, this]
      | some vs' =>
        have := (ih vs').1 h2
        cases vs with
        | nil => simp
        | cons u us =>
          simp only [Option.some.injEq, List.cons.injEq, List.map_cons, h1, this]
          constructor
          · rintro ⟨rfl, rfl⟩; exact ⟨rfl, rfl⟩
          · rintro ⟨h3, h4⟩
            exact ⟨h3, (List.map_inj_right fun _ _ => Option.some.inj).1 h4⟩

theorem membersToGo_some {F : Floats} : ∀ {m : List (Str × J)} {vs : List (Str × G)}, membersToGo F m = some vs ↔ m.map (fun e => (e.1, e.2.toGo F)) = vs.map fun e => (e.1, some e.2)
  | [], vs => by cases vs <;> simp [membersToGo]
  | (k, j) :: m, vs => by
    rw [membersToGo]
    have ih := fun vs => membersToGo_some (F := F) (m := m) (vs := vs)
    cases h1 : j.toGo F with
    | none => cases vs <;> simp [h1]
    | some v =>
      cases h2 : membersToGo F m with
      | none =>
        cases vs with
        | nil => simp
        | cons u us =>
          have := mt (ih us).2 (by rw [h2]; simp)
          simp [h1, this]
      | some vs' =>
        have := (ih vs').1 h2
        cases vs with
        | nil => simp
        | cons u us =>
          obtain ⟨k', u⟩ := u
          simp only [Option.some.injEq, List.cons.injEq, List.map_cons, h1, this, Prod.mk.injEq]
          constructor
          · rintro ⟨⟨rfl, rfl⟩, rfl⟩; exact ⟨⟨rfl, rfl⟩, rfl⟩
          · rintro ⟨h3, h4⟩
            refine ⟨h3, (List.map_inj_right fun a b hab => ?_).1 h4⟩
            simp only [Prod.mk.injEq, Option.some.injEq] at hab
            exact Prod.ext hab.1 hab.2

/-- A value whose numbers all have a rounding has a Go value. -/
theorem toGo_some {F : Floats} (j : J) (h : ∀ q ∈ j.nums, F.round q ≠ none) : ∃ v, j.toGo F = some v := by
  induction j using J.ind with
  | null => exact ⟨_, rfl⟩
  | bool b => exact ⟨_, rfl⟩
  | num q =>
    obtain ⟨r, hr⟩ := Option.ne_none_iff_exists'.1 (h q (List.mem_singleton_self _))
    exact ⟨.float r, by rw [J.toGo, hr]; rfl⟩
  | str s => exact ⟨_, rfl⟩
  | arr l ih =>
    have : ∃ vs, itemsToGo F l = some vs := by
      rw [J.nums, itemsNums_eq] at h
      induction l with
      | nil => exact ⟨[], rfl⟩
      | cons j l ih' =>
        obtain ⟨v, hv⟩ := ih j (List.mem_cons_self ..) fun q hq => h q (by rw [List.flatMap_cons]; exact List.mem_append_left _ hq)
        obtain ⟨vs, hvs⟩ := ih' (fun v hv => ih v (List.mem_cons_of_mem _ hv)) fun q hq => h q (by rw [List.flatMap_cons]; exact List.mem_append_right _ hq)
        exact ⟨v :: vs, by rw [itemsToGo, hv, hvs]⟩
    obtain ⟨vs, hvs⟩ := this
    exact ⟨.arr vs, by rw [J.toGo, hvs]; rfl⟩
  | obj m ih =>
    have : ∃ vs, membersToGo F m = some vs := by
      rw [J.nums, membersNums_eq] at h
      induction m with
      | nil => exact ⟨[], rfl⟩
      | cons e m ih' =>
        obtain ⟨k, j⟩ := e
        obtain ⟨v, hv⟩ := ih (k, j) (List.mem_cons_self ..) fun q hq => h q (by rw [List.flatMap_cons]; exact List.mem_append_left _ hq)
        obtain ⟨vs, hvs⟩ := ih' (fun v hv => ih v (List.mem_cons_of_mem _ hv)) fun q hq => h q (by rw [List.flatMap_cons]; exact List.mem_append_right _ hq)
        exact ⟨(k, v) :: vs, by rw [membersToGo, hv, hvs]⟩
    obtain ⟨vs, hvs⟩ := this
    exact ⟨.obj vs, by rw [J.toGo, hvs]; rfl⟩

theorem map_some_mem {α β : Type} {f : α → Option β} : ∀ {l : List α} {vs : List β}, l.map f = vs.map some → (∀ a ∈ l, ∃ b ∈ vs, f a = some b) ∧ (∀ b ∈ vs, ∃ a ∈ l, f a = some b)
  | [], [], _ => ⟨fun _ h => (nomatch h), fun _ h => (nomatch h)⟩
  | [], _ :: _, h => by simp at h
  | _ :: _, [], h => by simp at h
  | a :: l, b :: vs, h => by
    simp only [List.map_cons, List.cons.injEq] at h
    obtain ⟨h1, h2⟩ := map_some_mem h.2
    refine ⟨fun x hx => ?_, fun x hx => ?_⟩
    · rcases List.mem_cons.1 hx with rfl | hx
      · exact ⟨b, List.mem_cons_self .., h.1⟩
      · obtain ⟨y, hy, e⟩ := h1 x hx
        exact ⟨y, List.mem_cons_of_mem _ hy, e⟩
    · rcases List.mem_cons.1 hx with rfl | hx
      · exact ⟨a, List.mem_cons_self .., h.1⟩
      · obtain ⟨y, hy, e⟩ := h2 x hx
        exact ⟨y, List.mem_cons_of_mem _ hy, e⟩

theorem map_mean {α β γ : Type} {f : α → Option β} {k : β → γ} {k' : α → γ} : ∀ {l : List α} {vs : List β}, l.map f = vs.map some → (∀ a ∈ l, ∀ b, f a = some b → k b = k' a) → vs.map k = l.map k'
  | [], [], _, _ => rfl
  | [], _ :: _, h, _ => by simp at h
  | _ :: _, [], h, _ => by simp at h
  | a :: l, b :: vs, h, hk => by
    simp only [List.map_cons, List.cons.injEq] at h
    rw [List.map_cons, List.map_cons, hk a (List.mem_cons_self ..) b h.1, map_mean h.2 fun a ha => hk a (List.mem_cons_of_mem _ ha)]

/-- What is read stands for the value with its numbers rounded. -/
theorem toGo_spec {F : Floats} {P : Rat → Prop} (g : Rat → Rat) (j : J) : ∀ v, j.toGo F = some v → j.Ok → (∀ q ∈ j.nums, ∀ r, F.round q = some r → P r) →
    v.Ok P ∧ v.mean g = j.mapNum (fun q => g ((F.round q).getD 0)) ∧ (∀ q ∈ j.nums, F.round q ≠ none) ∧ (v = .null → j = .null) := by
  induction j using J.ind with
  | null => intro v hv _ _; cases hv; exact ⟨.null, rfl, fun _ h => (nomatch h), fun _ => rfl⟩
  | bool b => intro v hv _ _; cases hv; exact ⟨.bool, rfl, fun _ h => (nomatch h), fun h => nomatch h⟩
  | num q =>
    intro v hv _ hP
    rw [J.toGo] at hv
    cases hr : F.round q with
    | none => rw [hr] at hv; cases hv
    | some r =>
      rw [hr] at hv
      cases hv
      refine ⟨.float (hP q (List.mem_singleton_self _) r hr), ?_, fun q' hq' => ?_, fun h => nomatch h⟩
      · rw [G.mean, J.mapNum, hr]; rfl
      · rw [List.mem_singleton.1 hq', hr]; simp
  | str s => intro v hv _ _; cases hv; exact ⟨.str, rfl, fun _ h => (nomatch h), fun h => nomatch h⟩
  | arr l ih =>
    intro v hv hok hP
    rw [J.toGo] at hv
    cases hvs : itemsToGo F l with
    | none => rw [hvs] at hv; cases hv
    | some vs =>
      rw [hvs] at hv
      cases hv
      have hmap := itemsToGo_some.1 hvs
      obtain ⟨m1, m2⟩ := map_some_mem hmap
      have hok' : ∀ v ∈ l, v.Ok := by cases hok with | arr h => exact h
      rw [J.nums, itemsNums_eq] at hP ⊢
      have hP' : ∀ a ∈ l, ∀ q ∈ a.nums, ∀ r, F.round q = some r → P r := fun a ha q hq => hP q (List.mem_flatMap.2 ⟨a, ha, hq⟩)
      refine ⟨.arr fun b hb => ?_, ?_, fun q hq => ?_, fun h => nomatch h⟩
      · obtain ⟨a, ha, e⟩ := m2 b hb
        exact (ih a ha b e (hok' a ha) (hP' a ha)).1
      · rw [G.mean, itemsMean_eq, J.mapNum, itemsMap_eq, map_mean hmap fun a ha b e => (ih a ha b e (hok' a ha) (hP' a ha)).2.1]
      · obtain ⟨a, ha, hq⟩ := List.mem_flatMap.1 hq
        obtain ⟨b, -, e⟩ := m1 a ha
        exact (ih a ha b e (hok' a ha) (hP' a ha)).2.2.1 q hq
  | obj m ih =>
    intro v hv hok hP
    rw [J.toGo] at hv
    cases hvs : membersToGo F m with
    | none => rw [hvs] at hv; cases hv
    | some vs =>
      rw [hvs] at hv
      cases hv
      have hmap : m.map (fun e => (e.2.toGo F).map fun v => (e.1, v)) = vs.map some := by
        have := congrArg (List.map fun e : Str × Option G => e.2.map fun v => (e.1, v)) (membersToGo_some.1 hvs)
        rw [List.map_map, List.map_map] at this
        exact this
      obtain ⟨m1, m2⟩ := map_some_mem hmap
      obtain ⟨hs, hok'⟩ : Sorted m ∧ ∀ e ∈ m, e.2.Ok := by cases hok with | obj h1 h2 => exact ⟨h1, h2⟩
      rw [J.nums, membersNums_eq] at hP ⊢
      have hP' : ∀ a ∈ m, ∀ q ∈ a.2.nums, ∀ r, F.round q = some r → P r := fun a ha q hq => hP q (List.mem_flatMap.2 ⟨a, ha, hq⟩)
      have hsome : ∀ {a : Str × J} {b : Str × G}, (a.2.toGo F).map (fun v => (a.1, v)) = some b → a.2.toGo F = some b.2 ∧ a.1 = b.1 := by
        intro a b h
        cases h' : a.2.toGo F with
        | none => rw [h'] at h; cases h
        | some v => rw [h'] at h; cases h; exact ⟨rfl, rfl⟩
      have hkeys : vs.map (·.1) = m.map (·.1) := map_mean hmap fun a _ b e => (hsome e).2.symm
      refine ⟨.obj ?_ fun b hb => ?_, ?_, fun q hq => ?_, fun h => nomatch h⟩
      · rw [hkeys]
        refine List.pairwise_map.2 (hs.imp fun {a b} h heq => ?_)
        rw [heq, ltStr_irrefl] at h
        cases h
      · obtain ⟨a, ha, e⟩ := m2 b hb
        exact (ih a ha b.2 (hsome e).1 (hok' a ha) (hP' a ha)).1
      · rw [G.mean, membersMean_eq, J.mapNum, membersMap_eq]
        have hmean : (vs.map fun e => (e.1, e.2.mean g)) = m.map fun e => (e.1, e.2.mapNum fun q => g ((F.round q).getD 0)) :=
          map_mean hmap fun a ha b e => Prod.ext (hsome e).2.symm (ih a ha b.2 (hsome e).1 (hok' a ha) (hP' a ha)).2.1
        rw [hmean, mapOf_sorted]
        exact List.pairwise_map.2 hs
      · obtain ⟨a, ha, hq⟩ := List.mem_flatMap.1 hq
        obtain ⟨b, -, e⟩ := m1 a ha
        exact (ih a ha b.2 (hsome e).1 (hok' a ha) (hP' a ha)).2.2.1 q hq

theorem mapNum_id {h : Rat → Rat} (j : J) (hq : ∀ q ∈ j.nums, h q = q) : j.mapNum h = j := by
  induction j using J.ind with
  | null => rfl
  | bool b => rfl
  | num q => rw [J.mapNum, hq q (List.mem_singleton_self _)]
  | str s => rfl
  | arr l ih =>
    rw [J.nums, itemsNums_eq] at hq
    rw [J.mapNum, itemsMap_eq]
    congr 1
    refine (List.map_congr_left fun a ha => ih a ha fun q h => hq q (List.mem_flatMap.2 ⟨a, ha, h⟩)).trans (List.map_id' l)
  | obj m ih =>
    rw [J.nums, membersNums_eq] at hq
    rw [J.mapNum, membersMap_eq]
    congr 1
    refine (List.map_congr_left fun a ha => ?_).trans (List.map_id' m)
    rw [ih a ha fun q h => hq q (List.mem_flatMap.2 ⟨a, ha, h⟩)]

/-! ## References -/

theorem wsChar_space {c : Char} (h : c = ' ' ∨ c = '\t' ∨ c = '\n' ∨ c = '\r') : Markers.Doc.isSpace c = true := by
  rcases h with rfl | rfl | rfl | rfl <;> decide

theorem den_head_ref {x : Str} {j : J} (h : Den x (.value j)) : ∃ c r, x = c :: r ∧ Markers.Doc.isSpace c = false ∧ c ≠ 'r' := by
  cases h with
  | num h =>
    obtain ⟨c, r, rfl, hc⟩ := num_head h
    refine ⟨c, r, rfl, ?_⟩
    rcases hc with rfl | hc
    · decide
    · have hc' : 48 ≤ c.toNat ∧ c.toNat ≤ 57 := by
        rw [Char.isDigit, Bool.and_eq_true, decide_eq_true_eq, decide_eq_true_eq] at hc
        exact ⟨UInt32.le_iff_toNat_le.1 hc.1, UInt32.le_iff_toNat_le.1 hc.2⟩
      refine ⟨?_, ?_⟩
      · unfold Markers.Doc.isSpace
        simp only [Bool.or_eq_false_iff, Bool.and_eq_false_iff, decide_eq_false_iff_not]
        omega
      · rintro rfl
        exact absurd hc (by decide)
  | _ => exact ⟨_, _, rfl, by decide, by decide⟩

theorem trimRight_prefix (p : Char → Bool) : ∀ s : Str, Markers.Doc.trimRight p s <+: s
  | [] => List.prefix_rfl
  | c :: s => by
    rw [Markers.Doc.trimRight]
    split
    · split
      · exact List.nil_prefix
      · exact ⟨s, rfl⟩
    · exact (List.prefix_cons_inj c).2 (trimRight_prefix p s)

/-- JSON is not taken for a reference. -/
theorem json_not_ref {s : Str} {j : J} (h : Denotes s j) : "ref(".toList.isPrefixOf (Markers.Doc.trimSpace s) = false := by
  obtain ⟨w, x, w', rfl, hw, hd, -⟩ := h
  obtain ⟨c, r, rfl, hc, hr⟩ := den_head_ref hd
  have e : ∀ w : Str, Ws w → (w ++ (c :: r) ++ w').dropWhile Markers.Doc.isSpace = (c :: r) ++ w' := by
    intro w
    induction w with
    | nil => intro _; rw [List.nil_append, List.cons_append, List.dropWhile_cons_of_neg (by rw [hc]; exact Bool.false_ne_true)]
    | cons a w ih =>
      intro h
      rw [List.append_assoc, List.cons_append, List.dropWhile_cons_of_pos (wsChar_space (h a (List.mem_cons_self ..))), ← List.append_assoc]
      exact ih fun b hb => h b (List.mem_cons_of_mem _ hb)
  cases h' : "ref(".toList.isPrefixOf (Markers.Doc.trimSpace (w ++ (c :: r) ++ w')) with
  | false => rfl
  | true =>
    obtain ⟨t, ht⟩ := List.isPrefixOf_iff_prefix.1 h'
    obtain ⟨u, hu⟩ := trimRight_prefix Markers.Doc.isSpace ((w ++ (c :: r) ++ w').dropWhile Markers.Doc.isSpace)
    rw [Markers.Doc.trimSpace] at ht
    rw [← ht, e w hw] at hu
    have := congrArg List.head? hu
    exact absurd (Option.some.inj this).symm hr

/-! ## Arguments of markers -/

theorem valuesGo_spec {l : List Markers.Value} {P : Rat → Prop} (g : Rat → Rat) (h : ∀ v ∈ l, ∃ u, valueGo v = some u ∧ u.Ok P ∧ u.mean g = json g v) :
    ∃ us, valuesGo l = some us ∧ (∀ u ∈ us, u.Ok P) ∧ us.map (·.mean g) = jsonItems g l := by
  induction l with
  | nil => exact ⟨[], rfl, fun _ h => (nomatch h), rfl⟩
  | cons v l ih =>
    obtain ⟨u, h1, h2, h3⟩ := h v (List.mem_cons_self ..)
    obtain ⟨us, h4, h5, h6⟩ := ih fun v hv => h v (List.mem_cons_of_mem _ hv)
    refine ⟨u :: us, by rw [valuesGo, h1, h4], fun x hx => ?_, by rw [List.map_cons, h3, h6, jsonItems]⟩
    rcases List.mem_cons.1 hx with rfl | hx
    · exact h2
    · exact h5 x hx

theorem entriesGo_spec {m : List (Str × Markers.Value)} {P : Rat → Prop} (g : Rat → Rat) (h : ∀ e ∈ m, ∃ u, valueGo e.2 = some u ∧ u.Ok P ∧ u.mean g = json g e.2) :
    ∃ us, entriesGo m = some us ∧ us.map (·.1) = m.map (·.1) ∧ (∀ u ∈ us, u.2.Ok P) ∧ (us.map fun e => (e.1, e.2.mean g)) = jsonEntries g m := by
  induction m with
  | nil => exact ⟨[], rfl, rfl, fun _ h => (nomatch h), rfl⟩
  | cons e m ih =>
    obtain ⟨k, v⟩ := e
    obtain ⟨u, h1, h2, h3⟩ := h (k, v) (List.mem_cons_self ..)
    obtain ⟨us, h4, hk, h5, h6⟩ := ih fun v hv => h v (List.mem_cons_of_mem _ hv)
    refine ⟨(k, u) :: us, by rw [entriesGo, h1, h4], by rw [List.map_cons, List.map_cons, hk], fun x hx => ?_, by rw [List.map_cons, h6, jsonEntries, h3]⟩
    rcases List.mem_cons.1 hx with rfl | hx
    · exact h2
    · exact h5 x hx

theorem valueGo_spec {P : Rat → Prop} (g : Rat → Rat) {v : Markers.Value} (h : Plain P v) : ∃ u, valueGo v = some u ∧ u.Ok P ∧ u.mean g = json g v := by
  induction h with
  | int => exact ⟨_, rfl, .int, rfl⟩
  | num h => exact ⟨_, rfl, .float h, rfl⟩
  | str => exact ⟨_, rfl, .str, rfl⟩
  | bool => exact ⟨_, rfl, .bool, rfl⟩
  | slice _ ih =>
    obtain ⟨us, h1, h2, h3⟩ := valuesGo_spec g ih
    exact ⟨.arr us, by rw [valueGo, h1]; rfl, .arr h2, by rw [G.mean, itemsMean_eq, h3, json]⟩
  | map hn _ ih =>
    obtain ⟨us, h1, hk, h2, h3⟩ := entriesGo_spec g ih
    exact ⟨.obj us, by rw [valueGo, h1]; rfl, .obj (by rw [hk]; exact hn) h2, by rw [G.mean, membersMean_eq, h3, json]⟩

open Markers (Env Arg Value) in
open Markers.Spec in
/-- What is read as an argument is plain. -/
theorem shows_plain {E : Env} {P : Rat → Prop} (hE : ∀ x q, E.parseFloat x = some q → P q) {self : Bool} {a : Arg} {v : Value} {x : Str} (h : Shows E self a v x) : Plain P v := by
  refine Shows.rec (E := E) (motive_1 := fun _ _ v _ _ => Plain P v) (motive_2 := fun _ _ l _ _ => ∀ v ∈ l, Plain P v) (motive_3 := fun _ _ m _ _ => ∀ e ∈ m, Plain P e.2)
    ?_ ?_ ?_ ?_ ?_ ?_ ?_ ?_ ?_ ?_ ?_ ?_ ?_ ?_ ?_ h
  · exact fun _ _ => .int
  · exact fun _ _ => .int
  · exact fun _ _ h => .num (hE _ _ h)
  · exact fun h => .num (hE _ _ h)
  · exact .bool
  · exact fun _ => .str
  · exact fun _ => .slice fun _ h => nomatch h
  · exact fun _ _ ih => .slice ih
  · exact fun _ _ => .map List.nodup_nil fun _ h => nomatch h
  · exact fun _ hn _ ih => .map hn ih
  · exact fun _ _ ih => ih
  · exact fun _ _ ih v hv => by rw [List.mem_singleton.1 hv]; exact ih
  · exact fun _ _ _ ih1 ih2 v hv => (List.mem_cons.1 hv).elim (fun h => by rw [h]; exact ih1) (ih2 v)
  · exact fun _ _ _ _ _ ih v hv => by rw [List.mem_singleton.1 hv]; exact ih
  · exact fun _ _ _ _ _ _ ih1 ih2 v hv => (List.mem_cons.1 hv).elim (fun h => by rw [h]; exact ih1) (ih2 v)

end Verif.Json
