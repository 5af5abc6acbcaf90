import Verif.Json.Decode
/-! # JSON: what the encoder writes denotes the value -/
namespace Verif.Json
open Spec

/-! ## The order of keys -/

theorem ltStr_irrefl : ∀ s : Str, ltStr s s = false
  | [] => rfl
  | c :: s => by
    rw [ltStr, if_neg (Nat.lt_irrefl _), if_neg (Nat.lt_irrefl _)]
    exact ltStr_irrefl s

theorem ltStr_trans : ∀ {a b c : Str}, ltStr a b = true → ltStr b c = true → ltStr a c = true
  | _, _, [], _, h => by cases h' : (‹Str› : Str) <;> simp [ltStr] at h
  | [], _ :: _, _ :: _, _, _ => rfl
  | _, [], _ :: _, h, _ => by simp [ltStr] at h
  | x :: a, y :: b, z :: c, h, h' => by
    rw [ltStr] at h h' ⊢
    split at h
    · split at h'
      · rw [if_pos (by omega)]
      · split at h'
        · cases h'
        · rw [if_pos (by omega)]
    · split at h
      · cases h
      · split at h'
        · rw [if_pos (by omega)]
        · split at h'
          · cases h'
          · rw [if_neg (by omega), if_neg (by omega)]
            exact ltStr_trans h h'

theorem ltStr_total : ∀ {a b : Str}, ltStr a b = false → a ≠ b → ltStr b a = true
  | [], [], _, h => absurd rfl h
  | [], _ :: _, h, _ => by simp [ltStr] at h
  | _ :: _, [], _, _ => rfl
  | x :: a, y :: b, h, hne => by
    rw [ltStr] at h ⊢
    split at h
    · cases h
    · split at h
      · rw [if_pos (by omega)]
      · have hxy : x = y := Char.ext (UInt32.toNat_inj.1 (by change x.toNat = y.toNat; omega))
        rw [if_neg (by omega), if_neg (by omega)]
        exact ltStr_total h fun hab => hne (by rw [hxy, hab])

theorem ltStr_asymm {a b : Str} (h : ltStr a b = true) : ltStr b a = false := by
  cases h' : ltStr b a with
  | false => rfl
  | true => rw [← ltStr_irrefl a]; exact (ltStr_trans h h').symm

/-- The names are increasing. -/
def Sorted {α : Type} (m : List (Str × α)) : Prop := m.Pairwise fun a b => ltStr a.1 b.1 = true

theorem sorted_ext {α : Type} : ∀ {l m : List (Str × α)}, Sorted l → Sorted m → (∀ e, e ∈ l ↔ e ∈ m) → l = m
  | [], [], _, _, _ => rfl
  | [], e :: m, _, _, h => absurd ((h e).2 (List.mem_cons_self ..)) (by simp)
  | e :: l, [], _, _, h => absurd ((h e).1 (List.mem_cons_self ..)) (by simp)
  | a :: l, b :: m, hl, hm, h => by
    have hl' := List.pairwise_cons.1 hl
    have hm' := List.pairwise_cons.1 hm
    have hab : a = b := by
      rcases List.mem_cons.1 ((h a).1 (List.mem_cons_self ..)) with h1 | h1
      · exact h1
      · rcases List.mem_cons.1 ((h b).2 (List.mem_cons_self ..)) with h2 | h2
        · exact h2.symm
        · have h3 := ltStr_trans (hm'.1 a h1) (hl'.1 b h2)
          rw [ltStr_irrefl] at h3
          cases h3
    subst hab
    congr 1
    refine sorted_ext hl'.2 hm'.2 fun e => ⟨fun he => ?_, fun he => ?_⟩
    · rcases List.mem_cons.1 ((h e).1 (List.mem_cons_of_mem _ he)) with h1 | h1
      · have h3 := hl'.1 e he
        rw [h1, ltStr_irrefl] at h3
        cases h3
      · exact h1
    · rcases List.mem_cons.1 ((h e).2 (List.mem_cons_of_mem _ he)) with h1 | h1
      · have h3 := hm'.1 e he
        rw [h1, ltStr_irrefl] at h3
        cases h3
      · exact h1

theorem mem_insertKey {α : Type} {e x : Str × α} {m : List (Str × α)} : x ∈ insertKey e m ↔ x = e ∨ x ∈ m := by
  induction m with
  | nil => simp [insertKey]
  | cons a m ih =>
    rw [insertKey]
    split
    · rw [List.mem_cons, ih, List.mem_cons]
      exact ⟨fun h => h.elim (fun h => Or.inr (Or.inl h)) (fun h => h.elim Or.inl fun h => Or.inr (Or.inr h)),
        fun h => h.elim (fun h => Or.inr (Or.inl h)) (fun h => h.elim Or.inl fun h => Or.inr (Or.inr h))⟩
    · rw [List.mem_cons]

theorem mem_sortKeys {α : Type} {x : Str × α} {m : List (Str × α)} : x ∈ sortKeys m ↔ x ∈ m := by
  induction m with
  | nil => rfl
  | cons a m ih =>
    rw [sortKeys, List.foldr_cons, mem_insertKey, List.mem_cons]
    exact or_congr Iff.rfl ih

theorem sorted_insertKey {α : Type} {e : Str × α} {m : List (Str × α)} (h : Sorted m) (hn : ∀ x ∈ m, x.1 ≠ e.1) : Sorted (insertKey e m) := by
  induction m with
  | nil => exact List.pairwise_singleton ..
  | cons a m ih =>
    have h' := List.pairwise_cons.1 h
    rw [insertKey]
    split
    · rename_i hlt
      refine List.pairwise_cons.2 ⟨fun x hx => ?_, ih h'.2 fun x hx => hn x (List.mem_cons_of_mem _ hx)⟩
      rcases mem_insertKey.1 hx with rfl | hx
      · exact hlt
      · exact h'.1 x hx
    · rename_i hlt
      have hea : ltStr e.1 a.1 = true := ltStr_total (by simpa using hlt) (hn a (List.mem_cons_self ..))
      refine List.pairwise_cons.2 ⟨fun x hx => ?_, h⟩
      rcases List.mem_cons.1 hx with rfl | hx
      · exact hea
      · exact ltStr_trans hea (h'.1 x hx)

theorem sorted_sortKeys {α : Type} {m : List (Str × α)} (h : (m.map (·.1)).Nodup) : Sorted (sortKeys m) := by
  induction m with
  | nil => exact List.Pairwise.nil
  | cons a m ih =>
    have h' := List.nodup_cons.1 h
    refine sorted_insertKey (ih h'.2) fun x hx heq => h'.1 ?_
    show a.1 ∈ _
    rw [← heq]
    exact List.mem_map_of_mem (mem_sortKeys.1 hx)

theorem insertKey_map {α β : Type} (f : α → β) (e : Str × α) (m : List (Str × α)) : insertKey (e.1, f e.2) (m.map fun e => (e.1, f e.2)) = (insertKey e m).map fun e => (e.1, f e.2) := by
  induction m with
  | nil => rfl
  | cons a m ih =>
    rw [List.map_cons, insertKey, insertKey]
    split
    · rw [List.map_cons, ih]
    · rfl

theorem sortKeys_map {α β : Type} (f : α → β) (m : List (Str × α)) : sortKeys (m.map fun e => (e.1, f e.2)) = (sortKeys m).map fun e => (e.1, f e.2) := by
  induction m with
  | nil => rfl
  | cons a m ih =>
    rw [List.map_cons, sortKeys, List.foldr_cons]
    rw [sortKeys] at ih
    rw [ih, insertKey_map]
    rfl

/-! ## Maps -/

theorem mem_set {k : Str} {v : J} {m : List (Str × J)} {x : Str × J} (h : x ∈ set k v m) : x = (k, v) ∨ (x ∈ m) := by
  induction m with
  | nil => exact Or.inl (List.mem_singleton.1 h)
  | cons a m ih =>
    rw [set] at h
    split at h
    · exact (List.mem_cons.1 h).imp id id
    · split at h
      · exact (List.mem_cons.1 h).imp id (List.mem_cons_of_mem _)
      · rcases List.mem_cons.1 h with rfl | h
        · exact Or.inr (List.mem_cons_self ..)
        · exact (ih h).imp id (List.mem_cons_of_mem _)

theorem sorted_set {k : Str} {v : J} {m : List (Str × J)} (h : Sorted m) : Sorted (set k v m) := by
  induction m with
  | nil => exact List.pairwise_singleton ..
  | cons a m ih =>
    have h' := List.pairwise_cons.1 h
    rw [set]
    split
    · rename_i hlt
      refine List.pairwise_cons.2 ⟨fun x hx => ?_, h⟩
      rcases List.mem_cons.1 hx with rfl | hx
      · exact hlt
      · exact ltStr_trans hlt (h'.1 x hx)
    · rename_i hlt
      split
      · rename_i heq
        exact List.pairwise_cons.2 ⟨fun x hx => by rw [heq]; exact h'.1 x hx, h'.2⟩
      · rename_i hne
        refine List.pairwise_cons.2 ⟨fun x hx => ?_, ih h'.2⟩
        rcases mem_set hx with rfl | hx
        · exact ltStr_total (by simpa using hlt) hne
        · exact h'.1 x hx

theorem sorted_mapOf (l : List (Str × J)) : Sorted (mapOf l) := by
  have : ∀ (l m : List (Str × J)), Sorted m → Sorted (l.foldl (fun m e => set e.1 e.2 m) m) := by
    intro l
    induction l with
    | nil => exact fun m h => h
    | cons e l ih => exact fun m h => ih _ (sorted_set h)
  exact this l [] List.Pairwise.nil

theorem mem_mapOf {l : List (Str × J)} {x : Str × J} (h : x ∈ mapOf l) : x ∈ l := by
  have : ∀ (l m : List (Str × J)), x ∈ l.foldl (fun m e => set e.1 e.2 m) m → x ∈ l ∨ x ∈ m := by
    intro l
    induction l with
    | nil => exact fun m h => Or.inr h
    | cons e l ih =>
      intro m h
      rcases ih _ h with h | h
      · exact Or.inl (List.mem_cons_of_mem _ h)
      · rcases mem_set h with h | h
        · exact Or.inl (by rw [h]; exact List.mem_cons_self ..)
        · exact Or.inr h
  exact (this l [] h).resolve_right (by simp)

theorem set_last {k : Str} {v : J} {m : List (Str × J)} (h : ∀ x ∈ m, ltStr x.1 k = true) : set k v m = m ++ [(k, v)] := by
  induction m with
  | nil => rfl
  | cons a m ih =>
    have ha := h a (List.mem_cons_self ..)
    rw [set, if_neg (by rw [ltStr_asymm ha]; exact Bool.false_ne_true), if_neg]
    · rw [ih fun x hx => h x (List.mem_cons_of_mem _ hx)]
      rfl
    · rintro rfl
      rw [ltStr_irrefl] at ha
      cases ha

theorem mapOf_sorted {l : List (Str × J)} (h : Sorted l) : mapOf l = l := by
  have : ∀ (l m : List (Str × J)), Sorted (m ++ l) → l.foldl (fun m e => set e.1 e.2 m) m = m ++ l := by
    intro l
    induction l with
    | nil => exact fun m _ => (List.append_nil m).symm
    | cons e l ih =>
      intro m h
      rw [List.foldl_cons, set_last fun x hx => (List.pairwise_append.1 h).2.2 x hx e (List.mem_cons_self ..)]
      rw [ih _ (by rw [List.append_assoc]; exact h), List.append_assoc]
      rfl
  exact this l [] h

/-! ## Go values -/

theorem G.ind {P : G → Prop} (null : P .null) (bool : ∀ b, P (.bool b)) (int : ∀ z, P (.int z)) (float : ∀ q, P (.float q)) (str : ∀ s, P (.str s))
    (arr : ∀ l, (∀ v ∈ l, P v) → P (.arr l)) (obj : ∀ m, (∀ e ∈ m, P e.2) → P (.obj m)) : ∀ v, P v
  | .null => null
  | .bool b => bool b
  | .int z => int z
  | .float q => float q
  | .str s => str s
  | .arr l => arr l fun v _ => G.ind null bool int float str arr obj v
  | .obj m => obj m fun e _ => G.ind null bool int float str arr obj e.2
termination_by v => sizeOf v
decreasing_by
  · rename_i h
    have := List.sizeOf_lt_of_mem h
    simp only [G.arr.sizeOf_spec]
    omega
  · rename_i h
    have := List.sizeOf_lt_of_mem h
    have h2 : sizeOf e = 1 + sizeOf e.1 + sizeOf e.2 := by cases e; rfl
    simp only [G.obj.sizeOf_spec]
    omega

mutual
/-- What a Go value stands for; `g` says what `float64` values stand for. -/
def G.mean (g : Rat → Rat) : G → J
  | .null => .null
  | .bool b => .bool b
  | .int z => .num (z : Rat)
  | .float q => .num (g q)
  | .str s => .str s
  | .arr l => .arr (itemsMean g l)
  | .obj m => .obj (mapOf (membersMean g m))
def itemsMean (g : Rat → Rat) : List G → List J
  | [] => []
  | v :: l => v.mean g :: itemsMean g l
def membersMean (g : Rat → Rat) : List (Str × G) → List (Str × J)
  | [] => []
  | (k, v) :: m => (k, v.mean g) :: membersMean g m
end

/-- Maps have each key once; `P` holds of all `float64` values. -/
inductive G.Ok (P : Rat → Prop) : G → Prop
  | null : G.Ok P .null
  | bool {b} : G.Ok P (.bool b)
  | int {z} : G.Ok P (.int z)
  | float {q} : P q → G.Ok P (.float q)
  | str {s} : G.Ok P (.str s)
  | arr {l} : (∀ v ∈ l, G.Ok P v) → G.Ok P (.arr l)
  | obj {m} : (m.map (·.1)).Nodup → (∀ e ∈ m, G.Ok P e.2) → G.Ok P (.obj m)

theorem itemsMean_eq (g : Rat → Rat) (l : List G) : itemsMean g l = l.map (·.mean g) := by
  induction l with
  | nil => rfl
  | cons v l ih => rw [itemsMean, ih]; rfl

theorem membersMean_eq (g : Rat → Rat) (m : List (Str × G)) : membersMean g m = m.map fun e => (e.1, e.2.mean g) := by
  induction m with
  | nil => rfl
  | cons e m ih => rw [membersMean, ih]; rfl

theorem encodeItems_eq (F : Floats) (l : List G) : encodeItems F l = l.map (encode F) := by
  induction l with
  | nil => rfl
  | cons v l ih => rw [encodeItems, ih]; rfl

theorem encodeMembers_eq (F : Floats) (m : List (Str × G)) : encodeMembers F m = m.map fun e => (e.1, encode F e.2) := by
  induction m with
  | nil => rfl
  | cons e m ih => rw [encodeMembers, ih]; rfl

/-! ## Strings -/

theorem hexDigit_hexChar {n : Nat} (h : n < 16) : hexDigit (hexChar n) = some n := by
  have : ∀ i : Fin 16, hexDigit (hexChar i.1) = some i.1 := by decide +kernel
  exact this ⟨n, h⟩

theorem hex4_uEscape {n : Nat} (h : n < 65536) : hex4 (hexChar (n / 4096 % 16)) (hexChar (n / 256 % 16)) (hexChar (n / 16 % 16)) (hexChar (n % 16)) = some n := by
  unfold hex4
  rw [hexDigit_hexChar (by omega), hexDigit_hexChar (by omega), hexDigit_hexChar (by omega), hexDigit_hexChar (by omega)]
  dsimp only
  congr 1
  omega

theorem escape_chars {c : Char} {s t : Str} (h : Chars s t) : Chars (escape c ++ s) (c :: t) := by
  unfold escape
  split
  · rename_i hc
    rcases hc with rfl | rfl
    · exact .short (by decide +kernel) h
    · exact .short (by decide +kernel) h
  · rename_i h1
    split
    · rename_i hc; subst hc; exact .short (by decide +kernel) h
    split
    · rename_i hc; subst hc; exact .short (by decide +kernel) h
    split
    · rename_i hc; subst hc; exact .short (by decide +kernel) h
    split
    · rename_i hc; subst hc; exact .short (by decide +kernel) h
    split
    · rename_i hc; subst hc; exact .short (by decide +kernel) h
    split
    · rename_i hc
      have hn : c.toNat < 65536 ∧ ¬ High c.toNat ∧ ¬ Low c.toNat := by
        unfold High Low
        rcases hc with hc | rfl | rfl | rfl | hc | hc
        · omega
        · decide
        · decide
        · decide
        · omega
        · omega
      have := Chars.unicode (hex4_uEscape hn.1) hn.2.1 hn.2.2 h
      rw [Char.ofNat_toNat] at this
      exact this
    · rename_i hc
      exact .plain (by omega) (fun h => h1 (Or.inl h)) (fun h => h1 (Or.inr h)) h

theorem quote_chars (s : Str) : ∃ x, quote s = '"' :: x ++ ['"'] ∧ Chars x s := by
  refine ⟨s.flatMap escape, rfl, ?_⟩
  induction s with
  | nil => exact .nil
  | cons c s ih => rw [List.flatMap_cons]; exact escape_chars ih

/-! ## Integers -/

theorem toDigits_digits {n : Nat} : ∀ c ∈ Nat.toDigits 10 n, c.isDigit = true :=
  fun _ hc => Nat.isDigit_of_mem_toDigits (by omega) (by omega) hc

theorem natVal_append (a b : Str) : natVal (a ++ b) = b.foldl (fun n c => n * 10 + (c.toNat - '0'.toNat)) (natVal a) := by
  unfold natVal
  rw [List.foldl_append]

theorem natVal_toDigits (n : Nat) : natVal (Nat.toDigits 10 n) = n := by
  induction n using Nat.strongRecOn with
  | ind n ih =>
    have hdig : ∀ d, d < 10 → (Nat.digitChar d).toNat - '0'.toNat = d := by
      have : ∀ i : Fin 10, (Nat.digitChar i.1).toNat - '0'.toNat = i.1 := by decide
      exact fun d h => this ⟨d, h⟩
    by_cases h10 : n < 10
    · rw [Nat.toDigits_of_lt_base h10]
      show 0 * 10 + ((Nat.digitChar n).toNat - '0'.toNat) = n
      rw [hdig n h10]
      omega
    · rw [Nat.toDigits_of_base_le (by omega) (by omega), natVal_append, ih (n / 10) (by omega)]
      show n / 10 * 10 + ((Nat.digitChar (n % 10)).toNat - '0'.toNat) = n
      rw [hdig _ (by omega)]
      omega

theorem toDigits_intPart (n : Nat) : IntPart (Nat.toDigits 10 n) := by
  refine ⟨⟨Nat.toDigits_ne_nil, toDigits_digits⟩, ?_⟩
  induction n using Nat.strongRecOn with
  | ind n ih =>
    intro h
    by_cases h10 : n < 10
    · rw [Nat.toDigits_of_lt_base h10] at h ⊢
      simp only [List.head?_cons, Option.some.injEq] at h
      rw [h]
    · rw [Nat.toDigits_of_base_le (by omega) (by omega)] at h
      have hne : Nat.toDigits 10 (n / 10) ≠ [] := Nat.toDigits_ne_nil
      have h1 := ih (n / 10) (by omega) (by
        cases h' : Nat.toDigits 10 (n / 10) with
        | nil => exact absurd h' hne
        | cons c l => rw [h'] at h; exact h)
      have h2 : n / 10 = 0 := by
        rw [← natVal_toDigits (n / 10), h1]
        rfl
      omega

theorem showInt_num (z : Int) : Num (showInt z) (z : Rat) := by
  unfold showInt
  split
  · rename_i h
    have := Num.mk (neg := true) (toDigits_intPart z.natAbs) .none .none
    have e : numVal true (Nat.toDigits 10 z.natAbs) [] 0 = (z : Rat) := by
      unfold numVal
      rw [List.append_nil, natVal_toDigits]
      have hz : z = -(z.natAbs : Int) := by omega
      have h1 : pow10 (0 - ([] : Str).length) = 1 := by decide +kernel
      rw [h1, Rat.mul_one, if_pos rfl]
      have h2 : (z : Rat) = ((-(z.natAbs : Int) : Int) : Rat) := by rw [← hz]
      rw [h2, Rat.intCast_neg, Rat.neg_mul, Rat.one_mul]
      rfl
    rw [e] at this
    simpa using this
  · rename_i h
    have := Num.mk (neg := false) (toDigits_intPart z.natAbs) .none .none
    have e : numVal false (Nat.toDigits 10 z.natAbs) [] 0 = (z : Rat) := by
      unfold numVal
      rw [List.append_nil, natVal_toDigits]
      have hz : z = (z.natAbs : Int) := by omega
      have h1 : pow10 (0 - ([] : Str).length) = 1 := by decide +kernel
      rw [h1, Rat.mul_one, if_neg Bool.false_ne_true, Rat.one_mul]
      have h2 : (z : Rat) = ((z.natAbs : Int) : Rat) := by rw [← hz]
      rw [h2]
      rfl
    rw [e] at this
    simpa using this

/-! ## The encoder -/

theorem commas_items {F : Floats} {g : Rat → Rat} : ∀ {l : List G}, l ≠ [] → (∀ v ∈ l, Den (encode F v) (.value (v.mean g))) → Den (commas (l.map (encode F))) (.items (l.map (·.mean g)))
  | [], h, _ => absurd rfl h
  | [v], _, h => by
    have := Den.item Ws.nil (h v (List.mem_singleton_self _)) Ws.nil
    rw [List.nil_append, List.append_nil] at this
    exact this
  | v :: v' :: l, _, h => by
    have := Den.itemsMore Ws.nil (h v (List.mem_cons_self ..)) Ws.nil (commas_items (l := v' :: l) (by simp) fun u hu => h u (List.mem_cons_of_mem _ hu))
    rw [List.nil_append, List.append_nil] at this
    exact this

theorem commas_members {F : Floats} {g : Rat → Rat} : ∀ {m : List (Str × G)}, m ≠ [] → (∀ e ∈ m, Den (encode F e.2) (.value (e.2.mean g))) →
    Den (commas (m.map fun e => quote e.1 ++ ':' :: encode F e.2)) (.members (m.map fun e => (e.1, e.2.mean g)))
  | [], h, _ => absurd rfl h
  | [e], _, h => by
    obtain ⟨x, hx, hc⟩ := quote_chars e.1
    have := Den.member Ws.nil hc Ws.nil Ws.nil (h e (List.mem_singleton_self _)) Ws.nil
    rw [← hx, List.nil_append, List.append_nil, List.nil_append, List.append_nil] at this
    exact this
  | e :: e' :: m, _, h => by
    obtain ⟨x, hx, hc⟩ := quote_chars e.1
    have := Den.membersMore Ws.nil hc Ws.nil Ws.nil (h e (List.mem_cons_self ..)) Ws.nil (commas_members (m := e' :: m) (by simp) fun u hu => h u (List.mem_cons_of_mem _ hu))
    rw [← hx, List.nil_append, List.append_nil, List.nil_append, List.append_nil] at this
    have e0 : commas ((e :: e' :: m).map fun e => quote e.1 ++ ':' :: encode F e.2) =
        quote e.1 ++ ':' :: (encode F e.2 ++ ',' :: commas ((e' :: m).map fun e => quote e.1 ++ ':' :: encode F e.2)) := by
      simp [commas]
    rw [e0]
    exact this

theorem mapOf_nodup {l : List (Str × J)} (h : (l.map (·.1)).Nodup) : mapOf l = sortKeys l := by
  have hs : mapOf l = mapOf l := rfl
  refine sorted_ext (sorted_mapOf l) (sorted_sortKeys h) fun x => ⟨fun hx => mem_sortKeys.2 (mem_mapOf hx), fun hx => ?_⟩
  have hx := mem_sortKeys.1 hx
  have key : ∀ (l m : List (Str × J)), (l.map (·.1)).Nodup → (∀ e ∈ m, e.1 ∉ l.map (·.1)) → (x ∈ l ∨ x ∈ m) → x ∈ l.foldl (fun m e => set e.1 e.2 m) m := by
    intro l
    induction l with
    | nil => exact fun m _ _ h => h.resolve_left (by simp)
    | cons e l ih =>
      intro m hn hm hx
      have hn' := List.nodup_cons.1 hn
      have hset : ∀ m : List (Str × J), (∀ y ∈ m, y.1 ≠ e.1) → ∀ y, y ∈ set e.1 e.2 m ↔ y = e ∨ y ∈ m := by
        intro m
        induction m with
        | nil => exact fun _ y => by rw [set, List.mem_singleton]; simp
        | cons a m ih =>
          intro hm y
          rw [set]
          split
          · rw [List.mem_cons]
          · rw [if_neg fun heq => hm a (List.mem_cons_self ..) heq.symm, List.mem_cons, ih (fun y hy => hm y (List.mem_cons_of_mem _ hy)) y, List.mem_cons]
            exact ⟨fun h => h.elim (fun h => Or.inr (Or.inl h)) (fun h => h.elim Or.inl fun h => Or.inr (Or.inr h)),
              fun h => h.elim (fun h => Or.inr (Or.inl h)) (fun h => h.elim Or.inl fun h => Or.inr (Or.inr h))⟩
      have hm1 : ∀ y ∈ m, y.1 ≠ e.1 := fun y hy heq => hm y hy (by rw [heq]; exact List.mem_cons_self ..)
      refine ih _ hn'.2 (fun y hy => ?_) ?_
      · rcases (hset m hm1 y).1 hy with rfl | hy
        · exact hn'.1
        · exact fun h => hm y hy (List.mem_cons_of_mem _ h)
      · rcases hx with hx | hx
        · rcases List.mem_cons.1 hx with rfl | hx
          · exact Or.inr ((hset m hm1 _).2 (Or.inl rfl))
          · exact Or.inl hx
        · exact Or.inr ((hset m hm1 _).2 (Or.inr hx))
  exact key l [] h (by simp) (Or.inl hx)

/-- What `json.Marshal` writes denotes the value. -/
theorem encode_den {F : Floats} {g : Rat → Rat} {P : Rat → Prop} (hP : ∀ q, P q → Num (F.fmt q) (g q)) (v : G) (h : v.Ok P) : Den (encode F v) (.value (v.mean g)) := by
  induction v using G.ind with
  | null => exact .null
  | bool b => cases b with
    | true => exact .true_
    | false => exact .false_
  | int z => exact .num (showInt_num z)
  | float q => cases h with | float h => exact .num (hP q h)
  | str s =>
    obtain ⟨x, hx, hc⟩ := quote_chars s
    rw [encode, hx]
    exact .str hc
  | arr l ih =>
    cases h with
    | arr h =>
      rw [encode, encodeItems_eq, G.mean, itemsMean_eq]
      cases l with
      | nil => exact .noItems Ws.nil
      | cons v l => exact .arr (commas_items (by simp) fun u hu => ih u hu (h u hu))
  | obj m ih =>
    cases h with
    | obj hn h =>
      rw [encode, encodeMembers_eq, sortKeys_map, List.map_map, G.mean, membersMean_eq]
      have hn' : ((m.map fun e => (e.1, e.2.mean g)).map (·.1)).Nodup := by rw [List.map_map]; exact hn
      rw [mapOf_nodup hn', sortKeys_map]
      cases hm : m with
      | nil => exact .noMembers Ws.nil
      | cons a m' =>
        rw [← hm]
        have hne : sortKeys m ≠ [] := by
          intro h0
          have : a ∈ sortKeys m := mem_sortKeys.2 (by rw [hm]; exact List.mem_cons_self ..)
          rw [h0] at this
          cases this
        have := Den.obj (commas_members (F := F) (g := g) hne fun e he => ih e (mem_sortKeys.1 he) (h e (mem_sortKeys.1 he)))
        have hs : Sorted ((sortKeys m).map fun e => (e.1, e.2.mean g)) := by
          have := sorted_sortKeys hn'
          rwa [sortKeys_map] at this
        rw [mapOf_sorted hs] at this
        exact this

end Verif.Json
