import Verif.Json.Lemmas
/-! # JSON: the decoder accepts exactly the texts of the grammar, with their values -/
namespace Verif.Json
open Spec

theorem map_pair_some {α β γ : Type} {o : Option (α × γ)} {f : α → β} {b : β} {r : γ} (h : (o.map fun p => (f p.1, p.2)) = some (b, r)) : ∃ a, o = some (a, r) ∧ b = f a := by
  cases o with
  | none => cases h
  | some p =>
    simp only [Option.map_some, Option.some.injEq, Prod.mk.injEq] at h
    obtain ⟨rfl, rfl⟩ := h
    exact ⟨p.1, rfl, rfl⟩

theorem cons_of_ws {s r : Str} {c : Char} (h : ws s = c :: r) : ∃ w, s = w ++ c :: r ∧ Ws w := by
  obtain ⟨w, h1, h2⟩ := ws_split s
  exact ⟨w, by rw [← h]; exact h1, h2⟩

theorem decode_sound (n : Nat) : (∀ {s r : Str} {j : J}, value n s = some (j, r) → ∃ x, s = x ++ r ∧ Den x (.value j)) ∧
    (∀ {s r : Str} {l : List J}, items n s = some (l, r) → ∃ x, s = x ++ ']' :: r ∧ Den x (.items l)) ∧
    (∀ {s r : Str} {m : List (Str × J)}, members n s = some (m, r) → ∃ x, s = x ++ '}' :: r ∧ Den x (.members m)) := by
  induction n with
  | zero => exact ⟨fun h => by simp [value] at h, fun h => by simp [items] at h, fun h => by simp [members] at h⟩
  | succ n ih =>
    obtain ⟨ihv, ihi, ihm⟩ := ih
    refine ⟨fun {s r j} h => ?_, fun {s r l} h => ?_, fun {s r m} h => ?_⟩
    · unfold value at h
      split at h
      · simp only [Option.some.injEq, Prod.mk.injEq] at h
        obtain ⟨rfl, rfl⟩ := h
        exact ⟨"null".toList, rfl, .null⟩
      · simp only [Option.some.injEq, Prod.mk.injEq] at h
        obtain ⟨rfl, rfl⟩ := h
        exact ⟨"true".toList, rfl, .true_⟩
      · simp only [Option.some.injEq, Prod.mk.injEq] at h
        obtain ⟨rfl, rfl⟩ := h
        exact ⟨"false".toList, rfl, .false_⟩
      · obtain ⟨t, h1, rfl⟩ := map_pair_some h
        obtain ⟨x, rfl, hx⟩ := chars_sound h1
        exact ⟨'"' :: x ++ ['"'], by simp, .str hx⟩
      · rename_i s
        split at h
        · rename_i hb
          simp only [Option.some.injEq, Prod.mk.injEq] at h
          obtain ⟨rfl, rfl⟩ := h
          obtain ⟨w, h1, h2⟩ := ws_split s
          obtain ⟨t, ht⟩ : ∃ t, ws s = ']' :: t := by
            cases hs : ws s with
            | nil => rw [hs] at hb; cases hb
            | cons c t =>
              rw [hs] at hb
              simp only [List.head?_cons, Option.some.injEq] at hb
              exact ⟨t, by rw [hb]⟩
          refine ⟨'[' :: w ++ [']'], ?_, .noItems h2⟩
          rw [ht] at h1 ⊢
          rw [h1]
          simp
        · obtain ⟨l, h1, rfl⟩ := map_pair_some h
          obtain ⟨x, rfl, hx⟩ := ihi h1
          exact ⟨'[' :: x ++ [']'], by simp, .arr hx⟩
      · rename_i s
        split at h
        · rename_i hb
          simp only [Option.some.injEq, Prod.mk.injEq] at h
          obtain ⟨rfl, rfl⟩ := h
          obtain ⟨w, h1, h2⟩ := ws_split s
          obtain ⟨t, ht⟩ : ∃ t, ws s = '}' :: t := by
            cases hs : ws s with
            | nil => rw [hs] at hb; cases hb
            | cons c t =>
              rw [hs] at hb
              simp only [List.head?_cons, Option.some.injEq] at hb
              exact ⟨t, by rw [hb]⟩
          refine ⟨'{' :: w ++ ['}'], ?_, .noMembers h2⟩
          rw [ht] at h1 ⊢
          rw [h1]
          simp
        · obtain ⟨m, h1, rfl⟩ := map_pair_some (f := fun m => J.obj (mapOf m)) h
          obtain ⟨x, rfl, hx⟩ := ihm h1
          exact ⟨'{' :: x ++ ['}'], by simp, .obj hx⟩
      · obtain ⟨q, h1, rfl⟩ := map_pair_some h
        obtain ⟨x, rfl, hx⟩ := number_sound h1
        exact ⟨x, rfl, .num hx⟩
    · unfold items at h
      split at h
      · cases h
      · rename_i j s1 hv
        obtain ⟨w, hw, hw'⟩ := ws_split s
        obtain ⟨x, hx, hd⟩ := ihv hv
        split at h
        · rename_i s2 h2
          simp only [Option.some.injEq, Prod.mk.injEq] at h
          obtain ⟨rfl, rfl⟩ := h
          obtain ⟨w2, rfl, hw2⟩ := cons_of_ws h2
          exact ⟨w ++ x ++ w2, by rw [hw, hx]; simp, .item hw' hd hw2⟩
        · rename_i s2 h2
          obtain ⟨l', h3, rfl⟩ := map_pair_some h
          obtain ⟨w2, rfl, hw2⟩ := cons_of_ws h2
          obtain ⟨y, rfl, hy⟩ := ihi h3
          exact ⟨w ++ x ++ w2 ++ ',' :: y, by rw [hw, hx]; simp, .itemsMore hw' hd hw2 hy⟩
        · cases h
    · unfold members at h
      split at h
      · rename_i s1 h1
        obtain ⟨w, rfl, hw⟩ := cons_of_ws h1
        split at h
        · cases h
        · rename_i k s2 h2
          obtain ⟨kt, rfl, hk⟩ := chars_sound h2
          split at h
          · rename_i s3 h3
            obtain ⟨w1, rfl, hw1⟩ := cons_of_ws h3
            split at h
            · cases h
            · rename_i j s4 hv
              obtain ⟨w2, e2, hw2⟩ := ws_split s3
              obtain ⟨x, hx, hd⟩ := ihv hv
              split at h
              · rename_i s5 h5
                simp only [Option.some.injEq, Prod.mk.injEq] at h
                obtain ⟨rfl, rfl⟩ := h
                obtain ⟨w3, rfl, hw3⟩ := cons_of_ws h5
                exact ⟨w ++ ('"' :: kt ++ ['"']) ++ w1 ++ ':' :: (w2 ++ x ++ w3), by rw [e2, hx]; simp, .member hw hk hw1 hw2 hd hw3⟩
              · rename_i s5 h5
                obtain ⟨m', h6, rfl⟩ := map_pair_some h
                obtain ⟨w3, rfl, hw3⟩ := cons_of_ws h5
                obtain ⟨y, rfl, hy⟩ := ihm h6
                exact ⟨w ++ ('"' :: kt ++ ['"']) ++ w1 ++ ':' :: (w2 ++ x ++ w3 ++ ',' :: y), by rw [e2, hx]; simp, .membersMore hw hk hw1 hw2 hd hw3 hy⟩
              · cases h
          · cases h
      · cases h

/-- How a value starts. -/
theorem den_head {x : Str} {j : J} (h : Den x (.value j)) : ∃ c r, x = c :: r ∧ isWs c = false ∧ c ≠ ']' ∧ c ≠ '}' := by
  cases h with
  | num h =>
    obtain ⟨c, r, rfl, hc⟩ := num_head h
    refine ⟨c, r, rfl, ?_⟩
    rcases hc with rfl | hc
    · decide
    · refine ⟨?_, ?_, ?_⟩
      · cases hw : isWs c with
        | false => rfl
        | true =>
          rcases isWs_iff.1 hw with rfl | rfl | rfl | rfl <;> exact absurd hc (by decide)
      · rintro rfl
        exact absurd hc (by decide)
      · rintro rfl
        exact absurd hc (by decide)
  | _ => exact ⟨_, _, rfl, by decide, by decide, by decide⟩

theorem follow_nil : Follow [] := fun _ h => nomatch h

theorem follow_cons {c : Char} {r : Str} (h : c.isDigit = false ∧ c ≠ '.' ∧ c ≠ 'e' ∧ c ≠ 'E') : Follow (c :: r) := by
  intro d hd
  simp only [List.head?_cons, Option.some.injEq] at hd
  exact hd ▸ h

theorem follow_ws {w : Str} (h : Ws w) {r : Str} (hr : Follow r) : Follow (w ++ r) := by
  cases w with
  | nil => exact hr
  | cons c w =>
    refine follow_cons ?_
    rcases h c (List.mem_cons_self ..) with rfl | rfl | rfl | rfl <;> decide

/-- What is needed to decode a piece of text. -/
def Decodes (x : Str) : Meaning → Prop
  | .value j => ∀ (n : Nat) (r : Str), x.length < n → Follow r → value n (x ++ r) = some (j, r)
  | .items l => ∀ (n : Nat) (r : Str), x.length + 1 < n → items n (x ++ ']' :: r) = some (l, r) ∧ (ws (x ++ ']' :: r)).head? ≠ some ']'
  | .members m => ∀ (n : Nat) (r : Str), x.length + 1 < n → members n (x ++ '}' :: r) = some (m, r) ∧ (ws (x ++ '}' :: r)).head? ≠ some '}'

theorem ws_value {w x r : Str} {j : J} (hw : Ws w) (h : Den x (.value j)) : ws (w ++ x ++ r) = x ++ r ∧ (x ++ r).head? ≠ some ']' := by
  obtain ⟨c, t, rfl, h1, h2, -⟩ := den_head h
  rw [List.append_assoc, ws_skip hw]
  refine ⟨ws_stop h1 _, ?_⟩
  rw [List.cons_append, List.head?_cons]
  exact fun h => h2 (Option.some.inj h)

theorem value_str (n : Nat) (r : Str) : value (n + 1) ('"' :: r) = (chars (r.length + 1) r).map fun p => (.str p.1, p.2) := rfl

theorem value_arr (n : Nat) (r : Str) : value (n + 1) ('[' :: r) =
    if (ws r).head? = some ']' then some (.arr [], (ws r).tail) else (items n r).map fun p => (.arr p.1, p.2) := rfl

theorem value_obj (n : Nat) (r : Str) : value (n + 1) ('{' :: r) =
    if (ws r).head? = some '}' then some (.obj [], (ws r).tail) else (members n r).map fun p => (.obj (mapOf p.1), p.2) := rfl

theorem members_key {n : Nat} {s r r1 r2 r3 k : Str} {j : J} (h1 : ws s = '"' :: r) (h2 : chars (r.length + 1) r = some (k, r1)) (h3 : ws r1 = ':' :: r2) (h4 : value n (ws r2) = some (j, r3)) :
    members (n + 1) s = match ws r3 with
      | '}' :: r => some ([(k, j)], r)
      | ',' :: r => (members n r).map fun p => ((k, j) :: p.1, p.2)
      | _ => none := by
  rw [members.eq_2, h1]
  simp only [h2, h3, h4]
  rfl

theorem decode_complete {x : Str} {m : Meaning} (h : Den x m) : Decodes x m := by
  induction h with
  | null =>
    intro n r hn _
    cases n with
    | zero => simp at hn
    | succ n => rfl
  | true_ =>
    intro n r hn _
    cases n with
    | zero => simp at hn
    | succ n => rfl
  | false_ =>
    intro n r hn _
    cases n with
    | zero => simp at hn
    | succ n => rfl
  | @num s q h =>
    intro n r hn hr
    cases n with
    | zero => simp at hn
    | succ n =>
      obtain ⟨c, t, rfl, hc⟩ := num_head h
      have e := number_complete h hr
      have hne : c ≠ 'n' ∧ c ≠ 't' ∧ c ≠ 'f' ∧ c ≠ '"' ∧ c ≠ '[' ∧ c ≠ '{' := by
        refine ⟨?_, ?_, ?_, ?_, ?_, ?_⟩ <;> (rintro rfl; rcases hc with hc | hc <;> exact absurd hc (by decide))
      unfold value
      rw [List.cons_append] at e ⊢
      split
      · rename_i heq; exact absurd (List.cons.inj heq).1 hne.1
      · rename_i heq; exact absurd (List.cons.inj heq).1 hne.2.1
      · rename_i heq; exact absurd (List.cons.inj heq).1 hne.2.2.1
      · rename_i heq; exact absurd (List.cons.inj heq).1 hne.2.2.2.1
      · rename_i heq; exact absurd (List.cons.inj heq).1 hne.2.2.2.2.1
      · rename_i heq; exact absurd (List.cons.inj heq).1 hne.2.2.2.2.2
      · rw [e]; rfl
  | str h =>
    rename_i s t
    intro n r hn _
    cases n with
    | zero => simp at hn
    | succ n =>
      have e := chars_complete h (n := (s ++ '"' :: r).length + 1) r (by simp; omega)
      rw [List.append_assoc, List.cons_append, List.singleton_append, value_str, e]
      rfl
  | noItems hw =>
    rename_i w
    intro n r hn _
    cases n with
    | zero => simp at hn
    | succ n =>
      have e : ws (w ++ ']' :: r) = ']' :: r := by rw [ws_skip hw, ws_stop (by decide)]
      rw [List.append_assoc, List.cons_append, List.singleton_append, value_arr, e]
      exact if_pos rfl
  | arr _ ih =>
    rename_i s l _
    intro n r hn _
    cases n with
    | zero => simp at hn
    | succ n =>
      obtain ⟨e1, e2⟩ := ih n r (by simp at hn; omega)
      rw [List.append_assoc, List.cons_append, List.singleton_append, value_arr, if_neg e2, e1]
      rfl
  | noMembers hw =>
    rename_i w
    intro n r hn _
    cases n with
    | zero => simp at hn
    | succ n =>
      have e : ws (w ++ '}' :: r) = '}' :: r := by rw [ws_skip hw, ws_stop (by decide)]
      rw [List.append_assoc, List.cons_append, List.singleton_append, value_obj, e]
      exact if_pos rfl
  | obj _ ih =>
    rename_i s l _
    intro n r hn _
    cases n with
    | zero => simp at hn
    | succ n =>
      obtain ⟨e1, e2⟩ := ih n r (by simp at hn; omega)
      rw [List.append_assoc, List.cons_append, List.singleton_append, value_obj, if_neg e2, e1]
      rfl
  | item hw hd hw' ih =>
    rename_i w s w' j
    intro n r hn
    cases n with
    | zero => simp at hn
    | succ n =>
      obtain ⟨e1, e2⟩ := ws_value (r := w' ++ ']' :: r) hw hd
      have e3 := ih n (w' ++ ']' :: r) (by simp at hn; omega) (follow_ws hw' (follow_cons (by decide)))
      have e4 : ws (w' ++ ']' :: r) = ']' :: r := by rw [ws_skip hw', ws_stop (by decide)]
      rw [List.append_assoc (w ++ s), e1]
      refine ⟨?_, e2⟩
      unfold items
      rw [e1, e3]
      dsimp only
      rw [e4]
      rfl
  | itemsMore hw hd hw' _ ih1 ih2 =>
    rename_i w s w' j x l _
    intro n r hn
    cases n with
    | zero => simp at hn
    | succ n =>
      obtain ⟨e1, e2⟩ := ws_value (r := w' ++ ',' :: (x ++ ']' :: r)) hw hd
      have e3 := ih1 n (w' ++ ',' :: (x ++ ']' :: r)) (by simp at hn; omega) (follow_ws hw' (follow_cons (by decide)))
      have e4 : ws (w' ++ ',' :: (x ++ ']' :: r)) = ',' :: (x ++ ']' :: r) := by rw [ws_skip hw', ws_stop (by decide)]
      obtain ⟨e5, -⟩ := ih2 n r (by simp at hn; omega)
      have e0 : w ++ s ++ w' ++ ',' :: x ++ ']' :: r = w ++ s ++ (w' ++ ',' :: (x ++ ']' :: r)) := by simp
      rw [e0, e1]
      refine ⟨?_, e2⟩
      unfold items
      rw [e1, e3]
      dsimp only
      rw [e4]
      show Option.map (fun p : List J × Str => (j :: p.1, p.2)) (items n (x ++ ']' :: r)) = _
      rw [e5]
      rfl
  | member hw hk hw1 hw2 hd hw3 ih =>
    rename_i w k kt w1 w2 s w3 j
    intro n r hn
    cases n with
    | zero => simp at hn
    | succ n =>
      have e0 : w ++ ('"' :: kt ++ ['"']) ++ w1 ++ ':' :: (w2 ++ s ++ w3) ++ '}' :: r = w ++ '"' :: (kt ++ '"' :: (w1 ++ ':' :: (w2 ++ s ++ (w3 ++ '}' :: r)))) := by simp
      have e1 : ws (w ++ '"' :: (kt ++ '"' :: (w1 ++ ':' :: (w2 ++ s ++ (w3 ++ '}' :: r))))) = '"' :: (kt ++ '"' :: (w1 ++ ':' :: (w2 ++ s ++ (w3 ++ '}' :: r)))) := by
        rw [ws_skip hw, ws_stop (by decide)]
      have e2 := fun N => chars_complete hk (n := N) (w1 ++ ':' :: (w2 ++ s ++ (w3 ++ '}' :: r)))
      have e3 : ws (w1 ++ ':' :: (w2 ++ s ++ (w3 ++ '}' :: r))) = ':' :: (w2 ++ s ++ (w3 ++ '}' :: r)) := by rw [ws_skip hw1, ws_stop (by decide)]
      obtain ⟨e4, -⟩ := ws_value (r := w3 ++ '}' :: r) hw2 hd
      have e5 := ih n (w3 ++ '}' :: r) (by simp at hn; omega) (follow_ws hw3 (follow_cons (by decide)))
      have e6 : ws (w3 ++ '}' :: r) = '}' :: r := by rw [ws_skip hw3, ws_stop (by decide)]
      rw [e0, e1]
      refine ⟨?_, by simp⟩
      rw [members_key e1 (e2 _ (by simp; omega)) e3 (by rw [e4]; exact e5), e6]
      rfl
  | membersMore hw hk hw1 hw2 hd hw3 _ ih1 ih2 =>
    rename_i w k kt w1 w2 s w3 j x m _
    intro n r hn
    cases n with
    | zero => simp at hn
    | succ n =>
      have e0 : w ++ ('"' :: kt ++ ['"']) ++ w1 ++ ':' :: (w2 ++ s ++ w3 ++ ',' :: x) ++ '}' :: r = w ++ '"' :: (kt ++ '"' :: (w1 ++ ':' :: (w2 ++ s ++ (w3 ++ ',' :: (x ++ '}' :: r))))) := by simp
      have e1 : ws (w ++ '"' :: (kt ++ '"' :: (w1 ++ ':' :: (w2 ++ s ++ (w3 ++ ',' :: (x ++ '}' :: r)))))) = '"' :: (kt ++ '"' :: (w1 ++ ':' :: (w2 ++ s ++ (w3 ++ ',' :: (x ++ '}' :: r))))) := by
        rw [ws_skip hw, ws_stop (by decide)]
      have e2 := fun N => chars_complete hk (n := N) (w1 ++ ':' :: (w2 ++ s ++ (w3 ++ ',' :: (x ++ '}' :: r))))
      have e3 : ws (w1 ++ ':' :: (w2 ++ s ++ (w3 ++ ',' :: (x ++ '}' :: r)))) = ':' :: (w2 ++ s ++ (w3 ++ ',' :: (x ++ '}' :: r))) := by rw [ws_skip hw1, ws_stop (by decide)]
      obtain ⟨e4, -⟩ := ws_value (r := w3 ++ ',' :: (x ++ '}' :: r)) hw2 hd
      have e5 := ih1 n (w3 ++ ',' :: (x ++ '}' :: r)) (by simp at hn; omega) (follow_ws hw3 (follow_cons (by decide)))
      have e6 : ws (w3 ++ ',' :: (x ++ '}' :: r)) = ',' :: (x ++ '}' :: r) := by rw [ws_skip hw3, ws_stop (by decide)]
      obtain ⟨e7, -⟩ := ih2 n r (by simp at hn; omega)
      rw [e0, e1]
      refine ⟨?_, by simp⟩
      rw [members_key e1 (e2 _ (by simp; omega)) e3 (by rw [e4]; exact e5), e6]
      show Option.map (fun p : List (Str × J) × Str => ((k, j) :: p.1, p.2)) (members n (x ++ '}' :: r)) = _
      rw [e7]
      rfl

/-- The decoder accepts a text exactly if it is JSON, and gives what the text denotes. -/
theorem decode_iff {s : Str} {j : J} : decode s = some j ↔ Denotes s j := by
  constructor
  · intro h
    unfold decode at h
    split at h
    · cases h
    · rename_i j' r hv
      split at h
      · rename_i hr
        simp only [Option.some.injEq] at h
        subst h
        obtain ⟨w, hw, hw'⟩ := ws_split s
        obtain ⟨x, hx, hd⟩ := (decode_sound _).1 hv
        exact ⟨w, x, r, by rw [List.append_assoc, ← hx]; exact hw, hw', hd, ws_nil_iff.1 hr⟩
      · cases h
  · rintro ⟨w, x, w', rfl, hw, hd, hw'⟩
    obtain ⟨e1, -⟩ := ws_value (r := w') hw hd
    have e2 := decode_complete hd ((w ++ x ++ w').length + 1) w' (by simp; omega) (by have := follow_ws hw' follow_nil; rwa [List.append_nil] at this)
    unfold decode
    rw [e1, e2]
    dsimp only
    rw [if_pos (ws_all hw')]

/-- A text denotes at most one value. -/
theorem denotes_unique {s : Str} {j j' : J} (h : Denotes s j) (h' : Denotes s j') : j = j' :=
  Option.some.inj ((decode_iff.2 h).symm.trans (decode_iff.2 h'))

end Verif.Json
