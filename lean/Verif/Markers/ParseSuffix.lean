import Verif.Markers.ParseLemmas
/-!
# Lemmas for C15: the parser only moves forward
-/
namespace Verif.Markers

theorem suffix_skipStringAt : ∀ (l : Str) (e : Esc) (r : Str), skipStringAt e l = some r → r <:+ l := by
  intro l
  induction l with
  | nil => intro e r h; cases e <;> simp [skipStringAt] at h
  | cons c l ih =>
    intro e r h
    have key : ∀ e', skipStringAt e' l = some r → r <:+ c :: l := fun e' h => (ih e' r h).trans (List.suffix_cons c l)
    cases e with
    | plain =>
      simp only [skipStringAt] at h
      split at h
      · simp at h; subst h; exact List.suffix_cons c l
      · split at h
        · cases h
        · split at h <;> exact key _ h
    | backslash =>
      simp only [skipStringAt] at h
      split at h
      · exact key _ h
      · split at h
        · exact key _ h
        · split at h
          · exact key _ h
          · split at h
            · exact key _ h
            · split at h
              · exact key _ h
              · cases h
    | digits hex n =>
      cases n <;> simp only [skipStringAt] at h <;> split at h
      · exact key _ h
      · cases h
      · exact key _ h
      · cases h

theorem suffix_numSpan (b : Nat) (l : Str) : (numSpan b l).2 <:+ l := List.dropWhile_suffix _

theorem suffix_numEnd {tok : Tok} {pre : Char} {bad : Bool} {l : Str} {t : Tok} {r : Str} (h : numEnd tok pre bad l = .ok (t, r)) : r <:+ l := by
  simp only [numEnd] at h
  have hq : (if l.tail.head? = some '+' ∨ l.tail.head? = some '-' then l.tail.tail else l.tail) <:+ l := by
    split
    · exact (List.tail_suffix _).trans (List.tail_suffix _)
    · exact List.tail_suffix _
  generalize (if l.tail.head? = some '+' ∨ l.tail.head? = some '-' then l.tail.tail else l.tail) = q at h hq
  split at h
  · split at h
    · cases h
    · split at h
      · cases h
      · split at h
        · cases h
        · split at h
          · cases h
          · simp only [Except.ok.injEq, Prod.mk.injEq] at h
            rw [← h.2]
            exact (suffix_numSpan _ _).trans hq
  · split at h
    · cases h
    · split at h
      · cases h
      · simp only [Except.ok.injEq, Prod.mk.injEq] at h
        rw [← h.2]; exact List.suffix_refl _

theorem suffix_numCheck {tok : Tok} {b : Nat} {pre : Char} {ds l : Str} {t : Tok} {r : Str} (h : numCheck tok b pre ds l = .ok (t, r)) : r <:+ l := by
  simp only [numCheck] at h
  split at h
  · cases h
  · split at h
    · cases h
    · split at h
      · cases h
      · exact suffix_numEnd h

theorem suffix_numPrefix (l : Str) : (numPrefix l).2.2 <:+ l := by
  have h2 : l.tail.tail <:+ l := (List.tail_suffix _).trans (List.tail_suffix _)
  simp only [numPrefix]
  split
  · split
    · exact h2
    · split
      · exact h2
      · split
        · exact h2
        · exact List.tail_suffix _
  · exact List.suffix_refl _

theorem suffix_scanNumber {l : Str} {dot : Bool} {t : Tok} {r : Str} (h : scanNumber l dot = .ok (t, r)) : r <:+ l := by
  simp only [scanNumber] at h
  have hp := suffix_numPrefix l
  split at h
  · exact (suffix_numCheck h).trans (suffix_numSpan _ _)
  · split at h
    · exact (suffix_numCheck h).trans ((suffix_numSpan _ _).trans ((List.tail_suffix _).trans ((suffix_numSpan _ _).trans hp)))
    · exact (suffix_numCheck h).trans ((suffix_numSpan _ _).trans hp)

theorem suffix_lex {U : Unicode} {num : Bool} {l : Str} {t : Tok} {r : Str} (h : lex U num l = .ok (t, r)) : r <:+ l := by
  cases l with
  | nil => simp [lex] at h; simp [h]
  | cons c cs =>
    have hc : ∀ {t'}, (Except.ok (t', cs) : Except PErr (Tok × Str)) = .ok (t, r) → r <:+ c :: cs := by
      intro t' h; simp at h; rw [← h.2]; exact List.suffix_cons c cs
    simp only [lex] at h
    split at h
    · simp at h; rw [← h.2]; exact (List.dropWhile_suffix _).trans (List.suffix_cons c cs)
    · split at h
      · split at h
        · exact suffix_scanNumber h
        · exact hc h
      · split at h
        · split at h
          · cases h
          · rename_i rest hs
            simp at h; rw [← h.2]; exact (suffix_skipStringAt _ _ _ hs).trans (List.suffix_cons c cs)
        · split at h
          · split at h
            · cases h
            · rename_i p rest hs
              simp at h; rw [← h.2]
              refine List.IsSuffix.trans ?_ (List.suffix_cons c cs)
              rw [(Text.cut_some.1 hs).1]
              exact ⟨p ++ ['`'], by simp⟩
          · split at h
            · split at h
              · split at h
                · exact (suffix_scanNumber h).trans (List.suffix_cons c _)
                · exact hc h
              · exact hc h
            · exact hc h

theorem suffix_scan {U : Unicode} {num : Bool} {s : Sc} {t : Tok} {s' : Sc} (h : scan U num s = .ok (t, s')) : s'.rest <:+ s.rest := by
  simp only [scan] at h
  split at h
  · cases h
  · rename_i hl
    simp at h; rw [← h.2]
    exact (suffix_lex hl).trans (List.dropWhile_suffix _)

theorem suffix_skipWs (s : Sc) : (skipWs s).rest <:+ s.rest := by rw [skipWs_rest]; exact List.dropWhile_suffix _

theorem suffix_expect {U : Unicode} {t : Tok} {s s' : Sc} (h : expect U t s = .ok s') : s'.rest <:+ s.rest := by
  simp only [expect] at h
  split at h
  · cases h
  · rename_i hs
    split at h
    · simp at h; subst h; exact suffix_scan hs
    · cases h

theorem suffix_bareLoop {U : Unicode} : ∀ (n : Nat) (s s' : Sc), bareLoop U n s = .ok s' → s'.rest <:+ s.rest := by
  intro n
  induction n with
  | zero => intro s s' h; cases h
  | succ n ih =>
    intro s s' h
    simp only [bareLoop] at h
    split at h
    · simp at h; subst h; exact suffix_skipWs s
    · split at h
      · simp at h; subst h; exact suffix_skipWs s
      · split at h
        · cases h
        · rename_i hs
          exact (ih _ _ h).trans ((suffix_scan hs).trans (suffix_skipWs s))

theorem suffix_parseString {U : Unicode} {raw : Str} {s : Sc} {v : Str} {s' : Sc} (h : parseString U raw s = .ok (v, s')) : s'.rest <:+ s.rest := by
  simp only [parseString] at h
  split at h
  · cases h
  · rename_i hs
    split at h
    · split at h
      · cases h
      · simp at h; rw [← h.2]; exact suffix_scan hs
    · split at h
      · cases h
      · rename_i hb
        simp at h; rw [← h.2]; exact (suffix_bareLoop _ _ _ hb).trans (suffix_scan hs)

theorem suffix_drain {U : Unicode} : ∀ (n : Nat) (s s' : Sc), drain U n s = .ok s' → s'.rest <:+ s.rest := by
  intro n
  induction n with
  | zero => intro s s' h; cases h
  | succ n ih =>
    intro s s' h
    simp only [drain] at h
    split at h
    · cases h
    · rename_i hs
      split at h
      · simp at h; subst h; exact suffix_scan hs
      · exact (ih _ _ h).trans (suffix_scan hs)

theorem suffix_minus {U : Unicode} {s : Sc} {b : Bool} {s' : Sc} (h : minus U s = .ok (b, s')) : s'.rest <:+ s.rest := by
  simp only [minus] at h
  split at h
  · split at h
    · cases h
    · rename_i hs
      simp at h; rw [← h.2]; exact suffix_scan hs
  · simp at h; rw [← h.2]; exact List.suffix_refl _

/-- The four functions move forward, with recursion bound `n`. -/
structure Forward (E : Env) (n : Nat) : Prop where
  parse : ∀ {a raw b s v s'}, parse E n a raw b s = .ok (v, s') → s'.rest <:+ s.rest
  braced : ∀ {a raw s l s'}, bracedItems E n a raw s = .ok (l, s') → s'.rest <:+ s.rest
  legacy : ∀ {a raw s l s'}, legacyItems E n a raw s = .ok (l, s') → s'.rest <:+ s.rest
  map : ∀ {a raw s acc m s'}, mapItems E n a raw s acc = .ok (m, s') → s'.rest <:+ s.rest

theorem forward (E : Env) : ∀ n, Forward E n := by
  intro n
  induction n with
  | zero =>
    refine ⟨?_, ?_, ?_, ?_⟩ <;> (intros; rename_i h; simp [parse, bracedItems, legacyItems, mapItems] at h)
  | succ n ih =>
    refine ⟨?_, ?_, ?_, ?_⟩
    · intro a raw b s v s' h
      cases a with
      | invalid => simp [parse] at h
      | raw =>
        simp only [parse] at h
        split at h
        · cases h
        · rename_i hs; simp at h; rw [← h.2]; exact suffix_drain _ _ _ hs
      | num =>
        simp only [parse] at h
        split at h
        · cases h
        · rename_i hm
          split at h
          · cases h
          · rename_i hs
            split at h
            · split at h
              · cases h
              · simp at h; rw [← h.2]; exact (suffix_scan hs).trans (suffix_minus hm)
            · cases h
      | int b32 =>
        simp only [parse] at h
        split at h
        · cases h
        · rename_i hm
          split at h
          · cases h
          · rename_i hs
            split at h
            · cases h
            · simp at h; rw [← h.2]; exact (suffix_expect hs).trans (suffix_minus hm)
      | str =>
        simp only [parse] at h
        split at h
        · cases h
        · rename_i hs; simp at h; rw [← h.2]; exact suffix_parseString hs
      | bool =>
        simp only [parse] at h
        split at h
        · cases h
        · rename_i hs
          split at h
          · simp at h; rw [← h.2]; exact suffix_expect hs
          · split at h
            · simp at h; rw [← h.2]; exact suffix_expect hs
            · cases h
      | any =>
        simp only [parse] at h
        split at h
        · cases h
        · split at h
          · split at h
            · exact ih.parse h
            · cases h
          · split at h
            · exact ih.parse h
            · cases h
          · exact ih.parse h
      | slice item =>
        simp only [parse] at h
        split at h
        · split at h
          · cases h
          · rename_i hs
            split at h
            · cases h
            · rename_i hb; simp at h; rw [← h.2]; exact (ih.braced hb).trans ((suffix_scan hs).trans (suffix_skipWs s))
        · split at h
          · cases h
          · rename_i hb; simp at h; rw [← h.2]; exact (ih.legacy hb).trans (suffix_skipWs s)
      | map item =>
        simp only [parse] at h
        split at h
        · cases h
        · rename_i hs
          split at h
          · cases h
          · rename_i hb; simp at h; rw [← h.2]; exact (ih.map hb).trans (suffix_expect hs)
    · intro a raw s l s' h
      simp only [bracedItems] at h
      split at h
      · split at h
        · cases h
        · rename_i hs; simp at h; rw [← h.2]; exact (suffix_expect hs).trans (suffix_skipWs s)
      · split at h
        · cases h
        · rename_i hp
          have h1 := (ih.parse hp).trans (suffix_skipWs s)
          split at h
          · split at h
            · cases h
            · rename_i hs; simp at h; rw [← h.2]; exact ((suffix_expect hs).trans (suffix_skipWs _)).trans h1
          · split at h
            · cases h
            · rename_i hs
              split at h
              · cases h
              · rename_i hb
                simp at h; rw [← h.2]
                exact ((ih.braced hb).trans ((suffix_expect hs).trans (suffix_skipWs _))).trans h1
    · intro a raw s l s' h
      simp only [legacyItems] at h
      split at h
      · simp at h; rw [← h.2]; exact suffix_skipWs s
      · split at h
        · cases h
        · rename_i hp
          have h1 := (ih.parse hp).trans (suffix_skipWs s)
          split at h
          · simp at h; rw [← h.2]; exact (suffix_skipWs _).trans h1
          · split at h
            · cases h
            · rename_i hs
              split at h
              · split at h
                · cases h
                · rename_i hb
                  simp at h; rw [← h.2]
                  exact ((ih.legacy hb).trans ((suffix_scan hs).trans (suffix_skipWs _))).trans h1
              · cases h
    · intro a raw s acc m s' h
      simp only [mapItems] at h
      split at h
      · split at h
        · cases h
        · rename_i hs; simp at h; rw [← h.2]; exact (suffix_expect hs).trans (suffix_skipWs s)
      · split at h
        · cases h
        · rename_i hk
          split at h
          · cases h
          · rename_i hc
            split at h
            · cases h
            · rename_i hp
              have h1 := ((ih.parse hp).trans (suffix_expect hc)).trans ((suffix_parseString hk).trans (suffix_skipWs s))
              split at h
              · split at h
                · cases h
                · rename_i hs; simp at h; rw [← h.2]; exact ((suffix_expect hs).trans (suffix_skipWs _)).trans h1
              · split at h
                · cases h
                · rename_i hs
                  exact ((ih.map h).trans ((suffix_expect hs).trans (suffix_skipWs _))).trans h1

/-! ## What a token was read from -/

theorem spaces_takeWhile (l : Str) : Spec.Spaces (l.takeWhile isWs) := by
  intro c hc
  have : isWs c = true := by
    induction l with
    | nil => cases hc
    | cons x xs ih =>
      simp only [List.takeWhile_cons] at hc
      split at hc
      · rcases List.mem_cons.1 hc with rfl | hc
        · assumption
        · exact ih hc
      · cases hc
  exact isWs_iff.1 this

theorem scan_split {U : Unicode} {num : Bool} {s : Sc} {t : Tok} {s' : Sc} (h : scan U num s = .ok (t, s')) :
    ∃ w, Spec.Spaces w ∧ s.rest = w ++ (s'.text ++ s'.rest) ∧ lex U num (s'.text ++ s'.rest) = .ok (t, s'.rest) := by
  simp only [scan] at h
  split at h
  · cases h
  · rename_i t' rest hl
    simp at h
    obtain ⟨p, hp⟩ := suffix_lex hl
    have htext : s'.text ++ s'.rest = s.rest.dropWhile isWs := by
      rw [← h.2]
      simp only
      rw [← hp]
      simp
    refine ⟨s.rest.takeWhile isWs, spaces_takeWhile _, ?_, ?_⟩
    · rw [htext]; exact List.takeWhile_append_dropWhile.symm
    · rw [htext, hl, ← h.2, h.1]

theorem expect_split {U : Unicode} {t : Tok} {s s' : Sc} (h : expect U t s = .ok s') :
    ∃ w, Spec.Spaces w ∧ s.rest = w ++ (s'.text ++ s'.rest) ∧ lex U true (s'.text ++ s'.rest) = .ok (t, s'.rest) := by
  simp only [expect] at h
  split at h
  · cases h
  · rename_i hs
    split at h
    · rename_i he
      simp at h; subst h he; exact scan_split hs
    · cases h

theorem numEnd_tok {tok : Tok} {pre : Char} {bad : Bool} {l : Str} {t : Tok} {r : Str} (h : numEnd tok pre bad l = .ok (t, r)) : t = tok ∨ t = .float := by
  simp only [numEnd] at h
  generalize (if l.tail.head? = some '+' ∨ l.tail.head? = some '-' then l.tail.tail else l.tail) = q at h
  split at h
  · split at h
    · cases h
    · split at h
      · cases h
      · split at h
        · cases h
        · split at h
          · cases h
          · simp only [Except.ok.injEq, Prod.mk.injEq] at h
            exact .inr h.1.symm
  · split at h
    · cases h
    · split at h
      · cases h
      · simp only [Except.ok.injEq, Prod.mk.injEq] at h
        exact .inl h.1.symm

theorem numCheck_tok {tok : Tok} {b : Nat} {pre : Char} {ds l : Str} {t : Tok} {r : Str} (h : numCheck tok b pre ds l = .ok (t, r)) :
    t = tok ∨ t = .float := by
  simp only [numCheck] at h
  split at h
  · cases h
  · split at h
    · cases h
    · split at h
      · cases h
      · exact numEnd_tok h

theorem scanNumber_tok {l : Str} {dot : Bool} {t : Tok} {r : Str} (h : scanNumber l dot = .ok (t, r)) : t = .int ∨ t = .float := by
  simp only [scanNumber] at h
  split at h
  · exact .inr (by simpa using numCheck_tok h)
  · split at h
    · exact .inr (by simpa using numCheck_tok h)
    · exact numCheck_tok h

/-- Punctuation and the end of the text are what they seem. -/
theorem lex_ch {U : Unicode} {num : Bool} {l : Str} {t : Tok} {r : Str} (h : lex U num l = .ok (t, r)) :
    (t = .eof → l = []) ∧ ∀ c, t = .ch c → l = c :: r := by
  cases l with
  | nil => simp [lex] at h; simp [h.1.symm]
  | cons c cs =>
    have hc : (Except.ok (.ch c, cs) : Except PErr (Tok × Str)) = .ok (t, r) → (t = .eof → c :: cs = []) ∧ ∀ c', t = .ch c' → c :: cs = c' :: r := by
      intro h; simp at h; rw [← h.1, ← h.2]; simp
    have hn : ∀ {l' b}, scanNumber l' b = .ok (t, r) → (t = .eof → c :: cs = []) ∧ ∀ c', t = .ch c' → c :: cs = c' :: r := by
      intro l' b h; rcases scanNumber_tok h with rfl | rfl <;> simp
    simp only [lex] at h
    split at h
    · simp at h; rw [← h.1]; simp
    · split at h
      · split at h
        · exact hn h
        · exact hc h
      · split at h
        · split at h
          · cases h
          · simp at h; rw [← h.1]; simp
        · split at h
          · split at h
            · cases h
            · simp at h; rw [← h.1]; simp
          · split at h
            · split at h
              · split at h
                · exact hn h
                · exact hc h
              · exact hc h
            · exact hc h

theorem expect_ch {U : Unicode} {c : Char} {s s' : Sc} (h : expect U (.ch c) s = .ok s') :
    ∃ w, Spec.Spaces w ∧ s.rest = w ++ c :: s'.rest := by
  obtain ⟨w, h1, h2, h3⟩ := expect_split h
  exact ⟨w, h1, by rw [h2, (lex_ch h3).2 c rfl]⟩

end Verif.Markers
