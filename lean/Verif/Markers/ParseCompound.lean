import Verif.Markers.ParseScalar
/-!
# Lemmas for C14: lists, maps and values of any type
-/
namespace Verif.Markers
open Spec

/-! ## First characters -/

theorem sign_digits_head (neg : Bool) (n : Nat) (q : Str) : ∃ c r, sign neg ++ (Nat.toDigits 10 n ++ q) = c :: r ∧ isWs c = false ∧ c ≠ '}' ∧ c ≠ '{' := by
  cases neg with
  | true => exact ⟨'-', _, rfl, by decide, by decide, by decide⟩
  | false =>
    obtain ⟨c, r, he, hc⟩ := toDigits_cons n
    refine ⟨c, r ++ q, by simp [sign, he], digit_not_ws hc, ?_, ?_⟩
    · rintro rfl; exact absurd hc (by decide)
    · rintro rfl; exact absurd hc (by decide)

theorem showsStr_head {self : Bool} {t x : Str} (h : ShowsStr self t x) : ∃ c r, x = c :: r ∧ isWs c = false ∧ c ≠ '}' := by
  have hb : ∀ {t : Str}, Bare t → ∃ c r, t = c :: r ∧ isWs c = false ∧ c ≠ '}' := by
    intro t h
    cases t with
    | nil => exact absurd rfl h.ne
    | cons c r => exact ⟨c, r, rfl, not_ws_iff.2 (h.first c rfl), (h.chars c (by simp)).2.2.2.1⟩
  cases h with
  | quoted => exact ⟨'"', _, rfl, by decide, by decide⟩
  | raw => exact ⟨'`', _, rfl, by decide, by decide⟩
  | word h => exact hb h.bare
  | bare h => exact hb h

theorem showBool_head (b : Bool) : ∃ c r, showBool b = c :: r ∧ isWs c = false ∧ c ≠ '}' := by
  cases b
  · exact ⟨'f', "alse".toList, by decide, by decide, by decide⟩
  · exact ⟨'t', "rue".toList, by decide, by decide, by decide⟩

theorem shows_head_typed {E : Env} {self : Bool} {a : Arg} {v : Value} {x : Str} (ha : a ≠ .any) (h : Shows E self a v x) :
    ∃ c r, x = c :: r ∧ isWs c = false ∧ c ≠ '}' := by
  have hz : ∀ z : Int, ∃ c r, showInt z = c :: r ∧ isWs c = false ∧ c ≠ '}' := by
    intro z
    obtain ⟨c, r, h1, h2, h3, -⟩ := sign_digits_head (decide (z < 0)) z.natAbs []
    exact ⟨c, r, by rw [showInt_eq, ← h1]; simp, h2, h3⟩
  cases h with
  | int => exact hz _
  | int32 => exact hz _
  | @frac _ neg ip fp =>
    obtain ⟨c, r, h1, h2, h3, -⟩ := sign_digits_head neg ip ('.' :: fp)
    exact ⟨c, r, by rw [showFrac_eq, ← h1], h2, h3⟩
  | whole => exact hz _
  | bool => exact showBool_head _
  | str h => exact showsStr_head h
  | sliceNil => exact ⟨'{', _, rfl, by decide, by decide⟩
  | slice => exact ⟨'{', _, rfl, by decide, by decide⟩
  | mapNil => exact ⟨'{', _, rfl, by decide, by decide⟩
  | map => exact ⟨'{', _, rfl, by decide, by decide⟩
  | any => exact absurd rfl ha

theorem shows_head {E : Env} {self : Bool} {a : Arg} {v : Value} {x : Str} (h : Shows E self a v x) :
    ∃ c r, x = c :: r ∧ isWs c = false ∧ c ≠ '}' := by
  by_cases ha : a = .any
  · subst ha
    cases h with
    | any ha h => exact shows_head_typed ha h
  · exact shows_head_typed ha h

theorem head_append {x : Str} {c : Char} {r : Str} (h : x = c :: r) (tl : Str) : (x ++ tl).head? = some c := by subst h; rfl

/-! ## Looking ahead for a semicolon -/

/-- Whether there is a semicolon before the next comma. -/
def Ahead (U : Unicode) (b : Bool) (r : Str) : Prop := ∀ n s, s.rest = r → r.length < n → semicolonAhead U n s = .ok b

/-- There is no semicolon before the next comma. -/
abbrev SemOk (U : Unicode) (r : Str) : Prop := Ahead U false r

theorem sem_step {U : Unicode} {b : Bool} {w x r : Str} {t : Tok} (hw : Spaces w) (hx : x ≠ []) (hh : ∀ c, (x ++ r).head? = some c → isWs c = false)
    (hl : lex U true (x ++ r) = .ok (t, r)) (h1 : t ≠ .ch ';') (h2 : t ≠ .ch ',') (h3 : t ≠ .eof) (hr : Ahead U b r) :
    Ahead U b (w ++ (x ++ r)) := by
  intro n s hs hn
  obtain ⟨m, rfl⟩ : ∃ m, n = m + 1 := ⟨n - 1, by omega⟩
  have hscan := scan_of_lex (U := U) (num := true) hs hw hh hl
  have hxl : 0 < x.length := List.length_pos_iff.2 hx
  rw [semicolonAhead, hscan]
  simp only [if_neg h1, if_neg (not_or.2 ⟨h2, h3⟩)]
  apply hr
  · rfl
  · simp only [List.length_append] at hn; omega

theorem sem_comma {U : Unicode} {w r : Str} (hw : Spaces w) : SemOk U (w ++ ',' :: r) := by
  intro n s hs hn
  obtain ⟨m, rfl⟩ : ∃ m, n = m + 1 := ⟨n - 1, by omega⟩
  obtain ⟨s', h1, -, -⟩ := scan_punct (U := U) (num := true) (raw := s.rest) (s := { s with pos := 0 }) (c := ',') (by simp [Punct]) hs hw (by simp [On])
  have hscan := scan_of_lex (U := U) (num := true) (x := [',']) (by simpa using hs) hw (by simp; decide)
    (by simpa using lex_punct U true (c := ',') (by simp [Punct]) r)
  rw [semicolonAhead, hscan]
  simp

theorem sem_semicolon {U : Unicode} {r : Str} : Ahead U true (';' :: r) := by
  intro n s hs hn
  obtain ⟨m, rfl⟩ : ∃ m, n = m + 1 := ⟨n - 1, by omega⟩
  have hscan := scan_of_lex (U := U) (num := true) (x := [';']) (w := []) (by simpa using hs) spaces_nil (by simp; decide)
    (by simpa using lex_punct U true (c := ';') (by simp [Punct]) r)
  rw [semicolonAhead, hscan]
  simp

theorem sem_nil {U : Unicode} : SemOk U [] := by
  intro n s hs hn
  obtain ⟨m, rfl⟩ : ∃ m, n = m + 1 := ⟨n - 1, by omega⟩
  rw [semicolonAhead]
  simp [scan, hs, lex]

theorem sem_punct {U : Unicode} {b : Bool} {w r : Str} {c : Char} (hw : Spaces w) (hp : Punct c) (h1 : c ≠ ';') (h2 : c ≠ ',') (hr : Ahead U b r) :
    Ahead U b (w ++ c :: r) := by
  have := sem_step (U := U) (w := w) (x := [c]) (r := r) (t := .ch c) hw (by simp) (by simpa using punct_not_ws hp)
    (by simpa using lex_punct U true hp r) (by simpa using h1) (by simpa using h2) (by nofun) hr
  simpa using this

theorem sem_calm {U : Unicode} {tl : Str} (h : Calm tl) : SemOk U tl := by
  obtain ⟨k, r, rfl, hr⟩ := h
  induction k with
  | zero =>
    rcases hr with rfl | ⟨r', rfl⟩
    · exact sem_nil
    · simpa using sem_comma (U := U) (r := r') spaces_nil
  | succ k ih =>
    rw [List.replicate_succ, List.cons_append]
    simpa using sem_punct (U := U) (c := '}') spaces_nil (by simp [Punct]) (by decide) (by decide) ih

theorem sem_str {U : Unicode} {b : Bool} {w t x r : Str} (h : ShowsStr true t x) (hw : Spaces w) (ht : Term r) (hr : Ahead U b r) :
    Ahead U b (w ++ (x ++ r)) := by
  have hne : x ≠ [] := List.length_pos_iff.1 (showsStr_length h)
  cases h with
  | quoted => exact sem_step hw hne (quoted_head t r) (lex_quoted U true t r) (by nofun) (by nofun) (by nofun) hr
  | raw h1 h2 => exact sem_step hw hne (rawq_head t r) (lex_rawq U true h1 r) (by nofun) (by nofun) (by nofun) hr
  | word h1 => exact sem_step hw hne (ident_first h1 r) (ident_lex U true h1 (term_not_part U ht)) (by nofun) (by nofun) (by nofun) hr

theorem sem_number {U : Unicode} {b : Bool} {w r x : Str} {neg : Bool} {t : Tok} (hw : Spaces w) (hx : x ≠ [])
    (hf : ∀ c, (x ++ r).head? = some c → c.isDigit = true) (hl : lex U true (x ++ r) = .ok (t, r)) (ht : t = .int ∨ t = .float) (hr : Ahead U b r) :
    Ahead U b (w ++ (sign neg ++ (x ++ r))) := by
  have h1 : ∀ w, Spaces w → Ahead U b (w ++ (x ++ r)) := fun w hw =>
    sem_step hw hx (fun c hc => digit_not_ws (hf c hc)) hl (by rcases ht with rfl | rfl <;> nofun) (by rcases ht with rfl | rfl <;> nofun)
      (by rcases ht with rfl | rfl <;> nofun) hr
  cases neg with
  | false => simpa [sign] using h1 w hw
  | true =>
    have := sem_punct (U := U) (c := '-') hw (by simp [Punct]) (by decide) (by decide) (by simpa using h1 [] spaces_nil)
    simpa [sign] using this

/-! ## Recognising types -/

/-- The type of `x` is recognised. -/
def Guessed (U : Unicode) (a : Arg) (x tl : Str) : Prop := ∀ n w, Spaces w → x.length ≤ n → guess U n (w ++ (x ++ tl)) = .ok a

/-- The state of a fresh scanner after skipping white space. -/
theorem fresh_skip {w r : Str} (hw : Spaces w) (hr : ∀ c, r.head? = some c → isWs c = false) :
    (skipWs (Sc.init (w ++ r))).rest = r ∧ On (w ++ r) (skipWs (Sc.init (w ++ r))) := by
  constructor
  · rw [skipWs_rest]; exact dropWhile_spaces hw hr
  · exact On.skipWs (by simp [On, Sc.init])

theorem peek_eq {s : Sc} {r : Str} (h : s.rest = r) : peek s = r.head? := by rw [peek, h]

theorem guessed_str {U : Unicode} {t x tl : Str} (h : ShowsStr true t x) (ht : Term tl) : Guessed U .str x tl := by
  intro n w hw hn
  have hl := showsStr_length h
  obtain ⟨m, rfl⟩ : ∃ m, n = m + 1 := ⟨n - 1, by omega⟩
  cases h with
  | quoted =>
    obtain ⟨h1, -⟩ := fresh_skip hw (quoted_head t tl)
    have hp := peek_eq h1
    simp only [guess]
    rw [hp, if_pos (by simp [quoted])]
  | raw =>
    obtain ⟨h1, -⟩ := fresh_skip hw (rawq_head t tl)
    have hp := peek_eq h1
    simp only [guess]
    rw [hp, if_pos (by simp)]
  | word hi h2 h3 =>
    obtain ⟨h1, ho⟩ := fresh_skip hw (ident_first hi tl)
    have hp := peek_eq h1
    obtain ⟨s1, hs1, -, htx, -⟩ := scan_tok (U := U) (num := true) (w := []) (x := t) (tl := tl) ho (by simpa using h1) spaces_nil (ident_first hi tl)
      (ident_lex U true hi (term_not_part U ht))
    obtain ⟨c, r, rfl, hc⟩ := hi.first
    have hc' : c ≠ '"' ∧ c ≠ '\'' ∧ c ≠ '`' ∧ c ≠ '{' := by
      refine ⟨?_, ?_, ?_, ?_⟩ <;> (rintro rfl; revert hc; decide)
    simp only [guess]
    rw [hp, if_neg (by simp [hc']), if_neg (by simp [hc'])]
    simp only [hs1, htx, if_neg (not_or.2 ⟨h2, h3⟩)]
    simp

theorem guessed_bool {U : Unicode} (b : Bool) {tl : Str} (ht : Term tl) : Guessed U .bool (showBool b) tl := by
  intro n w hw hn
  have hi := showBool_ident b
  have hl : 0 < (showBool b).length := by cases b <;> decide
  obtain ⟨m, rfl⟩ : ∃ m, n = m + 1 := ⟨n - 1, by omega⟩
  obtain ⟨h1, ho⟩ := fresh_skip hw (ident_first hi tl)
  have hp := peek_eq h1
  obtain ⟨s1, hs1, -, htx, -⟩ := scan_tok (U := U) (num := true) (w := []) (x := showBool b) (tl := tl) ho (by simpa using h1) spaces_nil
    (ident_first hi tl) (ident_lex U true hi (term_not_part U ht))
  simp only [guess]
  rw [hp]
  have hb : (showBool b ++ tl).head? = some (if b then 't' else 'f') := by cases b <;> simp [showBool]
  rw [hb]
  cases b
  · rw [if_neg (by decide), if_neg (by decide)]
    simp only [hs1, htx]
    rw [if_pos (by decide), if_pos (by decide)]
  · rw [if_neg (by decide), if_neg (by decide)]
    simp only [hs1, htx]
    rw [if_pos (by decide), if_pos (by decide)]

theorem guessed_number {U : Unicode} {neg : Bool} {x tl : Str} {t : Tok} {a : Arg} (hx : x ≠ [])
    (hf : ∀ c, (x ++ tl).head? = some c → c.isDigit = true) (hl : lex U true (x ++ tl) = .ok (t, tl))
    (hta : t = .int ∧ a = .int false ∨ t = .float ∧ a = .num) : Guessed U a (sign neg ++ x) tl := by
  intro n w hw hn
  have hxl : 0 < x.length := List.length_pos_iff.2 hx
  obtain ⟨m, rfl⟩ : ∃ m, n = m + 1 := ⟨n - 1, by simp only [List.length_append] at hn; omega⟩
  have hws : ∀ c, (x ++ tl).head? = some c → isWs c = false := fun c hc => digit_not_ws (hf c hc)
  have hnd : ∀ c : Char, c.isDigit = false → (x ++ tl).head? ≠ some c := fun c hc e => by
    rw [hf c e] at hc; cases hc
  cases neg with
  | false =>
    simp only [sign, Bool.false_eq_true, if_false, List.nil_append]
    obtain ⟨h1, ho⟩ := fresh_skip hw hws
    have hp := peek_eq h1
    obtain ⟨s1, hs1, -, -, -⟩ := scan_tok (U := U) (num := true) (w := []) (x := x) (tl := tl) ho (by simpa using h1) spaces_nil hws hl
    simp only [guess]
    rw [hp, if_neg (not_or.2 ⟨hnd '"' (by decide), not_or.2 ⟨hnd '\'' (by decide), hnd '`' (by decide)⟩⟩), if_neg (hnd '{' (by decide))]
    simp only [hs1]
    rw [if_neg (not_or.2 ⟨hnd 't' (by decide), hnd 'f' (by decide)⟩)]
    rcases hta with ⟨rfl, rfl⟩ | ⟨rfl, rfl⟩ <;> simp
  | true =>
    have hws' : ∀ c, (sign true ++ x ++ tl).head? = some c → isWs c = false := by intro c hc; simp [sign] at hc; subst hc; decide
    obtain ⟨h1, ho⟩ := fresh_skip hw hws'
    have hp := peek_eq h1
    obtain ⟨s1, hs1, hr1, ho1⟩ := scan_punct (U := U) (num := true) (w := []) (c := '-') (tl := x ++ tl) (by simp [Punct]) (by simpa [sign] using h1) spaces_nil ho
    obtain ⟨s2, hs2, -, -, -⟩ := scan_tok (U := U) (num := true) (w := []) (x := x) (tl := tl) ho1 (by simpa using hr1) spaces_nil hws hl
    have hhd : (sign true ++ x ++ tl).head? = some '-' := rfl
    simp only [guess]
    rw [hp, hhd, if_neg (by decide), if_neg (by decide)]
    simp only [hs1, hs2]
    rcases hta with ⟨rfl, rfl⟩ | ⟨rfl, rfl⟩ <;> simp

/-- Looking into braces: what follows `{`. -/
theorem guess_brace {U : Unicode} {w w1 r : Str} (hw : Spaces w) (hw1 : Spaces w1) (hr : ∀ c, r.head? = some c → isWs c = false) (m : Nat) :
    ∃ s2, s2.rest = r ∧ On (w ++ '{' :: (w1 ++ r)) s2 ∧ guess U (m + 1) (w ++ '{' :: (w1 ++ r)) =
      match guess U m r with
      | .error e => .error e
      | .ok first =>
        if first = .str then
          match parseString U (w ++ '{' :: (w1 ++ r)) s2 with
          | .error e => .error e
          | .ok (_, s3) =>
            match scan U true s3 with
            | .error e => .error e
            | .ok (tok, _) => if tok = .ch ':' ∨ r.head? = some '}' then .ok (.map .any) else .ok (.slice first)
        else .ok (.slice first) := by
  obtain ⟨h1, ho⟩ := fresh_skip (r := '{' :: (w1 ++ r)) hw (by simp; decide)
  have hp := peek_eq h1
  obtain ⟨s1, hs1, hr1, ho1⟩ := scan_punct (U := U) (num := true) (w := []) (c := '{') (tl := w1 ++ r) (by simp [Punct]) (by simpa using h1) spaces_nil ho
  have hr2 : (skipWs s1).rest = r := by rw [skipWs_rest, hr1]; exact dropWhile_spaces hw1 hr
  refine ⟨skipWs s1, hr2, ho1.skipWs, ?_⟩
  rw [guess]
  simp only
  rw [hp, List.head?_cons, if_neg (by decide), if_pos rfl]
  simp only [hs1, hr2, peek_eq hr2]
  rfl

/-! ## Lists and maps -/

/-- The facts about a text whose type is recognised. -/
structure SelfOk (U : Unicode) (a : Arg) (x : Str) : Prop where
  guess : ∀ tl, Calm tl → Guessed U a x tl
  sem : ∀ tl w, Calm tl → Spaces w → SemOk U (w ++ (x ++ tl))
  ok : constructible a = true

theorem items_first {E : Env} {self : Bool} {a : Arg} {vs : List Value} {y : Str} (h : ShowsItems E self a vs y) :
    ∃ v w x r, y = w ++ (x ++ r) ∧ Spaces w ∧ Shows E self a v x ∧ (r = [] ∨ ∃ r', r = ',' :: r') := by
  cases h with
  | one hw hx => exact ⟨_, _, _, [], by simp, hw, hx, .inl rfl⟩
  | cons hw hx hy => exact ⟨_, _, _, ',' :: _, by simp; rfl, hw, hx, .inr ⟨_, rfl⟩⟩

theorem entries_first {E : Env} {self : Bool} {a : Arg} {es : List (Str × Value)} {y : Str} (h : ShowsEntries E self a es y) :
    ∃ k v w kx w' x r, y = w ++ (kx ++ ':' :: (w' ++ (x ++ r))) ∧ Spaces w ∧ ShowsStr self k kx ∧ Spaces w' ∧ Shows E self a v x ∧
      (r = [] ∨ ∃ r', r = ',' :: r') := by
  cases h with
  | one hw hk hw' _ hx => exact ⟨_, _, _, _, _, _, [], by simp, hw, hk, hw', hx, .inl rfl⟩
  | cons hw hk hw' _ hx hy => exact ⟨_, _, _, _, _, _, ',' :: _, by simp; rfl, hw, hk, hw', hx, .inr ⟨_, rfl⟩⟩

theorem calm_after {r tl : Str} (hr : r = [] ∨ ∃ r', r = ',' :: r') (ht : Calm tl) : Calm (r ++ '}' :: tl) := by
  rcases hr with rfl | ⟨r', rfl⟩
  · exact ht.brace
  · exact Calm.comma _

theorem scan_calm {U : Unicode} {s : Sc} {tl : Str} (h : s.rest = tl) (ht : Calm tl) :
    ∃ tok s', scan U true s = .ok (tok, s') ∧ tok ≠ .ch ':' := by
  cases tl with
  | nil => exact ⟨.eof, _, by simp only [scan, h, List.dropWhile_nil, lex]; rfl, by nofun⟩
  | cons c tl =>
    have hc : Punct c ∧ c ≠ ':' := by
      obtain ⟨k, r, he, hr⟩ := ht
      cases k with
      | zero =>
        rcases hr with rfl | ⟨r', rfl⟩
        · simp at he
        · simp at he; obtain ⟨rfl, -⟩ := he; exact ⟨by simp [Punct], by decide⟩
      | succ k => simp [List.replicate_succ] at he; obtain ⟨rfl, -⟩ := he; exact ⟨by simp [Punct], by decide⟩
    have := scan_of_lex (U := U) (num := true) (w := []) (x := [c]) (tl := tl) (by simpa using h) spaces_nil (by simpa using punct_not_ws hc.1)
      (by simpa using lex_punct U true hc.1 tl)
    exact ⟨_, _, this, by simpa using hc.2⟩

theorem selfOk_slice {E : Env} {a : Arg} {vs : List Value} {y : Str} (h : ShowsItems E true a vs y)
    (ih : ∀ v x, x.length ≤ y.length → Shows E true a v x → SelfOk E.toUnicode a x) : SelfOk E.toUnicode (.slice a) ('{' :: (y ++ ['}'])) := by
  obtain ⟨v, w0, x, r, rfl, hw0, hx, hr⟩ := items_first h
  have hS := ih v x (by simp only [List.length_append]; omega) hx
  obtain ⟨c, xr, hcx, hcw, hcb⟩ := shows_head hx
  refine ⟨?_, ?_, ?_⟩
  · intro tl ht n w hw hn
    obtain ⟨m, rfl⟩ : ∃ m, n = m + 1 := ⟨n - 1, by simp only [List.length_cons] at hn; omega⟩
    have hcalm := calm_after hr ht
    have hhead : ∀ c', (x ++ (r ++ '}' :: tl)).head? = some c' → isWs c' = false := by
      intro c' hc'; rw [head_append hcx] at hc'; simp at hc'; subst hc'; exact hcw
    have he : w ++ ('{' :: (w0 ++ (x ++ r) ++ ['}']) ++ tl) = w ++ '{' :: (w0 ++ (x ++ (r ++ '}' :: tl))) := by simp
    rw [he]
    obtain ⟨s2, hs2, ho2, hg⟩ := guess_brace (U := E.toUnicode) hw hw0 hhead m
    have hgx : guess E.toUnicode m (x ++ (r ++ '}' :: tl)) = .ok a := by
      have := hS.guess _ hcalm m [] spaces_nil (by simp only [List.length_cons, List.length_append] at hn; omega)
      simpa using this
    rw [hg, hgx]
    simp only
    split
    · rename_i hstr
      subst hstr
      cases hx with
      | str hx =>
        obtain ⟨s3, hp3, hr3, -⟩ := parseString_ok E.toUnicode (w := []) (tl := r ++ '}' :: tl) hx spaces_nil ho2 (by simpa using hs2) hcalm.term
        obtain ⟨tok, s4, hs4, hne⟩ := scan_calm (U := E.toUnicode) hr3 hcalm
        simp only [hp3, hs4]
        rw [if_neg]
        rw [head_append hcx]
        exact not_or.2 ⟨hne, by simpa using hcb⟩
    · rfl
  · intro tl w ht hw
    have hcalm := calm_after hr ht
    have := sem_punct (U := E.toUnicode) (c := '{') hw (by simp [Punct]) (by decide) (by decide) (hS.sem _ w0 hcalm hw0)
    simpa using this
  · simpa [constructible] using hS.ok

theorem selfOk_mapNil {U : Unicode} {w0 : Str} (hw0 : Spaces w0) : SelfOk U (.map .any) ('{' :: (w0 ++ ['}'])) := by
  refine ⟨?_, ?_, by simp [constructible]⟩
  · intro tl ht n w hw hn
    obtain ⟨m, rfl⟩ : ∃ m, n = m + 2 := ⟨n - 2, by simp only [List.length_cons, List.length_append] at hn; omega⟩
    have hhead : ∀ c', ('}' :: tl).head? = some c' → isWs c' = false := by intro c' hc'; simp at hc'; subst hc'; decide
    have he : w ++ ('{' :: (w0 ++ ['}']) ++ tl) = w ++ '{' :: (w0 ++ '}' :: tl) := by simp
    rw [he]
    obtain ⟨s2, hs2, ho2, hg⟩ := guess_brace (U := U) hw hw0 hhead (m + 1)
    have hgx : guess U (m + 1) ('}' :: tl) = .ok .str := by
      obtain ⟨h1, ho⟩ := fresh_skip (w := []) (r := '}' :: tl) spaces_nil hhead
      rw [List.nil_append] at h1 ho
      have hp := peek_eq h1
      obtain ⟨s1, hs1, -, -⟩ := scan_punct (U := U) (num := true) (w := []) (c := '}') (tl := tl) (by simp [Punct]) (by simpa using h1) spaces_nil ho
      rw [guess]
      simp only
      rw [hp, List.head?_cons, if_neg (by decide), if_neg (by decide)]
      simp only [hs1]
      rw [if_neg (by decide)]
      simp
    rw [hg, hgx]
    simp only [if_true, List.head?_cons, or_true]
    obtain ⟨s3, hs3, hr3, ho3⟩ := scan_punct (U := U) (num := false) (w := []) (c := '}') (tl := tl) (by simp [Punct]) (by simpa using hs2) spaces_nil ho2
    obtain ⟨s4, hs4, hr4⟩ : ∃ s4, bareLoop U (s3.rest.length + 1) s3 = .ok s4 ∧ s4.rest = tl := by
      have hpk : peekNoSpace s3 = tl.head? := peekNoSpace_eq (w := []) (by simpa using hr3) spaces_nil (term_not_ws ht.term)
      have hsk : skipWs s3 = s3 := skipWs_of_notws (by rw [hr3]; exact term_not_ws ht.term)
      refine ⟨s3, ?_, hr3⟩
      rw [bareLoop, hpk, hsk]
      cases hh : tl.head? with
      | none => rfl
      | some c => simp only [if_pos (ht.term c hh)]
    obtain ⟨tok, s5, hs5, -⟩ := scan_calm (U := U) hr4 ht
    simp only [parseString, hs3]
    simp only [reduceCtorEq, or_self, if_false, hs4, hs5]
  · intro tl w ht hw
    have h1 := sem_punct (U := U) (c := '}') hw0 (by simp [Punct]) (by decide) (by decide) (sem_calm (U := U) ht)
    have := sem_punct (U := U) (c := '{') hw (by simp [Punct]) (by decide) (by decide) h1
    simpa using this

theorem selfOk_map {E : Env} {es : List (Str × Value)} {y : Str} (h : ShowsEntries E true .any es y)
    (ih : ∀ v x, x.length ≤ y.length → Shows E true .any v x → ∃ a, SelfOk E.toUnicode a x) :
    SelfOk E.toUnicode (.map .any) ('{' :: (y ++ ['}'])) := by
  obtain ⟨k, v, w0, kx, w1, x, r, rfl, hw0, hk, hw1, hx, hr⟩ := entries_first h
  obtain ⟨a, hS⟩ := ih v x (by simp only [List.length_append, List.length_cons]; omega) hx
  obtain ⟨c, xr, hcx, hcw, hcb⟩ := showsStr_head hk
  have hterm : ∀ q, Term (':' :: q) := by intro q c hc; simp at hc; simp [← hc]
  refine ⟨?_, ?_, by simp [constructible]⟩
  · intro tl ht n w hw hn
    obtain ⟨m, rfl⟩ : ∃ m, n = m + 1 := ⟨n - 1, by simp only [List.length_cons] at hn; omega⟩
    have hhead : ∀ c', (kx ++ ':' :: (w1 ++ (x ++ (r ++ '}' :: tl)))).head? = some c' → isWs c' = false := by
      intro c' hc'; rw [head_append hcx] at hc'; simp at hc'; subst hc'; exact hcw
    have he : w ++ ('{' :: (w0 ++ (kx ++ ':' :: (w1 ++ (x ++ r))) ++ ['}']) ++ tl) =
        w ++ '{' :: (w0 ++ (kx ++ ':' :: (w1 ++ (x ++ (r ++ '}' :: tl))))) := by simp
    rw [he]
    obtain ⟨s2, hs2, ho2, hg⟩ := guess_brace (U := E.toUnicode) hw hw0 hhead m
    have hgx : guess E.toUnicode m (kx ++ ':' :: (w1 ++ (x ++ (r ++ '}' :: tl)))) = .ok .str := by
      have := guessed_str (U := E.toUnicode) hk (hterm (w1 ++ (x ++ (r ++ '}' :: tl)))) m [] spaces_nil
        (by simp only [List.length_cons, List.length_append] at hn; omega)
      simpa using this
    rw [hg, hgx]
    simp only [if_true]
    obtain ⟨s3, hp3, hr3, ho3⟩ := parseString_ok E.toUnicode (w := []) hk spaces_nil ho2 (by simpa using hs2) (hterm _)
    obtain ⟨s4, hs4, -, -⟩ := scan_punct (U := E.toUnicode) (num := true) (w := []) (c := ':') (by simp [Punct]) (by simpa using hr3) spaces_nil ho3
    simp only [hp3, hs4, true_or, if_true]
  · intro tl w ht hw
    have h1 := hS.sem _ w1 (calm_after hr ht) hw1
    have h2 := sem_punct (U := E.toUnicode) (c := ':') spaces_nil (by simp [Punct]) (by decide) (by decide) h1
    have h3 := sem_str (U := E.toUnicode) hk hw0 (hterm _) h2
    have := sem_punct (U := E.toUnicode) (c := '{') hw (by simp [Punct]) (by decide) (by decide) h3
    simpa using this

theorem selfOk_typed {E : Env} {a : Arg} {v : Value} {x : Str} (ha : a ≠ .any) (h : Shows E true a v x)
    (ih : ∀ a v x', x'.length < x.length → a ≠ .any → Shows E true a v x' → SelfOk E.toUnicode a x') : SelfOk E.toUnicode a x := by
  cases h with
  | @int _ z =>
    rw [showInt_eq]
    have hx : Nat.toDigits 10 z.natAbs ≠ [] := Nat.toDigits_ne_nil
    refine ⟨fun tl ht => guessed_number hx (toDigits_first _ tl) (lex_int _ _ ht.term) (.inl ⟨rfl, rfl⟩), fun tl w ht hw => ?_, rfl⟩
    simpa using sem_number (U := E.toUnicode) (neg := decide (z < 0)) hw hx (toDigits_first _ tl) (lex_int _ _ ht.term) (.inl rfl) (sem_calm ht)
  | @frac _ neg ip fp q hf hfd hq =>
    rw [showFrac_eq]
    have hx : Nat.toDigits 10 ip ++ '.' :: fp ≠ [] := by simp
    have hfst : ∀ tl, ∀ c, ((Nat.toDigits 10 ip ++ '.' :: fp) ++ tl).head? = some c → c.isDigit = true := by
      intro tl; rw [List.append_assoc]; exact toDigits_first ip _
    refine ⟨fun tl ht => guessed_number hx (hfst tl) (lex_frac _ _ ht.term hf hfd) (.inr ⟨rfl, rfl⟩), fun tl w ht hw => ?_, rfl⟩
    have := sem_number (U := E.toUnicode) (neg := neg) hw hx (hfst tl) (lex_frac _ _ ht.term hf hfd) (.inr rfl) (sem_calm ht)
    simpa using this
  | @bool _ b =>
    refine ⟨fun tl ht => guessed_bool b ht.term, fun tl w ht hw => ?_, rfl⟩
    have hi := showBool_ident b
    exact sem_step hw hi.bare.ne (ident_first hi tl) (ident_lex _ true hi (term_not_part _ ht.term)) (by nofun) (by nofun) (by nofun) (sem_calm ht)
  | str h => exact ⟨fun tl ht => guessed_str h ht.term, fun tl w ht hw => sem_str h hw ht.term (sem_calm ht), rfl⟩
  | slice ha' h =>
    exact selfOk_slice h fun v x' hl hx' => ih _ v x' (by simp only [List.length_cons, List.length_append]; omega) (ha' rfl) hx'
  | mapNil ha' hw =>
    rw [ha' rfl]
    exact selfOk_mapNil hw
  | map ha' hnd h =>
    have := ha' rfl
    subst this
    refine selfOk_map h fun v x' hl hx' => ?_
    cases hx' with
    | any ha hx' => exact ⟨_, ih _ v x' (by simp only [List.length_cons, List.length_append]; omega) ha hx'⟩
  | any => exact absurd rfl ha

/-- Self-describing texts: their type is recognised. -/
theorem selfOk {E : Env} {a : Arg} {v : Value} {x : Str} (ha : a ≠ .any) (h : Shows E true a v x) : SelfOk E.toUnicode a x := by
  suffices H : ∀ (k : Nat) (a : Arg) (v : Value) (x : Str), x.length < k → a ≠ .any → Shows E true a v x → SelfOk E.toUnicode a x from
    H (x.length + 1) a v x (by omega) ha h
  intro k
  induction k with
  | zero => intro a v x hl; omega
  | succ k ih =>
    intro a v x hl ha h
    exact selfOk_typed ha h fun a v x' hl' => ih a v x' (by omega)

theorem guessType_ok {U : Unicode} {a : Arg} {x tl w : Str} (h : SelfOk U a x) (ht : Calm tl) (hw : Spaces w) (allow : Bool) :
    guessType U (w ++ (x ++ tl)) allow = .ok a := by
  have h1 := h.guess tl ht ((w ++ (x ++ tl)).length + 1) w hw (by simp only [List.length_append]; omega)
  have h2 := h.sem tl w ht hw ((w ++ (x ++ tl)).length + 1) (Sc.init (w ++ (x ++ tl))) rfl (by omega)
  simp only [guessType, h1, h2]
  cases allow <;> rfl

theorem bracedItems_ok {E : Env} {self : Bool} {a : Arg} {tl : Str} (ht : Calm tl) : ∀ (vs : List Value) (y : Str), ShowsItems E self a vs y →
    (∀ v x tl, x.length ≤ y.length → Shows E self a v x → Calm tl → Reads E a v x tl) →
    ∀ (n : Nat) (raw : Str) (s : Sc), 2 * y.length + 2 ≤ n → On raw s → s.rest = y ++ '}' :: tl →
      ∃ s', bracedItems E n a raw s = .ok (vs, s') ∧ s'.rest = tl ∧ On raw s' := by
  have hcost : ∀ a, anyCost a ≤ 1 := by intro a; cases a <;> simp [anyCost]
  intro vs
  induction vs with
  | nil => intro y h; cases h
  | cons v vs ih =>
    intro y h hr n raw s hn ho hs
    obtain ⟨m, rfl⟩ : ∃ m, n = m + 1 := ⟨n - 1, by omega⟩
    cases h with
    | @one _ _ _ w x hw hx =>
      obtain ⟨c, xr, hcx, hcw, hcb⟩ := shows_head hx
      have hhd : (x ++ '}' :: tl).head? = some c := head_append hcx _
      have hnw : ∀ c', (x ++ '}' :: tl).head? = some c' → isWs c' = false := by intro c' hc'; rw [hhd] at hc'; simp at hc'; subst hc'; exact hcw
      have hpk : peekNoSpace s = some c := by rw [← hhd]; exact peekNoSpace_eq (by simpa using hs) hw hnw
      have hskr : (skipWs s).rest = [] ++ (x ++ '}' :: tl) := by
        rw [skipWs_rest, hs, List.append_assoc, dropWhile_spaces hw hnw]; rfl
      obtain ⟨s1, h1, h2, h3⟩ := hr v x ('}' :: tl) (by simp) hx ht.brace m raw true (skipWs s) []
        (by have := hcost a; simp only [List.length_append] at hn; omega) ho.skipWs spaces_nil (by simp) hskr
      have hpk1 : peekNoSpace s1 = some '}' := peekNoSpace_eq (w := []) (r := '}' :: tl) (by simpa using h2) spaces_nil (by simp; decide)
      have hsk1 : skipWs s1 = s1 := skipWs_of_notws (by rw [h2]; simp; decide)
      obtain ⟨s2, e1, e2, e3⟩ := expect_punct (U := E.toUnicode) (w := []) (c := '}') (by simp [Punct]) (by simpa using h2) spaces_nil h3
      refine ⟨s2, ?_, e2, e3⟩
      rw [bracedItems, hpk, if_neg (by simp [hcb])]
      simp only [h1, hpk1, if_true, hsk1, e1]
    | @cons _ _ _ _ w x y' hw hx hy =>
      obtain ⟨c, xr, hcx, hcw, hcb⟩ := shows_head hx
      have hhd : (x ++ ',' :: (y' ++ '}' :: tl)).head? = some c := head_append hcx _
      have hnw : ∀ c', (x ++ ',' :: (y' ++ '}' :: tl)).head? = some c' → isWs c' = false := by
        intro c' hc'; rw [hhd] at hc'; simp at hc'; subst hc'; exact hcw
      have hs' : s.rest = w ++ (x ++ ',' :: (y' ++ '}' :: tl)) := by simpa using hs
      have hpk : peekNoSpace s = some c := by rw [← hhd]; exact peekNoSpace_eq hs' hw hnw
      have hskr : (skipWs s).rest = [] ++ (x ++ ',' :: (y' ++ '}' :: tl)) := by
        rw [skipWs_rest, hs', dropWhile_spaces hw hnw]; rfl
      obtain ⟨s1, h1, h2, h3⟩ := hr v x (',' :: (y' ++ '}' :: tl)) (by simp; omega) hx (Calm.comma _) m raw true (skipWs s) []
        (by have := hcost a; simp only [List.length_append, List.length_cons] at hn; omega) ho.skipWs spaces_nil (by simp) hskr
      have hpk1 : peekNoSpace s1 = some ',' :=
        peekNoSpace_eq (w := []) (r := ',' :: (y' ++ '}' :: tl)) (by simpa using h2) spaces_nil (by simp; decide)
      have hsk1 : skipWs s1 = s1 := skipWs_of_notws (by rw [h2]; simp; decide)
      obtain ⟨s2, e1, e2, e3⟩ := expect_punct (U := E.toUnicode) (w := []) (c := ',') (by simp [Punct]) (by simpa using h2) spaces_nil h3
      obtain ⟨s3, f1, f2, f3⟩ := ih y' hy (fun v x tl hl => hr v x tl (by simp only [List.length_append, List.length_cons]; omega)) m raw s2
        (by simp only [List.length_append, List.length_cons] at hn; omega) e3 e2
      refine ⟨s3, ?_, f2, f3⟩
      rw [bracedItems, hpk, if_neg (by simp [hcb])]
      simp only [h1, hpk1, hsk1, e1, f1]
      simp

theorem put_of_not_mem {m : List (Str × Value)} {k : Str} {v : Value} (h : k ∉ m.map (·.1)) : GoMap.put m k v = m ++ [(k, v)] := by
  induction m with
  | nil => rfl
  | cons e m ih =>
    obtain ⟨k', v'⟩ := e
    simp only [List.map_cons, List.mem_cons, not_or] at h
    rw [GoMap.put, if_neg (fun e => h.1 e.symm), ih h.2]
    rfl

theorem mapItems_ok {E : Env} {self : Bool} {a : Arg} {tl : Str} (ht : Calm tl) : ∀ (es : List (Str × Value)) (y : Str), ShowsEntries E self a es y →
    (∀ v x tl, x.length ≤ y.length → Shows E self a v x → Calm tl → Reads E a v x tl) →
    ∀ (n : Nat) (raw : Str) (s : Sc) (acc : List (Str × Value)), 2 * y.length + 2 ≤ n → On raw s → s.rest = y ++ '}' :: tl →
      (acc.map (·.1) ++ es.map (·.1)).Nodup →
      ∃ s', mapItems E n a raw s acc = .ok (acc ++ es, s') ∧ s'.rest = tl ∧ On raw s' := by
  have hcost : ∀ a, anyCost a ≤ 1 := by intro a; cases a <;> simp [anyCost]
  have hterm : ∀ q, Term (':' :: q) := by intro q c hc; simp at hc; simp [← hc]
  intro es
  induction es with
  | nil => intro y h; cases h
  | cons e es ih =>
    intro y h hr n raw s acc hn ho hs hnd
    obtain ⟨m, rfl⟩ : ∃ m, n = m + 1 := ⟨n - 1, by omega⟩
    obtain ⟨k, v⟩ := e
    have hput : GoMap.put acc k v = acc ++ [(k, v)] := by
      apply put_of_not_mem
      intro hk
      exact (List.nodup_append.1 hnd).2.2 k hk k (by simp) rfl
    -- the first entry, whatever follows it
    have step : ∀ (w kx w' x q : Str), Spaces w → ShowsStr self k kx → Spaces w' → (w' ≠ [] → x.head? ≠ some '-') →
        x.length ≤ y.length → 2 * x.length + 1 ≤ m → Shows E self a v x → Calm q → s.rest = w ++ (kx ++ ':' :: (w' ++ (x ++ q))) →
        ∃ c s1 s2 s3, peekNoSpace s = some c ∧ c ≠ '}' ∧ parseString E.toUnicode raw (skipWs s) = .ok (k, s1) ∧
          expect E.toUnicode (.ch ':') s1 = .ok s2 ∧ parse E m a raw false s2 = .ok (v, s3) ∧ s3.rest = q ∧ On raw s3 := by
      intro w kx w' x q hw hk hw' hm hlen hfuel hx hq hs
      obtain ⟨c, xr, hcx, hcw, hcb⟩ := showsStr_head hk
      have hhd : (kx ++ ':' :: (w' ++ (x ++ q))).head? = some c := head_append hcx _
      have hnw : ∀ c', (kx ++ ':' :: (w' ++ (x ++ q))).head? = some c' → isWs c' = false := by
        intro c' hc'; rw [hhd] at hc'; simp at hc'; subst hc'; exact hcw
      have hskr : (skipWs s).rest = [] ++ (kx ++ ':' :: (w' ++ (x ++ q))) := by rw [skipWs_rest, hs, dropWhile_spaces hw hnw]; rfl
      obtain ⟨s1, h1, h2, h3⟩ := parseString_ok E.toUnicode hk spaces_nil ho.skipWs hskr (hterm _)
      obtain ⟨s2, e1, e2, e3⟩ := expect_punct (U := E.toUnicode) (w := []) (c := ':') (by simp [Punct]) (by simpa using h2) spaces_nil h3
      obtain ⟨s3, f1, f2, f3⟩ := hr v x q hlen hx hq m raw false s2 w' (by have := hcost a; omega) e3 hw' hm e2
      exact ⟨c, s1, s2, s3, by rw [← hhd]; exact peekNoSpace_eq hs hw hnw, hcb, h1, e1, f1, f2, f3⟩
    cases h with
    | @one _ _ _ _ w kx w' x hw hk hw' hm hx =>
      obtain ⟨c, s1, s2, s3, hpk, hcb, h1, h2, h3, h4, h5⟩ := step w kx w' x ('}' :: tl) hw hk hw' hm
        (by simp only [List.length_append, List.length_cons]; omega) (by simp only [List.length_append, List.length_cons] at hn; omega) hx ht.brace
        (by simpa using hs)
      have hpk1 : peekNoSpace s3 = some '}' := peekNoSpace_eq (w := []) (r := '}' :: tl) (by simpa using h4) spaces_nil (by simp; decide)
      have hsk1 : skipWs s3 = s3 := skipWs_of_notws (by rw [h4]; simp; decide)
      obtain ⟨s4, e1, e2, e3⟩ := expect_punct (U := E.toUnicode) (w := []) (c := '}') (by simp [Punct]) (by simpa using h4) spaces_nil h5
      refine ⟨s4, ?_, e2, e3⟩
      rw [mapItems, hpk, if_neg (by simp [hcb])]
      simp only [h1, h2, h3, hpk1, if_true, hsk1, e1, hput]
    | @cons _ _ _ _ _ w kx w' x y' hw hk hw' hm hx hy =>
      obtain ⟨c, s1, s2, s3, hpk, hcb, h1, h2, h3, h4, h5⟩ := step w kx w' x (',' :: (y' ++ '}' :: tl)) hw hk hw' hm
        (by simp only [List.length_append, List.length_cons]; omega) (by simp only [List.length_append, List.length_cons] at hn; omega) hx (Calm.comma _)
        (by simpa using hs)
      have hpk1 : peekNoSpace s3 = some ',' :=
        peekNoSpace_eq (w := []) (r := ',' :: (y' ++ '}' :: tl)) (by simpa using h4) spaces_nil (by simp; decide)
      have hsk1 : skipWs s3 = s3 := skipWs_of_notws (by rw [h4]; simp; decide)
      obtain ⟨s4, e1, e2, e3⟩ := expect_punct (U := E.toUnicode) (w := []) (c := ',') (by simp [Punct]) (by simpa using h4) spaces_nil h5
      obtain ⟨s5, f1, f2, f3⟩ := ih y' hy (fun v x tl hl => hr v x tl (by simp only [List.length_append, List.length_cons]; omega)) m raw s4
        (acc ++ [(k, v)]) (by simp only [List.length_append, List.length_cons] at hn; omega) e3 e2 (by simpa using hnd)
      refine ⟨s5, ?_, f2, f3⟩
      rw [mapItems, hpk, if_neg (by simp [hcb])]
      simp only [h1, h2, h3, hpk1, hsk1, e1, hput]
      simpa using f1

theorem reads_typed {E : Env} {self : Bool} {a : Arg} {v : Value} {x tl : Str} (ha : a ≠ .any) (h : Shows E self a v x) (ht : Calm tl)
    (ih : ∀ self a v x' tl, x'.length < x.length → Shows E self a v x' → Calm tl → Reads E a v x' tl) : Reads E a v x tl := by
  -- an empty pair of braces
  have open_ : ∀ (raw : Str) (s : Sc) (w q : Str), On raw s → Spaces w → s.rest = w ++ '{' :: q →
      (peekNoSpace s = some '{' ∧ ∃ s', scan E.toUnicode true (skipWs s) = .ok (.ch '{', s') ∧ s'.rest = q ∧ On raw s') ∧
      ∃ s', expect E.toUnicode (.ch '{') s = .ok s' ∧ s'.rest = q ∧ On raw s' := by
    intro raw s w q ho hw hs
    have hnw : ∀ c, ('{' :: q).head? = some c → isWs c = false := by intro c hc; simp at hc; subst hc; decide
    refine ⟨⟨peekNoSpace_eq hs hw hnw, ?_⟩, expect_punct (by simp [Punct]) hs hw ho⟩
    refine scan_punct (w := []) (by simp [Punct]) ?_ spaces_nil ho.skipWs
    rw [skipWs_rest, hs, dropWhile_spaces hw hnw]; rfl
  have close : ∀ (raw : Str) (s : Sc) (w : Str), On raw s → Spaces w → s.rest = w ++ '}' :: tl →
      peekNoSpace s = some '}' ∧ ∃ s', expect E.toUnicode (.ch '}') (skipWs s) = .ok s' ∧ s'.rest = tl ∧ On raw s' := by
    intro raw s w ho hw hs
    have hnw : ∀ c, ('}' :: tl).head? = some c → isWs c = false := by intro c hc; simp at hc; subst hc; decide
    refine ⟨peekNoSpace_eq hs hw hnw, expect_punct (w := []) (by simp [Punct]) ?_ spaces_nil ho.skipWs⟩
    rw [skipWs_rest, hs, dropWhile_spaces hw hnw]; rfl
  cases h with
  | int h1 h2 => exact reads_int E h1 h2 (by nofun) ht.term
  | int32 h1 h2 => exact reads_int E (by omega) (by omega) (fun _ => toInt32_id h1 h2) ht.term
  | frac hf hfd hq => exact reads_num_frac E hf hfd hq ht.term
  | whole hq => exact reads_num_int E hq ht.term
  | bool => exact reads_bool E _ ht.term
  | str h => exact reads_str E h ht.term
  | @sliceNil a w0 hw0 =>
    intro n raw inSlice s w hn ho hw _ hs
    obtain ⟨m, rfl⟩ : ∃ m, n = m + 2 := ⟨n - 2, by simp only [List.length_cons] at hn; omega⟩
    obtain ⟨⟨h1, s1, h2, h3, h4⟩, -⟩ := open_ raw s w (w0 ++ '}' :: tl) ho hw (by simpa using hs)
    obtain ⟨h5, s2, h6, h7, h8⟩ := close raw s1 w0 h4 hw0 h3
    refine ⟨s2, ?_, h7, h8⟩
    simp only [parse, h1, if_true, h2, bracedItems, h5, true_or, h6]
  | @slice _ a vs y ha' h =>
    intro n raw inSlice s w hn ho hw _ hs
    obtain ⟨m, rfl⟩ : ∃ m, n = m + 1 := ⟨n - 1, by simp only [List.length_cons] at hn; omega⟩
    obtain ⟨⟨h1, s1, h2, h3, h4⟩, -⟩ := open_ raw s w (y ++ '}' :: tl) ho hw (by simpa using hs)
    obtain ⟨s2, h5, h6, h7⟩ := bracedItems_ok ht vs y h
      (fun v x' tl hl hx' ht' => ih _ _ _ _ tl (by simp only [List.length_cons, List.length_append]; omega) hx' ht') m raw s1
      (by simp only [List.length_cons, List.length_append, List.length_nil] at hn; omega) h4 h3
    refine ⟨s2, ?_, h6, h7⟩
    simp only [parse, h1, if_true, h2, h5]
  | @mapNil _ a w0 _ hw0 =>
    intro n raw inSlice s w hn ho hw _ hs
    obtain ⟨m, rfl⟩ : ∃ m, n = m + 2 := ⟨n - 2, by simp only [List.length_cons] at hn; omega⟩
    obtain ⟨-, s1, h2, h3, h4⟩ := open_ raw s w (w0 ++ '}' :: tl) ho hw (by simpa using hs)
    obtain ⟨h5, s2, h6, h7, h8⟩ := close raw s1 w0 h4 hw0 h3
    refine ⟨s2, ?_, h7, h8⟩
    simp only [parse, h2, mapItems, h5, true_or, if_true, h6]
  | @map _ a es y ha' hnd h =>
    intro n raw inSlice s w hn ho hw _ hs
    obtain ⟨m, rfl⟩ : ∃ m, n = m + 1 := ⟨n - 1, by simp only [List.length_cons] at hn; omega⟩
    obtain ⟨-, s1, h2, h3, h4⟩ := open_ raw s w (y ++ '}' :: tl) ho hw (by simpa using hs)
    obtain ⟨s2, h5, h6, h7⟩ := mapItems_ok ht es y h
      (fun v x' tl hl hx' ht' => ih _ _ _ _ tl (by simp only [List.length_cons, List.length_append]; omega) hx' ht') m raw s1 []
      (by simp only [List.length_cons, List.length_append, List.length_nil] at hn; omega) h4 h3 (by simpa using hnd)
    refine ⟨s2, ?_, h6, h7⟩
    simp only [parse, h2, h5, List.nil_append]
  | any => exact absurd rfl ha

theorem reads_any {E : Env} {a : Arg} {v : Value} {x tl : Str} (ha : a ≠ .any) (h : Shows E true a v x) (ht : Calm tl) (hr : Reads E a v x tl) :
    Reads E .any v x tl := by
  intro n raw inSlice s w hn ho hw hw' hs
  obtain ⟨m, rfl⟩ : ∃ m, n = m + 1 := ⟨n - 1, by simp only [anyCost] at hn; omega⟩
  have hS := selfOk ha h
  have hg := guessType_ok hS ht hw (! inSlice)
  have hc : anyCost a = 0 := by cases a <;> simp_all [anyCost]
  obtain ⟨s', h1, h2, h3⟩ := hr m raw false s w (by simp only [anyCost] at hn; omega) ho hw hw' hs
  refine ⟨s', ?_, h2, h3⟩
  have hok := hS.ok
  simp only [parse, hs, hg]
  cases a with
  | slice i => simp only [constructible] at hok; simp [hok, h1]
  | map i =>
    have : i = .any ∨ constructible i = true := by simpa [constructible] using hok
    simp [this, h1]
  | any => exact absurd rfl ha
  | _ => exact h1

/-- Every text that denotes a value is read as that value. -/
theorem reads_shows {E : Env} {self : Bool} {a : Arg} {v : Value} {x tl : Str} (h : Shows E self a v x) (ht : Calm tl) : Reads E a v x tl := by
  suffices H : ∀ (k : Nat) (self : Bool) (a : Arg) (v : Value) (x tl : Str), x.length < k → Shows E self a v x → Calm tl → Reads E a v x tl from
    H (x.length + 1) self a v x tl (by omega) h ht
  intro k
  induction k with
  | zero => intro self a v x tl hl; omega
  | succ k ih =>
    intro self a v x tl hl h ht
    by_cases ha : a = .any
    · subst ha
      cases h with
      | any ha h => exact reads_any ha h ht (reads_typed ha h ht fun self a v x' tl hl' => ih self a v x' tl (by omega))
    · exact reads_typed ha h ht fun self a v x' tl hl' => ih self a v x' tl (by omega)

/-- A scalar whose type is recognised, before a semicolon. -/
theorem self_legacy {E : Env} {a : Arg} {v : Value} {x : Str} (ha : Scalar a) (h : Shows E true a v x) (r : Str) :
    Guessed E.toUnicode a x (';' :: r) ∧ Ahead E.toUnicode true (x ++ ';' :: r) ∧ constructible a = true ∧ Shows E false a v x ∧ x.head? ≠ some '{' := by
  have ht : Term (';' :: r) := by intro c hc; simp at hc; simp [← hc]
  cases h with
  | @int _ z h1 h2 =>
    rw [showInt_eq]
    have hx : Nat.toDigits 10 z.natAbs ≠ [] := Nat.toDigits_ne_nil
    refine ⟨guessed_number hx (toDigits_first _ _) (lex_int _ _ ht) (.inl ⟨rfl, rfl⟩), ?_, rfl, ?_, ?_⟩
    · simpa using sem_number (U := E.toUnicode) (w := []) (neg := decide (z < 0)) spaces_nil hx (toDigits_first _ _) (lex_int _ _ ht) (.inl rfl) sem_semicolon
    · rw [← showInt_eq]; exact .int h1 h2
    · obtain ⟨c, q, e, -, -, hc⟩ := sign_digits_head (decide (z < 0)) z.natAbs []
      rw [List.append_nil] at e
      rw [e]; simpa using hc
  | @frac _ neg ip fp q hf hfd hq =>
    have hx : Nat.toDigits 10 ip ++ '.' :: fp ≠ [] := by simp
    have hfst : ∀ tl, ∀ c, ((Nat.toDigits 10 ip ++ '.' :: fp) ++ tl).head? = some c → c.isDigit = true := by
      intro tl; rw [List.append_assoc]; exact toDigits_first ip _
    refine ⟨?_, ?_, rfl, .frac hf hfd hq, ?_⟩
    · rw [showFrac_eq]; exact guessed_number hx (hfst _) (lex_frac _ _ ht hf hfd) (.inr ⟨rfl, rfl⟩)
    · rw [showFrac_eq]
      have := sem_number (U := E.toUnicode) (w := []) (neg := neg) spaces_nil hx (hfst _) (lex_frac _ _ ht hf hfd) (.inr rfl) sem_semicolon
      simpa using this
    · obtain ⟨c, q, e, -, -, hc⟩ := sign_digits_head neg ip ('.' :: fp)
      rw [showFrac_eq, e]; simpa using hc
  | @bool _ b =>
    have hi := showBool_ident b
    refine ⟨guessed_bool b ht, ?_, rfl, .bool, by cases b <;> simp [showBool]⟩
    exact sem_step (w := []) spaces_nil hi.bare.ne (ident_first hi _) (ident_lex _ true hi (term_not_part _ ht)) (by nofun) (by nofun) (by nofun) sem_semicolon
  | @str _ t x h =>
    refine ⟨guessed_str h ht, by simpa using sem_str (w := []) h spaces_nil ht sem_semicolon, rfl, .str ?_, ?_⟩
    · cases h with
      | quoted => exact .quoted
      | raw h1 h2 => exact .raw h1 h2
      | word h1 h2 h3 => exact .word h1 h2 h3
    · cases h with
      | quoted => simp [quoted]
      | raw h1 h2 => simp
      | word h1 h2 h3 =>
        obtain ⟨c, q, e, hc⟩ := h1.first
        rw [e]
        simp only [List.head?_cons, ne_eq, Option.some.injEq]
        rintro rfl
        revert hc; decide
  | slice => exact ha.elim
  | mapNil => exact ha.elim
  | map => exact ha.elim
  | any => exact ha.elim

end Verif.Markers
