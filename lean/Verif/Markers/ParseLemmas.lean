import Verif.Markers.ParseSpec
/-!
# Lemmas for C14: reading the texts of `Shows`
-/
namespace Verif.Markers
open Spec

/-! ## Characters -/

theorem isWs_iff {c : Char} : isWs c = true ↔ c = ' ' ∨ c = '\t' ∨ c = '\n' ∨ c = '\r' := by
  simp [isWs, or_assoc]

theorem Spaces.all {w : Str} (h : Spaces w) : ∀ c ∈ w, isWs c = true := fun c hc => isWs_iff.2 (h c hc)

theorem dropWhile_spaces {w r : Str} (h : Spaces w) (hr : ∀ c, r.head? = some c → isWs c = false) :
    (w ++ r).dropWhile isWs = r := by
  induction w with
  | nil =>
    cases r with
    | nil => rfl
    | cons c r => simp [List.dropWhile_cons, hr c rfl]
  | cons c w ih =>
    rw [List.cons_append, List.dropWhile_cons, if_pos (Spaces.all h c (by simp))]
    exact ih fun c hc => h c (by simp [hc])

theorem identStart_ascii (U : Unicode) {c : Char} (h : c.toNat < 128) : isIdentStart U c = (c = '_' || c.isAlpha) := by
  simp [isIdentStart, U.letter_ascii c h]

theorem identPart_ascii (U : Unicode) {c : Char} (h : c.toNat < 128) : isIdentPart U c = (c = '_' || c.isAlpha || c.isDigit) := by
  simp [isIdentPart, U.letter_ascii c h, U.digit_ascii c h]

theorem isDigit_ascii {c : Char} (h : c.isDigit = true) : c.toNat < 128 := by
  simp [Char.isDigit, UInt32.le_iff_toNat_le] at h
  try simp only [Char.toNat] at *
  omega

theorem isAlpha_ascii {c : Char} (h : c.isAlpha = true) : c.toNat < 128 := by
  simp [Char.isAlpha, Char.isUpper, Char.isLower, UInt32.le_iff_toNat_le] at h
  try simp only [Char.toNat] at *
  omega

theorem isDigit_not_alpha {c : Char} (h : c.isDigit = true) : c.isAlpha = false := by
  simp [Char.isDigit, Char.isAlpha, Char.isUpper, Char.isLower, UInt32.le_iff_toNat_le] at h ⊢
  omega

theorem digit_not_identStart (U : Unicode) {c : Char} (h : c.isDigit = true) : isIdentStart U c = false := by
  rw [identStart_ascii U (isDigit_ascii h), isDigit_not_alpha h]
  have : c ≠ '_' := by rintro rfl; exact absurd h (by decide)
  simp [this]

theorem digit_not_ws {c : Char} (h : c.isDigit = true) : isWs c = false := by
  rw [← Bool.not_eq_true, isWs_iff]
  rintro (rfl | rfl | rfl | rfl) <;> exact absurd h (by decide)

theorem alpha_not_ws {c : Char} (h : c.isAlpha = true ∨ c = '_') : isWs c = false := by
  rw [← Bool.not_eq_true, isWs_iff]
  rintro (rfl | rfl | rfl | rfl) <;> exact absurd h (by decide)

/-- Text that ends a scalar: nothing, or a separator. -/
def Term (tl : Str) : Prop := ∀ c, tl.head? = some c → c = ',' ∨ c = ';' ∨ c = ':' ∨ c = '}'

/-- Text after a value: closing braces, then nothing or a comma. -/
def Calm (tl : Str) : Prop := ∃ k r, tl = List.replicate k '}' ++ r ∧ (r = [] ∨ ∃ r', r = ',' :: r')

theorem Calm.term {tl : Str} (h : Calm tl) : Term tl := by
  obtain ⟨k, r, rfl, hr⟩ := h
  intro c hc
  cases k with
  | zero => rcases hr with rfl | ⟨r', rfl⟩ <;> simp_all [eq_comm]
  | succ k => simp [List.replicate_succ] at hc; simp [← hc]

theorem Calm.comma (r : Str) : Calm (',' :: r) := ⟨0, ',' :: r, rfl, .inr ⟨r, rfl⟩⟩
theorem Calm.brace {r : Str} (h : Calm r) : Calm ('}' :: r) := by
  obtain ⟨k, r', rfl, hr⟩ := h
  exact ⟨k + 1, r', by simp [List.replicate_succ], hr⟩
theorem Calm.nil : Calm [] := ⟨0, [], rfl, .inl rfl⟩

theorem term_not_ws {tl : Str} (h : Term tl) : ∀ c, tl.head? = some c → isWs c = false := by
  intro c hc
  rcases h c hc with rfl | rfl | rfl | rfl <;> decide

theorem term_dropWhile {tl : Str} (h : Term tl) : tl.dropWhile isWs = tl := by
  simpa using dropWhile_spaces (w := []) (r := tl) (by simp [Spaces]) (term_not_ws h)

theorem term_not_part (U : Unicode) {tl : Str} (h : Term tl) : ∀ c, tl.head? = some c → isIdentPart U c = false := by
  intro c hc
  rcases h c hc with rfl | rfl | rfl | rfl <;> rw [identPart_ascii U (by decide)] <;> decide

/-! ## Tokens -/

theorem dropWhile_append_all {p : Char → Bool} {l tl : Str} (h : ∀ c ∈ l, p c = true) (ht : ∀ c, tl.head? = some c → p c = false) :
    (l ++ tl).dropWhile p = tl := by
  induction l with
  | nil =>
    cases tl with
    | nil => rfl
    | cons c r => simp [List.dropWhile_cons, ht c rfl]
  | cons c l ih =>
    rw [List.cons_append, List.dropWhile_cons, if_pos (h c (by simp))]
    exact ih fun c hc => h c (by simp [hc])

theorem takeWhile_append_all {p : Char → Bool} {l tl : Str} (h : ∀ c ∈ l, p c = true) (ht : ∀ c, tl.head? = some c → p c = false) :
    (l ++ tl).takeWhile p = l := by
  induction l with
  | nil =>
    cases tl with
    | nil => rfl
    | cons c r => simp [ht c rfl]
  | cons c l ih =>
    rw [List.cons_append, List.takeWhile_cons, if_pos (h c (by simp)), ih fun c hc => h c (by simp [hc])]

theorem lex_ident (U : Unicode) (num : Bool) {c : Char} {cs tl : Str} (hc : isIdentStart U c = true)
    (hcs : ∀ c ∈ cs, isIdentPart U c = true) (ht : ∀ c, tl.head? = some c → isIdentPart U c = false) :
    lex U num (c :: cs ++ tl) = .ok (.ident, tl) := by
  simp only [List.cons_append, lex, hc, if_true, dropWhile_append_all hcs ht]

/-- The punctuation characters that are tokens of their own. -/
def Punct (c : Char) : Prop := c = ',' ∨ c = ';' ∨ c = ':' ∨ c = '}' ∨ c = '{' ∨ c = '=' ∨ c = '-'

theorem lex_punct (U : Unicode) (num : Bool) {c : Char} (h : Punct c) (tl : Str) : lex U num (c :: tl) = .ok (.ch c, tl) := by
  have h1 : isIdentStart U c = false := by
    rcases h with rfl | rfl | rfl | rfl | rfl | rfl | rfl <;> rw [identStart_ascii U (by decide)] <;> decide
  have h2 : c.isDigit = false ∧ c ≠ '"' ∧ c ≠ '`' ∧ c ≠ '.' := by
    rcases h with rfl | rfl | rfl | rfl | rfl | rfl | rfl <;> decide
  simp [lex, h1, h2]

theorem punct_not_ws {c : Char} (h : Punct c) : isWs c = false := by
  rcases h with rfl | rfl | rfl | rfl | rfl | rfl | rfl <;> decide

theorem quote_not_start (U : Unicode) : isIdentStart U '"' = false := by rw [identStart_ascii U (by decide)]; decide
theorem bquote_not_start (U : Unicode) : isIdentStart U '`' = false := by rw [identStart_ascii U (by decide)]; decide

theorem skipString_escape (t tl : Str) : skipString (t.flatMap escapeChar ++ '"' :: tl) = some tl := by
  have e1 : (simpleEscape '"').isSome = true := by decide
  have e2 : (simpleEscape '\\').isSome = true := by decide
  have e3 : (simpleEscape 'n').isSome = true := by decide
  unfold skipString
  induction t with
  | nil => simp [skipStringAt]
  | cons c t ih =>
    simp only [List.flatMap_cons, List.append_assoc, escapeChar]
    split
    · simpa [skipStringAt, e1] using ih
    · split
      · simpa [skipStringAt, e2] using ih
      · split
        · simpa [skipStringAt, e3] using ih
        · rename_i h1 h2 h3
          rw [List.singleton_append, skipStringAt, if_neg h1, if_neg h3, if_neg h2]
          exact ih

theorem unquoteBody_escape (t : Str) : unquoteBody (t.flatMap escapeChar) = some t := by
  have e1 : simpleEscape '"' = some '"' := by decide
  have e2 : simpleEscape '\\' = some '\\' := by decide
  have e3 : simpleEscape 'n' = some '\n' := by decide
  unfold unquoteBody
  induction t with
  | nil => rfl
  | cons c t ih =>
    simp only [List.flatMap_cons, escapeChar]
    split
    · rename_i h; subst h; simp [unquoteAt, e1, ih]
    · split
      · rename_i h; subst h; simp [unquoteAt, e2, ih]
      · split
        · rename_i h; subst h; simp [unquoteAt, e3, ih]
        · rename_i h1 h2 h3
          rw [List.singleton_append, unquoteAt, if_neg (by simp [h1, h3]), if_neg h2, ih]
          rfl

theorem lex_quoted (U : Unicode) (num : Bool) (t tl : Str) : lex U num (quoted t ++ tl) = .ok (.string, tl) := by
  have hd : ('"' : Char).isDigit = false := by decide
  simp only [quoted, List.cons_append, List.append_assoc, List.singleton_append, lex, quote_not_start, hd]
  simp [skipString_escape]

theorem lex_rawq (U : Unicode) (num : Bool) {t : Str} (h : '`' ∉ t) (tl : Str) :
    lex U num ('`' :: (t ++ ['`']) ++ tl) = .ok (.rawString, tl) := by
  have hd : ('`' : Char).isDigit = false := by decide
  simp only [List.cons_append, List.append_assoc, List.nil_append, lex, bquote_not_start, hd]
  simp [Text.cut_append h]

theorem unquote_quoted (t : Str) : unquote (quoted t) = some t := by
  simp [unquote, quoted, List.dropLast_concat, unquoteBody_escape]

theorem unquote_rawq {t : Str} (h : '\r' ∉ t) : unquote ('`' :: (t ++ ['`'])) = some t := by
  simp only [unquote, List.dropLast_concat, Option.some.injEq]
  rw [List.filter_eq_self]
  intro c hc
  simp only [decide_eq_true_eq]
  rintro rfl; exact h hc

/-- Reading a token in a state. -/
theorem scan_of_lex {U : Unicode} {num : Bool} {s : Sc} {w x tl : Str} {t : Tok} (hs : s.rest = w ++ (x ++ tl)) (hw : Spaces w)
    (hx : ∀ c, (x ++ tl).head? = some c → isWs c = false) (hl : lex U num (x ++ tl) = .ok (t, tl)) :
    scan U num s = .ok (t, ⟨tl, s.pos + w.length + x.length, s.pos + w.length, x⟩) := by
  have h1 : s.rest.dropWhile isWs = x ++ tl := by rw [hs]; exact dropWhile_spaces hw hx
  simp only [scan, h1, hl]
  simp only [hs, List.length_append]
  have e1 : w.length + (x.length + tl.length) - (x.length + tl.length) = w.length := by omega
  have e2 : x.length + tl.length - tl.length = x.length := by omega
  rw [e1, e2]
  simp

/-- The state is a position in `raw`. -/
def On (raw : Str) (s : Sc) : Prop := raw.drop s.pos = s.rest

theorem On.next {raw : Str} {s : Sc} {w x tl : Str} {o : Nat} {txt : Str} (h : On raw s) (hs : s.rest = w ++ (x ++ tl)) :
    On raw ⟨tl, s.pos + w.length + x.length, o, txt⟩ := by
  simp only [On] at h ⊢
  rw [← List.drop_drop, ← List.drop_drop, h, hs]
  simp

theorem skipWs_rest (s : Sc) : (skipWs s).rest = s.rest.dropWhile isWs := by
  simp only [skipWs]
  split
  · rename_i h
    have := List.dropWhile_suffix isWs (l := s.rest)
    exact (this.eq_of_length h).symm
  · rfl

theorem skipWs_pos (s : Sc) : (skipWs s).pos = s.pos + (s.rest.length - (s.rest.dropWhile isWs).length) := by
  simp only [skipWs]
  split
  · omega
  · rfl

theorem On.skipWs {raw : Str} {s : Sc} (h : On raw s) : On raw (skipWs s) := by
  simp only [On] at h ⊢
  rw [skipWs_rest, skipWs_pos, ← List.drop_drop, h]
  obtain ⟨p, hp⟩ := List.dropWhile_suffix isWs (l := s.rest)
  have hlen : s.rest.length - (s.rest.dropWhile isWs).length = p.length := by
    have := congrArg List.length hp
    simp at this; omega
  rw [hlen]
  have : List.drop p.length (p ++ s.rest.dropWhile isWs) = s.rest.dropWhile isWs := by simp
  rwa [hp] at this

theorem skipWs_of_notws {s : Sc} (h : ∀ c, s.rest.head? = some c → isWs c = false) : skipWs s = s := by
  have : s.rest.dropWhile isWs = s.rest := by simpa using dropWhile_spaces (w := []) (by simp [Spaces]) h
  simp [skipWs, this]

theorem peekNoSpace_eq {s : Sc} {w r : Str} (hs : s.rest = w ++ r) (hw : Spaces w) (hr : ∀ c, r.head? = some c → isWs c = false) :
    peekNoSpace s = r.head? := by
  rw [peekNoSpace, hs, dropWhile_spaces hw hr]

theorem spaces_nil : Spaces [] := by simp [Spaces]

/-- Expecting a punctuation character that is there. -/
theorem expect_punct {U : Unicode} {raw : Str} {s : Sc} {w : Str} {c : Char} {tl : Str} (hp : Punct c) (hs : s.rest = w ++ c :: tl)
    (hw : Spaces w) (ho : On raw s) : ∃ s', expect U (.ch c) s = .ok s' ∧ s'.rest = tl ∧ On raw s' := by
  have hs' : s.rest = w ++ ([c] ++ tl) := by simpa using hs
  have := scan_of_lex (U := U) (num := true) hs' hw (by simpa using punct_not_ws hp) (by simpa using lex_punct U true hp tl)
  exact ⟨_, by simp only [expect, this, if_true]; rfl, rfl, ho.next hs'⟩

theorem scan_punct {U : Unicode} {num : Bool} {raw : Str} {s : Sc} {w : Str} {c : Char} {tl : Str} (hp : Punct c)
    (hs : s.rest = w ++ c :: tl) (hw : Spaces w) (ho : On raw s) :
    ∃ s', scan U num s = .ok (.ch c, s') ∧ s'.rest = tl ∧ On raw s' := by
  have hs' : s.rest = w ++ ([c] ++ tl) := by simpa using hs
  have := scan_of_lex (U := U) (num := num) hs' hw (by simpa using punct_not_ws hp) (by simpa using lex_punct U num hp tl)
  exact ⟨_, this, rfl, ho.next hs'⟩

theorem scan_tok {U : Unicode} {num : Bool} {raw : Str} {s : Sc} {w x tl : Str} {t : Tok} (ho : On raw s) (hs : s.rest = w ++ (x ++ tl))
    (hw : Spaces w) (hx : ∀ c, (x ++ tl).head? = some c → isWs c = false) (hl : lex U num (x ++ tl) = .ok (t, tl)) :
    ∃ s', scan U num s = .ok (t, s') ∧ s'.rest = tl ∧ s'.text = x ∧ On raw s' :=
  ⟨_, scan_of_lex hs hw hx hl, rfl, rfl, ho.next hs⟩

/-! ## Numbers -/

theorem toDigits_digits {n : Nat} : ∀ c ∈ Nat.toDigits 10 n, c.isDigit = true :=
  fun _ hc => Nat.isDigit_of_mem_toDigits (by omega) (by omega) hc

theorem toDigits_head {n : Nat} (h : 0 < n) : (Nat.toDigits 10 n).head? ≠ some '0' := by
  induction n using Nat.strongRecOn with
  | ind n ih =>
    by_cases h10 : n < 10
    · rw [Nat.toDigits_of_lt_base h10]
      simp; omega
    · rw [Nat.toDigits_of_base_le (by omega) (by omega)]
      have hne : Nat.toDigits 10 (n / 10) ≠ [] := Nat.toDigits_ne_nil
      have := ih (n / 10) (by omega) (by omega)
      revert this
      cases h' : Nat.toDigits 10 (n / 10) with
      | nil => exact absurd h' hne
      | cons c r => simp

theorem digit_not_underscore {c : Char} (h : c.isDigit = true) : c ≠ '_' := by rintro rfl; exact absurd h (by decide)

theorem digit_not_bad {c : Char} (h : c.isDigit = true) : badDigit 10 c = false := by
  have h' : c.toNat ≤ 57 := by
    simp [Char.isDigit, UInt32.le_iff_toNat_le] at h
    simp only [Char.toNat] at *
    omega
  simp [badDigit]; omega

theorem numSpan_digits {base : Nat} (hb : base ≠ 16) {ds tl : Str} (hd : ∀ c ∈ ds, c.isDigit = true)
    (ht : ∀ c, tl.head? = some c → c.isDigit = false ∧ c ≠ '_') : numSpan base (ds ++ tl) = (ds, tl) := by
  have h1 : ∀ c ∈ ds, (c.isDigit || decide (c = '_') || (decide (base = 16) && isHexDigit c)) = true := by
    intro c hc; simp [hd c hc]
  have h2 : ∀ c, tl.head? = some c → (c.isDigit || decide (c = '_') || (decide (base = 16) && isHexDigit c)) = false := by
    intro c hc; simp [ht c hc, hb]
  simp only [numSpan]
  rw [takeWhile_append_all h1 h2, dropWhile_append_all h1 h2]

/-- What may follow a number. -/
def NumTail (tl : Str) : Prop := ∀ c, tl.head? = some c → c = ',' ∨ c = ';' ∨ c = ':' ∨ c = '}'

theorem numTail_digit {tl : Str} (h : Term tl) : ∀ c, tl.head? = some c → c.isDigit = false ∧ c ≠ '_' := by
  intro c hc
  rcases h c hc with rfl | rfl | rfl | rfl <;> decide

theorem term_ne {tl : Str} (h : Term tl) {c : Char} (hc : ¬ (c = ',' ∨ c = ';' ∨ c = ':' ∨ c = '}')) : tl.head? ≠ some c :=
  fun e => hc (h c e)

theorem numEnd_term {tl : Str} (h : Term tl) {tok : Tok} {pre : Char} {bad : Bool} (h1 : ¬ (pre = 'x' ∧ tok = .float))
    (h2 : ¬ (tok = .int ∧ bad = true)) : numEnd tok pre bad tl = .ok (tok, tl) := by
  have e1 := term_ne h (c := 'e') (by decide)
  have e2 := term_ne h (c := 'E') (by decide)
  have e3 := term_ne h (c := 'p') (by decide)
  have e4 := term_ne h (c := 'P') (by decide)
  simp [numEnd, e1, e2, e3, e4, h2]
  intro a b; exact absurd ⟨a, b⟩ h1

theorem any_ne_underscore {l : Str} (hl : l ≠ []) (hd : ∀ c ∈ l, c.isDigit = true) : l.any (fun c => c ≠ '_') = true := by
  cases l with
  | nil => exact absurd rfl hl
  | cons c r => simp [digit_not_underscore (hd c (by simp))]

theorem any_underscore {l : Str} (hd : ∀ c ∈ l, c.isDigit = true) : l.any (fun c => c = '_') = false := by
  rw [List.any_eq_false]; intro c hc; simp [digit_not_underscore (hd c hc)]

theorem any_bad {l : Str} (hd : ∀ c ∈ l, c.isDigit = true) : l.any (badDigit 10) = false := by
  rw [List.any_eq_false]; intro c hc; simp [digit_not_bad (hd c hc)]

theorem scanNumber_int {n : Nat} {tl : Str} (h : Term tl) : scanNumber (Nat.toDigits 10 n ++ tl) false = .ok (.int, tl) := by
  have hdot := term_ne h (c := '.') (by decide)
  by_cases hn : n = 0
  · subst hn
    have hx := term_ne h (c := 'x') (by decide)
    have hX := term_ne h (c := 'X') (by decide)
    have ho := term_ne h (c := 'o') (by decide)
    have hO := term_ne h (c := 'O') (by decide)
    have hb := term_ne h (c := 'b') (by decide)
    have hB := term_ne h (c := 'B') (by decide)
    have hp : numPrefix ('0' :: tl) = (8, '0', tl) := by simp [numPrefix, hx, hX, ho, hO, hb, hB]
    have hs : numSpan 8 tl = ([], tl) := by
      simpa using numSpan_digits (base := 8) (by decide) (ds := []) (by simp) (numTail_digit h)
    rw [Nat.toDigits_zero, List.singleton_append, scanNumber]
    simp only [hp, hs, hdot]
    simp [numCheck, numEnd_term h]
  · have hh := toDigits_head (n := n) (by omega)
    have hne : Nat.toDigits 10 n ≠ [] := Nat.toDigits_ne_nil
    have hd := toDigits_digits (n := n)
    generalize Nat.toDigits 10 n = ds at *
    have hp : numPrefix (ds ++ tl) = (10, ' ', ds ++ tl) := by
      cases ds with
      | nil => exact absurd rfl hne
      | cons c r => simp at hh; simp [numPrefix, hh]
    have hs := numSpan_digits (base := 10) (by decide) hd (numTail_digit h)
    rw [scanNumber]
    simp only [hp, hs, hdot, numCheck, any_ne_underscore hne hd, any_underscore hd, any_bad hd]
    simp [numEnd_term h]

theorem scanNumber_frac {n : Nat} {fp tl : Str} (h : Term tl) (hf : fp ≠ []) (hfd : ∀ c ∈ fp, c.isDigit = true) :
    scanNumber (Nat.toDigits 10 n ++ '.' :: fp ++ tl) false = .ok (.float, tl) := by
  have hdotT : ∀ c, ('.' :: (fp ++ tl)).head? = some c → c.isDigit = false ∧ c ≠ '_' := by
    intro c hc; simp at hc; subst hc; decide
  rw [List.append_assoc, List.cons_append]
  by_cases hn : n = 0
  · subst hn
    have hp : numPrefix ('0' :: '.' :: (fp ++ tl)) = (8, '0', '.' :: (fp ++ tl)) := by simp [numPrefix]
    have hs : numSpan 8 ('.' :: (fp ++ tl)) = ([], '.' :: (fp ++ tl)) := by
      simpa using numSpan_digits (base := 8) (by decide) (ds := []) (by simp) hdotT
    have hs2 : numSpan 8 (fp ++ tl) = (fp, tl) := numSpan_digits (by decide) hfd (numTail_digit h)
    rw [Nat.toDigits_zero, List.singleton_append, scanNumber]
    simp only [hp, hs, List.head?_cons, List.tail_cons, hs2, List.nil_append, numCheck, any_underscore hfd]
    simp [numEnd_term h]
  · have hh := toDigits_head (n := n) (by omega)
    have hne : Nat.toDigits 10 n ≠ [] := Nat.toDigits_ne_nil
    have hd := toDigits_digits (n := n)
    generalize Nat.toDigits 10 n = ds at *
    have hp : numPrefix (ds ++ '.' :: (fp ++ tl)) = (10, ' ', ds ++ '.' :: (fp ++ tl)) := by
      cases ds with
      | nil => exact absurd rfl hne
      | cons c r => simp at hh; simp [numPrefix, hh]
    have hs := numSpan_digits (base := 10) (by decide) hd hdotT
    have hs2 : numSpan 10 (fp ++ tl) = (fp, tl) := numSpan_digits (by decide) hfd (numTail_digit h)
    have hall : ∀ c ∈ ds ++ fp, c.isDigit = true := by
      intro c hc; rcases List.mem_append.1 hc with hc | hc
      · exact hd c hc
      · exact hfd c hc
    rw [scanNumber]
    simp only [hp, hs, List.head?_cons, List.tail_cons, hs2, numCheck, any_underscore hall, any_ne_underscore (by simp [hf]) hall]
    simp [numEnd_term h]

theorem lex_digit_start (U : Unicode) {c : Char} (hc : c.isDigit = true) (r : Str) : lex U true (c :: r) = scanNumber (c :: r) false := by
  simp [lex, digit_not_identStart U hc, hc]

theorem toDigits_cons (n : Nat) : ∃ c r, Nat.toDigits 10 n = c :: r ∧ c.isDigit = true := by
  cases h : Nat.toDigits 10 n with
  | nil => exact absurd h Nat.toDigits_ne_nil
  | cons c r => exact ⟨c, r, rfl, toDigits_digits (n := n) c (by simp [h])⟩

theorem lex_int (U : Unicode) (n : Nat) {tl : Str} (h : Term tl) : lex U true (Nat.toDigits 10 n ++ tl) = .ok (.int, tl) := by
  have := scanNumber_int (n := n) h
  obtain ⟨c, r, he, hc⟩ := toDigits_cons n
  rw [he] at this ⊢
  rw [List.cons_append] at this ⊢
  rw [lex_digit_start U hc, this]

theorem lex_frac (U : Unicode) (n : Nat) {fp tl : Str} (h : Term tl) (hf : fp ≠ []) (hfd : ∀ c ∈ fp, c.isDigit = true) :
    lex U true (Nat.toDigits 10 n ++ '.' :: fp ++ tl) = .ok (.float, tl) := by
  have := scanNumber_frac (n := n) h hf hfd
  obtain ⟨c, r, he, hc⟩ := toDigits_cons n
  rw [he] at this ⊢
  simp only [List.cons_append] at this ⊢
  rw [lex_digit_start U hc, this]

theorem natOfDigits_toDigits (n : Nat) : natOfDigits (Nat.toDigits 10 n) = n := by
  have h := Nat.ofDigitChars_ten_toDigits (n := n)
  rw [Nat.ofDigitChars_eq_foldl] at h
  simp only [natOfDigits, digitVal]
  have e : (fun (n : Nat) (c : Char) => n * 10 + (c.toNat - '0'.toNat)) = fun sofar c => 10 * sofar + (c.toNat - '0'.toNat) := by
    funext a c; omega
  rw [e]; exact h

theorem atoi_toDigits {z : Int} (h1 : -(2 ^ 63) ≤ z) (h2 : z < 2 ^ 63) :
    atoi (decide (z < 0)) (Nat.toDigits 10 z.natAbs) = some z := by
  have ha : (Nat.toDigits 10 z.natAbs).all Char.isDigit = true := List.all_eq_true.2 toDigits_digits
  have hz : (if decide (z < 0) = true then -(natOfDigits (Nat.toDigits 10 z.natAbs) : Int) else natOfDigits (Nat.toDigits 10 z.natAbs)) = z := by
    rw [natOfDigits_toDigits]
    split <;> simp_all <;> omega
  simp only [atoi, ha]
  rw [hz]
  rw [if_pos ⟨Nat.toDigits_ne_nil, trivial⟩, if_pos ⟨h1, h2⟩]

end Verif.Markers
