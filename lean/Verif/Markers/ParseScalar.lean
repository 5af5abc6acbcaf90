import Verif.Markers.ParseLemmas
/-!
# Lemmas for C14: scalars
-/
namespace Verif.Markers
open Spec

/-! ## Strings -/

theorem dropWhile_append_stop {p : Char → Bool} {l tl : Str} (ht : ∀ c, tl.head? = some c → p c = false) :
    (l ++ tl).dropWhile p = l.dropWhile p ++ tl := by
  induction l with
  | nil =>
    cases tl with
    | nil => rfl
    | cons c r => simp [ht c rfl]
  | cons c l ih =>
    rw [List.cons_append, List.dropWhile_cons, List.dropWhile_cons]
    split
    · exact ih
    · rfl

/-- A bare token does not run past the end of the bare text. -/
theorem lex_bare (U : Unicode) {c : Char} {cs tl : Str} (h1 : c ≠ '"') (h2 : c ≠ '`') (ht : Term tl) :
    ∃ tok p u, cs = p ++ u ∧ lex U false (c :: cs ++ tl) = .ok (tok, u ++ tl) ∧ tok ≠ .string ∧ tok ≠ .rawString := by
  rw [List.cons_append]
  simp only [lex]
  split
  · refine ⟨.ident, cs.takeWhile (isIdentPart U), cs.dropWhile (isIdentPart U), (List.takeWhile_append_dropWhile).symm, ?_, by decide, by decide⟩
    rw [dropWhile_append_stop (term_not_part U ht)]
  · have hch : Tok.ch c ≠ .string ∧ Tok.ch c ≠ .rawString := ⟨nofun, nofun⟩
    split
    · exact ⟨.ch c, [], cs, rfl, rfl, hch⟩
    · split
      · refine ⟨.ch c, [], cs, rfl, ?_, hch⟩
        cases cs ++ tl <;> simp
      · exact ⟨.ch c, [], cs, rfl, rfl, hch⟩

/-- Text inside a bare string. -/
structure BareRest (u : Str) : Prop where
  chars : ∀ c ∈ u, c ≠ ',' ∧ c ≠ ';' ∧ c ≠ ':' ∧ c ≠ '}' ∧ c ≠ '"' ∧ c ≠ '`'
  last : ∀ c, u.getLast? = some c → isWs c = false

theorem BareRest.suffix {p u : Str} (h : BareRest (p ++ u)) : BareRest u := by
  refine ⟨fun c hc => h.chars c (by simp [hc]), fun c hc => h.last c ?_⟩
  rw [List.getLast?_append, hc]; rfl

theorem mem_takeWhile {p : Char → Bool} {l : Str} {c : Char} (h : c ∈ l.takeWhile p) : p c = true := by
  induction l with
  | nil => simp at h
  | cons d l ih =>
    rw [List.takeWhile_cons] at h
    split at h
    · rcases List.mem_cons.1 h with rfl | h
      · assumption
      · exact ih h
    · simp at h

theorem bare_split {u : Str} (h : BareRest u) (hne : u ≠ []) : ∃ w c cs, u = w ++ c :: cs ∧ Spaces w ∧ isWs c = false := by
  have hs := List.takeWhile_append_dropWhile (p := isWs) (l := u)
  cases hd : u.dropWhile isWs with
  | nil =>
    exfalso
    have hall : ∀ c ∈ u, isWs c = true := by
      rw [hd, List.append_nil] at hs
      intro c hc
      rw [← hs] at hc
      exact mem_takeWhile hc
    have hl := h.last (u.getLast hne) (List.getLast?_eq_some_getLast hne)
    rw [hall _ (List.getLast_mem hne)] at hl
    cases hl
  | cons c cs =>
    refine ⟨u.takeWhile isWs, c, cs, by rw [← hd, hs], ?_, ?_⟩
    · intro c hc; exact isWs_iff.1 (mem_takeWhile hc)
    · have := List.head?_dropWhile_not isWs u
      rw [hd] at this
      simpa using this

theorem bareLoop_ok (U : Unicode) {tl : Str} (ht : Term tl) : ∀ (k : Nat) (u : Str) (n : Nat) (s : Sc), u.length ≤ k → k < n → BareRest u →
    s.rest = u ++ tl → s.off + s.text.length = s.pos →
    ∃ s', bareLoop U n s = .ok s' ∧ s'.rest = tl ∧ s'.pos = s.pos + u.length ∧ s'.off + s'.text.length = s'.pos := by
  intro k
  induction k with
  | zero =>
    intro u n s hk hn hu hs hp
    obtain ⟨m, rfl⟩ : ∃ m, n = m + 1 := ⟨n - 1, by omega⟩
    have : u = [] := List.length_eq_zero_iff.1 (by omega)
    subst this
    rw [List.nil_append] at hs
    have hsk : skipWs s = s := skipWs_of_notws (by rw [hs]; exact term_not_ws ht)
    have hpk : peekNoSpace s = tl.head? := peekNoSpace_eq (w := []) (by simpa using hs) spaces_nil (term_not_ws ht)
    refine ⟨s, ?_, hs, by simp, hp⟩
    rw [bareLoop, hpk, hsk]
    cases hh : tl.head? with
    | none => rfl
    | some c => simp only [if_pos (ht c hh)]
  | succ k ih =>
    intro u n s hk hn hu hs hp
    by_cases hne : u = []
    · exact ih u n s (by simp [hne]) (by omega) hu hs hp
    · obtain ⟨m, rfl⟩ : ∃ m, n = m + 1 := ⟨n - 1, by omega⟩
      obtain ⟨w, c, cs, rfl, hw, hc⟩ := bare_split hu hne
      have hcs := hu.chars c (by simp)
      have hpk : peekNoSpace s = some c :=
        peekNoSpace_eq (w := w) (r := c :: cs ++ tl) (by simpa using hs) hw (by simpa using hc)
      obtain ⟨tok, p, v, rfl, hlex, -, -⟩ := lex_bare U (cs := cs) hcs.2.2.2.2.1 hcs.2.2.2.2.2 ht
      have hdw : s.rest.dropWhile isWs = (c :: p) ++ (v ++ tl) := by
        rw [hs]
        have := dropWhile_spaces (w := w) (r := (c :: p) ++ (v ++ tl)) hw (by simpa using hc)
        simpa using this
      have hskr : (skipWs s).rest = [] ++ ((c :: p) ++ (v ++ tl)) := by rw [skipWs_rest, hdw]; rfl
      have hskp : (skipWs s).pos = s.pos + w.length := by
        rw [skipWs_pos, hdw, hs]
        simp only [List.length_append, List.length_cons]
        omega
      have hscan := scan_of_lex (U := U) (num := false) (x := c :: p) (tl := v ++ tl) hskr spaces_nil (by simpa using hc)
        (by simpa using hlex)
      obtain ⟨s', h1, h2, h3, h4⟩ := ih v m _ (by simp at hk ⊢; omega) (by omega)
        (BareRest.suffix (p := w ++ c :: p) (by simpa using hu)) (rfl : (Sc.mk (v ++ tl) ((skipWs s).pos + ([] : Str).length + (c :: p).length)
          ((skipWs s).pos + ([] : Str).length) (c :: p)).rest = v ++ tl) rfl
      refine ⟨s', ?_, h2, ?_, h4⟩
      · rw [bareLoop, hpk]
        have : ¬ (c = ',' ∨ c = ';' ∨ c = ':' ∨ c = '}') := by
          rintro (h | h | h | h)
          · exact hcs.1 h
          · exact hcs.2.1 h
          · exact hcs.2.2.1 h
          · exact hcs.2.2.2.1 h
        simp only [if_neg this, hscan]
        exact h1
      · rw [h3]
        simp only [hskp, List.length_append, List.length_cons, List.length_nil]
        omega

theorem Spec.Ident.bare {t : Str} (h : Ident t) : Bare t := by
  have hc : ∀ c : Char, (c.isAlphanum = true ∨ c = '_') →
      (c ≠ ',' ∧ c ≠ ';' ∧ c ≠ ':' ∧ c ≠ '}' ∧ c ≠ '"' ∧ c ≠ '`') ∧ ¬ (c = ' ' ∨ c = '\t' ∨ c = '\n' ∨ c = '\r') := by
    intro c hc
    refine ⟨⟨?_, ?_, ?_, ?_, ?_, ?_⟩, ?_⟩
    all_goals first | (rintro rfl; revert hc; decide) | (rintro (rfl | rfl | rfl | rfl) <;> (revert hc; decide))
  obtain ⟨c, r, rfl, -⟩ := h.first
  refine ⟨by simp, fun c' hc' => (hc c' (h.rest c' hc')).1, fun c' hc' => (hc c' (h.rest c' ?_)).2, fun c' hc' => (hc c' (h.rest c' ?_)).2⟩
  · exact List.mem_of_mem_head? hc'
  · exact List.mem_of_getLast? hc'

theorem not_ws_iff {c : Char} : isWs c = false ↔ ¬ (c = ' ' ∨ c = '\t' ∨ c = '\n' ∨ c = '\r') := by
  rw [← isWs_iff, Bool.not_eq_true]

theorem parseString_bare (U : Unicode) {raw : Str} {s : Sc} {w t tl : Str} (h : Bare t) (hw : Spaces w) (ho : On raw s)
    (hs : s.rest = w ++ (t ++ tl)) (ht : Term tl) :
    ∃ s', parseString U raw s = .ok (t, s') ∧ s'.rest = tl ∧ On raw s' := by
  obtain ⟨c, cs, rfl⟩ : ∃ c cs, t = c :: cs := by
    cases t with
    | nil => exact absurd rfl h.ne
    | cons c cs => exact ⟨c, cs, rfl⟩
  have hcc := h.chars c (by simp)
  have hcw : isWs c = false := not_ws_iff.2 (h.first c rfl)
  obtain ⟨tok, p, u, rfl, hlex, htok⟩ := lex_bare U (cs := cs) hcc.2.2.2.2.1 hcc.2.2.2.2.2 ht
  have hs' : s.rest = w ++ ((c :: p) ++ (u ++ tl)) := by simpa using hs
  have hscan := scan_of_lex (U := U) (num := false) hs' hw (by simpa using hcw) (by simpa using hlex)
  have hbr : BareRest u := by
    have : BareRest ((c :: p) ++ u) := ⟨h.chars, fun c' hc' => not_ws_iff.2 (h.last c' hc')⟩
    exact this.suffix
  obtain ⟨s', h1, h2, h3, h4⟩ := bareLoop_ok U ht u.length u ((u ++ tl).length + 1)
    ⟨u ++ tl, s.pos + w.length + (c :: p).length, s.pos + w.length, c :: p⟩ (Nat.le_refl _) (by simp; omega) hbr rfl rfl
  have hpos : s'.pos = s.pos + w.length + (c :: (p ++ u)).length := by
    rw [h3]; simp only [List.length_cons, List.length_append]; omega
  have hon : On raw s' := by
    have := ho.next (w := w) (x := c :: (p ++ u)) (tl := tl) (o := s'.off) (txt := s'.text) hs
    rw [← hpos, ← h2] at this
    exact this
  refine ⟨s', ?_, h2, hon⟩
  simp only [parseString, hscan, if_neg (not_or.2 htok), h1]
  have hd : raw.drop (s.pos + w.length) = c :: (p ++ u) ++ tl := by
    rw [← List.drop_drop, ho, hs]; simp
  rw [h4, hpos, hd]
  have : s.pos + w.length + (c :: (p ++ u)).length - (s.pos + w.length) = (c :: (p ++ u)).length := by omega
  rw [this, List.take_left]

theorem quoted_head (t tl : Str) : ∀ c, (quoted t ++ tl).head? = some c → isWs c = false := by
  intro c hc; simp [quoted] at hc; subst hc; decide

theorem rawq_head (t tl : Str) : ∀ c, ('`' :: (t ++ ['`']) ++ tl).head? = some c → isWs c = false := by
  intro c hc; simp at hc; subst hc; decide

theorem parseString_ok (U : Unicode) {raw : Str} {s : Sc} {self : Bool} {t w x tl : Str} (h : ShowsStr self t x) (hw : Spaces w) (ho : On raw s)
    (hs : s.rest = w ++ (x ++ tl)) (ht : Term tl) : ∃ s', parseString U raw s = .ok (t, s') ∧ s'.rest = tl ∧ On raw s' := by
  cases h with
  | quoted =>
    have hscan := scan_of_lex (U := U) (num := false) hs hw (quoted_head t tl) (lex_quoted U false t tl)
    exact ⟨_, by simp only [parseString, hscan, true_or, if_true, unquote_quoted]; rfl, rfl, ho.next hs⟩
  | raw h1 h2 =>
    have hscan := scan_of_lex (U := U) (num := false) hs hw (rawq_head t tl) (lex_rawq U false h1 tl)
    exact ⟨_, by simp only [parseString, hscan, or_true, if_true, unquote_rawq h2]; rfl, rfl, ho.next hs⟩
  | word h1 h2 h3 => exact parseString_bare U h1.bare hw ho hs ht
  | bare h1 => exact parseString_bare U h1 hw ho hs ht

/-! ## Numbers and booleans -/

/-- A sign. -/
def sign (neg : Bool) : Str := if neg then ['-'] else []

theorem showInt_eq (z : Int) : showInt z = sign (decide (z < 0)) ++ Nat.toDigits 10 z.natAbs := by
  simp only [showInt, sign]
  split <;> simp_all

theorem showFrac_eq (neg : Bool) (ip : Nat) (fp : Str) : showFrac neg ip fp = sign neg ++ (Nat.toDigits 10 ip ++ '.' :: fp) := by
  simp [showFrac, sign]

theorem minus_ok (U : Unicode) {raw : Str} {s : Sc} {w r : Str} {neg : Bool} (hw : Spaces w) (hw' : w ≠ [] → neg = false)
    (hr : r.head? ≠ some '-') (ho : On raw s) (hs : s.rest = w ++ (sign neg ++ r)) :
    ∃ s1 w1, minus U s = .ok (neg, s1) ∧ s1.rest = w1 ++ r ∧ Spaces w1 ∧ On raw s1 := by
  cases neg with
  | false =>
    refine ⟨s, w, ?_, by simpa [sign] using hs, hw, ho⟩
    have : peek s ≠ some '-' := by
      rw [peek, hs]
      cases w with
      | nil => simpa [sign] using hr
      | cons c w =>
        have := hw c (by simp)
        simp only [List.cons_append, List.head?_cons, ne_eq, Option.some.injEq]
        rintro rfl
        revert this; decide
    simp [minus, this]
  | true =>
    have : w = [] := Classical.byContradiction fun h => by cases hw' h
    subst this
    have hs' : s.rest = [] ++ '-' :: r := by simpa [sign] using hs
    obtain ⟨s1, h1, h2, h3⟩ := scan_punct (U := U) (num := true) (raw := raw) (c := '-') (by simp [Punct]) hs' spaces_nil ho
    refine ⟨s1, [], ?_, by simpa using h2, spaces_nil, h3⟩
    have : peek s = some '-' := by rw [peek, hs']; rfl
    simp [minus, this, h1]

theorem toDigits_first (n : Nat) (tl : Str) : ∀ c, (Nat.toDigits 10 n ++ tl).head? = some c → c.isDigit = true := by
  obtain ⟨c, r, he, hc⟩ := toDigits_cons n
  intro c' hc'
  rw [he] at hc'
  simp at hc'; subst hc'; exact hc

theorem digit_ne_minus {l : Str} (h : ∀ c, l.head? = some c → c.isDigit = true) : l.head? ≠ some '-' :=
  fun e => absurd (h '-' e) (by decide)

theorem sign_head {w : Str} {neg : Bool} {r : Str} (h : w ≠ [] → (sign neg ++ r).head? ≠ some '-') : w ≠ [] → neg = false := by
  intro hw
  cases neg with
  | false => rfl
  | true => exact absurd rfl (h hw)

theorem toInt32_id {z : Int} (h1 : -(2 ^ 31) ≤ z) (h2 : z < 2 ^ 31) : toInt32 z = z := by
  unfold toInt32
  rw [Int.bmod_eq_iff (by decide)]
  omega

/-- Recursion depth used by `any` in addition. -/
def anyCost : Arg → Nat
  | .any => 1
  | _ => 0

/-- `v` of type `a` is read from `x` (followed by `tl`) by `parse`. -/
def Reads (E : Env) (a : Arg) (v : Value) (x tl : Str) : Prop :=
  ∀ (n : Nat) (raw : Str) (inSlice : Bool) (s : Sc) (w : Str), 2 * x.length + anyCost a ≤ n → On raw s → Spaces w →
    (w ≠ [] → x.head? ≠ some '-') → s.rest = w ++ (x ++ tl) →
    ∃ s', parse E n a raw inSlice s = .ok (v, s') ∧ s'.rest = tl ∧ On raw s'

theorem digits_pos {n m : Nat} {p q : Str} (h : 2 * (p ++ (Nat.toDigits 10 m ++ q)).length ≤ n) : ∃ k, n = k + 1 := by
  obtain ⟨c, r, he, -⟩ := toDigits_cons m
  rw [he] at h
  simp only [List.length_append, List.length_cons] at h
  exact ⟨n - 1, by omega⟩

theorem reads_int (E : Env) {z : Int} {b : Bool} (h1 : -(2 ^ 63) ≤ z) (h2 : z < 2 ^ 63) (hb : b = true → toInt32 z = z) {tl : Str} (ht : Term tl) :
    Reads E (.int b) (.int z) (showInt z) tl := by
  intro n raw inSlice s w hn ho hw hw' hs
  simp only [anyCost, Nat.add_zero] at hn
  rw [showInt_eq] at hn hw' hs
  obtain ⟨k, rfl⟩ := digits_pos (q := []) (by simpa using hn)
  have hf := toDigits_first z.natAbs tl
  obtain ⟨s1, w1, e1, e2, e3, e4⟩ := minus_ok E.toUnicode (neg := decide (z < 0)) (r := Nat.toDigits 10 z.natAbs ++ tl) hw (sign_head hw')
    (digit_ne_minus hf) ho (by simpa using hs)
  obtain ⟨s2, hscan, r1, r2, r3⟩ := scan_tok (U := E.toUnicode) (num := true) e4 e2 e3 (fun c hc => digit_not_ws (hf c hc)) (lex_int E.toUnicode z.natAbs ht)
  refine ⟨s2, ?_, r1, r3⟩
  simp only [parse, e1, expect, hscan, if_true, r2, atoi_toDigits h1 h2]
  cases b with
  | false => rfl
  | true => rw [if_pos rfl, hb rfl]

theorem reads_num_int (E : Env) {z : Int} {q : Rat} (hq : E.parseFloat (showInt z) = some q) {tl : Str} (ht : Term tl) :
    Reads E .num (.num q) (showInt z) tl := by
  intro n raw inSlice s w hn ho hw hw' hs
  simp only [anyCost, Nat.add_zero] at hn
  rw [showInt_eq] at hn hw' hs hq
  obtain ⟨k, rfl⟩ := digits_pos (q := []) (by simpa using hn)
  have hf := toDigits_first z.natAbs tl
  obtain ⟨s1, w1, e1, e2, e3, e4⟩ := minus_ok E.toUnicode (neg := decide (z < 0)) (r := Nat.toDigits 10 z.natAbs ++ tl) hw (sign_head hw')
    (digit_ne_minus hf) ho (by simpa using hs)
  obtain ⟨s2, hscan, r1, r2, r3⟩ := scan_tok (U := E.toUnicode) (num := true) e4 e2 e3 (fun c hc => digit_not_ws (hf c hc)) (lex_int E.toUnicode z.natAbs ht)
  refine ⟨s2, ?_, r1, r3⟩
  have hq' : E.parseFloat (if decide (z < 0) = true then '-' :: Nat.toDigits 10 z.natAbs else Nat.toDigits 10 z.natAbs) = some q := by
    rw [← hq]; congr 1; simp only [sign]; split <;> rfl
  simp only [parse, e1, hscan, or_true, if_true, r2, hq']

theorem reads_num_frac (E : Env) {neg : Bool} {ip : Nat} {fp : Str} {q : Rat} (hf : fp ≠ []) (hfd : ∀ c ∈ fp, c.isDigit = true)
    (hq : E.parseFloat (showFrac neg ip fp) = some q) {tl : Str} (ht : Term tl) : Reads E .num (.num q) (showFrac neg ip fp) tl := by
  intro n raw inSlice s w hn ho hw hw' hs
  simp only [anyCost, Nat.add_zero] at hn
  rw [showFrac_eq] at hn hw' hs hq
  obtain ⟨k, rfl⟩ := digits_pos hn
  have hfst : ∀ c, ((Nat.toDigits 10 ip ++ '.' :: fp) ++ tl).head? = some c → c.isDigit = true := by
    rw [List.append_assoc]; exact toDigits_first ip _
  obtain ⟨s1, w1, e1, e2, e3, e4⟩ := minus_ok E.toUnicode (neg := neg) (r := (Nat.toDigits 10 ip ++ '.' :: fp) ++ tl) hw (sign_head hw')
    (digit_ne_minus hfst) ho (by simpa using hs)
  obtain ⟨s2, hscan, r1, r2, r3⟩ := scan_tok (U := E.toUnicode) (num := true) e4 e2 e3 (fun c hc => digit_not_ws (hfst c hc)) (lex_frac E.toUnicode ip ht hf hfd)
  refine ⟨s2, ?_, r1, r3⟩
  have hq' : E.parseFloat (if neg = true then '-' :: (Nat.toDigits 10 ip ++ '.' :: fp) else Nat.toDigits 10 ip ++ '.' :: fp) = some q := by
    rw [← hq]; congr 1; simp only [sign]; split <;> rfl
  simp only [parse, e1, hscan, true_or, if_true, r2, hq']

theorem showBool_ident (b : Bool) : Ident (showBool b) := by
  cases b
  · exact ⟨⟨'f', "alse".toList, by decide, by decide⟩, by decide⟩
  · exact ⟨⟨'t', "rue".toList, by decide, by decide⟩, by decide⟩

theorem ident_lex (U : Unicode) (num : Bool) {t tl : Str} (h : Ident t) (ht : ∀ c, tl.head? = some c → isIdentPart U c = false) :
    lex U num (t ++ tl) = .ok (.ident, tl) := by
  obtain ⟨c, r, rfl, hc⟩ := h.first
  refine lex_ident U num ?_ ?_ ht
  · rcases hc with hc | rfl
    · rw [identStart_ascii U (isAlpha_ascii hc), hc]; simp
    · simp [isIdentStart]
  · intro c' hc'
    rcases h.rest c' (by simp [hc']) with h' | rfl
    · rw [Char.isAlphanum, Bool.or_eq_true] at h'
      rcases h' with h' | h'
      · rw [identPart_ascii U (isAlpha_ascii h'), h']; simp
      · rw [identPart_ascii U (isDigit_ascii h'), h']; simp
    · simp [isIdentPart]

theorem ident_first {t : Str} (h : Ident t) (tl : Str) : ∀ c, (t ++ tl).head? = some c → isWs c = false := by
  obtain ⟨c, r, rfl, hc⟩ := h.first
  intro c' hc'
  simp at hc'; subst hc'; exact alpha_not_ws hc

theorem reads_bool (E : Env) (b : Bool) {tl : Str} (ht : Term tl) : Reads E .bool (.bool b) (showBool b) tl := by
  intro n raw inSlice s w hn ho hw hw' hs
  simp only [anyCost, Nat.add_zero] at hn
  obtain ⟨k, rfl⟩ : ∃ k, n = k + 1 := ⟨n - 1, by have : 0 < (showBool b).length := by cases b <;> decide
                                                 omega⟩
  have hid := showBool_ident b
  obtain ⟨s2, hscan, r1, r2, r3⟩ := scan_tok (U := E.toUnicode) (num := true) ho hs hw (ident_first hid tl) (ident_lex _ _ hid (term_not_part _ ht))
  refine ⟨s2, ?_, r1, r3⟩
  simp only [parse, expect, hscan, if_true, r2]
  cases b
  · rw [if_neg (by decide), if_pos (by decide)]
  · rw [if_pos (by decide)]

theorem showsStr_length {self : Bool} {t x : Str} (h : ShowsStr self t x) : 0 < x.length := by
  cases h with
  | quoted => simp [quoted]
  | raw => simp
  | word h => exact List.length_pos_iff.2 h.bare.ne
  | bare h => exact List.length_pos_iff.2 h.ne

theorem reads_str (E : Env) {self : Bool} {t x : Str} (h : ShowsStr self t x) {tl : Str} (ht : Term tl) : Reads E .str (.str t) x tl := by
  intro n raw inSlice s w hn ho hw hw' hs
  simp only [anyCost, Nat.add_zero] at hn
  obtain ⟨k, rfl⟩ : ∃ k, n = k + 1 := ⟨n - 1, by have := showsStr_length h; omega⟩
  obtain ⟨s', h1, h2, h3⟩ := parseString_ok E.toUnicode h hw ho hs ht
  exact ⟨s', by simp only [parse, h1], h2, h3⟩

end Verif.Markers
