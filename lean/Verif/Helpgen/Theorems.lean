import Verif.Helpgen.Spec
import Verif.Markers.DocTheorems
/-!
# C72: generated help says what the documentation says
-/
namespace Verif.Helpgen
open Markers Spec GoMap

/-! ## Literals -/

theorem hexDigit_char {n : Nat} (h : n < 16) : isHexDigit (hexDigit n) = true ∧ hexVal (hexDigit n) = n := by
  have : ∀ n : Fin 16, isHexDigit (hexDigit n) = true ∧ hexVal (hexDigit n) = n := by decide
  exact this ⟨n, h⟩

theorem hexDigits_unquote (byte : Bool) (n : Nat) (r : Str) : ∀ (k acc : Nat), unquoteAt (.digits byte true k acc) (hexDigits (k + 1) n ++ r) =
    (escapedChar byte (acc * 16 ^ (k + 1) + n % 16 ^ (k + 1))).bind fun x => (unquoteAt .plain r).map (x :: ·)
  | 0, acc => by
    simp only [hexDigits, Nat.pow_zero, Nat.div_one, List.cons_append, List.nil_append, unquoteAt, addDigit, if_true, (hexDigit_char (Nat.mod_lt n (by omega : 16 > 0))).2]
  | k + 1, acc => by
    have hd := (hexDigit_char (Nat.mod_lt (n / 16 ^ (k + 1)) (by omega : 16 > 0))).2
    rw [hexDigits, List.cons_append, unquoteAt, addDigit, if_pos rfl, hd, hexDigits_unquote byte n r k]
    congr 2
    have : n % 16 ^ (k + 1 + 1) = n / 16 ^ (k + 1) % 16 * 16 ^ (k + 1) + n % 16 ^ (k + 1) := by
      rw [Nat.pow_succ 16 (k + 1), Nat.mod_mul]
      rw [Nat.mul_comm, Nat.add_comm]
    rw [this, Nat.add_mul, Nat.pow_succ 16 (k + 1), Nat.add_assoc]
    congr 1
    rw [Nat.mul_assoc, Nat.mul_comm 16]

theorem escapedChar_toNat (c : Char) {byte : Bool} (h : byte = true → c.toNat < 128) : escapedChar byte c.toNat = some c := by
  unfold escapedChar
  rw [if_neg (by rintro ⟨h1, h2⟩; have := h h1; omega)]
  have hv : c.toNat.isValidChar := c.valid
  rw [dif_pos hv]
  congr 1

theorem char_lt (c : Char) : c.toNat < 16 ^ 8 := by
  have : c.toNat.isValidChar := c.valid
  simp only [Nat.isValidChar] at this
  omega

theorem printable_not (P : Printable) {c : Char} (h : P.is c = true) : c ≠ '\n' := by
  rintro rfl
  rw [P.ascii '\n' (by decide)] at h
  exact absurd h (by decide)

theorem quoteChar_unquote (P : Printable) (c : Char) (r : Str) : unquoteAt .plain (quoteChar P c ++ r) = (unquoteAt .plain r).map (c :: ·) := by
  unfold quoteChar
  split
  · rename_i h
    rcases h with rfl | rfl <;> simp [unquoteAt, simpleEscape]
  · rename_i hq
    split
    · rename_i hp
      have h1 : ¬ (c = '"' ∨ c = '\n') := by
        rintro (h | h)
        · exact hq (.inl h)
        · exact printable_not P hp h
      have h2 : ¬ c = '\\' := fun h => hq (.inr h)
      simp [unquoteAt, h1, h2]
    · repeat' split
      all_goals first | (subst_vars; simp [unquoteAt, simpleEscape]; done) | skip
      · rename_i h
        have hlt : c.toNat < 128 := by omega
        have := hexDigits_unquote true c.toNat r 1 0
        simp only [List.cons_append, unquoteAt, simpleEscape, isOctDigit] at this ⊢
        simp only [show ¬ ('\\' = '"' ∨ '\\' = '\n') by decide, if_false, if_true]
        simp only [show ('x' = 'a') = False by decide, show ('x' = 'b') = False by decide, show ('x' = 'f') = False by decide, show ('x' = 'n') = False by decide, show ('x' = 'r') = False by decide,
          show ('x' = 't') = False by decide, show ('x' = 'v') = False by decide, show ('x' = '\\') = False by decide, show ('x' = '"') = False by decide, if_false,
          show ('0' ≤ 'x' && 'x' ≤ '7') = false by decide, Bool.false_eq_true, if_true]
        rw [this]
        rw [Nat.mod_eq_of_lt (by omega : c.toNat < 16 ^ (1 + 1)), Nat.zero_mul, Nat.zero_add, escapedChar_toNat c (fun _ => hlt)]
        rfl
      · rename_i h
        have := hexDigits_unquote false c.toNat r 3 0
        simp only [List.cons_append, unquoteAt, simpleEscape, isOctDigit] at this ⊢
        simp only [show ¬ ('\\' = '"' ∨ '\\' = '\n') by decide, if_false, if_true]
        simp only [show ('u' = 'a') = False by decide, show ('u' = 'b') = False by decide, show ('u' = 'f') = False by decide, show ('u' = 'n') = False by decide, show ('u' = 'r') = False by decide,
          show ('u' = 't') = False by decide, show ('u' = 'v') = False by decide, show ('u' = '\\') = False by decide, show ('u' = '"') = False by decide, if_false,
          show ('0' ≤ 'u' && 'u' ≤ '7') = false by decide, Bool.false_eq_true, if_true, show ('u' = 'x') = False by decide]
        rw [this]
        rw [Nat.mod_eq_of_lt (by omega : c.toNat < 16 ^ (3 + 1)), Nat.zero_mul, Nat.zero_add, escapedChar_toNat c (by simp)]
        rfl
      · have := hexDigits_unquote false c.toNat r 7 0
        simp only [List.cons_append, unquoteAt, simpleEscape, isOctDigit] at this ⊢
        simp only [show ¬ ('\\' = '"' ∨ '\\' = '\n') by decide, if_false, if_true]
        simp only [show ('U' = 'a') = False by decide, show ('U' = 'b') = False by decide, show ('U' = 'f') = False by decide, show ('U' = 'n') = False by decide, show ('U' = 'r') = False by decide,
          show ('U' = 't') = False by decide, show ('U' = 'v') = False by decide, show ('U' = '\\') = False by decide, show ('U' = '"') = False by decide, if_false,
          show ('0' ≤ 'U' && 'U' ≤ '7') = false by decide, Bool.false_eq_true, if_true, show ('U' = 'x') = False by decide, show ('U' = 'u') = False by decide]
        rw [this]
        rw [Nat.mod_eq_of_lt (char_lt c), Nat.zero_mul, Nat.zero_add, escapedChar_toNat c (by simp)]
        rfl

theorem quote_unquote (P : Printable) (s : Str) : unquote (quote P s) = some s := by
  have h : ∀ (s r : Str), unquoteAt .plain (s.flatMap (quoteChar P) ++ r) = (unquoteAt .plain r).map (s ++ ·) := by
    intro s r
    induction s with
    | nil => cases h : unquoteAt .plain r <;> simp [h]
    | cons c s ih =>
      rw [List.flatMap_cons, List.append_assoc, quoteChar_unquote, ih]
      cases unquoteAt .plain r <;> simp
  have := h s []
  rw [List.append_nil] at this
  simp only [quote, unquote, unquoteBody, List.dropLast_concat]
  rw [this]
  simp [unquoteAt]

theorem hexDigits_skip (n : Nat) (r : Str) : ∀ k : Nat, skipStringAt (.digits true k) (hexDigits (k + 1) n ++ r) = skipStringAt .plain r
  | 0 => by
    have hd := (hexDigit_char (Nat.mod_lt (n / 16 ^ 0) (by omega : 16 > 0))).1
    simp only [hexDigits, List.cons_append, List.nil_append, skipStringAt, isEscDigit, if_true, hd]
  | k + 1 => by
    have hd := (hexDigit_char (Nat.mod_lt (n / 16 ^ (k + 1)) (by omega : 16 > 0))).1
    rw [hexDigits, List.cons_append, skipStringAt]
    simp only [isEscDigit, if_true, hd]
    exact hexDigits_skip n r k

theorem quoteChar_skip (P : Printable) (c : Char) (r : Str) : skipStringAt .plain (quoteChar P c ++ r) = skipStringAt .plain r := by
  unfold quoteChar
  split
  · rename_i h
    rcases h with rfl | rfl <;> simp [skipStringAt, simpleEscape]
  · rename_i hq
    split
    · rename_i hp
      have h1 : ¬ c = '"' := fun h => hq (.inl h)
      have h2 : ¬ c = '\\' := fun h => hq (.inr h)
      simp [skipStringAt, h1, h2, printable_not P hp]
    · repeat' split
      all_goals first | (subst_vars; simp [skipStringAt, simpleEscape]; done) | skip
      · simp only [List.cons_append, skipStringAt, simpleEscape]
        simpa [isOctDigit] using hexDigits_skip c.toNat r 1
      · simp only [List.cons_append, skipStringAt, simpleEscape]
        simpa [isOctDigit] using hexDigits_skip c.toNat r 3
      · simp only [List.cons_append, skipStringAt, simpleEscape]
        simpa [isOctDigit] using hexDigits_skip c.toNat r 7

/-- **C72** (literals): the literal written for a text denotes this text, and ends where it should. -/
theorem C72_quote (P : Printable) (s : Str) : Denotes (quote P s) s := by
  refine ⟨quote_unquote P s, _, rfl, ?_⟩
  intro rest
  induction s with
  | nil => simp [skipStringAt]
  | cons c s ih =>
    rw [List.flatMap_cons, List.append_assoc, List.append_assoc, quoteChar_skip, ← List.append_assoc]
    exact ih

/-- Non-vacuity: a text with quotes, line ends and characters that are not ASCII. -/
example : quote .onlyAscii "a \"b\"\n\tÿ世".toList = "\"a \\\"b\\\"\\n\\t\\u00ff\\u4e16\"".toList := by decide +kernel

/-! ## Summary and details -/

theorem splitTwo_none {c : Char} {s : Str} (h : (splitTwo c s).2 = none) : (splitTwo c s).1 = s ∧ c ∉ s := by
  unfold splitTwo at h ⊢
  cases hc : Text.cut c s with
  | none => rw [hc] at h; exact ⟨rfl, Text.cut_none.1 hc⟩
  | some p => rw [hc] at h; simp at h

theorem splitTwo_some {c : Char} {s r : Str} (h : (splitTwo c s).2 = some r) : s = (splitTwo c s).1 ++ c :: r ∧ c ∉ (splitTwo c s).1 := by
  unfold splitTwo at h ⊢
  cases hc : Text.cut c s with
  | none => rw [hc] at h; simp at h
  | some p =>
    obtain ⟨a, b⟩ := p
    rw [hc] at h
    simp only [Option.some.injEq] at h
    subst h
    exact Text.cut_some.1 hc

theorem firstLine (doc : Str) : FirstLine doc (splitTwo '\n' doc).1 (splitTwo '\n' doc).2 := by
  cases h : (splitTwo '\n' doc).2 with
  | none =>
    obtain ⟨h1, h2⟩ := splitTwo_none h
    rw [h1]
    exact .only h2
  | some r =>
    obtain ⟨h1, h2⟩ := splitTwo_some h
    have := FirstLine.more (r := r) h2
    rwa [← h1] at this

theorem append_inj_of_notMem {c : Char} : ∀ {a a' b b' : Str}, c ∉ a → c ∉ a' → a ++ c :: b = a' ++ c :: b' → a = a' ∧ b = b'
  | [], [], _, _, _, _, h => ⟨rfl, by simpa using h⟩
  | [], x :: a', _, _, _, h', h => by
    simp only [List.nil_append, List.cons_append, List.cons.injEq] at h
    exact absurd (h.1 ▸ List.mem_cons_self) h'
  | x :: a, [], _, _, h', _, h => by
    simp only [List.nil_append, List.cons_append, List.cons.injEq] at h
    exact absurd (h.1 ▸ List.mem_cons_self) h'
  | x :: a, y :: a', b, b', h1, h2, h => by
    simp only [List.cons_append, List.cons.injEq] at h
    obtain ⟨rfl, h⟩ := h
    obtain ⟨rfl, e⟩ := append_inj_of_notMem (fun h => h1 (List.mem_cons_of_mem _ h)) (fun h => h2 (List.mem_cons_of_mem _ h)) h
    exact ⟨rfl, e⟩

/-- **C72** (summary): the summary is the first line of the documentation, without the name if the line begins with it. -/
theorem C72_summary {name : Str} (hn : ' ' ∉ name) (doc : Str) : Summary name doc (godocToDetails name doc).1 := by
  have hl := firstLine doc
  unfold godocToDetails
  simp only
  split
  · rename_i hw
    cases h : (splitTwo ' ' (splitTwo '\n' doc).1).2 with
    | none =>
      obtain ⟨h1, _⟩ := splitTwo_none h
      rw [← h1, hw] at hl
      exact .name hl
    | some r =>
      obtain ⟨h1, _⟩ := splitTwo_some h
      rw [hw] at h1
      rw [h1] at hl
      exact .named hl
  · rename_i hw
    refine .plain hl ?_ ?_
    · intro e
      apply hw
      rw [e]
      unfold splitTwo
      rw [Text.cut_none.2 hn]
    · intro text e
      apply hw
      rw [e]
      unfold splitTwo
      rw [Text.cut_append hn]

theorem trimSpace_split (s : Str) : ∃ pre post, s = pre ++ Doc.trimSpace s ++ post ∧ (∀ c ∈ pre ++ post, Doc.isSpace c) := by
  have hr : ∀ s : Str, ∃ post, s = Doc.trimRight Doc.isSpace s ++ post ∧ ∀ c ∈ post, Doc.isSpace c := by
    intro s
    induction s with
    | nil => exact ⟨[], rfl, by simp⟩
    | cons c s ih =>
      obtain ⟨post, e, hp⟩ := ih
      rw [Doc.trimRight]
      split
      · rename_i h0
        have := Doc.trimRight_nil.1 h0
        split
        · rename_i hc
          exact ⟨c :: s, rfl, by simpa [hc] using this⟩
        · exact ⟨s, rfl, this⟩
      · exact ⟨post, by rw [List.cons_append, ← e], hp⟩
  obtain ⟨post, e, hp⟩ := hr (s.dropWhile Doc.isSpace)
  refine ⟨s.takeWhile Doc.isSpace, post, ?_, ?_⟩
  · unfold Doc.trimSpace
    rw [List.append_assoc, ← e, List.takeWhile_append_dropWhile]
  · intro c hc
    rcases List.mem_append.1 hc with h | h
    · have := List.all_takeWhile (p := Doc.isSpace) (l := s)
      exact List.all_eq_true.1 this c h
    · exact hp c h

theorem trimSpace_head {s : Str} {c : Char} (h : (Doc.trimSpace s).head? = some c) : ¬ Doc.isSpace c := by
  have h := Doc.head_trimRight h
  have := List.head?_dropWhile_not Doc.isSpace s
  rw [h] at this
  simpa using this

theorem trimRight_last (p : Char → Bool) (s : Str) {c : Char} (h : (Doc.trimRight p s).getLast? = some c) : p c = false := by
  induction s with
  | nil => cases h
  | cons a s ih =>
    rw [Doc.trimRight] at h
    split at h
    · split at h
      · cases h
      · rename_i hc
        simp only [List.getLast?_singleton, Option.some.injEq] at h
        subst h
        simpa using hc
    · rename_i hne
      cases ht : Doc.trimRight p s with
      | nil => exact absurd ht hne
      | cons x y =>
        rw [ht, List.getLast?_cons_cons] at h
        rw [ht] at ih
        exact ih h

/-- **C72** (details): the details are the lines after the first, without white space around them. -/
theorem C72_details (name doc : Str) : Details doc (godocToDetails name doc).2 := by
  have hl := firstLine doc
  unfold godocToDetails
  simp only
  cases h : (splitTwo '\n' doc).2 with
  | none => rw [h] at hl; exact .none hl
  | some r =>
    rw [h] at hl
    obtain ⟨pre, post, e, hp⟩ := trimSpace_split r
    exact .lines (e ▸ hl) hp (fun c hc => trimSpace_head hc) (fun c hc => by simp [trimRight_last _ _ hc])

/-- Summary and details are determined by the documentation. -/
theorem FirstLine.unique {doc l l' : Str} {r r' : Option Str} (h : FirstLine doc l r) (h' : FirstLine doc l' r') : l = l' ∧ r = r' := by
  cases h with
  | only hl =>
    cases h' with
    | only _ => exact ⟨rfl, rfl⟩
    | more hl' => exact absurd (by simp) hl
  | more hl =>
    generalize hd : l ++ '\n' :: _ = d at h'
    cases h' with
    | only hl' => exact absurd (hd ▸ by simp) hl'
    | more hl' =>
      obtain ⟨rfl, rfl⟩ := append_inj_of_notMem hl hl' hd
      exact ⟨rfl, rfl⟩

theorem Summary.unique {name doc s s' : Str} (h : Summary name doc s) (h' : Summary name doc s') : s = s' := by
  cases h with
  | name h1 =>
    cases h' with
    | name _ => rfl
    | named h2 => have := (FirstLine.unique h1 h2).1; exact absurd (congrArg List.length this) (by simp)
    | plain h2 hn _ => exact absurd (FirstLine.unique h1 h2).1.symm hn
  | named h1 =>
    cases h' with
    | name h2 => have := (FirstLine.unique h1 h2).1; exact absurd (congrArg List.length this) (by simp)
    | named h2 => have := (FirstLine.unique h1 h2).1; simpa using this
    | plain h2 _ hn => exact absurd (FirstLine.unique h1 h2).1.symm (hn _)
  | plain h1 hn hn' =>
    cases h' with
    | name h2 => exact absurd (FirstLine.unique h1 h2).1 hn
    | named h2 => exact absurd (FirstLine.unique h1 h2).1 (hn' _)
    | plain h2 _ _ => exact (FirstLine.unique h1 h2).1

/-- Non-vacuity. -/
example : godocToDetails "Maximum".toList "Maximum specifies the largest value.\n\n It is inclusive.\n".toList = ("specifies the largest value.".toList, "It is inclusive.".toList) := by decide +kernel

/-! ## Methods -/

/-- Names are identifiers, or empty for embedded fields. -/
def Names (t : TypeInfo) : Prop := t.name ≠ "" ∧ ' ' ∉ t.name.toList ∧ ∀ f ∈ t.fields, ∀ ns, f.names = some ns → ∀ n ∈ ns, ' ' ∉ n

theorem mem_fieldInfos {t : TypeInfo} {f : FieldInfo} : f ∈ fieldInfos t.fields ↔ HasField t f.name f.doc := by
  simp only [fieldInfos, List.mem_flatMap, HasField]
  constructor
  · rintro ⟨s, hs, hf⟩
    refine ⟨s, hs, ?_⟩
    cases hn : s.names with
    | none => rw [hn] at hf; simp only [List.mem_singleton] at hf; subst hf; exact ⟨rfl, .inr ⟨rfl, rfl⟩⟩
    | some ns =>
      rw [hn] at hf
      simp only [List.mem_map] at hf
      obtain ⟨n, hn', rfl⟩ := hf
      exact ⟨rfl, .inl ⟨ns, rfl, hn'⟩⟩
  · rintro ⟨s, hs, hd, ⟨ns, hns, hn⟩ | ⟨hns, hn⟩⟩
    · exact ⟨s, hs, by rw [hns]; exact List.mem_map.2 ⟨_, hn, by rw [hd]⟩⟩
    · exact ⟨s, hs, by rw [hns, List.mem_singleton, hd, ← hn]⟩

theorem helpLit_says (P : Printable) {t : TypeInfo} (hn : Names t) (c : Str) : Says (helpLit P t c) t c := by
  have key : ∀ name doc, HasField t name doc → FieldSays ⟨quote P name, quote P (godocToDetails name doc).1, quote P (godocToDetails name doc).2⟩ name doc := by
    intro name doc hf
    have hs : ' ' ∉ name := by
      obtain ⟨f, hf, _, ⟨ns, hns, hm⟩ | ⟨_, rfl⟩⟩ := hf
      · exact hn.2.2 f hf ns hns name hm
      · simp
    exact ⟨C72_quote P _, _, _, C72_summary hs doc, C72_details name doc, C72_quote P _, C72_quote P _⟩
  refine ⟨rfl, C72_quote P c, ⟨_, _, C72_summary hn.2.1 t.doc, C72_details t.name.toList t.doc, C72_quote P _, C72_quote P _⟩, ?_, ?_⟩
  · intro e he
    obtain ⟨f, hf, rfl⟩ := List.mem_map.1 he
    exact ⟨f.name, f.doc, mem_fieldInfos.1 hf, key _ _ (mem_fieldInfos.1 hf)⟩
  · intro name doc hf
    exact ⟨_, List.mem_map.2 ⟨⟨name, doc⟩, mem_fieldInfos.2 hf, rfl⟩, key _ _ hf⟩

theorem byType_wf (P : Printable) : ∀ (ts : List TypeInfo) (m : List (String × HelpLit)), WF m → WF (byType P ts m)
  | [], _, h => h
  | t :: ts, m, h => by
    rw [byType]
    split
    · exact byType_wf P ts m h
    · exact byType_wf P ts _ (put_wf h _ _)

theorem get_byType_other (P : Printable) {n : String} : ∀ (ts : List TypeInfo) (m : List (String × HelpLit)), n ∉ ts.map (·.name) → GoMap.get (byType P ts m) n = GoMap.get m n
  | [], _, _ => rfl
  | t :: ts, m, h => by
    simp only [List.map_cons, List.mem_cons, not_or] at h
    rw [byType]
    split
    · exact get_byType_other P ts m h.2
    · rw [get_byType_other P ts _ h.2, get_put, if_neg h.1]

theorem get_byType (P : Printable) {h : HelpLit} {n : String} : ∀ (ts : List TypeInfo) (m : List (String × HelpLit)), (ts.map (·.name)).Nodup → (∀ t ∈ ts, GoMap.get m t.name = none) →
    (GoMap.get (byType P ts m) n = some h ↔ GoMap.get m n = some h ∨ ∃ t ∈ ts, ∃ c, t.category = some c ∧ t.name = n ∧ h = helpLit P t c)
  | [], m, _, _ => by simp [byType]
  | t :: ts, m, hn, hm => by
    simp only [List.map_cons, List.nodup_cons] at hn
    rw [byType]
    cases hc : t.category with
    | none =>
      simp only
      rw [get_byType P ts m hn.2 fun t ht => hm t (List.mem_cons_of_mem _ ht)]
      simp [hc]
    | some c =>
      simp only
      rw [get_byType P ts _ hn.2, get_put]
      · simp only [List.mem_cons, exists_eq_or_imp, hc, Option.some.injEq]
        by_cases e : n = t.name
        · subst e
          have := hm t List.mem_cons_self
          simp only [if_true, this]
          constructor
          · rintro (h | h)
            · exact .inr (.inl ⟨c, rfl, ⟨⟩, by simpa using h.symm⟩)
            · exact .inr (.inr h)
          · rintro (h | ⟨c', rfl, _, rfl⟩ | h)
            · cases h
            · exact .inl rfl
            · exact .inr h
        · rw [if_neg e]
          constructor
          · rintro (h | h)
            · exact .inl h
            · exact .inr (.inr h)
          · rintro (h | ⟨c', _, e', _⟩ | h)
            · exact .inl h
            · exact absurd e'.symm e
            · exact .inr h
      · intro t' ht'
        rw [get_put, if_neg]
        · exact hm t' (List.mem_cons_of_mem _ ht')
        · intro e
          exact hn.1 (e ▸ List.mem_map_of_mem ht')

theorem mem_keys_byType (P : Printable) {types : List TypeInfo} (hn : (types.map (·.name)).Nodup) {n : String} :
    n ∈ keys (byType P types []) ↔ ∃ t ∈ types, t.category ≠ none ∧ t.name = n := by
  have hw := byType_wf P types [] (by simp [WF, keys])
  constructor
  · intro h
    obtain ⟨v, hv⟩ := mem_keys.1 h
    rcases (get_byType P types [] hn (by simp [GoMap.get])).1 ((get_eq_some hw).2 hv) with h | ⟨t, ht, c, hc, rfl, _⟩
    · simp [GoMap.get] at h
    · exact ⟨t, ht, by simp [hc], rfl⟩
  · rintro ⟨t, ht, hc, rfl⟩
    obtain ⟨c, hc⟩ := Option.ne_none_iff_exists'.1 hc
    exact mem_keys.2 ⟨_, (get_eq_some hw).1 ((get_byType P types [] hn (by simp [GoMap.get])).2 (.inr ⟨t, ht, c, hc, rfl, rfl⟩))⟩

theorem byType_empty (P : Printable) {types : List TypeInfo} (hn : (types.map (·.name)).Nodup) : (byType P types []).length = 0 ↔ ∀ t ∈ types, t.category = none := by
  rw [List.length_eq_zero_iff]
  constructor
  · intro h t ht
    apply Classical.byContradiction
    intro hc
    have := (mem_keys_byType P hn).2 ⟨t, ht, hc, rfl⟩
    rw [h] at this
    simp [keys] at this
  · intro h
    cases he : byType P types [] with
    | nil => rfl
    | cons e m =>
      obtain ⟨t, ht, hc, _⟩ := (mem_keys_byType P hn (n := e.1)).1 (by rw [he]; simp [keys])
      exact absurd (h t ht) hc

/-- **C72** (no file): nothing is written for packages in which no type has the marker. -/
theorem C72_nothing (P : Printable) (σ : Sched) (header : Str) (pkg : String) {types : List TypeInfo} (hn : (types.map (·.name)).Nodup) :
    generateFor P σ header pkg types = .nothing ↔ ∀ t ∈ types, t.category = none := by
  rw [← byType_empty P hn]
  unfold generateFor
  simp only
  split
  · rename_i h; simp [h]
  · rename_i h
    split <;> simp [h]

/-! ## Tokens -/

theorem Tokens.space {ws s : Str} {ts : List Str} (hw : ∀ c ∈ ws, c ∈ [' ', '\n', '\t']) (h : Tokens s ts) : Tokens (ws ++ s) ts := by
  cases h with
  | nil h => exact .nil fun c hc => (List.mem_append.1 hc).elim (hw c) (h c)
  | cons h hne ht =>
    rw [← List.append_assoc, ← List.append_assoc]
    exact .cons (fun c hc => (List.mem_append.1 hc).elim (hw c) (h c)) hne ht

theorem Tokens.append {s s' : Str} {ts ts' : List Str} (h : Tokens s ts) (h' : Tokens s' ts') : Tokens (s ++ s') (ts ++ ts') := by
  induction h with
  | nil hw => exact Tokens.space hw h'
  | cons hw hne _ ih =>
    rw [List.append_assoc]
    exact .cons hw hne ih

theorem Tokens.one {t : Str} (h : t ≠ []) : Tokens t [t] := by
  have := Tokens.cons (ws := []) (by simp) h (.nil (ws := []) (by simp))
  simpa using this

/-- Reads tokens from a text. -/
def readTokens : Nat → Str → List Str → Bool
  | 0, _, _ => false
  | n + 1, s, ts =>
    match s, ts with
    | [], [] => true
    | c :: s, ts =>
      if c ∈ [' ', '\n', '\t'] then readTokens n s ts
      else match ts with
        | [] => false
        | t :: ts => t ≠ [] && t.isPrefixOf (c :: s) && readTokens n ((c :: s).drop t.length) ts
    | [], _ :: _ => false

theorem readTokens_sound : ∀ (n : Nat) (s : Str) (ts : List Str), readTokens n s ts = true → Tokens s ts
  | 0, _, _, h => by simp [readTokens] at h
  | n + 1, [], [], _ => .nil (by simp)
  | n + 1, [], _ :: _, h => by simp [readTokens] at h
  | n + 1, c :: s, ts, h => by
    unfold readTokens at h
    simp only at h
    split at h
    · rename_i hc
      exact Tokens.space (ws := [c]) (by simpa using hc) (readTokens_sound n s ts h)
    · cases ts with
      | nil => cases h
      | cons t ts =>
        simp only [Bool.and_eq_true, decide_eq_true_eq] at h
        obtain ⟨⟨h1, h2⟩, h3⟩ := h
        obtain ⟨r, hr⟩ := List.isPrefixOf_iff_prefix.1 h2
        have := readTokens_sound n _ ts h3
        rw [← hr, List.drop_left] at this
        rw [← hr]
        have := Tokens.cons (ws := []) (by simp) h1 this
        simpa using this

theorem quote_ne (P : Printable) (s : Str) : quote P s ≠ [] := by simp [quote]

/-- The literals are not empty. -/
def FieldLit.Nonempty (e : FieldLit) : Prop := e.name ≠ [] ∧ e.summary ≠ [] ∧ e.details ≠ []

theorem entry_tokens {e : FieldLit} (h : e.Nonempty) : Tokens e.text (entryTokens e) := by
  unfold FieldLit.text entryTokens
  refine Tokens.append (Tokens.append (Tokens.append (Tokens.append (Tokens.append (Tokens.one h.1) ?_) (Tokens.one h.2.1)) ?_) (Tokens.one h.2.2)) ?_
  all_goals exact readTokens_sound 100 _ _ (by decide +kernel)

theorem flatMap_tokens {α : Type} {f : α → Str} {g : α → List Str} : ∀ {l : List α}, (∀ x ∈ l, Tokens (f x) (g x)) → Tokens (l.flatMap f) (l.flatMap g)
  | [], _ => .nil (by simp)
  | x :: l, h => by
    rw [List.flatMap_cons, List.flatMap_cons]
    exact Tokens.append (h x List.mem_cons_self) (flatMap_tokens fun y hy => h y (List.mem_cons_of_mem _ hy))

theorem method_tokens {h : HelpLit} (ht : h.type.toList ≠ []) (hc : h.category ≠ []) (hs : h.summary ≠ []) (hd : h.details ≠ []) (hf : ∀ e ∈ h.fields, e.Nonempty) : Tokens h.text (methodTokens h) := by
  unfold HelpLit.text methodTokens
  refine Tokens.append (Tokens.append (Tokens.append (Tokens.append (Tokens.append (Tokens.append (Tokens.append (Tokens.append (Tokens.append (Tokens.append ?_ (Tokens.one ht)) ?_) (Tokens.one hc)) ?_)
    (Tokens.one hs)) ?_) (Tokens.one hd)) ?_) (flatMap_tokens fun e he => entry_tokens (hf e he))) ?_
  all_goals exact readTokens_sound 300 _ _ (by decide +kernel)

theorem helpLit_tokens (P : Printable) {t : TypeInfo} (ht : t.name ≠ "") (c : Str) : Tokens (helpLit P t c).text (methodTokens (helpLit P t c)) := by
  refine method_tokens (fun h => ht (String.toList_eq_nil_iff.1 h)) (quote_ne P _) (quote_ne P _) (quote_ne P _) fun e he => ?_
  obtain ⟨f, _, rfl⟩ := List.mem_map.1 he
  exact ⟨quote_ne P _, quote_ne P _, quote_ne P _⟩

theorem file_text {pkg : String} (hp : pkg ≠ "") (header : Str) {methods : List HelpLit} (hm : ∀ h ∈ methods, Tokens h.text (methodTokens h)) :
    FileText pkg header methods (headerBlock pkg header ++ methods.flatMap fun h => h.text ++ ['\n']) := by
  refine ⟨"\npackage ".toList ++ pkg.toList ++ "\n\nimport (\n\t\"sigs.k8s.io/controller-tools/pkg/markers\"\n)\n\n".toList ++ methods.flatMap fun h => h.text ++ ['\n'], ?_, ?_⟩
  · unfold headerBlock
    have : "\n\n// Code generated by helpgen. DO NOT EDIT.\n\npackage ".toList = "\n\n// Code generated by helpgen. DO NOT EDIT.\n".toList ++ "\npackage ".toList := by decide +kernel
    rw [this]
    simp only [List.append_assoc]
  · have e : toks ["package", pkg, "import", "(", "\"sigs.k8s.io/controller-tools/pkg/markers\"", ")"] = toks ["package"] ++ [pkg.toList] ++ toks ["import", "(", "\"sigs.k8s.io/controller-tools/pkg/markers\"", ")"] := rfl
    rw [e]
    refine Tokens.append (Tokens.append (Tokens.append ?_ (Tokens.one fun h => hp (String.toList_eq_nil_iff.1 h))) ?_) (flatMap_tokens fun h hh => ?_)
    · exact readTokens_sound 100 _ _ (by decide +kernel)
    · exact readTokens_sound 300 _ _ (by decide +kernel)
    · have := Tokens.append (hm h hh) (.nil (ws := ['\n']) (by simp))
      rwa [List.append_nil] at this

/-- **C72** (the file): there is one method for each type with the marker and for no other, in the order of the names of the types, and it says what the documentation of the type and of its fields says. -/
theorem C72_file_partial (P : Printable) (σ : Sched) {header : Str} (hh : header ≠ []) {pkg : String} (hp : pkg ≠ "") {types : List TypeInfo} (hn : (types.map (·.name)).Nodup) (hid : ∀ t ∈ types, Names t)
    (hsome : ∃ t ∈ types, t.category ≠ none) :
    ∃ methods text, generateFor P σ header pkg types = .file methods text ∧ (methods.map (·.type)).Pairwise (· < ·) ∧
      (∀ h ∈ methods, ∃ t ∈ types, ∃ c, t.category = some c ∧ Says h t c) ∧ (∀ t ∈ types, ∀ c, t.category = some c → ∃ h ∈ methods, Says h t c) ∧
      FileText pkg header methods text := by
  have hw := byType_wf P types [] (by simp [WF, keys])
  have hne : ¬ (byType P types []).length = 0 := by
    rw [byType_empty P hn]
    obtain ⟨t, ht, hc⟩ := hsome
    exact fun h => hc (h t ht)
  have hg := fun n h => get_byType P (h := h) (n := n) types [] hn (by simp [GoMap.get])
  have hg : ∀ n h, GoMap.get (byType P types []) n = some h ↔ ∃ t ∈ types, ∃ c, t.category = some c ∧ t.name = n ∧ h = helpLit P t c := fun n h => by
    have := hg n h
    simpa [GoMap.get] using this
  refine ⟨_, _, by unfold generateFor; simp only; rw [if_neg hne, if_neg hh], ?_, ?_, ?_, file_text hp header fun h hm => ?_⟩
  · have hmap : ((sortStrings (σ.order 0 (keys (byType P types [])))).filterMap (GoMap.get (byType P types []))).map (·.type) = sortStrings (σ.order 0 (keys (byType P types []))) := by
      have : ∀ l : List String, (∀ n ∈ l, n ∈ keys (byType P types [])) → (l.filterMap (GoMap.get (byType P types []))).map (·.type) = l := by
        intro l hl
        induction l with
        | nil => rfl
        | cons n l ih =>
          obtain ⟨v, hv⟩ := mem_keys.1 (hl n List.mem_cons_self)
          have hv := (get_eq_some hw).2 hv
          obtain ⟨t, _, c, _, rfl, rfl⟩ := (hg _ _).1 hv
          rw [List.filterMap_cons, hv]
          simp only [List.map_cons]
          rw [ih fun n hn => hl n (List.mem_cons_of_mem _ hn)]
          rfl
      refine this _ fun n h => ?_
      exact (Sched.mem_order σ 0 _ n).1 (mem_sortBy.1 h)
    rw [hmap]
    have hs : (sortStrings (σ.order 0 (keys (byType P types [])))).Pairwise (fun a b => strLe a b = true) := sortBy_pairwise strLe_trans strLe_total _
    have hnd : (sortStrings (σ.order 0 (keys (byType P types [])))).Nodup := nodup_sortBy.2 ((Sched.nodup_order σ 0 _).2 hw)
    exact (hs.and hnd).imp fun h => strLt_iff.2 h
  · intro h hm
    obtain ⟨n, _, hn'⟩ := List.mem_filterMap.1 hm
    obtain ⟨t, ht, c, hc, _, rfl⟩ := (hg _ _).1 hn'
    exact ⟨t, ht, c, hc, helpLit_says P (hid t ht) c⟩
  · intro t ht c hc
    refine ⟨helpLit P t c, List.mem_filterMap.2 ⟨t.name, ?_, (hg _ _).2 ⟨t, ht, c, hc, rfl, rfl⟩⟩, helpLit_says P (hid t ht) c⟩
    refine mem_sortBy.2 ((Sched.mem_order σ 0 _ _).2 ((mem_keys_byType P hn).2 ⟨t, ht, by simp [hc], rfl⟩))
  · obtain ⟨n, _, hn'⟩ := List.mem_filterMap.1 hm
    obtain ⟨t, ht, c, hc, _, rfl⟩ := (hg _ _).1 hn'
    exact helpLit_tokens P (hid t ht).1 c

/-- **C72** (order): what is written does not depend on the order in which maps are iterated. -/
theorem C72_order (P : Printable) (σ σ' : Sched) (header : Str) (pkg : String) (types : List TypeInfo) : generateFor P σ header pkg types = generateFor P σ' header pkg types := by
  unfold generateFor
  simp only
  rw [sortStrings_perm_eq ((σ.perm 0 (keys (byType P types []))).trans (σ'.perm 0 _).symm)]

theorem quote_inj (P : Printable) {a b : Str} (h : quote P a = quote P b) : a = b := by
  have := quote_unquote P a
  rw [h, quote_unquote P b] at this
  exact (Option.some.inj this).symm

/-- **C72** (it compiles): the keys of `FieldHelp` are distinct if the names of fields are, which excludes two embedded fields and two fields `_`. -/
theorem C72_keys_partial (P : Printable) (t : TypeInfo) (c : Str) (hn : ((fieldInfos t.fields).map (·.name)).Nodup) : ((helpLit P t c).fields.map (·.name)).Nodup := by
  have : (helpLit P t c).fields.map (·.name) = ((fieldInfos t.fields).map (·.name)).map (quote P) := by
    simp [helpLit, Function.comp_def]
  rw [this]
  exact List.Pairwise.map _ (fun a b hab h => hab (quote_inj P h)) hn

/-! ## Examples -/

namespace Example

def maximum : TypeInfo where
  name := "Maximum"
  doc := "Maximum is the largest value.\n\nIt is inclusive.".toList
  category := some "CRD validation".toList
  fields := []

def rule : TypeInfo where
  name := "Rule"
  doc := "specifies a \"rule\".".toList
  category := some "RBAC".toList
  fields := [⟨some ["Groups".toList, "Verbs".toList], "Groups of the API.\n".toList⟩, ⟨none, []⟩]

def plain : TypeInfo where
  name := "Plain"
  doc := []
  category := none
  fields := []

/-- The methods for these types. -/
def methods : List HelpLit := [helpLit .onlyAscii maximum "CRD validation".toList, helpLit .onlyAscii rule "RBAC".toList]

/-- Non-vacuity of `C72_file_partial`. -/
example : generateFor .onlyAscii .lifo "// H".toList "v1" [rule, plain, maximum] = .file methods (headerBlock "v1" "// H".toList ++ methods.flatMap fun h => h.text ++ ['\n']) ∧ methods.map (·.type) = ["Maximum", "Rule"] ∧
    methods.map (·.summary) = ["\"is the largest value.\"".toList, "\"specifies a \\\"rule\\\".\"".toList] ∧
    methods.flatMap (fun h => h.fields.map (·.name)) = ["\"Groups\"".toList, "\"Verbs\"".toList, "\"\"".toList] :=
  ⟨by decide +kernel, by decide +kernel, by decide +kernel, by decide +kernel⟩

/-- Violation of C72: `headerFile` is optional, but without it (or with an empty file) helpgen panics in the first package with the marker (main.go:158-160). -/
theorem C72_violated_header (σ : Sched) (read : Str → Option Str) :
    (Genall.helpgenHeader read [] "2024".toList).map (fun header => generateFor .onlyAscii σ header "v1" [maximum]) = some .panic := by
  simp only [C72_order _ σ .fifo]
  have : Genall.helpgenHeader read [] "2024".toList = some [] := by
    unfold Genall.helpgenHeader
    simp [Genall.replaceAll, Genall.replaceFrom]
  rw [this]
  decide +kernel

/-- Violation of C72: a type with two embedded fields (or two fields `_`) gets a map literal with one key twice, which does not compile. -/
theorem C72_violated_embedded : ∃ t : TypeInfo, Names t ∧ ¬ ((helpLit .onlyAscii t []).fields.map (·.name)).Nodup := by
  refine ⟨⟨"T", [], some [], [⟨none, "A".toList⟩, ⟨none, "B".toList⟩]⟩, ⟨by decide, by decide, by simp⟩, by decide +kernel⟩

end Example

end Verif.Helpgen
