import Verif.Desc.Model
import Verif.Desc.Spec
/-!
# Properties C11, C12: description truncation
-/
namespace Verif.Desc
open Crd Spec

/-! ## The last-index search -/

theorem decodeLast_pos {s : Bytes} (h : s ≠ []) : 1 ≤ (decodeLastRune s).2 := by
  unfold decodeLastRune
  split
  · rename_i he; exact absurd (List.reverse_eq_nil_iff.1 he) h
  · split
    · simp
    · simp only
      split
      · rename_i hs
        rw [hs, List.length_drop]
        have : 0 < s.length := List.length_pos_iff.2 h
        omega
      · simp

theorem lastIndexAux_lt (f : Nat → Bool) : ∀ (fuel : Nat) (s : Bytes) (i : Nat),
    lastIndexFuncAux f fuel s = some i → i < s.length := by
  intro fuel
  induction fuel with
  | zero => intro s i h; cases h
  | succ fuel ih =>
    intro s i h
    unfold lastIndexFuncAux at h
    split at h
    · cases h
    · rename_i hs
      have hp := decodeLast_pos hs
      have hl : 0 < s.length := List.length_pos_iff.2 hs
      simp only at h
      split at h
      · cases h; omega
      · have := ih _ _ h
        rw [List.length_take] at this
        omega

theorem lastIndex_lt {f : Nat → Bool} {s : Bytes} {i : Nat} (h : lastIndexFunc f s = some i) : i < s.length :=
  lastIndexAux_lt f _ _ _ h

theorem decodeLast_ascii {s : Bytes} {b : UInt8} (h : b.toNat < 128) : decodeLastRune (s ++ [b]) = (b.toNat, 1) := by
  unfold decodeLastRune
  rw [List.reverse_append]
  simp [h]

theorem lastIndexAux_ascii (f : Nat → Bool) (n : Nat) : ∀ (s : Bytes), s.length = n → Ascii s →
    (∀ fuel, n ≤ fuel → lastIndexFuncAux f fuel s = lastIndexFuncAux f n s) ∧
    (∀ i, lastIndexFuncAux f n s = some i → (∃ b, s[i]? = some b ∧ f b.toNat = true) ∧
      ∀ j b, i < j → s[j]? = some b → f b.toNat = false) ∧
    (lastIndexFuncAux f n s = none → ∀ (j : Nat) b, s[j]? = some b → f b.toNat = false) := by
  induction n with
  | zero =>
    intro s hs _
    have : s = [] := List.length_eq_zero_iff.1 hs
    subst this
    refine ⟨?_, ?_, ?_⟩
    · intro fuel _; cases fuel <;> simp [lastIndexFuncAux]
    · intro i h; cases h
    · intro _ j b h; simp at h
  | succ n ih =>
    intro s hs ha
    have hne : s ≠ [] := by intro h; subst h; simp at hs
    obtain ⟨s', b, rfl⟩ : ∃ s' b, s = s' ++ [b] := ⟨s.dropLast, s.getLast hne, (List.dropLast_concat_getLast hne).symm⟩
    have hl : s'.length = n := by simpa using hs
    have hb : b.toNat < 128 := ha b (by simp)
    have ha' : Ascii s' := fun x hx => ha x (by simp [hx])
    obtain ⟨i1, i2, i3⟩ := ih s' hl ha'
    have step : ∀ fuel, lastIndexFuncAux f (fuel + 1) (s' ++ [b]) =
        if f b.toNat then some s'.length else lastIndexFuncAux f fuel s' := by
      intro fuel
      show (if s' ++ [b] = [] then none else _) = _
      rw [if_neg hne, decodeLast_ascii hb]
      simp
    have hget : ∀ j x, (s' ++ [b])[j]? = some x → (j < n ∧ s'[j]? = some x) ∨ (j = n ∧ x = b) := by
      intro j x h
      rcases Nat.lt_trichotomy j n with h' | h' | h'
      · left; rw [List.getElem?_append_left (by omega)] at h; exact ⟨h', h⟩
      · right; subst h'; rw [List.getElem?_append_right (by omega)] at h; simp [hl] at h; exact ⟨rfl, h.symm⟩
      · rw [List.getElem?_append_right (by omega)] at h
        have : j - s'.length ≠ 0 := by omega
        obtain ⟨m, hm⟩ := Nat.exists_eq_succ_of_ne_zero this
        rw [hm] at h; simp at h
    refine ⟨?_, ?_, ?_⟩
    · intro fuel hf
      obtain ⟨m, rfl⟩ : ∃ m, fuel = m + 1 := ⟨fuel - 1, by omega⟩
      rw [step, step]
      split
      · rfl
      · exact i1 m (by omega)
    · intro i h
      rw [step] at h
      split at h
      · rename_i hf
        cases h
        refine ⟨⟨b, by simp, hf⟩, ?_⟩
        intro j x hj hx
        rcases hget j x hx with ⟨h1, _⟩ | ⟨h1, _⟩ <;> omega
      · rename_i hf
        obtain ⟨⟨x, hx, hfx⟩, h2⟩ := i2 i h
        have hi := lastIndexAux_lt f _ _ _ h
        refine ⟨⟨x, by rw [List.getElem?_append_left hi]; exact hx, hfx⟩, ?_⟩
        intro j y hj hy
        rcases hget j y hy with ⟨_, h1⟩ | ⟨_, h1⟩
        · exact h2 j y hj h1
        · subst h1; simpa using hf
    · intro h j x hx
      rw [step] at h
      split at h
      · cases h
      · rename_i hf
        rcases hget j x hx with ⟨_, h1⟩ | ⟨_, h1⟩
        · exact i3 h j x h1
        · subst h1; simpa using hf

theorem lastIndex_ascii {f : Nat → Bool} {s : Bytes} (ha : Ascii s) :
    (∃ k, lastIndexFunc f s = some k ∧ 0 < k ∧ LastAt f s k) ∨
    ((∀ k, lastIndexFunc f s = some k → k = 0) ∧ NoneAt f s) := by
  obtain ⟨_, h2, h3⟩ := lastIndexAux_ascii f s.length s rfl ha
  cases h : lastIndexFunc f s with
  | none => exact .inr ⟨by simp, fun j b _ hb => h3 h j b hb⟩
  | some k =>
    obtain ⟨h4, h5⟩ := h2 k h
    by_cases hk : 0 < k
    · exact .inl ⟨k, rfl, hk, hk, h4, h5⟩
    · have : k = 0 := by omega
      subst this
      exact .inr ⟨by intro k hk; cases hk; rfl, h5⟩

/-! ## C11 -/

/-- What happens to one description. -/
def descOut (T : Tables) (maxLen : Int) (d : Bytes) : Bytes :=
  (truncateDescription T maxLen (Schema.leaf { description := d })).base.description

theorem descOut_eq (T : Tables) (n : Int) (d : Bytes) :
    descOut T n d = if n < 0 then d else (visitBase T n.toNat { description := d }).description := by
  unfold descOut truncateDescription
  split <;> rfl

theorem visitBase_eq (T : Tables) (n : Nat) (b : Base) :
    visitBase T n b = { b with description := (visitBase T n { description := b.description }).description } := by
  unfold visitBase
  split
  · rfl
  · split <;> rfl

theorem truncateString_shortened (T : Tables) (d : Bytes) (n : Nat) (h : n < d.length) :
    Shortened d n (truncateString T d n) := by
  unfold truncateString
  rw [if_neg (by omega)]
  simp only
  have hlen : (d.take n).length = n := by rw [List.length_take]; omega
  have hsp : Shortened d n (match lastIndexFunc T.whiteSpace (d.take n) with
      | some m => if m > 0 then (d.take n).take m ++ ellipsis else (d.take n).take n ++ ellipsis
      | none => (d.take n).take n ++ ellipsis) := by
    split
    · rename_i m hm
      have := lastIndex_lt hm
      split
      · exact ⟨m, by omega, .inr (by rw [List.take_take, Nat.min_eq_left (by omega)]; rfl)⟩
      · exact ⟨n, by omega, .inr (by rw [List.take_take, Nat.min_self]; rfl)⟩
    · exact ⟨n, by omega, .inr (by rw [List.take_take, Nat.min_self]; rfl)⟩
  split
  · rename_i m hm
    have := lastIndex_lt hm
    split
    · exact ⟨m + 1, by omega, .inl (by rw [List.take_take, Nat.min_eq_left (by omega)])⟩
    · exact hsp
  · exact hsp

/-- **C11** (with the bound that holds).  For every description and limit: a negative limit changes nothing, limit 0 clears, a
description within the limit is unchanged, a longer one becomes a beginning of itself of at most `maxLen` bytes, possibly followed by an
ellipsis.  Hence the result has at most `maxLen + 3` bytes.  Missing from the full property: the bound `maxLen`, which is false
(`C11_violated`). -/
theorem C11_truncate_partial (T : Tables) (d : Bytes) :
    (∀ n : Int, n < 0 → descOut T n d = d) ∧
    descOut T 0 d = [] ∧
    (∀ n : Nat, 0 < n → d.length ≤ n → descOut T n d = d) ∧
    (∀ n : Nat, 0 < n → n < d.length → Shortened d n (descOut T n d)) ∧
    (∀ n : Nat, (descOut T n d).length ≤ if n = 0 then 0 else n + 3) := by
  have hsh : ∀ n : Nat, 0 < n → n < d.length → Shortened d n (descOut T n d) := by
    intro n h0 h1
    rw [descOut_eq, if_neg (by omega)]
    simp only [visitBase, Int.toNat_natCast]
    rw [if_neg (by omega), if_pos h1]
    exact truncateString_shortened T d n h1
  have hid : ∀ n : Nat, 0 < n → d.length ≤ n → descOut T n d = d := by
    intro n h0 h1
    rw [descOut_eq, if_neg (by omega)]
    simp only [visitBase, Int.toNat_natCast]
    rw [if_neg (by omega), if_neg (by omega)]
  have h0 : descOut T 0 d = [] := by rw [descOut_eq]; rfl
  refine ⟨?_, h0, hid, hsh, ?_⟩
  · intro n hn; rw [descOut_eq, if_pos hn]
  · intro n
    by_cases hn : n = 0
    · subst hn; simp [h0]
    · rw [if_neg hn]
      by_cases hl : d.length ≤ n
      · rw [hid n (by omega) hl]; omega
      · obtain ⟨k, hk, h | h⟩ := hsh n (by omega) (by omega) <;> rw [h]
        · rw [List.length_take]; omega
        · rw [List.length_append, List.length_take]; simp; omega

/-- **C11**, exact behaviour on ASCII text: the cut is after the last sentence end, else before the last white space, else at the
limit. -/
theorem C11_ascii_exact (T : Tables) (d : Bytes) (n : Nat) (hn : 0 < n) (ha : Ascii d) :
    AsciiTruncated T.sentenceTerminal T.whiteSpace d n (descOut T n d) := by
  by_cases hl : d.length ≤ n
  · exact .inl ⟨hl, (C11_truncate_partial T d).2.2.1 n hn hl⟩
  · right
    refine ⟨by omega, ?_⟩
    have hout : descOut T n d = truncateString T d n := by
      rw [descOut_eq, if_neg (by omega)]
      simp only [visitBase, Int.toNat_natCast]
      rw [if_neg (by omega), if_pos (by omega)]
    have ha' : Ascii (d.take n) := fun b hb => ha b (List.mem_of_mem_take hb)
    have hlen : (d.take n).length = n := by rw [List.length_take]; omega
    rw [hout]
    unfold truncateString
    rw [if_neg hl]
    simp only
    rcases lastIndex_ascii (f := T.sentenceTerminal) ha' with ⟨k, hk, hk0, hkl⟩ | ⟨h1, h2⟩
    · left
      refine ⟨k, hkl, ?_⟩
      have := lastIndex_lt hk
      rw [hk]
      simp only [hk0, gt_iff_lt, if_true]
      rw [List.take_take, Nat.min_eq_left (by omega)]
    · right
      refine ⟨h2, ?_⟩
      have e : lastIndexFunc T.sentenceTerminal (d.take n) = none ∨
          lastIndexFunc T.sentenceTerminal (d.take n) = some 0 := by
        cases h : lastIndexFunc T.sentenceTerminal (d.take n) with
        | none => exact .inl rfl
        | some m => rw [h1 m h]; exact .inr rfl
      rcases lastIndex_ascii (f := T.whiteSpace) ha' with ⟨k, hk, hk0, hkl⟩ | ⟨h3, h4⟩
      · left
        refine ⟨k, hkl, ?_⟩
        have := lastIndex_lt hk
        have hk' : (if k > 0 then (d.take n).take k ++ ellipsis else (d.take n).take n ++ ellipsis) = d.take k ++ ellipsis := by
          rw [if_pos hk0, List.take_take, Nat.min_eq_left (by omega)]
        rcases e with e | e <;> rw [e, hk] <;> simp only [gt_iff_lt, Nat.lt_irrefl, if_false] <;> exact hk'
      · right
        refine ⟨h4, ?_⟩
        have hn' : (d.take n).take n ++ ellipsis = d.take n ++ ellipsis := by rw [List.take_take, Nat.min_self]
        have e' : lastIndexFunc T.whiteSpace (d.take n) = none ∨ lastIndexFunc T.whiteSpace (d.take n) = some 0 := by
          cases h : lastIndexFunc T.whiteSpace (d.take n) with
          | none => exact .inl rfl
          | some m => rw [h3 m h]; exact .inr rfl
        rcases e with e | e <;> rcases e' with e' | e' <;> rw [e, e'] <;>
          simp only [gt_iff_lt, Nat.lt_irrefl, if_false] <;> exact hn'

/-- A part of the real tables: `.`, `!`, `?` and the ideographic full stop end sentences; blanks are white space. -/
def sampleTables : Tables :=
  { sentenceTerminal := fun r => r = 46 || r = 33 || r = 63 || r = 0x3002
    whiteSpace := fun r => r = 32 || r = 10 || r = 9 }

/-- "Hello world. And so on" cut at 15 gives "Hello world.": the hypotheses of `C11_ascii_exact` are met. -/
example : descOut sampleTables 15 "Hello world. And so on".toUTF8.toList = "Hello world.".toUTF8.toList := by decide +kernel
example : descOut sampleTables 13 "Hello there world".toUTF8.toList = "Hello there...".toUTF8.toList := by decide +kernel
example : Ascii "Hello world. And so on".toUTF8.toList := by unfold Ascii; decide +kernel

/-- **C11 is violated**: with limit 3 the description `abcdef` becomes `abc...`, six bytes. -/
theorem C11_violated : ∃ (d : Bytes) (n : Nat), n < (descOut sampleTables n d).length ∧ 0 < n :=
  ⟨"abcdef".toUTF8.toList, 3, by decide +kernel⟩

/-- The bytes are the UTF-8 encoding of some text. -/
def ValidText (d : Bytes) : Prop := ∃ t : String, t.toUTF8.data.toList = d

/-- Truncation may turn valid text into bytes that are no text at all, both by cutting at the limit and by keeping only the first
byte of a multi-byte sentence end. -/
theorem C49_violated :
    (∃ d, ∃ n : Nat, ValidText d ∧ descOut sampleTables n d = [0xC3, 46, 46, 46]) ∧
    (∃ d, ∃ n : Nat, ValidText d ∧ descOut sampleTables n d = [97, 98, 0xE3]) ∧
    ¬ ValidText [0xC3, 46, 46, 46] ∧ ¬ ValidText [97, 98, 0xE3] := by
  have key : ∀ d : Bytes, (ByteArray.mk d.toArray).validateUTF8 = false → ¬ ValidText d := by
    rintro d hd ⟨t, ht⟩
    have h1 : ByteArray.mk d.toArray = t.toUTF8 := by
      rw [← ht]
    rw [h1] at hd
    have := t.isValidUTF8
    rw [← ByteArray.validateUTF8_eq_true_iff] at this
    simp_all
  refine ⟨⟨_, 1, ⟨"\u00e9", rfl⟩, by decide +kernel⟩, ⟨_, 6, ⟨"ab\u3002cd", rfl⟩, by decide +kernel⟩, key _ ?_, key _ ?_⟩
  · decide +kernel
  · decide +kernel

/-- **C49** (guarded): ASCII text stays ASCII, hence valid.  Missing: text with multi-byte characters, where it is false
(`C49_violated`). -/
theorem C49_ascii_partial (T : Tables) (n : Int) (d : Bytes) (h : Ascii d) : Ascii (descOut T n d) := by
  obtain ⟨h1, h2, h3, h4, -⟩ := C11_truncate_partial T d
  rcases Int.lt_or_le n 0 with hn | hn
  · rw [h1 n hn]; exact h
  · obtain ⟨m, rfl⟩ := Int.eq_ofNat_of_zero_le hn
    rcases Nat.eq_zero_or_pos m with rfl | hm
    · show Ascii (descOut T 0 d); rw [h2]; intro b hb; cases hb
    · by_cases hl : d.length ≤ m
      · rw [h3 m hm hl]; exact h
      · obtain ⟨k, -, e | e⟩ := h4 m hm (by omega)
        · rw [e]; exact fun b hb => h b (List.mem_of_mem_take hb)
        · rw [e]
          intro b hb
          rcases List.mem_append.1 hb with hb | hb
          · exact h b (List.mem_of_mem_take hb)
          · simp at hb; subst hb; decide

/-! ## C12 -/

theorem walkPtr_eq (g : Base → Base) (o : Option Schema) : walkPtr g o = o.map (walkSchema g) := by
  cases o <;> rfl

theorem walkSlice_eq (g : Base → Base) (l : List Schema) : walkSlice g l = l.map (walkSchema g) := by
  induction l with
  | nil => rfl
  | cons a l ih => simp [walkSlice, ih]

theorem walkMap_eq (g : Base → Base) (l : List (String × Schema)) :
    walkMap g l = l.map (fun kv => (kv.1, walkSchema g kv.2)) := by
  induction l with
  | nil => rfl
  | cons a l ih => obtain ⟨k, s⟩ := a; simp [walkMap, ih]

theorem walkMap_lookup (g : Base → Base) (l : List (String × Schema)) (n : String) :
    (walkMap g l).lookup n = (l.lookup n).map (walkSchema g) := by
  induction l with
  | nil => rfl
  | cons a l ih =>
    obtain ⟨k, s⟩ := a
    simp only [walkMap, List.lookup]
    split <;> simp [ih]

theorem walkDeps_lookup (g : Base → Base) (l : List (String × OrArray)) (n : String) :
    ((walkDeps g l).lookup n).bind OrArray.schema = ((l.lookup n).bind OrArray.schema).map (walkSchema g) := by
  induction l with
  | nil => rfl
  | cons a l ih =>
    obtain ⟨k, s, p⟩ := a
    simp only [walkDeps, List.lookup]
    split
    · simp [OrArray.schema, walkPtr_eq]
    · exact ih

theorem walk_child (g : Base → Base) (s : Schema) (p : Step) :
    (walkSchema g s).child p = (s.child p).map (walkSchema g) := by
  obtain ⟨b, i, a, o, n, t, pr, d, q, e, f, h⟩ := s
  cases p with
  | items =>
    simp only [walkSchema, Schema.child, Schema.items]
    rcases i with _ | ⟨s, l⟩
    · rfl
    · simp [walkItems, Items.schema, walkPtr_eq]
  | itemsAt k =>
    simp only [walkSchema, Schema.child, Schema.items]
    rcases i with _ | ⟨s, l⟩
    · rfl
    · simp [walkItems, Items.arr, walkSlice_eq]
  | allOf k => simp [walkSchema, Schema.child, Schema.allOf, walkSlice_eq]
  | oneOf k => simp [walkSchema, Schema.child, Schema.oneOf, walkSlice_eq]
  | anyOf k => simp [walkSchema, Schema.child, Schema.anyOf, walkSlice_eq]
  | not => simp [walkSchema, Schema.child, Schema.not, walkPtr_eq]
  | property k => simp [walkSchema, Schema.child, Schema.properties, walkMap_lookup]
  | patternProperty k => simp [walkSchema, Schema.child, Schema.patternProperties, walkMap_lookup]
  | definition k => simp [walkSchema, Schema.child, Schema.definitions, walkMap_lookup]
  | additionalProperties =>
    simp only [walkSchema, Schema.child, Schema.additionalProperties]
    rcases d with _ | ⟨s, l⟩
    · rfl
    · simp [walkOrBool, OrBool.schema, walkPtr_eq]
  | additionalItems =>
    simp only [walkSchema, Schema.child, Schema.additionalItems]
    rcases f with _ | ⟨s, l⟩
    · rfl
    · simp [walkOrBool, OrBool.schema, walkPtr_eq]
  | dependency k => simp [walkSchema, Schema.child, Schema.dependencies, walkDeps_lookup]

theorem walk_at (g : Base → Base) (ps : List Step) : ∀ s : Schema, (walkSchema g s).at ps = (s.at ps).map (walkSchema g) := by
  induction ps with
  | nil => intro s; rfl
  | cons p ps ih =>
    intro s
    simp only [Schema.at, walk_child]
    cases s.child p with
    | none => rfl
    | some t => simp [ih]

theorem walk_base (g : Base → Base) (s : Schema) : (walkSchema g s).base = g s.base := by
  obtain ⟨b, i, a, o, n, t, pr, d, q, e, f, h⟩ := s; rfl

mutual
theorem mapBase_walk (g e : Base → Base) (h : ∀ b, e (g b) = e b) : ∀ s : Schema, (walkSchema g s).mapBase e = s.mapBase e
  | .mk b i a o n t p d q ds f df => by
    simp only [walkSchema, Schema.mapBase, h, mapItems_walk g e h i, mapList_walk g e h a, mapList_walk g e h o,
      mapList_walk g e h n, mapOpt_walk g e h t, mapMap_walk g e h p, mapOrBool_walk g e h d, mapMap_walk g e h q,
      mapDeps_walk g e h ds, mapOrBool_walk g e h f, mapMap_walk g e h df]
theorem mapItems_walk (g e : Base → Base) (h : ∀ b, e (g b) = e b) :
    ∀ i : Option Items, mapBaseItems e (walkItems g i) = mapBaseItems e i
  | none => rfl
  | some (.mk s l) => by simp only [walkItems, mapBaseItems, mapOpt_walk g e h s, mapList_walk g e h l]
theorem mapOpt_walk (g e : Base → Base) (h : ∀ b, e (g b) = e b) :
    ∀ i : Option Schema, mapBaseOpt e (walkPtr g i) = mapBaseOpt e i
  | none => rfl
  | some s => by simp only [walkPtr, mapBaseOpt, mapBase_walk g e h s]
theorem mapList_walk (g e : Base → Base) (h : ∀ b, e (g b) = e b) :
    ∀ i : List Schema, mapBaseList e (walkSlice g i) = mapBaseList e i
  | [] => rfl
  | s :: l => by simp only [walkSlice, mapBaseList, mapBase_walk g e h s, mapList_walk g e h l]
theorem mapMap_walk (g e : Base → Base) (h : ∀ b, e (g b) = e b) :
    ∀ i : List (String × Schema), mapBaseMap e (walkMap g i) = mapBaseMap e i
  | [] => rfl
  | (k, s) :: l => by simp only [walkMap, mapBaseMap, mapBase_walk g e h s, mapMap_walk g e h l]
theorem mapOrBool_walk (g e : Base → Base) (h : ∀ b, e (g b) = e b) :
    ∀ i : Option OrBool, mapBaseOrBool e (walkOrBool g i) = mapBaseOrBool e i
  | none => rfl
  | some (.mk b s) => by simp only [walkOrBool, mapBaseOrBool, mapOpt_walk g e h s]
theorem mapDeps_walk (g e : Base → Base) (h : ∀ b, e (g b) = e b) :
    ∀ i : List (String × OrArray), mapBaseDeps e (walkDeps g i) = mapBaseDeps e i
  | [] => rfl
  | (k, .mk s p) :: l => by simp only [walkDeps, mapBaseDeps, mapOpt_walk g e h s, mapDeps_walk g e h l]
end

theorem descOut_base (T : Tables) (n : Int) (h : ¬ n < 0) (b : Base) :
    visitBase T n.toNat b = { b with description := descOut T n b.description } := by
  rw [visitBase_eq, descOut_eq, if_neg h]

/-- **C12**, in full: truncation reaches the description of the schema at every path, changes it as C11 says, and changes nothing
else. -/
theorem C12_every_description (T : Tables) (n : Int) (s : Schema) :
    (∀ p t, s.at p = some t → ∃ t', (truncateDescription T n s).at p = some t' ∧
      t'.base = { t.base with description := descOut T n t.base.description }) ∧
    (∀ p, s.at p = none → (truncateDescription T n s).at p = none) ∧
    eraseDescriptions (truncateDescription T n s) = eraseDescriptions s := by
  unfold truncateDescription
  by_cases h : n < 0
  · simp only [if_pos h]
    refine ⟨fun p t ht => ⟨t, ht, ?_⟩, fun p hp => hp, trivial⟩
    rw [descOut_eq, if_pos h]
  · simp only [if_neg h]
    refine ⟨?_, ?_, ?_⟩
    · intro p t ht
      refine ⟨walkSchema (visitBase T n.toNat) t, by rw [walk_at, ht]; rfl, ?_⟩
      rw [walk_base, descOut_base T n h]
    · intro p hp; rw [walk_at, hp]; rfl
    · exact mapBase_walk _ _ (fun b => by rw [descOut_base T n h]) s

/-- A nested schema, with a description below an array's items below a property. -/
def sampleSchema : Schema :=
  .mk { description := "Top. More".toUTF8.toList, type := "object" } none [] [] [] none
    [("list", .mk { type := "array" } (some (.mk (some (.leaf { description := "One. Two".toUTF8.toList })) [])) [] [] [] none
        [] none [] [] none [])] none [] [] none []

example : ((truncateDescription sampleTables 5 sampleSchema).at [.property "list", .items]).map (·.base.description) =
    some "One.".toUTF8.toList := by decide +kernel

end Verif.Desc
