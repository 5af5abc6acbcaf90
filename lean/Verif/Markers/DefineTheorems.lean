import Verif.Markers.Define
import Verif.Markers.RegistryTheorems
/-!
# Defining markers from Go types (C65)

The specification is at the top; it uses the model only for the types of its inputs.
-/
namespace Verif.Markers
namespace Spec

/-! ## Specification -/

mutual
/-- A type that the value of an argument can be parsed into. -/
inductive Supported : GoType → Prop
  | raw : Supported .rawArguments
  | any : Supported .emptyInterface
  | plain {t} : Plain t → Supported t
  | ptr {t} : Plain t → Supported (.ptr t)
/-- … and that is not a pointer, an interface or raw text. -/
inductive Plain : GoType → Prop
  | string : Plain .string
  | int : Plain .int
  | int32 : Plain .int32
  | float64 : Plain .float64
  | bool : Plain .bool
  | slice {t} : Supported t → Plain (.slice t)
  | map {t} : Supported t → Plain (.map .string t)
end

/-- How a type is written in Go; `int32` counts as `int`, and the two special types have their own notation. -/
def goName : GoType → Str
  | .rawArguments => "<raw>".toList
  | .emptyInterface => "<any>".toList
  | .string => "string".toList
  | .int => "int".toList
  | .int32 => "int".toList
  | .float64 => "float64".toList
  | .bool => "bool".toList
  | .ptr t => '*' :: goName t
  | .slice t => "[]".toList ++ goName t
  | .map k t => "map[".toList ++ goName k ++ "]".toList ++ goName t
  | .other => "?".toList

/-- The tag begins with a name: `name` or `name,…`. -/
def TagName (f : StructField) (n : Str) : Prop := n ≠ [] ∧ ',' ∉ n ∧ (f.tag = some n ∨ ∃ rest, f.tag = some (n ++ ',' :: rest))

/-- The name of the argument for a field: the name in its tag, or else the name of the field with the first letter in lower case. -/
def ArgName (lower : Char → Char) (f : StructField) (n : Str) : Prop :=
  TagName f n ∨ ((∀ m, ¬ TagName f m) ∧ ((f.name = [] ∧ n = []) ∨ ∃ c s, f.name = c :: s ∧ n = lower c :: s))

/-- The tag has the option `optional`, after a comma. -/
def TagOptional (f : StructField) : Prop :=
  ∃ pre, f.tag = some (pre ++ ",optional".toList) ∨ ∃ post, f.tag = some (pre ++ ",optional,".toList ++ post)

/-- `f` is the last exported field whose argument is called `n`. -/
def LastField (lower : Char → Char) (fs : List StructField) (n : Str) (f : StructField) : Prop :=
  f.exported = true ∧ ArgName lower f n ∧
  ∃ before after, fs = before ++ f :: after ∧ ∀ g ∈ after, g.exported = true → ¬ ArgName lower g n

/-- No exported field has an argument called `n`. -/
def NoField (lower : Char → Char) (fs : List StructField) (n : Str) : Prop :=
  ∀ g ∈ fs, g.exported = true → ¬ ArgName lower g n

/-- The argument stands for the field: it has the type of the field, and is optional if the field is a pointer or its tag says so. -/
def StandsFor (a : Argument) (f : StructField) : Prop :=
  a.typeString = some (goName f.type) ∧ (a.optional = true ↔ TagOptional f ∨ ∃ t, f.type = .ptr t)

end Spec

open Spec GoMap

/-! ## Types -/

theorem argumentFrom_some (t : GoType) :
    ((argumentFrom true t).isSome = true ↔ Plain t) ∧ ((argumentFrom false t).isSome = true ↔ Supported t) := by
  have up : ∀ t, Plain t → (¬ t = .rawArguments ∧ ¬ t = .emptyInterface ∧ ∀ e, ¬ t = .ptr e) := by
    intro t h; cases h <;> simp
  induction t with
  | rawArguments => simp [argumentFrom, Supported.raw]; intro h; cases h
  | emptyInterface => simp [argumentFrom, Supported.any]; intro h; cases h
  | string => simp [argumentFrom, Plain.string, Supported.plain Plain.string]
  | int => simp [argumentFrom, Plain.int, Supported.plain Plain.int]
  | int32 => simp [argumentFrom, Plain.int32, Supported.plain Plain.int32]
  | float64 => simp [argumentFrom, Plain.float64, Supported.plain Plain.float64]
  | bool => simp [argumentFrom, Plain.bool, Supported.plain Plain.bool]
  | ptr t ih =>
    refine ⟨⟨fun h => by simp [argumentFrom] at h, fun h => ((up _ h).2.2 t rfl).elim⟩, ?_⟩
    simp only [argumentFrom, Bool.false_eq_true, if_false]
    rw [ih.1]
    refine ⟨.ptr, ?_⟩
    intro h
    cases h with
    | plain h => exact ((up _ h).2.2 t rfl).elim
    | ptr h => exact h
  | slice t ih =>
    have key : ∀ b, (argumentFrom b (.slice t)).isSome = (argumentFrom false t).isSome := by
      intro b; simp only [argumentFrom]; cases argumentFrom false t <;> rfl
    rw [key, key, ih.2]
    refine ⟨⟨.slice, fun h => by cases h with | slice h => exact h⟩, ⟨fun h => .plain (.slice h), fun h => ?_⟩⟩
    cases h with
    | plain h => cases h with | slice h => exact h
  | map k t _ ih =>
    by_cases hk : k = .string
    · subst hk
      have key : ∀ b, (argumentFrom b (.map .string t)).isSome = (argumentFrom false t).isSome := by
        intro b; simp only [argumentFrom, ne_eq, not_true, if_false]; cases argumentFrom false t <;> rfl
      rw [key, key, ih.2]
      refine ⟨⟨.map, fun h => by cases h with | map h => exact h⟩, ⟨fun h => .plain (.map h), fun h => ?_⟩⟩
      cases h with
      | plain h => cases h with | map h => exact h
    · simp only [argumentFrom, ne_eq, hk, not_false_eq_true, if_true, Option.isSome_none, Bool.false_eq_true, false_iff]
      refine ⟨fun h => by cases h; exact hk rfl, fun h => ?_⟩
      cases h with
      | plain h => cases h; exact hk rfl
  | other =>
    simp only [argumentFrom, Option.isSome_none, Bool.false_eq_true, false_iff]
    refine ⟨fun h => (by cases h), fun h => ?_⟩
    cases h with
    | plain h => cases h

/-- **C65, types.**  A Go type is accepted exactly if it is one of the supported types. -/
theorem C65_supported (t : GoType) : (∃ a, argumentFromType t = some a) ↔ Supported t := by
  rw [← (argumentFrom_some t).2, Option.isSome_iff_exists, argumentFromType]

theorem argumentFrom_name {t : GoType} : ∀ {b : Bool} {a : Argument}, argumentFrom b t = some a →
    a.typeString = some ((if b then ['*'] else []) ++ goName t) ∧ a.pointer = (b || match t with | .ptr _ => true | _ => false) ∧ a.optional = a.pointer ∧
      (a.kind = .raw ↔ t = .rawArguments) := by
  induction t with
  | ptr t ih =>
    intro b a h
    cases b with
    | true => simp [argumentFrom] at h
    | false =>
      simp only [argumentFrom, Bool.false_eq_true, if_false] at h
      have := ih h
      refine ⟨by simpa [goName] using this.1, by simpa using this.2.1, this.2.2.1, ?_⟩
      rw [this.2.2.2]
      constructor
      · rintro rfl; simp [argumentFrom] at h
      · simp
  | slice t ih =>
    intro b a h
    simp only [argumentFrom] at h
    split at h
    · cases h
    · rename_i i hi
      cases h
      have := ih hi
      refine ⟨?_, by simp [Argument.pointer], rfl, by simp [Argument.kind]⟩
      simp only [Argument.typeString, this.1, Bool.false_eq_true, if_false, List.nil_append, Option.map_some, goName, List.append_assoc]
  | map k t _ ih =>
    intro b a h
    simp only [argumentFrom] at h
    split at h
    · cases h
    · rename_i hk
      have hk : k = .string := by simpa using hk
      subst hk
      split at h
      · cases h
      · rename_i i hi
        cases h
        have := ih hi
        refine ⟨?_, by simp [Argument.pointer], rfl, by simp [Argument.kind]⟩
        simp only [Argument.typeString, this.1, Bool.false_eq_true, if_false, List.nil_append, Option.map_some, goName, List.append_assoc]
        rfl
  | other => intro b a h; simp [argumentFrom] at h
  | rawArguments | emptyInterface | string | int | int32 | float64 | bool =>
    intro b a h
    cases b <;> simp [argumentFrom] at h
    all_goals
      subst h
      simp [Argument.typeString, Argument.pointer, Argument.optional, Argument.kind, goName]

/-- **C65, the argument of a type.**  It has that type, and is optional exactly for pointers. -/
theorem C65_type {t : GoType} {a : Argument} (h : argumentFromType t = some a) :
    a.typeString = some (goName t) ∧ (a.optional = true ↔ ∃ e, t = .ptr e) := by
  have := argumentFrom_name h
  refine ⟨by simpa using this.1, ?_⟩
  rw [this.2.2.1, this.2.1]
  cases t <;> simp

/-! ## Names -/

theorem tagName_iff {f : StructField} {n : Str} :
    TagName f n ↔ f.tag.isSome = true ∧ n ≠ [] ∧ (Text.split ',' (f.tag.getD [])).headD [] = n := by
  unfold TagName
  constructor
  · rintro ⟨hne, hc, h | ⟨rest, h⟩⟩
    · refine ⟨by simp [h], hne, ?_⟩
      simp [h, Text.split_not_mem hc]
    · refine ⟨by simp [h], hne, ?_⟩
      simp [h, Text.split_append hc]
  · rintro ⟨hs, hne, h⟩
    obtain ⟨tag, ht⟩ := Option.isSome_iff_exists.1 hs
    rw [ht, Option.getD_some] at h
    have hmem : n ∈ Text.split ',' tag := by
      cases hsp : Text.split ',' tag with
      | nil => exact (Text.split_ne_nil hsp).elim
      | cons x xs => rw [hsp] at h; simp at h; simp [h]
    refine ⟨hne, Text.mem_split _ hmem, ?_⟩
    cases hcut : Text.cut ',' tag with
    | none =>
      rw [Text.cut_none] at hcut
      rw [Text.split_not_mem hcut] at h
      exact .inl (by rw [ht]; simpa using h)
    | some x =>
      obtain ⟨a, b⟩ := x
      rw [Text.cut_some] at hcut
      rw [hcut.1, Text.split_append hcut.2] at h
      refine .inr ⟨b, ?_⟩
      rw [ht, hcut.1]
      simp at h
      rw [h]

theorem argName_iff {lower : Char → Char} {f : StructField} {n : Str} :
    ArgName lower f n ↔ (argumentInfo lower f.name f.tag).1 = n := by
  unfold ArgName
  simp only [tagName_iff, argumentInfo]
  have hlow : ((f.name = [] ∧ n = []) ∨ ∃ c s, f.name = c :: s ∧ n = lower c :: s) ↔ lowerCamelCase lower f.name = n := by
    cases f.name with
    | nil => simp [lowerCamelCase, eq_comm]
    | cons c s =>
      simp only [lowerCamelCase, reduceCtorEq, false_and, false_or]
      constructor
      · rintro ⟨c', s', h, rfl⟩; cases h; rfl
      · intro h; exact ⟨c, s, rfl, h.symm⟩
  rw [hlow]
  by_cases h : f.tag.isSome = true ∧ (Text.split ',' (f.tag.getD [])).headD [] ≠ []
  · have h' : (f.tag.isSome && decide ((Text.split ',' (f.tag.getD [])).headD [] ≠ [])) = true := by rw [h.1, decide_eq_true h.2]; rfl
    rw [if_pos h']
    constructor
    · rintro (⟨_, _, e⟩ | ⟨hno, _⟩)
      · exact e
      · exact (hno _ ⟨h.1, h.2, rfl⟩).elim
    · intro e
      exact .inl ⟨h.1, e ▸ h.2, e⟩
  · have h' : ¬ (f.tag.isSome && decide ((Text.split ',' (f.tag.getD [])).headD [] ≠ [])) = true := by
      simpa using h
    rw [if_neg h']
    constructor
    · rintro (⟨hs, hne, e⟩ | ⟨_, e⟩)
      · exact (h ⟨hs, by rw [e]; exact hne⟩).elim
      · exact e
    · intro e
      refine .inr ⟨?_, e⟩
      rintro m ⟨hs, hne, em⟩
      exact h ⟨hs, by rw [em]; exact hne⟩

theorem mem_tail_split {c : Char} {w : Str} (hw : c ∉ w) (s : Str) :
    w ∈ (Text.split c s).tail ↔ ∃ pre, s = pre ++ c :: w ∨ ∃ post, s = pre ++ c :: (w ++ c :: post) := by
  have len : ∀ (k : Nat) (s : Str), s.length ≤ k →
      (w ∈ (Text.split c s).tail ↔ ∃ pre, s = pre ++ c :: w ∨ ∃ post, s = pre ++ c :: (w ++ c :: post)) := by
    intro k
    induction k with
    | zero =>
      intro s hs
      have : s = [] := List.length_eq_zero_iff.1 (Nat.le_zero.1 hs)
      subst this
      simp [Text.split]
    | succ k ih =>
      intro s hs
      cases hcut : Text.cut c s with
      | none =>
        rw [Text.cut_none] at hcut
        rw [Text.split_not_mem hcut]
        simp only [List.tail_cons, List.not_mem_nil, false_iff]
        rintro ⟨pre, h | ⟨post, h⟩⟩ <;> exact hcut (by rw [h]; simp)
      | some x =>
        obtain ⟨a, b⟩ := x
        rw [Text.cut_some] at hcut
        obtain ⟨rfl, ha⟩ := hcut
        rw [Text.split_append ha, List.tail_cons]
        have hb : b.length ≤ k := by simp at hs; omega
        have hd : ∀ s : Str, Text.split c s = (Text.split c s).headD [] :: (Text.split c s).tail := by
          intro s; cases h : Text.split c s with
          | nil => exact (Text.split_ne_nil h).elim
          | cons x xs => rfl
        rw [hd b, List.mem_cons, ih b hb]
        have hhead : (w = (Text.split c b).headD []) ↔ (b = w ∨ ∃ post, b = w ++ c :: post) := by
          cases hcb : Text.cut c b with
          | none =>
            rw [Text.cut_none] at hcb
            rw [Text.split_not_mem hcb]
            simp only [List.headD_cons]
            constructor
            · intro h; exact .inl h.symm
            · rintro (h | ⟨post, h⟩)
              · exact h.symm
              · exact (hcb (by rw [h]; simp)).elim
          | some y =>
            obtain ⟨a', b'⟩ := y
            rw [Text.cut_some] at hcb
            obtain ⟨rfl, ha'⟩ := hcb
            rw [Text.split_append ha']
            simp only [List.headD_cons]
            constructor
            · rintro rfl; exact .inr ⟨b', rfl⟩
            · rintro (h | ⟨post, h⟩)
              · exact (hw (by rw [← h]; simp)).elim
              · exact (sep_inj ha' hw h).1.symm
        rw [hhead]
        constructor
        · rintro ((rfl | ⟨post, rfl⟩) | ⟨pre, rfl | ⟨post, rfl⟩⟩)
          · exact ⟨a, .inl rfl⟩
          · exact ⟨a, .inr ⟨post, rfl⟩⟩
          · exact ⟨a ++ c :: pre, .inl (by simp)⟩
          · exact ⟨a ++ c :: pre, .inr ⟨post, by simp⟩⟩
        · -- the first separator of the text is the one after `a`
          have step : ∀ (pre r : Str), a ++ c :: b = pre ++ c :: r → (pre = a ∧ b = r) ∨ ∃ pre', pre = a ++ c :: pre' ∧ b = pre' ++ c :: r := by
            intro pre r h
            cases hp : Text.cut c pre with
            | none =>
              rw [Text.cut_none] at hp
              have := sep_inj ha hp h
              exact .inl ⟨this.1.symm, this.2⟩
            | some z =>
              obtain ⟨p, q⟩ := z
              rw [Text.cut_some] at hp
              obtain ⟨rfl, hp⟩ := hp
              have := sep_inj ha hp (by simpa using h : a ++ c :: b = p ++ c :: (q ++ c :: r))
              exact .inr ⟨q, by rw [this.1], this.2⟩
          rintro ⟨pre, h | ⟨post, h⟩⟩
          · rcases step _ _ h with ⟨_, h⟩ | ⟨pre', _, h⟩
            · exact .inl (.inl h)
            · exact .inr ⟨pre', .inl h⟩
          · rcases step _ _ h with ⟨_, h⟩ | ⟨pre', _, h⟩
            · exact .inl (.inr ⟨post, h⟩)
            · exact .inr ⟨pre', .inr ⟨post, h⟩⟩
  exact len s.length s (Nat.le_refl _)

theorem tagOptional_iff {lower : Char → Char} {f : StructField} : TagOptional f ↔ (argumentInfo lower f.name f.tag).2 = true := by
  unfold TagOptional argumentInfo
  simp only [List.any_eq_true, decide_eq_true_eq]
  rw [show (∃ x, x ∈ (Text.split ',' (f.tag.getD [])).tail ∧ x = "optional".toList) ↔ "optional".toList ∈ (Text.split ',' (f.tag.getD [])).tail from
    ⟨fun ⟨x, h, e⟩ => e ▸ h, fun h => ⟨_, h, rfl⟩⟩]
  rw [mem_tail_split (by decide)]
  cases f.tag with
  | none =>
    simp only [reduceCtorEq, exists_false, or_false, Option.getD_none, false_iff, not_exists]
    rintro pre (h | ⟨post, h⟩) <;> simp at h
  | some tag =>
    simp only [Option.getD_some, Option.some.injEq]
    refine ⟨?_, ?_⟩
    · rintro ⟨pre, h | ⟨post, h⟩⟩
      · exact ⟨pre, .inl h⟩
      · refine ⟨pre, .inr ⟨post, ?_⟩⟩
        rw [h, List.append_assoc]; rfl
    · rintro ⟨pre, h | ⟨post, h⟩⟩
      · exact ⟨pre, .inl h⟩
      · refine ⟨pre, .inr ⟨post, ?_⟩⟩
        rw [h, List.append_assoc]; rfl

/-! ## Fields -/

/-- What one field adds. -/
theorem loadField_eq {lower : Char → Char} {d d' : Loaded} {f : StructField} (h : loadField lower d f = some d') :
    (f.exported = false ∧ d' = d) ∨
    (f.exported = true ∧ ∃ n a, ArgName lower f n ∧ StandsFor a f ∧
      d' = { fields := put d.fields n a, fieldNames := put d.fieldNames n f.name }) := by
  unfold loadField at h
  cases he : f.exported with
  | false => rw [he] at h; simp at h; exact .inl ⟨rfl, h.symm⟩
  | true =>
    rw [he] at h
    simp only [Bool.not_true, Bool.false_eq_true, if_false] at h
    split at h
    · cases h
    · rename_i a ha
      split at h
      · cases h
      · simp only [Option.some.injEq] at h
        refine .inr ⟨rfl, _, _, argName_iff.2 rfl, ⟨?_, ?_⟩, h.symm⟩
        · have := (C65_type ha).1
          rw [← this]
          cases a <;> simp [Argument.setOptional, Argument.typeString]
        · have := (C65_type ha).2
          rw [← this, tagOptional_iff (lower := lower)]
          cases a <;> simp [Argument.setOptional, Argument.optional]

theorem argName_unique {lower : Char → Char} {f : StructField} {n m : Str} (h : ArgName lower f n) (h' : ArgName lower f m) : n = m := by
  rw [argName_iff] at h h'; exact h.symm.trans h'

theorem argName_exists (lower : Char → Char) (f : StructField) : ∃ n, ArgName lower f n := ⟨_, argName_iff.2 rfl⟩

theorem lastField_concat {lower : Char → Char} {fs : List StructField} {g : StructField} (hg : g.exported = true) {n m : Str}
    (hgn : ArgName lower g m) (f : StructField) :
    LastField lower (fs ++ [g]) n f ↔ (n = m ∧ f = g) ∨ (n ≠ m ∧ LastField lower fs n f) := by
  constructor
  · rintro ⟨he, hn, before, after, hfs, hno⟩
    rcases List.eq_nil_or_concat after with rfl | ⟨after', x, rfl⟩
    · have := List.append_inj' hfs (by simp)
      have hfg : f = g := by simpa using this.2.symm
      subst hfg
      exact .inl ⟨argName_unique hn hgn, rfl⟩
    · have := List.append_inj' (by simpa using hfs : fs ++ [g] = (before ++ f :: after') ++ [x]) (by simp)
      have hx : x = g := by simpa using this.2.symm
      subst hx
      refine .inr ⟨fun e => hno x (by simp) hg (e ▸ hgn), he, hn, before, after', this.1, fun y hy => hno y (by simp [hy])⟩
  · rintro (⟨rfl, rfl⟩ | ⟨hne, he, hn, before, after, rfl, hno⟩)
    · exact ⟨hg, hgn, fs, [], rfl, by simp⟩
    · refine ⟨he, hn, before, after ++ [g], by simp, ?_⟩
      intro y hy hye
      rcases List.mem_append.1 hy with hy | hy
      · exact hno y hy hye
      · have : y = g := by simpa using hy
        subst this
        exact fun h => hne (argName_unique h hgn)

theorem lastField_skip {lower : Char → Char} {fs : List StructField} {g : StructField} (hg : g.exported = false) {n : Str}
    (f : StructField) : LastField lower (fs ++ [g]) n f ↔ LastField lower fs n f := by
  constructor
  · rintro ⟨he, hn, before, after, hfs, hno⟩
    rcases List.eq_nil_or_concat after with rfl | ⟨after', x, rfl⟩
    · have := List.append_inj' hfs (by simp)
      have hfg : f = g := by simpa using this.2.symm
      subst hfg
      rw [hg] at he; cases he
    · have := List.append_inj' (by simpa using hfs : fs ++ [g] = (before ++ f :: after') ++ [x]) (by simp)
      exact ⟨he, hn, before, after', this.1, fun y hy => hno y (by simp [hy])⟩
  · rintro ⟨he, hn, before, after, rfl, hno⟩
    refine ⟨he, hn, before, after ++ [g], by simp, ?_⟩
    intro y hy hye
    rcases List.mem_append.1 hy with hy | hy
    · exact hno y hy hye
    · have : y = g := by simpa using hy
      subst this
      rw [hg] at hye; cases hye

/-- The state of the loop after the fields `fs`. -/
def Good (lower : Char → Char) (fs : List StructField) (d : Loaded) : Prop :=
  WF d.fields ∧ WF d.fieldNames ∧
  (∀ n f, LastField lower fs n f → ∃ a, GoMap.get d.fields n = some a ∧ StandsFor a f ∧ GoMap.get d.fieldNames n = some f.name) ∧
  (∀ n, NoField lower fs n → GoMap.get d.fields n = none ∧ GoMap.get d.fieldNames n = none)

theorem good_step {lower : Char → Char} {fs : List StructField} {d d' : Loaded} {f : StructField} (hd : Good lower fs d)
    (h : loadField lower d f = some d') : Good lower (fs ++ [f]) d' := by
  obtain ⟨w1, w2, h1, h2⟩ := hd
  rcases loadField_eq h with ⟨he, rfl⟩ | ⟨he, m, a, hm, ha, rfl⟩
  · refine ⟨w1, w2, fun n g hg => h1 n g ((lastField_skip he g).1 hg), fun n hn => h2 n (fun g hg => hn g (by simp [hg]))⟩
  · refine ⟨put_wf w1 _ _, put_wf w2 _ _, ?_, ?_⟩
    · intro n g hg
      rcases (lastField_concat he hm g).1 hg with ⟨rfl, rfl⟩ | ⟨hne, hg⟩
      · exact ⟨a, by simp [get_put], ha, by simp [get_put]⟩
      · simpa [get_put, hne] using h1 n g hg
    · intro n hn
      have hne : n ≠ m := fun e => hn f (by simp) he (e ▸ hm)
      simpa [get_put, hne] using h2 n (fun g hg => hn g (by simp [hg]))

theorem good_loop {lower : Char → Char} (fs : List StructField) : ∀ {pre : List StructField} {d d' : Loaded}, Good lower pre d →
    loadLoop lower fs d = some d' → Good lower (pre ++ fs) d' := by
  induction fs with
  | nil => intro pre d d' hd h; cases h; simpa using hd
  | cons f fs ih =>
    intro pre d d' hd h
    simp only [loadLoop] at h
    split at h
    · cases h
    · rename_i d1 h1
      simpa using ih (good_step hd h1) h

theorem good_nil (lower : Char → Char) : Good lower [] {} := by
  refine ⟨by simp [WF, keys], by simp [WF, keys], ?_, fun _ _ => ⟨rfl, rfl⟩⟩
  rintro n f ⟨_, _, before, after, h, _⟩
  simp at h

/-- **C65, the arguments of a marker.**  A marker that is defined from a struct has exactly the arguments that its exported fields name, each with the type of
its field and optional exactly if the field is a pointer or says so.  Where fields share a name the last one counts. -/
theorem C65_fields {lower : Char → Char} {name : Str} {target : Target} {fs : List StructField} {d : Def Loaded}
    (h : makeDefinition lower name target (.struct fs) = some d) :
    d.name = name ∧ d.target = target ∧
    (∀ n f, LastField lower fs n f →
      ∃ a, GoMap.get d.payload.fields n = some a ∧ StandsFor a f ∧ GoMap.get d.payload.fieldNames n = some f.name) ∧
    (∀ n, NoField lower fs n → GoMap.get d.payload.fields n = none ∧ GoMap.get d.payload.fieldNames n = none) := by
  unfold makeDefinition at h
  split at h
  · cases h
  · rename_i l hl
    cases h
    have := good_loop fs (good_nil lower) hl
    exact ⟨rfl, rfl, this.2.2.1, this.2.2.2⟩

/-- The maps of a definition have one entry per name, and the same names. -/
theorem makeDefinition_wf {lower : Char → Char} {name : Str} {target : Target} {o : Output} {d : Def Loaded}
    (h : makeDefinition lower name target o = some d) :
    WF d.payload.fields ∧ WF d.payload.fieldNames ∧ (∀ n, n ∈ keys d.payload.fields ↔ n ∈ keys d.payload.fieldNames) := by
  unfold makeDefinition at h
  split at h
  · cases h
  · rename_i l hl
    cases h
    cases o with
    | plain t =>
      simp only [loadFields] at hl
      split at hl
      · cases hl
      · cases hl; simp [WF, keys]
    | struct fs =>
      have hg := good_loop fs (good_nil lower) hl
      refine ⟨hg.1, hg.2.1, ?_⟩
      have key : ∀ (fs : List StructField) (d d' : Loaded), (∀ n, n ∈ keys d.fields ↔ n ∈ keys d.fieldNames) →
          loadLoop lower fs d = some d' → (∀ n, n ∈ keys d'.fields ↔ n ∈ keys d'.fieldNames) := by
        intro fs
        induction fs with
        | nil => intro d d' hd h; cases h; exact hd
        | cons f fs ih =>
          intro d d' hd h
          simp only [loadLoop] at h
          split at h
          · cases h
          · rename_i d1 h1
            refine ih d1 d' ?_ h
            rcases loadField_eq h1 with ⟨_, rfl⟩ | ⟨_, m, a, _, _, rfl⟩
            · exact hd
            · intro n; simp only [mem_keys_put]; rw [hd n]
      exact key fs {} l (by simp [keys]) hl

theorem loadLoop_some {lower : Char → Char} (fs : List StructField) : ∀ (d : Loaded),
    (∃ d', loadLoop lower fs d = some d') ↔ ∀ f ∈ fs, f.exported = true → Supported f.type ∧ f.type ≠ .rawArguments := by
  induction fs with
  | nil => intro d; simp [loadLoop]
  | cons f fs ih =>
    intro d
    have hf : (∃ d', loadField lower d f = some d') ↔ (f.exported = true → Supported f.type ∧ f.type ≠ .rawArguments) := by
      unfold loadField
      cases he : f.exported with
      | false => simp
      | true =>
        simp only [Bool.not_true, Bool.false_eq_true, if_false, forall_const]
        rw [← C65_supported]
        cases ha : argumentFromType f.type with
        | none => simp
        | some a =>
          have := (argumentFrom_name ha).2.2.2
          by_cases hk : a.kind = .raw
          · simp [hk, this.1 hk]
          · have h' : f.type ≠ .rawArguments := fun e => hk (this.2 e)
            simp [hk, h']
    simp only [loadLoop, List.mem_cons, forall_eq_or_imp]
    rw [← hf, ← ih {}]
    cases hl : loadField lower d f with
    | none => simp
    | some d1 => simp only [Option.some.injEq, exists_eq', true_and]; rw [ih, ih]

/-- **C65, when a marker can be defined.**  A struct: every exported field has a supported type, and none is raw text; another type: it is supported. -/
theorem C65_defined (lower : Char → Char) (name : Str) (target : Target) (o : Output) :
    (∃ d, makeDefinition lower name target o = some d) ↔
      match o with
      | .plain t => Supported t
      | .struct fs => ∀ f ∈ fs, f.exported = true → Supported f.type ∧ f.type ≠ .rawArguments := by
  have hm : (∃ d, makeDefinition lower name target o = some d) ↔ ∃ l, loadFields lower o = some l := by
    unfold makeDefinition
    cases loadFields lower o <;> simp
  rw [hm]
  cases o with
  | struct fs => exact loadLoop_some fs {}
  | plain t =>
    simp only [loadFields]
    rw [← C65_supported]
    cases argumentFromType t <;> simp

/-- **C65, a type that is not a struct.**  The marker has one argument without a name, of that type. -/
theorem C65_plain {lower : Char → Char} {name : Str} {target : Target} {t : GoType} {d : Def Loaded}
    (h : makeDefinition lower name target (.plain t) = some d) :
    d.name = name ∧ d.target = target ∧
    ∃ a, d.payload.fields = [([], a)] ∧ a.typeString = some (goName t) ∧ (a.optional = true ↔ ∃ e, t = .ptr e) := by
  unfold makeDefinition at h
  simp only [loadFields] at h
  cases ha : argumentFromType t with
  | none => rw [ha] at h; cases h
  | some a =>
    rw [ha] at h
    cases h
    exact ⟨rfl, rfl, a, rfl, C65_type ha⟩

/-! ## Examples and violations -/
namespace Example

/-- Lower case for the letters of the examples. -/
def low (c : Char) : Char := c.toLower

def fields : List StructField :=
  [⟨"Name".toList, true, none, .string⟩, ⟨"hidden".toList, false, none, .other⟩,
   ⟨"Limits".toList, true, some "max,optional".toList, .slice .int32⟩, ⟨"Extra".toList, true, some ",omit".toList, .ptr (.map .string .emptyInterface)⟩]

example : (makeDefinition low "m".toList .type (.struct fields)).map (fun d => (d.payload.fields.map (·.1), d.payload.fieldNames)) =
    some (["name".toList, "max".toList, "extra".toList], [("name".toList, "Name".toList), ("max".toList, "Limits".toList), ("extra".toList, "Extra".toList)]) := by
  decide +kernel

example : LastField low fields "max".toList ⟨"Limits".toList, true, some "max,optional".toList, .slice .int32⟩ := by
  refine ⟨rfl, argName_iff.2 (by decide +kernel), fields.take 2, fields.drop 3, by decide +kernel, ?_⟩
  intro g hg _
  have : g = ⟨"Extra".toList, true, some ",omit".toList, .ptr (.map .string .emptyInterface)⟩ := by simpa [fields] using hg
  subst this
  rw [argName_iff]
  decide +kernel

/-- Two exported fields with the same argument name. -/
def clash : List StructField := [⟨"Min".toList, true, some "value".toList, .int⟩, ⟨"Value".toList, true, none, .string⟩]

end Example

/-- **C65 is violated for fields that share a name**: the definition is accepted, and the first of the fields has no argument at all. -/
theorem C65_violated_name :
    ∃ d, makeDefinition Example.low "m".toList .type (.struct Example.clash) = some d ∧
      ∀ n, GoMap.get d.payload.fieldNames n ≠ some "Min".toList := by
  refine ⟨⟨"m".toList, .type, ⟨[("value".toList, .leaf .string false false)], [("value".toList, "Value".toList)]⟩⟩, by decide +kernel, ?_⟩
  intro n
  simp only [GoMap.get]
  split <;> simp

end Verif.Markers
