import Verif.Markers.Doc
/-!
# C17: documentation never contains marker lines
-/
namespace Verif.Markers.Doc
open Verif.Text

/-! ## Specification -/

/-- A fence of a block of code: a line that begins with three backquotes or three tildes. -/
def fenceLine (l : Str) : Bool := decide (['`', '`', '`'] <+: l ∨ ['~', '~', '~'] <+: l)

/-- The number of lines that begin with three backquotes or tildes among the first `n`. -/
def fencesIn (ls : List Str) (n : Nat) : Nat := ((ls.take n).filter fenceLine).length

/-- Line `i` is in a fenced block of code: an odd number of fences up to it. -/
def Fenced (ls : List Str) (i : Nat) : Prop := fencesIn ls (i + 1) % 2 = 1

/-- Line `i` begins with `p`. -/
def Begins (ls : List Str) (i : Nat) (p : String) : Prop := ∃ l, ls[i]? = some l ∧ p.toList <+: l

/-- Line `i` is kept: no line up to it ends the documentation, and it is not a note. -/
def Kept (ls : List Str) (i : Nat) : Prop := (∀ j ≤ i, Begins ls j "---" → Fenced ls j) ∧ (Begins ls i "TODO" → Fenced ls i)

/-- `out` are the lines of `ls` at the places where `P` holds, in order. -/
inductive Select (ls : List Str) (P : Nat → Prop) : Nat → List Str → Prop
  | done {n} : ls.length ≤ n → Select ls P n []
  | keep {n l out} : ls[n]? = some l → P n → Select ls P (n + 1) out → Select ls P n (l :: out)
  | skip {n l out} : ls[n]? = some l → ¬ P n → Select ls P (n + 1) out → Select ls P n out

/-! ## Proofs -/

theorem select_none {ls : List Str} {P : Nat → Prop} : ∀ (k n : Nat), ls.length - n = k → (∀ i, n ≤ i → ¬ P i) → Select ls P n [] := by
  intro k
  induction k with
  | zero => exact fun n hk _ => .done (by omega)
  | succ k ih =>
    intro n hk h
    have hn : n < ls.length := by omega
    exact .skip (List.getElem?_eq_getElem hn) (h n (Nat.le_refl _)) (ih (n + 1) (by omega) (fun i hi => h i (by omega)))

theorem isFence_eq : isFence = fenceLine := by
  funext l
  rw [Bool.eq_iff_iff]
  rw [isFence, show "```".toList = ['`', '`', '`'] from rfl, show "~~~".toList = ['~', '~', '~'] from rfl]
  simp [fenceLine]

theorem fencesIn_succ {ls : List Str} {n : Nat} {l : Str} (h : ls[n]? = some l) : fencesIn ls (n + 1) = fencesIn ls n + (if isFence l then 1 else 0) := by
  rw [isFence_eq]
  unfold fencesIn
  rw [List.take_add_one, h]
  simp only [Option.toList_some, List.filter_append, List.length_append, List.filter_cons, List.filter_nil]
  split <;> rfl

theorem begins_iff {ls : List Str} {n : Nat} {l : Str} (h : ls[n]? = some l) (p : String) : Begins ls n p ↔ p.toList.isPrefixOf l = true := by
  unfold Begins
  rw [h]
  simp [List.isPrefixOf_iff_prefix]

theorem keepLines_select (asterisk : Bool) (all : List Str) : ∀ (ls : List Str) (n : Nat) (inside : Bool), all.drop n = ls →
    (inside = true ↔ fencesIn (all.map fun l => if asterisk then trimSpace l else l) n % 2 = 1) →
    (∀ j < n, Begins (all.map fun l => if asterisk then trimSpace l else l) j "---" → Fenced (all.map fun l => if asterisk then trimSpace l else l) j) →
    Select (all.map fun l => if asterisk then trimSpace l else l) (Kept (all.map fun l => if asterisk then trimSpace l else l)) n (keepLines asterisk inside ls) := by
  intro ls
  induction ls with
  | nil =>
    intro n inside h _ _
    refine .done ?_
    rw [List.length_map]
    exact List.drop_eq_nil_iff.1 h
  | cons l ls ih =>
    intro n inside h hin hcut
    have hl : all[n]? = some l := by
      have := congrArg List.head? h
      rwa [List.head?_drop] at this
    have hdrop : all.drop (n + 1) = ls := by
      rw [← List.drop_drop, h]; rfl
    revert hin hcut
    generalize hm : (all.map fun l => if asterisk then trimSpace l else l) = ms
    intro hin hcut
    have hml : ms[n]? = some (if asterisk then trimSpace l else l) := by rw [← hm, List.getElem?_map, hl]; rfl
    rw [keepLines]
    generalize (if asterisk then trimSpace l else l) = line at hml
    have hin' : (if isFence line then !inside else inside) = true ↔ Fenced ms n := by
      unfold Fenced
      rw [fencesIn_succ hml]
      by_cases hf : isFence line = true
      · rw [if_pos hf, if_pos hf]
        cases inside
        · have : ¬ fencesIn ms n % 2 = 1 := fun e => by cases hin.2 e
          simp; omega
        · have := hin.1 rfl
          simp; omega
      · rw [if_neg hf, if_neg hf]
        exact hin
    rw [hm] at ih
    generalize (if isFence line then !inside else inside) = ins at hin'
    have hnext : ins = true ↔ fencesIn ms (n + 1) % 2 = 1 := hin'
    by_cases h1 : (!ins && "TODO".toList.isPrefixOf line) = true
    · rw [if_pos h1]
      rw [Bool.and_eq_true] at h1
      have hb : Begins ms n "TODO" := (begins_iff hml _).2 h1.2
      refine .skip hml (fun hk => ?_) (ih (n + 1) ins hdrop hnext ?_)
      · have := hin'.2 (hk.2 hb)
        rw [this] at h1
        simp at h1
      · intro j hj hbj
        by_cases e : j = n
        · subst e
          obtain ⟨l', e1, e2⟩ := hbj
          rw [hml] at e1; cases e1
          obtain ⟨l', e1, e3⟩ := hb
          rw [hml] at e1; cases e1
          obtain ⟨a, ha⟩ := e2
          obtain ⟨b, hb⟩ := e3
          rw [← ha] at hb
          simp at hb
        · exact hcut j (by omega) hbj
    · rw [if_neg h1]
      by_cases h2 : (!ins && "---".toList.isPrefixOf line) = true
      · rw [if_pos h2]
        rw [Bool.and_eq_true] at h2
        refine select_none _ n rfl (fun i hi hk => ?_)
        have := hin'.2 (hk.1 n hi ((begins_iff hml _).2 h2.2))
        rw [this] at h2
        simp at h2
      · rw [if_neg h2]
        have hc : Begins ms n "---" → Fenced ms n := by
          intro hb
          rw [begins_iff hml] at hb
          rw [hb, Bool.and_true] at h2
          exact hin'.1 (by simpa using h2)
        refine .keep hml ⟨?_, ?_⟩ (ih (n + 1) ins hdrop hnext ?_)
        · intro j hj
          by_cases e : j = n
          · rw [e]; exact hc
          · exact hcut j (by omega)
        · intro hb
          rw [begins_iff hml] at hb
          rw [hb, Bool.and_true] at h1
          exact hin'.1 (by simpa using h1)
        · intro j hj
          by_cases e : j = n
          · rw [e]; exact hc
          · exact hcut j (by omega)

/-- **C17** (lines).  The documentation consists of the lines of the text of the comments that are not markers (trimmed, if there is a block comment), in order: of all those that are kept. -/
theorem C17_lines (docs : List Str) : ∃ asterisk : Bool,
    Select ((textLines (docs.filter fun c => !isMarkerComment c)).map fun l => if asterisk then trimSpace l else l)
      (Kept ((textLines (docs.filter fun c => !isMarkerComment c)).map fun l => if asterisk then trimSpace l else l)) 0 (docLines docs) :=
  ⟨_, keepLines_select _ _ _ 0 false rfl (by simp [fencesIn]) (fun j hj => absurd hj (by omega))⟩

/-! ### Where lines come from -/

theorem trimRight_prefix (p : Char → Bool) (s : Str) : trimRight p s <+: s := by
  induction s with
  | nil => exact List.prefix_refl _
  | cons c s ih =>
    rw [trimRight]
    split
    · split
      · exact List.nil_prefix
      · exact List.prefix_append [c] s
    · obtain ⟨t, ht⟩ := ih
      exact ⟨t, by rw [List.cons_append, ht]⟩

theorem not_mem_trimRight {p : Char → Bool} {s : Str} {c : Char} (h : c ∉ s) : c ∉ trimRight p s := fun h' => h ((trimRight_prefix p s).subset h')

theorem commentLines_newline (c : Str) : ∀ l ∈ commentLines c, '\n' ∉ l := by
  have key : ∀ s : Str, ∀ l ∈ (split '\n' s).map (trimRight isWhitespace), '\n' ∉ l := by
    intro s l hl
    obtain ⟨l', h1, rfl⟩ := List.mem_map.1 hl
    exact not_mem_trimRight (mem_split _ h1)
  unfold commentLines
  split
  · split
    · exact key _
    · split
      · intro l hl; cases hl
      · exact key _
  · exact key _
  · exact key _

theorem collapse_sub (prev : Bool) (ls : List Str) : ∀ l ∈ collapse prev ls, l ∈ ls := by
  induction ls generalizing prev with
  | nil => intro l hl; cases hl
  | cons a ls ih =>
    intro l hl
    match a with
    | [] =>
      rw [collapse] at hl
      split at hl
      · obtain rfl | hl := List.mem_cons.1 hl
        · exact List.mem_cons_self ..
        · exact List.mem_cons_of_mem _ (ih _ l hl)
      · exact List.mem_cons_of_mem _ (ih _ l hl)
    | c :: a =>
      rw [collapse] at hl
      obtain rfl | hl := List.mem_cons.1 hl
      · exact List.mem_cons_self ..
      · exact List.mem_cons_of_mem _ (ih _ l hl)
      · simp

/-- The lines of the text are lines of the comments, or empty. -/
theorem textLines_sub (g : List Str) : ∀ l ∈ textLines g, l = [] ∨ ∃ c ∈ g, l ∈ commentLines c := by
  intro l hl
  have h1 : l ∈ split '\n' (groupText g) := by
    unfold textLines at hl
    simp only at hl
    split at hl
    · exact List.dropLast_subset _ hl
    · exact hl
  have hc : ∀ l ∈ collapse false (g.flatMap commentLines), (∃ c ∈ g, l ∈ commentLines c) := by
    intro l hl
    simpa [List.mem_flatMap] using collapse_sub _ _ l hl
  unfold groupText at h1
  simp only at h1
  generalize hL : (if collapse false (g.flatMap commentLines) ≠ [] ∧ (collapse false (g.flatMap commentLines)).getLast? ≠ some [] then
      collapse false (g.flatMap commentLines) ++ [[]] else collapse false (g.flatMap commentLines)) = L at h1
  have hm : ∀ l ∈ L, l = [] ∨ ∃ c ∈ g, l ∈ commentLines c := by
    intro l hl
    rw [← hL] at hl
    split at hl
    · obtain hl | hl := List.mem_append.1 hl
      · exact .inr (hc l hl)
      · exact .inl (List.mem_singleton.1 hl)
    · exact .inr (hc l hl)
  by_cases hne : L = []
  · rw [hne] at h1
    exact .inl (List.mem_singleton.1 h1)
  · rw [split_join hne] at h1
    · exact hm l h1
    · intro p hp
      obtain rfl | ⟨c, _, h⟩ := hm p hp
      · simp
      · exact commentLines_newline c p h

theorem keepLines_sub (asterisk inside : Bool) (ls : List Str) : ∀ l ∈ keepLines asterisk inside ls, ∃ l' ∈ ls, l = if asterisk then trimSpace l' else l' := by
  induction ls generalizing inside with
  | nil => intro l hl; cases hl
  | cons a ls ih =>
    intro l hl
    rw [keepLines] at hl
    have go : ∀ b, l ∈ keepLines asterisk b ls → ∃ l' ∈ a :: ls, l = if asterisk then trimSpace l' else l' := by
      intro b hb
      obtain ⟨l', h1, h2⟩ := ih b l hb
      exact ⟨l', List.mem_cons_of_mem _ h1, h2⟩
    generalize hline : (if asterisk then trimSpace a else a) = line at hl
    generalize (if isFence line then !inside else inside) = ins at hl
    split at hl
    · exact go _ hl
    · split at hl
      · cases hl
      · obtain rfl | hl := List.mem_cons.1 hl
        · exact ⟨a, List.mem_cons_self .., hline.symm⟩
        · exact go _ hl

/-- **C17** (markers).  Every line of the documentation that is not empty is a line (trimmed or not) of a comment that is not a marker. -/
theorem C17_no_marker (docs : List Str) : ∀ l ∈ docLines docs, l = [] ∨ ∃ c ∈ docs, isMarkerComment c = false ∧ ∃ l' ∈ commentLines c, l = l' ∨ l = trimSpace l' := by
  intro l hl
  obtain ⟨l', h1, h2⟩ := keepLines_sub _ _ _ l hl
  obtain rfl | ⟨c, hc, hm⟩ := textLines_sub _ l' h1
  · left
    rw [h2]
    split <;> rfl
  · right
    rw [List.mem_filter] at hc
    refine ⟨c, hc.1, by simpa using hc.2, l', hm, ?_⟩
    split at h2
    · exact .inr h2
    · exact .inl h2

/-- **C17** (markers have no effect).  Documentation is the same for groups that have the same comments apart from markers. -/
theorem C17_markers_ignored {docs docs' : List Str} (h : docs.filter (fun c => !isMarkerComment c) = docs'.filter fun c => !isMarkerComment c) : docLines docs = docLines docs' := by
  unfold docLines
  rw [h]

/-! ### Groups of line comments -/

theorem trimRight_nil {p : Char → Bool} {s : Str} : trimRight p s = [] ↔ ∀ c ∈ s, p c = true := by
  induction s with
  | nil => simp [trimRight]
  | cons c s ih =>
    rw [trimRight]
    split
    · rename_i h
      have := ih.1 h
      by_cases hc : p c = true
      · rw [if_pos hc]
        exact ⟨fun _ => by simpa [hc] using this, fun _ => rfl⟩
      · rw [if_neg hc]
        exact ⟨fun h => (by cases h), fun h => absurd (h c (List.mem_cons_self ..)) hc⟩
    · rename_i h
      constructor
      · intro h; cases h
      · intro hall
        exact absurd (ih.2 fun c hc => hall c (List.mem_cons_of_mem _ hc)) h

theorem head_trimRight {p : Char → Bool} {s : Str} {c : Char} (h : (trimRight p s).head? = some c) : s.head? = some c := by
  obtain ⟨t, ht⟩ := trimRight_prefix p s
  cases hs : trimRight p s with
  | nil => rw [hs] at h; cases h
  | cons a b =>
    rw [hs] at h ht
    rw [← ht]
    exact h

theorem head_trimRight_of {p : Char → Bool} {s : Str} {c : Char} (h : s.head? = some c) (hc : p c = false) : (trimRight p s).head? = some c := by
  cases s with
  | nil => cases h
  | cons a s =>
    cases h
    rw [trimRight]
    split
    · rw [hc]; rfl
    · rfl

/-- The first character that is not a space is not `+`. -/
def NoPlus (s : Str) : Prop := (s.dropWhile isSpace).head? ≠ some '+'

theorem noPlus_trimSpace {s : Str} : NoPlus s ↔ (trimSpace s).head? ≠ some '+' := by
  unfold NoPlus trimSpace
  constructor
  · exact fun h h' => h (head_trimRight h')
  · exact fun h h' => h (head_trimRight_of h' (by decide))

theorem NoPlus.trimRight {s : Str} (h : NoPlus s) : NoPlus (trimRight isWhitespace s) := by
  unfold NoPlus at h ⊢
  intro h'
  apply h
  obtain ⟨t, ht⟩ := trimRight_prefix isWhitespace s
  rw [← ht]
  have : ∀ u : Str, (u.dropWhile isSpace).head? = some '+' → ((u ++ t).dropWhile isSpace).head? = some '+' := by
    intro u
    induction u with
    | nil => intro h; cases h
    | cons c u ih =>
      intro h
      rw [List.cons_append, List.dropWhile_cons]
      rw [List.dropWhile_cons] at h
      split
      · rename_i hs; rw [if_pos hs] at h; exact ih h
      · rename_i hs; rw [if_neg hs] at h; exact h
  exact this _ h'

theorem NoPlus.trimSpace {s : Str} (h : NoPlus s) : NoPlus (trimSpace s) := by
  unfold NoPlus
  intro h'
  have hd : ∀ u : Str, ∀ c, (u.dropWhile isSpace).head? = some c → isSpace c = false := by
    intro u
    induction u with
    | nil => intro c h; cases h
    | cons a u ih =>
      intro c h
      rw [List.dropWhile_cons] at h
      split at h
      · exact ih c h
      · rename_i hs; cases h; simpa using hs
  cases hs : Doc.trimSpace s with
  | nil => rw [hs] at h'; cases h'
  | cons c t =>
    have : (s.dropWhile isSpace).head? = some c := head_trimRight (p := isSpace) (by rw [show Doc.trimRight isSpace (s.dropWhile isSpace) = _ from hs]; rfl)
    have hc := hd s c this
    rw [hs, List.dropWhile_cons, if_neg (by simp [hc])] at h'
    cases h'
    exact h this

/-- The lines of a line comment that is not a marker. -/
theorem lineComment_noPlus {c : Str} (h1 : "//".toList <+: c) (h2 : '\n' ∉ c) (h3 : isMarkerComment c = false) : ∀ l ∈ commentLines c, NoPlus l := by
  obtain ⟨t, rfl⟩ := h1
  have e : "//".toList ++ t = '/' :: '/' :: t := rfl
  rw [e] at h2 h3 ⊢
  have hn : NoPlus t := by
    rw [noPlus_trimSpace]
    unfold isMarkerComment at h3
    rw [if_neg (by simp)] at h3
    simp only [List.drop_succ_cons, List.drop_zero] at h3
    split at h3
    · rename_i c s hs
      rw [hs]
      simpa using h3
    · rename_i hs; rw [hs]; simp
  have ht : '\n' ∉ t := fun h => h2 (List.mem_cons_of_mem _ (List.mem_cons_of_mem _ h))
  intro l hl
  unfold commentLines at hl
  simp only at hl
  split at hl
  · rename_i c'
    rw [split_not_mem (fun h => ht (List.mem_cons_of_mem _ h)), List.map_singleton, List.mem_singleton] at hl
    rw [hl]
    refine NoPlus.trimRight ?_
    unfold NoPlus at hn ⊢
    rwa [List.dropWhile_cons, if_pos (by decide)] at hn
  · split at hl
    · cases hl
    · rw [split_not_mem ht, List.map_singleton, List.mem_singleton] at hl
      rw [hl]
      exact hn.trimRight

/-- **C17** (line comments).  In the documentation from a group of line comments, no line begins with `+` (after spaces): no marker gets into it. -/
theorem C17_line_comments (docs : List Str) (h : ∀ c ∈ docs, "//".toList <+: c ∧ '\n' ∉ c) : ∀ l ∈ docLines docs, NoPlus l := by
  intro l hl
  obtain rfl | ⟨c, hc, hm, l', hl', e⟩ := C17_no_marker docs l hl
  · simp [NoPlus]
  · have := lineComment_noPlus (h c hc).1 (h c hc).2 hm l' hl'
    obtain rfl | rfl := e
    · exact this
    · exact this.trimSpace

/-- What follows the slashes of a directive: `line `, `extern `, `export `, or a word, a colon and a character of a word. -/
inductive Directive : Str → Prop
  | line (r) : Directive ("line ".toList ++ r)
  | extern (r) : Directive ("extern ".toList ++ r)
  | export (r) : Directive ("export ".toList ++ r)
  | word (a b r) : a ≠ [] → (∀ x ∈ a, ('a' ≤ x ∧ x ≤ 'z') ∨ ('0' ≤ x ∧ x ≤ '9')) → ('a' ≤ b ∧ b ≤ 'z') ∨ ('0' ≤ b ∧ b ≤ '9') → Directive (a ++ ':' :: b :: r)

/-- A text without a space at its beginning. -/
def afterSpace : Str → Str
  | ' ' :: r => r
  | r => r

theorem lowerOrDigit_iff {c : Char} : lowerOrDigit c = true ↔ ('a' ≤ c ∧ c ≤ 'z') ∨ ('0' ≤ c ∧ c ≤ '9') := by
  simp [lowerOrDigit]

theorem isDirective_iff {c : Str} : isDirective c = true ↔ Directive c := by
  unfold isDirective
  simp only [Bool.or_eq_true, List.isPrefixOf_iff_prefix]
  constructor
  · rintro (((⟨r, rfl⟩ | ⟨r, rfl⟩) | ⟨r, rfl⟩) | h)
    · exact .line r
    · exact .extern r
    · exact .export r
    · split at h
      · rename_i a b r hc
        obtain ⟨rfl, -⟩ := cut_some.1 hc
        simp only [Bool.and_eq_true, decide_eq_true_eq, List.all_eq_true] at h
        exact .word a b r h.1.1 (fun x hx => lowerOrDigit_iff.1 (h.1.2 x hx)) (lowerOrDigit_iff.1 h.2)
      · cases h
  · intro h
    cases h with
    | line r => exact .inl (.inl (.inl ⟨r, rfl⟩))
    | extern r => exact .inl (.inl (.inr ⟨r, rfl⟩))
    | «export» r => exact .inl (.inr ⟨r, rfl⟩)
    | word a b r h1 h2 h3 =>
      refine .inr ?_
      have hno : ':' ∉ a := fun h => by
        have := h2 _ h
        revert this; decide
      rw [cut_append hno]
      simp only [Bool.and_eq_true, decide_eq_true_eq, List.all_eq_true]
      exact ⟨⟨h1, fun x hx => lowerOrDigit_iff.2 (h2 x hx)⟩, lowerOrDigit_iff.2 h3⟩

/-- **C17** (what a comment says).  A line comment that is a directive says nothing; any other says its text, without the first space and without white space at its end. -/
theorem C17_comment (c : Str) (h : '\n' ∉ c) : (Directive c → commentLines ("//".toList ++ c) = []) ∧
    (¬ Directive c → commentLines ("//".toList ++ c) = [trimRight isWhitespace (afterSpace c)]) := by
  have e : ∀ c : Str, commentLines ("//".toList ++ c) = match c with
      | ' ' :: c => (split '\n' c).map (trimRight isWhitespace)
      | c => if c ≠ [] ∧ isDirective c then [] else (split '\n' c).map (trimRight isWhitespace) := fun _ => rfl
  rw [e]
  constructor
  · intro hd
    split
    · rename_i r
      exfalso
      revert hd
      generalize hx : ' ' :: r = x
      rintro (_ | _ | _ | ⟨a, b, r', h1, h2, -⟩)
      · simp at hx
      · simp at hx
      · simp at hx
      · cases a with
        | nil => exact h1 rfl
        | cons y a =>
          simp only [List.cons_append, List.cons.injEq] at hx
          have := h2 y (List.mem_cons_self ..)
          rw [← hx.1] at this
          revert this; decide
    · have hne : c ≠ [] := by
        rintro rfl
        generalize hx : ([] : Str) = x at hd
        cases hd <;> simp at hx
      rw [if_pos ⟨hne, isDirective_iff.2 hd⟩]
  · intro hd
    split
    · rename_i r
      rw [split_not_mem (fun h' => h (List.mem_cons_of_mem _ h'))]; rfl
    · rename_i r hr
      rw [if_neg (fun h' => hd (isDirective_iff.1 h'.2)), split_not_mem h, List.map_singleton]
      congr 2
      unfold afterSpace
      split
      · exact absurd rfl (hr _)
      · rfl

example : Directive "go:noinline".toList ∧ ¬ Directive ":x".toList ∧ ¬ Directive "Note: see below".toList := by
  refine ⟨isDirective_iff.1 (by decide +kernel), fun h => ?_, fun h => ?_⟩ <;> exact absurd (isDirective_iff.2 h) (by decide +kernel)

/-- **C17** (which comments).  A type without documentation of its own takes that of its declaration, if this has no parentheses. -/
theorem C17_decl (decl : Option (List Str)) : extractDoc (.typeSpec none decl false) = extractDoc (.genDecl decl) ∧ extractDoc (.typeSpec none decl true) = [] ∧
    ∀ d paren, extractDoc (.typeSpec (some d) decl paren) = extractDoc (.genDecl (some d)) := by
  refine ⟨?_, ?_, fun d paren => ?_⟩ <;> simp [extractDoc, Docced.docs]

/-! ## Examples -/

def sample : List Str := ["// Foo is a thing.", "// TODO: write more", "//", "// +kubebuilder:validation:Minimum=1", "//", "// ```", "// TODO in code", "// --- in code", "// ```", "//   +optional", "// last", "// --- internal", "// hidden"].map (·.toList)

example : docLines sample = ["Foo is a thing.", "", "```", "TODO in code", "--- in code", "```", "last"].map (·.toList) := by decide +kernel

/-- A block comment: what looks like a marker is none, and stays. -/
example : docLines ["/*\nFoo.\n+optional\n*/".toList] = ["Foo.", "+optional"].map (·.toList) := by decide +kernel

end Verif.Markers.Doc
