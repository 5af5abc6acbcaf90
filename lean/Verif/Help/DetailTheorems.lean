import Verif.Help.PrettyTheorems
import Verif.Common.All2
import Verif.Genall.OutputTheorems
/-!
# The details of markers on the terminal (C46)
-/
namespace Verif.Help
open Spec Markers

/-! ### Lines -/

theorem visible_split (x : List Tok) : (Text.split (.ch '\n') x).map visible = Text.split '\n' (visible x) := by
  induction x with
  | nil => rfl
  | cons t x ih =>
    cases t with
    | esc =>
      rw [Text.split_cons, if_neg (by simp)]
      show _ = Text.split '\n' (visible x)
      rw [← ih]
      cases h : Text.split (Tok.ch '\n') x with
      | nil => exact absurd h Text.split_ne_nil
      | cons l ls => rfl
    | ch c =>
      show _ = Text.split '\n' (c :: visible x)
      rw [Text.split_cons, Text.split_cons]
      by_cases h : c = '\n'
      · subst h
        rw [if_pos rfl, if_pos rfl, List.map_cons, ih]; rfl
      · rw [if_neg (by simpa using h), if_neg h, ← ih]
        cases h : Text.split (Tok.ch '\n') x with
        | nil => exact absurd h Text.split_ne_nil
        | cons l ls => rfl

/-- The second lines are the first ones without some tabs. -/
def AfterTabs : List Str → List Str → Prop := All2 fun x y => ∃ k, x = List.replicate k '\t' ++ y

/-- The lines of an indented span are those of the span, after tabs. -/
theorem lines_indented (n : Nat) (s : Span) : AfterTabs (Text.split '\n' (visible (indented n s).out)) (Text.split '\n' (visible s.out)) := by
  have hne : Text.split (.ch '\n') s.out ≠ [] := Text.split_ne_nil
  have h := C47_indent n s _ hne Text.mem_split (by rw [joinLines_eq hne, Text.join_split])
  rw [joinLines_eq (by simpa using hne)] at h
  rw [← visible_split, ← visible_split, h, Text.split_join (by simpa using hne)]
  · generalize Text.split (.ch '\n') s.out = ls
    induction ls with
    | nil => exact .nil
    | cons l ls ih =>
      refine .cons ?_ ih
      unfold tabbed
      by_cases hl : l = []
      · rw [if_pos hl, hl]; exact ⟨0, rfl⟩
      · rw [if_neg hl, visible_append, visible_replicate]; exact ⟨n, rfl⟩
  · intro p hp
    obtain ⟨l, hl, rfl⟩ := List.mem_map.1 hp
    unfold tabbed
    split
    · simp
    · simp only [List.mem_append, List.mem_replicate, not_or]
      exact ⟨by simp, Text.mem_split l hl⟩

theorem AfterTabs.shows {t s : Str} (h : AfterTabs (Text.split '\n' t) (Text.split '\n' s)) : Shows t s := by
  intro l hl _
  obtain ⟨x, hx, k, rfl⟩ := All2.exists_left h hl
  exact ⟨k, hx⟩

theorem split_front {s : Str} (h : '\n' ∉ s) (c : Str) : ∃ a b, Text.split '\n' c = a :: b ∧ Text.split '\n' (s ++ c) = (s ++ a) :: b := by
  induction s with
  | nil =>
    cases hc : Text.split '\n' c with
    | nil => exact absurd hc Text.split_ne_nil
    | cons a b => exact ⟨a, b, rfl, by simpa using hc⟩
  | cons x s ih =>
    obtain ⟨a, b, h1, h2⟩ := ih (fun hm => h (List.mem_cons_of_mem _ hm))
    refine ⟨a, b, h1, ?_⟩
    rw [List.cons_append, Text.split_cons, if_neg (fun e => h (by simp [e])), h2]
    rfl

theorem split_back (s c : Str) : ∃ l x a b, Text.split '\n' s = l ++ [x] ∧ Text.split '\n' c = a :: b ∧ Text.split '\n' (s ++ c) = l ++ (x ++ a) :: b := by
  rcases Text.last_sep '\n' s with h | ⟨s1, s2, rfl, h⟩
  · obtain ⟨a, b, h1, h2⟩ := split_front h c
    exact ⟨[], s, a, b, by rw [Text.split_not_mem h]; rfl, h1, h2⟩
  · obtain ⟨a, b, h1, h2⟩ := split_front h c
    refine ⟨Text.split '\n' s1, s2, a, b, Text.split_concat h, h1, ?_⟩
    rw [List.append_assoc, List.cons_append, Genall.split_sep, h2]

theorem AfterTabs.append {t s : Str} (h : AfterTabs (Text.split '\n' t) (Text.split '\n' s)) (c : Str) :
    AfterTabs (Text.split '\n' (t ++ c)) (Text.split '\n' (s ++ c)) := by
  obtain ⟨l, x, a, b, h1, h2, h3⟩ := split_back t c
  obtain ⟨l', x', a', b', h1', h2', h3'⟩ := split_back s c
  rw [h2] at h2'
  cases h2'
  rw [h1, h1'] at h
  rw [h3, h3']
  have hlen : l.length = l'.length := by simpa using h.length_eq
  clear h1 h2 h3 h1' h3'
  have hrefl : ∀ b : List Str, AfterTabs b b := by
    intro b
    induction b with
    | nil => exact .nil
    | cons y b ih => exact .cons ⟨0, rfl⟩ ih
  induction l generalizing l' with
  | nil =>
    cases l' with
    | nil =>
      cases h with
      | cons hx _ =>
        obtain ⟨k, rfl⟩ := hx
        exact .cons ⟨k, by simp⟩ (hrefl b)
    | cons _ _ => simp at hlen
  | cons y l ih =>
    cases l' with
    | nil => simp at hlen
    | cons y' l' =>
      cases h with
      | cons hy h => exact .cons hy (ih l' h (by simpa using hlen))

/-- Of a list of spans that begin with a newline, all the lines are lines of the whole. -/
theorem lines_flatMap {l : List Span} (h : ∀ s ∈ l, ∃ v, visible s.out = '\n' :: v) {w : Str} (hw : visible (l.flatMap (·.out)) = '\n' :: w)
    {s : Span} (hs : s ∈ l) {x : Str} (hx : x ∈ Text.split '\n' (visible s.out)) (hne : x ≠ []) : x ∈ Text.split '\n' w := by
  have drop : ∀ {v : Str}, x ∈ Text.split '\n' ('\n' :: v) → x ∈ Text.split '\n' v := by
    intro v hv
    rw [Text.split_cons, if_pos rfl] at hv
    rcases List.mem_cons.1 hv with rfl | hv
    · exact absurd rfl hne
    · exact hv
  suffices x ∈ Text.split '\n' (visible (l.flatMap (·.out))) by rw [hw] at this; exact drop this
  clear hw
  induction l with
  | nil => cases hs
  | cons a l ih =>
    rw [List.flatMap_cons, visible_append]
    cases l with
    | nil =>
      rcases List.mem_cons.1 hs with rfl | hs
      · simpa [visible] using hx
      · cases hs
    | cons b l =>
      obtain ⟨v, hv⟩ : ∃ v, visible ((b :: l).flatMap (·.out)) = '\n' :: v := by
        obtain ⟨v, hv⟩ := h b (by simp)
        exact ⟨v ++ visible (l.flatMap (·.out)), by rw [List.flatMap_cons, visible_append, hv]; rfl⟩
      rw [hv, Genall.split_sep]
      rcases List.mem_cons.1 hs with rfl | hs
      · exact List.mem_append_left _ hx
      · have := ih (fun s hs => h s (List.mem_cons_of_mem _ hs)) hs
        rw [hv] at this
        exact List.mem_append_right _ (drop this)

theorem shows_flatMap {l : List Span} (h : ∀ s ∈ l, ∃ v, visible s.out = '\n' :: v) {w : Str} (hw : visible (l.flatMap (·.out)) = '\n' :: w)
    {s : Span} (hs : s ∈ l) {t : Str} (ht : Shows (visible s.out) t) : Shows w t := by
  intro x hx hne
  obtain ⟨n, hn⟩ := ht x hx hne
  exact ⟨n, lines_flatMap h hw hs hn (by simp [hne])⟩

theorem visible_line (s : Span) : visible (line s).out = '\n' :: visible s.out := by
  simp only [line, lines, linesPadding_eq, visible_append]
  rfl

theorem visible_newlines (n : Nat) : visible (newlines n).out = List.replicate n '\n' := by
  simp only [newlines, lines, linesPadding_eq, visible_append, visible_replicate, visible, List.append_nil]

/-- An indented line begins with a newline. -/
theorem indented_starts (n : Nat) (s : Span) : ∃ v, visible (indented n (line s)).out = '\n' :: v := by
  have hl : (line s).out = .ch '\n' :: s.out := by simp [line, lines, linesPadding_eq]
  simp only [indented, hl]
  rw [Text.split_cons, if_pos rfl]
  cases h : Text.split (Tok.ch '\n') s.out with
  | nil => exact absurd h Text.split_ne_nil
  | cons a b => exact ⟨_, rfl⟩

theorem shows_cons {t s : Str} (h : Shows t ('\n' :: s)) : Shows t s := by
  intro l hl hne
  exact h l (by rw [Text.split_cons, if_pos rfl]; exact List.mem_cons_of_mem _ hl) hne

/-- An indented line shows its text. -/
theorem indented_shows (n : Nat) (s : Span) : Shows (visible (indented n (line s)).out) (visible s.out) := by
  have := (lines_indented n (line s)).shows
  rw [visible_line] at this
  exact shows_cons this

theorem shows_nil (t : Str) : Shows t [] := by
  intro l hl hne
  simp [Text.split] at hl
  exact absurd hl hne

theorem visible_fieldSyntax (f : FieldDoc) (sep : Str) : visible (fieldSyntax f sep).out = argText sep f := by
  unfold fieldSyntax argText typeText
  split <;> simp [fromWriter, visible_toks]

/-! ### One marker -/

theorem lines_rows {α : Type} (f : α → Str) (rows : List α) {r : α} (hr : r ∈ rows) {x : Str} (hx : x ∈ Text.split '\n' (f r)) :
    x ∈ Text.split '\n' (rows.flatMap fun r => f r ++ ['\n']) := by
  induction rows with
  | nil => cases hr
  | cons a rows ih =>
    rw [List.flatMap_cons, List.append_assoc, List.singleton_append, Genall.split_sep]
    rcases List.mem_cons.1 hr with rfl | hr
    · exact List.mem_append_left _ hx
    · exact List.mem_append_right _ (ih hr)

/-- A table of two columns, indented after an empty line, shows its rows. -/
theorem table_shows (rows : List (Span × Span)) : ∃ t, Table.span { padding := 2, rows := rows.map fun r => Row.cells [r.1, r.2] } = some t ∧
    ∀ r ∈ rows, ∃ j k, Shows (visible (spans [newlines 1, indented 1 t]).out)
      (visible r.1.out ++ List.replicate (j + 2) ' ' ++ visible r.2.out ++ List.replicate k ' ') := by
  obtain ⟨W, h1, h2, h3, _⟩ := C47_table 2 (rows.map fun r => [r.1, r.2])
  rw [List.map_map] at h1
  refine ⟨_, h1, ?_⟩
  intro r hr
  have hm := List.mem_map_of_mem (f := fun r : Span × Span => [r.1, r.2]) hr
  have hlen := h2 _ hm
  obtain ⟨w1, w2, rest, rfl⟩ : ∃ w1 w2 rest, W = w1 :: w2 :: rest := by
    match W, hlen with
    | w1 :: w2 :: rest, _ => exact ⟨w1, w2, rest, rfl⟩
  have b1 := (h3 0 w1 rfl).1 _ hm r.1 rfl
  refine ⟨w1 - r.1.len - 2, w2 - r.2.len, ?_⟩
  rw [show w1 - r.1.len - 2 + 2 = w1 - r.1.len by omega]
  intro x hx hne
  have hin : x ∈ Text.split '\n' (visible ((rows.map fun r => [r.1, r.2]).flatMap fun r => layout (w1 :: w2 :: rest) r ++ [.ch '\n'])) := by
    rw [visible_flatMap]
    simp only [visible_append, visible]
    refine lines_rows (fun r => visible (layout (w1 :: w2 :: rest) r)) _ hm ?_
    simpa [layout, visible_append, visible_replicate, visible] using hx
  obtain ⟨n, hn⟩ := (lines_indented 1 ⟨(w1 :: w2 :: rest).sum, _⟩).shows x hin hne
  refine ⟨n, ?_⟩
  rw [visible_spans]
  simp only [List.flatMap_cons, List.flatMap_nil, List.append_nil, visible_newlines]
  rw [show List.replicate 1 '\n' = ['\n'] from rfl, List.singleton_append, Text.split_cons, if_pos rfl]
  exact List.mem_cons_of_mem _ hn

theorem starts_cons {s : Span} {rest : List Span} (h : ∃ v, visible s.out = '\n' :: v) : ∃ w, visible ((s :: rest).flatMap (·.out)) = '\n' :: w := by
  obtain ⟨v, hv⟩ := h
  exact ⟨v ++ visible (rest.flatMap (·.out)), by rw [List.flatMap_cons, visible_append, hv]; rfl⟩

theorem newlines_starts : ∃ v, visible (newlines 1).out = '\n' :: v := ⟨[], visible_newlines 1⟩

/-- The pieces after the line with the name of the marker: their text is `\n` and a text that explains the marker. -/
def Good (full : Bool) (m : MarkerDoc) (P : List Span) : Prop := ∃ w, visible (P.flatMap (·.out)) = '\n' :: w ∧ Explains full m w

theorem good_anonymous (full : Bool) (m : MarkerDoc) (f : FieldDoc) (hf : m.fields = [f]) (hn : f.name = []) (D : List Span)
    (hD : D = if m.text.details ≠ [] ∧ full = true then [indented 2 (line (text m.text.details))] else []) :
    Good full m ([indented 1 (line (decorated (fieldSyntax f []))), text "  ".toList, summaryOf m] ++ D ++ [newlines 1]) := by
  have hanon : m.anonymousField = true := by simp [MarkerDoc.anonymousField, hf, hn]
  let first := spans [indented 1 (line (decorated (fieldSyntax f []))), text "  ".toList, summaryOf m]
  have hout : ([indented 1 (line (decorated (fieldSyntax f []))), text "  ".toList, summaryOf m] ++ D ++ [newlines 1]).flatMap (·.out) =
      (first :: (D ++ [newlines 1])).flatMap (·.out) := by
    simp [first, spans]
  have hfirst : visible first.out = visible (indented 1 (line (decorated (fieldSyntax f [])))).out ++ ("  ".toList ++ summaryText m) := by
    simp only [first, visible_spans, List.flatMap_cons, List.flatMap_nil, List.append_nil, visible_text, visible_summary]
  have hs1 : ∃ v, visible first.out = '\n' :: v := by
    obtain ⟨v, hv⟩ := indented_starts 1 (decorated (fieldSyntax f []))
    exact ⟨v ++ ("  ".toList ++ summaryText m), by rw [hfirst, hv]; rfl⟩
  have hall : ∀ s ∈ first :: (D ++ [newlines 1]), ∃ v, visible s.out = '\n' :: v := by
    intro s hs
    rcases List.mem_cons.1 hs with rfl | hs
    · exact hs1
    · rcases List.mem_append.1 hs with hs | hs
      · rw [hD] at hs
        split at hs
        · rw [List.mem_singleton.1 hs]; exact indented_starts _ _
        · cases hs
      · rw [List.mem_singleton.1 hs]; exact newlines_starts
  obtain ⟨w, hw⟩ := starts_cons (rest := D ++ [newlines 1]) hs1
  refine ⟨w, by rw [hout, hw], ?_⟩
  constructor
  · intro h; exact absurd hn (h f hf)
  · intro g hg _
    rw [hf] at hg
    cases hg
    refine shows_flatMap hall hw (List.mem_cons_self ..) ?_
    have h := ((lines_indented 1 (line (decorated (fieldSyntax f [])))).append ("  ".toList ++ summaryText m)).shows
    rw [← hfirst, visible_line, visible_decorated, visible_fieldSyntax] at h
    rw [List.append_assoc]
    exact shows_cons h
  · intro hfull
    by_cases hd : m.text.details = []
    · rw [hd]; exact shows_nil _
    · have hmem : indented 2 (line (text m.text.details)) ∈ first :: (D ++ [newlines 1]) := by
        rw [hD, if_pos ⟨hd, hfull⟩]; simp
      have := indented_shows 2 (text m.text.details)
      rw [visible_text] at this
      exact shows_flatMap hall hw hmem this
  · intro _ h; rw [hanon] at h; cases h
  · intro _ h; rw [hanon] at h; cases h

theorem not_anonymous {m : MarkerDoc} (h : m.anonymousField = false) : ∀ f, m.fields = [f] → f.name ≠ [] := by
  intro f hf hn
  simp [MarkerDoc.anonymousField, hf, hn] at h

/-- Markers whose arguments have names, or that have none. -/
theorem good_named (full : Bool) (m : MarkerDoc) (hanon : m.anonymousField = false) (D A : List Span)
    (hD : D = if m.text.details ≠ [] ∧ full = true then [indented 1 (line (text m.text.details))] else [])
    (hA : ∀ s ∈ A, ∃ v, visible s.out = '\n' :: v)
    (hargs : full = true → ∀ f ∈ m.fields, (∃ s ∈ A, Shows (visible s.out) (argText [] f)) ∧ (∃ s ∈ A, Shows (visible s.out) f.text.summary) ∧
      (f.text.details ≠ [] → ∃ s ∈ A, Shows (visible s.out) f.text.details))
    (htable : full = false → ∀ f ∈ m.fields, ∃ j k, ∃ s ∈ A, Shows (visible s.out)
      (argText [] f ++ List.replicate (j + 2) ' ' ++ f.text.summary ++ List.replicate k ' ')) :
    Good full m ([indented 1 (line (summaryOf m))] ++ D ++ A) := by
  have hall : ∀ s ∈ indented 1 (line (summaryOf m)) :: (D ++ A), ∃ v, visible s.out = '\n' :: v := by
    intro s hs
    rcases List.mem_cons.1 hs with rfl | hs
    · exact indented_starts _ _
    · rcases List.mem_append.1 hs with hs | hs
      · rw [hD] at hs
        split at hs
        · rw [List.mem_singleton.1 hs]; exact indented_starts _ _
        · cases hs
      · exact hA s hs
  obtain ⟨w, hw⟩ := starts_cons (rest := D ++ A) (indented_starts 1 (summaryOf m))
  have hin : ∀ s ∈ A, s ∈ indented 1 (line (summaryOf m)) :: (D ++ A) := fun s hs => List.mem_cons_of_mem _ (List.mem_append_right _ hs)
  refine ⟨w, by simpa using hw, ?_⟩
  constructor
  · intro _
    have := indented_shows 1 (summaryOf m)
    rw [visible_summary] at this
    exact shows_flatMap hall hw (List.mem_cons_self ..) this
  · intro f hf hn
    exact absurd hn (not_anonymous hanon f hf)
  · intro hfull
    by_cases hd : m.text.details = []
    · rw [hd]; exact shows_nil _
    · have hmem : indented 1 (line (text m.text.details)) ∈ indented 1 (line (summaryOf m)) :: (D ++ A) := by
        rw [hD, if_pos ⟨hd, hfull⟩]; simp
      have := indented_shows 1 (text m.text.details)
      rw [visible_text] at this
      exact shows_flatMap hall hw hmem this
  · intro hfull _ f hf
    obtain ⟨⟨s1, h1, h1'⟩, ⟨s2, h2, h2'⟩, h3⟩ := hargs hfull f hf
    refine ⟨shows_flatMap hall hw (hin s1 h1) h1', shows_flatMap hall hw (hin s2 h2) h2', ?_⟩
    by_cases hd : f.text.details = []
    · rw [hd]; exact shows_nil _
    · obtain ⟨s3, h3, h3'⟩ := h3 hd
      exact shows_flatMap hall hw (hin s3 h3) h3'
  · intro hfull _ f hf
    obtain ⟨j, k, s, h, h'⟩ := htable hfull f hf
    exact ⟨j, k, shows_flatMap hall hw (hin s h) h'⟩

/-- The pieces for the arguments in full. -/
def argPieces (fields : List FieldDoc) : List Span :=
  fields.flatMap fun arg => [indented 1 (line (decorated (fieldSyntax arg []))), indented 2 (line (text arg.text.summary))] ++
    if arg.text.details ≠ [] then [indented 2 (line (text arg.text.details)), newlines 1] else []

theorem argPieces_starts (fields : List FieldDoc) : ∀ s ∈ argPieces fields, ∃ v, visible s.out = '\n' :: v := by
  intro s hs
  obtain ⟨f, _, hs⟩ := List.mem_flatMap.1 hs
  rcases List.mem_append.1 hs with hs | hs
  · simp only [List.mem_cons, List.not_mem_nil, or_false] at hs
    rcases hs with rfl | rfl <;> exact indented_starts _ _
  · split at hs
    · simp only [List.mem_cons, List.not_mem_nil, or_false] at hs
      rcases hs with rfl | rfl
      · exact indented_starts _ _
      · exact newlines_starts
    · cases hs

theorem argPieces_show {fields : List FieldDoc} {f : FieldDoc} (hf : f ∈ fields) :
    (∃ s ∈ argPieces fields, Shows (visible s.out) (argText [] f)) ∧ (∃ s ∈ argPieces fields, Shows (visible s.out) f.text.summary) ∧
      (f.text.details ≠ [] → ∃ s ∈ argPieces fields, Shows (visible s.out) f.text.details) := by
  refine ⟨⟨indented 1 (line (decorated (fieldSyntax f []))), List.mem_flatMap.2 ⟨f, hf, by simp⟩, ?_⟩,
    ⟨indented 2 (line (text f.text.summary)), List.mem_flatMap.2 ⟨f, hf, by simp⟩, ?_⟩, fun hd =>
    ⟨indented 2 (line (text f.text.details)), List.mem_flatMap.2 ⟨f, hf, by simp [hd]⟩, ?_⟩⟩
  · have := indented_shows 1 (decorated (fieldSyntax f []))
    rwa [visible_decorated, visible_fieldSyntax] at this
  · have := indented_shows 2 (text f.text.summary)
    rwa [visible_text] at this
  · have := indented_shows 2 (text f.text.details)
    rwa [visible_text] at this

theorem markerDetails_some (full : Bool) (m : MarkerDoc) : ∃ l, markerDetails full m = some l ∧
    ∃ w, visible (l.flatMap (·.out)) = "\n+".toList ++ m.name ++ ' ' :: m.target ++ '\n' :: w ∧ Explains full m w := by
  have hhead : visible (([line (markerName m), text " ".toList, decorated (text m.target)] : List Span).flatMap (·.out)) =
      "\n+".toList ++ m.name ++ ' ' :: m.target := by
    simp only [List.flatMap_cons, List.flatMap_nil, visible_append, visible_decorated, visible_text, visible_line, markerName, visible]
    simp
  suffices h : ∃ P, markerDetails full m = some ([line (markerName m), text " ".toList, decorated (text m.target)] ++ P) ∧ Good full m P by
    obtain ⟨P, h1, w, h2, h3⟩ := h
    exact ⟨_, h1, w, by rw [List.flatMap_append, visible_append, hhead, h2], h3⟩
  by_cases hanon : m.anonymousField = true
  · have hf : ∃ f, m.fields = [f] ∧ f.name = [] := by
      unfold MarkerDoc.anonymousField at hanon
      split at hanon
      · rename_i f h; exact ⟨f, h, by simpa using hanon⟩
      · cases hanon
    obtain ⟨f, hf, hn⟩ := hf
    refine ⟨_, ?_, good_anonymous full m f hf hn _ rfl⟩
    unfold markerDetails
    rw [hf, hanon]
    simp only [List.append_assoc]
  · simp only [Bool.not_eq_true] at hanon
    have hsel : markerDetails full m =
        if m.fields = [] then some ([line (markerName m), text " ".toList, decorated (text m.target)] ++ [indented 1 (line (summaryOf m))] ++
            (if m.text.details ≠ [] ∧ full then [indented 1 (line (text m.text.details))] else []) ++ [newlines 1])
        else if full then some ([line (markerName m), text " ".toList, decorated (text m.target)] ++ [indented 1 (line (summaryOf m))] ++
            (if m.text.details ≠ [] ∧ full then [indented 1 (line (text m.text.details))] else []) ++ [newlines 1] ++ argPieces m.fields ++ [newlines 1])
        else match Table.span { padding := 2, rows := m.fields.map fun arg => .cells [decorated (fieldSyntax arg []), text arg.text.summary] } with
          | none => none
          | some t => some ([line (markerName m), text " ".toList, decorated (text m.target)] ++ [indented 1 (line (summaryOf m))] ++
            (if m.text.details ≠ [] ∧ full then [indented 1 (line (text m.text.details))] else []) ++ [newlines 1] ++ [indented 1 t]) := by
      unfold markerDetails argPieces
      rw [hanon]
      cases m.fields <;> rfl
    rw [hsel]
    by_cases h0 : m.fields = []
    · rw [if_pos h0]
      refine ⟨[indented 1 (line (summaryOf m))] ++ (if m.text.details ≠ [] ∧ full = true then [indented 1 (line (text m.text.details))] else []) ++ [newlines 1],
        congrArg some (by simp only [List.append_assoc]), ?_⟩
      refine good_named full m hanon _ _ rfl ?_ ?_ ?_
      · intro s hs; rw [List.mem_singleton.1 hs]; exact newlines_starts
      · intro _ f hf; rw [h0] at hf; cases hf
      · intro _ f hf; rw [h0] at hf; cases hf
    · rw [if_neg h0]
      cases full with
      | true =>
        rw [if_pos rfl]
        refine ⟨[indented 1 (line (summaryOf m))] ++ (if m.text.details ≠ [] ∧ true = true then [indented 1 (line (text m.text.details))] else []) ++
          ([newlines 1] ++ argPieces m.fields ++ [newlines 1]), congrArg some (by simp only [List.append_assoc]), ?_⟩
        refine good_named true m hanon _ _ rfl ?_ ?_ ?_
        · intro s hs
          simp only [List.mem_append, List.mem_singleton] at hs
          rcases hs with (rfl | hs) | rfl
          · exact newlines_starts
          · exact argPieces_starts _ s hs
          · exact newlines_starts
        · intro _ f hf
          obtain ⟨⟨s1, h1, h1'⟩, ⟨s2, h2, h2'⟩, h3⟩ := argPieces_show hf
          refine ⟨⟨s1, by simp [h1], h1'⟩, ⟨s2, by simp [h2], h2'⟩, fun hd => ?_⟩
          obtain ⟨s3, h3, h3'⟩ := h3 hd
          exact ⟨s3, by simp [h3], h3'⟩
        · intro h; cases h
      | false =>
        rw [if_neg (by simp)]
        obtain ⟨t, ht, hrows⟩ := table_shows (m.fields.map fun arg => (decorated (fieldSyntax arg []), text arg.text.summary))
        rw [List.map_map] at ht
        rw [show (m.fields.map fun arg => Row.cells [decorated (fieldSyntax arg []), text arg.text.summary]) =
          m.fields.map ((fun r : Span × Span => Row.cells [r.1, r.2]) ∘ fun arg => (decorated (fieldSyntax arg []), text arg.text.summary)) from rfl, ht]
        refine ⟨[indented 1 (line (summaryOf m))] ++ (if m.text.details ≠ [] ∧ false = true then [indented 1 (line (text m.text.details))] else []) ++
          ([newlines 1] ++ [indented 1 t]), congrArg some (by simp only [List.append_assoc]), ?_⟩
        have hg := good_named false m hanon _ [spans [newlines 1, indented 1 t]] rfl ?_ ?_ ?_
        · obtain ⟨w, h1, h2⟩ := hg
          refine ⟨w, ?_, h2⟩
          rw [← h1]
          simp [spans]
        · intro s hs
          rw [List.mem_singleton.1 hs]
          exact ⟨visible (indented 1 t).out, by
            rw [visible_spans]
            simp only [List.flatMap_cons, List.flatMap_nil, List.append_nil, visible_newlines]; rfl⟩
        · intro h; cases h
        · intro _ f hf
          obtain ⟨j, k, h⟩ := hrows _ (List.mem_map_of_mem hf)
          simp only [visible_decorated, visible_fieldSyntax, visible_text] at h
          exact ⟨j, k, _, List.mem_singleton.2 rfl, h⟩

/-- A text that ends, or goes on with a new line. -/
def Spec.EndsHere (post : Str) : Prop := post = [] ∨ post.head? = some '\n'

/-- The part of a text that is about a marker: a line with its name and its target, then lines that explain it. -/
def Spec.Describes (full : Bool) (m : MarkerDoc) (t : Str) : Prop :=
  ∃ pre w post, t = pre ++ "\n+".toList ++ m.name ++ ' ' :: m.target ++ '\n' :: w ++ post ∧ EndsHere post ∧ Explains full m w

theorem Spec.Describes.inside {full : Bool} {m : MarkerDoc} {t : Str} (h : Describes full m t) (pre : Str) {post : Str} (hp : EndsHere post) :
    Describes full m (pre ++ t ++ post) := by
  obtain ⟨pre', w, post', rfl, h1, h2⟩ := h
  refine ⟨pre ++ pre', w, post' ++ post, by simp, ?_, h2⟩
  rcases h1 with rfl | h1
  · exact hp
  · cases post' with
    | nil => cases h1
    | cons c post' => exact .inr h1

theorem detailsLoop_some (full : Bool) (ms : List MarkerDoc) : ∃ l, detailsLoop full ms = some l ∧ EndsHere (visible (l.flatMap (·.out))) ∧
    ∀ m ∈ ms, Describes full m (visible (l.flatMap (·.out))) := by
  induction ms with
  | nil => exact ⟨[], rfl, .inl rfl, by simp⟩
  | cons m ms ih =>
    obtain ⟨l, h1, hend, h2⟩ := ih
    obtain ⟨k, h3, w, h4, h5⟩ := markerDetails_some full m
    refine ⟨k ++ l, by simp [detailsLoop, h1, h3], ?_, ?_⟩
    · rw [List.flatMap_append, visible_append, h4]; exact .inr rfl
    intro x hx
    rw [List.flatMap_append, visible_append]
    rcases List.mem_cons.1 hx with rfl | hx
    · exact ⟨[], w, visible (l.flatMap (·.out)), by rw [h4]; simp, hend, h5⟩
    · simpa using (h2 x hx).inside (visible (k.flatMap (·.out))) (post := []) (.inl rfl)

theorem markersDetails_some (full : Bool) (g : Str) (ms : List MarkerDoc) : ∃ s, markersDetails full g ms = some s ∧
    (∃ rest, visible s.out = '\n' :: g ++ '\n' :: rest) ∧ ∀ m ∈ ms, Describes full m (visible s.out) := by
  obtain ⟨l, h1, hend, h2⟩ := detailsLoop_some full ms
  have hv : visible (spans ([line (decorated (text g)), newlines 2] ++ l)).out = '\n' :: g ++ "\n\n".toList ++ visible (l.flatMap (·.out)) := by
    simp only [spans, List.flatMap_append, visible_append, List.flatMap_cons, List.flatMap_nil, visible_line, visible_decorated, visible_text, visible_newlines, visible]
    simp
  refine ⟨_, by simp only [markersDetails, h1]; rfl, ⟨_, by rw [hv]; simp; rfl⟩, ?_⟩
  intro m hm
  rw [hv]
  simpa using (h2 m hm).inside ('\n' :: g ++ "\n\n".toList) (post := []) (.inl rfl)

theorem printDetails_some (full : Bool) (cats : List CategoryDoc) : ∃ out, printCats (markersDetails full) cats = some out ∧ EndsHere (visible out) ∧
    ∀ c ∈ cats, c.category ≠ [] → Contains (visible out) ('\n' :: c.category ++ ['\n']) ∧ ∀ m ∈ c.markers, Describes full m (visible out) := by
  induction cats with
  | nil => exact ⟨[], rfl, .inl rfl, by simp⟩
  | cons c cs ih =>
    obtain ⟨out, h1, hend, h2⟩ := ih
    by_cases hc : c.category = []
    · refine ⟨out, by simp only [printCats]; rw [if_pos hc]; exact h1, hend, ?_⟩
      intro x hx hne
      rcases List.mem_cons.1 hx with rfl | hx
      · exact absurd hc hne
      · exact h2 x hx hne
    · obtain ⟨s, hs, ⟨rest, hv⟩, hm⟩ := markersDetails_some full c.category c.markers
      refine ⟨s.out ++ out, by simp only [printCats]; rw [if_neg hc, hs, h1], ?_, ?_⟩
      · rw [visible_append, hv]; exact .inr rfl
      intro x hx hne
      rw [visible_append]
      rcases List.mem_cons.1 hx with rfl | hx
      · refine ⟨⟨[], rest ++ visible out, by rw [hv]; simp⟩, fun m hmm => ?_⟩
        simpa using (hm m hmm).inside [] hend
      · obtain ⟨⟨p, q, e⟩, hd⟩ := h2 x hx hne
        refine ⟨⟨visible s.out ++ p, q, by rw [e]; simp⟩, fun m hmm => ?_⟩
        simpa using (hd m hmm).inside (visible s.out) (post := []) (.inl rfl)

/-- **C46, the details of a registry**, at both levels: every category with a name has a line, and every marker in it has a line with its name and its target, followed by
lines with its summary and its arguments; and with all details at level three. -/
theorem C46_details (σ : Sched) (r : HelpRegistry) (s : Sorter) (level : Nat) (hl : level = 2 ∨ level = 3) :
    ∃ out, helpForLevels σ level r s = some (.text out) ∧
    ∀ c ∈ byCategory σ r s, c.category ≠ [] → Contains (visible out) ('\n' :: c.category ++ ['\n']) ∧
      ∀ m ∈ c.markers, Describes (level = 3) m (visible out) := by
  rcases hl with rfl | rfl
  · obtain ⟨out, h1, _, h2⟩ := printDetails_some false (byCategory σ r s)
    exact ⟨out, by simp [helpForLevels, h1], h2⟩
  · obtain ⟨out, h1, _, h2⟩ := printDetails_some true (byCategory σ r s)
    exact ⟨out, by simp [helpForLevels, h1], h2⟩

/-! ## Example -/
namespace Example

/-- Help for a marker with two arguments. -/
def someHelp : DefHelp where
  category := "cat".toList
  text := ⟨"limits it.".toList, "More.\n\nAnd more.".toList⟩
  deprecated := some "b".toList
  fieldHelp := [("Max".toList, ⟨"is the limit".toList, "at most 7".toList⟩)]

def helped : List Op := [.register (marker "a" .type 0), .addHelp 0 someHelp]

def shownAt (level : Nat) : Str :=
  match helpForLevels .fifo level (HelpRegistry.after helped) .byCategory with
  | some (.text o) => visible o
  | _ => []

example : shownAt 2 = "\ncat\n\n\n+a type\n\t(use b) limits it.\n\tby=<string>                \n\t[max=<int>]  is the limit  \n".toList := by decide +kernel

example : shownAt 3 =
    ("\ncat\n\n\n+a type\n\t(use b) limits it.\n\tMore.\n\n\tAnd more.\n\n\tby=<string>\n\n\t[max=<int>]\n\t\tis the limit\n\t\tat most 7\n\n").toList := by
  decide +kernel

end Example

end Verif.Help
