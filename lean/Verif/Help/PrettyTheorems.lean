import Verif.Help.Pretty
import Verif.Help.Examples
/-!
# Theorems about help on the terminal (C46, C47, C64)

The specification is at the top.
-/
namespace Verif.Help
open Spec Markers

namespace Spec

/-! ## Specification -/

/-- What can be seen of some output. -/
def visible : List Tok → Str
  | [] => []
  | .ch c :: l => c :: visible l
  | .esc :: l => visible l

/-- The room it takes on a line. -/
def width (l : List Tok) : Nat := (visible l).length

/-- A span that is a piece of one line and knows its width. -/
def OneLine (s : Span) : Prop := s.len = width s.out ∧ Tok.ch '\n' ∉ s.out

/-- A line of a table: every cell is followed by spaces that fill its column. -/
def layout : List Nat → List Span → List Tok
  | _, [] => []
  | [], c :: cs => c.out ++ layout [] cs
  | w :: ws, c :: cs => c.out ++ List.replicate (w - c.len) (.ch ' ') ++ layout ws cs

/-- `w` is the size of the largest cell of column `j`, and the padding. -/
def Widest (rows : List (List Span)) (padding j w : Nat) : Prop :=
  (∀ r ∈ rows, ∀ c, r[j]? = some c → c.len + padding ≤ w) ∧ ∃ r ∈ rows, ∃ c, r[j]? = some c ∧ c.len + padding = w

/-- The cells of the row begin where their columns begin. -/
def InColumns (W : List Nat) (row : List Span) (l : List Tok) : Prop :=
  ∀ j c, row[j]? = some c → ∃ pre post, l = pre ++ c.out ++ post ∧ width pre = (W.take j).sum

/-- Lines are joined with newlines. -/
def joinLines : List (List Tok) → List Tok
  | [] => []
  | [l] => l
  | l :: ls => l ++ .ch '\n' :: joinLines ls

/-- A line that is not empty, after some tabs. -/
def tabbed (n : Nat) (l : List Tok) : List Tok := if l = [] then [] else List.replicate n (.ch '\t') ++ l

/-- How the use of an argument is shown: `name=<type>`, in brackets if it is optional. -/
def argText (sep : Str) (f : FieldDoc) : Str :=
  if f.arg.optional then "[".toList ++ (sep ++ f.name ++ "=<".toList ++ (f.arg.typeString.getD []) ++ ">".toList) ++ "]".toList
  else sep ++ f.name ++ "=<".toList ++ (f.arg.typeString.getD []) ++ ">".toList

/-- How the use of a marker is shown: `+name`, then `:` and the arguments separated by commas; an argument without a name follows directly. -/
def syntaxText (d : MarkerDoc) : Str :=
  '+' :: d.name ++
  match d.fields with
  | [] => []
  | f :: fs => argText (if f.name = [] ∧ fs = [] then [] else ":".toList) f ++ fs.flatMap (argText ",".toList)

/-- The summary of a marker, after the replacement of a deprecated one. -/
def summaryText (d : MarkerDoc) : Str :=
  match d.deprecated with
  | some (c :: f) => "(use ".toList ++ (c :: f) ++ ") ".toList ++ d.text.summary
  | _ => d.text.summary

/-- Every line of `s` that is not empty is a line of `t`, perhaps after tabs. -/
def Shows (t s : Str) : Prop := ∀ l ∈ Text.split '\n' s, l ≠ [] → ∃ n, List.replicate n '\t' ++ l ∈ Text.split '\n' t

/-- What the details of a marker show after the line with its name: its summary and each of its arguments with its summary; and the details of both, if they are to be
full. -/
structure Explains (full : Bool) (d : MarkerDoc) (t : Str) : Prop where
  summary : (∀ f, d.fields = [f] → f.name ≠ []) → Shows t (summaryText d)
  anonymous : ∀ f, d.fields = [f] → f.name = [] → Shows t (argText [] f ++ "  ".toList ++ summaryText d)
  details : full = true → Shows t d.text.details
  args : full = true → d.anonymousField = false → ∀ f ∈ d.fields, Shows t (argText [] f) ∧ Shows t f.text.summary ∧ Shows t f.text.details
  table : full = false → d.anonymousField = false → ∀ f ∈ d.fields, ∃ j k,
    Shows t (argText [] f ++ List.replicate (j + 2) ' ' ++ f.text.summary ++ List.replicate k ' ')

/-- `t` contains `s`. -/
def Contains (t s : Str) : Prop := ∃ pre post, t = pre ++ s ++ post

end Spec

/-! ## Padding -/

theorem replicate_flatten {α : Type} (n k : Nat) (c : α) : (List.replicate n (List.replicate k c)).flatten = List.replicate (n * k) c := by
  induction n with
  | zero => simp
  | succ n ih => rw [List.replicate_succ, List.flatten_cons, ih, List.replicate_append_replicate, Nat.succ_mul, Nat.add_comm]

/-- **C47, padding.**  Padding of any amount is written exactly, whatever the size of the buffer. -/
theorem C47_padding (k n : Nat) (c : Char) (hk : 0 < k) : writePadding (List.replicate k (.ch c)) n = List.replicate n (.ch c) := by
  unfold writePadding
  simp only [List.length_replicate]
  split
  · rename_i h
    rw [List.take_replicate, Nat.min_eq_left h]
  · rw [replicate_flatten, List.take_replicate, List.replicate_append_replicate, Nat.min_eq_left (Nat.le_of_lt (Nat.mod_lt _ hk))]
    congr 1
    rw [Nat.mul_comm]
    exact Nat.div_add_mod n k

theorem columnPadding_eq (n : Nat) : writePadding columnPadding n = List.replicate n (.ch ' ') := C47_padding 71 n ' ' (by decide)
theorem indentPadding_eq (n : Nat) : writePadding indentPadding n = List.replicate n (.ch '\t') := C47_padding 35 n '\t' (by decide)
theorem linesPadding_eq (n : Nat) : writePadding linesPadding n = List.replicate n (.ch '\n') := C47_padding 35 n '\n' (by decide)

/-! ## Sizes -/

theorem appendSizes_length (cols : List (List Nat)) (sizes : List Nat) (h : sizes.length ≤ cols.length) :
    (appendSizes cols sizes).length = cols.length := by
  induction sizes generalizing cols with
  | nil => cases cols <;> rfl
  | cons s sizes ih =>
    cases cols with
    | nil => simp at h
    | cons c cols => simp [appendSizes, ih cols (by simpa using h)]

theorem appendSizes_get (cols : List (List Nat)) (sizes : List Nat) (h : sizes.length ≤ cols.length) (j : Nat) :
    (appendSizes cols sizes)[j]? = cols[j]?.map fun col => match sizes[j]? with | some s => col ++ [s] | none => col := by
  induction sizes generalizing cols j with
  | nil => cases cols <;> simp [appendSizes]
  | cons s sizes ih =>
    cases cols with
    | nil => simp at h
    | cons c cols =>
      cases j with
      | zero => simp [appendSizes]
      | succ j => simpa [appendSizes] using ih cols (by simpa using h) j

/-- What the calculator holds after some rows. -/
structure SizesOk (rows : List (List Span)) (cols : List (List Nat)) : Prop where
  fit : ∀ r ∈ rows, r.length ≤ cols.length
  mem : ∀ (j : Nat) (col : List Nat), cols[j]? = some col → ∀ s, s ∈ col ↔ ∃ r ∈ rows, ∃ c, r[j]? = some c ∧ c.len = s
  nonempty : ∀ (j : Nat) (col : List Nat), cols[j]? = some col → col ≠ []

theorem addRowSizes_ok {rows : List (List Span)} {cols : List (List Nat)} (h : SizesOk rows cols) (r : List Span) :
    SizesOk (rows ++ [r]) (addRowSizes cols (r.map (·.len))) := by
  obtain ⟨hf, hm, hn⟩ := h
  -- the columns after the extension
  have ext : ∃ cols', addRowSizes cols (r.map (·.len)) = appendSizes cols' (r.map (·.len)) ∧ r.length ≤ cols'.length ∧ cols.length ≤ cols'.length ∧
      ∀ j, cols'[j]? = if j < cols.length then cols[j]? else if j < r.length then some [] else none := by
    unfold addRowSizes
    simp only [List.length_map]
    by_cases hl : r.length > cols.length
    · refine ⟨_, by rw [if_pos hl], by simp; omega, by simp, ?_⟩
      intro j
      by_cases hj : j < cols.length
      · rw [if_pos hj, List.getElem?_append_left hj]
      · rw [if_neg hj, List.getElem?_append_right (by omega), List.getElem?_replicate]
        by_cases hr : j < r.length
        · rw [if_pos (by omega), if_pos hr]
        · rw [if_neg (by omega), if_neg hr]
    · refine ⟨_, by rw [if_neg hl], by omega, Nat.le_refl _, ?_⟩
      intro j
      by_cases hj : j < cols.length
      · rw [if_pos hj]
      · rw [if_neg hj, if_neg (by omega), List.getElem?_eq_none (by omega)]
  obtain ⟨cols', he, h1, h2, hget⟩ := ext
  rw [he]
  have hlen : (r.map (·.len)).length ≤ cols'.length := by simpa using h1
  -- a column after the row
  have hcol : ∀ (j : Nat) (col : List Nat), (appendSizes cols' (r.map (·.len)))[j]? = some col →
      (∃ old, cols[j]? = some old ∧ ((∃ c, r[j]? = some c ∧ col = old ++ [c.len]) ∨ (r[j]? = none ∧ col = old))) ∨
      (cols[j]? = none ∧ ∃ c, r[j]? = some c ∧ col = [c.len]) := by
    intro j col hc
    rw [appendSizes_get _ _ hlen, hget j, List.getElem?_map] at hc
    by_cases hj : j < cols.length
    · rw [if_pos hj, List.getElem?_eq_getElem hj] at hc
      refine .inl ⟨cols[j], List.getElem?_eq_getElem hj, ?_⟩
      cases hr : r[j]? with
      | none => rw [hr] at hc; simp at hc; exact .inr ⟨rfl, hc.symm⟩
      | some c => rw [hr] at hc; simp at hc; exact .inl ⟨c, rfl, hc.symm⟩
    · rw [if_neg hj] at hc
      by_cases hr : j < r.length
      · rw [if_pos hr, List.getElem?_eq_getElem hr] at hc
        simp at hc
        exact .inr ⟨List.getElem?_eq_none (by omega), r[j], List.getElem?_eq_getElem hr, hc.symm⟩
      · rw [if_neg hr] at hc; simp at hc
  refine ⟨?_, ?_, ?_⟩
  · intro x hx
    rw [appendSizes_length _ _ hlen]
    rcases List.mem_append.1 hx with hx | hx
    · exact Nat.le_trans (hf x hx) h2
    · rw [List.mem_singleton.1 hx]; exact h1
  · intro j col hc s
    have hx : (∃ x ∈ rows ++ [r], ∃ c, x[j]? = some c ∧ c.len = s) ↔ (∃ x ∈ rows, ∃ c, x[j]? = some c ∧ c.len = s) ∨ ∃ c, r[j]? = some c ∧ c.len = s := by
      constructor
      · rintro ⟨x, hx, c, h⟩
        rcases List.mem_append.1 hx with hx | hx
        · exact .inl ⟨x, hx, c, h⟩
        · rw [List.mem_singleton.1 hx] at h; exact .inr ⟨c, h⟩
      · rintro (⟨x, hx, c, h⟩ | ⟨c, h⟩)
        · exact ⟨x, by simp [hx], c, h⟩
        · exact ⟨r, by simp, c, h⟩
    rw [hx]
    rcases hcol j col hc with ⟨old, ho, ⟨c, hr, rfl⟩ | ⟨hr, rfl⟩⟩ | ⟨ho, c, hr, rfl⟩
    · rw [List.mem_append, hm j old ho s]
      simp only [List.mem_singleton, hr, Option.some.injEq, exists_eq_left']
      exact or_congr Iff.rfl eq_comm
    · rw [hm j _ ho s]; simp [hr]
    · have hno : ¬ ∃ x ∈ rows, ∃ c, x[j]? = some c ∧ c.len = s := by
        rintro ⟨x, hx, c', h', _⟩
        have := hf x hx
        have hj := List.getElem?_eq_none_iff.1 ho
        rw [List.getElem?_eq_none (by omega)] at h'
        cases h'
      simp only [hno, false_or, List.mem_singleton, hr, Option.some.injEq, exists_eq_left']
      exact eq_comm
  · intro j col hc
    rcases hcol j col hc with ⟨old, ho, ⟨c, hr, rfl⟩ | ⟨hr, rfl⟩⟩ | ⟨ho, c, hr, rfl⟩
    · simp
    · exact hn j _ ho
    · simp

theorem sizes_ok (t : Table) (rows : List (List Span)) (h : t.rows = rows.map .cells) : SizesOk rows t.sizes := by
  unfold Table.sizes
  rw [h, List.foldl_map]
  have key : ∀ (rest done : List (List Span)) (cols : List (List Nat)), SizesOk done cols →
      SizesOk (done ++ rest) (rest.foldl (fun cols r => addRowSizes cols (r.map (·.len))) cols) := by
    intro rest
    induction rest with
    | nil => intro done cols h; simpa using h
    | cons r rest ih =>
      intro done cols h
      have := ih (done ++ [r]) _ (addRowSizes_ok h r)
      simpa using this
  exact key rows [] [] ⟨by simp, by simp, by simp⟩

theorem maxOf_spec (l : List Nat) : (∀ s ∈ l, s ≤ maxOf l) ∧ (l ≠ [] → maxOf l ∈ l) := by
  have key : ∀ (l : List Nat) (m : Nat), m ≤ l.foldl (fun m s => if m < s then s else m) m ∧
      (∀ s ∈ l, s ≤ l.foldl (fun m s => if m < s then s else m) m) ∧
      (l.foldl (fun m s => if m < s then s else m) m = m ∨ l.foldl (fun m s => if m < s then s else m) m ∈ l) := by
    intro l
    induction l with
    | nil => intro m; simp
    | cons a l ih =>
      intro m
      rw [List.foldl_cons]
      by_cases h : m < a
      · rw [if_pos h]
        obtain ⟨h1, h2, h3⟩ := ih a
        refine ⟨by omega, ?_, ?_⟩
        · intro s hs
          rcases List.mem_cons.1 hs with rfl | hs
          · exact h1
          · exact h2 s hs
        · rcases h3 with h3 | h3
          · rw [h3]; simp
          · exact .inr (List.mem_cons_of_mem _ h3)
      · rw [if_neg h]
        obtain ⟨h1, h2, h3⟩ := ih m
        refine ⟨h1, ?_, ?_⟩
        · intro s hs
          rcases List.mem_cons.1 hs with rfl | hs
          · omega
          · exact h2 s hs
        · rcases h3 with h3 | h3
          · exact .inl h3
          · exact .inr (List.mem_cons_of_mem _ h3)
  obtain ⟨_, h2, h3⟩ := key l 0
  refine ⟨h2, fun hne => ?_⟩
  rcases h3 with h3 | h3
  · obtain ⟨s, hs⟩ := List.exists_mem_of_ne_nil l hne
    have hz : maxOf l = 0 := h3
    have := h2 s hs
    have h0 : s = 0 := by unfold maxOf at hz; omega
    rw [hz, ← h0]; exact hs
  · exact h3

/-! ## Tables -/

theorem writeCells_eq (W : List Nat) (cells : List Span) (h : cells.length ≤ W.length) : writeCells W cells = some (layout W cells) := by
  induction cells generalizing W with
  | nil => cases W <;> rfl
  | cons c cells ih =>
    cases W with
    | nil => simp at h
    | cons w W =>
      simp only [writeCells, ih W (by simpa using h), layout]
      by_cases hw : w > c.len
      · rw [if_pos hw, columnPadding_eq]
      · rw [if_neg hw, show w - c.len = 0 by omega]; rfl

theorem writeRows_eq (W : List Nat) (rows : List (List Span)) (h : ∀ r ∈ rows, r.length ≤ W.length) :
    writeRows W (rows.map .cells) = some (rows.flatMap fun r => layout W r ++ [.ch '\n']) := by
  induction rows with
  | nil => rfl
  | cons r rows ih =>
    simp only [List.map_cons, writeRows, writeCells_eq W r (h r (List.mem_cons_self ..)), ih (fun x hx => h x (List.mem_cons_of_mem _ hx)),
      List.flatMap_cons, List.append_assoc, List.singleton_append]

theorem visible_append (a b : List Tok) : visible (a ++ b) = visible a ++ visible b := by
  induction a with
  | nil => rfl
  | cons t a ih => cases t <;> simp [visible, ih]

theorem visible_replicate (n : Nat) (c : Char) : visible (List.replicate n (.ch c)) = List.replicate n c := by
  induction n with
  | zero => rfl
  | succ n ih => simp [List.replicate_succ, visible, ih]

theorem width_append (a b : List Tok) : width (a ++ b) = width a + width b := by simp [width, visible_append]

theorem inColumns_layout (W : List Nat) (row : List Span) (hl : row.length ≤ W.length) (h1 : ∀ c ∈ row, OneLine c)
    (hw : ∀ (j : Nat) (c : Span) (w : Nat), row[j]? = some c → W[j]? = some w → c.len ≤ w) : InColumns W row (layout W row) := by
  induction row generalizing W with
  | nil => intro j c h; simp at h
  | cons x row ih =>
    cases W with
    | nil => simp at hl
    | cons w W =>
      intro j c hj
      cases j with
      | zero =>
        simp at hj
        subst hj
        refine ⟨[], List.replicate (w - x.len) (.ch ' ') ++ layout W row, ?_, rfl⟩
        simp [layout, List.append_assoc]
      | succ j =>
        have hj' : row[j]? = some c := by simpa using hj
        obtain ⟨pre, post, h2, h3⟩ := ih W (by simpa using hl) (fun c hc => h1 c (List.mem_cons_of_mem _ hc))
          (fun j c w hc hw' => hw (j + 1) c w (by simpa using hc) (by simpa using hw')) j c hj'
        refine ⟨x.out ++ List.replicate (w - x.len) (.ch ' ') ++ pre, post, ?_, ?_⟩
        · simp [layout, h2, List.append_assoc]
        · have hx := h1 x (List.mem_cons_self ..)
          have hle := hw 0 x w rfl rfl
          rw [width_append, width_append, h3, ← hx.1]
          simp only [width, visible_replicate, List.length_replicate, List.take_succ_cons, List.sum_cons]
          omega

/-- The widths of the columns. -/
theorem columns_ok (padding : Nat) (rows : List (List Span)) : ∃ W : List Nat, columnWidths padding 0 (Table.sizes ⟨padding, 0, rows.map .cells⟩) = W ∧
    (∀ r ∈ rows, r.length ≤ W.length) ∧ (∀ j w, W[j]? = some w → Widest rows padding j w) ∧
      ((∀ r ∈ rows, ∀ c ∈ r, OneLine c) → ∀ r ∈ rows, InColumns W r (layout W r)) := by
  have ok := sizes_ok { padding := padding, rows := rows.map .cells } rows rfl
  revert ok
  generalize hS : Table.sizes { padding := padding, rows := rows.map .cells } = S
  intro ok
  have hW : columnWidths padding 0 S = S.map fun sizes => maxOf sizes + padding := by simp [columnWidths]
  have hfit : ∀ r ∈ rows, r.length ≤ (S.map fun sizes => maxOf sizes + padding).length := by simpa using ok.fit
  have hwid : ∀ j w, (S.map fun sizes => maxOf sizes + padding)[j]? = some w → Widest rows padding j w := by
    intro j w hw
    rw [List.getElem?_map] at hw
    cases hc : S[j]? with
    | none => rw [hc] at hw; simp at hw
    | some col =>
      rw [hc] at hw
      simp at hw
      subst hw
      have hm := ok.mem j col hc
      refine ⟨fun r hr c hrc => ?_, ?_⟩
      · have := (maxOf_spec col).1 c.len ((hm _).2 ⟨r, hr, c, hrc, rfl⟩)
        omega
      · obtain ⟨r, hr, c, hrc, he⟩ := (hm _).1 ((maxOf_spec col).2 (ok.nonempty j col hc))
        exact ⟨r, hr, c, hrc, by rw [he]⟩
  refine ⟨S.map fun sizes => maxOf sizes + padding, hW, hfit, hwid, ?_⟩
  intro hone r hr
  refine inColumns_layout _ r (hfit r hr) (hone r hr) ?_
  intro j c w hc hw
  have := (hwid j w hw).1 r hr c hc
  omega

/-- **C47, tables.**  A table of rows of cells is written without a crash, one line per row.  A column is as wide as its widest cell and the padding; every cell is
followed by spaces that fill its column; and if cells are pieces of one line that know their width, every cell begins where its column begins. -/
theorem C47_table (padding : Nat) (rows : List (List Span)) :
    ∃ W : List Nat,
      Table.span { padding := padding, rows := rows.map .cells } = some ⟨W.sum, rows.flatMap fun r => layout W r ++ [.ch '\n']⟩ ∧
      (∀ r ∈ rows, r.length ≤ W.length) ∧ (∀ j w, W[j]? = some w → Widest rows padding j w) ∧
      ((∀ r ∈ rows, ∀ c ∈ r, OneLine c) → ∀ r ∈ rows, InColumns W r (layout W r)) := by
  obtain ⟨W, hW, hfit, hwid, hcol⟩ := columns_ok padding rows
  refine ⟨W, ?_, hfit, hwid, hcol⟩
  simp only [Table.span, hW]
  rw [writeRows_eq _ _ hfit]
  rfl

/-- The rows of cells. -/
def cellRows (rows : List Row) : List (List Span) := rows.filterMap fun | .cells l => some l | .skip _ => none

theorem sizes_mixed (padding maxWidth : Nat) (rows : List Row) : Table.sizes ⟨padding, maxWidth, rows⟩ = Table.sizes ⟨padding, maxWidth, (cellRows rows).map .cells⟩ := by
  unfold Table.sizes
  simp only
  generalize ([] : List (List Nat)) = cols
  induction rows generalizing cols with
  | nil => rfl
  | cons r rows ih =>
    cases r with
    | cells l => simp only [List.foldl_cons, cellRows, List.filterMap_cons, List.map_cons]; exact ih _
    | skip s => simp only [List.foldl_cons, cellRows, List.filterMap_cons]; exact ih _

theorem writeRows_mixed (W : List Nat) (hW : W ≠ []) (rows : List Row) (h : ∀ r ∈ cellRows rows, r.length ≤ W.length) :
    writeRows W rows = some (rows.flatMap fun r => layout W (match r with | .cells l => l | .skip s => [s]) ++ [.ch '\n']) := by
  induction rows with
  | nil => rfl
  | cons r rows ih =>
    have hr : (match r with | .cells l => l | .skip s => [s] : List Span).length ≤ W.length := by
      cases r with
      | cells l => exact h l (by simp [cellRows])
      | skip s => cases W with
        | nil => exact absurd rfl hW
        | cons w W => simp
    have ih := ih fun x hx => h x (by
      unfold cellRows at hx ⊢
      cases r with
      | cells l => rw [List.filterMap_cons]; exact List.mem_cons_of_mem _ hx
      | skip s => rw [List.filterMap_cons]; exact hx)
    cases r <;> simp only [writeRows, writeCells_eq W _ hr, ih, List.flatMap_cons, List.append_assoc, List.singleton_append]

/-- **C47, tables with skipped rows.**  Rows that are not to be aligned are written where they are, and the columns are as if they were not there: those of the rows of cells before and after. -/
theorem C47_mixed (padding : Nat) (rows : List Row) (hne : ∃ r ∈ cellRows rows, r ≠ []) :
    ∃ W : List Nat,
      Table.span { padding := padding, rows := rows } =
        some ⟨W.sum, rows.flatMap fun r => layout W (match r with | .cells l => l | .skip s => [s]) ++ [.ch '\n']⟩ ∧
      (∀ j w, W[j]? = some w → Widest (cellRows rows) padding j w) ∧ (∀ r ∈ cellRows rows, r.length ≤ W.length) ∧
      ((∀ r ∈ cellRows rows, ∀ c ∈ r, OneLine c) → ∀ r ∈ cellRows rows, InColumns W r (layout W r)) := by
  obtain ⟨W, hW, hfit, hwid, hcol⟩ := columns_ok padding (cellRows rows)
  refine ⟨W, ?_, hwid, hfit, hcol⟩
  simp only [Table.span]
  rw [sizes_mixed, hW]
  rw [writeRows_mixed W ?_ rows hfit]
  · rfl
  · obtain ⟨r, hr, hne⟩ := hne
    have := hfit r hr
    rintro rfl
    exact hne (List.length_eq_zero_iff.1 (by simpa using this))

/-- **C47, limited tables.**  With a maximum that is larger than the padding, no column is wider than the maximum. -/
theorem C47_limit (padding maxWidth : Nat) (h : padding < maxWidth) (cols : List (List Nat)) : ∀ w ∈ columnWidths padding maxWidth cols, w ≤ maxWidth := by
  intro w hw
  simp only [columnWidths, List.mem_map] at hw
  obtain ⟨sizes, _, rfl⟩ := hw
  split <;> omega

/-- **C47 is violated for texts beyond ASCII**: the width is taken to be the number of bytes, and the second column begins in different places. -/
theorem C47_violated_unicode :
    Table.span { padding := 2, rows := [.cells [text "é".toList, text "x".toList], .cells [text "e".toList, text "x".toList]] } =
      some ⟨7, toks "é  x  \ne   x  \n".toList⟩ := by decide +kernel

/-- **C47 is violated for limited tables**: a cell that is too wide is followed by the next one directly. -/
theorem C47_violated_limit :
    Table.span { padding := 2, maxWidth := 6, rows := [.cells [text "abcdefgh".toList, text "x".toList], .cells [text "ab".toList, text "x".toList]] } =
      some ⟨9, toks "abcdefghx  \nab    x  \n".toList⟩ := by decide +kernel

/-- A heading between two rows. -/
example : Table.span { padding := 1, rows := [.cells [text "ab".toList, text "c".toList], .skip (text "a heading".toList), .cells [text "d".toList, text "e".toList]] } =
    some ⟨5, toks "ab c \na heading\nd  e \n".toList⟩ := by decide +kernel

/-- **C47 is violated for a table that has only skipped rows**: it crashes. -/
theorem C47_violated_skip (padding maxWidth : Nat) (s : Span) : Table.span { padding := padding, maxWidth := maxWidth, rows := [.skip s] } = none := rfl

theorem byteLen_ascii {s : Str} (h : ∀ c ∈ s, c.toNat < 128) : byteLen s = s.length := by
  induction s with
  | nil => rfl
  | cons c s ih =>
    have hc : c.utf8Size = 1 := by
      have h1 : c.toNat < 128 := h c (List.mem_cons_self ..)
      unfold Char.utf8Size
      have : c.val ≤ 127 := by
        rw [UInt32.le_iff_toNat_le]
        show c.toNat ≤ 127
        omega
      simp [this]
    have := ih (fun x hx => h x (List.mem_cons_of_mem _ hx))
    simp only [byteLen] at this
    simp [byteLen, hc, this, Nat.add_comm]

theorem visible_toks (s : Str) : visible (toks s) = s := by
  induction s with
  | nil => rfl
  | cons c s ih => simpa [toks, visible] using ih

/-- ASCII text without newlines is a piece of one line that knows its width, also when it is decorated. -/
theorem oneLine_text {s : Str} (h : ∀ c ∈ s, c.toNat < 128) (hn : '\n' ∉ s) : OneLine (text s) := by
  refine ⟨?_, ?_⟩
  · simp [text, width, visible_toks, byteLen_ascii h]
  · simpa [text, toks] using hn

theorem oneLine_decorated {s : Span} (h : OneLine s) : OneLine (decorated s) := by
  refine ⟨?_, ?_⟩
  · show s.len = width (.esc :: s.out ++ [.esc])
    rw [width_append]
    simpa [width, visible] using h.1
  · simp [decorated, h.2]

theorem oneLine_spans {l : List Span} (h : ∀ s ∈ l, OneLine s) : OneLine (spans l) := by
  induction l with
  | nil => exact ⟨rfl, by simp [spans]⟩
  | cons s l ih =>
    have h1 := h s (List.mem_cons_self ..)
    have h2 := ih (fun x hx => h x (List.mem_cons_of_mem _ hx))
    refine ⟨?_, ?_⟩
    · have := h2.1
      simp only [spans] at this
      simp only [spans, List.map_cons, List.sum_cons, List.flatMap_cons, width_append, h1.1, this]
    · have := h2.2
      simp only [spans] at this
      simp only [spans, List.flatMap_cons, List.mem_append, not_or]
      exact ⟨h1.2, this⟩

/-! ## Indentation -/

theorem indentLines_false (n : Nat) (ls : List (List Tok)) : indentLines n false ls = ls.flatMap fun l => .ch '\n' :: tabbed n l := by
  induction ls with
  | nil => rfl
  | cons l ls ih =>
    simp only [indentLines, ih, List.flatMap_cons, tabbed, indentPadding_eq]
    simp

theorem joinLines_cons (l : List Tok) (ls : List (List Tok)) : joinLines (l :: ls) = l ++ ls.flatMap fun l => .ch '\n' :: l := by
  induction ls generalizing l with
  | nil => simp [joinLines]
  | cons m ls ih => rw [joinLines, ih]; simp; simp

theorem joinLines_eq {ls : List (List Tok)} (h : ls ≠ []) : joinLines ls = Text.join (.ch '\n') ls := by
  induction ls with
  | nil => exact absurd rfl h
  | cons l ls ih =>
    cases ls with
    | nil => simp [joinLines, Text.join, List.intercalate]
    | cons m ls =>
      have := ih (by simp)
      rw [show joinLines (l :: m :: ls) = l ++ .ch '\n' :: joinLines (m :: ls) from rfl, this]
      simp [Text.join, List.intercalate_cons_cons]

/-- **C47, indentation.**  The lines of an indented text are those of the text, each one that is not empty after the given number of tabs. -/
theorem C47_indent (n : Nat) (s : Span) (ls : List (List Tok)) (hne : ls ≠ []) (hl : ∀ l ∈ ls, Tok.ch '\n' ∉ l) (h : s.out = joinLines ls) :
    (indented n s).out = joinLines (ls.map (tabbed n)) := by
  have hs : Text.split (.ch '\n') s.out = ls := by rw [h, joinLines_eq hne]; exact Text.split_join hne hl
  simp only [indented, hs]
  cases ls with
  | nil => exact absurd rfl hne
  | cons l ls =>
    rw [List.map_cons, joinLines_cons, List.flatMap_map]
    simp only [indentLines, if_true, List.nil_append, indentLines_false]
    congr 1
    simp only [tabbed, indentPadding_eq]

/-! ## What help shows of a marker -/

theorem visible_decorated (s : Span) : visible (decorated s).out = visible s.out := by
  show visible (.esc :: s.out ++ [.esc]) = _
  rw [visible_append]
  simp [visible]

theorem visible_spans (l : List Span) : visible (spans l).out = l.flatMap fun s => visible s.out := by
  induction l with
  | nil => rfl
  | cons s l ih =>
    simp only [spans] at ih
    simp only [spans, List.flatMap_cons, visible_append, ih]

theorem visible_text (s : Str) : visible (text s).out = s := visible_toks s

theorem visible_field (f : FieldDoc) (sep : Str) : visible (fieldSyntax f sep).out = argText sep f := by
  unfold fieldSyntax argText typeText
  split
  · simp only [fromWriter, visible_toks, List.append_assoc]; rfl
  · simp only [fromWriter, visible_toks]

theorem visible_args (sep : Str) (fs : List FieldDoc) : (syntaxArgs sep fs).flatMap (fun s => visible s.out) =
    match fs with | [] => [] | f :: fs => argText sep f ++ fs.flatMap (argText ",".toList) := by
  induction fs generalizing sep with
  | nil => rfl
  | cons f fs ih =>
    simp only [syntaxArgs, List.flatMap_cons, visible_decorated, visible_field, ih]
    cases fs <;> rfl

/-- **C64, how a marker is used.**  Help shows the name of the marker and all of its arguments, in order, each with its name, its type, and brackets if it is
optional. -/
theorem C64_syntax (d : MarkerDoc) : visible (markerSyntax d).out = syntaxText d := by
  have hname : visible (markerName d).out = '+' :: d.name := by
    unfold markerName
    rw [visible_decorated, visible_text]
  unfold markerSyntax syntaxText
  cases hf : d.fields with
  | nil =>
    rw [if_pos rfl]
    simp only [visible_spans, List.flatMap_cons, List.flatMap_nil, hname]
  | cons f fs =>
    rw [if_neg (by simp)]
    simp only [visible_spans, List.flatMap_cons, hname, visible_args]
    have : (if d.anonymousField = true then ([] : Str) else ":".toList) = if f.name = [] ∧ fs = [] then [] else ":".toList := by
      unfold MarkerDoc.anonymousField
      rw [hf]
      cases fs with
      | nil => by_cases h : f.name = [] <;> simp [h]
      | cons g fs => simp
    rw [this]

theorem visible_summary (d : MarkerDoc) : visible (summaryOf d).out = summaryText d := by
  unfold summaryOf summaryText
  cases d.deprecated with
  | none => simp [visible_spans, visible_text]
  | some f =>
    cases f with
    | nil => simp [visible_spans, visible_text]
    | cons c f =>
      show visible (if (c :: f) ≠ [] then spans [decorated (text "(use ".toList), decorated (text (c :: f)), decorated (text ") ".toList), text d.text.summary]
        else spans [text d.text.summary]).out = "(use ".toList ++ (c :: f) ++ ") ".toList ++ d.text.summary
      rw [if_pos (by simp)]
      simp only [visible_spans, List.flatMap_cons, List.flatMap_nil, visible_decorated, visible_text, List.append_assoc, List.append_nil]

/-- The visible line of a marker in the summary. -/
theorem visible_row {W : List Nat} {a b c : Span} (w1 w2 w3 : Nat) (h : W = [w1, w2, w3]) :
    visible (layout W [a, b, c]) = visible a.out ++ List.replicate (w1 - a.len) ' ' ++ visible b.out ++ List.replicate (w2 - b.len) ' ' ++ visible c.out ++
      List.replicate (w3 - c.len) ' ' := by
  subst h
  simp [layout, visible_append, visible_replicate]

theorem visible_flatMap {α : Type} (f : α → List Tok) (l : List α) : visible (l.flatMap f) = l.flatMap fun a => visible (f a) := by
  induction l with
  | nil => rfl
  | cons a l ih => rw [List.flatMap_cons, visible_append, ih, List.flatMap_cons]

theorem contains_flatMap {α : Type} (f : α → Str) (l : List α) {a : α} (h : a ∈ l) : Contains (l.flatMap f) (f a) := by
  obtain ⟨l1, l2, rfl⟩ := List.append_of_mem h
  exact ⟨l1.flatMap f, l2.flatMap f, by simp⟩

theorem Spec.Contains.trans {a b c : Str} (h : Contains a b) (h' : Contains b c) : Contains a c := by
  obtain ⟨p, q, rfl⟩ := h
  obtain ⟨r, s, rfl⟩ := h'
  exact ⟨p ++ r, s ++ q, by simp⟩

/-- **C46, the summary of a category.**  It is written without a crash, and has for every marker a line with its use, its target and its summary, separated by spaces. -/
theorem C46_summary (group : Str) (ms : List MarkerDoc) : ∃ s, markersSummary group ms = some s ∧
    ∀ m ∈ ms, ∃ j k, Contains (visible s.out)
      (syntaxText m ++ List.replicate (j + 2) ' ' ++ m.target ++ List.replicate (k + 2) ' ' ++ summaryText m) := by
  obtain ⟨W, h1, h2, h3, _⟩ := C47_table 2 (ms.map fun m => [markerSyntax m, decorated (text m.target), summaryOf m])
  unfold markersSummary
  rw [List.map_map] at h1
  rw [show (ms.map fun m => Row.cells [markerSyntax m, decorated (text m.target), summaryOf m]) =
    ms.map (Row.cells ∘ fun m => [markerSyntax m, decorated (text m.target), summaryOf m]) from rfl]
  simp only
  rw [h1]
  refine ⟨_, rfl, ?_⟩
  intro m hm
  -- the widths of the three columns
  have hlen := h2 _ (List.mem_map_of_mem (f := fun m => [markerSyntax m, decorated (text m.target), summaryOf m]) hm)
  have hget : ∀ j, j < 3 → ∃ w, W[j]? = some w := fun j hj => ⟨W[j]'(by simp at hlen; omega), List.getElem?_eq_getElem _⟩
  have hW : ∃ w1 w2 rest, W = w1 :: w2 :: rest ∧ rest ≠ [] := by
    match W, hlen with
    | w1 :: w2 :: w3 :: rest, _ => exact ⟨w1, w2, w3 :: rest, rfl, by simp⟩
  obtain ⟨w1, w2, rest, rfl, hrest⟩ := hW
  have b1 := (h3 0 w1 rfl).1 _ (List.mem_map_of_mem (f := fun m => [markerSyntax m, decorated (text m.target), summaryOf m]) hm) (markerSyntax m) rfl
  have b2 := (h3 1 w2 rfl).1 _ (List.mem_map_of_mem (f := fun m => [markerSyntax m, decorated (text m.target), summaryOf m]) hm) (decorated (text m.target)) rfl
  refine ⟨w1 - (markerSyntax m).len - 2, w2 - (decorated (text m.target)).len - 2, ?_⟩
  rw [show w1 - (markerSyntax m).len - 2 + 2 = w1 - (markerSyntax m).len by omega,
    show w2 - (decorated (text m.target)).len - 2 + 2 = w2 - (decorated (text m.target)).len by omega]
  rw [visible_spans]
  refine Spec.Contains.trans (contains_flatMap _ _ (List.mem_cons_of_mem _ (List.mem_cons_of_mem _ (List.mem_cons_of_mem _ List.mem_cons_self)))) ?_
  simp only
  rw [visible_flatMap]
  refine Spec.Contains.trans (contains_flatMap _ _ (List.mem_map_of_mem (f := fun m => [markerSyntax m, decorated (text m.target), summaryOf m]) hm)) ?_
  cases rest with
  | nil => exact absurd rfl hrest
  | cons w3 rest =>
    refine ⟨[], List.replicate (w3 - (summaryOf m).len) ' ' ++ ['\n'], ?_⟩
    simp only [layout, visible_append, visible_replicate, C64_syntax, visible_decorated, visible_text, visible_summary, visible, List.append_assoc,
      List.nil_append, List.append_nil]

theorem printCats_some (render : Str → List MarkerDoc → Option Span) (hr : ∀ g ms, ∃ s, render g ms = some s) (cats : List CategoryDoc) :
    ∃ out, printCats render cats = some out ∧
      ∀ c ∈ cats, c.category ≠ [] → ∃ s, render c.category c.markers = some s ∧ Contains (visible out) (visible s.out) := by
  induction cats with
  | nil => exact ⟨[], rfl, by simp⟩
  | cons c cs ih =>
    obtain ⟨out, h1, h2⟩ := ih
    by_cases hc : c.category = []
    · refine ⟨out, by simp only [printCats]; rw [if_pos hc]; exact h1, ?_⟩
      intro x hx hne
      rcases List.mem_cons.1 hx with rfl | hx
      · exact absurd hc hne
      · exact h2 x hx hne
    · obtain ⟨s, hs⟩ := hr c.category c.markers
      refine ⟨s.out ++ out, by simp only [printCats]; rw [if_neg hc, hs, h1], ?_⟩
      intro x hx hne
      rcases List.mem_cons.1 hx with rfl | hx
      · exact ⟨s, hs, [], visible out, by simp [visible_append]⟩
      · obtain ⟨t, ht, p, q, e⟩ := h2 x hx hne
        exact ⟨t, ht, visible s.out ++ p, q, by rw [visible_append, e]; simp⟩

/-- **C46, the summary of a registry.**  Every marker in a category with a name has a line with its use, its target and its summary. -/
theorem C46_shown (σ : Sched) (r : HelpRegistry) (s : Sorter) : ∃ out, helpForLevels σ 1 r s = some (.text out) ∧
    ∀ c ∈ byCategory σ r s, c.category ≠ [] → ∀ m ∈ c.markers, ∃ j k, Contains (visible out)
      (syntaxText m ++ List.replicate (j + 2) ' ' ++ m.target ++ List.replicate (k + 2) ' ' ++ summaryText m) := by
  obtain ⟨out, h1, h2⟩ := printCats_some markersSummary (fun g ms => by obtain ⟨s, h, _⟩ := C46_summary g ms; exact ⟨s, h⟩) (byCategory σ r s)
  refine ⟨out, by simp [helpForLevels, h1], ?_⟩
  intro c hc hne m hm
  obtain ⟨t, ht, hct⟩ := h2 c hc hne
  obtain ⟨s', hs', hm'⟩ := C46_summary c.category c.markers
  rw [ht] at hs'
  cases hs'
  obtain ⟨j, k, h⟩ := hm' m hm
  exact ⟨j, k, hct.trans h⟩

/-- **C46, JSON**: everything is written. -/
theorem C46_json (σ : Sched) (r : HelpRegistry) (s : Sorter) : helpForLevels σ 4 r s = some (.json (byCategory σ r s)) := rfl

/-- **C46 is violated for markers without help**: they are registered, and not shown by the summary. -/
theorem C46_violated_hidden : ∃ ops d, Registered ops d ∧ ∀ σ, helpForLevels σ 1 (HelpRegistry.after ops) .byCategory = some (.text []) := by
  refine ⟨[.register (Example.marker "a" .type 0)], Example.marker "a" .type 0, ⟨.inr (.inl rfl), rfl, rfl, [], [], rfl, by simp⟩, ?_⟩
  intro σ
  have h1 : ∀ (n : Nat) (α : Type) (a : α), σ.order n [a] = [a] := fun n α a => List.perm_singleton.1 (σ.perm n [a])
  simp [helpForLevels, byCategory, HelpRegistry.after, HelpRegistry.step, HelpRegistry.allDefinitions, Registry.register, Example.marker, GoMap.put, h1,
    GoMap.groupOn, GoMap.appendAt, Sorter.group, HelpRegistry.help, GoMap.get, sortBy, insertBy, printCats]

/-- **C46 is violated at level five** (`-wwwww`): nothing is shown. -/
theorem C46_violated_level (σ : Sched) (r : HelpRegistry) (s : Sorter) : helpForLevels σ 5 r s = some .nothing := rfl

/-! ## Examples -/
namespace Example

example : (byCategory .fifo (HelpRegistry.after ops) .byCategory).head?.bind (fun c => c.markers.head?.map syntaxText) = some "+a:by=<string>[,max=<int>]".toList := by
  decide +kernel

example : ((Table.span { padding := 2, rows := [.cells [text "ab".toList, text "c".toList], .cells [decorated (text "a".toList), text "cde".toList]] }).map
    (fun s => visible s.out)) = some "ab  c    \na   cde  \n".toList := by decide +kernel

example : ∀ r ∈ [[text "ab".toList, text "c".toList], [decorated (text "a".toList), text "cde".toList]], ∀ c ∈ r, OneLine c := by
  intro r hr c hc
  simp only [List.mem_cons, List.not_mem_nil, or_false] at hr
  rcases hr with rfl | rfl <;> simp only [List.mem_cons, List.not_mem_nil, or_false] at hc <;> rcases hc with rfl | rfl
  · exact oneLine_text (by decide) (by decide)
  · exact oneLine_text (by decide) (by decide)
  · exact oneLine_decorated (oneLine_text (by decide) (by decide))
  · exact oneLine_text (by decide) (by decide)

end Example

end Verif.Help
