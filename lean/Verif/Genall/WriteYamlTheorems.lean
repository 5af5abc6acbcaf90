import Verif.Common.All2
import Verif.Genall.WriteYamlSpec
import Verif.Genall.OutputTheorems
/-!
# Files of YAML (C37, C63)
-/
namespace Verif.Genall
open Markers (Str)
open Spec

/-! ## Writing -/

theorem contents_emit (fs : Fs) {dest : Dest} (h : dest ≠ .discard) (t : Str) : contents (emit fs dest t) dest = contents fs dest ++ t := by
  cases dest with
  | discard => exact absurd rfl h
  | stdout => rfl
  | file p => simp [contents, emit, GoMap.get_put]

theorem Spec.OthersSame.refl (dest : Dest) (fs : Fs) : OthersSame dest fs fs := ⟨fun _ _ => rfl, fun _ => rfl⟩

theorem Spec.OthersSame.trans {dest : Dest} {a b c : Fs} (h : OthersSame dest a b) (h' : OthersSame dest b c) : OthersSame dest a c :=
  ⟨fun p hp => (h'.1 p hp).trans (h.1 p hp), fun hp => (h'.2 hp).trans (h.2 hp)⟩

theorem others_emit (fs : Fs) (dest : Dest) (t : Str) : OthersSame dest fs (emit fs dest t) := by
  cases dest with
  | discard => exact .refl _ _
  | stdout => exact ⟨fun _ _ => rfl, fun h => absurd rfl h⟩
  | file p =>
    refine ⟨fun q hq => ?_, fun _ => rfl⟩
    have : q ≠ p := fun e => hq (by rw [e])
    simp [emit, GoMap.get_put, this]

theorem write_others (sys : Sys) (fs : Fs) (dest : Dest) (k : Nat) (t : Str) : OthersSame dest fs (write sys fs dest k t).1 := by
  cases dest with
  | discard => exact .refl _ _
  | stdout => simp only [write]; split <;> exact others_emit ..
  | file p => simp only [write]; split <;> exact others_emit ..

theorem write_true {sys : Sys} {fs fs' : Fs} {dest : Dest} {k : Nat} {t : Str} (h : write sys fs dest k t = (fs', true)) (hd : dest ≠ .discard) : contents fs' dest = contents fs dest ++ t := by
  cases dest with
  | discard => exact absurd rfl hd
  | stdout =>
    simp only [write] at h
    split at h
    · cases h; exact contents_emit _ hd _
    · cases h
  | file p =>
    simp only [write] at h
    split at h
    · cases h; exact contents_emit _ hd _
    · cases h

theorem write_prefix {sys : Sys} {fs fs' : Fs} {dest : Dest} {k : Nat} {t : Str} {b : Bool} (h : write sys fs dest k t = (fs', b)) : contents fs' dest <+: contents fs dest ++ t := by
  cases dest with
  | discard => simp [contents]
  | stdout =>
    simp only [write] at h
    split at h <;> cases h
    · rw [contents_emit _ (by simp)]; exact List.prefix_refl _
    · rw [contents_emit _ (by simp)]; exact (List.prefix_append_right_inj _).2 (List.take_prefix ..)
  | file p =>
    simp only [write] at h
    split at h <;> cases h
    · rw [contents_emit _ (by simp)]; exact List.prefix_refl _
    · rw [contents_emit _ (by simp)]; exact (List.prefix_append_right_inj _).2 (List.take_prefix ..)

variable {ι : Type}

/-- The texts of the documents that follow the header. -/
def docsText (docs : List Str) : Str := docs.flatMap fun d => docStart ++ d

theorem writeDocs_true {sys : Sys} {marshal : ι → Option Str} {dest : Dest} : ∀ {objs : List ι} {k : Nat} {fs fs' : Fs}, writeDocs sys marshal dest k objs fs = (fs', true) →
    ∃ docs, All2 (fun o d => marshal o = some d) objs docs ∧ (dest ≠ .discard → contents fs' dest = contents fs dest ++ docsText docs) := by
  intro objs
  induction objs with
  | nil => intro k fs fs' h; cases h; exact ⟨[], .nil, fun _ => by simp [docsText]⟩
  | cons o objs ih =>
    intro k fs fs' h
    rw [writeDocs] at h
    cases hm : marshal o with
    | none => rw [hm] at h; cases h
    | some c =>
      rw [hm] at h
      simp only at h
      cases hw : write sys fs dest k (docStart ++ c) with
      | mk fs1 b =>
        rw [hw] at h
        cases b with
        | false => cases h
        | true =>
          obtain ⟨docs, h1, h2⟩ := ih h
          exact ⟨c :: docs, .cons hm h1, fun hd => by rw [h2 hd, write_true hw hd]; simp [docsText]⟩

theorem writeDocs_prefix {sys : Sys} {marshal : ι → Option Str} {dest : Dest} : ∀ {objs : List ι} {k : Nat} {fs fs' : Fs} {b : Bool}, writeDocs sys marshal dest k objs fs = (fs', b) →
    OthersSame dest fs fs' ∧ ∃ done docs, done <+: objs ∧ All2 (fun o d => marshal o = some d) done docs ∧ contents fs' dest <+: contents fs dest ++ docsText docs := by
  intro objs
  induction objs with
  | nil => intro k fs fs' b h; cases h; exact ⟨.refl _ _, [], [], List.prefix_refl _, .nil, by simp [docsText]⟩
  | cons o objs ih =>
    intro k fs fs' b h
    rw [writeDocs] at h
    cases hm : marshal o with
    | none => rw [hm] at h; cases h; exact ⟨.refl _ _, [], [], List.nil_prefix, .nil, by simp [docsText]⟩
    | some c =>
      rw [hm] at h
      simp only at h
      have ho := write_others sys fs dest k (docStart ++ c)
      cases hw : write sys fs dest k (docStart ++ c) with
      | mk fs1 b1 =>
        rw [hw] at h ho
        cases b1 with
        | false =>
          cases h
          exact ⟨ho, [o], [c], by simp, .cons hm .nil, by have := write_prefix hw; simpa [docsText] using this⟩
        | true =>
          obtain ⟨h0, done, docs, h1, h2, h3⟩ := ih h
          refine ⟨ho.trans h0, o :: done, c :: docs, by simpa using h1, .cons hm h2, ?_⟩
          by_cases hd : dest = .discard
          · subst hd; simp [contents]
          · rw [write_true hw hd] at h3
            simpa [docsText] using h3

/-- What is in a destination when writing begins: standard output keeps what it has, a file is emptied. -/
def Spec.before (fs : Fs) : Dest → Str
  | .stdout => fs.stdout
  | _ => []

theorem create_some {sys : Sys} {fs fs0 : Fs} {dest : Dest} (h : create sys fs dest = some fs0) : OthersSame dest fs fs0 ∧ contents fs0 dest = before fs dest := by
  cases dest with
  | discard => cases h; exact ⟨.refl _ _, rfl⟩
  | stdout => cases h; exact ⟨.refl _ _, rfl⟩
  | file p =>
    rw [create] at h
    split at h
    · cases h
      refine ⟨⟨fun q hq => ?_, fun _ => rfl⟩, by simp [contents, before, GoMap.get_put]⟩
      have : q ≠ p := fun e => hq (by rw [e])
      simp [GoMap.get_put, this]
    · cases h

theorem fileText_eq (header : Str) (docs : List Str) : fileText header docs = header ++ docsText docs := rfl

/-- **C37** (written).  If `WriteYAML` succeeds, all objects have been made into YAML, the destination that the output rule chooses has the header and then each object, in order, after a line `---`, and all other files are
as they were. -/
theorem C37_written {sys : Sys} {marshal : ι → Option Str} {rule : Rule} {item header : Str} {objs : List ι} {fs fs' : Fs} (h : writeYAML sys marshal rule item header objs fs = (fs', true)) :
    ∃ dest mk docs, openRule rule none item = some (dest, mk) ∧ All2 (fun o d => marshal o = some d) objs docs ∧ OthersSame dest fs fs' ∧
      (dest ≠ .discard → contents fs' dest = before fs dest ++ fileText header docs) := by
  rw [writeYAML] at h
  cases ho : openRule rule none item with
  | none => rw [ho] at h; cases h
  | some p =>
    obtain ⟨dest, mk⟩ := p
    rw [ho] at h
    simp only at h
    cases hc : create sys fs dest with
    | none => rw [hc] at h; cases h
    | some fs0 =>
      rw [hc] at h
      simp only at h
      obtain ⟨hc1, hc2⟩ := create_some hc
      have hwo := write_others sys fs0 dest 0 header
      cases hw : write sys fs0 dest 0 header with
      | mk fs1 b =>
        rw [hw] at h hwo
        cases b with
        | false => cases h
        | true =>
          obtain ⟨docs, h1, h2⟩ := writeDocs_true h
          obtain ⟨h3, _⟩ := writeDocs_prefix h
          refine ⟨dest, mk, docs, rfl, h1, (hc1.trans hwo).trans h3, ?_⟩
          intro hd
          rw [h2 hd, write_true hw hd, hc2, fileText_eq, List.append_assoc]

/-- **C37** (failures).  Whatever goes wrong, and wherever: either nothing has been touched, or only the destination has, and it has a beginning of the text that it would have for some of the objects from the first on. -/
theorem C37_prefix {sys : Sys} {marshal : ι → Option Str} {rule : Rule} {item header : Str} {objs : List ι} {fs fs' : Fs} {b : Bool} (h : writeYAML sys marshal rule item header objs fs = (fs', b)) :
    (b = false ∧ fs' = fs) ∨ ∃ dest mk done docs, openRule rule none item = some (dest, mk) ∧ OthersSame dest fs fs' ∧ done <+: objs ∧ All2 (fun o d => marshal o = some d) done docs ∧
      contents fs' dest <+: before fs dest ++ fileText header docs := by
  rw [writeYAML] at h
  cases ho : openRule rule none item with
  | none => rw [ho] at h; cases h; exact .inl ⟨rfl, rfl⟩
  | some p =>
    obtain ⟨dest, mk⟩ := p
    rw [ho] at h
    simp only at h
    cases hc : create sys fs dest with
    | none => rw [hc] at h; cases h; exact .inl ⟨rfl, rfl⟩
    | some fs0 =>
      right
      rw [hc] at h
      simp only at h
      obtain ⟨hc1, hc2⟩ := create_some hc
      have hwo := write_others sys fs0 dest 0 header
      cases hw : write sys fs0 dest 0 header with
      | mk fs1 b1 =>
        rw [hw] at h hwo
        cases b1 with
        | false =>
          cases h
          refine ⟨dest, mk, [], [], rfl, hc1.trans hwo, List.nil_prefix, .nil, ?_⟩
          have := write_prefix hw
          rw [hc2] at this
          simpa [fileText_eq, docsText] using this
        | true =>
          obtain ⟨h3, done, docs, h4, h5, h6⟩ := writeDocs_prefix h
          refine ⟨dest, mk, done, docs, rfl, (hc1.trans hwo).trans h3, h4, h5, ?_⟩
          by_cases hd : dest = .discard
          · subst hd; simp [contents]
          · rw [write_true hw hd, hc2, List.append_assoc] at h6
            exact h6

theorem writeDocs_ok {sys : Sys} {marshal : ι → Option Str} {dest : Dest} (hw : ∀ k, sys.write k = none) : ∀ {objs : List ι} (k : Nat) (fs : Fs), (∀ o ∈ objs, marshal o ≠ none) →
    (writeDocs sys marshal dest k objs fs).2 = true := by
  intro objs
  induction objs with
  | nil => intro k fs _; rfl
  | cons o objs ih =>
    intro k fs hm
    rw [writeDocs]
    obtain ⟨c, hc⟩ := Option.ne_none_iff_exists'.1 (hm o (by simp))
    rw [hc]
    have : ∃ fs1, write sys fs dest k (docStart ++ c) = (fs1, true) := by
      cases dest <;> simp [write, hw]
    obtain ⟨fs1, h1⟩ := this
    simp only [h1]
    exact ih _ _ (fun o ho => hm o (by simp [ho]))

/-- **C37** (success).  If the file can be created, no write fails, and all objects can be made into YAML, then `WriteYAML` succeeds. -/
theorem C37_success {sys : Sys} {marshal : ι → Option Str} (rule : Rule) (item header : Str) {objs : List ι} (fs : Fs) (hc : ∀ p, sys.creatable p = true) (hw : ∀ k, sys.write k = none)
    (hm : ∀ o ∈ objs, marshal o ≠ none) : (writeYAML sys marshal rule item header objs fs).2 = true := by
  have ho : ∃ dest mk, openRule rule none item = some (dest, mk) := by cases rule <;> exact ⟨_, _, rfl⟩
  obtain ⟨dest, mk, ho⟩ := ho
  rw [writeYAML, ho]
  simp only
  have : ∃ fs0, create sys fs dest = some fs0 := by cases dest <;> simp [create, hc]
  obtain ⟨fs0, h0⟩ := this
  simp only [h0]
  have : ∃ fs1, write sys fs0 dest 0 header = (fs1, true) := by cases dest <;> simp [write, hw]
  obtain ⟨fs1, h1⟩ := this
  simp only [h1]
  exact writeDocs_ok hw 1 fs1 hm

/-! ## Reading the documents back -/

theorem lines_terminated (a : Str) : lines (a ++ ['\n']) = Text.split '\n' a := by
  have : Text.split '\n' (a ++ ['\n']) = Text.split '\n' a ++ [[]] := Text.split_concat (by simp)
  rw [lines, this]
  simp

theorem lines_append {a : Str} (b : Str) (ha : a = [] ∨ ∃ a', a = a' ++ ['\n']) : lines (a ++ b) = lines a ++ lines b := by
  rcases ha with rfl | ⟨a', rfl⟩
  · simp [lines, Text.split]
  · rw [lines_terminated, List.append_assoc]
    show lines (a' ++ '\n' :: b) = _
    rw [lines, split_sep]
    have hne : Text.split '\n' b ≠ [] := Text.split_ne_nil
    rw [show (Text.split '\n' a' ++ Text.split '\n' b).getLast? = (Text.split '\n' b).getLast? by
      cases hb : Text.split '\n' b with
      | nil => exact absurd hb hne
      | cons x xs => simp [List.getLast?_append, List.getLast?_cons], lines]
    split
    · rw [List.dropLast_append_of_ne_nil hne]
    · rfl

theorem splitDocs_plain {a : List Str} (h : ∀ l ∈ a, ¬ IsMarker l) (b : List Str) : splitDocs (a ++ b) = (a ++ (splitDocs b).1, (splitDocs b).2) := by
  induction a with
  | nil => rfl
  | cons l a ih =>
    rw [List.cons_append, splitDocs, if_neg (h l (by simp)), ih (fun x hx => h x (by simp [hx]))]
    rfl

theorem isMarker_dashes : IsMarker ['-', '-', '-'] := .inl rfl

theorem comment_not_marker {l : Str} (h : IsComment l) : ¬ IsMarker l := by
  rintro (rfl | ⟨r, rfl⟩)
  · rcases h with h | h <;> simp at h
  · rcases h with h | h <;> simp at h

theorem not_marker {l : Str} (h : ¬ ['-', '-', '-'] <+: l) : ¬ IsMarker l := by
  rintro (rfl | ⟨r, rfl⟩)
  · exact h (List.prefix_refl _)
  · exact h ⟨' ' :: r, by simp⟩

theorem lines_docs : ∀ (docs : List Str), (∀ d ∈ docs, DocText d) → splitDocs (lines (docsText docs)) = ([], docs.map lines) := by
  intro docs
  induction docs with
  | nil => intro _; decide
  | cons d docs ih =>
    intro h
    have hd := h d (by simp)
    have e : docsText (d :: docs) = docStart ++ (d ++ docsText docs) := by simp [docsText]
    have h1 : lines (docStart ++ (d ++ docsText docs)) = [['-', '-', '-']] ++ (lines d ++ lines (docsText docs)) := by
      rw [lines_append (a := docStart) _ (.inr ⟨['-', '-', '-'], rfl⟩), lines_append _ (.inr hd.1)]
      rfl
    rw [e, h1, List.singleton_append, splitDocs, if_pos isMarker_dashes, splitDocs_plain (fun l hl => not_marker (hd.2.1 l hl)), ih (fun x hx => h x (by simp [hx]))]
    simp

theorem dropWhile_all {α : Type} {p : α → Bool} {a b : List α} (h : ∀ x ∈ a, p x = true) : (a ++ b).dropWhile p = b.dropWhile p := by
  induction a with
  | nil => rfl
  | cons x a ih => rw [List.cons_append, List.dropWhile_cons, if_pos (h x (by simp)), ih (fun y hy => h y (by simp [hy]))]

/-- **C37** (documents).  The text of a file, with a header of comments (even one whose last line lacks the newline), is read as one document for each object, in order. -/
theorem C37_documents {header : Str} (hh : HeaderText header) {docs : List Str} (hd : ∀ d ∈ docs, DocText d) : documents (fileText header docs) = docs.map lines := by
  obtain ⟨pre, last, rfl, hp, hn, hc, hl⟩ : ∃ pre last, header = pre ++ last ∧ (pre = [] ∨ ∃ a, pre = a ++ ['\n']) ∧ '\n' ∉ last ∧ (∀ l ∈ lines pre, IsComment l) ∧ IsComment last := by
    rcases Text.last_sep '\n' header with hn | ⟨a, last, rfl, hn⟩
    · exact ⟨[], header, rfl, .inl rfl, hn, by simp [lines, Text.split], hh header (by rw [Text.split_not_mem hn]; simp)⟩
    · rw [HeaderText, Text.split_concat hn] at hh
      exact ⟨a ++ ['\n'], last, by simp, .inr ⟨a, rfl⟩, hn, by rw [lines_terminated]; exact fun l h => hh l (by simp [h]), hh last (by simp)⟩
  have hnm : ∀ l ∈ lines pre, ¬ IsMarker l := fun l h => comment_not_marker (hc l h)
  have hdw : ∀ b : List Str, (lines pre ++ b).dropWhile (fun l => decide (IsComment l)) = b.dropWhile (fun l => decide (IsComment l)) :=
    fun b => dropWhile_all (fun x hx => by simpa using hc x hx)
  rw [fileText_eq, documents]
  by_cases hlast : last = []
  · subst hlast
    rw [List.append_nil, lines_append _ hp, splitDocs_plain hnm, lines_docs docs hd]
    simp only [hdw]
    simp
  · cases docs with
    | nil =>
      have e : lines (pre ++ last ++ docsText []) = lines pre ++ [last] := by
        rw [show docsText [] = [] from rfl, List.append_nil, lines_append _ hp]
        congr 1
        rw [lines, Text.split_not_mem hn]
        simp [hlast]
      have hs : splitDocs [last] = ([last], []) := by simp [splitDocs, comment_not_marker hl]
      rw [e, splitDocs_plain hnm, hs]
      simp only [hdw]
      simp [List.dropWhile, hl]
    | cons d docs =>
      have hdd := hd d (by simp)
      obtain ⟨l0, ls, h0, hnc⟩ := hdd.2.2
      have hl' : IsComment (last ++ ['-', '-', '-']) := by
        rcases hl with hl | hl
        · exact absurd hl hlast
        · right
          cases last with
          | nil => exact absurd rfl hlast
          | cons c l => simpa using hl
      have e : lines (pre ++ last ++ docsText (d :: docs)) = lines pre ++ (last ++ ['-', '-', '-']) :: (lines d ++ lines (docsText docs)) := by
        rw [show pre ++ last ++ docsText (d :: docs) = pre ++ ((last ++ ['-', '-', '-'] ++ ['\n']) ++ (d ++ docsText docs)) by simp [docsText, docStart],
          lines_append _ hp, lines_append _ (.inr ⟨_, rfl⟩), lines_append _ (.inr hdd.1), lines_terminated, Text.split_not_mem (by simp [hn])]
        simp
      have hs : splitDocs (lines d ++ lines (docsText docs)) = (lines d, docs.map lines) := by
        rw [splitDocs_plain (fun l hl => not_marker (hdd.2.1 l hl)), lines_docs docs (fun x hx => hd x (by simp [hx]))]
        simp
      rw [e, splitDocs_plain hnm, splitDocs, if_neg (comment_not_marker hl'), hs]
      simp only [hdw]
      have hfirst : ((last ++ ['-', '-', '-']) :: lines d).dropWhile (fun l => decide (IsComment l)) = lines d := by
        rw [List.dropWhile_cons, if_pos (by simpa using hl'), h0, List.dropWhile_cons, if_neg (by simpa using hnc)]
      rw [hfirst]
      simp [h0]

theorem all2_map {marshal : ι → Option Str} {objs : List ι} {docs : List Str} (h : All2 (fun o d => marshal o = some d) objs docs) :
    All2 (fun o d => ∃ c, marshal o = some c ∧ d = lines c) objs (docs.map lines) := by
  induction h with
  | nil => exact .nil
  | cons ho _ ih => exact .cons ⟨_, ho, rfl⟩ ih

theorem write_exists {sys : Sys} {fs fs' : Fs} {p : Str} {k : Nat} {t : Str} {b : Bool} (h : write sys fs (.file p) k t = (fs', b)) : GoMap.get fs'.files p ≠ none := by
  simp only [write] at h
  split at h <;> cases h <;> simp [emit, GoMap.get_put]

theorem writeDocs_exists {sys : Sys} {marshal : ι → Option Str} {p : Str} : ∀ {objs : List ι} {k : Nat} {fs fs' : Fs} {b : Bool}, writeDocs sys marshal (.file p) k objs fs = (fs', b) →
    GoMap.get fs.files p ≠ none → GoMap.get fs'.files p ≠ none := by
  intro objs
  induction objs with
  | nil => intro k fs fs' b h hs; cases h; exact hs
  | cons o objs ih =>
    intro k fs fs' b h hs
    rw [writeDocs] at h
    cases hm : marshal o with
    | none => rw [hm] at h; cases h; exact hs
    | some c =>
      rw [hm] at h
      simp only at h
      cases hw : write sys fs (.file p) k (docStart ++ c) with
      | mk fs1 b1 =>
        rw [hw] at h
        cases b1 with
        | false => cases h; exact write_exists hw
        | true => exact ih h (write_exists hw)

theorem writeYAML_exists {sys : Sys} {marshal : ι → Option Str} {rule : Rule} {item header : Str} {objs : List ι} {fs fs' : Fs} {p : Str} {mk : Option Str}
    (h : writeYAML sys marshal rule item header objs fs = (fs', true)) (hp : openRule rule none item = some (.file p, mk)) : GoMap.get fs'.files p ≠ none := by
  rw [writeYAML, hp] at h
  simp only at h
  cases hc : create sys fs (.file p) with
  | none => rw [hc] at h; cases h
  | some fs0 =>
    rw [hc] at h
    simp only at h
    cases hw : write sys fs0 (.file p) 0 header with
    | mk fs1 b =>
      rw [hw] at h
      cases b with
      | false => cases h
      | true => exact writeDocs_exists h (write_exists hw)

/-- **C37** (count).  After a successful call that writes to a file, with a header of comments, the file has as many documents as there were objects: one for each, in order. -/
theorem C37_count {sys : Sys} {marshal : ι → Option Str} {rule : Rule} {item header : Str} {objs : List ι} {fs fs' : Fs} (h : writeYAML sys marshal rule item header objs fs = (fs', true))
    (hh : HeaderText header) (hm : ∀ o d, marshal o = some d → DocText d) {p : Str} {mk : Option Str} (hp : openRule rule none item = some (.file p, mk)) :
    ∃ text, GoMap.get fs'.files p = some text ∧ (documents text).length = objs.length ∧ All2 (fun o d => ∃ c, marshal o = some c ∧ d = lines c) objs (documents text) := by
  obtain ⟨dest, mk', docs, h1, h2, _, h3⟩ := C37_written h
  rw [hp] at h1
  cases h1
  have h3 := h3 (by simp)
  have hdoc : ∀ d ∈ docs, DocText d := fun d hd => by
    obtain ⟨o, _, ho⟩ := h2.exists_left hd
    exact hm o d ho
  have hres := C37_documents hh hdoc
  simp only [contents, before, List.nil_append] at h3
  cases hg : GoMap.get fs'.files p with
  | some text =>
    rw [hg] at h3
    simp only [Option.getD_some] at h3
    subst h3
    refine ⟨_, rfl, ?_, ?_⟩
    · rw [hres, List.length_map, h2.length_eq]
    · rw [hres]
      exact all2_map h2
  | none => exact absurd hg (writeYAML_exists h hp)

/-- **C37**, violated: with a header whose last line lacks the newline and is not a comment (here: spaces), the mark of the first document is part of that line. -/
theorem C37_violated_header : ∃ header d, ¬ HeaderText header ∧ (∀ l ∈ Text.split '\n' header, ∀ c ∈ l, c = ' ') ∧ DocText d ∧ documents (fileText header [d]) ≠ [lines d] := by
  refine ⟨"  ".toList, "a: b\n".toList, ?_, by decide +kernel, ?_, by decide +kernel⟩
  · intro h
    exact absurd (h "  ".toList (by decide +kernel)) (by decide +kernel)
  · exact ⟨⟨"a: b".toList, by decide +kernel⟩, by decide +kernel, "a: b".toList, [], by decide +kernel, by decide +kernel⟩

namespace Example

def fs : Fs := { files := [("config/rbac/role.yaml".toList, "old".toList), ("other".toList, "kept".toList)] }
def marshal (n : Nat) : Option Str := if n = 0 then none else some ("kind: Role\nn: ".toList ++ (toString n).toList ++ ['\n'])
def sys : Sys := { creatable := fun _ => true, write := fun _ => none }

/-- Two objects. -/
example : writeYAML sys marshal (.artifacts "config/rbac".toList []) "role.yaml".toList "# header".toList [1, 2] fs =
    ({ files := [("config/rbac/role.yaml".toList, "# header---\nkind: Role\nn: 1\n---\nkind: Role\nn: 2\n".toList), ("other".toList, "kept".toList)] }, true) := by decide +kernel

example : HeaderText "# header".toList := by unfold HeaderText; decide +kernel
example : documents "# header---\nkind: Role\nn: 1\n---\nkind: Role\nn: 2\n".toList = [["kind: Role", "n: 1"], ["kind: Role", "n: 2"]].map (List.map String.toList) := by decide +kernel

/-- An object that cannot be made into YAML: what was in the file is lost, and the objects before it have been written. -/
example : writeYAML sys marshal (.artifacts "config/rbac".toList []) "role.yaml".toList [] [1, 0, 2] fs =
    ({ files := [("config/rbac/role.yaml".toList, "---\nkind: Role\nn: 1\n".toList), ("other".toList, "kept".toList)] }, false) := by decide +kernel

end Example

/-! ## Transformations (C63) -/

theorem get_del {ν : Type} (m : List (Str × ν)) (k k' : Str) : GoMap.get (del m k) k' = if k' = k then none else GoMap.get m k' := by
  induction m with
  | nil => simp [del, GoMap.get]
  | cons e m ih =>
    obtain ⟨a, v⟩ := e
    rw [del, List.filter_cons]
    by_cases ha : a = k
    · subst ha
      simp only [ne_eq, not_true_eq_false, decide_false, Bool.false_eq_true, if_false]
      rw [show m.filter (fun e => decide (e.1 ≠ a)) = del m a from rfl, ih]
      by_cases h : k' = a
      · simp [h]
      · have h' : ¬ a = k' := fun e => h e.symm
        simp [h, GoMap.get, h']
    · simp only [ne_eq, ha, not_false_eq_true, decide_true, if_true]
      rw [show m.filter (fun e => decide (¬ e.1 = k)) = del m k from rfl]
      by_cases h : a = k'
      · subst h; simp [GoMap.get, ha]
      · simp only [GoMap.get, h, if_false]; exact ih

namespace Spec

/-- `m'` is `m` without `key`. -/
def Without {ν : Type} (key : Str) (m m' : List (Str × ν)) : Prop := GoMap.get m' key = none ∧ ∀ k, k ≠ key → GoMap.get m' k = GoMap.get m k

/-- `m'` is `m` with the value `v` for `key`. -/
def With {ν : Type} (key : Str) (v : ν) (m m' : List (Str × ν)) : Prop := GoMap.get m' key = some v ∧ ∀ k, k ≠ key → GoMap.get m' k = GoMap.get m k

end Spec

theorem without_del {ν : Type} (key : Str) (m : List (Str × ν)) : Without key m (del m key) := ⟨by simp [get_del], fun k hk => by simp [get_del, hk]⟩

theorem with_put {ν : Type} (key : Str) (v : ν) (m : List (Str × ν)) : With key v m (GoMap.put m key v) := ⟨by simp [GoMap.get_put], fun k hk => by simp [GoMap.get_put, hk]⟩

/-- **C63** (roles and webhooks).  What is written is the object without the creation timestamp in its metadata; nothing else changes. -/
theorem C63_objects {obj : Obj} {m : List (Str × Val)} (hm : GoMap.get obj "metadata".toList = some (.map m)) :
    ∃ obj' m', transform [removeCreationTimestamp] obj = some obj' ∧ With "metadata".toList (.map m') obj obj' ∧ Without "creationTimestamp".toList m m' := by
  refine ⟨GoMap.put obj "metadata".toList (.map (del m "creationTimestamp".toList)), del m "creationTimestamp".toList, ?_, with_put .., without_del ..⟩
  rw [transform, removeCreationTimestamp, hm]; rfl

/-- **C63** (CRDs).  What is written is the CRD without its status and without the creation timestamp in its metadata, and, if that is asked for, with `preserveUnknownFields` in its spec; nothing else changes. -/
theorem C63_crd {obj : Obj} {m s : List (Str × Val)} (hm : GoMap.get obj "metadata".toList = some (.map m)) (hs : GoMap.get obj "spec".toList = some (.map s)) (preserve : Option Bool) :
    ∃ obj' m' s', transform (crdTransforms preserve) obj = some obj' ∧
      GoMap.get obj' "status".toList = none ∧
      GoMap.get obj' "metadata".toList = some (.map m') ∧ Without "creationTimestamp".toList m m' ∧
      GoMap.get obj' "spec".toList = some (.map s') ∧ (preserve = none → s' = s) ∧ (∀ v, preserve = some v → With "preserveUnknownFields".toList (.other (if v then "true" else "false").toList) s s') ∧
      ∀ k, k ≠ "status".toList → k ≠ "metadata".toList → k ≠ "spec".toList → GoMap.get obj' k = GoMap.get obj k := by
  have hms : "metadata".toList ≠ "status".toList := by decide +kernel
  have hss : "spec".toList ≠ "status".toList := by decide +kernel
  have hsm : "spec".toList ≠ "metadata".toList := by decide +kernel
  have h1 : GoMap.get (del obj "status".toList) "metadata".toList = some (.map m) := by rw [get_del, if_neg hms, hm]
  have h2 : GoMap.get (del obj "status".toList) "spec".toList = some (.map s) := by rw [get_del, if_neg hss, hs]
  generalize ho1 : GoMap.put (del obj "status".toList) "metadata".toList (.map (del m "creationTimestamp".toList)) = o1
  have h3 : GoMap.get o1 "spec".toList = some (.map s) := by rw [← ho1, GoMap.get_put, if_neg hsm, h2]
  have h4 : GoMap.get o1 "metadata".toList = some (.map (del m "creationTimestamp".toList)) := by rw [← ho1, GoMap.get_put, if_pos rfl]
  have h5 : GoMap.get o1 "status".toList = none := by rw [← ho1, GoMap.get_put, if_neg hms.symm, get_del, if_pos rfl]
  have h6 : ∀ k, k ≠ "status".toList → k ≠ "metadata".toList → GoMap.get o1 k = GoMap.get obj k := fun k a b => by rw [← ho1, GoMap.get_put, if_neg b, get_del, if_neg a]
  have hstep : transform (crdTransforms preserve) obj = transform (match preserve with | none => [] | some v => [preserveUnknownFields v]) o1 := by
    have e1 : removeCreationTimestamp (del obj "status".toList) = some o1 := by rw [removeCreationTimestamp, h1, ← ho1]
    show transform (removeCRDStatus :: removeCreationTimestamp :: _) obj = _
    rw [transform, removeCRDStatus]
    simp only
    rw [transform, e1]
    rfl
  cases preserve with
  | none => exact ⟨o1, _, s, by rw [hstep]; rfl, h5, h4, without_del .., h3, fun _ => rfl, fun v h => (by cases h), fun k a b _ => h6 k a b⟩
  | some v =>
    refine ⟨GoMap.put o1 "spec".toList (.map (GoMap.put s "preserveUnknownFields".toList (.other (if v then "true" else "false").toList))), _, _, ?_, ?_, ?_, without_del .., ?_,
      fun h => (by cases h), fun v' h => (by cases h; exact with_put ..), ?_⟩
    · rw [hstep]; simp only; rw [transform, preserveUnknownFields, h3]; rfl
    · rw [GoMap.get_put, if_neg hss.symm, h5]
    · rw [GoMap.get_put, if_neg hsm.symm, h4]
    · rw [GoMap.get_put, if_pos rfl]
    · intro k a b c
      rw [GoMap.get_put, if_neg c, h6 k a b]

/-- **C63**, violated: an object without metadata makes `WriteYAML` with this transformation crash, instead of returning an error. -/
theorem C63_violated (obj : Obj) (h : ∀ m, GoMap.get obj "metadata".toList ≠ some (.map m)) : transform [removeCreationTimestamp] obj = none := by
  rw [transform, removeCreationTimestamp]
  split
  · rename_i h'
    split at h'
    · rename_i m hm; exact absurd hm (h m)
    · rfl
  · rename_i o h'
    split at h'
    · rename_i m hm; exact absurd hm (h m)
    · cases h'

example : GoMap.get ([("metadata".toList, .map [("creationTimestamp".toList, .other "null".toList), ("name".toList, .other "x".toList)]), ("spec".toList, .map []), ("status".toList, .map [])] : Obj) "metadata".toList =
    some (.map [("creationTimestamp".toList, .other "null".toList), ("name".toList, .other "x".toList)]) := by rfl

end Verif.Genall
