import Verif.Genall.StdoutSpec
import Verif.Genall.WriteYamlTheorems
import Verif.Genall.RunTheorems
/-!
# What is printed with `output:stdout` (C94)
-/
namespace Verif.Genall
open Markers (Str)
open Loader (PkgErr)
open Spec

/-! ## What is printed -/

theorem artifacts_not_stdout {config code : Str} {pkg : Option (List Str)} {item : Str} {d : Option Str} : openRule (.artifacts config code) pkg item ≠ some (.stdout, d) := by
  unfold openRule
  rcases pkg with _ | (_ | ⟨f, fs⟩)
  · simp
  · by_cases h : code = [] <;> simp [h]
  · by_cases h : code = [] <;> simp [h]

theorem write_stdout {cwd : List Str} {rule : Rule} {a : Artifact} {w w' : World} (h : a.write cwd rule w = some w') : w'.stdout = w.stdout ++ (if rule = .stdout then a.text else []) := by
  unfold Artifact.write at h
  cases rule with
  | nothing => cases h; simp
  | stdout => cases h; simp
  | dir d => cases h; simp
  | artifacts config code =>
    split at h
    · cases h
    · cases h; simp
    · rename_i ho
      exact absurd ho artifacts_not_stdout
    · cases h; simp

theorem write_printed (cwd : List Str) (a : Artifact) (w : World) : a.write cwd .stdout w = some { w with stdout := w.stdout ++ a.text } := rfl

theorem writeAll_stdout {cwd : List Str} {rule : Rule} {goOn : Bool} : ∀ {l : List Artifact} {w : World}, (writeAll cwd rule goOn l w).1.stdout = w.stdout ++ (if rule = .stdout then (l.map (·.text)).flatten else [])
  | [], w => by simp [writeAll]
  | a :: l, w => by
    by_cases hr : rule = .stdout
    · subst hr
      rw [writeAll, write_printed]
      simp only
      rw [writeAll_stdout]
      simp
    · simp only [if_neg hr, List.append_nil]
      rw [writeAll]
      have ih := fun w' => writeAll_stdout (cwd := cwd) (rule := rule) (goOn := goOn) (l := l) (w := w')
      simp only [if_neg hr, List.append_nil] at ih
      cases h : a.write cwd rule w with
      | none =>
        simp only
        split
        · exact ih w
        · rfl
      | some w' =>
        simp only
        rw [ih, write_stdout h, if_neg hr, List.append_nil]

theorem step_stdout {cwd : List Str} (s : Step) (c : Ctx) (w : World) : ((s.gen cwd).generate c w).1.stdout = w.stdout ++ (if c.rule = some .stdout then (s.artifacts.map (·.text)).flatten else []) := by
  simp only [Step.gen]
  cases hr : c.rule with
  | none => simp
  | some rule =>
    simp only
    have h := writeAll_stdout (cwd := cwd) (rule := rule) (goOn := s.tool == .object) (l := s.artifacts) (w := w)
    cases hw : writeAll cwd rule (s.tool == .object) s.artifacts w with
    | mk w' e =>
      rw [hw] at h
      cases e <;> simpa using h

theorem runLoop_stdout {cwd : List Str} {rules : OutputRules} : ∀ {steps : List Step} {i : Nat} {w : World} {out : List String} {had : Bool},
    (runLoop rules i (steps.map (Step.gen cwd)) w out had).1.stdout = w.stdout ++ ((printedFrom rules i steps).map (·.text)).flatten
  | [], _, _, _, _ => by simp [runLoop, printedFrom]
  | s :: ss, i, w, out, had => by
    have h := step_stdout (cwd := cwd) s (ctxFor rules i (s.gen cwd)) w
    rw [List.map_cons, runLoop, printedFrom, List.map_append, List.flatten_append, ← List.append_assoc]
    have e : (if (ctxFor rules i (s.gen cwd)).rule = some .stdout then (s.artifacts.map (·.text)).flatten else []) = ((if rules.forGenerator i = some .stdout then s.artifacts else []).map (·.text)).flatten := by
      show (if rules.forGenerator i = some .stdout then _ else _) = _
      split <;> simp
    rw [← e, ← h]
    cases hg : (s.gen cwd).generate (ctxFor rules i (s.gen cwd)) w with
    | mk w' o => cases o <;> exact runLoop_stdout

/-- **C94** (printed).  A run prints all of the artifacts of the generators whose output rule is `stdout`, in the order of the generators, and nothing else; whatever fails. -/
theorem C94_printed (cwd : List Str) (rules : OutputRules) (steps : List Step) (errors : World → Nat → List PkgErr) (visited : World → List Nat) (w : World) :
    (run rules errors visited (steps.map (Step.gen cwd)) w).1.stdout = w.stdout ++ ((printed rules steps).map (·.text)).flatten := by
  unfold run
  split
  · rename_i h
    rw [List.map_eq_nil_iff] at h
    subst h
    simp [printed, printedFrom]
  · exact runLoop_stdout

/-! ## How it is read -/

theorem splitDocs_docs {rest : List Str} (hr : ∀ l ∈ (splitDocs rest).1, IsComment l) : ∀ {docs : List Str}, (∀ d ∈ docs, DocText d) →
    ∃ c xs, splitDocs (lines (docsText docs) ++ rest) = (c, xs ++ (splitDocs rest).2) ∧ (∀ l ∈ c, IsComment l) ∧ All2 SameDocument xs (docs.map lines)
  | [], _ => ⟨(splitDocs rest).1, [], by rw [show lines (docsText []) = [] by decide +kernel]; simp, hr, .nil⟩
  | d :: docs, h => by
    obtain ⟨c, xs, h1, h2, h3⟩ := splitDocs_docs hr (docs := docs) fun x hx => h x (by simp [hx])
    have hd := h d (by simp)
    have e : docsText (d :: docs) = docStart ++ (d ++ docsText docs) := by simp [docsText]
    have e1 : lines (docStart ++ (d ++ docsText docs)) = [['-', '-', '-']] ++ (lines d ++ lines (docsText docs)) := by
      rw [lines_append (a := docStart) _ (.inr ⟨['-', '-', '-'], rfl⟩), lines_append _ (.inr hd.1)]
      rfl
    refine ⟨[], (lines d ++ c) :: xs, ?_, nofun, .cons ⟨c, rfl, h2⟩ h3⟩
    rw [e, e1, List.append_assoc, List.singleton_append, splitDocs, if_pos isMarker_dashes, List.append_assoc, splitDocs_plain (fun l hl => not_marker (hd.2.1 l hl)), h1]
    rfl

theorem docsText_terminated : ∀ {docs : List Str}, (∀ d ∈ docs, DocText d) → docsText docs = [] ∨ ∃ t, docsText docs = t ++ ['\n']
  | [], _ => .inl rfl
  | d :: docs, h => by
    right
    obtain ⟨d', hd⟩ := (h d (by simp)).1
    have e : docsText (d :: docs) = docStart ++ (d ++ docsText docs) := by simp [docsText]
    rcases docsText_terminated (docs := docs) fun x hx => h x (by simp [hx]) with h1 | ⟨t, h1⟩
    · exact ⟨docStart ++ d', by rw [e, h1, hd]; simp⟩
    · exact ⟨docStart ++ (d ++ t), by rw [e, h1]; simp⟩

theorem manifest_terminated {t : Str} (h : Manifest t) : t = [] ∨ ∃ t', t = t' ++ ['\n'] := by
  obtain ⟨header, docs, rfl, -, hh, hd⟩ := h
  rw [fileText_eq]
  rcases docsText_terminated hd with h1 | ⟨t, h1⟩
  · rw [h1, List.append_nil]; exact hh
  · exact .inr ⟨header ++ t, by rw [h1]; simp⟩

theorem lines_mem {a l : Str} (h : l ∈ lines a) : l ∈ Text.split '\n' a := by
  unfold lines at h
  simp only at h
  split at h
  · exact List.dropLast_subset _ h
  · exact h

theorem splitDocs_stream : ∀ {ts : List Str}, (∀ t ∈ ts, Manifest t) →
    (∀ l ∈ (splitDocs (lines ts.flatten)).1, IsComment l) ∧ All2 SameDocument (splitDocs (lines ts.flatten)).2 (ts.flatMap documents)
  | [], _ => by
    rw [show lines ([] : List Str).flatten = [] by decide +kernel]
    exact ⟨nofun, .nil⟩
  | t :: ts, h => by
    obtain ⟨i1, i2⟩ := splitDocs_stream (ts := ts) fun x hx => h x (by simp [hx])
    have hm := h t (by simp)
    rw [List.flatten_cons, lines_append _ (manifest_terminated hm), List.flatMap_cons]
    obtain ⟨header, docs, rfl, hh, hn, hd⟩ := hm
    obtain ⟨c, xs, h1, h2, h3⟩ := splitDocs_docs i1 hd
    have hc : ∀ l ∈ lines header, IsComment l := fun l hl => hh l (lines_mem hl)
    rw [C37_documents hh hd, fileText_eq, lines_append _ hn, List.append_assoc, splitDocs_plain (fun l hl => comment_not_marker (hc l hl)), h1]
    refine ⟨fun l hl => ?_, h3.append i2⟩
    rcases List.mem_append.1 hl with hl | hl
    · exact hc l hl
    · exact h2 l hl

/-- **C94** (read).  If all that is printed are manifests, it is read as the documents of all of them, in order; comments of headers may follow a document.  What is missing: headers that do not end with a newline
(`C94_violated_header`), and code (`C94_violated_code`). -/
theorem C94_read_partial (cwd : List Str) (rules : OutputRules) (steps : List Step) (errors : World → Nat → List PkgErr) (visited : World → List Nat) {w : World} (hw : w.stdout = [])
    (hm : ∀ a ∈ printed rules steps, Manifest a.text) :
    All2 SameDocument (documents (run rules errors visited (steps.map (Step.gen cwd)) w).1.stdout) ((printed rules steps).flatMap fun a => documents a.text) := by
  rw [C94_printed, hw, List.nil_append]
  obtain ⟨h1, h2⟩ := splitDocs_stream (ts := (printed rules steps).map (·.text)) fun t ht => by
    obtain ⟨a, ha, rfl⟩ := List.mem_map.1 ht
    exact hm a ha
  rw [List.flatMap_map] at h2
  have h3 : (splitDocs (lines ((printed rules steps).map (·.text)).flatten)).1.dropWhile (fun l => decide (IsComment l)) = [] := by
    rw [← List.append_nil (splitDocs _).1, dropWhile_all fun l hl => by simpa using h1 l hl]
    rfl
  unfold documents
  simp only [h3, if_pos, List.nil_append]
  exact h2

end Verif.Genall
