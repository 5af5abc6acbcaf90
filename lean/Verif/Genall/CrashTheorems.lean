import Verif.Genall.AgainTheorems
/-!
# Runs that are interrupted (C93)
-/
namespace Verif.Genall
open Markers (Str)
open Markers.Doc (trimSpace trimRight isSpace)
open Spec

variable {G : GoCmd}

/-! ## Blocks of operations -/

/-- What is done for one file. -/
def block (b : List Str × List Str) : List Op := .create b.1 :: b.2.map (.append b.1)

def doAll (disk : Disk) (l : List Op) : Disk := l.foldl Op.apply disk

theorem doAll_append (disk : Disk) (a b : List Op) : doAll disk (a ++ b) = doAll (doAll disk a) b := by simp [doAll]

theorem appends_get {p q : List Str} : ∀ {l : List Str} {disk : Disk}, GoMap.get (doAll disk (l.map (.append p))) q =
    if l = [] then GoMap.get disk q else if q = p then some ((GoMap.get disk p).getD [] ++ l.flatten) else GoMap.get disk q
  | [], _ => rfl
  | s :: l, disk => by
    rw [List.map_cons, doAll, List.foldl_cons]
    show GoMap.get (doAll (GoMap.put disk p _) _) q = _
    rw [appends_get]
    by_cases hq : q = p
    · subst hq
      by_cases hl : l = []
      · simp [hl, GoMap.get_put]
      · simp [hl, GoMap.get_put]
    · by_cases hl : l = []
      · simp [hl, hq, GoMap.get_put]
      · simp [hl, hq, GoMap.get_put]

theorem block_get {b : List Str × List Str} {disk : Disk} {q : List Str} : GoMap.get (doAll disk (block b)) q = if q = b.1 then some b.2.flatten else GoMap.get disk q := by
  rw [block, doAll, List.foldl_cons]
  show GoMap.get (doAll (GoMap.put disk b.1 []) _) q = _
  rw [appends_get]
  by_cases hq : q = b.1
  · subst hq
    by_cases hl : b.2 = [] <;> simp [hl, GoMap.get_put]
  · by_cases hl : b.2 = [] <;> simp [hl, hq, GoMap.get_put]

theorem flatten_take_prefix (l : List Str) (n : Nat) : (l.take n).flatten <+: l.flatten := by
  rw [← List.take_append_drop n l, List.flatten_append, List.take_append_drop]
  exact List.prefix_append _ _

/-- A block that is interrupted. -/
theorem block_take {b : List Str × List Str} {disk : Disk} (n : Nat) : (∀ q, q ≠ b.1 → GoMap.get (doAll disk ((block b).take n)) q = GoMap.get disk q) ∧
    (n = 0 ∨ ∃ s, s <+: b.2.flatten ∧ GoMap.get (doAll disk ((block b).take n)) b.1 = some s) := by
  cases n with
  | zero => exact ⟨fun _ _ => rfl, .inl rfl⟩
  | succ n =>
    have e : (block b).take (n + 1) = block (b.1, b.2.take n) := by simp [block, List.map_take]
    rw [e]
    refine ⟨fun q hq => by rw [block_get]; exact if_neg hq, .inr ⟨(b.2.take n).flatten, flatten_take_prefix _ _, by rw [block_get]; exact if_pos rfl⟩⟩

theorem blocks_get {q : List Str} : ∀ {bs : List (List Str × List Str)} {disk : Disk}, GoMap.get (doAll disk (bs.flatMap block)) q = GoMap.get (puts disk (bs.map fun b => (b.1, b.2.flatten))) q
  | [], _ => rfl
  | b :: bs, disk => by
    rw [List.flatMap_cons, doAll_append, blocks_get, List.map_cons]
    show _ = GoMap.get (puts (GoMap.put disk b.1 b.2.flatten) _) q
    by_cases h : ∃ e ∈ bs.map (fun b => (b.1, b.2.flatten)), e.1 = q
    · exact puts_agree h
    · have h' : ∀ e ∈ bs.map (fun b => (b.1, b.2.flatten)), e.1 ≠ q := fun e he hq => h ⟨e, he, hq⟩
      rw [puts_other h', puts_other h', block_get, GoMap.get_put]

/-- Where an interrupted run is: some files are complete, at most one is begun. -/
theorem take_blocks : ∀ (bs : List (List Str × List Str)) (n : Nat), ∃ done rest m, bs = done ++ rest ∧ (bs.flatMap block).take n = done.flatMap block ++ ((rest.head?.map block).getD []).take m
  | [], n => ⟨[], [], 0, rfl, by simp⟩
  | b :: bs, n => by
    by_cases h : n ≤ (block b).length
    · exact ⟨[], b :: bs, n, rfl, by simp [List.flatMap_cons, List.take_append_of_le_length h]⟩
    · obtain ⟨done, rest, m, e1, e2⟩ := take_blocks bs (n - (block b).length)
      refine ⟨b :: done, rest, m, by rw [e1]; rfl, ?_⟩
      rw [List.flatMap_cons, List.take_append, List.take_of_length_le (by omega), e2, List.flatMap_cons, List.append_assoc]

/-! ## The operations of a run -/

def blockOf (cwd : List Str) (pieces : Artifact → List Str) (r : Rule) (a : Artifact) : List (List Str × List Str) :=
  match folder cwd r a.pkg with
  | none => []
  | some dir => [(dir ++ [a.item], pieces a)]

def blocksOf (cwd : List Str) (rules : OutputRules) (pieces : Artifact → List Str) : Nat → List Step → List (List Str × List Str)
  | _, [] => []
  | i, s :: ss => (match rules.forGenerator i with | some r => s.artifacts.flatMap (blockOf cwd pieces r) | none => []) ++ blocksOf cwd rules pieces (i + 1) ss

theorem ops_block {cwd : List Str} {pieces : Artifact → List Str} {rule : Rule} {a : Artifact} (h : Fine a) :
    a.ops cwd rule pieces = some ((blockOf cwd pieces rule a).flatMap block) ∨ (a.ops cwd rule pieces = none ∧ blockOf cwd pieces rule a = [] ∧ a.pkg ≠ none) := by
  unfold Artifact.ops blockOf
  cases rule with
  | nothing => exact .inl rfl
  | stdout => exact .inl rfl
  | dir d => left; simp [openRule, folder, block, locate_in cwd d h.item]
  | artifacts config code =>
    cases hp : a.pkg with
    | none => left; simp [openRule, folder, block, locate_in cwd config h.item]
    | some files =>
      by_cases hc : code = []
      · subst hc
        cases files with
        | nil => exact .inr ⟨rfl, rfl, nofun⟩
        | cons f fs =>
          left
          simp [openRule, folder, block, locate_in cwd _ h.item, locate_go cwd (h.go _ hp f (by simp))]
      · left
        simp [openRule, folder, block, hc, locate_in cwd _ h.item]

theorem opsAll_blocks {cwd : List Str} {pieces : Artifact → List Str} {rule : Rule} {goOn : Bool} : ∀ {l : List Artifact}, (∀ a ∈ l, Fine a) → (goOn = false → ∀ a ∈ l, a.pkg = none) →
    opsAll cwd rule goOn pieces l = (l.flatMap (blockOf cwd pieces rule)).flatMap block
  | [], _, _ => rfl
  | a :: l, hf, hp => by
    have ih := opsAll_blocks (cwd := cwd) (pieces := pieces) (rule := rule) (goOn := goOn) (l := l) (fun x hx => hf x (by simp [hx])) (fun e x hx => hp e x (by simp [hx]))
    rw [opsAll, List.flatMap_cons, List.flatMap_append]
    rcases ops_block (cwd := cwd) (pieces := pieces) (rule := rule) (hf a (by simp)) with h1 | ⟨h1, h2, h3⟩
    · rw [h1, ← ih]
    · have hg : goOn = true := by
        cases goOn with
        | true => rfl
        | false => exact (h3 (hp rfl a (by simp))).elim
      rw [h1, h2, ← ih, hg]
      rfl

theorem opsLoop_blocks {cwd : List Str} {rules : OutputRules} {pieces : Artifact → List Str} : ∀ {steps : List Step} {i : Nat}, (∀ s ∈ steps, Made s.tool s.artifacts) →
    opsLoop cwd rules pieces i steps = (blocksOf cwd rules pieces i steps).flatMap block
  | [], _, _ => rfl
  | s :: ss, i, hm => by
    have hf := facts (hm s (by simp))
    rw [opsLoop, blocksOf, List.flatMap_append, opsLoop_blocks (fun s hs => hm s (by simp [hs]))]
    congr 1
    cases rules.forGenerator i with
    | none => rfl
    | some r => exact opsAll_blocks hf.fine (fun e => (hf.yaml (by simpa using e)).1)

theorem blocks_effects {cwd : List Str} {rules : OutputRules} {pieces : Artifact → List Str} (hd : Divides pieces) : ∀ {steps : List Step} {i : Nat},
    (blocksOf cwd rules pieces i steps).map (fun b => (b.1, b.2.flatten)) = effects cwd rules i steps
  | [], _ => rfl
  | s :: ss, i => by
    rw [blocksOf, effects, List.map_append, blocks_effects hd]
    congr 1
    cases rules.forGenerator i with
    | none => rfl
    | some r =>
      simp only [List.map_flatMap]
      congr 1
      funext a
      unfold blockOf effect
      cases folder cwd r a.pkg with
      | none => rfl
      | some dir => simp [hd a]

/-- **C93** (the operations are those of the run): when none is left out, the disk is as after the run. -/
theorem C93_whole {c : Command} {disk : Disk} (hc : Command.Good G c disk) {pieces : Artifact → List Str} (hd : Divides pieces) {n : Nat} (hn : (c.ops G pieces disk).length ≤ n) (place : List Str) :
    GoMap.get (c.interrupted G pieces n disk) place = GoMap.get (c.run G disk) place := by
  unfold Command.interrupted
  rw [List.take_of_length_le hn, run_eq hc]
  unfold Command.ops Command.effects
  rw [opsLoop_blocks hc.made, ← blocks_effects hd]
  exact blocks_get

/-- **C93.**  Wherever a run is interrupted, there is one file such that every other file is as it was or has all of the text that the run was to write to it; and that one is as it was or has a beginning of its text.  What is
missing: that file may have lost what was in it (`C93_violated_lost`). -/
theorem C93_one_partial {c : Command} {disk : Disk} (hc : Command.Good G c disk) (ha : Apart c.cwd c.rules (c.steps G disk)) {pieces : Artifact → List Str} (hd : Divides pieces) (n : Nat) :
    ∃ hit : List Str,
      (∀ place, place ≠ hit → GoMap.get (c.interrupted G pieces n disk) place = GoMap.get disk place ∨
        ∃ text, Written c.cwd c.rules (c.steps G disk) place text ∧ GoMap.get (c.interrupted G pieces n disk) place = some text) ∧
      (GoMap.get (c.interrupted G pieces n disk) hit = GoMap.get disk hit ∨
        ∃ text s, Written c.cwd c.rules (c.steps G disk) hit text ∧ s <+: text ∧ GoMap.get (c.interrupted G pieces n disk) hit = some s) := by
  have hap : (effects c.cwd c.rules 0 (c.steps G disk)).Pairwise fun a b => a.1 ≠ b.1 := by
    refine effects_apart (fun s hs => facts (hc.made s hs)) (fun k l s t r r' => ?_) (fun k s r => ?_)
    · rw [Nat.zero_add, Nat.zero_add]; exact ha.generators k l s t r r'
    · rw [Nat.zero_add]; exact ha.packages k s r
  obtain ⟨done, rest, m, e1, e2⟩ := take_blocks (blocksOf c.cwd c.rules pieces 0 (c.steps G disk)) n
  have hI : c.interrupted G pieces n disk = doAll (doAll disk (done.flatMap block)) (((rest.head?.map block).getD []).take m) := by
    unfold Command.interrupted Command.ops
    rw [opsLoop_blocks hc.made, e2]
    exact doAll_append _ _ _
  have he := blocks_effects (cwd := c.cwd) (rules := c.rules) hd (steps := c.steps G disk) (i := 0)
  rw [e1, List.map_append] at he
  have hw : ∀ e ∈ done.map (fun b => (b.1, b.2.flatten)), Written c.cwd c.rules (c.steps G disk) e.1 e.2 := fun e h => written_iff.2 (by rw [← he]; exact List.mem_append_left _ h)
  have hdone : ∀ q, GoMap.get (doAll disk (done.flatMap block)) q = GoMap.get disk q ∨ ∃ text, Written c.cwd c.rules (c.steps G disk) q text ∧ GoMap.get (doAll disk (done.flatMap block)) q = some text := by
    intro q
    rw [blocks_get]
    by_cases h : ∃ e ∈ done.map (fun b => (b.1, b.2.flatten)), e.1 = q
    · obtain ⟨e, h1, rfl⟩ := h
      refine .inr ⟨e.2, hw e h1, puts_mem ?_ h1⟩
      rw [← he] at hap
      exact (List.pairwise_append.1 hap).1
    · exact .inl (puts_other fun e h1 h2 => h ⟨e, h1, h2⟩)
  rw [hI]
  cases rest with
  | nil =>
    have e0 : doAll (doAll disk (done.flatMap block)) (((([] : List (List Str × List Str)).head?.map block).getD []).take m) = doAll disk (done.flatMap block) := by simp [doAll]
    rw [e0]
    refine ⟨[], fun q _ => hdone q, ?_⟩
    rcases hdone [] with h | ⟨t, h1, h2⟩
    · exact .inl h
    · exact .inr ⟨t, t, h1, List.prefix_rfl, h2⟩
  | cons b rest =>
    have hb := block_take (b := b) (disk := doAll disk (done.flatMap block)) m
    simp only [List.head?_cons, Option.map_some, Option.getD_some]
    refine ⟨b.1, fun q hq => by rw [hb.1 q hq]; exact hdone q, ?_⟩
    have hbw : Written c.cwd c.rules (c.steps G disk) b.1 b.2.flatten := written_iff.2 (by rw [← he]; simp)
    rcases hb.2 with rfl | ⟨s, h1, h2⟩
    · left
      show GoMap.get (doAll disk (done.flatMap block)) b.1 = _
      rw [blocks_get]
      refine puts_other fun e h1 h2 => ?_
      rw [← he] at hap
      exact (List.pairwise_append.1 hap).2.2 e h1 (b.1, b.2.flatten) (by simp) h2
    · exact .inr ⟨_, s, hbw, h1, h2⟩

/-! ## The next run -/

theorem put_put {k : List Str} {v w : Str} : ∀ {m : Disk}, GoMap.put (GoMap.put m k v) k w = GoMap.put m k w
  | [] => by simp [GoMap.put]
  | e :: m => by
    by_cases h : e.1 = k
    · simp [GoMap.put, h]
    · simp [GoMap.put, h, put_put (m := m)]

theorem appends_put {k : List Str} : ∀ {l : List Str} {m : Disk} {v : Str}, doAll (GoMap.put m k v) (l.map (.append k)) = GoMap.put m k (v ++ l.flatten)
  | [], _, _ => by simp [doAll]
  | s :: l, m, v => by
    rw [List.map_cons, doAll, List.foldl_cons]
    show doAll (GoMap.put (GoMap.put m k v) k _) _ = _
    rw [put_put, appends_put, GoMap.get_put, if_pos rfl]
    simp

theorem block_put (b : List Str × List Str) (m : Disk) : doAll m (block b) = GoMap.put m b.1 b.2.flatten := by
  rw [block, doAll, List.foldl_cons]
  exact appends_put

theorem blocks_puts : ∀ {bs : List (List Str × List Str)} {m : Disk}, doAll m (bs.flatMap block) = puts m (bs.map fun b => (b.1, b.2.flatten))
  | [], _ => rfl
  | b :: bs, m => by
    rw [List.flatMap_cons, doAll_append, blocks_puts, block_put]
    rfl

/-- The disk of an interrupted run: files that are written, and at most one with a beginning of its text. -/
theorem interrupted_puts {c : Command} {disk : Disk} (hc : Command.Good G c disk) {pieces : Artifact → List Str} (hd : Divides pieces) (n : Nat) :
    ∃ es : List (List Str × Str), (∀ e ∈ es, Written c.cwd c.rules (c.steps G disk) e.1 e.2) ∧ (c.interrupted G pieces n disk = puts disk es ∨
      ∃ place text s, Written c.cwd c.rules (c.steps G disk) place text ∧ s <+: text ∧ c.interrupted G pieces n disk = puts disk (es ++ [(place, s)])) := by
  obtain ⟨done, rest, m, e1, e2⟩ := take_blocks (blocksOf c.cwd c.rules pieces 0 (c.steps G disk)) n
  have hI : c.interrupted G pieces n disk = doAll (doAll disk (done.flatMap block)) (((rest.head?.map block).getD []).take m) := by
    unfold Command.interrupted Command.ops
    rw [opsLoop_blocks hc.made, e2]
    exact doAll_append _ _ _
  have he := blocks_effects (cwd := c.cwd) (rules := c.rules) hd (steps := c.steps G disk) (i := 0)
  rw [e1, List.map_append] at he
  refine ⟨done.map fun b => (b.1, b.2.flatten), fun e h => written_iff.2 (by rw [← he]; exact List.mem_append_left _ h), ?_⟩
  rw [hI, blocks_puts]
  cases rest with
  | nil => left; simp [doAll]
  | cons b rest =>
    simp only [List.head?_cons, Option.map_some, Option.getD_some]
    cases m with
    | zero => exact .inl rfl
    | succ m =>
      have e : (block b).take (m + 1) = block (b.1, b.2.take m) := by simp [block, List.map_take]
      refine .inr ⟨b.1, b.2.flatten, (b.2.take m).flatten, written_iff.2 (by rw [← he]; simp), flatten_take_prefix _ _, ?_⟩
      rw [e, block_put, puts_append]
      rfl

/-- **C93** (the next run repairs).  When the same command runs after a run that was interrupted, the files are as after one run that was not.  What is missing: Go files that have been begun but do not have their build constraint
yet (`C93_violated_loaded`). -/
theorem C93_repair_partial (hG : GoCmd.Documented G) {c : Command} {disk : Disk} (hwf : GoMap.WF disk) (hc : Command.Good G c disk) (hk : Command.Keeps G c disk) {pieces : Artifact → List Str} (hd : Divides pieces) (n : Nat)
    (hg : ∀ place text, GoMap.get (c.interrupted G pieces n disk) place = some text → GoMap.get disk place ≠ some text → ".go".toList <:+ place.getLastD [] →
      constraint text = .one "//go:build !ignore_autogenerated".toList) (place : List Str) :
    GoMap.get (c.run G (c.interrupted G pieces n disk)) place = GoMap.get (c.run G disk) place := by
  have hkeep : ∀ p t, Written c.cwd c.rules (c.steps G disk) p t → ∀ t', GoMap.get disk p = some t' → G.chooses (effectiveTags (buildFlags c.tags)) p t' = false := by
    intro p t hw t' ht
    cases hp : G.chooses (effectiveTags (buildFlags c.tags)) p t' with
    | false => rfl
    | true => exact ((hk p t hw).2 t' ht (List.mem_filter.2 ⟨(GoMap.get_eq_some hwf).1 ht, hp⟩)).elim
  obtain ⟨es, hes, h⟩ := interrupted_puts hc hd n
  have key : ∃ es', c.interrupted G pieces n disk = puts disk es' ∧ ∀ e ∈ es', (∃ t, Written c.cwd c.rules (c.steps G disk) e.1 t) ∧ G.chooses (effectiveTags (buildFlags c.tags)) e.1 e.2 = false := by
    have h0 : ∀ e ∈ es, (∃ t, Written c.cwd c.rules (c.steps G disk) e.1 t) ∧ G.chooses (effectiveTags (buildFlags c.tags)) e.1 e.2 = false :=
      fun e he => ⟨⟨_, hes e he⟩, hidden_written hG hc (hes e he) _ (ignored hc.tags)⟩
    rcases h with h | ⟨p, t, s, hw, -, h⟩
    · exact ⟨es, h, h0⟩
    · refine ⟨_, h, fun e he => ?_⟩
      rcases List.mem_append.1 he with he | he
      · exact h0 e he
      · rw [List.mem_singleton] at he
        subst he
        refine ⟨⟨t, hw⟩, ?_⟩
        have hs : GoMap.get (c.interrupted G pieces n disk) p = some s := by
          rw [h, puts_append]
          show GoMap.get (GoMap.put _ p s) p = _
          rw [GoMap.get_put, if_pos rfl]
        by_cases hold : GoMap.get disk p = some s
        · exact hkeep p t hw s hold
        · exact hidden_place hG (hg p s hs hold) _ (ignored hc.tags)
  obtain ⟨es', h1, h2⟩ := key
  have hl : c.loaded G (c.interrupted G pieces n disk) = c.loaded G disk := by
    rw [h1]
    refine filter_puts (fun e he => (h2 e he).2) fun e he v' hv => ?_
    obtain ⟨⟨t, ht⟩, -⟩ := h2 e he
    exact hkeep _ _ ht v' hv
  have hh : c.headers.map (GoMap.get (c.interrupted G pieces n disk)) = c.headers.map (GoMap.get disk) := by
    refine List.map_congr_left fun p hp => ?_
    rw [h1]
    refine puts_other fun e he hep => ?_
    obtain ⟨⟨t, ht⟩, -⟩ := h2 e he
    exact (hk _ _ ht).1 (hep ▸ hp)
  have h0 : c.steps G (c.interrupted G pieces n disk) = c.steps G disk := by
    unfold Command.steps
    rw [hl, hh]
  have h3 : c.effects G (c.interrupted G pieces n disk) = c.effects G disk := by
    unfold Command.effects
    rw [h0]
  rw [run_eq (hc.same h0), h3, run_eq hc, h1]
  by_cases h : ∃ e ∈ c.effects G disk, e.1 = place
  · exact puts_agree h
  · have h' : ∀ e ∈ c.effects G disk, e.1 ≠ place := fun e he hp => h ⟨e, he, hp⟩
    rw [puts_other h', puts_other h']
    refine puts_other fun e he hep => ?_
    obtain ⟨⟨t, ht⟩, -⟩ := h2 e he
    exact h' (e.1, t) (written_iff.1 ht) hep

/-- What an interrupted run changes, it was to write. -/
theorem changed_written {c : Command} {disk : Disk} (hc : Command.Good G c disk) {pieces : Artifact → List Str} (hd : Divides pieces) (n : Nat) {place : List Str}
    (h : GoMap.get (c.interrupted G pieces n disk) place ≠ GoMap.get disk place) : ∃ text, Written c.cwd c.rules (c.steps G disk) place text := by
  apply Classical.byContradiction
  intro hn
  apply h
  obtain ⟨es, hes, h1 | ⟨p, t, s, hw, -, h1⟩⟩ := interrupted_puts hc hd n
  · rw [h1]
    exact puts_other fun e he hp => hn ⟨e.2, hp ▸ hes e he⟩
  · rw [h1]
    refine puts_other fun e he hp => ?_
    rcases List.mem_append.1 he with he | he
    · exact hn ⟨e.2, hp ▸ hes e he⟩
    · rw [List.mem_singleton] at he
      subst he
      exact hn ⟨t, hp ▸ hw⟩

/-- **C93** (files that are not the run's): a file that the run was not to write is as it was. -/
theorem C93_other {c : Command} {disk : Disk} (hc : Command.Good G c disk) {pieces : Artifact → List Str} (hd : Divides pieces) (n : Nat) {place : List Str}
    (hp : ∀ text, ¬ Written c.cwd c.rules (c.steps G disk) place text) : GoMap.get (c.interrupted G pieces n disk) place = GoMap.get disk place :=
  Classical.byContradiction fun h => (changed_written hc hd n h).elim hp

/-- **C93** (manifests).  Without the generator `object`, the next run repairs whatever an interrupted run has left. -/
theorem C93_repair_manifests (hG : GoCmd.Documented G) {c : Command} {disk : Disk} (hwf : GoMap.WF disk) (hc : Command.Good G c disk) (hk : Command.Keeps G c disk) {pieces : Artifact → List Str} (hd : Divides pieces) (n : Nat)
    (ho : ∀ s ∈ c.steps G disk, s.tool ≠ .object) (place : List Str) : GoMap.get (c.run G (c.interrupted G pieces n disk)) place = GoMap.get (c.run G disk) place := by
  refine C93_repair_partial hG hwf hc hk hd n (fun p t h1 h2 hgo => ?_) place
  obtain ⟨t', i, s, r, a, dir, k1, -, k3, -, rfl, -⟩ := changed_written hc hd n (place := p) (fun e => h2 (e.symm.trans h1))
  have hs : s ∈ c.steps G disk := List.mem_of_getElem? k1
  rw [List.getLastD_eq_getLast?, List.getLast?_append] at hgo
  simp only [List.getLast?_singleton, Option.some_or, Option.getD_some] at hgo
  have hn := (facts (hc.made s hs)).named a k3
  cases ht : s.tool with
  | crd => rw [ht] at hn; exact (yaml_not_go hn.2 hgo).elim
  | rbac => exact (hc.roles s hs ht a k3 hgo).elim
  | webhook =>
    rw [ht] at hn
    rw [show a.item = "manifests.yaml".toList from hn] at hgo
    exact absurd hgo (by decide +kernel)
  | object => exact (ho s hs ht).elim

/-! ## Go files of which the first line is there -/

theorem split_prefix {w : Str} : ∀ s : Str, ∃ y ys z zs, Text.split '\n' s = y :: ys ∧ Text.split '\n' (s ++ w) = z :: zs ∧ y <+: z ∧ ∀ l ∈ ys, ∃ l' ∈ zs, l <+: l'
  | [] => by
    cases h : Text.split '\n' w with
    | nil => exact (Text.split_ne_nil h).elim
    | cons z zs => exact ⟨[], [], z, zs, rfl, h, List.nil_prefix, nofun⟩
  | x :: s => by
    obtain ⟨y, ys, z, zs, h1, h2, h3, h4⟩ := split_prefix (w := w) s
    rw [List.cons_append, Text.split_cons, Text.split_cons, h1, h2]
    by_cases hx : x = '\n'
    · simp only [if_pos hx]
      refine ⟨_, _, _, _, rfl, rfl, List.prefix_rfl, fun l hl => ?_⟩
      rcases List.mem_cons.1 hl with rfl | hl
      · exact ⟨z, by simp, h3⟩
      · obtain ⟨l', h5, h6⟩ := h4 l hl
        exact ⟨l', by simp [h5], h6⟩
    · simp only [if_neg hx]
      exact ⟨_, _, _, _, rfl, rfl, by obtain ⟨t, rfl⟩ := h3; exact ⟨t, rfl⟩, h4⟩

theorem trimRight_prefix {p : Char → Bool} {w : Str} : ∀ s : Str, trimRight p s <+: trimRight p (s ++ w)
  | [] => List.nil_prefix
  | c :: s => by
    obtain ⟨t, ht⟩ := trimRight_prefix (p := p) (w := w) s
    rw [List.cons_append, trimRight, trimRight]
    cases h1 : trimRight p s with
    | nil =>
      simp only
      split
      · exact List.nil_prefix
      · rename_i hc
        cases h2 : trimRight p (s ++ w) with
        | nil => simp [hc]
        | cons x xs => exact ⟨x :: xs, rfl⟩
    | cons x xs =>
      rw [h1] at ht
      rw [← ht]
      exact ⟨t, rfl⟩

theorem dropWhile_app {p : Char → Bool} {w : Str} : ∀ {s : Str}, s.dropWhile p ≠ [] → (s ++ w).dropWhile p = s.dropWhile p ++ w
  | [], h => (h rfl).elim
  | c :: s, h => by
    rw [List.dropWhile_cons] at h
    rw [List.cons_append, List.dropWhile_cons, List.dropWhile_cons]
    split
    · rename_i hc
      rw [if_pos hc] at h
      exact dropWhile_app h
    · rfl

theorem trimSpace_prefix {k l l' : Str} (hk : k ≠ []) (h : k <+: trimSpace l) (hl : l <+: l') : k <+: trimSpace l' := by
  obtain ⟨w, rfl⟩ := hl
  have hne : l.dropWhile isSpace ≠ [] := by
    intro e
    rw [trimSpace, e] at h
    exact hk (List.prefix_nil.1 h)
  refine h.trans ?_
  rw [trimSpace, trimSpace, dropWhile_app hne]
  exact trimRight_prefix _

theorem noConstraint_prefix {s r : Str} (h : NoConstraint r) (hs : s <+: r) : NoConstraint s := by
  obtain ⟨w, rfl⟩ := hs
  obtain ⟨y, ys, z, zs, h1, h2, h3, h4⟩ := split_prefix (w := w) s
  intro l hl hp
  rw [h1] at hl
  have hk : ("//go:build".toList : Str) ≠ [] := by decide +kernel
  rcases List.mem_cons.1 hl with rfl | hl
  · exact h z (by rw [h2]; simp) (trimSpace_prefix hk hp h3)
  · obtain ⟨l', h5, h6⟩ := h4 l hl
    exact h l' (by rw [h2]; simp [h5]) (trimSpace_prefix hk hp h6)

theorem constraint_first {r : Str} (h : NoConstraint r) : constraint ("//go:build !ignore_autogenerated\n".toList ++ r) = .one theLine := by
  rw [show "//go:build !ignore_autogenerated\n".toList ++ r = theLine ++ '\n' :: r by rw [show "//go:build !ignore_autogenerated\n".toList = theLine ++ ['\n'] by decide +kernel]; simp]
  rw [constraint, Text.split_append (by decide +kernel), scanHeader]
  have g1 : (!false && isGoBuild (trimSpace theLine)) = true := by decide +kernel
  have g2 : trimSpace theLine = theLine := by decide +kernel
  simp only [g1, if_true, g2]
  exact scan_found h

/-- What an interrupted run has put into a file is a beginning of what it was to write. -/
theorem changed_prefix {c : Command} {disk : Disk} (hc : Command.Good G c disk) {pieces : Artifact → List Str} (hd : Divides pieces) (n : Nat) {place : List Str} {s : Str}
    (h : GoMap.get (c.interrupted G pieces n disk) place = some s) (h' : GoMap.get disk place ≠ some s) : ∃ text, Written c.cwd c.rules (c.steps G disk) place text ∧ s <+: text := by
  obtain ⟨es, hes, h1 | ⟨p, t, s', hw, hs, h1⟩⟩ := interrupted_puts hc hd n
  · rw [h1] at h
    rcases puts_some h with h | h
    · exact ⟨s, hes _ h, List.prefix_rfl⟩
    · exact (h' h).elim
  · rw [h1] at h
    rcases puts_some h with h | h
    · rcases List.mem_append.1 h with h | h
      · exact ⟨s, hes _ h, List.prefix_rfl⟩
      · cases List.mem_singleton.1 h
        exact ⟨t, hw, hs⟩
    · exact (h' h).elim

/-- **C93** (code).  The next run repairs what an interrupted run has left, if each Go file that has been begun has at least its first line.  What is missing: Go files without it, in particular empty ones
(`C93_violated_loaded`). -/
theorem C93_repair_code_partial (hG : GoCmd.Documented G) {c : Command} {disk : Disk} (hwf : GoMap.WF disk) (hc : Command.Good G c disk) (hk : Command.Keeps G c disk) (hb : Command.Begins G c disk)
    {pieces : Artifact → List Str} (hd : Divides pieces) (n : Nat)
    (hfirst : ∀ place text, GoMap.get (c.interrupted G pieces n disk) place = some text → GoMap.get disk place ≠ some text → ".go".toList <:+ place.getLastD [] →
      "//go:build !ignore_autogenerated\n".toList <+: text) (place : List Str) :
    GoMap.get (c.run G (c.interrupted G pieces n disk)) place = GoMap.get (c.run G disk) place := by
  refine C93_repair_partial hG hwf hc hk hd n (fun p s h1 h2 hgo => ?_) place
  obtain ⟨u, hu⟩ := hfirst p s h1 h2 hgo
  obtain ⟨t, ⟨i, st, r, a, dir, k1, -, k3, -, rfl, rfl⟩, hp⟩ := changed_prefix hc hd n h1 h2
  have hs : st ∈ c.steps G disk := List.mem_of_getElem? k1
  rw [List.getLastD_eq_getLast?, List.getLast?_append] at hgo
  simp only [List.getLast?_singleton, Option.some_or, Option.getD_some] at hgo
  have hn := (facts (hc.made st hs)).named a k3
  cases ht : st.tool with
  | crd => rw [ht] at hn; exact (yaml_not_go hn.2 hgo).elim
  | rbac => exact (hc.roles st hs ht a k3 hgo).elim
  | webhook =>
    rw [ht] at hn
    rw [show a.item = "manifests.yaml".toList from hn] at hgo
    exact absurd hgo (by decide +kernel)
  | object =>
    obtain ⟨rest, e, hr⟩ := hb st hs ht a k3
    rw [e, ← hu] at hp
    rw [← hu]
    exact constraint_first (noConstraint_prefix hr ((List.prefix_append_right_inj _).1 hp))

end Verif.Genall
