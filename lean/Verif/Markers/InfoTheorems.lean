import Verif.Markers.InfoSpec
import Verif.Markers.SourceShippedTheorems
/-!
# C82: types and fields have the markers that are written above them
-/
namespace Verif.Markers.Source
open Verif Verif.Markers.Collect Verif.Markers.Doc Verif.Markers.Spec Verif.GoMap

/-! ## Nodes -/

variable {Def Val Err : Type} {lookup : Str → Collect.Target → Option Def} {name : Def → String} {parse : Def → Str → Except Err Val}

theorem assoc_wf {σ : Sched} {f : File} (h : f.WF) {r : List (Node × List MarkerComment)} (hr : associateFile lookup σ f.groups f.node f.children = some r) : GoMap.WF r := by
  obtain ⟨v, h3, h1, h5⟩ := associateFile_eq lookup σ h
  rw [h5] at hr
  cases hr
  have hk : keys (v.nodes.map (kept lookup)) = keys v.nodes := by
    unfold keys
    rw [List.map_map]
    apply List.map_congr_left
    intro e _
    simp only [Function.comp]
    unfold kept
    split <;> rfl
  unfold GoMap.WF
  unfold keys at hk ⊢
  rw [List.map_append, hk, List.nodup_append]
  refine ⟨h1.wf, by simp, ?_⟩
  rintro a ha b hb rfl
  have := h1.kinds a ha
  simp only [List.map_cons, List.map_nil, List.mem_singleton] at hb
  rw [hb, h.root f.node f.children rfl] at this
  simp at this

theorem mem_get {r : List (Node × List MarkerComment)} (h : GoMap.WF r) {n : Node} {x : Comment} {b : Bool} : (⟨x, b⟩ : MarkerComment) ∈ (GoMap.get r n).getD [] ↔ Attached r n x b := by
  constructor
  · intro hm
    cases hg : GoMap.get r n with
    | none => rw [hg] at hm; cases hm
    | some ms => rw [hg] at hm; exact ⟨ms, (GoMap.get_eq_some h).1 hg, hm⟩
  · rintro ⟨ms, h1, h2⟩
    rw [(GoMap.get_eq_some h).2 h1]; exact h2

theorem enter_mem_nodes {f : File} {n : Node} {q : Option Node} (h : Event.enter n q ∈ f.events) : n ∈ f.nodes := List.mem_filterMap.2 ⟨_, h, rfl⟩

theorem root_mem_nodes (f : File) : f.node ∈ f.nodes := by
  refine List.mem_filterMap.2 ⟨.enter f.node none, ?_, rfl⟩
  unfold File.events
  rw [Tree.events]
  exact List.mem_cons_self

theorem attached_node {σ : Sched} {f : File} (h : f.WF) {r : List (Node × List MarkerComment)} (hr : associateFile lookup σ f.groups f.node f.children = some r) {n : Node} {x : Comment} {b : Bool}
    (ha : Attached r n x b) : n ∈ f.nodes := by
  by_cases hn : n = f.node
  · subst hn; exact root_mem_nodes f
  · obtain ⟨a, k, ⟨q, b', e, h1 | h1⟩, _⟩ := C16_sound lookup σ h hr hn ha
    · obtain ⟨rfl, _⟩ := h1
      exact enter_mem_nodes (q := q) (show _ ∈ (Tree.node f.node f.children).events none by rw [e]; simp)
    · obtain ⟨_, _, b1, q', b2, rfl, _⟩ := h1
      exact enter_mem_nodes (q := q') (show _ ∈ (Tree.node f.node f.children).events none by rw [e]; simp)

theorem index_unique {files : List File} (h : (files.flatMap File.nodes).Nodup) : ∀ {i j : Nat} (hi : i < files.length) (hj : j < files.length) {n : Node}, n ∈ files[i].nodes → n ∈ files[j].nodes → i = j := by
  intro i j hi hj n h1 h2
  have key : ∀ (l : List File), (l.flatMap File.nodes).Nodup → ∀ {i j : Nat} (hi : i < l.length) (hj : j < l.length), i < j → n ∈ l[i].nodes → n ∈ l[j].nodes → False := by
    intro l
    induction l with
    | nil => intro _ i j hi; simp at hi
    | cons f l ih =>
      intro hn i j hi hj hij h1 h2
      rw [List.flatMap_cons, List.nodup_append] at hn
      cases i with
      | zero =>
        cases j with
        | zero => omega
        | succ j =>
          exact hn.2.2 n h1 n (List.mem_flatMap.2 ⟨_, List.getElem_mem (by simpa using hj), h2⟩) rfl
      | succ i =>
        cases j with
        | zero => omega
        | succ j => exact ih hn.2.1 (by simpa using hi) (by simpa using hj) (by omega) h1 h2
  rcases Nat.lt_trichotomy i j with hlt | rfl | hlt
  · exact (key files h hi hj hlt h1 h2).elim
  · rfl
  · exact (key files h hj hi hlt h2 h1).elim

theorem flatMap_single {α β : Type} {g : α → List β} : ∀ {l : List α} {i : Nat} (hi : i < l.length), (∀ j (hj : j < l.length), j ≠ i → g l[j] = []) → l.flatMap g = g l[i]
  | a :: l, 0, _, h => by
    have : l.flatMap g = [] := by
      rw [List.flatMap_eq_nil_iff]
      intro b hb
      obtain ⟨j, hj, rfl⟩ := List.mem_iff_getElem.1 hb
      exact h (j + 1) (by simpa using hj) (by omega)
    rw [List.flatMap_cons, this]
    simp
  | a :: l, i + 1, hi, h => by
    have h0 := h 0 (by simp) (by omega)
    rw [List.flatMap_cons, flatMap_single (i := i) (by simpa using hi) fun j hj hne => h (j + 1) (by simpa using hj) (by omega)]
    simp only [List.getElem_cons_zero] at h0
    simp [h0]

/-- The markers of a node of a file, in the package. -/
theorem nodeComments_eq {σ : Nat → Sched} {files : List File} (h : ∀ f ∈ files, f.WF) (ha : (files.flatMap File.nodes).Nodup) {rs : List (List (Node × List MarkerComment))}
    (hrs : associate lookup σ 0 files = some rs) {f : File} (hf : f ∈ files) {n : Node} (hn : n ∈ f.nodes) :
    ∃ ρ r, associateFile lookup ρ f.groups f.node f.children = some r ∧ nodeComments rs n = (GoMap.get r n).getD [] := by
  obtain ⟨hlen, hz⟩ := associate_zip hrs
  have hzi : ∀ i (hi : i < files.length) (hi' : i < rs.length), ∃ j, associateFile lookup (σ j) files[i].groups files[i].node files[i].children = some rs[i] := by
    intro i hi hi'
    refine hz _ _ ?_
    have hl : i < (files.zip rs).length := by simp; omega
    have := List.getElem_mem hl
    rwa [List.getElem_zip] at this
  obtain ⟨i, hi, rfl⟩ := List.mem_iff_getElem.1 hf
  obtain ⟨s, hs⟩ := hzi i hi (by omega)
  refine ⟨_, _, hs, flatMap_single (g := fun r => (GoMap.get r n).getD []) (show i < rs.length by omega) fun j hj hne => ?_⟩
  obtain ⟨s', hs'⟩ := hzi j (by omega) hj
  have hwf := h _ (List.getElem_mem (show j < files.length by omega))
  cases hm : (GoMap.get rs[j] n).getD [] with
  | nil => rfl
  | cons m ms =>
    have := (mem_get (assoc_wf hwf hs') (x := m.comment) (b := m.fromGodoc)).1 (by rw [hm]; exact List.mem_cons_self)
    exact absurd (index_unique ha (by omega) hi (attached_node hwf hs' this) hn) hne

/-! ## The property -/

theorem plain_parsed {E : Env} {d : Definition} {name : List Char} (h : '=' ∉ name) (ho : ∀ f ∈ d.fields, f.optional = true) : d.parse E ('+' :: name) = .ok [] := by
  have hft : fieldsText d ('+' :: name) = [] := by
    unfold fieldsText
    rw [splitMarker_plain h]
    simp
  have hpk : peek (Sc.init []) = none := rfl
  obtain ⟨s', h3⟩ := scan_eof (U := E.toUnicode) (s := Sc.init []) rfl
  have hno : d.fields.any (fun f => ! f.optional && ! ((([] : List (List Char × Value)).map (·.1)).contains f.name)) = false := by
    rw [List.any_eq_false]
    intro f hf
    simp [ho f hf]
  simp only [Definition.parse, hft, parseArgs, hpk, h3, ne_eq, not_true_eq_false, and_false, if_false, hno]
  simp

variable {gs : List String} {hist : List (Markers.Def Loaded)} {E : Env}

theorem written_parsed (hh : Shipped.history gs = some hist) {t : Markers.Target} {m : Marker} {d : Definition} (hc : Chosen gs t m d) {c : Comment} {vals : List (List Char × Value)} (hw : Written E m.name d c vals) :
    ∃ df, m.define = some df ∧ m.parser df = d ∧ (Registry.after hist).lookup (textOf c) t = some df ∧ parseWith E df (textOf c) = .ok vals := by
  obtain ⟨g, hg, ms, hms, hm, rfl, df, hd, rfl⟩ := hc
  refine ⟨df, hd, rfl, ?_⟩
  rw [parseWith_eq hms hm hd]
  cases hw with
  | json hk ht hj =>
    obtain ⟨h1, h2, _⟩ := C68_default (E := E) hh hg hms hm hd hk _
    rw [ht, hk]
    exact ⟨h1, h2 hj⟩
  | plain hk ht ho =>
    obtain ⟨d', hd', _, _, h1, _⟩ := C68_recognised hh hg hms hm
    rw [hd] at hd'; cases hd'
    rw [ht, parse_plain hk]
    exact ⟨h1, plain_parsed (table_one (Shipped.mem_table hms hm)).2.1 ho⟩
  | value hk ht hf hn hx => rw [ht]; exact C68_value hh hg hms hm hd hk hf hn hx
  | raw hk ht hf hn hr hx =>
    obtain ⟨d', hd', _, _, _, h2, _⟩ := C68_recognised hh hg hms hm
    rw [hd] at hd'; cases hd'
    rw [ht, parse_plain hk]
    exact ⟨h2 _, C14_raw hf hn hr (table_one (Shipped.mem_table hms hm)).2.1 hx⟩
  | arguments hk hr =>
    obtain ⟨y, hy, h1, h2, h3⟩ := hr
    rw [hy]
    exact C68_values hh hg hms hm hd hk h2 h1 h3

theorem sublist_of_subset {α : Type} {m : List α} (hm : m.Nodup) : ∀ {a b : List α}, a.Sublist m → b.Sublist m → (∀ x ∈ a, x ∈ b) → a.Sublist b := by
  induction m with
  | nil =>
    intro a b ha hb _
    rw [List.sublist_nil.1 ha]; exact List.nil_sublist _
  | cons x m ih =>
    intro a b ha hb hs
    obtain ⟨hx, hm⟩ := List.nodup_cons.1 hm
    cases ha with
    | cons _ ha =>
      cases hb with
      | cons _ hb => exact ih hm ha hb hs
      | cons_cons _ hb =>
        refine .cons _ (ih hm ha hb fun y hy => ?_)
        rcases List.mem_cons.1 (hs y hy) with rfl | h
        · exact absurd (ha.subset hy) hx
        · exact h
    | cons_cons _ ha =>
      cases hb with
      | cons _ hb => exact absurd (hb.subset (hs x List.mem_cons_self)) hx
      | cons_cons _ hb =>
        refine .cons_cons _ (ih hm ha hb fun y hy => ?_)
        rcases List.mem_cons.1 (hs y (List.mem_cons_of_mem _ hy)) with rfl | h
        · exact absurd (ha.subset hy) hx
        · exact h

theorem filterMap_ext {α β : Type} {g g' : α → Option β} : ∀ {l : List α}, (∀ a ∈ l, g a = g' a) → l.filterMap g = l.filterMap g'
  | [], _ => rfl
  | a :: l, h => by
    rw [List.filterMap_cons, List.filterMap_cons, h a List.mem_cons_self, filterMap_ext (l := l) fun b hb => h b (List.mem_cons_of_mem _ hb)]

theorem sublist_marks {groups : List Group} {l : List Comment} (h : l.Sublist (groups.flatMap (·.comments))) (hm : ∀ c ∈ l, isMarkerComment c.text = true) : l.Sublist (groups.flatMap Group.marks) := by
  have e : groups.flatMap Group.marks = (groups.flatMap (·.comments)).filter fun c => isMarkerComment c.text := by
    rw [List.filter_flatMap]; rfl
  rw [e, ← List.filter_eq_self.2 hm]
  exact h.filter _

theorem faithful (hh : Shipped.history gs = some hist) {σ : Nat → Sched} {files : List File} (h : ∀ f ∈ files, f.WF) (ha : (files.flatMap File.nodes).Nodup) {rs : List (List (Node × List MarkerComment))}
    (hrs : associate (lookupIn hist) σ 0 files = some rs) {f : File} (hf : f ∈ files) {n : Node} (hn : n ∈ f.nodes) (hne : n ≠ f.node) :
    Faithful gs E f n (nodeValues (lookupIn hist) (fun d => String.ofList d.name) (parseWith E) rs n) := by
  obtain ⟨ρ, r, hr, hcs⟩ := nodeComments_eq h ha hrs hf hn
  have hwf := h f hf
  have hattach : ∀ m d, Chosen gs (toTarget n.target) m d → ∀ c vals, f.Marks c → InDoc f n c ∨ Above f n c → Written E m.name d c vals → ∃ b, Attached r n c b := by
    intro m d hch c vals hmk hplace hw
    obtain ⟨g', hg', hx', hmk⟩ := hmk
    rcases hplace with ⟨a, k, hc, g, hg, hx, hd⟩ | ⟨a, k, hc, g, hg, hx, hd, hpass⟩
    · exact ⟨true, (C16_claimed _ ρ hwf hr hc hg hx hmk).1 hd⟩
    · refine ⟨false, ((C16_claimed _ ρ hwf hr hc hg hx hmk).2 hd hpass).1 ?_⟩
      rintro ⟨hk, hnone, _⟩
      obtain ⟨df, _, _, hlk, _⟩ := written_parsed hh hch hw
      have : n.target = .type := by simp [Node.target, hk]
      rw [this] at hlk
      have : lookupIn hist (textOf c) .type = some df := hlk
      rw [show lookupIn hist (textOf c) .type = none from hnone] at this
      cases this
  have hcs' : ((nodeComments rs n).map (·.comment)).Sublist (f.groups.flatMap Group.marks) := by
    rw [hcs]
    cases hg : GoMap.get r n with
    | none => exact List.nil_sublist _
    | some ms => exact C16_order _ ρ hwf hr hne ((GoMap.get_eq_some (assoc_wf hwf hr)).1 hg)
  constructor
  · intro k vals hv
    rw [nodeValues, (C16_values _ _ _ n _).1 k, List.mem_filterMap] at hv
    obtain ⟨⟨c, b⟩, h1, h2⟩ := hv
    rw [hcs, mem_get (assoc_wf hwf hr)] at h1
    unfold valueFor at h2
    split at h2
    · cases h2
    rename_i df hl
    split at h2
    case isFalse => cases h2
    rename_i hk
    cases hp : parseWith E df (textOf c) with
    | error e => rw [show trimSpace (c.text.drop 2) = textOf c from rfl, hp] at h2; cases h2
    | ok w =>
      rw [show trimSpace (c.text.drop 2) = textOf c from rfl, hp] at h2
      cases h2
      obtain ⟨g', hg', h3, h4⟩ := C16_only _ ρ hwf hr _ _ _ h1
      obtain ⟨raw, hraw⟩ := text_plus h4
      have hl : lookupIn hist (textOf c) n.target = some df := hl
      have hl' : (Registry.after hist).lookup ('+' :: raw) (toTarget n.target) = some df := by rw [← hraw]; exact hl
      obtain ⟨g, hg, ms, hms, m, hm, hdef, ht, hpre⟩ := C68_only hh hl'
      have hch : Chosen gs (toTarget n.target) m (m.parser df) := ⟨g, hg, ms, hms, hm, ht, df, hdef, rfl⟩
      refine ⟨m, m.parser df, hch, ?_, c, ⟨g', hg', h3, h4⟩, ?_, by rw [hraw]; exact List.cons_prefix_cons.2 ⟨rfl, hpre⟩, ?_⟩
      · rw [← hk, ← (define_name hdef).1]; simp
      · obtain ⟨a, k', hc, g, hg, hx, ⟨_, h5⟩ | ⟨_, h5⟩⟩ := C16_sound _ ρ hwf hr hne h1
        · exact .inl ⟨a, k', hc, g, hg, hx, h5⟩
        · exact .inr ⟨a, k', hc, g, hg, hx, h5⟩
      · intro vals' hw
        obtain ⟨df', hd1, _, hl2, hp2⟩ := written_parsed hh hch hw
        rw [hdef] at hd1; cases hd1
        rw [hp] at hp2; cases hp2; rfl
  · intro m d hch l hsub hl
    have hatt : ∀ e ∈ l, ∃ b, Attached r n e.1 b := fun e he => hattach m d hch e.1 e.2 (hl e he).1 (hl e he).2.1 (hl e he).2.2
    have hsub' : (l.map (·.1)).Sublist (f.groups.flatMap Group.marks) := sublist_marks hsub fun c hc => by
      obtain ⟨e, he, rfl⟩ := List.mem_map.1 hc
      exact (hl e he).1.choose_spec.2.2
    have hin : (l.map (·.1)).Sublist ((nodeComments rs n).map (·.comment)) := by
      refine sublist_of_subset (marks_nodup hwf.distinct) hsub' hcs' fun c hc => ?_
      obtain ⟨e, he, rfl⟩ := List.mem_map.1 hc
      obtain ⟨b, hb⟩ := hatt e he
      rw [hcs]
      exact List.mem_map.2 ⟨⟨e.1, b⟩, (mem_get (assoc_wf hwf hr)).2 hb, rfl⟩
    rw [nodeValues, (C16_values _ _ _ n _).1]
    have e1 : (nodeComments rs n).filterMap (valueFor (lookupIn hist) (fun d => String.ofList d.name) (parseWith E) n.target (String.ofList m.name)) =
        ((nodeComments rs n).map (·.comment)).filterMap fun c => valueFor (lookupIn hist) (fun d => String.ofList d.name) (parseWith E) n.target (String.ofList m.name) ⟨c, true⟩ := by
      rw [List.filterMap_map]; rfl
    have e2 : l.map (·.2) = (l.map (·.1)).filterMap fun c => valueFor (lookupIn hist) (fun d => String.ofList d.name) (parseWith E) n.target (String.ofList m.name) ⟨c, true⟩ := by
      rw [List.filterMap_map, ← List.filterMap_eq_map]
      refine filterMap_ext fun e he => ?_
      obtain ⟨df, hd1, _, hlk, hp⟩ := written_parsed hh hch (hl e he).2.2
      simp only [Function.comp, valueFor]
      rw [show lookupIn hist (trimSpace (e.1.text.drop 2)) n.target = some df from hlk]
      simp only [(define_name hd1).1, if_true, show parseWith E df (trimSpace (e.1.text.drop 2)) = .ok e.2 from hp]
      rfl
    rw [e1, e2]
    exact hin.filterMap _
  · intro m d hch
    obtain ⟨g, hg, ms, hms, hm, ht, df, hdef, rfl⟩ := id hch
    refine ⟨(nodeComments rs n).filterMap fun x => (valueFor (lookupIn hist) (fun d => String.ofList d.name) (parseWith E) n.target (String.ofList m.name) x).map fun v => (x.comment, v), ?_, ?_, ?_, ?_⟩
    · rw [nodeValues, (C16_values _ _ _ n _).1, List.map_filterMap]
      refine filterMap_ext fun x _ => ?_
      cases valueFor (lookupIn hist) (fun d => String.ofList d.name) (parseWith E) n.target (String.ofList m.name) x <;> rfl
    · refine List.Sublist.trans ?_ (hcs'.trans ?_)
      · generalize nodeComments rs n = l
        induction l with
        | nil => exact List.Sublist.slnil
        | cons x l ih =>
          rw [List.filterMap_cons, List.map_cons]
          cases valueFor (lookupIn hist) (fun d => String.ofList d.name) (parseWith E) n.target (String.ofList m.name) x with
          | none => exact .cons _ ih
          | some v => exact .cons_cons _ ih
      · have e : f.groups.flatMap Group.marks = (f.groups.flatMap (·.comments)).filter fun c => isMarkerComment c.text := by
          rw [List.filter_flatMap]; rfl
        rw [e]
        exact List.filter_sublist
    · rintro ⟨c, vals⟩ he
      obtain ⟨⟨c', b⟩, h1, h2⟩ := List.mem_filterMap.1 he
      obtain ⟨v, h2, h2'⟩ := Option.map_eq_some_iff.1 h2
      have hc : c = c' := (congrArg Prod.fst h2').symm
      have hv : v = vals := congrArg Prod.snd h2'
      subst hc hv
      rw [hcs, mem_get (assoc_wf hwf hr)] at h1
      unfold valueFor at h2
      split at h2
      · cases h2
      rename_i df' hl
      split at h2
      case isFalse => cases h2
      rename_i hk
      cases hp : parseWith E df' (textOf c) with
      | error e => rw [show trimSpace (c.text.drop 2) = textOf c from rfl, hp] at h2; cases h2
      | ok w =>
        rw [show trimSpace (c.text.drop 2) = textOf c from rfl, hp] at h2
        cases h2
        obtain ⟨g', hg', h3, h4⟩ := C16_only _ ρ hwf hr _ _ _ h1
        obtain ⟨raw, hraw⟩ := text_plus h4
        have hl : lookupIn hist (textOf c) n.target = some df' := hl
        have hl' : (Registry.after hist).lookup ('+' :: raw) (toTarget n.target) = some df' := by rw [← hraw]; exact hl
        obtain ⟨_, _, ms', hms', m', hm', hdef', ht', hpre⟩ := C68_only hh hl'
        have hk' : df'.name = m.name := by simpa using congrArg String.toList hk
        have : m' = m := table_unique (Shipped.mem_table hms' hm') (Shipped.mem_table hms hm) ((define_name hdef').1.symm.trans hk') (ht'.trans ht.symm)
        subst this
        rw [hdef] at hdef'; cases hdef'
        refine ⟨⟨g', hg', h3, h4⟩, ?_, by rw [hraw]; exact List.cons_prefix_cons.2 ⟨rfl, hpre⟩, ?_⟩
        · obtain ⟨a, k', hc, g, hg, hx, ⟨_, h5⟩ | ⟨_, h5⟩⟩ := C16_sound _ ρ hwf hr hne h1
          · exact .inl ⟨a, k', hc, g, hg, hx, h5⟩
          · exact .inr ⟨a, k', hc, g, hg, hx, h5⟩
        · intro vals' hw
          obtain ⟨df', hd1, _, hl2, hp2⟩ := written_parsed hh hch hw
          rw [hdef] at hd1; cases hd1
          rw [hp] at hp2; cases hp2; rfl
    · intro c vals hmk hplace hw
      obtain ⟨b, hb⟩ := hattach m _ hch c vals hmk hplace hw
      refine List.mem_filterMap.2 ⟨⟨c, b⟩, by rw [hcs]; exact (mem_get (assoc_wf hwf hr)).2 hb, ?_⟩
      obtain ⟨df', hd1, _, hlk, hp⟩ := written_parsed hh hch hw
      simp only [valueFor]
      rw [show lookupIn hist (trimSpace (c.text.drop 2)) n.target = some df' from hlk]
      simp only [(define_name hd1).1, if_true, show parseWith E df' (trimSpace (c.text.drop 2)) = .ok vals from hp]
      rfl

theorem mem_events_child {p : Node} {t : Tree} : ∀ {ts : List Tree}, t ∈ ts → ∀ e ∈ t.events (some p), e ∈ Tree.eventsList p ts
  | s :: ts, h, e, he => by
    rw [Tree.eventsList]
    rcases List.mem_cons.1 h with rfl | h
    · exact List.mem_append_left _ he
    · exact List.mem_append_right _ (mem_events_child h e he)

theorem enter_root (q : Option Node) : ∀ t : Tree, Event.enter (Each.root t) q ∈ t.events q
  | .node n cs => by rw [Tree.events]; exact List.mem_cons_self

theorem declared_mem {f : File} {d s : Node} (h : (d, s) ∈ Each.declared (.node f.node f.children)) : d ∈ f.nodes ∧ s ∈ f.nodes ∧ s.kind = .typeSpec := by
  unfold Each.declared at h
  obtain ⟨t, ht, h⟩ := List.mem_flatMap.1 h
  have ht : t ∈ f.children := ht
  split at h
  · obtain ⟨u, hu, he⟩ := List.mem_map.1 h
    cases he
    obtain ⟨hu, hk⟩ := List.mem_filter.1 hu
    have hin : ∀ e ∈ t.events (some f.node), e ∈ f.events := by
      intro e he
      unfold File.events
      rw [Tree.events]
      exact List.mem_cons_of_mem _ (List.mem_append_left _ (mem_events_child ht e he))
    refine ⟨enter_mem_nodes (hin _ (enter_root _ t)), enter_mem_nodes (q := some (Each.root t)) (hin _ ?_), by simpa using hk⟩
    obtain ⟨n, cs⟩ := t
    rw [Tree.events]
    exact List.mem_cons_of_mem _ (List.mem_append_left _ (mem_events_child hu _ (enter_root _ u)))
  · cases h

/-- **C82** (start-up): reading the types of a package never panics; it fails exactly if some marker that is attached to a node does not parse. -/
theorem C82_fails (syn : Syntax) (σ : Nat → Sched) {files : List File} (h : Parsed files) : ∃ res, typesOf hist E syn σ files = some res ∧
    (res = none ↔ ∃ f ∈ files, ∃ ρ r n c b d e, associateFile (lookupIn hist) ρ f.groups f.node f.children = some r ∧ Attached r n c b ∧ lookupIn hist (textOf c) n.target = some d ∧ parseWith E d (textOf c) = .error e) := by
  obtain ⟨rs, hrs⟩ := associate_some (lookup := lookupIn hist) (σ := σ) h.wf 0
  have hfault := faulty_iff (name := fun d => String.ofList d.name) (parse := parseWith E) h.wf hrs
  unfold typesOf eachInfo
  rw [hrs]
  by_cases hb : faulty (lookupIn hist) (fun d => String.ofList d.name) (parseWith E) rs = true
  · exact ⟨none, by simp only [hb, if_true], by simpa using hfault.1 hb⟩
  · simp only [if_neg hb]
    exact ⟨_, rfl, by simpa using fun he => hb (hfault.2 he)⟩

/-- **C82** (types and fields): the types that are reported are those that the files declare at the top level, in the order of the files, with their names and declarations.  A struct has its fields in order: one for each name of a
field, with that name, and one without a name for an embedded field. -/
theorem C82_types {syn : Syntax} {σ : Nat → Sched} {files : List File} (h : Parsed files) {infos : List (TypeInfo (List (List Char × Value)))} (hi : typesOf hist E syn σ files = some (some infos)) :
    infos.map (fun t => (t.decl, t.spec, t.name)) = (files.flatMap fun f => Each.declared (.node f.node f.children)).map (fun e => (some e.1, e.2, syn.typeName e.2)) ∧
    ∀ t ∈ infos, t.fields.map (fun x => (x.name, x.node)) = match syn.structFields t.spec with
      | none => []
      | some l => l.flatMap fun x => if syn.names x = [] then [("", x)] else (syn.names x).map fun s => (s, x) := by
  unfold typesOf eachInfo at hi
  split at hi
  · cases hi
  rename_i rs hrs
  split at hi
  · cases hi
  cases hi
  constructor
  · rw [Each.C61_types _ fun t ht => by obtain ⟨f, hf, rfl⟩ := List.mem_map.1 ht; exact h.typed f hf]
    rw [List.map_map, List.map_map, List.flatMap_map]
    rfl
  · intro t ht
    obtain ⟨e, _, rfl⟩ := List.mem_map.1 ht
    simp only [typeInfo, fieldInfos]
    cases syn.structFields e.2 with
    | none => rfl
    | some l =>
      simp only [Option.getD_some, List.map_flatMap]
      congr 1
      funext x
      cases syn.names x <;> simp

/-- **C82**: whichever generators are chosen, the values that a type or a field of a package is reported with are those of the markers in its documentation and directly above it, in the order of the file. -/
theorem C82_values (hh : Shipped.history gs = some hist) {syn : Syntax} {σ : Nat → Sched} {files : List File} (h : Parsed files) (hs : syn.OK files) {infos : List (TypeInfo (List (List Char × Value)))}
    (hi : typesOf hist E syn σ files = some (some infos)) {t : TypeInfo (List (List Char × Value))} (ht : t ∈ infos) :
    ∃ f ∈ files, t.spec ∈ f.nodes ∧ t.spec.target = .type ∧ Faithful gs E f t.spec t.markers ∧ ∀ x ∈ t.fields, x.node ∈ f.nodes ∧ x.node.target = .field ∧ Faithful gs E f x.node x.markers := by
  unfold typesOf eachInfo at hi
  split at hi
  · cases hi
  rename_i rs hrs
  split at hi
  · cases hi
  cases hi
  obtain ⟨e, he, rfl⟩ := List.mem_map.1 ht
  rw [Each.C61_types _ fun t ht => by obtain ⟨f, hf, rfl⟩ := List.mem_map.1 ht; exact h.typed f hf] at he
  obtain ⟨⟨d, s⟩, hds, rfl⟩ := List.mem_map.1 he
  obtain ⟨t', ht', hds⟩ := List.mem_flatMap.1 hds
  obtain ⟨f, hf, rfl⟩ := List.mem_map.1 ht'
  obtain ⟨_, h2, h3⟩ := declared_mem hds
  have hroot : f.node.kind = .file := (h.wf f hf).root f.node f.children rfl
  have hne : ∀ n : Node, n.kind = .typeSpec ∨ n.kind = .field → n ≠ f.node := by
    rintro n hk rfl
    rw [hroot] at hk
    simp at hk
  refine ⟨f, hf, h2, by simp [typeInfo, Node.target, h3], faithful hh h.wf h.nodup hrs hf h2 (hne _ (.inl h3)), ?_⟩
  intro x hx
  simp only [typeInfo, fieldInfos] at hx
  obtain ⟨y, hy, hx⟩ := List.mem_flatMap.1 hx
  have hyn : y ∈ f.nodes ∧ y.kind = .field := by
    cases hsf : syn.structFields s with
    | none => rw [hsf] at hy; cases hy
    | some l => rw [hsf] at hy; exact hs f hf s h2 l hsf y hy
  have hfin : Faithful gs E f y (nodeValues (lookupIn hist) (fun d => String.ofList d.name) (parseWith E) rs y) := faithful hh h.wf h.nodup hrs hf hyn.1 (hne _ (.inr hyn.2))
  rcases List.mem_append.1 hx with hx | hx
  · obtain ⟨_, _, rfl⟩ := List.mem_map.1 hx
    exact ⟨hyn.1, by simp [Node.target, hyn.2], hfin⟩
  · split at hx
    · rw [List.mem_singleton.1 hx]
      exact ⟨hyn.1, by simp [Node.target, hyn.2], hfin⟩
    · cases hx

end Verif.Markers.Source
