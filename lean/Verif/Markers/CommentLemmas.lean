import Verif.Markers.CommentSpec
import Verif.Markers.SourceWritten
import Verif.Markers.Args
/-!
# Values of markers and what comments say: lemmas
-/
namespace Verif.Markers.Source
open Verif Verif.Markers.Args Verif.Markers.Spec
open Verif.Markers.Collect (Comment Node Attached associateFile)

variable {gs : List String} {hist : List (Def Loaded)} {E : Env}

theorem setsTo_written {k : String} (hk : k.toList ≠ "default".toList) {c : Comment} {b : Bool} (h : SetsTo E k c b) :
    ∃ vals, Written E k.toList ⟨[⟨[], .bool, false⟩], true⟩ c vals ∧ boolArg vals "" = b := by
  obtain ⟨x, h1, h2⟩ := h
  exact ⟨[([], .bool b)], .value hk h1 rfl rfl h2, rfl⟩

theorem isString_written {k : String} (hk : k.toList ≠ "default".toList) {c : Comment} {s : String} (h : IsString E k c s) :
    ∃ vals, Written E k.toList ⟨[⟨[], .str, false⟩], true⟩ c vals ∧ stringArg vals "" = s := by
  obtain ⟨x, h1, h2⟩ := h
  refine ⟨[([], .str s.toList)], .value hk h1 rfl rfl h2, ?_⟩
  show String.ofList s.toList = s
  simp

theorem typeValues_of {α : Type} {f : File} {n : Node} {markers : List (String × List (List (List Char × Value)))} (hF : Faithful gs E f n markers) (ht : toTarget n.target = .type) {k : String} {d : Definition}
    (hc : ∃ m, Chosen gs .type m d ∧ m.name = k.toList) {Says : Comment → α → Prop} {conv : List (List Char × Value) → α}
    (hs : ∀ c v, Says c v → ∃ vals, Written E k.toList d c vals ∧ conv vals = v) :
    TypeValues f n k Says (((GoMap.get markers k).getD []).map conv) := by
  obtain ⟨m, hc, hm⟩ := hc
  rw [← ht] at hc
  obtain ⟨l, h1, h2, h3, h4⟩ := hF.listed m _ hc
  rw [hm, String.ofList_toList] at h1
  refine ⟨l.map fun e => (e.1, conv e.2), ?_, by simpa [Function.comp_def] using h2, ?_, ?_⟩
  · rw [h1]; simp
  · intro e he
    obtain ⟨x, hx, rfl⟩ := List.mem_map.1 he
    obtain ⟨h5, h6, h7, h8⟩ := h3 x hx
    refine ⟨⟨h5, h6⟩, by rw [hm] at h7; exact h7, fun v hv => ?_⟩
    obtain ⟨vals, hw, rfl⟩ := hs _ _ hv
    rw [h8 vals (hm ▸ hw)]
  · intro c v ho hv
    obtain ⟨vals, hw, rfl⟩ := hs _ _ hv
    exact List.mem_map.2 ⟨_, h4 c vals ho.1 ho.2 (hm ▸ hw), rfl⟩

theorem pkgValues_of {α : Type} (hh : Shipped.history gs = some hist) {files : List File} (hf : ∀ f ∈ files, f.WF) {σ : Nat → Sched} {τ : Sched} {res : Values (List (List Char × Value))}
    (hres : markersOf hist E σ τ files = some (some res)) {k : String} {d d' : Definition}
    (hc : ∃ m, Chosen gs .package m d ∧ m.name = k.toList) (hc' : ∃ m, Chosen gs .type m d' ∧ m.name = k.toList)
    {Says : Comment → α → Prop} {conv : List (List Char × Value) → α}
    (hs : ∀ c v, Says c v → ∃ vals, Written E k.toList d c vals ∧ conv vals = v) :
    PkgValues files k Says (((GoMap.get res k.toList).getD []).map conv) := by
  obtain ⟨m, hc, hm⟩ := hc
  obtain ⟨m', hc', hm'⟩ := hc'
  rw [← hm]
  constructor
  · intro v hv
    obtain ⟨vals, hv', rfl⟩ := List.mem_map.1 hv
    obtain ⟨f, h1, c, h2, h3, h4, h5⟩ := package_source hh hc hf hres hv'
    refine ⟨f, h1, c, h2, by rw [hm] at h3; exact h3, fun v' hv' => ?_, fun n => ⟨(h5 n).1, (h5 n).2 ⟨m', _, hc', hm'.trans hm.symm⟩⟩⟩
    obtain ⟨vals', hw, rfl⟩ := hs _ _ hv'
    rw [h4 vals' (hm ▸ hw)]
  · intro f h1 c v h2 h3 hv
    obtain ⟨vals, hw, rfl⟩ := hs _ _ hv
    exact List.mem_map.2 ⟨_, package_free hh hc hf hres h1 h2 h3 (hm ▸ hw), rfl⟩

theorem pkgOnly_of {α : Type} (hh : Shipped.history gs = some hist) {files : List File} (hf : ∀ f ∈ files, f.WF) {σ : Nat → Sched} {τ : Sched} {res : Values (List (List Char × Value))}
    (hres : markersOf hist E σ τ files = some (some res)) {k : String} {d : Definition} (hc : ∃ m, Chosen gs .package m d ∧ m.name = k.toList)
    (hk : ∀ raw : List Char, k.toList <+: raw → ∀ m ∈ Shipped.table, m.target = .type → ¬ m.name <+: raw)
    {Says : Comment → α → Prop} {conv : List (List Char × Value) → α} (hb : ∀ c v, Says c v → Begins k c)
    (hs : ∀ c v, Says c v → ∃ vals, Written E k.toList d c vals ∧ conv vals = v) : PkgOnlyValues files k Says (((GoMap.get res k.toList).getD []).map conv) := by
  obtain ⟨m, hc, hm⟩ := hc
  rw [← hm]
  constructor
  · intro v hv
    obtain ⟨vals, hv', rfl⟩ := List.mem_map.1 hv
    obtain ⟨f, h1, c, h2, h3, h4, h5⟩ := package_source hh hc hf hres hv'
    refine ⟨f, h1, c, h2, by rw [hm] at h3; exact h3, fun v' hv' => ?_, fun n => (h5 n).1⟩
    obtain ⟨vals', hw, rfl⟩ := hs _ _ hv'
    rw [h4 vals' (hm ▸ hw)]
  · intro f h1 c v h2 h3 hv
    obtain ⟨t, ht⟩ := hb _ _ hv
    obtain ⟨vals, hw, rfl⟩ := hs _ _ hv
    refine List.mem_map.2 ⟨_, package_complete hh hc hf hres h1 h2 h3 ?_ (hm ▸ hw), rfl⟩
    rw [← ht]
    exact no_type hh fun m hm ht => hk _ ⟨t, rfl⟩ m hm ht

theorem file_unique {files : List File} (h : (files.flatMap File.nodes).Nodup) {f g : File} (hf : f ∈ files) (hg : g ∈ files) {n : Node} (h1 : n ∈ f.nodes) (h2 : n ∈ g.nodes) : f = g := by
  obtain ⟨i, hi, rfl⟩ := List.mem_iff_getElem.1 hf
  obtain ⟨j, hj, rfl⟩ := List.mem_iff_getElem.1 hg
  have := index_unique h hi hj h1 h2
  subst this
  rfl

theorem declared_infos {syn : Syntax} {σ : Nat → Sched} {files : List File} (h : Parsed files) {infos : List (TypeInfo (List (List Char × Value)))} (hi : typesOf hist E syn σ files = some (some infos)) :
    infos.map (fun t => (t.spec, t.name)) = (files.flatMap fun f => Each.declared (.node f.node f.children)).map (fun e => (e.2, syn.typeName e.2)) := by
  have := congrArg (List.map fun x : Option Node × Node × String => x.2) (C82_types h hi).1
  simpa [Function.comp_def] using this

theorem values_none {α : Type} {f : File} {n : Node} {k : String} {Says : Comment → α → Prop} {vs : List α} (h : TypeValues f n k Says vs) (hs : Silent f n k) : vs = [] := by
  obtain ⟨cs, rfl, -, h1, -⟩ := h
  cases cs with
  | nil => rfl
  | cons e cs => exact absurd (h1 e List.mem_cons_self).2.1 (hs _ (h1 e List.mem_cons_self).1)

theorem values_set {f : File} {n : Node} {k : String} {b : Bool} {vs : List Bool} (h : TypeValues f n k (SetsTo E k) vs) (hs : TypeSet E f n k b) : ∃ rest, vs = b :: rest := by
  obtain ⟨cs, rfl, -, h1, h2⟩ := h
  obtain ⟨⟨c, h3, h4⟩, h5⟩ := hs
  have := h2 c b h3 h4
  cases cs with
  | nil => cases this
  | cons e cs =>
    obtain ⟨h6, h7, h8⟩ := h1 e List.mem_cons_self
    exact ⟨cs.map (·.2), by rw [List.map_cons, ← h8 b (h5 _ h6 h7)]⟩

theorem pkg_none {α : Type} {files : List File} {k : String} {Says : Comment → α → Prop} {vs : List α} (h : PkgValues files k Says vs) (hs : PkgSilent files k) : vs = [] := by
  cases vs with
  | nil => rfl
  | cons v vs =>
    obtain ⟨f, hf, c, h1, h2, -, h3⟩ := h.1 v List.mem_cons_self
    obtain ⟨n, h4 | h4⟩ := hs f hf c h1 h2
    · exact absurd h4 (h3 n).1
    · exact absurd h4 (h3 n).2

theorem pkg_set {files : List File} {k : String} {b : Bool} {vs : List Bool} (h : PkgValues files k (SetsTo E k) vs) (hs : PkgSet E files k b) : ∃ rest, vs = b :: rest := by
  obtain ⟨⟨f, hf, c, h1, h2, h3⟩, h4⟩ := hs
  have := h.2 f hf c b h1 h2 h3
  cases vs with
  | nil => cases this
  | cons v vs =>
    obtain ⟨f', hf', c', h5, h6, h7, h8⟩ := h.1 v List.mem_cons_self
    rcases h4 f' hf' c' h5 h6 with ⟨n, h9 | h9⟩ | h9
    · exact absurd h9 (h8 n).1
    · exact absurd h9 (h8 n).2
    · exact ⟨vs, by rw [h7 b h9]⟩

end Verif.Markers.Source
