import Verif.Crd.KnownSpec
import Verif.Crd.NeedTheorems
namespace Verif.Crd
open Verif.Crd.Spec

namespace Known

def inOrder : List Rx → Rx
  | [] => .empty
  | r :: rs => .seq r (inOrder rs)

def ch (c : Char) : Rx := .one [(c, c)]
def opt (r : Rx) : Rx := .alt r .empty
def plus (r : Rx) : Rx := .seq r (.star r)
def anyOf (l : List Char) : Rx := .one (l.map fun c => (c, c))
def digit : Rx := .one [('0', '9')]
def sign : Rx := opt (.alt (inOrder [ch '+']) (inOrder [ch '-']))
def number : Rx := .alt (inOrder [inOrder [plus digit, opt (inOrder [ch '.', .star digit])]]) (inOrder [inOrder [ch '.', plus digit]])
def suffix : Rx :=
  .alt (inOrder [inOrder [anyOf ['K', 'M', 'G', 'T', 'P', 'E'], ch 'i']])
    (.alt (inOrder [anyOf ['n', 'u', 'm', 'k', 'M', 'G', 'T', 'P', 'E']]) (inOrder [inOrder [anyOf ['e', 'E'], sign, number]]))
def quantity : Rx := inOrder [.first, sign, number, opt suffix, .last]

def pattern : String := "^(\\+|-)?(([0-9]+(\\.[0-9]*)?)|(\\.[0-9]+))(([KMGTPE]i)|[numkMGTPE]|([eE](\\+|-)?(([0-9]+(\\.[0-9]*)?)|(\\.[0-9]+))))?$"

theorem read : readPattern pattern = some quantity := by decide +kernel

/-! ## The language of the expression -/

/-- The expression matches exactly these texts, wherever they are. -/
def Says (r : Rx) (L : List Char → Prop) : Prop := ∀ pre m post, Hit r pre m post ↔ L m

theorem Says.congr {r : Rx} {L L' : List Char → Prop} (h : Says r L) (e : ∀ m, L m ↔ L' m) : Says r L' := fun pre m post => (h pre m post).trans (e m)

theorem says_empty : Says .empty (· = []) := fun _ _ _ => ⟨fun h => by cases h; rfl, fun h => h ▸ .empty⟩

theorem says_one (l : List (Char × Char)) : Says (.one l) fun s => ∃ c, s = [c] ∧ ∃ r ∈ l, r.1 ≤ c ∧ c ≤ r.2 :=
  fun _ _ _ => ⟨fun h => by cases h with | one h => exact ⟨_, rfl, h⟩, fun ⟨_, e, h⟩ => e ▸ .one h⟩

theorem says_seq {a b : Rx} {A B : List Char → Prop} (ha : Says a A) (hb : Says b B) : Says (.seq a b) fun s => ∃ m n, s = m ++ n ∧ A m ∧ B n :=
  fun _ _ _ => ⟨fun h => by cases h with | seq h1 h2 => exact ⟨_, _, rfl, (ha _ _ _).1 h1, (hb _ _ _).1 h2⟩,
    fun ⟨_, _, e, h1, h2⟩ => e ▸ .seq ((ha _ _ _).2 h1) ((hb _ _ _).2 h2)⟩

theorem says_alt {a b : Rx} {A B : List Char → Prop} (ha : Says a A) (hb : Says b B) : Says (.alt a b) fun s => A s ∨ B s :=
  fun _ _ _ => ⟨fun h => by cases h with | left h => exact .inl ((ha _ _ _).1 h) | right h => exact .inr ((hb _ _ _).1 h),
    fun h => h.elim (fun h => .left ((ha _ _ _).2 h)) fun h => .right ((hb _ _ _).2 h)⟩

theorem says_opt {a : Rx} {A : List Char → Prop} (ha : Says a A) : Says (opt a) fun s => A s ∨ s = [] := says_alt ha says_empty

theorem says_last {a : Rx} {A : List Char → Prop} (ha : Says a A) : Says (inOrder [a]) A :=
  (says_seq ha says_empty).congr fun m => ⟨fun ⟨x, y, e, h, h'⟩ => by rw [e, h', List.append_nil]; exact h, fun h => ⟨m, [], (List.append_nil m).symm, h, rfl⟩⟩

theorem says_anyOf (l : List Char) : Says (anyOf l) fun s => ∃ c, s = [c] ∧ c ∈ l :=
  (says_one _).congr fun m => by
    constructor
    · rintro ⟨c, e, r, hr, h1, h2⟩
      obtain ⟨d, hd, rfl⟩ := List.mem_map.1 hr
      exact ⟨c, e, Char.le_antisymm h1 h2 ▸ hd⟩
    · rintro ⟨c, e, h⟩
      exact ⟨c, e, (c, c), List.mem_map.2 ⟨c, h, rfl⟩, Char.le_refl c, Char.le_refl c⟩

theorem says_ch (c : Char) : Says (ch c) (· = [c]) :=
  (says_anyOf [c]).congr fun m => ⟨fun ⟨d, e, h⟩ => by rw [e, List.mem_singleton.1 h], fun e => ⟨c, e, List.mem_singleton_self _⟩⟩

def IsDigit (c : Char) : Prop := '0' ≤ c ∧ c ≤ '9'

theorem says_digit : Says digit fun s => ∃ c, s = [c] ∧ IsDigit c :=
  (says_one _).congr fun m => by simp [IsDigit]

theorem says_stars : Says (.star digit) fun s => ∀ c ∈ s, IsDigit c := by
  intro pre m post
  constructor
  · intro h
    generalize hr : Rx.star digit = r at h
    induction h with
    | stop => nofun
    | more h1 h2 _ ih =>
      cases hr
      obtain ⟨c, rfl, hc⟩ := (says_digit _ _ _).1 h1
      intro d hd
      rcases List.mem_cons.1 hd with rfl | hd
      · exact hc
      · exact ih rfl d hd
    | _ => cases hr
  · intro h
    induction m generalizing pre with
    | nil => exact .stop
    | cons c m ih =>
      exact .more (m := [c]) ((says_digit _ _ _).2 ⟨c, rfl, h c List.mem_cons_self⟩) (ih _ fun d hd => h d (List.mem_cons_of_mem _ hd))

theorem says_digits : Says (plus digit) IsDigits :=
  (says_seq says_digit says_stars).congr fun m => by
    constructor
    · rintro ⟨_, n, rfl, ⟨c, rfl, hc⟩, hn⟩
      refine ⟨nofun, fun d hd => ?_⟩
      rcases List.mem_cons.1 hd with rfl | hd
      · exact hc
      · exact hn d hd
    · rintro ⟨h0, h⟩
      cases m with
      | nil => exact (h0 rfl).elim
      | cons c m => exact ⟨[c], m, rfl, ⟨c, rfl, h c List.mem_cons_self⟩, fun d hd => h d (List.mem_cons_of_mem _ hd)⟩

theorem says_number : Says number IsNumber :=
  (says_alt (says_last (says_seq says_digits (says_last (says_opt (says_seq (says_ch '.') (says_last says_stars))))))
    (says_last (says_seq (says_ch '.') (says_last says_digits)))).congr fun m => by
    constructor
    · rintro (⟨a, _, rfl, ha, (⟨_, b, rfl, rfl, hb⟩ | rfl)⟩ | ⟨_, b, rfl, rfl, hb⟩)
      · cases b with
        | nil => exact .point ha
        | cons c b => exact .fraction ha ⟨nofun, hb⟩
      · rw [List.append_nil]; exact .whole ha
      · exact .small hb
    · intro h
      cases h with
      | whole h => exact .inl ⟨m, [], (List.append_nil m).symm, h, .inr rfl⟩
      | point h => exact .inl ⟨_, _, rfl, h, .inl ⟨['.'], [], rfl, rfl, nofun⟩⟩
      | fraction h h' => exact .inl ⟨_, _, rfl, h, .inl ⟨['.'], _, rfl, rfl, h'.2⟩⟩
      | small h => exact .inr ⟨['.'], _, rfl, rfl, h⟩

theorem says_sign : Says sign fun s => (s = ['+'] ∨ s = ['-']) ∨ s = [] := says_opt (says_alt (says_last (says_ch '+')) (says_last (says_ch '-')))

/-- What is around a match does not matter. -/
theorem Says.elsewhere {r : Rx} {L : List Char → Prop} (h : Says r L) {pre m post : List Char} (hm : Hit r pre m post) {pre' post' : List Char} : Hit r pre' m post' := (h _ _ _).2 ((h _ _ _).1 hm)

theorem says_signed {r : Rx} {L : List Char → Prop} (hr : Says r L) : Says (.seq sign (.seq number r)) fun s => ∃ a b, s = a ++ b ∧ IsSigned a ∧ L b :=
  (says_seq says_sign (says_seq says_number hr)).congr fun m => by
    constructor
    · rintro ⟨_, _, rfl, ((rfl | rfl) | rfl), n, b, rfl, hn, hb⟩
      · exact ⟨'+' :: n, b, rfl, .plus hn, hb⟩
      · exact ⟨'-' :: n, b, rfl, .minus hn, hb⟩
      · exact ⟨n, b, rfl, .bare hn, hb⟩
    · rintro ⟨a, b, rfl, ha, hb⟩
      cases ha with
      | bare h => exact ⟨[], _, rfl, .inr rfl, a, b, rfl, h, hb⟩
      | plus h => exact ⟨['+'], _, rfl, .inl (.inl rfl), _, b, rfl, h, hb⟩
      | minus h => exact ⟨['-'], _, rfl, .inl (.inr rfl), _, b, rfl, h, hb⟩

theorem says_suffix : Says (opt suffix) IsSuffix :=
  (says_opt (says_alt (says_last (says_seq (says_anyOf _) (says_last (says_ch 'i'))))
    (says_alt (says_last (says_anyOf _)) (says_last (says_seq (says_anyOf _) (says_signed says_empty)))))).congr fun m => by
    constructor
    · rintro ((⟨_, _, rfl, ⟨c, rfl, hc⟩, rfl⟩ | (⟨c, rfl, hc⟩ | ⟨_, _, rfl, ⟨c, rfl, hc⟩, a, _, rfl, ha, rfl⟩)) | rfl)
      · exact .binary hc
      · exact .decimal hc
      · rw [List.append_nil]; exact .exponent (by simpa using hc) ha
      · exact .none
    · intro h
      cases h with
      | none => exact .inr rfl
      | binary h => exact .inl (.inl ⟨[_], ['i'], rfl, ⟨_, rfl, h⟩, rfl⟩)
      | decimal h => exact .inl (.inr (.inl ⟨_, rfl, h⟩))
      | exponent h h' => exact .inl (.inr (.inr ⟨[_], _, rfl, ⟨_, rfl, by simpa using h⟩, _, [], (List.append_nil _).symm, h', rfl⟩))

theorem hit_anchored {r : Rx} {pre m post : List Char} : Hit (.seq .first r) pre m post ↔ pre = [] ∧ Hit r [] m post := by
  constructor
  · intro h
    cases h with
    | seq h1 h2 => cases h1; exact ⟨rfl, h2⟩
  · rintro ⟨rfl, h⟩
    exact .seq (m := []) .first h

/-- What the pattern of quantities accepts. -/
theorem quantity_iff (s : List Char) : Finds quantity s ↔ ∃ a b, s = a ++ b ∧ IsSigned a ∧ IsSuffix b := by
  have hs : ∀ pre m post, Hit (.seq sign (.seq number (.seq (opt suffix) (inOrder [.last])))) pre m post ↔ post = [] ∧ ∃ a b, m = a ++ b ∧ IsSigned a ∧ IsSuffix b := by
    intro pre m post
    have hend : ∀ pre m post, Hit (inOrder [.last]) pre m post ↔ m = [] ∧ post = [] := by
      intro pre m post
      constructor
      · intro h
        cases h with
        | seq h1 h2 => cases h2; cases h1; exact ⟨rfl, rfl⟩
      · rintro ⟨rfl, rfl⟩
        exact .seq (m := []) (n := []) .last .empty
    constructor
    · intro h
      cases h with
      | seq h1 h2 =>
        cases h2 with
        | seq h2 h3 =>
          cases h3 with
          | seq h3 h4 =>
            obtain ⟨rfl, rfl⟩ := (hend _ _ _).1 h4
            rw [List.append_nil]
            exact ⟨rfl, (says_signed says_suffix [] _ []).1 (.seq (says_sign.elsewhere h1) (.seq (says_number.elsewhere h2) (says_suffix.elsewhere h3)))⟩
    · rintro ⟨rfl, h⟩
      cases (says_signed says_suffix pre m []).2 h with
      | seq h1 h2 =>
        cases h2 with
        | seq h2 h3 =>
          rename_i x y z
          rw [show x ++ (y ++ z) = x ++ (y ++ (z ++ [])) by simp]
          exact .seq (says_sign.elsewhere h1) (.seq (says_number.elsewhere h2) (.seq (says_suffix.elsewhere h3) ((hend _ [] []).2 ⟨rfl, rfl⟩)))
  constructor
  · rintro ⟨pre, m, post, rfl, h⟩
    have h0 := (hit_anchored (r := .seq sign (.seq number (.seq (opt suffix) (inOrder [.last]))))).1 h
    clear h
    obtain ⟨rfl, h⟩ := h0
    obtain ⟨rfl, h'⟩ := (hs _ _ _).1 h
    simpa using h'
  · intro h
    exact ⟨[], s, [], by simp, hit_anchored.2 ⟨rfl, (hs _ _ _).2 ⟨rfl, h⟩⟩⟩

/-! ## The built-in schemas -/

theorem baseOk_iff {M : Meaning} {t f p : String} {x : Bool} {k : Option Bool} {j : Json} :
    BaseOk M { type := t, format := f, pattern := p, xIntOrString := x, xPreserveUnknownFields := k } j ↔
      HasType t j ∧ (f ≠ "" → M.format f j) ∧ (∀ s, j = .str s → p ≠ "" → M.matches_ p s) ∧ (x = true → (∃ z : Int, j = .num z) ∨ ∃ s, j = .str s) := by
  constructor
  · intro h
    exact ⟨h.type.resolve_right (fun h => absurd h.1 Bool.false_ne_true), h.format, h.pattern, h.intOrString⟩
  · rintro ⟨h1, h2, h3, h4⟩
    constructor
    case type => exact .inl h1
    case format => exact h2
    case pattern => exact h3
    case intOrString => exact h4
    case enum => exact fun h => (h rfl).elim
    case rules => intro _ h; cases h
    case required => intro _ _ _ h; cases h
    case uniqueItems => intro _ _ h; cases h
    all_goals intro _ _ _ h; cases h

theorem leaf_iff {M : Meaning} {b : Base} {j : Json} : Valid M (.leaf b) j ↔ BaseOk M b j := by
  unfold Schema.leaf Valid
  simp [ValidItems, ValidAll, ValidOpt, ValidProps, ValidAddl, ValidPats, ValidDeps]

theorem isString {j : Json} : HasType "string" j ↔ IsText j := by
  constructor
  · exact fun h => h.1 rfl
  · exact fun h => ⟨fun _ => h, fun e => absurd e (by decide), fun e => absurd e (by decide), fun e => absurd e (by decide), fun e => absurd e (by decide), fun e => absurd e (by decide)⟩

theorem isInteger {j : Json} : HasType "integer" j ↔ IsInteger j := by
  constructor
  · exact fun h => h.2.2.2.1 rfl
  · exact fun h => ⟨fun e => absurd e (by decide), fun e => absurd e (by decide), fun e => absurd e (by decide), fun _ => h, fun e => absurd e (by decide), fun e => absurd e (by decide)⟩

theorem isArray {j : Json} : HasType "array" j ↔ ∃ l, j = .arr l := by
  constructor
  · exact fun h => h.2.2.2.2.1 rfl
  · exact fun h => ⟨fun e => absurd e (by decide), fun e => absurd e (by decide), fun e => absurd e (by decide), fun e => absurd e (by decide), fun _ => h, fun e => absurd e (by decide)⟩

theorem isObject {j : Json} : HasType "object" j ↔ IsObject j := by
  constructor
  · exact fun h => h.2.2.2.2.2 rfl
  · exact fun h => ⟨fun e => absurd e (by decide), fun e => absurd e (by decide), fun e => absurd e (by decide), fun e => absurd e (by decide), fun e => absurd e (by decide), fun _ => h⟩

theorem typed_iff {M : Meaning} {t : String} {j : Json} : Valid M (typed t) j ↔ HasType t j := by
  rw [typed, leaf_iff, baseOk_iff]; simp

theorem time_iff {M : Meaning} {j : Json} : Valid M (.leaf { type := "string", format := "date-time" }) j ↔ IsText j ∧ M.format "date-time" j := by
  rw [leaf_iff, baseOk_iff, isString]; simp

theorem fields_iff {M : Meaning} {j : Json} : Valid M (.mk { type := "object" } none [] [] [] none [] (some (.mk true none)) [] [] none []) j ↔ IsObject j := by
  unfold Valid
  rw [baseOk_iff, isObject]
  simp [ValidItems, ValidAll, ValidOpt, ValidProps, ValidAddl, ValidPats, ValidDeps]

theorem raw_iff {M : Meaning} {t : String} {j : Json} : Valid M (.leaf { type := t, xPreserveUnknownFields := some true }) j ↔ HasType t j := by
  rw [leaf_iff, baseOk_iff]; simp

theorem intOrString_iff {M : Meaning} {p : String} {j : Json} : Valid M (intOrString p) j ↔ IsInteger j ∨ ∃ s, j = .str s ∧ (p ≠ "" → M.matches_ p s) := by
  unfold intOrString Valid
  rw [baseOk_iff]
  simp only [ValidItems, ValidAll, ValidOpt, ValidProps, ValidAddl, ValidPats, ValidDeps, ValidAny, typed_iff, isString, isInteger]
  constructor
  · rintro ⟨⟨-, -, h1, h2⟩, -⟩
    rcases h2 trivial with h | ⟨s, rfl⟩
    · exact .inl h
    · exact .inr ⟨s, rfl, h1 s rfl⟩
  · intro h
    refine ⟨⟨by simp [HasType], by simp, ?_, ?_⟩, trivial, trivial, fun h => (h rfl).elim, ?_, id, trivial, trivial, trivial, trivial, trivial⟩
    · rintro s rfl hp
      rcases h with ⟨z, h⟩ | ⟨s', h, h'⟩
      · cases h
      · cases h; exact h' hp
    · rcases h with h | ⟨s, h, -⟩
      · exact fun _ => .inl h
      · exact fun _ => .inr ⟨s, h⟩
    · rcases h with h | ⟨s, h, -⟩
      · exact fun _ => .inl h
      · exact fun _ => .inr (.inl ⟨s, h⟩)

theorem stringMap_iff {M : Meaning} {j : Json} : Valid M stringMap j ↔ IsTextMap j := by
  unfold stringMap Valid
  rw [baseOk_iff, isObject]
  simp only [ValidItems, ValidAll, ValidOpt, ValidProps, ValidAddl, ValidPats, ValidDeps, typed_iff, isString]
  constructor
  · rintro ⟨⟨⟨m, rfl⟩, -⟩, -, -, -, -, -, -, h, -⟩
    exact ⟨m, rfl, fun x hx => h x.2 ⟨x.1, m, rfl, hx, by simp, by simp⟩⟩
  · rintro ⟨m, rfl, h⟩
    refine ⟨⟨⟨m, rfl⟩, by simp, by simp, by simp⟩, trivial, trivial, fun h => (h rfl).elim, fun h => (h rfl).elim, id, trivial, ?_, trivial, trivial, trivial⟩
    rintro v ⟨k, m', e, hv, -⟩
    cases e
    exact h _ hv

theorem texts_iff {M : Meaning} {j : Json} : Valid M (.mk { type := "array" } (some (.mk (some (typed "string")) [])) [] [] [] none [] none [] [] none []) j ↔ IsTexts j := by
  unfold Valid
  rw [baseOk_iff, isArray]
  simp only [ValidItems, ValidAll, ValidOpt, ValidProps, ValidAddl, ValidPats, ValidDeps, ValidPtr, ValidTuple, typed_iff, isString]
  constructor
  · rintro ⟨⟨⟨l, rfl⟩, -⟩, h, -⟩
    exact ⟨l, rfl, (h l rfl).1⟩
  · rintro ⟨l, rfl, h⟩
    refine ⟨⟨⟨l, rfl⟩, by simp, by simp, by simp⟩, ?_, trivial, fun h => (h rfl).elim, fun h => (h rfl).elim, id, trivial, trivial, trivial, trivial, trivial⟩
    rintro xs e
    cases e
    exact ⟨h, trivial⟩

theorem embedded_iff {M : Meaning} {j : Json} : Valid M embeddedObjectMeta j ↔ IsObject j ∧
    Member j "name" IsText ∧ Member j "namespace" IsText ∧ Member j "labels" IsTextMap ∧ Member j "annotations" IsTextMap ∧ Member j "finalizers" IsTexts := by
  unfold embeddedObjectMeta Valid
  rw [baseOk_iff, isObject]
  simp only [ValidItems, ValidAll, ValidOpt, ValidProps, ValidAddl, ValidPats, ValidDeps, typed_iff, stringMap_iff, texts_iff, isString, Member]
  constructor
  · rintro ⟨⟨h, -⟩, -, -, -, -, -, ⟨h1, h2, h3, h4, h5, -⟩, -⟩
    exact ⟨h, h1, h2, h4, h3, h5⟩
  · rintro ⟨h, h1, h2, h4, h3, h5⟩
    exact ⟨⟨h, by simp, by simp, by simp⟩, trivial, trivial, fun h => (h rfl).elim, fun h => (h rfl).elim, id, ⟨h1, h2, h3, h4, h5, trivial⟩, trivial, trivial, trivial, trivial⟩

theorem quantity_valid {M : Meaning} (hM : RegularExpressions M) {j : Json} : Valid M (intOrString pattern) j ↔ IsInteger j ∨ ∃ s, j = .str s ∧ IsQuantity s := by
  rw [intOrString_iff]
  refine or_congr_right ⟨?_, ?_⟩
  · rintro ⟨s, rfl, h⟩
    exact ⟨s, rfl, (quantity_iff _).1 ((hM _ _ s read).1 (h (by decide +kernel)))⟩
  · rintro ⟨s, rfl, h⟩
    exact ⟨s, rfl, fun _ => (hM _ _ s read).2 ((quantity_iff _).2 h)⟩

/-- What the override of a package does for a type. -/
structure Entry (M : Meaning) (b : Bool) (path name : String) (o : Override) (a c : List (String × Schema)) (s : Schema) : Prop where
  get : GoMap.get (addKnownTypes b) path = some o
  schemata : o.schemata = a ++ (name, s) :: c
  last : ∀ e ∈ c, e.1 ≠ name
  iff : ∀ j, Valid M s j ↔ KnownVal M b path name j

theorem get_known (b : Bool) {path : String} {o : Override} (hp : path ≠ metaPath) (h : GoMap.get knownPackages path = some o) : GoMap.get (addKnownTypes b) path = some o := by
  unfold addKnownTypes
  split
  · rw [GoMap.get_put, if_neg hp]; exact h
  · exact h

theorem get_meta (b : Bool) : GoMap.get (addKnownTypes b) metaPath = some (metaOverride (if b then embeddedObjectMeta else typed "object")) := by
  cases b
  · rfl
  · unfold addKnownTypes
    rw [if_pos rfl, GoMap.get_put, if_pos rfl]; rfl

theorem metadata_iff {M : Meaning} (b : Bool) (j : Json) : Valid M (if b then embeddedObjectMeta else typed "object") j ↔ KnownVal M b metaPath "ObjectMeta" j := by
  cases b
  · rw [if_neg Bool.false_ne_true, typed_iff, isObject]
    refine ⟨fun h => .metadata h nofun, fun h => ?_⟩
    generalize hp : metaPath = path at h
    generalize hn : "ObjectMeta" = name at h
    cases h
    case metadata h _ => exact h
    all_goals first | exact absurd hn (by decide +kernel) | exact absurd hp (by decide +kernel)
  · rw [if_pos rfl, embedded_iff]
    refine ⟨fun h => .metadata h.1 fun _ => h.2, fun h => ?_⟩
    generalize hp : metaPath = path at h
    generalize hn : "ObjectMeta" = name at h
    cases h
    case metadata h h' => exact ⟨h, h' rfl⟩
    all_goals first | exact absurd hn (by decide +kernel) | exact absurd hp (by decide +kernel)

theorem schema_known {M : Meaning} (hM : RegularExpressions M) (b : Bool) (path name : String) (h : (path, name) ∈ knownNames) :
    ∃ o a c s, Entry M b path name o a c s := by
  simp only [knownNames, List.mem_cons, List.not_mem_nil, or_false, Prod.mk.injEq] at h
  rcases h with ⟨rfl, rfl⟩ | ⟨rfl, rfl⟩ | ⟨rfl, rfl⟩ | ⟨rfl, rfl⟩ | ⟨rfl, rfl⟩ | ⟨rfl, rfl⟩ | ⟨rfl, rfl⟩ | ⟨rfl, rfl⟩ | ⟨rfl, rfl⟩ | ⟨rfl, rfl⟩ | ⟨rfl, rfl⟩
  · exact ⟨_, [], _, _, get_meta b, rfl, by decide +kernel, metadata_iff b⟩
  · refine ⟨_, [_], _, _, get_meta b, rfl, by decide +kernel, fun j => time_iff.trans ⟨fun h => .time h.1 h.2, fun h => ?_⟩⟩
    generalize hp : "k8s.io/apimachinery/pkg/apis/meta/v1" = path at h
    generalize hn : "Time" = name at h
    cases h
    case time h h' => exact ⟨h, h'⟩
    all_goals first | exact absurd hn (by decide +kernel) | exact absurd hp (by decide +kernel)
  · refine ⟨_, [_, _], _, _, get_meta b, rfl, by decide +kernel, fun j => time_iff.trans ⟨fun h => .microTime h.1 h.2, fun h => ?_⟩⟩
    generalize hp : "k8s.io/apimachinery/pkg/apis/meta/v1" = path at h
    generalize hn : "MicroTime" = name at h
    cases h
    case microTime h h' => exact ⟨h, h'⟩
    all_goals first | exact absurd hn (by decide +kernel) | exact absurd hp (by decide +kernel)
  · refine ⟨_, [_, _, _], _, _, get_meta b, rfl, by decide +kernel, fun j => typed_iff.trans (isString.trans ⟨.duration, fun h => ?_⟩)⟩
    generalize hp : "k8s.io/apimachinery/pkg/apis/meta/v1" = path at h
    generalize hn : "Duration" = name at h
    cases h
    case duration h => exact h
    all_goals first | exact absurd hn (by decide +kernel) | exact absurd hp (by decide +kernel)
  · refine ⟨_, [_, _, _, _], _, _, get_meta b, rfl, by decide +kernel, fun j => fields_iff.trans ⟨.fields, fun h => ?_⟩⟩
    generalize hp : "k8s.io/apimachinery/pkg/apis/meta/v1" = path at h
    generalize hn : "Fields" = name at h
    cases h
    case fields h => exact h
    all_goals first | exact absurd hn (by decide +kernel) | exact absurd hp (by decide +kernel)
  · refine ⟨_, [], _, _, get_known b (by decide +kernel) rfl, rfl, by decide +kernel, fun j => (quantity_valid hM).trans ⟨?_, fun h => ?_⟩⟩
    · rintro (h | ⟨s, rfl, h⟩)
      · exact .quantityNumber h
      · exact .quantity h
    · generalize hp : "k8s.io/apimachinery/pkg/api/resource" = path at h
      generalize hn : "Quantity" = name at h
      cases h
      case quantityNumber h => exact .inl h
      case quantity h => exact .inr ⟨_, rfl, h⟩
      all_goals first | exact absurd hn (by decide +kernel) | exact absurd hp (by decide +kernel)
  · refine ⟨_, [], _, _, get_known b (by decide +kernel) rfl, rfl, by decide +kernel, fun j => raw_iff.trans (isObject.trans ⟨.rawExtension, fun h => ?_⟩)⟩
    generalize hp : "k8s.io/apimachinery/pkg/runtime" = path at h
    generalize hn : "RawExtension" = name at h
    cases h
    case rawExtension h => exact h
    all_goals first | exact absurd hn (by decide +kernel) | exact absurd hp (by decide +kernel)
  · refine ⟨_, [], _, _, get_known b (by decide +kernel) rfl, rfl, by decide +kernel, fun j => typed_iff.trans (isObject.trans ⟨.unstructured, fun h => ?_⟩)⟩
    generalize hp : "k8s.io/apimachinery/pkg/apis/meta/v1/unstructured" = path at h
    generalize hn : "Unstructured" = name at h
    cases h
    case unstructured h => exact h
    all_goals first | exact absurd hn (by decide +kernel) | exact absurd hp (by decide +kernel)
  · refine ⟨_, [], _, _, get_known b (by decide +kernel) rfl, rfl, by decide +kernel, fun j => intOrString_iff.trans ⟨?_, fun h => ?_⟩⟩
    · rintro (h | ⟨s, rfl, -⟩)
      · exact .int h
      · exact .string ⟨s, rfl⟩
    · generalize hp : "k8s.io/apimachinery/pkg/util/intstr" = path at h
      generalize hn : "IntOrString" = name at h
      cases h
      case int h => exact .inl h
      case string h => obtain ⟨s, rfl⟩ := h; exact .inr ⟨s, rfl, fun h => (h rfl).elim⟩
      all_goals first | exact absurd hn (by decide +kernel) | exact absurd hp (by decide +kernel)
  · exact ⟨_, [], _, _, get_known b (by decide +kernel) rfl, rfl, by decide +kernel, fun j => raw_iff.trans ⟨fun _ => .json (by simp), fun _ => by simp [HasType]⟩⟩
  · exact ⟨_, [], _, _, get_known b (by decide +kernel) rfl, rfl, by decide +kernel, fun j => raw_iff.trans ⟨fun _ => .json (by simp), fun _ => by simp [HasType]⟩⟩

theorem null_json {M : Meaning} {b : Bool} {p n : String} {j : Json} (h : KnownVal M b p n j) (e : j = .null) : n = "JSON" := by
  cases h with
  | json => rfl
  | metadata h => subst e; obtain ⟨_, h⟩ := h; cases h
  | time h => subst e; obtain ⟨_, h⟩ := h; cases h
  | microTime h => subst e; obtain ⟨_, h⟩ := h; cases h
  | duration h => subst e; obtain ⟨_, h⟩ := h; cases h
  | fields h => subst e; obtain ⟨_, h⟩ := h; cases h
  | quantityNumber h => subst e; obtain ⟨_, h⟩ := h; cases h
  | quantity h => cases e
  | rawExtension h => subst e; obtain ⟨_, h⟩ := h; cases h
  | unstructured h => subst e; obtain ⟨_, h⟩ := h; cases h
  | int h => subst e; obtain ⟨_, h⟩ := h; cases h
  | string h => subst e; obtain ⟨_, h⟩ := h; cases h

end Known

/-- C80.  Whatever has been asked for before, asking for the schema of a well-known type succeeds, with no error, and the schema accepts exactly the values of the type. -/
theorem C80_known (M : Meaning) (hM : RegularExpressions M) (S : Src) (b : Bool) (ho : S.overrides = addKnownTypes b) (marshal : AnyVal → Option Raw) (σ : Nat → Sched) (st : PState)
    (h : Reachable S marshal σ st) (pkg path name : String) (hp : Loader.nonVendorPath (S.path pkg).toList = path.toList) (hk : (path, name) ∈ knownNames) (n : Nat) :
    ∃ st' s, S.need marshal σ (n + 1) ⟨pkg, name⟩ st = .ok st' ∧ st'.errs = st.errs ∧ (envOf S st').raw ⟨pkg, name⟩ = some s ∧ ∀ j, Valid M s j ↔ KnownVal M b path name j := by
  obtain ⟨o, a, c, s, h1, h2, h3, h4⟩ := Known.schema_known hM b path name hk
  have hf : Fixed S ⟨pkg, name⟩ s := ⟨o, a, c, by unfold OverrideOf; rw [ho, hp, String.ofList_toList]; exact h1, h2, h3⟩
  have hi := needPackage_inv (reachable_inv h) pkg
  have hr := needPackage_rest (S := S) pkg st
  have hg := hi.fixed ⟨pkg, name⟩ s ((hr.2.2.2 pkg).2 (.inl rfl)) (fixed_iff.2 hf)
  refine ⟨S.needPackage pkg st, s, ?_, ?_, hg, h4⟩
  · rw [Src.need, Src.needStep]
    simp only [hg]
  · exact hr.1

/-- C80.  So fields of well-known types are accepted, at any depth: the values of these types are as C56 wants them. -/
theorem C80_fields (M : Meaning) (hM : RegularExpressions M) (S : Src) (b : Bool) (ho : S.overrides = addKnownTypes b) (G : Prog) (hc : G.ctx = S.ctx)
    (hd : ∀ p n d, G.decl p n = some d → Declares S ⟨p, n⟩ d ∧ ∀ s, ¬ Fixed S ⟨p, n⟩ s)
    (hf : ∀ p n j, G.foreign p n j → ∃ path, Loader.nonVendorPath (S.path p).toList = path.toList ∧ (path, n) ∈ knownNames ∧ KnownVal M b path n j) : ProgOf M S G := by
  refine ⟨hc, hd, fun p n j hj => ?_⟩
  obtain ⟨path, hp, hk, hv⟩ := hf p n j hj
  obtain ⟨o, a, c, s, h1, h2, h3, h4⟩ := Known.schema_known hM b path n hk
  exact ⟨s, ⟨o, a, c, by unfold OverrideOf; rw [ho, hp, String.ofList_toList]; exact h1, h2, h3⟩, (h4 j).2 hv⟩

/-- **C80 is violated for empty values**: the zero value of `metav1.Time` and an empty `runtime.RawExtension` are written as `null` (by their own methods), which their schemas reject. -/
theorem C80_violated_null (M : Meaning) (hM : RegularExpressions M) (S : Src) (b : Bool) (ho : S.overrides = addKnownTypes b) (marshal : AnyVal → Option Raw) (σ : Nat → Sched) (st : PState)
    (h : Reachable S marshal σ st) (pkg path name : String) (hp : Loader.nonVendorPath (S.path pkg).toList = path.toList)
    (hk : (path, name) ∈ [("k8s.io/apimachinery/pkg/apis/meta/v1", "Time"), ("k8s.io/apimachinery/pkg/runtime", "RawExtension")]) (n : Nat) :
    ∃ st' s, S.need marshal σ (n + 1) ⟨pkg, name⟩ st = .ok st' ∧ (envOf S st').raw ⟨pkg, name⟩ = some s ∧ ¬ Valid M s .null := by
  have hk' : (path, name) ∈ knownNames := by
    simp only [List.mem_cons, List.not_mem_nil, or_false] at hk
    rcases hk with hk | hk <;> rw [hk] <;> simp [knownNames]
  obtain ⟨st', s, h1, -, h2, h3⟩ := C80_known M hM S b ho marshal σ st h pkg path name hp hk' n
  refine ⟨st', s, h1, h2, fun hv => ?_⟩
  have hv := (h3 _).1 hv
  have hn := Known.null_json hv rfl
  simp only [List.mem_cons, List.not_mem_nil, or_false, Prod.mk.injEq] at hk
  rcases hk with ⟨-, rfl⟩ | ⟨-, rfl⟩ <;> exact absurd hn (by decide)

/-! ## Cases -/

namespace Known.Example

/-- A meaning of patterns and formats. -/
private def meaning : Meaning where
  format _ _ := True
  matches_ p s := ∃ r, readPattern p = some r ∧ Finds r s.toList
  rule _ _ := True
  value _ := .null

private theorem regular : RegularExpressions meaning := fun p r s h => ⟨fun ⟨r', h', hf⟩ => by rw [h] at h'; cases h'; exact hf, fun hf => ⟨r, h, hf⟩⟩

/-- A program with the package of quantities in a vendor directory. -/
private def prog : Src where
  ctx p := { self := p, ident := fun _ => .other, sel := fun _ _ => .other, exported := fun _ => true }
  imports _ _ := none
  decls _ := []
  path p := p
  overrides := addKnownTypes true

/-- The hypotheses are met, and `1.5Gi` is a quantity. -/
example : ∃ st' s, prog.need (fun _ => none) (fun _ => .fifo) 1 ⟨"example.com/vendor/k8s.io/apimachinery/pkg/api/resource", "Quantity"⟩ {} = .ok st' ∧ st'.errs = 0 ∧
    (envOf prog st').raw ⟨"example.com/vendor/k8s.io/apimachinery/pkg/api/resource", "Quantity"⟩ = some s ∧ Valid meaning s (.str "1.5Gi") ∧ Valid meaning s (.str "-5e3") ∧ Valid meaning s (.num 3) ∧
    ¬ Valid meaning s (.str "") := by
  obtain ⟨st', s, h1, h2, h3, h4⟩ := C80_known meaning regular prog true rfl (fun _ => none) (fun _ => .fifo) {} .start "example.com/vendor/k8s.io/apimachinery/pkg/api/resource"
    "k8s.io/apimachinery/pkg/api/resource" "Quantity" (by decide +kernel) (by decide +kernel) 0
  refine ⟨st', s, h1, h2, h3, (h4 _).2 (.quantity ?_), (h4 _).2 (.quantity ?_), (h4 _).2 (.quantityNumber ⟨3, rfl⟩), fun h => ?_⟩
  · exact ⟨['1', '.', '5'], ['G', 'i'], by decide, .bare (.fraction (a := ['1']) ⟨by decide, by decide⟩ ⟨by decide, by decide⟩), .binary (by decide)⟩
  · exact ⟨['-', '5'], ['e', '3'], by decide, .minus (.whole ⟨by decide, by decide⟩), .exponent (.inl rfl) (.bare (.whole ⟨by decide, by decide⟩))⟩
  · have h := (h4 _).1 h
    generalize hj : Json.str "" = j at h
    generalize hp : "k8s.io/apimachinery/pkg/api/resource" = path at h
    generalize hn : "Quantity" = name at h
    cases h
    case quantityNumber h => obtain ⟨z, rfl⟩ := h; cases hj
    case quantity h =>
      cases hj
      obtain ⟨a, b, e, ha, -⟩ := h
      obtain ⟨rfl, rfl⟩ := List.append_eq_nil_iff.1 e.symm
      cases ha with
      | bare h =>
        generalize he : ([] : List Char) = l at h
        cases h with
        | whole h => exact h.1 he.symm
        | _ => simp at he
    all_goals first | exact absurd hn (by decide +kernel) | exact absurd hp (by decide +kernel)

end Known.Example
end Verif.Crd
