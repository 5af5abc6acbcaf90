import Verif.Markers.ParseArgs
/-!
# C14 and C15: marker arguments
-/
namespace Verif.Markers
open Spec

variable {E : Env} {d : Definition}

theorem splitMarker_fields {name rest : Str} (h : '=' ∉ name) : (splitMarker ('+' :: (name ++ '=' :: rest))).2.2 = rest := by
  simp [splitMarker, splitMarkerBody, Text.cut_append h]

theorem ident_no {t : Str} (h : Ident t) {c : Char} (hc : ¬ (c.isAlphanum ∨ c = '_')) : c ∉ t := fun hm => hc (h.rest c hm)

/-- The arguments of `+name:a=x,…` start right after the name of the marker. -/
theorem fieldsText_named {name arg rest : Str} (hname : '=' ∉ name) (ha : Ident arg) (h1 : d.anonymousField = false) (h2 : d.fields ≠ []) :
    fieldsText d ('+' :: (name ++ ':' :: (arg ++ '=' :: rest))) = arg ++ '=' :: rest := by
  have hc : ':' ∉ arg := ident_no ha (by decide)
  have he : '=' ∉ name ++ ':' :: arg := by
    have := ident_no ha (c := '=') (by decide)
    simp [hname, this]
  have hs := splitMarker_colon (rest := rest) he hc
  have hr : '+' :: (name ++ ':' :: (arg ++ '=' :: rest)) = '+' :: (name ++ ':' :: arg ++ '=' :: rest) := by simp
  rw [hr]
  simp only [fieldsText, hs, h1]
  rw [if_pos ⟨by simp, h2, by simp⟩]
  simp

theorem showsArgs_first {vals : List (Str × Value)} {y : Str} (h : ShowsArgs E d vals y) :
    ∃ f z, f ∈ d.fields ∧ Ident f.name ∧ y = f.name ++ '=' :: z := by
  cases h with
  | one hf hid => exact ⟨_, _, hf, hid, rfl⟩
  | cons hf hid => exact ⟨_, _, hf, hid, by simp; rfl⟩

theorem showsArgs_length {vals : List (Str × Value)} : ∀ {y : Str}, ShowsArgs E d vals y → vals.length ≤ y.length := by
  induction vals with
  | nil => simp
  | cons e vals ih =>
    intro y h
    cases h with
    | one => simp only [List.length_cons, List.length_nil, List.length_append]; omega
    | cons _ _ _ _ hy =>
      have := ih hy
      simp only [List.length_cons, List.length_append]; omega

theorem not_anonymous {f : Field} (hf : f ∈ d.fields) (hid : Ident f.name) : d.anonymousField = false := by
  cases h : d.anonymousField with
  | false => rfl
  | true =>
    simp only [Definition.anonymousField, Bool.and_eq_true, decide_eq_true_eq, List.any_eq_true] at h
    obtain ⟨h1, g, hg, hgn⟩ := h
    obtain ⟨a, ha⟩ := List.length_eq_one_iff.1 h1
    rw [ha] at hf hg
    simp only [List.mem_singleton] at hf hg
    subst hf hg
    obtain ⟨c, r, hcr, -⟩ := hid.first
    rw [hcr] at hgn; cases hgn

/-- Parsing a marker `+name:` followed by an argument list and `tl`. -/
theorem parseArgs_named {vals : List (Str × Value)} {name y tl : Str} (hname : '=' ∉ name) (hd : (d.fields.map (·.name)).Nodup)
    (hv : (vals.map (·.1)).Nodup) (h : ShowsArgs E d vals y) (ht : Calm tl) :
    ∃ s', s'.rest = tl ∧ On (y ++ tl) s' ∧ parseArgs E d (fieldsText d ('+' :: (name ++ ':' :: (y ++ tl)))) =
        if tl = [] then .ok (vals, s') else
          match expect E.toUnicode (.ch ',') s' with
          | .error e => .error e
          | .ok s4 => argLoop E d (y ++ tl) ((y ++ tl).length + 1 - vals.length) s4 vals := by
  obtain ⟨f, z, hf, hid, rfl⟩ := showsArgs_first h
  have hanon := not_anonymous hf hid
  have hne : d.fields ≠ [] := List.ne_nil_of_mem hf
  have hft : fieldsText d ('+' :: (name ++ ':' :: (f.name ++ '=' :: z ++ tl))) = f.name ++ '=' :: z ++ tl := by
    have := fieldsText_named (rest := z ++ tl) hname hid hanon hne
    simpa using this
  obtain ⟨s', h1, h2, h3⟩ := argLoop_ok hd ht vals _ h ((f.name ++ '=' :: z ++ tl).length + 1) (f.name ++ '=' :: z ++ tl) (Sc.init (f.name ++ '=' :: z ++ tl)) [] []
    (on_init _) spaces_nil rfl (by have := showsArgs_length h; simp only [List.length_append] at this ⊢; omega) (by simpa using hv)
  refine ⟨s', h1, h2, ?_⟩
  rw [hft]
  have hpk : peek (Sc.init (f.name ++ '=' :: z ++ tl)) ≠ none := by
    obtain ⟨c, r, hcr, -⟩ := hid.first
    simp [peek, Sc.init, hcr]
  simp only [parseArgs, hanon]
  rw [if_neg (by simp), if_pos ⟨hne, hpk⟩]
  rw [List.nil_append] at h3
  exact h3

/-! ## C14 -/

/-- **C14** (values). Reading any text that denotes a value of a type — integers, numbers, booleans, strings, lists, maps, or values whose
type is recognised from the text — consumes exactly that text and yields that value. -/
theorem C14_value {a : Arg} {v : Value} {x : Str} (h : Shows E false a v x) :
    ∃ s, parse E (fuelFor x a) a x false (Sc.init x) = .ok (v, s) ∧ s.rest = [] := by
  obtain ⟨s, h1, h2, -⟩ := reads_shows h Calm.nil (fuelFor x a) x false (Sc.init x) [] (fuel_ok a (by omega)) (on_init x) spaces_nil (by simp)
    (by simp [Sc.init])
  exact ⟨s, h1, h2⟩

/-- **C14** (legacy lists). The same for lists of scalars written `a;b;c`. -/
theorem C14_legacy {a : Arg} {vs : List Value} {x : Str} (h : ShowsLegacy E a vs x) (hb : x.head? ≠ some '{') :
    ∃ s, parse E (fuelFor x (.slice a)) (.slice a) x false (Sc.init x) = .ok (.slice vs, s) ∧ s.rest = [] := by
  obtain ⟨s, h1, h2, -⟩ := reads_arg (.list h hb) Calm.nil x (Sc.init x) (by omega) (on_init x) (by simp [Sc.init])
  exact ⟨s, h1, h2⟩

/-- **C14** (legacy lists of any type). The same where the type is recognised from the text: two or more scalars, the first of which shows its type. -/
theorem C14_legacy_any {a : Arg} (ha : Scalar a) {v : Value} {vs : List Value} {x y : Str} (hx : Shows E true a v x) (hy : ShowsLegacy E a vs y) :
    ∃ s, parse E (fuelFor (x ++ ';' :: y) .any) .any (x ++ ';' :: y) false (Sc.init (x ++ ';' :: y)) = .ok (.slice (v :: vs), s) ∧ s.rest = [] := by
  obtain ⟨h1, h2, h3, h4, h5⟩ := self_legacy ha hx y
  have hne : x ≠ [] := by obtain ⟨c, r, e, -⟩ := shows_head hx; rw [e]; nofun
  have hb : (x ++ ';' :: y).head? ≠ some '{' := by
    cases x with
    | nil => exact (hne rfl).elim
    | cons c r => exact h5
  have hg : guessType E.toUnicode (x ++ ';' :: y) true = .ok (.slice a) := by
    have g1 := h1 ((x ++ ';' :: y).length + 1) [] spaces_nil (by simp only [List.length_append]; omega)
    have g2 := h2 ((x ++ ';' :: y).length + 1) (Sc.init (x ++ ';' :: y)) rfl (by omega)
    rw [List.nil_append] at g1
    simp only [guessType, g1, g2, if_true]
  have hn : 2 * (x ++ ';' :: y).length + 1 ≤ fuelFor (x ++ ';' :: y) .any := by simp only [fuelFor]; omega
  obtain ⟨m, hm⟩ : ∃ m, fuelFor (x ++ ';' :: y) .any = m + 1 := ⟨fuelFor (x ++ ';' :: y) .any - 1, by omega⟩
  obtain ⟨s, r1, r2, -⟩ := reads_legacy Calm.nil (.cons (.typed ha h4) hy) hb m (x ++ ';' :: y) false (Sc.init (x ++ ';' :: y)) [] (by simp only [fuelFor] at hm; omega) (on_init _) spaces_nil
    (by simp [Sc.init])
  refine ⟨s, ?_, r2⟩
  rw [hm]
  have hr : (Sc.init (x ++ ';' :: y)).rest = x ++ ';' :: y := rfl
  simp only [parse, hr, Bool.not_false, hg, h3, if_true]
  exact r1

/-- **C14** (anonymous definitions). `+name=x` yields the value that `x` denotes. -/
theorem C14_anonymous {f : Field} {v : Value} {name x : Str} (hd : d.fields = [f]) (hf : f.name = []) (hname : '=' ∉ name)
    (h : ShowsArg E f.arg v x) : d.parse E ('+' :: (name ++ '=' :: x)) = .ok [([], v)] := by
  have hanon : d.anonymousField = true := by simp [Definition.anonymousField, hd, hf]
  have hft : fieldsText d ('+' :: (name ++ '=' :: x)) = x := by
    have h := splitMarker_fields (rest := x) hname
    simp only [fieldsText, hanon]
    simpa using h
  obtain ⟨c, r, hcx, -, -⟩ := showsArg_head h
  obtain ⟨s, h1, h2, -⟩ := reads_arg h Calm.nil x (Sc.init x) (by omega) (on_init x) (by simp [Sc.init])
  have hpk : peek (Sc.init x) = some c := by simp [peek, Sc.init, hcx]
  have hfield : d.field? [] = some f := by simp [Definition.field?, hd, hf]
  obtain ⟨s', h3⟩ := scan_eof (U := E.toUnicode) h2
  simp only [Definition.parse, hft, parseArgs, hanon, hpk, hfield, h1]
  simp [hd, hf, h3]

/-- **C14** (named arguments). `+name:a=x,b=y,…` yields the values that the texts denote, provided no required argument of a strict
definition is missing. -/
theorem C14_named {vals : List (Str × Value)} {name y : Str} (hname : '=' ∉ name) (hd : (d.fields.map (·.name)).Nodup)
    (hv : (vals.map (·.1)).Nodup) (h : ShowsArgs E d vals y)
    (hreq : d.strict = true → ∀ f ∈ d.fields, f.optional = false → f.name ∈ vals.map (·.1)) :
    d.parse E ('+' :: (name ++ ':' :: y)) = .ok vals := by
  obtain ⟨s', h1, -, h3⟩ := parseArgs_named (tl := []) hname hd hv h Calm.nil
  obtain ⟨s'', h4⟩ := scan_eof (U := E.toUnicode) h1
  simp only [List.append_nil, if_true] at h3
  simp only [Definition.parse, h3, h4]
  rw [if_neg (by simp), if_neg]
  simp only [not_and, Bool.not_eq_true, List.any_eq_false, Bool.and_eq_true, Bool.not_eq_eq_eq_not, Bool.not_true, not_and, Bool.not_eq_false]
  intro hs f hf ho
  simpa using hreq hs f hf ho

/-! ## C15 -/

/-- **C15** (missing argument). A strict definition rejects an argument list in which a required argument is missing. -/
theorem C15_missing {vals : List (Str × Value)} {name y : Str} (hname : '=' ∉ name) (hd : (d.fields.map (·.name)).Nodup)
    (hv : (vals.map (·.1)).Nodup) (h : ShowsArgs E d vals y) (hs : d.strict = true) {f : Field} (hf : f ∈ d.fields) (ho : f.optional = false)
    (hm : f.name ∉ vals.map (·.1)) : d.parse E ('+' :: (name ++ ':' :: y)) = .error .missing := by
  obtain ⟨s', h1, -, h3⟩ := parseArgs_named (tl := []) hname hd hv h Calm.nil
  obtain ⟨s'', h4⟩ := scan_eof (U := E.toUnicode) h1
  simp only [List.append_nil, if_true] at h3
  simp only [Definition.parse, h3, h4]
  rw [if_neg (by simp), if_pos]
  refine ⟨hs, List.any_eq_true.2 ⟨f, hf, ?_⟩⟩
  simpa [ho] using hm

/-- **C15** (unknown argument). Well-formed arguments followed by one whose name is not declared are rejected, whatever follows. -/
theorem C15_unknown {vals : List (Str × Value)} {name y w arg z : Str} (hname : '=' ∉ name) (hd : (d.fields.map (·.name)).Nodup)
    (hv : (vals.map (·.1)).Nodup) (h : ShowsArgs E d vals y) (hw : Spaces w) (harg : Ident arg) (hu : arg ∉ d.fields.map (·.name)) :
    d.parse E ('+' :: (name ++ ':' :: (y ++ ',' :: (w ++ (arg ++ '=' :: z))))) = .error .unknownArgument := by
  obtain ⟨s', h1, h2, h3⟩ := parseArgs_named (tl := ',' :: (w ++ (arg ++ '=' :: z))) hname hd hv h (Calm.comma _)
  obtain ⟨s4, e1, e2, e3⟩ := expect_punct (U := E.toUnicode) (w := []) (c := ',') (by simp [Punct]) (by simpa using h1) spaces_nil h2
  have hpart : ∀ c, ('=' :: z).head? = some c → isIdentPart E.toUnicode c = false := by
    intro c hc; simp at hc; subst hc; rw [identPart_ascii _ (by decide)]; decide
  obtain ⟨s5, f1, f2, f3, f4⟩ := scan_tok e3 e2 hw (ident_first harg _) (ident_lex E.toUnicode true harg hpart)
  obtain ⟨s6, g1, g2, g3⟩ := expect_punct (U := E.toUnicode) (w := []) (c := '=') (by simp [Punct]) (by simpa using f2) spaces_nil f4
  have hn : d.field? arg = none := by
    simp only [Definition.field?, List.find?_eq_none, decide_eq_true_eq]
    rintro f hf rfl
    exact hu (List.mem_map.2 ⟨f, hf, rfl⟩)
  have hlen := showsArgs_length h
  obtain ⟨m, hm⟩ : ∃ m, (y ++ ',' :: (w ++ (arg ++ '=' :: z))).length + 1 - vals.length = m + 1 :=
    ⟨(y ++ ',' :: (w ++ (arg ++ '=' :: z))).length - vals.length, by simp only [List.length_append]; omega⟩
  have hex : expect E.toUnicode .ident s4 = .ok s5 := by simp [expect, f1]
  simp only [e1] at h3
  rw [hm, argLoop] at h3
  simp only [hex, f3, g1, hn] at h3
  simp only [Definition.parse, h3]
  simp

/-- **C15** (something left over). Well-formed arguments followed by a closing brace are rejected, whatever follows. -/
theorem C15_leftover {vals : List (Str × Value)} {name y z : Str} (hname : '=' ∉ name) (hd : (d.fields.map (·.name)).Nodup)
    (hv : (vals.map (·.1)).Nodup) (h : ShowsArgs E d vals y) (hz : Calm z) :
    d.parse E ('+' :: (name ++ ':' :: (y ++ '}' :: z))) = .error .expected := by
  obtain ⟨s', h1, h2, h3⟩ := parseArgs_named (tl := '}' :: z) hname hd hv h hz.brace
  obtain ⟨s4, e1, e2, e3⟩ := scan_punct (U := E.toUnicode) (num := true) (w := []) (c := '}') (by simp [Punct]) (by simpa using h1) spaces_nil h2
  have hex : expect E.toUnicode (.ch ',') s' = .error .expected := by
    rw [expect, e1]; rfl
  simp only [hex] at h3
  simp only [Definition.parse, h3]
  simp

theorem argLoop_covers {raw : Str} : ∀ (n : Nat) (s : Sc) (acc vals : List (Str × Value)) (s' : Sc), argLoop E d raw n s acc = .ok (vals, s') →
    s'.rest = [] ∧ ∃ gs, Covers gs s.rest ∧ vals = gs.foldl (fun m g => GoMap.put m g.name g.value) acc ∧
      ∀ g ∈ gs, ∃ f ∈ d.fields, f.name = g.name ∧ ∃ st st', parse E (fuelFor raw f.arg) f.arg raw false st = .ok (g.value, st') ∧
        st.rest = g.chunk ++ st'.rest := by
  intro n
  induction n with
  | zero => intro s acc vals s' h; cases h
  | succ n ih =>
    intro s acc vals s' h
    simp only [argLoop] at h
    split at h
    · cases h
    · rename_i s1 h1
      split at h
      · cases h
      · rename_i s2 h2
        split at h
        · cases h
        · rename_i f hf
          split at h
          · cases h
          · rename_i v s3 h3
            obtain ⟨w, hw, hs, -⟩ := expect_split h1
            obtain ⟨w', hw', hs1⟩ := expect_ch h2
            obtain ⟨chunk, hs2⟩ := (forward E _).parse h3
            have hfm : f ∈ d.fields := List.mem_of_find?_eq_some hf
            have hfn : f.name = s1.text := by simpa using List.find?_some hf
            have hg : ∃ f ∈ d.fields, f.name = s1.text ∧ ∃ st st', parse E (fuelFor raw f.arg) f.arg raw false st = .ok (v, st') ∧
                st.rest = chunk ++ st'.rest := ⟨f, hfm, hfn, s2, s3, h3, hs2.symm⟩
            split at h
            · rename_i hpk
              simp only [Except.ok.injEq, Prod.mk.injEq] at h
              obtain ⟨rfl, rfl⟩ := h
              have hr : s3.rest = [] := by simpa [peek] using hpk
              refine ⟨hr, [⟨s1.text, chunk, v⟩], ?_, rfl, ?_⟩
              · rw [hs, hs1, ← hs2, hr, List.append_nil]
                exact .one (g := ⟨s1.text, chunk, v⟩) hw hw'
              · intro g hgm
                simp only [List.mem_singleton] at hgm
                subst hgm
                exact hg
            · split at h
              · cases h
              · rename_i s4 h4
                obtain ⟨w'', hw'', hs3⟩ := expect_ch h4
                obtain ⟨hr, gs, hc, hv, hall⟩ := ih _ _ _ _ h
                refine ⟨hr, ⟨s1.text, chunk, v⟩ :: gs, ?_, hv, ?_⟩
                · rw [hs, hs1, ← hs2, hs3]
                  exact .cons (g := ⟨s1.text, chunk, v⟩) hw hw' hw'' hc
                · intro g hgm
                  rcases List.mem_cons.1 hgm with rfl | hgm
                  · exact hg
                  · exact hall g hgm

theorem mem_keys_fold {gs : List Seg} : ∀ {acc : List (Str × Value)} {k : Str},
    k ∈ (gs.foldl (fun m g => GoMap.put m g.name g.value) acc).map (·.1) ↔ k ∈ acc.map (·.1) ∨ k ∈ gs.map (·.name) := by
  induction gs with
  | nil => simp
  | cons g gs ih =>
    intro acc k
    have := GoMap.mem_keys_put (m := acc) (k := g.name) (k' := k) (v := g.value)
    simp only [GoMap.keys] at this
    rw [List.foldl_cons, ih, this]
    simp only [List.map_cons, List.mem_cons]
    constructor
    · rintro ((h | h) | h) <;> simp [h]
    · rintro (h | h | h) <;> simp [h]

/-- **C15** (accepted markers). If a definition with named arguments accepts a non-empty argument text, that text is covered by arguments
`name=value`, each of them declared, each value read from the whole of its part; the result has exactly those names; a strict
definition has all its required arguments among them.

Missing: each argument should occur only once (`C15_violated_duplicate`), and a value should reflect all of its text (`C15_violated_space`). -/
theorem C15_accepted_partial {marker : Str} {vals : List (Str × Value)} (hn : d.anonymousField = false) (hne : d.fields ≠ [])
    (ht : fieldsText d marker ≠ []) (h : d.parse E marker = .ok vals) :
    ∃ gs, Covers gs (fieldsText d marker) ∧
      (∀ g ∈ gs, ∃ f ∈ d.fields, f.name = g.name ∧ ∃ st st',
        parse E (fuelFor (fieldsText d marker) f.arg) f.arg (fieldsText d marker) false st = .ok (g.value, st') ∧ st.rest = g.chunk ++ st'.rest) ∧
      vals = gs.foldl (fun m g => GoMap.put m g.name g.value) [] ∧
      (∀ k, k ∈ vals.map (·.1) ↔ k ∈ gs.map (·.name)) ∧
      (d.strict = true → ∀ f ∈ d.fields, f.optional = false → f.name ∈ vals.map (·.1)) := by
  simp only [Definition.parse] at h
  split at h
  · cases h
  · rename_i vals' s hp
    split at h
    · cases h
    · split at h
      · cases h
      · split at h
        · cases h
        · rename_i hstrict
          simp only [Except.ok.injEq] at h
          subst h
          have hpk : peek (Sc.init (fieldsText d marker)) ≠ none := by simpa [peek, Sc.init] using ht
          simp only [parseArgs, hn] at hp
          rw [if_neg (by simp), if_pos ⟨hne, hpk⟩] at hp
          obtain ⟨-, gs, hc, hv, hall⟩ := argLoop_covers _ _ _ _ _ hp
          refine ⟨gs, hc, hall, hv, ?_, ?_⟩
          · intro k; rw [hv, mem_keys_fold]; simp
          · intro hs f hf ho
            simp only [not_and, Bool.not_eq_true, List.any_eq_false] at hstrict
            have := hstrict hs f hf
            simpa [ho] using this

/-- **C15** (accepted markers, one anonymous argument): the value is read from the whole text, but for white space after it. -/
theorem C15_accepted_anonymous {marker : Str} {vals : List (Str × Value)} {f : Field} (hd : d.fields = [f]) (hf : f.name = [])
    (ht : fieldsText d marker ≠ []) (h : d.parse E marker = .ok vals) :
    ∃ chunk w v s, fieldsText d marker = chunk ++ w ∧ Spaces w ∧ vals = [([], v)] ∧
      parse E (fuelFor (fieldsText d marker) f.arg) f.arg (fieldsText d marker) false (Sc.init (fieldsText d marker)) = .ok (v, s) ∧ s.rest = w := by
  have hanon : d.anonymousField = true := by simp [Definition.anonymousField, hd, hf]
  have hfield : d.field? [] = some f := by simp [Definition.field?, hd, hf]
  have hpk : peek (Sc.init (fieldsText d marker)) ≠ none := by simpa [peek, Sc.init] using ht
  simp only [Definition.parse, parseArgs] at h
  rw [if_pos ⟨hanon, hpk⟩, hfield] at h
  simp only at h
  split at h
  · cases h
  · rename_i vals' s hp
    split at hp
    · cases hp
    · rename_i v s0 hparse
      simp only [Except.ok.injEq, Prod.mk.injEq] at hp
      obtain ⟨rfl, rfl⟩ := hp
      split at h
      · cases h
      · rename_i tok s1 hscan
        split at h
        · cases h
        · rename_i htok
          split at h
          · cases h
          · simp only [Except.ok.injEq] at h
            obtain ⟨w, hw, hs, hl⟩ := scan_split hscan
            have hnil := (lex_ch hl).1 (by simpa using htok)
            rw [hnil, List.append_nil] at hs
            obtain ⟨chunk, hc⟩ := (forward E _).parse hparse
            refine ⟨chunk, w, v, s0, ?_, hw, h.symm, hparse, hs⟩
            rw [← hs, hc]; rfl

/-- **C15** (no arguments). A definition without arguments accepts only white space after `=`. -/
theorem C15_accepted_empty {marker : Str} {vals : List (Str × Value)} (hd : d.fields = []) (h : d.parse E marker = .ok vals) :
    vals = [] ∧ Spaces (fieldsText d marker) := by
  have hanon : d.anonymousField = false := by simp [Definition.anonymousField, hd]
  simp only [Definition.parse, parseArgs, hanon] at h
  rw [if_neg (by simp), if_neg (by simp [hd])] at h
  simp only at h
  split at h
  · cases h
  · rename_i tok s1 hscan
    split at h
    · cases h
    · rename_i htok
      split at h
      · cases h
      · simp only [Except.ok.injEq] at h
        obtain ⟨w, hw, hs, hl⟩ := scan_split hscan
        have hnil := (lex_ch hl).1 (by simpa using htok)
        rw [hnil, List.append_nil] at hs
        have hs : fieldsText d marker = w := hs
        exact ⟨h.symm, hs ▸ hw⟩

end Verif.Markers
