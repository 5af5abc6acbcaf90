import Verif.Markers.ParseCompound
import Verif.Markers.ParseSuffix
import Verif.Markers.RegistryTheorems
/-!
# Lemmas for C14 and C15: argument lists
-/
namespace Verif.Markers
open Spec

theorem reads_scalar {E : Env} {self : Bool} {a : Arg} {v : Value} {x tl : Str} (ha : Scalar a) (h : Shows E self a v x) (ht : Term tl) :
    Reads E a v x tl := by
  cases h with
  | int h1 h2 => exact reads_int E h1 h2 (by nofun) ht
  | int32 h1 h2 => exact reads_int E (by omega) (by omega) (fun _ => toInt32_id h1 h2) ht
  | frac hf hfd hq => exact reads_num_frac E hf hfd hq ht
  | whole hq => exact reads_num_int E hq ht
  | bool => exact reads_bool E _ ht
  | str h => exact reads_str E h ht
  | _ => exact absurd ha (by simp [Scalar])

theorem on_init (x : Str) : On x (Sc.init x) := rfl

theorem On.length {raw : Str} {s : Sc} (h : On raw s) : s.rest.length ≤ raw.length := by
  rw [← h, List.length_drop]; omega

theorem fuel_ok {raw x : Str} (a : Arg) (h : x.length ≤ raw.length) : 2 * x.length + anyCost a ≤ fuelFor raw a := by
  have : anyCost a ≤ 1 := by cases a <;> simp [anyCost]
  simp only [fuelFor]; omega

theorem scan_eof {U : Unicode} {s : Sc} (h : s.rest = []) : ∃ s', scan U true s = .ok (.eof, s') := by
  simp [scan, h, lex]

theorem shows_not_comma {E : Env} {self : Bool} {a : Arg} {v : Value} {x : Str} (h : Shows E self a v x) : x.head? ≠ some ',' := by
  have hd : ∀ (neg : Bool) (n : Nat) (q : Str), (sign neg ++ (Nat.toDigits 10 n ++ q)).head? ≠ some ',' := by
    intro neg n q
    cases neg with
    | true => simp [sign]
    | false =>
      obtain ⟨c, r, he, hc⟩ := toDigits_cons n
      simp only [sign, he]
      simp
      rintro rfl; exact absurd hc (by decide)
  have hz : ∀ z : Int, (showInt z).head? ≠ some ',' := by
    intro z; rw [showInt_eq]; simpa using hd (decide (z < 0)) z.natAbs []
  have hb : ∀ {t : Str}, Bare t → t.head? ≠ some ',' := by
    intro t h hc
    exact (h.chars ',' (List.mem_of_mem_head? hc)).1 rfl
  have key : ∀ {self a v x}, a ≠ .any → Shows E self a v x → x.head? ≠ some ',' := by
    intro self a v x ha h
    cases h with
    | int => exact hz _
    | int32 => exact hz _
    | frac => rw [showFrac_eq]; exact hd _ _ _
    | whole => exact hz _
    | @bool _ b => cases b <;> decide
    | str h =>
      cases h with
      | quoted => simp [quoted]
      | raw => simp
      | word h => exact hb h.bare
      | bare h => exact hb h
    | any => exact absurd rfl ha
    | _ => simp
  by_cases ha : a = .any
  · subst ha
    cases h with
    | any ha h => exact key ha h
  · exact key ha h

theorem showsScalar_head {E : Env} {a : Arg} {v : Value} {x : Str} (h : ShowsScalar E a v x) : ∃ c r, x = c :: r ∧ isWs c = false ∧ c ≠ '}' ∧ c ≠ ',' := by
  have key : ∀ {self a}, Shows E self a v x → ∃ c r, x = c :: r ∧ isWs c = false ∧ c ≠ '}' ∧ c ≠ ',' := by
    intro self a hx
    obtain ⟨c, r, e, h1, h2⟩ := shows_head hx
    exact ⟨c, r, e, h1, h2, fun hc => shows_not_comma hx (by simp [e, hc])⟩
  cases h with
  | typed _ hx => exact key hx
  | any _ hx => exact key hx

/-- Reading an item of a legacy list: it is followed by a semicolon, or by what may follow the list. -/
theorem reads_item {E : Env} {a : Arg} {v : Value} {x tl : Str} (h : ShowsScalar E a v x) (ht : Calm tl ∨ ∃ r, tl = ';' :: r) (n : Nat) (raw : Str) (s : Sc)
    (hn : 2 * x.length + 1 ≤ n) (ho : On raw s) (hs : s.rest = x ++ tl) : ∃ s', parse E n a raw true s = .ok (v, s') ∧ s'.rest = tl ∧ On raw s' := by
  have hterm : Term tl := by
    rcases ht with ht | ⟨r, rfl⟩
    · exact ht.term
    · intro c hc; simp at hc; simp [← hc]
  cases h with
  | typed ha hx =>
    have hcost : anyCost a = 0 := by cases a <;> simp_all [anyCost, Scalar]
    exact reads_scalar ha hx hterm n raw true s [] (by omega) ho spaces_nil (by simp) (by simpa using hs)
  | @any a' _ _ ha hx =>
    have hne : a' ≠ .any := by rintro rfl; exact ha
    rcases ht with ht | ⟨r, rfl⟩
    · exact reads_shows (.any (self := false) hne hx) ht n raw true s [] (by simp only [anyCost]; omega) ho spaces_nil (by simp) (by simpa using hs)
    · obtain ⟨m, rfl⟩ : ∃ m, n = m + 1 := ⟨n - 1, by omega⟩
      obtain ⟨h1, -, -, -, -⟩ := self_legacy ha hx r
      have hcost : anyCost a' = 0 := by cases a' <;> simp_all [anyCost]
      obtain ⟨s', g1, g2, g3⟩ := reads_scalar ha hx hterm m raw false s [] (by omega) ho spaces_nil (by simp) (by simpa using hs)
      refine ⟨s', ?_, g2, g3⟩
      have hg : guessType E.toUnicode (x ++ ';' :: r) false = .ok a' := by
        have := h1 ((x ++ ';' :: r).length + 1) [] spaces_nil (by simp only [List.length_append]; omega)
        rw [List.nil_append] at this
        simp only [guessType, this]
        rfl
      simp only [parse, hs, Bool.not_true, hg]
      cases a' with
      | slice => exact ha.elim
      | map => exact ha.elim
      | any => exact ha.elim
      | _ => exact g1

/-- Reading a legacy list. -/
theorem legacyItems_ok {E : Env} {a : Arg} {tl : Str} (ht : Calm tl) : ∀ (vs : List Value) (y : Str), ShowsLegacy E a vs y →
    ∀ (n : Nat) (raw : Str) (s : Sc) (w : Str), 2 * y.length + 2 ≤ n → On raw s → Spaces w → (w ≠ [] → y.head? ≠ some '-') → s.rest = w ++ (y ++ tl) →
      ∃ s', legacyItems E n a raw s = .ok (vs, s') ∧ s'.rest = tl ∧ On raw s' := by
  intro vs
  induction vs with
  | nil => intro y h; cases h
  | cons v vs ih =>
    intro y h n raw s w hn ho hw hm hs
    obtain ⟨m, rfl⟩ : ∃ m, n = m + 1 := ⟨n - 1, by omega⟩
    have step : ∀ (x q : Str), ShowsScalar E a v x → (Calm q ∨ ∃ r, q = ';' :: r) → x.length ≤ y.length → s.rest = w ++ (x ++ q) →
        ∃ c s1, peekNoSpace s = some c ∧ c ≠ '}' ∧ c ≠ ',' ∧ parse E m a raw true (skipWs s) = .ok (v, s1) ∧ s1.rest = q ∧ On raw s1 := by
      intro x q hx hq hlen hs
      obtain ⟨c, xr, hcx, hcw, hcb, hcc⟩ := showsScalar_head hx
      have hhd : (x ++ q).head? = some c := head_append hcx _
      have hnw : ∀ c', (x ++ q).head? = some c' → isWs c' = false := by
        intro c' hc'; rw [hhd] at hc'; simp at hc'; subst hc'; exact hcw
      have hskr : (skipWs s).rest = x ++ q := by rw [skipWs_rest, hs, dropWhile_spaces hw hnw]
      obtain ⟨s1, h1, h2, h3⟩ := reads_item hx hq m raw (skipWs s) (by omega) ho.skipWs hskr
      exact ⟨c, s1, by rw [← hhd]; exact peekNoSpace_eq hs hw hnw, hcb, hcc, h1, h2, h3⟩
    cases h with
    | one hx =>
      obtain ⟨c, s1, hpk, hc1, hc2, h1, h2, h3⟩ := step y tl hx (.inl ht) (by omega) hs
      have hnw := term_not_ws ht.term
      have hpk1 : peekNoSpace s1 = tl.head? := peekNoSpace_eq (w := []) (by simpa using h2) spaces_nil hnw
      have hsk1 : skipWs s1 = s1 := skipWs_of_notws (by rw [h2]; exact hnw)
      refine ⟨s1, ?_, h2, h3⟩
      rw [legacyItems, hpk, if_neg (by simp [hc1, hc2])]
      have : tl.head? = some ',' ∨ tl.head? = some '}' ∨ tl.head? = none := by
        obtain ⟨k, r, rfl, hr⟩ := ht
        cases k with
        | zero => rcases hr with rfl | ⟨r', rfl⟩ <;> simp
        | succ k => simp [List.replicate_succ]
      simp only [h1, hpk1, if_pos this, hsk1]
    | @cons _ _ x y' hx hy =>
      obtain ⟨c0, xr, hcx, -, -, -⟩ := showsScalar_head hx
      obtain ⟨c, s1, hpk, hc1, hc2, h1, h2, h3⟩ := step x (';' :: (y' ++ tl)) hx (.inr ⟨_, rfl⟩)
        (by simp only [List.length_append]; omega) (by simpa using hs)
      have hpk1 : peekNoSpace s1 = some ';' :=
        peekNoSpace_eq (w := []) (r := ';' :: (y' ++ tl)) (by simpa using h2) spaces_nil (by simp; decide)
      have hsk1 : skipWs s1 = s1 := skipWs_of_notws (by rw [h2]; simp; decide)
      obtain ⟨s2, e1, e2, e3⟩ := scan_punct (U := E.toUnicode) (num := true) (w := []) (c := ';') (by simp [Punct]) (by simpa using h2) spaces_nil h3
      have hlx : 0 < x.length := by rw [hcx]; simp
      obtain ⟨s3, f1, f2, f3⟩ := ih y' hy m raw s2 [] (by simp only [List.length_append, List.length_cons] at hn; omega) e3 spaces_nil (by simp) (by simpa using e2)
      refine ⟨s3, ?_, f2, f3⟩
      rw [legacyItems, hpk, if_neg (by simp [hc1, hc2])]
      simp only [h1, hpk1, hsk1, e1]
      simp [f1]

/-- A legacy list as a value. -/
theorem reads_legacy {E : Env} {a : Arg} {tl : Str} (ht : Calm tl) {vs : List Value} {y : Str} (h : ShowsLegacy E a vs y)
    (hb : y.head? ≠ some '{') (n : Nat) (raw : Str) (inSlice : Bool) (s : Sc) (w : Str) (hn : 2 * y.length + 3 ≤ n) (ho : On raw s) (hw : Spaces w)
    (hs : s.rest = w ++ (y ++ tl)) : ∃ s', parse E n (.slice a) raw inSlice s = .ok (.slice vs, s') ∧ s'.rest = tl ∧ On raw s' := by
  obtain ⟨c, yr, hcy, hcw, hc'⟩ : ∃ c r, y = c :: r ∧ isWs c = false ∧ c ≠ '}' := by
    cases h with
    | one h =>
      obtain ⟨c, r, he, h1, h2, _⟩ := showsScalar_head h
      exact ⟨c, r, he, h1, h2⟩
    | cons h _ =>
      obtain ⟨c, r, he, h1, h2, _⟩ := showsScalar_head h
      exact ⟨c, _, by rw [he]; rfl, h1, h2⟩
  have hhd : (y ++ tl).head? = some c := head_append hcy _
  have hnw : ∀ c', (y ++ tl).head? = some c' → isWs c' = false := by
    intro c' hc'; rw [hhd] at hc'; simp at hc'; subst hc'; exact hcw
  obtain ⟨m, rfl⟩ : ∃ m, n = m + 1 := ⟨n - 1, by omega⟩
  have hskr : (skipWs s).rest = [] ++ (y ++ tl) := by rw [skipWs_rest, hs, dropWhile_spaces hw hnw]; rfl
  have hpk : peekNoSpace s = some c := by rw [← hhd]; exact peekNoSpace_eq hs hw hnw
  obtain ⟨s', h1, h2, h3⟩ := legacyItems_ok ht vs y h m raw (skipWs s) []
    (by omega) ho.skipWs spaces_nil (by simp) hskr
  refine ⟨s', ?_, h2, h3⟩
  have hne : ¬ (some c = some '{') := by rw [hcy] at hb; simpa using hb
  simp only [parse, hpk, if_neg hne, h1]

/-- The value of an argument. -/
theorem reads_arg {E : Env} {a : Arg} {v : Value} {x tl : Str} (h : ShowsArg E a v x) (ht : Calm tl) (raw : Str) (s : Sc) (hl : x.length ≤ raw.length) (ho : On raw s)
    (hs : s.rest = x ++ tl) : ∃ s', parse E (fuelFor raw a) a raw false s = .ok (v, s') ∧ s'.rest = tl ∧ On raw s' := by
  cases h with
  | value h => exact reads_shows h ht _ raw false s [] (fuel_ok _ hl) ho spaces_nil (by simp) (by simpa using hs)
  | list h hb => exact reads_legacy ht h hb _ raw false s [] (by simp only [fuelFor]; omega) ho spaces_nil (by simpa using hs)

theorem showsArg_head {E : Env} {a : Arg} {v : Value} {x : Str} (h : ShowsArg E a v x) : ∃ c r, x = c :: r ∧ isWs c = false ∧ c ≠ '}' := by
  cases h with
  | value h => exact shows_head h
  | list h _ =>
    cases h with
    | one h =>
      obtain ⟨c, r, he, h1, h2, _⟩ := showsScalar_head h
      exact ⟨c, r, he, h1, h2⟩
    | cons h _ =>
      obtain ⟨c, r, he, h1, h2, _⟩ := showsScalar_head h
      exact ⟨c, _, by rw [he]; rfl, h1, h2⟩

theorem name_unique {l : List Field} (hd : (l.map (·.name)).Nodup) {f g : Field} (hg : g ∈ l) (hf : f ∈ l) (h : g.name = f.name) : g = f := by
  induction l with
  | nil => cases hg
  | cons a l ih =>
    simp only [List.map_cons, List.nodup_cons] at hd
    rcases List.mem_cons.1 hg with rfl | hg' <;> rcases List.mem_cons.1 hf with rfl | hf'
    · rfl
    · exact absurd (List.mem_map.2 ⟨f, hf', h.symm⟩) hd.1
    · exact absurd (List.mem_map.2 ⟨g, hg', h⟩) hd.1
    · exact ih hd.2 hg' hf'

/-- An argument list that is followed by `tl`: all of it is read, and the last value ends before `tl`. -/
theorem argLoop_ok {E : Env} {d : Definition} (hd : (d.fields.map (·.name)).Nodup) {tl : Str} (ht : Calm tl) :
    ∀ (vals : List (Str × Value)) (y : Str), ShowsArgs E d vals y → ∀ (n : Nat) (raw : Str) (s : Sc) (w : Str) (acc : List (Str × Value)),
      On raw s → Spaces w → s.rest = w ++ (y ++ tl) → vals.length ≤ n → (acc.map (·.1) ++ vals.map (·.1)).Nodup →
      ∃ s', s'.rest = tl ∧ On raw s' ∧ argLoop E d raw n s acc =
        if tl = [] then .ok (acc ++ vals, s') else
          match expect E.toUnicode (.ch ',') s' with
          | .error e => .error e
          | .ok s4 => argLoop E d raw (n - vals.length) s4 (acc ++ vals) := by
  intro vals
  induction vals with
  | nil => intro y h; cases h
  | cons kv vals ih =>
    intro y h n raw s w acc ho hw hs hn hnd
    obtain ⟨m, rfl⟩ : ∃ m, n = m + 1 := ⟨n - 1, by simp only [List.length_cons] at hn; omega⟩
    obtain ⟨k, v⟩ := kv
    have hput : GoMap.put acc k v = acc ++ [(k, v)] := by
      apply put_of_not_mem
      intro hk
      exact (List.nodup_append.1 hnd).2.2 k hk k (by simp) rfl
    -- the first argument
    have step : ∀ (f : Field) (x q : Str), f ∈ d.fields → Ident f.name → ShowsArg E f.arg v x → Calm q → s.rest = w ++ (f.name ++ '=' :: (x ++ q)) →
        ∃ s1 s2 s3, expect E.toUnicode .ident s = .ok s1 ∧ s1.text = f.name ∧ expect E.toUnicode (.ch '=') s1 = .ok s2 ∧ d.field? f.name = some f ∧
          parse E (fuelFor raw f.arg) f.arg raw false s2 = .ok (v, s3) ∧ s3.rest = q ∧ On raw s3 := by
      intro f x q hf hid hx hq hs
      have hpart : ∀ c, ('=' :: (x ++ q)).head? = some c → isIdentPart E.toUnicode c = false := by
        intro c hc; simp at hc; subst hc; rw [identPart_ascii _ (by decide)]; decide
      obtain ⟨s1, h1, h2, h3, h4⟩ := scan_tok ho hs hw (ident_first hid _) (ident_lex E.toUnicode true hid hpart)
      obtain ⟨s2, e1, e2, e3⟩ := expect_punct (U := E.toUnicode) (w := []) (c := '=') (by simp [Punct]) (by simpa using h2) spaces_nil h4
      have hlen : x.length ≤ raw.length := by have := e3.length; rw [e2, List.length_append] at this; omega
      obtain ⟨s3, f1, f2, f3⟩ := reads_arg hx hq raw s2 hlen e3 (by simpa using e2)
      refine ⟨s1, s2, s3, by simp [expect, h1], h3, e1, ?_, f1, f2, f3⟩
      cases hfind : d.field? f.name with
      | none =>
        simp only [Definition.field?, List.find?_eq_none] at hfind
        simpa using hfind f hf
      | some g =>
        simp only [Definition.field?] at hfind
        have hg := List.mem_of_find?_eq_some hfind
        have hgn : g.name = f.name := by simpa using List.find?_some hfind
        rw [name_unique hd hg hf hgn]
    cases h with
    | one hf hid hx =>
      obtain ⟨s1, s2, s3, h1, h2, h3, h4, h5, h6, h7⟩ := step _ _ tl hf hid hx ht (by simpa using hs)
      refine ⟨s3, h6, h7, ?_⟩
      rw [argLoop]
      simp only [h1, h2, h3, h4, h5, hput]
      by_cases htl : tl = []
      · simp [htl, peek, h6]
      · obtain ⟨c, r, rfl⟩ := List.exists_cons_of_ne_nil htl
        simp [peek, h6]
        rfl
    | @cons f _ x w' _ y' hf hid hx hw' hy =>
      obtain ⟨s1, s2, s3, h1, h2, h3, h4, h5, h6, h7⟩ := step f x (',' :: (w' ++ (y' ++ tl))) hf hid hx (Calm.comma _) (by simpa using hs)
      obtain ⟨s4, e1, e2, e3⟩ := expect_punct (U := E.toUnicode) (w := []) (c := ',') (by simp [Punct]) (by simpa using h6) spaces_nil h7
      obtain ⟨s5, f1, f2, f3⟩ := ih y' hy m raw s4 w' (acc ++ [(f.name, v)]) e3 hw' e2 (by simpa using hn) (by simpa using hnd)
      refine ⟨s5, f1, f2, ?_⟩
      rw [argLoop]
      simp only [h1, h2, h3, h4, h5, hput, e1, f3, peek, h6]
      simp

end Verif.Markers
