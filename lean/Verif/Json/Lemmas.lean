import Verif.Json.Model
/-! # JSON: the decoder finds what the grammar says -/
namespace Verif.Json
open Spec

/-! ## White space -/

def isWs (c : Char) : Bool := c = ' ' || c = '\t' || c = '\n' || c = '\r'

theorem ws_eq (s : Str) : ws s = s.dropWhile isWs := rfl

theorem isWs_iff {c : Char} : isWs c = true ↔ (c = ' ' ∨ c = '\t' ∨ c = '\n' ∨ c = '\r') := by
  simp only [isWs, Bool.or_eq_true, decide_eq_true_eq, or_assoc]

theorem ws_split (s : Str) : ∃ w, s = w ++ ws s ∧ Ws w :=
  ⟨s.takeWhile isWs, (List.takeWhile_append_dropWhile ..).symm, fun c hc => isWs_iff.1 (by
    have := List.all_takeWhile (p := isWs) (l := s)
    exact List.all_eq_true.1 this c hc)⟩

theorem ws_skip {w : Str} (h : Ws w) (s : Str) : ws (w ++ s) = ws s := by
  induction w with
  | nil => rfl
  | cons c w ih =>
    rw [ws_eq, List.cons_append, List.dropWhile_cons_of_pos (isWs_iff.2 (h c (List.mem_cons_self ..)))]
    exact ih fun d hd => h d (List.mem_cons_of_mem _ hd)

theorem ws_stop {c : Char} (h : isWs c = false) (s : Str) : ws (c :: s) = c :: s := by
  rw [ws_eq, List.dropWhile_cons_of_neg (by rw [h]; exact Bool.false_ne_true)]

theorem ws_all {w : Str} (h : Ws w) : ws w = [] := by
  have := ws_skip h []
  rwa [List.append_nil] at this

theorem ws_nil_iff {w : Str} : ws w = [] ↔ Ws w := by
  refine ⟨fun h => ?_, ws_all⟩
  obtain ⟨v, h1, h2⟩ := ws_split w
  rw [h, List.append_nil] at h1
  exact h1 ▸ h2

theorem Ws.nil : Ws [] := fun _ h => nomatch h

theorem ws_length (s : Str) : (ws s).length ≤ s.length := by
  obtain ⟨w, h, -⟩ := ws_split s
  rw [h, List.length_append, ← h]
  omega

/-! ## Numbers -/

theorem takeWhile_digits {ds r : Str} (h : ∀ c ∈ ds, c.isDigit = true) (hr : ∀ c, r.head? = some c → c.isDigit = false) :
    (ds ++ r).takeWhile Char.isDigit = ds ∧ (ds ++ r).dropWhile Char.isDigit = r := by
  induction ds with
  | nil =>
    cases r with
    | nil => exact ⟨rfl, rfl⟩
    | cons c r =>
      have := hr c rfl
      simp [this]
  | cons c ds ih =>
    obtain ⟨h1, h2⟩ := ih fun d hd => h d (List.mem_cons_of_mem _ hd)
    simp [h c (List.mem_cons_self ..), h1, h2]

theorem digits_take {s : Str} (h : s.takeWhile Char.isDigit ≠ []) : Digits (s.takeWhile Char.isDigit) :=
  ⟨h, fun c hc => List.all_eq_true.1 (List.all_takeWhile (p := Char.isDigit) (l := s)) c hc⟩

theorem intPart_sound {s ip r : Str} (h : intPart s = some (ip, r)) : s = ip ++ r ∧ IntPart ip := by
  unfold intPart at h
  split at h
  · simp only [Option.some.injEq, Prod.mk.injEq] at h
    obtain ⟨rfl, rfl⟩ := h
    exact ⟨rfl, ⟨List.cons_ne_nil _ _, by decide⟩, fun _ => rfl⟩
  · rename_i hne
    split at h
    · cases h
    · rename_i hd
      simp only [Option.some.injEq, Prod.mk.injEq] at h
      obtain ⟨rfl, rfl⟩ := h
      refine ⟨(List.takeWhile_append_dropWhile ..).symm, digits_take hd, fun h0 => ?_⟩
      cases s with
      | nil => exact absurd rfl hd
      | cons c s =>
        cases hc : c.isDigit with
        | false => simp [hc] at hd
        | true =>
          simp only [List.takeWhile_cons, hc, if_true, List.head?_cons, Option.some.injEq] at h0
          exact absurd (by rw [h0]) (hne s)

theorem intPart_complete {ip r : Str} (h : IntPart ip) (hr : ∀ c, r.head? = some c → c.isDigit = false) : intPart (ip ++ r) = some (ip, r) := by
  obtain ⟨⟨h1, h2⟩, h3⟩ := h
  obtain ⟨t1, t2⟩ := takeWhile_digits h2 hr
  cases ip with
  | nil => exact absurd rfl h1
  | cons c ip =>
    unfold intPart
    split
    · rename_i s heq
      simp only [List.cons_append, List.cons.injEq] at heq
      obtain ⟨rfl, rfl⟩ := heq
      have := h3 rfl
      simp only [List.cons.injEq, true_and] at this
      subst this
      rfl
    · rw [t1, t2, if_neg h1]

theorem fracPart_sound {s fp r : Str} (h : fracPart s = some (fp, r)) : ∃ ft, s = ft ++ r ∧ FracPart ft fp := by
  unfold fracPart at h
  split at h
  · rename_i t
    split at h
    · cases h
    · rename_i hd
      simp only [Option.some.injEq, Prod.mk.injEq] at h
      obtain ⟨rfl, rfl⟩ := h
      exact ⟨'.' :: t.takeWhile Char.isDigit, by rw [List.cons_append, List.takeWhile_append_dropWhile], .some (digits_take hd)⟩
  · simp only [Option.some.injEq, Prod.mk.injEq] at h
    obtain ⟨rfl, rfl⟩ := h
    exact ⟨[], rfl, .none⟩

theorem fracPart_complete {ft fp r : Str} (h : FracPart ft fp) (hr : ∀ c, r.head? = some c → c.isDigit = false ∧ c ≠ '.') : fracPart (ft ++ r) = some (fp, r) := by
  cases h with
  | none =>
    unfold fracPart
    split
    · rename_i t heq
      exact absurd rfl (hr '.' (by rw [← List.nil_append r, heq]; rfl)).2
    · rfl
  | some hd =>
    obtain ⟨t1, t2⟩ := takeWhile_digits hd.2 fun c hc => (hr c hc).1
    rw [List.cons_append, fracPart, t1, t2, if_neg hd.1]

theorem expDigits_sound {k e : Int} {s r : Str} (h : expDigits k s = some (e, r)) : ∃ ds, s = ds ++ r ∧ Digits ds ∧ e = k * (natVal ds : Int) := by
  unfold expDigits at h
  split at h
  · cases h
  · rename_i hd
    simp only [Option.some.injEq, Prod.mk.injEq] at h
    obtain ⟨rfl, rfl⟩ := h
    exact ⟨_, (List.takeWhile_append_dropWhile ..).symm, digits_take hd, rfl⟩

theorem expDigits_complete {k : Int} {ds r : Str} (h : Digits ds) (hr : ∀ c, r.head? = some c → c.isDigit = false) : expDigits k (ds ++ r) = some (k * (natVal ds : Int), r) := by
  obtain ⟨t1, t2⟩ := takeWhile_digits h.2 hr
  rw [expDigits, t1, t2, if_neg h.1]

theorem expPart_sound {s r : Str} {e : Int} (h : expPart s = some (e, r)) : ∃ et, s = et ++ r ∧ ExpPart et e := by
  unfold expPart at h
  split at h
  · rename_i c t
    split at h
    · rename_i hc
      split at h
      · obtain ⟨ds, rfl, h2, rfl⟩ := expDigits_sound h
        exact ⟨c :: '+' :: ds, rfl, Int.one_mul _ ▸ .plus hc h2⟩
      · obtain ⟨ds, rfl, h2, rfl⟩ := expDigits_sound h
        exact ⟨c :: '-' :: ds, rfl, by rw [Int.neg_mul, Int.one_mul]; exact .minus hc h2⟩
      · obtain ⟨ds, rfl, h2, rfl⟩ := expDigits_sound h
        exact ⟨c :: ds, rfl, Int.one_mul _ ▸ .unsigned hc h2⟩
    · simp only [Option.some.injEq, Prod.mk.injEq] at h
      obtain ⟨rfl, rfl⟩ := h
      exact ⟨[], rfl, .none⟩
  · simp only [Option.some.injEq, Prod.mk.injEq] at h
    obtain ⟨rfl, rfl⟩ := h
    exact ⟨[], rfl, .none⟩

theorem expPart_complete {et r : Str} {e : Int} (h : ExpPart et e) (hr : ∀ c, r.head? = some c → c.isDigit = false ∧ c ≠ 'e' ∧ c ≠ 'E') : expPart (et ++ r) = some (e, r) := by
  have hr' : ∀ c, r.head? = some c → c.isDigit = false := fun c hc => (hr c hc).1
  cases h with
  | none =>
    cases r with
    | nil => rfl
    | cons c r =>
      have := (hr c rfl).2
      unfold expPart
      dsimp only [List.nil_append]
      rw [if_neg (fun h => h.elim this.1 this.2)]
  | unsigned hc hd =>
    rename_i c ds
    have hds : ∀ t d, ds ++ r = d :: t → d.isDigit = true := by
      intro t d heq
      obtain ⟨d', ds', rfl⟩ := List.exists_cons_of_ne_nil hd.1
      simp only [List.cons_append, List.cons.injEq] at heq
      rw [← heq.1]
      exact hd.2 d' (List.mem_cons_self ..)
    unfold expPart
    dsimp only [List.cons_append]
    rw [if_pos hc]
    split
    · rename_i t heq
      exact absurd (hds _ _ heq) (by decide)
    · rename_i t heq
      exact absurd (hds _ _ heq) (by decide)
    · rw [expDigits_complete hd hr', Int.one_mul]
  | plus hc hd =>
    unfold expPart
    dsimp only [List.cons_append]
    rw [if_pos hc]
    exact (expDigits_complete hd hr').trans (by rw [Int.one_mul])
  | minus hc hd =>
    unfold expPart
    dsimp only [List.cons_append]
    rw [if_pos hc]
    exact (expDigits_complete hd hr').trans (by rw [Int.neg_mul, Int.one_mul])

theorem unsigned_sound {neg : Bool} {s r : Str} {q : Rat} (h : unsigned neg s = some (q, r)) :
    ∃ ip ft fp et e, s = ip ++ ft ++ et ++ r ∧ IntPart ip ∧ FracPart ft fp ∧ ExpPart et e ∧ q = numVal neg ip fp e := by
  unfold unsigned at h
  split at h
  · cases h
  · rename_i ip s1 h1
    split at h
    · cases h
    · rename_i fp s2 h2
      split at h
      · cases h
      · rename_i e s3 h3
        simp only [Option.some.injEq, Prod.mk.injEq] at h
        obtain ⟨rfl, rfl⟩ := h
        obtain ⟨rfl, i⟩ := intPart_sound h1
        obtain ⟨ft, rfl, f⟩ := fracPart_sound h2
        obtain ⟨et, rfl, x⟩ := expPart_sound h3
        exact ⟨ip, ft, fp, et, e, by simp only [List.append_assoc], i, f, x, rfl⟩

/-- What may follow a number. -/
def Follow (r : Str) : Prop := ∀ c, r.head? = some c → c.isDigit = false ∧ c ≠ '.' ∧ c ≠ 'e' ∧ c ≠ 'E'

theorem unsigned_complete {neg : Bool} {ip ft fp et r : Str} {e : Int} (i : IntPart ip) (f : FracPart ft fp) (x : ExpPart et e) (hr : Follow r) :
    unsigned neg (ip ++ ft ++ et ++ r) = some (numVal neg ip fp e, r) := by
  have hx : ∀ c, (et ++ r).head? = some c → c.isDigit = false ∧ c ≠ '.' := by
    intro c hc
    cases x with
    | none => exact ⟨(hr c hc).1, (hr c hc).2.1⟩
    | unsigned h _ | plus h _ | minus h _ =>
      simp only [List.cons_append, List.head?_cons, Option.some.injEq] at hc
      subst hc
      rcases h with rfl | rfl <;> decide
  have hf : ∀ c, (ft ++ (et ++ r)).head? = some c → c.isDigit = false := by
    intro c hc
    cases f with
    | none => exact (hx c hc).1
    | some _ =>
      simp only [List.cons_append, List.head?_cons, Option.some.injEq] at hc
      subst hc
      decide
  unfold unsigned
  rw [List.append_assoc, List.append_assoc, intPart_complete i hf]
  dsimp only
  rw [fracPart_complete f hx]
  dsimp only
  rw [expPart_complete x fun c hc => ⟨(hr c hc).1, (hr c hc).2.2⟩]

theorem number_sound {s r : Str} {q : Rat} (h : number s = some (q, r)) : ∃ x, s = x ++ r ∧ Num x q := by
  unfold number at h
  split at h
  · obtain ⟨ip, ft, fp, et, e, rfl, i, f, x, rfl⟩ := unsigned_sound h
    exact ⟨['-'] ++ ip ++ ft ++ et, by simp, Num.mk (neg := true) i f x⟩
  · obtain ⟨ip, ft, fp, et, e, rfl, i, f, x, rfl⟩ := unsigned_sound h
    exact ⟨[] ++ ip ++ ft ++ et, by simp, Num.mk (neg := false) i f x⟩

theorem num_head {s : Str} {q : Rat} (h : Num s q) : ∃ c r, s = c :: r ∧ (c = '-' ∨ c.isDigit = true) := by
  cases h with
  | mk i f x =>
    rename_i neg ip ft fp et e
    cases neg with
    | true => exact ⟨'-', ip ++ ft ++ et, by simp, Or.inl rfl⟩
    | false =>
      obtain ⟨c, t, rfl⟩ := List.exists_cons_of_ne_nil i.1.1
      exact ⟨c, t ++ ft ++ et, by simp, Or.inr (i.1.2 c (List.mem_cons_self ..))⟩

theorem number_complete {s r : Str} {q : Rat} (h : Num s q) (hr : Follow r) : number (s ++ r) = some (q, r) := by
  cases h with
  | mk i f x =>
    rename_i neg ip ft fp et e
    have := unsigned_complete (neg := neg) i f x hr
    cases neg with
    | true =>
      simp only [if_true, List.cons_append, List.nil_append] at this ⊢
      rw [number]
      exact this
    | false =>
      obtain ⟨c, t, rfl⟩ := List.exists_cons_of_ne_nil i.1.1
      simp only [Bool.false_eq_true, if_false, List.nil_append] at this ⊢
      unfold number
      split
      · rename_i u heq
        simp only [List.cons_append, List.cons.injEq] at heq
        have := i.1.2 c (List.mem_cons_self ..)
        rw [heq.1] at this
        exact absurd this (by decide)
      · exact this

/-! ## Strings -/

theorem getu4_some {s r : Str} {x : Nat} : getu4 s = some (x, r) ↔ ∃ a b c d, s = '\\' :: 'u' :: a :: b :: c :: d :: r ∧ hex4 a b c d = some x := by
  constructor
  · intro h
    unfold getu4 at h
    split at h
    · rename_i a b c d r'
      cases hx : hex4 a b c d with
      | none => rw [hx] at h; cases h
      | some y =>
        rw [hx] at h
        simp only [Option.map_some, Option.some.injEq, Prod.mk.injEq] at h
        obtain ⟨rfl, rfl⟩ := h
        exact ⟨a, b, c, d, rfl, hx⟩
    · cases h
  · rintro ⟨a, b, c, d, rfl, h⟩
    rw [getu4, h]
    rfl

theorem lowNext_iff {s : Str} : LowNext s ↔ ∃ x r, getu4 s = some (x, r) ∧ Low x := by
  constructor
  · rintro ⟨a, b, c, d, r, n, rfl, h, hl⟩
    exact ⟨n, r, getu4_some.2 ⟨a, b, c, d, rfl, h⟩, hl⟩
  · rintro ⟨x, r, h, hl⟩
    obtain ⟨a, b, c, d, rfl, h'⟩ := getu4_some.1 h
    exact ⟨a, b, c, d, r, x, rfl, h', hl⟩

theorem lowNext_append {s : Str} (h : LowNext s) (r : Str) : LowNext (s ++ r) := by
  obtain ⟨a, b, c, d, r', n, rfl, h, hl⟩ := h
  exact ⟨a, b, c, d, r' ++ r, n, rfl, h, hl⟩

theorem hexDigit_quote : hexDigit '"' = none := by decide +kernel

theorem hex4_quote {a b c d : Char} {n : Nat} (h : hex4 a b c d = some n) : a ≠ '"' ∧ b ≠ '"' ∧ c ≠ '"' ∧ d ≠ '"' := by
  unfold hex4 at h
  split at h
  · rename_i h1 h2 h3 h4
    refine ⟨?_, ?_, ?_, ?_⟩ <;> (rintro rfl; rw [hexDigit_quote] at *; contradiction)
  · cases h

theorem lowNext_of_append {s r : Str} (h : LowNext (s ++ '"' :: r)) : LowNext s := by
  obtain ⟨a, b, c, d, r', n, heq, h, hl⟩ := h
  obtain ⟨h1, h2, h3, h4⟩ := hex4_quote h
  match s, heq with
  | [], heq => simp at heq
  | [_], heq => simp at heq
  | [_, _], heq => simp only [List.cons_append, List.nil_append, List.cons.injEq] at heq; exact absurd heq.2.2.1.symm h1
  | [_, _, _], heq => simp only [List.cons_append, List.nil_append, List.cons.injEq] at heq; exact absurd heq.2.2.2.1.symm h2
  | [_, _, _, _], heq => simp only [List.cons_append, List.nil_append, List.cons.injEq] at heq; exact absurd heq.2.2.2.2.1.symm h3
  | [_, _, _, _, _], heq => simp only [List.cons_append, List.nil_append, List.cons.injEq] at heq; exact absurd heq.2.2.2.2.2.1.symm h4
  | x1 :: x2 :: x3 :: x4 :: x5 :: x6 :: s, heq =>
    simp only [List.cons_append, List.cons.injEq] at heq
    obtain ⟨rfl, rfl, rfl, rfl, rfl, rfl, -⟩ := heq
    exact ⟨_, _, _, _, s, n, rfl, h, hl⟩

theorem withChar_some {c : Char} {o : Option (Str × Str)} {t r : Str} (h : withChar c o = some (t, r)) : ∃ t', o = some (t', r) ∧ t = c :: t' := by
  unfold withChar at h
  split at h
  · cases h
  · simp only [Option.some.injEq, Prod.mk.injEq] at h
    obtain ⟨rfl, rfl⟩ := h
    exact ⟨_, rfl, rfl⟩

theorem chars_cons (n : Nat) (c : Char) (r : Str) : chars (n + 1) (c :: r) =
    if c = '"' then some ([], r)
    else if c = '\\' then
      match getu4 (c :: r) with
      | some (x, r) =>
        if 0xD800 ≤ x ∧ x < 0xE000 then
          match getu4 r with
          | some (y, r') =>
            if x < 0xDC00 ∧ 0xDC00 ≤ y ∧ y < 0xE000 then withChar (Char.ofNat (pairVal x y)) (chars n r')
            else withChar (Char.ofNat 0xFFFD) (chars n r)
          | none => withChar (Char.ofNat 0xFFFD) (chars n r)
        else withChar (Char.ofNat x) (chars n r)
      | none =>
        match r with
        | [] => none
        | e :: r =>
          match short e with
          | none => none
          | some c => withChar c (chars n r)
    else if c.toNat < 32 then none
    else withChar c (chars n r) := rfl

theorem chars_sound : ∀ {n : Nat} {s t r : Str}, chars n s = some (t, r) → ∃ x, s = x ++ '"' :: r ∧ Chars x t
  | 0, _, _, _, h => by cases h
  | _ + 1, [], _, _, h => by cases h
  | n + 1, c :: s, t, r, h => by
    rw [chars_cons] at h
    split at h
    · rename_i hc
      simp only [Option.some.injEq, Prod.mk.injEq] at h
      obtain ⟨rfl, rfl⟩ := h
      exact ⟨[], by rw [hc]; rfl, .nil⟩
    · rename_i hq
      split at h
      · rename_i hb
        subst hb
        split at h
        · rename_i x s' h4
          obtain ⟨a, b, c, d, heq, hx⟩ := getu4_some.1 h4
          rw [heq]
          have key : ∀ {u : Char}, withChar u (chars n s') = some (t, r) →
              (∀ x' t', Chars x' t' → s' = x' ++ '"' :: r → Chars ('\\' :: 'u' :: a :: b :: c :: d :: x') (u :: t')) →
              ∃ x, '\\' :: 'u' :: a :: b :: c :: d :: s' = x ++ '"' :: r ∧ Chars x t := by
            intro u hw hk
            obtain ⟨t', h', rfl⟩ := withChar_some hw
            obtain ⟨x', rfl, hx'⟩ := chars_sound h'
            exact ⟨'\\' :: 'u' :: a :: b :: c :: d :: x', rfl, hk x' t' hx' rfl⟩
          split at h
          · rename_i hsur
            split at h
            · rename_i y s'' h4'
              split at h
              · rename_i hpair
                obtain ⟨a', b', c', d', rfl, hy⟩ := getu4_some.1 h4'
                obtain ⟨t', h', rfl⟩ := withChar_some h
                obtain ⟨x', rfl, hx'⟩ := chars_sound h'
                exact ⟨'\\' :: 'u' :: a :: b :: c :: d :: '\\' :: 'u' :: a' :: b' :: c' :: d' :: x', rfl, .pair hx ⟨hsur.1, hpair.1⟩ hy hpair.2 hx'⟩
              · rename_i hpair
                refine key h fun x' t' hc' hs' => .half hx ?_ hc'
                by_cases hh : x < 0xDC00
                · refine Or.inl ⟨⟨hsur.1, hh⟩, fun hl => hpair ⟨hh, ?_⟩⟩
                  obtain ⟨y', r', e1, e2⟩ := lowNext_iff.1 (lowNext_append hl ('"' :: r))
                  rw [← hs', h4'] at e1
                  simp only [Option.some.injEq, Prod.mk.injEq] at e1
                  rw [e1.1]; exact e2
                · exact Or.inr ⟨by omega, hsur.2⟩
            · rename_i h4'
              refine key h fun x' t' hc' hs' => .half hx ?_ hc'
              by_cases hh : x < 0xDC00
              · refine Or.inl ⟨⟨hsur.1, hh⟩, fun hl => ?_⟩
                obtain ⟨y', r', e1, e2⟩ := lowNext_iff.1 (lowNext_append hl ('"' :: r))
                rw [← hs', h4'] at e1
                cases e1
              · exact Or.inr ⟨by omega, hsur.2⟩
          · rename_i hsur
            exact key h fun x' t' hc' _ => .unicode hx (fun hh => hsur ⟨hh.1, by have := hh.2; omega⟩) (fun hl => hsur ⟨by have := hl.1; omega, hl.2⟩) hc'
        · split at h
          · cases h
          · skip
            split at h
            · cases h
            · rename_i u hu
              obtain ⟨t', h', rfl⟩ := withChar_some h
              obtain ⟨x', rfl, hx'⟩ := chars_sound h'
              exact ⟨'\\' :: _ :: x', rfl, .short hu hx'⟩
      · rename_i hb
        split at h
        · cases h
        · rename_i h32
          obtain ⟨t', h', rfl⟩ := withChar_some h
          obtain ⟨x', rfl, hx'⟩ := chars_sound h'
          exact ⟨c :: x', rfl, .plain (by omega) hq hb hx'⟩

theorem short_u : short 'u' = none := by decide +kernel

theorem chars_complete {x t : Str} (h : Chars x t) : ∀ {n : Nat} (r : Str), x.length < n → chars n (x ++ '"' :: r) = some (t, r) := by
  induction h with
  | nil =>
    intro n r hn
    cases n with
    | zero => simp at hn
    | succ n => rw [List.nil_append, chars_cons, if_pos rfl]
  | plain h32 hq hb _ ih =>
    intro n r hn
    cases n with
    | zero => simp at hn
    | succ n =>
      rw [List.cons_append, chars_cons, if_neg hq, if_neg hb, if_neg (by omega), ih r (by simp at hn; omega)]
      rfl
  | short he _ ih =>
    rename_i e c s t _
    intro n r hn
    cases n with
    | zero => simp at hn
    | succ n =>
      have h0 : getu4 ('\\' :: e :: (s ++ '"' :: r)) = none := by
        cases h : getu4 ('\\' :: e :: (s ++ '"' :: r)) with
        | none => rfl
        | some p =>
          obtain ⟨a, b, c, d, heq, -⟩ := getu4_some.1 (show _ = some (p.1, p.2) from h)
          simp only [List.cons.injEq] at heq
          rw [heq.2.1, short_u] at he
          cases he
      rw [List.cons_append, List.cons_append, chars_cons, if_neg (by decide), if_pos rfl, h0]
      dsimp only
      rw [he]
      dsimp only
      rw [ih r (by simp at hn; omega)]
      rfl
  | unicode hx hh hl _ ih =>
    intro n r hn
    cases n with
    | zero => simp at hn
    | succ n =>
      simp only [List.cons_append]
      rw [chars_cons, if_neg (by decide), if_pos rfl]
      rw [getu4_some.2 ⟨_, _, _, _, rfl, hx⟩]
      dsimp only
      rw [if_neg (by unfold High at hh; unfold Low at hl; omega)]
      rw [ih r (by simp at hn; omega)]
      rfl
  | pair hx hh hy hl _ ih =>
    intro n r hn
    cases n with
    | zero => simp at hn
    | succ n =>
      simp only [List.cons_append]
      rw [chars_cons, if_neg (by decide), if_pos rfl]
      rw [getu4_some.2 ⟨_, _, _, _, rfl, hx⟩]
      dsimp only
      rw [if_pos (by unfold High at hh; omega), getu4_some.2 ⟨_, _, _, _, rfl, hy⟩]
      dsimp only
      rw [if_pos ⟨hh.2, hl⟩]
      rw [ih r (by simp at hn; omega)]
      rfl
  | half hx hh _ ih =>
    intro n r hn
    cases n with
    | zero => simp at hn
    | succ n =>
      simp only [List.cons_append]
      rw [chars_cons, if_neg (by decide), if_pos rfl]
      rw [getu4_some.2 ⟨_, _, _, _, rfl, hx⟩]
      dsimp only
      rw [if_pos (by unfold High Low at hh; omega)]
      rename_i s t _
      cases hg : getu4 (s ++ '"' :: r) with
      | none =>
        dsimp only
        rw [ih r (by simp at hn; omega)]
        rfl
      | some p =>
        dsimp only
        rw [if_neg, ih r (by simp at hn; omega)]
        · rfl
        · rintro ⟨h1, h2⟩
          rcases hh with ⟨-, hh⟩ | hh
          · exact hh (lowNext_of_append (lowNext_iff.2 ⟨p.1, p.2, hg, h2⟩))
          · unfold Low at hh; omega

end Verif.Json
