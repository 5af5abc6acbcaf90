import Verif.Webhook.Spec
import Verif.Rbac.Lemmas
/-! # Helper lemmas for the webhook theorems -/
namespace Verif.Webhook
open GoStr Spec

/-! ## Case folding -/

theorem char_eq_iff {c d : Char} : c = d ↔ c.toNat = d.toNat :=
  ⟨fun h => by rw [h], fun h => Char.ext (UInt32.toNat_inj.1 h)⟩

theorem isUpper_iff {c : Char} : c.isUpper = true ↔ 65 ≤ c.toNat ∧ c.toNat ≤ 90 := by
  simp only [Char.isUpper, Bool.and_eq_true, decide_eq_true_eq]
  exact Iff.rfl

theorem toNat_ofNat_small {n : Nat} (h : n < 200) : (Char.ofNat n).toNat = n := by
  unfold Char.ofNat
  rw [dif_pos (by left; omega)]
  simp [Char.toNat, Char.ofNatAux]

theorem lowerChar_toNat (c : Char) : (lowerChar c).toNat =
    if 65 ≤ c.toNat ∧ c.toNat ≤ 90 then c.toNat + 32
    else if c.toNat = 0x130 then 105 else if c.toNat = 0x212A then 107 else c.toNat := by
  unfold lowerChar
  have h1 : ('A' ≤ c ∧ c ≤ 'Z') ↔ (65 ≤ c.toNat ∧ c.toNat ≤ 90) := Iff.rfl
  have h2 : c = '\u0130' ↔ c.toNat = 0x130 := char_eq_iff
  have h3 : c = '\u212a' ↔ c.toNat = 0x212A := char_eq_iff
  by_cases a : 65 ≤ c.toNat ∧ c.toNat ≤ 90
  · rw [if_pos (h1.2 a), if_pos a, toNat_ofNat_small (by omega)]
  · rw [if_neg (fun h => a (h1.1 h)), if_neg a]
    by_cases b : c.toNat = 0x130
    · rw [if_pos (h2.2 b), if_pos b]; rfl
    · rw [if_neg (fun h => b (h2.1 h)), if_neg b]
      by_cases d : c.toNat = 0x212A
      · rw [if_pos (h3.2 d), if_pos d]; rfl
      · rw [if_neg (fun h => d (h3.1 h)), if_neg d]

theorem lower_iff {c d : Char} (hd : d.toNat < 128) : lowerChar c = lowerChar d ↔ SameLetter c d := by
  rw [char_eq_iff, lowerChar_toNat, lowerChar_toNat]
  unfold SameLetter
  simp only [isUpper_iff, char_eq_iff]
  have e1 : ('\u0130' : Char).toNat = 304 := rfl
  have e2 : ('\u212a' : Char).toNat = 8490 := rfl
  have e3 : ('i' : Char).toNat = 105 := rfl
  have e4 : ('I' : Char).toNat = 73 := rfl
  have e5 : ('k' : Char).toNat = 107 := rfl
  have e6 : ('K' : Char).toNat = 75 := rfl
  rw [e1, e2, e3, e4, e5, e6]
  generalize c.toNat = a at *
  generalize d.toNat = b at *
  constructor
  · intro h
    (repeat' split at h) <;> omega
  · intro h
    repeat' split
    all_goals omega

theorem map_eq_iff_all2 {l m : List Char} (hm : ∀ d ∈ m, d.toNat < 128) :
    l.map lowerChar = m.map lowerChar ↔ All2 SameLetter l m := by
  induction l generalizing m with
  | nil =>
    cases m with
    | nil => exact ⟨fun _ => .nil, fun _ => rfl⟩
    | cons d m => exact ⟨fun h => (by cases h), fun h => (by cases h)⟩
  | cons c l ih =>
    cases m with
    | nil => exact ⟨fun h => (by cases h), fun h => (by cases h)⟩
    | cons d m =>
      simp only [List.map_cons, List.cons.injEq]
      rw [ih (fun d hd => hm d (List.mem_cons_of_mem _ hd)), lower_iff (hm d (List.mem_cons_self ..))]
      constructor
      · rintro ⟨h1, h2⟩; exact .cons h1 h2
      · intro h; cases h with | cons h1 h2 => exact ⟨h1, h2⟩

/-- An ASCII constant. -/
def Ascii (k : String) : Prop := ∀ d ∈ k.toList, d.toNat < 128

instance (k : String) : Decidable (Ascii k) := by unfold Ascii; infer_instance

theorem toLower_eq_iff {s k : String} (hk : Ascii k) : toLower s = toLower k ↔ EqFold s k := by
  unfold toLower EqFold
  rw [String.ofList_inj]
  exact map_eq_iff_all2 hk

theorem toLower_eq_empty {s : String} : toLower s = "" ↔ s = "" := by
  unfold toLower
  rw [← String.toList_inj, String.toList_ofList]
  constructor
  · intro h
    apply String.toList_inj.1
    cases hs : s.toList with
    | nil => rfl
    | cons a l => rw [hs] at h; cases h
  · rintro rfl; rfl

/-! ## Individual fields -/

theorem verb_translate (v : String) :
    Translate ["CREATE", "UPDATE", "DELETE", "CONNECT", "*"] v (verbToAPIVariant v) := by
  unfold verbToAPIVariant
  simp only [toLower_eq_iff (s := v) (k := "CREATE") (by decide), toLower_eq_iff (s := v) (k := "UPDATE") (by decide),
    toLower_eq_iff (s := v) (k := "DELETE") (by decide), toLower_eq_iff (s := v) (k := "CONNECT") (by decide),
    toLower_eq_iff (s := v) (k := "*") (by decide)]
  repeat' split
  · exact .inl ⟨_, by simp, by assumption, rfl⟩
  · exact .inl ⟨_, by simp, by assumption, rfl⟩
  · exact .inl ⟨_, by simp, by assumption, rfl⟩
  · exact .inl ⟨_, by simp, by assumption, rfl⟩
  · exact .inl ⟨_, by simp, by assumption, rfl⟩
  · refine .inr ⟨?_, rfl⟩
    simp only [List.mem_cons, List.not_mem_nil, or_false]
    rintro k (rfl | rfl | rfl | rfl | rfl) <;> assumption

theorem failurePolicy_translate (c : Config) :
    ∃ f, c.failurePolicyOut = some f ∧ Translate ["Ignore", "Fail"] c.failurePolicy f := by
  refine ⟨_, rfl, ?_⟩
  simp only [toLower_eq_iff (k := "Ignore") (by decide), toLower_eq_iff (k := "Fail") (by decide)]
  repeat' split
  · exact .inl ⟨_, by simp, by assumption, rfl⟩
  · exact .inl ⟨_, by simp, by assumption, rfl⟩
  · refine .inr ⟨?_, rfl⟩
    simp only [List.mem_cons, List.not_mem_nil, or_false]
    rintro k (rfl | rfl) <;> assumption

theorem reinvocation_known (c : Config) :
    Known ["Never", "IfNeeded"] c.reinvocationPolicy c.reinvocationPolicyOut := by
  unfold Config.reinvocationPolicyOut
  simp only [toLower_eq_iff (k := "Never") (by decide), toLower_eq_iff (k := "IfNeeded") (by decide)]
  repeat' split
  · exact .inl ⟨_, by simp, by assumption, rfl⟩
  · exact .inl ⟨_, by simp, by assumption, rfl⟩
  · refine .inr ⟨?_, rfl⟩
    simp only [List.mem_cons, List.not_mem_nil, or_false]
    rintro k (rfl | rfl) <;> assumption

theorem matchPolicy_ok {c : Config} {mp : Option String} (h : c.matchPolicyOut = .ok mp) :
    (c.matchPolicy = "" ∧ mp = none) ∨
    ∃ k, (k = "Exact" ∨ k = "Equivalent") ∧ EqFold c.matchPolicy k ∧ mp = some k := by
  unfold Config.matchPolicyOut at h
  simp only [toLower_eq_iff (k := "Exact") (by decide), toLower_eq_iff (k := "Equivalent") (by decide),
    toLower_eq_empty] at h
  repeat' split at h
  · cases h; exact .inr ⟨_, .inl rfl, by assumption, rfl⟩
  · cases h; exact .inr ⟨_, .inr rfl, by assumption, rfl⟩
  · cases h; exact .inl ⟨by assumption, rfl⟩
  · cases h

theorem matchPolicy_isOk {c : Config} :
    (∃ mp, c.matchPolicyOut = .ok mp) ↔
    (c.matchPolicy = "" ∨ EqFold c.matchPolicy "Exact" ∨ EqFold c.matchPolicy "Equivalent") := by
  unfold Config.matchPolicyOut
  simp only [toLower_eq_iff (k := "Exact") (by decide), toLower_eq_iff (k := "Equivalent") (by decide),
    toLower_eq_empty]
  by_cases h1 : EqFold c.matchPolicy "Exact"
  · simp [h1]
  · by_cases h2 : EqFold c.matchPolicy "Equivalent"
    · simp [h1, h2]
    · simp only [if_neg h1, if_neg h2, h1, h2, or_false]
      by_cases h3 : c.matchPolicy = "" <;> simp [h3]

theorem clientConfig_ok {c : Config} {cc : ClientConfig} (h : c.clientConfig = .ok cc) : ClientOK c cc := by
  unfold Config.clientConfig at h
  by_cases hp : c.path = "" <;> by_cases hu : c.url = "" <;> simp [hp, hu] at h
  · subst h; exact .inl ⟨hp, hu, rfl, rfl⟩
  · subst h
    refine .inr ⟨hp, hu, rfl, ?_⟩
    simp only [orDefault]

theorem clientConfig_isOk {c : Config} : (∃ cc, c.clientConfig = .ok cc) ↔ PathXorURL c := by
  unfold Config.clientConfig PathXorURL
  by_cases hp : c.path = "" <;> by_cases hu : c.url = "" <;> simp [hp, hu]

theorem sideEffects_check {c : Config} :
    checkSideEffects c.sideEffectsOut = .ok () ↔
      ∃ k, (k = "None" ∨ k = "NoneOnDryRun") ∧ EqFold c.sideEffects k ∧ c.sideEffectsOut = some k := by
  unfold Config.sideEffectsOut
  simp only [toLower_eq_iff (k := "None") (by decide), toLower_eq_iff (k := "NoneOnDryRun") (by decide),
    toLower_eq_iff (k := "Some") (by decide)]
  by_cases h1 : EqFold c.sideEffects "None"
  · simp [h1, checkSideEffects]
  · by_cases h2 : EqFold c.sideEffects "NoneOnDryRun"
    · simp [h1, h2, checkSideEffects]
    · by_cases h3 : EqFold c.sideEffects "Some" <;> simp [h1, h2, h3, checkSideEffects] <;>
        rintro k (rfl | rfl) hk <;> simp_all

theorem sideEffects_isOk {c : Config} :
    checkSideEffects c.sideEffectsOut = .ok () ↔
      (EqFold c.sideEffects "None" ∨ EqFold c.sideEffects "NoneOnDryRun") := by
  rw [sideEffects_check]
  constructor
  · rintro ⟨k, rfl | rfl, h, _⟩
    · exact .inl h
    · exact .inr h
  · intro h
    unfold Config.sideEffectsOut
    simp only [toLower_eq_iff (k := "None") (by decide), toLower_eq_iff (k := "NoneOnDryRun") (by decide)]
    by_cases h1 : EqFold c.sideEffects "None"
    · exact ⟨_, .inl rfl, h1, by simp [h1]⟩
    · have h2 := h.resolve_left h1
      exact ⟨_, .inr rfl, h2, by simp [h1, h2]⟩

theorem toInt32_dvd (x : Int) : (2 ^ 32 : Int) ∣ x - toInt32 x := by
  have h := Int.dvd_self_sub_bmod (x := x) (m := 2 ^ 32)
  simpa [toInt32] using h

theorem toInt32_range (x : Int) : -2 ^ 31 ≤ toInt32 x ∧ toInt32 x < 2 ^ 31 := by
  unfold toInt32
  constructor
  · have := Int.le_bmod (x := x) (m := 2 ^ 32) (by decide)
    simpa using this
  · have := Int.bmod_lt (x := x) (m := 2 ^ 32) (by decide)
    have e : (((2 ^ 32 : Nat) : Int) + 1) / 2 = 2 ^ 31 := by decide
    rw [e] at this
    exact this

theorem toInt32_eq {x t : Int} (ht : -2 ^ 31 ≤ t ∧ t < 2 ^ 31) (h : (2 ^ 32 : Int) ∣ x - t) : toInt32 x = t := by
  have h1 := toInt32_dvd x
  have h2 := toInt32_range x
  omega

theorem timeout_check {c : Config} : checkTimeout c.timeoutSecondsOut = .ok () ↔
    ((c.timeoutSeconds = 0 ∧ c.timeoutSecondsOut = none) ∨
    ∃ t, c.timeoutSecondsOut = some t ∧ 1 ≤ t ∧ t ≤ 30 ∧ (2 ^ 32 : Int) ∣ c.timeoutSeconds - t) := by
  unfold Config.timeoutSecondsOut
  by_cases h : c.timeoutSeconds = 0
  · simp [h, checkTimeout]
  · simp only [ne_eq, h, not_false_eq_true, if_true, checkTimeout, false_and, false_or]
    constructor
    · intro hc
      split at hc
      · cases hc
      · exact ⟨_, rfl, by omega, by omega, toInt32_dvd _⟩
    · rintro ⟨t, he, h1, h2, -⟩
      cases he
      rw [if_neg (by omega)]

theorem timeout_isOk {c : Config} : checkTimeout c.timeoutSecondsOut = .ok () ↔
    (c.timeoutSeconds = 0 ∨ ∃ t, 1 ≤ t ∧ t ≤ 30 ∧ (2 ^ 32 : Int) ∣ c.timeoutSeconds - t) := by
  rw [timeout_check]
  constructor
  · rintro (⟨h, _⟩ | ⟨t, _, h1, h2, h3⟩)
    · exact .inl h
    · exact .inr ⟨t, h1, h2, h3⟩
  · rintro (h | ⟨t, h1, h2, h3⟩)
    · exact .inl ⟨h, by simp [Config.timeoutSecondsOut, h]⟩
    · have he := toInt32_eq (by omega) h3
      right
      refine ⟨t, ?_, h1, h2, h3⟩
      unfold Config.timeoutSecondsOut
      rw [if_pos, he]
      intro h0
      rw [h0] at he
      have : toInt32 0 = 0 := by decide
      omega

/-! ## One marker -/

/-- The conversion used for a marker (parser.go:496-513). -/
def emit (c : Config) : Except Err Webhook :=
  if c.mutating then c.toMutatingWebhook else c.toValidatingWebhook

theorem emit_ok {c : Config} {w : Webhook} : emit c = .ok w ↔
    ∃ mp cc, c.matchPolicyOut = .ok mp ∧ c.clientConfig = .ok cc ∧
      w = { name := c.name, rules := c.rules, failurePolicy := c.failurePolicyOut, matchPolicy := mp,
            clientConfig := cc, sideEffects := c.sideEffectsOut, timeoutSeconds := c.timeoutSecondsOut,
            admissionReviewVersions := c.admissionReviewVersions,
            reinvocationPolicy := if c.mutating then c.reinvocationPolicyOut else none } := by
  unfold emit Config.toMutatingWebhook Config.toValidatingWebhook
  cases hm : c.matchPolicyOut <;> cases hcc : c.clientConfig <;> by_cases hmut : c.mutating <;>
    simp [hmut] <;> exact eq_comm

theorem emitted_of_ok {c : Config} {w : Webhook} (h : emit c = .ok w) (hc : checkWebhook w = .ok ()) :
    Emitted c w := by
  obtain ⟨mp, cc, hmp, hcc, rfl⟩ := emit_ok.1 h
  unfold checkWebhook at hc
  simp only at hc
  split at hc
  · cases hc
  · rename_i hse
    split at hc
    · cases hc
    · rename_i hto
      split at hc
      · cases hc
      · rename_i hne
        refine ⟨rfl, clientConfig_ok hcc, ⟨sideEffects_check.1 hse, timeout_check.1 hto, rfl, hne⟩, ?_⟩
        refine ⟨⟨_, rfl, rfl, rfl, All2.map_right (fun _ _ => rfl), All2.map_right (fun v _ => verb_translate v)⟩,
          failurePolicy_translate c, matchPolicy_ok hmp, ?_⟩
        by_cases hm : c.mutating = true
        · simp only [hm, if_true]; exact reinvocation_known c
        · simp [hm]

theorem acceptable_iff {c : Config} : Acceptable c ↔
    (∀ v ∈ c.webhookVersions, v = "v1") ∧ ∃ w, emit c = .ok w ∧ checkWebhook w = .ok () := by
  constructor
  · rintro ⟨h1, h2, h3, h4, h5, h6⟩
    obtain ⟨mp, hmp⟩ := matchPolicy_isOk.2 h3
    obtain ⟨cc, hcc⟩ := clientConfig_isOk.2 h1
    refine ⟨h2, _, emit_ok.2 ⟨mp, cc, hmp, hcc, rfl⟩, ?_⟩
    simp only [checkWebhook, sideEffects_isOk.2 h4, timeout_isOk.2 h5, h6, if_false]
  · rintro ⟨hv, w, hw, hc⟩
    obtain ⟨mp, cc, hmp, hcc, rfl⟩ := emit_ok.1 hw
    unfold checkWebhook at hc
    simp only at hc
    split at hc
    · cases hc
    · rename_i hse
      split at hc
      · cases hc
      · rename_i hto
        split at hc
        · cases hc
        · rename_i hne
          exact ⟨clientConfig_isOk.1 ⟨_, hcc⟩, hv, matchPolicy_isOk.1 ⟨_, hmp⟩, sideEffects_isOk.1 hse,
            timeout_isOk.1 hto, hne⟩

/-! ## Versions -/

theorem eraseDups_v1 {l : List String} (h : ∀ v ∈ l, v = "v1") (hne : l ≠ []) : l.eraseDups = ["v1"] := by
  have hnd := nodup_eraseDups l
  have hm : ∀ v, v ∈ l.eraseDups ↔ v = "v1" := by
    intro v
    rw [List.mem_eraseDups]
    constructor
    · exact h v
    · rintro rfl
      obtain ⟨x, hx⟩ := List.exists_mem_of_ne_nil _ hne
      rw [← h x hx]; exact hx
  have := (List.perm_ext_iff_of_nodup hnd (l₂ := ["v1"]) (by simp)).2 (by simpa using hm)
  exact List.perm_singleton.1 this

theorem versions_ok {σ : Sched} {c : Config} {vs : List String} :
    c.webhookVersionsOut σ = .ok vs ↔ (∀ v ∈ c.webhookVersions, v = "v1") ∧ vs = ["v1"] := by
  unfold Config.webhookVersionsOut
  by_cases h : c.webhookVersions = []
  · simp [h, eq_comm]
  · simp only [h, if_false]
    split
    · rename_i v hv
      have hp := List.find?_some hv
      have hm := List.mem_of_find?_eq_some hv
      simp [supportedWebhookVersions] at hp
      constructor
      · intro h; cases h
      · rintro ⟨h, _⟩; exact absurd (h v hm) hp
    · rename_i hn
      rw [List.find?_eq_none] at hn
      have hall : ∀ v ∈ c.webhookVersions, v = "v1" := by
        intro v hv
        have := hn v hv
        simpa [supportedWebhookVersions] using this
      rw [eraseDups_v1 hall h]
      have : σ.order 0 ["v1"] = ["v1"] := List.perm_singleton.1 (σ.perm 0 ["v1"])
      rw [this]
      constructor
      · intro h; cases h; exact ⟨hall, rfl⟩
      · rintro ⟨_, rfl⟩; rfl

/-! ## The loops -/

/-- The only map that arises: everything under the key "v1". -/
def V (l : List Webhook) : List (String × List Webhook) := if l = [] then [] else [("v1", l)]

theorem addAll_V (w : Webhook) (l : List Webhook) : addAll ["v1"] w (V l) = V (l ++ [w]) := by
  unfold V addAll
  by_cases h : l = [] <;> simp [h, GoMap.appendAt]

theorem get_V (l : List Webhook) : GoMap.get (V l) "v1" = if l = [] then none else some l := by
  unfold V
  by_cases h : l = [] <;> simp [h, GoMap.get]

/-- Marker `c` is converted to `w`. -/
def Conv (c : Config) (w : Webhook) : Prop := (∀ v ∈ c.webhookVersions, v = "v1") ∧ emit c = .ok w

theorem cfgLoop_ok {σ : Sched} {cs : List Config} {ml vl : List Webhook} {mn vn : String} {st : St} :
    cfgLoop σ cs ⟨V ml, V vl, mn, vn⟩ = .ok st ↔
      ∃ mws vws, All2 Conv (cs.filter (·.mutating = true)) mws ∧ All2 Conv (cs.filter (·.mutating = false)) vws ∧
        st = ⟨V (ml ++ mws), V (vl ++ vws), mn, vn⟩ := by
  induction cs generalizing ml vl with
  | nil =>
    simp only [cfgLoop, List.filter_nil]
    constructor
    · intro h; cases h; exact ⟨[], [], .nil, .nil, by simp⟩
    · rintro ⟨mws, vws, h1, h2, rfl⟩
      cases h1; cases h2; simp
  | cons c cs ih =>
    unfold cfgLoop
    constructor
    · intro h
      cases hv : c.webhookVersionsOut σ with
      | error e => rw [hv] at h; cases h
      | ok vs =>
        rw [hv] at h
        obtain ⟨hvs, rfl⟩ := versions_ok.1 hv
        simp only at h
        by_cases hm : c.mutating = true
        · rw [if_pos hm] at h
          cases hw : c.toMutatingWebhook with
          | error e => rw [hw] at h; cases h
          | ok w =>
            rw [hw] at h
            simp only [addAll_V] at h
            obtain ⟨mws, vws, h1, h2, rfl⟩ := ih.1 h
            refine ⟨w :: mws, vws, ?_, ?_, by simp⟩
            · rw [List.filter_cons_of_pos (by simp [hm])]
              exact .cons ⟨hvs, by simp [emit, hm, hw]⟩ h1
            · rw [List.filter_cons_of_neg (by simp [hm])]
              exact h2
        · rw [if_neg hm] at h
          cases hw : c.toValidatingWebhook with
          | error e => rw [hw] at h; cases h
          | ok w =>
            rw [hw] at h
            simp only [addAll_V] at h
            obtain ⟨mws, vws, h1, h2, rfl⟩ := ih.1 h
            refine ⟨mws, w :: vws, ?_, ?_, by simp⟩
            · rw [List.filter_cons_of_neg (by simp [hm])]
              exact h1
            · rw [List.filter_cons_of_pos (by simp [hm])]
              exact .cons ⟨hvs, by simp [emit, hm, hw]⟩ h2
    · rintro ⟨mws, vws, h1, h2, rfl⟩
      by_cases hm : c.mutating = true
      · rw [List.filter_cons_of_pos (by simp [hm])] at h1
        rw [List.filter_cons_of_neg (by simp [hm])] at h2
        cases h1 with
        | cons hc h1 =>
          rename_i w mws
          rw [versions_ok.2 ⟨hc.1, rfl⟩]
          have hw : c.toMutatingWebhook = .ok w := by simpa [emit, hm] using hc.2
          simp only [hm, if_true, hw, addAll_V]
          exact ih.2 ⟨mws, vws, h1, h2, by simp⟩
      · rw [List.filter_cons_of_neg (by simp [hm])] at h1
        rw [List.filter_cons_of_pos (by simp [hm])] at h2
        cases h2 with
        | cons hc h2 =>
          rename_i w vws
          rw [versions_ok.2 ⟨hc.1, rfl⟩]
          have hw : c.toValidatingWebhook = .ok w := by simpa [emit, hm] using hc.2
          simp only [hm, if_false, hw, addAll_V, Bool.false_eq_true]
          exact ih.2 ⟨mws, vws, h1, h2, by simp⟩

/-- The name set by the last of `ws`, or `d`. -/
def lastName (ws : List WebhookConfig) (d : String) : String :=
  match ws.getLast? with
  | some w => w.name
  | none => d

theorem lastName_cons (w : WebhookConfig) (ws : List WebhookConfig) (d : String) :
    lastName (w :: ws) d = lastName ws w.name := by
  unfold lastName
  cases ws with
  | nil => rfl
  | cons a l =>
    rw [List.getLast?_cons_cons]
    cases h : (a :: l).getLast? with
    | none => rw [List.getLast?_eq_none_iff] at h; cases h
    | some x => rfl

theorem lastName_append (l l' : List WebhookConfig) (d : String) :
    lastName (l ++ l') d = lastName l' (lastName l d) := by
  induction l generalizing d with
  | nil => rfl
  | cons w l ih => rw [List.cons_append, lastName_cons, lastName_cons, ih]

theorem configLoop_ok {ws : List WebhookConfig} {hasV hasM : Bool} {st st' : St} :
    configLoop ws hasV hasM st = .ok st' ↔
      (ws.filter (·.mutating = true)).length + hasM.toNat ≤ 1 + (if ws.filter (·.mutating = true) = [] then 1 else 0) ∧
      (ws.filter (·.mutating = false)).length + hasV.toNat ≤ 1 + (if ws.filter (·.mutating = false) = [] then 1 else 0) ∧
      st' = { st with mutatingName := lastName (ws.filter (·.mutating = true)) st.mutatingName
                      validatingName := lastName (ws.filter (·.mutating = false)) st.validatingName } := by
  induction ws generalizing hasV hasM st with
  | nil =>
    have h1 : hasV.toNat ≤ 1 := Bool.toNat_le hasV
    have h2 : hasM.toNat ≤ 1 := Bool.toNat_le hasM
    simp only [configLoop, List.filter_nil, List.length_nil, if_true]
    constructor
    · intro h; cases h; exact ⟨by omega, by omega, rfl⟩
    · rintro ⟨_, _, rfl⟩; rfl
  | cons w ws ih =>
    unfold configLoop
    by_cases hm : w.mutating = true
    · simp only [hm, if_true]
      rw [List.filter_cons_of_pos (by simp [hm]), List.filter_cons_of_neg (by simp [hm])]
      cases hasM
      · simp only [Bool.false_eq_true, if_false, ih, lastName_cons]
        have : (List.filter (fun x => decide (x.mutating = true)) ws) = [] ↔
          (List.filter (fun x => decide (x.mutating = true)) ws).length = 0 := List.length_eq_zero_iff.symm
        simp only [List.length_cons, reduceCtorEq, if_false, Bool.toNat_true, Bool.toNat_false, this]
        refine and_congr ?_ Iff.rfl
        split <;> omega
      · simp only [if_true, List.length_cons, reduceCtorEq, if_false, Bool.toNat_true]
        exact ⟨fun h => (by cases h), fun h => by omega⟩
    · simp only [hm, Bool.false_eq_true, if_false]
      rw [List.filter_cons_of_neg (by simp [hm]), List.filter_cons_of_pos (by simp [hm])]
      cases hasV
      · simp only [Bool.false_eq_true, if_false, ih, lastName_cons]
        have : (List.filter (fun x => decide (x.mutating = false)) ws) = [] ↔
          (List.filter (fun x => decide (x.mutating = false)) ws).length = 0 := List.length_eq_zero_iff.symm
        simp only [List.length_cons, reduceCtorEq, if_false, Bool.toNat_true, Bool.toNat_false, this]
        refine and_congr Iff.rfl (and_congr ?_ Iff.rfl)
        split <;> omega
      · simp only [if_true, List.length_cons, reduceCtorEq, if_false, Bool.toNat_true]
        exact ⟨fun h => (by cases h), fun h => by omega⟩

theorem configLoop_start {ws : List WebhookConfig} {cfgs : List Config} {st st' : St} :
    configLoop ws false false st = .ok st' ↔ NoDuplicateConfig ⟨ws, cfgs⟩ ∧
      st' = { st with mutatingName := lastName (ws.filter (·.mutating = true)) st.mutatingName
                      validatingName := lastName (ws.filter (·.mutating = false)) st.validatingName } := by
  rw [configLoop_ok, ← and_assoc]
  refine and_congr ?_ Iff.rfl
  unfold NoDuplicateConfig
  simp only [Bool.forall_bool, Bool.toNat_false, Nat.add_zero]
  rw [And.comm]
  refine and_congr ?_ ?_
  · split
    · rename_i h; rw [h]; simp
    · omega
  · split
    · rename_i h; rw [h]; simp
    · omega

/-- The `webhook` markers of one kind of a root, as processed. -/
def kindOf (b : Bool) (r : Root) : List Config := sortBy cfgLe (r.cfgs.filter (fun c => c.mutating = b))

/-- The configuration markers of one kind of all roots. -/
def wcfgs (b : Bool) (roots : List Root) : List WebhookConfig :=
  (roots.flatMap (·.webhookCfgs)).filter (fun w => w.mutating = b)

theorem sorted_filter (l : List Config) (b : Bool) :
    (sortBy cfgLe l).filter (·.mutating = b) = sortBy cfgLe (l.filter (·.mutating = b)) :=
  sortBy_filter_comm (le := cfgLe) (fun a b c => strLe_trans a.name b.name c.name)
    (fun a b => strLe_total a.name b.name) (fun c => c.mutating = b) l

theorem rootLoop_ok {σ : Sched} {roots : List Root} {ml vl : List Webhook} {mn vn : String} {st : St} :
    rootLoop σ roots ⟨V ml, V vl, mn, vn⟩ = .ok st ↔
      (∀ r ∈ roots, NoDuplicateConfig r) ∧
      ∃ mws vws, All2 Conv (roots.flatMap (kindOf true)) mws ∧ All2 Conv (roots.flatMap (kindOf false)) vws ∧
        st = ⟨V (ml ++ mws), V (vl ++ vws), lastName (wcfgs true roots) mn, lastName (wcfgs false roots) vn⟩ := by
  induction roots generalizing ml vl mn vn with
  | nil =>
    simp only [rootLoop, List.flatMap_nil, wcfgs, List.filter_nil]
    constructor
    · intro h; cases h; exact ⟨by simp, [], [], .nil, .nil, by simp [lastName]⟩
    · rintro ⟨_, mws, vws, h1, h2, rfl⟩
      cases h1; cases h2; simp [lastName]
  | cons r roots ih =>
    unfold rootLoop
    have hw : ∀ b, wcfgs b (r :: roots) = r.webhookCfgs.filter (fun w => w.mutating = b) ++ wcfgs b roots := by
      intro b; simp [wcfgs]
    constructor
    · intro h
      cases hc : configLoop r.webhookCfgs false false ⟨V ml, V vl, mn, vn⟩ with
      | error e => rw [hc] at h; cases h
      | ok st1 =>
        rw [hc] at h
        obtain ⟨hnd, rfl⟩ := (configLoop_start (cfgs := r.cfgs)).1 hc
        simp only at h
        cases hl : cfgLoop σ (sortBy cfgLe r.cfgs) ⟨V ml, V vl,
            lastName (r.webhookCfgs.filter (·.mutating = true)) mn,
            lastName (r.webhookCfgs.filter (·.mutating = false)) vn⟩ with
        | error e => rw [hl] at h; cases h
        | ok st2 =>
          rw [hl] at h
          obtain ⟨mws, vws, h1, h2, rfl⟩ := cfgLoop_ok.1 hl
          obtain ⟨hnds, mws', vws', h1', h2', rfl⟩ := ih.1 h
          rw [sorted_filter] at h1 h2
          refine ⟨?_, mws ++ mws', vws ++ vws', ?_, ?_, ?_⟩
          · intro r' hr'
            rcases List.mem_cons.1 hr' with rfl | hr'
            · exact hnd
            · exact hnds r' hr'
          · rw [List.flatMap_cons]; exact h1.append h1'
          · rw [List.flatMap_cons]; exact h2.append h2'
          · simp only [hw, lastName_append, List.append_assoc]
    · rintro ⟨hnd, mws, vws, h1, h2, rfl⟩
      rw [(configLoop_start (cfgs := r.cfgs)).2 ⟨hnd r (List.mem_cons_self ..), rfl⟩]
      simp only
      have split : ∀ {b : Bool} {ws : List Webhook}, All2 Conv ((r :: roots).flatMap (kindOf b)) ws →
          ∃ w₁ w₂, ws = w₁ ++ w₂ ∧ All2 Conv (kindOf b r) w₁ ∧ All2 Conv (roots.flatMap (kindOf b)) w₂ := by
        intro b ws h
        rw [List.flatMap_cons] at h
        generalize kindOf b r = l at h
        generalize roots.flatMap (kindOf b) = l' at h
        induction l generalizing ws with
        | nil => exact ⟨[], ws, rfl, .nil, h⟩
        | cons a l ih =>
          cases h with
          | cons ha h =>
            obtain ⟨w₁, w₂, rfl, h1, h2⟩ := ih h
            exact ⟨_ :: w₁, w₂, rfl, .cons ha h1, h2⟩
      obtain ⟨m1, m2, rfl, a1, a2⟩ := split h1
      obtain ⟨v1, v2, rfl, b1, b2⟩ := split h2
      have hl := (cfgLoop_ok (σ := σ) (ml := ml) (vl := vl)
        (mn := lastName (r.webhookCfgs.filter (·.mutating = true)) mn)
        (vn := lastName (r.webhookCfgs.filter (·.mutating = false)) vn)
        (cs := sortBy cfgLe r.cfgs)).2 ⟨m1, v1, by rw [sorted_filter]; exact a1, by rw [sorted_filter]; exact b1, rfl⟩
      rw [hl]
      simp only
      refine ih.2 ⟨fun r' hr' => hnd r' (List.mem_cons_of_mem _ hr'), m2, v2, a2, b2, ?_⟩
      simp only [hw, lastName_append, List.append_assoc]

theorem checkAll_ok {ws : List Webhook} : checkAll ws = .ok () ↔ ∀ w ∈ ws, checkWebhook w = .ok () := by
  induction ws with
  | nil => simp [checkAll]
  | cons w ws ih =>
    unfold checkAll
    cases h : checkWebhook w with
    | error e => simp [h]
    | ok u => simp [h, ih]

theorem objFor_ok {kind name dflt : String} {ws : List Webhook} {objs : List Obj} :
    objFor kind name dflt "v1" (V ws) = .ok objs ↔
      (∀ w ∈ ws, checkWebhook w = .ok ()) ∧ objs = objects kind (orDefault name dflt) ws := by
  unfold objFor objects
  rw [get_V]
  by_cases h : ws = []
  · simp [h, eq_comm]
  · simp only [h, if_false]
    rw [← checkAll_ok]
    cases checkAll ws with
    | error e => simp
    | ok u =>
      simp only [true_and]
      constructor
      · intro hh
        cases hh
        simp [orDefault]
      · rintro rfl
        simp [orDefault]

end Verif.Webhook
