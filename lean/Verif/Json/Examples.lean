import Verif.Json.DefaultTheorems
/-! # C77: concrete cases -/
namespace Verif.Json.Example
open Spec
open Verif.Crd (AnyVal Raw Base Mark)

/-- A number format that satisfies what is assumed of `float64`: whole numbers up to 2^53, to which others are rounded. -/
def clamp (z : Int) : Int := if z < -(2 ^ 53) then -(2 ^ 53) else if 2 ^ 53 < z then 2 ^ 53 else z

def F : Floats where
  round q := some ((clamp q.floor : Int) : Rat)
  fmt q := showInt q.floor

theorem clamp_clamp (z : Int) : clamp (clamp z) = clamp z := by
  unfold clamp
  split
  · rfl
  · split
    · rfl
    · rfl

theorem lawful : Lawful F where
  kept q r h := by
    simp only [F, Option.some.injEq] at h ⊢
    subst h
    rw [Rat.floor_intCast, clamp_clamp]
  shown r h := by
    simp only [F, Option.some.injEq] at h ⊢
    refine ⟨_, showInt_num _, ?_⟩
    rw [Rat.floor_intCast]
    exact h
  ints z h := by
    simp only [F]
    rw [Rat.floor_intCast]
    refine ⟨?_, showInt_num z⟩
    congr 2
    unfold clamp
    rw [if_neg (by omega), if_neg (by omega)]

/-- `C77_violated_number` has a number format with its rounding. -/
example : F.round ((2 ^ 53 + 1 : Int) : Rat) = some ((2 ^ 53 : Int) : Rat) := by decide +kernel

def marshal : AnyVal → Option Raw
  | .nil => some "null"
  | .str s => some (String.ofList (quote s.toList))
  | .other _ => some "{\"name\":\"a\\u003cb\",\"ports\":[80,443]}"

def marker : Str := "+default={\"ports\": [80, 443], \"name\": \"a<b\"}".toList

def result : G := .obj [("name".toList, .str "a<b".toList), ("ports".toList, .arr [.float 80, .float 443])]

/-- A default with a list, a name and white space, as it is written to the schema. -/
example : (kubernetesDefault F marker).map (fun v => String.ofList (encode F v)) = some "{\"name\":\"a\\u003cb\",\"ports\":[80,443]}" := by decide +kernel

/-- The hypotheses of `C77_default_partial`: the text denotes a value, with small numbers. -/
example : ∃ j, Denotes "{\"ports\": [80, 443], \"name\": \"a<b\"}".toList j ∧ j ≠ .null ∧ ∀ q ∈ j.nums, SmallInt q := by
  have h : (decode "{\"ports\": [80, 443], \"name\": \"a<b\"}".toList).map J.nums = some [((80 : Int) : Rat), ((443 : Int) : Rat)] := by decide +kernel
  obtain ⟨j, hj, hn⟩ := Option.map_eq_some_iff.1 h
  refine ⟨j, decode_iff.1 hj, ?_, fun q hq => ?_⟩
  · rintro rfl
    simp [J.nums] at hn
  · rw [hn] at hq
    rcases List.mem_cons.1 hq with rfl | hq
    · exact ⟨80, rfl, by decide⟩
    · rw [List.mem_singleton.1 hq]
      exact ⟨443, rfl, by decide⟩

/-- An argument stands for that value. -/
example : Stands F marshal (.other 0) result where
  nil := by simp [result]
  text := by decide +kernel

/-- Errors: a word, a list without its end, two values, a number with a zero in front; and nothing for a reference and for `null`. -/
example : ["+default=abc", "+default=[1,2", "+default=1 2", "+default=01", "+default=\"a\tb\"", "+default={\"a\":1,}", "+default=\"\\x\""].map (fun s => (kubernetesDefault F s.toList).isNone) =
    [true, true, true, true, true, true, true] := by decide +kernel
example : ["+default=ref(Foo)", "+default= null "].map (fun s => (kubernetesDefault F s.toList).map fun v => String.ofList (encode F v)) = [some "null", some "null"] := by decide +kernel

/-- Escapes: pairs, halves of pairs, and the last of two members with the same name. -/
example : ["+default=\"\\ud83d\\ude00\"", "+default=\"\\ud83dx\"", "+default={\"a\":1,\"a\":2}", "+default=\"\\u003c\\/\\n\""].map (fun s => (kubernetesDefault F s.toList).map fun v => String.ofList (encode F v)) =
    [some "\"😀\"", some "\"\uFFFDx\"", some "{\"a\":2}", some "\"\\u003c/\\n\""] := by decide +kernel

/-- `+kubebuilder:default={ports: 80}`. -/
example : (valueGo (.map [("b".toList, .int 80), ("a".toList, .slice [.bool true, .str "x".toList])])).map (fun v => String.ofList (encode F v)) = some "{\"a\":[true,\"x\"],\"b\":80}" := by decide +kernel

end Verif.Json.Example
