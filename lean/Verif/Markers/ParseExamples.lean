import Verif.Markers.ParseTheorems
/-!
# C14 and C15: where the code falls short, and cases that meet the hypotheses of the theorems
-/
namespace Verif.Markers
open Spec

/-- ASCII letters, no floats. -/
def exEnv : Env := { Unicode.ascii with parseFloat := fun _ => none }

/-- Two named arguments: `a`, a string, and an optional integer `b`. -/
def exDef : Definition := ⟨[⟨"a".toList, .str, false⟩, ⟨"b".toList, .int false, true⟩], true⟩

/-- One anonymous argument of the given type. -/
def exAnon (a : Arg) : Definition := ⟨[⟨[], a, false⟩], true⟩

/-! ## Violations -/

/-- **C15 fails** of the code: a blank between an unquoted string and the comma makes the parser drop the string: the marker is accepted with
the value `""`. -/
theorem C15_violated_space : exDef.parse exEnv "+x:a=foo ,b=1".toList = .ok [("a".toList, .str []), ("b".toList, .int 1)] := by decide +kernel

/-- With several words, only the last one is dropped, and the blank is kept. -/
theorem C15_violated_space_words : (exAnon (.slice .str)).parse exEnv "+x={foo bar , baz}".toList =
    .ok [([], .slice [.str "foo ".toList, .str "baz".toList])] := by decide +kernel

/-- **C15 fails** of the code: an argument given twice is accepted, and the first value silently dropped. -/
theorem C15_violated_duplicate : exDef.parse exEnv "+x:a=foo,a=bar".toList = .ok [("a".toList, .str "bar".toList)] := by decide +kernel

/-- **C15 fails** of the code: after an empty unquoted string, the comma and the following argument become the value. -/
theorem C15_violated_empty : exDef.parse exEnv "+x:a=,b=1".toList = .ok [("a".toList, .str ",b=1".toList)] := by decide +kernel

/-- **C15 fails** of the code: an integer that does not fit the `int32` argument is silently truncated. -/
theorem C15_violated_int32 : (exAnon (.int true)).parse exEnv "+x=4294967739".toList = .ok [([], .int 443)] := by decide +kernel

/-- **C14 fails** of the code: a blank before a negative number, which is allowed before any other value, is rejected (hence the side
condition in `ShowsEntries`). -/
theorem C14_violated_negative : (exAnon (.map (.int false))).parse exEnv "+x={a: -1}".toList = .error .expected ∧
    (exAnon (.map (.int false))).parse exEnv "+x={a: 1}".toList = .ok [([], .map [("a".toList, .int 1)])] := by decide +kernel

/-- **C14 fails** of the code: where the type is recognised from the text, an unquoted string that contains something like an octal
number is rejected, although it is accepted where a string is expected (hence `self` in `ShowsStr`). -/
theorem C14_violated_any : (exAnon .any).parse exEnv "+x=a-08".toList = .error .lexical ∧
    (exAnon .str).parse exEnv "+x=a-08".toList = .ok [([], .str "a-08".toList)] := by decide +kernel

/-! ## Cases that meet the hypotheses -/

instance (w : Str) : Decidable (Spaces w) := inferInstanceAs (Decidable (∀ c ∈ w, _))

theorem ident_a : Ident "a".toList := ⟨⟨'a', [], by decide, by decide⟩, by decide⟩
theorem ident_b : Ident "b".toList := ⟨⟨'b', [], by decide, by decide⟩, by decide⟩
theorem ident_c : Ident "c".toList := ⟨⟨'c', [], by decide, by decide⟩, by decide⟩

theorem ex_bare : Bare "foo bar".toList := ⟨by decide, by decide, by decide, by decide⟩

/-- `a=foo bar, b=-12` -/
theorem ex_args : ShowsArgs exEnv exDef [("a".toList, .str "foo bar".toList), ("b".toList, .int (-12))] "a=foo bar, b=-12".toList := by
  have h2 : ShowsArgs exEnv exDef [("b".toList, .int (-12))] ("b".toList ++ '=' :: showInt (-12)) :=
    .one (f := ⟨"b".toList, .int false, true⟩) (by decide) ident_b (.value (.int (by decide) (by decide)))
  have := ShowsArgs.cons (E := exEnv) (d := exDef) (f := ⟨"a".toList, .str, false⟩) (w := " ".toList) (by decide) ident_a (.value (.str (.bare ex_bare))) (by decide) h2
  have he : "a=foo bar, b=-12".toList = "a".toList ++ '=' :: "foo bar".toList ++ ',' :: (" ".toList ++ ("b".toList ++ '=' :: showInt (-12))) := by
    decide +kernel
  rw [he]; exact this

example : exDef.parse exEnv "+x:y:a=foo bar, b=-12".toList = .ok [("a".toList, .str "foo bar".toList), ("b".toList, .int (-12))] :=
  C14_named (name := "x:y".toList) (by decide) (by decide) (by decide) ex_args (by decide)

/-- Only the optional argument: `b=-12` -/
theorem ex_args_b : ShowsArgs exEnv exDef [("b".toList, .int (-12))] ("b".toList ++ '=' :: showInt (-12)) :=
  .one (f := ⟨"b".toList, .int false, true⟩) (by decide) ident_b (.value (.int (by decide) (by decide)))

example : exDef.parse exEnv ('+' :: ("x".toList ++ ':' :: ("b".toList ++ '=' :: showInt (-12)))) = .error .missing :=
  C15_missing (by decide) (by decide) (by decide) ex_args_b rfl (f := ⟨"a".toList, .str, false⟩) (by decide) rfl (by decide)

example : exDef.parse exEnv ('+' :: ("x".toList ++ ':' :: ("a=foo bar, b=-12".toList ++ ',' :: ("".toList ++ ("c".toList ++ '=' :: "1;2".toList))))) =
    .error .unknownArgument :=
  C15_unknown (by decide) (by decide) (by decide) ex_args (by decide) ident_c (by decide)

example : exDef.parse exEnv ('+' :: ("x".toList ++ ':' :: ("a=foo bar, b=-12".toList ++ '}' :: [','] ))) = .error .expected :=
  C15_leftover (by decide) (by decide) (by decide) ex_args (Calm.comma _)

/-- `{x: {1, 2}, "y z":{}}`, whose type is recognised from the text -/
theorem ex_nested : Shows exEnv false .any
    (.map [("x".toList, .slice [.int 1, .int 2]), ("y z".toList, .map [])]) "{x: {1, 2}, \"y z\":{}}".toList := by
  have hi : ∀ z : Int, -(2 ^ 63) ≤ z → z < 2 ^ 63 → Shows exEnv true (.int false) (.int z) (showInt z) := fun z => .int
  have items : ShowsItems exEnv true (.int false) [.int 1, .int 2] ([] ++ showInt 1 ++ ',' :: (" ".toList ++ showInt 2)) :=
    .cons (by decide) (hi 1 (by decide) (by decide)) (.one (by decide) (hi 2 (by decide) (by decide)))
  have list : Shows exEnv true .any (.slice [.int 1, .int 2]) _ := .any (a := .slice (.int false)) (by nofun) (.slice (by nofun) items)
  have empty : Shows exEnv true .any (.map []) ('{' :: ([] ++ ['}'])) := .any (a := .map .any) (by nofun) (.mapNil (by simp) (by decide))
  have identx : Ident "x".toList := ⟨⟨'x', [], by decide, by decide⟩, by decide⟩
  have hx : ShowsStr true "x".toList "x".toList := .word identx (by decide) (by decide)
  have entries := ShowsEntries.cons (E := exEnv) (self := true) (w := []) (w' := " ".toList) (by decide) hx (by decide) (by decide) list
    (ShowsEntries.one (w := " ".toList) (w' := []) (by decide) (.quoted (t := "y z".toList)) (by decide) (by decide) empty)
  have all := Shows.any (self := false) (a := .map .any) (by nofun) (.map (self := true) (by simp) (by decide) entries)
  have he : "{x: {1, 2}, \"y z\":{}}".toList = '{' :: (([] ++ "x".toList ++
      ':' :: (" ".toList ++ ('{' :: (([] ++ showInt 1 ++ ',' :: (" ".toList ++ showInt 2)) ++ ['}']))) ++
      ',' :: (" ".toList ++ quoted "y z".toList ++ ':' :: ([] ++ ('{' :: ([] ++ ['}']))))) ++ ['}']) := by decide +kernel
  rw [he]; exact all

example : (exAnon .any).parse exEnv ('+' :: ("x".toList ++ '=' :: "{x: {1, 2}, \"y z\":{}}".toList)) =
    .ok [([], .map [("x".toList, .slice [.int 1, .int 2]), ("y z".toList, .map [])])] :=
  C14_anonymous rfl rfl (by decide) (.value ex_nested)

/-- `foo bar;a` -/
theorem ex_legacy : ShowsLegacy exEnv .str [.str "foo bar".toList, .str "a".toList] ("foo bar".toList ++ ';' :: "a".toList) :=
  .cons (.typed trivial (.str (.bare ex_bare))) (.one (.typed trivial (.str (.bare ident_a.bare))))

example : ∃ s, parse exEnv (fuelFor ("foo bar".toList ++ ';' :: "a".toList) (.slice .str)) (.slice .str) ("foo bar".toList ++ ';' :: "a".toList) false
      (Sc.init ("foo bar".toList ++ ';' :: "a".toList)) = .ok (.slice [.str "foo bar".toList, .str "a".toList], s) ∧ s.rest = [] :=
  C14_legacy ex_legacy (by decide)

/-- `1;2` where any type may be -/
example : ∃ s, parse exEnv (fuelFor (showInt 1 ++ ';' :: showInt 2) .any) .any (showInt 1 ++ ';' :: showInt 2) false
      (Sc.init (showInt 1 ++ ';' :: showInt 2)) = .ok (.slice [.int 1, .int 2], s) ∧ s.rest = [] :=
  C14_legacy_any (a := .int false) (by simp [Scalar]) (.int (by decide) (by decide)) (.one (.typed trivial (.int (by decide) (by decide))))

/-- `a;3`, a list of values whose types are recognised from the text (as for `+kubebuilder:validation:Enum`). -/
theorem ex_mixed : ShowsArg exEnv (.slice .any) (.slice [.str "a".toList, .int 3]) ("a".toList ++ ';' :: showInt 3) :=
  .list (.cons (.any (a := .str) trivial (.str (.word ident_a (by decide) (by decide)))) (.one (.any (a := .int false) trivial (.int (by decide) (by decide))))) (by decide)

example : (exAnon (.slice .any)).parse exEnv ('+' :: ("x".toList ++ '=' :: ("a".toList ++ ';' :: showInt 3))) = .ok [([], .slice [.str "a".toList, .int 3])] :=
  C14_anonymous rfl rfl (by decide) ex_mixed

/-- The hypotheses of `C15_accepted_partial`, `C15_accepted_anonymous` and `C15_accepted_empty` are met. -/
example : exDef.anonymousField = false ∧ exDef.fields ≠ [] ∧ fieldsText exDef "+x:a=foo,b=1".toList = "a=foo,b=1".toList ∧
    exDef.parse exEnv "+x:a=foo,b=1".toList = .ok [("a".toList, .str "foo".toList), ("b".toList, .int 1)] := by decide +kernel
example : (exAnon (.int false)).parse exEnv "+x=12 ".toList = .ok [([], .int 12)] := by decide +kernel
example : (⟨[], true⟩ : Definition).parse exEnv "+x= ".toList = .ok [] ∧ (⟨[], true⟩ : Definition).parse exEnv "+x=1".toList = .error .extra := by
  decide +kernel

end Verif.Markers
