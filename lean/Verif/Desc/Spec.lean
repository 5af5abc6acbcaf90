import Verif.Crd.Schema
/-!
# Specification of description truncation (C11, C12)
-/
namespace Verif.Desc.Spec
open Crd

/-- `r` is a beginning of `d` of at most `n` bytes, possibly followed by an ellipsis. -/
def Shortened (d : Bytes) (n : Nat) (r : Bytes) : Prop :=
  ∃ k, k ≤ n ∧ (r = d.take k ∨ r = d.take k ++ [46, 46, 46])

/-- Position `k` is the last one of the text `c` whose byte satisfies `p`, and not the first byte. -/
def LastAt (p : Nat → Bool) (c : Bytes) (k : Nat) : Prop :=
  0 < k ∧ (∃ b, c[k]? = some b ∧ p b.toNat = true) ∧ ∀ j b, k < j → c[j]? = some b → p b.toNat = false

/-- No position but possibly the first satisfies `p`. -/
def NoneAt (p : Nat → Bool) (c : Bytes) : Prop := ∀ j b, 0 < j → c[j]? = some b → p b.toNat = false

/-- The documented truncation of ASCII text: cut to `n` characters, then after the last sentence end; without one, before the last
white space, with an ellipsis; without that, at `n`, with an ellipsis. -/
def AsciiTruncated (sentenceEnd space : Nat → Bool) (d : Bytes) (n : Nat) (r : Bytes) : Prop :=
  (d.length ≤ n ∧ r = d) ∨
  (n < d.length ∧
    ((∃ k, LastAt sentenceEnd (d.take n) k ∧ r = d.take (k + 1)) ∨
     (NoneAt sentenceEnd (d.take n) ∧
       ((∃ k, LastAt space (d.take n) k ∧ r = d.take k ++ [46, 46, 46]) ∨
        (NoneAt space (d.take n) ∧ r = d.take n ++ [46, 46, 46])))))

/-- A schema without its descriptions. -/
def eraseDescriptions (s : Schema) : Schema := s.mapBase (fun b => { b with description := [] })

/-- Plain ASCII. -/
def Ascii (d : Bytes) : Prop := ∀ b ∈ d, b.toNat < 128

end Verif.Desc.Spec
