/-!
# Regular expressions

The part of the syntax of regular expressions (RE2, as in the API server, and ECMA 262 alike) that is used by the built-in schemas: characters, escaped punctuation, classes of characters and
ranges, groups, alternatives, `*`, `+`, `?`, and the anchors `^` and `$`.
-/
namespace Verif.Crd.Spec

inductive Rx
  | empty
  /-- one character of a class, given by ranges -/
  | one (l : List (Char × Char))
  | seq (a b : Rx)
  | alt (a b : Rx)
  | star (a : Rx)
  /-- `^` -/
  | first
  /-- `$` -/
  | last
deriving DecidableEq

/-- `Hit r pre m post`: the expression matches the middle part of the text `pre ++ m ++ post`. -/
inductive Hit : Rx → List Char → List Char → List Char → Prop
  | empty {pre post} : Hit .empty pre [] post
  | one {l pre c post} : (∃ r ∈ l, r.1 ≤ c ∧ c ≤ r.2) → Hit (.one l) pre [c] post
  | seq {a b pre m n post} : Hit a pre m (n ++ post) → Hit b (pre ++ m) n post → Hit (.seq a b) pre (m ++ n) post
  | left {a b pre m post} : Hit a pre m post → Hit (.alt a b) pre m post
  | right {a b pre m post} : Hit b pre m post → Hit (.alt a b) pre m post
  | stop {a pre post} : Hit (.star a) pre [] post
  | more {a pre m n post} : Hit a pre m (n ++ post) → Hit (.star a) (pre ++ m) n post → Hit (.star a) pre (m ++ n) post
  | first {post} : Hit .first [] [] post
  | last {pre} : Hit .last pre [] []

/-- The expression is found in the text: some part of the text matches. -/
def Finds (r : Rx) (s : List Char) : Prop := ∃ pre m post, s = pre ++ (m ++ post) ∧ Hit r pre m post

/-- The members of a class, up to the bracket at its end. -/
def readClass : List Char → Option (List (Char × Char) × List Char)
  | [] => none
  | ']' :: cs => some ([], cs)
  | a :: '-' :: b :: cs =>
    if a = '^' ∨ a = '\\' ∨ a = '[' ∨ b = ']' ∨ b = '\\' then none
    else (readClass cs).map fun (l, rest) => ((a, b) :: l, rest)
  | a :: cs => if a = '^' ∨ a = '\\' ∨ a = '[' ∨ a = '-' then none else (readClass cs).map fun (l, rest) => ((a, a) :: l, rest)

/-- The punctuation that stands for itself after a backslash. -/
def escapable : List Char := ['\\', '.', '+', '*', '?', '(', ')', '[', ']', '{', '}', '|', '^', '$', '-', '/']

/-- The characters that stand for themselves. -/
def literal (c : Char) : Bool := !(['\\', '.', '+', '*', '?', '(', ')', '[', ']', '{', '}', '|', '^', '$'].contains c)

/-- The repetition that follows an expression. -/
def readRepeat (r : Rx) : List Char → Option (Rx × List Char)
  | '*' :: cs => plain (.star r) cs
  | '+' :: cs => plain (.seq r (.star r)) cs
  | '?' :: cs => plain (.alt r .empty) cs
  | cs => some (r, cs)
where
  /-- nothing is repeated twice, nor is a repetition made lazy -/
  plain (r : Rx) : List Char → Option (Rx × List Char)
    | '*' :: _ => none
    | '+' :: _ => none
    | '?' :: _ => none
    | cs => some (r, cs)

mutual
/-- One character, class, anchor or group, without repetition. -/
def readAtom : Nat → List Char → Option (Rx × List Char)
  | 0, _ => none
  | _ + 1, [] => none
  | n + 1, c :: cs =>
    if c = '(' then
      if cs.head? = some '?' then none
      else
        match readAlt n cs with
        | some (r, ')' :: rest) => some (r, rest)
        | _ => none
    else if c = '[' then (readClass cs).map fun (l, rest) => (.one l, rest)
    else if c = '\\' then
      match cs with
      | e :: rest => if escapable.contains e then some (.one [(e, e)], rest) else none
      | [] => none
    else if c = '^' then some (.first, cs)
    else if c = '$' then some (.last, cs)
    else if literal c then some (.one [(c, c)], cs)
    else none
/-- A sequence: it ends with the text, before `|`, or before the end of a group. -/
def readSeq : Nat → List Char → Option (Rx × List Char)
  | 0, _ => none
  | _ + 1, [] => some (.empty, [])
  | n + 1, c :: cs =>
    if c = '|' ∨ c = ')' then some (.empty, c :: cs)
    else
      match readAtom n (c :: cs) with
      | none => none
      | some (a, rest) =>
        match readRepeat a rest with
        | none => none
        | some (a, rest) => (readSeq n rest).map fun (b, rest) => (.seq a b, rest)
/-- Alternatives. -/
def readAlt : Nat → List Char → Option (Rx × List Char)
  | 0, _ => none
  | n + 1, cs =>
    match readSeq n cs with
    | none => none
    | some (a, '|' :: rest) => (readAlt n rest).map fun (b, rest) => (.alt a b, rest)
    | some (a, rest) => some (a, rest)
end

/-- The expression that a pattern stands for. -/
def readPattern (p : String) : Option Rx :=
  match readAlt (2 * p.toList.length + 4) p.toList with
  | some (r, []) => some r
  | _ => none

end Verif.Crd.Spec
