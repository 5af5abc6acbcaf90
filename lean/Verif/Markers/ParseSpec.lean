import Verif.Markers.Parse
/-!
# Specification for C14 and C15: the marker argument syntax

`Shows` relates a typed value to the texts that denote it, as documented in /repo/pkg/markers/doc.go:25-60: decimal integers, `true`
and `false`, strings that are quoted, raw or bare, lists `{a, b}`, maps `{k: v}`.
-/
namespace Verif.Markers.Spec
open Verif.Markers

/-- White space. -/
def Spaces (w : Str) : Prop := ∀ c ∈ w, c = ' ' ∨ c = '\t' ∨ c = '\n' ∨ c = '\r'

/-- Decimal notation. -/
def showInt (z : Int) : Str := if z < 0 then '-' :: Nat.toDigits 10 z.natAbs else Nat.toDigits 10 z.natAbs

def showBool : Bool → Str
  | true => "true".toList
  | false => "false".toList

/-- Quotes, backslashes and newlines are escaped. -/
def escapeChar (c : Char) : Str :=
  if c = '"' then ['\\', '"'] else if c = '\\' then ['\\', '\\'] else if c = '\n' then ['\\', 'n'] else [c]

def quoted (t : Str) : Str := '"' :: (t.flatMap escapeChar ++ ['"'])

/-- A text that may be written without quotes: no separators, no quotes, no white space at its ends. -/
structure Bare (t : Str) : Prop where
  ne : t ≠ []
  chars : ∀ c ∈ t, c ≠ ',' ∧ c ≠ ';' ∧ c ≠ ':' ∧ c ≠ '}' ∧ c ≠ '"' ∧ c ≠ '`'
  first : ∀ c, t.head? = some c → ¬ (c = ' ' ∨ c = '\t' ∨ c = '\n' ∨ c = '\r')
  last : ∀ c, t.getLast? = some c → ¬ (c = ' ' ∨ c = '\t' ∨ c = '\n' ∨ c = '\r')

/-- An ASCII identifier. -/
structure Ident (t : Str) : Prop where
  first : ∃ c r, t = c :: r ∧ (c.isAlpha ∨ c = '_')
  rest : ∀ c ∈ t, c.isAlphanum ∨ c = '_'

/-- The texts denoting a string.  With `self` (where the type has to be recognised from the text) a bare string must be an
identifier that is not a boolean. -/
inductive ShowsStr : (self : Bool) → Str → Str → Prop
  | quoted {self t} : ShowsStr self t (quoted t)
  | raw {self t} : '`' ∉ t → '\r' ∉ t → ShowsStr self t ('`' :: (t ++ ['`']))
  | word {self t} : Ident t → t ≠ "true".toList → t ≠ "false".toList → ShowsStr self t t
  | bare {t} : Bare t → ShowsStr false t t

/-- A decimal fraction: sign, integer part, digits after the point. -/
def showFrac (neg : Bool) (ip : Nat) (fp : Str) : Str := (if neg then ['-'] else []) ++ Nat.toDigits 10 ip ++ '.' :: fp

mutual
/-- `Shows E self a v x`: the text `x` denotes the value `v` of type `a`.  `self`: the type can be recognised from the text. -/
inductive Shows (E : Env) : Bool → Arg → Value → Str → Prop
  | int {self z} : -(2 ^ 63) ≤ z → z < 2 ^ 63 → Shows E self (.int false) (.int z) (showInt z)
  | int32 {z} : -(2 ^ 31) ≤ z → z < 2 ^ 31 → Shows E false (.int true) (.int z) (showInt z)
  | frac {self neg ip fp q} : fp ≠ [] → (∀ c ∈ fp, c.isDigit) → E.parseFloat (showFrac neg ip fp) = some q →
      Shows E self .num (.num q) (showFrac neg ip fp)
  | whole {z q} : E.parseFloat (showInt z) = some q → Shows E false .num (.num q) (showInt z)
  | bool {self b} : Shows E self .bool (.bool b) (showBool b)
  | str {self t x} : ShowsStr self t x → Shows E self .str (.str t) x
  | sliceNil {a w} : Spaces w → Shows E false (.slice a) (.slice []) ('{' :: (w ++ ['}']))
  | slice {self a vs x} : (self = true → a ≠ .any) → ShowsItems E self a vs x → Shows E self (.slice a) (.slice vs) ('{' :: (x ++ ['}']))
  | mapNil {self a w} : (self = true → a = .any) → Spaces w → Shows E self (.map a) (.map []) ('{' :: (w ++ ['}']))
  | map {self a es x} : (self = true → a = .any) → (es.map (·.1)).Nodup → ShowsEntries E self a es x →
      Shows E self (.map a) (.map es) ('{' :: (x ++ ['}']))
  | any {self a v x} : a ≠ .any → Shows E true a v x → Shows E self .any v x
/-- One or more values separated by commas, each after optional white space. -/
inductive ShowsItems (E : Env) : Bool → Arg → List Value → Str → Prop
  | one {self a v w x} : Spaces w → Shows E self a v x → ShowsItems E self a [v] (w ++ x)
  | cons {self a v vs w x y} : Spaces w → Shows E self a v x → ShowsItems E self a vs y → ShowsItems E self a (v :: vs) (w ++ x ++ ',' :: y)
/-- One or more `key: value` entries separated by commas.  White space is allowed before a key, and before a value that does not start with
a minus sign. -/
inductive ShowsEntries (E : Env) : Bool → Arg → List (Str × Value) → Str → Prop
  | one {self a k v w kx w' x} : Spaces w → ShowsStr self k kx → Spaces w' → (w' ≠ [] → x.head? ≠ some '-') → Shows E self a v x →
      ShowsEntries E self a [(k, v)] (w ++ kx ++ ':' :: (w' ++ x))
  | cons {self a k v es w kx w' x y} : Spaces w → ShowsStr self k kx → Spaces w' → (w' ≠ [] → x.head? ≠ some '-') → Shows E self a v x →
      ShowsEntries E self a es y → ShowsEntries E self a ((k, v) :: es) (w ++ kx ++ ':' :: (w' ++ x) ++ ',' :: y)
end

/-- The scalar types. -/
def Scalar : Arg → Prop
  | .int _ | .num | .bool | .str => True
  | _ => False

/-- `x` denotes the scalar `v`: of this type, or, for `.any`, of a type that can be recognised from the text. -/
inductive ShowsScalar (E : Env) : Arg → Value → Str → Prop
  | typed {a v x} : Scalar a → Shows E false a v x → ShowsScalar E a v x
  | any {a v x} : Scalar a → Shows E true a v x → ShowsScalar E .any v x

/-- A list in the legacy syntax `a;b;c` (scalars only). -/
inductive ShowsLegacy (E : Env) : Arg → List Value → Str → Prop
  | one {a v x} : ShowsScalar E a v x → ShowsLegacy E a [v] x
  | cons {a v vs x y} : ShowsScalar E a v x → ShowsLegacy E a vs y → ShowsLegacy E a (v :: vs) (x ++ ';' :: y)

/-- The texts denoting the value of an argument: those of its type, and for lists those in the legacy syntax, which must not look like the other one. -/
inductive ShowsArg (E : Env) : Arg → Value → Str → Prop
  | value {a v x} : Shows E false a v x → ShowsArg E a v x
  | list {a vs x} : ShowsLegacy E a vs x → x.head? ≠ some '{' → ShowsArg E (.slice a) (.slice vs) x

/-- An argument list `n1=x1, n2=x2, …` denoting the assignments `vals` for the definition `d`: every argument is declared. -/
inductive ShowsArgs (E : Env) (d : Definition) : List (Str × Value) → Str → Prop
  | one {f v x} : f ∈ d.fields → Ident f.name → ShowsArg E f.arg v x → ShowsArgs E d [(f.name, v)] (f.name ++ '=' :: x)
  | cons {f v x w vals y} : f ∈ d.fields → Ident f.name → ShowsArg E f.arg v x → Spaces w → ShowsArgs E d vals y →
      ShowsArgs E d ((f.name, v) :: vals) (f.name ++ '=' :: x ++ ',' :: (w ++ y))

/-- One argument as found in a marker: its name, the text its value was read from, the value. -/
structure Seg where
  name : Str
  chunk : Str
  value : Value

/-- The text is covered by the arguments: `n1=c1,n2=c2,…` with white space around names and before commas, and nothing else. -/
inductive Covers : List Seg → Str → Prop
  | one {g : Seg} {w w'} : Spaces w → Spaces w' → Covers [g] (w ++ (g.name ++ (w' ++ '=' :: g.chunk)))
  | cons {g : Seg} {gs w w' w'' y} : Spaces w → Spaces w' → Spaces w'' → Covers gs y →
      Covers (g :: gs) (w ++ (g.name ++ (w' ++ '=' :: (g.chunk ++ (w'' ++ ',' :: y)))))

end Verif.Markers.Spec
