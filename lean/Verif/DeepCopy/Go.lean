import Verif.DeepCopy.Model
/-!
# What the generated code does

A small part of Go: values, memory, and the statements of `Model.lean`.  None of this is code of controller-tools: it says when generated code compiles, and what running it does.
-/
namespace Verif.DeepCopy

inductive Step
  | field (f : String)
  | idx (i : Nat)
deriving DecidableEq

/-- A place in memory: a cell, and a part of what is in it. -/
structure Loc where
  addr : Nat
  path : List Step
deriving DecidableEq

def Loc.sub (l : Loc) (s : Step) : Loc := ⟨l.addr, l.path ++ [s]⟩

/-- Values of Go.  Values of basic types are opaque, and so are keys of maps: they have no references in them. -/
inductive Val
  | basic (x : Nat)
  | nil
  | ptr (l : Loc)
  /-- a slice of the array at `l` -/
  | slice (l : Loc) (off len : Nat)
  /-- a map, whose content is in a cell -/
  | map (a : Nat)
  | struct (fs : List (String × Val))
  /-- an array -/
  | arr (vs : List Val)
  /-- the content of a map -/
  | entries (kvs : List (String × Val))
  /-- the zero value of a type other than a pointer, slice, or map: the generated code never gets to keep it -/
  | zero

/-- The value of a field. -/
def fieldGet (f : String) : List (String × Val) → Option Val
  | [] => none
  | (g, v) :: fs => if g = f then some v else fieldGet f fs

/-- Assign to a field. -/
def fieldSet (f : String) (w : Val) : List (String × Val) → List (String × Val)
  | [] => []
  | (g, v) :: fs => if g = f then (g, w) :: fs else (g, v) :: fieldSet f w fs

/-- A part of a value. -/
def Val.get : Val → List Step → Option Val
  | v, [] => some v
  | .struct fs, .field f :: p => (fieldGet f fs).bind fun v => v.get p
  | .arr vs, .idx i :: p => vs[i]?.bind fun v => v.get p
  | _, _ => none

/-- Assign to a part of a value. -/
def Val.set : Val → List Step → Val → Option Val
  | _, [], w => some w
  | .struct fs, .field f :: p, w => (fieldGet f fs).bind fun v => (v.set p w).map fun v' => .struct (fieldSet f v' fs)
  | .arr vs, .idx i :: p, w => vs[i]?.bind fun v => (v.set p w).map fun v' => .arr (vs.set i v')
  | _, _, _ => none

/-- Memory: the cells that have been allocated. -/
abbrev Heap := List Val

def Heap.read (H : Heap) (l : Loc) : Option Val := H[l.addr]?.bind fun v => v.get l.path

def Heap.write (H : Heap) (l : Loc) (w : Val) : Option Heap :=
  H[l.addr]?.bind fun v => (v.set l.path w).map fun v' => H.set l.addr v'

/-- How a run can end early. -/
inductive Stop
  /-- a panic, or an access that the type checker rules out -/
  | panic
  /-- more nested calls than allowed -/
  | deep
  /-- there is no such method -/
  | noMethod
deriving DecidableEq

abbrev Run := Except Stop

def need {α : Type} : Option α → Run α
  | some a => .ok a
  | none => .error .panic

/-- Read a place. -/
def load (H : Heap) (l : Loc) : Run Val := need (H.read l)

/-- Write a place. -/
def store (H : Heap) (l : Loc) (v : Val) : Run Heap := need (H.write l v)

/-- A new cell. -/
def alloc (H : Heap) (v : Val) : Heap × Loc := (H ++ [v], ⟨H.length, []⟩)

variable (P : Prog)

/-- The zero value of a type. -/
def Prog.zero (t : Ty) : Val := if (P.underlying t).byRef then .nil else .zero

/-- The type of the elements of a slice. -/
def Prog.elem (t : Ty) : Ty :=
  match P.underlying t with
  | .slice e => e
  | _ => .other ""

/-- Whether the receiver of `DeepCopy` of a named type is a pointer: as in the source, or as generated. -/
def Prog.recvPtr (n : String) : Bool := ((P.manual n).copy).getD (P.usePtrReceiver (.named n))

/-- The code around the generated code: methods that are not generated, and the order in which maps are iterated, at each state of the memory. -/
structure World where
  /-- how a type's own methods copy a value -/
  ext : String → Heap → Val → Run (Heap × Val)
  order : Heap → List (String × Val) → List (String × Val)
  order_perm : ∀ H kvs, (order H kvs).Perm kvs

variable (W : World)

/-- `DeepCopyInto` of each type. -/
abbrev Into := String → Heap → Loc → Loc → Run Heap

variable (into : Into)

/-- Run `DeepCopy` of a type with a copy made by its own `DeepCopyInto` (`ptrDeepCopy`, `bareDeepCopy`: traverse.go:800-830), or a `DeepCopy` in the source: the new value is in a new cell. -/
def Prog.clone (n : String) (H : Heap) (i : Loc) : Run (Heap × Loc) :=
  if (P.manual n).copy.isSome then do
    let v ← load H i
    let (H, v) ← W.ext n H v
    return alloc H v
  else do
    let (H, o) := alloc H (P.zero (.named n))
    let H ← into n H i o
    return (H, o)

/-- `x.DeepCopy()`, where `x` is at `i` and of type `t`: the result is a pointer if the receiver is one, and nil for nil.  A pointer is dereferenced if the receiver is not a pointer. -/
def Prog.callCopy (t : Ty) (H : Heap) (i : Loc) : Run (Heap × Val) :=
  match P.owner t with
  | none => .error .noMethod
  | some n =>
    if P.methods n = false then .error .noMethod
    else if (P.unalias t).isPtr then do
      let p ← load H i
      match p with
      | .nil => if P.recvPtr n then return (H, .nil) else .error .panic
      | .ptr l =>
        let (H, o) ← P.clone W into n H l
        if P.recvPtr n then return (H, .ptr o) else do
          let v ← load H o
          return (H, v)
      | _ => .error .panic
    else if P.recvPtr n then do
      let (H, o) ← P.clone W into n H i
      return (H, .ptr o)
    else do
      let v ← load H i
      match v with
      | .nil => return (H, .nil)
      | _ => do
        let (H, o) ← P.clone W into n H i
        let v ← load H o
        return (H, v)

/-- `x.DeepCopyInto(out)`, where `x` is at `i` and of type `t`. -/
def Prog.callInto (t : Ty) (H : Heap) (i o : Loc) : Run Heap :=
  match P.unalias t with
  | .named n => if P.methods n then into n H i o else .error .noMethod
  | _ => .error .noMethod

/-- `*p`, where `p` is at `i`. -/
def deref (H : Heap) (i : Loc) : Run Loc := do
  match ← load H i with
  | .ptr l => return l
  | _ => .error .panic

/-- `(*out)[key] = v` -/
def putEntry (H : Heap) (o : Loc) (k : String) (v : Val) : Run Heap := do
  match ← load H o with
  | .map a =>
    match ← load H ⟨a, []⟩ with
    | .entries kvs => store H ⟨a, []⟩ (.entries (kvs.filter (fun kv => kv.1 ≠ k) ++ [(k, v)]))
    | _ => .error .panic
  | _ => .error .panic

/-- `for i := range *in`: `f` is run for each element, with the places `&(*in)[i]` and `&(*out)[i]`. -/
def forElems (f : Heap → Loc → Loc → Run Heap) (i o : Loc) : Nat → Nat → Heap → Run Heap
  | _, 0, H => .ok H
  | j, n + 1, H => do
    match ← load H i, ← load H o with
    | .slice li offi leni, .slice lo offo leno =>
      if j < leni ∧ j < leno then do
        let H ← f H (li.sub (.idx (offi + j))) (lo.sub (.idx (offo + j)))
        forElems f i o (j + 1) n H
      else .error .panic
    | _, _ => .error .panic

/-- `len(*in)` for a slice -/
def lenOf : Val → Run Nat
  | .nil => .ok 0
  | .slice _ _ n => .ok n
  | _ => .error .panic

/-- The entries of a map. -/
def entriesOf (H : Heap) : Val → Run (List (String × Val))
  | .nil => .ok []
  | .map a => do
    match ← load H ⟨a, []⟩ with
    | .entries kvs => return kvs
    | _ => .error .panic
  | _ => .error .panic

/-- `for key, val := range *in`: the entries are fixed when the loop begins (the code does not change `*in`); `val` is a variable. -/
def forEntries (f : Heap → String → Loc → Run Heap) : List (String × Val) → Heap → Run Heap
  | [], H => .ok H
  | (k, v) :: kvs, H => do
    let (H, x) := alloc H v
    let H ← f H k x
    forEntries f kvs H

mutual

/-- Run a statement. -/
def Prog.exec (into : Into) : Stmt → Heap → Loc → Loc → Run Heap
  | .assign, H, i, o => do store H o (← load H i)
  | .assignCall t, H, i, o => do
    let (H, v) ← P.callCopy W into t H i
    store H o v
  | .cloneCall t, H, i, o => do
    let (H, v) ← P.callCopy W into t H i
    match v with
    | .ptr l => store H o (← load H l)
    | _ => .error .panic
  | .makeMap _, H, _, o =>
    let (H, l) := alloc H (.entries [])
    store H o (.map l.addr)
  | .makeSlice t, H, i, o => do
    let n ← lenOf (← load H i)
    let (H, l) := alloc H (.arr (List.replicate n (P.zero (P.elem t))))
    store H o (.slice l 0 n)
  | .copyElems, H, i, o => do
    let n ← lenOf (← load H i)
    forElems (fun H i o => do store H o (← load H i)) i o 0 n H
  | .elemsInto t, H, i, o => do
    let n ← lenOf (← load H i)
    forElems (fun H i o => P.callInto into t H i o) i o 0 n H
  | .elemsBlock b, H, i, o => do
    let n ← lenOf (← load H i)
    forElems (fun H i o => do
      match ← load H i with
      | .nil => return H
      | _ => Prog.execs into b H i o) i o 0 n H
  | .entriesKeep, H, i, o => do
    let kvs ← entriesOf H (← load H i)
    forEntries (fun H k x => do putEntry H o k (← load H x)) (W.order H kvs) H
  | .entriesCall t, H, i, o => do
    let kvs ← entriesOf H (← load H i)
    forEntries (fun H k x => do
      let (H, v) ← P.callCopy W into t H x
      putEntry H o k v) (W.order H kvs) H
  | .entriesCallAddr t, H, i, o => do
    let kvs ← entriesOf H (← load H i)
    forEntries (fun H k x => do
      let (H, v) ← P.callCopy W into t H x
      let (H, y) := alloc H v
      putEntry H o k (.ptr y)) (W.order H kvs) H
  | .entriesCallDeref t, H, i, o => do
    let kvs ← entriesOf H (← load H i)
    forEntries (fun H k x => do
      let (H, v) ← P.callCopy W into t H x
      match v with
      | .ptr l => putEntry H o k (← load H l)
      | _ => .error .panic) (W.order H kvs) H
  | .entriesBlock u b, H, i, o => do
    let kvs ← entriesOf H (← load H i)
    forEntries (fun H k x => do
      let (H, outVal) := alloc H (P.zero u)
      match ← load H x with
      | .nil => do
        let H ← putEntry H o k .nil
        putEntry H o k (← load H outVal)
      | v => do
        let (H, inVal) := alloc H v
        let H ← Prog.execs into b H inVal outVal
        putEntry H o k (← load H outVal)) (W.order H kvs) H
  | .fieldBlock f b, H, i, o => do
    match ← load H (i.sub (.field f)) with
    | .nil => return H
    | _ => Prog.execs into b H (i.sub (.field f)) (o.sub (.field f))
  | .fieldCall f t, H, i, o => do
    let (H, v) ← P.callCopy W into t H (i.sub (.field f))
    store H (o.sub (.field f)) v
  | .fieldInto f t, H, i, o => P.callInto into t H (i.sub (.field f)) (o.sub (.field f))
  | .fieldKeep f, H, i, o => do store H (o.sub (.field f)) (← load H (i.sub (.field f)))
  | .ptrCall t, H, i, o => do
    let (H, v) ← P.callCopy W into (.ptr t) H i
    store H o v
  | .ptrCallAddr t, H, i, o => do
    let (H, v) ← P.callCopy W into (.ptr t) H i
    let (H, x) := alloc H v
    store H o (.ptr x)
  | .new t, H, _, o => 
    let (H, x) := alloc H (P.zero t)
    store H o (.ptr x)
  | .derefAssign, H, i, o => do
    let li ← deref H i
    let lo ← deref H o
    store H lo (← load H li)
  | .derefBlock b, H, i, o => do
    let li ← deref H i
    match ← load H li with
    | .nil => return H
    | _ => do
      let lo ← deref H o
      Prog.execs into b H li lo
  | .derefInto t, H, i, o => do
    let li ← deref H i
    let lo ← deref H o
    P.callInto into t H li lo

/-- Run statements. -/
def Prog.execs (into : Into) : List Stmt → Heap → Loc → Loc → Run Heap
  | [], H, _, _ => .ok H
  | s :: ss, H, i, o => do
    let H ← Prog.exec into s H i o
    Prog.execs into ss H i o

end

/-- `DeepCopyInto` of each type, with a bound on the number of nested calls: the code that is generated for it (`code`), or its own. -/
def Prog.run (code : String → Option (List Stmt)) : Nat → Into
  | 0, _, _, _, _ => .error .deep
  | d + 1, n, H, i, o =>
    match code n with
    | some c => P.execs W (Prog.run code d) c H i o
    | none => do
      let v ← load H i
      let (H, v) ← W.ext n H v
      store H o v

/-! ## Code that compiles -/

/-- Whether the type is written out (not a defined type). -/
def Ty.literal : Ty → Bool
  | .named _ => false
  | _ => true

/-- Whether a `t` can be assigned to a `u` (both of them the same up to names). -/
def Prog.Assignable (t u : Ty) : Prop :=
  P.unalias t = P.unalias u ∨ P.underlying t = P.underlying u ∧ ((P.unalias t).literal ∨ (P.unalias u).literal)

/-- Whether `x.DeepCopy()` compiles for an addressable `x : t`, and the result is a pointer (or not). -/
def Prog.CopyIs (t : Ty) (ptrResult : Bool) : Prop :=
  ∃ n, P.owner t = some n ∧ P.methods n = true ∧ P.recvPtr n = ptrResult

/-- Whether `x.DeepCopyInto(&y)` compiles for `x, y : t`. -/
def Prog.HasMethods (t : Ty) : Prop := ∃ n, P.unalias t = .named n ∧ P.methods n = true

mutual

/-- Whether a statement compiles, where `in` and `out` are of type `*t` (up to a name for `t`). -/
def Prog.Compiles : Stmt → Ty → Prop
  | .assign, _ => True
  | .assignCall u, _ => P.HasMethods u ∧ P.CopyIs u false
  | .cloneCall u, _ => P.HasMethods u ∧ P.CopyIs u true
  | .makeMap u, t => P.Assignable u t
  | .makeSlice u, t => P.Assignable u t
  | .copyElems, _ => True
  | .elemsInto u, _ => P.HasMethods u
  | .elemsBlock b, t =>
    match P.underlying t with
    | .slice e => Prog.CompilesAll b e
    | _ => False
  | .entriesKeep, _ => True
  | .entriesCall u, _ => P.CopyIs u (P.unalias u).isPtr
  | .entriesCallAddr u, _ => (P.unalias u).isPtr = true ∧ P.CopyIs u false
  | .entriesCallDeref u, _ => (P.unalias u).isPtr = false ∧ P.CopyIs u true
  | .entriesBlock u b, _ => Prog.CompilesAll b u
  | .fieldBlock f b, t =>
    match P.underlying t with
    | .struct fs => ∃ u, (f, u) ∈ fs ∧ Prog.CompilesAll b u
    | _ => False
  | .fieldCall _ u, _ => P.HasMethods u ∧ P.CopyIs u false
  | .fieldInto _ u, _ => P.HasMethods u
  | .fieldKeep _, _ => True
  | .ptrCall u, _ => P.HasMethods u ∧ P.CopyIs u true
  | .ptrCallAddr u, _ => P.HasMethods u ∧ P.CopyIs u false
  | .new u, t =>
    match P.underlying t with
    | .ptr e => P.unalias u = P.unalias e
    | _ => False
  | .derefAssign, _ => True
  | .derefBlock b, t =>
    match P.underlying t with
    | .ptr e => Prog.CompilesAll b e
    | _ => False
  | .derefInto u, _ => P.HasMethods u

/-- Whether statements compile. -/
def Prog.CompilesAll : List Stmt → Ty → Prop
  | [], _ => True
  | s :: ss, t => Prog.Compiles s t ∧ Prog.CompilesAll ss t

end

/-! ## Code that does not take the address of a copy in a loop over a map -/

mutual

/-- Whether there is no `x := val.DeepCopy(); (*out)[key] = &x`, which panics if `val` is nil. -/
def Stmt.noAddr : Stmt → Bool
  | .entriesCallAddr _ => false
  | .elemsBlock b => Stmt.noAddrs b
  | .entriesBlock _ b => Stmt.noAddrs b
  | .fieldBlock _ b => Stmt.noAddrs b
  | .derefBlock b => Stmt.noAddrs b
  | _ => true

/-- The same, for all of the statements. -/
def Stmt.noAddrs : List Stmt → Bool
  | [] => true
  | s :: ss => Stmt.noAddr s && Stmt.noAddrs ss

end

end Verif.DeepCopy
